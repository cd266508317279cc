/-
The exact co-occurrence expectations of the coupling-matrix model.
-/
import Verif.Lemmas.Cells
import Verif.Lemmas.MaxEnt
import Verif.Lemmas.States
import Verif.Lemmas.Boltzmann
import Mathlib.Algebra.BigOperators.Intervals

namespace Verif.Lemmas
open Verif Verif.Spec Verif.Model

variable {K : Type*}

/-- The states with at least `m` ones. -/
def statesFrom (n : ℕ) (m : ℤ) : List (List ℤ) := (words [(0 : ℤ), 1] n).filter fun x => m ≤ x.sum

theorem sum_nonneg_of_words {n : ℕ} {s : List ℤ} (hs : s ∈ words [(0 : ℤ), 1] n) : 0 ≤ s.sum := by
  apply List.sum_nonneg
  intro x hx
  have := (mem_words.1 hs).2 x hx
  simp only [List.mem_cons, List.not_mem_nil, or_false] at this
  rcases this with h | h <;> omega

theorem fightPossibilities_eq (n : ℕ) (hn : 1 ≤ n) (m : ℤ) :
    fightPossibilities n m = statesFrom n m := by
  unfold fightPossibilities statesFrom
  simp only [binRows_eq n hn]
  split
  · simp
  · rename_i h
    symm
    rw [List.filter_eq_self]
    intro s hs
    have := sum_nonneg_of_words hs
    simp only [decide_eq_true_eq]
    omega

theorem statesFrom_zero (n : ℕ) : statesFrom n 0 = words [(0 : ℤ), 1] n := by
  unfold statesFrom
  rw [List.filter_eq_self]
  intro s hs
  simpa using sum_nonneg_of_words hs

theorem statesFrom_ne_nil (n : ℕ) (m : ℤ) (hm : m ≤ n) : statesFrom n m ≠ [] := by
  apply List.ne_nil_of_mem (a := List.replicate n (1 : ℤ))
  unfold statesFrom
  rw [List.mem_filter]
  refine ⟨mem_words.2 ⟨by simp, fun x hx => by simp [List.eq_of_mem_replicate hx]⟩, ?_⟩
  simpa using hm

theorem mem_statesFrom {n : ℕ} {m : ℤ} {s : List ℤ} (hs : s ∈ statesFrom n m) :
    s ∈ words [(0 : ℤ), 1] n := (List.mem_filter.1 hs).1

/-- Energy with external field. -/
def quadExtE [CommRing K] (n : ℕ) (J : ℕ → ℕ → K) (hext : K) (x : ℕ → K) : K :=
  quadE n J x - hext * ∑ i ∈ Finset.range n, x i

theorem unsummedRow_eq [Field K] {J : Mat K} {n : ℕ} (hJ : J.HasShape n n) (hext : K) (x : ℕ → K) :
    unsummedRow J (diagonalK J 0) hext n x = -quadExtE n (fun i j => J.at' i j) hext x := by
  have hd : ∀ i < n, (diagonalK J 0).getD i 0 = J.at' i i := by
    intro i hi
    rw [diagonalK_eq hJ]
    simp [hi]
  unfold unsummedRow quadExtE quadE
  rw [sum_map_range, sum_map_range]
  simp only [sum_map_range]
  have e1 : ∑ i ∈ Finset.range n, x i * ((diagonalK J 0).getD i 0 - hext) =
      (∑ i ∈ Finset.range n, J.at' i i * x i) - hext * ∑ i ∈ Finset.range n, x i := by
    rw [Finset.mul_sum, ← Finset.sum_sub_distrib]
    refine Finset.sum_congr rfl fun i hi => ?_
    rw [hd i (Finset.mem_range.1 hi)]
    ring
  have e2 : ∑ j ∈ Finset.range n, (∑ i ∈ Finset.range n,
      x i * (J.at' i j - if i = j then (diagonalK J 0).getD i 0 else 0)) * x j =
      ∑ i ∈ Finset.range n, ∑ j ∈ Finset.range n, if i = j then 0 else J.at' i j * x i * x j := by
    rw [Finset.sum_comm]
    refine Finset.sum_congr rfl fun j hj => ?_
    rw [Finset.sum_mul]
    refine Finset.sum_congr rfl fun i hi => ?_
    by_cases h : i = j
    · subst h
      rw [hd i (Finset.mem_range.1 hi)]
      simp
    · simp only [h, if_false, sub_zero]
      ring
  rw [e1, e2]
  ring

theorem unsummedLogZ_ok [Field K] {J : Mat K} {n : ℕ} (hJ : J.HasShape n n) (hn : 1 ≤ n) (hext : K)
    (m : ℤ) (hm : m ≤ n) :
    unsummedLogZ J hext m = .ok ((statesFrom n m).map fun s =>
      -quadExtE n (fun i j => J.at' i j) hext (spins s)) := by
  unfold unsummedLogZ
  simp only [hJ.1, Mat.ncols_eq hJ hn, ne_eq, not_true, if_false, fightPossibilities_eq n hn]
  rw [if_neg (by simpa using statesFrom_ne_nil n m hm), if_neg]
  · congr 1
    apply List.map_congr_left
    intro s _
    exact unsummedRow_eq hJ hext _
  · simp only [not_not, List.all_eq_true, decide_eq_true_eq]
    intro s hs
    exact (mem_words.1 (mem_statesFrom hs)).1

theorem unsummedLogZ_empty [Field K] {J : Mat K} {n : ℕ} (hJ : J.HasShape n n) (hn : 1 ≤ n) (hext : K)
    (m : ℤ) (hm : n < m) : unsummedLogZ J hext m = .error .valueError := by
  unfold unsummedLogZ
  simp only [hJ.1, Mat.ncols_eq hJ hn, ne_eq, not_true, if_false, fightPossibilities_eq n hn]
  rw [if_pos]
  rw [List.isEmpty_iff]
  unfold statesFrom
  rw [List.filter_eq_nil_iff]
  intro s hs
  have h1 : s.sum ≤ n := by
    have := List.sum_le_card_nsmul s (1 : ℤ) (by
      intro x hx
      have := (mem_words.1 hs).2 x hx
      simp only [List.mem_cons, List.not_mem_nil, or_false] at this
      rcases this with h | h <;> omega)
    rw [(mem_words.1 hs).1] at this
    simpa using this
  simp only [decide_eq_true_eq]
  omega

theorem coocExpectations_ok {J : Mat ℝ} {n : ℕ} (hJ : J.HasShape n n) (hn : 1 ≤ n) (hext : ℝ)
    (m : ℤ) (hm : m ≤ n) (zb : Bool) :
    coocExpectations J hext zb m = .ok (Mat.build n n fun i j =>
      if zb ∧ j < i then 0 else
        expect (statesFrom n m) (fun s => quadExtE n (fun i j => J.at' i j) hext (spins s))
          fun s => spins s i * spins s j) := by
  obtain ⟨S, hS⟩ : ∃ S, S = statesFrom n m := ⟨_, rfl⟩
  obtain ⟨E, hE⟩ : ∃ E : List ℤ → ℝ, E = fun s => quadExtE n (fun i j => J.at' i j) hext (spins s) :=
    ⟨_, rfl⟩
  have hz : unsummedZ J hext m = .ok (S.map fun s => Real.exp (-E s)) := by
    rw [unsummedZ, unsummedLogZ_ok hJ hn hext m hm, ← hS, hE]
    simp [List.map_map, Function.comp_def]
  have hent : ∀ i j, (List.zipWith (fun (f : List ℤ) z => ((f.getD j 0 : ℤ) : ℝ) *
      ((f.getD i 0 : ℤ) : ℝ) * z) S (S.map fun s => Real.exp (-E s))).sum /
      (S.map fun s => Real.exp (-E s)).sum = expect S E fun s => spins s i * spins s j := by
    intro i j
    rw [expect_eq_div, List.zipWith_map_right, List.zipWith_self]
    unfold partition
    congr 2
    apply List.map_congr_left
    intro s _
    simp only [spins]
    ring
  rw [← hS, ← hE]
  unfold coocExpectations
  simp only [hJ.1, fightPossibilities_eq n hn, ← hS, hz, hent]
  cases zb with
  | false => simp
  | true =>
    simp only [if_true, true_and]
    congr 1
    apply Mat.ext' (Mat.build_shape _ _ _) (Mat.build_shape _ _ _)
    intro i hi j hj
    rw [Mat.at_build _ hi hj, Mat.at_build _ hi hj, Mat.at_build _ hi hj]
    by_cases h : i ≤ j
    · rw [if_pos h, if_neg (by omega), mul_one]
    · rw [if_neg h, if_pos (by omega), mul_zero]

theorem quadExtE_zero [CommRing K] (n : ℕ) (J : ℕ → ℕ → K) (x : ℕ → K) :
    quadExtE n J 0 x = quadE n J x := by simp [quadExtE]

theorem analyticEntropy_ok {J : Mat ℝ} {n : ℕ} (hJ : J.HasShape n n) (hn : 1 ≤ n) :
    analyticEntropy J = .ok (entropy (words [(0 : ℤ), 1] n)
      (boltzmann (words [(0 : ℤ), 1] n) fun s => quadE n (fun i j => J.at' i j) (spins s))) := by
  rw [analyticEntropy, unsummedZ, unsummedLogZ_ok hJ hn 0 0 (by omega), statesFrom_zero]
  simp only [quadExtE_zero, List.map_map, Function.comp_def]
  rfl

theorem mean_finset {α : Type*} (S : List α) (q : α → ℝ) (n : ℕ) (f : ℕ → α → ℝ) :
    mean S q (fun s => ∑ i ∈ Finset.range n, f i s) = ∑ i ∈ Finset.range n, mean S q (f i) := by
  unfold mean
  simp only [Finset.mul_sum]
  exact list_sum_finset_comm _ _ _

theorem mean_add {α : Type*} (S : List α) (q f g : α → ℝ) :
    mean S q (fun s => f s + g s) = mean S q f + mean S q g := by
  unfold mean
  rw [← list_sum_add]
  congr 1
  exact List.map_congr_left fun s _ => by ring

theorem mean_mul {α : Type*} (S : List α) (q f : α → ℝ) (c : ℝ) :
    mean S q (fun s => c * f s) = c * mean S q f := by
  unfold mean
  rw [← list_sum_mul_left]
  congr 1
  exact List.map_congr_left fun s _ => by ring

theorem bit_sq {n : ℕ} {s : List ℤ} (hs : s ∈ words [(0 : ℤ), 1] n) (i : ℕ) :
    (spins s i : ℝ) * spins s i = spins s i := by
  unfold spins
  by_cases hi : i < s.length
  · have := (mem_words.1 hs).2 _ (List.getElem_mem hi)
    rw [List.getD_eq_getElem _ _ hi]
    simp only [List.mem_cons, List.not_mem_nil, or_false] at this
    rcases this with h | h <;> simp [h]
  · rw [List.getD_eq_default _ _ (by omega)]
    simp

/-- Mean energy in terms of the co-occurrences. -/
theorem mean_quadE (n : ℕ) (J : ℕ → ℕ → ℝ) (q : List ℤ → ℝ) :
    mean (words [(0 : ℤ), 1] n) q (fun s => quadE n J (spins s)) =
      ∑ i ∈ Finset.range n, ∑ j ∈ Finset.range n,
        J i j * mean (words [(0 : ℤ), 1] n) q fun s => spins s i * spins s j := by
  unfold quadE
  rw [mean_add, mean_finset, mean_finset]
  have h1 : ∀ i, mean (words [(0 : ℤ), 1] n) q (fun s => J i i * spins s i) =
      J i i * mean (words [(0 : ℤ), 1] n) q (fun s => spins s i * spins s i) := by
    intro i
    rw [← mean_mul]
    unfold mean
    congr 1
    refine List.map_congr_left fun s hs => ?_
    beta_reduce
    rw [bit_sq hs]
  have h2 : ∀ i, mean (words [(0 : ℤ), 1] n) q
      (fun s => ∑ j ∈ Finset.range n, if i = j then 0 else J i j * spins s i * spins s j) =
      ∑ j ∈ Finset.range n, if i = j then 0 else
        J i j * mean (words [(0 : ℤ), 1] n) q (fun s => spins s i * spins s j) := by
    intro i
    rw [mean_finset]
    refine Finset.sum_congr rfl fun j _ => ?_
    by_cases h : i = j
    · simp [h, mean]
    · simp only [h, if_false]
      rw [← mean_mul]
      unfold mean
      congr 1
      exact List.map_congr_left fun s _ => by ring
  simp only [h1, h2]
  rw [← Finset.sum_add_distrib]
  refine Finset.sum_congr rfl fun i hi => ?_
  have : ∀ j ∈ Finset.range n, J i j * mean (words [(0 : ℤ), 1] n) q (fun s => spins s i * spins s j) =
      (if i = j then J i i * mean (words [(0 : ℤ), 1] n) q (fun s => spins s i * spins s i) else 0) +
      if i = j then 0 else J i j * mean (words [(0 : ℤ), 1] n) q (fun s => spins s i * spins s j) := by
    intro j _
    by_cases h : i = j
    · subst h; simp
    · simp [h]
  rw [Finset.sum_congr rfl this, Finset.sum_add_distrib]
  congr 1
  rw [Finset.sum_ite_eq, if_pos hi]

theorem quadE_congr [CommRing K] (n : ℕ) (J J' : ℕ → ℕ → K) (x y : ℕ → K)
    (hJ : ∀ i < n, ∀ j < n, J i j = J' i j) (hxy : ∀ i < n, x i = y i) : quadE n J x = quadE n J' y := by
  unfold quadE
  congr 1
  · refine Finset.sum_congr rfl fun i hi => ?_
    have := Finset.mem_range.1 hi
    rw [hJ i this i this, hxy i this]
  · refine Finset.sum_congr rfl fun i hi => Finset.sum_congr rfl fun j hj => ?_
    have h1 := Finset.mem_range.1 hi
    have h2 := Finset.mem_range.1 hj
    rw [hJ i h1 j h2, hxy i h1, hxy j h2]

theorem quadE_zero [CommRing K] (n : ℕ) (J : ℕ → ℕ → K) : quadE n J (fun _ => 0) = 0 := by
  simp [quadE]

theorem quadE_one [CommRing K] (n : ℕ) (J : ℕ → ℕ → K) (i : ℕ) (hi : i < n) :
    quadE n J (fun k => if k = i then 1 else 0) = J i i := by
  unfold quadE
  have : ∀ a ∈ Finset.range n, (∑ b ∈ Finset.range n, if a = b then 0 else
      J a b * (if a = i then 1 else 0) * (if b = i then 1 else 0)) = 0 := by
    intro a _
    apply Finset.sum_eq_zero
    intro b _
    by_cases h1 : a = i
    · by_cases h2 : b = i
      · simp [h1, h2]
      · simp [h2]
    · simp [h1]
  rw [Finset.sum_eq_zero this]
  simp [hi]

theorem quadE_two [CommRing K] (n : ℕ) (J : ℕ → ℕ → K) (i j : ℕ) (hi : i < n) (hj : j < n)
    (hij : i ≠ j) :
    quadE n J (fun k => if k = i ∨ k = j then 1 else 0) = J i i + J j j + (J i j + J j i) := by
  have hx : ∀ k, (if k = i ∨ k = j then (1 : K) else 0) =
      (if k = i then 1 else 0) + (if k = j then 1 else 0) := by
    intro k
    by_cases h1 : k = i
    · have : k ≠ j := fun h => hij (h1.symm.trans h)
      simp [h1, hij]
    · simp [h1]
  obtain ⟨M, hM⟩ : ∃ M : ℕ → ℕ → K, M = fun a b => if a = b then 0 else J a b := ⟨_, rfl⟩
  have hterm : ∀ a b, (if a = b then 0 else J a b *
      ((if a = i then 1 else 0) + (if a = j then 1 else 0)) *
      ((if b = i then 1 else 0) + (if b = j then 1 else 0))) =
      (M a b * (if a = i then 1 else 0) * (if b = i then 1 else 0) +
       M a b * (if a = i then 1 else 0) * (if b = j then 1 else 0)) +
      (M a b * (if a = j then 1 else 0) * (if b = i then 1 else 0) +
       M a b * (if a = j then 1 else 0) * (if b = j then 1 else 0)) := by
    intro a b
    rw [hM]
    by_cases h : a = b
    · simp [h]
    · simp only [h, if_false]; ring
  have hsum : ∀ p q, p < n → q < n → ∑ a ∈ Finset.range n, ∑ b ∈ Finset.range n,
      M a b * (if a = p then 1 else 0) * (if b = q then 1 else 0) = M p q := by
    intro p q hp hq
    rw [Finset.sum_eq_single p, Finset.sum_eq_single q]
    · simp
    · intro b _ hb; simp [hb]
    · intro h; exact absurd (Finset.mem_range.2 hq) h
    · intro a _ ha
      apply Finset.sum_eq_zero
      intro b _; simp [ha]
    · intro h; exact absurd (Finset.mem_range.2 hp) h
  unfold quadE
  simp only [hx, hterm, Finset.sum_add_distrib]
  simp only [mul_add, Finset.sum_add_distrib]
  rw [hsum i i hi hi, hsum i j hi hj, hsum j i hj hi, hsum j j hj hj]
  have h1 : ∀ p, p < n → ∑ k ∈ Finset.range n, J k k * (if k = p then 1 else 0) = J p p := by
    intro p hp
    simp [hp]
  rw [h1 i hi, h1 j hj, hM]
  simp [hij, hij.symm]

theorem quad_identify (n : ℕ) (J J' : ℕ → ℕ → ℝ) (c : ℝ)
    (h : ∀ s ∈ words [(0 : ℤ), 1] n, quadE n J (spins s) = quadE n J' (spins s) + c) :
    (∀ i < n, J i i = J' i i) ∧ ∀ i < n, ∀ j < n, i ≠ j → J i j + J j i = J' i j + J' j i := by
  have hs : ∀ P : ℕ → Prop, ∀ [DecidablePred P],
      quadE n J (fun k => if P k then (1 : ℝ) else 0) =
        quadE n J' (fun k => if P k then (1 : ℝ) else 0) + c := by
    intro P _
    have hmem : (List.range n).map (fun k => if P k then (1 : ℤ) else 0) ∈ words [(0 : ℤ), 1] n := by
      refine mem_words.2 ⟨by simp, ?_⟩
      intro x hx
      obtain ⟨k, _, rfl⟩ := List.mem_map.1 hx
      split <;> simp
    have hx : ∀ k < n, (spins ((List.range n).map fun k => if P k then (1 : ℤ) else 0) k : ℝ) =
        if P k then 1 else 0 := by
      intro k hk
      unfold spins
      rw [List.getD_eq_getElem _ _ (by simpa using hk)]
      simp only [List.getElem_map, List.getElem_range]
      split <;> simp
    have := h _ hmem
    rwa [quadE_congr n J J _ _ (fun _ _ _ _ => rfl) hx, quadE_congr n J' J' _ _ (fun _ _ _ _ => rfl) hx] at this
  have h0 := hs (fun _ => False)
  simp only [if_false, quadE_zero] at h0
  have hc : c = 0 := by linarith
  have h1 : ∀ i < n, J i i = J' i i := by
    intro i hi
    have := hs (fun k => k = i)
    rw [quadE_one n J i hi, quadE_one n J' i hi, hc] at this
    linarith
  refine ⟨h1, fun i hi j hj hij => ?_⟩
  have := hs (fun k => k = i ∨ k = j)
  rw [quadE_two n J i j hi hj hij, quadE_two n J' i j hi hj hij, hc, h1 i hi, h1 j hj] at this
  linarith

/-- Two coupling matrices with the same co-occurrences have the same distribution. -/
theorem cooc_unique (n : ℕ) (J J' : ℕ → ℕ → ℝ)
    (h : ∀ i < n, ∀ j < n, i ≤ j →
      expect (words [(0 : ℤ), 1] n) (fun s => quadE n J (spins s)) (fun s => spins s i * spins s j) =
      expect (words [(0 : ℤ), 1] n) (fun s => quadE n J' (spins s)) (fun s => spins s i * spins s j)) :
    (∀ i < n, J i i = J' i i) ∧ ∀ i < n, ∀ j < n, i ≠ j → J i j + J j i = J' i j + J' j i := by
  obtain ⟨S, hS⟩ : ∃ S, S = words [(0 : ℤ), 1] n := ⟨_, rfl⟩
  have hne : S ≠ [] := by
    rw [hS, ← statesFrom_zero]
    exact statesFrom_ne_nil n 0 (by omega)
  have hall : ∀ i < n, ∀ j < n,
      mean S (boltzmann S fun s => quadE n J (spins s)) (fun s => spins s i * spins s j) =
      mean S (boltzmann S fun s => quadE n J' (spins s)) (fun s => spins s i * spins s j) := by
    intro i hi j hj
    rcases Nat.le_total i j with hij | hij
    · have := h i hi j hj hij
      rw [← hS] at this
      exact this
    · have := h j hj i hi hij
      rw [← hS] at this
      have e : ∀ q : List ℤ → ℝ, mean S q (fun s => spins s i * spins s j) =
          mean S q (fun s => spins s j * spins s i) := by
        intro q
        unfold mean
        congr 1
        exact List.map_congr_left fun s _ => by ring
      rw [e, e]
      exact this
  obtain ⟨_, c, hc⟩ := boltzmann_unique S (fun s => quadE n J (spins s))
    (fun s => quadE n J' (spins s)) hne (by
      rw [expect_eq_mean, expect_eq_mean, mean_sub, mean_sub, hS]
      rw [mean_quadE, mean_quadE, mean_quadE, mean_quadE, ← hS]
      congr 1
      · refine Finset.sum_congr rfl fun i hi => Finset.sum_congr rfl fun j hj => ?_
        rw [hall i (Finset.mem_range.1 hi) j (Finset.mem_range.1 hj)]
      · refine Finset.sum_congr rfl fun i hi => Finset.sum_congr rfl fun j hj => ?_
        rw [hall i (Finset.mem_range.1 hi) j (Finset.mem_range.1 hj)])
  rw [hS] at hc
  exact quad_identify n J J' c hc

end Verif.Lemmas
