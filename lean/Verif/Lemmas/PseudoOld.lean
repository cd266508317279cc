/-
Lemmas about the deprecated pseudolikelihood.
-/
import Verif.Model.PseudoOld
import Verif.Lemmas.CondOn
import Verif.Lemmas.Cond
import Mathlib.Algebra.BigOperators.Ring.Finset

namespace Verif.Lemmas
open Verif Verif.Model Verif.Spec Finset

/-- A row of integers as numbers. -/
def castRow (s : List ℤ) : List ℝ := s.map fun x : ℤ => (x : ℝ)

theorem rd_castRow (s : List ℤ) (i : ℕ) : rd (castRow s) i = ((s.getD i 0 : ℤ) : ℝ) := by
  unfold rd castRow
  rw [List.getD_eq_getElem?_getD, List.getD_eq_getElem?_getD, List.getElem?_map]
  rcases s[i]? with _ | x <;> simp

theorem sum_castRow (s : List ℤ) : (castRow s).sum = ((s.sum : ℤ) : ℝ) := by
  unfold castRow
  induction s with
  | nil => simp
  | cons a s ih => rw [List.map_cons, List.sum_cons, List.sum_cons, ih]; push_cast; rfl

/-- Twice the local field in the convention of the functions. -/
def oldLocal (n r : ℕ) (a x : ℕ → ℝ) : ℝ := ∑ i ∈ range n, a i * (if i = r then 1 else 2 * x i)

theorem zipWith_sum (n : ℕ) (a b : List ℝ) (ha : a.length = n) (hb : b.length = n) :
    (List.zipWith (· * ·) a b).sum = ∑ i ∈ range n, a.getD i 0 * b.getD i 0 := by
  rw [← sum_map_range]
  congr 1
  apply List.ext_getElem
  · simp [ha, hb]
  · intro i h1 h2
    simp at h1
    simp [show i < a.length by omega, show i < b.length by omega]

theorem rd_oldRhat (r i : ℕ) (row : List ℝ) (hi : i < row.length) :
    rd (oldRhat r row) i = if i = r then 1 else 2 * rd row i := by
  unfold rd oldRhat
  rw [List.getD_eq_getElem _ _ (by simpa using hi), List.getElem_set, List.getD_eq_getElem _ _ hi]
  by_cases h : i = r
  · subst h; simp
  · rw [if_neg (Ne.symm h), if_neg h, List.getElem_map]

theorem oldEnergy_eq {n r : ℕ} (Jr row : List ℝ) (hJ : Jr.length = n) (hrow : row.length = n) :
    oldEnergy r Jr row = oldSigma r row * oldLocal n r (fun i => Jr.getD i 0) (rd row) := by
  unfold oldEnergy oldLocal
  rw [zipWith_sum n _ _ hJ (by simp [oldRhat, hrow])]
  congr 1
  apply Finset.sum_congr rfl
  intro i hi
  have := rd_oldRhat r i row (by rw [hrow]; exact Finset.mem_range.1 hi)
  unfold rd at this
  rw [this]

theorem getD_set_eq (s : List ℤ) (r i : ℕ) (v : ℤ) (hr : r < s.length) :
    (s.set r v).getD i 0 = if i = r then v else s.getD i 0 := by
  by_cases h : i = r
  · subst h; simp [hr]
  · simp [h, List.getElem?_set_ne (Ne.symm h)]

/-- The energy as a function of one spin. -/
theorem matE_split {n r : ℕ} (hr : r < n) (J : ℕ → ℕ → ℝ) (hsym : ∀ i < n, ∀ j < n, J i j = J j i)
    (s : List ℤ) (hs : s.length = n) (v : ℤ) :
    matE n J (s.set r v) = v * oldLocal n r (J r) (fun i => ((s.getD i 0 : ℤ) : ℝ)) +
      ∑ i ∈ (range n).erase r, ∑ j ∈ (range n).erase r,
        J i j * ((s.getD i 0 : ℤ) : ℝ) * (if i = j then 1 else ((s.getD j 0 : ℤ) : ℝ)) := by
  have hm : r ∈ range n := Finset.mem_range.2 hr
  unfold matE oldLocal
  rw [← Finset.add_sum_erase _ _ hm, ← Finset.add_sum_erase _ _ hm, ← Finset.add_sum_erase _ _ hm]
  have hg : ∀ i, (s.set r v).getD i 0 = if i = r then v else s.getD i 0 := fun i =>
    getD_set_eq s r i v (by omega)
  simp only [hg, if_true, mul_one]
  have e1 : ∀ i ∈ (range n).erase r, (∑ j ∈ range n, J i j * (((if i = r then v else s.getD i 0 : ℤ)) : ℝ) *
      (if i = j then 1 else (((if j = r then v else s.getD j 0 : ℤ)) : ℝ))) =
      J r i * v * ((s.getD i 0 : ℤ) : ℝ) + ∑ j ∈ (range n).erase r,
        J i j * ((s.getD i 0 : ℤ) : ℝ) * (if i = j then 1 else ((s.getD j 0 : ℤ) : ℝ)) := by
    intro i hi
    obtain ⟨hir, hin⟩ := Finset.mem_erase.1 hi
    rw [← Finset.add_sum_erase _ _ hm]
    congr 1
    · rw [if_neg hir, if_neg hir, if_pos rfl, hsym i (Finset.mem_range.1 hin) r hr]
      ring
    · apply Finset.sum_congr rfl
      intro j hj
      obtain ⟨hjr, _⟩ := Finset.mem_erase.1 hj
      rw [if_neg hir, if_neg hjr]
  have e2 : ∀ j ∈ (range n).erase r, J r j * (v : ℝ) * (if r = j then 1 else
      (((if j = r then v else s.getD j 0 : ℤ)) : ℝ)) = J r j * v * ((s.getD j 0 : ℤ) : ℝ) := by
    intro j hj
    obtain ⟨hjr, _⟩ := Finset.mem_erase.1 hj
    rw [if_neg (Ne.symm hjr), if_neg hjr]
  have e3 : ∀ j ∈ (range n).erase r, J r j * (if j = r then 1 else 2 * ((s.getD j 0 : ℤ) : ℝ)) =
      J r j * (2 * ((s.getD j 0 : ℤ) : ℝ)) := by
    intro j hj
    rw [if_neg (Finset.mem_erase.1 hj).1]
  rw [Finset.sum_congr rfl e1, Finset.sum_congr rfl e2, Finset.sum_congr rfl e3, Finset.sum_add_distrib,
    mul_add, Finset.mul_sum]
  have e4 : ∑ i ∈ (range n).erase r, (v : ℝ) * (J r i * (2 * ((s.getD i 0 : ℤ) : ℝ))) =
      ∑ i ∈ (range n).erase r, J r i * v * ((s.getD i 0 : ℤ) : ℝ) +
        ∑ i ∈ (range n).erase r, J r i * v * ((s.getD i 0 : ℤ) : ℝ) := by
    rw [← Finset.sum_add_distrib]
    apply Finset.sum_congr rfl
    intro i _
    ring
  rw [e4]
  ring

theorem eraseIdx_iff {n r : ℕ} (s t : List ℤ) (hs : s.length = n) (ht : t.length = n) :
    t.eraseIdx r = s.eraseIdx r ↔ t = s.set r (t.getD r 0) := by
  constructor
  · intro h
    apply List.ext_getElem (by simp [hs, ht])
    intro i h1 h2
    rw [List.getElem_set]
    by_cases hi : r = i
    · subst hi
      rw [if_pos rfl, List.getD_eq_getElem _ _ h1]
    · rw [if_neg hi]
      rcases lt_or_gt_of_ne hi with hlt | hgt
      · have := congrArg (fun l => l[i - 1]?) h
        simp only [List.getElem?_eraseIdx] at this
        rw [if_neg (by omega), if_neg (by omega), show i - 1 + 1 = i by omega] at this
        rw [List.getElem?_eq_getElem h1, List.getElem?_eq_getElem (by omega)] at this
        exact Option.some.inj this
      · have := congrArg (fun l => l[i]?) h
        simp only [List.getElem?_eraseIdx] at this
        rw [if_pos (by omega), if_pos (by omega)] at this
        rw [List.getElem?_eq_getElem h1, List.getElem?_eq_getElem (by omega)] at this
        exact Option.some.inj this
  · intro h
    rw [h]
    exact List.eraseIdx_set_eq ..

theorem sum_set_eq (s : List ℤ) (r : ℕ) (v : ℤ) (hr : r < s.length) :
    (s.set r v).sum = s.sum - s.getD r 0 + v := by
  rw [List.sum_set', dif_pos hr, List.getD_eq_getElem _ _ hr]
  ring

theorem mem_bigStates {n : ℕ} {m : ℤ} {s : List ℤ} : s ∈ bigStates n m ↔
    s ∈ words [0, 1] n ∧ m ≤ s.sum := by
  unfold bigStates
  simp [List.mem_filter]

theorem nodup_bigStates (n : ℕ) (m : ℤ) : (bigStates n m).Nodup :=
  (nodup_words (by decide) n).filter _

/-- The sum over the states that agree with `s` except at `r`. -/
theorem ctx_sum_big {n r : ℕ} (hr : r < n) (m : ℤ) (s : List ℤ) (hs : s ∈ bigStates n m) (f : List ℤ → ℝ) :
    (((bigStates n m).filter fun t => t.eraseIdx r = s.eraseIdx r).map f).sum =
      (if m ≤ (s.set r 0).sum then f (s.set r 0) else 0) +
        (if m ≤ (s.set r 1).sum then f (s.set r 1) else 0) := by
  have hw := (mem_bigStates.1 hs).1
  have hl := (mem_words.1 hw).1
  have hne : s.set r 0 ≠ s.set r 1 := by
    intro h
    have := congrArg (fun l => l.getD r 0) h
    simp only [getD_set_eq s r r _ (by omega), if_true] at this
    omega
  have hp : ((bigStates n m).filter fun t => t.eraseIdx r = s.eraseIdx r).Perm
      ([s.set r 0, s.set r 1].filter fun t => m ≤ t.sum) := by
    refine (List.perm_ext_iff_of_nodup ((nodup_bigStates n m).filter _) (List.Nodup.filter _ (by simp [hne]))).2 ?_
    intro t
    rw [List.mem_filter, List.mem_filter, mem_bigStates]
    simp only [decide_eq_true_eq, List.mem_cons, List.not_mem_nil, or_false]
    constructor
    · rintro ⟨⟨htw, htm⟩, he⟩
      refine ⟨?_, htm⟩
      have ht := (eraseIdx_iff s t hl (mem_words.1 htw).1).1 he
      have hv := getD_mem_of_words hr htw
      simp only [List.mem_cons, List.not_mem_nil, or_false] at hv
      rcases hv with h | h
      · left; rw [h] at ht; exact ht
      · right; rw [h] at ht; exact ht
    · rintro ⟨h | h, hm⟩
      · subst h
        exact ⟨⟨set_mem_words hw (by simp), hm⟩, List.eraseIdx_set_eq ..⟩
      · subst h
        exact ⟨⟨set_mem_words hw (by simp), hm⟩, List.eraseIdx_set_eq ..⟩
  rw [(hp.map f).sum_eq, sum_filter]
  simp

/-- The contribution of one sample is the logarithm of the conditional probability. -/
theorem log_condOn {n r : ℕ} (hr : r < n) (m : ℤ) (J : ℕ → ℕ → ℝ)
    (hsym : ∀ i < n, ∀ j < n, J i j = J j i) (Jr : List ℝ) (hJr : Jr.length = n)
    (hrow : ∀ i < n, Jr.getD i 0 = J r i) (s : List ℤ) (hs : s ∈ bigStates n m) :
    Real.log (condOn (bigStates n m) (matE n J) r s) =
      -oldFilter r m (castRow s) * Real.log (1 + Real.exp (oldEnergy r Jr (castRow s))) := by
  obtain ⟨hw, hm⟩ := mem_bigStates.1 hs
  have hl := (mem_words.1 hw).1
  have hv := getD_mem_of_words hr hw
  obtain ⟨L, hL⟩ : ∃ L, L = oldLocal n r (J r) (fun i => ((s.getD i 0 : ℤ) : ℝ)) := ⟨_, rfl⟩
  have hE : oldEnergy r Jr (castRow s) = oldSigma r (castRow s) * L := by
    rw [oldEnergy_eq Jr _ hJr (by simp [castRow, hl]), hL]
    congr 1
    unfold oldLocal
    apply Finset.sum_congr rfl
    intro i hi
    beta_reduce
    rw [hrow i (Finset.mem_range.1 hi), rd_castRow]
  obtain ⟨R, hR⟩ : ∃ R, ∀ v : ℤ, matE n J (s.set r v) = v * L + R :=
    ⟨_, fun v => hL ▸ matE_split hr J hsym s hl v⟩
  have hself : s.set r (s.getD r 0) = s := set_getD_self s r 0
  unfold condOn
  rw [ctx_sum_big hr m s hs, hE, hR, hR]
  unfold oldSigma oldFilter
  rw [rd_castRow, sum_castRow]
  have h0 := sum_set_eq s r 0 (by omega)
  have h1 := sum_set_eq s r 1 (by omega)
  simp only [List.mem_cons, List.not_mem_nil, or_false] at hv
  rcases hv with h | h
  · -- the spin is 0
    rw [h] at hself h0 h1
    have hEs : matE n J s = R := by rw [← hself, hR]; simp
    rw [hEs, h, if_pos (by omega), if_pos (by omega)]
    have e : Real.exp (-R) / (Real.exp (-(((0 : ℤ) : ℝ) * L + R)) + Real.exp (-(((1 : ℤ) : ℝ) * L + R))) =
        (1 + Real.exp ((2 * ((0 : ℤ) : ℝ) - 1) * L))⁻¹ := by
      have e2 : Real.exp (-(((1 : ℤ) : ℝ) * L + R)) = Real.exp (-R) * Real.exp (-L) := by
        rw [← Real.exp_add]; congr 1; push_cast; ring
      have e1 : Real.exp (-(((0 : ℤ) : ℝ) * L + R)) = Real.exp (-R) := by
        congr 1; push_cast; ring
      have e3 : (2 * ((0 : ℤ) : ℝ) - 1) * L = -L := by push_cast; ring
      rw [e1, e2, e3, ← mul_one_add, div_mul_eq_div_div, div_self (Real.exp_pos _).ne', one_div]
    rw [e, Real.log_inv]
    simp
  · rw [h] at hself h0 h1
    have hEs : matE n J s = L + R := by rw [← hself, hR]; simp
    rw [hEs, h, if_pos (show m ≤ (s.set r 1).sum by omega)]
    by_cases hbig : m ≤ (s.set r 0).sum
    · have hnot : ¬ ((s.sum : ℝ) ≤ (m : ℝ)) := by
        rw [not_le]
        exact_mod_cast (by omega : m < s.sum)
      rw [if_pos hbig, if_neg hnot]
      have e : Real.exp (-(L + R)) / (Real.exp (-(((0 : ℤ) : ℝ) * L + R)) + Real.exp (-(((1 : ℤ) : ℝ) * L + R))) =
          (1 + Real.exp ((2 * ((1 : ℤ) : ℝ) - 1) * L))⁻¹ := by
        have e2 : Real.exp (-(((1 : ℤ) : ℝ) * L + R)) = Real.exp (-(L + R)) := by
          congr 1; push_cast; ring
        have e1 : Real.exp (-(((0 : ℤ) : ℝ) * L + R)) = Real.exp (-(L + R)) * Real.exp L := by
          rw [← Real.exp_add]; congr 1; push_cast; ring
        have e3 : (2 * ((1 : ℤ) : ℝ) - 1) * L = L := by push_cast; ring
        rw [e1, e2, e3, add_comm (Real.exp (-(L + R)) * Real.exp L), ← mul_one_add, div_mul_eq_div_div, div_self (Real.exp_pos _).ne', one_div]
      rw [e, Real.log_inv]
      simp
    · have hle : ((s.sum : ℝ) ≤ (m : ℝ)) := by exact_mod_cast (by omega : s.sum ≤ m)
      rw [if_neg hbig, if_pos hle]
      have e2 : Real.exp (-(((1 : ℤ) : ℝ) * L + R)) = Real.exp (-(L + R)) := by
        congr 1; push_cast; ring
      rw [e2, zero_add, div_self (Real.exp_pos _).ne']
      simp

theorem oldCheck_ok {n r : ℕ} (hr : r < n) (X : List (List ℝ)) (hne : X ≠ []) (hX : ∀ row ∈ X, row.length = n)
    (Jr : List ℝ) (hJ : Jr.length = n) : oldCheck r X Jr = .ok () ∧ (X.getD 0 []).length = n := by
  have h0 : (X.getD 0 []).length = n := by
    rcases X with _ | ⟨a, l⟩
    · exact absurd rfl hne
    · exact hX a (by simp)
  refine ⟨?_, h0⟩
  unfold oldCheck
  rw [if_neg (by rw [h0]; rintro (h | h); exact hne h; omega), if_neg (by rw [h0, hJ]; simp)]

end Verif.Lemmas
