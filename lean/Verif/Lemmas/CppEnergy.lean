import Verif.Model.CppSampler
import Verif.Lemmas.IsingUpdate
import Verif.Lemmas.PottsHelpers
import Verif.Lemmas.Matrix
import Verif.Lemmas.EnumerateWrap

namespace Verif.Lemmas
open Verif Verif.Model Verif.Spec

variable {K : Type*}

/-! ### The coupling matrix -/

theorem setEntry_shape [Ring K] {M : Mat K} {r c : ℕ} (hM : M.HasShape r c) (i j : ℕ) (v : K) :
    (setEntry M i j v).HasShape r c := by
  unfold setEntry
  by_cases hi : i < M.length
  · refine ⟨by simp [hM.1], fun row hrow => ?_⟩
    rcases List.mem_or_eq_of_mem_set hrow with h | h
    · exact hM.2 row h
    · rw [h, List.length_set, List.getD_eq_getElem _ _ hi]
      exact hM.2 _ (List.getElem_mem hi)
  · rw [List.set_eq_of_length_le (by omega)]; exact hM

theorem at_setEntry [Ring K] {M : Mat K} {r c : ℕ} (hM : M.HasShape r c) (i j : ℕ) (v : K) (a b : ℕ)
    (ha : a < r) (hb : b < c) :
    (setEntry M i j v).at' a b = if a = i ∧ b = j then v else M.at' a b := by
  unfold setEntry Mat.at'
  have hrow : (M.getD a []).length = c := by
    rw [List.getD_eq_getElem _ _ (by rw [hM.1]; exact ha)]
    exact hM.2 _ (List.getElem_mem _)
  by_cases hai : a = i
  · subst hai
    have : (M.set a ((M.getD a []).set j v)).getD a [] = (M.getD a []).set j v := by
      rw [List.getD_eq_getElem _ _ (by rw [List.length_set, hM.1]; exact ha), List.getElem_set_self]
    rw [this]
    by_cases hbj : b = j
    · subst hbj
      rw [List.getD_eq_getElem _ _ (by rw [List.length_set, hrow]; exact hb), List.getElem_set_self]
      simp
    · rw [if_neg (by simp [hbj]), List.getD_eq_getElem?_getD, List.getElem?_set_ne (Ne.symm hbj),
        ← List.getD_eq_getElem?_getD]
  · rw [if_neg (by simp [hai])]
    congr 1
    rw [List.getD_eq_getElem?_getD, List.getElem?_set_ne (Ne.symm hai), ← List.getD_eq_getElem?_getD]

theorem couplingMat_fold [Ring K] (n off : ℕ) (m : List K) (L : List (ℕ × ℕ)) (hL : L.Nodup)
    (hlt : ∀ p ∈ L, p.1 < p.2 ∧ p.2 < n) : ∀ (M : Mat K) (c : ℕ), M.HasShape n n →
    ∀ a b, a < n → b < n →
    (L.foldl (fun (st : Mat K × ℕ) p =>
      (setEntry (setEntry st.1 p.2 p.1 (m.getD (st.2 + off) 0)) p.1 p.2 (m.getD (st.2 + off) 0), st.2 + 1))
      (M, c)).1.at' a b =
      if (min a b, max a b) ∈ L then m.getD (c + L.idxOf (min a b, max a b) + off) 0 else M.at' a b := by
  induction L with
  | nil => intro M c hM a b ha hb; simp
  | cons p L ih =>
    intro M c hM a b ha hb
    obtain ⟨hp, hL⟩ := List.nodup_cons.1 hL
    rw [List.foldl_cons, ih hL (fun q hq => hlt q (by simp [hq])) _ _
      (setEntry_shape (setEntry_shape hM _ _ _) _ _ _) a b ha hb,
      at_setEntry (setEntry_shape hM _ _ _) _ _ _ a b ha hb, at_setEntry hM _ _ _ a b ha hb]
    have hp12 := hlt p (by simp)
    by_cases hab : p = (min a b, max a b)
    · have h1 : (a = p.1 ∧ b = p.2) ∨ (a = p.2 ∧ b = p.1) := by rw [hab]; dsimp only; omega
      rw [← hab, if_neg hp, if_pos (show p ∈ p :: L by simp), List.idxOf_cons_self]
      rcases h1 with h1 | h1
      · rw [if_pos h1]; simp
      · rw [if_pos h1]; simp
    · have h1 : ¬ (a = p.1 ∧ b = p.2) := fun h => hab (by
        rw [h.1, h.2, min_eq_left hp12.1.le, max_eq_right hp12.1.le])
      have h2 : ¬ (a = p.2 ∧ b = p.1) := fun h => hab (by
        rw [h.1, h.2, min_eq_right hp12.1.le, max_eq_left hp12.1.le])
      rw [if_neg h1, if_neg h2, List.idxOf_cons_ne _ hab]
      by_cases hm : (min a b, max a b) ∈ L
      · rw [if_pos hm, if_pos (by simp [hm])]
        congr 1
        omega
      · rw [if_neg hm, if_neg (by simp [hm, Ne.symm hab])]

theorem getD_drop' (m : List K) (off k : ℕ) (d : K) : (m.drop off).getD k d = m.getD (off + k) d := by
  simp [List.getD_eq_getElem?_getD]

theorem cppCouplingMat_at [CommRing K] (n off : ℕ) (m : List K) (a b : ℕ) (ha : a < n) (hb : b < n) :
    (cppCouplingMat n off m).at' a b = if a = b then 0 else couplingOf n (m.drop off) a b := by
  unfold cppCouplingMat
  have hz : Mat.HasShape (List.replicate n (List.replicate n (0 : K))) n n :=
    ⟨by simp, fun row h => by rw [List.eq_of_mem_replicate h]; simp⟩
  rw [loopPairs_eq_upperPairs, couplingMat_fold n off m _ (nodup_upperPairs n)
    (fun p hp => mem_upperPairs.1 hp) _ 0 hz a b ha hb]
  by_cases hab : a = b
  · rw [if_pos hab, if_neg (by rw [mem_upperPairs]; omega)]
    simp [Mat.at', ha, hb]
  · rw [if_neg hab, if_pos (mem_upperPairs.2 (by omega)), couplingOf, couplingAt, getD_drop']
    congr 1
    omega

/-! ### Sums with a running counter -/

/-- `G c L₀ + G (c+1) L₁ + ...` -/
def csum {α : Type*} [AddCommMonoid K] (G : ℕ → α → K) : ℕ → List α → K
  | _, [] => 0
  | c, p :: L => G c p + csum G (c + 1) L

theorem csum_append {α : Type*} [AddCommMonoid K] (G : ℕ → α → K) (L L' : List α) : ∀ c,
    csum G c (L ++ L') = csum G c L + csum G (c + L.length) L' := by
  induction L with
  | nil => intro c; simp [csum]
  | cons p L ih =>
    intro c
    rw [List.cons_append, csum, ih, csum, List.length_cons,
      show c + 1 + L.length = c + (L.length + 1) by omega, add_assoc]

theorem csum_map {α β : Type*} [AddCommMonoid K] (G : ℕ → β → K) (f : α → β) (L : List α) : ∀ c,
    csum G c (L.map f) = csum (fun k a => G k (f a)) c L := by
  induction L with
  | nil => intro c; rfl
  | cons p L ih => intro c; rw [List.map_cons, csum, csum, ih]

theorem csum_eq {α : Type*} [BEq α] [LawfulBEq α] [AddCommMonoid K] (G : ℕ → α → K) (L : List α) (hL : L.Nodup) :
    ∀ c, csum G c L = (L.map fun p => G (c + L.idxOf p) p).sum := by
  induction L with
  | nil => intro c; rfl
  | cons p L ih =>
    intro c
    obtain ⟨hp, hL⟩ := List.nodup_cons.1 hL
    rw [csum, ih hL, List.map_cons, List.sum_cons, List.idxOf_cons_self, add_zero]
    congr 2
    refine List.map_congr_left fun q hq => ?_
    rw [List.idxOf_cons_ne _ (fun h : p = q => hp (by rw [h]; exact hq))]
    congr 1
    omega

theorem foldl_csub {α : Type*} [AddCommGroup K] (G : ℕ → α → K) (L : List α) : ∀ (e : K) (c : ℕ),
    L.foldl (fun (st : K × ℕ) j => (st.1 - G st.2 j, st.2 + 1)) (e, c) = (e - csum G c L, c + L.length) := by
  induction L with
  | nil => intro e c; simp [csum]
  | cons p L ih =>
    intro e c
    rw [List.foldl_cons, ih, csum, List.length_cons]
    ext
    · dsimp only; abel
    · dsimp only; omega

/-- The double loop with a field term for each row and a coupling term for each pair. -/
theorem double_loop [AddCommGroup K] (n : ℕ) (A : ℕ → K) (G : ℕ → ℕ × ℕ → K) (I : List ℕ) : ∀ (e : K) (c : ℕ),
    I.foldl (fun (st : K × ℕ) i => (pyRange (i + 1) n).foldl (fun (st : K × ℕ) j =>
        (st.1 - G st.2 (i, j), st.2 + 1)) (st.1 - A i, st.2)) (e, c) =
      (e - (I.map A).sum - csum G c (I.flatMap fun i => (pyRange (i + 1) n).map fun j => (i, j)),
        c + (I.flatMap fun i => (pyRange (i + 1) n).map fun j => (i, j)).length) := by
  induction I with
  | nil => intro e c; simp [csum]
  | cons i I ih =>
    intro e c
    rw [List.foldl_cons, foldl_csub (fun k j => G k (i, j)), ih, List.flatMap_cons, csum_append, csum_map,
      List.map_cons, List.sum_cons, List.length_append, List.length_map]
    ext
    · dsimp only; abel
    · dsimp only; omega

theorem double_loop_sum [AddCommGroup K] (n : ℕ) (hn : 1 ≤ n) (A : ℕ → K) (G : ℕ → ℕ × ℕ → K) :
    ((pyRange 0 (n - 1)).foldl (fun (st : K × ℕ) i => (pyRange (i + 1) n).foldl (fun (st : K × ℕ) j =>
        (st.1 - G st.2 (i, j), st.2 + 1)) (st.1 - A i, st.2)) (0, 0)).1 - A (n - 1) =
      -(∑ i ∈ Finset.range n, A i) - ∑ i ∈ Finset.range n, ∑ j ∈ Finset.range n,
        if i < j then G ((upperPairs n).idxOf (i, j)) (i, j) else 0 := by
  rw [double_loop n A G]
  have h1 : (pyRange 0 (n - 1)).flatMap (fun i => (pyRange (i + 1) n).map fun j => (i, j)) = upperPairs n :=
    loopPairs_eq_upperPairs n
  rw [h1, csum_eq _ _ (nodup_upperPairs n)]
  have h2 : ((pyRange 0 (n - 1)).map A).sum + A (n - 1) = ∑ i ∈ Finset.range n, A i := by
    obtain ⟨k, rfl⟩ : ∃ k, n = k + 1 := ⟨n - 1, by omega⟩
    rw [Finset.sum_range_succ, ← sum_map_range]
    simp [pyRange, List.range_eq_range']
  have h3 : ((upperPairs n).map fun p => G (0 + (upperPairs n).idxOf p) p).sum =
      ∑ i ∈ Finset.range n, ∑ j ∈ Finset.range n,
        if i < j then G ((upperPairs n).idxOf (i, j)) (i, j) else 0 := by
    rw [← sum_upperPairs n fun i j => G ((upperPairs n).idxOf (i, j)) (i, j)]
    simp
  rw [h3, ← h2]
  dsimp only
  abel

/-! ### Ising -/

theorem cppIsingCalcE_eq [CommRing K] (n : ℕ) (hn : 1 ≤ n) (m : List K) (s : List ℤ) :
    cppIsingCalcE n m s = isingVecE n (m.take n) (m.drop n) (spins s) := by
  unfold cppIsingCalcE isingVecE isingE
  dsimp only
  rw [double_loop_sum n hn (fun i => m.getD i 0 * spinAt s i)
    (fun c p => m.getD (c + n) 0 * spinAt s p.1 * spinAt s p.2)]
  congr 1
  · congr 1
    refine Finset.sum_congr rfl fun i hi => ?_
    rw [getD_take _ _ _ _ (Finset.mem_range.1 hi)]
    rfl
  · refine Finset.sum_congr rfl fun i _ => Finset.sum_congr rfl fun j _ => ?_
    rw [couplingAt, getD_drop', add_comm n]
    rfl

theorem foldl_sub {α : Type*} [AddCommGroup K] (f : α → K) (L : List α) : ∀ a : K,
    L.foldl (fun de k => de - f k) a = a - (L.map f).sum := by
  induction L with
  | nil => intro a; simp
  | cons p L ih => intro a; rw [List.foldl_cons, ih, List.map_cons, List.sum_cons]; abel

theorem cppIsingDe_eq [CommRing K] (n : ℕ) (m : List K) (s : List ℤ) (hs : s.length = n) (i : ℕ)
    (hi : i < n) :
    cppIsingDe n m (cppCouplingMat n n m) i (negAt s i) =
      isingVecE n (m.take n) (m.drop n) (spins (negAt s i)) -
        isingVecE n (m.take n) (m.drop n) (spins s) := by
  have e : (spins (negAt s i) : ℕ → K) = fun k => if k = i then ((-s.getD i 0 : ℤ) : K) else spins s k := by
    unfold negAt
    rw [mul_neg_one, spins_set s i (by omega)]
  rw [e, isingVecE_update n i hi]
  unfold cppIsingDe
  rw [foldl_sub, sum_map_range]
  have hsp : ∀ k, (spinAt (negAt s i) k : K) = if k = i then ((-s.getD i 0 : ℤ) : K) else spins s k :=
    fun k => congrFun e k
  simp only [hsp, if_true]
  unfold localField
  have e2 : ∑ k ∈ Finset.range n, 2 * (cppCouplingMat n n m).at' i k * ((-s.getD i 0 : ℤ) : K) *
      (if k = i then ((-s.getD i 0 : ℤ) : K) else spins s k) =
      2 * ((-s.getD i 0 : ℤ) : K) * ∑ j ∈ Finset.range n,
        if j = i then 0 else couplingOf n (m.drop n) i j * spins s j := by
    rw [Finset.mul_sum]
    refine Finset.sum_congr rfl fun k hk => ?_
    rw [cppCouplingMat_at n n m i k hi (Finset.mem_range.1 hk)]
    by_cases h : k = i
    · subst h; simp
    · rw [if_neg h, if_neg (Ne.symm h), if_neg h]; ring
  rw [e2, getD_take _ _ _ _ hi]
  unfold spins
  push_cast
  ring

/-! ### Potts -/

theorem cppPottsCalcE_eq [CommRing K] (n : ℕ) (hn : 1 ≤ n) (m : List K) (s : List ℤ)
    (hs : ∀ i < n, s.getD i 0 = 0 ∨ s.getD i 0 = 1 ∨ s.getD i 0 = 2) :
    cppPottsCalcE n m s = pottsVecE n 3 (m.take (3 * n)) (m.drop (3 * n)) fun i => s.getD i 0 := by
  obtain ⟨A, hA⟩ : ∃ A : ℕ → K, A = fun i => if s.getD i 0 = 0 then m.getD i 0
    else if s.getD i 0 = 1 then m.getD (i + n) 0 else m.getD (i + 2 * n) 0 := ⟨_, rfl⟩
  obtain ⟨G, hG⟩ : ∃ G : ℕ → ℕ × ℕ → K, G = fun c p => if s.getD p.1 0 = s.getD p.2 0
    then m.getD (c + 3 * n) 0 else 0 := ⟨_, rfl⟩
  have e : cppPottsCalcE n m s = ((pyRange 0 (n - 1)).foldl (fun (st : K × ℕ) i =>
      (pyRange (i + 1) n).foldl (fun (st : K × ℕ) j =>
        (st.1 - G st.2 (i, j), st.2 + 1)) (st.1 - A i, st.2)) (0, 0)).1 - A (n - 1) := by
    unfold cppPottsCalcE
    have f1 : ∀ i, (fun (st : K × ℕ) j =>
        (if s.getD i 0 = s.getD j 0 then st.1 - m.getD (st.2 + 3 * n) 0 else st.1, st.2 + 1)) =
        fun st j => (st.1 - G st.2 (i, j), st.2 + 1) := by
      intro i
      funext st j
      rw [hG]
      by_cases h : s.getD i 0 = s.getD j 0
      · dsimp only; rw [if_pos h, if_pos h]
      · dsimp only; rw [if_neg h, if_neg h, sub_zero]
    have f2 : ∀ (x : K) i, (if s.getD i 0 = 0 then x - m.getD i 0
        else if s.getD i 0 = 1 then x - m.getD (i + n) 0 else x - m.getD (i + 2 * n) 0) = x - A i := by
      intro x i
      rw [hA]
      dsimp only
      split
      · rfl
      · split <;> rfl
    simp only [f1, f2]
    rw [show 2 * n - 1 = n - 1 + n by omega, show 3 * n - 1 = n - 1 + 2 * n by omega, f2]
  rw [e, double_loop_sum n hn A G]
  unfold pottsVecE pottsE
  congr 1
  · rw [Finset.sum_comm]
    congr 1
    refine Finset.sum_congr rfl fun i hi => ?_
    have hi := Finset.mem_range.1 hi
    rw [Finset.sum_range_succ, Finset.sum_range_succ, Finset.sum_range_succ, Finset.sum_range_zero]
    dsimp only
    rw [getD_take _ _ _ _ (by omega), getD_take _ _ _ _ (by omega), getD_take _ _ _ _ (by omega), hA,
      show 0 * n + i = i by omega, show 1 * n + i = i + n by omega, show 2 * n + i = i + 2 * n by omega]
    rcases hs i hi with h | h | h <;> simp only [h] <;> simp
  · refine Finset.sum_congr rfl fun i _ => Finset.sum_congr rfl fun j _ => ?_
    rw [couplingAt, getD_drop', add_comm (3 * n), hG]
    by_cases h1 : i < j <;> by_cases h2 : s.getD i 0 = s.getD j 0
    · rw [if_pos h1, if_pos ⟨h1, h2⟩]; dsimp only; rw [if_pos h2]
    · rw [if_pos h1, if_neg (fun h => h2 h.2)]; dsimp only; rw [if_neg h2]
    · rw [if_neg h1, if_neg (fun h => h1 h.1)]
    · rw [if_neg h1, if_neg (fun h => h1 h.1)]

theorem foldl_add {α : Type*} [AddCommGroup K] (f : α → K) (L : List α) : ∀ a : K,
    L.foldl (fun de k => de + f k) a = a + (L.map f).sum := by
  induction L with
  | nil => intro a; simp
  | cons p L ih => intro a; rw [List.foldl_cons, ih, List.map_cons, List.sum_cons]; abel

theorem cppPottsDe_eq [CommRing K] (n : ℕ) (m : List K) (s : List ℤ) (hs : s.length = n) (i : ℕ)
    (hi : i < n) (b c : ℕ) (hb : b < 3) (hc : c < 3) (hsi : s.getD i 0 = (b : ℤ)) :
    cppPottsDe n m (cppCouplingMat n (n * 3) m) i (s.getD i 0) (s.set i (c : ℤ)) =
      pottsVecE n 3 (m.take (3 * n)) (m.drop (3 * n)) (fun k => (s.set i (c : ℤ)).getD k 0) -
        pottsVecE n 3 (m.take (3 * n)) (m.drop (3 * n)) fun k => s.getD k 0 := by
  have e : ∀ v : ℤ, (fun k => (s.set i v).getD k 0) = fun k => if k = i then v else s.getD k 0 := by
    intro v
    funext k
    by_cases h : k = i
    · subst h
      rw [if_pos rfl, List.getD_eq_getElem _ _ (by rw [List.length_set]; omega), List.getElem_set_self]
    · rw [if_neg h, List.getD_eq_getElem?_getD, List.getElem?_set_ne (Ne.symm h), ← List.getD_eq_getElem?_getD]
  have es : (fun k => s.getD k 0) = fun k => if k = i then (b : ℤ) else s.getD k 0 := by
    funext k
    by_cases h : k = i
    · rw [if_pos h, h, hsi]
    · rw [if_neg h]
  have upd := pottsVecE_update n 3 i hi (m.take (3 * n)) (m.drop (3 * n)) (fun k => s.getD k 0) b c hb hc
  rw [← es, ← e] at upd
  have goal : cppPottsDe n m (cppCouplingMat n (n * 3) m) i (s.getD i 0) (s.set i (c : ℤ)) =
      pottsLocal n (m.take (3 * n)) (m.drop (3 * n)) (fun k => s.getD k 0) i b -
        pottsLocal n (m.take (3 * n)) (m.drop (3 * n)) (fun k => s.getD k 0) i c := by
    unfold cppPottsDe pottsLocal
    have hk : ∀ k, (s.set i (c : ℤ)).getD k 0 = if k = i then (c : ℤ) else s.getD k 0 := fun k => congrFun (e c) k
    have f1 : (fun (de : K) k =>
        let de1 := if s.getD i 0 = (s.set i (c : ℤ)).getD k 0 then
          de + (cppCouplingMat n (n * 3) m).at' i k else de
        if (s.set i (c : ℤ)).getD i 0 = (s.set i (c : ℤ)).getD k 0 then
          de1 - (cppCouplingMat n (n * 3) m).at' i k else de1) =
        fun de k => de + ((if s.getD i 0 = (s.set i (c : ℤ)).getD k 0 then
          (cppCouplingMat n (n * 3) m).at' i k else 0) -
          if (s.set i (c : ℤ)).getD i 0 = (s.set i (c : ℤ)).getD k 0 then
          (cppCouplingMat n (n * 3) m).at' i k else 0) := by
      funext de k
      dsimp only
      split <;> split <;> ring
    rw [f1, foldl_add, sum_map_range, Finset.sum_sub_distrib]
    simp only [hk, if_true]
    rw [hsi]
    have g : ∀ v : ℤ, ∑ k ∈ Finset.range n, (if v = (if k = i then (c : ℤ) else s.getD k 0) then
        (cppCouplingMat n (n * 3) m).at' i k else 0) =
        ∑ k ∈ Finset.range n, if k = i then 0 else if s.getD k 0 = v then couplingOf n (m.drop (3 * n)) i k else 0 := by
      intro v
      refine Finset.sum_congr rfl fun k hk => ?_
      rw [cppCouplingMat_at n (n * 3) m i k hi (Finset.mem_range.1 hk), mul_comm n 3]
      by_cases h : k = i
      · subst h; simp
      · rw [if_neg h, if_neg (Ne.symm h), if_neg h]
        by_cases h2 : s.getD k 0 = v
        · rw [if_pos h2, if_pos h2.symm]
        · rw [if_neg h2, if_neg (Ne.symm h2)]
    rw [g, g, getD_take _ _ _ _ (by nlinarith), getD_take _ _ _ _ (by nlinarith)]
    simp only [Int.toNat_natCast]
    ring
  rw [goal]
  linear_combination upd

end Verif.Lemmas
