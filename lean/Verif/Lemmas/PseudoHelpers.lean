import Verif.Lemmas.Helpers2

namespace Verif.Lemmas
open Verif Verif.Model Verif.Spec

variable {K : Type*}

/-- All sites other than `r`. -/
def otherSites (n r : ℕ) : List ℕ := (List.range n).filter fun i => i ≠ r

theorem mem_otherSites {n r i : ℕ} : i ∈ otherSites n r ↔ i < n ∧ i ≠ r := by
  simp [otherSites]

theorem length_otherSites {n r : ℕ} (hr : r < n) : (otherSites n r).length = n - 1 := by
  unfold otherSites
  have := (List.nodup_range (n := n)).erase_eq_filter r
  have h2 := List.length_erase_of_mem (List.mem_range.2 hr)
  rw [this] at h2
  rw [List.length_range] at h2
  rw [← h2]
  congr 2
  funext i
  by_cases hi : i = r <;> simp [hi]

theorem nodup_otherSites (n r : ℕ) : (otherSites n r).Nodup := (List.nodup_range).filter _

theorem sum_otherSites [AddCommMonoid K] (n r : ℕ) (f : ℕ → K) :
    ((otherSites n r).map f).sum = ∑ i ∈ Finset.range n, if i = r then 0 else f i := by
  unfold otherSites
  rw [sum_filter_eq, sum_map_range]
  refine Finset.sum_congr rfl fun i _ => ?_
  by_cases h : i = r <;> simp [h]

theorem idxOf_upperPairs {n i j : ℕ} (hij : i < j) (hj : j < n) :
    (upperPairs n).idxOf (i, j) = rank n 0 [i, j] := by
  obtain ⟨h, e⟩ := List.getElem?_eq_some_iff.1 (upperPairs_rank hij hj)
  rw [← e, (nodup_upperPairs n).idxOf_getElem]

/-- Position of the coupling of two sites in the coupling vector. -/
def pairPos (n i r : ℕ) : ℕ := (upperPairs n).idxOf (min i r, max i r)

theorem pairPos_lt {n i r : ℕ} (hi : i < n) (hr : r < n) (h : i ≠ r) :
    pairPos n i r < n * (n - 1) / 2 := by
  unfold pairPos
  rw [← length_upperPairs, List.idxOf_lt_length_iff, mem_upperPairs]
  omega

theorem pairPos_inj {n i j r : ℕ} (hi : i < n) (hr : r < n) (h : i ≠ r)
    (h' : j ≠ r) (e : pairPos n i r = pairPos n j r) : i = j := by
  unfold pairPos at e
  rw [List.idxOf_inj (mem_upperPairs.2 (by omega))] at e
  simp only [Prod.mk.injEq] at e
  omega

theorem subToInd_pairPos {n i r : ℕ} (hi : i < n) (hr : r < n) (h : i ≠ r) :
    (if i < r then subToInd n i r else subToInd n r i) = .ok (pairPos n i r : ℤ) := by
  unfold pairPos
  by_cases hlt : i < r
  · rw [if_pos hlt, subToInd_lt hlt hr, min_eq_left hlt.le, max_eq_right hlt.le,
      idxOf_upperPairs hlt hr]
  · have hgt : r < i := by omega
    rw [if_neg hlt, subToInd_lt hgt hi, min_eq_right hgt.le, max_eq_left hgt.le,
      idxOf_upperPairs hgt hi]

theorem enumWrite_tail {α β : Type*} (f : ℕ → α → Py β) (g : α → β) (L : List α) (k : ℕ)
    (arr : List β) (hf : ∀ i, ∀ a ∈ L, f i a = .ok (g a)) (hlen : arr.length = k + L.length) :
    enumWrite f L k arr = .ok (arr.take k ++ L.map g) := by
  rw [enumWrite_ok f (fun _ a => g a) L k arr (fun i h => hf _ _ (List.getElem_mem h)) (by omega)]
  rw [map_zipIdx_fst, List.drop_eq_nil_of_le (by omega), List.append_nil]

theorem couplingOf_eq [CommRing K] (n : ℕ) (J : List K) (i r : ℕ) :
    couplingOf n J i r = J.getD (pairPos n i r) 0 := rfl

theorem couplingOf_comm [CommRing K] (n : ℕ) (J : List K) (i r : ℕ) :
    couplingOf n J i r = couplingOf n J r i := by
  unfold couplingOf; rw [min_comm, max_comm]

theorem couplingsOf_ok [CommRing K] (n r start : ℕ) (hr : r < n) (h J arr : List K)
    (hJ : J.length = n * (n - 1) / 2) (harr : arr.length = start + (n - 1)) :
    couplingsOf n r h.length start (h ++ J) arr =
      .ok (arr.take start ++ (otherSites n r).map (fun i => couplingOf n J i r),
        (otherSites n r).map fun i => pairPos n i r + h.length) := by
  unfold couplingsOf
  have hs : ((pyRange 0 n).filter fun i => decide (i ≠ r)) = otherSites n r := by
    simp [pyRange, otherSites, List.range_eq_range']
  have hpos : ∀ i ∈ otherSites n r, couplingPos n r h.length i = .ok (pairPos n i r + h.length) := by
    intro i hi
    obtain ⟨h1, h2⟩ := mem_otherSites.1 hi
    unfold couplingPos
    rw [subToInd_pairPos h1 hr h2]
    simp
  simp only [hs]
  rw [enumWrite_tail _ (fun i => couplingOf n J i r)]
  · simp only
    rw [mapM_ok _ (fun i => pairPos n i r + h.length) _ hpos]
  · intro _ i hi
    obtain ⟨h1, h2⟩ := mem_otherSites.1 hi
    rw [hpos i hi]
    simp only
    have hlt : pairPos n i r < J.length := by rw [hJ]; exact pairPos_lt h1 hr h2
    unfold getAt
    rw [List.getElem?_append_right (by omega), Nat.add_sub_cancel, List.getElem?_eq_getElem hlt,
      couplingOf_eq, List.getD_eq_getElem _ _ hlt]
  · rw [length_otherSites hr, harr]

theorem getMultipliersR_eq [CommRing K] (n r : ℕ) (hr : r < n) (h J : List K) (hh : h.length = n)
    (hJ : J.length = n * (n - 1) / 2) :
    getMultipliersR n r (h ++ J) =
      .ok (h.getD r 0 :: (otherSites n r).map (fun i => couplingOf n J i r),
        r :: (otherSites n r).map fun i => pairPos n i r + n) := by
  unfold getMultipliersR
  have e1 : getAt (h ++ J) r = .ok (h.getD r 0) := by
    unfold getAt
    rw [List.getElem?_append_left (by omega), List.getElem?_eq_getElem (by omega)]
    simp [hh, hr]
  have e2 : setAt (List.replicate n (0 : K)) 0 (h.getD r 0) =
      .ok ((List.replicate n (0 : K)).set 0 (h.getD r 0)) := by
    unfold setAt; rw [if_pos (by simp; omega)]
  rw [e1]; simp only
  rw [e2]; simp only
  have := couplingsOf_ok n r 1 hr h J ((List.replicate n (0 : K)).set 0 (h.getD r 0)) hJ
    (by simp; omega)
  rw [hh] at this
  rw [this]
  have hn : n = (n - 1) + 1 := by omega
  simp only
  congr 2
  rw [hn]
  simp [List.replicate_succ]

theorem calcObservablesR_eq [CommRing K] (n r : ℕ) (hr : r < n) (s : List ℤ) :
    calcObservablesR n r s = .ok ((spins s r : K) ::
      (otherSites n r).map fun i => spins s i * spins s r) := by
  unfold calcObservablesR
  have e2 : setAt (List.replicate n (0 : K)) 0 (ent s r) =
      .ok ((List.replicate n (0 : K)).set 0 (ent s r)) := by
    unfold setAt; rw [if_pos (by simp; omega)]
  rw [e2, loopPairs_eq_upperPairs]
  simp only
  have hp := pairs_with n r hr
  rw [hp, enumWrite_tail _ (fun p : ℕ × ℕ => (ent s p.1 * ent s p.2 : K)) _ _ _ (fun _ _ _ => rfl)]
  · have hn : n = (n - 1) + 1 := by omega
    congr 1
    rw [List.map_map]
    have : (List.take 1 ((List.replicate n (0 : K)).set 0 (ent s r))) = [spins s r] := by
      rw [hn]; simp [List.replicate_succ, ent_eq_spins]
    rw [this, List.singleton_append]
    congr 1
    apply List.map_congr_left
    intro i hi
    simp only [Function.comp_apply, ent_eq_spins]
    rcases le_total i r with h | h
    · rw [min_eq_left h, max_eq_right h]
    · rw [min_eq_right h, max_eq_left h, mul_comm]
  · simp only [List.length_set, List.length_replicate, List.length_map]
    have := length_otherSites hr
    unfold otherSites at this
    omega

theorem dot_cons [CommRing K] (a b : K) (l m : List K) : dot (a :: l) (b :: m) = a * b + dot l m := by
  simp [dot]

theorem dot_map_map [CommRing K] {α : Type*} (L : List α) (f g : α → K) :
    dot (L.map f) (L.map g) = (L.map fun a => f a * g a).sum := by
  unfold dot
  rw [List.zipWith_map, List.zipWith_self]

theorem dot_obs_mult [CommRing K] (n r : ℕ) (h J : List K) (s : ℕ → K) :
    dot (s r :: (otherSites n r).map fun i => s i * s r)
      (h.getD r 0 :: (otherSites n r).map fun i => couplingOf n J i r) = s r * localField n h J s r := by
  rw [dot_cons, dot_map_map, sum_otherSites]
  unfold localField
  rw [mul_add, Finset.mul_sum]
  congr 1
  refine Finset.sum_congr rfl fun i _ => ?_
  by_cases hi : i = r
  · simp [hi]
  · rw [if_neg hi, if_neg hi, couplingOf_comm]; ring

/-- Changing one spin changes the energy by minus the change times the local field. -/
theorem isingVecE_update [CommRing K] (n r : ℕ) (hr : r < n) (h J : List K) (s : ℕ → K) (v : K) :
    isingVecE n h J (fun i => if i = r then v else s i) =
      isingVecE n h J s - (v - s r) * localField n h J s r := by
  unfold isingVecE isingE
  have e1 : ∑ i ∈ Finset.range n, h.getD i 0 * (if i = r then v else s i) =
      ∑ i ∈ Finset.range n, h.getD i 0 * s i + (v - s r) * h.getD r 0 := by
    have : ∀ i ∈ Finset.range n, h.getD i 0 * (if i = r then v else s i) =
        h.getD i 0 * s i + if i = r then (v - s r) * h.getD r 0 else 0 := by
      intro i _
      by_cases hi : i = r
      · subst hi; simp; ring
      · simp [hi]
    rw [Finset.sum_congr rfl this, Finset.sum_add_distrib, Finset.sum_ite_eq' (Finset.range n) r,
      if_pos (Finset.mem_range.2 hr)]
  have e2 : ∑ i ∈ Finset.range n, ∑ j ∈ Finset.range n,
      (if i < j then couplingAt n J i j * (if i = r then v else s i) * (if j = r then v else s j) else 0) =
      ∑ i ∈ Finset.range n, ∑ j ∈ Finset.range n,
        (if i < j then couplingAt n J i j * s i * s j else 0) +
      (v - s r) * ∑ j ∈ Finset.range n, (if j = r then 0 else couplingOf n J r j * s j) := by
    have : ∀ i ∈ Finset.range n, ∀ j ∈ Finset.range n,
        (if i < j then couplingAt n J i j * (if i = r then v else s i) * (if j = r then v else s j) else 0) =
        (if i < j then couplingAt n J i j * s i * s j else 0) +
        ((if i = r then (if r < j then (v - s r) * (couplingOf n J r j * s j) else 0) else 0) +
         (if j = r then (if i < r then (v - s r) * (couplingOf n J r i * s i) else 0) else 0)) := by
      intro i _ j _
      by_cases hij : i < j
      · by_cases hi : i = r
        · subst hi
          have hj : j ≠ i := by omega
          rw [if_pos hij, if_pos hij, if_pos rfl, if_pos rfl, if_neg hj, if_pos hij, if_neg hj]
          unfold couplingOf
          rw [min_eq_left hij.le, max_eq_right hij.le]; ring
        · by_cases hj : j = r
          · subst hj
            rw [if_pos hij, if_pos hij, if_neg hi, if_pos rfl, if_neg hi, if_pos rfl, if_pos hij]
            unfold couplingOf
            rw [min_eq_right hij.le, max_eq_left hij.le]; ring
          · simp [hij, hi, hj]
      · have h1 : ¬ (i = r ∧ r < j) := by omega
        have h2 : ¬ (j = r ∧ i < r) := by omega
        by_cases hi : i = r
        · have : ¬ r < j := fun h => h1 ⟨hi, h⟩
          by_cases hj : j = r
          · have : ¬ i < r := fun h => h2 ⟨hj, h⟩
            simp [hi, hj]
          · simp [hi, hj, this]
        · by_cases hj : j = r
          · have : ¬ i < r := fun h => h2 ⟨hj, h⟩
            simp [hi, hj, this]
          · simp [hij, hi, hj]
    rw [Finset.sum_congr rfl fun i hi => Finset.sum_congr rfl fun j hj => this i hi j hj]
    simp only [Finset.sum_add_distrib]
    congr 1
    have s1 : ∑ i ∈ Finset.range n, ∑ j ∈ Finset.range n,
        (if i = r then (if r < j then (v - s r) * (couplingOf n J r j * s j) else 0) else 0) =
        ∑ j ∈ Finset.range n, (if r < j then (v - s r) * (couplingOf n J r j * s j) else 0) := by
      rw [Finset.sum_comm]
      refine Finset.sum_congr rfl fun j _ => ?_
      rw [Finset.sum_ite_eq' (Finset.range n) r, if_pos (Finset.mem_range.2 hr)]
    have s2 : ∑ i ∈ Finset.range n, ∑ j ∈ Finset.range n,
        (if j = r then (if i < r then (v - s r) * (couplingOf n J r i * s i) else 0) else 0) =
        ∑ i ∈ Finset.range n, (if i < r then (v - s r) * (couplingOf n J r i * s i) else 0) := by
      refine Finset.sum_congr rfl fun i _ => ?_
      rw [Finset.sum_ite_eq' (Finset.range n) r, if_pos (Finset.mem_range.2 hr)]
    rw [s1, s2, Finset.mul_sum, ← Finset.sum_add_distrib]
    refine Finset.sum_congr rfl fun j _ => ?_
    rcases lt_trichotomy j r with hj | hj | hj
    · have a1 : ¬ r < j := by omega
      have a2 : j ≠ r := by omega
      simp [hj, a1, a2]
    · subst hj; simp
    · have a1 : ¬ j < r := by omega
      have a2 : j ≠ r := by omega
      simp [hj, a1, a2]
  rw [e1, e2]
  unfold localField
  ring

theorem localField_update [CommRing K] (n r : ℕ) (h J : List K) (s : ℕ → K) (v : K) :
    localField n h J (fun i => if i = r then v else s i) r = localField n h J s r := by
  unfold localField
  congr 1
  refine Finset.sum_congr rfl fun j _ => ?_
  by_cases hj : j = r <;> simp [hj]

theorem spins_set [CommRing K] (s : List ℤ) (r : ℕ) (hr : r < s.length) (v : ℤ) :
    (spins (s.set r v) : ℕ → K) = fun i => if i = r then (v : K) else spins s i := by
  funext i
  unfold spins
  by_cases h : i = r
  · subst h; simp [hr]
  · simp [h, List.getElem?_set_ne (Ne.symm h)]

end Verif.Lemmas
