import Verif.Lemmas.PseudoHelpers
import Verif.Lemmas.States

namespace Verif.Lemmas
open Verif Verif.Model Verif.Spec

variable {K : Type*}

theorem map_range_getD_lt {α : Type*} (k : ℕ) (f : ℕ → α) (i : ℕ) (hi : i < k) (d : α) :
    ((List.range k).map f).getD i d = f i := by simp [hi]

/-- Part of minus the energy that involves spin `r` when it is in state `b`. -/
def pottsLocal [CommRing K] (n : ℕ) (h J : List K) (s : ℕ → ℤ) (r : ℕ) (b : ℕ) : K :=
  h.getD (b * n + r) 0 +
    ∑ j ∈ Finset.range n, if j = r then 0 else (if s j = (b : ℤ) then couplingOf n J r j else 0)

theorem potts_fields_update [CommRing K] (n k r : ℕ) (hr : r < n) (h : ℕ → ℕ → K) (s : ℕ → ℤ)
    (b : ℕ) (hb : b < k) :
    ∑ a ∈ Finset.range k, ∑ i ∈ Finset.range n,
      (if (if i = r then (b : ℤ) else s i) = (a : ℤ) then h a i else 0) =
    (∑ a ∈ Finset.range k, ∑ i ∈ Finset.range n, if i = r then 0 else if s i = (a : ℤ) then h a i else 0) +
      h b r := by
  have : ∀ a ∈ Finset.range k, ∑ i ∈ Finset.range n,
      (if (if i = r then (b : ℤ) else s i) = (a : ℤ) then h a i else 0) =
      (∑ i ∈ Finset.range n, if i = r then 0 else if s i = (a : ℤ) then h a i else 0) +
        if a = b then h b r else 0 := by
    intro a _
    have h1 : ∀ i ∈ Finset.range n, (if (if i = r then (b : ℤ) else s i) = (a : ℤ) then h a i else 0) =
        (if i = r then 0 else if s i = (a : ℤ) then h a i else 0) +
          if i = r then (if a = b then h b r else 0) else 0 := by
      intro i _
      by_cases hi : i = r
      · subst hi
        by_cases hab : a = b
        · subst hab; simp
        · have : ¬ ((b : ℤ) = (a : ℤ)) := fun e => hab (by exact_mod_cast e.symm)
          simp [hab, this]
      · simp [hi]
    rw [Finset.sum_congr rfl h1, Finset.sum_add_distrib, Finset.sum_ite_eq' (Finset.range n) r,
      if_pos (Finset.mem_range.2 hr)]
  rw [Finset.sum_congr rfl this, Finset.sum_add_distrib, Finset.sum_ite_eq' (Finset.range k) b,
    if_pos (Finset.mem_range.2 hb)]

theorem potts_pairs_update [CommRing K] (n r : ℕ) (hr : r < n) (J : List K) (s : ℕ → ℤ) (v : ℤ) :
    ∑ i ∈ Finset.range n, ∑ j ∈ Finset.range n,
      (if i < j ∧ (if i = r then v else s i) = (if j = r then v else s j) then couplingAt n J i j else 0) =
    (∑ i ∈ Finset.range n, ∑ j ∈ Finset.range n,
      if i < j ∧ i ≠ r ∧ j ≠ r ∧ s i = s j then couplingAt n J i j else 0) +
      ∑ j ∈ Finset.range n, if j = r then 0 else (if s j = v then couplingOf n J r j else 0) := by
  have : ∀ i ∈ Finset.range n, ∀ j ∈ Finset.range n,
      (if i < j ∧ (if i = r then v else s i) = (if j = r then v else s j) then couplingAt n J i j else 0) =
      (if i < j ∧ i ≠ r ∧ j ≠ r ∧ s i = s j then couplingAt n J i j else 0) +
      ((if i = r then (if r < j ∧ s j = v then couplingOf n J r j else 0) else 0) +
       (if j = r then (if i < r ∧ s i = v then couplingOf n J r i else 0) else 0)) := by
    intro i _ j _
    by_cases hi : i = r
    · subst hi
      by_cases hj : j = i
      · subst hj; simp
      · by_cases hij : i < j
        · unfold couplingOf
          rw [min_eq_left hij.le, max_eq_right hij.le]
          simp [hij, hj, eq_comm]
        · simp [hij, hj]
    · by_cases hj : j = r
      · subst hj
        by_cases hij : i < j
        · unfold couplingOf
          rw [min_eq_right hij.le, max_eq_left hij.le]
          simp [hij, hi]
        · simp [hij, hi]
      · simp [hi, hj]
  rw [Finset.sum_congr rfl fun i hi => Finset.sum_congr rfl fun j hj => this i hi j hj]
  simp only [Finset.sum_add_distrib]
  congr 1
  have s1 : ∑ i ∈ Finset.range n, ∑ j ∈ Finset.range n,
      (if i = r then (if r < j ∧ s j = v then couplingOf n J r j else 0) else 0) =
      ∑ j ∈ Finset.range n, (if r < j ∧ s j = v then couplingOf n J r j else 0) := by
    rw [Finset.sum_comm]
    refine Finset.sum_congr rfl fun j _ => ?_
    rw [Finset.sum_ite_eq' (Finset.range n) r, if_pos (Finset.mem_range.2 hr)]
  have s2 : ∑ i ∈ Finset.range n, ∑ j ∈ Finset.range n,
      (if j = r then (if i < r ∧ s i = v then couplingOf n J r i else 0) else 0) =
      ∑ i ∈ Finset.range n, (if i < r ∧ s i = v then couplingOf n J r i else 0) := by
    refine Finset.sum_congr rfl fun i _ => ?_
    rw [Finset.sum_ite_eq' (Finset.range n) r, if_pos (Finset.mem_range.2 hr)]
  rw [s1, s2, ← Finset.sum_add_distrib]
  refine Finset.sum_congr rfl fun j _ => ?_
  rcases lt_trichotomy j r with hj | hj | hj
  · have a1 : ¬ r < j := by omega
    have a2 : j ≠ r := by omega
    simp [hj, a1, a2]
  · subst hj; simp
  · have a1 : ¬ j < r := by omega
    have a2 : j ≠ r := by omega
    simp [hj, a1, a2]

/-- Energy minus the terms of spin `r` does not depend on the state of spin `r`. -/
theorem pottsVecE_update [CommRing K] (n k r : ℕ) (hr : r < n) (h J : List K) (s : ℕ → ℤ) (b c : ℕ)
    (hb : b < k) (hc : c < k) :
    pottsVecE n k h J (fun i => if i = r then (b : ℤ) else s i) + pottsLocal n h J s r b =
      pottsVecE n k h J (fun i => if i = r then (c : ℤ) else s i) + pottsLocal n h J s r c := by
  unfold pottsVecE pottsE pottsLocal
  rw [potts_fields_update n k r hr _ s b hb, potts_fields_update n k r hr _ s c hc,
    potts_pairs_update n r hr J s b, potts_pairs_update n r hr J s c]
  ring

/-- The observables of spin `r` in state `b`, in the order of the code. -/
def pottsSpinObs [CommRing K] (n k : ℕ) (s : ℕ → ℤ) (r : ℕ) (b : ℤ) : List K :=
  ((List.range k).map fun a : ℕ => if b = (a : ℤ) then (1 : K) else 0) ++
    (otherSites n r).map fun i => if s i = b then (1 : K) else 0

theorem dot_pottsSpinObs [CommRing K] (n k : ℕ) (h J : List K) (s : ℕ → ℤ) (r b : ℕ) (hb : b < k) :
    dot (pottsSpinObs n k s r (b : ℤ))
      (((List.range k).map fun a => h.getD (a * n + r) 0) ++
        (otherSites n r).map fun i => couplingOf n J i r) = pottsLocal n h J s r b := by
  unfold pottsSpinObs pottsLocal
  rw [dot_append _ _ _ _ (by simp), dot_map_map, dot_map_map, sum_map_range, sum_otherSites]
  congr 1
  · have : ∀ a ∈ Finset.range k, (if (b : ℤ) = (a : ℤ) then (1 : K) else 0) * h.getD (a * n + r) 0 =
        if a = b then h.getD (b * n + r) 0 else 0 := by
      intro a _
      by_cases hab : a = b
      · subst hab; simp
      · have : ¬ ((b : ℤ) = (a : ℤ)) := fun e => hab (by exact_mod_cast e.symm)
        simp [hab, this]
    rw [Finset.sum_congr rfl this, Finset.sum_ite_eq' (Finset.range k) b,
      if_pos (Finset.mem_range.2 hb)]
  · refine Finset.sum_congr rfl fun i _ => ?_
    by_cases hi : i = r
    · simp [hi]
    · rw [if_neg hi, if_neg hi, couplingOf_comm]
      by_cases hs : s i = (b : ℤ) <;> simp [hs]

theorem pottsMultipliersR_eq [CommRing K] (n k r : ℕ) (hr : r < n) (hk : 1 ≤ k) (h J : List K)
    (hh : h.length = k * n) (hJ : J.length = n * (n - 1) / 2) :
    pottsMultipliersR n k r (h ++ J) =
      .ok (((List.range k).map fun a => h.getD (a * n + r) 0) ++
          (otherSites n r).map fun i => couplingOf n J i r,
        ((List.range k).map fun a => a * n + r) ++
          (otherSites n r).map fun i => pairPos n i r + k * n) := by
  unfold pottsMultipliersR
  have hrange : pyRange 0 k = List.range k := by simp [pyRange, List.range_eq_range']
  have hlt : ∀ a < k, a * n + r < k * n := by
    intro a ha
    calc a * n + r < a * n + n := by omega
      _ = (a + 1) * n := by ring
      _ ≤ k * n := Nat.mul_le_mul_right _ ha
  have hlen : (List.replicate (k - 1 + n) (0 : K)).length = k + (n - 1) := by simp; omega
  rw [hrange, enumWrite_ok (fun _ i => getAt (h ++ J) (r + n * i)) (fun _ a => h.getD (a * n + r) 0)
    (List.range k) 0 (List.replicate (k - 1 + n) (0 : K))]
  · simp only [List.take_zero, List.nil_append]
    rw [map_zipIdx_fst (List.range k) (fun a => h.getD (a * n + r) 0)]
    have := couplingsOf_ok n r k hr h J (((List.range k).map fun a => h.getD (a * n + r) 0) ++
      (List.replicate (k - 1 + n) (0 : K)).drop (0 + (List.range k).length)) hJ
      (by simp; omega)
    rw [hh] at this
    rw [this]
    simp only
    rw [List.take_left' (by simp)]
    congr 3
    apply List.map_congr_left
    intro a _
    ring
  · intro i hi
    have hi' : i < k := by simpa using hi
    have h2 : r + n * (List.range k)[i] = i * n + r := by simp; ring
    unfold getAt
    rw [h2, List.getElem?_append_left (by rw [hh]; exact hlt i hi'),
      List.getElem?_eq_getElem (by rw [hh]; exact hlt i hi')]
    simp [hh, hlt i hi']
  · simp; omega

theorem pottsObservablesR_eq [CommRing K] (n k r : ℕ) (hr : r < n) (s : List ℤ) (x : ℕ) (hx : x < k)
    (hs : s.getD r 0 = (x : ℤ)) :
    pottsObservablesR (K := K) n k r s =
      .ok (pottsSpinObs n k (fun i => s.getD i 0) r x,
        (otherSites k x).map fun b : ℕ => pottsSpinObs n k (fun i => s.getD i 0) r (b : ℤ),
        otherSites k x) := by
  have hrange : pyRange 0 k = List.range k := by simp [pyRange, List.range_eq_range']
  have hothers : pottsSplitStates k (x : ℤ) = otherSites k x := by
    unfold pottsSplitStates otherSites
    rw [hrange]
    congr 1
    funext i
    simp [eq_comm]
  have hpairs := pairs_with n r hr
  have hlp : (((otherSites n r).map fun i => (min i r, max i r)) : List (ℕ × ℕ)).length = n - 1 := by
    rw [List.length_map, length_otherSites hr]
  unfold pottsObservablesR
  simp only
  rw [hs, hothers, loopPairs_eq_upperPairs, hpairs, ← otherSites, hrange]
  rw [enumWrite_ok (fun _ (i : ℕ) => .ok (if (x : ℤ) = (i : ℤ) then (1 : K) else 0))
    (fun _ i => if (x : ℤ) = (i : ℤ) then (1 : K) else 0) (List.range k) 0 _ (fun _ _ => rfl)
    (by simp; omega)]
  simp only
  rw [enumWrite_tail _ (fun p : ℕ × ℕ => if s.getD p.1 0 = s.getD p.2 0 then (1 : K) else 0) _ k _
    (fun _ _ _ => rfl) (by rw [hlp]; simp; omega)]
  simp only
  rw [if_neg (by rw [length_otherSites hx]; omega)]
  rw [mapM_ok _ (fun b : ℕ => pottsSpinObs n k (fun i => s.getD i 0) r (b : ℤ)) (otherSites k x)]
  · simp only
    congr 2
    unfold pottsSpinObs
    rw [List.take_zero, List.nil_append,
      map_zipIdx_fst (List.range k) (fun a : ℕ => if (x : ℤ) = (a : ℤ) then (1 : K) else 0), List.take_left' (by simp), List.map_map]
    congr 1
    apply List.map_congr_left
    intro i hi
    simp only [Function.comp_apply]
    rcases le_total i r with h | h
    · rw [min_eq_left h, max_eq_right h, hs]
    · rw [min_eq_right h, max_eq_left h, hs]
      simp [eq_comm]
  · intro b hb
    obtain ⟨hbk, hbx⟩ := mem_otherSites.1 hb
    unfold setAt
    rw [if_pos (by simp; omega)]
    simp only
    rw [enumWrite_tail _ (fun p : ℕ × ℕ => if (if p.1 = r then s.getD p.2 0 else s.getD p.1 0) = (b : ℤ)
      then (1 : K) else 0) _ k _ (fun _ _ _ => rfl) (by rw [hlp]; simp; omega)]
    congr 1
    unfold pottsSpinObs
    congr 1
    · apply List.ext_getElem
      · simp; omega
      · intro i h1 h2
        have hi : i < k := by simpa using h2
        simp only [List.getElem_take, List.getElem_set, List.getElem_replicate, List.getElem_map,
          List.getElem_range, Nat.cast_inj]
    · rw [List.map_map]
      apply List.map_congr_left
      intro i hi
      obtain ⟨hi1, hi2⟩ := mem_otherSites.1 hi
      simp only [Function.comp_apply]
      rcases lt_or_gt_of_ne hi2 with h | h
      · rw [min_eq_left h.le, max_eq_right h.le, if_neg hi2]
      · rw [min_eq_right h.le, max_eq_left h.le, if_pos rfl]

theorem getD_flatMap_range [Zero K] (n k : ℕ) (f : ℕ → ℕ → K) (a i : ℕ) (ha : a < k) (hi : i < n) :
    ((List.range k).flatMap fun a => (List.range n).map fun i => f a i).getD (a * n + i) 0 = f a i := by
  induction k with
  | zero => omega
  | succ k ih =>
    rw [List.range_succ, List.flatMap_append]
    have hlen : ((List.range k).flatMap fun a => (List.range n).map fun i => f a i).length = k * n := by
      simp
    by_cases h : a < k
    · rw [List.getD_append _ _ _ _ ?_, ih h]
      rw [hlen]
      calc a * n + i < a * n + n := by omega
        _ = (a + 1) * n := by ring
        _ ≤ k * n := Nat.mul_le_mul_right _ h
    · have : a = k := by omega
      subst this
      rw [List.getD_append_right _ _ _ _ (by rw [hlen]; omega), hlen, Nat.add_sub_cancel_left]
      simp [hi]

theorem pottsObs_field [CommRing K] (n k : ℕ) (s : ℕ → ℤ) (a i : ℕ) (ha : a < k) (hi : i < n) :
    (pottsObs n k s : List K).getD (a * n + i) 0 = if s i = (a : ℤ) then 1 else 0 := by
  unfold pottsObs
  rw [List.getD_append, getD_flatMap_range n k (fun (a i : ℕ) => if s i = (a : ℤ) then (1 : K) else 0) a i ha hi]
  have : ((List.range k).flatMap fun a : ℕ => (List.range n).map fun i =>
      if s i = (a : ℤ) then (1 : K) else 0).length = k * n := by simp
  rw [this]
  calc a * n + i < a * n + n := by omega
    _ = (a + 1) * n := by ring
    _ ≤ k * n := Nat.mul_le_mul_right _ ha

theorem enumWrite_stops {α β : Type*} (f : ℕ → α → Py β) (L L' : List α) (x : α) (k : ℕ)
    (arr : List β) (e : PyErr) (g : α → β) (hf : ∀ i, ∀ a ∈ L, f i a = .ok (g a))
    (hx : ∀ i, f i x = .error e) (hlen : k + L.length ≤ arr.length) :
    enumWrite f (L ++ x :: L') k arr = .error e := by
  rw [enumWrite_append, enumWrite_ok f (fun _ a => g a) L k arr
    (fun i h => hf _ _ (List.getElem_mem h)) hlen]
  simp only [Except.bind]
  rw [enumWrite, hx]; rfl

theorem ternary_error [CommRing K] (s : List ℤ) (hs : s ≠ []) :
    ternaryObservables (K := K) s = .error .indexError := by
  have hn : 1 ≤ s.length := List.length_pos_iff.2 hs
  unfold ternaryObservables
  have hsplit : pyRange 0 (3 * s.length) =
      List.range s.length ++ s.length :: pyRange (s.length + 1) (3 * s.length) := by
    rw [← pyRange_cons (by omega)]
    unfold pyRange
    rw [List.range_eq_range', show 3 * s.length - 0 = s.length + (3 * s.length - s.length) by omega,
      ← List.range'_append]
    simp
  simp only
  rw [hsplit, enumWrite_stops _ _ _ _ _ _ .indexError (fun i => ((s.getD i 0 : ℤ) : K))]
  · intro _ i hi
    have : i < s.length := List.mem_range.1 hi
    simp [this]
  · intro _
    simp
  · simp; omega

theorem mapM_error {α β : Type*} (f : α → Py β) (L : List α) (r : List β) (h : L.mapM f = .ok r)
    (a : α) (ha : a ∈ L) : ∃ b, f a = .ok b := by
  induction L generalizing r with
  | nil => simp at ha
  | cons x L ih =>
    rw [List.mapM_cons] at h
    cases hx : f x with
    | error e => rw [hx] at h; cases h
    | ok b =>
      rw [hx] at h
      cases hL : L.mapM f with
      | error e => rw [hL] at h; cases h
      | ok bs =>
        rcases List.mem_cons.1 ha with rfl | ha
        · exact ⟨b, hx⟩
        · exact ih bs hL ha

theorem potts_bad_state [CommRing K] (n k r : ℕ) (_hr : r < n) (hk : 1 ≤ k) (s : List ℤ)
    (hs : ∀ a < k, s.getD r 0 ≠ (a : ℤ)) (res) :
    pottsObservablesR (K := K) n k r s ≠ .ok res := by
  have hlen : (pottsSplitStates k (s.getD r 0)).length = k := by
    unfold pottsSplitStates
    rw [List.filter_eq_self.2]
    · simp [pyRange]
    · intro a ha
      rw [mem_pyRange] at ha
      simpa using hs a ha.2
  unfold pottsObservablesR
  simp only
  intro h
  split at h
  · cases h
  · rw [if_pos (by rw [hlen]; omega)] at h
    cases h

end Verif.Lemmas
