import Verif.Lemmas.Helpers
import Mathlib.Data.Nat.Choose.Basic
import Mathlib.Data.Nat.Factorial.BigOperators

namespace Verif.Lemmas
open Verif Verif.Model Verif.Spec

variable {K : Type*}

theorem combos_succ_range (k n a d : ℕ) (hd : n ≤ a + d) :
    combos (k + 1) (pyRange a n) =
      (pyRange a n).flatMap fun i => (combos k (pyRange (i + 1) n)).map (i :: ·) := by
  induction d generalizing a with
  | zero => rw [pyRange_nil (by omega)]; rfl
  | succ d ih =>
    by_cases h : a < n
    · rw [pyRange_cons h, combos, ih (a + 1) (by omega), List.flatMap_cons]
    · rw [pyRange_nil (by omega)]; rfl

theorem flatMap_pyRange_trim {α : Type*} (a b c : ℕ) (hbc : b ≤ c) (f : ℕ → List α)
    (h : ∀ i, b ≤ i → i < c → f i = []) : (pyRange a c).flatMap f = (pyRange a b).flatMap f := by
  by_cases hab : a ≤ b
  · have : pyRange a c = pyRange a b ++ pyRange b c := by
      unfold pyRange
      rw [show c - a = (b - a) + (c - b) by omega, ← List.range'_append]
      congr 2; omega
    rw [this, List.flatMap_append]
    have h2 : (pyRange b c).flatMap f = [] := by
      rw [List.flatMap_eq_nil_iff]
      intro i hi
      rw [mem_pyRange] at hi
      exact h i hi.1 hi.2
    rw [h2, List.append_nil]
  · rw [pyRange_nil (a := a) (n := b) (by omega), List.flatMap_nil, List.flatMap_eq_nil_iff]
    intro i hi
    rw [mem_pyRange] at hi
    exact h i (by omega) hi.2

theorem tuples_three (n : ℕ) :
    tuples n 3 = (loopTriples n).map fun t => [t.1, t.2.1, t.2.2] := by
  rw [tuples_eq, combos_succ_range 2 n 0 n (by omega)]
  unfold loopTriples
  rw [flatMap_pyRange_trim 0 (n - 2) n (by omega)]
  · rw [List.map_flatMap]
    congr 1
    funext i
    rw [combos_two_aux n (i + 1) n (by omega)]
    simp [List.map_flatMap, Function.comp_def]
  · intro i h1 h2
    rw [List.map_eq_nil_iff, ← List.length_eq_zero_iff, length_combos]
    simp [pyRange]
    exact Nat.choose_eq_zero_of_lt (by omega)

theorem choose_three (n : ℕ) : n.choose 3 = n * (n - 1) * (n - 2) / 6 := by
  rw [Nat.choose_eq_descFactorial_div_factorial]
  simp [Nat.descFactorial, Nat.factorial]
  congr 1
  ring

theorem enumWrite_values {β : Type*} (L arr : List β) (h : arr.length = L.length) :
    enumWrite (fun _ v => .ok v) L 0 arr = .ok L := by
  rw [enumWrite_full (fun _ v => .ok v) (fun _ v => v) L arr (fun _ _ => rfl) h]
  simp

theorem tripletObservables_eq [CommRing K] (s : List ℤ) :
    tripletObservables (K := K) s =
      .ok ((tuples s.length 1 ++ tuples s.length 2 ++ tuples s.length 3).map (mono (spins s))) := by
  unfold tripletObservables
  simp only
  rw [enumWrite_values]
  · rw [tuples_one, tuples_two, tuples_three, loopPairs_eq_upperPairs]
    simp only [List.map_append, List.map_map]
    congr 2
    · congr 1
      · simp only [pyRange, Nat.sub_zero, ← List.range_eq_range']
        apply List.map_congr_left; intro i _; simp [mono, ent_eq_spins]
      · apply List.map_congr_left; intro i _; simp [mono, ent_eq_spins]
    · apply List.map_congr_left; intro i _; simp [mono, ent_eq_spins, mul_assoc]
  · have h3 : (loopTriples s.length).length = s.length.choose 3 := by
      rw [← length_tuples, tuples_three, List.length_map]
    simp only [List.length_replicate, List.length_append, List.length_map]
    rw [loopPairs_eq_upperPairs, length_upperPairs, h3, choose_three]
    simp [pyRange]

theorem npDot_eq [CommRing K] (a b : List K) (h : a.length = b.length) : npDot a b = .ok (dot a b) := by
  unfold npDot dot; rw [if_pos h]

theorem tripletCalcERow_eq [CommRing K] (s : List ℤ) (h J T : List K) (hh : h.length = s.length)
    (hJ : J.length = s.length * (s.length - 1) / 2)
    (hT : T.length = s.length * (s.length - 1) * (s.length - 2) / 6) :
    tripletCalcERow s (h ++ J ++ T) = .ok (polyE s.length [h, J, T] (spins s)) := by
  unfold tripletCalcERow
  rw [tripletObservables_eq]
  simp only [bind, Except.bind]
  have l1 : (tuples s.length 1).length = s.length := by rw [length_tuples]; simp
  have l2 : (tuples s.length 2).length = s.length * (s.length - 1) / 2 := by
    rw [length_tuples, Nat.choose_two_right]
  have l3 : (tuples s.length 3).length = s.length * (s.length - 1) * (s.length - 2) / 6 := by
    rw [length_tuples, choose_three]
  rw [npDot_eq _ _ (by simp [l1, l2, l3, hh, hJ, hT])]
  simp only [pure, Except.pure]
  congr 1
  unfold polyE
  simp only [List.map_append]
  rw [dot_comm, dot_append _ _ _ _ (by simp [hh, hJ, l1, l2]),
    dot_append _ _ _ _ (by simp [hh, l1])]
  rw [show ([h, J, T] : List (List K)).length = 3 from rfl, Finset.sum_range_succ,
    Finset.sum_range_succ, Finset.sum_range_one]
  rfl

theorem dot_flatMap_range [CommRing K] (n k : ℕ) (h : List K) (hh : h.length = k * n)
    (f : ℕ → ℕ → K) :
    dot h ((List.range k).flatMap fun a => (List.range n).map fun i => f a i) =
      ∑ a ∈ Finset.range k, ∑ i ∈ Finset.range n, h.getD (a * n + i) 0 * f a i := by
  induction k generalizing h with
  | zero => simp [dot]
  | succ k ih =>
    rw [List.range_succ, List.flatMap_append, Finset.sum_range_succ]
    have hsplit : h = h.take (k * n) ++ h.drop (k * n) := (List.take_append_drop _ _).symm
    have e : dot h (((List.range k).flatMap fun a => (List.range n).map fun i => f a i) ++
        [k].flatMap fun a => (List.range n).map fun i => f a i) =
        dot (h.take (k * n)) ((List.range k).flatMap fun a => (List.range n).map fun i => f a i) +
        dot (h.drop (k * n)) ((List.range n).map fun i => f k i) := by
      conv_lhs => rw [hsplit]
      rw [dot_append]
      · simp
      · simp [hh, Nat.add_mul]
    rw [e, ih (h.take (k * n)) (by simp [hh, Nat.add_mul]),
      dot_range n (h.drop (k * n)) (by simp [hh, Nat.add_mul])]
    congr 1
    · refine Finset.sum_congr rfl fun a ha => Finset.sum_congr rfl fun i hi => ?_
      have ha := Finset.mem_range.1 ha
      have hi := Finset.mem_range.1 hi
      have : a * n + i < k * n := by
        calc a * n + i < a * n + n := by omega
          _ = (a + 1) * n := by ring
          _ ≤ k * n := Nat.mul_le_mul_right _ ha
      congr 1
      simp [this]
    · refine Finset.sum_congr rfl fun i hi => ?_
      simp

/-- The list of Potts observables as specified. -/
def pottsObs [CommRing K] (n k : ℕ) (s : ℕ → ℤ) : List K :=
  ((List.range k).flatMap fun a : ℕ => (List.range n).map fun i =>
      if s i = (a : ℤ) then (1 : K) else 0) ++
    (upperPairs n).map fun p => if s p.1 = s p.2 then (1 : K) else 0

theorem length_pottsObs [CommRing K] (n k : ℕ) (s : ℕ → ℤ) :
    (pottsObs n k s : List K).length = k * n + n * (n - 1) / 2 := by
  simp [pottsObs, length_upperPairs]

theorem pottsObservables_eq [CommRing K] (k : ℕ) (s : List ℤ) :
    pottsObservables (K := K) k s = .ok (pottsObs s.length k fun i => s.getD i 0) := by
  unfold pottsObservables
  simp only
  rw [enumWrite_values]
  · rw [loopPairs_eq_upperPairs]
    simp only [pyRange, Nat.sub_zero, ← List.range_eq_range']
    rfl
  · rw [loopPairs_eq_upperPairs]
    simp only [pyRange, Nat.sub_zero, ← List.range_eq_range']
    simp [length_upperPairs, Nat.mul_comm]

theorem dot_pottsObs [CommRing K] (n k : ℕ) (h J : List K) (hh : h.length = k * n)
    (hJ : J.length = n * (n - 1) / 2) (s : ℕ → ℤ) :
    -dot (h ++ J) (pottsObs n k s) = pottsVecE n k h J s := by
  unfold pottsObs pottsVecE pottsE
  rw [dot_append _ _ _ _ (by simp [hh]), dot_flatMap_range n k h hh,
    dot_upperPairs n J hJ (fun i j => if s i = s j then (1 : K) else 0), neg_add, sub_eq_add_neg]
  congr 2
  · refine Finset.sum_congr rfl fun a _ => Finset.sum_congr rfl fun i _ => ?_
    simp
  · refine Finset.sum_congr rfl fun i _ => Finset.sum_congr rfl fun j _ => ?_
    by_cases h1 : i < j <;> by_cases h2 : s i = s j <;> simp [h1, h2]

theorem pottsCalcERow_eq [CommRing K] (k : ℕ) (s : List ℤ) (h J : List K)
    (hh : h.length = k * s.length) (hJ : J.length = s.length * (s.length - 1) / 2) :
    pottsCalcERow k s (h ++ J) = .ok (pottsVecE s.length k h J fun i => s.getD i 0) := by
  unfold pottsCalcERow
  rw [pottsObservables_eq]
  simp only [bind, Except.bind]
  rw [npDot_eq _ _ (by rw [length_pottsObs]; simp [hh, hJ])]
  simp only [pure, Except.pure]
  rw [dot_comm, dot_pottsObs _ _ _ _ hh hJ]

/-! ### Terms of one spin -/

theorem upperPairs_sorted (n : ℕ) : (upperPairs n).Pairwise
    fun p q => p.1 < q.1 ∨ (p.1 = q.1 ∧ p.2 < q.2) := by
  have h := (isCombinations_tuples n 2).sorted
  rw [tuples_two, List.pairwise_map] at h
  refine h.imp ?_
  intro p q hpq
  obtain ⟨a, b⟩ := p
  obtain ⟨a', b'⟩ := q
  simp only at hpq ⊢
  rcases hpq with _ | hpq | hpq
  · exact Or.inl (by assumption)
  · rcases hpq with _ | hpq | hpq
    · exact Or.inr ⟨rfl, by assumption⟩
    · cases hpq

theorem pairs_with (n r : ℕ) (hr : r < n) :
    ((upperPairs n).filter fun p => p.1 = r ∨ p.2 = r) =
      ((List.range n).filter fun i => i ≠ r).map fun i => (min i r, max i r) := by
  refine @List.Subset.antisymm_of_pairwise _
    (fun p q : ℕ × ℕ => p.1 < q.1 ∨ (p.1 = q.1 ∧ p.2 < q.2)) ⟨fun p q h h' => by omega⟩
    ⟨fun p h => by omega⟩ _ _
    ((upperPairs_sorted n).filter _) ?_ ?_ ?_
  · rw [List.pairwise_map]
    have h1 : ((List.range n).filter fun i => i ≠ r).Pairwise (· < ·) :=
      (List.pairwise_lt_range).filter _
    refine h1.imp_of_mem ?_
    intro i j hi hj hij
    simp only [List.mem_filter, List.mem_range, ne_eq, decide_not, Bool.not_eq_eq_eq_not,
      Bool.not_true, decide_eq_false_iff_not] at hi hj
    omega
  · rintro ⟨i, j⟩ h
    simp only [List.mem_filter, decide_eq_true_eq] at h
    obtain ⟨hm, h⟩ := h
    rw [mem_upperPairs] at hm
    simp only [List.mem_map, List.mem_filter, List.mem_range, Prod.mk.injEq]
    rcases h with h | h
    · exact ⟨j, by simp; omega, by omega, by omega⟩
    · exact ⟨i, by simp; omega, by omega, by omega⟩
  · rintro ⟨i, j⟩ h
    simp only [List.mem_map, List.mem_filter, List.mem_range, Prod.mk.injEq] at h
    obtain ⟨a, ⟨h1, h2⟩, h3, h4⟩ := h
    simp only [List.mem_filter, decide_eq_true_eq, mem_upperPairs]
    simp at h2
    omega

end Verif.Lemmas
