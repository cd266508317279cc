import Verif.Lemmas.Pairs
import Mathlib.Data.Nat.Choose.Sum
import Mathlib.Algebra.Order.BigOperators.Group.Finset

namespace Verif.Lemmas
open Verif Verif.Model Verif.Spec

variable {K : Type*}

/-- Number of parameters of the first `i` orders. -/
def ordersLen (n i : ℕ) : ℕ := ∑ j ∈ Finset.range i, n.choose (j + 1)

theorem ordersLen_succ (n i : ℕ) : ordersLen n (i + 1) = ordersLen n i + n.choose (i + 1) :=
  Finset.sum_range_succ _ _

theorem ordersLen_add_one (n i : ℕ) :
    ordersLen n i + 1 = ∑ j ∈ Finset.range (i + 1), n.choose j := by
  rw [Finset.sum_range_succ']; simp [ordersLen]

theorem ordersLen_le (n i : ℕ) : ordersLen n i ≤ 2 ^ n - 1 := by
  have h1 := ordersLen_add_one n i
  have h2 : ∑ j ∈ Finset.range (i + 1), n.choose j ≤ 2 ^ n := by
    rw [← Nat.sum_range_choose n]
    rcases le_total i n with h | h
    · exact Finset.sum_le_sum_of_subset (Finset.range_subset_range.2 (by omega))
    · refine le_of_eq ?_
      symm
      apply Finset.sum_subset (Finset.range_subset_range.2 (by omega))
      intro j _ hj
      exact Nat.choose_eq_zero_of_lt (by simpa using hj)
  omega

theorem ordersLen_self (n : ℕ) : ordersLen n n = 2 ^ n - 1 := by
  have h1 := ordersLen_add_one n n
  rw [Nat.sum_range_choose n] at h1
  omega

theorem ordersLen_mono {n i j : ℕ} (h : i ≤ j) : ordersLen n i ≤ ordersLen n j :=
  Finset.sum_le_sum_of_subset (Finset.range_subset_range.2 h)

theorem ordersLen_lt {n i j : ℕ} (h : i < j) (hj : j ≤ n) : ordersLen n i < ordersLen n j := by
  have h1 : ordersLen n (i + 1) ≤ ordersLen n j := ordersLen_mono h
  have h2 : 0 < n.choose (i + 1) := Nat.choose_pos (by omega)
  rw [ordersLen_succ] at h1
  omega

/-- The chunk of order `i+1`. -/
def chunk (p : List K) (n i : ℕ) : List K := (p.drop (ordersLen n i)).take (n.choose (i + 1))

theorem chunks_flatten (p : List K) (n m : ℕ) :
    ((List.range m).map (chunk p n)).flatten = p.take (ordersLen n m) := by
  induction m with
  | zero => simp [ordersLen]
  | succ m ih =>
    rw [List.range_succ, List.map_append, List.flatten_append, ih, ordersLen_succ,
      List.take_add]
    simp [chunk]

theorem splitLoop_some (p : List K) (n fuel i : ℕ) (acc r : List (List K)) :
    splitLoop p n fuel (ordersLen n i) (i + 1) acc = some r ↔
      ∃ d, d ≤ fuel ∧ p.length ≤ ordersLen n (i + d) ∧
        (∀ k, k < d → ordersLen n (i + k) < p.length) ∧
        r = acc ++ (List.range d).map fun k => chunk p n (i + k) := by
  induction fuel generalizing i acc with
  | zero =>
    unfold splitLoop
    by_cases h : ordersLen n i < p.length
    · rw [if_pos h]
      constructor
      · intro h; simp at h
      · rintro ⟨d, hd, h1, -⟩
        obtain rfl : d = 0 := by omega
        simp at h1; omega
    · rw [if_neg h]
      constructor
      · intro h'
        exact ⟨0, by omega, by simpa using h, by simp, by simpa using h'.symm⟩
      · rintro ⟨d, hd, h1, -, rfl⟩
        obtain rfl : d = 0 := by omega
        simp
  | succ fuel ih =>
    unfold splitLoop
    by_cases h : ordersLen n i < p.length
    · rw [if_pos h, ← ordersLen_succ, ih (i + 1)]
      constructor
      · rintro ⟨d, hd, h1, h2, rfl⟩
        refine ⟨d + 1, by omega, by rwa [← add_assoc, add_right_comm], ?_, ?_⟩
        · intro k hk
          rcases k with _ | k
          · simpa using h
          · have := h2 k (by omega)
            rwa [← add_assoc, add_right_comm]
        · rw [List.range_succ_eq_map]
          simp [chunk, Function.comp_def, Nat.add_assoc, Nat.add_comm 1]
      · rintro ⟨d, hd, h1, h2, rfl⟩
        rcases d with _ | d
        · simp at h1; omega
        refine ⟨d, by omega, by rwa [← add_assoc, add_right_comm] at h1, ?_, ?_⟩
        · intro k hk
          have := h2 (k + 1) (by omega)
          rwa [← add_assoc, add_right_comm] at this
        · rw [List.range_succ_eq_map]
          simp [chunk, Function.comp_def, Nat.add_assoc, Nat.add_comm 1]
    · rw [if_neg h]
      constructor
      · intro h'
        exact ⟨0, by omega, by simpa using h, by simp, by simpa using h'.symm⟩
      · rintro ⟨d, hd, h1, h2, rfl⟩
        rcases d with _ | d
        · simp
        · exact absurd (h2 0 (by omega)) h

theorem split_iff (p : List K) (n : ℕ) (r : List (List K)) :
    SplitConcatParams p n r ↔ ∃ m, p.length ≤ ordersLen n m ∧
      (∀ k, k < m → ordersLen n k < p.length) ∧ r = (List.range m).map (chunk p n) := by
  have h0 : ordersLen n 0 = 0 := rfl
  unfold SplitConcatParams
  constructor
  · rintro ⟨fuel, h⟩
    rw [← h0, splitLoop_some] at h
    obtain ⟨d, -, h1, h2, h3⟩ := h
    exact ⟨d, by simpa using h1, fun k hk => by simpa using h2 k hk, by simpa using h3⟩
  · rintro ⟨m, h1, h2, h3⟩
    refine ⟨m, ?_⟩
    have := (splitLoop_some p n m 0 [] r).2 ⟨m, le_rfl, by simpa using h1,
      fun k hk => by simpa using h2 k hk, by simpa using h3⟩
    exact this

theorem split_terminates (p : List K) (n : ℕ) :
    (∃ r, SplitConcatParams p n r) ↔ p.length ≤ 2 ^ n - 1 := by
  constructor
  · rintro ⟨r, h⟩
    obtain ⟨m, h1, -⟩ := (split_iff p n r).1 h
    exact h1.trans (ordersLen_le n m)
  · intro h
    have hex : ∃ m, p.length ≤ ordersLen n m := ⟨n, by rwa [ordersLen_self]⟩
    classical
    exact ⟨_, (split_iff p n _).2 ⟨Nat.find hex, Nat.find_spec hex,
      fun k hk => by simpa using Nat.find_min hex hk, rfl⟩⟩

theorem split_keeps (p : List K) (n : ℕ) (r : List (List K)) (h : SplitConcatParams p n r) :
    r.flatten = p := by
  obtain ⟨m, h1, -, rfl⟩ := (split_iff p n r).1 h
  rw [chunks_flatten, List.take_of_length_le h1]

theorem flatten_eq_of_lengths (A B : List (List K)) (hl : A.length = B.length)
    (h : ∀ k, (hk : k < A.length) → A[k].length = (B[k]'(hl ▸ hk)).length)
    (hf : A.flatten = B.flatten) : A = B := by
  induction A generalizing B with
  | nil => exact (List.length_eq_zero_iff.1 hl.symm).symm
  | cons a A ih =>
    rcases B with _ | ⟨b, B⟩
    · simp at hl
    · have h0 := h 0 (by simp)
      simp only [List.getElem_cons_zero] at h0
      rw [List.flatten_cons, List.flatten_cons] at hf
      obtain ⟨e1, e2⟩ := List.append_inj hf h0
      rw [e1, ih B (by simpa using hl) (fun k hk => ?_) e2]
      have := h (k + 1) (by rw [List.length_cons]; omega)
      simp only [List.getElem_cons_succ] at this
      exact this

theorem length_flatten_polyShape [CommRing K] (n : ℕ) (P : List (List K)) (hP : PolyShape n P) :
    P.flatten.length = ordersLen n P.length := by
  rw [List.length_flatten]
  unfold ordersLen
  rw [← sum_map_range]
  congr 1
  apply List.ext_getElem
  · simp
  · intro i h1 h2
    have hi : i < P.length := by simpa using h1
    have := hP i hi
    rw [List.getD_eq_getElem _ _ hi, length_tuples] at this
    simpa using this

theorem split_flatten [CommRing K] (n : ℕ) (P : List (List K)) (hP : PolyShape n P)
    (hn : P.length ≤ n) (r : List (List K)) : SplitConcatParams P.flatten n r ↔ r = P := by
  have hlen := length_flatten_polyShape n P hP
  have key : (List.range P.length).map (chunk P.flatten n) = P := by
    apply flatten_eq_of_lengths _ _ (by simp)
    · intro k hk
      have hk' : k < P.length := by simpa using hk
      have := hP k hk'
      rw [List.getD_eq_getElem _ _ hk', length_tuples] at this
      simp only [List.getElem_map, List.getElem_range, chunk, List.length_take, List.length_drop,
        hlen, this]
      have h1 : ordersLen n (k + 1) ≤ ordersLen n P.length := ordersLen_mono (by omega)
      rw [ordersLen_succ] at h1
      omega
    · rw [chunks_flatten, ← hlen, List.take_length]
  rw [split_iff]
  constructor
  · rintro ⟨m, h1, h2, rfl⟩
    have hm : m = P.length := by
      rw [hlen] at h1
      by_contra hne
      rcases lt_or_gt_of_ne hne with h | h
      · have := ordersLen_lt h hn; omega
      · have := h2 _ h; omega
    rw [hm, key]
  · rintro rfl
    refine ⟨r.length, hlen.le, fun k hk => ?_, key.symm⟩
    rw [hlen]
    exact ordersLen_lt hk hn

end Verif.Lemmas
