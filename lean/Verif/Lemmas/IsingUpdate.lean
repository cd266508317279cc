import Verif.Lemmas.PseudoHelpers

namespace Verif.Lemmas
open Verif Verif.Model Verif.Spec

variable {K : Type*}

/-- Changing one spin changes the energy by minus the change times the field on it. -/
theorem isingE_update [CommRing K] (n r : ℕ) (hr : r < n) (h : ℕ → K) (J : ℕ → ℕ → K) (s : ℕ → K) (v : K) :
    isingE n h J (fun i => if i = r then v else s i) =
      isingE n h J s - (v - s r) * (h r + ∑ j ∈ Finset.range n,
        if j = r then 0 else J (min r j) (max r j) * s j) := by
  unfold isingE
  have e1 : ∑ i ∈ Finset.range n, h i * (if i = r then v else s i) =
      ∑ i ∈ Finset.range n, h i * s i + (v - s r) * h r := by
    have : ∀ i ∈ Finset.range n, h i * (if i = r then v else s i) =
        h i * s i + if i = r then (v - s r) * h r else 0 := by
      intro i _
      by_cases hi : i = r
      · subst hi; simp; ring
      · simp [hi]
    rw [Finset.sum_congr rfl this, Finset.sum_add_distrib, Finset.sum_ite_eq' (Finset.range n) r,
      if_pos (Finset.mem_range.2 hr)]
  have e2 : ∑ i ∈ Finset.range n, ∑ j ∈ Finset.range n,
      (if i < j then J i j * (if i = r then v else s i) * (if j = r then v else s j) else 0) =
      ∑ i ∈ Finset.range n, ∑ j ∈ Finset.range n,
        (if i < j then J i j * s i * s j else 0) +
      (v - s r) * ∑ j ∈ Finset.range n, (if j = r then 0 else J (min r j) (max r j) * s j) := by
    have : ∀ i ∈ Finset.range n, ∀ j ∈ Finset.range n,
        (if i < j then J i j * (if i = r then v else s i) * (if j = r then v else s j) else 0) =
        (if i < j then J i j * s i * s j else 0) +
        ((if i = r then (if r < j then (v - s r) * (J (min r j) (max r j) * s j) else 0) else 0) +
         (if j = r then (if i < r then (v - s r) * (J (min r i) (max r i) * s i) else 0) else 0)) := by
      intro i _ j _
      by_cases hij : i < j
      · by_cases hi : i = r
        · subst hi
          have hj : j ≠ i := by omega
          rw [if_pos hij, if_pos hij, if_pos rfl, if_pos rfl, if_neg hj, if_pos hij, if_neg hj]
          rw [min_eq_left hij.le, max_eq_right hij.le]; ring
        · by_cases hj : j = r
          · subst hj
            rw [if_pos hij, if_pos hij, if_neg hi, if_pos rfl, if_neg hi, if_pos rfl, if_pos hij]
            rw [min_eq_right hij.le, max_eq_left hij.le]; ring
          · simp [hij, hi, hj]
      · have h1 : ¬ (i = r ∧ r < j) := by omega
        have h2 : ¬ (j = r ∧ i < r) := by omega
        by_cases hi : i = r
        · have : ¬ r < j := fun h => h1 ⟨hi, h⟩
          by_cases hj : j = r
          · have : ¬ i < r := fun h => h2 ⟨hj, h⟩
            simp [hi, hj]
          · simp [hi, hj, this]
        · by_cases hj : j = r
          · have : ¬ i < r := fun h => h2 ⟨hj, h⟩
            simp [hi, hj, this]
          · simp [hij, hi, hj]
    rw [Finset.sum_congr rfl fun i hi => Finset.sum_congr rfl fun j hj => this i hi j hj]
    simp only [Finset.sum_add_distrib]
    congr 1
    have s1 : ∑ i ∈ Finset.range n, ∑ j ∈ Finset.range n,
        (if i = r then (if r < j then (v - s r) * (J (min r j) (max r j) * s j) else 0) else 0) =
        ∑ j ∈ Finset.range n, (if r < j then (v - s r) * (J (min r j) (max r j) * s j) else 0) := by
      rw [Finset.sum_comm]
      refine Finset.sum_congr rfl fun j _ => ?_
      rw [Finset.sum_ite_eq' (Finset.range n) r, if_pos (Finset.mem_range.2 hr)]
    have s2 : ∑ i ∈ Finset.range n, ∑ j ∈ Finset.range n,
        (if j = r then (if i < r then (v - s r) * (J (min r i) (max r i) * s i) else 0) else 0) =
        ∑ i ∈ Finset.range n, (if i < r then (v - s r) * (J (min r i) (max r i) * s i) else 0) := by
      refine Finset.sum_congr rfl fun i _ => ?_
      rw [Finset.sum_ite_eq' (Finset.range n) r, if_pos (Finset.mem_range.2 hr)]
    rw [s1, s2, Finset.mul_sum, ← Finset.sum_add_distrib]
    refine Finset.sum_congr rfl fun j _ => ?_
    rcases lt_trichotomy j r with hj | hj | hj
    · have a1 : ¬ r < j := by omega
      have a2 : j ≠ r := by omega
      simp [hj, a1, a2]
    · subst hj; simp
    · have a1 : ¬ j < r := by omega
      have a2 : j ≠ r := by omega
      simp [hj, a1, a2]
  rw [e1, e2]
  ring

/-- The same for a symmetric matrix. -/
theorem isingE_update_symm [CommRing K] (n r : ℕ) (hr : r < n) (h : ℕ → K) (J : ℕ → ℕ → K)
    (hs : ∀ i j, J i j = J j i) (h0 : J r r = 0) (s : ℕ → K) (v : K) :
    isingE n h J (fun i => if i = r then v else s i) =
      isingE n h J s - (v - s r) * (h r + ∑ j ∈ Finset.range n, J r j * s j) := by
  rw [isingE_update n r hr]
  congr 3
  refine Finset.sum_congr rfl fun j _ => ?_
  split
  · subst_vars; rw [h0, zero_mul]
  · rcases le_total r j with hj | hj
    · rw [min_eq_left hj, max_eq_right hj]
    · rw [min_eq_right hj, max_eq_left hj, hs]

end Verif.Lemmas
