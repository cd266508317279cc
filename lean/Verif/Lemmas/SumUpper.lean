import Mathlib.Algebra.BigOperators.Group.Finset.Basic
import Mathlib.Algebra.BigOperators.Group.Finset.Sigma
import Mathlib.Data.Real.Basic

namespace Verif.Lemmas

/-- A sum over ordered pairs as a sum over unordered pairs. -/
theorem sum_sum_upper (n : ℕ) (F : ℕ → ℕ → ℝ) (hF : ∀ i, F i i = 0) :
    ∑ i ∈ Finset.range n, ∑ j ∈ Finset.range n, F i j =
      ∑ i ∈ Finset.range n, ∑ j ∈ Finset.range n, if i < j then F i j + F j i else 0 := by
  have h1 : ∀ i j, F i j = (if i < j then F i j else 0) + if j < i then F i j else 0 := fun i j => by
    rcases lt_trichotomy i j with h | rfl | h
    · simp [h, h.not_gt]
    · simp [hF]
    · simp [h, h.not_gt]
  have h2 : ∀ i j, (if i < j then F i j + F j i else 0) = (if i < j then F i j else 0) + if i < j then F j i else 0 :=
    fun i j => by split <;> simp
  rw [Finset.sum_congr rfl fun i _ => Finset.sum_congr rfl fun j _ => h1 i j]
  simp only [h2, Finset.sum_add_distrib]
  congr 1
  exact Finset.sum_comm


end Verif.Lemmas
