/-
What the objective of RegularizedMeanField should be.
-/
import Verif.Spec.Moments
import Mathlib.Algebra.BigOperators.Group.Finset.Basic
import Mathlib.Data.Real.Basic

namespace Verif.Spec

/-- Mean of a proportion after `N` trials with observed proportion `x`, with one success and one failure added. -/
noncomputable def laplaceMean (N : ℕ) (x : ℝ) : ℝ := (x * N + 1) / (N + 2)

/-- Sum over the pairs `i ≤ j` of the squared differences between the co-occurrences `c` and the co-occurrences `D` of `N`
samples, in units of the variances of the latter. -/
noncomputable def chiSquare (n N : ℕ) (c D : ℕ → ℕ → ℝ) : ℝ :=
  ∑ i ∈ Finset.range n, ∑ j ∈ Finset.range n, if i ≤ j then
    (c i j - D i j) ^ 2 / (laplaceMean N (D i j) * (1 - laplaceMean N (D i j)) / N) else 0

/-- Data of `n` spins in which every spin is seen up and down. -/
def Varied (n : ℕ) (X : List (List ℤ)) : Prop :=
  (∀ r ∈ X, r.length = n ∧ ∀ x ∈ r, x = 1 ∨ x = -1) ∧ X ≠ [] ∧
    ∀ i < n, (∃ r ∈ X, r.getD i 0 = 1) ∧ ∃ r ∈ X, r.getD i 0 = -1

end Verif.Spec
