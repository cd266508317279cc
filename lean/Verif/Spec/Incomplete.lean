/-
Specification of predictions from several samples.
-/
import Verif.Spec.Energy
import Verif.Spec.Matrix
import Mathlib.Analysis.SpecialFunctions.Exp

namespace Verif.Spec

/-- The mean of observable `a` over the rows of `Y`, row `s` counted with weight `exp(d·O(s))`. -/
noncomputable def reweighted (N : ℕ) (Y : List (List ℤ)) (d : List ℝ) (a : ℕ) : ℝ :=
  (Y.map fun s => Real.exp (dot d (pairObs N (spins s))) * (pairObs N (spins s)).getD a 0).sum /
    (Y.map fun s => Real.exp (dot d (pairObs N (spins s)))).sum

/-- A nonempty array of numbers -1, 0, 1 with `N` columns. -/
def SpinRows (N : ℕ) (Y : List (List ℤ)) : Prop :=
  Y ≠ [] ∧ ∀ r ∈ Y, r.length = N ∧ ∀ x ∈ r, x = -1 ∨ x = 0 ∨ x = 1

end Verif.Spec
