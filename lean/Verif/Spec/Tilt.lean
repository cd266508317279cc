/-
Reweighting a set of vectors, without reference to the code.
-/
import Verif.Spec.Energy
import Mathlib.Analysis.SpecialFunctions.Exp

namespace Verif.Spec

/-- Mean of entry `i` of the vectors `O` when vector `o` has the weight `exp(d . o)`. -/
noncomputable def tiltedMean (O : List (List ℝ)) (d : List ℝ) (i : ℕ) : ℝ :=
  (O.map fun o => Real.exp (dot d o) * o.getD i 0).sum / (O.map fun o => Real.exp (dot d o)).sum

/-- The first `N` entries of `c` are those of a mixture of the vectors `O`. -/
def Mixture (O : List (List ℝ)) (N : ℕ) (c : List ℝ) : Prop :=
  ∃ q : List ℝ, q.length = O.length ∧ (∀ x ∈ q, 0 ≤ x) ∧ q.sum = 1 ∧
    ∀ i < N, c.getD i 0 = (List.zipWith (fun x o => x * o.getD i 0) q O).sum

end Verif.Spec
