/-
Specification of the probability flow objective (Sohl-Dickstein et al. 2011).
-/
import Mathlib.Analysis.SpecialFunctions.Exp

namespace Verif.Spec

variable {α : Type*}

/-- Average over the data of the flow out of a state into its neighbours,
`Σ_t exp((E(s)-E(t))/2)`. -/
noncomputable def probFlow (X : List α) (nbrs : α → List α) (E : α → ℝ) : ℝ :=
  (X.map fun s => ((nbrs s).map fun t => Real.exp ((E s - E t) / 2)).sum).sum / X.length

/-- The states one flip away. -/
def flips (flip : ℤ → ℤ) (s : List ℤ) : List (List ℤ) :=
  (List.range s.length).map fun i => s.set i (flip (s.getD i 0))

end Verif.Spec
