/-
Specification of distributions, averages and entropy over a finite list of states.
-/
import Mathlib.Analysis.SpecialFunctions.Log.Basic

namespace Verif.Spec

variable {α : Type*}

/-- `q` is a probability distribution over the states `S`. -/
def IsDist (S : List α) (q : α → ℝ) : Prop := (∀ s ∈ S, 0 ≤ q s) ∧ (S.map q).sum = 1

/-- Average of `f` under `q`. -/
def mean (S : List α) (q f : α → ℝ) : ℝ := (S.map fun s => q s * f s).sum

/-- Shannon entropy (natural logarithm, `0 log 0 = 0`). -/
noncomputable def entropy (S : List α) (q : α → ℝ) : ℝ := -(S.map fun s => q s * Real.log (q s)).sum

end Verif.Spec
