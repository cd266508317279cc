/-
Specification of Boltzmann distributions over a finite list of states.
-/
import Mathlib.Analysis.SpecialFunctions.Exp

namespace Verif.Spec

variable {α : Type*}

/-- Partition function: sum of the weights `exp(-E)`. -/
noncomputable def partition (S : List α) (E : α → ℝ) : ℝ := (S.map fun s => Real.exp (-E s)).sum

/-- Probability of state `s`. -/
noncomputable def boltzmann (S : List α) (E : α → ℝ) (s : α) : ℝ :=
  Real.exp (-E s) / partition S E

/-- Expectation of `f`. -/
noncomputable def expect (S : List α) (E : α → ℝ) (f : α → ℝ) : ℝ :=
  (S.map fun s => boltzmann S E s * f s).sum

end Verif.Spec
