/-
Specification of external optimisers.
-/
import Mathlib.Data.Real.Basic
import Verif.Basic

namespace Verif.Spec
open Verif

/-- All residuals are zero at `x`. -/
def RootAt (f : List ℝ → Py (List ℝ)) (x : List ℝ) : Prop := ∃ r, f x = .ok r ∧ ∀ y ∈ r, y = 0

/-- A least-squares routine that finds a point with zero residuals whenever there is one with as many
numbers as the starting point. -/
def ExactLsq (lsq : (List ℝ → Py (List ℝ)) → List ℝ → Py (List ℝ)) : Prop :=
  ∀ f x0, (∃ x, x.length = x0.length ∧ RootAt f x) →
    ∃ x, lsq f x0 = .ok x ∧ x.length = x0.length ∧ RootAt f x

end Verif.Spec
