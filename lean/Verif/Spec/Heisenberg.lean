/-
Specification of the Heisenberg model: unit vectors given by polar angles.
-/
import Verif.Spec.Energy
import Mathlib.Analysis.SpecialFunctions.Trigonometric.Basic

namespace Verif.Spec
open Finset Real

/-- The three components of the unit vector with polar angle `a` and azimuth `b`. -/
noncomputable def unitVec (a b : ℝ) (c : ℕ) : ℝ := if c = 0 then sin a * cos b else if c = 1 then sin a * sin b else cos a

/-- Scalar product of two vectors in three dimensions. -/
def dot3 (u v : ℕ → ℝ) : ℝ := ∑ c ∈ range 3, u c * v c

/-- Energy `-Σ_{i<j} J_ij S_i · S_j` of the unit vectors with polar angles `th` and azimuths `ph`. -/
noncomputable def heisenbergE (n : ℕ) (J : ℕ → ℕ → ℝ) (th ph : ℕ → ℝ) : ℝ :=
  -∑ i ∈ range n, ∑ j ∈ range n, if i < j then J i j * dot3 (unitVec (th i) (ph i)) (unitVec (th j) (ph j)) else 0

end Verif.Spec
