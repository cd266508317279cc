/-
Specification of the coupling-matrix form of the pairwise model on {0,1} (mean-field code): fields on
the diagonal, couplings off it.
-/
import Mathlib.Algebra.BigOperators.Group.Finset.Basic
import Mathlib.Algebra.BigOperators.Ring.Finset
import Mathlib.Algebra.Field.Defs

namespace Verif.Spec
open Finset

variable {K : Type*} [CommRing K]

/-- `Σ_ab x_a M_ab x_b`. -/
def quadForm (n : ℕ) (M : ℕ → ℕ → K) (x : ℕ → K) : K :=
  ∑ a ∈ range n, ∑ b ∈ range n, x a * M a b * x b

/-- Energy `Σ_i J_ii x_i + Σ_{i≠j} J_ij x_i x_j`. -/
def quadE (n : ℕ) (J : ℕ → ℕ → K) (x : ℕ → K) : K :=
  (∑ i ∈ range n, J i i * x i) +
    ∑ i ∈ range n, ∑ j ∈ range n, if i = j then 0 else J i j * x i * x j

end Verif.Spec
