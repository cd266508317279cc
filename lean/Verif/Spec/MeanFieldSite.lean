/-
Specification of single-site mean-field theory and of root finding.
-/
import Verif.Basic
import Verif.Spec.Matrix
import Verif.Spec.Moments
import Verif.Spec.MeanField
import Mathlib.Analysis.SpecialFunctions.Exp
import Mathlib.Topology.Order.IntermediateValue
import Mathlib.LinearAlgebra.Matrix.Charpoly.Basic
import Mathlib.Analysis.Complex.Norm

namespace Verif.Spec
open Verif

/-- `brentq(f, a, b)` finds a root of a continuous function with a sign change, and raises `ValueError`
if there is no sign change. -/
def BrentqOk (brentq : (ℝ → ℝ) → ℝ → ℝ → Py ℝ) : Prop :=
  ∀ (f : ℝ → ℝ) (a b : ℝ), a < b → ContinuousOn f (Set.Icc a b) →
    (f a * f b ≤ 0 → ∃ x ∈ Set.Icc a b, brentq f a b = .ok x ∧ f x = 0) ∧
    (0 < f a * f b → brentq f a b = .error .valueError)

/-- Probability that a spin is active in the field `u` at temperature `T`, with weight `exp(-u x/T)`. -/
noncomputable def activeProb (u T : ℝ) : ℝ := Real.exp (-(u / T)) / (1 + Real.exp (-(u / T)))

/-- Energy per spin of `ell` independent spins with mean `m`, for the energy
`h ∑ xᵢ + J ∑_{i≠j} xᵢ xⱼ`. -/
def mfEnergy (h J ell m : ℝ) : ℝ := h * m + (ell - 1) * J * m ^ 2

/-- Mean-field map for fields `h` and couplings `J` (`J i j` for each ordered pair, energy
`∑ hᵢ xᵢ + ∑_{i≠j} Jᵢⱼ xᵢ xⱼ` with a symmetric `J`): mean of spin `i` if the others are at their means. -/
noncomputable def mfMap {n : ℕ} (h : Fin n → ℝ) (J : Matrix (Fin n) (Fin n) ℝ) (m : Fin n → ℝ)
    (i : Fin n) : ℝ :=
  1 / (1 + Real.exp (h i + 2 * ∑ j, if j = i then 0 else J i j * m j))

/-- `eigvals` lists the roots of the characteristic polynomial over the complex numbers. -/
def EigvalsOk (eigvals : Mat ℝ → List ℂ) : Prop :=
  ∀ (n : ℕ) (M : Mat ℝ), M.HasShape n n →
    (eigvals M : Multiset ℂ) = ((toMatrix n M).map (algebraMap ℝ ℂ)).charpoly.roots

/-- Sample covariance of two functions of a row. -/
def sampleCov {K : Type*} [Field K] (X : List (List K)) (f g : List K → K) : K :=
  avg X (fun r => f r * g r) - avg X f * avg X g

end Verif.Spec
