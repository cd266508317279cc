/-
Specification of the homogeneous Ising model and of numerical integration.
-/
import Verif.Basic
import Verif.Spec.Boltzmann
import Verif.Spec.MaxEnt
import Verif.Spec.Words
import Mathlib.MeasureTheory.Integral.Bochner.Basic
import Mathlib.MeasureTheory.Measure.Lebesgue.Basic

namespace Verif.Spec
open Verif

/-- Energy of the homogeneous system: every spin has the field `h`, every ordered pair of positions
(the diagonal included) the coupling `J`. -/
def homE (N : ℕ) (h J : ℝ) (s : List ℤ) : ℝ :=
  -(∑ i ∈ Finset.range N, h * ((s.getD i 0 : ℤ) : ℝ)) -
    ∑ i ∈ Finset.range N, ∑ j ∈ Finset.range N, J * ((s.getD i 0 : ℤ) : ℝ) * ((s.getD j 0 : ℤ) : ℝ)

/-- Exact numerical integration over the real line: right for every integrable function, and what the
integrand raises is raised. -/
def QuadExact (quad : (ℝ → Py ℝ) → Py ℝ) : Prop :=
  (∀ (f : ℝ → Py ℝ) (g : ℝ → ℝ), (∀ x, f x = .ok (g x)) → MeasureTheory.Integrable g →
    quad f = .ok (∫ x, g x)) ∧
  ∀ (f : ℝ → Py ℝ) (e : PyErr), (∀ x, f x = .error e) → quad f = .error e

/-- Entropy of one spin with probability `p` to be up. -/
noncomputable def spinEntropy (p : ℝ) : ℝ := -(p * Real.log p) - (1 - p) * Real.log (1 - p)

end Verif.Spec
