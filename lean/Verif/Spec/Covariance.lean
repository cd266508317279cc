/-
Covariances.
-/
import Verif.Spec.Boltzmann
import Verif.Spec.Moments

namespace Verif.Spec

/-- Covariance of two functions over the rows of a sample. -/
noncomputable def covar {α : Type*} (X : List α) (f g : α → ℝ) : ℝ := avg X (fun r => f r * g r) - avg X f * avg X g

/-- Covariance of two functions under the Boltzmann distribution. -/
noncomputable def modelCov {α : Type*} (S : List α) (E : α → ℝ) (f g : α → ℝ) : ℝ :=
  expect S E (fun s => f s * g s) - expect S E f * expect S E g

end Verif.Spec
