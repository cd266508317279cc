/-
Specification of the regularised mean-field equations: covariance and correlation matrices, the
regularised correlation matrix, and the contract of the eigenvalue routine.
-/
import Verif.Spec.Matrix
import Mathlib.Analysis.Matrix.PosDef
import Mathlib.Analysis.SpecialFunctions.Log.Basic

namespace Verif.Spec
open Matrix

/-- The `n × n` matrix of a list of rows. -/
def toMatrix (n : ℕ) (M : Mat ℝ) : Matrix (Fin n) (Fin n) ℝ := fun i j => M.at' i j

/-- Covariance matrix of 0/1 variables with co-occurrences `C`. -/
def covMatrix (n : ℕ) (C : ℕ → ℕ → ℝ) : Matrix (Fin n) (Fin n) ℝ :=
  fun i j => C i j - C i i * C j j

/-- Correlation matrix: the covariances divided by the standard deviations `√(f(1-f))`. -/
noncomputable def corrMatrix (n : ℕ) (C : ℕ → ℕ → ℝ) : Matrix (Fin n) (Fin n) ℝ :=
  fun i j => (C i j - C i i * C j j) /
    (Real.sqrt (C i i * (1 - C i i)) * Real.sqrt (C j j * (1 - C j j)))

/-- `V` holds orthonormal eigenvectors of `M` in its columns, `m` the eigenvalues. -/
structure IsEigen {n : ℕ} (M : Matrix (Fin n) (Fin n) ℝ) (m : Fin n → ℝ)
    (V : Matrix (Fin n) (Fin n) ℝ) : Prop where
  orth : V * Vᵀ = 1
  dec : M = V * diagonal m * Vᵀ

/-- Contract of the eigenvalue routine on the `n × n` matrix `M`: eigenvalues and orthonormal
eigenvectors. -/
def ExactEig (eig : Mat ℝ → List ℝ × Mat ℝ) (n : ℕ) (M : Mat ℝ) : Prop :=
  (eig M).1.length = n ∧ IsEigen (toMatrix n M) (fun k => (eig M).1.getD k 0) (toMatrix n (eig M).2)

/-- `A` is the correlation matrix `M` regularised with strength `g`: positive definite with
`A - g A⁻¹ = M - g`. -/
def RegCorr {n : ℕ} (g : ℝ) (M A : Matrix (Fin n) (Fin n) ℝ) : Prop :=
  A.PosDef ∧ A - g • A⁻¹ = M - g • (1 : Matrix (Fin n) (Fin n) ℝ)

/-- Entropy of a binary variable that is one with probability `f`. -/
noncomputable def binEntropy (f : ℝ) : ℝ := -f * Real.log f - (1 - f) * Real.log (1 - f)

end Verif.Spec
