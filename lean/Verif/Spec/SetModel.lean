/-
Specification of the pairwise model on a set of spins without an order: a state is the set of spins that
are one, the coupling matrix has the fields on its diagonal.
-/
import Mathlib.Analysis.SpecialFunctions.Log.Basic
import Mathlib.Algebra.BigOperators.Group.Finset.Powerset

namespace Verif.Spec
open Finset

/-- Energy of the state in which the spins of `X` are one. -/
def setE (J : ℕ → ℕ → ℝ) (X : Finset ℕ) : ℝ := ∑ i ∈ X, ∑ j ∈ X, J i j

/-- Probability of a state in the model on the spins `A`. -/
noncomputable def setProb (A : Finset ℕ) (J : ℕ → ℕ → ℝ) (X : Finset ℕ) : ℝ :=
  Real.exp (-setE J X) / ∑ Y ∈ A.powerset, Real.exp (-setE J Y)

/-- Probability that spins `i` and `j` are both one. -/
noncomputable def setMoment (A : Finset ℕ) (J : ℕ → ℕ → ℝ) (i j : ℕ) : ℝ :=
  ∑ X ∈ A.powerset with i ∈ X ∧ j ∈ X, setProb A J X

/-- Entropy of the model on the spins `A`. -/
noncomputable def setEntropy (A : Finset ℕ) (J : ℕ → ℕ → ℝ) : ℝ :=
  -∑ X ∈ A.powerset, setProb A J X * Real.log (setProb A J X)

/-- `J` is a symmetric coupling matrix for the spins of `A` alone whose model has the co-occurrence
frequencies `C`. -/
structure Fits (A : Finset ℕ) (C J : ℕ → ℕ → ℝ) : Prop where
  symm : ∀ i j, J i j = J j i
  supp : ∀ i j, i ∉ A ∨ j ∉ A → J i j = 0
  moments : ∀ i ∈ A, ∀ j ∈ A, setMoment A J i j = C i j

end Verif.Spec
