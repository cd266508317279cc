/-
Specification of conditional probabilities and the pseudolikelihood.
-/
import Verif.Basic
import Verif.Spec.Energy
import Mathlib.Analysis.SpecialFunctions.Log.Basic

namespace Verif.Spec

/-- Probability of the value of spin `r` in state `s` given all other spins, under the Boltzmann
distribution of `E`; `vals` are the possible values of the spin. -/
noncomputable def condProb (E : List ℤ → ℝ) (vals : List ℤ) (r : ℕ) (s : List ℤ) : ℝ :=
  Real.exp (-E s) / (vals.map fun v => Real.exp (-E (s.set r v))).sum

/-- Minus the conditional log-likelihood of spin `r` over a sample. -/
noncomputable def negCondLogLik (E : List ℤ → ℝ) (vals : List ℤ) (X : List (List ℤ)) (r : ℕ) : ℝ :=
  -(X.map fun s => Real.log (condProb E vals r s)).sum

/-- Energy of the pairwise model with parameter vector `θ`: fields, then row-major couplings. -/
noncomputable def vecE (n : ℕ) (θ : List ℝ) (s : List ℤ) : ℝ :=
  isingVecE n (θ.take n) (θ.drop n) (spins s)

/-- Energy of the Potts model with parameter vector `θ`: fields state by state, then row-major
couplings. -/
noncomputable def vecPottsE (n k : ℕ) (θ : List ℝ) (s : List ℤ) : ℝ :=
  pottsVecE n k (θ.take (k * n)) (θ.drop (k * n)) fun i => s.getD i 0

/-- The values of a Potts spin. -/
def pottsVals (k : ℕ) : List ℤ := (List.range k).map fun a : ℕ => (a : ℤ)

/-- `x` is a vector of `n` numbers where the first value returned by `f` is smallest. -/
def IsMinimizer (f : List ℝ → Py (ℝ × List ℝ)) (n : ℕ) (x : List ℝ) : Prop :=
  x.length = n ∧ ∀ y v g w g', y.length = n → f x = .ok (v, g) → f y = .ok (w, g') → v ≤ w

end Verif.Spec
