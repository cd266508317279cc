/-
Maximum likelihood for pairwise models of ±1 spins.
-/
import Verif.Spec.Energy
import Verif.Spec.Boltzmann
import Verif.Spec.Words
import Verif.Spec.Moments
import Mathlib.Analysis.SpecialFunctions.Log.Basic

namespace Verif.Spec

/-- Energy of a state for a vector with the `n` fields followed by the couplings. -/
def pairE (n : ℕ) (v : List ℝ) (s : List ℤ) : ℝ := isingVecE n (v.take n) (v.drop n) (spins s)

/-- Log likelihood of a sample. -/
noncomputable def logLik (n : ℕ) (v : List ℝ) (X : List (List ℤ)) : ℝ :=
  (X.map fun r => Real.log (boltzmann (words [-1, 1] n) (pairE n v) r)).sum

/-- The model has the mean spins and the mean pair products of the sample. -/
def Reproduces (n : ℕ) (v : List ℝ) (X : List (List ℤ)) : Prop :=
  (∀ i < n, expect (words [-1, 1] n) (pairE n v) (fun s => spins s i) = avg X fun r => (spins r i : ℝ)) ∧
  ∀ i j, i < j → j < n → expect (words [-1, 1] n) (pairE n v) (fun s => spins s i * spins s j) =
    avg X fun r => (spins r i * spins r j : ℝ)

end Verif.Spec
