/-
Samples that resemble a distribution, parameters that are close to each other.
-/
import Verif.Spec.Likelihood
import Verif.Spec.Boltzmann

namespace Verif.Spec
open Verif

/-- The rows of `X` are states of `n` spins, and every state has a frequency within `δ` of its probability under the
pairwise model with parameters `θ` (fields, then couplings). -/
def CloseFreq (n : ℕ) (θ : List ℝ) (δ : ℝ) (X : List (List ℤ)) : Prop :=
  X ≠ [] ∧ (∀ s ∈ X, s ∈ words [1, -1] n) ∧ ∀ s ∈ words [1, -1] n, |(X.count s : ℝ) / X.length -
    boltzmann (words [1, -1] n) (fun s => isingVecE n (θ.take n) (θ.drop n) (spins s)) s| < δ

/-- The rows of `X` are states of `n` spins, and every state has a frequency within `δ` of its probability in the Boltzmann
distribution with energy `E`. -/
def CloseTo (n : ℕ) (E : List ℤ → ℝ) (δ : ℝ) (X : List (List ℤ)) : Prop :=
  X ≠ [] ∧ (∀ s ∈ X, s ∈ words [1, -1] n) ∧ ∀ s ∈ words [1, -1] n, |(X.count s : ℝ) / X.length -
    boltzmann (words [1, -1] n) E s| < δ

/-- As many parameters, all within `ε`. -/
def Near (ε : ℝ) (v θ : List ℝ) : Prop := v.length = θ.length ∧ ∀ i < θ.length, |v.getD i 0 - θ.getD i 0| < ε

end Verif.Spec
