/-
Samples that resemble a Potts model, and Potts models that are close to each other.
-/
import Verif.Spec.Cond
import Verif.Spec.Boltzmann
import Verif.Spec.Words

namespace Verif.Spec
open Verif

/-- The rows of `X` are states of `n` Potts spins, and every state has a frequency within `δ` of its probability under the
Potts model with parameters `θ`. -/
def PottsCloseTo (n k : ℕ) (θ : List ℝ) (δ : ℝ) (X : List (List ℤ)) : Prop :=
  X ≠ [] ∧ (∀ s ∈ X, s ∈ words (pottsVals k) n) ∧ ∀ s ∈ words (pottsVals k) n,
    |(X.count s : ℝ) / X.length - boltzmann (words (pottsVals k) n) (vecPottsE n k θ) s| < δ

/-- As many parameters, the differences between the fields of each spin within `ε`, and the couplings within `ε`. Only
differences of fields matter: a constant added to all fields of a spin does not change the distribution. -/
def PottsNear (n k : ℕ) (ε : ℝ) (v θ : List ℝ) : Prop :=
  v.length = θ.length ∧
    (∀ i < n, ∀ a < k, ∀ b < k,
      |(v.getD (a * n + i) 0 - v.getD (b * n + i) 0) - (θ.getD (a * n + i) 0 - θ.getD (b * n + i) 0)| < ε) ∧
    ∀ p < n * (n - 1) / 2, |v.getD (k * n + p) 0 - θ.getD (k * n + p) 0| < ε

/-- The same couplings and the same differences between fields of a spin. -/
def PottsSame (n k : ℕ) (v w : List ℝ) : Prop :=
  (∀ i < n, ∀ a < k, ∀ b < k,
    v.getD (a * n + i) 0 - v.getD (b * n + i) 0 = w.getD (a * n + i) 0 - w.getD (b * n + i) 0) ∧
  ∀ p < n * (n - 1) / 2, v.getD (k * n + p) 0 = w.getD (k * n + p) 0

/-- In the Potts model with parameters `w` no change of one spin lowers the energy of a state in the sample, and some change
raises it. -/
def PottsStable (n k : ℕ) (X : List (List ℤ)) (w : List ℝ) : Prop :=
  (∀ s ∈ X, ∀ r < n, ∀ a ∈ pottsVals k, vecPottsE n k w s ≤ vecPottsE n k w (s.set r a)) ∧
    ∃ s ∈ X, ∃ r < n, ∃ a ∈ pottsVals k, vecPottsE n k w s < vecPottsE n k w (s.set r a)

/-- Minus the log-pseudolikelihood of the Potts model with parameters `v`. -/
noncomputable def pottsNegPL (n k : ℕ) (X : List (List ℤ)) (v : List ℝ) : ℝ :=
  ((List.range n).map fun r => negCondLogLik (vecPottsE n k v) (pottsVals k) X r).sum

end Verif.Spec
