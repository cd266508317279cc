/-
The three models of models.py: states, parameters, energies; objects that a user can have.
-/
import Verif.Model.SampleFront
import Verif.Spec.Energy
import Verif.Spec.Poly
import Verif.Spec.Rand

namespace Verif.Spec
open Verif Verif.Model

/-- The values a spin of the model can have. -/
def alphabet : ModelKind → List ℤ
  | .ising | .triplet => [1, -1]
  | .potts3 => [0, 1, 2]

/-- Number of parameters of a model of `n` spins. -/
def paramCount : ModelKind → ℕ → ℕ
  | .ising, n => n + n * (n - 1) / 2
  | .triplet, n => n + n * (n - 1) / 2 + n.choose 3
  | .potts3, n => 3 * n + n * (n - 1) / 2

/-- The energy of a state: fields, couplings and triplet interactions one after another in `theta`. -/
def modelEnergy (k : ModelKind) (n : ℕ) (theta : List ℝ) (s : List ℤ) : ℝ :=
  match k with
  | .ising => isingVecE n (theta.take n) (theta.drop n) (spins s)
  | .triplet => polyE n [theta.take n, (theta.drop n).take (n * (n - 1) / 2), theta.drop (n + n * (n - 1) / 2)] (spins s)
  | .potts3 => pottsVecE n 3 (theta.take (3 * n)) (theta.drop (3 * n)) fun i => s.getD i 0

/-- The object is what some program of a user has made: it made a model of class `k` from `a` and called operations, with
some generator of random numbers. -/
def Reached (mc : Machine) (k : ModelKind) (a : IsingArg ℝ) (o : ModelObj) : Prop :=
  ∃ (rng : ℕ) (ops : List ModelOp) (σ : Type) (g : Gen σ) (seed : σ), g.Valid ∧
    (run g (userProgram mc k a rng ops) seed).1 = .ok o

end Verif.Spec
