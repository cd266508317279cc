/-
Objects of class MCH that a user can have; arguments of `solve` that make sense.
-/
import Verif.Model.MchProg
import Verif.Spec.ModelEnergy
import Verif.Spec.Boltzmann

namespace Verif.Spec
open Verif Verif.Model

/-- The number of spins that the argument of a solver tells. -/
def SolverArg.spins? : SolverArg → Option ℕ
  | .nothing => none
  | .size n => some n.toNat
  | .data n _ => some n

/-- The object is what a user can have: made for `n` spins, with the default model or with an Ising model of `n` spins that
the user has made and used before; then `solve` was called any number of times with any arguments. -/
inductive MchReached (mc : Machine) (n : ℕ) : MchObj → Prop
  | made (arg : SolverArg) (model : Option ModelObj) (size : ℕ) (boost : Bool) (rng : ℕ) (m : MchObj)
      (harg : SolverArg.spins? arg = some n)
      (hmodel : ∀ o, model = some o → ∃ x, Reached mc .ising x o ∧ o.n = n ∧ o.multipliers.length = paramCount .ising n)
      (h : mchInit mc arg model size boost rng = .ok m) : MchReached mc n m
  | solved (m : MchObj) (hm : MchReached mc n m) (a : MchArgs) (σ : Type) (g : Gen σ) (seed : σ) (r : MchResult ModelObj)
      (hg : g.Valid) (h : (run g (mchSolveP mc m a) seed).1 = .ok r) : MchReached mc n { m with model := r.sample }

/-- The settings of round `i` of `solve`. -/
def MchArgs.round (a : MchArgs) (i : ℕ) : LearnKw × Option ℕ :=
  match a.custom with
  | none => (a.kw, none)
  | some f => f i

/-- Arguments of `solve` for `n` spins: the right number of parameters, `eta` given, samples of at least `s0` states, changes
of the parameters limited by `Δ` and factors by `H`, starting point limited by `B`. -/
structure MchFits (n s0 : ℕ) (B Δ H : ℝ) (a : MchArgs) (c : List ℝ) : Prop where
  length : c.length = paramCount .ising n
  range : ∀ x ∈ c, |x| ≤ 1
  guess_length : ∀ x, a.guess = some x → x.length = paramCount .ising n
  guess : ∀ x, a.guess = some x → ∀ v ∈ x, |v| ≤ B
  eta : (MchArgs.round a 0).1.eta ≠ none
  sizes : (∀ i, (MchArgs.round a i).2 = none) ∨ ∀ i, ∃ k, (MchArgs.round a i).2 = some k ∧ s0 ≤ k
  change : ∀ i, 0 ≤ (MchArgs.round a i).1.maxdlamda.getD 1 ∧ (MchArgs.round a i).1.maxdlamda.getD 1 ≤ Δ
  factor : ∀ i, |(MchArgs.round a i).1.eta.getD 1| ≤ H

/-- The mean of observable `i` (spins, then products of pairs) in the Ising model with the given parameters. -/
noncomputable def modelMean (n : ℕ) (theta : List ℝ) (i : ℕ) : ℝ :=
  expect (words [1, -1] n) (modelEnergy .ising n theta) fun s => (pairObs n (spins s)).getD i 0

end Verif.Spec
