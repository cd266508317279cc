/-
Objects of class SparseMCH that a user can have; arguments of `solve` that make sense.
-/
import Verif.Model.SparseMchProg
import Verif.Spec.MchProg

namespace Verif.Spec
open Verif Verif.Model

/-- The object is what a user can have: made for `n` spins and the positions `pix`, with the default model or with an Ising
model of `n` spins that the user has made and used before; then `solve` was called any number of times with any arguments. -/
inductive SparseReached (mc : Machine) (n : ℕ) (pix : List ℕ) : SparseMchObj → Prop
  | made (arg : SolverArg) (model : Option ModelObj) (size : ℕ) (boost : Bool) (rng : ℕ) (m : SparseMchObj)
      (harg : SolverArg.spins? arg = some n)
      (hmodel : ∀ o, model = some o → ∃ x, Reached mc .ising x o ∧ o.n = n ∧ o.multipliers.length = paramCount .ising n)
      (h : sparseMchInit mc arg model (some pix) size boost rng = .ok m) : SparseReached mc n pix m
  | solved (m : SparseMchObj) (hm : SparseReached mc n pix m) (a : MchArgs) (σ : Type) (g : Gen σ) (seed : σ)
      (r : MchResult ModelObj) (hg : g.Valid) (h : (run g (sparseMchSolveP mc m a) seed).1 = .ok r) :
      SparseReached mc n pix { m with model := r.sample }

/-- Arguments of `solve` for `k` selected parameters: constraints and starting point of that length, `eta` given, samples of
at least `s0` states, changes of the parameters limited by `Δ` and factors by `H`, starting point limited by `B`. -/
structure SparseFits (k s0 : ℕ) (B Δ H : ℝ) (a : MchArgs) (c : List ℝ) : Prop where
  length : c.length = k
  range : ∀ x ∈ c, |x| ≤ 1
  guess_length : ∀ x, a.guess = some x → x.length = k
  guess : ∀ x, a.guess = some x → ∀ v ∈ x, |v| ≤ B
  eta : (MchArgs.round a 0).1.eta ≠ none
  sizes : (∀ i, (MchArgs.round a i).2 = none) ∨ ∀ i, ∃ k, (MchArgs.round a i).2 = some k ∧ s0 ≤ k
  change : ∀ i, 0 ≤ (MchArgs.round a i).1.maxdlamda.getD 1 ∧ (MchArgs.round a i).1.maxdlamda.getD 1 ≤ Δ
  factor : ∀ i, |(MchArgs.round a i).1.eta.getD 1| ≤ H

end Verif.Spec
