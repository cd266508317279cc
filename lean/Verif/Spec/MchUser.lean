/-
The observables whose means a model of each class is fitted to; objects of class MCH that a user can have for such a model, and
arguments of `solve` that make sense.
-/
import Verif.Spec.MchProg
import Verif.Model.MchUser

namespace Verif.Spec
open Verif Verif.Model

/-- The observables of a state, in the order of the parameters: spins and products of two spins; the same and products of three
spins; for the Potts model whether a spin has a given value, and whether two spins are equal. -/
def kindObs (k : ModelKind) (n : ℕ) (s : List ℤ) : List ℝ :=
  match k with
  | .ising => pairObs n (spins s)
  | .triplet => (tuples n 1 ++ tuples n 2 ++ tuples n 3).map (mono (spins s))
  | .potts3 => ((List.range 3).flatMap fun a : ℕ => (List.range n).map fun i => if s.getD i 0 = (a : ℤ) then (1 : ℝ) else 0) ++
      (upperPairs n).map fun p => if s.getD p.1 0 = s.getD p.2 0 then (1 : ℝ) else 0

/-- The mean of observable `i` in the model of class `k` with the given parameters. -/
noncomputable def kindMean (k : ModelKind) (n : ℕ) (theta : List ℝ) (i : ℕ) : ℝ :=
  expect (words (alphabet k) n) (modelEnergy k n theta) fun s => (kindObs k n s).getD i 0

/-- The function `calc_observables` that belongs to a class of models. -/
def kindObsArg : ModelKind → ObsArg
  | .ising => .ising
  | .triplet => .triplet
  | .potts3 => .potts 3

/-- What is asked of `mch_approximation`: for samples of states it returns as many numbers as there are parameters, none larger
than 1. (Nothing is asked about which numbers.) Without a function the one of the Ising model is used. -/
def ApproxFits (k : ModelKind) (n : ℕ) : ApproxArg → Prop
  | none => k = .ising
  | some f => ∀ X : Data, X ≠ [] → (∀ s ∈ X, s ∈ words (alphabet k) n) → ∀ d : List ℝ, d.length = paramCount k n →
      ∃ r, f X d = .ok r ∧ r.length = paramCount k n ∧ ∀ x ∈ r, |x| ≤ 1

/-- The object is what a user can have: made for `n` spins with a model of class `k` that the user has made and used before (or
the default model), with the observables of that class; then `solve` was called any number of times with any arguments. -/
inductive UserReached (mc : Machine) (k : ModelKind) (n : ℕ) : MchUser → Prop
  | made (arg : SolverArg) (model : Option ModelObj) (size : ℕ) (approx : ApproxArg) (boost : Bool) (rng : ℕ) (m : MchUser)
      (harg : SolverArg.spins? arg = some n)
      (hmodel : ∀ o, model = some o → ∃ x, Reached mc k x o ∧ o.n = n ∧ o.multipliers.length = paramCount k n)
      (hnone : model = none → k = .ising)
      (h : mchInitUser mc arg model (kindObsArg k) size approx boost rng = .ok m) : UserReached mc k n m
  | solved (m : MchUser) (hm : UserReached mc k n m) (a : MchArgs) (σ : Type) (g : Gen σ) (seed : σ) (r : MchResult ModelObj)
      (hg : g.Valid) (h : (run g (mchSolveU mc m a) seed).1 = .ok r) : UserReached mc k n { m with model := r.sample }

/-- Arguments of `solve` for `n` spins: the right number of parameters, `eta` given, samples of at least `s0` states, changes
of the parameters limited by `Δ` and factors by `H`, starting point limited by `B`. -/
structure UserFits (k : ModelKind) (n s0 : ℕ) (B Δ H : ℝ) (a : MchArgs) (c : List ℝ) : Prop where
  length : c.length = paramCount k n
  range : ∀ x ∈ c, |x| ≤ 1
  guess_length : ∀ x, a.guess = some x → x.length = paramCount k n
  guess : ∀ x, a.guess = some x → ∀ v ∈ x, |v| ≤ B
  eta : (MchArgs.round a 0).1.eta ≠ none
  sizes : (∀ i, (MchArgs.round a i).2 = none) ∨ ∀ i, ∃ k, (MchArgs.round a i).2 = some k ∧ s0 ≤ k
  change : ∀ i, 0 ≤ (MchArgs.round a i).1.maxdlamda.getD 1 ∧ (MchArgs.round a i).1.maxdlamda.getD 1 ≤ Δ
  factor : ∀ i, |(MchArgs.round a i).1.eta.getD 1| ≤ H

/-- With the compiled extension the sampler of the Potts model needs at least two workers (one less than the processors), and
more samples than workers. -/
def WorkersFit (mc : Machine) (k : ModelKind) (s0 : ℕ) : Prop :=
  k = .potts3 → mc.ext = true → 3 ≤ mc.cpus ∧ mc.cpus ≤ s0

end Verif.Spec
