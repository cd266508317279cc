/-
coniii/solvers.py: MCH and SparseMCH (Monte Carlo histogram).
-/
import Verif.Model.Solvers
import Verif.Model.Mpf

namespace Verif.Model
open Verif

/-- `np.linalg.norm` of a vector. -/
noncomputable def vecNorm (v : List ℝ) : ℝ := Real.sqrt (v.map fun x => x * x).sum

/-- `a += b` for an array `a`: only `b` is stretched. -/
def addInto {K : Type*} [Add K] (a b : List K) : Py (List K) :=
  match assignRow a.length b with
  | .error e => .error e
  | .ok b => .ok (List.zipWith (· + ·) a b)

/-- Arguments `maxdlamda`, `maxdlamdaNorm`, `maxLearningSteps` and `eta` of `learn_parameters_mch`. -/
structure LearnArgs where
  maxdlamda : ℝ
  maxdlamdaNorm : ℝ
  maxLearningSteps : ℤ
  eta : ℝ

/-- solvers.py:1005-1008 the local variables of `learn_parameters_mch`. -/
structure LearnState where
  dlamda : List ℝ
  est : List ℝ
  distance : ℝ
  steps : ℕ

/-- solvers.py:1010-1022 one round of the loop up to the exit criteria. `approx` is
`self.mch_approximation(self.model.sample, .)`. NaN entries are not modelled. -/
noncomputable def learnStep (approx : List ℝ → Py (List ℝ)) (c : List ℝ) (eta : ℝ)
    (st : LearnState) : Py LearnState :=
  match broadcast2 (· - ·) st.est c with
  | .error e => .error e
  | .ok diff => match addInto st.dlamda (diff.map fun x => -x * min st.distance 1 * eta) with
    | .error e => .error e
    | .ok d => match approx d with
      | .error e => .error e
      | .ok est => match broadcast2 (· - ·) est c with
        | .error e => .error e
        | .ok diff => .ok ⟨d, est, vecNorm diff, st.steps + 1⟩

/-- solvers.py:1025-1028 the exit criteria. -/
def learnStops (a : LearnArgs) (st : LearnState) : Prop :=
  vecNorm st.dlamda > a.maxdlamdaNorm ∨ (∃ x ∈ st.dlamda, |x| > a.maxdlamda) ∨
    (st.steps : ℤ) > a.maxLearningSteps

open scoped Classical in
/-- solvers.py:1010-1028 the loop, with a bound on the number of rounds; `none` when the bound is used
up before the loop ends. -/
noncomputable def learnLoop (approx : List ℝ → Py (List ℝ)) (c : List ℝ) (a : LearnArgs) :
    ℕ → LearnState → Option (Py LearnState)
  | 0, _ => none
  | fuel + 1, st => match learnStep approx c a.eta st with
    | .error e => some (.error e)
    | .ok st => if learnStops a st then some (.ok st) else learnLoop approx c a fuel st

/-- solvers.py:977-1031 (and 1272-1327, `SparseMCH`) `learn_parameters_mch`: the multipliers
afterwards. `fill` is the identity in `MCH` and `fill_in` in `SparseMCH`. The bound on the number of
rounds is never reached (theorem C43_terminates). -/
noncomputable def learnMch (approx fill : List ℝ → Py (List ℝ)) (est c : List ℝ) (a : LearnArgs)
    (mult : List ℝ) : Py (List ℝ) :=
  match learnLoop approx c a ((a.maxLearningSteps + 1).toNat + 1)
      ⟨List.replicate c.length 0, est, 1, 0⟩ with
  | none => .error .diverge
  | some (.error e) => .error e
  | some (.ok st) => match fill st.dlamda with
    | .error e => .error e
    | .ok d => addInto mult d

/-- The dictionary `learn_params_kwargs`; `none` is a missing key. (Other keys would raise
`TypeError`.) -/
structure LearnKw where
  maxdlamda : Option ℝ
  maxdlamdaNorm : Option ℝ
  maxLearningSteps : Option ℤ
  eta : Option ℝ

/-- solvers.py:977-983 the default values of the arguments. -/
noncomputable def LearnKw.args (k : LearnKw) : LearnArgs :=
  ⟨k.maxdlamda.getD 1, k.maxdlamdaNorm.getD 1, k.maxLearningSteps.getD 50, k.eta.getD 1⟩

/-- solvers.py:882-886, 903, 936 the settings of round `i`: `f` is `custom_convergence_f`, which
returns a dictionary, or a dictionary and a sample size. Which of the two is looked at in call 0 only;
another form later raises (`TypeError` or `ValueError`, here `typeError`). -/
def mchSettings (f : ℕ → LearnKw × Option ℕ) (i size : ℕ) : Py (LearnKw × ℕ) :=
  match (f 0).2, (f i).2 with
  | none, none => .ok ((f i).1, size)
  | some _, some m => .ok ((f i).1, m)
  | _, _ => .error .typeError

/-- What `solve` uses of model and sampler: `gen t m x` is the sample drawn by call number `t` of
`self.model.generate_sample` with sample size `m` and multipliers `x` (the state of the random number
generator depends on `t`); `obs` is `self.calc_observables(.).mean(0)`. -/
structure MchEnv (S : Type*) where
  gen : ℕ → ℕ → List ℝ → Py S
  obs : S → Py (List ℝ)
  approx : S → List ℝ → Py (List ℝ)

/-- State of the main loop of `solve`. -/
structure MchState (S : Type*) where
  mult : List ℝ
  sample : S
  cur : List ℝ
  size : ℕ
  counter : ℕ
  errors : List (List ℝ)

variable {S : Type*}

/-- solvers.py:903-922 one round of the main loop up to the exit criteria (the settings are read at
the start of the round here; in the code at the end of the round before). -/
noncomputable def mchRound (env : MchEnv S) (fill : List ℝ → Py (List ℝ)) (c : List ℝ)
    (f : ℕ → LearnKw × Option ℕ) (st : MchState S) : Py (MchState S) :=
  match mchSettings f st.counter st.size with
  | .error e => .error e
  | .ok (kw, size) => match learnMch (env.approx st.sample) fill st.cur c kw.args st.mult with
    | .error e => .error e
    | .ok mult => match env.gen (st.counter + 1) size mult with
      | .error e => .error e
      | .ok s => match env.obs s with
        | .error e => .error e
        | .ok cur => match broadcast2 (· - ·) cur c with
          | .error e => .error e
          | .ok err => .ok ⟨mult, s, cur, size, st.counter + 1, st.errors ++ [err]⟩

/-- solvers.py:926-927 the criterion for convergence. -/
def mchDone (tol tolNorm : ℝ) (st : MchState S) : Prop :=
  vecNorm (st.errors.getLastD []) < tolNorm ∧ ∀ x ∈ st.errors.getLastD [], |x| < tol

open scoped Classical in
/-- solvers.py:904-936 the main loop with a bound on the number of rounds: final state and error flag. -/
noncomputable def mchLoop (env : MchEnv S) (fill : List ℝ → Py (List ℝ)) (c : List ℝ)
    (f : ℕ → LearnKw × Option ℕ) (tol tolNorm : ℝ) (maxiter : ℤ) :
    ℕ → MchState S → Option (Py (MchState S × ℕ))
  | 0, _ => none
  | fuel + 1, st => match mchRound env fill c f st with
    | .error e => some (.error e)
    | .ok st =>
      if mchDone tol tolNorm st then some (.ok (st, 0))
      else if (st.counter : ℤ) > maxiter then some (.ok (st, 1))
      else mchLoop env fill c f tol tolNorm maxiter fuel st

/-- solvers.py:887-936 from the starting point `x0` to the end of the loop: sample for `x0`, first
entry of the error history, loop. -/
noncomputable def mchRun (env : MchEnv S) (fill : List ℝ → Py (List ℝ)) (c x0 : List ℝ)
    (f : ℕ → LearnKw × Option ℕ) (tol tolNorm : ℝ) (maxiter : ℤ) (size : ℕ) :
    Py (MchState S × ℕ) :=
  if (f 0).1.eta = none then .error .assertion
  else match env.gen 0 size x0 with
    | .error e => .error e
    | .ok s => match env.obs s with
      | .error e => .error e
      | .ok cur => match broadcast2 (· - ·) cur c with
        | .error e => .error e
        | .ok err =>
          match mchLoop env fill c f tol tolNorm maxiter ((maxiter + 1).toNat + 1)
              ⟨x0, s, cur, size, 0, [err]⟩ with
          | none => .error .diverge
          | some r => r

open scoped Classical in
/-- `x or d` for a number or `None`: zero is false. -/
noncomputable def orDefault (x : Option ℝ) (d : ℝ) : ℝ :=
  match x with
  | none => d
  | some v => if v = 0 then d else v

/-- What `solve(full_output=True)` returns, with the attributes `multipliers` and `model.sample`. -/
structure MchResult (S : Type*) where
  returned : List ℝ
  errflag : ℕ
  errors : List (List ℝ)
  multipliers : List ℝ
  sample : S

/-- solvers.py:882-883 without `custom_convergence_f` the settings are the same in every round. -/
def convF (kw : LearnKw) (custom : Option (ℕ → LearnKw × Option ℕ)) : ℕ → LearnKw × Option ℕ :=
  custom.getD fun _ => (kw, none)

/-- solvers.py:787-947 `MCH.solve`; `size` is `self.model.sampleSize`, `self` is `self.constraints`.
(`custom` returns the sample size `self.model.sampleSize` where the default function does; that is the
case `none` of `mchSettings`.) -/
noncomputable def mchSolve (env : MchEnv S) (self guess constraints : Option (List ℝ))
    (tol tolNorm : Option ℝ) (maxiter : ℤ) (kw : LearnKw) (custom : Option (ℕ → LearnKw × Option ℕ))
    (size : ℕ) : Py (MchResult S) :=
  match constraints.or self with
  | none => .error .typeError
  | some c =>
    let x0 := guess.getD (List.replicate c.length 0)
    if x0.length ≠ c.length then .error .assertion
    else match mchRun env (fun d => .ok d) c x0 (convF kw custom)
        (orDefault tol (1 / Real.sqrt size))
        (orDefault tolNorm (Real.sqrt (1 / size) * x0.length)) maxiter size with
      | .error e => .error e
      | .ok (st, flag) => match env.gen (st.counter + 1) st.size st.mult with
        | .error e => .error e
        | .ok s => .ok ⟨st.mult, flag, st.errors, st.mult, s⟩

/-- solvers.py:1224, 1248, 1313-1314 what `SparseMCH` uses of model and sampler: observables and
approximation are restricted to the positions `ix`, and the change of the parameters is filled in with
zeros. -/
def sparseEnv (env : MchEnv S) (nParams : ℕ) (ix : List ℕ) : MchEnv S where
  gen := env.gen
  obs s := match env.obs s with
    | .error e => .error e
    | .ok o => takeIx o ix
  approx s d := match fillIn nParams ix d 0 with
    | .error e => .error e
    | .ok full => match env.approx s full with
      | .error e => .error e
      | .ok o => takeIx o ix

/-- solvers.py:1188-1206 the starting point and the constraints of `SparseMCH.solve`. -/
def sparseMchSetup (ix : List ℕ) (self guess constraints : Option (List ℝ)) :
    Py (List ℝ × List ℝ) :=
  let x0 := guess.getD (List.replicate ix.length 0)
  if x0.length ≠ ix.length then .error .assertion
  else match constraints with
    | some c => if x0.length ≠ c.length then .error .assertion else .ok (x0, c)
    | none => match self with
      | none => .error .assertion
      | some c => if c.length = ix.length then .ok (x0, c) else .error .assertion

/-- solvers.py:1110-1270 `SparseMCH.solve`; `ix` is `self.parameterIx`. -/
noncomputable def sparseMchSolve (env : MchEnv S) (nParams : ℕ) (ix : List ℕ)
    (self guess constraints : Option (List ℝ)) (tol tolNorm : Option ℝ) (maxiter : ℤ) (kw : LearnKw)
    (custom : Option (ℕ → LearnKw × Option ℕ)) (size : ℕ) : Py (MchResult S) :=
  match sparseMchSetup ix self guess constraints with
  | .error e => .error e
  | .ok (x0, c) => match fillIn nParams ix x0 0 with
    | .error e => .error e
    | .ok full => match mchRun (sparseEnv env nParams ix) (fun d => fillIn nParams ix d 0) c full
        (convF kw custom) (orDefault tol (1 / Real.sqrt size))
        (orDefault tolNorm (Real.sqrt (1 / size) * full.length)) maxiter size with
      | .error e => .error e
      | .ok (st, flag) => match takeIx st.mult ix with
        | .error e => .error e
        | .ok r => .ok ⟨r, flag, st.errors, st.mult, st.sample⟩

end Verif.Model
