/-
coniii/solvers.py: `Solver.basic_setup`, the constructor of `MCH` and `MCH.solve` with the model and the sampler that they
use.
-/
import Verif.Model.MchSolve
import Verif.Model.Mch
import Verif.Model.SampleFront

namespace Verif.Model
open Verif

/-- The argument `sample_or_n` of a solver: nothing, the number of spins, or an array with `n` columns given by its rows. -/
inductive SolverArg where
  | nothing
  | size (n : ℤ)
  | data (n : ℕ) (rows : Data)

/-- The attributes of a solver that are used below. -/
structure SolverObj where
  n : Option ℕ
  model : Option ModelObj
  constraints : Option (List ℝ)

/-- solvers.py:74-77, 91-94 the model: the one given, or a new `Ising` model with all parameters zero. -/
noncomputable def solverModel (mc : Machine) (n : ℕ) (model : Option ModelObj) (rng : ℕ) : Py ModelObj :=
  match model with
  | some o => .ok o
  | none => modelInit mc .ising (.vec (List.replicate ((n * n + n) / 2) 0)) rng

/-- solvers.py:19-106 `basic_setup(sample_or_n, model)` with the default observables. Warnings are left out. -/
noncomputable def basicSetup (mc : Machine) (a : SolverArg) (model : Option ModelObj) (rng : ℕ) : Py SolverObj :=
  match a with
  | .nothing => .ok ⟨none, model, none⟩
  | .size n =>
    if ¬ (n > 1) then .error .assertion
    else match solverModel mc n.toNat model rng with
      | .error e => .error e
      | .ok o => .ok ⟨some n.toNat, some o, none⟩
  | .data n rows => match solverModel mc n model rng with
    | .error e => .error e
    | .ok o => match sampleConstraints n rows with
      | .error e => .error e
      | .ok c => .ok ⟨some n, some o, some c⟩

/-- An object of class `MCH`: the number of spins, the model (with its sampler) and the constraints. -/
structure MchObj where
  n : Option ℕ
  model : ModelObj
  constraints : Option (List ℝ)

/-- solvers.py:734-785 `MCH(sample, model, sample_size=size, sampler_kw={'boost': boost}, rng=rng)`. The argument
`sample_method` is not used. Without a model there is nothing to call `setup_sampler` of. -/
noncomputable def mchInit (mc : Machine) (a : SolverArg) (model : Option ModelObj) (size : ℕ) (boost : Bool) (rng : ℕ) :
    Py MchObj :=
  if ¬ (size > 0) then .error .assertion
  else match basicSetup mc a model rng with
    | .error e => .error e
    | .ok s => match s.model with
      | none => .error .attributeError
      | some o => match o.setupSampler mc (chars! "metropolis") size boost with
        | .error e => .error e
        | .ok o => .ok ⟨s.n, o, s.constraints⟩

/-- solvers.py:892-894, 914-916, 940-942 `self.model.generate_sample(n_iters, burn_in, multipliers=self._multipliers)` after
`self.model.sampleSize` has been set to `size`. -/
noncomputable def mchDraw (mc : Machine) (nIters burnIn size : ℕ) (mult : List ℝ) (o : ModelObj) : Prog ModelObj :=
  { o with sampleSize := size }.generateSample mc nIters (some burnIn) (some mult) none none true

/-- solvers.py:895, 917 `self.calc_observables(self.model.sample).mean(0)`. -/
noncomputable def mchObs (o : ModelObj) : Py (List ℝ) := sampleConstraints o.n (o.sample.getD [])

/-- solvers.py:1017 `self.mch_approximation(self.model.sample, dlamda)` of the Ising helpers. (NaN entries, which do not
occur for samples of spins, are 0 here.) -/
noncomputable def mchApprox (o : ModelObj) (d : List ℝ) : Py (List ℝ) :=
  match mchIsing o.n (o.sample.getD []) d with
  | .error e => .error e
  | .ok r => .ok (r.map fun v => v.getD 0)

/-- solvers.py:903-922 one round of the main loop up to the exit criteria (the settings are read at the start of the round
here; in the code at the end of the round before). -/
noncomputable def mchRoundP (mc : Machine) (nIters burnIn : ℕ) (c : List ℝ) (f : ℕ → LearnKw × Option ℕ)
    (st : MchState ModelObj) : Prog (MchState ModelObj) :=
  (Prog.ofPy (mchSettings f st.counter st.size)).bind fun kw =>
    (Prog.ofPy (learnMch (mchApprox st.sample) (fun d => .ok d) st.cur c kw.1.args st.mult)).bind fun mult =>
      (mchDraw mc nIters burnIn kw.2 mult st.sample).bind fun o =>
        (Prog.ofPy (mchObs o)).bind fun cur =>
          (Prog.ofPy (broadcast2 (· - ·) cur c)).bind fun err =>
            .ret ⟨mult, o, cur, kw.2, st.counter + 1, st.errors ++ [err]⟩

open scoped Classical in
/-- solvers.py:904-936 the main loop with a bound on the number of rounds: final state and error flag. -/
noncomputable def mchLoopP (mc : Machine) (nIters burnIn : ℕ) (c : List ℝ) (f : ℕ → LearnKw × Option ℕ) (tol tolNorm : ℝ)
    (maxiter : ℤ) : ℕ → MchState ModelObj → Prog (MchState ModelObj × ℕ)
  | 0, _ => .fail .diverge
  | fuel + 1, st => (mchRoundP mc nIters burnIn c f st).bind fun st =>
      if mchDone tol tolNorm st then .ret (st, 0)
      else if (st.counter : ℤ) > maxiter then .ret (st, 1)
      else mchLoopP mc nIters burnIn c f tol tolNorm maxiter fuel st

/-- solvers.py:889-936 from the starting point `x0` to the end of the loop: sample for `x0`, first entry of the error
history, loop. -/
noncomputable def mchRunP (mc : Machine) (nIters burnIn : ℕ) (c x0 : List ℝ) (f : ℕ → LearnKw × Option ℕ) (tol tolNorm : ℝ)
    (maxiter : ℤ) (o : ModelObj) : Prog (MchState ModelObj × ℕ) :=
  if (f 0).1.eta = none then .fail .assertion
  else (mchDraw mc nIters burnIn o.sampleSize x0 o).bind fun o' =>
    (Prog.ofPy (mchObs o')).bind fun cur =>
      (Prog.ofPy (broadcast2 (· - ·) cur c)).bind fun err =>
        mchLoopP mc nIters burnIn c f tol tolNorm maxiter ((maxiter + 1).toNat + 1) ⟨x0, o', cur, o.sampleSize, 0, [err]⟩

/-- The arguments of `MCH.solve`. `n_iters` and `burn_in` are natural numbers; `iprint`, `full_output` and
`generate_kwargs` have their defaults. -/
structure MchArgs where
  guess : Option (List ℝ)
  constraints : Option (List ℝ)
  tol : Option ℝ
  tolNorm : Option ℝ
  nIters : ℕ
  burnIn : ℕ
  maxiter : ℤ
  kw : LearnKw
  custom : Option (ℕ → LearnKw × Option ℕ)

/-- solvers.py:787-947 `MCH.solve`: what is returned with `full_output=True`, and the model afterwards. Line 857 multiplies
`self.n`, which may be None. -/
noncomputable def mchSolveP (mc : Machine) (m : MchObj) (a : MchArgs) : Prog (MchResult ModelObj) :=
  match m.n with
  | none => .fail .typeError
  | some _ => match a.constraints.or m.constraints with
    | none => .fail .typeError
    | some c =>
      let x0 := a.guess.getD (List.replicate c.length 0)
      if x0.length ≠ c.length then .fail .assertion
      else (mchRunP mc a.nIters a.burnIn c x0 (convF a.kw a.custom)
          (orDefault a.tol (1 / Real.sqrt m.model.sampleSize))
          (orDefault a.tolNorm (Real.sqrt (1 / m.model.sampleSize) * x0.length)) a.maxiter m.model).bind fun r =>
        (mchDraw mc a.nIters a.burnIn r.1.size r.1.mult r.1.sample).bind fun o =>
          .ret ⟨r.1.mult, r.2, r.1.errors, r.1.mult, o⟩

end Verif.Model
