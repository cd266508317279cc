/-
coniii/solvers.py: `MCH` with a model of any class and with functions `calc_observables` and `mch_approximation` that the user
supplies, as in the usage guide for triplets and for the Potts model.
-/
import Verif.Model.MchProg
import Verif.Model.PseudoObj

namespace Verif.Model
open Verif

/-- The argument `mch_approximation` of `MCH`: nothing, or a function of the sample and of the change of the parameters. -/
abbrev ApproxArg := Option (Data → List ℝ → Py (List ℝ))

/-- An object of class `MCH` with the functions that it has been given. -/
structure MchUser where
  n : Option ℕ
  model : ModelObj
  constraints : Option (List ℝ)
  obs : ObsArg
  approx : ApproxArg

/-- solvers.py:734-785 `MCH(sample, model, calc_observables, size, mch_approximation=approx, sampler_kw={'boost': boost},
rng=rng)`. The argument `sample_method` is not used. -/
noncomputable def mchInitUser (mc : Machine) (a : SolverArg) (model : Option ModelObj) (obs : ObsArg) (size : ℕ)
    (approx : ApproxArg) (boost : Bool) (rng : ℕ) : Py MchUser :=
  if ¬ (size > 0) then .error .assertion
  else match basicSetupObs mc a model obs rng with
    | .error e => .error e
    | .ok s => match s.model with
      | none => .error .attributeError
      | some o => match o.setupSampler mc (chars! "metropolis") size boost with
        | .error e => .error e
        | .ok o => .ok ⟨s.n, o, s.constraints, obs, approx⟩

/-- solvers.py:895, 917 `self.calc_observables(self.model.sample).mean(0)`. -/
noncomputable def mchObsU (obs : ObsArg) (o : ModelObj) : Py (List ℝ) := obs.means o.n (o.sample.getD [])

/-- solvers.py:782, 1017 `self.mch_approximation(self.model.sample, dlamda)`: that of the Ising helpers if none is given. -/
noncomputable def mchApproxU (approx : ApproxArg) (o : ModelObj) (d : List ℝ) : Py (List ℝ) :=
  match approx with
  | none => mchApprox o d
  | some f => f (o.sample.getD []) d

/-- solvers.py:903-922 one round of the main loop up to the exit criteria (the settings are read at the start of the round
here; in the code at the end of the round before). -/
noncomputable def mchRoundU (mc : Machine) (obs : ObsArg) (approx : ApproxArg) (nIters burnIn : ℕ) (c : List ℝ)
    (f : ℕ → LearnKw × Option ℕ) (st : MchState ModelObj) : Prog (MchState ModelObj) :=
  (Prog.ofPy (mchSettings f st.counter st.size)).bind fun kw =>
    (Prog.ofPy (learnMch (mchApproxU approx st.sample) (fun d => .ok d) st.cur c kw.1.args st.mult)).bind fun mult =>
      (mchDraw mc nIters burnIn kw.2 mult st.sample).bind fun o =>
        (Prog.ofPy (mchObsU obs o)).bind fun cur =>
          (Prog.ofPy (broadcast2 (· - ·) cur c)).bind fun err =>
            .ret ⟨mult, o, cur, kw.2, st.counter + 1, st.errors ++ [err]⟩

open scoped Classical in
/-- solvers.py:904-936 the main loop with a bound on the number of rounds: final state and error flag. -/
noncomputable def mchLoopU (mc : Machine) (obs : ObsArg) (approx : ApproxArg) (nIters burnIn : ℕ) (c : List ℝ)
    (f : ℕ → LearnKw × Option ℕ) (tol tolNorm : ℝ) (maxiter : ℤ) : ℕ → MchState ModelObj → Prog (MchState ModelObj × ℕ)
  | 0, _ => .fail .diverge
  | fuel + 1, st => (mchRoundU mc obs approx nIters burnIn c f st).bind fun st =>
      if mchDone tol tolNorm st then .ret (st, 0)
      else if (st.counter : ℤ) > maxiter then .ret (st, 1)
      else mchLoopU mc obs approx nIters burnIn c f tol tolNorm maxiter fuel st

/-- solvers.py:889-936 from the starting point `x0` to the end of the loop: sample for `x0`, first entry of the error
history, loop. -/
noncomputable def mchRunU (mc : Machine) (obs : ObsArg) (approx : ApproxArg) (nIters burnIn : ℕ) (c x0 : List ℝ)
    (f : ℕ → LearnKw × Option ℕ) (tol tolNorm : ℝ) (maxiter : ℤ) (o : ModelObj) : Prog (MchState ModelObj × ℕ) :=
  if (f 0).1.eta = none then .fail .assertion
  else (mchDraw mc nIters burnIn o.sampleSize x0 o).bind fun o' =>
    (Prog.ofPy (mchObsU obs o')).bind fun cur =>
      (Prog.ofPy (broadcast2 (· - ·) cur c)).bind fun err =>
        mchLoopU mc obs approx nIters burnIn c f tol tolNorm maxiter ((maxiter + 1).toNat + 1)
          ⟨x0, o', cur, o.sampleSize, 0, [err]⟩

/-- solvers.py:787-947 `MCH.solve`: what is returned with `full_output=True`, and the model afterwards. Line 857 multiplies
`self.n`, which may be None. -/
noncomputable def mchSolveU (mc : Machine) (m : MchUser) (a : MchArgs) : Prog (MchResult ModelObj) :=
  match m.n with
  | none => .fail .typeError
  | some _ => match a.constraints.or m.constraints with
    | none => .fail .typeError
    | some c =>
      let x0 := a.guess.getD (List.replicate c.length 0)
      if x0.length ≠ c.length then .fail .assertion
      else (mchRunU mc m.obs m.approx a.nIters a.burnIn c x0 (convF a.kw a.custom)
          (orDefault a.tol (1 / Real.sqrt m.model.sampleSize))
          (orDefault a.tolNorm (Real.sqrt (1 / m.model.sampleSize) * x0.length)) a.maxiter m.model).bind fun r =>
        (mchDraw mc a.nIters a.burnIn r.1.size r.1.mult r.1.sample).bind fun o =>
          .ret ⟨r.1.mult, r.2, r.1.errors, r.1.mult, o⟩

end Verif.Model
