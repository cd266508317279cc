/-
coniii/solvers.py: the constructor of `SparseMCH` and `SparseMCH.solve` with the model and the sampler that they use.
-/
import Verif.Model.MchProg
import Verif.Model.SparseObj

namespace Verif.Model
open Verif

/-- An object of class `SparseMCH`: what `MCH` has, the positions `parameterIx`, and the number of parameters that the model
had when `set_insertion_ix` was called. -/
structure SparseMchObj where
  n : Option ℕ
  model : ModelObj
  constraints : Option (List ℝ)
  ix : List ℕ
  nParams : ℕ

/-- solvers.py:1043-1108 `SparseMCH(sample, model, sample_size=size, parameter_ix=pix, sampler_kw={'boost': boost}, rng=rng)`.
`pix` is an array of integers, here not negative; warnings are left out. The sampler is set up before the positions are
looked at. -/
noncomputable def sparseMchInit (mc : Machine) (a : SolverArg) (model : Option ModelObj) (pix : Option (List ℕ)) (size : ℕ)
    (boost : Bool) (rng : ℕ) : Py SparseMchObj :=
  if ¬ (size > 0) then .error .assertion
  else match basicSetup mc a model rng with
    | .error e => .error e
    | .ok s => match s.model with
      | none => .error .attributeError
      | some o => match o.setupSampler mc (chars! "metropolis") size boost with
        | .error e => .error e
        | .ok o => match pix with
          | none => .error .assertion
          | some l => match insertionIx o.multipliers.length (uniqueIx l) with
            | .error e => .error e
            | .ok _ => .ok ⟨s.n, o, s.constraints, uniqueIx l, o.multipliers.length⟩

/-- solvers.py:1224, 1248 `self.calc_observables(self.model.sample).mean(0)[self.parameterIx]`. -/
noncomputable def sparseObs (ix : List ℕ) (o : ModelObj) : Py (List ℝ) :=
  match mchObs o with
  | .error e => .error e
  | .ok r => takeIx r ix

/-- solvers.py:1313-1314 `self.mch_approximation(self.model.sample, self.fill_in(dlamda))[self.parameterIx]`. -/
noncomputable def sparseApprox (nParams : ℕ) (ix : List ℕ) (o : ModelObj) (d : List ℝ) : Py (List ℝ) :=
  match fillIn nParams ix d 0 with
  | .error e => .error e
  | .ok full => match mchApprox o full with
    | .error e => .error e
    | .ok r => takeIx r ix

/-- solvers.py:1233-1251 one round of the main loop up to the exit criteria (the settings are read at the start of the round
here; in the code at the end of the round before). -/
noncomputable def sparseRoundP (mc : Machine) (nParams : ℕ) (ix : List ℕ) (nIters burnIn : ℕ) (c : List ℝ)
    (f : ℕ → LearnKw × Option ℕ) (st : MchState ModelObj) : Prog (MchState ModelObj) :=
  (Prog.ofPy (mchSettings f st.counter st.size)).bind fun kw =>
    (Prog.ofPy (learnMch (sparseApprox nParams ix st.sample) (fun d => fillIn nParams ix d 0) st.cur c kw.1.args
      st.mult)).bind fun mult =>
      (mchDraw mc nIters burnIn kw.2 mult st.sample).bind fun o =>
        (Prog.ofPy (sparseObs ix o)).bind fun cur =>
          (Prog.ofPy (broadcast2 (· - ·) cur c)).bind fun err =>
            .ret ⟨mult, o, cur, kw.2, st.counter + 1, st.errors ++ [err]⟩

open scoped Classical in
/-- solvers.py:1233-1265 the main loop with a bound on the number of rounds: final state and error flag. -/
noncomputable def sparseLoopP (mc : Machine) (nParams : ℕ) (ix : List ℕ) (nIters burnIn : ℕ) (c : List ℝ)
    (f : ℕ → LearnKw × Option ℕ) (tol tolNorm : ℝ) (maxiter : ℤ) : ℕ → MchState ModelObj → Prog (MchState ModelObj × ℕ)
  | 0, _ => .fail .diverge
  | fuel + 1, st => (sparseRoundP mc nParams ix nIters burnIn c f st).bind fun st =>
      if mchDone tol tolNorm st then .ret (st, 0)
      else if (st.counter : ℤ) > maxiter then .ret (st, 1)
      else sparseLoopP mc nParams ix nIters burnIn c f tol tolNorm maxiter fuel st

/-- solvers.py:1210-1265 from the full starting point `x0` to the end of the loop. -/
noncomputable def sparseRunP (mc : Machine) (nParams : ℕ) (ix : List ℕ) (nIters burnIn : ℕ) (c x0 : List ℝ)
    (f : ℕ → LearnKw × Option ℕ) (tol tolNorm : ℝ) (maxiter : ℤ) (o : ModelObj) : Prog (MchState ModelObj × ℕ) :=
  if (f 0).1.eta = none then .fail .assertion
  else (mchDraw mc nIters burnIn o.sampleSize x0 o).bind fun o' =>
    (Prog.ofPy (sparseObs ix o')).bind fun cur =>
      (Prog.ofPy (broadcast2 (· - ·) cur c)).bind fun err =>
        sparseLoopP mc nParams ix nIters burnIn c f tol tolNorm maxiter ((maxiter + 1).toNat + 1)
          ⟨x0, o', cur, o.sampleSize, 0, [err]⟩

/-- solvers.py:1110-1270 `SparseMCH.solve`: what is returned with `full_output=True`, the full vector of parameters and the
model afterwards. Line 1181 multiplies `self.n`, which may be None. In contrast to `MCH.solve` no sample is drawn after the
loop. -/
noncomputable def sparseMchSolveP (mc : Machine) (m : SparseMchObj) (a : MchArgs) : Prog (MchResult ModelObj) :=
  match m.n with
  | none => .fail .typeError
  | some _ => match sparseMchSetup m.ix m.constraints a.guess a.constraints with
    | .error e => .fail e
    | .ok (x0, c) => match fillIn m.nParams m.ix x0 0 with
      | .error e => .fail e
      | .ok full =>
        (sparseRunP mc m.nParams m.ix a.nIters a.burnIn c full (convF a.kw a.custom)
          (orDefault a.tol (1 / Real.sqrt m.model.sampleSize))
          (orDefault a.tolNorm (Real.sqrt (1 / m.model.sampleSize) * full.length)) a.maxiter m.model).bind fun r =>
        (Prog.ofPy (takeIx r.1.mult m.ix)).bind fun ret => .ret ⟨ret, r.2, r.1.errors, r.1.mult, r.1.sample⟩

end Verif.Model
