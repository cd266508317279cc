/-
coniii/solvers.py: `RegularizedMeanField.solve` as a program of an object: the model object it changes, the random
numbers, the element type of the samples and the search.
-/
import Verif.Model.RegMeanField
import Verif.Model.PseudoObj
import Verif.Model.Tempering
import Verif.Spec.Rand

namespace Verif.Model
open Verif Verif.Spec

variable {σ W : Type}

/-- What `samples.T.dot(samples)` does to a sum of products of entries: with elements of eight bits the result has eight
bits, so that it is known modulo 256 only, between -128 and 127. -/
def dotDtype (int8 : Bool) (x : ℤ) : ℤ := if int8 then Int.bmod x 256 else x

/-- mean_field_ising.py:443-461 `cooccurrence_matrix(samples)` of an integer array with `n` columns; `int8` tells whether
its elements have eight bits. No samples give not-a-number (`none`). -/
noncomputable def coocOfInts (int8 : Bool) (n : ℕ) (rows : List (List ℤ)) : Mat ℝ :=
  Mat.build n n fun i j =>
    (dotDtype int8 (rows.map fun r => r.getD i 0 * r.getD j 0).sum : ℝ) * (1 - if j + 1 ≤ i then 1 else 0) / rows.length

/-- mean_field_ising.py:538-540 `isingDeltaCooc(isingSamples, coocMatDesired)`; no samples give not-a-number (`none`). -/
noncomputable def isingDeltaInts (int8 : Bool) (n : ℕ) (rows : List (List ℤ)) (desired : Mat ℝ) : Py (Option (List ℝ)) :=
  if rows.length = 0 then .ok none
  else match aboveDiagFlat (Mat.build n n fun i j => (coocOfInts int8 n rows).at' i j - desired.at' i j) true none with
    | .error e => .error e
    | .ok v => .ok (some v)

/-- solvers.py:2688-2689, 2709 the value of the objective for the residuals `dc`. -/
noncomputable def rmfValue (stdevs : List (Option ℝ)) (dc : Option (List ℝ)) : Option ℝ :=
  match dc with
  | none => none
  | some d =>
    if stdevs.any Option.isNone then none
    else some ((List.zipWith (fun x s => (x / s) ^ 2) d (stdevs.map fun s => s.getD 0)).sum)

/-- What `solve` knows when it evaluates the objective: the machine, the eigenvalue routine, the number of spins, the
co-occurrences of the data, their standard deviations, the number of samples and the option `min_covariance`. -/
structure RmfProblem where
  mc : Machine
  eig : Mat ℝ → List ℝ × Mat ℝ
  n : ℕ
  cooc : Mat ℝ
  stdevs : List (Option ℝ)
  numSamples : ℕ
  minCov : Bool

/-- The element type of `self.model.sample` after `generate_sample` in parallel: samplers.py:1412 and 1427 make arrays of
eight-bit integers; the compiled sampler gives `int` (samplers.py:1355). -/
def ModelObj.int8 (o : ModelObj) : Bool :=
  match o.sampler with
  | none => false
  | some s => !s.compiled

/-- solvers.py:2666-2675 `samples(J)` after the parameters have been computed: the model gets them and draws. -/
noncomputable def rmfDraw (P : RmfProblem) (p : List ℝ) (o : ModelObj) : Prog ModelObj :=
  (o.setMultipliers p).generateSample P.mc (100 * P.n) (some 1) none none none true

/-- solvers.py:2688 the residuals of the sample that the model holds. -/
noncomputable def rmfResiduals (P : RmfProblem) (o : ModelObj) : Py (Option (List ℝ)) :=
  isingDeltaInts o.int8 P.n (o.sample.getD []) P.cooc

/-- solvers.py:2677-2709 `func(meanFieldGammaPrime)` with the default `min_independent` on a model object and the state of
its generator. `fresh` is the generator made by `get_rng()` (name and state) if `reset_rng`, otherwise none. The result is
the value (`none`: not finite), and the object and the state afterwards. The random numbers of all processes are taken from
the one generator `gen`. With `min_covariance` line 2669 reads names that do not exist. -/
noncomputable def rmfFunc (P : RmfProblem) (gen : Gen σ) (fresh : Option (ℕ × σ)) (gammaPrime : ℝ) (w : ModelObj × σ) :
    Py (Option ℝ) × (ModelObj × σ) :=
  match jmeanField P.eig P.cooc (rmfLambda P.cooc gammaPrime) (some P.numSamples) with
  | .error e => (.error e, w)
  | .ok J => match w.1.setRng ((fresh.map Prod.fst).getD w.1.rng) with
    | .error e => (.error e, w)
    | .ok o =>
      let s := (fresh.map Prod.snd).getD w.2
      if P.minCov then (.error .nameError, (o, s)) else match rmfSampleParams J with
      | .error e => (.error e, (o, s))
      | .ok p =>
        let r := run gen (rmfDraw P p o) s
        match r.1 with
        | .error e => (.error e, (o.setMultipliers p, r.2))
        | .ok o' => match rmfResiduals P o' with
          | .error e => (.error e, (o', r.2))
          | .ok dc => (.ok (rmfValue P.stdevs dc), (o', r.2))

/-- A search: it ends with a result, or asks for a value of the objective and goes on according to the answer. Every
deterministic routine of a library that ends has this form. -/
inductive Search where
  | done (r : Py ℝ)
  | ask (x : ℝ) (k : Option ℝ → Search)

/-- The search on an objective that changes the state `w` when it is evaluated. -/
def Search.runState (f : ℝ → W → Py (Option ℝ) × W) : Search → W → Py ℝ × W
  | .done r, w => (r, w)
  | .ask x k, w => match f x w with
    | (.error e, w') => (.error e, w')
    | (.ok v, w') => (k v).runState f w'

/-- solvers.py:2712 `[func(p) for p in gridPoints]`. -/
def gridState (f : ℝ → W → Py (Option ℝ) × W) : List ℝ → W → Py (List (Option ℝ)) × W
  | [], w => (.ok [], w)
  | x :: xs, w => match f x w with
    | (.error e, w') => (.error e, w')
    | (.ok v, w') => match gridState f xs w' with
      | (.error e, w'') => (.error e, w'')
      | (.ok vs, w'') => (.ok (v :: vs), w'')

/-- `np.argmin` takes not-a-number for the smallest value. -/
def nanLeast (v : Option ℝ) : WithBot ℝ :=
  match v with
  | none => ⊥
  | some x => x

/-- solvers.py:2710-2717 the search: with `bracket` first the values on the grid and `bracket1d`; `minim` is
`minimize_scalar` with or without a bracket. -/
noncomputable def rmfSearch (f : ℝ → W → Py (Option ℝ) × W) (minim : Option (ℝ × ℝ × ℝ) → Search)
    (bracket : Option (ℝ × ℝ)) (nGrid : ℕ) (w : W) : Py ℝ × W :=
  match bracket with
  | none => (minim none).runState f w
  | some b =>
    let xs := initializeBeta b.1 b.2 nGrid
    match gridState f xs w with
    | (.error e, w') => (.error e, w')
    | (.ok vs, w') => match bracket1d xs (vs.map nanLeast) with
      | .error e => (.error e, w')
      | .ok t => (minim (some t)).runState f w'

/-- The arguments of `solve` that matter. (`min_size` is not used; `cooc_cov` only after a line that raises.) -/
structure RmfArgs where
  nGrid : ℕ
  reset : Bool
  minCov : Bool
  minInd : Bool
  priorLmbda : ℝ
  bracket : Option (ℝ × ℝ)

/-- solvers.py:2622-2627 the generator for the evaluations: with `reset_rng` a seed is drawn from the generator of the model,
and `get_rng()` makes a generator with that seed (`start seed`, here named `seed`). Also the state of the old generator
afterwards. -/
def rmfFresh (gen : Gen σ) (start : ℕ → σ) (reset : Bool) (s : σ) : Option (ℕ × σ) × σ :=
  if reset then
    let r := gen.int (2 ^ 32 - 2) s
    (some (r.1, start r.1), r.2)
  else (none, s)

open scoped Classical in
/-- solvers.py:2573-2731 `RegularizedMeanField.solve` of the object `o`, whose model has a generator in state `s`: the
parameters returned, and the model with its generator afterwards. `len(None)` raises TypeError. Left out are the import of
line 2620 (which fails for versions of scipy without `transpose`) and the covariance of the residuals, which is computed but
not used. -/
noncomputable def rmfObjSolve (mc : Machine) (eig : Mat ℝ → List ℝ × Mat ℝ) (gen : Gen σ) (start : ℕ → σ)
    (minim : Option (ℝ × ℝ × ℝ) → Search) (o : SampledObj) (a : RmfArgs) (s : σ) : Py (List ℝ) × (ModelObj × σ) :=
  let fr := rmfFresh gen start a.reset s
  match o.sample, o.n with
  | some X, some n => match aceCooc n X with
    | none => (.error .indexError, (o.model, fr.2))
    | some cooc =>
      if a.priorLmbda ≠ 0 then (.error .notImplemented, (o.model, fr.2))
      else if a.minInd = false then
        (.error (if a.minCov then .exception else .notImplemented), (o.model, fr.2))
      else match coocStdevsFlat cooc X.length with
        | .error e => (.error e, (o.model, fr.2))
        | .ok stdevs =>
          let P : RmfProblem := ⟨mc, eig, n, cooc, stdevs, X.length, a.minCov⟩
          let r := rmfSearch (rmfFunc P gen fr.1) minim a.bracket a.nGrid (o.model, fr.2)
          match r.1 with
          | .error e => (.error e, r.2)
          | .ok g => match jmeanField eig cooc (rmfLambda cooc g) (some X.length) with
            | .error e => (.error e, r.2)
            | .ok J => (rmfParams J, r.2)
  | _, _ => (.error .typeError, (o.model, fr.2))

end Verif.Model
