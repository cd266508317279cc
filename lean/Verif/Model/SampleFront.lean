/-
coniii/models.py: the life of a model object (class `Model` and its subclasses), with the sampler objects of
coniii/samplers.py that it sets up; coniii/samplers.py `sample_ising`.
-/
import Verif.Model.Models
import Verif.Model.CppSampler
import Verif.Model.Helpers
import Verif.Model.Chars

namespace Verif.Model
open Verif

/-- The classes `Ising`, `Triplet` and `Potts3` of models.py. -/
inductive ModelKind where
  | ising
  | triplet
  | potts3
  deriving DecidableEq

/-- What the code finds on the machine: whether the compiled extension could be imported
(`IMPORTED_SAMPLERS_EXT`), whether it was built without assertions, the number of processors, and the modules
`coniii/ising_eqn/ising_eqn_...` that exist. -/
structure Machine where
  ext : Bool
  ndebug : Bool
  cpus : ℕ
  eqns : ModelKind → ℕ → Option Eqns

/-- utils.py:946-963, 1087-1088, 1174-1188 `calc_e` of the helper functions of the model (models.py:181, 232, 284) for one
row. (The compiled Ising function reads outside the parameters if there are too few; it gives 0 for these here.) -/
def kindCalcERow (k : ModelKind) (theta : List ℝ) (s : List ℤ) : Py ℝ :=
  match k with
  | .ising => .ok (isingCalcERow theta s)
  | .triplet => tripletCalcERow s theta
  | .potts3 => pottsCalcERow 3 s theta

/-- The energy as a number, for parameters of the right length. -/
def kindEnergy (k : ModelKind) (theta : List ℝ) (s : List ℤ) : ℝ :=
  match kindCalcERow k theta s with
  | .ok e => e
  | .error _ => 0

/-- The method `sample_metropolis` of the sampler: `Metropolis`, or `Potts3` of samplers.py for the Potts model. -/
noncomputable def kindMove (k : ModelKind) (theta : List ℝ) : Move :=
  match k with
  | .ising | .triplet => sampleMetropolis (kindEnergy k theta)
  | .potts3 => sampleMetropolisPotts3 (kindEnergy k theta)

/-- The method `random_sample`. -/
def kindRandom (k : ModelKind) (n : ℕ) : ℕ → Prog (List (List ℤ)) :=
  match k with
  | .ising | .triplet => randomSample n
  | .potts3 => randomSamplePotts3 n

/-- A sampler object made by a model: `kind` also tells the class. `rng` names the generator; `compiled` tells which
methods `generate_sample` and `generate_sample_parallel` stand for; `nCpus` is only used by `Potts3`; `replicas` is
`_samples`; `sample` is missing before the first call. -/
structure SamplerObj where
  kind : ModelKind
  n : ℕ
  theta : List ℝ
  rng : ℕ
  compiled : Bool
  nCpus : ℕ
  replicas : Option (List (List ℤ))
  sample : Option (List (List ℤ))

/-- samplers.py:1145-1191 `Metropolis(n, theta, calc_e, rng=rng, boost=boost)` and samplers.py:1765-1817
`Potts3(n, theta, calc_e, rng=rng, boost=boost)`. (The number drawn for the seed of `self.bsampler` is left out; that
object is not used.) -/
def samplerInit (mc : Machine) (k : ModelKind) (n : ℕ) (theta : List ℝ) (rng : ℕ) (boost : Bool) : Py SamplerObj :=
  match k with
  | .ising | .triplet => .ok ⟨k, n, theta, rng, boost && mc.ext && decide (theta.length = n * (n - 1) / 2 + n), mc.cpus,
      none, none⟩
  | .potts3 =>
    if theta.length ≠ n * 3 + n * (n - 1) / 2 then .error .assertion
    else .ok ⟨k, n, theta, rng, boost && mc.ext, mc.cpus - 1, none, none⟩

/-- samplers.py:1718-1721 `update_parameters`. -/
def SamplerObj.updateParameters (o : SamplerObj) (theta : List ℝ) : Py SamplerObj :=
  if o.theta.length ≠ theta.length then .error .assertion else .ok { o with theta := theta }

/-- samplers.py:1256-1265, 1397-1405 `calc_e` of the first state raises if the parameters do not fit. -/
def SamplerObj.checkEnergy (o : SamplerObj) : Py Unit :=
  match kindCalcERow o.kind o.theta (List.replicate o.n 1) with
  | .ok _ => .ok ()
  | .error e => .error e

/-- samplers.py: `generate_sample(sample_size, n_iters=.., burn_in=..)` and `generate_sample_parallel(...)` of the object,
which stand for the methods chosen by the constructor. `Potts3.generate_sample` stands for the method
`generate_sample_boost` of `Metropolis`. -/
noncomputable def SamplerObj.generate (mc : Machine) (o : SamplerObj) (parallel : Bool) (size nIters : ℕ)
    (burnIn : Option ℕ) : Prog SamplerObj :=
  if o.compiled then
    (if ¬ parallel then generateSampleBoost mc.ndebug o.n o.theta size nIters burnIn false
      else match o.kind with
        | .ising | .triplet => generateSampleParallelBoost mc.ndebug o.n o.theta mc.cpus size nIters burnIn false
        | .potts3 => generateSampleParallelBoostPotts3 mc.ndebug o.n o.theta o.nCpus size nIters burnIn false).bind
      fun rows => .ret { o with sample := some rows }
  else
    (Prog.ofPy o.checkEnergy).bind fun _ =>
      (if ¬ parallel then
        generateSamplePy (kindMove o.kind o.theta) (kindRandom o.kind o.n) (kindEnergy o.kind o.theta) o.n o.replicas size
          nIters burnIn false false none
      else
        generateSampleParallelPy (kindMove o.kind o.theta) (kindRandom o.kind o.n) (kindEnergy o.kind o.theta) o.n mc.cpus
          o.replicas size nIters burnIn false none).bind
        fun out => .ret { o with sample := some out.sample, replicas := some out.replicas }

/-- A model object. `eqns` are the functions of the imported module (`_calc_observables`, `_calc_p`), `bound` the default
argument of the functions `calc_observables` and `calc_p`. Attributes that may be missing are optional. -/
structure ModelObj where
  kind : ModelKind
  n : ℕ
  multipliers : List ℝ
  eqns : Option Eqns
  bound : List ℝ
  rng : ℕ
  sampler : Option SamplerObj
  sampleMethod : List Char
  sampleSize : ℕ
  sample : Option (List (List ℤ))

/-- models.py:18-31, 134-188, 208-242, 258-297 construction. -/
noncomputable def modelInit (mc : Machine) (k : ModelKind) (a : IsingArg ℝ) (rng : ℕ) : Py ModelObj :=
  match (match k with
    | .ising => isingInit a
    | .triplet => tripletInit a
    | .potts3 => potts3Init a) with
  | .error e => .error e
  | .ok st => .ok ⟨k, st.n, st.multipliers, mc.eqns k st.n, st.multipliers, rng, none, [], 0, none⟩

/-- models.py:190-200, 244-254, 299-309 `set_multipliers`: no check of the length. -/
def ModelObj.setMultipliers (o : ModelObj) (x : List ℝ) : ModelObj := { o with multipliers := x, bound := x }

/-- models.py:33-68 `setup_sampler(sample_method, sample_size, sampler_kwargs={'boost': boost})`. -/
def ModelObj.setupSampler (mc : Machine) (o : ModelObj) (method : List Char) (size : ℕ) (boost : Bool) : Py ModelObj :=
  if method = chars! "metropolis" then
    match samplerInit mc o.kind o.n o.multipliers o.rng boost with
    | .error e => .error e
    | .ok s => .ok { o with sampleSize := size, sampleMethod := method, sampler := some s, sample := none }
  else .error .notImplemented

/-- models.py:70-78 `set_rng`: the attribute `sampler` is missing before `setup_sampler`. -/
def ModelObj.setRng (o : ModelObj) (rng : ℕ) : Py ModelObj :=
  match o.sampler with
  | none => .error .attributeError
  | some s => .ok { o with rng := rng, sampler := some { s with rng := rng } }

/-- models.py:107 `sample_size or self.sampleSize`. -/
def sizeOr (given : Option ℕ) (default : ℕ) : ℕ :=
  match given with
  | none => default
  | some k => if k = 0 then default else k

/-- models.py:106 `sample_method or self.sampleMethod`. -/
def methodOr (given : Option (List Char)) (default : List Char) : List Char :=
  match given with
  | none => default
  | some m => if m = [] then default else m

/-- models.py:80-129 `generate_sample(n_iters, burn_in, multipliers, sample_size, sample_method, parallel)`. Line 102 reads
the attribute `sampler`, which is missing before `setup_sampler`. `sample_size=0` and an empty method mean "not given". -/
noncomputable def ModelObj.generateSample (mc : Machine) (o : ModelObj) (nIters : ℕ) (burnIn : Option ℕ)
    (multipliers : Option (List ℝ)) (size : Option ℕ) (method : Option (List Char)) (parallel : Bool) : Prog ModelObj :=
  match o.sampler with
  | none => .fail .attributeError
  | some s =>
    let theta := multipliers.getD o.multipliers
    let size := sizeOr size o.sampleSize
    if methodOr method o.sampleMethod = chars! "metropolis" then
      (Prog.ofPy (s.updateParameters theta)).bind fun s =>
        (s.generate mc parallel size nIters burnIn).bind fun s =>
          .ret { o with sampler := some s, sample := s.sample }
    else .fail .notImplemented

/-- models.py:200, 254, 309 `calc_p()` with or without argument: without module the attribute is None, which cannot be
called. -/
noncomputable def ModelObj.calcP (o : ModelObj) (x : Option (List ℝ)) : Py (List ℝ) :=
  match o.eqns with
  | none => .error .typeError
  | some e => moduleP e (x.getD o.bound)

/-- models.py:199, 253, 308 `calc_observables()`: without module the attribute is missing in `Ising` and None in the other
classes. -/
noncomputable def ModelObj.calcObservables (brk : ℕ → Bool) (o : ModelObj) (x : Option (List ℝ)) : Py (List ℝ) :=
  match o.eqns with
  | none => match o.kind with
    | .ising => .error .attributeError
    | .triplet | .potts3 => .error .typeError
  | some e => moduleObservables brk e (x.getD o.bound)

/-- The operations on a model object that a user can call. -/
inductive ModelOp where
  | setMultipliers (x : List ℝ)
  | setup (method : List Char) (size : ℕ) (boost : Bool)
  | setRng (rng : ℕ)
  | generate (nIters : ℕ) (burnIn : Option ℕ) (multipliers : Option (List ℝ)) (size : Option ℕ)
      (method : Option (List Char)) (parallel : Bool)

/-- One operation. An exception ends the program (what is left of the object after it is not modelled). -/
noncomputable def ModelObj.apply (mc : Machine) (o : ModelObj) : ModelOp → Prog ModelObj
  | .setMultipliers x => .ret (o.setMultipliers x)
  | .setup method size boost => Prog.ofPy (o.setupSampler mc method size boost)
  | .setRng rng => Prog.ofPy (o.setRng rng)
  | .generate nIters burnIn multipliers size method parallel =>
    o.generateSample mc nIters burnIn multipliers size method parallel

/-- The program of a user: a model is made and operations are called one after another. -/
noncomputable def userProgram (mc : Machine) (k : ModelKind) (a : IsingArg ℝ) (rng : ℕ) (ops : List ModelOp) :
    Prog ModelObj :=
  (Prog.ofPy (modelInit mc k a rng)).bind (Prog.forEach (fun op o => ModelObj.apply mc o op) ops)

/-- samplers.py:2442-2445: a vector, or a pair of vectors `[h, J]` which are joined. A vector with two entries also has
length two, and its entries cannot be joined. Other arguments are not modelled. -/
def sampleIsingArg (a : IsingArg ℝ) : Py (List ℝ) :=
  match a with
  | .vec v => if v.length = 2 then .error .valueError else .ok v
  | .parts [h, J] => .ok (h ++ J)
  | _ => .error .valueError

/-- samplers.py:2413-2463 `sample_ising(multipliers, n_samples, parallel=.., generate_sample_kw={n_iters, burn_in})`. `n` is
computed exactly. The rows returned. -/
noncomputable def sampleIsing (mc : Machine) (a : IsingArg ℝ) (size : ℕ) (parallel : Bool) (nIters : ℕ) (burnIn : Option ℕ) :
    Prog (List (List ℤ)) :=
  (Prog.ofPy (sampleIsingArg a)).bind fun theta =>
    let r := Nat.sqrt (1 + 8 * theta.length)
    if r * r = 1 + 8 * theta.length ∧ (r - 1) % 2 = 0 then
      (Prog.ofPy (samplerInit mc .ising ((r - 1) / 2) theta 0 true)).bind fun s =>
        (s.generate mc parallel size nIters burnIn).bind fun s => .ret (s.sample.getD [])
    else .fail .assertion

end Verif.Model
