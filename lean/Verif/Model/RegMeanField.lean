/-
Model of the regularised mean-field equations of coniii/mean_field_ising.py (SmeanField, JmeanField,
isingDeltaCooc) and of RegularizedMeanField of coniii/solvers.py.
-/
import Verif.Model.MeanField
import Verif.Model.Cluster

namespace Verif.Model
open Verif

section Bracket
variable {K : Type*} [LinearOrder K]

/-- Position of the first minimum: `best` is the position of the smallest value `v` so far, `i` the
position of the next element. -/
def argminFrom (v : K) (best i : ℕ) : List K → ℕ
  | [] => best
  | x :: xs => if x < v then argminFrom x i (i + 1) xs else argminFrom v best (i + 1) xs

/-- `np.argmin(l)` (library call at solvers.py:2742, 2746 and 2747): position of the first minimum;
`ValueError` for an empty array. -/
def npArgmin : List K → Py ℕ
  | [] => .error .valueError
  | x :: xs => .ok (argminFrom x 0 1 xs)

/-- solvers.py:2733-2749 `RegularizedMeanField.bracket1d(xList, funcList)`. -/
def bracket1d {α : Type*} (xs : List α) (fs : List K) : Py (α × α × α) :=
  match npArgmin fs with
  | .error e => .error e
  | .ok i => match getAt xs i with
    | .error e => .error e
    | .ok gridMin =>
      if i = 0 ∨ i + 1 = xs.length then .error .exception
      else match npArgmin (fs.take i) with
        | .error e => .error e
        | .ok a => match getAt xs a with
          | .error e => .error e
          | .ok b1 => match npArgmin (fs.drop (i + 1)) with
            | .error e => .error e
            | .ok c => match getAt xs (i + 1 + c) with
              | .error e => .error e
              | .ok b2 => .ok (b1, gridMin, b2)

end Bracket

/-! ### SmeanField -/

/-- mean_field_ising.py:170-171 `freqs` and `c = coocMatCluster - outer(freqs, freqs)`: entry of `c`. -/
def mfCov (C : Mat ℝ) (i j : ℕ) : ℝ := C.at' i j - C.at' i i * C.at' j j

/-- mean_field_ising.py:173 entry of `Mdenom`. -/
noncomputable def mfDenom (C : Mat ℝ) (i j : ℕ) : ℝ :=
  Real.sqrt ((C.at' i i * (1 - C.at' i i)) * (C.at' j j * (1 - C.at' j j)))

/-- mean_field_ising.py:174 `M = c / Mdenom`. -/
noncomputable def mfCorr (n : ℕ) (C : Mat ℝ) : Mat ℝ :=
  Mat.build n n fun i j => mfCov C i j / mfDenom C i j

/-- mean_field_ising.py:176-181 `Sind`. -/
noncomputable def mfSind (n : ℕ) (C : Mat ℝ) (indTerm : Bool) : ℝ :=
  if indTerm then
    ((List.range n).map fun i => -C.at' i i * Real.log (C.at' i i) -
      (1 - C.at' i i) * Real.log (1 - C.at' i i)).sum
  else 0

/-- mean_field_ising.py:186-189 `gamma`; `numSamples=None` raises `TypeError`, `numSamples=0`
`ZeroDivisionError` (for a python float). -/
noncomputable def mfGamma (lmbda : ℝ) (numSamples : Option ℕ) : Py ℝ :=
  open scoped Classical in
  if lmbda ≠ 0 then match numSamples with
    | none => .error .typeError
    | some 0 => .error .zeroDivision
    | some (m + 1) => .ok (lmbda / ((m + 1 : ℕ) : ℝ))
  else .ok 0

/-- mean_field_ising.py:191-192 one entry of `mqhat` (real arithmetic: for a negative `gamma` the
source goes on with complex numbers, which is not modelled). -/
noncomputable def mfHat (gamma mq : ℝ) : ℝ :=
  1 / 2 * (mq - gamma + Real.sqrt ((mq - gamma) ^ 2 + 4 * gamma))

/-- mean_field_ising.py:193-195 entry of `Jprime = vq diag(1/mqhat) vq^T`. -/
noncomputable def mfJprime (n : ℕ) (mqhat : List ℝ) (vq : Mat ℝ) (i j : ℕ) : ℝ :=
  ((List.range n).map fun k => vq.at' i k * ((1 / rd mqhat k) * vq.at' j k)).sum

/-- mean_field_ising.py:209-216 entry of `hMF`: the diagonal of `JMF factor2^T`, minus the field of
the independent model if `indTerm`. -/
noncomputable def mfFields (n : ℕ) (C JMF : Mat ℝ) (indTerm : Bool) (i : ℕ) : ℝ :=
  ((List.range n).map fun j => JMF.at' i j * (mfCov C i j *
      ((C.at' i i - 1 / 2) / (C.at' i i * (1 - C.at' i i))) - C.at' j j)).sum -
    if indTerm then Real.log (C.at' i i / (1 - C.at' i i)) else 0

/-- mean_field_ising.py:183-207 `JMF` and `ent` of the cluster matrix `C` of size `n`. -/
noncomputable def mfSolve (eig : Mat ℝ → List ℝ × Mat ℝ) (inv : Mat ℝ → Mat ℝ)
    (svdvals : Mat ℝ → List ℝ) (n : ℕ) (C : Mat ℝ) (lmbda : ℝ) (numSamples : Option ℕ)
    (indTerm useRegularizedEq : Bool) : Py (Mat ℝ × ℝ) :=
  open scoped Classical in
  let M := mfCorr n C
  let Sind := mfSind n C indTerm
  if lmbda ≠ 0 ∨ useRegularizedEq = true then
    match mfGamma lmbda numSamples with
    | .error e => .error e
    | .ok gamma =>
      let mqhat := (eig M).1.map (mfHat gamma)
      let vq := (eig M).2
      match mfZeroDiag (Mat.build n n fun i j => mfJprime n mqhat vq i j / mfDenom C i j) with
      | .error e => .error e
      | .ok JMF => .ok (JMF, Sind + 1 / 2 * (mqhat.map fun m => Real.log m + 1 - m).sum)
  else
    match mfZeroDiag (Mat.build n n fun i j => (inv M).at' i j / mfDenom C i j) with
    | .error e => .error e
    | .ok JMF => .ok (JMF, Sind + 1 / 2 * ((svdvals M).map Real.log).sum)

/-- mean_field_ising.py:149-227 `SmeanField(cluster, coocMat, meanFieldPriorLmbda, numSamples, indTerm,
alternateEnt, useRegularizedEq)`; `eig`, `inv`, `svdvals` are the routines of `scipy.linalg`, taken to
return real values (`real_if_close`). A frequency of 0 or 1 puts not-a-number in `M`, which these
routines reject with `ValueError`; so is here a frequency outside `[0,1]`. -/
noncomputable def smeanField (eig : Mat ℝ → List ℝ × Mat ℝ) (inv : Mat ℝ → Mat ℝ)
    (svdvals : Mat ℝ → List ℝ) (cluster : List ℕ) (coocMat : Mat ℝ) (lmbda : ℝ)
    (numSamples : Option ℕ) (indTerm alternateEnt useRegularizedEq : Bool) : Py (ℝ × Mat ℝ) :=
  open scoped Classical in
  match coocCluster coocMat cluster with
  | .error e => .error e
  | .ok R => match symmetrizeUsingUpper R with
    | .error e => .error e
    | .ok C =>
      let n := cluster.length
      if ∃ i < n, C.at' i i * (1 - C.at' i i) ≤ 0 then .error .valueError
      else match mfSolve eig inv svdvals n C lmbda numSamples indTerm useRegularizedEq with
        | .error e => .error e
        | .ok (JMF, ent) =>
          let hMF := (List.range n).map (mfFields n C JMF indTerm)
          match mfReplaceDiag (Mat.build n n fun i j => 1 / 2 * JMF.at' i j) hMF with
          | .error e => .error e
          | .ok J =>
            let ent' : Py ℝ := if alternateEnt then analyticEntropy J else .ok ent
            match ent', jfullFromCluster J cluster coocMat.length with
            | .error e, _ => .error e
            | _, .error e => .error e
            | .ok ent, .ok Jfull => .ok (ent, Jfull)

/-- mean_field_ising.py:231-238 `JmeanField(coocMat, meanFieldPriorLmbda, numSamples)`. -/
noncomputable def jmeanField (eig : Mat ℝ → List ℝ × Mat ℝ) (coocMat : Mat ℝ) (lmbda : ℝ)
    (numSamples : Option ℕ) : Py (Mat ℝ) :=
  match smeanField eig id (fun _ => []) (List.range coocMat.length) coocMat lmbda numSamples
      true false true with
  | .error e => .error e
  | .ok r => .ok r.2

/-! ### RegularizedMeanField -/

/-- mean_field_ising.py:538-540 `isingDeltaCooc(isingSamples, coocMatDesired)` (the later of the two
definitions); no samples give not-a-number (`none`). -/
noncomputable def isingDeltaCooc (n : ℕ) (samples : Samples ℝ) (desired : Mat ℝ) :
    Py (Option (List ℝ)) :=
  if samples.length = 0 then .ok none
  else
    let cooc : Mat ℝ := (cooccurrenceMatrix n samples true).map fun row => row.map fun x => x.getD 0
    match aboveDiagFlat (Mat.build n n fun i j => cooc.at' i j - desired.at' i j) true none with
    | .error e => .error e
    | .ok v => .ok (some v)

/-- `J + J.T` (solvers.py:2671 and 2724). -/
def addTranspose (J : Mat ℝ) : Mat ℝ :=
  Mat.build J.length J.length fun i j => J.at' i j + J.at' j i

/-- solvers.py:2666-2674 the parameters with which `samples(J)` draws from the model. -/
noncomputable def rmfSampleParams (J : Mat ℝ) : Py (List ℝ) :=
  open scoped Classical in
  let J := addTranspose J
  match zeroDiag (J.map fun r => r.map fun x => -x) with
  | .error e => .error e
  | .ok Z => match squareformMat Z with
    | .error e => .error e
    | .ok v => .ok (diagonal J ++ v)

/-- solvers.py:2724-2729 the returned parameters (the last lines are those of ClusterExpansion). -/
noncomputable def rmfParams (J : Mat ℝ) : Py (List ℝ) := aceParams (addTranspose J)

/-- solvers.py:2662-2663, 2680 and 2720 the prior strength for `gammaPrime`. -/
noncomputable def rmfLambda (cooc : Mat ℝ) (gammaPrime : ℝ) : ℝ :=
  let freqs := diagonal cooc
  let pmean := freqs.sum / (freqs.length : ℝ)
  gammaPrime / (pmean ^ 2 * (1 - pmean) ^ 2)

/-- solvers.py:2677-2709 `func(meanFieldGammaPrime)` with the default `min_independent`: the sum of the
squared standardised residuals of the samples of the candidate. `sampler` gives the samples for the
parameters of the model (with `reset_rng` the same for the same parameters; see Verif/Model/RmfProg.lean
for the object that draws them). With `min_covariance` line 2669 reads names that do not exist. `none`: not
finite. -/
noncomputable def rmfObjective (eig : Mat ℝ → List ℝ × Mat ℝ) (sampler : List ℝ → Samples ℝ) (n : ℕ)
    (cooc : Mat ℝ) (stdevs : List (Option ℝ)) (numSamples : ℕ) (minCovariance : Bool) (gammaPrime : ℝ) :
    Py (Option ℝ) :=
  match jmeanField eig cooc (rmfLambda cooc gammaPrime) (some numSamples) with
  | .error e => .error e
  | .ok J => if minCovariance then .error .nameError else match rmfSampleParams J with
    | .error e => .error e
    | .ok p => match isingDeltaCooc n (sampler p) cooc with
      | .error e => .error e
      | .ok none => .ok none
      | .ok (some d) =>
        if stdevs.any Option.isNone then .ok none
        else .ok (some ((List.zipWith (fun x s => (x / s) ^ 2) d (stdevs.map fun s => s.getD 0)).sum))

/-- solvers.py:2573-2731 `RegularizedMeanField.solve` for a sample of `n` spins; `search` stands for the
grid and `scipy.optimize.minimize_scalar`, applied to the objective. The covariance of the residuals,
which is computed but not used with the default options, and the import of line 2620 (which fails for
versions of scipy without `transpose`) are left out. -/
noncomputable def rmfSolve (eig : Mat ℝ → List ℝ × Mat ℝ) (sampler : List ℝ → Samples ℝ)
    (search : (ℝ → Py (Option ℝ)) → Py ℝ) (n : ℕ) (sample : List (List ℤ)) (priorLmbda : ℝ)
    (minIndependent minCovariance : Bool) : Py (List ℝ) :=
  open scoped Classical in
  match aceCooc n sample with
  | none => .error .indexError
  | some cooc =>
    if priorLmbda ≠ 0 then .error .notImplemented
    else if minIndependent = false then
      if minCovariance then .error .exception else .error .notImplemented
    else match coocStdevsFlat cooc sample.length with
      | .error e => .error e
      | .ok stdevs => match search (rmfObjective eig sampler n cooc stdevs sample.length minCovariance) with
        | .error e => .error e
        | .ok g => match jmeanField eig cooc (rmfLambda cooc g) (some sample.length) with
          | .error e => .error e
          | .ok J => rmfParams J

end Verif.Model
