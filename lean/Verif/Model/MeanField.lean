/-
Model of the matrix helpers and of the exact small-system code of coniii/mean_field_ising.py.
-/
import Verif.Basic
import Verif.Spec.Matrix
import Verif.Model.States
import Verif.Model.Helpers
import Mathlib.Analysis.SpecialFunctions.Log.Basic
import Mathlib.Analysis.Real.Sqrt

namespace Verif.Model
open Verif

variable {K : Type*}

/-- Data set: one row per sample, entries as numbers (mean_field_ising.py works on float arrays). -/
abbrev Samples (K : Type*) := List (List K)

/-- `scipy.diagonal(m, k)` for `k ≥ 0` (library call at mean_field_ising.py:53). -/
def diagonalK [Zero K] (M : Mat K) (k : ℕ) : List K :=
  (List.range (min M.length (M.ncols - k))).map fun a => M.at' a (a + k)

/-- `scipy.diag(v, k)` for a vector `v` and `k ≥ 0` (library call at mean_field_ising.py:381): the
square matrix of size `len(v) + k` with `v` on the `k`-th diagonal. -/
def diagMat [Zero K] (v : List K) (k : ℕ) : Mat K :=
  Mat.build (v.length + k) (v.length + k) fun i j => if j = i + k then v.getD i 0 else 0

/-- mean_field_ising.py:38-54 `aboveDiagFlat(mat, keepDiag, offDiagMult)`. `1-tri` is one strictly
above the diagonal and zero elsewhere. With `offDiagMult` the matrix must be square (a one-row
matrix with several columns, which numpy would broadcast, is reported as an error here);
concatenating no diagonals raises `ValueError`. The in-place `*=` needs a float array. -/
def aboveDiagFlat [Ring K] (M : Mat K) (keepDiag : Bool) (offDiagMult : Option K) : Py (List K) :=
  let n := M.length
  let m : Py (Mat K) := match offDiagMult with
    | none => .ok M
    | some c =>
      if M.ncols ≠ n then .error .valueError
      else .ok (Mat.build n n fun i j =>
        M.at' i j * (c * (1 - (if j ≤ i then 1 else 0)) + if i = j then 1 else 0))
  match m with
  | .error e => .error e
  | .ok m =>
    let begin' := if keepDiag then 0 else 1
    let parts := (pyRange begin' n).map fun i => diagonalK m i
    if parts.isEmpty then .error .valueError else .ok parts.flatten

/-- mean_field_ising.py:57-65 `replaceDiag(mat, lst)` for a one-dimensional `lst`. -/
def mfReplaceDiag [Ring K] (M : Mat K) (lst : List K) : Py (Mat K) :=
  if ¬ (M.length = lst.length ∧ M.ncols = lst.length) then .error .exception
  else
    let n := M.length
    .ok (Mat.build n n fun i j =>
      M.at' i j - (if i = j then M.at' i i else 0) + (if i = j then lst.getD i 0 else 0))

/-- mean_field_ising.py:69-70 `zeroDiag(mat)`. -/
def mfZeroDiag [Ring K] (M : Mat K) : Py (Mat K) := mfReplaceDiag M (List.replicate M.length 0)

/-- mean_field_ising.py:120-126 `coocCluster(coocMat, cluster)`: fancy indexing of the rows, then of
the columns; an index out of range raises `IndexError`. -/
def coocCluster (M : Mat K) (cluster : List ℕ) : Py (Mat K) :=
  match cluster.mapM (fun i => getAt M i) with
  | .error e => .error e
  | .ok rows => rows.mapM fun row => cluster.mapM fun j => getAt row j

/-- One assignment `J[i,j] = v` of a matrix. -/
def setCell (J : Mat K) (i j : ℕ) (v : K) : Py (Mat K) :=
  match getAt J i with
  | .error e => .error e
  | .ok row => match setAt row j v with
    | .error e => .error e
    | .ok row => setAt J i row

/-- One read `J[i,j]` of a matrix. -/
def getCell (J : Mat K) (i j : ℕ) : Py K :=
  match getAt J i with
  | .error e => .error e
  | .ok row => getAt row j

/-- mean_field_ising.py:135 the assignment inside the double loop. -/
def jfullStep (Jc : Mat K) (J : Mat K) (a b : ℕ × ℕ) : Py (Mat K) :=
  match getCell Jc a.2 b.2 with
  | .error e => .error e
  | .ok v => setCell J a.1 b.1 v

/-- mean_field_ising.py:129-136 `JfullFromCluster(Jcluster, cluster, N)`; `zipIdx` is `enumerate`. -/
def jfullFromCluster [Zero K] (Jc : Mat K) (cluster : List ℕ) (N : ℕ) : Py (Mat K) :=
  cluster.zipIdx.foldlM (fun J a => cluster.zipIdx.foldlM (fun J b => jfullStep Jc J a b) J)
    (Mat.build N N fun _ _ => 0)

/-- mean_field_ising.py:140-145 `symmetrizeUsingUpper(mat)`; `mat[0]` of an empty matrix raises
`IndexError`. -/
def symmetrizeUsingUpper [Ring K] (M : Mat K) : Py (Mat K) :=
  match M with
  | [] => .error .indexError
  | row :: _ =>
    if M.length ≠ row.length then .error .exception
    else
      let n := M.length
      let d := diagonalK M 0
      let tri := Mat.build n n fun i j => (1 - (if j ≤ i then 1 else 0)) * M.at' i j
      mfReplaceDiag (Mat.build n n fun i j => tri.at' i j + tri.at' j i) d

/-- mean_field_ising.py:389-394 `diagFlatIndex(i, j, ell)`. -/
def diagFlatIndex (i j ell : ℤ) : ℤ :=
  let D := j - i
  i + D * ell - D * (D - 1) / 2

/-- mean_field_ising.py:381 the slice of the flat list for diagonal `j`. -/
def flatSlice (flat : List K) (ell j : ℕ) : List K :=
  let a := (diagFlatIndex 0 j ell).toNat
  let b := (diagFlatIndex 0 (j + 1) ell).toNat
  (flat.take b).drop a

/-- mean_field_ising.py:376-386 `unflatten(flatList, ell, symmetrize)`: the sum over diagonals of
square matrices; arrays of different sizes cannot be stacked (`ValueError`). For `ell = 0` the
source returns the scalar zero, here the empty matrix. -/
def unflatten [Field K] (flat : List K) (ell : ℕ) (symmetrize : Bool) : Py (Mat K) :=
  let mats := (List.range ell).map fun j => diagMat (flatSlice flat ell j) j
  match mats with
  | [] => .ok []
  | m :: _ =>
    let s := m.length
    if ¬ mats.all (fun m => m.length = s) then .error .valueError
    else
      let mat := Mat.build s s fun a b => (mats.map fun m => m.at' a b).sum
      if symmetrize then .ok (Mat.build s s fun a b => 2⁻¹ * (mat.at' a b + mat.at' b a))
      else .ok mat

/-- mean_field_ising.py:579-585 `fightPossibilities(ell, minSize)`. -/
def fightPossibilities (ell : ℕ) (minSize : ℤ) : List (List ℤ) :=
  let fp := (List.range (2 ^ ell)).map fun fN => binaryRepr fN ell
  if minSize > 0 then fp.filter fun x => x.sum ≥ minSize else fp

/-- mean_field_ising.py:576 the value for one state `x`. -/
def unsummedRow [Field K] (J : Mat K) (h : List K) (hext : K) (ell : ℕ) (x : ℕ → K) : K :=
  -((List.range ell).map fun i => x i * (h.getD i 0 - hext)).sum -
    1 * ((List.range ell).map fun j =>
      ((List.range ell).map fun i => x i * (J.at' i j - if i = j then h.getD i 0 else 0)).sum *
        x j).sum

/-- mean_field_ising.py:568-576 `unsummedLogZ(J, hext, minSize)` for a scalar `hext`: one value per
state. With no state left the matrix product of an empty array raises `ValueError`. -/
def unsummedLogZ [Field K] (J : Mat K) (hext : K) (minSize : ℤ) : Py (List K) :=
  let ell := J.length
  if J.ncols ≠ ell then .error .valueError
  else
    let h := diagonalK J 0
    let fp := fightPossibilities ell minSize
    if fp.isEmpty then .error .valueError
    else if ¬ fp.all (fun f => f.length = ell) then .error .valueError
    else .ok (fp.map fun f => unsummedRow J h hext ell fun i => ((f.getD i 0 : ℤ) : K))

/-- mean_field_ising.py:561-565 `unsummedZ(J, hext, minSize)`. -/
noncomputable def unsummedZ (J : Mat ℝ) (hext : ℝ) (minSize : ℤ) : Py (List ℝ) :=
  match unsummedLogZ J hext minSize with
  | .error e => .error e
  | .ok l => .ok (l.map Real.exp)

/-- mean_field_ising.py:548-558 `coocExpectations(J, hext, zeroBelowDiag, minSize)`. -/
noncomputable def coocExpectations (J : Mat ℝ) (hext : ℝ) (zeroBelowDiag : Bool) (minSize : ℤ) :
    Py (Mat ℝ) :=
  let ell := J.length
  let fp := fightPossibilities ell minSize
  match unsummedZ J hext minSize with
  | .error e => .error e
  | .ok Z =>
    let coocSym := Mat.build ell ell fun i j =>
      (List.zipWith (fun (f : List ℤ) z => ((f.getD j 0 : ℤ) : ℝ) * ((f.getD i 0 : ℤ) : ℝ) * z) fp Z).sum
        / Z.sum
    if zeroBelowDiag then
      .ok (Mat.build ell ell fun i j => coocSym.at' i j * if i ≤ j then 1 else 0)
    else .ok coocSym

/-- mean_field_ising.py:398-404 `analyticEntropy(J)`. Every `p` is positive, so `log` is defined. -/
noncomputable def analyticEntropy (J : Mat ℝ) : Py ℝ :=
  match unsummedZ J 0 0 with
  | .error e => .error e
  | .ok Z =>
    let p := Z.map fun z => z / Z.sum
    .ok (-(p.map fun q => q * Real.log q).sum)

/-- mean_field_ising.py:443-461 `cooccurrence_matrix(samples, keep_diag)` for `n` columns. No samples
give not-a-number (`none`). -/
def cooccurrenceMatrix [Field K] (n : ℕ) (samples : Samples K) (keepDiag : Bool) :
    Mat (Option K) :=
  Mat.build n n fun i j =>
    let dotp := (samples.map fun r => rd r i * rd r j).sum
    let tri : K := if keepDiag then (if j + 1 ≤ i then 1 else 0) else (if j ≤ i then 1 else 0)
    if samples.length = 0 then none else some (dotp * (1 - tri) / (samples.length : K))

/-- mean_field_ising.py:529-533 `coocMatBayesianMean(coocMat, numFights)`. -/
def coocMatBayesianMean [Field K] (M : Mat K) (numFights : ℕ) : Mat K :=
  M.map fun row => row.map fun x => (x * (numFights : K) + 1) / ((numFights : K) + 2)

/-- mean_field_ising.py:518-525 `coocStdevsFlat(coocMat, numFights)`. Division by no samples gives
numbers that are not finite (`none`). -/
noncomputable def coocStdevsFlat (M : Mat ℝ) (numFights : ℕ) : Py (List (Option ℝ)) :=
  let mm := coocMatBayesianMean M numFights
  match aboveDiagFlat (mm.map fun row => row.map fun x => x * (1 - x)) true none with
  | .error e => .error e
  | .ok v => .ok (v.map fun x => if numFights = 0 then none else some (Real.sqrt (x / (numFights : ℝ))))

/-- mean_field_ising.py:472-475 the index quadruples visited by the loops of `fourthOrderCoocMat`. -/
def fourthLoop (ell : ℕ) : List (ℕ × ℕ × ℕ × ℕ) :=
  (pyRange 0 ell).flatMap fun i => (pyRange i ell).flatMap fun j =>
    (pyRange i ell).flatMap fun m => (pyRange m ell).map fun n => (i, j, m, n)

/-- mean_field_ising.py:476-481 the body of the loop. -/
def fourthStep [Field K] (ell : ℕ) (samples : Samples K) (f : Mat K) (q : ℕ × ℕ × ℕ × ℕ) :
    Py (Mat K) :=
  let (i, j, m, n) := q
  let c1 := (diagFlatIndex i j ell).toNat
  let c2 := (diagFlatIndex m n ell).toNat
  let cooc := (samples.map fun r => rd r i * rd r j * rd r m * rd r n).sum
  match setCell f c1 c2 cooc with
  | .error e => .error e
  | .ok f => setCell f c2 c1 cooc

/-- mean_field_ising.py:465-510 `fourthOrderCoocMat(samples)` (the default slow method; the C
string of the other one is not modelled). `samples[0]` of no samples raises `IndexError`. -/
def fourthOrderCoocMat [Field K] (samples : Samples K) : Py (Mat K) :=
  match samples with
  | [] => .error .indexError
  | row :: _ =>
    let ell := row.length
    let jdim := (ell + 1) * ell / 2
    match (fourthLoop ell).foldlM (fourthStep ell samples) (Mat.build jdim jdim fun _ _ => (0 : K)) with
    | .error e => .error e
    | .ok f => .ok (f.map fun r => r.map fun x => x / (samples.length : K))

/-- mean_field_ising.py:356-368 the residual `deltaCooc` of `findJmatrixAnalytic_CoocMat`. -/
noncomputable def deltaCooc (desired : Mat ℝ) (lmbda : ℝ) (minSize : ℤ) (Jflat : List ℝ) :
    Py (List ℝ) :=
  let ell := desired.length
  match unflatten Jflat ell false with
  | .error e => .error e
  | .ok J => match coocExpectations J 0 true minSize with
    | .error e => .error e
    | .ok cooc =>
      match aboveDiagFlat (Mat.build ell ell fun i j => cooc.at' i j - desired.at' i j) true none with
      | .error e => .error e
      | .ok d =>
        if 0 < lmbda ∧ 1 < ell then
          let freqs := diagonalK desired 0
          let factor := Mat.build ell ell fun i j =>
            (rd freqs i * (1 - rd freqs i)) * (rd freqs j * (1 - rd freqs j))
          match aboveDiagFlat factor false none with
          | .error e => .error e
          | .ok ff => .ok (d ++ List.zipWith (fun f x => lmbda * f * x ^ 2) ff (Jflat.drop ell))
        else .ok d

/-- mean_field_ising.py:350-354 the starting point of the fit: the independent model. A frequency of
0 or 1 has no finite field; the theorems assume frequencies strictly between. -/
noncomputable def jinit (desired : Mat ℝ) : Mat ℝ :=
  diagMat ((diagonalK desired 0).map fun f => -Real.log (f / (1 - f))) 0

/-- mean_field_ising.py:331-373 `findJmatrixAnalytic_CoocMat(coocMat, Jinit=None, bayesianMean,
numSamples, priorLmbda, minSize)`; `lsq` stands for `scipy.optimize.leastsq`. -/
noncomputable def findJmatrix (lsq : (List ℝ → Py (List ℝ)) → List ℝ → Py (List ℝ))
    (coocMat : Mat ℝ) (bayesianMean : Bool) (numSamples : Option ℕ) (priorLmbda : ℝ)
    (minSize : ℤ) : Py (Mat ℝ) :=
  let ell := coocMat.length
  let lm : Py ℝ := if priorLmbda = 0 then .ok 0 else match numSamples with
    | none => .error .typeError
    | some m => .ok (priorLmbda / (m : ℝ))
  let des : Py (Mat ℝ) := if bayesianMean then match numSamples with
      | none => .error .typeError
      | some m => .ok (coocMatBayesianMean coocMat m)
    else .ok coocMat
  match lm, des with
  | .error e, _ => .error e
  | _, .error e => .error e
  | .ok lmbda, .ok desired =>
    match aboveDiagFlat (jinit desired) true none with
    | .error e => .error e
    | .ok x0 => match lsq (deltaCooc desired lmbda minSize) x0 with
      | .error e => .error e
      | .ok x => unflatten x ell true

end Verif.Model
