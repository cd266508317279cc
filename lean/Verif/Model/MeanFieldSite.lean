/-
Model of the single-site mean-field functions of coniii/mean_field_ising.py (m, avgE, dmdT,
specificHeat, susc), of meanFieldStability and of coocSampleCovariance.
-/
import Verif.Model.MeanField
import Mathlib.Analysis.Complex.Norm
import Mathlib.Analysis.SpecialFunctions.ExpDeriv

namespace Verif.Model
open Verif

/-- mean_field_ising.py:77 `func` of `m(h,J,ell,T)`. -/
noncomputable def mfFunc (h J ell T : ℝ) (mm : ℝ) : ℝ :=
  mm - 1 / (1 + Real.exp ((h + 2 * (ell - 1) * mm * J) / T))

/-- mean_field_ising.py:73-87 `m(h,J,ell,T)` for Python numbers; `brentq` stands for
`scipy.optimize.brentq`. Division by a zero temperature raises. -/
noncomputable def mfM (brentq : (ℝ → ℝ) → ℝ → ℝ → Py ℝ) (h J ell T : ℝ) : Py ℝ :=
  if T = 0 then .error .zeroDivision else brentq (mfFunc h J ell T) 0 1

/-- mean_field_ising.py:91, 97, 103, 116 `hloc`. -/
def mfHloc (h J ell mr : ℝ) : ℝ := (ell - 1) * mr * J - h

/-- mean_field_ising.py:89-93 `avgE(h,J,ell,T)`. -/
noncomputable def mfAvgE (brentq : (ℝ → ℝ) → ℝ → ℝ → Py ℝ) (h J ell T : ℝ) : Py ℝ :=
  match mfM brentq h J ell T with
  | .error e => .error e
  | .ok mr => .ok (-mr * mfHloc h J ell mr)

/-- mean_field_ising.py:95-99 `dmdT(h,J,ell,T)`. The last denominator may vanish: division by zero
raises. -/
noncomputable def mfDmdT (brentq : (ℝ → ℝ) → ℝ → ℝ → Py ℝ) (h J ell T : ℝ) : Py ℝ :=
  match mfM brentq h J ell T with
  | .error e => .error e
  | .ok mr =>
    let hloc := mfHloc h J ell mr
    let c := Real.cosh (-hloc / (2 * T))
    let den := 1 + (ell - 1) * J / (4 * T) * (c ^ 2)⁻¹
    if den = 0 then .error .zeroDivision else .ok (hloc / (4 * T ^ 2) / c ^ 2 / den)

/-- mean_field_ising.py:101-112 `specificHeat(h,J,ell,T)`: what follows the `return` statement is a
string that is never used, but line 104 divides by `ell-1` and by `J` first. -/
noncomputable def mfSpecificHeat (brentq : (ℝ → ℝ) → ℝ → ℝ → Py ℝ) (h J ell T : ℝ) : Py ℝ :=
  match mfM brentq h J ell T with
  | .error e => .error e
  | .ok mr =>
    if ell - 1 = 0 ∨ J = 0 then .error .zeroDivision
    else .ok (mfHloc h J ell mr * (2 * (ell - 1) * mr * J - h))

/-- mean_field_ising.py:114-118 `susc(h,J,ell,T)`. -/
noncomputable def mfSusc (brentq : (ℝ → ℝ) → ℝ → ℝ → Py ℝ) (h J ell T : ℝ) : Py ℝ :=
  match mfM brentq h J ell T with
  | .error e => .error e
  | .ok mr =>
    let hloc := mfHloc h J ell mr
    .ok (1 / (T ^ 2 * (Real.exp (-hloc) + Real.exp hloc + 2)))

/-- mean_field_ising.py:245-246 the matrix `-2.*zeroDiag(J)*f*(1.-f)`, where every row of `f` is
`freqs`. `zeroDiag` raises for a matrix that is not square; a list of another length cannot be
multiplied (a single frequency, which numpy would broadcast, is reported as an error here too). -/
def stabilityMatrix (J : Mat ℝ) (freqs : List ℝ) : Py (Mat ℝ) :=
  match mfZeroDiag J with
  | .error e => .error e
  | .ok Z =>
    if freqs.length ≠ Z.length then .error .valueError
    else .ok (Mat.build Z.length Z.length fun i j =>
      -2 * Z.at' i j * freqs.getD j 0 * (1 - freqs.getD j 0))

/-- mean_field_ising.py:242-248 `meanFieldStability(J, freqs)`; `eigvals` stands for
`scipy.linalg.eigvals`. `max` of nothing raises. -/
noncomputable def meanFieldStability (eigvals : Mat ℝ → List ℂ) (J : Mat ℝ) (freqs : List ℝ) : Py ℝ :=
  match stabilityMatrix J freqs with
  | .error e => .error e
  | .ok m => match (eigvals m).map fun z => ‖z‖ with
    | [] => .error .valueError
    | x :: xs => .ok (xs.foldl max x)

/-- `scipy.linalg.block_diag(A, np.diag(ones(k)))` for a square `A` (library call at
mean_field_ising.py:427). -/
def blockDiagOnes [Ring K] (A : Mat K) (k : ℕ) : Mat K :=
  Mat.build (A.length + k) (A.length + k) fun i j =>
    if i < A.length ∧ j < A.length then A.at' i j
    else if i < A.length ∨ j < A.length then 0
    else if i = j then 1 else 0

/-- mean_field_ising.py:408-430 `coocSampleCovariance(samples, bayesianMean, includePrior)`. -/
def coocSampleCovariance [Field K] (samples : Samples K) (bayesianMean includePrior : Bool) :
    Py (Mat K) :=
  match fourthOrderCoocMat samples with
  | .error e => .error e
  | .ok c4 =>
    let N : K := (samples.length : K)
    let mean : Py (Mat K) :=
      if bayesianMean then mfReplaceDiag c4 ((diagonalK c4 0).map fun d => (d * N + 1) / (N + 2))
      else .ok c4
    match mean with
    | .error e => .error e
    | .ok c =>
      let cov := c.map fun r => r.map fun x => x * (1 - x)
      if includePrior then
        let ell := (samples.getD 0 []).length
        .ok (blockDiagOnes cov (ell * (ell - 1) / 2))
      else .ok cov

end Verif.Model
