/-
coniii/solvers.py: the deprecated part of Pseudo, and coniii/pseudo_inverse_ising.py, from which it was
taken.
-/
import Verif.Model.Pseudo

namespace Verif.Model
open Verif

/-- Lines common to all functions below, e.g. solvers.py:2041: `X[:,r]` needs a two-dimensional array
with more than `r` columns (`IndexError`), `np.dot(Jr,samplesRhat.T)` as many parameters as columns
(`ValueError`). -/
def oldCheck (r : ℕ) (X : List (List ℝ)) (Jr : List ℝ) : Py Unit :=
  if X = [] ∨ (X.getD 0 []).length ≤ r then .error .indexError
  else if Jr.length ≠ (X.getD 0 []).length then .error .valueError
  else .ok ()

/-- solvers.py:2041, 2062, 2094, pseudo_inverse_ising.py:95, 119, 151 one entry of `sigmaRtilde`. -/
def oldSigma (r : ℕ) (row : List ℝ) : ℝ := 2 * rd row r - 1

/-- solvers.py:2042-2043, 2063-2064, 2095-2096, pseudo_inverse_ising.py:96-97, 120-121, 152-153 one row
of `samplesRhat`. -/
def oldRhat (r : ℕ) (row : List ℝ) : List ℝ := (row.map fun x => 2 * x).set r 1

/-- solvers.py:2044-2045, 2065-2066, 2097-2098, pseudo_inverse_ising.py:98-99, 122-123, 154-155 one
entry of `energies`. -/
def oldEnergy (r : ℕ) (Jr row : List ℝ) : ℝ :=
  oldSigma r row * (List.zipWith (· * ·) Jr (oldRhat r row)).sum

/-- solvers.py:2022-2050 `Pseudo.cond_log_likelihood(r, X, Jr)`. -/
noncomputable def condLogLikelihood (r : ℕ) (X : List (List ℝ)) (Jr : List ℝ) : Py ℝ :=
  match oldCheck r X Jr with
  | .error e => .error e
  | .ok _ => .ok (-(X.map fun row => Real.log (1 + Real.exp (oldEnergy r Jr row))).sum)

/-- solvers.py:2052-2070 `Pseudo.cond_jac(r, X, Jr)`; `self.n` is the number of columns of `X`, as it is
in `_solve_ising_deprecated`. -/
noncomputable def condJac (r : ℕ) (X : List (List ℝ)) (Jr : List ℝ) : Py (List ℝ) :=
  match oldCheck r X Jr with
  | .error e => .error e
  | .ok _ => .ok ((List.range (X.getD 0 []).length).map fun i => (X.map fun row =>
      oldSigma r row * rd (oldRhat r row) i * (1 / (1 + Real.exp (-oldEnergy r Jr row)))).sum)

/-- solvers.py:2106-2118 `Pseudo.pair_cooc_mat(X)`, pseudo_inverse_ising.py:196-206 `pairCoocMat`: the
entry `[i][s][j]` is `X[s,i]*X[s,j]`. Without rows `np.transpose` raises. -/
def pairCoocArr (X : List (List ℝ)) : Py (List (Mat ℝ)) :=
  if X = [] then .error .valueError
  else
    let n := (X.getD 0 []).length
    .ok ((List.range n).map fun i => X.map fun f => (List.range n).map fun j => rd f i * rd f j)

/-- `np.dot(a, P)` of a vector and an array with three indices (library call at solvers.py:2104): sum over
the index of `a` and the second one of `P`. -/
def dot3 (a : List ℝ) (P : List (Mat ℝ)) (n : ℕ) : Py (Mat ℝ) :=
  if ¬ (∀ M ∈ P, M.length = a.length) then .error .valueError
  else .ok (P.map fun M => (List.range n).map fun j =>
    (List.zipWith (fun x (row : List ℝ) => x * rd row j) a M).sum)

/-- solvers.py:2103, pseudo_inverse_ising.py:164 one entry of `energyMults`. -/
noncomputable def oldMult (r : ℕ) (Jr row : List ℝ) : ℝ :=
  Real.exp (-oldEnergy r Jr row) / (1 + Real.exp (-oldEnergy r Jr row)) ^ 2

/-- solvers.py:2100-2101, pseudo_inverse_ising.py:158-159 `pairCoocRhat`: what is given, or computed. -/
def cachedCooc (r : ℕ) (X : List (List ℝ)) (pc : Option (List (Mat ℝ))) : Py (List (Mat ℝ)) :=
  match pc with
  | some P => .ok P
  | none => pairCoocArr (X.map (oldRhat r))

/-- solvers.py:2072-2104 `Pseudo.cond_hess(r, X, Jr, pairCoocRhat)`. -/
noncomputable def condHess (r : ℕ) (X : List (List ℝ)) (Jr : List ℝ) (pc : Option (List (Mat ℝ))) :
    Py (Mat ℝ) :=
  match oldCheck r X Jr with
  | .error e => .error e
  | .ok _ => match cachedCooc r X pc with
    | .error e => .error e
    | .ok P => dot3 (X.map (oldMult r Jr)) P (X.getD 0 []).length

/-- solvers.py:2120-2132 `Pseudo.pseudo_log_likelihood(X, J)`: the name `cond_log_likelihood` is not
defined; it is looked up once per row of `J`. -/
def pseudoLogLikelihoodMethod (_X : List (List ℝ)) (J : Mat ℝ) : Py ℝ :=
  if J = [] then .ok 0 else .error .nameError

/-- The minus sign of `f` at solvers.py:2007, pseudo_inverse_ising.py:70. -/
def negOk : Py ℝ → Py ℝ
  | .error e => .error e
  | .ok v => .ok (-v)

/-- solvers.py:1997-2012 the rows found for all spins; `fmin f x0 f' f''` stands for
`fmin_ncg(f, x0, f', fhess=f'')`. The start is infinite (`none`) for a spin that never changes. -/
noncomputable def deprecatedRows (fmin : (List ℝ → Py ℝ) → List (Option ℝ) → (List ℝ → Py (List ℝ)) →
      (List ℝ → Py (Mat ℝ)) → Py (List ℝ)) (n : ℕ) (X : List (List ℝ)) : Py (List (List ℝ)) :=
  (List.range n).mapM fun r =>
    let freq := (X.map fun row => rd row r).sum / (X.length : ℝ)
    let start : Option ℝ := if freq = 0 ∨ freq = 1 then none else some (-Real.log (freq / (1 - freq)))
    match pairCoocArr (X.map fun row => row.set r 1) with
    | .error e => .error e
    | .ok P => fmin (fun Jr => negOk (condLogLikelihood r X Jr)) ((List.replicate n (some 0)).set r start) (condJac r X)
        (fun Jr => condHess r X Jr (some P))

open scoped Classical in
/-- solvers.py:1975-2020 `Pseudo._solve_ising_deprecated()`. -/
noncomputable def solveIsingDeprecated (fmin : (List ℝ → Py ℝ) → List (Option ℝ) →
      (List ℝ → Py (List ℝ)) → (List ℝ → Py (Mat ℝ)) → Py (List ℝ)) (n : ℕ) (sample : Data) :
    Py (List ℝ) :=
  let X := sample.map fun row => row.map fun x : ℤ => ((x : ℝ) + 1) / 2
  match deprecatedRows fmin n X with
  | .error e => .error e
  | .ok J =>
    let S := Mat.build n n fun i j => -(1 / 2) * (Mat.at' J i j + Mat.at' J j i)
    let Z := Mat.build n n fun i j => if i = j then 0 else S.at' i j
    match squareformMat Z with
    | .error e => .error e
    | .ok v => convertParamsConcat ((List.range n).map fun i => S.at' i i) (.vec (v.map fun x => x * 2)) .b11

/-! ### pseudo_inverse_ising.py -/

open scoped Classical in
/-- pseudo_inverse_ising.py:102, 126, 162 one entry of `filterVec`. -/
noncomputable def oldFilter (r : ℕ) (minSize : ℤ) (row : List ℝ) : ℝ :=
  1 - rd row r * (if row.sum ≤ (minSize : ℝ) then 1 else 0)

/-- pseudo_inverse_ising.py:84-107 `conditionalLogLikelihood(r, samples, Jr, minSize)`. -/
noncomputable def conditionalLogLikelihood (r : ℕ) (X : List (List ℝ)) (Jr : List ℝ) (minSize : ℤ) : Py ℝ :=
  match oldCheck r X Jr with
  | .error e => .error e
  | .ok _ => .ok (X.map fun row =>
      -oldFilter r minSize row * Real.log (1 + Real.exp (oldEnergy r Jr row))).sum

/-- pseudo_inverse_ising.py:109-130 `conditionalJacobian(r, samples, Jr, minSize)`. -/
noncomputable def conditionalJacobian (r : ℕ) (X : List (List ℝ)) (Jr : List ℝ) (minSize : ℤ) :
    Py (List ℝ) :=
  match oldCheck r X Jr with
  | .error e => .error e
  | .ok _ => .ok ((List.range Jr.length).map fun i => (X.map fun row =>
      oldSigma r row * rd (oldRhat r row) i *
        (oldFilter r minSize row * 1 / (1 + Real.exp (-oldEnergy r Jr row)))).sum)

/-- pseudo_inverse_ising.py:132-169 `conditionalHessian(r, samples, Jr, minSize, pairCoocRhat)`. -/
noncomputable def conditionalHessian (r : ℕ) (X : List (List ℝ)) (Jr : List ℝ) (minSize : ℤ)
    (pc : Option (List (Mat ℝ))) : Py (Mat ℝ) :=
  match oldCheck r X Jr with
  | .error e => .error e
  | .ok _ => match cachedCooc r X pc with
    | .error e => .error e
    | .ok P => dot3 (X.map fun row => oldFilter r minSize row * oldMult r Jr row) P (X.getD 0 []).length

/-- pseudo_inverse_ising.py:209-218 `pseudoLogLikelihood(samples, J, minSize)`. The whole matrix is passed
for `Jr`; `scipy.dot(J,samplesRhat.T)` then has a row per row of `J`, and the final sum is over all of
them. Rows of `J` of another length than the samples raise. -/
noncomputable def pseudoLogLikelihood (X : List (List ℝ)) (J : Mat ℝ) (minSize : ℤ) : Py ℝ :=
  match (List.range J.length).mapM fun r => J.mapM fun Jr => conditionalLogLikelihood r X Jr minSize with
  | .error e => .error e
  | .ok vs => .ok (vs.map List.sum).sum

open scoped Classical in
/-- pseudo_inverse_ising.py:40-80 `pseudoInverseIsing(samples, minSize)`. `data[0]` raises if no sample is
large enough. -/
noncomputable def pseudoInverseIsing (fmin : (List ℝ → Py ℝ) → List (Option ℝ) →
      (List ℝ → Py (List ℝ)) → (List ℝ → Py (Mat ℝ)) → Py (List ℝ)) (samples : List (List ℝ))
    (minSize : ℤ) : Py (Mat ℝ) :=
  let data := samples.filter fun f => (minSize : ℝ) ≤ f.sum
  if data = [] then .error .indexError
  else
    let ell := (data.getD 0 []).length
    let rows := (List.range ell).mapM fun r =>
      let freq := (data.map fun row => rd row r).sum / (data.length : ℝ)
      let start : Option ℝ := if freq = 0 ∨ freq = 1 then none else some (-Real.log (freq / (1 - freq)))
      match pairCoocArr (data.map fun row => row.set r 1) with
      | .error e => (.error e : Py (List ℝ))
      | .ok P => fmin (fun Jr => negOk (conditionalLogLikelihood r data Jr minSize)) ((List.replicate ell (some 0)).set r start)
          (fun Jr => conditionalJacobian r data Jr minSize)
          (fun Jr => conditionalHessian r data Jr minSize (some P))
    match rows with
    | .error e => .error e
    | .ok J => .ok (Mat.build ell ell fun i j => 1 / 2 * (Mat.at' J i j + Mat.at' J j i))

end Verif.Model
