/-
Model of the matrix and vector helpers of coniii/utils.py and of scipy's squareform.
-/
import Verif.Basic
import Verif.Spec.Pairs
import Verif.Spec.Matrix
import Verif.Model.Index
import Mathlib.Algebra.Field.Defs
import Mathlib.Data.Nat.Sqrt

namespace Verif.Model
open Verif

variable {K : Type*}

/-- Dimension `d` with `d(d-1)/2 = m`, if there is one (the length check of
`scipy.spatial.distance.squareform`). -/
def triDim (m : ℕ) : Option ℕ := (List.range (m + 2)).find? fun d => d * (d - 1) = 2 * m

/-- `squareform(v)` for a vector (library call, e.g. utils.py:402): an empty vector gives a
`1 × 1` zero matrix, a length that is not triangular raises `ValueError`, otherwise entry `k` goes
to both cells of the `k`-th row-major pair. -/
def squareformVec [Zero K] (v : List K) : Py (Mat K) :=
  if v.length = 0 then .ok [[0]]
  else match triDim v.length with
    | none => .error .valueError
    | some d => .ok (Mat.build d d fun i j =>
        if i = j then 0 else v.getD ((Spec.upperPairs d).idxOf (min i j, max i j)) 0)

/-- `squareform(M)` for a matrix (library call, e.g. utils.py:1414): must be square, symmetric and
zero on the diagonal (`ValueError` otherwise); returns the upper triangle row by row. -/
def squareformMat [Zero K] [DecidableEq K] (M : Mat K) : Py (List K) :=
  let n := M.length
  if M.ncols ≠ n then .error .valueError
  else if ¬ (∀ i ∈ List.range n, ∀ j ∈ List.range n, M.at' i j = M.at' j i) then .error .valueError
  else if ¬ (∀ i ∈ List.range n, M.at' i i = 0) then .error .valueError
  else .ok ((Spec.upperPairs n).map fun p => M.at' p.1 p.2)

/-- utils.py:673-690 `replace_diag(mat, newdiag)` (one-dimensional `newdiag`). -/
def replaceDiag [Ring K] (M : Mat K) (d : List K) : Py (Mat K) :=
  if ¬ (M.length = M.ncols ∧ M.ncols = d.length) then .error .exception
  else
    let n := M.length
    .ok (Mat.build n n fun i j =>
      M.at' i j - (if i = j then M.at' i i else 0) + (if i = j then d.getD i 0 else 0))

/-- utils.py:692-704 `zero_diag(mat)`. -/
def zeroDiag [Ring K] (M : Mat K) : Py (Mat K) := replaceDiag M (List.replicate M.length 0)

/-- `M.diagonal()`. -/
def diagonal [Zero K] (M : Mat K) : List K :=
  (List.range (min M.length M.ncols)).map fun i => M.at' i i

/-- utils.py:1390-1392: `int((sqrt(1+8*size)-1)//2)` with exact square root. The assertion
`n%1==0` that follows it in the source can never fail, because `//` already rounds down. -/
def vecDim (size : ℕ) : ℕ := (Nat.sqrt (1 + 8 * size) - 1) / 2

/-- utils.py:1368-1396 `vec2mat(multipliers)` (fields on the diagonal). -/
def vec2mat [Ring K] (v : List K) : Py (Mat K) := do
  let n := vecDim v.length
  let M ← squareformVec (v.drop n)
  replaceDiag M (v.take n)

/-- utils.py:1394-1395 `vec2mat(multipliers, separate_fields=True)`: fields, then the coupling
matrix. -/
def vec2matSeparate [Ring K] (v : List K) : Py (List K × Mat K) := do
  let n := vecDim v.length
  let M ← squareformVec (v.drop n)
  pure (v.take n, M)

/-- utils.py:1398-1414 `mat2vec(multipliers)`. -/
def mat2vec [Ring K] [DecidableEq K] (M : Mat K) : Py (List K) := do
  let Z ← zeroDiag M
  let J ← squareformMat Z
  pure (diagonal M ++ J)

/-- The `convert_to` argument. -/
inductive Basis | b01 | b11 | other
  deriving DecidableEq, Repr

/-- Couplings in either of the accepted forms (utils.py:401-405). -/
inductive Couplings (K : Type*) where
  | vec (J : List K)
  | mat (J : Mat K)

/-- numpy `h op v` for two vectors: equal lengths, or one of length one (broadcasting). -/
def broadcast2 (f : K → K → K) (a b : List K) : Py (List K) :=
  if a.length = b.length then .ok (List.zipWith f a b)
  else if b.length = 1 then
    match b with
    | y :: _ => .ok (a.map fun x => f x y)
    | [] => .error .valueError
  else if a.length = 1 then
    match a with
    | x :: _ => .ok (b.map fun y => f x y)
    | [] => .error .valueError
  else .error .valueError

/-- utils.py:379-420 `convert_params(h, J, convert_to)`; `concat=True` is `convertParamsConcat`. -/
def convertParams [Field K] [DecidableEq K] (h : List K) (J : Couplings K) (tgt : Basis) :
    Py (List K × List K) := do
  let (Jvec, Jmat) ← match J with
    | .vec J => do let M ← squareformVec J; pure (J, M)
    | .mat M => do let J ← squareformMat M; pure (J, M)
  let rowSums := Jmat.map List.sum
  match tgt with
  | .b11 => do
    let Jp := Jvec.map (· / 4)
    let hp ← broadcast2 (· + ·) (h.map (· / 2)) (rowSums.map (· / 4))
    pure (hp, Jp)
  | .b01 => do
    let d ← broadcast2 (· - ·) h rowSums
    let hp := d.map (2 * ·)
    let Jp := Jvec.map (· * 4)
    pure (hp, Jp)
  | .other => .error .exception

/-- utils.py:418-419 `concat=True`. -/
def convertParamsConcat [Field K] [DecidableEq K] (h : List K) (J : Couplings K) (tgt : Basis) :
    Py (List K) := do
  let (hp, Jp) ← convertParams h J tgt
  pure (hp ++ Jp)

end Verif.Model
