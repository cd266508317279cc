/-
Model of ising_convert_params and split_concat_params (coniii/utils.py).
-/
import Verif.Model.Matrix
import Mathlib.Data.Nat.Choose.Basic

namespace Verif.Model
open Verif

variable {K : Type*}

/-- `params[c][ix] += v`. -/
def addAt [Add K] (P : List (List K)) (c ix : ℕ) (v : K) : Py (List (List K)) :=
  match P[c]? with
  | none => .error .indexError
  | some row => match row[ix]? with
    | none => .error .indexError
    | some old => .ok (P.set c (row.set ix (old + v)))

/-- Python `range(a, 0, -1)`. -/
def rangeDown (a : ℕ) : List ℕ := (pyRange 1 (a + 1)).reverse

/-- utils.py:456-467 (basis '01') and 472-483 (basis '11'): the body of the loop over the tuples
`ijk`. `same order` is the factor of the term of the same order, `sub order suborder` the factor of the
lower-order terms. -/
def icpTerm [Field K] (same : ℕ → K) (sub : ℕ → ℕ → K) (n counter order ijkcounter : ℕ)
    (ijk : List ℕ) (ijkcoeff : K) (P : List (List K)) : Py (List (List K)) := do
  let P ← addAt P counter ijkcounter (same order * ijkcoeff)
  (rangeDown (order - 1)).zipIdx.foldlM (fun P q =>
    (combos q.1 ijk).foldlM (fun P subijk =>
      match unravelIndex subijk n with
      | .error e => .error e
      | .ok ix => addAt P (q.2 + counter + 1) ix (ijkcoeff * sub order q.1)) P) P

/-- utils.py:452-456 and 468-472: the two outer loops; `op` is the reversed list of parameters. -/
def icpLoop [Field K] (same : ℕ → K) (sub : ℕ → ℕ → K) (n : ℕ) (op : List (List K))
    (P : List (List K)) : Py (List (List K)) :=
  (rangeDown op.length).zipIdx.foldlM (fun P q =>
    (combos q.1 (pyRange 0 n)).zipIdx.foldlM (fun P r =>
      match (op[q.2]?).bind fun l => l[r.2]? with
      | none => .error .indexError
      | some c => icpTerm same sub n q.2 q.1 r.2 r.1 c P) P) P

/-- utils.py:422-483 `ising_convert_params(oparams, convert_to)`. `2**-order` is the power in the
field. -/
def isingConvertParams [Field K] (oparams : List (List K)) (tgt : Basis) : Py (List (List K)) := do
  let op := oparams.reverse
  match op.getLast? with
  | none => .error .indexError
  | some h =>
    let n := h.length
    let P := (rangeDown op.length).map fun i => List.replicate (n.choose i) (0 : K)
    match tgt with
    | .b01 => do
      let P ← icpLoop (fun order => 2 ^ order)
        (fun order suborder => 2 ^ suborder * (-1) ^ (order - suborder)) n op P
      pure P.reverse
    | .b11 => do
      let P ← icpLoop (fun order => (2 ^ order)⁻¹) (fun order _ => (2 ^ order)⁻¹) n op P
      pure P.reverse
    | .other => .error .exception

/-- utils.py:485-487 `concat=True`. -/
def isingConvertParamsConcat [Field K] (oparams : List (List K)) (tgt : Basis) : Py (List K) := do
  let P ← isingConvertParams oparams tgt
  pure P.flatten

/-- utils.py:555-560 the while loop of `split_concat_params` with a bound on the number of
rounds; `none` when the bound is used up before the loop ends. -/
def splitLoop (p : List K) (n : ℕ) : ℕ → ℕ → ℕ → List (List K) → Option (List (List K))
  | 0, counter, _, acc => if counter < p.length then none else some acc
  | fuel + 1, counter, i, acc =>
    if counter < p.length then
      splitLoop p n fuel (counter + n.choose i) (i + 1)
        (acc ++ [(p.drop counter).take (n.choose i)])
    else some acc

/-- utils.py:539-561 `split_concat_params(p, n)` ends with result `r`. -/
def SplitConcatParams (p : List K) (n : ℕ) (r : List (List K)) : Prop :=
  ∃ fuel, splitLoop p n fuel 0 1 [] = some r

end Verif.Model
