/-
Model of the data-summary functions of coniii/utils.py: pair_corr, k_corr, convert_corr,
unique_rows, state_probs, calc_overlap.
-/
import Verif.Model.Matrix
import Mathlib.Algebra.BigOperators.Group.List.Basic
import Mathlib.Data.Nat.Choose.Basic

namespace Verif.Model
open Verif

variable {K : Type*}

/-- `for k, x in enumerate(L): arr[k] = f(k, x)` on a preallocated array, starting at counter `k`;
also the pattern `arr[k] = ...; k += 1`. Writing past the end raises `IndexError`. -/
def enumWrite {α β : Type*} (f : ℕ → α → Py β) : List α → ℕ → List β → Py (List β)
  | [], _, arr => .ok arr
  | x :: xs, k, arr => do
    let v ← f k x
    if k < arr.length then enumWrite f xs (k + 1) (arr.set k v) else .error .indexError

/-- Samples: one row per sample, integer entries (the code allows only -1, 0 and 1). -/
abbrev Data := List (List ℤ)

/-- utils.py:151, 234: `frozenset(np.unique(X)) <= frozenset([-1,0,1])`. -/
def entriesOk (X : Data) : Bool := X.all fun row => row.all fun x => x = -1 ∨ x = 0 ∨ x = 1

/-- The `weights` argument of `pair_corr` (utils.py:164-171). -/
inductive Weights (K : Type*) where
  | none
  | tuple (a b : List K)
  | array (w : List K)
  | scalar (c : K)

/-- `1/m` for an integer count `m`; numpy gives `inf` for `m = 0`, written `Option.none`. -/
def recipCount [DivisionRing K] (m : ℕ) : Option K := if m = 0 then none else some (1 / (m : K))

/-- A sum times a weight; `sum * inf` occurs only for an empty sum, and `0 * inf` is NaN, written
`Option.none`. -/
def timesWeight [DivisionRing K] (s : K) (w : Option K) : Option K := w.map fun w => s * w

/-- Entry `j` of a row as a number. -/
def ent [Ring K] (row : List ℤ) (j : ℕ) : K := ((row.getD j 0 : ℤ) : K)

/-- utils.py:156 `(X!=0).sum(0)[j]`. -/
def countNZ (X : Data) (j : ℕ) : ℕ := (X.filter fun row => row.getD j 0 ≠ 0).length

/-- utils.py:156 `(X!=0).astype(int).T.dot(X!=0)[i,j]`. -/
def countNZ2 (X : Data) (i j : ℕ) : ℕ :=
  (X.map fun row => (if row.getD i 0 ≠ 0 then 1 else 0) * (if row.getD j 0 ≠ 0 then 1 else 0)).sum

/-- The weights after utils.py:154-171: entrywise normalisations, or one weight per row. -/
inductive EffWeights (K : Type*) where
  | entry (a b : List (Option K))
  | row (w : List K)

/-- utils.py:154-171 selection of the weights. `N` is `X.shape[1]`; `np.triu_indices(N, k=1)` is
the row-major list of pairs. With an array or scalar `weights` the branch
order is: exclude_empty first, so `weights` is then ignored; `laplace_count` is looked at only
together with `exclude_empty`. -/
def pairWeights [Field K] (N : ℕ) (X : Data) (weights : Weights K) (excludeEmpty laplace : Bool) :
    Py (EffWeights K) :=
  if excludeEmpty && !laplace then
    .ok (.entry ((List.range N).map fun j => recipCount (countNZ X j))
      ((Spec.upperPairs N).map fun p => recipCount (countNZ2 X p.1 p.2)))
  else if excludeEmpty && laplace then
    .ok (.entry ((List.range N).map fun j => recipCount (countNZ X j + 2))
      ((Spec.upperPairs N).map fun p => recipCount (countNZ2 X p.1 p.2 + 4)))
  else match weights with
    | .none => .ok (.row (List.replicate X.length (1 / (X.length : K))))
    | .tuple a b =>
      if a.length ≠ N then .error .assertion
      else if b.length ≠ N * (N - 1) / 2 then .error .assertion
      else .ok (.entry (a.map some) (b.map some))
    | .array w => if w.length ≠ X.length then .error .assertion else .ok (.row w)
    | .scalar c => .ok (.row (List.replicate X.length c))

/-- utils.py:174-179 the sums with their weights. -/
def pairSums [Field K] (N : ℕ) (X : Data) : EffWeights K → List (Option K) × List (Option K)
  | .entry a b =>
    (List.zipWith timesWeight ((List.range N).map fun j => (X.map fun row => ent row j).sum) a,
     List.zipWith timesWeight
       ((Spec.upperPairs N).map fun p => (X.map fun row => ent row p.1 * ent row p.2).sum) b)
  | .row w =>
    ((List.range N).map fun j => some (List.zipWith (fun row w => ent row j * w) X w).sum,
     (Spec.upperPairs N).map fun p =>
       some (List.zipWith (fun row w => ent row p.1 * (ent row p.2 * w)) X w).sum)

/-- utils.py:181-182 `subtract_mean`: reads `sisj[i]` and `si[ix]` in the order of
`combinations(range(N), 2)`; NaN propagates. -/
def subtractMeans [Field K] (N : ℕ) (si sisj : List (Option K)) : List (Option K) :=
  (combos 2 (pyRange 0 N)).zipIdx.map fun q => do
    let v ← sisj.getD q.2 none
    let a ← si.getD (q.1.getD 0 0) none
    let b ← si.getD (q.1.getD 1 0) none
    some (v - a * b)

/-- utils.py:118-185 `pair_corr` (without `concat`). NaN is `Option.none`. -/
def pairCorr [Field K] (N : ℕ) (X : Data) (weights : Weights K)
    (excludeEmpty subtractMean laplace : Bool) : Py (List (Option K) × List (Option K)) := do
  pyAssert (entriesOk X)
  let w ← pairWeights N X weights excludeEmpty laplace
  let r := pairSums N X w
  if subtractMean then pure (r.1, subtractMeans N r.1 r.2) else pure r

/-- utils.py:183-184 `concat=True`. -/
def pairCorrConcat [Field K] (N : ℕ) (X : Data) (weights : Weights K)
    (excludeEmpty subtractMean laplace : Bool) : Py (List (Option K)) := do
  let (a, b) ← pairCorr N X weights excludeEmpty subtractMean laplace
  pure (a ++ b)

/-- `np.prod(X[:,ijk], axis=1)` (utils.py:240, 246). -/
def rowProds (X : Data) (ijk : List ℕ) : List ℤ :=
  X.map fun row => (ijk.map fun i => row.getD i 0).prod

/-- utils.py:241 `p[p!=0].mean()`; the mean of nothing is NaN (`none`). -/
def meanNonzero [Field K] (p : List ℤ) : Option K :=
  let q := p.filter (· ≠ 0)
  if q.length = 0 then none else some ((q.map fun x : ℤ => (x : K)).sum / (q.length : K))

/-- utils.py:213-251 `k_corr(X, k, weights, exclude_empty)`; the two loops write to the same
array one after the other. A `weights` array of the wrong length makes `dot` raise. -/
def kCorr [Field K] (N : ℕ) (X : Data) (k : ℕ) (weights : Option (List K)) (excludeEmpty : Bool) :
    Py (List (Option K)) := do
  pyAssert (entriesOk X)
  let arr := List.replicate (N.choose k) (some (0 : K))
  let arr ← if excludeEmpty then
      enumWrite (fun _ ijk => .ok (meanNonzero (rowProds X ijk))) (combos k (pyRange 0 N)) 0 arr
    else .ok arr
  let w := match weights with
    | none => List.replicate X.length (1 / (X.length : K))
    | some w => w
  enumWrite (fun _ ijk =>
    let p := rowProds X ijk
    if p.length ≠ w.length then .error .valueError
    else .ok (some (List.zipWith (fun (x : ℤ) w => (x : K) * w) p w).sum))
    (combos k (pyRange 0 N)) 0 arr

/-- Extra keyword arguments of `convert_corr` (utils.py:588-594). -/
inductive CorrKwargs | none | convertTo | other
  deriving DecidableEq

/-- The loop at utils.py:598-602 and 606-610, with `f sisj_k si_i si_j` the new entry. -/
def convertCorrLoop [Field K] (f : K → K → K → K) (si sisj : List K) : Py (List K) :=
  enumWrite (fun k (p : ℕ × ℕ) => match sisj[k]? with
      | some v => .ok (f v (si.getD p.1 0) (si.getD p.2 0))
      | none => .error .indexError)
    (loopPairs si.length) 0 (List.replicate sisj.length 0)

/-- utils.py:563-616 `convert_corr(si, sisj, convert_to, **kwargs)`. The deprecated keyword
`convertTo` reads an undefined name. -/
def convertCorr [Field K] (si sisj : List K) (tgt : Basis) (kw : CorrKwargs) :
    Py (List K × List K) :=
  match kw with
  | .convertTo => .error .nameError
  | .other => .error .typeError
  | .none => match tgt with
    | .b11 => do
      let newsisj ← convertCorrLoop (fun v a b => 4 * v - 2 * a - 2 * b + 1) si sisj
      pure (si.map fun x => x * 2 - 1, newsisj)
    | .b01 => do
      let newsisj ← convertCorrLoop (fun v a b => (v + a + b + 1) / 4) si sisj
      pure (si.map fun x => (x + 1) / 2, newsisj)
    | .other => .error .exception

/-- utils.py:612-613 `concat=True`. -/
def convertCorrConcat [Field K] (si sisj : List K) (tgt : Basis) (kw : CorrKwargs) :
    Py (List K) := do
  let (a, b) ← convertCorr si sisj tgt kw
  pure (a ++ b)

/-- utils.py:74-98 `unique_rows(mat)`: position of the first occurrence of each distinct row,
in the order `np.unique` sorts them. `uniq` is the sorted list of distinct rows. -/
def uniqueRowsIx {α : Type*} [DecidableEq α] (uniq : List α → List α) (v : List α) : List ℕ :=
  (uniq v).map fun x => v.idxOf x

/-- utils.py:74-98 `unique_rows(mat, return_inverse=True)`. -/
def uniqueRowsInv {α : Type*} [DecidableEq α] (uniq : List α → List α) (v : List α) : List ℕ :=
  v.map fun x => (uniq v).idxOf x

/-- `np.bincount` (library call at utils.py:651). -/
def bincount (l : List ℕ) : List ℕ :=
  (List.range (l.foldr (fun x m => max (x + 1) m) 0)).map fun k => l.count k

/-- utils.py:666 `freq/np.sum(freq)`; a zero total gives NaN (`none`). -/
def normalise [Field K] [DecidableEq K] (freq : List K) : List (Option K) :=
  if freq.sum = 0 then freq.map fun _ => none else freq.map fun f => some (f / freq.sum)

/-- utils.py:618-671 `state_probs(v)` without `allstates`: frequencies and distinct rows. Rows are
of any type with decidable equality (a one-dimensional `v` is one column). -/
def stateProbs {α : Type*} [DecidableEq α] [Field K] [DecidableEq K] (uniq : List α → List α)
    (v : List α) (normalized : Bool) : List (Option K) × List α :=
  let allstates := (uniqueRowsIx uniq v).filterMap fun i => v[i]?
  let freq := (bincount (uniqueRowsInv uniq v)).map fun m : ℕ => (m : K)
  (if normalized then normalise freq else freq.map some, allstates)

/-- utils.py:618-671 `state_probs(v, allstates, weights)`; broadcasting `ix*weights` needs equal
lengths. The warning about missing states is not modelled. -/
def stateProbsGiven {α : Type*} [DecidableEq α] [Field K] [DecidableEq K] (v allstates : List α)
    (weights : Option (List K)) (normalized : Bool) : List (Option K) :=
  let w := weights.getD (List.replicate v.length 1)
  let freq := allstates.map fun vote =>
    (List.zipWith (fun r w => (if vote = r then 1 else 0) * w) v w).sum
  if normalized then normalise freq else freq.map some

end Verif.Model
