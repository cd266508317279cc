/-
Model of adj, adj_sym, calc_de and coarse_grain_with_func (coniii/utils.py).
-/
import Verif.Model.Helpers
import Mathlib.Order.Defs.LinearOrder

namespace Verif.Model
open Verif

variable {K : Type*}

/-- utils.py:1239-1242 and 1259-1262: the loop that flips spin `i` in place, copies the state and
flips the spin back; `flip` is `1-x` or `-x`. Returns the state afterwards and the copies. -/
def flipScan (flip : ℤ → ℤ) (s : List ℤ) : List ℤ × List (List ℤ) :=
  (pyRange 0 s.length).foldl (fun st i =>
    let s1 := st.1.set i (flip (rd st.1 i))
    let s2 := s1.set i (flip (rd s1 i))
    (s2, st.2 ++ [s1])) (s, [])

/-- utils.py:1248, 1268: a random state from `s.size` uniform numbers, `(rand<.5)*1.` or
`(rand<.5)*2.-1`. -/
def candidate [Field K] [LinearOrder K] (lo hi : ℤ) (u : List K) : List ℤ :=
  u.map fun x => if x < 1 / 2 then hi else lo

/-- utils.py:1246-1251, 1266-1271: draw until the state differs from `s`. The stream of draws is an
input; `none` when it runs out (the loop in the code goes on as long as needed). -/
def drawNeighbor (s : List ℤ) : List (List ℤ) → Option (List ℤ × List (List ℤ))
  | [] => none
  | c :: cs => if c ≠ s then some (c, cs) else drawNeighbor s cs

/-- utils.py:1244-1252: `m` random neighbours, one after the other from the same stream. -/
def drawNeighbors (s : List ℤ) : ℕ → List (List ℤ) → Option (List (List ℤ))
  | 0, _ => some []
  | m + 1, cs => match drawNeighbor s cs with
    | none => none
    | some (c, cs) => (drawNeighbors s m cs).map (c :: ·)

/-- utils.py:1214-1252 `adj` with `flip x = 1-x`, states 0 and 1, and utils.py:1254-1272 `adj_sym` with
`flip x = -x`, states -1 and 1: the neighbours, and the argument `s` after the call. -/
def adjGen [Field K] [LinearOrder K] (flip : ℤ → ℤ) (lo hi : ℤ) (s : List ℤ) (m : ℕ)
    (draws : List (List K)) : Option (List (List ℤ) × List ℤ) :=
  let r := flipScan flip s
  (drawNeighbors r.1 m (draws.map (candidate lo hi))).map fun nb => (r.2 ++ nb, r.1)

/-- utils.py:1214-1252 `adj(s, n_random_neighbors)`. -/
def adj [Field K] [LinearOrder K] (s : List ℤ) (m : ℕ) (draws : List (List K)) :=
  adjGen (fun x => 1 - x) 0 1 s m draws

/-- utils.py:1254-1272 `adj_sym(s, n_random_neighbors)`. -/
def adjSym [Field K] [LinearOrder K] (s : List ℤ) (m : ℕ) (draws : List (List K)) :=
  adjGen (fun x => -x) (-1) 1 s m draws

/-- utils.py:1274-1297 `calc_de(s, i)` for a sample of rows of length `n` and `i ≥ 0`. Unpacking the
`None` that `ind_to_sub` returns for an index out of range raises `TypeError`. -/
def calcDe [Ring K] (n : ℕ) (s : Data) (i : ℕ) : Py (List K) :=
  if i < n then .ok (s.map fun row => -ent row i)
  else match indToSub n (i - n) with
    | none => .error .typeError
    | some (a, b) => .ok (s.map fun row => -ent row a * ent row b)

/-- A Python index: negative numbers count from the end. -/
def pyIdx (i : ℤ) (len : ℕ) : Py ℕ :=
  if 0 ≤ i ∧ i < len then .ok i.toNat
  else if i < 0 ∧ -(len : ℤ) ≤ i then .ok (i + len).toNat
  else .error .indexError

/-- `l.pop(i)` (the remaining list) and `np.delete(l, i, axis=0)`. -/
def delAt {α : Type*} (l : List α) (i : ℤ) : Py (List α) :=
  match pyIdx i l.length with
  | .ok k => .ok (l.eraseIdx k)
  | .error e => .error e

/-- `np.delete(np.delete(cij, i, axis=0), i, axis=1)`. -/
def delRowCol (M : Mat K) (i : ℤ) : Py (Mat K) :=
  match delAt M i with
  | .error e => .error e
  | .ok M => M.mapM fun row => delAt row i

/-- `np.argmax`: position of the first maximum; an empty array raises. NaN is not modelled. -/
def argmax [LinearOrder K] : List K → Py ℕ
  | [] => .error .valueError
  | x :: xs => .ok (xs.zipIdx 1 |>.foldl (fun (b : K × ℕ) q => if b.1 < q.1 then q else b) (x, 0)).2

/-- State of the inner loop of coarse_grain_with_func: similarities left, columns left, clusters. -/
abbrev CgState (K : Type*) := Mat K × List ℕ × List (List ℕ)

/-- utils.py:1338-1351 one pass of the inner loop, `m = n-2*i` being the number of columns left. -/
def cgStep [LinearOrder K] (m : ℕ) (st : CgState K) : Py (CgState K) :=
  match argmax st.1.flatten with
  | .error e => .error e
  | .ok mx =>
    let r := min (mx / m) (mx % m)
    let c := max (mx / m) (mx % m)
    match getAt st.2.1 r, getAt st.2.1 c with
    | .ok a, .ok b =>
      match delRowCol st.1 r with
      | .error e => .error e
      | .ok M1 => match delRowCol M1 ((c : ℤ) - 1) with
        | .error e => .error e
        | .ok M2 => match delAt st.2.1 r with
          | .error e => .error e
          | .ok ix1 => match delAt ix1 ((c : ℤ) - 1) with
            | .error e => .error e
            | .ok ix2 => .ok (M2, ix2, st.2.2 ++ [[a, b]])
    | _, _ => .error .indexError

/-- utils.py:1338-1351 the inner loop from round `i` on, `todo` rounds left. -/
def cgLoop [LinearOrder K] (n : ℕ) : ℕ → ℕ → CgState K → Py (CgState K)
  | _, 0, st => .ok st
  | i, todo + 1, st => match cgStep (n - 2 * i) st with
    | .error e => .error e
    | .ok st => cgLoop n (i + 1) todo st

/-- utils.py:1331-1354 the clusters of one round, for `n` columns with similarities `v`. -/
def cgClusters [Zero K] [LinearOrder K] (n : ℕ) (v : List K) : Py (List (List ℕ)) :=
  match squareformVec v with
  | .error e => .error e
  | .ok cij =>
    if ¬ (cij.length = n ∧ cij.ncols = n) then .error .assertion
    else match cgLoop n 0 (n / 2) (cij, pyRange 0 n, []) with
      | .error e => .error e
      | .ok (_, ix, cl) =>
        if n % 2 ≠ 0 then match getAt ix 0 with
          | .ok a => .ok (cl ++ [[a]])
          | .error e => .error e
        else .ok cl

/-- utils.py:1356-1365: columns of the next round and the original columns in each. -/
def cgMerge {γ : Type*} [Inhabited γ] (coarse : List γ → γ) (cl : List (List ℕ)) (cols : List γ)
    (orig : List (List ℕ)) : List γ × List (List ℕ) :=
  (cl.map fun c => coarse (c.map fun i => cols.getD i default),
   cl.map fun c => (c.map fun i => orig.getD i []).flatten)

/-- utils.py:1329-1365 the outer loop. -/
def cgRounds {γ : Type*} [Inhabited γ] [Zero K] [LinearOrder K] (sim : List γ → List K)
    (coarse : List γ → γ) : ℕ → List γ → List (List ℕ) → Py (List γ × List (List ℕ))
  | 0, cols, orig => .ok (cols, orig)
  | t + 1, cols, orig => match cgClusters cols.length (sim cols) with
    | .error e => .error e
    | .ok cl => cgRounds sim coarse t (cgMerge coarse cl cols orig).1 (cgMerge coarse cl cols orig).2

/-- utils.py:1299-1366 `coarse_grain_with_func(X, n_times, sim_func, coarse_func)`; `X` as the list of
its columns, the two functions as they act on columns. The assertion `log2(n) > n_times` is taken
exactly, i.e. `2^n_times < n`. -/
def coarseGrain {γ : Type*} [Inhabited γ] [Zero K] [LinearOrder K] (cols : List γ) (nTimes : ℕ)
    (sim : List γ → List K) (coarse : List γ → γ) : Py (List γ × List (List ℕ)) :=
  if ¬ 2 ^ nTimes < cols.length then .error .assertion
  else cgRounds sim coarse nTimes cols ((pyRange 0 cols.length).map fun i => [i])

end Verif.Model
