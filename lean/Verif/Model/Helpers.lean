/-
Model of the helper functions of coniii/utils.py: energies, observables, pseudolikelihood helpers.
numba code does not check array bounds; the checked writes and reads used here turn an out-of-range
access into an error, and the theorems show that none occurs.
-/
import Verif.Model.Corr

namespace Verif.Model
open Verif

variable {K : Type*}

/-- `arr[i] = v`. -/
def setAt {β : Type*} (arr : List β) (i : ℕ) (v : β) : Py (List β) :=
  if i < arr.length then .ok (arr.set i v) else .error .indexError

/-- `arr[i]`. -/
def getAt {β : Type*} (arr : List β) (i : ℕ) : Py β :=
  match arr[i]? with
  | some v => .ok v
  | none => .error .indexError

/-- `a.dot(b)` of two vectors; shapes that do not match raise. -/
def npDot [Ring K] (a b : List K) : Py K :=
  if a.length = b.length then .ok (List.zipWith (· * ·) a b).sum else .error .valueError

/-- utils.py:934-943 `fast_sum(J, s)` for one row `s`: running index `k` into the couplings. -/
def fastSum [Ring K] (J : List K) (s : List ℤ) : K :=
  ((loopPairs s.length).foldl (fun (st : K × ℕ) p =>
    (st.1 + rd J st.2 * ent s p.1 * ent s p.2, st.2 + 1)) (0, 0)).1

/-- utils.py:946-963 `calc_e(s, params)` for one row. -/
def isingCalcERow [Ring K] (params : List K) (s : List ℤ) : K :=
  -fastSum (params.drop s.length) s -
    (List.zipWith (fun (x : ℤ) p => (x : K) * p) s (params.take s.length)).sum

/-- utils.py:946-963 `calc_e(s, params)`. -/
def isingCalcE [Ring K] (s : Data) (params : List K) : List K := s.map (isingCalcERow params)

/-- utils.py:1015-1039 `calc_e` of the model without fields, one row. (The numba signature declared
for its `fast_sum` has the argument types exchanged; types are not modelled.) -/
def symCalcERow [Ring K] (params : List K) (s : List ℤ) : K := -fastSum params s

/-- utils.py:976-987 `calc_observables` of the Ising model for one row: in round `i` entry `i` and
the entries `n+k` of the pairs `(i,j)` are written. -/
def isingObservables [Ring K] (s : List ℤ) : Py (List K) := do
  let n := s.length
  let r ← (pyRange 0 n).foldlM (fun (st : List K × ℕ) i => do
    let obs ← setAt st.1 i (ent s i)
    (pyRange (i + 1) n).foldlM (fun (st : List K × ℕ) j => do
      let obs ← setAt st.1 (n + st.2) (ent s i * ent s j)
      pure (obs, st.2 + 1)) (obs, st.2))
    (List.replicate (n + n * (n - 1) / 2) (0 : K), 0)
  pure r.1

/-- utils.py:1045-1054 `calc_observables` of the model without fields, one row. -/
def symObservables [Ring K] (s : List ℤ) : Py (List K) :=
  let n := s.length
  enumWrite (fun _ (p : ℕ × ℕ) => .ok (ent s p.1 * ent s p.2))
    ((pyRange 0 n).flatMap fun i => (pyRange (i + 1) n).map fun j => (i, j)) 0
    (List.replicate (n * (n - 1) / 2) (0 : K))

/-- utils.py:1080-1082 the order of the triple loop. -/
def loopTriples (n : ℕ) : List (ℕ × ℕ × ℕ) :=
  (pyRange 0 (n - 2)).flatMap fun i => (pyRange (i + 1) (n - 1)).flatMap fun j =>
    (pyRange (j + 1) n).map fun k => (i, j, k)

/-- utils.py:1060-1085 `calc_observables` of the triplet model for one row: three loops that
write one after the other with a common counter. -/
def tripletObservables [Ring K] (s : List ℤ) : Py (List K) :=
  let n := s.length
  enumWrite (fun _ v => .ok v)
    (((pyRange 0 n).map fun i => ent s i) ++
      ((loopPairs n).map fun p => ent s p.1 * ent s p.2) ++
      ((loopTriples n).map fun t => ent s t.1 * ent s t.2.1 * ent s t.2.2)) 0
    (List.replicate (n + n * (n - 1) / 2 + n * (n - 1) * (n - 2) / 6) (0 : K))

/-- utils.py:1087-1088 `calc_e` of the triplet model for one row. -/
def tripletCalcERow [Ring K] (s : List ℤ) (multipliers : List K) : Py K := do
  let obs ← tripletObservables s
  let d ← npDot obs multipliers
  pure (-d)

/-- utils.py:1093-1113 `calc_observables` of the ternary helpers for one row: the first loop reads
columns `0..3n-1` of a state of `n` columns. -/
def ternaryObservables [Ring K] (s : List ℤ) : Py (List K) :=
  let n := s.length
  match enumWrite (fun _ (i : ℕ) => match s[i]? with
      | some (v : ℤ) => .ok ((v : ℤ) : K)
      | none => .error .indexError) (pyRange 0 (3 * n)) 0
      (List.replicate (n * 3 + n * (n - 1) / 2) (0 : K)) with
  | .error e => .error e
  | .ok Y => enumWrite (fun _ (p : ℕ × ℕ) => .ok (ent s p.1 * ent s p.2)) (loopPairs n) (3 * n) Y

/-- utils.py:1140-1172 `calc_observables` of the `k`-state Potts model for one row. -/
def pottsObservables [Ring K] (k : ℕ) (s : List ℤ) : Py (List K) :=
  let n := s.length
  enumWrite (fun _ v => .ok v)
    (((pyRange 0 k).flatMap fun i : ℕ => (pyRange 0 n).map fun j =>
        if s.getD j 0 = (i : ℤ) then (1 : K) else 0) ++
      ((loopPairs n).map fun p => if s.getD p.1 0 = s.getD p.2 0 then (1 : K) else 0)) 0
    (List.replicate (n * k + n * (n - 1) / 2) (0 : K))

/-- utils.py:1174-1188 `calc_e` of the Potts model for one row. -/
def pottsCalcERow [Ring K] (k : ℕ) (s : List ℤ) (multipliers : List K) : Py K := do
  let obs ← pottsObservables k s
  let d ← npDot obs multipliers
  pure (-d)

/-- utils.py:746-753 and 844-851: position of the coupling of sites `i` and `r` in the parameter
vector, couplings starting at `off`. -/
def couplingPos (N r off i : ℕ) : Py ℕ :=
  match (if i < r then subToInd N i r else subToInd N r i) with
  | .ok k => if 0 ≤ k then .ok (k.toNat + off) else .error .indexError
  | .error e => .error e

/-- utils.py:726-758 and 822-856 the part of `get_multipliers_r` that fills in the couplings, for
an offset `off` (`N` for Ising, `k*n` for Potts) and a first position `start` (1 or `k`); in the code
the position read is `ix[ixcounter]`, the one just appended. -/
def couplingsOf (N r off start : ℕ) (mult : List K) (arr : List K) : Py (List K × List ℕ) :=
  let sites := (pyRange 0 N).filter fun i => i ≠ r
  match enumWrite (fun _ i => match couplingPos N r off i with
      | .ok p => getAt mult p
      | .error e => .error e) sites start arr with
  | .error e => .error e
  | .ok m => match sites.mapM (couplingPos N r off) with
    | .error e => .error e
    | .ok ix => .ok (m, ix)

/-- utils.py:726-758 `get_multipliers_r(r, multipliers)` of the Ising helpers: values and positions. -/
def getMultipliersR [Zero K] (N r : ℕ) (mult : List K) : Py (List K × List ℕ) :=
  match getAt mult r with
  | .error e => .error e
  | .ok h => match setAt (List.replicate N (0 : K)) 0 h with
    | .error e => .error e
    | .ok arr => match couplingsOf N r N 1 mult arr with
      | .error e => .error e
      | .ok (m, ix) => .ok (m, r :: ix)

/-- utils.py:760-791 `calc_observables_r(r, X)` of the Ising helpers for one row. -/
def calcObservablesR [Ring K] (N r : ℕ) (s : List ℤ) : Py (List K) :=
  match setAt (List.replicate N (0 : K)) 0 (ent s r) with
  | .error e => .error e
  | .ok arr => enumWrite (fun _ (p : ℕ × ℕ) => .ok (ent s p.1 * ent s p.2))
      ((loopPairs N).filter fun p => p.1 = r ∨ p.2 = r) 1 arr

/-- utils.py:822-856 `get_multipliers_r(r, multipliers)` of the Potts helpers. -/
def pottsMultipliersR [Zero K] (n k r : ℕ) (mult : List K) : Py (List K × List ℕ) :=
  match enumWrite (fun _ i => getAt mult (r + n * i)) (pyRange 0 k) 0
      (List.replicate (k - 1 + n) (0 : K)) with
  | .error e => .error e
  | .ok arr => match couplingsOf n r (k * n) k mult arr with
    | .error e => .error e
    | .ok (m, ix) => .ok (m, ((pyRange 0 k).map fun i => r + n * i) ++ ix)

/-- utils.py:884-892 the first loop of the Potts `calc_observables_r` for one row: entry of the
actual state in `obs`, and for the other states one array each, with the state it stands for. -/
def pottsSplitStates (k : ℕ) (x : ℤ) : List ℕ := (pyRange 0 k).filter fun i : ℕ => x ≠ (i : ℤ)

/-- utils.py:858-915 `calc_observables_r(r, X)` of the Potts helpers for one row: observables of the
row, observables with spin `r` in each other state, and those states in order. `counter` runs through
the `k-1` arrays of `otherobs`; writing to a further array raises. -/
def pottsObservablesR [Ring K] (n k r : ℕ) (s : List ℤ) :
    Py (List K × List (List K) × List ℕ) :=
  let x := s.getD r 0
  let zero := List.replicate (k - 1 + n) (0 : K)
  let others := pottsSplitStates k x
  let pairs := (loopPairs n).filter fun p => p.1 = r ∨ p.2 = r
  let eq : ℤ → ℤ → K := fun a b => if a = b then 1 else 0
  -- the row itself
  let self : Py (List K) :=
    match enumWrite (fun _ (i : ℕ) => .ok (if x = (i : ℤ) then (1 : K) else 0)) (pyRange 0 k) 0 zero with
    | .error e => .error e
    | .ok obs => enumWrite (fun _ (p : ℕ × ℕ) => .ok (eq (s.getD p.1 0) (s.getD p.2 0))) pairs k obs
  -- spin r moved to `state`
  let other : ℕ → Py (List K) := fun state =>
    match setAt zero state 1 with
    | .error e => .error e
    | .ok obs => enumWrite (fun _ (p : ℕ × ℕ) =>
        .ok (eq (if p.1 = r then s.getD p.2 0 else s.getD p.1 0) (state : ℤ))) pairs k obs
  match self with
  | .error e => .error e
  | .ok obs =>
    if others.length > k - 1 then .error .indexError
    else match others.mapM other with
      | .error e => .error e
      | .ok oo => .ok (obs, oo, others)

end Verif.Model
