/-
Model of coniii/enumerate.py: the generator of the equation modules, and what the generated module
computes.
-/
import Verif.Model.EqnText
import Verif.Model.Index
import Verif.Spec.Pairs
import Mathlib.Analysis.SpecialFunctions.Log.Basic

namespace Verif.Model
open Verif

/-- enumerate.py:69-71 `"{0:b}".format(state)` padded with zeros to length `n`. -/
def binText (n state : ℕ) : List Char :=
  let d := if state = 0 then ['0'] else (Nat.digits 2 state).reverse.map digitCh
  if d.length < n then List.replicate (n - d.length) '0' ++ d else d

/-- `[binstate[k[j]]=="1" for k in subix]`; an index out of range raises (`none`). -/
def bitsAt (subix : List (List ℕ)) (binstate : List Char) (j : ℕ) : Option (List Bool) :=
  subix.mapM fun k => do
    let i ← k[j]?
    let c ← binstate[i]?
    pure (c == '1')

/-- `len(subix[0])`. -/
def subLen (subix : List (List ℕ)) : ℕ := (subix.headD []).length

/-- enumerate.py:310-326 `get_terms11` (brackets `[]`, `ix0 = 0`). -/
def getTerms11 (subix : List (List ℕ)) (pre : Char) (binstate : List Char) : Option (List Char) :=
  if subix.length = 0 then some []
  else do
    let ts ← (List.range (subLen subix)).mapM fun j => do
      let b ← bitsAt subix binstate j
      pure ((if b.count true % 2 = 1 then '-' else '+') :: pre :: '[' :: natText j ++ [']'])
    pure ts.flatten

/-- enumerate.py:328-345 `get_terms01`. -/
def getTerms01 (subix : List (List ℕ)) (pre : Char) (binstate : List Char) : Option (List Char) :=
  if subix.length = 0 then some []
  else do
    let ts ← (List.range (subLen subix)).mapM fun j => do
      let b ← bitsAt subix binstate j
      pure (if b.all id then '+' :: pre :: '[' :: natText j ++ [']'] else [])
    pure (if ts.flatten = [] then ['+', '0'] else ts.flatten)

/-- enumerate.py:63, 148 the names of the parameter arrays. -/
def abc : List Char := "HJKLMNOPQRSTUVWXYZABCDE".toList

/-- enumerate.py:68-85 the text of the energy of one state, including the final `', '`. -/
def expTerm (n : ℕ) (sym : Bool) (corr : List (List (List ℕ))) (state : ℕ) : Option (List Char) := do
  let ts ← corr.zipIdx.mapM fun q => do
    let pre ← abc[q.2]?
    if sym then getTerms11 q.1 pre (binText n state) else getTerms01 q.1 pre (binText n state)
  let t := subAll ['+', '0', '+'] ['+'] ts.flatten
  let t := subAll [')', '+', '0'] [')'] t
  pure (t ++ [',', ' '])

/-- enumerate.py:274-308 `_compute_signs`; `none` stands for the Python `None` it returns for an empty
`subix`, and for an index out of range. -/
def computeSigns (subix : List (List ℕ)) (binstate : List Char) (sym : Bool) : Option (List ℤ) :=
  if subix.length = 0 then none
  else (List.range (subLen subix)).mapM fun j => do
    let b ← bitsAt subix binstate j
    if sym then pure (if b.count true % 2 = 1 then -1 else 1)
    else pure (if b.any (fun x => !x) then 0 else 1)

/-- What `write_eqns` hands to `write_py`: the energy texts, and for each order and each constraint
the signs of all states. -/
structure Eqns where
  n : ℕ
  sym : Bool
  expterms : List (List Char)
  signs : List (List (List ℤ))
  deriving DecidableEq

/-- `str` of a small integer. -/
def intText (x : ℤ) : List Char := if x < 0 then '-' :: natText x.natAbs else natText x.natAbs

/-- Inside of the brackets of numpy's `str` of an integer array (`threshold=sys.maxsize`): entries
padded on the left to the common width `w`, separated by a blank, or by a line end and one blank.
Where numpy breaks lines is left open: `brk i` tells whether it does after entry `i`. -/
def npText (w : ℕ) (brk : ℕ → Bool) : ℕ → List ℤ → List Char
  | _, [] => []
  | _, [x] => List.replicate (w - (intText x).length) ' ' ++ intText x
  | i, x :: y :: r => List.replicate (w - (intText x).length) ' ' ++ intText x ++
      (if brk i then ['\n', ' '] else [' ']) ++ npText w brk (i + 1) (y :: r)

/-- Common width of the entries. -/
def npWidth (l : List ℤ) : ℕ := (l.map fun x => (intText x).length).foldl max 0

/-- enumerate.py:192, 200-201 the sign array as written into the module: blanks and line ends after
the digits are replaced by commas. (The outer brackets are left out; no pattern contains one.) -/
def signText (brk : ℕ → Bool) (sym : Bool) (sg : List ℤ) : List Char :=
  let s := npText (npWidth sg) brk 0 sg
  if sym then
    subAll ['1', '\n'] ['1', ',', '\n'] (subAll ['1', ' '] ['1', ','] s)
  else
    subAll ['1', '\n'] ['1', ',', '\n'] (subAll ['0', '\n'] ['0', ',', '\n']
      (subAll ['1', ' '] ['1', ','] (subAll ['0', ' '] ['0', ','] s)))

/-- enumerate.py:40-122 `write_eqns(n, sym, corrTermsIx)`. `signs[i][j]` is the list over all states.
A constraint group without index arrays makes `signs_.size` raise `AttributeError`; other indices
out of range raise `IndexError`, not told apart here. -/
def writeEqns (n : ℕ) (sym : Bool) (corr : List (List (List ℕ))) : Py Eqns :=
  match (List.range (2 ^ n)).mapM (expTerm n sym corr),
    corr.mapM (fun subix => (List.range (2 ^ n)).mapM fun state =>
      computeSigns subix (binText n state) sym) with
  | some expterms, some sg => .ok
      { n := n, sym := sym, expterms := expterms
        signs := (corr.zip sg).map fun q => (List.range (subLen q.1)).map fun j =>
          q.2.map fun row => row.getD j 0 }
  | none, _ => .error .indexError
  | _, none => .error .attributeError

/-- enumerate.py:411-438 `pairwise(n, sym)`: `np.where` of the ones vector and of the strict upper
triangle. -/
def pairwiseIx (n : ℕ) : List (List (List ℕ)) :=
  let up := (Spec.cells n).filter fun p => p.1 < p.2
  [[List.range n], [up.map Prod.fst, up.map Prod.snd]]

/-- `list(zip(*L))` for a list of `k`-tuples: nothing for an empty list. -/
def zipStar (k : ℕ) (L : List (List ℕ)) : List (List ℕ) :=
  if L = [] then [] else (List.range k).map fun a => L.map fun t => t.getD a 0

/-- enumerate.py:440-471 `triplet(n, sym)`. -/
def tripletIx (n : ℕ) : List (List (List ℕ)) :=
  [[List.range n], zipStar 2 (combos 2 (pyRange 0 n)), zipStar 3 (combos 3 (pyRange 0 n))]

/-- First position, from the 100th character of what is left on, after which a line may end: the
character before it is `+`. `e` counts from there; the second argument is what follows. -/
def lineEnd : ℕ → Option Char → List Char → Option ℕ
  | _, _, [] => none
  | e, prev, c :: cs => if prev = some '+' then some e else lineEnd (e + 1) (some c) cs

/-- enumerate.py:249-272 `_write_energy_terms`: the text between `array([` and `])`. -/
def energyText : ℕ → List Char → List Char
  | 0, _ => []
  | fuel + 1, Z =>
    if Z = [] then []
    else match lineEnd 100 (Z.take 100).getLast? (Z.drop 100) with
      | none => "            ".toList ++ Z.dropLast
      | some e => "    ".toList ++ Z.take e ++ '\n' :: energyText fuel (Z.drop e)

/-- enumerate.py:183-187 `H = params[ix[0]:ix[1]]` and so on: value of `c[j]` in the module. -/
def moduleEnv (e : Eqns) (params : List ℝ) (c : Char) (j : ℕ) : Option ℝ :=
  let i := abc.idxOf c
  let sizes := e.signs.map List.length
  if i < e.signs.length then
    ((params.drop (sizes.take i).sum).take (sizes.getD i 0))[j]?
  else none

/-- numpy value of a logarithm: `none` is `-inf`. -/
abbrev LogVal := Option ℝ

open scoped Classical in
/-- enumerate.py:522-549 `fast_logsumexp(X, coeffs)`; `max` of no numbers and a length mismatch
raise. `mp_fast_logsumexp` (551-577) is the same formula with other number types. -/
noncomputable def fastLogSumExp (X : List ℝ) (coeffs : Option (List ℝ)) : Py (LogVal × ℝ) :=
  match X with
  | [] => .error .valueError
  | x :: xs =>
    let mx := xs.foldl max x
    let y : Py ℝ := match coeffs with
      | none => .ok (X.map fun v => Real.exp (v - mx)).sum
      | some c => if c.length = X.length then
          .ok (List.zipWith (· * ·) (X.map fun v => Real.exp (v - mx)) c).sum
        else .error .valueError
    match y with
    | .error e => .error e
    | .ok y =>
      if y < 0 then .ok (some (Real.log |y| + mx), -1)
      else if y = 0 then .ok (none, 1)
      else .ok (some (Real.log y + mx), 1)

/-- `exp(v)`, with `exp(-inf) = 0`. -/
noncomputable def expLog (v : LogVal) : ℝ :=
  match v with
  | none => 0
  | some x => Real.exp x

/-- `num[0] - logZ`; `-inf` minus a number is `-inf`. -/
noncomputable def subLog (v : LogVal) (z : ℝ) : LogVal := v.map (· - z)

/-- enumerate.py:178-224, 269: the `energyTerms` and `logZ` of the generated functions. `logZ` is
never `-inf` here because the sum of exponentials is positive. -/
noncomputable def moduleZ (e : Eqns) (params : List ℝ) : Py (List ℝ × ℝ) :=
  let Z := e.expterms.flatten
  match evalList (moduleEnv e params) (energyText Z.length Z) with
  | none => .error .indexError
  | some E => match fastLogSumExp E none with
    | .error err => .error err
    | .ok (none, _) => .error .valueError
    | .ok (some z, _) => .ok (E, z)

/-- enumerate.py:178-224 the generated `calc_observables(params)`. (The line that sets NaN entries to
zero has nothing to do in exact arithmetic; a sign array that is not a list of numbers would be a
`SyntaxError`.) -/
noncomputable def moduleObservables (brk : ℕ → Bool) (e : Eqns) (params : List ℝ) : Py (List ℝ) :=
  match moduleZ e params with
  | .error err => .error err
  | .ok (E, logZ) => e.signs.flatten.mapM fun sg =>
    match evalList (fun _ _ => none) (signText brk e.sym sg) with
    | none => .error .exception
    | some c => match fastLogSumExp E (some c) with
      | .error err => .error err
      | .ok num => .ok (expLog (subLog num.1 logZ) * num.2)

/-- enumerate.py:226-247 the generated `p(params)`: `Pout[i] = exp( <text of state i> - logZ )`, and
in the {-1,1} module the array is reversed at the end. -/
noncomputable def moduleP (e : Eqns) (params : List ℝ) : Py (List ℝ) :=
  match moduleZ e params with
  | .error err => .error err
  | .ok (_, logZ) =>
    match e.expterms.mapM fun t => (evalExpr (moduleEnv e params) (t.take (t.length - 2))) with
    | none => .error .indexError
    | some v =>
      let pout := v.map fun x => Real.exp (x - logZ)
      .ok (if e.sym then pout.reverse else pout)

/-- enumerate.py:365-381 `get_3idx(n)`: `c` is the strict upper triangle of size `n-1`; plane `i` gets
`c[:-i,:-i]` (all of `c` for `i = 0`) at rows and columns from `1+i` on. `np.ones((-1,-1))` raises. -/
def get3idx (n : ℕ) : Py (List (List (List Bool))) :=
  if n = 0 then .error .valueError
  else
    let c : List (List Bool) := (List.range (n - 1)).map fun a => (List.range (n - 1)).map fun b => decide (a < b)
    let zero : List (List Bool) := List.replicate n (List.replicate n false)
    .ok ((List.range (n - 1)).foldl (fun b i =>
      let sub := if i = 0 then c else (c.take (c.length - i)).map fun r => r.take (r.length - i)
      b.set i ((List.range n).map fun j => (List.range n).map fun k =>
        if 1 + i ≤ j ∧ 1 + i ≤ k then (sub.getD (j - (1 + i)) []).getD (k - (1 + i)) false else false))
      (List.replicate n zero))

/-- enumerate.py:383-409 `get_nidx(k, n)`: for `k < n` the name `bin_states` is not defined in the
module; for `k > n` nothing is returned (`none`). -/
def getNidx (k n : ℕ) : Py (Option (List (List ℕ))) :=
  if k = n then .ok (some ((List.range n).map fun i => [i]))
  else if k < n then .error .nameError
  else .ok none

end Verif.Model
