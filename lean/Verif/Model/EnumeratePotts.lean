/-
coniii/enumerate_potts.py: the writer of Potts equation modules, and the modules it writes.
-/
import Verif.Model.Enumerate
import Verif.Model.States
import Verif.Model.HighOrder

namespace Verif.Model
open Verif

/-- enumerate_potts.py:53-60 `insert_newlines(s, n)`: the loop, entered with `i`. Entries of the list
are single characters. The first argument bounds the number of rounds. -/
def insertNewlinesAux (n : ℕ) : ℕ → ℕ → List Char → List Char
  | 0, _, s => s
  | fuel + 1, i, s =>
    if i < s.length then insertNewlinesAux n fuel (i + (n + 2)) (s.take i ++ '\n' :: s.drop i) else s

/-- enumerate_potts.py:53-60 `insert_newlines(s, n)`. The list grows by one and `i` by at least two
in each round, so the length bounds the number of rounds. -/
def insertNewlines (n : ℕ) (s : List Char) : List Char := insertNewlinesAux n s.length n s

/-- enumerate_potts.py:146-147 and 162-163: `','.join(coeffs).replace('\n,','\n')`. -/
def coeffText (coeffs : List Char) : List Char :=
  subAll ['\n', ','] ['\n'] ((insertNewlines 55 coeffs).intersperse ',')

/-- enumerate_potts.py:218 `'h[%d]+'%(int(s[i])*n+i)`: `int` raises `ValueError` for a letter. -/
def pottsField (n : ℕ) (s : List Char) (i : ℕ) : Py (List Char) :=
  match s[i]? with
  | none => .error .indexError
  | some c => match digitVal c with
    | none => .error .valueError
    | some d => .ok (['h', '['] ++ natText (d * n + i) ++ [']', '+'])

/-- enumerate_potts.py:216-226 text of the energy of one state. -/
def pottsTerm (n : ℕ) (s : List Char) : Py (List Char) :=
  match (List.range n).mapM (pottsField n s) with
  | .error e => .error e
  | .ok fields =>
    let pairs := (combos 2 (pyRange 0 n)).zipIdx.flatMap fun q =>
      if s[q.1.getD 0 0]? = s[q.1.getD 1 0]? then ['J', '['] ++ natText q.2 ++ [']', '+'] else []
    .ok (fields.flatten ++ pairs).dropLast

/-- What is written to the file, apart from fixed text: the inside of `energies = [...]` and the
coefficient lists in the order of the `observables[...]` lines. -/
structure PottsEqns where
  n : ℕ
  k : ℕ
  energies : List Char
  coeffs : List (List Char)
  deriving DecidableEq

/-- enumerate_potts.py:125-193, 206-226 `SpecificFieldGenericCouplings(n, k).write`. `est` is the
float estimate of the logarithm in `base_repr`. -/
def writePotts (est : ℕ → ℕ → ℕ) (n k : ℕ) : Py PottsEqns :=
  if ¬ (n > 2) then .error .assertion
  else if ¬ (k ≥ 2) then .error .assertion
  else match xpottsStates est n k with
    | .error e => .error e
    | .ok states => match states.mapM (pottsTerm n) with
      | .error e => .error e
      | .ok terms => .ok
        { n := n, k := k
          energies := (terms.map fun t => ['\t', '\t'] ++ t ++ [',', '\n']).flatten ++ ['\t', '\t']
          coeffs :=
            ((List.range k).flatMap fun k' => (List.range n).map fun i =>
              coeffText (states.map fun s => if (s[i]?).map (fun c => [c]) = some (natText k') then '1' else '0')) ++
            ((combos 2 (pyRange 0 n)).map fun t =>
              coeffText (states.map fun s => if s[t.getD 0 0]? = s[t.getD 1 0]? then '1' else '0')) }

/-- enumerate_potts.py:128-129 `h = params[:n*k]`, `J = params[n*k:]`. -/
def pottsEnv (n k : ℕ) (params : List ℝ) (c : Char) (j : ℕ) : Option ℝ :=
  if c = 'h' then (params.take (n * k))[j]?
  else if c = 'J' then (params.drop (n * k))[j]?
  else none

/-- enumerate_potts.py:126-141 common start of both functions: the assertion, the energies and
`logZ`. -/
noncomputable def pottsZ (e : PottsEqns) (params : List ℝ) : Py (List ℝ × ℝ) :=
  if ¬ (params.length = e.n * e.k + e.n * (e.n - 1) / 2) then .error .assertion
  else match evalList (pottsEnv e.n e.k params) e.energies with
    | none => .error .indexError
    | some E => match fastLogSumExp E none with
      | .error err => .error err
      | .ok (none, _) => .error .valueError
      | .ok (some z, _) => .ok (E, z)

/-- enumerate_potts.py:148, 164 `exp(fast_logsumexp(energies, [...])[0] - logZ)`; the text of the
coefficients would be a `SyntaxError` if it were not a list of numbers. -/
noncomputable def pottsObsLine (E : List ℝ) (logZ : ℝ) (txt : List Char) : Py ℝ :=
  match evalList (fun _ _ => none) txt with
  | none => .error .exception
  | some c => match fastLogSumExp E (some c) with
    | .error err => .error err
    | .ok num => .ok (expLog (subLog num.1 logZ))

/-- enumerate_potts.py:125-172 the generated `calc_observables(params)`. Line number `i` assigns
`observables[i]`; the array has `n*k + n*(n-1)//2` entries, zero at first. -/
noncomputable def pottsModuleObs (e : PottsEqns) (params : List ℝ) : Py (List ℝ) :=
  match pottsZ e params with
  | .error err => .error err
  | .ok (E, logZ) =>
    match e.coeffs.mapM (pottsObsLine E logZ) with
    | .error err => .error err
    | .ok vals =>
      let size := e.n * e.k + e.n * (e.n - 1) / 2
      if vals.length ≤ size then .ok (vals ++ List.replicate (size - vals.length) 0)
      else .error .indexError

/-- enumerate_potts.py:174-193 the generated `p(params)`: `p = zeros(k**n)`, then
`p[i] = exp(energies[i] - logZ)` for every state. -/
noncomputable def pottsModuleP (e : PottsEqns) (params : List ℝ) : Py (List ℝ) :=
  match pottsZ e params with
  | .error err => .error err
  | .ok (E, logZ) =>
    if E.length ≤ e.k ^ e.n then
      .ok (E.map (fun x => Real.exp (x - logZ)) ++ List.replicate (e.k ^ e.n - E.length) 0)
    else .error .indexError

end Verif.Model
