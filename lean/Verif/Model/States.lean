/-
Model of the state enumerations of coniii/utils.py: bin_states, xbin_states, base_repr,
xpotts_states.
-/
import Verif.Basic
import Mathlib.Data.Nat.Digits.Defs

namespace Verif.Model

/-- `np.binary_repr(i, width=w)` for `i ≥ 0` (library call at utils.py:207,273,275): the binary
digits, most significant first, padded on the left to `w`; zero gives `'0' * (w or 1)`.
Digits are returned as numbers, i.e. after the `.astype(int)` of the caller. -/
def binaryRepr (i w : ℕ) : List ℤ :=
  if i = 0 then List.replicate (if w = 0 then 1 else w) 0
  else
    let d := (Nat.digits 2 i).reverse
    List.replicate (w - d.length) 0 ++ d.map (fun x : ℕ => (x : ℤ))

/-- utils.py:187-211 `bin_states(n, sym)`. -/
def binStates (n : ℤ) (sym : Bool) : Py (List (List ℤ)) :=
  if n < 0 then .error .exception
  else if n > 30 then .error .exception
  else
    let v := (List.range (2 ^ n.toNat)).map fun i => binaryRepr i n.toNat
    if sym = false then .ok v
    else .ok (v.map fun row => row.map fun x => x * 2 - 1)

/-- utils.py:253-277 `xbin_states(n, sym)`: the list of everything the generator yields. -/
def xbinStates (n : ℤ) (sym : Bool) : Py (List (List ℤ)) :=
  if ¬ (n > 0) then .error .assertion
  else .ok ((List.range (2 ^ n.toNat)).map fun i =>
    if sym = false then binaryRepr i n.toNat
    else (binaryRepr i n.toNat).map fun x => x * 2 - 1)

/-- utils.py:12 `NUMERALS`. -/
def numerals : List Char := "0123456789".toList

/-- utils.py:356 `ALPHANUM`, letter by letter as in the source. -/
def alphanum : List Char := "0123456789ABCDEFGHJIKLMNOPQRSTUVWXYZ".toList

/-- utils.py:343-351 (= 368-376) the `while exponent>=0` loop, entered with `exponent = e - 1`;
returns the digits as numbers (the character lookup is done by the caller).
`int(i/baseToExp)` is exact integer division (no float rounding). -/
def greedyDigits (base : ℕ) : ℕ → ℕ → List ℕ
  | 0, _ => []
  | e + 1, i =>
    if base ^ e > i then 0 :: greedyDigits base e i
    else
      let term := i / base ^ e
      term :: greedyDigits base e (i - term * base ^ e)

/-- utils.py:332-342 (= 357-367): leading digit from the estimated exponent `e0`, which stands for
`int(np.log(i)/np.log(base))` in floating point, and correction of the badly rounded case. -/
def baseDigits (e0 i base : ℕ) : List ℕ :=
  let term0 := i / base ^ e0
  let exponent := if term0 = base then e0 + 1 else e0
  let term := if term0 = base then 1 else term0
  term :: greedyDigits base exponent (i - term * base ^ exponent)

/-- Character lookup `ALPHABET[term]`. -/
def lookupDigits (alphabet : List Char) (ds : List ℕ) : Py (List Char) :=
  ds.mapM fun d => match alphabet[d]? with
    | some c => .ok c
    | none => .error .indexError

/-- utils.py:305-377 `base_repr(i, base)`; `est` is the float estimate of the exponent. -/
def baseRepr (est : ℕ → ℕ → ℕ) (i base : ℕ) : Py (List Char) :=
  if ¬ (base ≥ 2) then .error .assertion
  else if i = 0 then .ok ['0']
  else if base ≤ 10 then lookupDigits numerals (baseDigits (est i base) i base)
  else if ¬ (base ≤ 36) then .error .assertion
  else lookupDigits alphanum (baseDigits (est i base) i base)

/-- utils.py:279-303 `xpotts_states(n, k)`: the list of everything the generator yields (an
exception while generating is reported for the whole list). -/
def xpottsStates (est : ℕ → ℕ → ℕ) (n k : ℕ) : Py (List (List Char)) :=
  if ¬ (n > 0) then .error .assertion
  else if ¬ (k ≥ 2) then .error .assertion
  else (List.range (k ^ n)).mapM fun i => do
    let state ← baseRepr est i k
    pure (List.replicate (n - state.length) '0' ++ state)

end Verif.Model
