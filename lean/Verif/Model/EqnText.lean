/-
Text of the generated equation modules (coniii/enumerate.py), and the meaning that Python gives to
the fragment of expressions that occurs in it. Strings are lists of characters.
-/
import Verif.Basic
import Mathlib.Data.Nat.Digits.Defs
import Mathlib.Algebra.Ring.Defs

namespace Verif.Model
open Verif

/-- A decimal digit as a character. -/
def digitCh (d : ℕ) : Char := Char.ofNat (48 + d)

/-- `str(j)` for a natural number. -/
def natText (j : ℕ) : List Char :=
  if j = 0 then ['0'] else (Nat.digits 10 j).reverse.map digitCh

/-- `re.sub(pat, rep, s)` for a literal pattern: left to right, matches do not overlap. The first
argument bounds the number of steps; `subAll` passes the length of the text. -/
def subAllAux (pat rep : List Char) : ℕ → List Char → List Char
  | 0, s => s
  | _ + 1, [] => []
  | fuel + 1, c :: cs =>
    if pat.isPrefixOf (c :: cs) then rep ++ subAllAux pat rep fuel (cs.drop (pat.length - 1))
    else c :: subAllAux pat rep fuel cs

/-- `re.sub(pat, rep, s)`. -/
def subAll (pat rep s : List Char) : List Char := subAllAux pat rep s.length s

/-- Where the reader of an expression stands: before a term (with the sign read so far), inside
`NAME`, inside `NAME[...`, or after a complete term. -/
inductive Mode where
  | ready (sign : Option Bool)
  | name (neg : Bool) (c : Char)
  | idx (neg : Bool) (c : Char) (n : Option ℕ)
  | done
  deriving DecidableEq

/-- State of the evaluation of a bracketed, comma separated list of sums. -/
structure ParseSt (K : Type*) where
  vals : List K
  cur : K
  mode : Mode

/-- A decimal digit character as a number. -/
def digitVal (c : Char) : Option ℕ :=
  if 48 ≤ c.toNat ∧ c.toNat ≤ 57 then some (c.toNat - 48) else none

/-- Add a term with its sign. -/
def addTerm {K : Type*} [Ring K] (neg : Bool) (cur v : K) : K := if neg then cur - v else cur + v

/-- One character of Python source inside `array([ ... ])`: sums of literals 0 and 1 and of
`NAME[INDEX]` with signs, separated by commas; blanks and line ends between tokens do not matter.
`env c n` is the value of `c[n]`. `none`: not in this fragment, or index out of range. -/
def parseStep {K : Type*} [Ring K] (env : Char → ℕ → Option K) (st : ParseSt K) (ch : Char) :
    Option (ParseSt K) :=
  match st.mode with
  | .ready sg =>
    if ch = ' ' ∨ ch = '\n' ∨ ch = '\t' then some st
    else if ch = '+' then if sg = none then some { st with mode := .ready (some false) } else none
    else if ch = '-' then if sg = none then some { st with mode := .ready (some true) } else none
    else if ch = '0' then some { st with mode := .done }
    else if ch = '1' then some { st with cur := addTerm (sg.getD false) st.cur 1, mode := .done }
    else if ch.isAlpha then some { st with mode := .name (sg.getD false) ch }
    else none
  | .name neg c => if ch = '[' then some { st with mode := .idx neg c none } else none
  | .idx neg c n =>
    if ch = ']' then match n with
      | none => none
      | some n => match env c n with
        | none => none
        | some v => some { st with cur := addTerm neg st.cur v, mode := .done }
    else match digitVal ch with
      | none => none
      | some d => some { st with mode := .idx neg c (some (10 * n.getD 0 + d)) }
  | .done =>
    if ch = ' ' ∨ ch = '\n' ∨ ch = '\t' then some st
    else if ch = '+' then some { st with mode := .ready (some false) }
    else if ch = '-' then some { st with mode := .ready (some true) }
    else if ch = ',' then some { vals := st.vals ++ [st.cur], cur := 0, mode := .ready none }
    else none

/-- Run over a text. -/
def parseRun {K : Type*} [Ring K] (env : Char → ℕ → Option K) (st : ParseSt K) (s : List Char) :
    Option (ParseSt K) := s.foldlM (parseStep env) st

/-- Value of the text of a bracketed list (a trailing comma is allowed). -/
def evalList {K : Type*} [Ring K] (env : Char → ℕ → Option K) (s : List Char) : Option (List K) :=
  match parseRun env ⟨[], 0, .ready none⟩ s with
  | none => none
  | some st => match st.mode with
    | .done => some (st.vals ++ [st.cur])
    | .ready none => some st.vals
    | _ => none

/-- Value of the text of one expression. -/
def evalExpr {K : Type*} [Ring K] (env : Char → ℕ → Option K) (s : List Char) : Option K :=
  match evalList env s with
  | some [v] => some v
  | _ => none

end Verif.Model
