/-
Shared vocabulary of the model: Python exceptions as values and Python ranges.
-/
import Mathlib.Data.List.Basic
import Mathlib.Data.List.GetD
import Mathlib.Data.Int.Range

namespace Verif

/-- The Python exceptions that the modelled code can raise. `exception` is a bare
`raise Exception(...)`, `diverge` is a loop that does not end. -/
inductive PyErr where
  | assertion | exception | valueError | indexError | nameError | attributeError
  | typeError | keyError | zeroDivision | notImplemented | unboundLocal | diverge
  deriving DecidableEq, Repr

/-- A Python call: a result or an exception. -/
abbrev Py := Except PyErr

/-- Equality of results can be decided, so that concrete runs can be checked by the kernel. -/
instance {α : Type*} [DecidableEq α] : DecidableEq (Py α) := fun a b =>
  match a, b with
  | .ok x, .ok y => if h : x = y then isTrue (by rw [h]) else isFalse (by simpa using h)
  | .error x, .error y => if h : x = y then isTrue (by rw [h]) else isFalse (by simpa using h)
  | .ok _, .error _ => isFalse (by simp)
  | .error _, .ok _ => isFalse (by simp)

/-- Python `assert c`. -/
def pyAssert.{u} (c : Bool) : Py PUnit.{u + 1} := if c then .ok ⟨⟩ else .error .assertion

/-- Python `range(a, b)` over integers. -/
def pyRangeZ (a b : ℤ) : List ℤ := (List.range (b - a).toNat).map (fun k : ℕ => a + (k : ℤ))

/-- Python `range(a, b)` over naturals. -/
def pyRange (a b : ℕ) : List ℕ := List.range' a (b - a)

/-- Array read that yields zero when out of range. Every theorem that uses a function
built on it carries the shape hypotheses under which no read is out of range. -/
abbrev rd {α : Type*} [Zero α] (l : List α) (i : ℕ) : α := l.getD i 0

end Verif
