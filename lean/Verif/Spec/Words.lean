/-
Specification: all words over an alphabet in lexicographic (counting) order, positional
digits, and the usual digit characters.
-/
import Mathlib.Data.List.Basic
import Mathlib.Data.List.Range
import Mathlib.Data.Nat.Log

namespace Verif.Spec

/-- All words of length `n` over the alphabet `A`, first letter most significant. -/
def words {α : Type*} (A : List α) : ℕ → List (List α)
  | 0 => [[]]
  | n + 1 => A.flatMap fun a => (words A n).map (a :: ·)

/-- The `n` lowest digits of `i` in base `b`, most significant first. -/
def fixedDigits (b n i : ℕ) : List ℕ := (List.range n).map fun j => i / b ^ (n - 1 - j) % b

/-- The conventional digit characters `0-9A-Z` (as in `numpy.base_repr`). -/
def stdDigit (d : ℕ) : Char := if d < 10 then Char.ofNat (48 + d) else Char.ofNat (55 + d)

/-- Conventional positional notation of `i` in base `b`: `0` for zero, otherwise exactly
`log_b i + 1` digits, most significant first (so the first one is not zero). -/
def positional (b i : ℕ) : List ℕ := fixedDigits b (Nat.log b i + 1) i

/-- The float estimate of `log_b i` is good enough: it is the true integer part, or one less in
the badly rounded case that the code corrects. -/
def GoodEst (e0 i b : ℕ) : Prop :=
  e0 = Nat.log b i ∨ (e0 + 1 = Nat.log b i ∧ i / b ^ e0 = b)

end Verif.Spec
