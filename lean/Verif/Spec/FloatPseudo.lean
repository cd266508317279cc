/-
Relative accuracy of floating-point arithmetic.
-/
import Verif.Spec.FloatLse
import Mathlib.Analysis.SpecialFunctions.Log.Basic

namespace Verif.Spec
open Verif Verif.Model

/-- Relative accuracy `ε`, up to errors that are small compared with the inverse of the largest number (in double precision
numbers below 2^(-1022) are rounded to multiples of 2^(-1074), and the largest number is almost 2^1024). Twice a number of the
format is one. Logarithms of finite numbers are not larger than 1024. In double precision with a library that is off by less than one
unit in the last place, `ε` may be `2 ^ (-52)`. -/
structure Relative (A : FlArith) (ε : ℝ) : Prop where
  nonneg : 0 ≤ ε
  small : ε ≤ 1 / 8
  rd : ∀ x, |A.rd x - x| ≤ ε * (|x| + 1 / A.big)
  double : ∀ x, A.rd x = x → A.rd (2 * x) = 2 * x
  exp_nonneg : ∀ x, 0 ≤ A.expf x
  exp : ∀ x, A.expf x ≤ A.big → |A.expf x - Real.exp x| ≤ ε * (Real.exp x + 1 / A.big)
  log : ∀ y, 1 ≤ y → |A.logf y - Real.log y| ≤ ε * (|Real.log y| + 1)
  log_rd : ∀ y, A.rd (A.logf y) = A.logf y
  log_le : ∀ y, 1 ≤ y → y ≤ A.big → A.logf y ≤ 1024

/-- `1 + exp x` is within the range of the numbers. -/
def InRange (A : FlArith) (x : ℝ) : Prop := A.expf x ≤ A.big ∧ A.rd (1 + A.expf x) ≤ A.big

end Verif.Spec
