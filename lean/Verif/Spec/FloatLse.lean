/-
What is assumed about floating-point arithmetic.
-/
import Verif.Model.FloatLse

namespace Verif.Spec
open Verif Verif.Model

/-- What IEEE arithmetic in double precision and every sensible mathematics library satisfy, with any rule of rounding that is
symmetric: rounding is monotone and leaves the numbers of the format as they are, among them the natural numbers up to 2^53;
`exp` of numbers that are not positive is between 0 and 1, and 1 at 0; `log` of numbers from 1 on is not negative; their results
are numbers of the format. Nothing is assumed about their accuracy. -/
structure Ieee (A : FlArith) : Prop where
  mono : Monotone A.rd
  neg : ∀ x, A.rd (-x) = -A.rd x
  idem : ∀ x, A.rd (A.rd x) = A.rd x
  nat : ∀ m : ℕ, m ≤ 2 ^ 53 → A.rd m = m
  big : (2 : ℝ) ^ 53 ≤ A.big
  big_rd : A.rd A.big = A.big
  exp_zero : A.expf 0 = 1
  exp_range : ∀ x ≤ 0, 0 ≤ A.expf x ∧ A.expf x ≤ 1
  exp_rd : ∀ x, A.rd (A.expf x) = A.expf x
  log_nonneg : ∀ y, 1 ≤ y → 0 ≤ A.logf y

/-- A finite number of the format. -/
def Finite (A : FlArith) (v : Fl) : Prop := ∃ x, v = .num x ∧ A.rd x = x ∧ |x| ≤ A.big

/-- A number between `a` and `b`. -/
def Between (a b : ℝ) (v : Fl) : Prop := ∃ x, v = .num x ∧ a ≤ x ∧ x ≤ b

end Verif.Spec
