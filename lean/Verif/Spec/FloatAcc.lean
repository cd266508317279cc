/-
Accuracy of floating-point arithmetic.
-/
import Verif.Spec.FloatLse
import Verif.Spec.Energy
import Verif.Spec.Poly
import Mathlib.Analysis.SpecialFunctions.Log.Basic

namespace Verif.Spec
open Verif Verif.Model

/-- The accuracy of an arithmetic: rounding is within `ε` of `|x| + 1` (relative error, or absolute error of very small numbers),
`exp` and `log` are as accurate, and the logarithms of positive numbers of the format are far from the largest number. In double
precision with any library that is off by less than one unit in the last place, `ε` may be `2 ^ (-52)`. -/
structure Accurate (A : FlArith) (ε : ℝ) : Prop where
  nonneg : 0 ≤ ε
  rd : ∀ x, |A.rd x - x| ≤ ε * (|x| + 1)
  exp : ∀ x ≤ 1, |A.expf x - Real.exp x| ≤ ε * (Real.exp x + 1)
  log : ∀ y, 0 < y → |A.logf y - Real.log y| ≤ ε * (|Real.log y| + 1)
  log_small : ∀ y, 0 < y → A.rd y = y → -(A.big / 8) ≤ Real.log y

/-- The probability of state `i` if the weights are the exponentials of `x`. -/
noncomputable def softmax (x : List ℝ) (i : ℕ) : ℝ := Real.exp (x.getD i 0) / (x.map Real.exp).sum

/-- The average of `c` over these probabilities. -/
noncomputable def softAverage (x c : List ℝ) : ℝ := (List.zipWith (fun v k => Real.exp v * k) x c).sum / (x.map Real.exp).sum

/-- A scale of errors for `n` energies not larger than `m`. -/
def errScale (n : ℕ) (m : ℝ) : ℝ := n ^ 2 + 8 * n + 2 * m + 10

/-- Energy with one parameter for each product of spins in `T`. -/
def linearE (T : List (List ℕ)) (par : List ℝ) (s : List ℤ) : ℝ := -dot par (T.map (mono (spins s)))

/-- A scale of errors for `n` states and `k` parameters not larger than `b`. -/
def moduleScale (n k : ℕ) (b : ℝ) : ℝ := errScale n (2 * k * b + 1) + 4 * k * (2 * k * b + 2)

/-- Parameters that are numbers of the format not larger than `b`, and states of spins -1, 0 and 1, few enough for the accuracy
and for the largest number. -/
structure Moderate (A : FlArith) (ε : ℝ) (T : List (List ℕ)) (par : List ℝ) (states : List (List ℤ)) (b : ℝ) : Prop where
  ieee : Ieee A
  acc : Accurate A ε
  length : par.length = T.length
  pars : ∀ v ∈ par, A.rd v = v ∧ |v| ≤ b
  nonneg : 0 ≤ b
  big : 2 * par.length * b + 1 ≤ A.big / 8
  ne : states ≠ []
  len : states.length ≤ 2 ^ 50
  spin : ∀ s ∈ states, ∀ v ∈ s, v = -1 ∨ v = 0 ∨ v = 1
  small : 4 * (ε * moduleScale states.length par.length b) ≤ 1

end Verif.Spec
