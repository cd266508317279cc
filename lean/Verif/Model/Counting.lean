/-
Two counting functions of coniii/utils.py that nothing else calls: `multinomial` and `_expand_binomial`.
-/
import Verif.Basic
import Mathlib.Analysis.SpecialFunctions.Log.Basic
import Mathlib.Data.Nat.Choose.Basic
import Mathlib.Data.Nat.Factorial.Basic

namespace Verif.Model
open Verif

/-- utils.py:521 the number whose whole part is returned: `exp(log(N!) - sum(log(a!)))`. -/
noncomputable def multinomialReal (N : ℕ) (as : List ℕ) : ℝ :=
  Real.exp (Real.log (N.factorial : ℝ) - (as.map fun a => Real.log (a.factorial : ℝ)).sum)

/-- utils.py:518-521 `multinomial(N, a1, a2, ...)`. `value` is the arithmetic of the computer: what it computes for line 521
before `int` cuts off the digits after the point. Arguments are natural numbers. Without arguments `args[0]` raises. -/
noncomputable def multinomial (value : ℕ → List ℕ → ℝ) (args : List ℕ) : Py ℤ :=
  match args with
  | [] => .error .indexError
  | N :: as => if as.sum = N then .ok (if 0 ≤ value N as then ⌊value N as⌋ else ⌈value N as⌉) else .error .assertion

/-- utils.py:534-537 the loop of `_expand_binomial(a, b, n)`: for each `i` up to `n`, as many times the same number as there are
ways to take `b` from `i` of the factors. -/
noncomputable def expandBinomial (a b : ℝ) (n : ℕ) : List ℝ :=
  (List.range (n + 1)).flatMap fun i => List.replicate (n.choose i) (a ^ (n - i) * b ^ i)

end Verif.Model
