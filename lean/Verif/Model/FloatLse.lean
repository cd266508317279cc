/-
coniii/enumerate.py: `fast_logsumexp` and the functions of a generated module in floating-point arithmetic.
-/
import Verif.Basic
import Mathlib.Analysis.SpecialFunctions.Exp

namespace Verif.Model
open Verif

/-- Floating-point values: finite numbers (the two zeros are not told apart), infinities and NaN. -/
inductive Fl where
  | num (x : ℝ)
  | inf (neg : Bool)
  | nan

/-- An arithmetic: rounding of real numbers (as if there were no largest exponent), the largest finite number, and the functions
`exp` and `log` of the library for finite arguments. -/
structure FlArith where
  rd : ℝ → ℝ
  big : ℝ
  expf : ℝ → ℝ
  logf : ℝ → ℝ

namespace FlArith
variable (A : FlArith)

open scoped Classical in
/-- The result of an operation: rounded, or infinite if too large. -/
noncomputable def round (x : ℝ) : Fl :=
  if A.big < A.rd x then .inf false else if A.rd x < -A.big then .inf true else .num (A.rd x)

/-- `a + b`. -/
noncomputable def add : Fl → Fl → Fl
  | .num a, .num b => A.round (a + b)
  | .nan, _ => .nan
  | _, .nan => .nan
  | .inf s, .inf t => if s = t then .inf s else .nan
  | .inf s, .num _ => .inf s
  | .num _, .inf t => .inf t

/-- `-a`. -/
def neg : Fl → Fl
  | .num a => .num (-a)
  | .inf s => .inf (!s)
  | .nan => .nan

/-- `a - b`. -/
noncomputable def sub (a b : Fl) : Fl := A.add a (neg b)

open scoped Classical in
/-- `a * b`. -/
noncomputable def mul : Fl → Fl → Fl
  | .num a, .num b => A.round (a * b)
  | .nan, _ => .nan
  | _, .nan => .nan
  | .inf s, .inf t => .inf (s != t)
  | .inf s, .num b => if b = 0 then .nan else .inf (s != decide (b < 0))
  | .num a, .inf t => if a = 0 then .nan else .inf (t != decide (a < 0))

open scoped Classical in
/-- `np.exp(a)`. -/
noncomputable def exp : Fl → Fl
  | .num x => if A.big < A.expf x then .inf false else .num (A.expf x)
  | .inf false => .inf false
  | .inf true => .num 0
  | .nan => .nan

open scoped Classical in
/-- `np.log(a)`. -/
noncomputable def log : Fl → Fl
  | .num y => if 0 < y then .num (A.logf y) else if y = 0 then .inf true else .nan
  | .inf false => .inf false
  | .inf true => .nan
  | .nan => .nan

/-- `np.abs(a)`. -/
noncomputable def abs : Fl → Fl
  | .num y => .num |y|
  | .inf _ => .inf false
  | .nan => .nan

open scoped Classical in
/-- `a < b`: false if one of them is NaN. -/
noncomputable def lt : Fl → Fl → Bool
  | .num a, .num b => decide (a < b)
  | .nan, _ => false
  | _, .nan => false
  | .inf s, .inf t => s && !t
  | .inf s, .num _ => s
  | .num _, .inf t => !t

end FlArith

/-- An order of summation: which entries, or sums of entries, are added first. -/
inductive SumTree where
  | leaf (i : ℕ)
  | node (l r : SumTree)

/-- The positions that are added, from left to right. -/
def SumTree.leaves : SumTree → List ℕ
  | .leaf i => [i]
  | .node l r => l.leaves ++ r.leaves

/-- The orders in which `n` numbers may be added: each number once. -/
def SumTree.Adds (t : SumTree) (n : ℕ) : Prop := t.leaves.Perm (List.range n)

/-- The sum of the entries of `x` in a given order. -/
noncomputable def FlArith.treeSum (A : FlArith) (x : List Fl) : SumTree → Fl
  | .leaf i => x.getD i (.num 0)
  | .node l r => A.add (A.treeSum x l) (A.treeSum x r)

/-- Python's `max` of a nonempty sequence: the first number, replaced by each one that is larger. -/
noncomputable def FlArith.maxFl : Fl → List Fl → Fl
  | m, [] => m
  | m, v :: vs => maxFl (if lt m v then v else m) vs

/-- enumerate.py:522-549 `fast_logsumexp(X, coeffs)` for arrays of floating-point numbers. numpy adds the entries in an order
of its own, which may differ between `sum` and `dot`; it is the argument `t`. (`dot` may compute `a + b * c` with one rounding;
here the product is rounded too. For coefficients -1, 0 and 1, as in the modules, this makes no difference.) -/
noncomputable def fastLseFl (A : FlArith) (t : SumTree) (X : List Fl) (coeffs : Option (List Fl)) : Py (Fl × Fl) :=
  match X with
  | [] => .error .valueError
  | x :: xs =>
    let mx := FlArith.maxFl x xs
    let terms := X.map fun v => A.exp (A.sub v mx)
    let y : Py Fl := match coeffs with
      | none => .ok (A.treeSum terms t)
      | some c => if c.length = X.length then .ok (A.treeSum (List.zipWith A.mul terms c) t) else .error .valueError
    match y with
    | .error e => .error e
    | .ok y => if FlArith.lt y (.num 0) then .ok (A.add (A.log (FlArith.abs y)) mx, .num (-1))
      else .ok (A.add (A.log y) mx, .num 1)

/-- enumerate.py:226-247 `p(params)` of a generated module after `energyTerms` is computed: `Pout[i] = exp(... - logZ)`, where
the same expression stands as in `energyTerms`, so that it has the same value `X[i]`. (The order of the states is left
out.) -/
noncomputable def modulePFl (A : FlArith) (t : SumTree) (X : List Fl) : Py (List Fl) :=
  match fastLseFl A t X none with
  | .error e => .error e
  | .ok z => .ok (X.map fun x => A.exp (A.sub x z.1))

/-- `Cout[isnan(Cout)] = 0.` for one entry. -/
def nanToZero : Fl → Fl
  | .nan => .num 0
  | v => v

/-- enumerate.py:190-223 one entry of `Cout` in `calc_observables(params)` of a generated module, with the line that sets NaN to
0. -/
noncomputable def moduleObsFl (A : FlArith) (t t' : SumTree) (X : List Fl) (coeffs : List Fl) : Py Fl :=
  match fastLseFl A t X none with
  | .error e => .error e
  | .ok z => match fastLseFl A t' X (some coeffs) with
    | .error e => .error e
    | .ok num => .ok (nanToZero (A.mul (A.exp (A.sub num.1 z.1)) num.2))

/-- The value of one entry of `energyTerms`, such as `+H[0]-H[1]-J[0]`: terms are added or subtracted from left to right; terms
with factor 0 are not written (enumerate.py:310-344 `get_terms11`, `get_terms01`). Python starts with the first term instead of
0, and may add 0 at the end of a group of terms, which makes no difference for numbers of the format. -/
noncomputable def energyFl (A : FlArith) : Fl → List (ℤ × Fl) → Fl
  | e, [] => e
  | e, (σ, v) :: r => energyFl A (if σ = 0 then e else if σ < 0 then A.sub e v else A.add e v) r

/-- `energyTerms` of a generated module for the states listed, with one parameter in `par` for each product of spins in `T`. (How
the text is written and read is the subject of C28 and C100.) -/
noncomputable def energiesFl (A : FlArith) (T : List (List ℕ)) (par : List Fl) (states : List (List ℤ)) : List Fl :=
  states.map fun s => energyFl A (.num 0) ((T.map fun t => (t.map fun i => s.getD i 0).prod).zip par)

end Verif.Model
