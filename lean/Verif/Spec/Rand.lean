/-
The meaning of programs with random draws.
-/
import Verif.Model.Rand
import Mathlib.MeasureTheory.Integral.IntervalIntegral.Basic

namespace Verif.Spec
open Verif Verif.Model

variable {α β σ : Type}

/-- A generator of random numbers with internal state `σ`. -/
structure Gen (σ : Type) where
  /-- an integer from `0, ..., n` -/
  int : ℕ → σ → ℕ × σ
  /-- a number from `[0, 1)` -/
  unit : σ → ℝ × σ

/-- The numbers are in the promised ranges. -/
structure Gen.Valid (g : Gen σ) : Prop where
  int_le : ∀ n s, (g.int n s).1 ≤ n
  unit_nonneg : ∀ s, 0 ≤ (g.unit s).1
  unit_lt : ∀ s, (g.unit s).1 < 1

/-- What the program returns (or raises) with a generator in state `s`, and the state after it. -/
def run (g : Gen σ) : Prog α → σ → Py α × σ
  | .ret a, s => (.ok a, s)
  | .fail e, s => (.error e, s)
  | .unif n k, s => run g (k (g.int n s).1) (g.int n s).2
  | .rand k, s => run g (k (g.unit s).1) (g.unit s).2

/-- Whatever numbers are drawn, the result has the property `P`. -/
def Always (P : Py α → Prop) : Prog α → Prop
  | .ret a => P (.ok a)
  | .fail e => P (.error e)
  | .unif n k => ∀ i, i ≤ n → Always P (k i)
  | .rand k => ∀ u, 0 ≤ u → u < 1 → Always P (k u)

/-- Whatever numbers are drawn, the program does not raise and its value has the property `Q`. -/
def Returns (p : Prog α) (Q : α → Prop) : Prop := Always (fun r => ∃ a, r = .ok a ∧ Q a) p

/-- Expectation of `f` of the result for ideal random numbers: all draws independent, integers uniform on
`0, ..., n`, reals uniform on `[0, 1)`. A program that raises contributes nothing. -/
noncomputable def expectation (f : α → ℝ) : Prog α → ℝ
  | .ret a => f a
  | .fail _ => 0
  | .unif n k => (∑ i ∈ Finset.range (n + 1), expectation f (k i)) / (n + 1)
  | .rand k => ∫ u in (0 : ℝ)..1, expectation f (k u)

/-- Probability of the outcomes in `A`. -/
noncomputable def prob (p : Prog α) (A : α → Prop) [DecidablePred A] : ℝ :=
  expectation (fun a => if A a then 1 else 0) p

/-- The states visited when the steps `l` are made one after another from `s`. -/
def visits {ι : Type} (step : ι → σ → Prog σ) : List ι → σ → Prog (List σ)
  | [], _ => .ret []
  | i :: l, s => (step i s).bind fun s' => (visits step l s').bind fun tr => .ret (s' :: tr)

end Verif.Spec
