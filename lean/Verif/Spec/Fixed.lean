/-
States in which some spins are fixed.
-/
import Mathlib.Data.List.Basic
import Mathlib.Data.Int.Basic
import Verif.Spec.Boltzmann

namespace Verif.Spec

/-- The sites that are not fixed, in increasing order. -/
def freeSites (n : ℕ) (fixed : List (ℕ × ℤ)) : List ℕ :=
  (List.range n).filter fun i => decide (i ∉ fixed.map Prod.fst)

/-- The state of `n` spins with the given fixed spins, the free spins being those of `r` in order. -/
def weave (n : ℕ) (fixed : List (ℕ × ℤ)) (r : List ℤ) : List ℤ :=
  (List.range n).map fun j =>
    match fixed.lookup j with
    | some v => v
    | none => r.getD ((freeSites n fixed).idxOf j) 0

/-- Conditional expectation of `f` given the event `A`. -/
noncomputable def condExpect {α : Type*} (S : List α) (E : α → ℝ) (A : α → Prop) [DecidablePred A] (f : α → ℝ) : ℝ :=
  expect S E (fun s => if A s then f s else 0) / expect S E fun s => if A s then 1 else 0

/-- The state has the fixed values. -/
abbrev HasFixed (fixed : List (ℕ × ℤ)) (s : List ℤ) : Prop := ∀ p ∈ fixed, s.getD p.1 0 = p.2

end Verif.Spec
