/-
Which states are connected by systematic sweeps of Metropolis updates.
-/
import Verif.Spec.Words
import Mathlib.Logic.Relation
import Mathlib.Data.Real.Basic

namespace Verif.Spec

/-- The state with spin `i` reversed. -/
def turn (i : ℕ) (s : List ℤ) : List ℤ := s.set i (-s.getD i 0)

/-- The state with the spins of a list reversed one after another. -/
def turns (sites : List ℕ) (s : List ℤ) : List ℤ := sites.foldl (fun s i => turn i s) s

/-- The sites visited by `k` updates that go through `n` sites in order. -/
def sweepSites (n k : ℕ) : List ℕ := (List.range k).map (· % n)

/-- Two states that differ in spin `i`, such that the energy still depends on this spin when all spins visited before
it (in two rounds of `k` updates) have been reversed. -/
def SweepBond (E : List ℤ → ℝ) (n k : ℕ) (s t : List ℤ) : Prop :=
  ∃ before i after, sweepSites n k ++ sweepSites n k = before ++ i :: after ∧ t = turn i s ∧
    E (turn i (turns before s)) ≠ E (turns before s)

/-- Any two states are connected by such pairs. -/
def SweepsConnect (E : List ℤ → ℝ) (n k : ℕ) : Prop :=
  ∀ s ∈ words [1, -1] n, ∀ t ∈ words [1, -1] n, Relation.ReflTransGen (SweepBond E n k) s t

end Verif.Spec
