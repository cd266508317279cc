/-
Specification of steepest descent by single spin flips.
-/
import Mathlib.Data.List.Basic
import Mathlib.Data.List.GetD
import Mathlib.Order.Defs.LinearOrder
import Mathlib.Algebra.Ring.Int.Defs

namespace Verif.Spec

/-- The state with spin `i` reversed. -/
def flipped (s : List ℤ) (i : ℕ) : List ℤ := s.set i (-s.getD i 0)

/-- `t` is reached from `s` by flips of single spins, each of which lowers the energy, and by as much as any
flip of a single spin would. -/
inductive Descent {K : Type*} [LinearOrder K] (n : ℕ) (E : List ℤ → K) : List ℤ → List ℤ → Prop
  | refl (s : List ℤ) : Descent n E s s
  | step (s : List ℤ) (i : ℕ) (t : List ℤ) (hi : i < n) (hlt : E (flipped s i) < E s)
      (hmin : ∀ j < n, E (flipped s i) ≤ E (flipped s j)) (h : Descent n E (flipped s i) t) : Descent n E s t

/-- No flip of a single spin lowers the energy. -/
def LocalMin {K : Type*} [LinearOrder K] (n : ℕ) (E : List ℤ → K) (s : List ℤ) : Prop :=
  ∀ i < n, E s ≤ E (flipped s i)

end Verif.Spec
