/-
How far the distribution of a row of a sample may be from that of the model.
-/
import Verif.Spec.Boltzmann
import Verif.Spec.Rand

namespace Verif.Spec
open Verif Verif.Model

/-- The means of all nonnegative functions of the state `row` that the program `p` leaves, in particular the probabilities of
all events, are those of the model with states `S` and energy `E`, up to a factor between `exp (-D)` and `exp D`. -/
def WithinFactor {α : Type} (D : ℝ) (S : List (List ℤ)) (E : List ℤ → ℝ) (row : α → List ℤ) (p : Prog α) : Prop :=
  ∀ f : List ℤ → ℝ, (∀ s, 0 ≤ f s) →
    Real.exp (-D) * expect S E f ≤ expectation (fun a => f (row a)) p ∧
      expectation (fun a => f (row a)) p ≤ Real.exp D * expect S E f

end Verif.Spec
