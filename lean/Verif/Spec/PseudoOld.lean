/-
Specification: conditional probabilities within a set of states, and the pairwise model of
Aurell and Ekeberg on {0,1}.
-/
import Verif.Basic
import Verif.Spec.Words
import Verif.Spec.Boltzmann
import Verif.Spec.Matrix

namespace Verif.Spec
open Verif

/-- Probability of `s` under the Boltzmann distribution of `E` on the states `S`, given what all spins but
`r` are. -/
noncomputable def condOn (S : List (List ℤ)) (E : List ℤ → ℝ) (r : ℕ) (s : List ℤ) : ℝ :=
  Real.exp (-E s) / ((S.filter fun t => t.eraseIdx r = s.eraseIdx r).map fun t => Real.exp (-E t)).sum

/-- The states of `n` spins 0 or 1 with at least `m` ones. -/
def bigStates (n : ℕ) (m : ℤ) : List (List ℤ) := (words [0, 1] n).filter fun s => m ≤ s.sum

/-- Energy `Σ_i J_ii x_i + Σ_{i≠j} J_ij x_i x_j`. -/
noncomputable def matE (n : ℕ) (J : ℕ → ℕ → ℝ) (s : List ℤ) : ℝ :=
  ∑ i ∈ Finset.range n, ∑ j ∈ Finset.range n,
    J i j * ((s.getD i 0 : ℤ) : ℝ) * (if i = j then 1 else ((s.getD j 0 : ℤ) : ℝ))

/-- An optimiser that, on `f` with `n` arguments, returns a place where `f` is smallest. -/
def FindsMin (fmin : (List ℝ → Py ℝ) → List (Option ℝ) → (List ℝ → Py (List ℝ)) →
      (List ℝ → Py (Mat ℝ)) → Py (List ℝ)) (f : List ℝ → Py ℝ) (n : ℕ) : Prop :=
  ∀ x0 f' f'', ∃ x, fmin f x0 f' f'' = .ok x ∧ x.length = n ∧
    ∀ y v w, y.length = n → f x = .ok v → f y = .ok w → v ≤ w

end Verif.Spec
