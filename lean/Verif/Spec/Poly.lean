/-
Specification of models with interactions of every order.
-/
import Verif.Spec.Words
import Verif.Spec.Energy

namespace Verif.Spec

variable {K : Type*} [CommRing K]

/-- The strictly increasing `k`-tuples of sites below `n`, in lexicographic order: those words over
the sites that are increasing. -/
def tuples (n k : ℕ) : List (List ℕ) :=
  (words (List.range n) k).filter fun t => t.Pairwise (· < ·)

/-- Product of the spins at the sites of `t`. -/
def mono (x : ℕ → K) (t : List ℕ) : K := (t.map x).prod

/-- Energy of a model with parameter arrays of interaction orders `1, 2, ...`, each array listing
its tuples in lexicographic order. -/
def polyE (n : ℕ) (P : List (List K)) (x : ℕ → K) : K :=
  -∑ k ∈ Finset.range P.length, dot (P.getD k []) ((tuples n (k + 1)).map (mono x))

/-- The parameter arrays have the lengths of an `n`-spin model with interactions up to order
`P.length`. -/
def PolyShape (n : ℕ) (P : List (List K)) : Prop :=
  ∀ k < P.length, (P.getD k []).length = (tuples n (k + 1)).length

end Verif.Spec
