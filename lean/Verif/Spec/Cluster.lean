/-
Specification of cluster contributions: a function of sets of spins and the function whose sums over
sub-clusters it is.
-/
import Mathlib.Algebra.BigOperators.Group.Finset.Powerset
import Mathlib.Algebra.BigOperators.Group.Finset.Basic

namespace Verif.Spec

variable {V : Type*} [AddCommGroup V]

/-- `D` are the contributions of clusters to `F`: `F` of a set of spins is the sum of `D` over its
nonempty subsets. -/
def Telescopes (F D : Finset ℕ → V) : Prop :=
  ∀ A : Finset ℕ, A.Nonempty → ∑ B ∈ A.powerset.erase ∅, D B = F A

/-- The clusters selected by the adaptive expansion, size by size: all single spins of `U`; and a set of
`k+1` spins if it is the union of two selected sets of `k` spins and its contribution is kept. -/
def Selected (keep : Finset ℕ → Prop) (U : Finset ℕ) : ℕ → Finset ℕ → Prop
  | 0, _ => False
  | 1, A => ∃ i ∈ U, A = {i}
  | k + 2, A => A.card = k + 2 ∧ keep A ∧
    ∃ B C, Selected keep U (k + 1) B ∧ Selected keep U (k + 1) C ∧ A = B ∪ C

end Verif.Spec
