/-
Specification of the models handled by the equation generator: groups of products of spins.
-/
import Verif.Spec.Poly

namespace Verif.Spec

variable {K : Type*} [CommRing K]

/-- A group of constraints: the number of sites per product, and the site tuples. -/
abbrev Group := ℕ × List (List ℕ)

/-- Tuples of the stated length of sites below `n`. -/
def GoodGroups (n : ℕ) (groups : List Group) : Prop :=
  ∀ g ∈ groups, 1 ≤ g.1 ∧ ∀ t ∈ g.2, t.length = g.1 ∧ ∀ i ∈ t, i < n

/-- The tuples of a group as index arrays, one array per position, as `np.where` returns them. -/
def subixOf (g : Group) : List (List ℕ) :=
  (List.range g.1).map fun a => g.2.map fun t => t.getD a 0

/-- Energy with one parameter array per group. -/
def groupE (groups : List Group) (P : List (List K)) (x : ℕ → K) : K :=
  -(List.zipWith (fun (g : Group) p => dot p (g.2.map (mono x))) groups P).sum

/-- One parameter per tuple. -/
def ParamsFit (groups : List Group) (P : List (List K)) : Prop :=
  P.map List.length = groups.map fun g => g.2.length

/-- All products of up to `m` spins. -/
def allOrders (n m : ℕ) : List Group := (List.range m).map fun k => (k + 1, tuples n (k + 1))

/-- Values of a spin in each basis, in increasing order. -/
def spinValues (sym : Bool) : List ℤ := if sym then [-1, 1] else [0, 1]

end Verif.Spec
