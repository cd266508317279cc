/-
Specification of the nearest-neighbour model on a periodic square lattice and of block sums.
-/
import Verif.Spec.Words
import Mathlib.Algebra.BigOperators.Group.Finset.Basic
import Mathlib.Data.Real.Basic

namespace Verif.Spec
open Finset

/-- Energy of the spins `s` on a periodic `d0 × d1` lattice with coupling `J` between nearest neighbours and
fields `h`: every site has a bond to the next site in its column and to the next site in its row. -/
def latticeE (d0 d1 : ℕ) (J : ℝ) (h s : ℕ → ℕ → ℝ) : ℝ :=
  -J * (∑ i ∈ range d0, ∑ j ∈ range d1, s i j * (s ((i + 1) % d0) j + s i ((j + 1) % d1))) -
    ∑ i ∈ range d0, ∑ j ∈ range d1, h i j * s i j

/-- All `d0 × d1` lattices of spins 1 and -1. -/
def lattices (d0 d1 : ℕ) : List (List (List ℤ)) := words (words [1, -1] d1) d0

/-- Sum of the spins in block `(a, b)` of side `f`. -/
def blockSum (f : ℕ) (s : ℕ → ℕ → ℤ) (a b : ℕ) : ℤ :=
  ∑ i ∈ range f, ∑ j ∈ range f, s (f * a + i) (f * b + j)

end Verif.Spec
