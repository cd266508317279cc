/-
Specification of the energies of the models, as plain finite sums.
-/
import Verif.Spec.Pairs
import Mathlib.Algebra.BigOperators.Group.Finset.Basic
import Mathlib.Algebra.BigOperators.Ring.Finset
import Mathlib.Algebra.Field.Defs

namespace Verif.Spec
open Finset

variable {K : Type*} [CommRing K]

/-- Coupling of sites `i < j` in a row-major coupling vector of an `n`-spin system. -/
def couplingAt (n : ℕ) (J : List K) (i j : ℕ) : K := J.getD ((upperPairs n).idxOf (i, j)) 0

/-- Energy `-Σ h_i s_i - Σ_{i<j} J_ij s_i s_j` of an `n`-spin configuration. -/
def isingE (n : ℕ) (h : ℕ → K) (J : ℕ → ℕ → K) (s : ℕ → K) : K :=
  -(∑ i ∈ range n, h i * s i) -
    ∑ i ∈ range n, ∑ j ∈ range n, if i < j then J i j * s i * s j else 0

/-- The same for a field vector and a row-major coupling vector. -/
def isingVecE (n : ℕ) (h J : List K) (s : ℕ → K) : K :=
  isingE n (fun i => h.getD i 0) (couplingAt n J) s

/-- Dot product of two vectors of the same length. -/
def dot (a b : List K) : K := (List.zipWith (· * ·) a b).sum

end Verif.Spec

namespace Verif.Spec
open Finset

variable {K : Type*} [CommRing K]

/-- The entries of an integer state as numbers. -/
def spins (s : List ℤ) (i : ℕ) : K := ((s.getD i 0 : ℤ) : K)

/-- Observables of the pairwise model: the spins, then the products of all pairs, row-major. -/
def pairObs (n : ℕ) (s : ℕ → K) : List K :=
  (List.range n).map s ++ (upperPairs n).map fun p => s p.1 * s p.2

/-- Coupling of two different sites, given in either order. -/
def couplingOf (n : ℕ) (J : List K) (i j : ℕ) : K := couplingAt n J (min i j) (max i j)

/-- Field acting on spin `r` in state `s`: `h_r + Σ_{j≠r} J_rj s_j`. -/
def localField (n : ℕ) (h J : List K) (s : ℕ → K) (r : ℕ) : K :=
  h.getD r 0 + ∑ j ∈ range n, if j = r then 0 else couplingOf n J r j * s j

/-- Energy of a `k`-state Potts configuration with fields `h a i` on state `a` of site `i` and
couplings between equal states. -/
def pottsE (n k : ℕ) (h : ℕ → ℕ → K) (J : ℕ → ℕ → K) (s : ℕ → ℤ) : K :=
  -(∑ a ∈ range k, ∑ i ∈ range n, if s i = (a : ℤ) then h a i else 0) -
    ∑ i ∈ range n, ∑ j ∈ range n, if i < j ∧ s i = s j then J i j else 0

/-- The same for a parameter vector: fields state-major, then row-major couplings. -/
def pottsVecE (n k : ℕ) (h J : List K) (s : ℕ → ℤ) : K :=
  pottsE n k (fun a i => h.getD (a * n + i) 0) (couplingAt n J) s

end Verif.Spec
