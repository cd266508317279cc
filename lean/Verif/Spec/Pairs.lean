/-
Specification of the orderings of index tuples used throughout coniii.
Independent of the loops in the code.
-/
import Mathlib.Data.List.Basic
import Mathlib.Data.List.ProdSigma
import Mathlib.Data.List.Range

namespace Verif.Spec

/-- All cells of an `n × n` table in row-major order. -/
def cells (n : ℕ) : List (ℕ × ℕ) := (List.range n).product (List.range n)

/-- The cells strictly above the diagonal, in row-major order. This is the order of the
couplings `J_ij` in every parameter vector of the package. -/
def upperPairs (n : ℕ) : List (ℕ × ℕ) := (cells n).filter fun p => p.1 < p.2

/-- `l` is the list of all strictly increasing `k`-tuples of numbers below `n` in
lexicographic order without repeats, i.e. `itertools.combinations(range(n), k)`. -/
structure IsCombinations (n k : ℕ) (l : List (List ℕ)) : Prop where
  mem_iff : ∀ t, t ∈ l ↔ t.length = k ∧ t.Pairwise (· < ·) ∧ ∀ i ∈ t, i < n
  sorted : l.Pairwise (List.Lex (· < ·))

end Verif.Spec
