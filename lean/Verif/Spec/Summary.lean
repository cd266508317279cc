/-
What the two numbers printed by the usage guide's `summarize` are meant to be.
-/
import Verif.Spec.Orders

namespace Verif.Spec

/-- Euclidean distance between the mean products in the sample and in the Boltzmann distribution with energy `E`, for the
tuples of spins in `T`. -/
noncomputable def meansDistance (n : ℕ) (T : List (List ℕ)) (E : List ℤ → ℝ) (X : List (List ℤ)) : ℝ :=
  Real.sqrt (T.map fun t => (avg X (fun s => (mono (spins s) t : ℝ)) -
    expect (words [-1, 1] n) E fun s => mono (spins s) t) ^ 2).sum

/-- Euclidean distance between two parameter vectors. -/
noncomputable def paramDistance (θ v : List ℝ) : ℝ :=
  Real.sqrt (∑ i ∈ Finset.range θ.length, (θ.getD i 0 - v.getD i 0) ^ 2)

end Verif.Spec
