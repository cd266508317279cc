/-
What one call of the Monte Carlo histogram learning step is meant to do, without reference to the code.
-/
import Mathlib.Analysis.Real.Sqrt
import Mathlib.Algebra.BigOperators.Group.Finset.Basic

namespace Verif.Spec

/-- Euclidean length of the first `n` entries. -/
noncomputable def euclid (n : ℕ) (v : List ℝ) : ℝ := √(∑ i ∈ Finset.range n, v.getD i 0 ^ 2)

/-- Euclidean distance of the first `n` entries. -/
noncomputable def euclidDist (n : ℕ) (v c : List ℝ) : ℝ :=
  √(∑ i ∈ Finset.range n, (v.getD i 0 - c.getD i 0) ^ 2)

/-- Changes `d`, estimates `e` and distances `w` after `t` steps towards the constraints `c` when `g`
predicts the observables of a change. The first step is a full one; later ones shrink with the
distance. -/
structure LearnPath (g : List ℝ → List ℝ) (n : ℕ) (est c : List ℝ) (eta : ℝ)
    (d e : ℕ → List ℝ) (w : ℕ → ℝ) : Prop where
  start_d : d 0 = List.replicate n 0
  start_e : e 0 = est
  start_w : w 0 = 1
  len : ∀ t, (d t).length = n
  step : ∀ t, ∀ i < n, (d (t + 1)).getD i 0 =
    (d t).getD i 0 + eta * min 1 (w t) * (c.getD i 0 - (e t).getD i 0)
  pred : ∀ t, e (t + 1) = g (d (t + 1))
  dist : ∀ t, w (t + 1) = euclidDist n (e (t + 1)) c

/-- A vector is within both tolerances. -/
def Within (tol tolNorm : ℝ) (v : List ℝ) : Prop :=
  euclid v.length v < tolNorm ∧ ∀ x ∈ v, |x| < tol

open scoped Classical in
/-- The number `x`, or `d` if there is none; the number zero counts as none. -/
noncomputable def numberOr (x : Option ℝ) (d : ℝ) : ℝ :=
  if x = none ∨ x = some 0 then d else x.getD d

/-- Vectors of length `N` that vanish outside the positions `ix`. -/
def ZeroOutside (N : ℕ) (ix : List ℕ) (v : List ℝ) : Prop :=
  v.length = N ∧ ∀ q < N, q ∉ ix → v[q]? = some 0

/-- The vector of length `N` with the entries of `d` at the positions `ix` and zeros elsewhere. -/
def spread (N : ℕ) (ix : List ℕ) (d : List ℝ) : List ℝ :=
  (List.range N).map fun q => if q ∈ ix then d.getD (ix.idxOf q) 0 else 0

end Verif.Spec
