/-
Specification of a search inside bounds.
-/
import Verif.Basic
import Verif.Spec.Energy
import Verif.Spec.Flow
import Verif.Spec.Likelihood

namespace Verif.Spec
open Verif Finset

/-- The coupling of two spins, in whichever order they are given. -/
def pairCoupling (n : ℕ) (r : List ℝ) (i j : ℕ) : ℝ :=
  if i < j then couplingAt n (r.drop n) i j else if j < i then couplingAt n (r.drop n) j i else 0

/-- The fields and couplings that ±1 parameters `r` have for the variables `(s+1)/2`. -/
def bitParams (n : ℕ) (r : List ℝ) : List ℝ :=
  ((List.range n).map fun i => 2 * (r.getD i 0 - ∑ j ∈ range n, pairCoupling n r i j)) ++ (r.drop n).map fun c => 4 * c

/-- All entries are at most `L` in magnitude. -/
def InLimit (L : ℝ) (x : List ℝ) : Prop := ∀ c ∈ x, |c| ≤ L

/-- `x` is a smallest point of `f` among the vectors of length `m` within the limit. -/
def BoxMinimum (m : ℕ) (L : ℝ) (f : List ℝ → Py (Option ℝ)) (x : List ℝ) : Prop :=
  x.length = m ∧ InLimit L x ∧
    ∀ z a b, z.length = m → InLimit L z → f x = .ok (some a) → f z = .ok (some b) → a ≤ b

/-- The probability flow out of ±1 data under the pairwise energy with parameters `r`. -/
noncomputable def pairFlow (n : ℕ) (X : List (List ℤ)) (r : List ℝ) : ℝ := probFlow X (flips fun x => -x) (pairE n r)

/-- `r` has the least flow among the ±1 parameters whose {0,1} form is within the limit. -/
def LeastFlowWithin (n : ℕ) (L : ℝ) (X : List (List ℤ)) (r : List ℝ) : Prop :=
  r.length = n + n * (n - 1) / 2 ∧ InLimit L (bitParams n r) ∧
    ∀ r' : List ℝ, r'.length = n + n * (n - 1) / 2 → InLimit L (bitParams n r') → pairFlow n X r ≤ pairFlow n X r'

end Verif.Spec
