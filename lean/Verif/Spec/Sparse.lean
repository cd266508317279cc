/-
Specification of pairwise models of which only some parameters may differ from zero.
-/
import Verif.Spec.Likelihood
import Verif.Spec.Energy

namespace Verif.Spec

/-- The observable that belongs to position `q` of the parameter vector: a spin, or a product of two. -/
noncomputable def paramObs (n q : ℕ) (s : List ℤ) : ℝ := (pairObs n (spins s)).getD q 0

/-- `w` is a vector of `N` parameters that are zero at all positions but those of `ix`. -/
def ZeroOff (N : ℕ) (ix : List ℕ) (w : List ℝ) : Prop := w.length = N ∧ ∀ q, q ∉ ix → w.getD q 0 = 0

/-- `w` has the entries of `x` at the positions `ix`, in this order, and is zero elsewhere. -/
def FillsIn (N : ℕ) (ix : List ℕ) (x w : List ℝ) : Prop :=
  ZeroOff N ix w ∧ ∀ j < ix.length, w.getD (ix.getD j 0) 0 = x.getD j 0

/-- The observables at the positions `ix` have the expectations `c` in the model with parameters `w`. -/
def MeetsAt (n : ℕ) (ix : List ℕ) (w c : List ℝ) : Prop :=
  ∀ j < ix.length, expect (words [-1, 1] n) (pairE n w) (paramObs n (ix.getD j 0)) = c.getD j 0

/-- The means in the sample of the observables at the positions `ix`. -/
noncomputable def momentsAt (n : ℕ) (ix : List ℕ) (X : List (List ℤ)) : List ℝ :=
  ix.map fun q => avg X (paramObs n q)

end Verif.Spec
