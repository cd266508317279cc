/-
Specification of empirical moments: plain and weighted averages over rows.
-/
import Mathlib.Algebra.Field.Defs
import Mathlib.Algebra.BigOperators.Group.List.Basic

namespace Verif.Spec

variable {K α : Type*} [Field K]

/-- Mean of `f` over the rows of `X`. -/
def avg (X : List α) (f : α → K) : K := (X.map f).sum / (X.length : K)

/-- Sum of `f` over the rows of `X`, row `r` counted with weight `w_r`. -/
def wsum (X : List α) (w : List K) (f : α → K) : K :=
  ((X.zip w).map fun q => q.2 * f q.1).sum

/-- Mean of `f` over those rows on which `P` holds. -/
def avgOn (X : List α) (P : α → Prop) [DecidablePred P] (f : α → K) : K :=
  ((X.filter fun r => P r).map f).sum / ((X.filter fun r => P r).length : K)

/-- What `np.unique` is assumed to return: each distinct row once. -/
def UniqSpec (uniq : List α → List α) : Prop :=
  ∀ v, (uniq v).Nodup ∧ ∀ x, x ∈ uniq v ↔ x ∈ v

end Verif.Spec
