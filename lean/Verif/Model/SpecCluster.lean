/-
Model of `spec_cluster` in coniii/samplers.py.
-/
import Verif.Spec.Matrix
import Mathlib.Data.Real.Basic
import Mathlib.Algebra.Order.Group.Unbundled.Abs

namespace Verif.Model
open Verif

/-- `np.isclose(x, 0)` with its default tolerances: `|x - 0| <= 1e-8 + 1e-5*|0|`. -/
noncomputable def isCloseZero (x : ℝ) : Bool := open Classical in decide (|x - 0| ≤ 1 / 10 ^ 8 + 1 / 10 ^ 5 * |(0 : ℝ)|)

/-- samplers.py:603-606 `clusterix`. -/
noncomputable def zeroEigs (exact : Bool) (w : List ℝ) : List ℕ :=
  open Classical in
  (List.range w.length).filter fun i => if exact then decide (w.getD i 0 = 0) else isCloseZero (w.getD i 0)

/-- samplers.py:609 `np.nonzero(np.isclose(v[:,i],0)==0)[0]`. -/
noncomputable def columnSupport (v : Mat ℝ) (i : ℕ) : List ℕ :=
  (List.range v.length).filter fun x => isCloseZero (v.at' x i) == false

/-- samplers.py:593-610 `spec_cluster(L, exact)`. `eig` is `scipy.linalg.eig`, which returns the eigenvalues and a
matrix whose columns are eigenvectors; numbers are real (the eigenvalues and eigenvectors of a symmetric matrix). -/
noncomputable def specCluster (eig : Mat ℝ → List ℝ × Mat ℝ) (L : Mat ℝ) (exact : Bool) : List (List ℕ) :=
  (zeroEigs exact (eig L).1).map (columnSupport (eig L).2)

end Verif.Model
