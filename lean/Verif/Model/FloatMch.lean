/-
coniii/utils.py: the prediction of correlations by reweighting (`mch_approximation`) in floating-point arithmetic.
-/
import Verif.Model.FloatMpf
import Verif.Model.Mch

namespace Verif.Model
open Verif FlArith

/-- utils.py:176-177 one entry of `(X*weights[:,None]).sum(0)`; `t` is the order of the sum. -/
noncomputable def meanFl (A : FlArith) (t : SumTree) (X : Data) (w : List Fl) (j : ℕ) : Fl :=
  A.treeSum (List.zipWith (fun s v => A.mul (.num (ent s j)) v) X w) t

/-- utils.py:178 one entry of `X.T.dot(X*weights[:,None])`. (`dot` may round less often; for spins the products are exact.) -/
noncomputable def corrFl (A : FlArith) (t : SumTree) (X : Data) (w : List Fl) (p : ℕ × ℕ) : Fl :=
  A.treeSum (List.zipWith (fun s v => A.mul (.num (ent s p.1)) (A.mul (.num (ent s p.2)) v)) X w) t

open scoped Classical in
/-- utils.py:965-974 `mch_approximation(samples, dlamda)` with `pair_corr` for an array of weights (utils.py:151-185). `tE`, `tL`, `t1`
and `t2` are the orders in which numpy and scipy add. -/
noncomputable def mchIsingFl (A : FlArith) (tE tL : SumTree) (t1 : ℕ → SumTree) (t2 : ℕ × ℕ → SumTree) (N : ℕ) (X : Data)
    (dlamda : List Fl) : Py (List Fl) :=
  let dE := X.map (isingCalcERowFl A tE dlamda)
  match fastLseFl A tL (dE.map neg) none with
  | .error e => .error e
  | .ok z =>
    let zf := A.div (.num (dE.length : ℝ)) (A.exp z.1)
    let w := dE.map fun e => A.div (A.exp (neg e)) (.num (dE.length : ℝ))
    if ¬ entriesOk X then .error .assertion
    else
      let pred := (((List.range N).map fun j => meanFl A (t1 j) X w j) ++
        (Spec.upperPairs N).map fun p => corrFl A (t2 p) X w p).map fun v => A.mul v zf
      if (∃ v ∈ pred, lt v (.num (-1.00000001)) = true) ∨ (∃ v ∈ pred, lt (.num 1.000000001) v = true) then .error .assertion
      else .ok pred

end Verif.Model
