/-
coniii/solvers.py: the conditional log-likelihood of `Pseudo` in floating-point arithmetic.
-/
import Verif.Model.FloatLse

namespace Verif.Model
open Verif FlArith

open scoped Classical in
/-- `1/a`. (The sign of an infinite result for `a = 0` is left out: zeros are not told apart.) -/
noncomputable def FlArith.recip (A : FlArith) : Fl → Fl
  | .num y => if y = 0 then .inf false else A.round (1 / y)
  | .inf _ => .num 0
  | .nan => .nan

/-- `obs[r].dot(multipliers)` for one row; `t` is the order in which the products are added. (numpy may compute `a + b * c` with
one rounding. For observables -1, 0 and 1 this makes no difference.) -/
noncomputable def flDot (A : FlArith) (t : SumTree) (o m : List Fl) : Py Fl :=
  if o.length = m.length then .ok (A.treeSum (List.zipWith A.mul o m) t) else .error .valueError

/-- solvers.py:1777 and 1844 `1/(1+np.exp(2*E)) * np.exp(2*E)` for one row. -/
noncomputable def condProbFl (A : FlArith) (e : Fl) : Fl :=
  A.mul (A.recip (A.add (.num 1) (A.exp (A.mul (.num 2) e)))) (A.exp (A.mul (.num 2) e))

/-- solvers.py:1776 and 1843 `np.log( 1+np.exp(2*E) )` for one row. -/
noncomputable def condLogFl (A : FlArith) (e : Fl) : Fl :=
  A.log (A.add (.num 1) (A.exp (A.mul (.num 2) e)))

/-- solvers.py:1775-1777 and 1842-1846: `loglikelihood` and `dloglikelihood` for the observables `obs` of the rows of the sample
(`n` columns) and the parameters `m` of one spin. The orders of summation are arguments: `td` for the products of one row, `tl`
for the logarithms, `tg a` for column `a` of the gradient. -/
noncomputable def isingCondTermFl (A : FlArith) (td : List Fl → SumTree) (tl : SumTree) (tg : ℕ → SumTree) (n : ℕ)
    (obs : List (List Fl)) (m : List Fl) : Py (Fl × List Fl) :=
  match obs.mapM fun o => flDot A (td o) o m with
  | .error e => .error e
  | .ok D =>
    let E := D.map neg
    .ok (neg (A.treeSum (E.map (condLogFl A)) tl),
      (List.range n).map fun a => A.treeSum (List.zipWith (fun e (o : List Fl) =>
        A.mul (A.mul (neg (condProbFl A e)) (.num 2)) (o.getD a (.num 0))) E obs) (tg a))

end Verif.Model
