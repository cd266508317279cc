/-
coniii/solvers.py: `MCH.estimate_jac`.
-/
import Verif.Model.MchProg

namespace Verif.Model
open Verif

/-- `(a - b)/(2*eps)`; a division by zero gives nan or infinite entries, `none` here. -/
noncomputable def centralDiff (eps a b : ℝ) : Option ℝ := if eps = 0 then none else some ((a - b) / (2 * eps))

/-- Value of `jac[i,:] = row` for a row of `k` columns. -/
def rowInto (k : ℕ) (row : List (Option ℝ)) : Py (List (Option ℝ)) :=
  if row.length = k then .ok row
  else match row with
    | [x] => .ok (List.replicate k x)
    | _ => .error .valueError

/-- solvers.py:967-974 one round of the loop with the vector `dlamda` that is changed in place: the row and `dlamda` after
the round. -/
noncomputable def jacRound (approx : List ℝ → Py (List ℝ)) (k : ℕ) (eps : ℝ) (i : ℕ) (d : List ℝ) :
    Py (List (Option ℝ) × List ℝ) :=
  let d1 := d.set i (d.getD i 0 + eps)
  match approx d1 with
  | .error e => .error e
  | .ok plus =>
    let d2 := d1.set i (d1.getD i 0 - 2 * eps)
    match approx d2 with
    | .error e => .error e
    | .ok minus => match broadcast2 (fun a b => a - b) plus minus with
      | .error e => .error e
      | .ok _ => match rowInto k (List.zipWith (centralDiff eps) plus minus) with
        | .error e => .error e
        | .ok row => .ok (row, d2.set i (d2.getD i 0 + eps))

/-- The loop of `estimate_jac` over the indices `ix`. -/
noncomputable def jacLoop (approx : List ℝ → Py (List ℝ)) (k : ℕ) (eps : ℝ) : List ℕ → List ℝ → Py (List (List (Option ℝ)))
  | [], _ => .ok []
  | i :: ix, d => match jacRound approx k eps i d with
    | .error e => .error e
    | .ok (row, d) => match jacLoop approx k eps ix d with
      | .error e => .error e
      | .ok rows => .ok (row :: rows)

/-- solvers.py:949-975 `MCH.estimate_jac(eps)` with `self.model` and `self._multipliers`; the latter is there after a call of
`solve`. -/
noncomputable def estimateJac (o : ModelObj) (mult : Option (List ℝ)) (eps : ℝ) : Py (List (List (Option ℝ))) :=
  match mult with
  | none => .error .attributeError
  | some v => jacLoop (mchApprox o) v.length eps (List.range v.length) (List.replicate v.length 0)

end Verif.Model
