/-
coniii/solvers.py: the pseudolikelihood of the Potts model in floating-point arithmetic.
-/
import Verif.Model.FloatPseudo
import Verif.Model.Pseudo

namespace Verif.Model
open Verif FlArith

open scoped Classical in
/-- `a / b`. (The sign of an infinite result for `b = 0` is left out: zeros are not told apart.) -/
noncomputable def FlArith.div (A : FlArith) : Fl → Fl → Fl
  | .num a, .num b => if b = 0 then (if a = 0 then .nan else .inf (decide (a < 0))) else A.round (a / b)
  | .nan, _ => .nan
  | _, .nan => .nan
  | .inf _, .inf _ => .nan
  | .inf s, .num b => .inf (s != decide (b < 0))
  | .num _, .inf _ => .num 0

/-- solvers.py:1918-1919 `-logsumexp(-Edelta)` of one row, with the constant column. The function of scipy subtracts the largest
number, adds the exponentials (in the order `t`), takes the logarithm and adds the largest number again, as `fast_logsumexp`
does. -/
noncomputable def pottsRowLLFl (A : FlArith) (t : SumTree) (ed : List Fl) : Py Fl :=
  match fastLseFl A t ((ed ++ [Fl.num 0]).map neg) none with
  | .error e => .error e
  | .ok z => .ok (neg z.1)

/-- solvers.py:1932-1941 and 1945-1958 `num/den` of one row: `sgn` takes the other state. -/
noncomputable def pottsNumDenFl (A : FlArith) (ll : Fl) (ed : List Fl) (states : List ℕ) (sgn : ℤ → ℝ) : Fl :=
  A.div ((List.zipWith (fun e (b : ℕ) => A.mul (.num (sgn (b : ℤ))) (A.exp (neg e))) ed states).foldl A.add (.num 0))
    (neg (A.exp (neg ll)))

/-- solvers.py:1916-1958 what one row contributes: log-likelihood, and derivatives with respect to the `k` fields and the
couplings; `x` is the state of the spin, `xs` are those of the others, `ed` is `Edelta`, `states` are the other states. -/
noncomputable def pottsRowFl (A : FlArith) (t : SumTree) (k : ℕ) (x : ℤ) (xs : List ℤ) (ed : List Fl) (states : List ℕ) :
    Py (Fl × List Fl) :=
  match pottsRowLLFl A t ed with
  | .error e => .error e
  | .ok ll => .ok (ll, ((List.range k).map fun hix : ℕ => pottsNumDenFl A ll ed states (fieldSgn x (hix : ℤ))) ++
      xs.map fun xj => pottsNumDenFl A ll ed states (couplingSgn x xj))

end Verif.Model
