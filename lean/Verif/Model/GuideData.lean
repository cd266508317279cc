/-
The data set of the usage guide (ipynb/usage_guide.py): states drawn from the exact distribution of a model.
-/
import Verif.Model.Rand
import Verif.Model.States
import Verif.Model.Enumerate

namespace Verif.Model
open Verif

/-- `np.cumsum(p)`, with `a` as the sum so far. -/
def cumSum (a : ℝ) : List ℝ → List ℝ
  | [] => []
  | x :: p => (a + x) :: cumSum (a + x) p

open scoped Classical in
/-- `cdf.searchsorted(u, side='right')` for an array in increasing order: the number of entries that are not larger. -/
noncomputable def searchRight (cdf : List ℝ) (u : ℝ) : ℕ := cdf.countP fun c => decide (c ≤ u)

/-- numpy's `np.random.choice(range(m), size=size, replace=True, p=p)`: probabilities of the wrong number, negative ones and
those whose sum is not 1 (up to the square root of the machine precision) are refused; then `size` numbers from `[0, 1)` are
drawn and looked up in the cumulative distribution. -/
noncomputable def npChoice (m size : ℕ) (p : List ℝ) : Prog (List ℕ) :=
  open scoped Classical in
  if m = 0 ∧ size ≠ 0 then .fail .valueError
  else if p.length ≠ m then .fail .valueError
  else if ∃ x ∈ p, x < 0 then .fail .valueError
  else if |p.sum - 1| > (1 / 2) ^ 26 then .fail .valueError
  else (Prog.mapEach (fun _ => Prog.rand01) (List.range size)).bind fun us =>
    .ret (us.map (searchRight ((cumSum 0 p).map fun c => c / p.sum)))

/-- ipynb/usage_guide.py:84-88, 356-360 `allstates = bin_states(n, True)` and
`sample = allstates[np.random.choice(range(2**n), size=size, replace=True, p=p)]`. An index beyond the array raises. -/
noncomputable def guideSample (n size : ℕ) (p : List ℝ) : Prog (List (List ℤ)) :=
  (Prog.ofPy (binStates n true)).bind fun states => (npChoice (2 ^ n) size p).bind fun ix =>
    if ∀ i ∈ ix, i < states.length then .ret (ix.map fun i => states.getD i []) else .fail .indexError

/-- ipynb/usage_guide.py:81, 84-88, 353, 356-360 the recipe: `p = ising.p(params)` with the equation module `e`, then the
sample. -/
noncomputable def guideData (e : Eqns) (n size : ℕ) (params : List ℝ) : Prog (List (List ℤ)) :=
  (Prog.ofPy (moduleP e params)).bind fun p => guideSample n size p

end Verif.Model
