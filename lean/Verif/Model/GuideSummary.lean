/-
The summary of a fit in the usage guide (ipynb/usage_guide.py).
-/
import Verif.Model.PseudoObj

namespace Verif.Model
open Verif

/-- ipynb/usage_guide.py:92-96, 364-368 `np.linalg.norm(a - b)`; the arrays are broadcast against each other. -/
noncomputable def errorNorm (a b : List ℝ) : Py ℝ :=
  match broadcast2 (· - ·) a b with
  | .error e => .error e
  | .ok d => .ok (Real.sqrt (d.map fun x => x * x).sum)

/-- ipynb/usage_guide.py:98-100, 370-372 `summarize(solver)`: the two numbers that are printed. `m` is `solver.model`, `v` is
`solver.multipliers`, `sisj` and `hJ` are the global arrays. -/
noncomputable def summarize (brk : ℕ → Bool) (m : ModelObj) (sisj hJ v : List ℝ) : Py (ℝ × ℝ) :=
  match m.calcObservables brk (some v) with
  | .error e => .error e
  | .ok o => match errorNorm sisj o with
    | .error e => .error e
    | .ok a => match errorNorm hJ v with
      | .error e => .error e
      | .ok b => .ok (a, b)

/-- The values of an array without NaN. -/
def noNan (l : List (Option ℝ)) : Py (List ℝ) :=
  match l.mapM id with
  | none => .error .valueError
  | some a => .ok a

/-- ipynb/usage_guide.py:89, 98-100: `sisj = pair_corr(sample, concat=True)` and the summary of a fit of a pairwise model.
`pair_corr` makes no NaN here, so `noNan` does not raise; this is part of C124. -/
noncomputable def pairSummary (brk : ℕ → Bool) (n : ℕ) (sample : Data) (m : ModelObj) (hJ v : List ℝ) : Py (ℝ × ℝ) :=
  match pairCorrConcat n sample (.none : Weights ℝ) false false false with
  | .error e => .error e
  | .ok l => match noNan l with
    | .error e => .error e
    | .ok sisj => summarize brk m sisj hJ v

/-- ipynb/usage_guide.py:361, 370-372: `sisj = calc_observables(sample).mean(0)` with the function of the triplet helpers, and
the summary. -/
noncomputable def tripletSummary (brk : ℕ → Bool) (n : ℕ) (sample : Data) (m : ModelObj) (hJK v : List ℝ) : Py (ℝ × ℝ) :=
  match ObsArg.means .triplet n sample with
  | .error e => .error e
  | .ok sisj => summarize brk m sisj hJK v

end Verif.Model
