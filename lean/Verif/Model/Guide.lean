/-
Functions that the usage guide (ipynb/usage_guide.py) defines and hands to the solvers.
-/
import Verif.Model.Helpers
import Verif.Model.MchSolve
import Mathlib.Analysis.SpecialFunctions.Log.Basic

namespace Verif.Model
open Verif

/-- ipynb/usage_guide.py:417 `len(dE) / np.exp(logsumexp(-dE))`. -/
noncomputable def guideFraction (dE : List ℝ) : ℝ :=
  dE.length / Real.exp (Real.log (dE.map fun e => Real.exp (-e)).sum)

/-- ipynb/usage_guide.py:418 `(calc_observables(samples)*np.exp(-dE)[:,None]).mean(0) * ZFraction`, `N` columns. -/
noncomputable def guideMeans (N : ℕ) (obs : List (List ℝ)) (dE : List ℝ) : List ℝ :=
  (List.range N).map fun a =>
    (List.zipWith (fun (o : List ℝ) (e : ℝ) => o.getD a 0 * Real.exp (-e)) obs dE).sum / dE.length * guideFraction dE

open scoped Classical in
/-- ipynb/usage_guide.py:414-422 `mch_approximation(samples, dlamda)` for triplet interactions, over the reals, for samples
of `n` columns. `logsumexp` of no numbers raises. -/
noncomputable def guideApprox (n : ℕ) (samples : Data) (dlamda : List ℝ) : Py (List ℝ) :=
  match samples.mapM fun s => tripletObservables (K := ℝ) s with
  | .error e => .error e
  | .ok obs => match obs.mapM fun o => npDot o dlamda with
    | .error e => .error e
    | .ok dE =>
      if dE.length = 0 then .error .valueError
      else
        let pred := guideMeans (n + n * (n - 1) / 2 + n * (n - 1) * (n - 2) / 6) obs dE
        if (∃ x ∈ pred, x < -1.00000001) ∨ (∃ x ∈ pred, x > 1.000000001) then .error .assertion
        else .ok pred

/-- ipynb/usage_guide.py:268-277, 425-434 `learn_settings(i)` with `scale = 1`; 545-554 (Potts model) with
`scale = 1/2`: no sample size is returned. -/
noncomputable def guideSettings (scale : ℝ) (i : ℕ) : LearnKw × Option ℕ :=
  (⟨some (Real.exp (-i / 5) * scale), none, none, some (Real.exp (-i / 5) * scale)⟩, none)

end Verif.Model
