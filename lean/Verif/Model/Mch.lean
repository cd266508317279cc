/-
Model of mch_approximation of the Ising and Potts helpers of coniii/utils.py.
-/
import Verif.Model.Helpers
import Mathlib.Analysis.SpecialFunctions.Log.Basic

namespace Verif.Model
open Verif

open scoped Classical in
/-- utils.py:965-974 `mch_approximation(samples, dlamda)` of the Ising helpers, over the reals.
`logsumexp` of no numbers raises; NaN entries (`none`) compare false in the range assertion. -/
noncomputable def mchIsing (N : ℕ) (samples : Data) (dlamda : List ℝ) : Py (List (Option ℝ)) :=
  let dE := isingCalcE samples dlamda
  if dE.length = 0 then .error .valueError
  else
    let ZFraction : ℝ := dE.length / Real.exp (Real.log (dE.map fun e => Real.exp (-e)).sum)
    match pairCorrConcat N samples (.array (dE.map fun e => Real.exp (-e) / dE.length))
        false false false with
    | .error e => .error e
    | .ok c =>
      let pred := c.map fun v => v.map (· * ZFraction)
      if (∃ v ∈ pred, ∃ x, v = some x ∧ x < -1.00000001) ∨
          (∃ v ∈ pred, ∃ x, v = some x ∧ x > 1.000000001) then .error .assertion
      else .ok pred

open scoped Classical in
/-- utils.py:1190-1209 `mch_approximation(sample, dlamda)` of the Potts helpers, over the reals; the
number of columns of the result is that of `calc_observables`. -/
noncomputable def mchPotts (k N : ℕ) (sample : Data) (dlamda : List ℝ) : Py (List ℝ) :=
  match sample.mapM fun s => pottsCalcERow k s dlamda with
  | .error e => .error e
  | .ok dE =>
    if dE.length = 0 then .error .valueError
    else
      let ZFraction : ℝ := dE.length / Real.exp (Real.log (dE.map fun e => Real.exp (-e)).sum)
      match sample.mapM fun s => pottsObservables (K := ℝ) k s with
      | .error e => .error e
      | .ok obs =>
        let pred := (List.range (N * k + N * (N - 1) / 2)).map fun a =>
          (List.zipWith (fun (e : ℝ) (o : List ℝ) => Real.exp (-e) / dE.length * o.getD a 0) dE obs).sum
            * ZFraction
        if (∃ x ∈ pred, x < 0) ∨ (∃ x ∈ pred, x > 1 + 1e-10) then .error .assertion
        else .ok pred

end Verif.Model
