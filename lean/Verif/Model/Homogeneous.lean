/-
Model of the functions of coniii/mean_field_ising.py for a system in which all spins have the same
field and all pairs the same coupling (auxiliary field integrals).
-/
import Verif.Basic
import Mathlib.Analysis.SpecialFunctions.Log.Basic
import Mathlib.Analysis.SpecialFunctions.Trigonometric.Basic
import Mathlib.Analysis.SpecialFunctions.Artanh

namespace Verif.Model
open Verif

/-- mean_field_ising.py:253-254 `logCosh(x)`. -/
noncomputable def logCosh (x : ℝ) : ℝ :=
  |x| + Real.log (1 + Real.exp (-2 * |x|)) - Real.log 2

/-- mean_field_ising.py:258-267 `FHomogeneous(h,J,N,m)` for Python numbers and a number of spins `N`.
Division by zero raises. For negative `J` `scipy.sqrt` gives a complex number, which `quad` does not
accept; the model raises at once. -/
noncomputable def fHomogeneous (h J : ℝ) (N : ℕ) (m : ℝ) : Py ℝ :=
  let Jbar := N * J
  if N * Jbar = 0 then .error .zeroDivision
  else if N * Jbar < 0 then .error .typeError
  else
    let s := Real.sqrt (Real.pi / (N * Jbar))
    let L := Jbar * m * m - Real.log 2 - logCosh (2 * Jbar * m + h)
    .ok (N * L + Real.log s)

/-- mean_field_ising.py:270-272 `dFdT(h,J,N,m)`. -/
noncomputable def dFdT (h J : ℝ) (N : ℕ) (m : ℝ) : ℝ :=
  let Jbar := N * J;
  (-N * Jbar * m * m + N * (2 * Jbar * m + h) * Real.tanh (2 * Jbar * m + h) + 1 / 2)

/-- mean_field_ising.py:280, 290, 300 `Zfunc`, and 283, 293, 304 its product with a factor `g`. -/
noncomputable def homInt (h J : ℝ) (N : ℕ) (g : ℝ → ℝ) (m : ℝ) : Py ℝ :=
  match fHomogeneous h J N m with
  | .error e => .error e
  | .ok F => .ok (g m * Real.exp (-F))

/-- The quotient of two integrals `quad(f)[0] / Z`; `quad` stands for `scipy.integrate.quad` from
minus to plus infinity, without its error estimate. -/
noncomputable def quadRatio (quad : (ℝ → Py ℝ) → Py ℝ) (f : ℝ → Py ℝ) (Z : ℝ) : Py ℝ :=
  match quad f with
  | .error e => .error e
  | .ok I => if Z = 0 then .error .zeroDivision else .ok (I / Z)

/-- mean_field_ising.py:275-286 `SHomogeneous(h,J,N)`. -/
noncomputable def sHomogeneous (quad : (ℝ → Py ℝ) → Py ℝ) (h J : ℝ) (N : ℕ) : Py ℝ :=
  match quad (homInt h J N fun _ => 1) with
  | .error e => .error e
  | .ok Z => match quadRatio quad (homInt h J N fun m => dFdT h J N m) Z with
    | .error e => .error e
    | .ok avg => .ok (Real.log Z - avg)

/-- mean_field_ising.py:289-296 `avgmHomogeneous(h,J,N)`. -/
noncomputable def avgmHomogeneous (quad : (ℝ → Py ℝ) → Py ℝ) (h J : ℝ) (N : ℕ) : Py ℝ :=
  match quad (homInt h J N fun _ => 1) with
  | .error e => .error e
  | .ok Z => quadRatio quad (homInt h J N fun m => m) Z

/-- mean_field_ising.py:299-307 `avgxHomogeneous(h,J,N)`. -/
noncomputable def avgxHomogeneous (quad : (ℝ → Py ℝ) → Py ℝ) (h J : ℝ) (N : ℕ) : Py ℝ :=
  match quad (homInt h J N fun _ => 1) with
  | .error e => .error e
  | .ok Z => quadRatio quad (homInt h J N fun m => Real.tanh (2 * (N * J) * m + h)) Z

/-- mean_field_ising.py:316-320 `independentEntropyHomogeneous(h,J,N)`; `scipy.log` of a number that is
not positive is not a number the caller can use: the model raises. -/
noncomputable def independentEntropyHomogeneous (quad : (ℝ → Py ℝ) → Py ℝ) (h J : ℝ) (N : ℕ) :
    Py ℝ :=
  match avgxHomogeneous quad h J N with
  | .error e => .error e
  | .ok x =>
    if (1 + x) / 2 ≤ 0 ∨ (1 - x) / 2 ≤ 0 then .error .valueError
    else
      let S1 := -((1 + x) / 2) * Real.log ((1 + x) / 2) - (1 - x) / 2 * Real.log ((1 - x) / 2)
      .ok (N * S1)

/-- mean_field_ising.py:323-326 `independentEntropyHomogeneous2(h,J,N)`; `scipy.arctanh` outside of
(-1,1) likewise raises. -/
noncomputable def independentEntropyHomogeneous2 (quad : (ℝ → Py ℝ) → Py ℝ) (h J : ℝ) (N : ℕ) :
    Py ℝ :=
  match avgxHomogeneous quad h J N with
  | .error e => .error e
  | .ok x =>
    if x ≤ -1 ∨ 1 ≤ x then .error .valueError
    else
      let heff := Real.artanh x
      .ok (N * (Real.log 2 + Real.log (Real.cosh heff) - x * heff))

/-- mean_field_ising.py:310-313 `multiInfoHomogeneous(h,J,N)`. -/
noncomputable def multiInfoHomogeneous (quad : (ℝ → Py ℝ) → Py ℝ) (h J : ℝ) (N : ℕ) : Py ℝ :=
  match independentEntropyHomogeneous quad h J N with
  | .error e => .error e
  | .ok Sind => match sHomogeneous quad h J N with
    | .error e => .error e
    | .ok S => .ok (Sind - S)

end Verif.Model
