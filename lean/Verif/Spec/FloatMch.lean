/-
The average that reweighting predicts and a scale of its rounding errors.
-/
import Verif.Spec.FloatPseudo
import Verif.Spec.FloatAcc

namespace Verif.Spec
open Verif Verif.Model

/-- A scale of errors of the predictions from a sample of `S` states with `k` parameters if energies are not larger than `B`. -/
def mchScale (S k : ℕ) (B : ℝ) : ℝ := 4 * (S ^ 2 + 7 * S + B) + 12 * S + 23 + 4 * ((B + 1) * k)

/-- The average of `o` over the sample `X` if every state has the weight `exp (-E)`, where `E` is its energy for the changes `θ` of
the fields and couplings. -/
noncomputable def expAverage (n : ℕ) (θ : List ℝ) (X : List (List ℤ)) (o : List ℤ → ℝ) : ℝ :=
  (X.map fun s => o s * Real.exp (-isingVecE n (θ.take n) (θ.drop n) (spins s))).sum /
    (X.map fun s => Real.exp (-isingVecE n (θ.take n) (θ.drop n) (spins s))).sum

end Verif.Spec
