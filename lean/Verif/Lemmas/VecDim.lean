import Verif.Lemmas.Convert
import Mathlib.Tactic.Linarith

namespace Verif.Lemmas
open Verif Verif.Model Verif.Spec Finset

theorem two_mul_tri (n : ℕ) : 2 * (n * (n - 1) / 2) = n * (n - 1) := by
  rcases n with _ | e
  · rfl
  · exact Nat.mul_div_cancel' (by simpa [mul_comm] using (Nat.even_mul_succ_self e).two_dvd)

theorem mul_pred_add (n : ℕ) : n * (n - 1) + n = n * n := by
  rcases n with _ | e
  · rfl
  · simp; ring

/-- `vec2mat` computes the largest `n` whose parameter count fits. -/
theorem vecDim_spec (m : ℕ) :
    vecDim m * (vecDim m + 1) ≤ 2 * m ∧ 2 * m < (vecDim m + 1) * (vecDim m + 2) := by
  unfold vecDim
  set q := Nat.sqrt (1 + 8 * m) with hq
  have h1 : q * q ≤ 1 + 8 * m := Nat.sqrt_le (1 + 8 * m)
  have h2 : 1 + 8 * m < (q + 1) * (q + 1) := Nat.lt_succ_sqrt (1 + 8 * m)
  have hq1 : 1 ≤ q := by
    rw [hq]; exact Nat.sqrt_pos.2 (by omega)
  set d := (q - 1) / 2 with hd
  have h3 : 2 * d + 1 ≤ q := by omega
  have h4 : q ≤ 2 * d + 2 := by omega
  constructor
  · nlinarith
  · nlinarith

theorem vecDim_unique {m d : ℕ} (h1 : d * (d + 1) ≤ 2 * m) (h2 : 2 * m < (d + 1) * (d + 2)) :
    vecDim m = d := by
  obtain ⟨h3, h4⟩ := vecDim_spec m
  rcases lt_trichotomy (vecDim m) d with h | h | h
  · have : (vecDim m + 1) * (vecDim m + 2) ≤ d * (d + 1) :=
      Nat.mul_le_mul (by omega) (by omega)
    omega
  · exact h
  · have : (d + 1) * (d + 2) ≤ vecDim m * (vecDim m + 1) :=
      Nat.mul_le_mul (by omega) (by omega)
    omega

theorem vecDim_eq (n : ℕ) : vecDim (n + n * (n - 1) / 2) = n := by
  have h := two_mul_tri n
  have h' := mul_pred_add n
  generalize n * (n - 1) / 2 = t at *
  apply vecDim_unique <;> nlinarith

theorem vecDim_eq' (n : ℕ) (hn : 1 ≤ n) : vecDim (n + (n + 1) * n / 2) = n := by
  have h : 2 * ((n + 1) * n / 2) = (n + 1) * n := two_mul_tri (n + 1)
  generalize (n + 1) * n / 2 = t at *
  apply vecDim_unique <;> nlinarith

end Verif.Lemmas
