import Verif.Model.Matrix
import Verif.Lemmas.Index
import Verif.Lemmas.Sums
import Verif.Spec.Energy
import Mathlib.Tactic.Ring
import Mathlib.Tactic.FieldSimp
import Mathlib.Tactic.LinearCombination
import Mathlib.Algebra.CharZero.Defs
import Mathlib.Algebra.Order.BigOperators.Group.Finset

namespace Verif.Lemmas
open Verif Verif.Model Verif.Spec Finset

variable {K : Type*}

theorem triDim_eq (d : ℕ) (hd : 2 ≤ d) : triDim (d * (d - 1) / 2) = some d := by
  have heven : 2 ∣ d * (d - 1) := by
    obtain ⟨e, rfl⟩ : ∃ e, d = e + 1 := ⟨d - 1, by omega⟩
    simpa [mul_comm] using (Nat.even_mul_succ_self e).two_dvd
  have h2 : 2 * (d * (d - 1) / 2) = d * (d - 1) := Nat.mul_div_cancel' heven
  unfold triDim
  rw [h2, List.find?_range_eq_some]
  have hle : d ≤ d * (d - 1) / 2 + 1 := by
    have : d * (d - 1) = d * d - d := by rw [Nat.mul_sub, mul_one]
    have : 2 * d ≤ d * (d - 1) + 2 := by
      obtain ⟨e, rfl⟩ : ∃ e, d = e + 2 := ⟨d - 2, by omega⟩
      have : (e + 2) * (e + 2 - 1) = (e + 2) * (e + 1) := by norm_num
      rw [this]; nlinarith
    omega
  refine ⟨by simp, by simp; omega, ?_⟩
  intro j hj
  simp only [Bool.not_eq_true', decide_eq_false_iff_not]
  intro heq
  have : j * (j - 1) < d * (d - 1) :=
    calc j * (j - 1) ≤ j * (d - 1) := Nat.mul_le_mul_left _ (by omega)
      _ < d * (d - 1) := Nat.mul_lt_mul_of_pos_right hj (by omega)
  omega

theorem triDim_some {m d : ℕ} (h : triDim m = some d) : d * (d - 1) = 2 * m := by
  have := List.find?_some h
  simpa using this

/-- The matrix made by `squareform` from the couplings of an `n`-spin system, `n ≥ 1`. -/
theorem squareformVec_eq [Zero K] (n : ℕ) (hn : 1 ≤ n) (v : List K)
    (hv : v.length = n * (n - 1) / 2) :
    squareformVec v = .ok (Mat.build n n fun i j =>
      if i = j then 0 else v.getD ((upperPairs n).idxOf (min i j, max i j)) 0) := by
  unfold squareformVec
  rcases Nat.lt_or_ge n 2 with h | h
  · have : n = 1 := by omega
    subst this
    rw [if_pos (by simpa using hv)]
    rfl
  · have hpos : v.length ≠ 0 := by
      rw [hv]
      obtain ⟨e, rfl⟩ : ∃ e, n = e + 2 := ⟨n - 2, by omega⟩
      have : (e + 2) * (e + 2 - 1) = (e + 2) * (e + 1) := by norm_num
      rw [this]
      have : 2 ≤ (e + 2) * (e + 1) := by nlinarith
      omega
    rw [if_neg hpos, hv, triDim_eq n h]

theorem idxOf_lt {n i j : ℕ} (hij : i < j) (hj : j < n) :
    (upperPairs n).idxOf (i, j) < n * (n - 1) / 2 := by
  rw [← length_upperPairs]
  exact List.idxOf_lt_length_of_mem (mem_upperPairs.2 ⟨hij, hj⟩)

theorem upperPairs_map_coupling [Zero K] (n : ℕ) (v : List K) (hv : v.length = n * (n - 1) / 2) :
    (upperPairs n).map (fun p => v.getD ((upperPairs n).idxOf (p.1, p.2)) 0) = v := by
  apply List.ext_getElem
  · rw [List.length_map, length_upperPairs, hv]
  · intro k h1 h2
    rw [List.getElem_map]
    have hk : k < (upperPairs n).length := by simpa using h1
    have : (upperPairs n).idxOf ((upperPairs n)[k].1, (upperPairs n)[k].2) = k :=
      List.Nodup.idxOf_getElem (nodup_upperPairs n) k hk
    rw [this, List.getD_eq_getElem _ _ h2]

/-- Sum over the row-major pair list as a double sum. -/
theorem sum_upperPairs [AddCommMonoid K] (n : ℕ) (f : ℕ → ℕ → K) :
    ((upperPairs n).map fun p => f p.1 p.2).sum =
      ∑ i ∈ range n, ∑ j ∈ range n, if i < j then f i j else 0 := by
  have h1 : ∀ (l : List (ℕ × ℕ)), ((l.filter fun p => decide (p.1 < p.2)).map
      fun p => f p.1 p.2).sum = (l.map fun p => if p.1 < p.2 then f p.1 p.2 else 0).sum := by
    intro l
    induction l with
    | nil => rfl
    | cons p l ih =>
      by_cases h : p.1 < p.2
      · simp [h, ih]
      · simp [h, ih]
  unfold upperPairs cells
  rw [h1]
  have h2 : (List.range n).product (List.range n) =
      (List.range n).flatMap (fun a => (List.range n).map (Prod.mk a)) := rfl
  rw [h2, List.map_flatMap]
  rw [sum_flatMap, sum_map_range]
  refine Finset.sum_congr rfl fun i _ => ?_
  rw [List.map_map, ← sum_map_range]
  rfl

end Verif.Lemmas
