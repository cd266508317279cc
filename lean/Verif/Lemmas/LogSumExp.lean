/-
Lemmas on `fast_logsumexp`.
-/
import Verif.Model.Enumerate
import Verif.Lemmas.Sums
import Verif.Lemmas.Boltzmann

namespace Verif.Lemmas
open Verif Verif.Model Verif.Spec

theorem zipWith_exp_sum (X c : List ℝ) (mx : ℝ) :
    (List.zipWith (· * ·) (X.map fun v => Real.exp (v - mx)) c).sum =
      (List.zipWith (fun x c => c * Real.exp x) X c).sum * Real.exp (-mx) := by
  induction X generalizing c with
  | nil => simp
  | cons x X ih =>
    cases c with
    | nil => simp
    | cons c cs =>
      simp only [List.map_cons, List.zipWith_cons_cons, List.sum_cons, ih, add_mul]
      rw [sub_eq_add_neg, Real.exp_add]; ring

theorem map_exp_sum (X : List ℝ) (mx : ℝ) :
    (X.map fun v => Real.exp (v - mx)).sum = (X.map Real.exp).sum * Real.exp (-mx) := by
  induction X with
  | nil => simp
  | cons x X ih =>
    simp only [List.map_cons, List.sum_cons, ih, add_mul]
    rw [sub_eq_add_neg, Real.exp_add]

theorem finish (s mx : ℝ) :
    ∃ m sgn, (if s * Real.exp (-mx) < 0 then .ok (some (Real.log |s * Real.exp (-mx)| + mx), -1)
      else if s * Real.exp (-mx) = 0 then .ok (none, 1)
      else .ok (some (Real.log (s * Real.exp (-mx)) + mx), 1) : Py (LogVal × ℝ)) = .ok (m, sgn) ∧
      (∀ v, m = some v → sgn * Real.exp v = s) ∧ (m = none ↔ s = 0) ∧
      (sgn = -1 ↔ s < 0) ∧ (sgn = 1 ↔ 0 ≤ s) := by
  have he := Real.exp_pos (-mx)
  have hlt : s * Real.exp (-mx) < 0 ↔ s < 0 := by
    constructor
    · intro h; by_contra h'; push Not at h'; nlinarith [mul_nonneg h' he.le]
    · intro h; nlinarith
  have hz : s * Real.exp (-mx) = 0 ↔ s = 0 := by simp [he.ne']
  rcases lt_trichotomy s 0 with h | h | h
  · rw [if_pos (hlt.2 h)]
    refine ⟨_, _, rfl, ?_, by simp [h.ne], by simp [h], ?_⟩
    · rintro v hv
      have hv := (Option.some.inj hv).symm
      rw [hv, Real.exp_add, Real.exp_log (abs_pos.2 (by rw [Ne, hz]; exact h.ne)),
        abs_of_neg (hlt.2 h), Real.exp_neg]
      field_simp
    · constructor
      · intro h0; norm_num at h0
      · intro h0; exact absurd h0 (not_le.2 h)
  · rw [if_neg (by rw [hlt]; exact h.not_lt), if_pos (hz.2 h)]
    refine ⟨_, _, rfl, by simp, by simp [h], ?_, by simp [h]⟩
    constructor
    · intro h0; norm_num at h0
    · intro h0; exact absurd h0 h.not_lt
  · rw [if_neg (by rw [hlt]; exact h.not_gt), if_neg (by rw [hz]; exact h.ne')]
    refine ⟨_, _, rfl, ?_, by simp [h.ne'], ?_, by simp [h.le]⟩
    · rintro v hv
      have hv := (Option.some.inj hv).symm
      rw [hv, Real.exp_add, Real.exp_log (mul_pos h he), Real.exp_neg]
      field_simp
    · constructor
      · intro h0; norm_num at h0
      · intro h0; exact absurd h0 h.not_gt

theorem fastLogSumExp_coeffs (X c : List ℝ) (hX : X ≠ []) (hc : c.length = X.length) :
    ∃ m sgn, fastLogSumExp X (some c) = .ok (m, sgn) ∧
      (∀ v, m = some v → sgn * Real.exp v = (List.zipWith (fun x c => c * Real.exp x) X c).sum) ∧
      (m = none ↔ (List.zipWith (fun x c => c * Real.exp x) X c).sum = 0) ∧
      (sgn = -1 ↔ (List.zipWith (fun x c => c * Real.exp x) X c).sum < 0) ∧
      (sgn = 1 ↔ 0 ≤ (List.zipWith (fun x c => c * Real.exp x) X c).sum) := by
  obtain ⟨x, xs, rfl⟩ : ∃ x xs, X = x :: xs := List.exists_cons_of_ne_nil hX
  have h := finish (List.zipWith (fun x c => c * Real.exp x) (x :: xs) c).sum (xs.foldl max x)
  rw [← zipWith_exp_sum] at h
  obtain ⟨m, sgn, h1, h2⟩ := h
  refine ⟨m, sgn, ?_, h2⟩
  rw [← h1]
  unfold fastLogSumExp
  simp only [hc, if_true]

theorem fastLogSumExp_none (X : List ℝ) (hX : X ≠ []) :
    fastLogSumExp X none = .ok (some (Real.log (X.map Real.exp).sum), 1) := by
  obtain ⟨x, xs, rfl⟩ : ∃ x xs, X = x :: xs := List.exists_cons_of_ne_nil hX
  have hpos : 0 < ((x :: xs).map Real.exp).sum := by
    apply List.sum_pos
    · intro y hy
      obtain ⟨z, -, rfl⟩ := List.mem_map.1 hy
      exact Real.exp_pos z
    · simp
  have h := finish ((x :: xs).map Real.exp).sum (xs.foldl max x)
  rw [← map_exp_sum] at h
  obtain ⟨m, sgn, h1, h2, h3, h4, h5⟩ := h
  have hs : sgn = 1 := h5.2 hpos.le
  have hm : m = some (Real.log ((x :: xs).map Real.exp).sum) := by
    rcases m with _ | v
    · exact absurd (h3.1 rfl) hpos.ne'
    · have := h2 v rfl
      rw [hs, one_mul] at this
      rw [← this, Real.log_exp]
  rw [← hs, ← hm, ← h1]
  rfl

/-- What the generated `calc_observables` makes of it. -/
theorem expLog_ratio (X c : List ℝ) (hX : X ≠ []) (hc : c.length = X.length) (z : ℝ) :
    ∃ num, fastLogSumExp X (some c) = .ok num ∧ expLog (subLog num.1 z) * num.2 =
      (List.zipWith (fun x c => c * Real.exp x) X c).sum / Real.exp z := by
  obtain ⟨m, sgn, h1, h2, h3, -, -⟩ := fastLogSumExp_coeffs X c hX hc
  refine ⟨(m, sgn), h1, ?_⟩
  rcases m with _ | v
  · rw [h3.1 rfl]; simp [subLog, expLog]
  · rw [← h2 v rfl]
    simp only [subLog, Option.map_some, expLog]
    rw [Real.exp_sub]; ring

end Verif.Lemmas
