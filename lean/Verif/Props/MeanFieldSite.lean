/-
C95, C96, C97: single-site mean field, stability, covariance of the co-occurrences.
-/
import Verif.Model.MeanFieldSite
import Verif.Spec.MeanFieldSite
import Verif.Lemmas.Cells
import Verif.Props.MeanField
import Mathlib.LinearAlgebra.Matrix.Charpoly.Basic
import Mathlib.Analysis.Complex.Polynomial.Basic
import Mathlib.Analysis.Calculus.MeanValue
import Mathlib.Analysis.Calculus.Deriv.Inv
import Mathlib.Analysis.SpecialFunctions.ExpDeriv

namespace Verif.Props
open Verif Verif.Model Verif.Spec Verif.Lemmas

/-! ### C95 -/

theorem activeProb_eq (u T : ℝ) : activeProb u T = 1 / (1 + Real.exp (u / T)) := by
  unfold activeProb
  rw [Real.exp_neg]
  have := Real.exp_pos (u / T)
  field_simp
  ring

theorem mfFunc_zero (h J ell T : ℝ) : mfFunc h J ell T 0 < 0 := by
  unfold mfFunc
  have := Real.exp_pos ((h + 2 * (ell - 1) * 0 * J) / T)
  have : 0 < 1 / (1 + Real.exp ((h + 2 * (ell - 1) * 0 * J) / T)) := by positivity
  linarith

theorem mfFunc_one (h J ell T : ℝ) : 0 < mfFunc h J ell T 1 := by
  unfold mfFunc
  have := Real.exp_pos ((h + 2 * (ell - 1) * 1 * J) / T)
  have : 1 / (1 + Real.exp ((h + 2 * (ell - 1) * 1 * J) / T)) < 1 := by
    rw [div_lt_one (by positivity)]
    linarith
  linarith

theorem mfFunc_continuous (h J ell T : ℝ) : Continuous (mfFunc h J ell T) := by
  unfold mfFunc
  refine continuous_id.sub (continuous_const.div ?_ fun x => by positivity)
  fun_prop

/-- C95 for every field, coupling, number of spins and temperature other than zero, `m` finds the mean
of a spin in the field of the others: the bracket handed to `brentq` is always good. -/
theorem C95_self_consistent (brentq : (ℝ → ℝ) → ℝ → ℝ → Py ℝ) (hb : BrentqOk brentq) (h J ell T : ℝ)
    (hT : T ≠ 0) : ∃ x, mfM brentq h J ell T = .ok x ∧ 0 < x ∧ x < 1 ∧
      x = activeProb (h + 2 * ((ell - 1) * J * x)) T := by
  obtain ⟨x, _, hx, h0⟩ := (hb (mfFunc h J ell T) 0 1 one_pos (mfFunc_continuous h J ell T).continuousOn).1
    (mul_nonpos_of_nonpos_of_nonneg (mfFunc_zero h J ell T).le (mfFunc_one h J ell T).le)
  have hpos := Real.exp_pos ((h + 2 * (ell - 1) * x * J) / T)
  have e : x = 1 / (1 + Real.exp ((h + 2 * (ell - 1) * x * J) / T)) := by
    unfold mfFunc at h0
    linarith
  refine ⟨x, by unfold mfM; rw [if_neg hT]; exact hx, ?_, ?_, ?_⟩
  · rw [e]; positivity
  · rw [e, div_lt_one (by positivity)]; linarith
  · rw [activeProb_eq]
    rw [show h + 2 * ((ell - 1) * J * x) = h + 2 * (ell - 1) * x * J by ring]
    exact e

theorem logistic_slope : Monotone fun u : ℝ => 1 / (1 + Real.exp u) + u / 4 := by
  have hd : ∀ u : ℝ, HasDerivAt (fun u : ℝ => 1 / (1 + Real.exp u) + u / 4)
      (-(Real.exp u) / (1 + Real.exp u) ^ 2 + 1 / 4) u := by
    intro u
    have h1 : HasDerivAt (fun u : ℝ => 1 + Real.exp u) (Real.exp u) u := by
      simpa using (Real.hasDerivAt_exp u).const_add 1
    have h2 := h1.inv (by positivity)
    have h3 := (hasDerivAt_id u).div_const 4
    have e : (fun u : ℝ => 1 / (1 + Real.exp u) + u / 4) =
        (fun u : ℝ => 1 + Real.exp u)⁻¹ + fun x : ℝ => id x / 4 := by
      funext u
      simp
    rw [e]
    exact h2.add h3
  refine monotone_of_deriv_nonneg (fun u => (hd u).differentiableAt) fun u => ?_
  rw [(hd u).deriv]
  have hp : 0 < (1 + Real.exp u) ^ 2 := by positivity
  have : Real.exp u / (1 + Real.exp u) ^ 2 ≤ 1 / 4 := by
    rw [div_le_div_iff₀ hp (by norm_num)]
    nlinarith [sq_nonneg (1 - Real.exp u)]
  rw [neg_div]
  linarith

/-- C95 there is only one such mean if the coupling is not too attractive; then the value does not depend
on how `brentq` works. -/
theorem C95_unique (h J ell T x y : ℝ) (hk : -2 < (ell - 1) * J / T)
    (hx : x = activeProb (h + 2 * ((ell - 1) * J * x)) T)
    (hy : y = activeProb (h + 2 * ((ell - 1) * J * y)) T) : x = y := by
  wlog hxy : x ≤ y generalizing x y with H
  · exact (H y x hy hx (le_of_not_ge hxy)).symm
  by_contra hne
  have hlt : x < y := lt_of_le_of_ne hxy hne
  rw [activeProb_eq] at hx hy
  obtain ⟨k, hkd⟩ : ∃ k, k = (ell - 1) * J / T := ⟨_, rfl⟩
  have ex : (h + 2 * ((ell - 1) * J * x)) / T = h / T + 2 * k * x := by rw [hkd]; ring
  have ey : (h + 2 * ((ell - 1) * J * y)) / T = h / T + 2 * k * y := by rw [hkd]; ring
  rw [ex] at hx
  rw [ey] at hy
  rw [← hkd] at hk
  rcases le_or_gt 0 k with h0 | h0
  · have : h / T + 2 * k * x ≤ h / T + 2 * k * y := by nlinarith
    have : 1 / (1 + Real.exp (h / T + 2 * k * y)) ≤ 1 / (1 + Real.exp (h / T + 2 * k * x)) := by
      apply one_div_le_one_div_of_le (by positivity)
      linarith [Real.exp_le_exp.2 this]
    linarith
  · have hle : h / T + 2 * k * y ≤ h / T + 2 * k * x := by nlinarith
    have := logistic_slope hle
    dsimp only at this
    rw [← hx, ← hy] at this
    nlinarith

/-- C95 with a strong attraction there are several self-consistent means; which one `m` returns is up to
`brentq`. -/
theorem C95_several : ∃ x y : ℝ, x ≠ y ∧ x = activeProb (4 + 2 * ((2 - 1) * (-4) * x)) 1 ∧
    y = activeProb (4 + 2 * ((2 - 1) * (-4) * y)) 1 := by
  have hq : 0 ≤ mfFunc 4 (-4) 2 1 (1 / 4) := by
    unfold mfFunc
    have h2 : (3 : ℝ) ≤ Real.exp 2 := by linarith [Real.add_one_le_exp (2 : ℝ)]
    have : 1 / (1 + Real.exp ((4 + 2 * (2 - 1) * (1 / 4) * (-4)) / 1)) ≤ (1 : ℝ) / 4 := by
      rw [show ((4 : ℝ) + 2 * (2 - 1) * (1 / 4) * (-4)) / 1 = 2 by norm_num]
      apply one_div_le_one_div_of_le (by norm_num)
      linarith
    linarith
  obtain ⟨x, hx, h0⟩ := intermediate_value_Icc (show (0 : ℝ) ≤ 1 / 4 by norm_num)
    (mfFunc_continuous 4 (-4) 2 1).continuousOn ⟨(mfFunc_zero 4 (-4) 2 1).le, hq⟩
  refine ⟨x, 1 / 2, ?_, ?_, ?_⟩
  · intro e
    rw [e] at hx
    have := hx.2
    norm_num at this
  · rw [activeProb_eq]
    unfold mfFunc at h0
    rw [show (4 : ℝ) + 2 * ((2 - 1) * (-4) * x) = 4 + 2 * (2 - 1) * x * (-4) by ring]
    linarith
  · rw [activeProb_eq, show ((4 : ℝ) + 2 * ((2 - 1) * (-4) * (1 / 2))) / 1 = 0 by norm_num, Real.exp_zero]
    norm_num

/-- C95 zero temperature raises. -/
theorem C95_zero_temperature (brentq : (ℝ → ℝ) → ℝ → ℝ → Py ℝ) (h J ell : ℝ) :
    mfM brentq h J ell 0 = .error .zeroDivision := if_pos rfl

/-- C95 `avgE` is the mean-field energy per spin only with the sign of the coupling reversed: it is right
without coupling or for a single spin, -/
theorem C95_avgE_partial (brentq : (ℝ → ℝ) → ℝ → ℝ → Py ℝ) (h J ell T x : ℝ)
    (hx : mfM brentq h J ell T = .ok x) (h0 : (ell - 1) * J = 0) :
    mfAvgE brentq h J ell T = .ok (mfEnergy h J ell x) := by
  unfold mfAvgE mfEnergy mfHloc
  rw [hx]
  dsimp only
  congr 1
  linear_combination (-2 * x ^ 2) * h0

/-- and wrong in every other case. -/
theorem C95_avgE_wrong (brentq : (ℝ → ℝ) → ℝ → ℝ → Py ℝ) (hb : BrentqOk brentq) (h J ell T : ℝ)
    (hT : T ≠ 0) (h0 : (ell - 1) * J ≠ 0) : ∃ x, mfM brentq h J ell T = .ok x ∧
      mfAvgE brentq h J ell T = .ok (mfEnergy h (-J) ell x) ∧
      mfAvgE brentq h J ell T ≠ .ok (mfEnergy h J ell x) := by
  obtain ⟨x, hx, hpos, _, _⟩ := C95_self_consistent brentq hb h J ell T hT
  have e : mfAvgE brentq h J ell T = .ok (mfEnergy h (-J) ell x) := by
    unfold mfAvgE mfEnergy mfHloc
    rw [hx]
    dsimp only
    congr 1
    ring
  refine ⟨x, hx, e, ?_⟩
  rw [e]
  intro h1
  have h2 := Except.ok.inj h1
  unfold mfEnergy at h2
  have : (ell - 1) * J * x ^ 2 = 0 := by linarith
  rcases mul_eq_zero.1 this with h | h
  · exact h0 h
  · exact hpos.ne' (pow_eq_zero_iff (by norm_num) |>.1 h)

/-- C95 `dmdT` is not the derivative of `m` with respect to the temperature: without coupling it is
minus the derivative. -/
theorem C95_dmdT_wrong (brentq : (ℝ → ℝ) → ℝ → ℝ → Py ℝ) (hb : BrentqOk brentq) (h ell T : ℝ)
    (hT : T ≠ 0) (hh : h ≠ 0) : ∃ d, d ≠ 0 ∧
      (∀ t, t ≠ 0 → mfM brentq h 0 ell t = .ok (activeProb h t)) ∧
      HasDerivAt (fun t => activeProb h t) d T ∧ mfDmdT brentq h 0 ell T = .ok (-d) := by
  have hm : ∀ t, t ≠ 0 → mfM brentq h 0 ell t = .ok (activeProb h t) := by
    intro t ht
    obtain ⟨x, hx, _, _, e⟩ := C95_self_consistent brentq hb h 0 ell t ht
    rw [hx, e]
    simp
  have hE := Real.exp_pos (h / T)
  refine ⟨h / T ^ 2 * (Real.exp (h / T) / (1 + Real.exp (h / T)) ^ 2), ?_, hm, ?_, ?_⟩
  · positivity
  · have h1 : HasDerivAt (fun t : ℝ => h / t) (-(h / T ^ 2)) T := by
      have := (hasDerivAt_inv hT).const_mul h
      simpa [div_eq_mul_inv] using this
    have h2 : HasDerivAt (fun t : ℝ => 1 + Real.exp (h / t)) (Real.exp (h / T) * -(h / T ^ 2)) T := by
      simpa using (h1.exp).const_add 1
    have h3 := h2.inv (by positivity)
    have e : (fun t => activeProb h t) = (fun t : ℝ => 1 + Real.exp (h / t))⁻¹ := by
      funext t
      simp [activeProb_eq]
    rw [e]
    refine h3.congr_deriv ?_
    field_simp
  · unfold mfDmdT mfHloc
    rw [hm T hT]
    simp only [mul_zero, zero_div, zero_mul, add_zero, zero_sub, neg_neg]
    rw [if_neg one_ne_zero]
    congr 1
    have hc : Real.cosh (h / (2 * T)) ^ 2 = (1 + Real.exp (h / T)) ^ 2 / (4 * Real.exp (h / T)) := by
      have e1 : Real.exp (h / T) = Real.exp (h / (2 * T)) ^ 2 := by
        rw [← Real.exp_nat_mul]
        congr 1
        push_cast
        field_simp
      rw [Real.cosh_eq, Real.exp_neg, e1]
      have := Real.exp_pos (h / (2 * T))
      field_simp
      ring
    rw [hc]
    field_simp

/-- Derivative of the probability of activity with respect to the field. -/
theorem hasDerivAt_activeProb (h T : ℝ) : HasDerivAt (fun u => activeProb u T)
    (-(1 / (T * (Real.exp (-(h / T)) + Real.exp (h / T) + 2)))) h := by
  have h1 : HasDerivAt (fun u : ℝ => u / T) (1 / T) h := (hasDerivAt_id h).div_const T
  have h2 : HasDerivAt (fun u : ℝ => 1 + Real.exp (u / T)) (Real.exp (h / T) * (1 / T)) h := by
    simpa using (h1.exp).const_add 1
  have hE := Real.exp_pos (h / T)
  have h3 := h2.inv (by positivity)
  have e : (fun u => activeProb u T) = (fun u : ℝ => 1 + Real.exp (u / T))⁻¹ := by
    funext t
    simp [activeProb_eq]
  rw [e]
  refine h3.congr_deriv ?_
  rw [Real.exp_neg]
  by_cases hT : T = 0
  · simp [hT]
  · field_simp
    ring

/-- C95 `susc` without coupling and at temperature one is minus the derivative of `m` with respect to the
field. Missing: any other temperature, where the claim is false (next theorem). -/
theorem C95_susc_partial (brentq : (ℝ → ℝ) → ℝ → ℝ → Py ℝ) (hb : BrentqOk brentq) (h ell : ℝ) :
    ∃ s, mfSusc brentq h 0 ell 1 = .ok s ∧
      (∀ u, mfM brentq u 0 ell 1 = .ok (activeProb u 1)) ∧ HasDerivAt (fun u => activeProb u 1) (-s) h := by
  have hm : ∀ u, mfM brentq u 0 ell 1 = .ok (activeProb u 1) := by
    intro u
    obtain ⟨x, hx, _, _, e⟩ := C95_self_consistent brentq hb u 0 ell 1 one_ne_zero
    rw [hx, e]
    simp
  refine ⟨1 / (1 * (Real.exp (-(h / 1)) + Real.exp (h / 1) + 2)), ?_, hm, hasDerivAt_activeProb h 1⟩
  unfold mfSusc mfHloc
  rw [hm]
  simp [add_comm]

/-- C95 at every other temperature `susc` is wrong, even for free spins: in the zero field it is
`1/(4T²)` instead of `1/(4T)`. -/
theorem C95_susc_wrong (brentq : (ℝ → ℝ) → ℝ → ℝ → Py ℝ) (hb : BrentqOk brentq) (ell T : ℝ) (hT : T ≠ 0)
    (h1 : T ≠ 1) : mfSusc brentq 0 0 ell T = .ok (1 / (4 * T ^ 2)) ∧
      HasDerivAt (fun u => activeProb u T) (-(1 / (4 * T))) 0 ∧ 1 / (4 * T ^ 2) ≠ 1 / (4 * T) := by
  obtain ⟨x, hx, _, _, -⟩ := C95_self_consistent brentq hb 0 0 ell T hT
  refine ⟨?_, ?_, ?_⟩
  · unfold mfSusc mfHloc
    rw [hx]
    simp only [mul_zero, sub_zero, neg_zero, Real.exp_zero]
    congr 2
    ring
  · refine (hasDerivAt_activeProb 0 T).congr_deriv ?_
    simp only [zero_div, neg_zero, Real.exp_zero]
    congr 2
    ring
  · intro h
    apply h1
    field_simp at h
    linarith

/-- C95 `specificHeat` raises for free spins, where the fluctuations of the energy are `h² p (1-p)`. -/
theorem C95_specificHeat_wrong (brentq : (ℝ → ℝ) → ℝ → ℝ → Py ℝ) (hb : BrentqOk brentq) (h ell T : ℝ)
    (hT : T ≠ 0) : mfSpecificHeat brentq h 0 ell T = .error .zeroDivision := by
  obtain ⟨x, hx, _, _, -⟩ := C95_self_consistent brentq hb h 0 ell T hT
  unfold mfSpecificHeat
  rw [hx]
  exact if_pos (Or.inr rfl)

/-- C95 and with a coupling it can be negative, as no specific heat is. -/
theorem C95_specificHeat_negative (brentq : (ℝ → ℝ) → ℝ → ℝ → Py ℝ) (hb : BrentqOk brentq) :
    ∃ h J c, 0 < J ∧ c < 0 ∧ mfSpecificHeat brentq h J 2 1 = .ok c := by
  have h3 : 0 < Real.log 3 := Real.log_pos (by norm_num)
  obtain ⟨k, hk⟩ : ∃ k, k = 8 / 7 * Real.log 3 := ⟨_, rfl⟩
  have hk0 : 0 < k := by rw [hk]; positivity
  obtain ⟨x, hx, _, _, e⟩ := C95_self_consistent brentq hb (3 / 8 * k) k 2 1 one_ne_zero
  have e' : (1 / 4 : ℝ) = activeProb (3 / 8 * k + 2 * ((2 - 1) * k * (1 / 4))) 1 := by
    rw [activeProb_eq, show (3 / 8 * k + 2 * ((2 - 1) * k * (1 / 4))) / 1 = Real.log 3 by rw [hk]; ring,
      Real.exp_log (by norm_num)]
    norm_num
  have hx' : x = 1 / 4 := C95_unique (3 / 8 * k) k 2 1 x (1 / 4) (by linarith) e e'
  refine ⟨3 / 8 * k, k, -(k ^ 2 / 64), hk0, by have := pow_pos hk0 2; linarith, ?_⟩
  unfold mfSpecificHeat mfHloc
  rw [hx]
  dsimp only
  rw [if_neg (by push Not; exact ⟨by norm_num, hk0.ne'⟩), hx']
  congr 1
  ring

/-- Root finding as assumed exists. -/
theorem exists_brentq : ∃ brentq : (ℝ → ℝ) → ℝ → ℝ → Py ℝ, BrentqOk brentq := by
  classical
  refine ⟨fun f a b => if h : ∃ x ∈ Set.Icc a b, f x = 0 ∧ f a * f b ≤ 0 then .ok h.choose
    else .error .valueError, fun f a b hab hf => ⟨fun hs => ?_, fun hs => ?_⟩⟩
  · have hex : ∃ x ∈ Set.Icc a b, f x = 0 ∧ f a * f b ≤ 0 := by
      rcases mul_nonpos_iff.1 hs with ⟨h1, h2⟩ | ⟨h1, h2⟩
      · obtain ⟨x, hx, e⟩ := intermediate_value_Icc' hab.le hf ⟨h2, h1⟩
        exact ⟨x, hx, e, hs⟩
      · obtain ⟨x, hx, e⟩ := intermediate_value_Icc hab.le hf ⟨h1, h2⟩
        exact ⟨x, hx, e, hs⟩
    exact ⟨_, hex.choose_spec.1, dif_pos hex, hex.choose_spec.2.1⟩
  · exact dif_neg fun ⟨x, _, _, h⟩ => absurd hs (not_lt.2 h)

example : ∃ brentq, BrentqOk brentq ∧ ∃ x, mfM brentq 1 (1 / 2) 10 2 = .ok x ∧ 0 < x := by
  obtain ⟨b, hb⟩ := exists_brentq
  obtain ⟨x, h1, h2, _⟩ := C95_self_consistent b hb 1 (1 / 2) 10 2 (by norm_num)
  exact ⟨b, hb, x, h1, h2⟩

/-! ### C96 -/

/-- Partial derivative of the mean-field map. -/
theorem mfMap_deriv {n : ℕ} (h : Fin n → ℝ) (J : Matrix (Fin n) (Fin n) ℝ) (m : Fin n → ℝ)
    (i j : Fin n) :
    HasDerivAt (fun x => mfMap h J (Function.update m j x) i)
      (mfMap h J m i * (1 - mfMap h J m i) * (-2 * if j = i then 0 else J i j)) (m j) := by
  obtain ⟨c, hc⟩ : ∃ c, ∀ x, h i + 2 * ∑ k, (if k = i then 0 else J i k * Function.update m j x k) =
      c + 2 * (if j = i then 0 else J i j) * x := by
    refine ⟨h i + 2 * ∑ k, (if k = i ∨ k = j then 0 else J i k * m k), fun x => ?_⟩
    have : ∑ k, (if k = i then 0 else J i k * Function.update m j x k) =
        ∑ k, ((if k = i ∨ k = j then 0 else J i k * m k) +
          if k = j then (if j = i then 0 else J i j) * x else 0) := by
      refine Finset.sum_congr rfl fun k _ => ?_
      by_cases hk : k = j
      · subst hk
        by_cases hi : k = i <;> simp [hi]
      · by_cases hi : k = i
        · subst hi
          simp [hk]
        · simp [hi, hk, Function.update_of_ne]
    rw [this, Finset.sum_add_distrib, Finset.sum_ite_eq' Finset.univ j]
    simp only [Finset.mem_univ, if_true]
    ring
  have hm : mfMap h J m i = 1 / (1 + Real.exp (c + 2 * (if j = i then 0 else J i j) * m j)) := by
    have := hc (m j)
    rw [Function.update_eq_self] at this
    unfold mfMap
    rw [this]
  have h1 : HasDerivAt (fun x : ℝ => c + 2 * (if j = i then 0 else J i j) * x)
      (2 * (if j = i then 0 else J i j)) (m j) := by
    simpa using ((hasDerivAt_id (m j)).const_mul (2 * (if j = i then 0 else J i j))).const_add c
  have h2 : HasDerivAt (fun x : ℝ => 1 + Real.exp (c + 2 * (if j = i then 0 else J i j) * x))
      (Real.exp (c + 2 * (if j = i then 0 else J i j) * m j) * (2 * (if j = i then 0 else J i j)))
      (m j) := by
    simpa using (h1.exp).const_add 1
  have h3 := h2.inv (by positivity)
  have e : (fun x => mfMap h J (Function.update m j x) i) =
      (fun x : ℝ => 1 + Real.exp (c + 2 * (if j = i then 0 else J i j) * x))⁻¹ := by
    funext x
    unfold mfMap
    rw [hc x]
    simp
  rw [e]
  refine h3.congr_deriv ?_
  rw [hm]
  have := Real.exp_pos (c + 2 * (if j = i then 0 else J i j) * m j)
  field_simp
  ring

theorem foldl_max_greatest (x : ℝ) (xs : List ℝ) :
    IsGreatest {r | r ∈ x :: xs} (xs.foldl max x) := by
  induction xs generalizing x with
  | nil => simp [IsGreatest, upperBounds]
  | cons y xs ih =>
    rw [List.foldl_cons]
    obtain ⟨h1, h2⟩ := ih (max x y)
    constructor
    · rcases List.mem_cons.1 h1 with h | h
      · rcases max_choice x y with e | e
        · rw [e] at h ⊢; simp [h]
        · rw [e] at h ⊢; simp [h]
      · simp [h]
    · intro r hr
      rcases List.mem_cons.1 hr with rfl | hr
      · exact (le_max_left _ _).trans (h2 (List.mem_cons_self ..))
      rcases List.mem_cons.1 hr with rfl | hr
      · exact (le_max_right _ _).trans (h2 (List.mem_cons_self ..))
      · exact h2 (List.mem_cons_of_mem _ hr)

theorem build_congr' {n m : ℕ} {f g : ℕ → ℕ → ℝ} (h : ∀ i < n, ∀ j < m, f i j = g i j) :
    Mat.build n m f = Mat.build n m g := by
  unfold Mat.build
  refine List.map_congr_left fun i hi => List.map_congr_left fun j hj => ?_
  exact h i (List.mem_range.1 hi) j (List.mem_range.1 hj)

/-- C96 at a solution of the mean-field equations `meanFieldStability` is the largest modulus of an
eigenvalue of the derivative of the mean-field map: below one the solution is a stable fixed point. -/
theorem C96_spectral_radius (eigvals : Mat ℝ → List ℂ) (he : EigvalsOk eigvals) (n : ℕ) (hn : 1 ≤ n)
    (J : Mat ℝ) (hJ : J.HasShape n n) (freqs : List ℝ) (hf : freqs.length = n) (h : Fin n → ℝ)
    (hfix : ∀ i : Fin n, freqs.getD i 0 = mfMap h (toMatrix n J) (fun j => freqs.getD j 0) i) :
    ∃ A : Matrix (Fin n) (Fin n) ℝ,
      (∀ i j : Fin n, HasDerivAt (fun x => mfMap h (toMatrix n J)
        (Function.update (fun j : Fin n => freqs.getD j 0) j x) i) (A i j) (freqs.getD j 0)) ∧
      ∃ v, meanFieldStability eigvals J freqs = .ok v ∧
        IsGreatest {r | ∃ z : ℂ, (A.map (algebraMap ℝ ℂ)).charpoly.IsRoot z ∧ r = ‖z‖} v := by
  obtain ⟨f, hfd⟩ : ∃ f : Fin n → ℝ, f = fun j : Fin n => freqs.getD j 0 := ⟨_, rfl⟩
  obtain ⟨D, hD⟩ : ∃ D : Matrix (Fin n) (Fin n) ℝ, D = Matrix.diagonal fun i => f i * (1 - f i) := ⟨_, rfl⟩
  obtain ⟨B, hB⟩ : ∃ B : Matrix (Fin n) (Fin n) ℝ,
      B = fun i j => -2 * if i = j then 0 else toMatrix n J i j := ⟨_, rfl⟩
  refine ⟨D * B, fun i j => ?_, ?_⟩
  · have := mfMap_deriv h (toMatrix n J) f i j
    rw [← hfd]
    have e1 : freqs.getD j 0 = f j := by rw [hfd]
    rw [e1]
    refine this.congr_deriv ?_
    have e2 : mfMap h (toMatrix n J) f i = f i := by
      rw [hfd]; exact (hfix i).symm
    rw [e2, hD, Matrix.diagonal_mul, hB]
    by_cases hij : i = j
    · simp [hij]
    · simp [hij, Ne.symm hij]
  · have hs : stabilityMatrix J freqs = .ok (Mat.build n n fun i j =>
        -2 * (if i = j then 0 else J.at' i j) * freqs.getD j 0 * (1 - freqs.getD j 0)) := by
      unfold stabilityMatrix mfZeroDiag
      rw [mfReplaceDiag_ok hJ hn _ (by simp [hJ.1])]
      have hl : (Mat.build n n fun i j => if i = j then (List.replicate J.length (0 : ℝ)).getD i 0
          else J.at' i j).length = n := (Mat.build_shape _ _ _).1
      simp only [hl, hf]
      simp only [ne_eq, not_true_eq_false, if_false]
      congr 1
      refine build_congr' fun i hi j hj => ?_
      rw [Mat.at_build _ hi hj]
      by_cases hij : i = j
      · simp [hij]
      · simp [hij]
    have hM : toMatrix n (Mat.build n n fun i j =>
        -2 * (if i = j then 0 else J.at' i j) * freqs.getD j 0 * (1 - freqs.getD j 0)) = B * D := by
      ext i j
      rw [hD, Matrix.mul_diagonal, hB]
      unfold toMatrix
      rw [Mat.at_build _ i.2 j.2, hfd]
      by_cases hij : i = j
      · simp [hij]
      · have : (i : ℕ) ≠ j := fun h => hij (Fin.ext h)
        simp [hij, this]
        ring
    have hch : ((B * D).map (algebraMap ℝ ℂ)).charpoly = ((D * B).map (algebraMap ℝ ℂ)).charpoly := by
      rw [Matrix.map_mul, Matrix.map_mul, Matrix.charpoly_mul_comm]
    have hev := he n _ (Mat.build_shape n n fun i j =>
      -2 * (if i = j then 0 else J.at' i j) * freqs.getD j 0 * (1 - freqs.getD j 0))
    rw [hM, hch] at hev
    obtain ⟨p, hp⟩ : ∃ p, p = ((D * B).map (algebraMap ℝ ℂ)).charpoly := ⟨_, rfl⟩
    rw [← hp] at hev ⊢
    have hp0 : p ≠ 0 := by rw [hp]; exact (Matrix.charpoly_monic _).ne_zero
    unfold meanFieldStability
    rw [hs]
    dsimp only
    have hne : eigvals (Mat.build n n fun i j =>
        -2 * (if i = j then 0 else J.at' i j) * freqs.getD j 0 * (1 - freqs.getD j 0)) ≠ [] := by
      intro h0
      rw [h0] at hev
      have hdeg : p.degree ≠ 0 := by
        rw [hp, Matrix.charpoly_degree_eq_dim]
        simp
        omega
      obtain ⟨z, hz⟩ := IsAlgClosed.exists_root p hdeg
      have := (Polynomial.mem_roots hp0).2 hz
      rw [← hev] at this
      simp at this
    cases hL : eigvals (Mat.build n n fun i j =>
        -2 * (if i = j then 0 else J.at' i j) * freqs.getD j 0 * (1 - freqs.getD j 0)) with
    | nil => exact absurd hL hne
    | cons z zs =>
      rw [hL] at hev
      refine ⟨_, rfl, ?_⟩
      have := foldl_max_greatest ‖z‖ (zs.map fun z => ‖z‖)
      convert this using 1
      ext r
      simp only [Set.mem_ofPred_eq]
      constructor
      · rintro ⟨w, hw, rfl⟩
        have hw' := (Polynomial.mem_roots hp0).2 hw
        rw [← hev] at hw'
        have : w ∈ z :: zs := hw'
        rw [← List.map_cons (f := fun z : ℂ => ‖z‖)]
        exact List.mem_map_of_mem this
      · intro hr
        rw [← List.map_cons (f := fun z : ℂ => ‖z‖)] at hr
        obtain ⟨w, hw, rfl⟩ := List.mem_map.1 hr
        refine ⟨w, (Polynomial.mem_roots hp0).1 ?_, rfl⟩
        rw [← hev]
        exact hw

/-- Eigenvalue routines as assumed exist. -/
theorem exists_eigvals : ∃ eigvals : Mat ℝ → List ℂ, EigvalsOk eigvals := by
  refine ⟨fun M => ((toMatrix M.length M).map (algebraMap ℝ ℂ)).charpoly.roots.toList, fun n M hM => ?_⟩
  have := hM.1
  subst this
  simp

/-- The case of two spins without fields: both active with probability one half. -/
example : ∃ eigvals, EigvalsOk eigvals ∧ ∃ v, meanFieldStability eigvals [[0, -1], [-1, 0]] [1 / 2, 1 / 2] = .ok v := by
  obtain ⟨ev, he⟩ := exists_eigvals
  obtain ⟨A, _, v, hv, _⟩ := C96_spectral_radius ev he 2 (by norm_num) [[0, -1], [-1, 0]]
    ⟨rfl, by simp⟩ [1 / 2, 1 / 2] rfl (fun _ => 1) (by
      intro i
      fin_cases i <;> simp [mfMap, toMatrix, Mat.at', Fin.sum_univ_two] <;> norm_num)
  exact ⟨ev, he, v, hv⟩

/-! ### C97 -/

variable {K : Type*}

/-- The mean of the product of four spins. -/
def mean4 [Field K] (X : List (List K)) (i j m l : ℕ) : K :=
  avg X fun r => r.getD i 0 * r.getD j 0 * r.getD m 0 * r.getD l 0

theorem build_map_map {L : Type*} (r c : ℕ) (f : ℕ → ℕ → K) (g : K → L) :
    List.map (fun row => List.map g row) (Mat.build r c f) = Mat.build r c fun i j => g (f i j) := by
  unfold Mat.build
  rw [List.map_map]
  apply List.map_congr_left
  intro i _
  rw [Function.comp, List.map_map]
  rfl

theorem cooc_ok [Field K] (X : Samples K) (n : ℕ) (hn : 1 ≤ n) (hX : ∀ r ∈ X, r.length = n)
    (hne : X ≠ []) (b : Bool) : ∃ f : ℕ → ℕ → K,
      coocSampleCovariance X b false = .ok (Mat.build (n * (n + 1) / 2) (n * (n + 1) / 2) f) ∧
      coocSampleCovariance X b true = .ok (blockDiagOnes (Mat.build (n * (n + 1) / 2) (n * (n + 1) / 2) f)
        (n * (n - 1) / 2)) ∧
      ∀ p < n * (n + 1) / 2, ∀ q < n * (n + 1) / 2, f p q =
        (let c := fourthSum X (flatPair n p) (flatPair n q) / (X.length : K)
         let d := if b = true ∧ p = q then (c * X.length + 1) / (X.length + 2) else c
         d * (1 - d)) := by
  have hlen : (X.getD 0 []).length = n := by
    rcases X with _ | ⟨a, l⟩
    · exact absurd rfl hne
    · exact hX a (by simp)
  have hD : 1 ≤ n * (n + 1) / 2 := by
    rw [Nat.le_div_iff_mul_le (by norm_num)]
    nlinarith
  refine ⟨_, ?_, ?_, fun p hp q hq => rfl⟩
  all_goals
    unfold coocSampleCovariance
    rw [fourth_ok X n hX hne]
    cases b
    · simp only [Bool.false_eq_true, if_false, if_true, hlen, false_and]
      rw [build_map_map]
    · simp only [if_true]
      rw [mfReplaceDiag_ok (Mat.build_shape _ _ _) hD _ (by
        rw [diagonalK_eq (Mat.build_shape _ _ _)]; simp)]
      simp only [Bool.false_eq_true, if_false, hlen, true_and]
      rw [build_map_map]
      first
        | refine congrArg Except.ok (Mat.ext' (Mat.build_shape _ _ _) (Mat.build_shape _ _ _) ?_)
        | refine congrArg (fun z => Except.ok (blockDiagOnes z (n * (n - 1) / 2)))
            (Mat.ext' (Mat.build_shape _ _ _) (Mat.build_shape _ _ _) ?_)
      intro a ha c hc
      rw [Mat.at_build _ ha hc, Mat.at_build _ ha hc]
      by_cases e : a = c
      · subst e
        simp only [if_true]
        rw [diagonalK_eq (Mat.build_shape _ _ _), Nat.sub_zero, List.map_map, List.getD_eq_getElem?_getD,
          List.getElem?_map, List.getElem?_range ha]
        simp only [Option.map_some, Option.getD_some, Function.comp, Nat.add_zero]
        rw [Mat.at_build _ ha ha]
        first | done | (rw [Mat.at_build _ ha ha]; simp)
      · simp only [e, if_false]
        rw [Mat.at_build _ ha hc]
        first | done | simp [e]

/-- C97 what the entries are: `d(1-d)`, with `d` the mean of the product of the four spins, on the
diagonal shrunk to `(cN+1)/(N+2)` if asked; and with the prior an identity block is appended.
Missing: the entries off the diagonal are not covariances (`C97_not_covariance`). -/
theorem C97_entries_partial [Field K] [CharZero K] (X : Samples K) (n : ℕ) (hn : 1 ≤ n)
    (hX : ∀ r ∈ X, r.length = n) (hne : X ≠ []) (b prior : Bool) :
    ∃ C, coocSampleCovariance X b prior = .ok C ∧
      (let D := n * (n + 1) / 2
       let P := if prior then n * (n - 1) / 2 else 0
       C.HasShape (D + P) (D + P) ∧
       (∀ i j m l : ℕ, i ≤ j → j < n → m ≤ l → l < n → ∃ p q : ℕ,
        diagFlatIndex i j n = (p : ℤ) ∧ diagFlatIndex m l n = (q : ℤ) ∧ p < D ∧ q < D ∧
        C.at' p q =
          (let d := if b = true ∧ i = m ∧ j = l then (mean4 X i j m l * X.length + 1) / (X.length + 2)
            else mean4 X i j m l
           d * (1 - d))) ∧
       (∀ p < D + P, ∀ q < D + P, D ≤ p ∨ D ≤ q → C.at' p q = if p = q then 1 else 0)) := by
  obtain ⟨f, h0, h1, hf⟩ := cooc_ok X n hn hX hne b
  have hidx : ∀ i j : ℕ, i ≤ j → j < n → ∃ p : ℕ, diagFlatIndex i j n = (p : ℤ) ∧
      p < n * (n + 1) / 2 ∧ flatPair n p = (i, j) := by
    intro i j hij hj
    have h3 := diagOff_lt n i (j - i) (by omega)
    rw [diagOff_self] at h3
    have h1 := diagFlatIndex_eq n i (j - i) (by omega)
    rw [show i + (j - i) = j by omega] at h1
    refine ⟨_, h1, h3, ?_⟩
    rw [flatPair_eq n i (j - i) (by omega), show i + (j - i) = j by omega]
  have hval : ∀ i j m l : ℕ, i ≤ j → j < n → m ≤ l → l < n → ∃ p q : ℕ,
        diagFlatIndex i j n = (p : ℤ) ∧ diagFlatIndex m l n = (q : ℤ) ∧ p < n * (n + 1) / 2 ∧
        q < n * (n + 1) / 2 ∧
        f p q = (let d := if b = true ∧ i = m ∧ j = l then
            (mean4 X i j m l * X.length + 1) / (X.length + 2) else mean4 X i j m l
           d * (1 - d)) := by
    intro i j m l hij hj hml hl
    obtain ⟨p, hp, hpD, hpf⟩ := hidx i j hij hj
    obtain ⟨q, hq, hqD, hqf⟩ := hidx m l hml hl
    refine ⟨p, q, hp, hq, hpD, hqD, ?_⟩
    rw [hf p hpD q hqD, hpf, hqf]
    have e : fourthSum X (i, j) (m, l) / (X.length : K) = mean4 X i j m l := rfl
    have e2 : p = q ↔ i = m ∧ j = l := by
      constructor
      · intro h
        rw [h, hqf] at hpf
        exact ⟨(congrArg Prod.fst hpf).symm, (congrArg Prod.snd hpf).symm⟩
      · rintro ⟨rfl, rfl⟩
        rw [hp] at hq
        exact_mod_cast hq
    simp only [e, e2]
  cases prior
  · refine ⟨_, h0, ?_⟩
    simp only [Bool.false_eq_true, if_false, Nat.add_zero]
    refine ⟨Mat.build_shape _ _ _, ?_, fun p hp q hq h => ?_⟩
    · intro i j m l hij hj hml hl
      obtain ⟨p, q, hp, hq, hpD, hqD, e⟩ := hval i j m l hij hj hml hl
      exact ⟨p, q, hp, hq, hpD, hqD, by rw [Mat.at_build _ hpD hqD, e]⟩
    · omega
  · refine ⟨_, h1, ?_⟩
    have hL : (Mat.build (n * (n + 1) / 2) (n * (n + 1) / 2) f).length = n * (n + 1) / 2 :=
      (Mat.build_shape _ _ _).1
    simp only [if_true]
    unfold blockDiagOnes
    rw [hL]
    refine ⟨Mat.build_shape _ _ _, ?_, fun p hp q hq h => ?_⟩
    · intro i j m l hij hj hml hl
      obtain ⟨p, q, hp, hq, hpD, hqD, e⟩ := hval i j m l hij hj hml hl
      refine ⟨p, q, hp, hq, hpD, hqD, ?_⟩
      rw [Mat.at_build _ (by omega) (by omega), if_pos ⟨hpD, hqD⟩, Mat.at_build _ hpD hqD, e]
    · rw [Mat.at_build _ hp hq, if_neg (by omega)]
      by_cases e : p = q
      · subst e; rw [if_neg (by omega)]
      · rw [if_neg e]; simp

/-- C97 for samples of zeros and ones the diagonal (without the correction) is the variance of the
product of the two spins. -/
theorem C97_variance [Field K] [CharZero K] (X : Samples K) (n : ℕ) (hn : 1 ≤ n)
    (hX : ∀ r ∈ X, r.length = n) (h01 : ∀ r ∈ X, ∀ x ∈ r, x = 0 ∨ x = 1) (hne : X ≠ []) :
    ∃ C, coocSampleCovariance X false false = .ok C ∧
      ∀ i j : ℕ, i ≤ j → j < n → ∃ p : ℕ, diagFlatIndex i j n = (p : ℤ) ∧
        C.at' p p = sampleCov X (fun r => r.getD i 0 * r.getD j 0) (fun r => r.getD i 0 * r.getD j 0) := by
  obtain ⟨C, hC, -, hv, -⟩ := C97_entries_partial X n hn hX hne false false
  refine ⟨C, hC, fun i j hij hj => ?_⟩
  obtain ⟨p, q, hp, hq, -, -, e⟩ := hv i j i j hij hj hij hj
  obtain rfl : p = q := by rw [hp] at hq; exact_mod_cast hq
  refine ⟨p, hp, e.trans ?_⟩
  have hg : ∀ r ∈ X, ∀ k, r.getD k 0 * r.getD k 0 = r.getD k 0 := by
    intro r hr k
    rcases lt_or_ge k r.length with hk | hk
    · have hm : r.getD k 0 ∈ r := by
        rw [List.getD_eq_getElem?_getD, List.getElem?_eq_getElem hk]
        exact List.getElem_mem hk
      rcases h01 r hr _ hm with h | h <;> rw [h] <;> simp
    · rw [List.getD_eq_default _ _ hk]; simp
  have e1 : mean4 X i j i j = avg X fun r => r.getD i 0 * r.getD j 0 := by
    unfold mean4 avg
    congr 1
    apply list_sum_congr
    intro r hr
    calc _ = (r.getD i 0 * r.getD i 0) * (r.getD j 0 * r.getD j 0) := by ring
      _ = _ := by rw [hg r hr, hg r hr]
  have e2 : (avg X fun r => r.getD i 0 * r.getD j 0 * (r.getD i 0 * r.getD j 0)) = mean4 X i j i j := by
    unfold mean4 avg
    congr 1
    apply list_sum_congr
    intro r hr
    ring
  simp only [Bool.false_eq_true, false_and, if_false]
  unfold sampleCov
  rw [e2, e1]
  ring

/-- C97 fails off the diagonal: for two spins that exclude each other the means have covariance
`-1/4` and the matrix has `0`. -/
theorem C97_not_covariance : ∃ C, coocSampleCovariance [[1, 0], [0, (1 : ℚ)]] false false = .ok C ∧
    C.at' 0 1 = 0 ∧ diagFlatIndex 0 0 2 = 0 ∧ diagFlatIndex 1 1 2 = 1 ∧
    sampleCov [[1, 0], [0, (1 : ℚ)]] (fun r => r.getD 0 0 * r.getD 0 0)
      (fun r => r.getD 1 0 * r.getD 1 0) = -1 / 4 := by
  obtain ⟨C, hC, -, hv, -⟩ := C97_entries_partial [[1, 0], [0, (1 : ℚ)]] 2 (by norm_num) (by simp) (by simp)
    false false
  obtain ⟨p, q, hp, hq, -, -, e⟩ := hv 0 0 1 1 (by norm_num) (by norm_num) (by norm_num) (by norm_num)
  have d0 : diagFlatIndex 0 0 2 = 0 := by decide
  have d1 : diagFlatIndex 1 1 2 = 1 := by decide
  refine ⟨C, hC, ?_, d0, d1, ?_⟩
  · have hp' : p = 0 := by
      have : diagFlatIndex 0 0 2 = (p : ℤ) := hp
      omega
    have hq' : q = 1 := by
      have : diagFlatIndex 1 1 2 = (q : ℤ) := hq
      omega
    rw [hp', hq'] at e
    rw [e]
    simp [mean4, avg]
  · simp [sampleCov, avg]; norm_num

/-- C97 fails for samples of ±1, which is what the regularised mean-field solver passes
(solvers.py:2634): the variance of every pair is then reported as zero. -/
theorem C97_pm_one_wrong [Field K] [CharZero K] (X : Samples K) (n : ℕ) (hn : 1 ≤ n)
    (hX : ∀ r ∈ X, r.length = n) (h01 : ∀ r ∈ X, ∀ x ∈ r, x = -1 ∨ x = 1) (hne : X ≠ []) :
    ∃ C, coocSampleCovariance X false false = .ok C ∧
      ∀ i j : ℕ, i ≤ j → j < n → ∃ p : ℕ, diagFlatIndex i j n = (p : ℤ) ∧ C.at' p p = 0 := by
  obtain ⟨C, hC, -, hv, -⟩ := C97_entries_partial X n hn hX hne false false
  refine ⟨C, hC, fun i j hij hj => ?_⟩
  obtain ⟨p, q, hp, hq, -, -, e⟩ := hv i j i j hij hj hij hj
  obtain rfl : p = q := by rw [hp] at hq; exact_mod_cast hq
  refine ⟨p, hp, e.trans ?_⟩
  have hg : ∀ r ∈ X, ∀ k < n, r.getD k 0 * r.getD k 0 = 1 := by
    intro r hr k hk
    have hk' : k < r.length := by rw [hX r hr]; exact hk
    have hm : r.getD k 0 ∈ r := by
      rw [List.getD_eq_getElem?_getD, List.getElem?_eq_getElem hk']
      exact List.getElem_mem hk'
    rcases h01 r hr _ hm with h | h <;> rw [h] <;> norm_num
  have e1 : mean4 X i j i j = 1 := by
    have : mean4 X i j i j = avg X fun _ => 1 := by
      unfold mean4 avg
      congr 1
      apply list_sum_congr
      intro r hr
      calc _ = (r.getD i 0 * r.getD i 0) * (r.getD j 0 * r.getD j 0) := by ring
        _ = _ := by rw [hg r hr i (by omega), hg r hr j hj]; ring
    rw [this]
    unfold avg
    have : (X.length : K) ≠ 0 := by
      simpa using hne
    simp [this]
  simp [e1]

/-- The hypotheses of C97 are met, by varying samples in both alphabets. -/
example : (∀ r ∈ [[1, 0], [1, (1 : ℚ)]], ∀ x ∈ r, x = 0 ∨ x = 1) ∧
    (∀ r ∈ [[1, -1], [1, (1 : ℚ)]], ∀ x ∈ r, x = -1 ∨ x = 1) ∧
    sampleCov [[1, -1], [1, (1 : ℚ)]] (fun r => r.getD 0 0 * r.getD 1 0)
      (fun r => r.getD 0 0 * r.getD 1 0) = 1 := by
  refine ⟨by simp, by simp, by simp [sampleCov, avg]⟩

end Verif.Props
