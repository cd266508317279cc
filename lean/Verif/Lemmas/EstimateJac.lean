/-
Central differences of reweighted means.
-/
import Verif.Model.EstimateJac
import Verif.Spec.Covariance
import Verif.Lemmas.MchProg
import Verif.Props.Neighbors
import Mathlib.Analysis.SpecialFunctions.Trigonometric.Series
import Mathlib.Analysis.SpecialFunctions.Trigonometric.DerivHyp
import Mathlib.Analysis.Complex.Exponential

namespace Verif.Lemmas
open Verif Verif.Model Verif.Spec Verif.Props

theorem exp_mul_pm (ε f : ℝ) (hf : f = 1 ∨ f = -1) : Real.exp (ε * f) = Real.cosh ε + f * Real.sinh ε := by
  rcases hf with rfl | rfl
  · rw [mul_one, one_mul, Real.cosh_add_sinh]
  · rw [mul_neg, mul_one, neg_one_mul, ← sub_eq_add_neg, Real.cosh_sub_sinh]

theorem exp_sum_pm {α : Type*} (X : List α) (ε : ℝ) (f g : α → ℝ) (hf : ∀ s ∈ X, f s = 1 ∨ f s = -1) (hX : X ≠ []) :
    (X.map fun s => Real.exp (ε * f s) * g s).sum =
      X.length * (Real.cosh ε * avg X g + Real.sinh ε * avg X fun s => f s * g s) := by
  have hl : (X.length : ℝ) ≠ 0 := by simpa using hX
  have : (X.map fun s => Real.exp (ε * f s) * g s) = X.map fun s => Real.cosh ε * g s + Real.sinh ε * (f s * g s) :=
    List.map_congr_left fun s hs => by rw [exp_mul_pm ε _ (hf s hs)]; ring
  rw [this, list_sum_add, list_sum_mul_left, list_sum_mul_left]
  unfold avg
  field_simp

theorem abs_avg_pm {α : Type*} (X : List α) (f : α → ℝ) (hf : ∀ s ∈ X, f s = 1 ∨ f s = -1) (hX : X ≠ []) : |avg X f| ≤ 1 := by
  have hl : (0 : ℝ) < X.length := by exact_mod_cast List.length_pos_of_ne_nil hX
  unfold avg
  rw [abs_div, abs_of_pos hl, div_le_one hl]
  clear hX hl
  induction X with
  | nil => simp
  | cons x X ih =>
    have h1 : |f x| ≤ 1 := by rcases hf x (by simp) with h | h <;> simp [h]
    have h2 := ih fun s hs => hf s (by simp [hs])
    have := abs_add_le (f x) (X.map f).sum
    simp only [List.map_cons, List.sum_cons, List.length_cons]
    push_cast
    linarith

theorem tanh_sq_lt (ε : ℝ) : Real.tanh ε ^ 2 < 1 := by
  rw [Real.tanh_eq_sinh_div_cosh, div_pow, div_lt_one (pow_pos (Real.cosh_pos ε) 2)]
  have := Real.cosh_sq ε
  linarith

theorem mean_sq_tanh_lt (ε m : ℝ) (hm : |m| ≤ 1) : m ^ 2 * Real.tanh ε ^ 2 < 1 := by
  have h1 := tanh_sq_lt ε
  have h2 : m ^ 2 ≤ 1 := by
    rw [← sq_abs]
    exact pow_le_one₀ (abs_nonneg m) hm
  nlinarith [sq_nonneg (Real.tanh ε), sq_nonneg m]

/-- The factor between the central difference and the covariance. -/
noncomputable def jacFactor (ε m : ℝ) : ℝ := Real.tanh ε / ε / (1 - m ^ 2 * Real.tanh ε ^ 2)

/-- Central difference of a mean reweighted by `exp(ε f)` with `f = ±1`. -/
theorem central_pm {α : Type*} (X : List α) (hX : X ≠ []) (ε : ℝ) (hε : ε ≠ 0) (f g : α → ℝ)
    (hf : ∀ s ∈ X, f s = 1 ∨ f s = -1) :
    ((X.map fun s => Real.exp (ε * f s) * g s).sum / (X.map fun s => Real.exp (ε * f s)).sum -
      (X.map fun s => Real.exp (-ε * f s) * g s).sum / (X.map fun s => Real.exp (-ε * f s)).sum) / (2 * ε) =
      covar X f g * jacFactor ε (avg X f) := by
  have hl : (X.length : ℝ) ≠ 0 := by simpa using hX
  have h1 : ∀ e : ℝ, (X.map fun s => Real.exp (e * f s)).sum =
      X.length * (Real.cosh e + Real.sinh e * avg X f) := by
    intro e
    have := exp_sum_pm X e f (fun _ => 1) hf hX
    simp only [mul_one] at this
    rw [this]
    have h : avg X (fun _ : α => (1 : ℝ)) = 1 := by
      unfold avg
      simp [hl]
    rw [h, mul_one]
  have hc := Real.cosh_pos ε
  have hm := abs_avg_pm X f hf hX
  have hd := mean_sq_tanh_lt ε _ hm
  obtain ⟨m, hm'⟩ : ∃ m, m = avg X f := ⟨_, rfl⟩
  obtain ⟨k, hk⟩ : ∃ k, k = avg X g := ⟨_, rfl⟩
  obtain ⟨c, hc'⟩ : ∃ c, c = avg X fun s => f s * g s := ⟨_, rfl⟩
  rw [exp_sum_pm X ε f g hf hX, exp_sum_pm X (-ε) f g hf hX, h1, h1, Real.cosh_neg, Real.sinh_neg]
  unfold covar jacFactor
  rw [← hm'] at hd ⊢
  rw [← hk, ← hc', mul_div_mul_left _ _ hl, mul_div_mul_left _ _ hl]
  rw [Real.tanh_eq_sinh_div_cosh] at hd ⊢
  obtain ⟨C, hC⟩ : ∃ C, C = Real.cosh ε := ⟨_, rfl⟩
  obtain ⟨D, hD⟩ : ∃ D, D = Real.sinh ε := ⟨_, rfl⟩
  rw [← hC, ← hD] at hd ⊢
  rw [← hC] at hc
  have hpm : C ^ 2 - m ^ 2 * D ^ 2 ≠ 0 := by
    rw [div_pow, ← mul_div_assoc, div_lt_one (pow_pos hc 2)] at hd
    linarith
  have hprod : (C + D * m) * (C - D * m) = C ^ 2 - m ^ 2 * D ^ 2 := by ring
  have h2 : C + D * m ≠ 0 := fun h => hpm (by rw [← hprod, h, zero_mul])
  have h3 : C + -D * m ≠ 0 := fun h => hpm (by rw [← hprod, show C - D * m = C + -D * m by ring, h, mul_zero])
  have h4 : 1 - m ^ 2 * (D / C) ^ 2 ≠ 0 := by
    intro h
    apply hpm
    field_simp at h
    linarith
  rw [div_sub_div _ _ h2 h3, div_div, div_div, mul_div_assoc', div_eq_div_iff (mul_ne_zero (mul_ne_zero h2 h3) (mul_ne_zero two_ne_zero hε))
    (mul_ne_zero hε h4)]
  field_simp
  ring

theorem sinh_upper (x : ℝ) (h0 : 0 < x) (h1 : x ≤ 1) : Real.sinh x ≤ x * (1 + x ^ 2 / 4) := by
  have a := Real.exp_bound (x := x) (by rw [abs_of_pos h0]; exact h1) (n := 5) (by norm_num)
  have b := Real.exp_bound (x := -x) (by rw [abs_neg, abs_of_pos h0]; exact h1) (n := 5) (by norm_num)
  rw [Real.sinh_eq]
  simp only [Finset.sum_range_succ, Finset.sum_range_zero, abs_neg, abs_of_pos h0] at a b
  norm_num [Nat.factorial] at a b
  have a' := (abs_le.1 a).2
  have b' := (abs_le.1 b).1
  have h5 : x ^ 5 ≤ x ^ 3 := pow_le_pow_of_le_one h0.le h1 (by norm_num)
  have h3 : 0 < x ^ 3 := pow_pos h0 3
  nlinarith

theorem jacFactor_bound (ε m : ℝ) (hε : ε ≠ 0) (h1 : |ε| ≤ 1 / 2) (hm : |m| ≤ 1) : |jacFactor ε m - 1| ≤ ε ^ 2 := by
  wlog h0 : 0 < ε with H
  · have := H (-ε) m (neg_ne_zero.2 hε) (by rwa [abs_neg]) hm (by
      have := lt_of_le_of_ne (not_lt.1 h0) hε
      linarith)
    have e : jacFactor (-ε) m = jacFactor ε m := by
      unfold jacFactor
      rw [Real.tanh_neg, neg_div_neg_eq, neg_sq]
    rwa [e, neg_sq] at this
  rw [abs_of_pos h0] at h1
  have hd := mean_sq_tanh_lt ε m hm
  have hm2 : m ^ 2 ≤ 1 := by
    rw [← sq_abs]
    exact pow_le_one₀ (abs_nonneg m) hm
  have hC := Real.cosh_pos ε
  have hS : ε ≤ Real.sinh ε := Real.self_le_sinh_iff.2 h0.le
  have ht : 0 < Real.tanh ε := by
    rw [Real.tanh_eq_sinh_div_cosh]
    exact div_pos (by linarith) hC
  have hden : 0 < 1 - m ^ 2 * Real.tanh ε ^ 2 := by linarith
  rw [abs_le]
  constructor
  · -- below
    have hlow : 1 - ε ^ 2 ≤ Real.tanh ε / ε := by
      rw [Real.tanh_eq_sinh_div_cosh, div_div, le_div_iff₀ (mul_pos hC h0)]
      have e1 : Real.cosh ε ≤ Real.exp (ε ^ 2 / 2) := Real.cosh_le_exp_half_sq ε
      have e2 : 1 - ε ^ 2 ≤ Real.exp (-ε ^ 2) := by
        have := Real.add_one_le_exp (-ε ^ 2)
        linarith
      have e3 : (1 - ε ^ 2) * Real.cosh ε ≤ 1 := by
        calc (1 - ε ^ 2) * Real.cosh ε ≤ Real.exp (-ε ^ 2) * Real.exp (ε ^ 2 / 2) := by gcongr
          _ = Real.exp (-(ε ^ 2 / 2)) := by rw [← Real.exp_add]; congr 1; ring
          _ ≤ 1 := Real.exp_le_one_iff.2 (by nlinarith)
      nlinarith
    have : Real.tanh ε / ε ≤ jacFactor ε m := by
      unfold jacFactor
      rw [le_div_iff₀ hden]
      have h2 : 0 ≤ m ^ 2 * Real.tanh ε ^ 2 := by positivity
      have h3 : 0 ≤ Real.tanh ε / ε := (div_pos ht h0).le
      nlinarith
    linarith
  · -- above
    have hup : jacFactor ε m ≤ Real.tanh ε / ε / (1 - Real.tanh ε ^ 2) := by
      unfold jacFactor
      have h4 : 0 < 1 - Real.tanh ε ^ 2 := by linarith [tanh_sq_lt ε]
      apply div_le_div_of_nonneg_left (div_pos ht h0).le h4
      nlinarith [sq_nonneg (Real.tanh ε)]
    have hval : Real.tanh ε / ε / (1 - Real.tanh ε ^ 2) = Real.sinh (2 * ε) / (2 * ε) := by
      rw [Real.sinh_two_mul, Real.tanh_eq_sinh_div_cosh]
      have hne : Real.cosh ε ^ 2 - Real.sinh ε ^ 2 = 1 := by
        have := Real.cosh_sq ε
        linarith
      have : 1 - (Real.sinh ε / Real.cosh ε) ^ 2 = 1 / Real.cosh ε ^ 2 := by
        rw [div_pow, eq_div_iff (pow_pos hC 2).ne', sub_mul, div_mul_cancel₀ _ (pow_pos hC 2).ne', one_mul, hne]
      rw [this]
      field_simp
    have hs := sinh_upper (2 * ε) (by linarith) (by linarith)
    have : Real.sinh (2 * ε) / (2 * ε) ≤ 1 + ε ^ 2 := by
      rw [div_le_iff₀ (by linarith)]
      nlinarith
    linarith [hval ▸ hup]

theorem jacFactor_pos (ε m : ℝ) (hε : ε ≠ 0) (hm : |m| ≤ 1) : 0 < jacFactor ε m := by
  have hd := mean_sq_tanh_lt ε m hm
  unfold jacFactor
  refine div_pos ?_ (by linarith)
  rw [Real.tanh_eq_sinh_div_cosh, div_right_comm]
  refine div_pos ?_ (Real.cosh_pos ε)
  rcases lt_or_gt_of_ne hε with h | h
  · exact div_pos_of_neg_of_neg (Real.sinh_neg_iff.2 h) h
  · exact div_pos (Real.sinh_pos_iff.2 h) h

/-- Derivative of an expectation: the covariance. -/
theorem hasDerivAt_expect {α : Type*} (S : List α) (hS : S ≠ []) (E f g : α → ℝ) :
    HasDerivAt (fun t : ℝ => expect S (fun s => E s - t * f s) g) (modelCov S E f g) 0 := by
  have hN : ∀ g : α → ℝ, HasDerivAt (fun t : ℝ => (S.map fun s => Real.exp (-(E s - t * f s)) * g s).sum)
      ((S.map fun s => Real.exp (-E s) * (f s * g s)).sum) 0 := by
    intro g
    clear hS
    induction S with
    | nil => simpa using hasDerivAt_const (0 : ℝ) (0 : ℝ)
    | cons s S ih =>
      simp only [List.map_cons, List.sum_cons]
      refine HasDerivAt.add ?_ ih
      have h1 : HasDerivAt (fun t : ℝ => -(E s - t * f s)) (f s) 0 := by
        have h : HasDerivAt (fun t : ℝ => -E s + t * f s) (1 * f s) 0 :=
          ((hasDerivAt_id' (0 : ℝ)).mul_const (f s)).const_add (-E s)
        rw [one_mul] at h
        refine h.congr_of_eventuallyEq (Filter.Eventually.of_forall fun t => ?_)
        dsimp only
        ring
      have h2 := (h1.exp).mul_const (g s)
      simp only [zero_mul, sub_zero] at h2
      rw [mul_assoc] at h2
      exact h2
  have hZ := hN fun _ => 1
  simp only [mul_one] at hZ
  have hpos : (S.map fun s => Real.exp (-(E s - 0 * f s))).sum ≠ 0 := (partition_pos S (fun s => E s - 0 * f s) hS).ne'
  have h := (hN g).div hZ hpos
  have hexp : ∀ (E g : α → ℝ), expect S E g = (S.map fun s => Real.exp (-E s) * g s).sum / (S.map fun s => Real.exp (-E s)).sum := by
    intro E g
    unfold expect boltzmann partition
    rw [div_eq_mul_inv, ← list_sum_mul_right]
    congr 1
    exact List.map_congr_left fun s _ => by rw [div_eq_mul_inv]; ring
  have e1 : (fun t : ℝ => expect S (fun s => E s - t * f s) g) = fun t => (S.map fun s => Real.exp (-(E s - t * f s)) * g s).sum /
      (S.map fun s => Real.exp (-(E s - t * f s))).sum := funext fun t => hexp _ _
  rw [e1]
  refine h.congr_deriv ?_
  unfold modelCov
  rw [hexp, hexp, hexp]
  simp only [zero_mul, sub_zero] at hpos ⊢
  field_simp

end Verif.Lemmas
