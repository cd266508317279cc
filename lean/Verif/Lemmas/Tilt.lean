/-
Means under exponentially tilted weights on a finite set, and steps of gradient descent on the log of the partition function.
-/
import Mathlib.Algebra.BigOperators.Field
import Mathlib.Analysis.SpecialFunctions.Log.Deriv
import Mathlib.Analysis.SpecialFunctions.ExpDeriv
import Mathlib.Analysis.Calculus.MeanValue
import Mathlib.Analysis.Calculus.Deriv.MeanValue
import Mathlib.Analysis.Convex.StdSimplex
import Mathlib.Topology.Algebra.Order.LiminfLimsup
import Mathlib.Tactic.FieldSimp
import Mathlib.Tactic.Linarith

namespace Verif.Lemmas.Tilt

variable {ρ ι : Type*} [Fintype ρ] [Fintype ι] (o : ρ → ι → ℝ)

/-- Scalar product of a change and the observables of a row. -/
def lin (d : ι → ℝ) (r : ρ) : ℝ := ∑ i, d i * o r i

/-- Sum of the weights. -/
noncomputable def Z (d : ι → ℝ) : ℝ := ∑ r, Real.exp (lin o d r)

/-- Normalised weights. -/
noncomputable def P (d : ι → ℝ) (r : ρ) : ℝ := Real.exp (lin o d r) / Z o d

/-- Mean of the observables. -/
noncomputable def G (d : ι → ℝ) (i : ι) : ℝ := ∑ r, P o d r * o r i

/-- Covariance of two scalar products. -/
noncomputable def cov (d u v : ι → ℝ) : ℝ :=
  ∑ r, P o d r * (lin o u r * lin o v r) - (∑ r, P o d r * lin o u r) * ∑ r, P o d r * lin o v r

/-- Square of the Euclidean length. -/
def sq (v : ι → ℝ) : ℝ := ∑ i, v i ^ 2

theorem sq_nonneg' (v : ι → ℝ) : 0 ≤ sq v := Finset.sum_nonneg fun _ _ => sq_nonneg _

theorem lin_add (u v : ι → ℝ) (r : ρ) : lin o (fun i => u i + v i) r = lin o u r + lin o v r := by
  simp only [lin, add_mul, Finset.sum_add_distrib]

theorem lin_sub (u v : ι → ℝ) (r : ρ) : lin o (fun i => u i - v i) r = lin o u r - lin o v r := by
  simp only [lin, sub_mul, Finset.sum_sub_distrib]

theorem lin_smul (c : ℝ) (v : ι → ℝ) (r : ρ) : lin o (fun i => c * v i) r = c * lin o v r := by
  simp only [lin, Finset.mul_sum, mul_assoc]

theorem lin_neg (v : ι → ℝ) (r : ρ) : lin o (fun i => -v i) r = -lin o v r := by
  simp only [lin, neg_mul, Finset.sum_neg_distrib]

theorem sum_G (d u : ι → ℝ) : ∑ i, u i * G o d i = ∑ r, P o d r * lin o u r := by
  simp only [G, lin, Finset.mul_sum]
  rw [Finset.sum_comm]
  exact Finset.sum_congr rfl fun r _ => Finset.sum_congr rfl fun i _ => by ring

section pos
variable [Nonempty ρ]

theorem Z_pos (d : ι → ℝ) : 0 < Z o d :=
  Finset.sum_pos (fun _ _ => Real.exp_pos _) Finset.univ_nonempty

theorem P_pos (d : ι → ℝ) (r : ρ) : 0 < P o d r := div_pos (Real.exp_pos _) (Z_pos o d)

theorem P_sum (d : ι → ℝ) : ∑ r, P o d r = 1 := by
  unfold P
  rw [← Finset.sum_div]
  exact div_self (Z_pos o d).ne'

theorem log_P (d : ι → ℝ) (r : ρ) : Real.log (P o d r) = lin o d r - Real.log (Z o d) := by
  unfold P
  rw [Real.log_div (Real.exp_pos _).ne' (Z_pos o d).ne', Real.log_exp]

/-! ### the mean is monotone -/

theorem mono_eq (x y : ι → ℝ) : ∑ i, (y i - x i) * (G o y i - G o x i) =
    ∑ r, (P o y r - P o x r) * (Real.log (P o y r) - Real.log (P o x r)) := by
  have h1 : ∑ i, (y i - x i) * (G o y i - G o x i) =
      ∑ r, P o y r * lin o (fun i => y i - x i) r - ∑ r, P o x r * lin o (fun i => y i - x i) r := by
    rw [← sum_G, ← sum_G, ← Finset.sum_sub_distrib]
    exact Finset.sum_congr rfl fun i _ => by ring
  rw [h1, ← Finset.sum_sub_distrib]
  have h2 : ∑ r, (P o y r - P o x r) * (Real.log (Z o y) - Real.log (Z o x)) = 0 := by
    rw [← Finset.sum_mul, Finset.sum_sub_distrib, P_sum, P_sum, sub_self, zero_mul]
  rw [← sub_zero (∑ r, (_ : ℝ)), ← h2, ← Finset.sum_sub_distrib]
  refine Finset.sum_congr rfl fun r _ => ?_
  rw [log_P, log_P, lin_sub]
  ring

theorem log_mono_term {p q : ℝ} (hp : 0 < p) (hq : 0 < q) : 0 ≤ (q - p) * (Real.log q - Real.log p) := by
  rcases le_total p q with h | h
  · exact mul_nonneg (sub_nonneg.2 h) (sub_nonneg.2 (Real.log_le_log hp h))
  · exact mul_nonneg_of_nonpos_of_nonpos (sub_nonpos.2 h) (sub_nonpos.2 (Real.log_le_log hq h))

theorem mono (x y : ι → ℝ) : 0 ≤ ∑ i, (y i - x i) * (G o y i - G o x i) := by
  rw [mono_eq]
  exact Finset.sum_nonneg fun r _ => log_mono_term (P_pos o x r) (P_pos o y r)

/-- The scalar product is zero only if the change makes no difference between the rows. -/
theorem mono_zero (x y : ι → ℝ) (h : ∑ i, (y i - x i) * (G o y i - G o x i) = 0) (r s : ρ) :
    lin o (fun i => y i - x i) r = lin o (fun i => y i - x i) s := by
  rw [mono_eq, Finset.sum_eq_zero_iff_of_nonneg fun r _ => log_mono_term (P_pos o x r) (P_pos o y r)] at h
  have key : ∀ r, lin o (fun i => y i - x i) r = Real.log (Z o y) - Real.log (Z o x) := by
    intro r
    have hr := h r (Finset.mem_univ r)
    have hl : Real.log (P o y r) = Real.log (P o x r) := by
      rcases mul_eq_zero.1 hr with h0 | h0
      · rw [sub_eq_zero.1 h0]
      · exact sub_eq_zero.1 h0
    rw [log_P, log_P] at hl
    rw [lin_sub]
    linarith
  rw [key r, key s]

/-! ### derivatives along a line -/

theorem hasDerivAt_lin (x v : ι → ℝ) (r : ρ) (τ : ℝ) :
    HasDerivAt (fun τ : ℝ => lin o (fun i => x i + τ * v i) r) (lin o v r) τ := by
  have : (fun τ : ℝ => lin o (fun i => x i + τ * v i) r) = fun τ => lin o x r + τ * lin o v r := by
    funext τ
    rw [lin_add, lin_smul]
  rw [this]
  simpa using ((hasDerivAt_id τ).mul_const (lin o v r)).const_add (lin o x r)

theorem hasDerivAt_expLin (x v : ι → ℝ) (r : ρ) (τ : ℝ) :
    HasDerivAt (fun τ : ℝ => Real.exp (lin o (fun i => x i + τ * v i) r))
      (Real.exp (lin o (fun i => x i + τ * v i) r) * lin o v r) τ := (hasDerivAt_lin o x v r τ).exp

theorem hasDerivAt_Z (x v : ι → ℝ) (τ : ℝ) :
    HasDerivAt (fun τ : ℝ => Z o (fun i => x i + τ * v i))
      (∑ r, Real.exp (lin o (fun i => x i + τ * v i) r) * lin o v r) τ :=
  HasDerivAt.fun_sum fun r _ => hasDerivAt_expLin o x v r τ

theorem hasDerivAt_logZ (x v : ι → ℝ) (τ : ℝ) :
    HasDerivAt (fun τ : ℝ => Real.log (Z o (fun i => x i + τ * v i)))
      (∑ i, v i * G o (fun i => x i + τ * v i) i) τ := by
  refine ((hasDerivAt_Z o x v τ).log (Z_pos o _).ne').congr_deriv ?_
  rw [sum_G]
  unfold P
  rw [Finset.sum_div]
  exact Finset.sum_congr rfl fun r _ => by ring

theorem hasDerivAt_G (x v u : ι → ℝ) (τ : ℝ) :
    HasDerivAt (fun τ : ℝ => ∑ i, u i * G o (fun i => x i + τ * v i) i) (cov o (fun i => x i + τ * v i) u v) τ := by
  have hfun : (fun τ : ℝ => ∑ i, u i * G o (fun i => x i + τ * v i) i) = fun τ =>
      (∑ r, Real.exp (lin o (fun i => x i + τ * v i) r) * lin o u r) / Z o (fun i => x i + τ * v i) := by
    funext τ
    rw [sum_G, Finset.sum_div]
    exact Finset.sum_congr rfl fun r _ => by unfold P; ring
  rw [hfun]
  have hnum : HasDerivAt (fun τ : ℝ => ∑ r, Real.exp (lin o (fun i => x i + τ * v i) r) * lin o u r)
      (∑ r, Real.exp (lin o (fun i => x i + τ * v i) r) * lin o v r * lin o u r) τ :=
    HasDerivAt.fun_sum fun r _ => (hasDerivAt_expLin o x v r τ).mul_const _
  refine (hnum.div (hasDerivAt_Z o x v τ) (Z_pos o _).ne').congr_deriv ?_
  have hZ := (Z_pos o (fun i => x i + τ * v i)).ne'
  have e1 : ∀ f : ρ → ℝ, ∑ r, P o (fun i => x i + τ * v i) r * f r =
      (∑ r, Real.exp (lin o (fun i => x i + τ * v i) r) * f r) / Z o (fun i => x i + τ * v i) := by
    intro f
    rw [Finset.sum_div]
    exact Finset.sum_congr rfl fun r _ => by unfold P; ring
  unfold cov
  rw [e1, e1, e1]
  have e2 : ∑ r, Real.exp (lin o (fun i => x i + τ * v i) r) * lin o v r * lin o u r =
      ∑ r, Real.exp (lin o (fun i => x i + τ * v i) r) * (lin o u r * lin o v r) :=
    Finset.sum_congr rfl fun r _ => by ring
  rw [e2]
  field_simp

/-! ### bounds on the covariance -/

theorem cov_self_nonneg (d u : ι → ℝ) : 0 ≤ cov o d u u := by
  unfold cov
  have h := P_sum o d
  obtain ⟨m, hm⟩ : ∃ m, m = ∑ r, P o d r * lin o u r := ⟨_, rfl⟩
  have h1 : 0 ≤ ∑ r, P o d r * (lin o u r - m) ^ 2 :=
    Finset.sum_nonneg fun r _ => mul_nonneg (P_pos o d r).le (sq_nonneg _)
  have h2 : ∑ r, P o d r * (lin o u r - m) ^ 2 =
      ∑ r, P o d r * (lin o u r * lin o u r) - 2 * m * (∑ r, P o d r * lin o u r) + m ^ 2 * ∑ r, P o d r := by
    rw [Finset.mul_sum, Finset.mul_sum, ← Finset.sum_sub_distrib, ← Finset.sum_add_distrib]
    exact Finset.sum_congr rfl fun r _ => by ring
  rw [h2, h, ← hm] at h1
  rw [← hm]
  nlinarith

theorem cov_self_le {L : ℝ} (hL : ∀ r, ∑ i, o r i ^ 2 ≤ L) (d u : ι → ℝ) : cov o d u u ≤ L * sq u := by
  unfold cov
  have h1 : ∀ r, lin o u r * lin o u r ≤ L * sq u := by
    intro r
    have := Finset.sum_mul_sq_le_sq_mul_sq Finset.univ u (o r)
    have h2 : (∑ i, u i ^ 2) * ∑ i, o r i ^ 2 ≤ sq u * L := mul_le_mul_of_nonneg_left (hL r) (sq_nonneg' u)
    unfold lin
    nlinarith
  have h2 : ∑ r, P o d r * (lin o u r * lin o u r) ≤ ∑ r, P o d r * (L * sq u) :=
    Finset.sum_le_sum fun r _ => mul_le_mul_of_nonneg_left (h1 r) (P_pos o d r).le
  rw [← Finset.sum_mul, P_sum, one_mul] at h2
  have h3 : 0 ≤ (∑ r, P o d r * lin o u r) * ∑ r, P o d r * lin o u r := mul_self_nonneg _
  linarith

theorem cov_polar (d u v : ι → ℝ) : 4 * cov o d u v =
    cov o d (fun i => u i + v i) (fun i => u i + v i) - cov o d (fun i => u i - v i) (fun i => u i - v i) := by
  unfold cov
  simp only [lin_add, lin_sub]
  have e1 : ∀ f g : ρ → ℝ, ∑ r, P o d r * (f r + g r) = ∑ r, P o d r * f r + ∑ r, P o d r * g r := by
    intro f g
    rw [← Finset.sum_add_distrib]
    exact Finset.sum_congr rfl fun r _ => by ring
  have e2 : ∀ f g : ρ → ℝ, ∑ r, P o d r * (f r - g r) = ∑ r, P o d r * f r - ∑ r, P o d r * g r := by
    intro f g
    rw [← Finset.sum_sub_distrib]
    exact Finset.sum_congr rfl fun r _ => by ring
  have e3 : ∑ r, P o d r * ((lin o u r + lin o v r) * (lin o u r + lin o v r)) -
      ∑ r, P o d r * ((lin o u r - lin o v r) * (lin o u r - lin o v r)) =
      4 * ∑ r, P o d r * (lin o u r * lin o v r) := by
    rw [← Finset.sum_sub_distrib, Finset.mul_sum]
    exact Finset.sum_congr rfl fun r _ => by ring
  rw [e1, e2]
  linear_combination -e3

theorem sq_polar (u v : ι → ℝ) :
    4 * ∑ i, u i * v i = sq (fun i => u i + v i) - sq (fun i => u i - v i) := by
  unfold sq
  rw [← Finset.sum_sub_distrib, Finset.mul_sum]
  exact Finset.sum_congr rfl fun r _ => by ring

theorem sq_parallel (u v : ι → ℝ) :
    sq (fun i => u i + v i) + sq (fun i => u i - v i) = 2 * sq u + 2 * sq v := by
  unfold sq
  rw [← Finset.sum_add_distrib, Finset.mul_sum, Finset.mul_sum, ← Finset.sum_add_distrib]
  exact Finset.sum_congr rfl fun r _ => by ring

/-- A short step along the covariance does not make scalar products larger than lengths. -/
theorem contract {L s : ℝ} (hL : ∀ r, ∑ i, o r i ^ 2 ≤ L) (hs : 0 ≤ s) (hsL : s * L ≤ 2) (d u v : ι → ℝ) :
    ∑ i, u i * v i - s * cov o d u v ≤ (sq u + sq v) / 2 := by
  have p1 := sq_polar u v
  have p2 := cov_polar o d u v
  have p3 := sq_parallel u v
  have h1 := mul_nonneg hs (cov_self_nonneg o d fun i => u i + v i)
  have h2 : s * cov o d (fun i => u i - v i) (fun i => u i - v i) ≤ 2 * sq (fun i => u i - v i) := by
    refine (mul_le_mul_of_nonneg_left (cov_self_le o hL d _) hs).trans ?_
    rw [← mul_assoc]
    exact mul_le_mul_of_nonneg_right hsL (sq_nonneg' _)
  have p4 : s * (4 * cov o d u v) = s * cov o d (fun i => u i + v i) (fun i => u i + v i) -
      s * cov o d (fun i => u i - v i) (fun i => u i - v i) := by rw [p2]; ring
  linarith

/-! ### one step -/

/-- A step against the error, short enough, does not increase it. -/
theorem step_le {L s : ℝ} (hL : ∀ r, ∑ i, o r i ^ 2 ≤ L) (hs : 0 ≤ s) (hsL : s * L ≤ 2) (c x x' : ι → ℝ)
    (hx : ∀ i, x' i = x i + s * (c i - G o x i)) :
    sq (fun i => G o x' i - c i) ≤ sq fun i => G o x i - c i := by
  obtain ⟨u, hu⟩ : ∃ u : ι → ℝ, u = fun i => G o x' i - c i := ⟨_, rfl⟩
  obtain ⟨g, hg⟩ : ∃ g : ι → ℝ, g = fun i => G o x i - c i := ⟨_, rfl⟩
  rw [← hu, ← hg]
  obtain ⟨φ, hφ⟩ : ∃ φ : ℝ → ℝ, φ = fun τ => ∑ i, u i * G o (fun i => x i + τ * (-s * g i)) i := ⟨_, rfl⟩
  have hd : ∀ τ, HasDerivAt φ (cov o (fun i => x i + τ * (-s * g i)) u fun i => -s * g i) τ := by
    intro τ
    rw [hφ]
    exact hasDerivAt_G o x (fun i => -s * g i) u τ
  obtain ⟨ξ, -, hξ⟩ := exists_hasDerivAt_eq_slope φ _ (zero_lt_one' ℝ)
    (fun τ _ => (hd τ).continuousAt.continuousWithinAt) fun τ _ => hd τ
  have h0 : φ 0 = ∑ i, u i * G o x i := by rw [hφ]; simp
  have h1 : φ 1 = ∑ i, u i * G o x' i := by
    rw [hφ]
    have : (fun i => x i + 1 * (-s * g i)) = x' := by
      funext i
      rw [hx i, hg]
      ring
    simp only [this]
  have hcov : cov o (fun i => x i + ξ * (-s * g i)) u (fun i => -s * g i) =
      -s * cov o (fun i => x i + ξ * (-s * g i)) u g := by
    unfold cov
    simp only [lin_smul]
    have e1 : ∀ f : ρ → ℝ, ∑ r, P o (fun i => x i + ξ * (-s * g i)) r * (-s * f r) =
        -s * ∑ r, P o (fun i => x i + ξ * (-s * g i)) r * f r := by
      intro f
      rw [Finset.mul_sum]
      exact Finset.sum_congr rfl fun r _ => by ring
    have e2 : ∑ r, P o (fun i => x i + ξ * (-s * g i)) r * (lin o u r * (-s * lin o g r)) =
        -s * ∑ r, P o (fun i => x i + ξ * (-s * g i)) r * (lin o u r * lin o g r) := by
      rw [Finset.mul_sum]
      exact Finset.sum_congr rfl fun r _ => by ring
    rw [e1, e2]
    ring
  rw [hcov, h0, h1, sub_zero, div_one] at hξ
  have hc := contract o hL hs hsL (fun i => x i + ξ * (-s * g i)) u g
  have hsq : sq u = ∑ i, u i * g i + (∑ i, u i * G o x' i - ∑ i, u i * G o x i) := by
    unfold sq
    rw [← Finset.sum_sub_distrib, ← Finset.sum_add_distrib]
    refine Finset.sum_congr rfl fun i _ => ?_
    have : u i = G o x' i - c i := by rw [hu]
    have hgi : g i = G o x i - c i := by rw [hg]
    rw [hgi, pow_two]
    nth_rewrite 2 [this]
    ring
  have : sq u ≤ (sq u + sq g) / 2 := by linarith
  linarith

/-- A step along the error, of any length, does not decrease it. -/
theorem step_ge {s : ℝ} (hs : 0 ≤ s) (c x x' : ι → ℝ) (hx : ∀ i, x' i = x i + s * (G o x i - c i)) :
    sq (fun i => G o x i - c i) ≤ sq fun i => G o x' i - c i := by
  rcases hs.eq_or_lt with rfl | hs
  · have : x' = x := by funext i; rw [hx]; ring
    rw [this]
  have h := mono o x x'
  have h1 : ∑ i, (x' i - x i) * (G o x' i - G o x i) =
      s * ∑ i, (G o x i - c i) * ((G o x' i - c i) - (G o x i - c i)) := by
    rw [Finset.mul_sum]
    refine Finset.sum_congr rfl fun i _ => ?_
    rw [hx i]
    ring
  rw [h1] at h
  have h2 : 0 ≤ ∑ i, (G o x i - c i) * ((G o x' i - c i) - (G o x i - c i)) := by
    by_contra hn
    exact absurd h (not_le.2 (mul_neg_of_pos_of_neg hs (not_le.1 hn)))
  have h3 : sq (fun i => G o x' i - c i) - sq (fun i => G o x i - c i) =
      2 * (∑ i, (G o x i - c i) * ((G o x' i - c i) - (G o x i - c i))) +
        ∑ i, ((G o x' i - c i) - (G o x i - c i)) ^ 2 := by
    unfold sq
    rw [Finset.mul_sum, ← Finset.sum_sub_distrib, ← Finset.sum_add_distrib]
    exact Finset.sum_congr rfl fun i _ => by ring
  have h4 : 0 ≤ ∑ i, ((G o x' i - c i) - (G o x i - c i)) ^ 2 := Finset.sum_nonneg fun _ _ => sq_nonneg _
  linarith

/-- It increases the error unless the error makes no difference between the rows. -/
theorem step_gt {s : ℝ} (hs : 0 < s) (c x x' : ι → ℝ) (hx : ∀ i, x' i = x i + s * (G o x i - c i)) (r₁ r₂ : ρ)
    (hr : lin o (fun i => G o x i - c i) r₁ ≠ lin o (fun i => G o x i - c i) r₂) :
    sq (fun i => G o x i - c i) < sq fun i => G o x' i - c i := by
  have h := mono o x x'
  have h1 : ∑ i, (x' i - x i) * (G o x' i - G o x i) =
      s * ∑ i, (G o x i - c i) * ((G o x' i - c i) - (G o x i - c i)) := by
    rw [Finset.mul_sum]
    refine Finset.sum_congr rfl fun i _ => ?_
    rw [hx i]
    ring
  have hne : ∑ i, (x' i - x i) * (G o x' i - G o x i) ≠ 0 := by
    intro h0
    have := mono_zero o x x' h0 r₁ r₂
    have e : (fun i => x' i - x i) = fun i => s * (G o x i - c i) := by
      funext i
      rw [hx i]
      ring
    rw [e, lin_smul, lin_smul] at this
    exact hr (mul_left_cancel₀ hs.ne' this)
  have hpos : 0 < ∑ i, (G o x i - c i) * ((G o x' i - c i) - (G o x i - c i)) := by
    have := lt_of_le_of_ne h hne.symm
    rw [h1] at this
    exact (mul_pos_iff_of_pos_left hs).1 this
  have h3 : sq (fun i => G o x' i - c i) - sq (fun i => G o x i - c i) =
      2 * (∑ i, (G o x i - c i) * ((G o x' i - c i) - (G o x i - c i))) +
        ∑ i, ((G o x' i - c i) - (G o x i - c i)) ^ 2 := by
    unfold sq
    rw [Finset.mul_sum, ← Finset.sum_sub_distrib, ← Finset.sum_add_distrib]
    exact Finset.sum_congr rfl fun i _ => by ring
  have h4 : 0 ≤ ∑ i, ((G o x' i - c i) - (G o x i - c i)) ^ 2 := Finset.sum_nonneg fun _ _ => sq_nonneg _
  linarith

/-! ### the potential -/

/-- The function whose gradient is the error. -/
noncomputable def F (c x : ι → ℝ) : ℝ := Real.log (Z o x) - ∑ i, c i * x i

/-- It is not negative if `c` is a mixture of the rows. -/
theorem F_nonneg (c x : ι → ℝ) (q : ρ → ℝ) (hq : ∀ r, 0 ≤ q r) (hq1 : ∑ r, q r = 1)
    (hc : ∀ i, c i = ∑ r, q r * o r i) : 0 ≤ F o c x := by
  have h1 : ∑ i, c i * x i = ∑ r, q r * lin o x r := by
    simp only [hc, Finset.sum_mul, lin, Finset.mul_sum]
    rw [Finset.sum_comm]
    exact Finset.sum_congr rfl fun r _ => Finset.sum_congr rfl fun i _ => by ring
  have h2 : ∀ r, lin o x r ≤ Real.log (Z o x) := by
    intro r
    rw [← Real.log_exp (lin o x r)]
    exact Real.log_le_log (Real.exp_pos _)
      (Finset.single_le_sum (f := fun r => Real.exp (lin o x r)) (fun _ _ => (Real.exp_pos _).le) (Finset.mem_univ r))
  have h3 : ∑ r, q r * lin o x r ≤ ∑ r, q r * Real.log (Z o x) :=
    Finset.sum_le_sum fun r _ => mul_le_mul_of_nonneg_left (h2 r) (hq r)
  rw [← Finset.sum_mul, hq1, one_mul] at h3
  unfold F
  linarith

/-- Decrease of the potential in one step. -/
theorem F_step {L s : ℝ} (hL : ∀ r, ∑ i, o r i ^ 2 ≤ L) (c x x' : ι → ℝ)
    (hx : ∀ i, x' i = x i + s * (c i - G o x i)) :
    F o c x' ≤ F o c x - s * (1 - s * L / 2) * sq fun i => G o x i - c i := by
  obtain ⟨g, hg⟩ : ∃ g : ι → ℝ, g = fun i => G o x i - c i := ⟨_, rfl⟩
  obtain ⟨v, hv⟩ : ∃ v : ι → ℝ, v = fun i => -s * g i := ⟨_, rfl⟩
  have hsv : sq v = s ^ 2 * sq g := by
    unfold sq
    rw [hv, Finset.mul_sum]
    exact Finset.sum_congr rfl fun i _ => by ring
  -- along the segment
  obtain ⟨ψ, hψ⟩ : ∃ ψ : ℝ → ℝ, ψ = fun τ => ∑ i, v i * G o (fun i => x i + τ * v i) i := ⟨_, rfl⟩
  have hψd : ∀ τ, HasDerivAt ψ (cov o (fun i => x i + τ * v i) v v) τ := by
    intro τ
    rw [hψ]
    exact hasDerivAt_G o x v v τ
  have hψle : ∀ τ, 0 ≤ τ → ψ τ ≤ ψ 0 + τ * (L * sq v) := by
    intro τ hτ
    rcases hτ.eq_or_lt with rfl | hτ
    · simp
    obtain ⟨ξ, -, hξ⟩ := exists_hasDerivAt_eq_slope ψ _ hτ
      (fun τ _ => (hψd τ).continuousAt.continuousWithinAt) fun τ _ => hψd τ
    have := cov_self_le o hL (fun i => x i + ξ * v i) v
    rw [hξ, sub_zero, div_le_iff₀ hτ] at this
    linarith
  obtain ⟨φ, hφ⟩ : ∃ φ : ℝ → ℝ, φ = fun τ => Real.log (Z o (fun i => x i + τ * v i)) - τ * ψ 0 - τ ^ 2 * (L * sq v) / 2 :=
    ⟨_, rfl⟩
  have hφd : ∀ τ, HasDerivAt φ (ψ τ - ψ 0 - τ * (L * sq v)) τ := by
    intro τ
    rw [hφ]
    have h1 := hasDerivAt_logZ o x v τ
    have h2 : HasDerivAt (fun τ : ℝ => τ * ψ 0) (ψ 0) τ := by simpa using (hasDerivAt_id τ).mul_const (ψ 0)
    have h3 : HasDerivAt (fun τ : ℝ => τ ^ 2 * (L * sq v) / 2) (τ * (L * sq v)) τ := by
      refine (((hasDerivAt_pow 2 τ).mul_const (L * sq v)).div_const 2).congr_deriv ?_
      norm_num
      ring
    refine ((h1.sub h2).sub h3).congr_deriv ?_
    rw [hψ]
  have hanti : φ 1 ≤ φ 0 := by
    obtain ⟨ξ, hξ1, hξ⟩ := exists_hasDerivAt_eq_slope φ _ (zero_lt_one' ℝ)
      (fun τ _ => (hφd τ).continuousAt.continuousWithinAt) fun τ _ => hφd τ
    have := hψle ξ hξ1.1.le
    rw [sub_zero, div_one] at hξ
    linarith
  have hx' : (fun i => x i + 1 * v i) = x' := by
    funext i
    rw [hx i, hv, hg]
    ring
  have e1 : φ 1 = Real.log (Z o x') - ψ 0 - L * sq v / 2 := by
    rw [hφ]
    simp only [hx']
    ring
  have e0 : φ 0 = Real.log (Z o x) := by rw [hφ]; simp
  have eψ : ψ 0 = -s * ∑ i, g i * G o x i := by
    rw [hψ, Finset.mul_sum]
    refine Finset.sum_congr rfl fun i _ => ?_
    simp only [zero_mul, add_zero]
    rw [hv]
    ring
  have ec : ∑ i, c i * x' i = ∑ i, c i * x i - s * ∑ i, g i * c i := by
    rw [Finset.mul_sum, ← Finset.sum_sub_distrib]
    refine Finset.sum_congr rfl fun i _ => ?_
    rw [hx i, hg]
    ring
  have eg : ∑ i, g i * G o x i - ∑ i, g i * c i = sq g := by
    unfold sq
    rw [← Finset.sum_sub_distrib]
    refine Finset.sum_congr rfl fun i _ => ?_
    rw [hg]
    ring
  unfold F
  rw [← hg, ec]
  rw [e1, e0, eψ, hsv] at hanti
  have : s * (∑ i, g i * G o x i) - s * (∑ i, g i * c i) = s * sq g := by rw [← eg]; ring
  nlinarith

/-! ### many steps -/

section path
variable {L η : ℝ} (hL : ∀ r, ∑ i, o r i ^ 2 ≤ L) (hη : 0 ≤ η) (hηL : η * L ≤ 2) (c : ι → ℝ) (d : ℕ → ι → ℝ) (s : ℕ → ℝ)
  (hs0 : ∀ t, 0 ≤ s t) (hs1 : ∀ t, s t ≤ η) (hd : ∀ t i, d (t + 1) i = d t i + s t * (c i - G o (d t) i))
include hL hη hηL hs0 hs1 hd

theorem path_step (t : ℕ) : sq (fun i => G o (d (t + 1)) i - c i) ≤ sq fun i => G o (d t) i - c i := by
  obtain ⟨r⟩ := ‹Nonempty ρ›
  have hL0 : 0 ≤ L := (Finset.sum_nonneg fun _ _ => sq_nonneg _).trans (hL r)
  have : Nonempty ρ := ⟨r⟩
  exact step_le o hL (hs0 t) ((mul_le_mul_of_nonneg_right (hs1 t) hL0).trans hηL) c _ _ (hd t)

theorem path_anti : Antitone fun t => sq fun i => G o (d t) i - c i :=
  antitone_nat_of_succ_le fun t => path_step o hL hη hηL c d s hs0 hs1 hd t

/-- The error after `T` steps. -/
theorem path_rate (q : ρ → ℝ) (hq : ∀ r, 0 ≤ q r) (hq1 : ∑ r, q r = 1)
    (hc : ∀ i, c i = ∑ r, q r * o r i) (T : ℕ) (m : ℝ) (hm : 0 ≤ m) (hsm : ∀ t < T, m ≤ s t) :
    T * (m * (1 - η * L / 2) * sq fun i => G o (d T) i - c i) ≤ F o c (d 0) := by
  obtain ⟨r⟩ := ‹Nonempty ρ›
  have hL0 : 0 ≤ L := (Finset.sum_nonneg fun _ _ => sq_nonneg _).trans (hL r)
  have : Nonempty ρ := ⟨r⟩
  have key : ∀ t ≤ T, F o c (d t) + t * (m * (1 - η * L / 2) * sq fun i => G o (d T) i - c i) ≤ F o c (d 0) := by
    intro t
    induction t with
    | zero => intro _; simp
    | succ t ih =>
      intro ht
      have h1 := ih (by omega)
      have h2 := F_step o hL c _ _ (hd t)
      have h3 : m * (1 - η * L / 2) * (sq fun i => G o (d T) i - c i) ≤
          s t * (1 - s t * L / 2) * sq fun i => G o (d t) i - c i := by
        have a1 : 1 - η * L / 2 ≤ 1 - s t * L / 2 := by
          have := mul_le_mul_of_nonneg_right (hs1 t) hL0
          linarith
        have a2 : 0 ≤ 1 - η * L / 2 := by linarith
        have a3 : m * (1 - η * L / 2) ≤ s t * (1 - s t * L / 2) :=
          mul_le_mul (hsm t (by omega)) a1 a2 (hs0 t)
        exact mul_le_mul a3 (path_anti o hL hη hηL c d s hs0 hs1 hd (by omega)) (sq_nonneg' _)
          (mul_nonneg (hs0 t) (a2.trans a1))
      push_cast
      linarith
  have := key T le_rfl
  have h0 := F_nonneg o c (d T) q hq hq1 hc
  linarith

end path

/-- A limit of means is a mixture. -/
theorem mixture_of_tendsto (d : ℕ → ι → ℝ) (c : ι → ℝ)
    (h : ∀ i, Filter.Tendsto (fun t => G o (d t) i) Filter.atTop (nhds (c i))) :
    ∃ q : ρ → ℝ, (∀ r, 0 ≤ q r) ∧ ∑ r, q r = 1 ∧ ∀ i, c i = ∑ r, q r * o r i := by
  have hcomp : IsCompact ((fun q : ρ → ℝ => fun i => ∑ r, q r * o r i) '' stdSimplex ℝ ρ) :=
    (isCompact_stdSimplex ℝ ρ).image (by fun_prop)
  have hmem : ∀ t, G o (d t) ∈ (fun q : ρ → ℝ => fun i => ∑ r, q r * o r i) '' stdSimplex ℝ ρ := fun t =>
    ⟨P o (d t), ⟨fun r => (P_pos o _ r).le, P_sum o _⟩, rfl⟩
  have hlim : Filter.Tendsto (fun t => G o (d t)) Filter.atTop (nhds c) := tendsto_pi_nhds.2 h
  obtain ⟨q, hq, hqc⟩ := hcomp.isClosed.mem_of_tendsto hlim (Filter.Eventually.of_forall hmem)
  exact ⟨q, hq.1, hq.2, fun i => by rw [← hqc]⟩

theorem F_zero (c : ι → ℝ) : F o c (fun _ => 0) = Real.log (Fintype.card ρ) := by
  unfold F Z lin
  simp

end pos

end Verif.Lemmas.Tilt
