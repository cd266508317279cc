/-
Auxiliary field integrals of the homogeneous Ising model.
-/
import Verif.Model.Homogeneous
import Verif.Spec.Homogeneous
import Verif.Lemmas.Product
import Verif.Lemmas.MaxEnt
import Verif.Lemmas.Ergodic2
import Mathlib.Probability.Distributions.Gaussian.Real

namespace Verif.Lemmas
open Verif Verif.Spec Verif.Model
open MeasureTheory ProbabilityTheory
open scoped NNReal

theorem logCosh_eq (x : ℝ) : logCosh x = Real.log (Real.cosh x) := by
  have h : Real.cosh x = Real.exp |x| * (1 + Real.exp (-2 * |x|)) / 2 := by
    rw [← Real.cosh_abs, Real.cosh_eq, mul_add, ← Real.exp_add]
    ring_nf
  have h1 : 0 < 1 + Real.exp (-2 * |x|) := by positivity
  rw [h, Real.log_div (by positivity) (by norm_num), Real.log_mul (Real.exp_pos _).ne' h1.ne',
    Real.log_exp]
  rfl

/-! ### Moments of the normal distribution -/

theorem integrable_gauss (μ : ℝ) {v : ℝ≥0} (hv : v ≠ 0) (f : ℝ → ℝ)
    (hf : Integrable f (gaussianReal μ v)) :
    Integrable fun x => gaussianPDFReal μ v x * f x := by
  rw [gaussianReal_of_var_ne_zero _ hv] at hf
  rw [integrable_withDensity_iff_integrable_smul' (measurable_gaussianPDF μ v)
    (ae_of_all _ fun _ => gaussianPDF_lt_top)] at hf
  simpa [toReal_gaussianPDF] using hf

theorem integrable_pow_gauss (μ : ℝ) (v : ℝ≥0) (k : ℕ) :
    Integrable (fun x => x ^ k) (gaussianReal μ v) := by
  have := (memLp_id_gaussianReal (μ := μ) (v := v) (k : ℝ≥0)).integrable_norm_pow' 
  refine (this.mono' ?_ ?_)
  · fun_prop
  · exact ae_of_all _ fun x => by simp

theorem integral_sq_gauss (μ : ℝ) (v : ℝ≥0) : ∫ x, x ^ 2 ∂(gaussianReal μ v) = μ ^ 2 + v := by
  have h := variance_eq_sub (memLp_id_gaussianReal (μ := μ) (v := v) 2)
  rw [variance_id_gaussianReal] at h
  have h1 : ∫ x, (id x : ℝ) ∂(gaussianReal μ v) = μ := integral_id_gaussianReal
  have h2 : ∫ x, ((id ^ 2 : ℝ → ℝ) x) ∂(gaussianReal μ v) = ∫ x, x ^ 2 ∂(gaussianReal μ v) := rfl
  rw [h1, h2] at h
  linarith

theorem integrable_quadratic (μ : ℝ) {v : ℝ≥0} (hv : v ≠ 0) (a b c : ℝ) :
    Integrable fun x => gaussianPDFReal μ v x * (a + b * x + c * x ^ 2) := by
  refine integrable_gauss μ hv _ ?_
  refine ((integrable_const a).add ?_).add ?_
  · have := integrable_pow_gauss μ v 1
    simp only [pow_one] at this
    exact this.const_mul b
  · exact (integrable_pow_gauss μ v 2).const_mul c

theorem integral_quadratic (μ : ℝ) {v : ℝ≥0} (hv : v ≠ 0) (a b c : ℝ) :
    ∫ x, gaussianPDFReal μ v x * (a + b * x + c * x ^ 2) = a + b * μ + c * (μ ^ 2 + v) := by
  have e := integral_gaussianReal_eq_integral_smul (μ := μ) (f := fun x => a + b * x + c * x ^ 2) hv
  simp only [smul_eq_mul] at e
  have i1 : Integrable (fun x : ℝ => b * x) (gaussianReal μ v) := by
    have := integrable_pow_gauss μ v 1
    simp only [pow_one] at this
    exact this.const_mul b
  have i2 : Integrable (fun x : ℝ => c * x ^ 2) (gaussianReal μ v) :=
    (integrable_pow_gauss μ v 2).const_mul c
  have i0 : Integrable (fun x : ℝ => a + b * x) (gaussianReal μ v) := (integrable_const a).add i1
  rw [← e, integral_add i0 i2, integral_add (integrable_const a) i1,
    integral_const_mul, integral_const_mul, integral_sq_gauss, integral_id_gaussianReal]
  simp

theorem integrable_list {α : Type*} (S : List α) (f : α → ℝ → ℝ) (h : ∀ s ∈ S, Integrable (f s)) :
    Integrable fun x => (S.map fun s => f s x).sum := by
  induction S with
  | nil => simp
  | cons a S ih =>
    simp only [List.map_cons, List.sum_cons]
    exact (h a (by simp)).add (ih fun s hs => h s (List.mem_cons_of_mem _ hs))

theorem integral_list {α : Type*} (S : List α) (f : α → ℝ → ℝ) (h : ∀ s ∈ S, Integrable (f s)) :
    ∫ x, (S.map fun s => f s x).sum = (S.map fun s => ∫ x, f s x).sum := by
  induction S with
  | nil => simp
  | cons a S ih =>
    simp only [List.map_cons, List.sum_cons]
    rw [integral_add (h a (by simp)) (integrable_list S f fun s hs => h s (List.mem_cons_of_mem _ hs)),
      ih fun s hs => h s (List.mem_cons_of_mem _ hs)]

/-- A mixture of normal densities against a quadratic polynomial for each component. -/
theorem mixture {α : Type*} (S : List α) (w μ a b c : α → ℝ) {v : ℝ≥0} (hv : v ≠ 0) :
    (Integrable fun x => (S.map fun s => w s * (gaussianPDFReal (μ s) v x *
      (a s + b s * x + c s * x ^ 2))).sum) ∧
    ∫ x, (S.map fun s => w s * (gaussianPDFReal (μ s) v x * (a s + b s * x + c s * x ^ 2))).sum =
      (S.map fun s => w s * (a s + b s * μ s + c s * (μ s ^ 2 + v))).sum := by
  have hi : ∀ s ∈ S, Integrable fun x => w s * (gaussianPDFReal (μ s) v x *
      (a s + b s * x + c s * x ^ 2)) := fun s _ => (integrable_quadratic _ hv _ _ _).const_mul _
  refine ⟨integrable_list S _ hi, ?_⟩
  rw [integral_list S _ hi]
  apply list_sum_congr
  intro s _
  rw [integral_const_mul, integral_quadratic _ hv]

/-! ### The integrand as a mixture -/

/-- Sum of all spins. -/
def mag (N : ℕ) (s : List ℤ) : ℝ := ∑ i ∈ Finset.range N, ((s.getD i 0 : ℤ) : ℝ)

theorem homE_mag (N : ℕ) (h J : ℝ) (s : List ℤ) : homE N h J s = -(h * mag N s) - J * mag N s ^ 2 := by
  have h2 : (∑ i ∈ Finset.range N, ∑ j ∈ Finset.range N,
      J * ((s.getD i 0 : ℤ) : ℝ) * ((s.getD j 0 : ℤ) : ℝ)) = J * mag N s ^ 2 := by
    unfold mag
    rw [pow_two, Finset.sum_mul_sum, Finset.mul_sum]
    refine Finset.sum_congr rfl fun i _ => ?_
    rw [Finset.mul_sum]
    exact Finset.sum_congr rfl fun j _ => by rw [mul_assoc]
  unfold homE
  rw [h2, ← Finset.mul_sum]
  rfl

theorem exp_mag (N : ℕ) (y : ℝ) (s : List ℤ) :
    Real.exp (y * mag N s) = ∏ i ∈ Finset.range N, Real.exp (y * ((s.getD i 0 : ℤ) : ℝ)) := by
  rw [mag, Finset.mul_sum, Real.exp_sum]

theorem sum_exp_mag (N : ℕ) (y : ℝ) :
    ((words [1, -1] N).map fun s => Real.exp (y * mag N s)).sum = (2 * Real.cosh y) ^ N := by
  have := sum_words_prod [1, -1] N fun _ a => Real.exp (y * ((a : ℤ) : ℝ))
  simp only [exp_mag]
  rw [this, Finset.prod_const, Finset.card_range]
  simp [Real.cosh_eq]
  ring

theorem sum_exp_spin (N : ℕ) (y : ℝ) (i : ℕ) (hi : i < N) :
    ((words [1, -1] N).map fun s => Real.exp (y * mag N s) * ((s.getD i 0 : ℤ) : ℝ)).sum =
      Real.tanh y * (2 * Real.cosh y) ^ N := by
  have := sum_words_prod [1, -1] N fun j a =>
    Real.exp (y * ((a : ℤ) : ℝ)) * if j = i then ((a : ℤ) : ℝ) else 1
  have e : ∀ s : List ℤ, Real.exp (y * mag N s) * ((s.getD i 0 : ℤ) : ℝ) =
      ∏ j ∈ Finset.range N, (Real.exp (y * ((s.getD j 0 : ℤ) : ℝ)) *
        if j = i then ((s.getD j 0 : ℤ) : ℝ) else 1) := by
    intro s
    rw [Finset.prod_mul_distrib, exp_mag]
    congr 1
    rw [Finset.prod_ite_eq' (Finset.range N) i fun j => ((s.getD j 0 : ℤ) : ℝ)]
    simp [hi]
  simp only [e]
  rw [this]
  have h2 : ∀ j ∈ Finset.range N, (([1, -1] : List ℤ).map fun a =>
      Real.exp (y * ((a : ℤ) : ℝ)) * if j = i then ((a : ℤ) : ℝ) else 1).sum =
      (2 * Real.cosh y) * if j = i then Real.tanh y else 1 := by
    intro j _
    have hc : Real.cosh y ≠ 0 := (Real.cosh_pos y).ne'
    by_cases hj : j = i
    · simp only [hj, if_true]
      rw [Real.tanh_eq_sinh_div_cosh, mul_assoc, mul_div_cancel₀ _ hc]
      simp [Real.sinh_eq]; ring
    · simp only [hj, if_false]
      simp [Real.cosh_eq]; ring
  rw [Finset.prod_congr rfl h2, Finset.prod_mul_distrib, Finset.prod_const, Finset.card_range,
    Finset.prod_ite_eq' (Finset.range N) i fun _ => Real.tanh y]
  simp [hi]
  ring

theorem sum_exp_mag_mul (N : ℕ) (y : ℝ) :
    ((words [1, -1] N).map fun s => Real.exp (y * mag N s) * mag N s).sum =
      N * Real.tanh y * (2 * Real.cosh y) ^ N := by
  have e : ∀ s : List ℤ, Real.exp (y * mag N s) * mag N s =
      ∑ i ∈ Finset.range N, Real.exp (y * mag N s) * ((s.getD i 0 : ℤ) : ℝ) := by
    intro s
    rw [← Finset.mul_sum]
    rfl
  simp only [e]
  have : ∀ (S : List (List ℤ)), (S.map fun s => ∑ i ∈ Finset.range N,
      Real.exp (y * mag N s) * ((s.getD i 0 : ℤ) : ℝ)).sum =
      ∑ i ∈ Finset.range N, (S.map fun s => Real.exp (y * mag N s) * ((s.getD i 0 : ℤ) : ℝ)).sum := by
    intro S
    induction S with
    | nil => simp
    | cons a S ih => simp only [List.map_cons, List.sum_cons, ih, Finset.sum_add_distrib]
  rw [this, Finset.sum_congr rfl fun i hi => sum_exp_spin N y i (Finset.mem_range.1 hi)]
  simp [mul_assoc]

/-- Variance of the auxiliary field. -/
noncomputable def auxVar (J : ℝ) (N : ℕ) : ℝ≥0 := (1 / (2 * ((N : ℝ) ^ 2 * J))).toNNReal

theorem auxVar_coe {J : ℝ} (hJ : 0 < J) {N : ℕ} (hN : 1 ≤ N) :
    ((auxVar J N : ℝ≥0) : ℝ) = 1 / (2 * ((N : ℝ) ^ 2 * J)) := by
  have : (0 : ℝ) < N := by exact_mod_cast hN
  exact Real.coe_toNNReal _ (by positivity)

theorem auxVar_ne {J : ℝ} (hJ : 0 < J) {N : ℕ} (hN : 1 ≤ N) : auxVar J N ≠ 0 := by
  have : (0 : ℝ) < N := by exact_mod_cast hN
  have h : (0 : ℝ) < auxVar J N := by rw [auxVar_coe hJ hN]; positivity
  exact_mod_cast h.ne'

/-- `exp(-F)` of the model. -/
noncomputable def auxDens (h J : ℝ) (N : ℕ) (m : ℝ) : ℝ :=
  (Real.sqrt (Real.pi / ((N : ℝ) ^ 2 * J)))⁻¹ * Real.exp (-((N : ℝ) ^ 2 * J * m ^ 2)) *
    (2 * Real.cosh (2 * (N * J) * m + h)) ^ N

theorem homInt_ok (h : ℝ) {J : ℝ} (hJ : 0 < J) {N : ℕ} (hN : 1 ≤ N) (g : ℝ → ℝ) (m : ℝ) :
    homInt h J N g m = .ok (g m * auxDens h J N m) := by
  have hN' : (0 : ℝ) < N := by exact_mod_cast hN
  have hp : (0 : ℝ) < N * (N * J) := by positivity
  have hs : 0 < Real.sqrt (Real.pi / (N * (N * J))) :=
    Real.sqrt_pos.2 (div_pos Real.pi_pos hp)
  have hc := Real.cosh_pos (2 * (N * J) * m + h)
  unfold homInt fHomogeneous
  simp only [if_neg hp.ne', if_neg hp.le.not_gt]
  congr 2
  rw [logCosh_eq]
  have e : -(N * (N * J * m * m - Real.log 2 - Real.log (Real.cosh (2 * (N * J) * m + h))) +
      Real.log (Real.sqrt (Real.pi / (N * (N * J))))) =
      -Real.log (Real.sqrt (Real.pi / (N * (N * J)))) + (-((N : ℝ) ^ 2 * J * m ^ 2)) +
        N * Real.log (2 * Real.cosh (2 * (N * J) * m + h)) := by
    rw [Real.log_mul (by norm_num) hc.ne']
    ring
  rw [e, Real.exp_add, Real.exp_add, Real.exp_neg, Real.exp_log hs, Real.exp_nat_mul,
    Real.exp_log (by positivity)]
  unfold auxDens
  rw [show (N : ℝ) ^ 2 * J = N * (N * J) by ring]

theorem gauss_term (h : ℝ) {J : ℝ} (hJ : 0 < J) {N : ℕ} (hN : 1 ≤ N) (m : ℝ) (s : List ℤ) :
    (Real.sqrt (Real.pi / ((N : ℝ) ^ 2 * J)))⁻¹ * Real.exp (-((N : ℝ) ^ 2 * J * m ^ 2)) *
      Real.exp ((2 * (N * J) * m + h) * mag N s) =
      Real.exp (-homE N h J s) * gaussianPDFReal (mag N s / N) (auxVar J N) m := by
  have hN' : (0 : ℝ) < N := by exact_mod_cast hN
  unfold gaussianPDFReal
  rw [auxVar_coe hJ hN, homE_mag]
  have e1 : 2 * Real.pi * (1 / (2 * ((N : ℝ) ^ 2 * J))) = Real.pi / ((N : ℝ) ^ 2 * J) := by
    field_simp
  rw [e1, mul_assoc, ← Real.exp_add, mul_left_comm (Real.exp _), ← Real.exp_add]
  congr 2
  field_simp
  ring

theorem auxDens_mixture (h : ℝ) {J : ℝ} (hJ : 0 < J) {N : ℕ} (hN : 1 ≤ N) (m : ℝ) :
    auxDens h J N m = ((words [1, -1] N).map fun s =>
      Real.exp (-homE N h J s) * gaussianPDFReal (mag N s / N) (auxVar J N) m).sum := by
  unfold auxDens
  rw [← sum_exp_mag, ← list_sum_mul_left]
  exact list_sum_congr fun s _ => gauss_term h hJ hN m s

theorem tanh_mixture (h : ℝ) {J : ℝ} (hJ : 0 < J) {N : ℕ} (hN : 1 ≤ N) (m : ℝ) :
    N * Real.tanh (2 * (N * J) * m + h) * auxDens h J N m = ((words [1, -1] N).map fun s =>
      Real.exp (-homE N h J s) * (gaussianPDFReal (mag N s / N) (auxVar J N) m * mag N s)).sum := by
  have e : N * Real.tanh (2 * (N * J) * m + h) * auxDens h J N m =
      (Real.sqrt (Real.pi / ((N : ℝ) ^ 2 * J)))⁻¹ * Real.exp (-((N : ℝ) ^ 2 * J * m ^ 2)) *
        (N * Real.tanh (2 * (N * J) * m + h) * (2 * Real.cosh (2 * (N * J) * m + h)) ^ N) := by
    unfold auxDens; ring
  rw [e, ← sum_exp_mag_mul, ← list_sum_mul_left]
  refine list_sum_congr fun s _ => ?_
  rw [← mul_assoc, gauss_term h hJ hN m s]
  ring

theorem spin_mixture (h : ℝ) {J : ℝ} (hJ : 0 < J) {N : ℕ} (hN : 1 ≤ N) (i : ℕ) (hi : i < N) (m : ℝ) :
    Real.tanh (2 * (N * J) * m + h) * auxDens h J N m = ((words [1, -1] N).map fun s =>
      Real.exp (-homE N h J s) * (gaussianPDFReal (mag N s / N) (auxVar J N) m *
        ((s.getD i 0 : ℤ) : ℝ))).sum := by
  have e : Real.tanh (2 * (N * J) * m + h) * auxDens h J N m =
      (Real.sqrt (Real.pi / ((N : ℝ) ^ 2 * J)))⁻¹ * Real.exp (-((N : ℝ) ^ 2 * J * m ^ 2)) *
        (Real.tanh (2 * (N * J) * m + h) * (2 * Real.cosh (2 * (N * J) * m + h)) ^ N) := by
    unfold auxDens; ring
  rw [e, ← sum_exp_spin N _ i hi, ← list_sum_mul_left]
  refine list_sum_congr fun s _ => ?_
  rw [← mul_assoc, gauss_term h hJ hN m s]
  ring

/-! ### The integrals -/

/-- Integral of the density against a factor that is a mixture of quadratic polynomials. -/
theorem quad_mixture {quad : (ℝ → Py ℝ) → Py ℝ} (hq : QuadExact quad) (h : ℝ) {J : ℝ} (hJ : 0 < J)
    {N : ℕ} (hN : 1 ≤ N) (g : ℝ → ℝ) (a b c : List ℤ → ℝ)
    (hg : ∀ m, g m * auxDens h J N m = ((words [1, -1] N).map fun s => Real.exp (-homE N h J s) *
      (gaussianPDFReal (mag N s / N) (auxVar J N) m * (a s + b s * m + c s * m ^ 2))).sum) :
    quad (homInt h J N g) = .ok ((words [1, -1] N).map fun s => Real.exp (-homE N h J s) *
      (a s + b s * (mag N s / N) + c s * ((mag N s / N) ^ 2 + 1 / (2 * ((N : ℝ) ^ 2 * J))))).sum := by
  obtain ⟨h1, h2⟩ := mixture (words [1, -1] N) (fun s => Real.exp (-homE N h J s))
    (fun s => mag N s / N) a b c (auxVar_ne hJ hN)
  rw [hq.1 _ _ (fun m => (homInt_ok h hJ hN g m).trans (congrArg _ (hg m))) h1, h2, auxVar_coe hJ hN]

theorem quad_Z {quad : (ℝ → Py ℝ) → Py ℝ} (hq : QuadExact quad) (h : ℝ) {J : ℝ} (hJ : 0 < J)
    {N : ℕ} (hN : 1 ≤ N) :
    quad (homInt h J N fun _ => 1) = .ok (partition (words [1, -1] N) (homE N h J)) := by
  rw [quad_mixture hq h hJ hN (fun _ => 1) (fun _ => 1) (fun _ => 0) (fun _ => 0) fun m => by
    simp [auxDens_mixture h hJ hN m]]
  simp [partition]

theorem ratio_of_quad {quad : (ℝ → Py ℝ) → Py ℝ} {f : ℝ → Py ℝ} (h J : ℝ) (N : ℕ)
    (φ : List ℤ → ℝ)
    (hf : quad f = .ok ((words [1, -1] N).map fun s => Real.exp (-homE N h J s) * φ s).sum) :
    quadRatio quad f (partition (words [1, -1] N) (homE N h J)) =
      .ok (expect (words [1, -1] N) (homE N h J) φ) := by
  have hp := partition_pos (words [1, -1] N) (homE N h J) (words_ne_nil _ 1 (by simp) N)
  unfold quadRatio
  rw [hf]
  simp only [if_neg hp.ne', expect_eq_div]

theorem ratio_m {quad : (ℝ → Py ℝ) → Py ℝ} (hq : QuadExact quad) (h : ℝ) {J : ℝ} (hJ : 0 < J)
    {N : ℕ} (hN : 1 ≤ N) :
    quadRatio quad (homInt h J N fun m => m) (partition (words [1, -1] N) (homE N h J)) =
      .ok (expect (words [1, -1] N) (homE N h J) fun s => mag N s / N) := by
  apply ratio_of_quad
  rw [quad_mixture hq h hJ hN (fun m => m) (fun _ => 0) (fun _ => 1) (fun _ => 0) fun m => by
    rw [auxDens_mixture h hJ hN m, ← list_sum_mul_left]
    exact list_sum_congr fun s _ => by ring]
  simp

theorem ratio_x {quad : (ℝ → Py ℝ) → Py ℝ} (hq : QuadExact quad) (h : ℝ) {J : ℝ} (hJ : 0 < J)
    {N : ℕ} (hN : 1 ≤ N) (i : ℕ) (hi : i < N) :
    quadRatio quad (homInt h J N fun m => Real.tanh (2 * (N * J) * m + h))
      (partition (words [1, -1] N) (homE N h J)) =
      .ok (expect (words [1, -1] N) (homE N h J) fun s => ((s.getD i 0 : ℤ) : ℝ)) := by
  apply ratio_of_quad
  rw [quad_mixture hq h hJ hN (fun m => Real.tanh (2 * (N * J) * m + h))
    (fun s => ((s.getD i 0 : ℤ) : ℝ)) (fun _ => 0) (fun _ => 0) fun m => by
    rw [spin_mixture h hJ hN i hi m]
    exact list_sum_congr fun s _ => by ring]
  simp

theorem ratio_dFdT {quad : (ℝ → Py ℝ) → Py ℝ} (hq : QuadExact quad) (h : ℝ) {J : ℝ} (hJ : 0 < J)
    {N : ℕ} (hN : 1 ≤ N) :
    quadRatio quad (homInt h J N fun m => dFdT h J N m) (partition (words [1, -1] N) (homE N h J)) =
      .ok (expect (words [1, -1] N) (homE N h J) fun s => -homE N h J s) := by
  have hN' : (0 : ℝ) < N := by exact_mod_cast hN
  apply ratio_of_quad
  rw [quad_mixture hq h hJ hN (fun m => dFdT h J N m) (fun s => h * mag N s + 1 / 2)
    (fun s => 2 * (N * J) * mag N s) (fun _ => -((N : ℝ) ^ 2 * J)) fun m => by
    have e : dFdT h J N m * auxDens h J N m = (-((N : ℝ) ^ 2 * J) * m ^ 2 + 1 / 2) * auxDens h J N m +
        (2 * (N * J) * m + h) * (N * Real.tanh (2 * (N * J) * m + h) * auxDens h J N m) := by
      unfold dFdT; ring
    rw [e, tanh_mixture h hJ hN m, auxDens_mixture h hJ hN m, ← list_sum_mul_left,
      ← list_sum_mul_left, ← list_sum_add]
    exact list_sum_congr fun s _ => by ring]
  congr 1
  refine list_sum_congr fun s _ => ?_
  congr 1
  rw [homE_mag]
  field_simp
  ring

/-! ### Means of the spins -/

theorem expect_mag (N : ℕ) (E : List ℤ → ℝ) :
    expect (words [1, -1] N) E (mag N) =
      ∑ i ∈ Finset.range N, expect (words [1, -1] N) E fun s => ((s.getD i 0 : ℤ) : ℝ) := by
  unfold expect mag
  rw [← list_sum_finset_comm]
  exact list_sum_congr fun s _ => by rw [Finset.mul_sum]

theorem spin_mean_lt (N : ℕ) (E : List ℤ → ℝ) (i : ℕ) (hi : i < N) :
    -1 < expect (words [1, -1] N) E (fun s => ((s.getD i 0 : ℤ) : ℝ)) ∧
      expect (words [1, -1] N) E (fun s => ((s.getD i 0 : ℤ) : ℝ)) < 1 := by
  have hne := words_ne_nil [1, -1] 1 (by simp) N
  have key : ∀ e : ℤ, e = 1 ∨ e = -1 →
      0 < 1 - e * expect (words [1, -1] N) E (fun s => ((s.getD i 0 : ℤ) : ℝ)) := by
    intro e he
    have h1 : 1 - e * expect (words [1, -1] N) E (fun s => ((s.getD i 0 : ℤ) : ℝ)) =
        ((words [1, -1] N).map fun s => boltzmann (words [1, -1] N) E s *
          (1 - e * ((s.getD i 0 : ℤ) : ℝ))).sum := by
      unfold expect
      conv_lhs => rw [← sum_boltzmann (words [1, -1] N) E hne]
      rw [← list_sum_mul_left, ← list_sum_sub]
      exact list_sum_congr fun s _ => by ring
    have hnn : ∀ s ∈ words [1, -1] N, 0 ≤ boltzmann (words [1, -1] N) E s *
        (1 - e * ((s.getD i 0 : ℤ) : ℝ)) := by
      intro s hs
      refine mul_nonneg (boltzmann_pos _ _ hne s).le ?_
      obtain ⟨hl, hv⟩ := mem_words.1 hs
      have : s.getD i 0 ∈ ([1, -1] : List ℤ) := by
        rw [List.getD_eq_getElem _ _ (by omega)]
        exact hv _ (List.getElem_mem _)
      simp only [List.mem_cons, List.not_mem_nil, or_false] at this
      rcases he with rfl | rfl <;> rcases this with h | h <;> rw [h] <;> norm_num
    rw [h1]
    refine lt_of_le_of_ne (List.sum_nonneg ?_) ?_
    · intro x hx
      obtain ⟨s, hs, rfl⟩ := List.mem_map.1 hx
      exact hnn s hs
    · intro h0
      have hs : List.replicate N (-e) ∈ words [1, -1] N := mem_words.2 ⟨by simp, fun x hx => by
        rw [List.eq_of_mem_replicate hx]; rcases he with rfl | rfl <;> simp⟩
      have := eq_of_sum_zero _ _ hnn h0.symm _ hs
      rcases mul_eq_zero.1 this with h | h
      · exact (boltzmann_pos _ _ hne _).ne' h
      · rw [List.getD_eq_getElem _ _ (by simpa using hi)] at h
        rcases he with rfl | rfl <;> norm_num at h
  have a := key 1 (Or.inl rfl)
  have b := key (-1) (Or.inr rfl)
  push_cast at a b
  constructor <;> linarith

end Verif.Lemmas
