/-
The regularised correlation matrix: existence, uniqueness, trace and determinant.
-/
import Verif.Spec.MeanField
import Verif.Model.RegMeanField
import Mathlib.Algebra.Order.Star.Real
import Mathlib.Tactic.Linarith
import Mathlib.Tactic.Ring
import Mathlib.Tactic.FieldSimp

namespace Verif.Lemmas
open Verif Verif.Model Verif.Spec Matrix

variable {n : ℕ}

theorem mfHat_eq (g m : ℝ) (hg : 0 ≤ g) : mfHat g m * mfHat g m - (m - g) * mfHat g m - g = 0 := by
  have hs : Real.sqrt ((m - g) ^ 2 + 4 * g) * Real.sqrt ((m - g) ^ 2 + 4 * g) = (m - g) ^ 2 + 4 * g :=
    Real.mul_self_sqrt (by positivity)
  unfold mfHat
  linear_combination (1 / 4 : ℝ) * hs

theorem mfHat_pos (g m : ℝ) (hg : 0 ≤ g) (h : 0 < g ∨ 0 < m) : 0 < mfHat g m := by
  unfold mfHat
  rcases h with h | h
  · have : |m - g| < Real.sqrt ((m - g) ^ 2 + 4 * g) := by
      rw [← Real.sqrt_sq_eq_abs]
      exact Real.sqrt_lt_sqrt (by positivity) (by linarith)
    have := neg_abs_le (m - g)
    linarith
  · rcases hg.lt_or_eq with h' | h'
    · have : |m - g| < Real.sqrt ((m - g) ^ 2 + 4 * g) := by
        rw [← Real.sqrt_sq_eq_abs]
        exact Real.sqrt_lt_sqrt (by positivity) (by linarith)
      have := neg_abs_le (m - g)
      linarith
    · subst h'
      have := Real.sqrt_nonneg ((m - 0) ^ 2 + 4 * 0)
      have : 0 < m - 0 + Real.sqrt ((m - 0) ^ 2 + 4 * 0) := by linarith
      exact mul_pos (by norm_num) this

theorem mfHat_one (g : ℝ) (hg : 0 ≤ g) : mfHat g 1 = 1 := by
  unfold mfHat
  rw [show (1 - g) ^ 2 + 4 * g = (1 + g) ^ 2 by ring, Real.sqrt_sq (by linarith)]
  ring

theorem mfHat_zero (m : ℝ) (hm : 0 < m) : mfHat 0 m = m := by
  unfold mfHat
  rw [show (m - 0) ^ 2 + 4 * 0 = m ^ 2 by ring, Real.sqrt_sq hm.le]
  ring

section
variable {M V : Matrix (Fin n) (Fin n) ℝ} {m : Fin n → ℝ}

theorem _root_.Verif.Spec.IsEigen.orth' (h : IsEigen M m V) : Vᵀ * V = 1 := mul_eq_one_comm.1 h.orth

/-- Functions of an orthogonally diagonalised matrix multiply. -/
theorem _root_.Verif.Spec.IsEigen.mul_fun (h : IsEigen M m V) (a b : Fin n → ℝ) :
    (V * diagonal a * Vᵀ) * (V * diagonal b * Vᵀ) = V * diagonal (fun i => a i * b i) * Vᵀ := by
  rw [show (V * diagonal a * Vᵀ) * (V * diagonal b * Vᵀ) = V * diagonal a * (Vᵀ * V) * diagonal b * Vᵀ by
    simp only [Matrix.mul_assoc], h.orth', Matrix.mul_one, Matrix.mul_assoc V, diagonal_mul_diagonal]

theorem _root_.Verif.Spec.IsEigen.fun_inv (h : IsEigen M m V) (a : Fin n → ℝ) (ha : ∀ i, a i ≠ 0) :
    (V * diagonal a * Vᵀ)⁻¹ = V * diagonal (fun i => 1 / a i) * Vᵀ := by
  refine Matrix.inv_eq_right_inv ?_
  rw [h.mul_fun]
  have : (fun i => a i * (1 / a i)) = fun _ => 1 := by
    funext i; have := ha i; field_simp
  rw [this, diagonal_one, Matrix.mul_one, h.orth]

theorem _root_.Verif.Spec.IsEigen.fun_posDef (h : IsEigen M m V) (a : Fin n → ℝ) (ha : ∀ i, 0 < a i) :
    (V * diagonal a * Vᵀ).PosDef := by
  have hU : IsUnit V := IsUnit.of_mul_eq_one _ h.orth
  have := (hU.posDef_star_right_conjugate_iff (x := diagonal a)).2 (PosDef.diagonal ha)
  simpa [star_eq_conjTranspose] using this

theorem _root_.Verif.Spec.IsEigen.eigenvalues_pos (h : IsEigen M m V) (hM : M.PosDef) (i : Fin n) : 0 < m i := by
  have hU : IsUnit V := IsUnit.of_mul_eq_one _ h.orth
  have h2 : M = V * diagonal m * star V := by
    rw [star_eq_conjTranspose, conjTranspose_eq_transpose_of_trivial]; exact h.dec
  have := (hU.posDef_star_right_conjugate_iff (x := diagonal m)).1 (h2 ▸ hM)
  exact (posDef_diagonal_iff.1 this) i

theorem _root_.Verif.Spec.IsEigen.eigenvalues_one (h : IsEigen M m V) (hM : M = 1) (i : Fin n) : m i = 1 := by
  have : diagonal m = 1 := by
    have : diagonal m = Vᵀ * M * V := by
      rw [h.dec, show Vᵀ * (V * diagonal m * Vᵀ) * V = (Vᵀ * V) * diagonal m * (Vᵀ * V) by
        simp only [Matrix.mul_assoc], h.orth', Matrix.one_mul, Matrix.mul_one]
    rw [this, hM, Matrix.mul_one, h.orth']
  have := congrFun (congrFun this i) i
  simpa using this

/-- The regularised matrix built from the eigenvalues. -/
theorem _root_.Verif.Spec.IsEigen.regCorr (h : IsEigen M m V) (g : ℝ) (hg : 0 ≤ g) (hp : 0 < g ∨ M.PosDef) :
    RegCorr g M (V * diagonal (fun k => mfHat g (m k)) * Vᵀ) := by
  have hpos : ∀ k, 0 < mfHat g (m k) := fun k => mfHat_pos g _ hg (hp.imp_right fun hM => h.eigenvalues_pos hM k)
  refine ⟨h.fun_posDef _ hpos, ?_⟩
  rw [h.fun_inv _ fun k => (hpos k).ne']
  have e1 : g • (V * diagonal (fun i => 1 / mfHat g (m i)) * Vᵀ) =
      V * diagonal (fun i => g * (1 / mfHat g (m i))) * Vᵀ := by
    rw [← Matrix.smul_mul, ← Matrix.mul_smul]
    congr 2
    ext i j
    by_cases hij : i = j
    · subst hij; simp
    · simp [hij]
  have e2 : g • (1 : Matrix (Fin n) (Fin n) ℝ) = V * diagonal (fun _ => g) * Vᵀ := by
    rw [show (diagonal fun _ : Fin n => g) = g • (1 : Matrix (Fin n) (Fin n) ℝ) from
      (smul_one_eq_diagonal g).symm, Matrix.mul_smul, Matrix.smul_mul, Matrix.mul_one, h.orth]
  rw [e1, e2]
  conv_rhs => rw [h.dec]
  rw [← Matrix.sub_mul, ← Matrix.sub_mul, ← Matrix.mul_sub, ← Matrix.mul_sub, diagonal_sub, diagonal_sub]
  congr 3
  funext k
  have h1 := mfHat_eq g (m k) hg
  have h2 := (hpos k).ne'
  field_simp
  linarith

/-- Trace of a function of the matrix. -/
theorem _root_.Verif.Spec.IsEigen.fun_trace (h : IsEigen M m V) (a : Fin n → ℝ) :
    (V * diagonal a * Vᵀ).trace = ∑ i, a i := by
  rw [Matrix.trace_mul_comm, ← Matrix.mul_assoc, h.orth', Matrix.one_mul, trace_diagonal]

/-- Determinant of a function of the matrix. -/
theorem _root_.Verif.Spec.IsEigen.fun_det (h : IsEigen M m V) (a : Fin n → ℝ) :
    (V * diagonal a * Vᵀ).det = ∏ i, a i := by
  have : V.det * Vᵀ.det = 1 := by rw [← det_mul, h.orth, det_one]
  rw [det_mul, det_mul, det_diagonal]
  linear_combination (∏ i, a i) * this

end

/-- Trace of the product of two positive semidefinite matrices. -/
theorem trace_mul_nonneg {P B : Matrix (Fin n) (Fin n) ℝ} (hP : P.PosSemidef) (hB : B.PosSemidef) :
    0 ≤ (P * B).trace := by
  have hs := hB.isHermitian.spectral_theorem
  set U : Matrix (Fin n) (Fin n) ℝ := (hB.isHermitian.eigenvectorUnitary : Matrix (Fin n) (Fin n) ℝ)
  set b := hB.isHermitian.eigenvalues with hb
  have e : B = U * diagonal b * star U := by
    conv_lhs => rw [hs]
    rfl
  rw [e, ← Matrix.mul_assoc, Matrix.trace_mul_comm, ← Matrix.mul_assoc, ← Matrix.mul_assoc]
  have hQ : (star U * P * U).PosSemidef := by
    have := hP.conjTranspose_mul_mul_same U
    simpa [star_eq_conjTranspose] using this
  rw [show (star U * P * U * diagonal b).trace = ∑ i, (star U * P * U) i i * b i by
    simp [Matrix.trace, Matrix.mul_diagonal]]
  exact Finset.sum_nonneg fun i _ => mul_nonneg hQ.diag_nonneg (hB.eigenvalues_nonneg i)

/-- The regularised matrix is unique. -/
theorem _root_.Verif.Spec.RegCorr.unique {g : ℝ} (hg : 0 ≤ g) {M A B : Matrix (Fin n) (Fin n) ℝ} (hA : RegCorr g M A)
    (hB : RegCorr g M B) : A = B := by
  have hAu := hA.1.isUnit
  have hBu := hB.1.isUnit
  have hA' : A * A⁻¹ = 1 := Matrix.mul_nonsing_inv _ ((Matrix.isUnit_iff_isUnit_det _).1 hAu)
  have hB' : B⁻¹ * B = 1 := Matrix.nonsing_inv_mul _ ((Matrix.isUnit_iff_isUnit_det _).1 hBu)
  have h1 : A - g • A⁻¹ = B - g • B⁻¹ := hA.2.trans hB.2.symm
  have h2 : A * (A - B) * B = -(g • (A - B)) := by
    have h3 : A - B = g • (A⁻¹ - B⁻¹) := by
      rw [smul_sub, sub_eq_sub_iff_add_eq_add]
      rw [sub_eq_sub_iff_add_eq_add] at h1
      rw [h1, add_comm]
    conv_lhs => rw [h3]
    rw [Matrix.mul_smul, Matrix.smul_mul, Matrix.mul_sub, Matrix.sub_mul, hA', Matrix.one_mul,
      Matrix.mul_assoc, hB', Matrix.mul_one, ← smul_neg, neg_sub]
  have hX : (A - B)ᵀ = A - B := by
    have e1 := hA.1.isHermitian.eq
    have e2 := hB.1.isHermitian.eq
    rw [conjTranspose_eq_transpose_of_trivial] at e1 e2
    rw [transpose_sub, e1, e2]
  have hP : ((A - B) * A * (A - B)).PosSemidef := by
    have := hA.1.posSemidef.conjTranspose_mul_mul_same (A - B)
    rwa [conjTranspose_eq_transpose_of_trivial, hX] at this
  have ht := trace_mul_nonneg hP hB.1.posSemidef
  have e : (A - B) * A * (A - B) * B = -(g • ((A - B) * (A - B))) := by
    rw [Matrix.mul_assoc, Matrix.mul_assoc, ← Matrix.mul_assoc A, h2, Matrix.mul_neg, Matrix.mul_smul]
  rw [e, trace_neg, trace_smul, smul_eq_mul] at ht
  have hnn : 0 ≤ ((A - B) * (A - B)).trace := by
    have := (posSemidef_conjTranspose_mul_self (A - B)).trace_nonneg
    rwa [conjTranspose_eq_transpose_of_trivial, hX] at this
  rcases hg.lt_or_eq with h | h
  · have h0 : ((A - B)ᴴ * (A - B)).trace = 0 := by
      rw [conjTranspose_eq_transpose_of_trivial, hX]
      nlinarith
    exact sub_eq_zero.1 (trace_conjTranspose_mul_self_eq_zero_iff.1 h0)
  · subst h
    simpa using h1

end Verif.Lemmas
