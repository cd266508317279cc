/-
C89: the unregularised branch of SmeanField (`useRegularizedEq=False`).
-/
import Verif.Props.MeanFieldEq

namespace Verif.Props
open Verif Verif.Model Verif.Spec Verif.Lemmas

/-- The two branches of `mfSolve` agree. -/
theorem mfSolve_plain (eig : Mat ℝ → List ℝ × Mat ℝ) (inv : Mat ℝ → Mat ℝ) (svd : Mat ℝ → List ℝ) (n : ℕ) (T : Mat ℝ)
    (P : Matrix (Fin n) (Fin n) ℝ) (hP : toMatrix n (mfCorr n T) = P) (hpd : P.PosDef) (htrP : P.trace = n)
    (hE : ExactEig eig n (mfCorr n T)) (hI : toMatrix n (inv (mfCorr n T)) = P⁻¹)
    (hS : (svd (mfCorr n T)).prod = |P.det|) (ns : Option ℕ) (iT : Bool) :
    mfSolve eig inv svd n T 0 ns iT false = mfSolve eig inv svd n T 0 ns iT true := by
  obtain ⟨hl, hE⟩ := hE
  rw [hP] at hE
  obtain ⟨mq, emq⟩ : ∃ mq, mq = (eig (mfCorr n T)).1 := ⟨_, rfl⟩
  obtain ⟨V, eV⟩ : ∃ V, V = (eig (mfCorr n T)).2 := ⟨_, rfl⟩
  rw [← emq] at hl
  rw [← emq, ← eV] at hE
  have hreg := hE.regCorr 0 le_rfl (Or.inr hpd)
  have hpos : ∀ k : Fin n, 0 < mfHat 0 (mq.getD k 0) := fun k =>
    mfHat_pos 0 _ le_rfl (Or.inr (hE.eigenvalues_pos hpd k))
  have hinv := hE.fun_inv _ fun k => (hpos k).ne'
  have htr := hE.fun_trace fun k => mfHat 0 (mq.getD k 0)
  have hdet := hE.fun_det fun k => mfHat 0 (mq.getD k 0)
  have hA := ((C89_unregularised _ _).1 hreg).2
  rw [hA] at hinv htr hdet
  have hJ : (Mat.build n n fun i j => mfJprime n (mq.map (mfHat 0)) V i j / mfDenom T i j) =
      Mat.build n n fun i j => (inv (mfCorr n T)).at' i j / mfDenom T i j := by
    apply Mat.ext' (Mat.build_shape _ _ _) (Mat.build_shape _ _ _)
    intro i hi j hj
    refine (Mat.at_build _ hi hj).trans (Eq.trans ?_ (Mat.at_build _ hi hj).symm)
    congr 1
    have h1 : (inv (mfCorr n T)).at' i j = P⁻¹ ⟨i, hi⟩ ⟨j, hj⟩ := by
      rw [← hI]
      rfl
    rw [h1, hinv, Matrix.mul_apply]
    unfold mfJprime
    rw [sum_map_range, Finset.sum_range]
    refine Finset.sum_congr rfl fun k _ => ?_
    rw [Matrix.mul_diagonal, Matrix.transpose_apply]
    have : rd (mq.map (mfHat 0)) k = mfHat 0 (mq.getD k 0) := by
      unfold rd
      rw [getD_map' (mfHat 0) mq 0 0 k (by rw [hl]; exact k.2)]
    rw [this]
    unfold toMatrix
    ring
  have hent : ((mq.map (mfHat 0)).map fun m => Real.log m + 1 - m).sum = ((svd (mfCorr n T)).map Real.log).sum := by
    have e2 : ((mq.map (mfHat 0)).map fun m => Real.log m + 1 - m).sum =
        ∑ k : Fin n, (Real.log (mfHat 0 (mq.getD k 0)) + 1 - mfHat 0 (mq.getD k 0)) := by
      have : mq = (List.range n).map fun k => mq.getD k 0 := by
        apply List.ext_getElem (by simp [hl])
        intro i h1 h2
        simp [h1]
      conv_lhs => rw [this]
      rw [List.map_map, List.map_map, sum_map_range, Finset.sum_range]
      rfl
    have h0 : (0 : ℝ) ∉ svd (mfCorr n T) := fun h => by
      have := List.prod_eq_zero h
      rw [hS] at this
      exact hpd.det_pos.ne' (abs_eq_zero.1 this)
    have e3 : ∀ l : List ℝ, (0 : ℝ) ∉ l → (l.map Real.log).sum = Real.log l.prod := by
      intro l
      induction l with
      | nil => simp
      | cons x l ih =>
        intro h
        rw [List.mem_cons, not_or] at h
        rw [List.map_cons, List.sum_cons, List.prod_cons, ih h.2,
          Real.log_mul (Ne.symm h.1) (fun h5 => h.2 (List.prod_eq_zero_iff.1 h5))]
    rw [e2, e3 _ h0, hS, Real.log_abs, hdet, Real.log_prod fun k _ => (hpos k).ne', Finset.sum_sub_distrib,
      Finset.sum_add_distrib, Finset.sum_const, Finset.card_univ, Fintype.card_fin, nsmul_eq_mul, mul_one, ← htr, htrP]
    ring
  have hgam : mfGamma 0 ns = .ok 0 := by
    unfold mfGamma
    rw [if_neg (by simp)]
  unfold mfSolve
  dsimp only
  rw [if_neg (by simp), if_pos (Or.inr rfl), hgam]
  dsimp only
  rw [← emq, ← eV, hJ, hent]

/-- C89: without a prior, `useRegularizedEq=False` (inverse and singular values of the correlation matrix) gives the same result as
`useRegularizedEq=True` (its eigenvalues), for every other option, if the correlation matrix is positive definite. `scipy`'s routines are
taken to be exact: `inv` inverts, and the singular values of a square matrix multiply to the absolute value of its determinant. -/
theorem C89_plain (eig : Mat ℝ → List ℝ × Mat ℝ) (inv : Mat ℝ → Mat ℝ) (svd : Mat ℝ → List ℝ)
    (hEig : ∀ n (R : Mat ℝ), R.HasShape n n → (toMatrix n R).IsHermitian → ExactEig eig n R)
    (hInv : ∀ n (R : Mat ℝ), R.HasShape n n → (toMatrix n R).det ≠ 0 → toMatrix n (inv R) = (toMatrix n R)⁻¹)
    (hSvd : ∀ n (R : Mat ℝ), R.HasShape n n → (svd R).prod = |(toMatrix n R).det|)
    (M : Mat ℝ) (N : ℕ) (hM : M.HasShape N N) (c : List ℕ) (hne : c ≠ []) (hc : ∀ i ∈ c, i < N)
    (C : ℕ → ℕ → ℝ) (hC : ∀ a b, C a b = M.at' (c.getD (min a b) 0) (c.getD (max a b) 0))
    (hf : ∀ a < c.length, 0 < C a a ∧ C a a < 1) (hpd : (corrMatrix c.length C).PosDef) (ns : Option ℕ) (iT aE : Bool) :
    smeanField eig inv svd c M 0 ns iT aE false = smeanField eig inv svd c M 0 ns iT aE true := by
  set n := c.length with hn'
  have hn : 1 ≤ n := List.length_pos_iff.2 hne
  obtain ⟨T, eT⟩ : ∃ T, T = Mat.build n n fun i j => (Mat.build n n fun a b =>
    M.at' (c.getD a 0) (c.getD b 0)).at' (min i j) (max i j) := ⟨_, rfl⟩
  have hTv : ∀ a < n, ∀ b < n, T.at' a b = C a b := fun a ha b hb => by
    rw [eT, Mat.at_build _ ha hb, Mat.at_build _ (by omega) (by omega), hC]
  have hR := coocCluster_ok hM c hc
  have hT := symmetrize_ok (K := ℝ) (Mat.build_shape n n fun a b => M.at' (c.getD a 0) (c.getD b 0)) hn
  rw [← eT] at hT
  have hvar : ∀ a < n, 0 < C a a * (1 - C a a) := fun a ha => mul_pos (hf a ha).1 (by linarith [(hf a ha).2])
  have hcorr : toMatrix n (mfCorr n T) = corrMatrix n C := by
    funext i j
    unfold toMatrix mfCorr corrMatrix
    rw [Mat.at_build _ i.2 j.2]
    unfold mfCov mfDenom
    rw [hTv i i.2 i i.2, hTv j j.2 j j.2, hTv i i.2 j j.2, Real.sqrt_mul (hvar i i.2).le]
  have htr : (corrMatrix n C).trace = n := by
    have h1 : ∀ a : Fin n, corrMatrix n C a a = 1 := fun a => by
      have hp := hvar a a.2
      unfold corrMatrix
      rw [Real.mul_self_sqrt hp.le, div_eq_one_iff_eq hp.ne']
      ring
    simp [Matrix.trace, h1]
  have hshape : (mfCorr n T).HasShape n n := Mat.build_shape _ _ _
  have key := mfSolve_plain eig inv svd n T (corrMatrix n C) hcorr hpd htr
    (hEig n _ hshape (by rw [hcorr]; exact hpd.isHermitian))
    (by rw [hInv n _ hshape (by rw [hcorr]; exact hpd.det_pos.ne'), hcorr])
    (by rw [hSvd n _ hshape, hcorr]) ns iT
  unfold smeanField
  simp only [hR, ← hn', hT]
  rw [key]

/-- Non-vacuity of C89_plain: there are routines that meet the three contracts (the one for eigenvalues by `exists_exactEig`). -/
example : ∃ (inv : Mat ℝ → Mat ℝ) (svd : Mat ℝ → List ℝ),
    (∀ n (R : Mat ℝ), R.HasShape n n → (toMatrix n R).det ≠ 0 → toMatrix n (inv R) = (toMatrix n R)⁻¹) ∧
    ∀ n (R : Mat ℝ), R.HasShape n n → (svd R).prod = |(toMatrix n R).det| := by
  classical
  refine ⟨fun R => Mat.build R.length R.length fun i j => if hij : i < R.length ∧ j < R.length then
    (toMatrix R.length R)⁻¹ ⟨i, hij.1⟩ ⟨j, hij.2⟩ else 0, fun R => [|(toMatrix R.length R).det|], fun n R hR _ => ?_, fun n R hR => ?_⟩
  · obtain rfl := hR.1
    ext i j
    conv_lhs => unfold toMatrix
    rw [Mat.at_build _ i.2 j.2, dif_pos ⟨i.2, j.2⟩]
    rfl
  · obtain rfl := hR.1
    simp

/-- The other hypotheses are met by two dependent sites. -/
example : (corrMatrix 2 fun a b => if a = b then 1 / 2 else 1 / 3).PosDef := by
  have h2 : Real.sqrt (1 / 2 * (1 - 1 / 2)) = 1 / 2 := by
    rw [show (1 : ℝ) / 2 * (1 - 1 / 2) = (1 / 2) ^ 2 by norm_num, Real.sqrt_sq (by norm_num)]
  have e : corrMatrix 2 (fun a b => if a = b then 1 / 2 else 1 / 3) = !![1, 1 / 3; 1 / 3, 1] := by
    ext i j
    unfold corrMatrix
    simp only [if_true]
    rw [h2]
    fin_cases i <;> fin_cases j <;> norm_num
  rw [e]
  refine Matrix.PosDef.of_dotProduct_mulVec_pos ?_ fun x hx => ?_
  · ext i j
    fin_cases i <;> fin_cases j <;> simp
  · have h01 : x 0 ≠ 0 ∨ x 1 ≠ 0 := by
      by_contra h
      push Not at h
      exact hx (by ext i; fin_cases i <;> simp [h.1, h.2])
    have : dotProduct (star x) (Matrix.mulVec !![1, 1 / 3; 1 / 3, 1] x) = x 0 ^ 2 + 2 / 3 * (x 0 * x 1) + x 1 ^ 2 := by
      simp [dotProduct, Matrix.mulVec, Fin.sum_univ_two]
      ring
    rw [this]
    rcases h01 with h | h
    · have := pow_pos (abs_pos.2 h) 2
      rw [sq_abs] at this
      nlinarith [sq_nonneg (x 0 + x 1), sq_nonneg (x 1)]
    · have := pow_pos (abs_pos.2 h) 2
      rw [sq_abs] at this
      nlinarith [sq_nonneg (x 0 + x 1), sq_nonneg (x 0)]

end Verif.Props
