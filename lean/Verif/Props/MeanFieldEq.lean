/-
C89: the regularised mean-field equations (SmeanField).
-/
import Verif.Lemmas.RegCorr
import Verif.Lemmas.Cells
import Verif.Lemmas.EnumerateWrap
import Verif.Props.MeanField

namespace Verif.Props
open Verif Verif.Model Verif.Spec Verif.Lemmas

/-- C89: the regularised correlation matrix is determined by its equation. -/
theorem C89_unique {n : ℕ} {g : ℝ} (hg : 0 ≤ g) {M A B : Matrix (Fin n) (Fin n) ℝ} (hA : RegCorr g M A)
    (hB : RegCorr g M B) : A = B := hA.unique hg hB

/-- C89: without regularisation it is the correlation matrix itself. -/
theorem C89_unregularised {n : ℕ} (M A : Matrix (Fin n) (Fin n) ℝ) : RegCorr 0 M A ↔ A.PosDef ∧ A = M := by
  simp [RegCorr]

/-- C89: `SmeanField` solves the regularised mean-field equations. For a cluster of distinct sites of a
co-occurrence matrix `M` (only the upper triangle counts) with frequencies strictly between 0 and 1, a
nonnegative prior strength `g` (per sample) and an eigenvalue routine that works on symmetric matrices,
if `g` is positive or the correlation matrix is positive definite: with `A` the regularised correlation
matrix, the couplings are the off-diagonal entries of `A⁻¹` divided by the standard deviations, the fields
follow from them, the entropy is that of the independent model plus `(log det A + n - tr A)/2`, and sites
outside the cluster have zeros. The matrix holds each coupling twice, halved. -/
theorem C89_solution (eig : Mat ℝ → List ℝ × Mat ℝ) (inv : Mat ℝ → Mat ℝ) (svd : Mat ℝ → List ℝ)
    (hEig : ∀ n (R : Mat ℝ), R.HasShape n n → (toMatrix n R).IsHermitian → ExactEig eig n R)
    (M : Mat ℝ) (N : ℕ) (hM : M.HasShape N N) (c : List ℕ) (hne : c ≠ []) (hc : ∀ i ∈ c, i < N) (hd : c.Nodup)
    (C : ℕ → ℕ → ℝ) (hC : ∀ a b, C a b = M.at' (c.getD (min a b) 0) (c.getD (max a b) 0))
    (hf : ∀ a < c.length, 0 < C a a ∧ C a a < 1) (lmbda g : ℝ) (ns : Option ℕ) (hg : 0 ≤ g)
    (hns : (lmbda = 0 ∧ g = 0) ∨ ∃ m : ℕ, ns = some m ∧ m ≠ 0 ∧ lmbda = g * m)
    (hp : 0 < g ∨ (corrMatrix c.length C).PosDef) :
    ∃ A ent J, smeanField eig inv svd c M lmbda ns true false true = .ok (ent, J) ∧ J.HasShape N N ∧
      RegCorr g (corrMatrix c.length C) A ∧
      (∀ a b : Fin c.length, a ≠ b → 2 * J.at' c[a] c[b] = A⁻¹ a b /
        (Real.sqrt (C a a * (1 - C a a)) * Real.sqrt (C b b * (1 - C b b)))) ∧
      (∀ a : Fin c.length, J.at' c[a] c[a] = -Real.log (C a a / (1 - C a a)) +
        ∑ b : Fin c.length, if a = b then 0 else 2 * J.at' c[a] c[b] *
          (covMatrix c.length C a b * ((C a a - 1 / 2) / (C a a * (1 - C a a))) - C b b)) ∧
      ent = (∑ a : Fin c.length, binEntropy (C a a)) +
        1 / 2 * (Real.log A.det + c.length - A.trace) ∧
      ∀ i < N, ∀ j < N, i ∉ c ∨ j ∉ c → J.at' i j = 0 := by
  set n := c.length with hn'
  have hn : 1 ≤ n := List.length_pos_iff.2 hne
  obtain ⟨T, eT⟩ : ∃ T, T = Mat.build n n fun i j => (Mat.build n n fun a b =>
    M.at' (c.getD a 0) (c.getD b 0)).at' (min i j) (max i j) := ⟨_, rfl⟩
  have hTv : ∀ a < n, ∀ b < n, T.at' a b = C a b := fun a ha b hb => by
    rw [eT, Mat.at_build _ ha hb, Mat.at_build _ (by omega) (by omega), hC]
  have hCsym : ∀ a b, C a b = C b a := fun a b => by rw [hC, hC, min_comm, max_comm]
  have hR := coocCluster_ok hM c hc
  have hT := symmetrize_ok (K := ℝ) (Mat.build_shape n n fun a b => M.at' (c.getD a 0) (c.getD b 0)) hn
  rw [← eT] at hT
  -- variances
  obtain ⟨v, ev⟩ : ∃ v : ℕ → ℝ, v = fun a => C a a * (1 - C a a) := ⟨_, rfl⟩
  have hv : ∀ a < n, 0 < v a := fun a ha => by
    rw [ev]; exact mul_pos (hf a ha).1 (by linarith [(hf a ha).2])
  have hden : ∀ a < n, ∀ b < n, mfDenom T a b = Real.sqrt (v a) * Real.sqrt (v b) := fun a ha b hb => by
    unfold mfDenom
    rw [hTv a ha a ha, hTv b hb b hb, ev, Real.sqrt_mul]
    exact (by rw [ev] at hv; exact (hv a ha).le)
  have hcov : ∀ a < n, ∀ b < n, mfCov T a b = C a b - C a a * C b b := fun a ha b hb => by
    unfold mfCov
    rw [hTv a ha a ha, hTv b hb b hb, hTv a ha b hb]
  -- the correlation matrix
  have hcorr : toMatrix n (mfCorr n T) = corrMatrix n C := by
    funext i j
    unfold toMatrix mfCorr corrMatrix
    rw [Mat.at_build _ i.2 j.2, hcov i i.2 j j.2, hden i i.2 j j.2, ev]
  have hherm : (toMatrix n (mfCorr n T)).IsHermitian := by
    rw [hcorr]
    ext i j
    simp only [Matrix.conjTranspose_apply, star_trivial, corrMatrix]
    rw [hCsym j i, mul_comm (C j j), mul_comm (Real.sqrt (C j j * (1 - C j j)))]
  obtain ⟨hl, hE⟩ := hEig n (mfCorr n T) (Mat.build_shape _ _ _) hherm
  rw [hcorr] at hE
  obtain ⟨mq, emq⟩ : ∃ mq, mq = (eig (mfCorr n T)).1 := ⟨_, rfl⟩
  obtain ⟨V, eV⟩ : ∃ V, V = (eig (mfCorr n T)).2 := ⟨_, rfl⟩
  rw [← emq] at hl
  rw [← emq, ← eV] at hE
  have hreg := hE.regCorr g hg hp
  have hpos : ∀ k : Fin n, 0 < mfHat g (mq.getD k 0) := fun k =>
    mfHat_pos g _ hg (hp.imp_right fun h => hE.eigenvalues_pos h k)
  have hinv := hE.fun_inv _ fun k => (hpos k).ne'
  have htr := hE.fun_trace fun k => mfHat g (mq.getD k 0)
  have hdet := hE.fun_det fun k => mfHat g (mq.getD k 0)
  obtain ⟨A, eA⟩ : ∃ A, A = toMatrix n V * Matrix.diagonal (fun k : Fin n => mfHat g (mq.getD k 0)) *
    (toMatrix n V).transpose := ⟨_, rfl⟩
  rw [← eA] at hreg hinv htr hdet
  -- the couplings
  have hJp : ∀ a b : Fin n, mfJprime n (mq.map (mfHat g)) V a b = A⁻¹ a b := by
    intro a b
    rw [hinv, Matrix.mul_apply]
    unfold mfJprime
    rw [sum_map_range, Finset.sum_range]
    refine Finset.sum_congr rfl fun k _ => ?_
    rw [Matrix.mul_diagonal, Matrix.transpose_apply]
    have : rd (mq.map (mfHat g)) k = mfHat g (mq.getD k 0) := by
      unfold rd
      rw [getD_map' (mfHat g) mq 0 0 k (by rw [hl]; exact k.2)]
    rw [this]
    unfold toMatrix
    ring
  have hgam : mfGamma lmbda ns = .ok g := by
    unfold mfGamma
    rcases hns with ⟨h1, h2⟩ | ⟨m, h1, h2, h3⟩
    · rw [if_neg (by simpa using h1), h2]
    · subst h1
      by_cases h0 : lmbda = 0
      · rw [if_neg (by simpa using h0)]
        have hm : (m : ℝ) ≠ 0 := by exact_mod_cast h2
        have : g = 0 := by
          rw [h0] at h3
          rcases mul_eq_zero.1 h3.symm with h | h
          · exact h
          · exact absurd h hm
        rw [this]
      · rw [if_pos h0]
        match m, h2, h3 with
        | m + 1, _, h3 =>
          dsimp only
          congr 1
          have hm : ((m + 1 : ℕ) : ℝ) ≠ 0 := by exact_mod_cast Nat.succ_ne_zero m
          rw [h3]
          field_simp
  obtain ⟨K, eK⟩ : ∃ K : Mat ℝ, K = Mat.build n n fun i j => if i = j then (0 : ℝ) else
    mfJprime n (mq.map (mfHat g)) V i j / mfDenom T i j := ⟨_, rfl⟩
  have hK : mfZeroDiag (Mat.build n n fun i j => mfJprime n (mq.map (mfHat g)) V i j / mfDenom T i j) = .ok K := by
    unfold mfZeroDiag
    rw [mfReplaceDiag_ok (Mat.build_shape _ _ _) hn _ (by simp [(Mat.build_shape n n _).1]), eK]
    congr 1
    apply Mat.ext' (Mat.build_shape _ _ _) (Mat.build_shape _ _ _)
    intro i hi j hj
    refine (Mat.at_build _ hi hj).trans (Eq.trans ?_ (Mat.at_build _ hi hj).symm)
    split_ifs with h
    · simp [(Mat.build_shape n n _).1, hi]
    · rw [Mat.at_build _ hi hj]
  have hKv : ∀ a b : Fin n, K.at' a b = if a = b then (0 : ℝ) else A⁻¹ a b / (Real.sqrt (v a) * Real.sqrt (v b)) := by
    intro a b
    rw [eK, Mat.at_build _ a.2 b.2, hJp, hden a a.2 b b.2]
    simp only [Fin.ext_iff]
  obtain ⟨ent, eent⟩ : ∃ ent, ent = mfSind n T true +
    1 / 2 * ((mq.map (mfHat g)).map fun m => Real.log m + 1 - m).sum := ⟨_, rfl⟩
  have hsolve : mfSolve eig inv svd n T lmbda ns true true = .ok (K, ent) := by
    unfold mfSolve
    simp only [or_true, if_true, hgam]
    rw [← emq, ← eV, hK]
    dsimp only
    rw [eent]
  obtain ⟨Jc, eJ⟩ : ∃ Jc : Mat ℝ, Jc = Mat.build n n fun i j => if i = j then
    ((List.range n).map (mfFields n T K true)).getD i 0 else
    (Mat.build n n fun i j => 1 / 2 * K.at' i j).at' i j := ⟨_, rfl⟩
  have hJc : mfReplaceDiag (Mat.build n n fun i j => 1 / 2 * K.at' i j)
      ((List.range n).map (mfFields n T K true)) = .ok Jc := by
    rw [mfReplaceDiag_ok (Mat.build_shape _ _ _) hn _ (by simp), eJ]
  have hJs : Jc.HasShape n n := eJ ▸ Mat.build_shape _ _ _
  obtain ⟨J, j1, j2, j3, j4⟩ := C64_embed Jc c N hJs hc hd
  have hoff : ∀ a b : Fin n, a ≠ b → 2 * J.at' c[a] c[b] = K.at' a b := by
    intro a b hab
    have := j3 a b a.2 b.2
    refine (congrArg (fun x => 2 * x) this).trans ?_
    rw [eJ, Mat.at_build _ a.2 b.2, if_neg (fun h => hab (Fin.ext h)), Mat.at_build _ a.2 b.2]
    ring
  refine ⟨A, ent, J, ?_, j2, hreg, fun a b hab => ?_, fun a => ?_, ?_, j4⟩
  · unfold smeanField
    simp only [hR, ← hn', hT]
    rw [if_neg]
    · rw [hsolve]
      dsimp only
      rw [hJc]
      simp only [Bool.false_eq_true, if_false, hM.1, j1]
    · rintro ⟨i, hi, h⟩
      rw [hTv i hi i hi] at h
      have := hv i hi
      rw [ev] at this
      linarith
  · rw [hoff a b hab, hKv, if_neg hab, ev]
  · have := j3 a a a.2 a.2
    refine this.trans ?_
    rw [eJ, Mat.at_build _ a.2 a.2, if_pos rfl, getD_map_range n _ _ a.2]
    unfold mfFields
    rw [sum_map_range, Finset.sum_range, if_pos rfl, hTv a a.2 a a.2, sub_eq_neg_add]
    congr 1
    refine Finset.sum_congr rfl fun b _ => ?_
    split_ifs with h
    · rw [← h, hKv, if_pos rfl, zero_mul]
    · rw [hoff a b h, hcov a a.2 b b.2, hTv b b.2 b b.2]
      rfl
  · rw [eent]
    have e1 : mfSind n T true = ∑ a : Fin n, binEntropy (C a a) := by
      unfold mfSind
      rw [if_pos rfl, sum_map_range, Finset.sum_range]
      refine Finset.sum_congr rfl fun a _ => ?_
      rw [hTv a a.2 a a.2]
      rfl
    have e2 : ((mq.map (mfHat g)).map fun m => Real.log m + 1 - m).sum =
        ∑ k : Fin n, (Real.log (mfHat g (mq.getD k 0)) + 1 - mfHat g (mq.getD k 0)) := by
      have : mq = (List.range n).map fun k => mq.getD k 0 := by
        apply List.ext_getElem (by simp [hl])
        intro i h1 h2
        simp [h1]
      conv_lhs => rw [this]
      rw [List.map_map, List.map_map, sum_map_range, Finset.sum_range]
      rfl
    rw [e1, e2, htr, hdet, Real.log_prod fun k _ => (hpos k).ne']
    rw [Finset.sum_sub_distrib, Finset.sum_add_distrib, Finset.sum_const, Finset.card_univ,
      Fintype.card_fin, nsmul_eq_mul, mul_one]

/-- C89: without regularisation, and with a positive definite covariance matrix, the coupling of two sites
is the entry of the inverse covariance matrix, and the entropy is that of the independent model plus half the
logarithm of the determinant of the correlation matrix. -/
theorem C89_inverse_covariance (eig : Mat ℝ → List ℝ × Mat ℝ) (inv : Mat ℝ → Mat ℝ) (svd : Mat ℝ → List ℝ)
    (hEig : ∀ n (R : Mat ℝ), R.HasShape n n → (toMatrix n R).IsHermitian → ExactEig eig n R)
    (M : Mat ℝ) (N : ℕ) (hM : M.HasShape N N) (c : List ℕ) (hne : c ≠ []) (hc : ∀ i ∈ c, i < N) (hd : c.Nodup)
    (C : ℕ → ℕ → ℝ) (hC : ∀ a b, C a b = M.at' (c.getD (min a b) 0) (c.getD (max a b) 0))
    (hf : ∀ a < c.length, 0 < C a a ∧ C a a < 1) (hdiag : (covMatrix c.length C).PosDef) (ns : Option ℕ) :
    ∃ ent J, smeanField eig inv svd c M 0 ns true false true = .ok (ent, J) ∧
      (∀ a b : Fin c.length, a ≠ b → 2 * J.at' c[a] c[b] = (covMatrix c.length C)⁻¹ a b) ∧
      ent = (∑ a : Fin c.length, binEntropy (C a a)) + 1 / 2 * Real.log (corrMatrix c.length C).det := by
  obtain ⟨D, eD⟩ : ∃ D : Fin c.length → ℝ, D = fun a : Fin c.length => Real.sqrt (C a a * (1 - C a a)) := ⟨_, rfl⟩
  have hD : ∀ a, 0 < D a := fun a => by
    rw [eD]; exact Real.sqrt_pos.2 (mul_pos (hf a a.2).1 (by linarith [(hf a a.2).2]))
  have hcorr : corrMatrix c.length C = Matrix.diagonal (fun a => 1 / D a) * covMatrix c.length C *
      Matrix.diagonal (fun a => 1 / D a) := by
    ext i j
    rw [Matrix.mul_diagonal, Matrix.diagonal_mul]
    unfold corrMatrix covMatrix
    rw [eD]
    field_simp
  have hU : IsUnit (Matrix.diagonal fun a => 1 / D a) := by
    rw [Matrix.isUnit_iff_isUnit_det, Matrix.det_diagonal, isUnit_iff_ne_zero]
    exact Finset.prod_ne_zero_iff.2 fun a _ => (by have := hD a; positivity)
  have hpd : (corrMatrix c.length C).PosDef := by
    have := (Matrix.IsUnit.posDef_star_right_conjugate_iff (x := covMatrix c.length C) hU).2 hdiag
    rw [hcorr]
    simpa [Matrix.star_eq_conjTranspose] using this
  obtain ⟨A, ent, J, h1, -, h3, h4, -, h6, -⟩ := C89_solution eig inv svd hEig M N hM c hne hc hd C hC hf 0 0 ns
    (le_refl 0) (.inl ⟨rfl, rfl⟩) (.inr hpd)
  have hA : A = corrMatrix c.length C := ((C89_unregularised _ _).1 h3).2
  refine ⟨ent, J, h1, fun a b hab => ?_, ?_⟩
  · have hinv : (corrMatrix c.length C)⁻¹ = Matrix.diagonal D * (covMatrix c.length C)⁻¹ * Matrix.diagonal D := by
      have hdi : (Matrix.diagonal fun a => 1 / D a)⁻¹ = Matrix.diagonal D := by
        refine Matrix.inv_eq_right_inv ?_
        rw [Matrix.diagonal_mul_diagonal]
        have : (fun i => 1 / D i * D i) = fun _ => 1 := by
          funext i; have := (hD i).ne'; field_simp
        rw [this, Matrix.diagonal_one]
      rw [hcorr, Matrix.mul_inv_rev, Matrix.mul_inv_rev, hdi, Matrix.mul_assoc]
    rw [h4 a b hab, hA, hinv, Matrix.mul_diagonal, Matrix.diagonal_mul]
    have ha := (hD a).ne'
    have hb := (hD b).ne'
    have e : Real.sqrt (C a a * (1 - C a a)) * Real.sqrt (C b b * (1 - C b b)) = D a * D b := by rw [eD]
    rw [e]
    field_simp
  · rw [h6, hA]
    have : (corrMatrix c.length C).trace = c.length := by
      have h1 : ∀ a : Fin c.length, corrMatrix c.length C a a = 1 := fun a => by
        have hp := mul_pos (hf a a.2).1 (show 0 < 1 - C a a by linarith [(hf a a.2).2])
        unfold corrMatrix
        rw [Real.mul_self_sqrt hp.le, div_eq_one_iff_eq hp.ne']
        ring
      simp [Matrix.trace, h1]
    rw [this]
    ring

/-- C89: independent data. If the co-occurrences of the cluster are products of frequencies, then for every
strength of the prior the couplings vanish, the fields are those of the independent model and the entropy is
the sum of the entropies of the sites. -/
theorem C89_independent (eig : Mat ℝ → List ℝ × Mat ℝ) (inv : Mat ℝ → Mat ℝ) (svd : Mat ℝ → List ℝ)
    (hEig : ∀ n (R : Mat ℝ), R.HasShape n n → (toMatrix n R).IsHermitian → ExactEig eig n R)
    (M : Mat ℝ) (N : ℕ) (hM : M.HasShape N N) (c : List ℕ) (hne : c ≠ []) (hc : ∀ i ∈ c, i < N) (hd : c.Nodup)
    (C : ℕ → ℕ → ℝ) (hC : ∀ a b, C a b = M.at' (c.getD (min a b) 0) (c.getD (max a b) 0))
    (hf : ∀ a < c.length, 0 < C a a ∧ C a a < 1)
    (hind : ∀ a < c.length, ∀ b < c.length, a ≠ b → C a b = C a a * C b b)
    (lmbda : ℝ) (hl : 0 ≤ lmbda) (m : ℕ) (hm : m ≠ 0) :
    ∃ J, smeanField eig inv svd c M lmbda (some m) true false true =
        .ok (∑ a : Fin c.length, binEntropy (C a a), J) ∧ J.HasShape N N ∧
      (∀ a : Fin c.length, J.at' c[a] c[a] = -Real.log (C a a / (1 - C a a))) ∧
      ∀ i < N, ∀ j < N, i ≠ j → J.at' i j = 0 := by
  have hcorr : corrMatrix c.length C = 1 := by
    ext i j
    by_cases hij : i = j
    · subst hij
      have hp := mul_pos (hf i i.2).1 (show 0 < 1 - C i i by linarith [(hf i i.2).2])
      unfold corrMatrix
      rw [Real.mul_self_sqrt hp.le, Matrix.one_apply_eq, div_eq_one_iff_eq hp.ne']
      ring
    · rw [Matrix.one_apply_ne hij]
      unfold corrMatrix
      rw [hind i i.2 j j.2 (fun h => hij (Fin.ext h))]
      simp
  have hm' : (m : ℝ) ≠ 0 := by exact_mod_cast hm
  have hg : 0 ≤ lmbda / m := by positivity
  obtain ⟨A, ent, J, h1, h2, h3, h4, h5, h6, h7⟩ := C89_solution eig inv svd hEig M N hM c hne hc hd C hC hf lmbda
    (lmbda / m) (some m) hg (.inr ⟨m, rfl, hm, by field_simp⟩)
    (.inr (by rw [hcorr]; exact Matrix.PosDef.one))
  have hA : A = 1 := by
    rw [hcorr] at h3
    exact h3.unique hg ⟨Matrix.PosDef.one, by simp⟩
  have hoff : ∀ a b : Fin c.length, a ≠ b → J.at' c[a] c[b] = 0 := by
    intro a b hab
    have := h4 a b hab
    rw [hA, inv_one, Matrix.one_apply_ne hab, zero_div] at this
    linarith
  refine ⟨J, ?_, h2, fun a => ?_, fun i hi j hj hij => ?_⟩
  · rw [h1, h6, hA]
    simp
  · rw [h5 a, Finset.sum_eq_zero, add_zero]
    intro b _
    split_ifs with h
    · rfl
    · rw [hoff a b h]; simp
  · by_cases hic : i ∈ c
    · by_cases hjc : j ∈ c
      · obtain ⟨a, ha, rfl⟩ := List.getElem_of_mem hic
        obtain ⟨b, hb, rfl⟩ := List.getElem_of_mem hjc
        exact hoff ⟨a, ha⟩ ⟨b, hb⟩ (by rintro h; simp only [Fin.mk.injEq] at h; subst h; exact hij rfl)
      · exact h7 i hi j hj (.inr hjc)
    · exact h7 i hi j hj (.inl hic)

/-- C89: the correction to the entropy of the independent model is never positive, for any regularised
correlation matrix. -/
theorem C89_entropy_le {n : ℕ} (A : Matrix (Fin n) (Fin n) ℝ) (hA : A.PosDef) :
    1 / 2 * (Real.log A.det + n - A.trace) ≤ 0 := by
  have h1 := hA.isHermitian.det_eq_prod_eigenvalues
  have h2 := hA.isHermitian.trace_eq_sum_eigenvalues
  simp only [RCLike.ofReal_real_eq_id, id_eq] at h1 h2
  rw [h1, h2, Real.log_prod fun k _ => (hA.eigenvalues_pos k).ne']
  have : ∑ k, Real.log (hA.isHermitian.eigenvalues k) ≤ ∑ k, (hA.isHermitian.eigenvalues k - 1) :=
    Finset.sum_le_sum fun k _ => Real.log_le_sub_one_of_pos (hA.eigenvalues_pos k)
  rw [Finset.sum_sub_distrib] at this
  simp at this
  linarith

/-- C89: errors: a frequency of 0 or 1 raises `ValueError`; a prior without the number of samples raises
`TypeError`. -/
theorem C89_raises (eig : Mat ℝ → List ℝ × Mat ℝ) (inv : Mat ℝ → Mat ℝ) (svd : Mat ℝ → List ℝ)
    (M : Mat ℝ) (N : ℕ) (hM : M.HasShape N N) (c : List ℕ) (hne : c ≠ []) (hc : ∀ i ∈ c, i < N)
    (lmbda : ℝ) (ns : Option ℕ) (iT aE uR : Bool) :
    ((∃ i ∈ c, M.at' i i = 0 ∨ M.at' i i = 1) →
      smeanField eig inv svd c M lmbda ns iT aE uR = .error .valueError) ∧
    ((∀ i ∈ c, 0 < M.at' i i ∧ M.at' i i < 1) → lmbda ≠ 0 →
      smeanField eig inv svd c M lmbda none iT aE uR = .error .typeError) := by
  have hn : 1 ≤ c.length := List.length_pos_iff.2 hne
  have hR := coocCluster_ok hM c hc
  have hT := symmetrize_ok (K := ℝ) (Mat.build_shape c.length c.length
    fun a b => M.at' (c.getD a 0) (c.getD b 0)) hn
  obtain ⟨T, eT⟩ : ∃ T, T = Mat.build c.length c.length fun i j => (Mat.build c.length c.length fun a b =>
    M.at' (c.getD a 0) (c.getD b 0)).at' (min i j) (max i j) := ⟨_, rfl⟩
  rw [← eT] at hT
  have hTv : ∀ a (ha : a < c.length), T.at' a a = M.at' c[a] c[a] := fun a ha => by
    rw [eT, Mat.at_build _ ha ha, min_self, max_self, Mat.at_build _ ha ha, List.getD_eq_getElem _ _ ha]
  constructor
  · rintro ⟨i, hi, h⟩
    obtain ⟨a, ha, rfl⟩ := List.getElem_of_mem hi
    have hle : T.at' a a * (1 - T.at' a a) ≤ 0 := by
      rw [hTv a ha]
      rcases h with h | h <;> rw [h] <;> simp
    unfold smeanField
    simp only [hR, hT]
    rw [if_pos ⟨a, ha, hle⟩]
  · intro hf hl
    unfold smeanField
    simp only [hR, hT]
    rw [if_neg]
    · have : mfSolve eig inv svd c.length T lmbda none iT uR = .error .typeError := by
        unfold mfSolve
        dsimp only
        rw [if_pos (.inl hl)]
        unfold mfGamma
        rw [if_pos hl]
      rw [this]
    · rintro ⟨a, ha, h⟩
      have := hf _ (List.getElem_mem ha)
      rw [hTv a ha] at h
      have := mul_pos this.1 (show 0 < 1 - M.at' c[a] c[a] by linarith [this.2])
      linarith

/-- There are eigenvalue routines that meet the contract (so it is not vacuous). -/
theorem exists_exactEig : ∃ eig : Mat ℝ → List ℝ × Mat ℝ,
    ∀ n (R : Mat ℝ), R.HasShape n n → (toMatrix n R).IsHermitian → ExactEig eig n R := by
  classical
  refine ⟨fun R => if h : (toMatrix R.length R).IsHermitian then
    (List.ofFn h.eigenvalues, Mat.build R.length R.length fun i j => if hij : i < R.length ∧ j < R.length then
      (h.eigenvectorUnitary : Matrix (Fin R.length) (Fin R.length) ℝ) ⟨i, hij.1⟩ ⟨j, hij.2⟩ else 0)
    else ([], []), fun n R hR hH => ?_⟩
  obtain rfl := hR.1
  unfold ExactEig
  simp only [dif_pos hH, List.length_ofFn, true_and]
  have hV : toMatrix R.length (Mat.build R.length R.length fun i j => if hij : i < R.length ∧ j < R.length then
      (hH.eigenvectorUnitary : Matrix (Fin R.length) (Fin R.length) ℝ) ⟨i, hij.1⟩ ⟨j, hij.2⟩ else 0) =
      (hH.eigenvectorUnitary : Matrix (Fin R.length) (Fin R.length) ℝ) := by
    ext i j
    unfold toMatrix
    rw [Mat.at_build _ i.2 j.2, dif_pos ⟨i.2, j.2⟩]
  have hm : (fun k : Fin R.length => (List.ofFn hH.eigenvalues).getD k 0) = hH.eigenvalues := by
    funext k
    rw [List.getD_eq_getElem _ _ (by simp), List.getElem_ofFn]
  rw [hV, hm]
  constructor
  · have := (Matrix.mem_unitaryGroup_iff).1 hH.eigenvectorUnitary.2
    rwa [Matrix.star_eq_conjTranspose, Matrix.conjTranspose_eq_transpose_of_trivial] at this
  · conv_lhs => rw [hH.spectral_theorem]
    simp [Matrix.star_eq_conjTranspose]

/-- The hypotheses of the theorems above are met by two independent sites. -/
example : ∃ C : ℕ → ℕ → ℝ, (∀ a b, C a b = Mat.at' [[(1 : ℝ) / 2, 1 / 8], [0, 1 / 4]]
    ([0, 1].getD (min a b) 0) ([0, 1].getD (max a b) 0)) ∧ (∀ a < 2, 0 < C a a ∧ C a a < 1) ∧
    ∀ a < 2, ∀ b < 2, a ≠ b → C a b = C a a * C b b := by
  refine ⟨_, fun _ _ => rfl, ?_, ?_⟩
  · intro a ha
    interval_cases a <;> norm_num [Mat.at']
  · intro a ha b hb hab
    interval_cases a <;> interval_cases b <;> first | exact absurd rfl hab | norm_num [Mat.at']

/-- A positive definite covariance matrix with a nonzero covariance. -/
example : (covMatrix 2 fun a b => if a = b then 1 / 2 else 1 / 3).PosDef := by
  refine Matrix.PosDef.of_dotProduct_mulVec_pos ?_ fun x hx => ?_
  · ext i j
    fin_cases i <;> fin_cases j <;> simp [covMatrix]
  · have h01 : x 0 ≠ 0 ∨ x 1 ≠ 0 := by
      by_contra h
      push Not at h
      exact hx (by ext i; fin_cases i <;> simp [h.1, h.2])
    have : dotProduct (star x) (Matrix.mulVec (covMatrix 2 fun a b => if a = b then 1 / 2 else 1 / 3) x) =
        1 / 4 * x 0 ^ 2 + 1 / 6 * (x 0 * x 1) + 1 / 4 * x 1 ^ 2 := by
      simp [dotProduct, Matrix.mulVec, covMatrix, Fin.sum_univ_two]
      ring
    rw [this]
    rcases h01 with h | h
    · have := pow_pos (abs_pos.2 h) 2
      rw [sq_abs] at this
      nlinarith [sq_nonneg (x 0 + x 1), sq_nonneg (x 1)]
    · have := pow_pos (abs_pos.2 h) 2
      rw [sq_abs] at this
      nlinarith [sq_nonneg (x 0 + x 1), sq_nonneg (x 0)]

end Verif.Props
