/-
C98, C99: the deprecated pseudolikelihood of solvers.py and pseudo_inverse_ising.py.
-/
import Verif.Lemmas.PseudoOld
import Verif.Props.Pseudo
import Verif.Lemmas.Convert
import Verif.Lemmas.Mpf

namespace Verif.Props
open Verif Verif.Model Verif.Spec Verif.Lemmas Finset

/-! ### C98: values -/

/-- C98 `conditionalLogLikelihood` with the row `r` of a symmetric matrix is the logarithm of the
probability of spin `r` in each sample given the other spins, in the model on the states with at least
`minSize` ones. -/
theorem C98_conditional (n r : ℕ) (hr : r < n) (m : ℤ) (J : ℕ → ℕ → ℝ)
    (hsym : ∀ i < n, ∀ j < n, J i j = J j i) (X : List (List ℤ)) (hne : X ≠ [])
    (hX : ∀ s ∈ X, s ∈ bigStates n m) :
    conditionalLogLikelihood r (X.map castRow) ((List.range n).map (J r)) m =
      .ok (X.map fun s => Real.log (condOn (bigStates n m) (matE n J) r s)).sum := by
  have hl : ∀ s ∈ X, s.length = n := fun s hs => (mem_words.1 (mem_bigStates.1 (hX s hs)).1).1
  unfold conditionalLogLikelihood
  rw [(oldCheck_ok hr (X.map castRow) (by simpa using hne) (by
    intro row hrow
    obtain ⟨s, hs, rfl⟩ := List.mem_map.1 hrow
    simp [castRow, hl s hs]) _ (by simp)).1]
  dsimp only
  rw [List.map_map]
  congr 1
  apply list_sum_congr
  intro s hs
  rw [log_condOn hr m J hsym ((List.range n).map (J r)) (by simp) (fun i hi => by
    rw [getD_map_range n _ 0 hi]) s (hX s hs)]
  rfl

example : conditionalLogLikelihood 0 ([[1, 0], [0, 1]].map castRow) [1, 3] 1 =
    .ok (([[1, 0], [0, 1]] : List (List ℤ)).map fun s => Real.log (condOn (bigStates 2 1)
      (matE 2 fun i j => ((i : ℝ) + 1) + 2 * j + (if i = 1 ∧ j = 0 then 1 else 0)) 0 s)).sum := by
  have := C98_conditional 2 0 (by norm_num) 1
    (fun i j => ((i : ℝ) + 1) + 2 * j + (if i = 1 ∧ j = 0 then 1 else 0)) (by
      intro i hi j hj
      have h1 : i = 0 ∨ i = 1 := by omega
      have h2 : j = 0 ∨ j = 1 := by omega
      rcases h1 with rfl | rfl <;> rcases h2 with rfl | rfl <;> norm_num)
    [[1, 0], [0, 1]] (by decide) (by decide)
  rw [← this]
  congr 1
  simp [List.range_succ_eq_map]
  norm_num

theorem bigStates_zero (n : ℕ) : bigStates n 0 = words [0, 1] n := by
  unfold bigStates
  rw [List.filter_eq_self]
  intro s hs
  have := (mem_words.1 hs).2
  simp only [decide_eq_true_eq]
  refine List.sum_nonneg fun x hx => ?_
  have := this x hx
  simp only [List.mem_cons, List.not_mem_nil, or_false] at this
  omega

theorem oldFilter_zero {n r : ℕ} (hr : r < n) (s : List ℤ) (hs : s ∈ words [0, 1] n) :
    oldFilter r 0 (castRow s) = 1 := by
  unfold oldFilter
  rw [rd_castRow, sum_castRow]
  have hv := getD_mem_of_words hr hs
  simp only [List.mem_cons, List.not_mem_nil, or_false] at hv
  rcases hv with h | h
  · rw [h]; simp
  · have hl := (mem_words.1 hs).1
    have h0 : (0 : ℤ) ≤ (s.set r 0).sum := by
      have := set_mem_words (r := r) hs (show (0 : ℤ) ∈ [0, 1] by simp)
      rw [← bigStates_zero] at this
      exact (mem_bigStates.1 this).2
    rw [sum_set_eq s r 0 (by omega), h] at h0
    rw [if_neg]
    · simp
    · rw [not_le]
      exact_mod_cast (by omega : (0 : ℤ) < s.sum)

/-- C98 the same for the method of `Pseudo`, which has no minimal size. -/
theorem C98_conditional_method (n r : ℕ) (hr : r < n) (J : ℕ → ℕ → ℝ)
    (hsym : ∀ i < n, ∀ j < n, J i j = J j i) (X : List (List ℤ)) (hne : X ≠ [])
    (hX : ∀ s ∈ X, s ∈ words [0, 1] n) :
    condLogLikelihood r (X.map castRow) ((List.range n).map (J r)) =
      .ok (X.map fun s => Real.log (condOn (words [0, 1] n) (matE n J) r s)).sum := by
  have := C98_conditional n r hr 0 J hsym X hne (by rw [bigStates_zero]; exact hX)
  rw [bigStates_zero] at this
  rw [← this]
  unfold conditionalLogLikelihood condLogLikelihood
  rcases oldCheck r (X.map castRow) ((List.range n).map (J r)) with e | _
  · rfl
  · dsimp only
    rw [← list_sum_neg, List.map_map, List.map_map]
    congr 1
    apply list_sum_congr
    intro s hs
    simp only [Function.comp]
    rw [oldFilter_zero hr s (hX s hs)]
    ring

/-! ### C98: derivatives -/

theorem hasDerivAt_energy {n r i : ℕ} (hi : i < n) (Jr row : List ℝ) (hJ : Jr.length = n)
    (hrow : row.length = n) :
    HasDerivAt (fun x => oldEnergy r (Jr.set i x) row) (oldSigma r row * rd (oldRhat r row) i)
      (Jr.getD i 0) := by
  have e : ∀ x, oldEnergy r (Jr.set i x) row =
      oldEnergy r Jr row + (x - Jr.getD i 0) * (oldSigma r row * rd (oldRhat r row) i) := by
    intro x
    rw [oldEnergy_eq (Jr.set i x) row (by simpa using hJ) hrow, oldEnergy_eq Jr row hJ hrow,
      rd_oldRhat r i row (by omega)]
    unfold oldLocal
    have hm : i ∈ range n := Finset.mem_range.2 hi
    rw [← Finset.add_sum_erase _ _ hm, ← Finset.add_sum_erase (range n) (fun k => Jr.getD k 0 *
      (if k = r then 1 else 2 * rd row k)) hm]
    have e1 : ∀ k ∈ (range n).erase i, (Jr.set i x).getD k 0 * (if k = r then 1 else 2 * rd row k) =
        Jr.getD k 0 * (if k = r then 1 else 2 * rd row k) := by
      intro k hk
      have hki := (Finset.mem_erase.1 hk).1
      rw [List.getD_eq_getElem?_getD, List.getElem?_set_ne (Ne.symm hki), ← List.getD_eq_getElem?_getD]
    rw [Finset.sum_congr rfl e1]
    have e2 : (Jr.set i x).getD i 0 = x := by simp [hJ, hi]
    beta_reduce
    rw [e2]
    ring
  have h := (((hasDerivAt_id (Jr.getD i 0)).sub_const (Jr.getD i 0)).mul_const
    (oldSigma r row * rd (oldRhat r row) i)).const_add (oldEnergy r Jr row)
  rw [one_mul] at h
  exact h.congr_of_eventuallyEq (Filter.Eventually.of_forall e)

theorem hasDerivAt_term {n r i : ℕ} (hi : i < n) (Jr row : List ℝ) (hJ : Jr.length = n)
    (hrow : row.length = n) (w : ℝ) :
    HasDerivAt (fun x => w * Real.log (1 + Real.exp (oldEnergy r (Jr.set i x) row)))
      (oldSigma r row * rd (oldRhat r row) i * (w * 1 / (1 + Real.exp (-oldEnergy r Jr row))))
      (Jr.getD i 0) := by
  have h0 := hasDerivAt_energy (r := r) hi Jr row hJ hrow
  have hs : oldEnergy r (Jr.set i (Jr.getD i 0)) row = oldEnergy r Jr row := by rw [set_getD_self]
  have h1 := ((h0.exp.const_add 1).log (by
    rw [hs]; have := Real.exp_pos (oldEnergy r Jr row); positivity)).const_mul w
  rw [hs] at h1
  refine h1.congr_deriv ?_
  rw [Real.exp_neg]
  have := Real.exp_pos (oldEnergy r Jr row)
  field_simp
  ring

theorem hasDerivAt_sigmoid {n r j : ℕ} (hj : j < n) (Jr row : List ℝ) (hJ : Jr.length = n)
    (hrow : row.length = n) (a w : ℝ) :
    HasDerivAt (fun x => a * (w * 1 / (1 + Real.exp (-oldEnergy r (Jr.set j x) row))))
      (w * oldMult r Jr row * (a * (oldSigma r row * rd (oldRhat r row) j)))
      (Jr.getD j 0) := by
  have h0 := hasDerivAt_energy (r := r) hj Jr row hJ hrow
  have hs : oldEnergy r (Jr.set j (Jr.getD j 0)) row = oldEnergy r Jr row := by rw [set_getD_self]
  have hpos : (1 : ℝ) + Real.exp (-oldEnergy r (Jr.set j (Jr.getD j 0)) row) ≠ 0 := by
    have := Real.exp_pos (-oldEnergy r (Jr.set j (Jr.getD j 0)) row); positivity
  have h1 := (((h0.neg.exp.const_add 1).fun_inv hpos).const_mul w).const_mul a
  have e : (fun x => a * (w * 1 / (1 + Real.exp (-oldEnergy r (Jr.set j x) row)))) =
      fun x => a * (w * (1 + Real.exp (-oldEnergy r (Jr.set j x) row))⁻¹) := by
    funext x
    rw [mul_one, div_eq_mul_inv]
  rw [e]
  refine h1.congr_deriv ?_
  simp only [Pi.neg_apply]
  rw [hs]
  unfold oldMult
  have := Real.exp_pos (-oldEnergy r Jr row)
  field_simp

/-- C98 `conditionalJacobian` holds the derivatives of minus `conditionalLogLikelihood`: the sign in its
documentation is wrong, the use of it is right. -/
theorem C98_gradient (n r : ℕ) (hr : r < n) (m : ℤ) (X : List (List ℝ)) (hne : X ≠ [])
    (hX : ∀ row ∈ X, row.length = n) (Jr : List ℝ) (hJ : Jr.length = n) :
    ∃ L : List ℝ → ℝ, (∀ J : List ℝ, J.length = n → conditionalLogLikelihood r X J m = .ok (-(L J))) ∧
      ∃ g, conditionalJacobian r X Jr m = .ok g ∧ g.length = n ∧
        ∀ i < n, HasDerivAt (fun x => L (Jr.set i x)) (g.getD i 0) (Jr.getD i 0) := by
  refine ⟨fun J => (X.map fun row => oldFilter r m row * Real.log (1 + Real.exp (oldEnergy r J row))).sum,
    fun J hJ => ?_, (List.range n).map fun i => (X.map fun row => oldSigma r row * rd (oldRhat r row) i *
      (oldFilter r m row * 1 / (1 + Real.exp (-oldEnergy r Jr row)))).sum, ?_, by simp, fun i hi => ?_⟩
  · unfold conditionalLogLikelihood
    rw [(oldCheck_ok hr X hne hX J hJ).1]
    dsimp only
    rw [← list_sum_neg]
    simp only [neg_mul]
  · unfold conditionalJacobian
    rw [(oldCheck_ok hr X hne hX Jr hJ).1, hJ]
  · rw [getD_map_range n _ 0 hi]
    exact hasDerivAt_list_sum X (fun row x => oldFilter r m row *
      Real.log (1 + Real.exp (oldEnergy r (Jr.set i x) row))) _ _ fun row hrow =>
        hasDerivAt_term hi Jr row hJ (hX row hrow) _

/-- C98 the same for `cond_jac`. -/
theorem C98_gradient_method (n r : ℕ) (hr : r < n) (X : List (List ℝ)) (hne : X ≠ [])
    (hX : ∀ row ∈ X, row.length = n) (Jr : List ℝ) (hJ : Jr.length = n) :
    ∃ L : List ℝ → ℝ, (∀ J : List ℝ, J.length = n → condLogLikelihood r X J = .ok (-(L J))) ∧
      ∃ g, condJac r X Jr = .ok g ∧ g.length = n ∧
        ∀ i < n, HasDerivAt (fun x => L (Jr.set i x)) (g.getD i 0) (Jr.getD i 0) := by
  refine ⟨fun J => (X.map fun row => 1 * Real.log (1 + Real.exp (oldEnergy r J row))).sum,
    fun J hJ => ?_, (List.range n).map fun i => (X.map fun row => oldSigma r row * rd (oldRhat r row) i *
      (1 / (1 + Real.exp (-oldEnergy r Jr row)))).sum, ?_, by simp, fun i hi => ?_⟩
  · unfold condLogLikelihood
    rw [(oldCheck_ok hr X hne hX J hJ).1]
    simp only [one_mul]
  · unfold condJac
    obtain ⟨e1, e2⟩ := oldCheck_ok hr X hne hX Jr hJ
    rw [e1, e2]
  · rw [getD_map_range n _ 0 hi]
    have := hasDerivAt_list_sum X (fun row x => 1 *
      Real.log (1 + Real.exp (oldEnergy r (Jr.set i x) row))) _ _ fun row hrow =>
        hasDerivAt_term (r := r) hi Jr row hJ (hX row hrow) 1
    simpa only [one_mul] using this

/-- The entries of the array of co-occurrences times a vector. -/
theorem dot3_ok {n : ℕ} (X : List (List ℝ)) (hne : X ≠ []) (f : List ℝ → List ℝ)
    (hX : ∀ row ∈ X, (f row).length = n) (a : List ℝ → ℝ) :
    ∃ P H, pairCoocArr (X.map f) = .ok P ∧ dot3 (X.map a) P n = .ok H ∧ H.HasShape n n ∧
      ∀ i < n, ∀ j < n, H.at' i j = (X.map fun row => a row * (rd (f row) i * rd (f row) j)).sum := by
  have h0 : ((X.map f).getD 0 []).length = n := by
    rcases X with _ | ⟨b, l⟩
    · exact absurd rfl hne
    · exact hX b (by simp)
  refine ⟨(List.range n).map fun i => X.map fun row => (List.range n).map fun j => rd (f row) i * rd (f row) j,
    Mat.build n n fun i j => (X.map fun row => a row * (rd (f row) i * rd (f row) j)).sum, ?_, ?_,
    Mat.build_shape .., fun i hi j hj => Mat.at_build _ hi hj⟩
  · unfold pairCoocArr
    rw [if_neg (by simpa using hne)]
    simp only [h0, List.map_map]
    rfl
  · unfold dot3
    rw [if_neg]
    · congr 1
      unfold Mat.build
      rw [List.map_map]
      apply List.map_congr_left
      intro i _
      apply List.map_congr_left
      intro j hj
      beta_reduce
      rw [zipWith_map_map]
      apply list_sum_congr
      intro row _
      congr 1
      exact getD_map_range n _ 0 (List.mem_range.1 hj)
    · rw [not_not]
      intro M hM
      obtain ⟨i, _, rfl⟩ := List.mem_map.1 hM
      simp

/-- C98 `conditionalHessian` holds the derivatives of `conditionalJacobian` if the co-occurrences are not
passed. -/
theorem C98_hessian (n r : ℕ) (hr : r < n) (m : ℤ) (X : List (List ℝ)) (hne : X ≠ [])
    (hX : ∀ row ∈ X, row.length = n ∧ (rd row r = 0 ∨ rd row r = 1)) (Jr : List ℝ) (hJ : Jr.length = n) :
    ∃ G : List ℝ → List ℝ, (∀ J : List ℝ, J.length = n → conditionalJacobian r X J m = .ok (G J)) ∧
      ∃ H, conditionalHessian r X Jr m none = .ok H ∧ H.HasShape n n ∧
        ∀ i < n, ∀ j < n, HasDerivAt (fun x => (G (Jr.set j x)).getD i 0) (H.at' i j) (Jr.getD j 0) := by
  have hl : ∀ row ∈ X, row.length = n := fun row h => (hX row h).1
  obtain ⟨P, H, eP, eH, hs, hat⟩ := dot3_ok (n := n) X hne (oldRhat r) (fun row h => by simp [oldRhat, hl row h])
    fun row => oldFilter r m row * oldMult r Jr row
  refine ⟨fun J => (List.range n).map fun i => (X.map fun row => oldSigma r row * rd (oldRhat r row) i *
      (oldFilter r m row * 1 / (1 + Real.exp (-oldEnergy r J row)))).sum, fun J hJ => ?_, H, ?_, hs, ?_⟩
  · unfold conditionalJacobian
    rw [(oldCheck_ok hr X hne hl J hJ).1, hJ]
  · unfold conditionalHessian
    obtain ⟨e1, e2⟩ := oldCheck_ok hr X hne hl Jr hJ
    rw [e1, e2]
    simp only [cachedCooc]
    rw [eP]
    exact eH
  · intro i hi j hj
    rw [hat i hi j hj]
    have := hasDerivAt_list_sum X (fun row x => oldSigma r row * rd (oldRhat r row) i *
      (oldFilter r m row * 1 / (1 + Real.exp (-oldEnergy r (Jr.set j x) row)))) _ _ fun row hrow =>
        hasDerivAt_sigmoid (r := r) hj Jr row hJ (hl row hrow) (oldSigma r row * rd (oldRhat r row) i)
          (oldFilter r m row)
    refine HasDerivAt.congr_deriv (this.congr_of_eventuallyEq (Filter.Eventually.of_forall fun x =>
      getD_map_range n _ 0 hi)) ?_
    apply list_sum_congr
    intro row hrow
    have hsq : oldSigma r row * oldSigma r row = 1 := by
      unfold oldSigma
      rcases (hX row hrow).2 with h | h <;> rw [h] <;> norm_num
    linear_combination (oldFilter r m row * oldMult r Jr row * (rd (oldRhat r row) i * rd (oldRhat r row) j)) * hsq

/-- C98 the same for `cond_hess`. -/
theorem C98_hessian_method (n r : ℕ) (hr : r < n) (X : List (List ℝ)) (hne : X ≠ [])
    (hX : ∀ row ∈ X, row.length = n ∧ (rd row r = 0 ∨ rd row r = 1)) (Jr : List ℝ) (hJ : Jr.length = n) :
    ∃ G : List ℝ → List ℝ, (∀ J : List ℝ, J.length = n → condJac r X J = .ok (G J)) ∧
      ∃ H, condHess r X Jr none = .ok H ∧ H.HasShape n n ∧
        ∀ i < n, ∀ j < n, HasDerivAt (fun x => (G (Jr.set j x)).getD i 0) (H.at' i j) (Jr.getD j 0) := by
  have hl : ∀ row ∈ X, row.length = n := fun row h => (hX row h).1
  obtain ⟨P, H, eP, eH, hs, hat⟩ := dot3_ok (n := n) X hne (oldRhat r) (fun row h => by simp [oldRhat, hl row h])
    (oldMult r Jr)
  refine ⟨fun J => (List.range n).map fun i => (X.map fun row => oldSigma r row * rd (oldRhat r row) i *
      (1 / (1 + Real.exp (-oldEnergy r J row)))).sum, fun J hJ => ?_, H, ?_, hs, ?_⟩
  · unfold condJac
    obtain ⟨e1, e2⟩ := oldCheck_ok hr X hne hl J hJ
    rw [e1, e2]
  · unfold condHess
    obtain ⟨e1, e2⟩ := oldCheck_ok hr X hne hl Jr hJ
    rw [e1, e2]
    simp only [cachedCooc]
    rw [eP]
    exact eH
  · intro i hi j hj
    rw [hat i hi j hj]
    have := hasDerivAt_list_sum X (fun row x => oldSigma r row * rd (oldRhat r row) i *
      (1 * 1 / (1 + Real.exp (-oldEnergy r (Jr.set j x) row)))) _ _ fun row hrow =>
        hasDerivAt_sigmoid (r := r) hj Jr row hJ (hl row hrow) (oldSigma r row * rd (oldRhat r row) i) 1
    simp only [one_mul] at this
    refine HasDerivAt.congr_deriv (this.congr_of_eventuallyEq (Filter.Eventually.of_forall fun x =>
      getD_map_range n _ 0 hi)) ?_
    apply list_sum_congr
    intro row hrow
    have hsq : oldSigma r row * oldSigma r row = 1 := by
      unfold oldSigma
      rcases (hX row hrow).2 with h | h <;> rw [h] <;> norm_num
    linear_combination (oldMult r Jr row * (rd (oldRhat r row) i * rd (oldRhat r row) j)) * hsq

example : ∃ G : List ℝ → List ℝ, (∀ J : List ℝ, J.length = 2 →
      conditionalJacobian 0 [[1, 0], [0, 1]] J 0 = .ok (G J)) ∧
    ∃ H, conditionalHessian 0 [[1, 0], [0, 1]] [1, 3] 0 none = .ok H ∧ H.HasShape 2 2 ∧
      ∀ i < 2, ∀ j < 2, HasDerivAt (fun x => (G ([1, 3].set j x)).getD i 0) (H.at' i j)
        (([1, 3] : List ℝ).getD j 0) :=
  C98_hessian 2 0 (by norm_num) 0 [[1, 0], [0, 1]] (by simp) (by simp [rd]) [1, 3] rfl

/-- C98 fails for the co-occurrences that both solvers pass: they are those of the samples that are not
doubled, and the second derivatives come out too small by a factor of 2 for every spin other than `r`. -/
theorem C98_hessian_passed_wrong (n r : ℕ) (hr : r < n) (m : ℤ) (X : List (List ℝ)) (hne : X ≠ [])
    (hX : ∀ row ∈ X, row.length = n) (Jr : List ℝ) (hJ : Jr.length = n) :
    ∃ P H H' H1 H1', pairCoocArr (X.map fun row => row.set r 1) = .ok P ∧
      conditionalHessian r X Jr m none = .ok H ∧ conditionalHessian r X Jr m (some P) = .ok H' ∧
      condHess r X Jr none = .ok H1 ∧ condHess r X Jr (some P) = .ok H1' ∧
      ∀ i < n, ∀ j < n,
        H.at' i j = (if i = r then 1 else 2) * (if j = r then 1 else 2) * H'.at' i j ∧
        H1.at' i j = (if i = r then 1 else 2) * (if j = r then 1 else 2) * H1'.at' i j := by
  have hset : ∀ row ∈ X, ∀ i < n, rd (oldRhat r row) i = (if i = r then 1 else 2) * rd (row.set r 1) i := by
    intro row hrow i hi
    rw [rd_oldRhat r i row (by rw [hX row hrow]; exact hi)]
    unfold rd
    by_cases h : i = r
    · subst h; simp [hX row hrow, hi]
    · simp [h, List.getElem?_set_ne (Ne.symm h)]
  obtain ⟨P0, H, eP0, eH, -, hat⟩ := dot3_ok (n := n) X hne (oldRhat r) (fun row h => by simp [oldRhat, hX row h])
    fun row => oldFilter r m row * oldMult r Jr row
  obtain ⟨P0', H1, eP0', eH1, -, hat1⟩ := dot3_ok (n := n) X hne (oldRhat r)
    (fun row h => by simp [oldRhat, hX row h]) (oldMult r Jr)
  obtain ⟨P, H', eP, eH', -, hat'⟩ := dot3_ok (n := n) X hne (fun row => row.set r 1)
    (fun row h => by simp [hX row h]) fun row => oldFilter r m row * oldMult r Jr row
  obtain ⟨P', H1', eP', eH1', -, hat1'⟩ := dot3_ok (n := n) X hne (fun row => row.set r 1)
    (fun row h => by simp [hX row h]) (oldMult r Jr)
  obtain ⟨e1, e2⟩ := oldCheck_ok hr X hne hX Jr hJ
  refine ⟨P, H, H', H1, H1', eP, ?_, ?_, ?_, ?_, fun i hi j hj => ⟨?_, ?_⟩⟩
  · unfold conditionalHessian; rw [e1, e2]; simp only [cachedCooc]; rw [eP0]; exact eH
  · unfold conditionalHessian; rw [e1, e2]; simp only [cachedCooc]; exact eH'
  · unfold condHess; rw [e1, e2]; simp only [cachedCooc]; rw [eP0']; exact eH1
  · unfold condHess; rw [e1, e2]; simp only [cachedCooc]
    rw [eP] at eP'
    rw [Except.ok.inj eP']; exact eH1'
  · rw [hat i hi j hj, hat' i hi j hj, ← list_sum_mul_left]
    apply list_sum_congr
    intro row hrow
    rw [hset row hrow i hi, hset row hrow j hj]; ring
  · rw [hat1 i hi j hj, hat1' i hi j hj, ← list_sum_mul_left]
    apply list_sum_congr
    intro row hrow
    rw [hset row hrow i hi, hset row hrow j hj]; ring

/-! ### C98: the sum over all spins -/

/-- C98 the method `pseudo_log_likelihood` raises. -/
theorem C98_total_raises (X : List (List ℝ)) (J : Mat ℝ) (hJ : J ≠ []) :
    pseudoLogLikelihoodMethod X J = .error .nameError := if_neg hJ

/-- C98 `pseudoLogLikelihood` is the sum of the conditional log-likelihoods for a single spin. Missing:
more spins (`C98_total_wrong`). -/
theorem C98_total_partial (X : List (List ℝ)) (a : ℝ) (m : ℤ) (v : ℝ)
    (h : conditionalLogLikelihood 0 X [a] m = .ok v) : pseudoLogLikelihood X [[a]] m = .ok v := by
  unfold pseudoLogLikelihood
  simp [List.mapM_cons, h, bind, Except.bind, pure, Except.pure]

/-- C98 fails for two spins: every conditional log-likelihood of one empty sample without interactions is
`-log 2`, and the sum is reported as `-4 log 2`. -/
theorem C98_total_wrong :
    conditionalLogLikelihood 0 [[0, 0]] [0, 0] 0 = .ok (-Real.log 2) ∧
      conditionalLogLikelihood 1 [[0, 0]] [0, 0] 0 = .ok (-Real.log 2) ∧
      pseudoLogLikelihood [[0, 0]] [[0, 0], [0, 0]] 0 = .ok (-(4 * Real.log 2)) ∧
      -(4 * Real.log 2) ≠ -Real.log 2 + -Real.log 2 := by
  have h : ∀ r < 2, conditionalLogLikelihood r [[0, 0]] [0, 0] 0 = .ok (-Real.log 2) := by
    intro r hr
    unfold conditionalLogLikelihood
    rw [(oldCheck_ok hr [[0, 0]] (by simp) (by simp) [0, 0] rfl).1]
    have e : oldEnergy r [0, 0] [0, 0] = 0 := by
      rw [oldEnergy_eq (n := 2) _ _ rfl rfl]
      have : oldLocal 2 r (fun i => ([0, 0] : List ℝ).getD i 0) (rd [0, 0]) = 0 := by
        unfold oldLocal
        simp [Finset.sum_range_succ]
      rw [this, mul_zero]
    have f : oldFilter r 0 [0, 0] = 1 := by
      unfold oldFilter
      have : rd ([0, 0] : List ℝ) r = 0 := by
        have : r = 0 ∨ r = 1 := by omega
        rcases this with rfl | rfl <;> rfl
      rw [this]; simp
    simp only [List.map_cons, List.map_nil, List.sum_cons, List.sum_nil, e, f, Real.exp_zero]
    norm_num
  refine ⟨h 0 (by norm_num), h 1 (by norm_num), ?_, ?_⟩
  · unfold pseudoLogLikelihood
    have e : (List.range ([[0, 0], [0, 0]] : Mat ℝ).length) = [0, 1] := rfl
    rw [e]
    simp only [List.mapM_cons, List.mapM_nil, h 0 (by norm_num), h 1 (by norm_num), bind, Except.bind, pure,
      Except.pure]
    simp only [List.map_cons, List.map_nil, List.sum_cons, List.sum_nil]
    congr 1
    ring
  · have := Real.log_pos (show (1 : ℝ) < 2 by norm_num)
    intro h
    linarith

end Verif.Props
