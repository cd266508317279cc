/-
C11, C12, C16, C17: parameter conversion (pairwise) and matrix helpers of coniii/utils.py.
-/
import Verif.Lemmas.VecDim
import Mathlib.Analysis.SpecialFunctions.Exp
import Mathlib.Tactic.NormNum
import Mathlib.Algebra.BigOperators.Field

namespace Verif.Props
open Verif Verif.Model Verif.Spec Verif.Lemmas Finset

variable {K : Type*}

/-- C11. `convert_params(h, J, '01')`: for every `n ≥ 1`, all fields and couplings, the returned
parameters give `x` the energy of `2x-1` under the given ones, up to a constant. The identity
holds for all values of `x`, in particular on `{0,1}^n`. -/
theorem C11_to01_energy [Field K] [DecidableEq K] (n : ℕ) (hn : 1 ≤ n) (h J : List K)
    (hh : h.length = n) (hJ : J.length = n * (n - 1) / 2) :
    ∃ h' J', convertParams h (.vec J) .b01 = .ok (h', J') ∧
      h'.length = n ∧ J'.length = n * (n - 1) / 2 ∧
      ∃ c, ∀ x : ℕ → K, isingVecE n h' J' x = isingVecE n h J (fun i => 2 * x i - 1) + c := by
  refine ⟨_, _, convertParams_vec_b01 n hn h J hh hJ, by simp, by simp [hJ], ?_⟩
  refine ⟨-(∑ i ∈ range n, h.getD i 0) +
    ∑ i ∈ range n, ∑ j ∈ range n, (if i < j then couplingAt n J i j else 0), fun x => ?_⟩
  have key := sum_symJ n J x
  unfold isingVecE isingE
  have e1 : ∑ i ∈ range n, ((List.range n).map
      (fun i => 2 * (h.getD i 0 - ∑ j ∈ range n, symJ n J i j))).getD i 0 * x i =
      2 * ∑ i ∈ range n, h.getD i 0 * x i - 2 * ∑ i ∈ range n, x i * ∑ j ∈ range n, symJ n J i j := by
    rw [Finset.mul_sum, Finset.mul_sum, ← Finset.sum_sub_distrib]
    refine Finset.sum_congr rfl fun i hi => ?_
    rw [getD_map_range n _ _ (Finset.mem_range.1 hi)]
    ring
  have e2 : ∑ i ∈ range n, h.getD i 0 * (2 * x i - 1) =
      2 * ∑ i ∈ range n, h.getD i 0 * x i - ∑ i ∈ range n, h.getD i 0 := by
    rw [Finset.mul_sum, ← Finset.sum_sub_distrib]
    exact Finset.sum_congr rfl fun i _ => by ring
  have e3 : ∑ i ∈ range n, ∑ j ∈ range n,
      (if i < j then couplingAt n J i j * (2 * x i - 1) * (2 * x j - 1) else 0) =
      (∑ i ∈ range n, ∑ j ∈ range n,
        (if i < j then couplingAt n (J.map (· * 4)) i j * x i * x j else 0)) -
      2 * (∑ i ∈ range n, ∑ j ∈ range n,
        (if i < j then couplingAt n J i j * (x i + x j) else 0)) +
      ∑ i ∈ range n, ∑ j ∈ range n, (if i < j then couplingAt n J i j else 0) := by
    rw [Finset.mul_sum, ← Finset.sum_sub_distrib, ← Finset.sum_add_distrib]
    refine Finset.sum_congr rfl fun i _ => ?_
    rw [Finset.mul_sum, ← Finset.sum_sub_distrib, ← Finset.sum_add_distrib]
    refine Finset.sum_congr rfl fun j _ => ?_
    rw [couplingAt_map n J _ (by simp)]
    split_ifs <;> ring
  rw [e1, e2, e3, key]
  ring

/-- C11. `convert_params(h, J, '11')`: the returned parameters give the spins `s` the energy of
`(s+1)/2` under the given ones, up to a constant. -/
theorem C11_to11_energy [Field K] [CharZero K] [DecidableEq K] (n : ℕ) (hn : 1 ≤ n) (h J : List K)
    (hh : h.length = n) (hJ : J.length = n * (n - 1) / 2) :
    ∃ h' J', convertParams h (.vec J) .b11 = .ok (h', J') ∧
      h'.length = n ∧ J'.length = n * (n - 1) / 2 ∧
      ∃ c, ∀ s : ℕ → K, isingVecE n h' J' s = isingVecE n h J (fun i => (s i + 1) / 2) + c := by
  refine ⟨_, _, convertParams_vec_b11 n hn h J hh hJ, by simp, by simp [hJ], ?_⟩
  refine ⟨(∑ i ∈ range n, h.getD i 0) / 2 +
    (∑ i ∈ range n, ∑ j ∈ range n, (if i < j then couplingAt n J i j else 0)) / 4, fun x => ?_⟩
  have key := sum_symJ n J x
  unfold isingVecE isingE
  have e1 : ∑ i ∈ range n, ((List.range n).map
      (fun i => h.getD i 0 / 2 + (∑ j ∈ range n, symJ n J i j) / 4)).getD i 0 * x i =
      (∑ i ∈ range n, h.getD i 0 * x i) / 2 +
        (∑ i ∈ range n, x i * ∑ j ∈ range n, symJ n J i j) / 4 := by
    rw [Finset.sum_div, Finset.sum_div, ← Finset.sum_add_distrib]
    refine Finset.sum_congr rfl fun i hi => ?_
    rw [getD_map_range n _ _ (Finset.mem_range.1 hi)]
    ring
  have e2 : ∑ i ∈ range n, h.getD i 0 * ((x i + 1) / 2) =
      (∑ i ∈ range n, h.getD i 0 * x i) / 2 + (∑ i ∈ range n, h.getD i 0) / 2 := by
    rw [Finset.sum_div, Finset.sum_div, ← Finset.sum_add_distrib]
    exact Finset.sum_congr rfl fun i _ => by ring
  have e3 : ∑ i ∈ range n, ∑ j ∈ range n,
      (if i < j then couplingAt n J i j * ((x i + 1) / 2) * ((x j + 1) / 2) else 0) =
      (∑ i ∈ range n, ∑ j ∈ range n,
        (if i < j then couplingAt n (J.map (· / 4)) i j * x i * x j else 0)) +
      (∑ i ∈ range n, ∑ j ∈ range n,
        (if i < j then couplingAt n J i j * (x i + x j) else 0)) / 4 +
      (∑ i ∈ range n, ∑ j ∈ range n, (if i < j then couplingAt n J i j else 0)) / 4 := by
    rw [Finset.sum_div, Finset.sum_div, ← Finset.sum_add_distrib, ← Finset.sum_add_distrib]
    refine Finset.sum_congr rfl fun i _ => ?_
    rw [Finset.sum_div, Finset.sum_div, ← Finset.sum_add_distrib, ← Finset.sum_add_distrib]
    refine Finset.sum_congr rfl fun j _ => ?_
    rw [couplingAt_map n J _ (by simp)]
    split_ifs
    · have : (4 : K) ≠ 0 := by norm_num
      have : (2 : K) ≠ 0 := by norm_num
      field_simp
      ring
    · simp
  rw [e1, e2, e3, key]
  ring

/-- C11. Two energy functions that differ by a constant give the same Boltzmann probabilities on
any finite list of states, so the two theorems above leave probabilities unchanged. -/
theorem C11_probabilities (n : ℕ) (hn : 1 ≤ n) (h J : List ℝ)
    (hh : h.length = n) (hJ : J.length = n * (n - 1) / 2) (states : List (ℕ → ℝ)) :
    ∃ h' J', convertParams h (.vec J) .b01 = .ok (h', J') ∧ ∀ x : ℕ → ℝ,
      Real.exp (-isingVecE n h' J' x) / (states.map fun y => Real.exp (-isingVecE n h' J' y)).sum =
      Real.exp (-isingVecE n h J (fun i => 2 * x i - 1)) /
        (states.map fun y => Real.exp (-isingVecE n h J (fun i => 2 * y i - 1))).sum := by
  obtain ⟨h', J', e, -, -, c, hc⟩ := C11_to01_energy n hn h J hh hJ
  refine ⟨h', J', e, fun x => ?_⟩
  simp only [hc, neg_add, Real.exp_add]
  rw [list_sum_mul_right]
  exact mul_div_mul_right _ _ (Real.exp_pos _).ne'

/-- C11. Couplings given as a symmetric zero-diagonal matrix give the same result as the vector
of the upper triangle. -/
theorem C11_matrix_form [Field K] [DecidableEq K] (n : ℕ) (hn : 1 ≤ n) (h : List K)
    (M : Mat K) (hM : M.HasShape n n) (hsym : ∀ i < n, ∀ j < n, M.at' i j = M.at' j i)
    (hz : ∀ i < n, M.at' i i = 0) (b : Basis) :
    convertParams h (.mat M) b =
      convertParams h (.vec ((upperPairs n).map fun p => M.at' p.1 p.2)) b :=
  convertParams_mat_eq_vec n hn h M hM hsym hz b

/-- C11. A matrix that is not symmetric is rejected whatever the basis. -/
theorem C11_asymmetric_raises [Field K] [DecidableEq K] (h : List K) (M : Mat K) (i j : ℕ)
    (hi : i < M.length) (hj : j < M.length) (hne : M.at' i j ≠ M.at' j i) (b : Basis) :
    convertParams h (.mat M) b = .error .valueError := by
  have : squareformMat M = .error .valueError := by
    unfold squareformMat
    simp only
    have hcon : ¬ ∀ i ∈ List.range M.length, ∀ j ∈ List.range M.length, M.at' i j = M.at' j i :=
      fun h2 => hne (h2 i (List.mem_range.2 hi) j (List.mem_range.2 hj))
    rw [if_pos hcon]
    split_ifs <;> rfl
  unfold convertParams
  simp only [this]
  rfl

/-- C11. A target other than '01' and '11' never gives a result. -/
theorem C11_other_raises [Field K] [DecidableEq K] (h : List K) (J : Couplings K) (r) :
    convertParams h J .other ≠ .ok r := by
  unfold convertParams
  cases J with
  | vec J => cases e : squareformVec J <;> simp [e, bind, Except.bind, pure, Except.pure]
  | mat J => cases e : squareformMat J <;> simp [e, bind, Except.bind, pure, Except.pure]

/-- Non-vacuity of C11: three spins, all parameters non-zero. -/
example : convertParams ([1, -2, 1/2] : List ℚ) (.vec [3, -1, 2]) .b01 =
    .ok ([-2, -14, -1], [12, -4, 8]) := by decide +kernel

/-- C12. From {-1,1} to {0,1} and back. -/
theorem C12_01_then_11 [Field K] [CharZero K] [DecidableEq K] (n : ℕ) (hn : 1 ≤ n) (h J : List K)
    (hh : h.length = n) (hJ : J.length = n * (n - 1) / 2) :
    ∃ h' J', convertParams h (.vec J) .b01 = .ok (h', J') ∧
      convertParams h' (.vec J') .b11 = .ok (h, J) := by
  have h2 : (2 : K) ≠ 0 := by norm_num
  have h4 : (4 : K) ≠ 0 := by norm_num
  refine ⟨_, _, convertParams_vec_b01 n hn h J hh hJ, ?_⟩
  rw [convertParams_vec_b11 n hn _ _ (by simp) (by simp [hJ])]
  congr 2
  · apply List.ext_getElem
    · simp [hh]
    · intro i h1 h3
      have hi : i < n := by simpa using h1
      rw [List.getElem_map, List.getElem_range, getD_map_range n _ _ hi,
        List.getD_eq_getElem _ _ h3]
      have : ∑ j ∈ range n, symJ n (J.map (· * 4)) i j = 4 * ∑ j ∈ range n, symJ n J i j := by
        rw [Finset.mul_sum]
        refine Finset.sum_congr rfl fun j _ => ?_
        unfold symJ
        rw [couplingAt_map n J _ (by simp)]
        split_ifs <;> ring
      rw [this]
      field_simp
      ring
  · rw [List.map_map]
    conv_rhs => rw [← List.map_id J]
    apply List.map_congr_left
    intro a _
    simp only [Function.comp, id]
    field_simp

/-- C12. From {0,1} to {-1,1} and back. -/
theorem C12_11_then_01 [Field K] [CharZero K] [DecidableEq K] (n : ℕ) (hn : 1 ≤ n) (h J : List K)
    (hh : h.length = n) (hJ : J.length = n * (n - 1) / 2) :
    ∃ h' J', convertParams h (.vec J) .b11 = .ok (h', J') ∧
      convertParams h' (.vec J') .b01 = .ok (h, J) := by
  have h2 : (2 : K) ≠ 0 := by norm_num
  have h4 : (4 : K) ≠ 0 := by norm_num
  refine ⟨_, _, convertParams_vec_b11 n hn h J hh hJ, ?_⟩
  rw [convertParams_vec_b01 n hn _ _ (by simp) (by simp [hJ])]
  congr 2
  · apply List.ext_getElem
    · simp [hh]
    · intro i h1 h3
      have hi : i < n := by simpa using h1
      rw [List.getElem_map, List.getElem_range, getD_map_range n _ _ hi,
        List.getD_eq_getElem _ _ h3]
      have : ∑ j ∈ range n, symJ n (J.map (· / 4)) i j = (∑ j ∈ range n, symJ n J i j) / 4 := by
        rw [Finset.sum_div]
        refine Finset.sum_congr rfl fun j _ => ?_
        unfold symJ
        rw [couplingAt_map n J _ (by simp)]
        split_ifs <;> ring
      rw [this]
      field_simp
      ring
  · rw [List.map_map]
    conv_rhs => rw [← List.map_id J]
    apply List.map_congr_left
    intro a _
    simp only [Function.comp, id]
    field_simp

/-- C12. `concat=True` returns the two vectors one after the other, or the same exception. -/
theorem C12_concat [Field K] [DecidableEq K] (h : List K) (J : Couplings K) (b : Basis) :
    convertParamsConcat h J b =
      match convertParams h J b with
      | .ok (h', J') => .ok (h' ++ J')
      | .error e => .error e := by
  unfold convertParamsConcat
  cases convertParams h J b <;> rfl

/-- Non-vacuity of C12. -/
example : convertParams ([-2, -14, -1] : List ℚ) (.vec [12, -4, 8]) .b11 =
    .ok ([1, -2, 1/2], [3, -1, 2]) := by decide +kernel

/-- C17. `replace_diag` keeps everything off the diagonal and puts `d` on it. -/
theorem C17_replace_diag [Ring K] (n : ℕ) (hn : 1 ≤ n) (M : Mat K) (hM : M.HasShape n n)
    (d : List K) (hd : d.length = n) :
    ∃ R, replaceDiag M d = .ok R ∧ R.HasShape n n ∧
      (∀ i < n, ∀ j < n, i ≠ j → R.at' i j = M.at' i j) ∧ ∀ i < n, R.at' i i = d.getD i 0 := by
  refine ⟨_, ?_, Mat.build_shape n n fun i j =>
    M.at' i j - (if i = j then M.at' i i else 0) + (if i = j then d.getD i 0 else 0), ?_, ?_⟩
  · unfold replaceDiag
    rw [if_neg (by rw [Mat.ncols_eq hM (by omega), hM.1, hd]; simp), hM.1]
  · intro i hi j hj hij
    rw [Mat.at_build _ hi hj]
    simp [hij]
  · intro i hi
    rw [Mat.at_build _ hi hi]
    simp

/-- C17. `zero_diag` keeps everything off the diagonal and zeroes the diagonal. -/
theorem C17_zero_diag [Ring K] (n : ℕ) (hn : 1 ≤ n) (M : Mat K) (hM : M.HasShape n n) :
    ∃ R, zeroDiag M = .ok R ∧ R.HasShape n n ∧
      (∀ i < n, ∀ j < n, i ≠ j → R.at' i j = M.at' i j) ∧ ∀ i < n, R.at' i i = 0 := by
  obtain ⟨R, h1, h2, h3, h4⟩ := C17_replace_diag n hn M hM (List.replicate n 0) (by simp)
  refine ⟨R, ?_, h2, h3, fun i hi => ?_⟩
  · unfold zeroDiag; rw [hM.1]; exact h1
  · rw [h4 i hi]; simp [hi]

/-- C17. A diagonal of the wrong length, or a matrix that is not square, raises. -/
theorem C17_wrong_shape_raises [Ring K] (r c : ℕ) (hr : 1 ≤ r) (M : Mat K) (hM : M.HasShape r c)
    (d : List K) (h : r ≠ c ∨ d.length ≠ c) : replaceDiag M d = .error .exception := by
  unfold replaceDiag
  rw [if_pos]
  rw [hM.1, Mat.ncols_eq hM (by omega)]
  intro h'
  rcases h with h | h
  · exact h h'.1
  · exact h h'.2.symm

/-- Non-vacuity of C17. -/
example : replaceDiag ([[1, 2], [3, 4]] : Mat ℤ) [7, 8] = .ok [[7, 2], [3, 8]] := by decide

/-- C16. `vec2mat` of fields and couplings: the fields are on the diagonal, coupling `k` at both
cells of the `k`-th row-major pair. -/
theorem C16_vec2mat [CommRing K] (n : ℕ) (hn : 1 ≤ n) (h J : List K) (hh : h.length = n)
    (hJ : J.length = n * (n - 1) / 2) :
    ∃ M, vec2mat (h ++ J) = .ok M ∧ M.HasShape n n ∧ (∀ i < n, M.at' i i = h.getD i 0) ∧
      (∀ i j, i < j → j < n → M.at' i j = couplingAt n J i j ∧ M.at' j i = couplingAt n J i j) := by
  have e1 : vecDim (h ++ J).length = n := by rw [List.length_append, hh, hJ, vecDim_eq]
  obtain ⟨M, h1, h2, h3, h4⟩ := C17_replace_diag n hn _ (Mat.build_shape n n fun i j =>
    if i = j then (0 : K) else J.getD ((upperPairs n).idxOf (min i j, max i j)) 0) h hh
  refine ⟨M, ?_, h2, h4, ?_⟩
  · unfold vec2mat
    simp only [e1]
    rw [← hh, List.drop_left, List.take_left, squareformVec_eq n hn J hJ]
    exact h1
  · intro i j hij hj
    rw [h3 i (by omega) j hj hij.ne, h3 j hj i (by omega) hij.ne', Mat.at_build _ (by omega) hj,
      Mat.at_build _ hj (by omega), if_neg hij.ne, if_neg hij.ne', min_eq_left hij.le,
      max_eq_right hij.le, min_eq_right hij.le, max_eq_left hij.le]
    exact ⟨rfl, rfl⟩

/-- C16. With `separate_fields=True` the same numbers come back with zeros on the diagonal. -/
theorem C16_vec2mat_separate [CommRing K] (n : ℕ) (hn : 1 ≤ n) (h J : List K) (hh : h.length = n)
    (hJ : J.length = n * (n - 1) / 2) :
    ∃ M, vec2matSeparate (h ++ J) = .ok (h, M) ∧ M.HasShape n n ∧ (∀ i < n, M.at' i i = 0) ∧
      (∀ i j, i < j → j < n → M.at' i j = couplingAt n J i j ∧ M.at' j i = couplingAt n J i j) := by
  have e1 : vecDim (h ++ J).length = n := by rw [List.length_append, hh, hJ, vecDim_eq]
  refine ⟨_, ?_, Mat.build_shape n n fun i j =>
    if i = j then (0 : K) else J.getD ((upperPairs n).idxOf (min i j, max i j)) 0, ?_, ?_⟩
  · unfold vec2matSeparate
    simp only [e1]
    rw [← hh, List.drop_left, List.take_left, hh, squareformVec_eq n hn J hJ]
    rfl
  · intro i hi
    rw [Mat.at_build _ hi hi]; simp
  · intro i j hij hj
    rw [Mat.at_build _ (by omega) hj,
      Mat.at_build _ hj (by omega), if_neg hij.ne, if_neg hij.ne', min_eq_left hij.le,
      max_eq_right hij.le, min_eq_right hij.le, max_eq_left hij.le]
    exact ⟨rfl, rfl⟩

/-- C16. `mat2vec` of a symmetric matrix: the diagonal, then the row-major upper triangle. -/
theorem C16_mat2vec [CommRing K] [DecidableEq K] (n : ℕ) (hn : 1 ≤ n) (M : Mat K)
    (hM : M.HasShape n n) (hsym : ∀ i < n, ∀ j < n, M.at' i j = M.at' j i) :
    mat2vec M = .ok ((List.range n).map (fun i => M.at' i i) ++
      (upperPairs n).map fun p => M.at' p.1 p.2) := by
  obtain ⟨Z, h1, h2, h3, h4⟩ := C17_zero_diag n hn M hM
  have hs : squareformMat Z = .ok ((upperPairs n).map fun p => Z.at' p.1 p.2) := by
    unfold squareformMat
    simp only [h2.1]
    rw [if_neg (by simpa using Mat.ncols_eq h2 (by omega)), if_neg, if_neg]
    · simp only [not_not, List.mem_range]; exact h4
    · simp only [not_not, List.mem_range]
      intro i hi j hj
      rcases eq_or_ne i j with rfl | hij
      · rfl
      · rw [h3 i hi j hj hij, h3 j hj i hi hij.symm, hsym i hi j hj]
  unfold mat2vec diagonal
  simp only [h1, hs, bind, Except.bind, pure, Except.pure, hM.1, Mat.ncols_eq hM (by omega), min_self]
  congr 2
  apply List.map_congr_left
  intro p hp
  obtain ⟨a, b⟩ := mem_upperPairs.1 hp
  exact h3 _ (by omega) _ (by omega) a.ne

/-- C16. A matrix that is not symmetric is rejected by `mat2vec`. -/
theorem C16_mat2vec_asymmetric_raises [CommRing K] [DecidableEq K] (n : ℕ) (M : Mat K)
    (hM : M.HasShape n n) (i j : ℕ) (hi : i < n) (hj : j < n) (hne : M.at' i j ≠ M.at' j i) :
    mat2vec M = .error .valueError := by
  have hij : i ≠ j := fun h => hne (by rw [h])
  obtain ⟨Z, h1, h2, h3, h4⟩ := C17_zero_diag n (by omega) M hM
  have hs : squareformMat Z = .error .valueError := by
    have hcon : ¬ ∀ i ∈ List.range n, ∀ j ∈ List.range n, Z.at' i j = Z.at' j i := by
      intro h
      have := h i (List.mem_range.2 hi) j (List.mem_range.2 hj)
      rw [h3 i hi j hj hij, h3 j hj i hi hij.symm] at this
      exact hne this
    unfold squareformMat
    simp only [h2.1]
    rw [if_pos hcon]
    split_ifs <;> rfl
  unfold mat2vec
  simp only [h1, hs, bind, Except.bind]

/-- C16. Vector to matrix and back. -/
theorem C16_vec_mat_vec [CommRing K] [DecidableEq K] (n : ℕ) (hn : 1 ≤ n) (v : List K)
    (hv : v.length = n + n * (n - 1) / 2) :
    ∃ M, vec2mat v = .ok M ∧ mat2vec M = .ok v := by
  have hh : (v.take n).length = n := by rw [List.length_take, hv]; omega
  have hJ : (v.drop n).length = n * (n - 1) / 2 := by rw [List.length_drop, hv]; omega
  obtain ⟨M, h1, h2, h3, h4⟩ := C16_vec2mat n hn (v.take n) (v.drop n) hh hJ
  rw [List.take_append_drop] at h1
  refine ⟨M, h1, ?_⟩
  have hsym : ∀ i < n, ∀ j < n, M.at' i j = M.at' j i := by
    intro i hi j hj
    rcases lt_trichotomy i j with h | h | h
    · rw [(h4 i j h hj).1, (h4 i j h hj).2]
    · rw [h]
    · rw [(h4 j i h hi).1, (h4 j i h hi).2]
  rw [C16_mat2vec n hn M h2 hsym]
  congr 1
  conv_rhs => rw [← List.take_append_drop n v]
  congr 1
  · apply List.ext_getElem (by simp [hh])
    intro i h5 h6
    have hi : i < n := by simpa using h5
    rw [List.getElem_map, List.getElem_range, h3 i hi, List.getD_eq_getElem _ _ h6]
  · conv_rhs => rw [← upperPairs_map_coupling n (v.drop n) hJ]
    apply List.map_congr_left
    intro p hp
    obtain ⟨a, b⟩ := mem_upperPairs.1 hp
    exact (h4 _ _ a b).1

/-- C16. Matrix to vector and back. -/
theorem C16_mat_vec_mat [CommRing K] [DecidableEq K] (n : ℕ) (hn : 1 ≤ n) (M : Mat K)
    (hM : M.HasShape n n) (hsym : ∀ i < n, ∀ j < n, M.at' i j = M.at' j i) :
    ∃ v, mat2vec M = .ok v ∧ vec2mat v = .ok M := by
  refine ⟨_, C16_mat2vec n hn M hM hsym, ?_⟩
  obtain ⟨N, h1, h2, h3, h4⟩ := C16_vec2mat n hn ((List.range n).map (fun i => M.at' i i))
    ((upperPairs n).map fun p => M.at' p.1 p.2) (by simp) (by simp [length_upperPairs])
  rw [h1]
  congr 1
  have key : ∀ a b, a < b → b < n →
      couplingAt n ((upperPairs n).map fun p => M.at' p.1 p.2) a b = M.at' a b := by
    intro a b hab hb
    have hlt : (upperPairs n).idxOf (a, b) < (upperPairs n).length :=
      List.idxOf_lt_length_of_mem (mem_upperPairs.2 ⟨hab, hb⟩)
    unfold couplingAt
    rw [List.getD_eq_getElem _ _ (by simpa using hlt), List.getElem_map, List.getElem_idxOf hlt]
  refine Mat.ext' h2 hM fun i hi j hj => ?_
  rcases lt_trichotomy i j with h | h | h
  · rw [(h4 i j h hj).1, key i j h hj]
  · subst h; rw [h3 i hi, getD_map_range n _ _ hi]
  · rw [(h4 j i h hi).2, key j i h hi, hsym i hi j hj]

/-- C16. `vec2mat` raises for every length that is not `n(n+1)/2` with `n ≥ 1` (although its own
length check never fires). Partial: with `separate_fields=True` this is false, see below. -/
theorem C16_malformed_raises_partial [CommRing K] (v : List K)
    (hv : ∀ n, 1 ≤ n → v.length ≠ n + n * (n - 1) / 2) : ∃ e, vec2mat v = .error e := by
  cases hres : vec2mat v with
  | error e => exact ⟨e, rfl⟩
  | ok M =>
    exfalso
    unfold vec2mat at hres
    set n := vecDim v.length with hn
    obtain ⟨hlo, hhi⟩ := vecDim_spec v.length
    rw [← hn] at hlo hhi
    have hnle : n ≤ v.length := by nlinarith
    simp only [bind, Except.bind] at hres
    cases hsq : squareformVec (v.drop n) with
    | error e => rw [hsq] at hres; simp at hres
    | ok S =>
      rw [hsq] at hres
      simp only [replaceDiag] at hres
      split_ifs at hres with hc
      have hS : S.length = n := by
        have := hc.1.trans hc.2
        rw [this, List.length_take]; omega
      unfold squareformVec at hsq
      split_ifs at hsq with h0
      · have : S.length = 1 := by rw [← Except.ok.inj hsq]; rfl
        have h1 : n = 1 := by omega
        rw [List.length_drop] at h0
        exact hv 1 le_rfl (by simp; omega)
      · cases htri : triDim (v.drop n).length with
        | none => rw [htri] at hsq; simp at hsq
        | some d =>
          rw [htri] at hsq
          have hd : S.length = d := by rw [← Except.ok.inj hsq]; simp [Mat.build]
          have := triDim_some htri
          rw [List.length_drop] at this h0
          have hdn : d = n := by omega
          rw [hdn] at this
          have hpos : 1 ≤ n := by
            rcases Nat.eq_zero_or_pos n with h | h
            · rw [h] at this; omega
            · exact h
          have h2 := two_mul_tri n
          exact hv n hpos (by omega)

/-- C16. With `separate_fields=True` malformed lengths are **not** rejected: for every `n ≥ 1` a
vector of length `n + n(n+1)/2` gives `n` fields and an `(n+1) × (n+1)` coupling matrix. -/
theorem C16_separate_accepts_malformed [CommRing K] (n : ℕ) (hn : 1 ≤ n) (v : List K)
    (hv : v.length = n + (n + 1) * n / 2) :
    ∃ h M, vec2matSeparate v = .ok (h, M) ∧ h.length = n ∧ M.HasShape (n + 1) (n + 1) := by
  refine ⟨v.take n, _, ?_, ?_, Mat.build_shape (n + 1) (n + 1) fun i j => if i = j then 0 else
    (v.drop n).getD ((upperPairs (n + 1)).idxOf (min i j, max i j)) 0⟩
  · unfold vec2matSeparate
    simp only [hv, vecDim_eq' n hn]
    rw [squareformVec_eq (n + 1) (by omega) (v.drop n) (by rw [List.length_drop, hv]; simp)]
    rfl
  · rw [List.length_take, hv]; omega

/-- C16, concrete witness of the previous theorem: two numbers give one field and a `2 × 2`
matrix. -/
theorem C16_separate_malformed_witness :
    vec2matSeparate ([1, 2] : List ℤ) = .ok ([1], [[0, 2], [2, 0]]) := by decide +kernel

/-- Non-vacuity of C16. -/
example : vec2mat ([1, 2, 3, 4, 5, 6] : List ℤ) = .ok [[1, 4, 5], [4, 2, 6], [5, 6, 3]] ∧
    mat2vec ([[1, 4, 5], [4, 2, 6], [5, 6, 3]] : Mat ℤ) = .ok [1, 2, 3, 4, 5, 6] := by
  decide +kernel

end Verif.Props
