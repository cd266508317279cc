/-
C33, C34: the model constructors of coniii/models.py.
-/
import Verif.Model.Models
import Verif.Lemmas.EnumerateWrap
import Verif.Props.Matrix

namespace Verif.Props
open Verif Verif.Model Verif.Spec Verif.Lemmas

variable {K : Type*}

/-! ### C33 -/

/-- C33. Fields and couplings as a list of two vectors. -/
theorem C33_list [Zero K] [DecidableEq K] (n : ℕ) (h J : List K) (hh : h.length = n)
    (hJ : J.length = n * (n - 1) / 2) :
    isingInit (.parts [h, J]) = .ok ⟨n, h ++ J⟩ := by
  have := two_mul_tri n
  simp only [isingInit, isingParts]
  rw [if_pos (by rw [hh, hJ, this]), hh]

/-- C33. A list of two vectors is accepted only with the right lengths. -/
theorem C33_list_rejects [Zero K] [DecidableEq K] (h J : List K)
    (hJ : J.length ≠ h.length * (h.length - 1) / 2) :
    isingInit (.parts [h, J]) = .error .assertion := by
  have := two_mul_tri h.length
  simp only [isingInit, isingParts]
  rw [if_neg (by omega)]

/-- C33. Lists with another number of members are rejected. -/
theorem C33_list_wrong_parts [Zero K] [DecidableEq K] (l : List (List K)) (hl : l.length ≠ 2) :
    isingInit (.parts l) = .error .exception := by
  rcases l with _ | ⟨a, _ | ⟨b, _ | ⟨c, l⟩⟩⟩ <;> simp_all [isingInit]

/-- C33. All parameters in one vector. -/
theorem C33_vector [Zero K] [DecidableEq K] (n : ℕ) (h J : List K) (hh : h.length = n)
    (hJ : J.length = n * (n - 1) / 2) :
    isingInit (.vec (h ++ J)) = .ok ⟨n, h ++ J⟩ := by
  have h2 := two_mul_tri n
  have hl : (h ++ J).length = n + n * (n - 1) / 2 := by rw [List.length_append, hh, hJ]
  simp only [isingInit, isingVec]
  rw [if_neg, hl, vecDim_eq, if_pos (by rw [mul_add, h2, Nat.mul_comm n])]
  rw [hl]
  rcases n with _ | _ | _ | n
  · simp
  · simp
  · simp
  · omega

/-- C33. Vectors whose length is not `n + n(n-1)/2` for some `n` are rejected. -/
theorem C33_vector_rejects [Zero K] [DecidableEq K] (v : List K)
    (hv : ∀ n, v.length ≠ n + n * (n - 1) / 2) : ∃ e, isingInit (.vec v) = .error e := by
  simp only [isingInit, isingVec]
  by_cases h2 : v.length = 2
  · rw [if_pos h2]; exact ⟨_, rfl⟩
  · rw [if_neg h2, if_neg]
    · exact ⟨_, rfl⟩
    · intro h
      have := two_mul_tri (vecDim v.length)
      refine hv (vecDim v.length) ?_
      rw [Nat.mul_comm (_ - 1)] at h
      omega

/-- C33. A symmetric matrix with the fields on its diagonal. Partial: not for `2 × 2` matrices, see
`C33_two_by_two_fails`. -/
theorem C33_matrix_partial [Zero K] [DecidableEq K] (n : ℕ) (hn : 1 ≤ n) (hn2 : n ≠ 2) (M : Mat K)
    (hM : M.HasShape n n) (hsym : ∀ i < n, ∀ j < n, M.at' i j = M.at' j i) :
    isingInit (.mat M) = .ok ⟨n, (List.range n).map (fun i => M.at' i i) ++
      (upperPairs n).map fun p => M.at' p.1 p.2⟩ := by
  have hl := hM.1
  have e : isingInit (.mat M) = isingMat M := by
    rcases M with _ | ⟨a, _ | ⟨b, _ | ⟨c, l⟩⟩⟩
    · rfl
    · rfl
    · simp at hl; omega
    · rfl
  rw [e]
  have hc := Mat.ncols_eq hM (by omega)
  have hs : squareformMat (Mat.build n n fun i j => if i = j then 0 else M.at' i j) =
      .ok ((upperPairs n).map fun p => M.at' p.1 p.2) := by
    have hb := Mat.build_shape n n fun i j => if i = j then 0 else M.at' i j
    unfold squareformMat
    simp only [hb.1]
    rw [if_neg (by simpa using Mat.ncols_eq hb (by omega)), if_neg, if_neg]
    · congr 1
      apply List.map_congr_left
      intro p hp
      obtain ⟨a, b⟩ := mem_upperPairs.1 hp
      rw [Mat.at_build _ (by omega) b, if_neg a.ne]
    · simp only [not_not, List.mem_range]
      intro i hi
      rw [Mat.at_build _ hi hi, if_pos rfl]
    · simp only [not_not, List.mem_range]
      intro i hi j hj
      rw [Mat.at_build _ hi hj, Mat.at_build _ hj hi]
      rcases eq_or_ne i j with rfl | hij
      · rfl
      · rw [if_neg hij, if_neg hij.symm, hsym i hi j hj]
  simp only [isingMat, hc, hl, hs, lt_irrefl, if_false]

/-- C33. So the list, the vector and the matrix describe the same model. Partial: not for two spins
and a matrix. -/
theorem C33_formats_agree_partial [CommRing K] [DecidableEq K] (n : ℕ) (hn : 1 ≤ n) (hn2 : n ≠ 2)
    (h J : List K) (hh : h.length = n) (hJ : J.length = n * (n - 1) / 2) (M : Mat K)
    (hM : vec2mat (h ++ J) = .ok M) :
    isingInit (.mat M) = .ok ⟨n, h ++ J⟩ ∧ isingInit (.vec (h ++ J)) = .ok ⟨n, h ++ J⟩ ∧
      isingInit (.parts [h, J]) = .ok ⟨n, h ++ J⟩ := by
  refine ⟨?_, C33_vector n h J hh hJ, C33_list n h J hh hJ⟩
  obtain ⟨M', h1, h2, h3, h4⟩ := C16_vec2mat n hn h J hh hJ
  have : M' = M := by rw [h1] at hM; exact Except.ok.inj hM
  subst this
  have hsym : ∀ i < n, ∀ j < n, M'.at' i j = M'.at' j i := by
    intro i hi j hj
    rcases lt_trichotomy i j with h | h | h
    · rw [(h4 i j h hj).1, (h4 i j h hj).2]
    · rw [h]
    · rw [(h4 j i h hi).1, (h4 j i h hi).2]
  obtain ⟨M2, h5, h6⟩ := C16_vec_mat_vec n hn (h ++ J) (by rw [List.length_append, hh, hJ])
  have : M2 = M' := by rw [h1] at h5; exact (Except.ok.inj h5).symm
  subst this
  rw [C16_mat2vec n hn M2 h2 hsym] at h6
  rw [C33_matrix_partial n hn hn2 M2 h2 hsym, Except.ok.inj h6]

/-- C33 is false for two spins and a matrix: every `2 × 2` matrix is taken for a list `[h, J]` and
rejected. -/
theorem C33_two_by_two_fails [Zero K] [DecidableEq K] (M : Mat K) (hM : M.HasShape 2 2) :
    isingInit (.mat M) = .error .assertion := by
  obtain ⟨hl, hr⟩ := hM
  rcases M with _ | ⟨a, _ | ⟨b, _ | ⟨c, l⟩⟩⟩
  · simp at hl
  · simp at hl
  · have ha := hr a (by simp)
    have hb := hr b (by simp)
    simp [isingInit, isingParts, ha, hb]
  · simp at hl

/-- C33. Matrices (with other than two rows) that are not square or not symmetric are rejected. -/
theorem C33_matrix_rejects [Zero K] [DecidableEq K] (r c : ℕ) (hr : 1 ≤ r) (hr2 : r ≠ 2) (M : Mat K)
    (hM : M.HasShape r c)
    (hbad : r ≠ c ∨ ∃ i < r, ∃ j < r, M.at' i j ≠ M.at' j i) :
    ∃ e, isingInit (.mat M) = .error e := by
  have hl := hM.1
  have e : isingInit (.mat M) = isingMat M := by
    rcases M with _ | ⟨a, _ | ⟨b, _ | ⟨d, l⟩⟩⟩
    · rfl
    · rfl
    · simp at hl; omega
    · rfl
  rw [e]
  have hc := Mat.ncols_eq hM (by omega)
  simp only [isingMat, hc, hl]
  by_cases hlt : c < r
  · rw [if_pos hlt]; exact ⟨_, rfl⟩
  rw [if_neg hlt]
  have hb := Mat.build_shape r c fun i j => if i = j then 0 else M.at' i j
  have hs : squareformMat (Mat.build r c fun i j => if i = j then 0 else M.at' i j) =
      .error .valueError := by
    unfold squareformMat
    simp only [hb.1, Mat.ncols_eq hb (show 0 < r by omega)]
    by_cases hrc : c = r
    · subst hrc
      rw [if_neg (by simp), if_pos]
      obtain h | ⟨i, hi, j, hj, hne⟩ := hbad
      · exact absurd rfl h
      · intro hall
        have := hall i (List.mem_range.2 hi) j (List.mem_range.2 hj)
        have hij : i ≠ j := fun h => hne (by rw [h])
        rw [Mat.at_build _ hi hj, Mat.at_build _ hj hi, if_neg hij, if_neg hij.symm] at this
        exact hne this
    · rw [if_pos hrc]
  rw [hs]
  exact ⟨_, rfl⟩

/-- C33. An integer `n > 1` gives zeros; smaller integers are rejected. -/
theorem C33_int [Zero K] [DecidableEq K] (z : ℤ) :
    (∀ n : ℕ, 1 < n → z = n →
      isingInit (.int z : IsingArg K) = .ok ⟨n, List.replicate (n + n * (n - 1) / 2) 0⟩) ∧
    (z ≤ 1 → isingInit (.int z : IsingArg K) = .error .assertion) := by
  constructor
  · rintro n hn rfl
    have h2 := two_mul_tri n
    simp only [isingInit, isingVec, Int.toNat_natCast, List.length_replicate, vecDim_eq]
    rw [if_neg (by omega), if_pos (by rw [mul_add, h2, Nat.mul_comm n])]
  · intro hz
    simp only [isingInit]
    rw [if_pos (by omega)]

/-- C33. `calc_p()` and `calc_observables()` of a constructed model are those of the Boltzmann
distribution of its parameters, and after `set_multipliers` those of the new parameters. -/
theorem C33_distribution (n : ℕ) (hn : 1 ≤ n) (h J h' J' : List ℝ)
    (hh : h.length = n) (hJ : J.length = n * (n - 1) / 2)
    (hh' : h'.length = n) (hJ' : J'.length = n * (n - 1) / 2) :
    ∃ e st, writeEqns n true (pairwiseIx n) = .ok e ∧ isingInit (.parts [h, J]) = .ok st ∧
      (isingModelInit st e).calcP none = .ok ((words (spinValues true) n).map
        (boltzmann (words (spinValues true) n) fun s => isingVecE n h J (spins s))) ∧
      ((isingModelInit st e).setMultipliers (h' ++ J')).calcP none =
        .ok ((words (spinValues true) n).map
          (boltzmann (words (spinValues true) n) fun s => isingVecE n h' J' (spins s))) ∧
      ∀ brk, ((isingModelInit st e).setMultipliers (h' ++ J')).calcObservables brk none = .ok
        ((List.range n).map (fun i => expect (words (spinValues true) n)
            (fun s => isingVecE n h' J' (spins s)) fun s => spins s i) ++
          (upperPairs n).map fun q => expect (words (spinValues true) n)
            (fun s => isingVecE n h' J' (spins s)) fun s => spins s q.1 * spins s q.2) := by
  obtain ⟨e, h1, h2⟩ := pairwise_module n hn true
  exact ⟨e, _, h1, C33_list n h J hh hJ, (h2 h J hh hJ).1, (h2 h' J' hh' hJ').1,
    fun brk => (h2 h' J' hh' hJ').2 brk⟩

/-- Non-vacuity of C33. -/
example : isingInit (.mat [[1, 4, 5], [4, 2, 6], [5, 6, 3]] : IsingArg ℤ) = .ok ⟨3, [1, 2, 3, 4, 5, 6]⟩ ∧
    isingInit (.vec [1, 2, 3, 4, 5, 6] : IsingArg ℤ) = .ok ⟨3, [1, 2, 3, 4, 5, 6]⟩ ∧
    isingInit (.parts [[1, 2, 3], [4, 5, 6]] : IsingArg ℤ) = .ok ⟨3, [1, 2, 3, 4, 5, 6]⟩ ∧
    isingInit (.int 2 : IsingArg ℤ) = .ok ⟨2, [0, 0, 0]⟩ ∧
    isingInit (.vec [1, 2] : IsingArg ℤ) = .error .typeError ∧
    isingInit (.mat [[1, 2], [2, 3]] : IsingArg ℤ) = .error .assertion ∧
    (∀ n : ℕ, ([1, 2, 3, 4] : List ℤ).length ≠ n + n * (n - 1) / 2) := by
  refine ⟨by decide +kernel, by decide +kernel, by decide +kernel, by decide +kernel,
    by decide +kernel, by decide +kernel, fun n h => ?_⟩
  have h2 := two_mul_tri n
  simp only [List.length_cons, List.length_nil] at h
  rcases n with _ | _ | _ | _ | n
  · simp at h
  · simp at h
  · simp at h
  · simp at h
  · have : (n + 1 + 1 + 1 + 1) * (n + 1 + 1 + 1 + 1 - 1) ≥ 4 * 3 :=
      Nat.mul_le_mul (by omega) (by omega)
    omega

/-! ### C34 -/

/-- C34. `Triplet` accepts a list of three vectors exactly when the lengths are binomial
coefficients, and joins them. -/
theorem C34_triplet (h J T : List K) :
    tripletInit (.parts [h, J, T]) =
      if J.length = h.length.choose 2 ∧ T.length = h.length.choose 3 then
        .ok ⟨h.length, h ++ J ++ T⟩ else .error .assertion := by
  simp only [tripletInit]
  by_cases h1 : h.length.choose 2 = J.length
  · by_cases h2 : h.length.choose 3 = T.length
    · simp [h1, h2]
    · simp only [h1, h2, not_true_eq_false, not_false_eq_true, if_false, if_true]
      rw [if_neg]; rintro ⟨-, h3⟩; exact h2 h3.symm
  · rw [if_pos h1, if_neg]; rintro ⟨h3, -⟩; exact h1 h3.symm

/-- C34. Whatever `Triplet` accepts, it has the joined parameters and a first part with `n` entries. -/
theorem C34_triplet_accepts (l : List (List K)) (st : ModelState K)
    (hst : tripletInit (.parts l) = .ok st) :
    ∃ h J T rest, l = h :: J :: T :: rest ∧ st.n = h.length ∧ st.multipliers = l.flatten ∧
      J.length = st.n.choose 2 ∧ T.length = st.n.choose 3 := by
  rcases l with _ | ⟨h, _ | ⟨J, _ | ⟨T, rest⟩⟩⟩
  · simp [tripletInit] at hst
  · simp [tripletInit] at hst
  · simp only [tripletInit] at hst; split_ifs at hst
  · simp only [tripletInit] at hst
    split_ifs at hst with h1 h2
    cases hst
    exact ⟨h, J, T, rest, rfl, rfl, rfl, h1.symm, h2.symm⟩

/-- C34. One vector is never accepted by `Triplet`, although its documentation offers it. -/
theorem C34_triplet_vector_raises (v : List K) :
    ∃ e, tripletInit (.vec v) = .error e := by
  simp only [tripletInit]; split_ifs <;> exact ⟨_, rfl⟩

/-- C34. `Potts3` with one vector: `n` is inferred from the length. -/
theorem C34_potts_vector (n : ℕ) (v : List K) (hv : v.length = 3 * n + n * (n - 1) / 2) :
    potts3Init (.vec v) = .ok ⟨n, v⟩ := by
  have h2 := two_mul_tri n
  have h3 := mul_pred_add n
  have hs : 25 + 8 * v.length = (2 * n + 5) * (2 * n + 5) := by rw [hv]; nlinarith
  simp only [potts3Init, hs, Nat.sqrt_eq]
  rw [if_pos ⟨trivial, by omega⟩]
  congr 2
  omega

/-- C34. Every other length is rejected. -/
theorem C34_potts_vector_rejects (v : List K) (hv : ∀ n, v.length ≠ 3 * n + n * (n - 1) / 2) :
    potts3Init (.vec v) = .error .assertion := by
  simp only [potts3Init]
  rw [if_neg]
  rintro ⟨h1, h2⟩
  obtain ⟨r, hr⟩ : ∃ r, r = Nat.sqrt (25 + 8 * v.length) := ⟨_, rfl⟩
  rw [← hr] at h1 h2
  have hr5 : 5 ≤ r := by nlinarith
  obtain ⟨n, rfl⟩ : ∃ n, r = 2 * n + 5 := ⟨(r - 5) / 2, by omega⟩
  have h3 := two_mul_tri n
  have h4 := mul_pred_add n
  refine hv n ?_
  have : 8 * v.length = 4 * (n * n) + 20 * n := by nlinarith
  omega

open scoped Classical in
/-- C34. `Potts3` with a list of two vectors. -/
theorem C34_potts_list (h J : List K) :
    potts3Init (.parts [h, J]) =
      if ∃ n, h.length = 3 * n ∧ J.length = n.choose 2 then .ok ⟨h.length / 3, h ++ J⟩
      else .error .assertion := by
  simp only [potts3Init]
  by_cases h1 : h.length % 3 = 0
  · by_cases h2 : (h.length / 3).choose 2 = J.length
    · rw [if_neg (not_not.2 h1), if_neg (not_not.2 h2), if_pos ⟨h.length / 3, by omega, h2.symm⟩]
    · rw [if_neg (not_not.2 h1), if_pos h2, if_neg]
      rintro ⟨n, h3, h4⟩
      exact h2 (by rw [h4, h3, Nat.mul_div_cancel_left _ (by norm_num)])
  · rw [if_pos h1, if_neg]
    rintro ⟨n, h3, -⟩
    omega

/-- C34. So the list and the vector describe the same Potts model. -/
theorem C34_potts_formats_agree (n : ℕ) (h J : List K) (hh : h.length = 3 * n)
    (hJ : J.length = n.choose 2) :
    potts3Init (.parts [h, J]) = .ok ⟨n, h ++ J⟩ ∧ potts3Init (.vec (h ++ J)) = .ok ⟨n, h ++ J⟩ := by
  constructor
  · rw [C34_potts_list, if_pos ⟨n, hh, hJ⟩, hh, Nat.mul_div_cancel_left _ (by norm_num)]
  · exact C34_potts_vector n _ (by rw [List.length_append, hh, hJ, Nat.choose_two_right])

/-- Non-vacuity of C34. -/
example : tripletInit (.parts [[1, 2, 3], [4, 5, 6], [7]] : IsingArg ℤ) =
      .ok ⟨3, [1, 2, 3, 4, 5, 6, 7]⟩ ∧
    tripletInit (.parts [[1, 2, 3], [4, 5], [7]] : IsingArg ℤ) = .error .assertion ∧
    potts3Init (.vec [1, 2, 3, 4, 5, 6, 7] : IsingArg ℤ) = .ok ⟨2, [1, 2, 3, 4, 5, 6, 7]⟩ ∧
    potts3Init (.parts [[1, 2, 3, 4, 5, 6], [7]] : IsingArg ℤ) = .ok ⟨2, [1, 2, 3, 4, 5, 6, 7]⟩ ∧
    potts3Init (.vec [1, 2, 3, 4, 5, 6] : IsingArg ℤ) = .error .assertion := by
  refine ⟨by decide +kernel, by decide +kernel, by decide +kernel, by decide +kernel, by decide +kernel⟩

end Verif.Props
