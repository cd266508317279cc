/-
Properties C62-C66, C78 and C79: the matrix helpers and the exact small-system code of
coniii/mean_field_ising.py.
-/
import Verif.Lemmas.Fourth
import Verif.Lemmas.Product
import Verif.Spec.Moments
import Verif.Spec.Optim

namespace Verif.Props
open Verif Verif.Spec Verif.Model Verif.Lemmas

variable {K : Type*}

/-! ### C62 -/

/-- C62: flattening the diagonals of an `n × n` matrix gives `n(n+1)/2` numbers, and entry `(i, j)` on or
above the diagonal is found at `diagFlatIndex(i, j, n)`. -/
theorem C62_position [Ring K] (M : Mat K) (n : ℕ) (hM : M.HasShape n n) (hn : 1 ≤ n) :
    ∃ v, aboveDiagFlat M true none = .ok v ∧ v.length = n * (n + 1) / 2 ∧
      ∀ i j : ℕ, i ≤ j → j < n → ∃ p : ℕ, diagFlatIndex i j n = (p : ℤ) ∧ v[p]? = some (M.at' i j) := by
  refine ⟨_, aboveDiagFlat_eq hM hn, by rw [length_diagList, diagOff_self], ?_⟩
  intro i j hij hj
  have h1 := diagFlatIndex_eq n i (j - i) (by omega)
  have h2 := diagList_get n i (j - i) (by omega) fun i j => M.at' i j
  rw [show i + (j - i) = j by omega] at h1 h2
  exact ⟨_, h1, h2⟩

/-- C62: every position belongs to exactly one pair. -/
theorem C62_bijection (n p : ℕ) (hp : p < n * (n + 1) / 2) :
    ∃! q : ℕ × ℕ, q.1 ≤ q.2 ∧ q.2 < n ∧ diagFlatIndex q.1 q.2 n = (p : ℤ) := by
  rw [← diagOff_self] at hp
  obtain ⟨k, i, h, rfl⟩ := diagOff_decode n p hp
  refine ⟨(i, i + k), ⟨by simp, h, diagFlatIndex_eq n i k (by omega)⟩, ?_⟩
  rintro ⟨a, b⟩ ⟨h1, h2, h3⟩
  simp only at h1 h2 h3
  have h4 := diagFlatIndex_eq n a (b - a) (by omega)
  rw [show a + (b - a) = b by omega, h3] at h4
  have h5 : diagOff n k + i = diagOff n (b - a) + a := by exact_mod_cast h4
  have h6 := flatPair_eq n i k h
  rw [h5, flatPair_eq n a (b - a) (by omega), show a + (b - a) = b by omega] at h6
  exact h6

example : diagFlatIndex 1 2 4 = 5 := by decide
example : aboveDiagFlat [[(1 : ℤ), 2, 3], [4, 5, 6], [7, 8, 9]] true none = .ok [1, 5, 9, 2, 6, 3] := by
  decide

/-- C62: `unflatten` puts each entry back; below the diagonal it leaves zeros. -/
theorem C62_unflatten [Field K] (M : Mat K) (n : ℕ) (hM : M.HasShape n n) (hn : 1 ≤ n) (v : List K)
    (hv : aboveDiagFlat M true none = .ok v) :
    ∃ U, unflatten v n false = .ok U ∧ U.HasShape n n ∧
      ∀ i < n, ∀ j < n, U.at' i j = if i ≤ j then M.at' i j else 0 := by
  rw [aboveDiagFlat_eq hM hn, Except.ok.injEq] at hv
  subst hv
  refine ⟨_, unflatten_eq _ n hn (length_diagList _ _), Mat.build_shape _ _ _, fun i hi j hj => ?_⟩
  rw [Mat.at_build _ hi hj]
  by_cases h : i ≤ j
  · have := diagList_get n i (j - i) (by omega) fun i j => M.at' i j
    rw [show i + (j - i) = j by omega] at this
    rw [if_pos h, if_pos h, List.getD_eq_getElem?_getD, this]
    rfl
  · rw [if_neg h, if_neg h]

/-- C62: flattening undoes `unflatten` on every list of the right length. -/
theorem C62_flatten_unflatten [Field K] (v : List K) (n : ℕ) (hn : 1 ≤ n)
    (hv : v.length = n * (n + 1) / 2) :
    ∃ U, unflatten v n false = .ok U ∧ aboveDiagFlat U true none = .ok v := by
  rw [← diagOff_self] at hv
  refine ⟨_, unflatten_eq v n hn hv, ?_⟩
  rw [aboveDiagFlat_eq (Mat.build_shape _ _ _) hn]
  congr 1
  conv_rhs => rw [← diagList_self n v hv]
  unfold diagList
  congr 1
  apply List.map_congr_left
  intro k hk
  apply List.map_congr_left
  intro a ha
  have h1 := List.mem_range.1 hk
  have h2 := List.mem_range.1 ha
  beta_reduce
  rw [Mat.at_build _ (by omega) (by omega), if_pos (by omega)]

/-- C62: with `symmetrize=True` the matrix is symmetric and has the quadratic form of the one without,
for every vector. -/
theorem C62_symmetrize [Field K] [CharZero K] (v : List K) (n : ℕ) (hn : 1 ≤ n)
    (hv : v.length = n * (n + 1) / 2) :
    ∃ U T, unflatten v n false = .ok U ∧ unflatten v n true = .ok T ∧ T.HasShape n n ∧
      (∀ i < n, ∀ j < n, T.at' i j = T.at' j i) ∧ (∀ i < n, T.at' i i = U.at' i i) ∧
      ∀ x : ℕ → K, quadForm n (fun i j => T.at' i j) x = quadForm n (fun i j => U.at' i j) x := by
  rw [← diagOff_self] at hv
  have hU := unflatten_eq v n hn hv
  obtain ⟨U, e⟩ : ∃ U, U = Mat.build n n fun a b =>
    if a ≤ b then v.getD (diagOff n (b - a) + a) 0 else 0 := ⟨_, rfl⟩
  rw [← e] at hU
  have hs : U.HasShape n n := e ▸ Mat.build_shape _ _ _
  refine ⟨U, _, hU, unflatten_sym v n U hU hs, Mat.build_shape _ _ _, ?_, ?_, ?_⟩
  · intro i hi j hj
    rw [Mat.at_build _ hi hj, Mat.at_build _ hj hi, add_comm]
  · intro i hi
    rw [Mat.at_build _ hi hi]
    field_simp
    ring
  · intro x
    have h2 : quadForm n (fun i j => U.at' i j) x = quadForm n (fun i j => U.at' j i) x := by
      unfold quadForm
      rw [Finset.sum_comm]
      exact Finset.sum_congr rfl fun i _ => Finset.sum_congr rfl fun j _ => by ring
    have h1 : quadForm n (fun i j => (Mat.build n n fun a b => 2⁻¹ * (U.at' a b + U.at' b a)).at' i j) x =
        2⁻¹ * (quadForm n (fun i j => U.at' i j) x + quadForm n (fun i j => U.at' j i) x) := by
      unfold quadForm
      rw [← Finset.sum_add_distrib, Finset.mul_sum]
      refine Finset.sum_congr rfl fun i hi => ?_
      rw [← Finset.sum_add_distrib, Finset.mul_sum]
      refine Finset.sum_congr rfl fun j hj => ?_
      beta_reduce
      rw [Mat.at_build _ (Finset.mem_range.1 hi) (Finset.mem_range.1 hj)]
      ring
    rw [h1, ← h2]
    field_simp
    ring

/-- C62: a symmetric matrix flattened with `offDiagMult=2` is recovered by the symmetrised
`unflatten`. -/
theorem C62_offDiagMult [Field K] [CharZero K] (M : Mat K) (n : ℕ) (hM : M.HasShape n n) (hn : 1 ≤ n)
    (hsym : ∀ i < n, ∀ j < n, M.at' i j = M.at' j i) :
    ∃ v, aboveDiagFlat M true (some 2) = .ok v ∧ unflatten v n true = .ok M := by
  obtain ⟨N, e⟩ : ∃ N, N = Mat.build n n fun i j => M.at' i j *
    ((2 : K) * (1 - (if j ≤ i then 1 else 0)) + if i = j then 1 else 0) := ⟨_, rfl⟩
  have hN : N.HasShape n n := e ▸ Mat.build_shape _ _ _
  have h0 : aboveDiagFlat M true (some 2) = aboveDiagFlat N true none := by
    simp only [aboveDiagFlat, hM.1, hN.1, Mat.ncols_eq hM hn, ne_eq, not_true, if_false, ← e]
  have h1 := aboveDiagFlat_eq hN hn
  obtain ⟨U, h2, h3, h4⟩ := C62_unflatten N n hN hn _ h1
  refine ⟨_, h0.trans h1, ?_⟩
  rw [unflatten_sym _ n U h2 h3]
  congr 1
  apply Mat.ext' (Mat.build_shape _ _ _) hM
  intro i hi j hj
  rw [Mat.at_build _ hi hj, h4 i hi j hj, h4 j hj i hi, e, Mat.at_build _ hi hj, Mat.at_build _ hj hi]
  rcases lt_trichotomy i j with h | h | h
  · rw [if_pos h.le, if_neg (by omega), if_neg (by omega), if_neg (by omega)]
    field_simp
    ring
  · subst h
    simp only [le_refl, if_true, sub_self, mul_zero, zero_add, mul_one]
    field_simp
    ring
  · rw [if_neg (by omega), if_pos h.le, if_neg (by omega), if_neg (by omega), hsym j hj i hi]
    field_simp
    ring

/-- C62: without the diagonal the first `n` numbers are missing; a single site then raises
`ValueError`, because there is nothing to concatenate. -/
theorem C62_without_diagonal [Ring K] (M : Mat K) (n : ℕ) (hM : M.HasShape n n) (hn : 1 ≤ n)
    (v : List K) (hv : aboveDiagFlat M true none = .ok v) :
    aboveDiagFlat M false none = if n = 1 then .error .valueError else .ok (v.drop n) := by
  rw [aboveDiagFlat_eq hM hn, Except.ok.injEq] at hv
  subst hv
  obtain ⟨m, rfl⟩ : ∃ m, n = m + 1 := ⟨n - 1, by omega⟩
  have hp : pyRange 1 (m + 1) = (List.range m).map (· + 1) := by
    rw [pyRange, Nat.add_sub_cancel, List.range_eq_range', List.range'_eq_map_range,
      ← List.range_eq_range']
    exact List.map_congr_left fun x _ => by omega
  simp only [aboveDiagFlat, hM.1, hp, Bool.false_eq_true, if_false]
  by_cases h : m = 0
  · subst h; simp
  · rw [if_neg (by simpa using h), if_neg (by omega)]
    congr 1
    unfold diagList
    rw [List.range_succ_eq_map, List.map_cons, List.flatten_cons, List.drop_left' (by simp)]
    congr 1
    rw [List.map_map, List.map_map]
    apply List.map_congr_left
    intro k _
    exact diagonalK_eq hM _

example : aboveDiagFlat [[(1 : ℤ), 2], [4, 5]] false none = .ok [2] := by decide
example : aboveDiagFlat [[(1 : ℤ)]] false none = .error .valueError := by decide
example : unflatten [(1 : ℚ), 5, 9, 2, 6, 3] 3 true =
    .ok [[1, 1, 3/2], [1, 5, 3], [3/2, 3, 9]] := by decide +kernel

/-! ### C63 -/

/-- C63: `coocExpectations(J)` holds at `(i, j)` the expectation of `x_i x_j` over the `{0,1}` states with
at least `minSize` ones, with the energy given by the matrix and the external field; with
`zeroBelowDiag` the lower triangle is zero. -/
theorem C63_moments (J : Mat ℝ) (n : ℕ) (hJ : J.HasShape n n) (hn : 1 ≤ n) (hext : ℝ) (m : ℤ)
    (hm : m ≤ n) (zb : Bool) :
    ∃ C, coocExpectations J hext zb m = .ok C ∧ C.HasShape n n ∧ ∀ i < n, ∀ j < n,
      C.at' i j = if zb ∧ j < i then 0 else
        expect ((words [(0 : ℤ), 1] n).filter fun x => m ≤ x.sum)
          (fun s => quadE n (fun i j => J.at' i j) (spins s) -
            hext * ∑ i ∈ Finset.range n, spins s i)
          fun s => spins s i * spins s j := by
  refine ⟨_, coocExpectations_ok hJ hn hext m hm zb, Mat.build_shape _ _ _, fun i hi j hj => ?_⟩
  rw [Mat.at_build _ hi hj]
  rfl

/-- C63: with the default arguments these are the moments over all states, the diagonal the mean of
each spin. -/
theorem C63_default (J : Mat ℝ) (n : ℕ) (hJ : J.HasShape n n) (hn : 1 ≤ n) :
    ∃ C, coocExpectations J 0 true 0 = .ok C ∧ C.HasShape n n ∧ (∀ i < n, ∀ j < i, C.at' i j = 0) ∧
      (∀ i < n, ∀ j < n, i ≤ j → C.at' i j =
        expect (words [(0 : ℤ), 1] n) (fun s => quadE n (fun i j => J.at' i j) (spins s))
          fun s => spins s i * spins s j) ∧
      ∀ i < n, C.at' i i =
        expect (words [(0 : ℤ), 1] n) (fun s => quadE n (fun i j => J.at' i j) (spins s))
          fun s => spins s i := by
  refine ⟨_, coocExpectations_ok hJ hn 0 0 (by omega) true, Mat.build_shape _ _ _, ?_, ?_, ?_⟩
  · intro i hi j hj
    rw [Mat.at_build _ hi (by omega), if_pos ⟨rfl, hj⟩]
  · intro i hi j hj hij
    rw [Mat.at_build _ hi hj, if_neg (by omega), statesFrom_zero]
    simp only [quadExtE_zero]
  · intro i hi
    rw [Mat.at_build _ hi hi, if_neg (by omega), statesFrom_zero]
    simp only [quadExtE_zero]
    exact expect_congr _ _ _ _ _ (fun _ _ => rfl) fun s hs => bit_sq hs i

/-- C63: asking for more ones than there are sites raises `ValueError`. -/
theorem C63_too_large (J : Mat ℝ) (n : ℕ) (hJ : J.HasShape n n) (hn : 1 ≤ n) (hext : ℝ) (m : ℤ)
    (hm : n < m) (zb : Bool) : coocExpectations J hext zb m = .error .valueError := by
  simp [coocExpectations, unsummedZ, unsummedLogZ_empty hJ hn hext m hm]

example : fightPossibilities 2 1 = [[0, 1], [1, 0], [1, 1]] := by decide +kernel
example : unsummedLogZ [[(1 : ℚ), 2], [3, 4]] 0 0 = .ok [0, -4, -1, -10] := by decide +kernel
example : Mat.HasShape [[(1 : ℝ), 2], [3, 4]] 2 2 := by constructor <;> simp

/-! ### C64 -/

/-- C64: the sub-matrix of a cluster. -/
theorem C64_cluster [Zero K] (M : Mat K) (N : ℕ) (hM : M.HasShape N N) (c : List ℕ)
    (hc : ∀ i ∈ c, i < N) :
    ∃ R, coocCluster M c = .ok R ∧ R.HasShape c.length c.length ∧
      ∀ a b (ha : a < c.length) (hb : b < c.length), R.at' a b = M.at' c[a] c[b] := by
  refine ⟨_, coocCluster_ok hM c hc, Mat.build_shape _ _ _, fun a b ha hb => ?_⟩
  rw [Mat.at_build _ ha hb, List.getD_eq_getElem _ _ ha, List.getD_eq_getElem _ _ hb]

/-- C64: a site outside the matrix raises `IndexError`. -/
theorem C64_cluster_error [Zero K] (M : Mat K) (c : List ℕ) (i : ℕ) (hi : i ∈ c)
    (hM : M.length ≤ i) : coocCluster M c = .error .indexError := by
  have : c.mapM (fun i => getAt M i) = .error .indexError := by
    induction c with
    | nil => simp at hi
    | cons a c ih =>
      rw [List.mapM_cons]
      by_cases ha : a < M.length
      · rw [getAt, List.getElem?_eq_getElem ha]
        have hne : i ≠ a := by omega
        have := ih (by simpa [hne] using hi)
        show (c.mapM (fun i => getAt M i) >>= _) = _
        rw [this]; rfl
      · rw [getAt, List.getElem?_eq_none (by omega)]; rfl
  rw [coocCluster, this]

/-- C64: the embedded matrix has the cluster's entries at the cluster's sites and zeros elsewhere. -/
theorem C64_embed [Zero K] (Jc : Mat K) (c : List ℕ) (N : ℕ) (hJ : Jc.HasShape c.length c.length)
    (hc : ∀ i ∈ c, i < N) (hd : c.Nodup) :
    ∃ J, jfullFromCluster Jc c N = .ok J ∧ J.HasShape N N ∧
      (∀ a b (ha : a < c.length) (hb : b < c.length), J.at' c[a] c[b] = Jc.at' a b) ∧
      ∀ i < N, ∀ j < N, i ∉ c ∨ j ∉ c → J.at' i j = 0 := by
  refine ⟨_, jfull_ok c N hJ hc hd, Mat.build_shape _ _ _, fun a b ha hb => ?_, fun i hi j hj h => ?_⟩
  · rw [Mat.at_build _ (hc _ (List.getElem_mem ha)) (hc _ (List.getElem_mem hb)),
      if_pos ⟨List.getElem_mem ha, List.getElem_mem hb⟩, hd.idxOf_getElem, hd.idxOf_getElem]
  · rw [Mat.at_build _ hi hj, if_neg (by tauto)]

/-- C64: restricting the embedded matrix to the cluster returns it. -/
theorem C64_restrict_embed [Zero K] (Jc : Mat K) (c : List ℕ) (N : ℕ)
    (hJ : Jc.HasShape c.length c.length) (hc : ∀ i ∈ c, i < N) (hd : c.Nodup) :
    ∃ J, jfullFromCluster Jc c N = .ok J ∧ coocCluster J c = .ok Jc := by
  obtain ⟨J, h1, h2, h3, _⟩ := C64_embed Jc c N hJ hc hd
  refine ⟨J, h1, ?_⟩
  rw [coocCluster_ok h2 c hc]
  congr 1
  apply Mat.ext' (Mat.build_shape _ _ _) hJ
  intro a ha b hb
  rw [Mat.at_build _ ha hb, List.getD_eq_getElem _ _ ha, List.getD_eq_getElem _ _ hb, h3 a b ha hb]

/-- C64: `symmetrizeUsingUpper` returns the symmetric matrix with the given upper triangle. -/
theorem C64_symmetrize [Ring K] (M : Mat K) (n : ℕ) (hM : M.HasShape n n) (hn : 1 ≤ n) :
    ∃ T, symmetrizeUsingUpper M = .ok T ∧ T.HasShape n n ∧
      (∀ i < n, ∀ j < n, T.at' i j = T.at' j i) ∧ ∀ i < n, ∀ j < n, i ≤ j → T.at' i j = M.at' i j := by
  refine ⟨_, symmetrize_ok hM hn, Mat.build_shape _ _ _, fun i hi j hj => ?_, fun i hi j hj h => ?_⟩
  · rw [Mat.at_build _ hi hj, Mat.at_build _ hj hi, min_comm, max_comm]
  · rw [Mat.at_build _ hi hj, min_eq_left h, max_eq_right h]

example : coocCluster [[(1 : ℤ), 2, 3], [4, 5, 6], [7, 8, 9]] [2, 0] = .ok [[9, 7], [3, 1]] := by decide
example : jfullFromCluster [[(9 : ℤ), 7], [3, 1]] [2, 0] 3 =
    .ok [[1, 0, 3], [0, 0, 0], [7, 0, 9]] := by decide
example : symmetrizeUsingUpper [[(1 : ℤ), 2], [5, 3]] = .ok [[1, 2], [2, 3]] := by decide
example : coocCluster [[(1 : ℤ), 2], [4, 5]] [2, 0] = .error .indexError := by decide

/-! ### C65 -/

/-- C65: the Bayesian mean of a frequency in `[0,1]` lies strictly between 0 and 1, for every number of
samples; for `k` of `N` samples it is `(k+1)/(N+2)`. -/
theorem C65_bayesian [Field K] [LinearOrder K] [IsStrictOrderedRing K] (M : Mat K) (r c N : ℕ)
    (hM : M.HasShape r c) (h01 : ∀ i < r, ∀ j < c, 0 ≤ M.at' i j ∧ M.at' i j ≤ 1) :
    (coocMatBayesianMean M N).HasShape r c ∧ ∀ i < r, ∀ j < c,
      0 < (coocMatBayesianMean M N).at' i j ∧ (coocMatBayesianMean M N).at' i j < 1 ∧
      ∀ k : ℕ, 1 ≤ N → M.at' i j = (k : K) / N →
        (coocMatBayesianMean M N).at' i j = ((k : K) + 1) / (N + 2) := by
  have e : coocMatBayesianMean M N =
      Mat.build r c fun i j => (M.at' i j * (N : K) + 1) / ((N : K) + 2) := by
    conv_lhs => rw [Mat.eq_build hM]
    simp [coocMatBayesianMean, Mat.build, List.map_map, Function.comp_def]
  rw [e]
  refine ⟨Mat.build_shape _ _ _, fun i hi j hj => ?_⟩
  rw [Mat.at_build _ hi hj]
  obtain ⟨h0, h1⟩ := h01 i hi j hj
  have hN : (0 : K) ≤ N := Nat.cast_nonneg N
  have hpos : (0 : K) < N + 2 := by linarith
  have hmul : M.at' i j * (N : K) ≤ N := by
    calc M.at' i j * (N : K) ≤ 1 * N := mul_le_mul_of_nonneg_right h1 hN
      _ = N := one_mul _
  have hmul0 : 0 ≤ M.at' i j * (N : K) := mul_nonneg h0 hN
  refine ⟨div_pos (by linarith) hpos, ?_, ?_⟩
  · rw [div_lt_one hpos]; linarith
  · intro k hk hM'
    have : (N : K) ≠ 0 := by
      have : (1 : K) ≤ N := by exact_mod_cast hk
      linarith
    rw [hM', div_mul_cancel₀ _ this]

/-- C65: for at least one sample the standard deviations are `sqrt(p(1-p)/N)` of the Bayesian means and
strictly positive; for no samples they are not finite. -/
theorem C65_stdevs (M : Mat ℝ) (n N : ℕ) (hM : M.HasShape n n) (hn : 1 ≤ n)
    (h01 : ∀ i < n, ∀ j < n, 0 ≤ M.at' i j ∧ M.at' i j ≤ 1) :
    ∃ v, coocStdevsFlat M N = .ok v ∧ v.length = n * (n + 1) / 2 ∧
      (∀ i j : ℕ, i ≤ j → j < n → ∃ p : ℕ, diagFlatIndex i j n = (p : ℤ) ∧ (1 ≤ N →
        ∃ x, v[p]? = some (some x) ∧ 0 < x ∧
          x ^ 2 = (M.at' i j * N + 1) / (N + 2) * (1 - (M.at' i j * N + 1) / (N + 2)) / N)) ∧
      (N = 0 → ∀ y ∈ v, y = none) := by
  have e : (coocMatBayesianMean M N).map (fun row => row.map fun x => x * (1 - x)) =
      Mat.build n n fun i j => (M.at' i j * (N : ℝ) + 1) / ((N : ℝ) + 2) *
        (1 - (M.at' i j * (N : ℝ) + 1) / ((N : ℝ) + 2)) := by
    conv_lhs => rw [Mat.eq_build hM]
    simp [coocMatBayesianMean, Mat.build, List.map_map, Function.comp_def]
  obtain ⟨v, h1, h2, h3⟩ := C62_position _ n (Mat.build_shape n n fun i j =>
    (M.at' i j * (N : ℝ) + 1) / ((N : ℝ) + 2) *
        (1 - (M.at' i j * (N : ℝ) + 1) / ((N : ℝ) + 2))) hn
  refine ⟨v.map fun x => if N = 0 then none else some (Real.sqrt (x / (N : ℝ))), ?_, by simpa using h2,
    ?_, ?_⟩
  · rw [coocStdevsFlat, e, h1]
  · intro i j hij hj
    obtain ⟨p, hp1, hp2⟩ := h3 i j hij hj
    refine ⟨p, hp1, fun hN => ?_⟩
    rw [Mat.at_build _ (by omega) hj] at hp2
    obtain ⟨_, hb⟩ := C65_bayesian M n n N hM h01
    obtain ⟨b0, b1, _⟩ := hb i (by omega) j hj
    have e2 : (coocMatBayesianMean M N).at' i j = (M.at' i j * (N : ℝ) + 1) / ((N : ℝ) + 2) := by
      have : coocMatBayesianMean M N =
          Mat.build n n fun i j => (M.at' i j * (N : ℝ) + 1) / ((N : ℝ) + 2) := by
        conv_lhs => rw [Mat.eq_build hM]
        simp [coocMatBayesianMean, Mat.build, List.map_map, Function.comp_def]
      rw [this, Mat.at_build _ (by omega) hj]
    rw [e2] at b0 b1
    have hN0 : (0 : ℝ) < N := by exact_mod_cast hN
    have hpos : 0 < (M.at' i j * (N : ℝ) + 1) / ((N : ℝ) + 2) *
        (1 - (M.at' i j * (N : ℝ) + 1) / ((N : ℝ) + 2)) / N :=
      div_pos (mul_pos b0 (by linarith)) hN0
    refine ⟨_, by rw [List.getElem?_map, hp2]; simp only [Option.map_some]; rw [if_neg (by omega)],
      Real.sqrt_pos.2 hpos, Real.sq_sqrt hpos.le⟩
  · intro hN y hy
    obtain ⟨x, _, rfl⟩ := List.mem_map.1 hy
    rw [if_pos hN]

example : coocMatBayesianMean [[(0 : ℚ), 1/2], [0, 1]] 4 = [[1/6, 1/2], [1/6, 5/6]] := by decide +kernel
example : coocMatBayesianMean [[(0 : ℚ), 1]] 0 = [[1/2, 1/2]] := by decide +kernel

/-! ### C66 -/

/-- C66: `cooccurrence_matrix` holds the mean of `x_i x_j` on and above the diagonal and zeros below;
without `keep_diag` the diagonal is zero too. No samples give not-a-number everywhere. -/
theorem C66_cooccurrence [Field K] [CharZero K] (n : ℕ) (X : Samples K) (keep : Bool) :
    (cooccurrenceMatrix n X keep).HasShape n n ∧ ∀ i < n, ∀ j < n,
      ((cooccurrenceMatrix n X keep).getD i []).getD j none =
        if X = [] then none
        else if i < j ∨ (keep ∧ i = j) then some (avg X fun r => r.getD i 0 * r.getD j 0)
        else some 0 := by
  refine ⟨Mat.build_shape _ _ _, fun i hi j hj => ?_⟩
  unfold cooccurrenceMatrix Mat.build
  rw [getD_map_range _ _ _ hi, getD_map_range _ _ _ hj]
  dsimp only
  by_cases hX : X = []
  · simp [hX]
  · have hlen : X.length ≠ 0 := by simpa using hX
    rw [if_neg hlen, if_neg hX]
    unfold avg
    rcases lt_trichotomy i j with h | h | h
    · rw [if_pos (Or.inl h)]
      cases keep
      · simp [show ¬ j ≤ i by omega, rd]
      · simp [show ¬ j + 1 ≤ i by omega, rd]
    · subst h
      cases keep <;> simp [rd]
    · have h1 : ¬ (i < j ∨ (keep = true ∧ i = j)) := by
        rintro (h' | ⟨_, h'⟩) <;> omega
      have h2 : j + 1 ≤ i := by omega
      rw [if_neg h1, if_pos h.le, if_pos h2]
      cases keep <;> simp

/-- C66: `fourthOrderCoocMat` is symmetric and holds the mean of `x_i x_j x_m x_l` at the positions of
`(i, j)` and `(m, l)`. -/
theorem C66_fourth [Field K] (X : Samples K) (n : ℕ) (hX : ∀ r ∈ X, r.length = n) (hne : X ≠ []) :
    ∃ f, fourthOrderCoocMat X = .ok f ∧ f.HasShape (n * (n + 1) / 2) (n * (n + 1) / 2) ∧
      (∀ p < n * (n + 1) / 2, ∀ q < n * (n + 1) / 2, f.at' p q = f.at' q p) ∧
      ∀ i j m l : ℕ, i ≤ j → j < n → m ≤ l → l < n → ∃ p q : ℕ,
        diagFlatIndex i j n = (p : ℤ) ∧ diagFlatIndex m l n = (q : ℤ) ∧
        f.at' p q = avg X fun r => r.getD i 0 * r.getD j 0 * r.getD m 0 * r.getD l 0 := by
  refine ⟨_, fourth_ok X n hX hne, Mat.build_shape _ _ _, fun p hp q hq => ?_, ?_⟩
  · rw [Mat.at_build _ hp hq, Mat.at_build _ hq hp, fourthSum_comm]
  · intro i j m l hij hj hml hl
    have h1 := diagFlatIndex_eq n i (j - i) (by omega)
    have h2 := diagFlatIndex_eq n m (l - m) (by omega)
    have h3 := diagOff_lt n i (j - i) (by omega)
    have h4 := diagOff_lt n m (l - m) (by omega)
    have h5 := flatPair_eq n i (j - i) (by omega)
    have h6 := flatPair_eq n m (l - m) (by omega)
    rw [show i + (j - i) = j by omega] at h1 h5
    rw [show m + (l - m) = l by omega] at h2 h6
    rw [diagOff_self] at h3 h4
    refine ⟨_, _, h1, h2, ?_⟩
    rw [Mat.at_build _ h3 h4, h5, h6]
    rfl

example : cooccurrenceMatrix 2 [[(1 : ℚ), 1], [0, 1]] true = [[some (1/2), some (1/2)], [some 0, some 1]] := by
  decide +kernel
example : fourthOrderCoocMat [[(1 : ℚ), 1], [0, 1]] =
    .ok [[1/2, 1/2, 1/2], [1/2, 1, 1/2], [1/2, 1/2, 1/2]] := by decide +kernel

/-! ### C78 -/

/-- C78: residual of the fit without prior: the differences of the co-occurrences of the trial model and the
desired ones, one per pair `i ≤ j`. -/
theorem C78_residual (D : Mat ℝ) (n : ℕ) (hD : D.HasShape n n) (hn : 1 ≤ n) (x : List ℝ)
    (hx : x.length = n * (n + 1) / 2) :
    ∃ U r, unflatten x n false = .ok U ∧ deltaCooc D 0 0 x = .ok r ∧ r.length = n * (n + 1) / 2 ∧
      ∀ i j : ℕ, i ≤ j → j < n → ∃ p : ℕ, diagFlatIndex i j n = (p : ℤ) ∧
        r[p]? = some (expect (words [(0 : ℤ), 1] n)
          (fun s => quadE n (fun i j => U.at' i j) (spins s)) (fun s => spins s i * spins s j) -
            D.at' i j) := by
  rw [← diagOff_self] at hx
  have hU := unflatten_eq x n hn hx
  obtain ⟨U, e⟩ : ∃ U, U = Mat.build n n fun a b =>
    if a ≤ b then x.getD (diagOff n (b - a) + a) 0 else 0 := ⟨_, rfl⟩
  rw [← e] at hU
  have hs : U.HasShape n n := e ▸ Mat.build_shape _ _ _
  obtain ⟨C, hC, hCs, _, hC2, _⟩ := C63_default U n hs hn
  obtain ⟨r, h1, h2, h3⟩ := C62_position _ n (Mat.build_shape n n fun i j => C.at' i j - D.at' i j) hn
  refine ⟨U, r, hU, ?_, h2, ?_⟩
  · unfold deltaCooc
    simp only [hD.1, hU, hC, h1]
    rw [if_neg (by simp)]
  · intro i j hij hj
    obtain ⟨p, hp, hv⟩ := h3 i j hij hj
    refine ⟨p, hp, ?_⟩
    rw [hv, Mat.at_build _ (by omega) hj, hC2 i (by omega) j hj hij]

/-- C78: if the least-squares routine finds a zero of the residual, the fitted matrix is symmetric,
reproduces the desired co-occurrences, and is the only symmetric matrix that does. -/
theorem C78_fit (lsq : (List ℝ → Py (List ℝ)) → List ℝ → Py (List ℝ)) (D : Mat ℝ) (n : ℕ)
    (hD : D.HasShape n n) (hn : 1 ≤ n) (x x0 : List ℝ) (hx : x.length = n * (n + 1) / 2)
    (h0 : aboveDiagFlat (jinit D) true none = .ok x0) (hlsq : lsq (deltaCooc D 0 0) x0 = .ok x)
    (hroot : ∀ r, deltaCooc D 0 0 x = .ok r → ∀ y ∈ r, y = 0) :
    ∃ J, findJmatrix lsq D false none 0 0 = .ok J ∧ J.HasShape n n ∧
      (∀ i < n, ∀ j < n, J.at' i j = J.at' j i) ∧
      (∀ i < n, ∀ j < n, i ≤ j →
        expect (words [(0 : ℤ), 1] n) (fun s => quadE n (fun i j => J.at' i j) (spins s))
          (fun s => spins s i * spins s j) = D.at' i j) ∧
      ∀ J' : Mat ℝ, J'.HasShape n n → (∀ i < n, ∀ j < n, J'.at' i j = J'.at' j i) →
        (∀ i < n, ∀ j < n, i ≤ j →
          expect (words [(0 : ℤ), 1] n) (fun s => quadE n (fun i j => J'.at' i j) (spins s))
            (fun s => spins s i * spins s j) = D.at' i j) → J' = J := by
  obtain ⟨U, r, hU, hr, hrl, hent⟩ := C78_residual D n hD hn x hx
  obtain ⟨U', T, hU', hT, hTs, hsym, hdiag, hquad⟩ := C62_symmetrize x n hn hx
  rw [hU, Except.ok.injEq] at hU'
  subst hU'
  have hE : ∀ s ∈ words [(0 : ℤ), 1] n, quadE n (fun i j => T.at' i j) (spins s) =
      quadE n (fun i j => U.at' i j) (spins s) := by
    intro s hs
    have key : ∀ M : ℕ → ℕ → ℝ, quadE n M (spins s) = quadForm n M (spins s) := by
      intro M
      unfold quadE quadForm
      rw [← Finset.sum_add_distrib]
      refine Finset.sum_congr rfl fun i hi => ?_
      have : ∀ j ∈ Finset.range n, spins s i * M i j * spins s j =
          (if i = j then M i i * spins s i else 0) + if i = j then 0 else M i j * spins s i * spins s j := by
        intro j _
        by_cases h : i = j
        · subst h
          simp only [if_true, add_zero]
          rw [mul_comm (spins s i) (M i i), mul_assoc, bit_sq hs]
        · simp only [h, if_false, zero_add]; ring
      rw [Finset.sum_congr rfl this, Finset.sum_add_distrib, Finset.sum_ite_eq, if_pos hi]
    rw [key, key, hquad]
  have hfit : ∀ i < n, ∀ j < n, i ≤ j →
      expect (words [(0 : ℤ), 1] n) (fun s => quadE n (fun i j => T.at' i j) (spins s))
        (fun s => spins s i * spins s j) = D.at' i j := by
    intro i hi j hj hij
    obtain ⟨p, _, hv⟩ := hent i j hij hj
    have hz := hroot r hr _ (List.mem_of_getElem? hv)
    rw [expect_congr _ _ _ _ _ hE fun _ _ => rfl]
    linarith
  refine ⟨T, ?_, hTs, hsym, hfit, ?_⟩
  · unfold findJmatrix
    simp only [if_true, Bool.false_eq_true, if_false, h0, hlsq, hD.1, hT]
  · intro J' hJ' hs' hf'
    obtain ⟨hd, ho⟩ := cooc_unique n (fun i j => J'.at' i j) (fun i j => T.at' i j)
      (fun i hi j hj hij => (hf' i hi j hj hij).trans (hfit i hi j hj hij).symm)
    apply Mat.ext' hJ' hTs
    intro i hi j hj
    by_cases h : i = j
    · subst h; exact hd i hi
    · have h1 := ho i hi j hj h
      rw [hs' j hj i hi, hsym j hj i hi] at h1
      linarith

/-- C78: with a least-squares routine that finds a zero of the residuals whenever there is one: if some
couplings reproduce the desired co-occurrences, the fit returns the symmetric ones, which are unique. -/
theorem C78_exact (lsq : (List ℝ → Py (List ℝ)) → List ℝ → Py (List ℝ)) (hlsq : ExactLsq lsq) (D : Mat ℝ)
    (n : ℕ) (hD : D.HasShape n n) (hn : 1 ≤ n) (numSamples : Option ℕ) (G : ℕ → ℕ → ℝ)
    (hG : ∀ i < n, ∀ j < n, i ≤ j →
      expect (words [(0 : ℤ), 1] n) (fun s => quadE n G (spins s)) (fun s => spins s i * spins s j) =
        D.at' i j) :
    ∃ J, findJmatrix lsq D false numSamples 0 0 = .ok J ∧ J.HasShape n n ∧
      (∀ i < n, ∀ j < n, J.at' i j = J.at' j i) ∧
      ∀ i < n, ∀ j < n, i ≤ j →
        expect (words [(0 : ℤ), 1] n) (fun s => quadE n (fun i j => J.at' i j) (spins s))
          (fun s => spins s i * spins s j) = D.at' i j := by
  -- a zero of the residuals
  obtain ⟨W, e⟩ : ∃ W, W = Mat.build n n fun i j => if i = j then G i i else G i j + G j i := ⟨_, rfl⟩
  have hW : W.HasShape n n := e ▸ Mat.build_shape _ _ _
  obtain ⟨x, hx, hxl, -⟩ := C62_position W n hW hn
  obtain ⟨U, hU, hUs, hUv⟩ := C62_unflatten W n hW hn x hx
  have hquad : ∀ y : ℕ → ℝ, quadE n (fun i j => U.at' i j) y = quadE n G y := by
    intro y
    unfold quadE
    congr 1
    · refine Finset.sum_congr rfl fun i hi => ?_
      have hi' := Finset.mem_range.1 hi
      beta_reduce
      rw [hUv i hi' i hi', if_pos (le_refl i), e, Mat.at_build _ hi' hi', if_pos rfl]
    · have h1 : ∀ i ∈ Finset.range n, ∀ j ∈ Finset.range n,
          (if i = j then 0 else U.at' i j * y i * y j) =
            (if i < j then G i j * y i * y j else 0) + (if i < j then G j i * y j * y i else 0) := by
        intro i hi j hj
        have hi' := Finset.mem_range.1 hi
        have hj' := Finset.mem_range.1 hj
        rw [hUv i hi' j hj']
        rcases lt_trichotomy i j with h | h | h
        · rw [if_neg h.ne, if_pos h.le, if_pos h, if_pos h, e, Mat.at_build _ hi' hj', if_neg h.ne]
          ring
        · subst h; simp
        · rw [if_neg h.ne', if_neg (by omega), if_neg (by omega), if_neg (by omega)]; ring
      rw [Finset.sum_congr rfl fun i hi => Finset.sum_congr rfl (h1 i hi)]
      simp only [Finset.sum_add_distrib]
      rw [Finset.sum_comm (f := fun i j => if i < j then G j i * y j * y i else 0)]
      rw [← Finset.sum_add_distrib]
      refine Finset.sum_congr rfl fun i _ => ?_
      rw [← Finset.sum_add_distrib]
      refine Finset.sum_congr rfl fun j _ => ?_
      rcases lt_trichotomy i j with h | h | h
      · rw [if_pos h, if_neg (by omega), if_neg h.ne, add_zero]
      · subst h; simp
      · rw [if_neg (by omega), if_pos h, if_neg h.ne', zero_add]
  have hroot : RootAt (deltaCooc D 0 0) x := by
    obtain ⟨U', r, hU', hr, hrl, hrv⟩ := C78_residual D n hD hn x hxl
    rw [hU, Except.ok.injEq] at hU'
    subst hU'
    refine ⟨r, hr, fun y hy => ?_⟩
    obtain ⟨p, hp, rfl⟩ := List.getElem_of_mem hy
    obtain ⟨⟨i, j⟩, ⟨q1, q2, q3⟩, -⟩ := C62_bijection n p (hrl ▸ hp)
    obtain ⟨p', hp', hv⟩ := hrv i j q1 q2
    have : p' = p := by exact_mod_cast hp'.symm.trans q3
    subst this
    rw [List.getElem?_eq_getElem hp, Option.some.injEq] at hv
    rw [hv]
    simp only [hquad]
    rw [hG i (by simp only at q1 q2; omega) j q2 q1, sub_self]
  have hjs : (jinit D).HasShape n n := by
    unfold jinit diagMat
    rw [diagonalK_eq hD]
    simpa using Mat.build_shape (K := ℝ) n n _
  obtain ⟨x0, h0, hl0, -⟩ := C62_position (jinit D) n hjs hn
  obtain ⟨z, hz, hzl, r, hr, hr0⟩ := hlsq (deltaCooc D 0 0) x0 ⟨x, hxl.trans hl0.symm, hroot⟩
  obtain ⟨J, h1, h2, h3, h4, -⟩ := C78_fit lsq D n hD hn z x0 (hzl.trans hl0) h0 hz (fun r' hr' => by
    rw [hr, Except.ok.injEq] at hr'
    subst hr'
    exact hr0)
  refine ⟨J, ?_, h2, h3, h4⟩
  rw [← h1]
  simp [findJmatrix]

/-- C78: the starting point is the independent model with the desired frequencies: its means are the
desired ones and different spins are uncorrelated. -/
theorem C78_start (D : Mat ℝ) (n : ℕ) (hD : D.HasShape n n)
    (hf : ∀ i < n, 0 < D.at' i i ∧ D.at' i i < 1) :
    (jinit D).HasShape n n ∧ ∀ i < n, ∀ j < n,
      expect (words [(0 : ℤ), 1] n) (fun s => quadE n (fun i j => (jinit D).at' i j) (spins s))
        (fun s => spins s i * spins s j) = if i = j then D.at' i i else D.at' i i * D.at' j j := by
  have e : jinit D = Mat.build n n fun i j => if i = j then logitField (D.at' i i) else 0 := by
    unfold jinit diagMat
    rw [diagonalK_eq hD]
    simp only [List.length_map, List.length_range, Nat.sub_zero, Nat.add_zero]
    apply Mat.ext' (Mat.build_shape _ _ _) (Mat.build_shape _ _ _)
    intro i hi j hj
    rw [Mat.at_build _ hi hj, Mat.at_build _ hi hj]
    by_cases h : i = j
    · subst h
      rw [if_pos rfl, if_pos rfl, List.getD_eq_getElem _ _ (by simpa using hi)]
      simp [logitField]
    · rw [if_neg h, if_neg (fun h' => h h'.symm)]
  rw [e]
  refine ⟨Mat.build_shape _ _ _, fun i hi j hj => ?_⟩
  rw [expect_congr _ _ (fun s => quadE n (fun i j => if i = j then logitField (D.at' i i) else 0) (spins s))
    _ _ (fun s _ => quadE_congr n _ _ _ _ (fun a ha b hb => Mat.at_build _ ha hb) fun _ _ => rfl)
    fun _ _ => rfl]
  exact expect_independent n (fun i => D.at' i i) hf i j hi hj

/-- C78: with a prior `λ > 0` and `m` samples the least-squares routine is given, besides the residuals
without prior, one residual `(λ/m) fᵢ(1-fᵢ) fⱼ(1-fⱼ) Jᵢⱼ²` for every pair `i < j`, where `Jᵢⱼ` is the entry of
the flat vector at the position of the pair. (As `leastsq` squares its residuals, the penalty is of
fourth order in the couplings.) Without a number of samples a prior raises `TypeError`. -/
theorem C78_prior (D : Mat ℝ) (n : ℕ) (hD : D.HasShape n n) (hn : 2 ≤ n) (lam : ℝ) (hlam : 0 < lam)
    (m : ℕ) (hm : 0 < m) :
    (∀ lsq, findJmatrix lsq D false none lam 0 = .error .typeError) ∧
    ∃ F x0, (∀ lsq, findJmatrix lsq D false (some m) lam 0 =
        (lsq F x0).bind fun x => unflatten x n true) ∧
      aboveDiagFlat (jinit D) true none = .ok x0 ∧
      ∀ x : List ℝ, x.length = n * (n + 1) / 2 →
        ∃ r r0, F x = .ok r ∧ deltaCooc D 0 0 x = .ok r0 ∧ r0.length = n * (n + 1) / 2 ∧
          r.take (n * (n + 1) / 2) = r0 ∧ r.length = n * (n + 1) / 2 + n * (n - 1) / 2 ∧
          ∀ i j : ℕ, i < j → j < n → ∃ p : ℕ, n ≤ p ∧ diagFlatIndex i j n = (p : ℤ) ∧
            r[n * (n + 1) / 2 + (p - n)]? = some (lam / m * (D.at' i i * (1 - D.at' i i) *
              (D.at' j j * (1 - D.at' j j))) * x.getD p 0 ^ 2) := by
  have hlam0 : lam ≠ 0 := hlam.ne'
  refine ⟨fun lsq => by simp [findJmatrix, hlam0], ?_⟩
  have hn1 : 1 ≤ n := by omega
  have hJ : (jinit D).HasShape n n := by
    have := Mat.build_shape n n fun i j => if i = j then (0 : ℝ) else 0
    unfold jinit diagMat
    rw [diagonalK_eq hD]
    simp only [List.length_map, List.length_range, Nat.sub_zero, Nat.add_zero]
    exact Mat.build_shape _ _ _
  obtain ⟨x0, hx0, -, -⟩ := C62_position (jinit D) n hJ hn1
  refine ⟨deltaCooc D (lam / m) 0, x0, ?_, hx0, ?_⟩
  · intro lsq
    unfold findJmatrix
    simp only [hlam0, if_false, Bool.false_eq_true, hx0, hD.1]
    cases lsq (deltaCooc D (lam / m) 0) x0 <;> rfl
  intro x hx
  obtain ⟨U, r0, hU, hr0, hl0, -⟩ := C78_residual D n hD hn1 x hx
  obtain ⟨Fm, hF⟩ : ∃ Fm : Mat ℝ, Fm = Mat.build n n fun i j =>
      (rd (diagonalK D 0) i * (1 - rd (diagonalK D 0) i)) *
        (rd (diagonalK D 0) j * (1 - rd (diagonalK D 0) j)) := ⟨_, rfl⟩
  have hFs : Fm.HasShape n n := hF ▸ Mat.build_shape _ _ _
  obtain ⟨v, hv, hvl, hvp⟩ := C62_position Fm n hFs hn1
  have hdrop := C62_without_diagonal Fm n hFs hn1 v hv
  rw [if_neg (by omega)] at hdrop
  have hpos : 0 < lam / m := by positivity
  have hr : deltaCooc D (lam / m) 0 x =
      .ok (r0 ++ List.zipWith (fun f x => lam / m * f * x ^ 2) (v.drop n) (x.drop n)) := by
    unfold deltaCooc at hr0 ⊢
    simp only [hD.1, hU] at hr0 ⊢
    split at hr0
    · cases hr0
    rename_i C hC
    split at hr0
    · cases hr0
    rename_i d hd
    rw [if_neg (by simp)] at hr0
    cases hr0
    rw [if_pos ⟨hpos, by omega⟩, ← hF, hdrop]
  have htri : n * (n + 1) / 2 = n + n * (n - 1) / 2 := by
    have h1 : n * (n + 1) = n * 2 + n * (n - 1) := by
      obtain ⟨k, rfl⟩ : ∃ k, n = k + 1 := ⟨n - 1, by omega⟩
      simp only [Nat.add_sub_cancel]; ring
    omega
  refine ⟨_, r0, hr, hr0, hl0, by rw [← hl0, List.take_left], ?_, ?_⟩
  · simp only [List.length_append, List.length_zipWith, List.length_drop, hl0, hvl, hx]
    omega
  · intro i j hij hj
    obtain ⟨p, hp, hpv⟩ := hvp i j (by omega) hj
    have hnp : n ≤ p := by
      have h1 := diagFlatIndex_eq n i (j - i) (by omega)
      rw [show i + (j - i) = j by omega, hp] at h1
      have h2 : p = diagOff n (j - i) + i := by exact_mod_cast h1
      have h3 : diagOff n 1 ≤ diagOff n (j - i) := diagOff_mono (by omega)
      have h4 : diagOff n 1 = n := by simp [diagOff]
      omega
    refine ⟨p, hnp, hp, ?_⟩
    have hpl : p < v.length := by
      by_contra hcon
      rw [List.getElem?_eq_none (by omega)] at hpv
      cases hpv
    have hxp : p < x.length := by rw [hx, ← hvl]; exact hpl
    rw [List.getElem?_append_right (by omega), hl0, Nat.add_sub_cancel_left, List.getElem?_zipWith,
      List.getElem?_drop, List.getElem?_drop, show n + (p - n) = p by omega, hpv,
      List.getElem?_eq_getElem hxp, List.getD_eq_getElem _ _ hxp]
    simp only [Option.some.injEq]
    rw [hF, Mat.at_build _ (by omega) hj, diagonalK_eq hD]
    simp only [rd]
    rw [getD_map_range _ _ _ (by omega), getD_map_range _ _ _ (by omega)]
    simp

example : ∃ D : Mat ℝ, D.HasShape 2 2 ∧ ∀ i < 2, 0 < D.at' i i ∧ D.at' i i < 1 := by
  refine ⟨[[1/2, 1/4], [0, 1/2]], by constructor <;> simp, ?_⟩
  intro i hi
  interval_cases i <;> norm_num [Mat.at']

/-! ### C79 -/

/-- C79: `analyticEntropy(J)` is the Shannon entropy of the Boltzmann distribution of the matrix, i.e. mean
energy plus the logarithm of the partition function. -/
theorem C79_entropy (J : Mat ℝ) (n : ℕ) (hJ : J.HasShape n n) (hn : 1 ≤ n) :
    ∃ e, analyticEntropy J = .ok e ∧
      e = entropy (words [(0 : ℤ), 1] n)
        (boltzmann (words [(0 : ℤ), 1] n) fun s => quadE n (fun i j => J.at' i j) (spins s)) ∧
      e = (∑ i ∈ Finset.range n, ∑ j ∈ Finset.range n, J.at' i j *
          expect (words [(0 : ℤ), 1] n) (fun s => quadE n (fun i j => J.at' i j) (spins s))
            (fun s => spins s i * spins s j)) +
        Real.log (partition (words [(0 : ℤ), 1] n) fun s => quadE n (fun i j => J.at' i j) (spins s)) := by
  have hne : words [(0 : ℤ), 1] n ≠ [] := by
    rw [← statesFrom_zero]
    exact statesFrom_ne_nil n 0 (by omega)
  refine ⟨_, analyticEntropy_ok hJ hn, rfl, ?_⟩
  rw [entropy_boltzmann _ _ hne, expect_eq_mean, mean_quadE]
  rfl

end Verif.Props
