/-
C07, C08, C09, C10, C18: data summaries of coniii/utils.py.
-/
import Verif.Lemmas.Corr
import Mathlib.Algebra.CharZero.Defs
import Mathlib.Algebra.Order.Field.Basic
import Mathlib.Data.Rat.Defs
import Mathlib.Algebra.Order.Ring.Rat
import Mathlib.Algebra.Field.Rat
import Mathlib.Tactic.NormNum
import Mathlib.Tactic.LinearCombination
import Mathlib.Data.List.NodupEquivFin

namespace Verif.Props
open Verif Verif.Model Verif.Spec Verif.Lemmas

variable {K : Type*}

/-- C07. Without options the results are the column means and the means of products, pairs in
row-major order. -/
theorem C07_means [Field K] (N : ℕ) (X : Data) (hX : ∀ row ∈ X, ∀ x ∈ row, x = -1 ∨ x = 0 ∨ x = 1) :
    pairCorr N X (.none : Weights K) false false false =
      .ok ((List.range N).map fun j => some (avg X fun row => ((row.getD j 0 : ℤ) : K)),
        (upperPairs N).map fun p =>
          some (avg X fun row => ((row.getD p.1 0 : ℤ) : K) * ((row.getD p.2 0 : ℤ) : K))) := by
  have hok : entriesOk X = true := by simpa [entriesOk] using hX
  unfold pairCorr pairWeights pairSums
  simp only [hok, pyAssert, bind, Except.bind, pure, Except.pure, if_true, Bool.false_and,
    Bool.false_eq_true, if_false]
  congr 2
  · apply List.map_congr_left
    intro j _
    congr 1
    rw [zipWith_replicate_right _ _ _ _ rfl, list_sum_mul_right]
    unfold avg ent
    ring
  · apply List.map_congr_left
    intro p _
    congr 1
    rw [zipWith_replicate_right _ _ _ _ rfl]
    simp only [← mul_assoc]
    rw [list_sum_mul_right]
    unfold avg ent
    ring

/-- C07. With one weight per row the means become weighted sums. -/
theorem C07_array_weights [Field K] (N : ℕ) (X : Data)
    (hX : ∀ row ∈ X, ∀ x ∈ row, x = -1 ∨ x = 0 ∨ x = 1) (w : List K) (hw : w.length = X.length) :
    pairCorr N X (.array w) false false false =
      .ok ((List.range N).map fun j => some (wsum X w fun row => ((row.getD j 0 : ℤ) : K)),
        (upperPairs N).map fun p =>
          some (wsum X w fun row => ((row.getD p.1 0 : ℤ) : K) * ((row.getD p.2 0 : ℤ) : K))) := by
  have hok : entriesOk X = true := by simpa [entriesOk] using hX
  unfold pairCorr pairWeights pairSums
  simp only [hok, pyAssert, bind, Except.bind, pure, Except.pure, if_true, Bool.false_and,
    Bool.false_eq_true, if_false, hw, ne_eq, not_true_eq_false]
  congr 2
  · apply List.map_congr_left
    intro j _
    congr 1
    unfold wsum ent
    rw [List.zip, List.map_zipWith]
    simp only [mul_comm]
  · apply List.map_congr_left
    intro p _
    congr 1
    unfold wsum ent
    rw [List.zip, List.map_zipWith]
    congr 2
    funext a b
    ring

/-- C07. A scalar weight is the same as that weight for every row. -/
theorem C07_scalar_weight [Field K] (N : ℕ) (X : Data) (c : K) (s l : Bool) :
    pairCorr N X (.scalar c) false s l =
      pairCorr N X (.array (List.replicate X.length c)) false s l := by
  unfold pairCorr pairWeights pairSums
  simp

/-- C07. A pair of weight arrays multiplies the plain sums entry by entry. -/
theorem C07_tuple_weights [Field K] (N : ℕ) (X : Data)
    (hX : ∀ row ∈ X, ∀ x ∈ row, x = -1 ∨ x = 0 ∨ x = 1) (a b : List K) (ha : a.length = N)
    (hb : b.length = N * (N - 1) / 2) :
    ∃ si sisj, pairCorr N X (.tuple a b) false false false = .ok (si, sisj) ∧
      si.length = N ∧ sisj.length = N * (N - 1) / 2 ∧
      (∀ j < N, si.getD j none =
        some ((X.map fun row => ((row.getD j 0 : ℤ) : K)).sum * a.getD j 0)) ∧
      (∀ k p, (upperPairs N)[k]? = some p → sisj.getD k none = some
        ((X.map fun row => ((row.getD p.1 0 : ℤ) : K) * ((row.getD p.2 0 : ℤ) : K)).sum *
          b.getD k 0)) := by
  have hok : entriesOk X = true := by simpa [entriesOk] using hX
  unfold pairCorr pairWeights pairSums
  simp only [hok, pyAssert, bind, Except.bind, pure, Except.pure, if_true, Bool.false_and,
    Bool.false_eq_true, if_false, ha, hb, ne_eq, not_true_eq_false]
  refine ⟨_, _, rfl, by simp [ha], by simp [hb, length_upperPairs], ?_, ?_⟩
  · intro j hj
    have : j < a.length := by omega
    simp [timesWeight, ent, hj, this]
  · intro k p hk
    obtain ⟨h1, h2⟩ := List.getElem?_eq_some_iff.1 hk
    have : k < b.length := by rw [hb, ← length_upperPairs]; exact h1
    simp [timesWeight, ent, h1, h2, this]

/-- C07. Weight arrays of the wrong length are rejected. -/
theorem C07_bad_weights_raise [Field K] (N : ℕ) (X : Data)
    (hX : ∀ row ∈ X, ∀ x ∈ row, x = -1 ∨ x = 0 ∨ x = 1) (w a b : List K) (s l : Bool) :
    (w.length ≠ X.length → pairCorr N X (.array w) false s l = .error .assertion) ∧
    (a.length ≠ N ∨ b.length ≠ N * (N - 1) / 2 →
      pairCorr N X (.tuple a b) false s l = .error .assertion) := by
  have hok : entriesOk X = true := by simpa [entriesOk] using hX
  constructor
  · intro h
    unfold pairCorr pairWeights pairSums
    simp [hok, pyAssert, bind, Except.bind, h]
  · intro h
    unfold pairCorr pairWeights pairSums
    rcases h with h | h
    · simp [hok, pyAssert, bind, Except.bind, h]
    · by_cases h' : a.length = N <;> simp [hok, pyAssert, bind, Except.bind, h, h']

/-- C07. `subtract_mean=True` leaves the means alone and subtracts the product of the two means
from each pair (NaN where one of the three is NaN), for every choice of weights. -/
theorem C07_subtract_mean [Field K] (N : ℕ) (X : Data) (w : Weights K) (e l : Bool)
    (si sisj : List (Option K)) (h : pairCorr N X w e false l = .ok (si, sisj)) :
    ∃ sisj', pairCorr N X w e true l = .ok (si, sisj') ∧ sisj'.length = N * (N - 1) / 2 ∧
      ∀ k i j, (upperPairs N)[k]? = some (i, j) → ∀ v a b, sisj.getD k none = some v →
        si.getD i none = some a → si.getD j none = some b →
        sisj'.getD k none = some (v - a * b) := by
  unfold pairCorr at h ⊢
  cases hA : pyAssert (entriesOk X) with
  | error e => rw [hA] at h; simp [bind, Except.bind] at h
  | ok u =>
    cases hW : pairWeights N X w e l with
    | error e => rw [hA, hW] at h; simp [bind, Except.bind] at h
    | ok W =>
      rw [hA, hW] at h
      simp only [bind, Except.bind, pure, Except.pure, Bool.false_eq_true, if_false, if_true,
        Except.ok.injEq] at h ⊢
      refine ⟨subtractMeans N si sisj, by rw [h], ?_, ?_⟩
      · simp [subtractMeans, combos_two, length_upperPairs]
      · intro k i j hk v a b hv ha hb
        obtain ⟨h1, h2⟩ := List.getElem?_eq_some_iff.1 hk
        unfold subtractMeans
        rw [combos_two, List.getD_eq_getElem _ _ (by simpa using h1)]
        simp only [List.getElem_map, List.getElem_zipIdx, h2]
        simp only [List.getD_cons_zero, List.getD_cons_succ, Nat.zero_add, hv, ha, hb]
        rfl

/-- C07. `concat=True` returns the means followed by the pairs. -/
theorem C07_concat [Field K] (N : ℕ) (X : Data) (w : Weights K) (e s l : Bool)
    (si sisj : List (Option K)) (h : pairCorr N X w e s l = .ok (si, sisj)) :
    pairCorrConcat N X w e s l = .ok (si ++ sisj) := by
  unfold pairCorrConcat; rw [h]; rfl

/-- Non-vacuity of C07. -/
example : pairCorr 3 [[1, -1, 1], [1, 1, -1]] (.none : Weights ℚ) false true false =
    .ok ([some 1, some 0, some 0], [some 0, some 0, some (-1)]) := by decide +kernel

/-- C08. With `exclude_empty=True` (and no Laplace counts) entry `j` of the means is the mean over
the rows where column `j` is not empty, and the same for pairs; where there is no such row the
result is NaN. The `weights` argument is ignored. -/
theorem C08_exclude_empty [Field K] [CharZero K] (N : ℕ) (X : Data)
    (hX : ∀ row ∈ X, ∀ x ∈ row, x = -1 ∨ x = 0 ∨ x = 1) (w : Weights K) :
    ∃ si sisj, pairCorr N X w true false false = .ok (si, sisj) ∧
      si.length = N ∧ sisj.length = N * (N - 1) / 2 ∧
      (∀ j < N, si.getD j none =
        if (∃ row ∈ X, row.getD j 0 ≠ 0) then
          some (avgOn X (fun row => row.getD j 0 ≠ 0) fun row => ((row.getD j 0 : ℤ) : K))
        else none) ∧
      (∀ k p, (upperPairs N)[k]? = some p → sisj.getD k none =
        if (∃ row ∈ X, row.getD p.1 0 ≠ 0 ∧ row.getD p.2 0 ≠ 0) then
          some (avgOn X (fun row => row.getD p.1 0 ≠ 0 ∧ row.getD p.2 0 ≠ 0)
            fun row => ((row.getD p.1 0 : ℤ) : K) * ((row.getD p.2 0 : ℤ) : K))
        else none) := by
  have hok : entriesOk X = true := by simpa [entriesOk] using hX
  unfold pairCorr pairWeights pairSums
  simp only [hok, pyAssert, bind, Except.bind, pure, Except.pure, if_true, Bool.true_and,
    Bool.not_false, Bool.false_eq_true, if_false]
  refine ⟨_, _, rfl, by simp, by simp [length_upperPairs], ?_, ?_⟩
  · intro j hj
    rw [List.getD_eq_getElem _ _ (by simpa using hj)]
    simp only [List.getElem_zipWith, List.getElem_map, List.getElem_range]
    have hiff : countNZ X j = 0 ↔ ¬ ∃ row ∈ X, row.getD j 0 ≠ 0 := by
      rw [countNZ_eq, List.length_eq_zero_iff, List.filter_eq_nil_iff]
      push Not
      simp
    unfold recipCount timesWeight
    by_cases hz : countNZ X j = 0
    · rw [if_pos hz, if_neg (hiff.1 hz)]; rfl
    · rw [if_neg hz, if_pos (by_contra fun h => hz (hiff.2 h))]
      simp only [Option.map_some]
      congr 1
      unfold avgOn
      rw [sum_filter_ne X _ _ (by intro r _ h; rw [not_not.1 h]; simp), countNZ_eq]
      unfold ent
      ring
  · intro k p hk
    obtain ⟨h1, h2⟩ := List.getElem?_eq_some_iff.1 hk
    rw [List.getD_eq_getElem _ _ (by simpa using h1)]
    simp only [List.getElem_zipWith, List.getElem_map, h2]
    have hiff : countNZ2 X p.1 p.2 = 0 ↔
        ¬ ∃ row ∈ X, row.getD p.1 0 ≠ 0 ∧ row.getD p.2 0 ≠ 0 := by
      rw [countNZ2_eq, List.length_eq_zero_iff, List.filter_eq_nil_iff]
      push Not
      simp
    unfold recipCount timesWeight
    by_cases hz : countNZ2 X p.1 p.2 = 0
    · rw [if_pos hz, if_neg (hiff.1 hz)]; rfl
    · rw [if_neg hz, if_pos (by_contra fun h => hz (hiff.2 h))]
      simp only [Option.map_some]
      congr 1
      unfold avgOn
      rw [sum_filter_ne X _ _ (by
        intro r _ h
        rw [not_and_or, not_not, not_not] at h
        rcases h with h | h <;> rw [h] <;> simp), countNZ2_eq]
      unfold ent
      ring

/-- C08. With both `exclude_empty=True` and `laplace_count=True` the denominators are the counts
plus 2 (single spins) and plus 4 (pairs); every estimate exists and is strictly between -1
and 1. -/
theorem C08_laplace_partial [Field K] [LinearOrder K] [IsStrictOrderedRing K] (N : ℕ) (X : Data)
    (hX : ∀ row ∈ X, ∀ x ∈ row, x = -1 ∨ x = 0 ∨ x = 1) (w : Weights K) :
    ∃ si sisj, pairCorr N X w true false true = .ok (si, sisj) ∧
      si.length = N ∧ sisj.length = N * (N - 1) / 2 ∧
      (∀ j < N, ∃ v, si.getD j none = some v ∧ |v| < 1 ∧
        v = (X.map fun row => ((row.getD j 0 : ℤ) : K)).sum /
          (((X.filter fun row => row.getD j 0 ≠ 0).length : K) + 2)) ∧
      (∀ k p, (upperPairs N)[k]? = some p → ∃ v, sisj.getD k none = some v ∧ |v| < 1 ∧
        v = (X.map fun row => ((row.getD p.1 0 : ℤ) : K) * ((row.getD p.2 0 : ℤ) : K)).sum /
          (((X.filter fun row => row.getD p.1 0 ≠ 0 ∧ row.getD p.2 0 ≠ 0).length : K) + 4)) := by
  have hok : entriesOk X = true := by simpa [entriesOk] using hX
  unfold pairCorr pairWeights pairSums
  simp only [hok, pyAssert, bind, Except.bind, pure, Except.pure, if_true, Bool.true_and,
    Bool.not_true, Bool.false_eq_true, if_false]
  refine ⟨_, _, rfl, by simp, by simp [length_upperPairs], ?_, ?_⟩
  · intro j hj
    rw [List.getD_eq_getElem _ _ (by simpa using hj)]
    simp only [List.getElem_zipWith, List.getElem_map, List.getElem_range]
    unfold recipCount timesWeight
    rw [if_neg (by omega), countNZ_eq]
    refine ⟨_, rfl, ?_, ?_⟩
    · have hb : |(X.map fun row => ((row.getD j 0 : ℤ) : K)).sum| ≤
          ((X.filter fun row => row.getD j 0 ≠ 0).length : K) := by
        rw [← sum_filter_ne X (fun row => ((row.getD j 0 : ℤ) : K)) (fun row => row.getD j 0 ≠ 0)
          (by intro r _ h; rw [not_not.1 h]; simp)]
        exact abs_sum_le _ _ fun r hr => abs_spin_le X hX r (List.mem_of_mem_filter hr) j
      have hpos : (0 : K) < ((X.filter fun row => row.getD j 0 ≠ 0).length + 2 : ℕ) := by
        exact_mod_cast Nat.succ_pos _
      unfold ent
      simp only
      rw [mul_one_div, abs_div, abs_of_pos hpos, div_lt_one hpos]
      refine lt_of_le_of_lt hb ?_
      push_cast
      exact lt_add_of_pos_right _ (by norm_num)
    · unfold ent
      simp only
      push_cast
      rw [mul_one_div]
  · intro k p hk
    obtain ⟨h1, h2⟩ := List.getElem?_eq_some_iff.1 hk
    rw [List.getD_eq_getElem _ _ (by simpa using h1)]
    simp only [List.getElem_zipWith, List.getElem_map, h2]
    unfold recipCount timesWeight
    rw [if_neg (by omega), countNZ2_eq]
    refine ⟨_, rfl, ?_, ?_⟩
    · have hb : |(X.map fun row => ((row.getD p.1 0 : ℤ) : K) * ((row.getD p.2 0 : ℤ) : K)).sum| ≤
          ((X.filter fun row => row.getD p.1 0 ≠ 0 ∧ row.getD p.2 0 ≠ 0).length : K) := by
        rw [← sum_filter_ne X (fun row => ((row.getD p.1 0 : ℤ) : K) * ((row.getD p.2 0 : ℤ) : K))
          (fun row => row.getD p.1 0 ≠ 0 ∧ row.getD p.2 0 ≠ 0)
          (by
            intro r _ h
            rw [not_and_or, not_not, not_not] at h
            rcases h with h | h <;> rw [h] <;> simp)]
        refine abs_sum_le _ _ fun r hr => ?_
        rw [abs_mul]
        exact mul_le_one₀ (abs_spin_le X hX r (List.mem_of_mem_filter hr) _) (abs_nonneg _)
          (abs_spin_le X hX r (List.mem_of_mem_filter hr) _)
      have hpos : (0 : K) <
          ((X.filter fun row => row.getD p.1 0 ≠ 0 ∧ row.getD p.2 0 ≠ 0).length + 4 : ℕ) := by
        exact_mod_cast Nat.succ_pos _
      unfold ent
      simp only
      rw [mul_one_div, abs_div, abs_of_pos hpos, div_lt_one hpos]
      refine lt_of_le_of_lt hb ?_
      push_cast
      exact lt_add_of_pos_right _ (by norm_num)
    · unfold ent
      simp only
      push_cast
      rw [mul_one_div]

/-- C08, negative. `laplace_count=True` on its own has no effect at all. -/
theorem C08_laplace_alone_ignored [Field K] (N : ℕ) (X : Data) (w : Weights K) (s : Bool) :
    pairCorr N X w false s true = pairCorr N X w false s false := by
  unfold pairCorr pairWeights pairSums
  simp

/-- C08, negative, concrete: a single sample with `laplace_count=True` is not smoothed. -/
theorem C08_laplace_alone_witness :
    pairCorr 1 [[1]] (.none : Weights ℚ) false false true = .ok ([some 1], []) := by
  decide +kernel

/-- C08. Entries outside {-1,0,1} are rejected in every mode. -/
theorem C08_bad_entries_raise [Field K] (N : ℕ) (X : Data) (w : Weights K) (e s l : Bool)
    (row : List ℤ) (hr : row ∈ X) (x : ℤ) (hx : x ∈ row) (hbad : x ≠ -1 ∧ x ≠ 0 ∧ x ≠ 1) :
    pairCorr N X w e s l = .error .assertion := by
  have hok : entriesOk X = false := by
    rw [Bool.eq_false_iff]
    intro h
    unfold entriesOk at h
    have h1 := List.all_eq_true.1 h row hr
    have h2 := List.all_eq_true.1 h1 x hx
    simp [hbad.1, hbad.2.1, hbad.2.2] at h2
  unfold pairCorr
  simp [hok, pyAssert, bind, Except.bind]

/-- Non-vacuity of C08: column 1 is empty in row 0, column 2 is empty everywhere. -/
example : pairCorr 3 [[1, 0, 0], [1, -1, 0]] (.none : Weights ℚ) true false false =
    .ok ([some 1, some (-1), none], [some (-1), none, none]) := by decide +kernel

/-- C09. With weights `w` (one per row) `k_corr` lists the weighted sums of the products of `k`
columns, over all column sets in lexicographic order; `exclude_empty` makes no difference. -/
theorem C09_weighted [Field K] (N : ℕ) (X : Data) (k : ℕ) (e : Bool)
    (hX : ∀ row ∈ X, ∀ x ∈ row, x = -1 ∨ x = 0 ∨ x = 1) (w : List K) (hw : w.length = X.length) :
    ∃ L, IsCombinations N k L ∧ kCorr N X k (some w) e =
      .ok (L.map fun ijk =>
        some (wsum X w fun row => (ijk.map fun i => ((row.getD i 0 : ℤ) : K)).prod)) := by
  refine ⟨_, isCombinations_combos N k, ?_⟩
  have hok : entriesOk X = true := by simpa [entriesOk] using hX
  have hlen : (combos k (pyRange 0 N)).length = N.choose k := by
    rw [length_combos]; simp [pyRange]
  have hfin : ∀ arr : List (Option K), arr.length = N.choose k →
      enumWrite (fun _ ijk =>
        if (rowProds X ijk).length ≠ w.length then .error .valueError
        else .ok (some (List.zipWith (fun (x : ℤ) w => (x : K) * w) (rowProds X ijk) w).sum))
        (combos k (pyRange 0 N)) 0 arr =
      .ok ((combos k (pyRange 0 N)).map fun ijk =>
        some (wsum X w fun row => (ijk.map fun i => ((row.getD i 0 : ℤ) : K)).prod)) := by
    intro arr harr
    rw [enumWrite_full _ (fun _ ijk =>
        some (wsum X w fun row => (ijk.map fun i => ((row.getD i 0 : ℤ) : K)).prod)) _ _ ?_
        (by rw [harr, hlen])]
    · rw [map_zipIdx_fst (g := fun ijk : List ℕ =>
        some (wsum X w fun row => (ijk.map fun i => ((row.getD i 0 : ℤ) : K)).prod))]
    intro i h
    rw [if_neg (by simp [rowProds, hw])]
    congr 2
    unfold rowProds wsum
    rw [List.zipWith_map_left, List.zip, List.map_zipWith]
    congr 2
    funext row c
    have := map_list_prod (Int.castRingHom K)
      (List.map (fun i => row.getD i 0) (combos k (pyRange 0 N))[i])
    simp only [Int.coe_castRingHom, List.map_map] at this
    rw [mul_comm, this]
    rfl
  unfold kCorr
  simp only [hok, pyAssert, bind, Except.bind, if_true]
  cases e with
  | false =>
    simp only [Bool.false_eq_true, if_false]
    exact hfin _ (by simp)
  | true =>
    simp only [if_true]
    rw [enumWrite_full _ (fun _ ijk => meanNonzero (rowProds X ijk)) _ _ (fun _ _ => rfl)
      (by simp [hlen])]
    exact hfin _ (by simp [hlen])

/-- C09. Without weights every row has weight one over the number of rows. -/
theorem C09_default_weights [Field K] (N : ℕ) (X : Data) (k : ℕ) (e : Bool) :
    kCorr N X k (none : Option (List K)) e =
      kCorr N X k (some (List.replicate X.length (1 / (X.length : K)))) e := rfl

/-- C09. Without weights the entries are the means of the products. -/
theorem C09_means_partial [Field K] (N : ℕ) (X : Data) (k : ℕ) (e : Bool)
    (hX : ∀ row ∈ X, ∀ x ∈ row, x = -1 ∨ x = 0 ∨ x = 1) :
    ∃ L, IsCombinations N k L ∧ kCorr N X k (none : Option (List K)) e =
      .ok (L.map fun ijk =>
        some (avg X fun row => (ijk.map fun i => ((row.getD i 0 : ℤ) : K)).prod)) := by
  obtain ⟨L, hL, h⟩ := C09_weighted N X k e hX (List.replicate X.length (1 / (X.length : K)))
    (by simp)
  refine ⟨L, hL, ?_⟩
  rw [C09_default_weights, h]
  congr 1
  apply List.map_congr_left
  intro ijk _
  congr 1
  unfold wsum avg
  rw [List.zip, List.map_zipWith, zipWith_replicate_right _ _ _ _ rfl, list_sum_mul_left]
  ring

/-- C09. First order: `k_corr(X,1,w)` is the first output of `pair_corr(X,w)`; second order:
`k_corr(X,2,w)` is the second output. -/
theorem C09_agrees_with_pair_corr [Field K] (N : ℕ) (X : Data) (e : Bool)
    (hX : ∀ row ∈ X, ∀ x ∈ row, x = -1 ∨ x = 0 ∨ x = 1) (w : List K) (hw : w.length = X.length) :
    ∃ si sisj, pairCorr N X (.array w) false false false = .ok (si, sisj) ∧
      kCorr N X 1 (some w) e = .ok si ∧ kCorr N X 2 (some w) e = .ok sisj := by
  refine ⟨_, _, C07_array_weights N X hX w hw, ?_, ?_⟩
  · obtain ⟨L, hL, h⟩ := C09_weighted N X 1 e hX w hw
    rw [h]
    rw [hL.unique (isCombinations_combos N 1), combos_one, List.map_map]
    simp [Function.comp_def, pyRange, List.range_eq_range']
  · obtain ⟨L, hL, h⟩ := C09_weighted N X 2 e hX w hw
    rw [h]
    rw [hL.unique (isCombinations_combos N 2), combos_two, List.map_map]
    simp [Function.comp_def]

/-- C09, negative. `exclude_empty=True` never changes anything: its results are overwritten. -/
theorem C09_exclude_empty_ignored [Field K] (N : ℕ) (X : Data) (k : ℕ) (w : Option (List K)) :
    kCorr N X k w true = kCorr N X k w false := by
  have hlen : (combos k (pyRange 0 N)).length = N.choose k := by
    rw [length_combos]; simp [pyRange]
  unfold kCorr
  cases pyAssert (entriesOk X) with
  | error e => rfl
  | ok u =>
    simp only [bind, Except.bind, if_true, Bool.false_eq_true, if_false]
    rw [enumWrite_full _ (fun _ ijk => meanNonzero (rowProds X ijk)) _ _ (fun _ _ => rfl)
      (by simp [hlen])]
    simp only
    exact enumWrite_congr _ _ _ _ (by simp [hlen]) (by simp)

/-- C09, negative, concrete: one empty entry out of two. The mean over the filled entries is 1
but `k_corr` returns 1/2. -/
theorem C09_exclude_empty_witness :
    kCorr 1 [[1], [0]] 1 (none : Option (List ℚ)) true = .ok [some (1/2)] ∧
      avgOn [[1], [0]] (fun row : List ℤ => row.getD 0 0 ≠ 0)
        (fun row => ((row.getD 0 0 : ℤ) : ℚ)) = 1 := by decide +kernel

/-- C09. Weights of the wrong length raise (when there is at least one column set). -/
theorem C09_bad_weights_raise [Field K] (N : ℕ) (X : Data) (k : ℕ) (hk : k ≤ N)
    (hX : ∀ row ∈ X, ∀ x ∈ row, x = -1 ∨ x = 0 ∨ x = 1) (w : List K) (hw : w.length ≠ X.length) :
    kCorr N X k (some w) false = .error .valueError := by
  have hok : entriesOk X = true := by simpa [entriesOk] using hX
  have hlen : (combos k (pyRange 0 N)).length = N.choose k := by
    rw [length_combos]; simp [pyRange]
  have hpos := Nat.choose_pos hk
  unfold kCorr
  simp only [hok, pyAssert, bind, Except.bind, if_true, Bool.false_eq_true, if_false]
  cases hc : combos k (pyRange 0 N) with
  | nil => rw [hc] at hlen; simp at hlen; omega
  | cons t ts =>
    unfold enumWrite
    simp [rowProds, hw.symm, bind, Except.bind]

/-- Non-vacuity of C09: third-order correlations of four columns. -/
example : kCorr 4 [[1, -1, 1, 1], [1, 1, -1, 1]] 3 (some [1/4, 3/4] : Option (List ℚ)) false =
    .ok [some (-1), some (1/2), some (-1/2), some (-1)] := by decide +kernel

/-- C10. Let `ω` range over any finite list of outcomes with weights adding up to one. Then
`convert_corr(...,'11')` maps the moments of the variables `x` to the moments of `2x-1`. -/
theorem C10_to11_moments [Field K] {Ω : Type*} (n : ℕ) (out : List Ω) (p : Ω → K) (x : Ω → ℕ → K)
    (hp : (out.map p).sum = 1) :
    convertCorr ((List.range n).map fun i => (out.map fun ω => p ω * x ω i).sum)
      ((upperPairs n).map fun q => (out.map fun ω => p ω * (x ω q.1 * x ω q.2)).sum) .b11 .none =
    .ok ((List.range n).map fun i => (out.map fun ω => p ω * (2 * x ω i - 1)).sum,
      (upperPairs n).map fun q =>
        (out.map fun ω => p ω * ((2 * x ω q.1 - 1) * (2 * x ω q.2 - 1))).sum) := by
  unfold convertCorr
  simp only
  rw [convertCorrLoop_eq _ n _ _ (by simp) (by simp [length_upperPairs])]
  simp only [bind, Except.bind, pure, Except.pure]
  congr 2
  · rw [List.map_map]
    apply List.map_congr_left
    intro i _
    simp only [Function.comp]
    have : (out.map fun ω => p ω * (2 * x ω i - 1)).sum =
        (out.map fun ω => (p ω * x ω i) * 2 - p ω).sum :=
      list_sum_congr fun _ _ => by ring
    rw [this, list_sum_sub, list_sum_mul_right, hp]
  · rw [List.zipWith_map_left, List.zipWith_self]
    apply List.map_congr_left
    intro q hq
    obtain ⟨h1, h2⟩ := mem_upperPairs.1 hq
    have h1' : q.1 < n := by omega
    rw [List.getD_eq_getElem _ _ (by simpa using h1'), List.getD_eq_getElem _ _ (by simpa using h2)]
    simp only [List.getElem_map, List.getElem_range]
    have : (out.map fun ω => p ω * ((2 * x ω q.1 - 1) * (2 * x ω q.2 - 1))).sum =
        (out.map fun ω => 4 * (p ω * (x ω q.1 * x ω q.2)) - 2 * (p ω * x ω q.1) -
          2 * (p ω * x ω q.2) + p ω).sum :=
      list_sum_congr fun _ _ => by ring
    rw [this, list_sum_add, list_sum_sub, list_sum_sub, list_sum_mul_left, list_sum_mul_left,
      list_sum_mul_left, hp]

/-- C10. Likewise `convert_corr(...,'01')` maps the moments of `s` to the moments of
`(s+1)/2`. -/
theorem C10_to01_moments [Field K] [CharZero K] {Ω : Type*} (n : ℕ) (out : List Ω) (p : Ω → K)
    (s : Ω → ℕ → K) (hp : (out.map p).sum = 1) :
    convertCorr ((List.range n).map fun i => (out.map fun ω => p ω * s ω i).sum)
      ((upperPairs n).map fun q => (out.map fun ω => p ω * (s ω q.1 * s ω q.2)).sum) .b01 .none =
    .ok ((List.range n).map fun i => (out.map fun ω => p ω * ((s ω i + 1) / 2)).sum,
      (upperPairs n).map fun q =>
        (out.map fun ω => p ω * (((s ω q.1 + 1) / 2) * ((s ω q.2 + 1) / 2))).sum) := by
  have h20 : (2 : K) ≠ 0 := by norm_num
  have h40 : (4 : K) ≠ 0 := by norm_num
  unfold convertCorr
  simp only
  rw [convertCorrLoop_eq _ n _ _ (by simp) (by simp [length_upperPairs])]
  simp only [bind, Except.bind, pure, Except.pure]
  congr 2
  · rw [List.map_map]
    apply List.map_congr_left
    intro i _
    simp only [Function.comp]
    have : (out.map fun ω => p ω * ((s ω i + 1) / 2)).sum =
        (out.map fun ω => (p ω * s ω i + p ω) / 2).sum :=
      list_sum_congr fun _ _ => by ring
    rw [this, list_sum_div, list_sum_add, hp]
  · rw [List.zipWith_map_left, List.zipWith_self]
    apply List.map_congr_left
    intro q hq
    obtain ⟨h1, h2⟩ := mem_upperPairs.1 hq
    have h1' : q.1 < n := by omega
    rw [List.getD_eq_getElem _ _ (by simpa using h1'), List.getD_eq_getElem _ _ (by simpa using h2)]
    simp only [List.getElem_map, List.getElem_range]
    have : (out.map fun ω => p ω * (((s ω q.1 + 1) / 2) * ((s ω q.2 + 1) / 2))).sum =
        (out.map fun ω => (p ω * (s ω q.1 * s ω q.2) + p ω * s ω q.1 +
          p ω * s ω q.2 + p ω) / 4).sum :=
      list_sum_congr fun _ _ => by field_simp; ring
    rw [this, list_sum_div, list_sum_add, list_sum_add, list_sum_add, hp]

/-- C10. The two conversions undo each other, for arbitrary numbers. -/
theorem C10_11_then_01 [Field K] [CharZero K] (n : ℕ) (si sisj : List K) (h1 : si.length = n)
    (h2 : sisj.length = n * (n - 1) / 2) :
    ∃ a b, convertCorr si sisj .b11 .none = .ok (a, b) ∧
      convertCorr a b .b01 .none = .ok (si, sisj) := by
  have h20 : (2 : K) ≠ 0 := by norm_num
  have h40 : (4 : K) ≠ 0 := by norm_num
  unfold convertCorr
  simp only [convertCorrLoop_eq _ n si sisj h1 h2, bind, Except.bind, pure, Except.pure]
  refine ⟨_, _, rfl, ?_⟩
  rw [convertCorrLoop_eq _ n _ _ (by simp [h1]) (by simp [h2, length_upperPairs])]
  simp only
  congr 2
  · rw [List.map_map]
    conv_rhs => rw [← List.map_id si]
    apply List.map_congr_left
    intro a _
    simp only [Function.comp, id]
    field_simp
    ring
  · apply List.ext_getElem
    · simp [h2, length_upperPairs]
    · intro k hk1 hk2
      have hk : k < (upperPairs n).length := by rw [length_upperPairs, ← h2]; exact hk2
      have h3 : (upperPairs n)[k].1 < (upperPairs n)[k].2 :=
        (mem_upperPairs.1 (List.getElem_mem hk)).1
      have h4 : (upperPairs n)[k].2 < n := (mem_upperPairs.1 (List.getElem_mem hk)).2
      simp only [List.getElem_zipWith]
      rw [List.getD_eq_getElem (l := si.map _) (hn := by simp [h1]; omega),
        List.getD_eq_getElem (l := si.map _) (hn := by simp [h1]; omega),
        List.getD_eq_getElem (l := si) (hn := by rw [h1]; omega),
        List.getD_eq_getElem (l := si) (hn := by rw [h1]; omega)]
      simp only [List.getElem_map]
      field_simp
      ring

/-- C10. The other way round. -/
theorem C10_01_then_11 [Field K] [CharZero K] (n : ℕ) (si sisj : List K) (h1 : si.length = n)
    (h2 : sisj.length = n * (n - 1) / 2) :
    ∃ a b, convertCorr si sisj .b01 .none = .ok (a, b) ∧
      convertCorr a b .b11 .none = .ok (si, sisj) := by
  have h20 : (2 : K) ≠ 0 := by norm_num
  have h40 : (4 : K) ≠ 0 := by norm_num
  unfold convertCorr
  simp only [convertCorrLoop_eq _ n si sisj h1 h2, bind, Except.bind, pure, Except.pure]
  refine ⟨_, _, rfl, ?_⟩
  rw [convertCorrLoop_eq _ n _ _ (by simp [h1]) (by simp [h2, length_upperPairs])]
  simp only
  congr 2
  · rw [List.map_map]
    conv_rhs => rw [← List.map_id si]
    apply List.map_congr_left
    intro a _
    simp only [Function.comp, id]
    field_simp
    ring
  · apply List.ext_getElem
    · simp [h2, length_upperPairs]
    · intro k hk1 hk2
      have hk : k < (upperPairs n).length := by rw [length_upperPairs, ← h2]; exact hk2
      have h3 : (upperPairs n)[k].1 < (upperPairs n)[k].2 :=
        (mem_upperPairs.1 (List.getElem_mem hk)).1
      have h4 : (upperPairs n)[k].2 < n := (mem_upperPairs.1 (List.getElem_mem hk)).2
      simp only [List.getElem_zipWith]
      rw [List.getD_eq_getElem (l := si.map _) (hn := by simp [h1]; omega),
        List.getD_eq_getElem (l := si.map _) (hn := by simp [h1]; omega),
        List.getD_eq_getElem (l := si) (hn := by rw [h1]; omega),
        List.getD_eq_getElem (l := si) (hn := by rw [h1]; omega)]
      simp only [List.getElem_map]
      field_simp
      ring

/-- C10. Any other target raises, and so does every extra keyword argument; the deprecated
`convertTo` keyword does not work (it raises `NameError`). -/
theorem C10_raises [Field K] (si sisj : List K) (b : Basis) :
    convertCorr si sisj .other .none = .error .exception ∧
    convertCorr si sisj b .convertTo = .error .nameError ∧
    convertCorr si sisj b .other = .error .typeError := ⟨rfl, rfl, rfl⟩

/-- C10. `concat=True`. -/
theorem C10_concat [Field K] (si sisj : List K) (t : Basis) (kw : CorrKwargs) (a b : List K)
    (h : convertCorr si sisj t kw = .ok (a, b)) :
    convertCorrConcat si sisj t kw = .ok (a ++ b) := by
  unfold convertCorrConcat; rw [h]; rfl

/-- Non-vacuity of C10. -/
example : convertCorr ([1/2, 1/4, 0] : List ℚ) [1/8, 1/16, -1] .b11 .none =
    .ok ([0, -1/2, -1], [0, 1/4, -7/2]) := by decide +kernel

/-- C18. Without `allstates`: the states returned are the distinct rows, each once, and the
frequency of each is its relative frequency among the rows; the frequencies add up to one. -/
theorem C18_empirical [Field K] [CharZero K] [DecidableEq K] {α : Type*} [DecidableEq α]
    (uniq : List α → List α) (hu : UniqSpec uniq) (v : List α) (hv : v ≠ []) :
    ∃ freq states, stateProbs uniq v true = ((freq.map some : List (Option K)), states) ∧
      states.Nodup ∧ (∀ x, x ∈ states ↔ x ∈ v) ∧
      freq = states.map (fun x => ((v.count x : ℕ) : K) / (v.length : K)) ∧ freq.sum = 1 := by
  obtain ⟨hnd, hmem⟩ := hu v
  have hstates : (uniqueRowsIx uniq v).filterMap (fun i => v[i]?) = uniq v := by
    unfold uniqueRowsIx
    rw [List.filterMap_map]
    conv_rhs => rw [← List.filterMap_some (l := uniq v)]
    apply List.filterMap_congr
    intro x hx
    have := List.idxOf_lt_length_of_mem ((hmem x).1 hx)
    simp [this]
  have hfreq : bincount (uniqueRowsInv uniq v) = (uniq v).map fun x => v.count x := by
    unfold bincount uniqueRowsInv
    rw [foldr_max_inv (uniq v) v hnd hmem]
    apply List.ext_getElem
    · simp
    · intro k h1 h2
      simp only [List.getElem_map, List.getElem_range]
      exact count_inv (uniq v) v hnd (fun x hx => (hmem x).2 hx) k (by simpa using h2)
  have hsum : (((uniq v).map fun x => v.count x).map fun m : ℕ => (m : K)).sum = (v.length : K) := by
    rw [← sum_count (uniq v) v hnd fun x hx => (hmem x).2 hx]
    exact (Nat.cast_list_sum _).symm
  have hlen : (v.length : K) ≠ 0 := by
    rw [Nat.cast_ne_zero]
    intro h
    exact hv (List.length_eq_zero_iff.1 h)
  refine ⟨(uniq v).map (fun x => ((v.count x : ℕ) : K) / (v.length : K)), uniq v, ?_, hnd, hmem,
    rfl, ?_⟩
  · unfold stateProbs normalise
    simp only [hstates, hfreq, if_true]
    rw [if_neg (by rw [hsum]; exact hlen), hsum]
    simp [List.map_map, Function.comp_def]
  · rw [list_sum_div]
    rw [List.map_map] at hsum
    rw [show (List.map (fun x => ((v.count x : ℕ) : K)) (uniq v)).sum = (v.length : K) from hsum]
    exact div_self hlen

/-- C18. `normalized=False` gives the counts. -/
theorem C18_counts [Field K] [DecidableEq K] {α : Type*} [DecidableEq α]
    (uniq : List α → List α) (hu : UniqSpec uniq) (v : List α) :
    ∃ states, stateProbs uniq v false =
        (states.map (fun x => some ((v.count x : ℕ) : K)), states) ∧
      states.Nodup ∧ ∀ x, x ∈ states ↔ x ∈ v := by
  obtain ⟨hnd, hmem⟩ := hu v
  have hstates : (uniqueRowsIx uniq v).filterMap (fun i => v[i]?) = uniq v := by
    unfold uniqueRowsIx
    rw [List.filterMap_map]
    conv_rhs => rw [← List.filterMap_some (l := uniq v)]
    apply List.filterMap_congr
    intro x hx
    have := List.idxOf_lt_length_of_mem ((hmem x).1 hx)
    simp [this]
  have hfreq : bincount (uniqueRowsInv uniq v) = (uniq v).map fun x => v.count x := by
    unfold bincount uniqueRowsInv
    rw [foldr_max_inv (uniq v) v hnd hmem]
    apply List.ext_getElem
    · simp
    · intro k h1 h2
      simp only [List.getElem_map, List.getElem_range]
      exact count_inv (uniq v) v hnd (fun x hx => (hmem x).2 hx) k (by simpa using h2)
  refine ⟨uniq v, ?_, hnd, hmem⟩
  unfold stateProbs
  simp [hstates, hfreq, List.map_map, Function.comp_def]

/-- C18. With `allstates` listing every row that occurs, without repeats, and weights whose total
is not zero, the entry of each listed state is its share of the total weight, and the entries add
up to one. -/
theorem C18_given_states [Field K] [DecidableEq K] {α : Type*} [DecidableEq α]
    (v states : List α) (hnd : states.Nodup) (hall : ∀ x ∈ v, x ∈ states) (w : List K)
    (hw : w.length = v.length) (htot : w.sum ≠ 0) :
    ∃ freq, stateProbsGiven v states (some w) true = (freq.map some : List (Option K)) ∧
      freq = states.map (fun s => wsum v w (fun r => if s = r then 1 else 0) / w.sum) ∧
      freq.sum = 1 := by
  have hs := sum_indicator_given states hnd v w hw hall
  have he : ∀ s, (List.zipWith (fun r w => (if s = r then 1 else 0) * w) v w).sum =
      wsum v w (fun r => if s = r then 1 else 0) := by
    intro s
    unfold wsum
    rw [List.zip, List.map_zipWith]
    simp only [mul_comm]
  refine ⟨_, ?_, rfl, ?_⟩
  · unfold stateProbsGiven normalise
    simp only [Option.getD_some, if_true]
    rw [if_neg (by rw [hs]; exact htot), hs]
    simp only [List.map_map, Function.comp_def, he]
  · rw [list_sum_div]
    simp only [← he]
    rw [hs]
    exact div_self htot

/-- C18. Default weights are all one. -/
theorem C18_default_weights [Field K] [DecidableEq K] {α : Type*} [DecidableEq α]
    (v states : List α) (b : Bool) :
    stateProbsGiven v states (none : Option (List K)) b =
      stateProbsGiven v states (some (List.replicate v.length 1)) b := rfl

/-- C18. If no row is among the listed states, every entry is NaN. -/
theorem C18_no_match_nan [Field K] [DecidableEq K] {α : Type*} [DecidableEq α]
    (v states : List α) (hno : ∀ x ∈ v, x ∉ states) (w : List K) :
    stateProbsGiven v states (some w) true = states.map fun _ => none := by
  have h0 : (states.map fun s => (List.zipWith (fun r w => (if s = r then (1 : K) else 0) * w) v w).sum)
      = states.map fun _ => 0 := by
    apply List.map_congr_left
    intro s hs
    have : ∀ (v : List α) (w : List K), (∀ x ∈ v, x ≠ s) →
        (List.zipWith (fun r w => (if s = r then (1 : K) else 0) * w) v w).sum = 0 := by
      intro v
      induction v with
      | nil => intro w _; simp
      | cons a v ih =>
        intro w h
        rcases w with _ | ⟨c, w⟩
        · simp
        · simp only [List.zipWith_cons_cons, List.sum_cons]
          rw [ih w fun x hx => h x (by simp [hx]), if_neg fun h' => h a (by simp) h'.symm]
          simp
    exact this v w fun x hx h => hno x hx (h ▸ hs)
  unfold stateProbsGiven normalise
  simp only [Option.getD_some, if_true, h0]
  rw [if_pos (by simp)]
  simp

/-- Non-vacuity of C18, with removal of duplicates as `np.unique`. -/
example : UniqSpec (List.dedup : List (List ℤ) → List (List ℤ)) :=
  fun v => ⟨v.nodup_dedup, fun _ => List.mem_dedup⟩

example : stateProbs (K := ℚ) List.dedup [[1, 1], [0, 1], [1, 1], [1, 1]] true =
    ([some (1/4), some (3/4)], [[0, 1], [1, 1]]) := by decide +kernel

example : stateProbsGiven (K := ℚ) [[1, 1], [0, 1]] [[0, 0], [0, 1], [1, 0], [1, 1]]
    (some [1, 3]) true = [some 0, some (3/4), some 0, some (1/4)] := by decide +kernel

end Verif.Props
