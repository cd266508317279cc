/-
C71: coarse_grain of coniii/ising/automaton.py.
-/
import Verif.Lemmas.Lattice
import Verif.Lemmas.Metropolis3

namespace Verif.Props
open Verif Verif.Model Verif.Spec Verif.Lemmas Prog

theorem wrap16_add (x y : ℤ) : wrap16 (wrap16 x + y) = wrap16 (x + y) := by
  unfold wrap16
  omega

theorem wrap16_id {x : ℤ} (h1 : -2 ^ 15 ≤ x) (h2 : x < 2 ^ 15) : wrap16 x = x := by
  unfold wrap16
  omega

theorem wrap16_zero : wrap16 0 = 0 := by decide

theorem sum_offsets (f : ℕ) (g : ℕ → ℕ → ℤ) :
    ((((List.range f).flatMap fun i => (List.range f).map fun j => (i, j))).map fun p => g p.1 p.2).sum =
      ∑ i ∈ Finset.range f, ∑ j ∈ Finset.range f, g i j := by
  rw [List.map_flatMap, sum_flatMap, sum_map_range]
  refine Finset.sum_congr rfl fun i _ => ?_
  rw [List.map_map, sum_map_range]
  rfl

theorem offsets_lt {f : ℕ} {p : ℕ × ℕ} (hp : p ∈ (List.range f).flatMap fun i => (List.range f).map fun j => (i, j)) :
    p.1 < f ∧ p.2 < f := by
  obtain ⟨i, hi, hp⟩ := List.mem_flatMap.1 hp
  obtain ⟨j, hj, rfl⟩ := List.mem_map.1 hp
  exact ⟨List.mem_range.1 hi, List.mem_range.1 hj⟩

/-- Rows: the slices have as many rows as the result. -/
theorem sliceLen_rows {d i f : ℕ} (hi : i < f) : latSliceLen d i f (d / f) = d / f := by
  unfold latSliceLen
  have : d / f ≤ (d - i + (f - 1)) / f := Nat.div_le_div_right (by omega)
  exact min_eq_left this

/-- Columns: the slices have as many columns as the result if the numbers of blocks agree, or if there are no
more columns of blocks than rows and no columns are left over. -/
theorem sliceLen_cols {d1 j f q : ℕ} (hj : j < f) (h : q = d1 / f ∨ (f ∣ d1 ∧ d1 / f ≤ q)) :
    latSliceLen d1 j f q = d1 / f := by
  rcases h with rfl | ⟨⟨c, rfl⟩, h⟩
  · exact sliceLen_rows hj
  · unfold latSliceLen
    have hf : 0 < f := by omega
    rw [Nat.mul_div_cancel_left c hf] at h ⊢
    have : (f * c - j + (f - 1)) / f = c := by
      refine Nat.div_eq_of_lt_le ?_ ?_
      · rw [mul_comm]; omega
      · rw [Nat.succ_mul, mul_comm]
        rcases Nat.eq_zero_or_pos c with rfl | hc
        · omega
        · have := Nat.le_mul_of_pos_right f hc
          omega
    rw [this]
    exact min_eq_right h

theorem blockSums_aux {d0 d1 f : ℕ} (L : Mat ℤ) (h : d0 / f = d1 / f ∨ (f ∣ d1 ∧ d1 / f ≤ d0 / f))
    (l : List (ℕ × ℕ)) (hl : ∀ p ∈ l, p.1 < f ∧ p.2 < f) (x : ℕ → ℕ → ℤ) :
    l.foldlM (fun acc p =>
      addInto16 (d0 / f) (d1 / f) (latSliceLen d0 p.1 f (d0 / f)) (latSliceLen d1 p.2 f (d0 / f)) acc
        (latSlice d0 d1 L p.1 p.2 f (d0 / f))) (Mat.build (d0 / f) (d1 / f) fun a b => wrap16 (x a b)) =
      (.ok (Mat.build (d0 / f) (d1 / f) fun a b => wrap16 (x a b +
        (l.map fun p => L.at' (f * a + p.1) (f * b + p.2)).sum)) : Py (Mat ℤ)) := by
  induction l generalizing x with
  | nil => simp [List.foldlM]; rfl
  | cons p l ih =>
    obtain ⟨hp, hl⟩ := List.forall_mem_cons.1 hl
    have hr := sliceLen_rows (d := d0) hp.1
    have hc := sliceLen_cols (d1 := d1) hp.2 h
    rw [List.foldlM_cons]
    have e : addInto16 (d0 / f) (d1 / f) (latSliceLen d0 p.1 f (d0 / f)) (latSliceLen d1 p.2 f (d0 / f))
        (Mat.build (d0 / f) (d1 / f) fun a b => wrap16 (x a b)) (latSlice d0 d1 L p.1 p.2 f (d0 / f)) =
        .ok (Mat.build (d0 / f) (d1 / f) fun a b => wrap16 (x a b + L.at' (f * a + p.1) (f * b + p.2))) := by
      unfold addInto16 latSlice
      rw [hr, hc, if_pos ⟨.inl rfl, .inl rfl⟩]
      congr 1
      refine Mat.ext' (Mat.build_shape _ _ _) (Mat.build_shape _ _ _) fun a ha b hb => ?_
      refine (Mat.at_build _ ha hb).trans (.trans ?_ (Mat.at_build _ ha hb).symm)
      have h1 : (if d0 / f = 1 then 0 else a) = a := by split <;> omega
      have h2 : (if d1 / f = 1 then 0 else b) = b := by split <;> omega
      rw [h1, h2, Mat.at_build _ ha hb, Mat.at_build _ ha hb, wrap16_add, add_comm p.1, add_comm p.2]
    rw [e]
    refine (ih hl _).trans ?_
    simp only [List.map_cons, List.sum_cons, add_assoc]

/-- C71: the block sums, up to 16-bit overflow. -/
theorem C71_block_sums (d0 d1 f : ℕ) (L : Mat ℤ) (h : d0 / f = d1 / f ∨ (f ∣ d1 ∧ d1 / f ≤ d0 / f)) :
    latBlockSums d0 d1 L f =
      .ok (Mat.build (d0 / f) (d1 / f) fun a b => wrap16 (blockSum f L.at' a b)) := by
  unfold latBlockSums
  have := blockSums_aux (d0 := d0) (d1 := d1) L h _ (fun p hp => offsets_lt hp) (fun _ _ => 0)
  rw [wrap16_zero] at this
  rw [this]
  simp only [zero_add, blockSum]
  congr 1
  refine congrArg (Mat.build _ _) (funext fun a => funext fun b => congrArg wrap16 ?_)
  exact sum_offsets f fun i j => L.at' (f * a + i) (f * b + j)

/-- A block of 1 and -1 has a sum of at most `f²` in size. -/
theorem blockSum_le {d0 d1 f : ℕ} {L : Mat ℤ} (hL : L ∈ lattices d0 d1) {a b : ℕ} (ha : a < d0 / f) (hb : b < d1 / f) :
    |blockSum f L.at' a b| ≤ f * f := by
  unfold blockSum
  have hf : 0 < f := Nat.pos_of_ne_zero fun h => by simp [h] at ha
  refine (Finset.abs_sum_le_sum_abs _ _).trans ?_
  refine (Finset.sum_le_card_nsmul _ _ (f : ℤ) fun i hi => ?_).trans (by simp)
  refine (Finset.abs_sum_le_sum_abs _ _).trans ?_
  refine (Finset.sum_le_card_nsmul _ _ (1 : ℤ) fun j hj => ?_).trans (by simp)
  have h1 : f * a + i < d0 := by
    have := Finset.mem_range.1 hi
    have h2 : f * (a + 1) ≤ f * (d0 / f) := Nat.mul_le_mul_left f ha
    have h3 := Nat.mul_div_le d0 f
    rw [mul_add] at h2
    omega
  have h2 : f * b + j < d1 := by
    have := Finset.mem_range.1 hj
    have h2 : f * (b + 1) ≤ f * (d1 / f) := Nat.mul_le_mul_left f hb
    have h3 := Nat.mul_div_le d1 f
    rw [mul_add] at h2
    omega
  rcases lattice_at hL h1 h2 with h | h <;> rw [h] <;> decide

/-- The value chosen for a block with sum `x`. -/
theorem returns_choice (x : ℤ) :
    Returns (if x.sign = 0 then (Prog.randint 2).bind fun b => .ret (if b = 0 then -1 else 1) else .ret x.sign)
      fun r : ℤ => (0 < x → r = 1) ∧ (x < 0 → r = -1) ∧ (r = 1 ∨ r = -1) := by
  split
  · rename_i h
    have h0 : x = 0 := Int.sign_eq_zero_iff_zero.1 h
    refine returns_randint 2 (by omega) _ fun b _ => returns_ret ⟨fun h => by omega, fun h => by omega, ?_⟩
    split <;> simp
  · rename_i h
    refine returns_ret ?_
    rcases lt_trichotomy x 0 with hx | hx | hx
    · rw [Int.sign_eq_neg_one_of_neg hx]; exact ⟨fun h => by omega, fun _ => rfl, .inr rfl⟩
    · rw [hx] at h; exact absurd rfl h
    · rw [Int.sign_eq_one_of_pos hx]; exact ⟨fun _ => rfl, fun h => by omega, .inl rfl⟩

/-- Entry by entry properties of nested `mapEach`. -/
theorem returns_entries {r c : ℕ} {S : Mat ℤ} (hS : S.HasShape r c) (g : ℤ → Prog ℤ) (Q : ℤ → ℤ → Prop)
    (hg : ∀ x, Returns (g x) (Q x)) :
    Returns (Prog.mapEach (fun row : List ℤ => Prog.mapEach g row) S) fun R : Mat ℤ => R.HasShape r c ∧
      ∀ a < r, ∀ b < c, Q (S.at' a b) (R.at' a b) := by
  refine returns_mono ?_ (returns_mapEach (Q := fun row row' => List.Forall₂ Q row row') S fun row _ =>
    returns_mapEach row fun x _ => hg x)
  intro R hR
  have hlen : S.length = R.length := hR.length_eq
  have hrow : ∀ a (ha : a < S.length) (ha' : a < R.length), List.Forall₂ Q S[a] R[a] := fun a ha ha' =>
    (List.forall₂_iff_get.1 hR).2 a ha ha'
  refine ⟨⟨by rw [← hlen, hS.1], fun row hrow' => ?_⟩, fun a ha b hb => ?_⟩
  · obtain ⟨a, ha, rfl⟩ := List.getElem_of_mem hrow'
    rw [← (hrow a (by omega) ha).length_eq]
    exact hS.2 _ (List.getElem_mem _)
  · have ha1 : a < S.length := by rw [hS.1]; exact ha
    have ha2 : a < R.length := by omega
    have h1 := hrow a ha1 ha2
    have hb1 : b < S[a].length := by rw [hS.2 _ (List.getElem_mem _)]; exact hb
    have hb2 : b < R[a].length := by rw [← h1.length_eq]; exact hb1
    have := (List.forall₂_iff_get.1 h1).2 b hb1 hb2
    simpa [Mat.at', List.getD_eq_getElem _ _ ha1, List.getD_eq_getElem _ _ ha2, List.getD_eq_getElem _ _ hb1,
      List.getD_eq_getElem _ _ hb2, ha1, ha2, hb1, hb2] using this

/-- The distribution of an entry of nested `mapEach`. -/
theorem expectation_entries {r c : ℕ} {S : Mat ℤ} (hS : S.HasShape r c) (g : ℤ → Prog ℤ)
    (hg : ∀ x, Returns (g x) fun _ => True) (φ : ℤ → ℝ) {a b : ℕ} (ha : a < r) (hb : b < c) :
    expectation (fun R : Mat ℤ => φ (R.at' a b)) (Prog.mapEach (fun row : List ℤ => Prog.mapEach g row) S) =
      expectation φ (g (S.at' a b)) := by
  have ha1 : a < S.length := by rw [hS.1]; exact ha
  have hb1 : b < S[a].length := by rw [hS.2 _ (List.getElem_mem _)]; exact hb
  have h1 := expectation_mapEach_getD (fun row : List ℤ => Prog.mapEach g row) (fun _ => True) []
    (fun row => φ (row.getD b 0)) S (fun row _ => returns_mono (fun _ _ => trivial)
      (returns_mapEach (Q := fun _ _ => True) row fun x _ => hg x)) a ha1
  refine h1.trans ?_
  rw [expectation_mapEach_getD g (fun _ => True) 0 φ _ (fun x _ => hg x) b hb1]
  congr 2
  simp [Mat.at', ha1, hb1]

theorem coarseGrain_ok {d0 d1 f : ℕ} (hf : 0 < f) {L S : Mat ℤ} (h : latBlockSums d0 d1 L f = .ok S) :
    latCoarseGrain d0 d1 L f = Prog.mapEach (fun row : List ℤ => Prog.mapEach (fun x : ℤ =>
        if x.sign = 0 then (Prog.randint 2).bind fun b => .ret (if b = 0 then -1 else 1) else .ret x.sign) row) S := by
  unfold latCoarseGrain
  rw [if_neg hf.ne', h]

/-- C71, what holds (missing: lattices with more columns than rows, or with columns left over, see
`C71_raises_wrong` and `C71_wide_wrong`; and factors above 181, see `C71_overflow_wrong`): the
entry of a block is 1 if most of its spins are 1, -1 if most are -1, and one of the two at a tie. -/
theorem C71_majority_partial (d0 d1 f : ℕ) (hf : 0 < f) (hf' : f ≤ 181) (L : Mat ℤ) (hL : L ∈ lattices d0 d1)
    (h : d0 / f = d1 / f ∨ (f ∣ d1 ∧ d1 / f ≤ d0 / f)) :
    Returns (latCoarseGrain d0 d1 L f) fun R : Mat ℤ => R.HasShape (d0 / f) (d1 / f) ∧
      ∀ a < d0 / f, ∀ b < d1 / f, (0 < blockSum f L.at' a b → R.at' a b = 1) ∧
        (blockSum f L.at' a b < 0 → R.at' a b = -1) ∧ (R.at' a b = 1 ∨ R.at' a b = -1) := by
  rw [coarseGrain_ok hf (C71_block_sums d0 d1 f L h)]
  refine returns_mono ?_ (returns_entries (Mat.build_shape _ _ _) _ _ returns_choice)
  rintro R ⟨h1, h2⟩
  refine ⟨h1, fun a ha b hb => ?_⟩
  have h3 := h2 a ha b hb
  have h4 := blockSum_le hL ha hb
  have h5 : (f : ℤ) * f ≤ 181 * 181 := by
    have : f * f ≤ 181 * 181 := Nat.mul_le_mul hf' hf'
    exact_mod_cast this
  obtain ⟨h6, h7⟩ := abs_le.1 (h4.trans h5)
  rw [Mat.at_build _ ha hb, wrap16_id (by omega) (by omega)] at h3
  exact h3

/-- C71: at a tie both values have probability one half. -/
theorem C71_tie (d0 d1 f : ℕ) (hf : 0 < f) (L : Mat ℤ)
    (h : d0 / f = d1 / f ∨ (f ∣ d1 ∧ d1 / f ≤ d0 / f)) (a b : ℕ) (ha : a < d0 / f) (hb : b < d1 / f)
    (ht : blockSum f L.at' a b = 0) :
    prob (latCoarseGrain d0 d1 L f) (fun R => R.at' a b = 1) = 1 / 2 ∧
      prob (latCoarseGrain d0 d1 L f) (fun R => R.at' a b = -1) = 1 / 2 := by
  rw [coarseGrain_ok hf (C71_block_sums d0 d1 f L h)]
  have key := fun φ => expectation_entries (Mat.build_shape (d0 / f) (d1 / f) fun a b => wrap16 (blockSum f L.at' a b))
    _ (fun x => returns_mono (fun _ _ => trivial) (returns_choice x)) φ ha hb
  unfold prob
  constructor
  · refine (key fun x => if x = 1 then 1 else 0).trans ?_
    rw [Mat.at_build _ ha hb, ht, wrap16_zero, if_pos (by decide), expectation_randint _ 2 (by omega)]
    simp [Finset.sum_range_succ, expectation_ret]
  · refine (key fun x => if x = -1 then 1 else 0).trans ?_
    rw [Mat.at_build _ ha hb, ht, wrap16_zero, if_pos (by decide), expectation_randint _ 2 (by omega)]
    simp [expectation_ret]

theorem offsets_cons (f : ℕ) (hf : 0 < f) :
    ∃ rest, ((List.range f).flatMap fun i => (List.range f).map fun j => (i, j)) = (0, 0) :: rest := by
  obtain ⟨m, rfl⟩ := Nat.exists_eq_add_of_lt hf
  exact ⟨_, by rw [List.range_succ_eq_map, List.flatMap_cons, List.map_cons, List.cons_append]⟩

/-- C71 is false of lattices with more columns of blocks than rows of blocks, or with fewer, some spins being left
over: `coarse_grain` raises. -/
theorem C71_raises_wrong (d0 d1 f : ℕ) (hf : 0 < f) (L : Mat ℤ)
    (h : (d0 / f < d1 / f ∧ d0 / f ≠ 1) ∨ (0 < d1 / f ∧ d1 / f < d0 / f ∧ ¬ f ∣ d1)) :
    latCoarseGrain d0 d1 L f = .fail .valueError := by
  have h1 : latBlockSums d0 d1 L f = .error .valueError := by
    unfold latBlockSums
    obtain ⟨rest, hr⟩ := offsets_cons f hf
    rw [hr, List.foldlM_cons]
    have h2 : ¬ (latSliceLen d1 0 f (d0 / f) = d1 / f ∨ latSliceLen d1 0 f (d0 / f) = 1) := by
      unfold latSliceLen
      rcases h with ⟨h3, h4⟩ | ⟨h3, h4, h5⟩
      · have h6 : d1 / f ≤ (d1 - 0 + (f - 1)) / f := Nat.div_le_div_right (by omega)
        rw [min_eq_left (by omega)]
        omega
      · have h6 : (d1 - 0 + (f - 1)) / f = d1 / f + 1 := by
          have h7 : 0 < d1 % f := Nat.pos_of_ne_zero fun h => h5 (Nat.dvd_of_mod_eq_zero h)
          have h8 := Nat.div_add_mod d1 f
          have h9 := Nat.mod_lt d1 hf
          refine Nat.div_eq_of_lt_le ?_ ?_
          · rw [Nat.add_mul, one_mul, mul_comm]; omega
          · rw [Nat.succ_mul, Nat.add_mul, one_mul, mul_comm]; omega
        rw [h6, min_eq_right (by omega)]
        omega
    unfold addInto16
    rw [if_neg fun h => h2 h.2]
    rfl
  unfold latCoarseGrain
  rw [if_neg hf.ne', h1]

theorem blockSums_wide {d0 d1 f : ℕ} (L : Mat ℤ) (h0 : d0 / f = 1) (h1 : 1 < d1 / f) (l : List (ℕ × ℕ))
    (hl : ∀ p ∈ l, p.1 < f ∧ p.2 < f) (x : ℤ) :
    l.foldlM (fun acc p =>
      addInto16 (d0 / f) (d1 / f) (latSliceLen d0 p.1 f (d0 / f)) (latSliceLen d1 p.2 f (d0 / f)) acc
        (latSlice d0 d1 L p.1 p.2 f (d0 / f))) (Mat.build (d0 / f) (d1 / f) fun _ _ => wrap16 x) =
      (.ok (Mat.build (d0 / f) (d1 / f) fun _ _ => wrap16 (x +
        (l.map fun p => L.at' (f * 0 + p.1) (f * 0 + p.2)).sum)) : Py (Mat ℤ)) := by
  induction l generalizing x with
  | nil => simp [List.foldlM]; rfl
  | cons p l ih =>
    obtain ⟨hp, hl⟩ := List.forall_mem_cons.1 hl
    have hr := sliceLen_rows (d := d0) hp.1
    have hc : latSliceLen d1 p.2 f (d0 / f) = 1 := by
      have h2 : d1 / f ≤ (d1 - p.2 + (f - 1)) / f := Nat.div_le_div_right (by omega)
      unfold latSliceLen
      rw [h0]
      omega
    rw [List.foldlM_cons]
    have e : addInto16 (d0 / f) (d1 / f) (latSliceLen d0 p.1 f (d0 / f)) (latSliceLen d1 p.2 f (d0 / f))
        (Mat.build (d0 / f) (d1 / f) fun _ _ => wrap16 x) (latSlice d0 d1 L p.1 p.2 f (d0 / f)) =
        .ok (Mat.build (d0 / f) (d1 / f) fun _ _ => wrap16 (x + L.at' (f * 0 + p.1) (f * 0 + p.2))) := by
      unfold addInto16 latSlice
      rw [hr, hc, if_pos ⟨.inl rfl, .inr rfl⟩]
      congr 1
      refine Mat.ext' (Mat.build_shape _ _ _) (Mat.build_shape _ _ _) fun a ha b hb => ?_
      refine (Mat.at_build _ ha hb).trans (.trans ?_ (Mat.at_build _ ha hb).symm)
      rw [if_pos h0, if_pos rfl, Mat.at_build _ ha hb, Mat.at_build _ (by omega) (by omega), wrap16_add, mul_zero,
        zero_add, zero_add, add_zero, add_zero]
    rw [e]
    refine (ih hl _).trans ?_
    simp only [List.map_cons, List.sum_cons, add_assoc]

/-- C71 is false of lattices with one row of blocks and several columns: every block is given the sum of the first
block. -/
theorem C71_wide_wrong (d0 d1 f : ℕ) (L : Mat ℤ) (h0 : d0 / f = 1) (h1 : 1 < d1 / f) :
    latBlockSums d0 d1 L f = .ok (Mat.build 1 (d1 / f) fun _ _ => wrap16 (blockSum f L.at' 0 0)) := by
  unfold latBlockSums
  have := blockSums_wide (d0 := d0) (d1 := d1) L h0 h1 _ (fun p hp => offsets_lt hp) 0
  rw [wrap16_zero] at this
  rw [this, h0]
  simp only [zero_add, blockSum]
  congr 1
  refine congrArg (Mat.build _ _) (funext fun a => funext fun b => congrArg wrap16 ?_)
  exact sum_offsets f fun i j => L.at' (f * 0 + i) (f * 0 + j)

/-- ... so the lattice `[[1, -1]]`, which should be left as it is for factor 1, becomes `[[1, 1]]`. -/
theorem C71_wide_witness : ([[1, -1]] : Mat ℤ) ∈ lattices 1 2 ∧ blockSum 1 (Mat.at' [[1, -1]]) 0 1 = -1 ∧
    latCoarseGrain 1 2 [[1, -1]] 1 = .ret [[1, 1]] := by
  refine ⟨by decide, by decide, ?_⟩
  rfl

/-- C71 is false for factors of 182 to 255: a block of ones is given -1. -/
theorem C71_overflow_wrong (d0 d1 f : ℕ) (hf : 182 ≤ f) (hf' : f ≤ 255) (L : Mat ℤ)
    (h : d0 / f = d1 / f ∨ (f ∣ d1 ∧ d1 / f ≤ d0 / f)) (a b : ℕ) (ha : a < d0 / f) (hb : b < d1 / f)
    (hone : ∀ i < f, ∀ j < f, L.at' (f * a + i) (f * b + j) = 1) :
    Returns (latCoarseGrain d0 d1 L f) fun R : Mat ℤ => R.at' a b = -1 := by
  have hs : blockSum f L.at' a b = (f : ℤ) * f := by
    unfold blockSum
    rw [Finset.sum_congr rfl fun i hi => Finset.sum_congr rfl fun j hj =>
      hone i (Finset.mem_range.1 hi) j (Finset.mem_range.1 hj)]
    simp
  rw [coarseGrain_ok (by omega) (C71_block_sums d0 d1 f L h)]
  refine returns_mono ?_ (returns_entries (Mat.build_shape _ _ _) _ _ returns_choice)
  rintro R ⟨_, h2⟩
  have h3 := (h2 a ha b hb).2.1
  rw [Mat.at_build _ ha hb, hs] at h3
  apply h3
  have h5 : (f : ℤ) * f ≤ 255 * 255 := by exact_mod_cast Nat.mul_le_mul hf' hf'
  have h6 : (182 : ℤ) * 182 ≤ f * f := by exact_mod_cast Nat.mul_le_mul hf hf
  unfold wrap16
  omega

example : (182 / 182 = 182 / 182) ∧ ∀ i < 182, ∀ j < 182,
    (Mat.build 182 182 fun _ _ => (1 : ℤ)).at' (182 * 0 + i) (182 * 0 + j) = 1 :=
  ⟨rfl, fun _ hi _ hj => by rw [mul_zero, zero_add, zero_add, Mat.at_build _ hi hj]⟩

/-- C71: factor 0 raises. -/
theorem C71_zero (d0 d1 : ℕ) (L : Mat ℤ) : latCoarseGrain d0 d1 L 0 = .fail .zeroDivision := rfl

/-- The hypotheses of `C71_majority_partial` on a 4 by 4 lattice with a majority of each kind and a tie. -/
example : ([[1, 1, -1, -1], [1, -1, -1, -1], [1, -1, 1, 1], [-1, 1, 1, 1]] : Mat ℤ) ∈ lattices 4 4 ∧
    blockSum 2 (Mat.at' [[1, 1, -1, -1], [1, -1, -1, -1], [1, -1, 1, 1], [-1, 1, 1, 1]]) 0 0 = 2 ∧
    blockSum 2 (Mat.at' [[1, 1, -1, -1], [1, -1, -1, -1], [1, -1, 1, 1], [-1, 1, 1, 1]]) 0 1 = -4 ∧
    blockSum 2 (Mat.at' [[1, 1, -1, -1], [1, -1, -1, -1], [1, -1, 1, 1], [-1, 1, 1, 1]]) 1 0 = 0 :=
  ⟨mem_lattices.2 ⟨⟨by decide, by decide⟩, by decide⟩, by decide, by decide, by decide⟩

end Verif.Props
