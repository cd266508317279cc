import Verif.Lemmas.CondSampler

namespace Verif.Lemmas
open Verif Verif.Model Verif.Spec Prog

/-! ### `np.insert` at one column of a flattened matrix -/

theorem insertBefore_none (idx : List ℕ) (v : ℤ) (rest : List ℤ) (l : List ℤ) : ∀ p,
    (∀ j, p ≤ j → j < p + l.length → idx.count j = 0) →
    insertBefore idx v p (l ++ rest) = l ++ insertBefore idx v (p + l.length) rest := by
  induction l with
  | nil => intro p _; rfl
  | cons x l ih =>
    intro p h
    rw [List.cons_append, insertBefore, h p le_rfl (by simp), List.replicate_zero, List.nil_append,
      ih (p + 1) fun j h1 h2 => h j (by omega) (by simp only [List.length_cons]; omega), List.cons_append,
      show p + 1 + l.length = p + (x :: l).length by simp only [List.length_cons]; omega]

/-- The insertions after the first element. -/
def insertAfter (idx : List ℕ) (v : ℤ) : ℕ → List ℤ → List ℤ
  | _, [] => []
  | p, x :: l => x :: (List.replicate (idx.count (p + 1)) v ++ insertAfter idx v (p + 1) l)

theorem insertBefore_eq (idx : List ℕ) (v : ℤ) (l : List ℤ) : ∀ p,
    insertBefore idx v p l = List.replicate (idx.count p) v ++ insertAfter idx v p l := by
  induction l with
  | nil => intro p; simp [insertBefore, insertAfter]
  | cons x l ih => intro p; rw [insertBefore, insertAfter, ih]

theorem insertAfter_append (idx : List ℕ) (v : ℤ) (rest : List ℤ) (l : List ℤ) : ∀ p,
    insertAfter idx v p (l ++ rest) = insertAfter idx v p l ++ insertAfter idx v (p + l.length) rest := by
  induction l with
  | nil => intro p; rfl
  | cons x l ih =>
    intro p
    rw [List.cons_append, insertAfter, insertAfter, ih, List.cons_append, List.append_assoc,
      show p + 1 + l.length = p + (x :: l).length by simp only [List.length_cons]; omega]

theorem insertAfter_none (idx : List ℕ) (v : ℤ) (l : List ℤ) : ∀ p,
    (∀ j, p < j → j ≤ p + l.length → idx.count j = 0) → insertAfter idx v p l = l := by
  induction l with
  | nil => intro p _; rfl
  | cons x l ih =>
    intro p h
    rw [insertAfter, h (p + 1) (by omega) (by simp only [List.length_cons]; omega), List.replicate_zero,
      List.nil_append, ih (p + 1) fun j h1 h2 => h j (by omega) (by simp only [List.length_cons]; omega)]

theorem insertAfter_row (idx : List ℕ) (v : ℤ) (l : List ℤ) : ∀ p i, 1 ≤ i → i ≤ l.length →
    (∀ j, 1 ≤ j → j ≤ l.length → idx.count (p + j) = if j = i then 1 else 0) →
    insertAfter idx v p l = l.take i ++ v :: l.drop i := by
  induction l with
  | nil => intro p i h1 h2; simp at h2; omega
  | cons x l ih =>
    intro p i h1 h2 h
    rw [List.length_cons] at h2 h
    rw [insertAfter, h 1 le_rfl (by omega)]
    by_cases hi : i = 1
    · subst hi
      rw [if_pos rfl, insertAfter_none idx v l (p + 1) fun j h3 h4 => ?_]
      · simp
      · have := h (j - p) (by omega) (by omega)
        rwa [show p + (j - p) = j by omega, if_neg (by omega)] at this
    · obtain ⟨i', rfl⟩ : ∃ i', i = i' + 1 := ⟨i - 1, by omega⟩
      rw [if_neg (by omega), List.replicate_zero, List.nil_append, ih (p + 1) i' (by omega) (by omega)]
      · rfl
      · intro j h3 h4
        have := h (j + 1) (by omega) (by omega)
        rw [show p + (j + 1) = p + 1 + j by omega] at this
        rw [this]
        by_cases e : j = i' <;> simp [e]

theorem insertAfter_rows (idx : List ℕ) (v : ℤ) (W i : ℕ) (h1 : 1 ≤ i) (h2 : i ≤ W) (rows : List (List ℤ)) :
    ∀ p, (∀ r ∈ rows, r.length = W) →
    (∀ t < rows.length, ∀ j, 1 ≤ j → j ≤ W → idx.count (p + t * W + j) = if j = i then 1 else 0) →
    insertAfter idx v p rows.flatten = (rows.map fun r => r.take i ++ v :: r.drop i).flatten := by
  induction rows with
  | nil => intro p _ _; rfl
  | cons r rows ih =>
    intro p hl h
    have hr := hl r (by simp)
    rw [List.flatten_cons, insertAfter_append, List.map_cons, List.flatten_cons, hr,
      insertAfter_row idx v r p i h1 (by omega) fun j h3 h4 => by
        have := h 0 (by simp) j h3 (by omega)
        simpa using this,
      ih (p + W) (fun r hr => hl r (by simp [hr])) fun t ht j h3 h4 => by
        have := h (t + 1) (by simpa using ht) j h3 h4
        rw [← this]
        congr 1
        ring]

theorem insertBefore_rows (idx : List ℕ) (v : ℤ) (W : ℕ) (hW : 0 < W) (rows : List (List ℤ)) :
    ∀ p, (∀ r ∈ rows, r.length = W) →
    (∀ t < rows.length, ∀ j < W, idx.count (p + t * W + j) = if j = 0 then 1 else 0) →
    idx.count (p + rows.length * W) = 0 →
    insertBefore idx v p rows.flatten = (rows.map fun r => v :: r).flatten := by
  induction rows with
  | nil => intro p _ _ h0; simp only [List.length_nil, Nat.zero_mul, Nat.add_zero] at h0; simp [insertBefore, h0]
  | cons r rows ih =>
    intro p hl h h0
    have hr := hl r (by simp)
    cases r with
    | nil => simp at hr; omega
    | cons x l =>
      rw [List.length_cons] at hr
      have h00 := h 0 (by simp) 0 hW
      simp only [Nat.zero_mul, Nat.add_zero, if_true] at h00
      rw [List.flatten_cons, List.cons_append, insertBefore, h00, insertBefore_none, List.map_cons,
        List.flatten_cons, show p + 1 + l.length = p + W by omega,
        ih (p + W) (fun r hr => hl r (by simp [hr]))]
      · simp
      · intro t ht j hj
        have := h (t + 1) (by simpa using ht) j hj
        rw [← this]
        congr 1
        ring
      · rw [← h0, List.length_cons]
        congr 1
        ring
      · intro j h3 h4
        have := h 0 (by simp) (j - p) (by omega)
        rw [if_neg (by omega)] at this
        rwa [show p + 0 * W + (j - p) = j by omega] at this

theorem count_rangeStep (a b w q : ℕ) (hw : 0 < w) :
    (rangeStep a b w).count q = if ∃ t < (b - a + w - 1) / w, q = a + t * w then 1 else 0 := by
  unfold rangeStep
  have hnd : ((List.range ((b - a + w - 1) / w)).map fun t => a + t * w).Nodup := by
    refine List.nodup_range.map fun s t h => ?_
    exact Nat.eq_of_mul_eq_mul_right hw (by omega)
  by_cases h : ∃ t < (b - a + w - 1) / w, q = a + t * w
  · rw [if_pos h]
    obtain ⟨t, ht, rfl⟩ := h
    exact List.count_eq_one_of_mem hnd (List.mem_map.2 ⟨t, List.mem_range.2 ht, rfl⟩)
  · rw [if_neg h]
    refine List.count_eq_zero_of_not_mem fun hm => h ?_
    obtain ⟨t, ht, rfl⟩ := List.mem_map.1 hm
    exact ⟨t, List.mem_range.1 ht, rfl⟩

theorem block_unique {W t t' j i : ℕ} (h : t * W + j = t' * W + i) (hj : 1 ≤ j) (hj' : j ≤ W) (hi : 1 ≤ i)
    (hi' : i ≤ W) : t = t' ∧ j = i := by
  rcases lt_trichotomy t t' with h1 | h1 | h1
  · have := Nat.mul_le_mul_right W h1
    rw [Nat.succ_mul] at this
    omega
  · subst h1; exact ⟨rfl, by omega⟩
  · have := Nat.mul_le_mul_right W h1
    rw [Nat.succ_mul] at this
    omega

/-- Putting a value into column `i` of all rows of a matrix. -/
theorem npInsertAll_rows (v : ℤ) (W i : ℕ) (hW : 0 < W) (hi : i ≤ W) (rows : List (List ℤ))
    (hl : ∀ r ∈ rows, r.length = W) :
    npInsertAll rows.flatten (if i = 0 then rangeStep i rows.flatten.length W
      else rangeStep i (rows.flatten.length + 1) W) v =
      .ok (rows.map fun r => r.take i ++ v :: r.drop i).flatten := by
  have hlen : rows.flatten.length = rows.length * W := by
    rw [List.length_flatten, List.map_congr_left hl]; simp
  rw [hlen]
  obtain ⟨m, hm⟩ : ∃ m, m = rows.length := ⟨_, rfl⟩
  rw [← hm]
  unfold npInsertAll
  by_cases h0 : i = 0
  · subst h0
    have hN : (m * W - 0 + W - 1) / W = m := by
      refine Nat.div_eq_of_lt_le ?_ ?_
      · omega
      · rw [Nat.succ_mul]; omega
    rw [if_pos rfl, if_pos, insertBefore_rows _ v W hW rows 0 hl]
    · simp
    · intro t ht j hj
      rw [count_rangeStep _ _ _ _ hW, hN]
      by_cases hj0 : j = 0
      · rw [if_pos ⟨t, by omega, by subst hj0; omega⟩, if_pos hj0]
      · rw [if_neg, if_neg hj0]
        rintro ⟨t', -, e⟩
        rcases Nat.lt_or_ge t t' with h | h
        · have := Nat.mul_le_mul_right W h
          rw [Nat.succ_mul] at this
          omega
        · have := Nat.mul_le_mul_right W h
          omega
    · rw [count_rangeStep _ _ _ _ hW, hN, if_neg]
      rintro ⟨t', h1, e⟩
      have := Nat.mul_lt_mul_of_lt_of_le h1 le_rfl hW
      rw [← hm] at e
      omega
    · intro q hq
      obtain ⟨t, ht, rfl⟩ := List.mem_map.1 hq
      rw [List.mem_range, hN] at ht
      rw [hlen, ← hm]
      have := Nat.mul_le_mul_right W ht.le
      omega
  · have hN : (m * W + 1 - i + W - 1) / W = m := by
      rcases Nat.eq_zero_or_pos m with h | h
      · rw [h, Nat.zero_mul]; exact Nat.div_eq_of_lt (by omega)
      · have : W ≤ m * W := Nat.le_mul_of_pos_left W h
        refine Nat.div_eq_of_lt_le ?_ ?_
        · omega
        · rw [Nat.succ_mul]; omega
    rw [if_neg h0, if_pos, insertBefore_eq, insertAfter_rows _ v W i (by omega) hi rows 0 hl]
    · rw [count_rangeStep _ _ _ _ hW, if_neg, List.replicate_zero, List.nil_append]
      rintro ⟨t, -, e⟩
      omega
    · intro t ht j h1 h2
      rw [count_rangeStep _ _ _ _ hW, hN]
      by_cases hj : j = i
      · rw [if_pos ⟨t, by omega, by omega⟩, if_pos hj]
      · rw [if_neg, if_neg hj]
        rintro ⟨t', -, e⟩
        exact hj (block_unique (W := W) (t := t) (t' := t') (by omega) h1 h2 (by omega) hi).2
    · intro q hq
      obtain ⟨t, ht, rfl⟩ := List.mem_map.1 hq
      rw [List.mem_range, hN] at ht
      rw [hlen, ← hm]
      have := Nat.mul_le_mul_right W ht
      rw [Nat.succ_mul] at this
      omega

/-! ### All fixed spins -/

/-- Making the first of the remaining fixed sites free. -/
theorem free_step {n i : ℕ} {suf : List ℕ} (hi : i < n) (hs : ∀ j ∈ suf, i < j) :
    ∃ B, ((List.range n).filter fun j => decide (j ∉ i :: suf)) = List.range i ++ B ∧
      ((List.range n).filter fun j => decide (j ∉ suf)) = List.range i ++ i :: B := by
  have h1 : List.range n = List.range i ++ i :: List.range' (i + 1) (n - i - 1) := by
    rw [List.range_eq_range', List.range_eq_range',
      show i :: List.range' (i + 1) (n - i - 1) = List.range' i (n - i) by
        rw [show n - i = (n - i - 1) + 1 by omega, List.range'_succ, Nat.add_sub_cancel]]
    have := List.range'_append (s := 0) (m := i) (n := n - i) (step := 1)
    rw [Nat.one_mul, Nat.zero_add, Nat.add_sub_cancel' hi.le] at this
    exact this.symm
  have h2 : ∀ s : List ℕ, (∀ j ∈ s, i ≤ j) →
      ((List.range i).filter fun j => decide (j ∉ s)) = List.range i := fun s hs =>
    List.filter_eq_self.2 fun j hj => by
      have := List.mem_range.1 hj
      simp only [decide_eq_true_eq]
      intro hm
      have := hs j hm
      omega
  refine ⟨(List.range' (i + 1) (n - i - 1)).filter fun j => decide (j ∉ suf), ?_, ?_⟩
  · rw [h1, List.filter_append, h2 _ fun j hj => by
      rcases List.mem_cons.1 hj with e | e
      · omega
      · exact (hs j e).le]
    rw [List.filter_cons_of_neg (by simp)]
    congr 1
    refine List.filter_congr fun j hj => ?_
    have : i + 1 ≤ j := (List.mem_range'_1.1 hj).1
    have hne : j ≠ i := by omega
    simp [hne]
  · rw [h1, List.filter_append, h2 _ fun j hj => (hs j hj).le, List.filter_cons_of_pos]
    simp only [decide_eq_true_eq]
    intro hm
    have := hs i hm
    omega

theorem condInsert_go (n k : ℕ) (suf : List (ℕ × ℤ)) : ∀ (c : ℕ) (xs : List (ℕ → ℤ)),
    (suf.map Prod.fst).Pairwise (· < ·) → (∀ p ∈ suf, p.1 < n) → 0 < k →
    k + c + suf.length = n → (∀ X ∈ xs, ∀ p ∈ suf, X p.1 = p.2) →
    suf.foldlM (m := Py) (fun (st : List ℤ × ℕ) p =>
      if k + st.2 = 0 then .error .valueError
      else (npInsertAll st.1 (if p.1 = 0 then rangeStep p.1 st.1.length (k + st.2)
          else rangeStep p.1 (st.1.length + 1) (k + st.2)) p.2).bind fun l => .ok (l, st.2 + 1))
      ((xs.map fun X => ((List.range n).filter fun j => decide (j ∉ suf.map Prod.fst)).map X).flatten, c) =
    .ok ((xs.map fun X => (List.range n).map X).flatten, c + suf.length) := by
  induction suf with
  | nil =>
    intro c xs _ _ _ _ _
    simp only [List.map_nil, List.not_mem_nil, not_false_eq_true, decide_true, List.filter_true,
      List.foldlM_nil, List.length_nil, Nat.add_zero]
    rfl
  | cons p suf ih =>
    intro c xs hs hlt hk hn hX
    have hgood : GoodFixed n (p :: suf) := ⟨hs, hlt⟩
    have hlen := freeSites_length hgood
    rw [List.map_cons, List.pairwise_cons] at hs
    obtain ⟨B, hB1, hB2⟩ := free_step (hlt p (by simp)) hs.1
    rw [List.length_cons] at hn hlen
    have hfl : (freeSites n (p :: suf)).length = k + c := by omega
    have hfl' : (List.range p.1 ++ B).length = k + c := by
      rw [← hfl, ← hB1]; rfl
    have hpw : p.1 ≤ k + c := by
      rw [← hfl', List.length_append, List.length_range]; omega
    rw [List.foldlM_cons]
    dsimp only
    rw [if_neg (by omega), List.map_cons, hB1, npInsertAll_rows p.2 (k + c) p.1 (by omega) hpw]
    · have e : ((xs.map fun X => (List.range p.1 ++ B).map X).map fun r => r.take p.1 ++ p.2 :: r.drop p.1) =
          xs.map fun X => ((List.range n).filter fun j => decide (j ∉ suf.map Prod.fst)).map X := by
        rw [List.map_map]
        refine List.map_congr_left fun X hX' => ?_
        simp only [Function.comp]
        rw [hB2, List.map_append, List.map_append, List.map_cons, List.take_left' (by simp),
          List.drop_left' (by simp), hX X hX' p (by simp)]
      rw [e]
      have := ih (c + 1) xs hs.2 (fun q hq => hlt q (by simp [hq])) hk (by omega)
        fun X hX' q hq => hX X hX' q (by simp [hq])
      rw [show c + 1 + suf.length = c + (suf.length + 1) by omega] at this
      exact this
    · intro r hr
      obtain ⟨X, -, rfl⟩ := List.mem_map.1 hr
      rw [List.length_map, hfl']

/-- The fixed spins put back into rows of free spins. -/
theorem condInsert_eq {n : ℕ} {fixed : List (ℕ × ℤ)} (h : GoodFixed n fixed) (hk : fixed.length < n)
    (rs : List (List ℤ)) (hr : ∀ r ∈ rs, r.length = n - fixed.length) :
    condInsert (n - fixed.length) fixed rs.flatten = .ok (rs.map (weave n fixed)).flatten := by
  have := condInsert_go n (n - fixed.length) fixed 0 (rs.map fun r => fun j => (weave n fixed r).getD j 0)
    h.sorted h.lt (by omega) (by omega) (by
      intro X hX p hp
      obtain ⟨r, -, rfl⟩ := List.mem_map.1 hX
      exact weave_fixed h r hp)
  rw [List.map_map, List.map_map] at this
  have e1 : rs.map ((fun X : ℕ → ℤ => ((List.range n).filter fun j => decide (j ∉ fixed.map Prod.fst)).map X) ∘
      fun r => fun j => (weave n fixed r).getD j 0) = rs := by
    conv_rhs => rw [← List.map_id rs]
    refine List.map_congr_left fun r hr' => ?_
    exact weave_free h r (by have := hr r hr'; omega)
  have e2 : rs.map ((fun X : ℕ → ℤ => (List.range n).map X) ∘ fun r => fun j => (weave n fixed r).getD j 0) =
      rs.map (weave n fixed) := by
    refine List.map_congr_left fun r _ => ?_
    simp only [Function.comp]
    refine List.ext_getElem (by simp [weave_length]) fun i h1 h2 => ?_
    rw [List.getElem_map, List.getElem_range, List.getD_eq_getElem _ _ h2]
  rw [e1, e2] at this
  unfold condInsert
  rw [this]
  rfl

theorem flatten_drop_take (n : ℕ) (rows : List (List ℤ)) (h : ∀ r ∈ rows, r.length = n) : ∀ i (hi : i < rows.length),
    (rows.flatten.drop (i * n)).take n = rows[i] := by
  induction rows with
  | nil => intro i hi; simp at hi
  | cons r rows ih =>
    intro i hi
    have hr := h r (by simp)
    cases i with
    | zero => rw [Nat.zero_mul, List.drop_zero, List.flatten_cons, List.take_left' hr]; rfl
    | succ i =>
      rw [List.flatten_cons, Nat.succ_mul, Nat.add_comm, ← List.drop_drop, List.drop_left' hr,
        ih (fun r hr => h r (by simp [hr])) i (by simpa using hi)]
      rfl

theorem npReshape_flatten (n : ℕ) (rows : List (List ℤ)) (h : ∀ r ∈ rows, r.length = n) :
    npReshape rows.flatten rows.length n = .ok rows := by
  unfold npReshape
  rw [if_pos (by rw [List.length_flatten, List.map_congr_left h]; simp)]
  congr 1
  refine List.ext_getElem (by simp) fun i h1 h2 => ?_
  rw [List.getElem_map, List.getElem_range, flatten_drop_take n rows h i h2]

end Verif.Lemmas
