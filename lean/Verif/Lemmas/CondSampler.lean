import Verif.Model.CondSampler
import Verif.Spec.Fixed
import Verif.Lemmas.CppCond

namespace Verif.Lemmas
open Verif Verif.Model Verif.Spec Prog

/-! ### Weaving -/

/-- Sites in increasing order, all below `n`. -/
structure GoodFixed (n : ℕ) (fixed : List (ℕ × ℤ)) : Prop where
  sorted : (fixed.map Prod.fst).Pairwise (· < ·)
  lt : ∀ p ∈ fixed, p.1 < n

section
variable {n : ℕ} {fixed : List (ℕ × ℤ)}

theorem GoodFixed.nodup (h : GoodFixed n fixed) : (fixed.map Prod.fst).Nodup :=
  h.sorted.imp fun h => Nat.ne_of_lt h

theorem GoodFixed.lt' (h : GoodFixed n fixed) : ∀ i ∈ fixed.map Prod.fst, i < n := by
  intro i hi
  obtain ⟨p, hp, rfl⟩ := List.mem_map.1 hi
  exact h.lt p hp

theorem freeSites_length (h : GoodFixed n fixed) : fixed.length + (freeSites n fixed).length = n := by
  have := length_free n (fixed.map Prod.fst) h.nodup h.lt'
  rwa [List.length_map] at this

theorem lookup_none {j : ℕ} (hj : j ∉ fixed.map Prod.fst) : fixed.lookup j = none := by
  induction fixed with
  | nil => rfl
  | cons p l ih =>
    simp only [List.map_cons, List.mem_cons, not_or] at hj
    rw [List.lookup_cons, ih hj.2]
    have : (j == p.1) = false := by simpa using hj.1
    simp [this]

theorem lookup_fixed (hnd : (fixed.map Prod.fst).Nodup) {p : ℕ × ℤ} (hp : p ∈ fixed) :
    fixed.lookup p.1 = some p.2 := by
  induction fixed with
  | nil => simp at hp
  | cons q l ih =>
    rw [List.map_cons, List.nodup_cons] at hnd
    rw [List.lookup_cons]
    rcases List.mem_cons.1 hp with rfl | hp'
    · simp
    · have : p.1 ≠ q.1 := fun e => hnd.1 (by rw [← e]; exact List.mem_map.2 ⟨p, hp', rfl⟩)
      have h2 : (p.1 == q.1) = false := by simpa using this
      simp only [h2]
      exact ih hnd.2 hp'

theorem weave_length (r : List ℤ) : (weave n fixed r).length = n := by simp [weave]

theorem weave_getD (r : List ℤ) (j : ℕ) (hj : j < n) :
    (weave n fixed r).getD j 0 = match fixed.lookup j with
      | some v => v
      | none => r.getD ((freeSites n fixed).idxOf j) 0 := by
  unfold weave
  exact getD_map_range _ _ _ hj

theorem weave_fixed (h : GoodFixed n fixed) (r : List ℤ) {p : ℕ × ℤ} (hp : p ∈ fixed) :
    (weave n fixed r).getD p.1 0 = p.2 := by
  rw [weave_getD r p.1 (h.lt p hp), lookup_fixed h.nodup hp]

theorem weave_free' (r : List ℤ) (j : ℕ) (hj : j < n) (hf : j ∉ fixed.map Prod.fst) :
    (weave n fixed r).getD j 0 = r.getD ((freeSites n fixed).idxOf j) 0 := by
  rw [weave_getD r j hj, lookup_none hf]

theorem nodup_freeSites : (freeSites n fixed).Nodup := List.nodup_range.filter _

theorem mem_freeSites {j : ℕ} : j ∈ freeSites n fixed ↔ j < n ∧ j ∉ fixed.map Prod.fst := by
  unfold freeSites
  rw [List.mem_filter, List.mem_range, decide_eq_true_eq]

theorem weave_free (h : GoodFixed n fixed) (r : List ℤ) (hr : r.length + fixed.length = n) :
    (freeSites n fixed).map ((weave n fixed r).getD · 0) = r := by
  have hl := freeSites_length h
  refine List.ext_getElem (by simp; omega) fun i h1 h2 => ?_
  rw [List.length_map] at h1
  rw [List.getElem_map]
  have hm := mem_freeSites.1 (List.getElem_mem h1)
  rw [weave_free' r _ hm.1 hm.2, nodup_freeSites.idxOf_getElem, List.getD_eq_getElem _ _ h2]

/-- The weaved state is the only state with these fixed and free spins. -/
theorem weave_unique (h : GoodFixed n fixed) (x : List ℤ) (hx : x.length = n)
    (hf : ∀ p ∈ fixed, x.getD p.1 0 = p.2) :
    x = weave n fixed ((freeSites n fixed).map (x.getD · 0)) := by
  refine List.ext_getElem (by rw [weave_length, hx]) fun i h1 h2 => ?_
  rw [weave_length] at h2
  rw [← List.getD_eq_getElem _ 0 h1, ← List.getD_eq_getElem _ 0]
  by_cases hi : i ∈ fixed.map Prod.fst
  · obtain ⟨p, hp, rfl⟩ := List.mem_map.1 hi
    rw [hf p hp, weave_fixed h _ hp]
  · have hm : i ∈ freeSites n fixed := mem_freeSites.2 ⟨h2, hi⟩
    have hl := List.idxOf_lt_length_of_mem hm
    rw [weave_free' _ i h2 hi, List.getD_eq_getElem ((freeSites n fixed).map _) _ (by simpa using hl),
      List.getElem_map, List.getElem_idxOf hl]

end

/-! ### `cond_calc_e` -/

section
variable {n : ℕ} {fixed : List (ℕ × ℤ)}

/-- Number of free sites below `a`. -/
def freeBelow (fixed : List (ℕ × ℤ)) (a : ℕ) : ℕ :=
  ((List.range a).filter fun i => decide (i ∉ fixed.map Prod.fst)).length

theorem freeBelow_succ (a : ℕ) :
    freeBelow fixed (a + 1) = if a ∈ fixed.map Prod.fst then freeBelow fixed a else freeBelow fixed a + 1 := by
  unfold freeBelow
  rw [List.range_succ, List.filter_append, List.length_append]
  by_cases h : a ∈ fixed.map Prod.fst
  · simp only [List.filter_cons, h, not_true_eq_false, decide_false, Bool.false_eq_true, if_false, if_true,
      List.filter_nil, List.length_nil, Nat.add_zero]
  · simp only [List.filter_cons, h, not_false_eq_true, decide_true, if_false, if_true, List.filter_nil,
      List.length_singleton]

theorem freeSites_split (a : ℕ) (ha : a < n) (hf : a ∉ fixed.map Prod.fst) :
    (freeSites n fixed).idxOf a = freeBelow fixed a := by
  have h1 : List.range n = List.range a ++ a :: List.range' (a + 1) (n - a - 1) := by
    rw [List.range_eq_range', List.range_eq_range',
      show a :: List.range' (a + 1) (n - a - 1) = List.range' a (n - a) by
        rw [show n - a = (n - a - 1) + 1 by omega, List.range'_succ, Nat.add_sub_cancel]]
    have := List.range'_append (s := 0) (m := a) (n := n - a) (step := 1)
    rw [Nat.one_mul, Nat.zero_add, Nat.add_sub_cancel' ha.le] at this
    exact this.symm
  unfold freeSites freeBelow
  rw [h1, List.filter_append, List.idxOf_append_of_notMem (by simp), List.filter_cons_of_pos (by simpa using hf),
    List.idxOf_cons_self, Nat.add_zero]

theorem freeBelow_le (a b : ℕ) (h : a ≤ b) : freeBelow fixed a ≤ freeBelow fixed b := by
  unfold freeBelow
  exact ((List.range_sublist.2 h).filter _).length_le

theorem freeBelow_lt (h : GoodFixed n fixed) (r : List ℤ) (hr : r.length + fixed.length = n) (a : ℕ) (ha : a < n)
    (hf : a ∉ fixed.map Prod.fst) : freeBelow fixed a < r.length := by
  have h1 := freeBelow_succ (fixed := fixed) a
  rw [if_neg hf] at h1
  have h2 := freeBelow_le (fixed := fixed) (a + 1) n ha
  have h3 := freeSites_length h
  have h4 : freeBelow fixed n = (freeSites n fixed).length := rfl
  omega

/-- The first `a` spins are in place. -/
def partFull (n : ℕ) (x : List ℤ) (a : ℕ) : List ℤ := x.take a ++ List.replicate (n - a) 0

theorem partFull_set (x : List ℤ) (hx : x.length = n) (a : ℕ) (ha : a < n) :
    (partFull n x a).set a (x.getD a 0) = partFull n x (a + 1) := by
  unfold partFull
  rw [List.set_append_right _ _ (by simp), List.length_take, min_eq_left (by omega), Nat.sub_self,
    show n - a = (n - (a + 1)) + 1 by omega, List.replicate_succ, List.set_cons_zero,
    List.take_succ_eq_append_getElem (by omega), List.append_assoc, List.getD_eq_getElem _ _ (by omega)]
  rfl

theorem condFill_eq (h : GoodFixed n fixed) (r : List ℤ) (hr : r.length + fixed.length = n) (k : ℕ) :
    ∀ a, a + k ≤ n → (∀ j, a ≤ j → j < a + k → j ∉ fixed.map Prod.fst) →
      (List.range' a k).foldlM (m := Py) (fun (st : List ℤ × ℕ) ii =>
        if st.2 < r.length ∧ ii < n then .ok (st.1.set ii (r.getD st.2 0), st.2 + 1)
        else .error .indexError) (partFull n (weave n fixed r) a, freeBelow fixed a) =
      .ok (partFull n (weave n fixed r) (a + k), freeBelow fixed (a + k)) := by
  induction k with
  | zero => intro a _ _; rfl
  | succ k ih =>
    intro a hk hfree
    have hf := hfree a le_rfl (by omega)
    rw [List.range'_succ, List.foldlM_cons]
    simp only [freeBelow_lt h r hr a (by omega) hf, show a < n by omega, and_self, if_true]
    rw [← freeSites_split (n := n) a (by omega) hf, ← weave_free' r a (by omega) hf,
      partFull_set _ (weave_length r) a (by omega), freeSites_split (n := n) a (by omega) hf]
    have hs := freeBelow_succ (fixed := fixed) a
    rw [if_neg hf] at hs
    rw [← hs]
    have := ih (a + 1) (by omega) fun j h1 h2 => hfree j (by omega) (by omega)
    rw [show a + 1 + k = a + (k + 1) by omega] at this
    exact this

theorem condFull_go (h : GoodFixed n fixed) (r : List ℤ) (hr : r.length + fixed.length = n)
    (suf : List (ℕ × ℤ)) : ∀ i0, i0 ≤ n → (suf.map Prod.fst).Pairwise (· < ·) → (∀ p ∈ suf, p ∈ fixed) →
      (∀ j, i0 ≤ j → (j ∈ fixed.map Prod.fst ↔ j ∈ suf.map Prod.fst)) → (∀ p ∈ suf, i0 ≤ p.1) →
      ∃ i1 ≤ n, (∀ j, i1 ≤ j → j ∉ fixed.map Prod.fst) ∧
        suf.foldlM (m := Py) (fun (st : (List ℤ × ℕ) × ℕ) p =>
          (condFill n r st.2 p.1 st.1).bind fun q =>
            if p.1 < n then .ok ((q.1.set p.1 p.2, q.2), p.1 + 1) else .error .indexError)
          ((partFull n (weave n fixed r) i0, freeBelow fixed i0), i0) =
        .ok ((partFull n (weave n fixed r) i1, freeBelow fixed i1), i1) := by
  induction suf with
  | nil =>
    intro i0 hi0 _ _ hj _
    exact ⟨i0, hi0, fun j hj' => by rw [hj j hj']; simp, rfl⟩
  | cons p suf ih =>
    intro i0 hi0 hp hmem hj hge
    have hpn := h.lt p (hmem p (by simp))
    have hp0 := hge p (by simp)
    rw [List.map_cons, List.pairwise_cons] at hp
    rw [List.foldlM_cons]
    have hfill := condFill_eq h r hr (p.1 - i0) i0 (by omega) fun j h1 h2 => by
      rw [hj j h1, List.map_cons, List.mem_cons, not_or]
      exact ⟨by omega, fun hm => by have := hp.1 j hm; omega⟩
    rw [show i0 + (p.1 - i0) = p.1 by omega] at hfill
    have hfill' : condFill n r i0 p.1 (partFull n (weave n fixed r) i0, freeBelow fixed i0) =
        .ok (partFull n (weave n fixed r) p.1, freeBelow fixed p.1) := hfill
    have hb := freeBelow_succ (fixed := fixed) p.1
    rw [if_pos (List.mem_map.2 ⟨p, hmem p (by simp), rfl⟩)] at hb
    obtain ⟨i1, h1, h2, h3⟩ := ih (p.1 + 1) hpn hp.2 (fun q hq => hmem q (by simp [hq]))
      (fun j hj' => by
        rw [hj j (by omega), List.map_cons, List.mem_cons]
        exact ⟨fun hh => hh.resolve_left (by omega), Or.inr⟩)
      (fun q hq => hp.1 q.1 (List.mem_map.2 ⟨q, hq, rfl⟩))
    refine ⟨i1, h1, h2, ?_⟩
    simp only [hfill']
    simp only [Except.bind, hpn, if_true]
    rw [← weave_fixed h r (hmem p (by simp)), partFull_set _ (weave_length r) _ hpn, ← hb]
    exact h3

/-- The full state in `cond_calc_e`. -/
theorem condFull_eq (h : GoodFixed n fixed) (r : List ℤ) (hr : r.length + fixed.length = n) :
    condFull n fixed r = .ok (weave n fixed r) := by
  obtain ⟨i1, h1, h2, h3⟩ := condFull_go h r hr fixed 0 (by omega) h.sorted (fun _ hp => hp)
    (fun j _ => Iff.rfl) fun p _ => by omega
  have e0 : (List.replicate n (0 : ℤ), 0) = (partFull n (weave n fixed r) 0, freeBelow fixed 0) := by
    simp [partFull, freeBelow]
  unfold condFull
  rw [e0, h3]
  have hfill := condFill_eq h r hr (n - i1) i1 (by omega) fun j h4 _ => h2 j h4
  rw [show i1 + (n - i1) = n by omega] at hfill
  have hfill' : condFill n r i1 n (partFull n (weave n fixed r) i1, freeBelow fixed i1) =
      .ok (partFull n (weave n fixed r) n, freeBelow fixed n) := hfill
  simp only [Except.bind, hfill']
  rw [partFull, List.take_of_length_le (by rw [weave_length]), Nat.sub_self]
  simp

theorem condCalcE_eq (h : GoodFixed n fixed) (calcE : List ℤ → ℝ) (r : List ℤ)
    (hr : r.length + fixed.length = n) :
    condCalcE calcE n fixed r = .ok (calcE (weave n fixed r)) := by
  unfold condCalcE
  rw [condFull_eq h r hr]
  rfl

end

end Verif.Lemmas
