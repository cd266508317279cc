/-
Helper lemmas about pair lists, combinations and their ranks.
-/
import Verif.Model.Index
import Verif.Spec.Pairs
import Mathlib.Tactic.Ring
import Mathlib.Tactic.Linarith
import Mathlib.Tactic.Push
import Mathlib.Data.List.Sort
import Mathlib.Data.List.Lex

namespace Verif.Lemmas
open Verif Verif.Model Verif.Spec

theorem pyRange_eq_filter (n a : ℕ) :
    pyRange a n = (List.range n).filter (fun j => decide (a ≤ j)) := by
  induction n with
  | zero => simp [pyRange]
  | succ n ih =>
    rw [List.range_succ, List.filter_append, ← ih]
    unfold pyRange
    by_cases h : a ≤ n
    · have : n + 1 - a = (n - a) + 1 := by omega
      rw [this, List.range'_concat]
      simp [h]
    · have h1 : n + 1 - a = 0 := by omega
      have h2 : n - a = 0 := by omega
      simp [h, h1, h2]

theorem filter_flatMap' {α β : Type*} (l : List α) (f : α → List β) (p : β → Bool) :
    (l.flatMap f).filter p = l.flatMap (fun a => (f a).filter p) := by
  induction l with
  | nil => rfl
  | cons a l ih => simp [List.flatMap_cons, ih]

theorem loopPairs_eq_upperPairs (n : ℕ) : loopPairs n = upperPairs n := by
  have key : ∀ m, (List.range m).flatMap (fun i => (pyRange (i + 1) n).map fun j => (i, j)) =
      ((List.range m).product (List.range n)).filter (fun p => decide (p.1 < p.2)) := by
    intro m
    have : (List.range m).product (List.range n) =
        (List.range m).flatMap (fun a => (List.range n).map (Prod.mk a)) := rfl
    rw [this, filter_flatMap']
    refine congrArg (fun f => List.flatMap f (List.range m)) (funext fun i => ?_)
    rw [pyRange_eq_filter, List.filter_map]
    rfl
  unfold upperPairs cells loopPairs
  rw [← key n]
  rcases n with _ | n
  · rfl
  · have : pyRange 0 (n + 1 - 1) = List.range n := by simp [pyRange, List.range_eq_range']
    rw [this, List.range_succ, List.flatMap_append]
    simp [pyRange]

theorem mem_upperPairs {n i j : ℕ} : (i, j) ∈ upperPairs n ↔ i < j ∧ j < n := by
  simp only [upperPairs, cells, List.mem_filter, List.pair_mem_product, List.mem_range,
    decide_eq_true_eq]
  omega

theorem nodup_upperPairs (n : ℕ) : (upperPairs n).Nodup :=
  (List.Nodup.product List.nodup_range List.nodup_range).filter _

theorem length_combos {α : Type*} (k : ℕ) (l : List α) :
    (combos k l).length = l.length.choose k := by
  induction l generalizing k with
  | nil => cases k <;> simp [combos]
  | cons x xs ih =>
    cases k with
    | zero => simp [combos]
    | succ k => simp [combos, ih, Nat.choose_succ_succ]

/-- Rank of an increasing tuple among the combinations of `[a, n)`. -/
def rank (n : ℕ) : ℕ → List ℕ → ℕ
  | _, [] => 0
  | a, x :: xs =>
    ((pyRange a x).map fun i => (n - 1 - i).choose xs.length).sum + rank n (x + 1) xs

theorem combos_rank (n : ℕ) (t : List ℕ) : ∀ a, t.Pairwise (· < ·) → (∀ i ∈ t, i < n) →
    (∀ i ∈ t, a ≤ i) →
    (combos t.length (pyRange a n))[rank n a t]? = some t := by
  induction t with
  | nil => intro a _ _ _; simp [rank, combos]
  | cons x xs ih =>
    intro a hs hn ha
    have hxn : x < n := hn x (by simp)
    have hax : a ≤ x := ha x (by simp)
    obtain ⟨d, hd⟩ : ∃ d, x = a + d := ⟨x - a, by omega⟩
    induction d generalizing a with
    | zero =>
      have hxa : x = a := by omega
      subst hxa
      have h1 : pyRange x n = x :: pyRange (x + 1) n := by
        unfold pyRange
        have : n - x = (n - (x + 1)) + 1 := by omega
        rw [this, List.range'_succ]
      have h2 : rank n x (x :: xs) = rank n (x + 1) xs := by simp [rank, pyRange]
      rw [h1, h2, List.length_cons, combos]
      have hx := ih (x + 1) (List.Pairwise.of_cons hs) (fun i hi => hn i (by simp [hi]))
        (fun i hi => (List.rel_of_pairwise_cons hs hi))
      have hlt : rank n (x + 1) xs < ((combos xs.length (pyRange (x + 1) n)).map (x :: ·)).length := by
        rw [List.length_map]
        by_contra hcon
        rw [List.getElem?_eq_none (by omega)] at hx
        simp at hx
      rw [List.getElem?_append_left hlt, List.getElem?_map, hx]
      rfl
    | succ d ihd =>
      have h1 : pyRange a n = a :: pyRange (a + 1) n := by
        unfold pyRange
        have : n - a = (n - (a + 1)) + 1 := by omega
        rw [this, List.range'_succ]
      have h2 : pyRange a x = a :: pyRange (a + 1) x := by
        unfold pyRange
        have : x - a = (x - (a + 1)) + 1 := by omega
        rw [this, List.range'_succ]
      have h3 := ihd (a + 1) (fun i hi => by
        rcases List.mem_cons.1 hi with rfl | h
        · omega
        · have := List.rel_of_pairwise_cons hs h; omega) (by omega) (by omega)
      rw [h1, List.length_cons, combos]
      have h4 : rank n a (x :: xs) = (n - 1 - a).choose xs.length + rank n (a + 1) (x :: xs) := by
        simp only [rank, h2, List.map_cons, List.sum_cons]
        ring
      have h5 : ((combos xs.length (pyRange (a + 1) n)).map (a :: ·)).length =
          (n - 1 - a).choose xs.length := by
        rw [List.length_map, length_combos]
        congr 1
        simp [pyRange]; omega
      rw [h4, List.getElem?_append_right (by omega), h5]
      rw [List.length_cons] at h3
      rw [show (n - 1 - a).choose xs.length + rank n (a + 1) (x :: xs) -
        (n - 1 - a).choose xs.length = rank n (a + 1) (x :: xs) by omega]
      exact h3

theorem mem_combos (l : List ℕ) (k : ℕ) (t : List ℕ) :
    t ∈ combos k l ↔ t.length = k ∧ t.Sublist l := by
  induction l generalizing k t with
  | nil =>
    cases k with
    | zero => simp [combos]
    | succ k =>
      simp only [combos, List.not_mem_nil, List.sublist_nil, false_iff, not_and]
      rintro h rfl; simp at h
  | cons x xs ih =>
    cases k with
    | zero =>
      simp only [combos, List.mem_singleton]
      constructor
      · rintro rfl; simp
      · rintro ⟨h, _⟩; simpa using h
    | succ k =>
      simp only [combos, List.mem_append, List.mem_map, ih]
      constructor
      · rintro (⟨u, ⟨hu, hs⟩, rfl⟩ | ⟨hu, hs⟩)
        · exact ⟨by simp [hu], hs.cons_cons x⟩
        · exact ⟨hu, hs.cons x⟩
      · rintro ⟨hu, hs⟩
        cases hs with
        | cons _ h => exact Or.inr ⟨hu, h⟩
        | cons_cons _ h => exact Or.inl ⟨_, ⟨by simpa using hu, h⟩, rfl⟩

theorem pairwise_pyRange (a n : ℕ) : (pyRange a n).Pairwise (· < ·) := by
  unfold pyRange; exact List.pairwise_lt_range'

theorem mem_pyRange {a n i : ℕ} : i ∈ pyRange a n ↔ a ≤ i ∧ i < n := by
  unfold pyRange; rw [List.mem_range'_1]; omega

theorem sublist_pyRange (n : ℕ) (t : List ℕ) :
    t.Sublist (pyRange 0 n) ↔ t.Pairwise (· < ·) ∧ ∀ i ∈ t, i < n := by
  constructor
  · intro h
    exact ⟨(pairwise_pyRange 0 n).sublist h, fun i hi => (mem_pyRange.1 (h.subset hi)).2⟩
  · rintro ⟨h1, h2⟩
    have hmem := List.mem_of_getElem? (combos_rank n t 0 h1 h2 (fun _ _ => Nat.zero_le _))
    exact ((mem_combos _ _ _).1 hmem).2

theorem combos_lex (l : List ℕ) (hl : l.Pairwise (· < ·)) (k : ℕ) :
    (combos k l).Pairwise (List.Lex (· < ·)) := by
  induction l generalizing k with
  | nil => cases k <;> simp [combos]
  | cons x xs ih =>
    cases k with
    | zero => simp [combos]
    | succ k =>
      simp only [combos]
      rw [List.pairwise_append]
      have hxs := List.Pairwise.of_cons hl
      refine ⟨?_, ih hxs _, ?_⟩
      · rw [List.pairwise_map]
        exact (ih hxs k).imp fun h => List.Lex.cons h
      · intro a ha b hb
        obtain ⟨u, _, rfl⟩ := List.mem_map.1 ha
        obtain ⟨hb1, hb2⟩ := (mem_combos _ _ _).1 hb
        cases b with
        | nil => simp at hb1
        | cons y ys =>
          have hy : y ∈ xs := hb2.subset (by simp)
          exact List.Lex.rel (List.rel_of_pairwise_cons hl hy)

theorem isCombinations_combos (n k : ℕ) : IsCombinations n k (combos k (pyRange 0 n)) where
  mem_iff t := by rw [mem_combos, sublist_pyRange]
  sorted := combos_lex _ (pairwise_pyRange 0 n) k

end Verif.Lemmas

namespace Verif.Lemmas
open Verif Verif.Model Verif.Spec

theorem combos_one {α : Type*} (l : List α) : combos 1 l = l.map fun x => [x] := by
  induction l with
  | nil => rfl
  | cons x xs ih => simp [combos, ih]

theorem pyRange_cons {a n : ℕ} (h : a < n) : pyRange a n = a :: pyRange (a + 1) n := by
  unfold pyRange
  have : n - a = (n - (a + 1)) + 1 := by omega
  rw [this, List.range'_succ]

theorem pyRange_nil {a n : ℕ} (h : n ≤ a) : pyRange a n = [] := by
  unfold pyRange
  have : n - a = 0 := by omega
  rw [this]; rfl

theorem combos_two_aux (n a d : ℕ) (hd : n ≤ a + d) :
    combos 2 (pyRange a n) =
      ((pyRange a (n - 1)).flatMap fun i => (pyRange (i + 1) n).map fun j => (i, j)).map
        (fun p => [p.1, p.2]) := by
  induction d generalizing a with
  | zero => rw [pyRange_nil (by omega), pyRange_nil (by omega)]; rfl
  | succ d ih =>
    by_cases h : a < n
    · rw [pyRange_cons h, combos, combos_one, ih (a + 1) (by omega)]
      by_cases h' : a < n - 1
      · rw [pyRange_cons h', List.flatMap_cons]
        simp [List.map_map, Function.comp_def]
      · rw [pyRange_nil (a := a) (by omega), pyRange_nil (a := a + 1) (n := n) (by omega),
          pyRange_nil (a := a + 1) (n := n - 1) (by omega)]
        simp
    · rw [pyRange_nil (by omega), pyRange_nil (by omega)]; rfl

theorem combos_two (n : ℕ) :
    combos 2 (pyRange 0 n) = (upperPairs n).map (fun p => [p.1, p.2]) := by
  rw [← loopPairs_eq_upperPairs, combos_two_aux n 0 n (by omega)]; rfl

theorem length_upperPairs (n : ℕ) : (upperPairs n).length = n * (n - 1) / 2 := by
  have h := congrArg List.length (combos_two n)
  rw [length_combos, List.length_map] at h
  rw [← h, ← Nat.choose_two_right]
  simp [pyRange]

theorem upperPairs_rank {n i j : ℕ} (hij : i < j) (hj : j < n) :
    (upperPairs n)[rank n 0 [i, j]]? = some (i, j) := by
  have h := combos_rank n [i, j] 0 (by simpa using hij)
    (by simp; omega) (by simp)
  simp only [List.length_cons, List.length_nil] at h
  rw [combos_two, List.getElem?_map] at h
  rcases hh : (upperPairs n)[rank n 0 [i, j]]? with _ | ⟨a, b⟩
  · rw [hh] at h; simp at h
  · rw [hh] at h; simp at h; rw [h.1, h.2]

theorem rank_pair {n i j : ℕ} (hij : i < j) (hj : j < n) :
    (rank n 0 [i, j] : ℤ) = ((pyRangeZ 1 ((i : ℤ) + 2)).map fun l => (n : ℤ) - l).sum - n + j := by
  have h1 : rank n 0 [i, j] = ((List.range i).map fun t => n - 1 - t).sum + (j - (i + 1)) := by
    simp [rank, pyRange, List.range_eq_range']
  have h2 : ∀ m : ℕ, m ≤ i → ((((List.range m).map fun t => n - 1 - t).sum : ℕ) : ℤ) =
      ((pyRangeZ 1 ((m : ℤ) + 2)).map fun l => (n : ℤ) - l).sum - n + m + 1 := by
    intro m hm
    induction m with
    | zero => simp [pyRangeZ, List.range_succ]
    | succ m ih =>
      have e1 : pyRangeZ 1 (((m + 1 : ℕ) : ℤ) + 2) = pyRangeZ 1 ((m : ℤ) + 2) ++ [(m : ℤ) + 2] := by
        unfold pyRangeZ
        have a1 : ((((m + 1 : ℕ) : ℤ) + 2) - 1).toNat = m + 1 + 1 := by omega
        have a2 : (((m : ℤ) + 2) - 1).toNat = m + 1 := by omega
        rw [a1, a2, List.range_succ (n := m + 1), List.map_append]
        simp only [List.map_cons, List.map_nil]
        congr 2
        push_cast; ring
      rw [e1, List.range_succ]
      simp only [List.map_append, List.sum_append, List.map_cons, List.map_nil, List.sum_cons,
        List.sum_nil]
      push_cast
      rw [ih (by omega)]
      have : ((n - 1 - m : ℕ) : ℤ) = n - 1 - m := by omega
      rw [this]; ring
  rw [h1]
  push_cast
  rw [h2 i le_rfl]
  have : ((j - (i + 1) : ℕ) : ℤ) = (j : ℤ) - (i + 1) := by omega
  rw [this]; ring

theorem indToSubScan_eq (ix : ℕ) (l : List (ℕ × ℕ)) (k : ℕ) (hk : k ≤ ix) :
    indToSubScan ix l k = l[ix - k]? := by
  induction l generalizing k with
  | nil => simp [indToSubScan]
  | cons p rest ih =>
    unfold indToSubScan
    by_cases h : k = ix
    · simp [h]
    · rw [if_neg h, ih (k + 1) (by omega)]
      have : ix - k = (ix - (k + 1)) + 1 := by omega
      rw [this]; rfl

theorem indToSub_eq (n ix : ℕ) : indToSub n ix = (upperPairs n)[ix]? := by
  unfold indToSub
  rw [indToSubScan_eq ix _ 0 (by omega), loopPairs_eq_upperPairs]; rfl

theorem subToInd_lt {n i j : ℕ} (hij : i < j) (hj : j < n) :
    subToInd n i j = .ok (rank n 0 [i, j] : ℤ) := by
  unfold subToInd
  rw [if_pos (by exact_mod_cast hij)]
  have h := rank_pair hij hj
  set k := ((pyRangeZ 1 ((i : ℤ) + 2)).map fun l => (n : ℤ) - l).sum with hk
  have hk0 : k ≥ 0 := by
    have : (0 : ℤ) ≤ rank n 0 [i, j] := Int.natCast_nonneg _
    omega
  change (if k ≥ 0 then (Except.ok (k - (n : ℤ) + (j : ℤ)) : Py ℤ) else _) = _
  rw [if_pos hk0, h]

theorem subToInd_comm (n i j : ℤ) : subToInd n i j = subToInd n j i := by
  unfold subToInd
  rcases lt_trichotomy i j with h | h | h
  · rw [if_pos h, if_neg (not_lt.2 h.le), if_pos h]
  · subst h; simp
  · rw [if_neg (not_lt.2 h.le), if_pos h, if_pos h]

theorem unravel_fold_rank (n : ℕ) (t : List ℕ) (hlen : 2 ≤ t.length) :
    ∀ a acc, (∀ i ∈ t, a ≤ i) → t.Pairwise (· < ·) →
    ((pyRange 1 (t.length - 1)).foldl (fun ix d =>
        if rd t d - rd t (d - 1) > 1 then
          ix + ((pyRange (rd t (d - 1) + 1) (rd t d)).map
            fun i => (n - i - 1).choose (t.length - d - 1)).sum
        else ix)
      (acc + ((pyRange a (rd t 0)).map fun i => (n - 1 - i).choose (t.length - 1)).sum)) +
      (rd t (t.length - 1) - rd t (t.length - 2) - 1) = acc + rank n a t := by
  induction t with
  | nil => simp at hlen
  | cons x xs ih =>
    intro a acc ha hs
    rcases xs with _ | ⟨y, ys⟩
    · simp at hlen
    rcases ys with _ | ⟨z, zs⟩
    · simp [rank, pyRange]
      omega
    · have hxy : x < y := List.rel_of_pairwise_cons hs (by simp)
      have hs' := List.Pairwise.of_cons hs
      have key := ih (by simp) (x + 1)
        (acc + ((pyRange a x).map fun i => (n - 1 - i).choose (y :: z :: zs).length).sum)
        (fun i hi => List.rel_of_pairwise_cons hs hi) hs'
      have hr : rank n a (x :: y :: z :: zs) =
          ((pyRange a x).map fun i => (n - 1 - i).choose (y :: z :: zs).length).sum +
            rank n (x + 1) (y :: z :: zs) := rfl
      rw [hr, ← add_assoc, ← key]
      have hrange : pyRange 1 ((x :: y :: z :: zs).length - 1) =
          1 :: (pyRange 1 ((y :: z :: zs).length - 1)).map (· + 1) := by
        rw [pyRange_cons (by simp)]
        congr 1
        unfold pyRange
        rw [show (fun x : ℕ => x + 1) = (fun x => 1 + x) from funext fun _ => Nat.add_comm _ _,
          List.map_add_range']
        simp
      rw [hrange, List.foldl_cons, List.foldl_map]
      have hlast : rd (x :: y :: z :: zs) ((x :: y :: z :: zs).length - 1) -
            rd (x :: y :: z :: zs) ((x :: y :: z :: zs).length - 2) - 1 =
          rd (y :: z :: zs) ((y :: z :: zs).length - 1) -
            rd (y :: z :: zs) ((y :: z :: zs).length - 2) - 1 := by
        have e1 : (x :: y :: z :: zs).length - 1 = ((y :: z :: zs).length - 1) + 1 := by simp
        have e2 : (x :: y :: z :: zs).length - 2 = ((y :: z :: zs).length - 2) + 1 := by simp
        rw [e1, e2]
        simp only [rd, List.getD_cons_succ]
      rw [hlast]
      congr 1
      have hinit : (if rd (x :: y :: z :: zs) 1 - rd (x :: y :: z :: zs) (1 - 1) > 1 then
            acc + ((pyRange a (rd (x :: y :: z :: zs) 0)).map fun i =>
              (n - 1 - i).choose ((x :: y :: z :: zs).length - 1)).sum +
            ((pyRange (rd (x :: y :: z :: zs) (1 - 1) + 1) (rd (x :: y :: z :: zs) 1)).map
              fun i => (n - i - 1).choose ((x :: y :: z :: zs).length - 1 - 1)).sum
          else acc + ((pyRange a (rd (x :: y :: z :: zs) 0)).map fun i =>
              (n - 1 - i).choose ((x :: y :: z :: zs).length - 1)).sum) =
          acc + ((pyRange a x).map fun i => (n - 1 - i).choose (y :: z :: zs).length).sum +
          ((pyRange (x + 1) (rd (y :: z :: zs) 0)).map fun i =>
            (n - 1 - i).choose ((y :: z :: zs).length - 1)).sum := by
        have hsub : ∀ i, n - i - 1 = n - 1 - i := fun i => by omega
        simp only [hsub]
        split_ifs with hc
        · simp [rd]
        · have : pyRange (x + 1) (rd (y :: z :: zs) 0) = [] := by
            apply pyRange_nil
            simp [rd] at hc ⊢; omega
          rw [this]
          simp [rd]
      rw [hinit]
      apply List.foldl_ext
      intro b d hd
      have hd1 : 1 ≤ d := (mem_pyRange.1 hd).1
      obtain ⟨e, rfl⟩ : ∃ e, d = e + 1 := ⟨d - 1, by omega⟩
      simp [rd]

end Verif.Lemmas
