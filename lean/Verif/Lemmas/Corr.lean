import Verif.Model.Corr
import Verif.Spec.Moments
import Verif.Lemmas.Index
import Verif.Lemmas.Sums
import Mathlib.Tactic.Ring
import Mathlib.Tactic.FieldSimp
import Mathlib.Algebra.CharZero.Defs
import Mathlib.Algebra.Order.Field.Basic
import Mathlib.Data.List.NodupEquivFin
import Mathlib.Tactic.NormNum

namespace Verif.Lemmas
open Verif Verif.Model Verif.Spec

variable {K : Type*}

/-- There is only one such list. -/
theorem _root_.Verif.Spec.IsCombinations.unique {n k : ℕ} {L L' : List (List ℕ)}
    (h : IsCombinations n k L) (h' : IsCombinations n k L') : L = L' :=
  List.Subset.antisymm_of_pairwise h.sorted h'.sorted
    (fun t ht => (h'.mem_iff t).2 ((h.mem_iff t).1 ht))
    (fun t ht => (h.mem_iff t).2 ((h'.mem_iff t).1 ht))

theorem enumWrite_ok {α β : Type*} (f : ℕ → α → Py β) (g : ℕ → α → β) (L : List α) (k : ℕ)
    (arr : List β) (hf : ∀ i (h : i < L.length), f (k + i) L[i] = .ok (g (k + i) L[i]))
    (hlen : k + L.length ≤ arr.length) :
    enumWrite f L k arr =
      .ok (arr.take k ++ (L.zipIdx k).map (fun q => g q.2 q.1) ++ arr.drop (k + L.length)) := by
  induction L generalizing k arr with
  | nil => simp [enumWrite]
  | cons x xs ih =>
    have h0 := hf 0 (by simp)
    simp only [Nat.add_zero, List.getElem_cons_zero] at h0
    have hk : k < arr.length := by simp at hlen; omega
    unfold enumWrite
    simp only [h0, bind, Except.bind, if_pos hk]
    rw [ih (k + 1) (arr.set k (g k x))]
    · congr 1
      have e1 : (arr.set k (g k x)).take (k + 1) = arr.take k ++ [g k x] := by
        rw [List.take_add_one]
        simp [hk, List.take_set, List.set_eq_of_length_le]
      rw [e1, List.drop_set_of_lt (by omega)]
      have e2 : k + 1 + xs.length = k + (x :: xs).length := by simp; omega
      rw [e2]
      simp [List.zipIdx_cons]
    · intro i h
      have := hf (i + 1) (by simpa using h)
      simpa [Nat.add_assoc, Nat.add_comm, Nat.add_left_comm] using this
    · simp at hlen ⊢; omega

theorem enumWrite_full {α β : Type*} (f : ℕ → α → Py β) (g : ℕ → α → β) (L : List α)
    (arr : List β) (hf : ∀ i (h : i < L.length), f i L[i] = .ok (g i L[i]))
    (hlen : arr.length = L.length) :
    enumWrite f L 0 arr = .ok (L.zipIdx.map fun q => g q.2 q.1) := by
  rw [enumWrite_ok f g L 0 arr (by simpa using hf) (by omega)]
  simp [hlen]

theorem take_succ_set {β : Type*} (arr : List β) (k : ℕ) (v : β) (hk : k < arr.length) :
    (arr.set k v).take (k + 1) = arr.take k ++ [v] := by
  rw [List.take_add_one]
  simp [hk, List.take_set, List.set_eq_of_length_le]

/-- The result does not depend on the cells that get overwritten. -/
theorem enumWrite_congr' {α β : Type*} (f : ℕ → α → Py β) (L : List α) (k : ℕ) (arr arr' : List β)
    (h1 : arr.length = arr'.length) (h2 : arr.take k = arr'.take k)
    (h3 : arr.length ≤ k + L.length) : enumWrite f L k arr = enumWrite f L k arr' := by
  induction L generalizing k arr arr' with
  | nil =>
    simp only [enumWrite]
    have : arr.length ≤ k := by simpa using h3
    rw [List.take_of_length_le this, List.take_of_length_le (by omega)] at h2
    rw [h2]
  | cons x xs ih =>
    unfold enumWrite
    cases f k x with
    | error e => rfl
    | ok v =>
      simp only [bind, Except.bind, ← h1]
      split_ifs with hk
      · apply ih
        · simp [h1]
        · rw [take_succ_set _ _ _ hk, take_succ_set _ _ _ (by omega), h2]
        · simp at h3 ⊢; omega
      · rfl

theorem enumWrite_congr {α β : Type*} (f : ℕ → α → Py β) (L : List α) (arr arr' : List β)
    (h1 : arr.length = arr'.length) (h3 : arr.length = L.length) :
    enumWrite f L 0 arr = enumWrite f L 0 arr' :=
  enumWrite_congr' f L 0 arr arr' h1 (by simp) (by omega)

theorem map_zipIdx_fst {α β : Type*} (L : List α) (g : α → β) (k : ℕ) :
    ((L.zipIdx k).map fun q => g q.1) = L.map g := by
  induction L generalizing k with
  | nil => rfl
  | cons x xs ih => simp [List.zipIdx_cons, ih]

theorem zipIdx_map_getD {α β γ : Type*} (L : List α) (v : List β) (d : β) (g : β → α → γ)
    (h : v.length = L.length) :
    (L.zipIdx.map fun q => g (v.getD q.2 d) q.1) = List.zipWith g v L := by
  apply List.ext_getElem
  · simp [h]
  · intro i h1 h2
    simp at h1 h2
    simp [h2]

theorem zipWith_replicate_right {α β γ : Type*} (f : α → β → γ) (L : List α) (c : β) (n : ℕ)
    (h : n = L.length) : List.zipWith f L (List.replicate n c) = L.map fun a => f a c := by
  subst h
  induction L with
  | nil => rfl
  | cons a L ih => simp [List.replicate_succ, ih]

theorem countNZ_eq (X : Data) (j : ℕ) :
    countNZ X j = (X.filter fun row => row.getD j 0 ≠ 0).length := rfl

theorem countNZ2_eq (X : Data) (i j : ℕ) :
    countNZ2 X i j = (X.filter fun row => row.getD i 0 ≠ 0 ∧ row.getD j 0 ≠ 0).length := by
  unfold countNZ2
  induction X with
  | nil => rfl
  | cons r X ih =>
    rw [List.map_cons, List.sum_cons, ih]
    by_cases h1 : r.getD i 0 = 0 <;> by_cases h2 : r.getD j 0 = 0 <;>
      simp [h1, h2, Nat.add_comm, -List.getD_eq_getElem?_getD]

theorem sum_filter_ne {α : Type*} [Ring K] (X : List α) (f : α → K) (P : α → Prop)
    [DecidablePred P] (h : ∀ r ∈ X, ¬ P r → f r = 0) :
    ((X.filter fun r => P r).map f).sum = (X.map f).sum := by
  induction X with
  | nil => rfl
  | cons r X ih =>
    have ih' := ih fun r hr => h r (by simp [hr])
    by_cases hp : P r
    · simp [hp, ih']
    · simp [hp, ih', h r (by simp) hp]

theorem abs_sum_le [Field K] [LinearOrder K] [IsStrictOrderedRing K] {α : Type*} (X : List α)
    (f : α → K) (h : ∀ r ∈ X, |f r| ≤ 1) : |(X.map f).sum| ≤ (X.length : K) := by
  induction X with
  | nil => simp
  | cons r X ih =>
    simp only [List.map_cons, List.sum_cons, List.length_cons, Nat.cast_add, Nat.cast_one]
    calc |f r + (X.map f).sum| ≤ |f r| + |(X.map f).sum| := abs_add_le _ _
      _ ≤ 1 + X.length := add_le_add (h r (by simp)) (ih fun r hr => h r (by simp [hr]))
      _ = _ := add_comm _ _

theorem abs_spin_le [Field K] [LinearOrder K] [IsStrictOrderedRing K] (X : Data)
    (hX : ∀ row ∈ X, ∀ x ∈ row, x = -1 ∨ x = 0 ∨ x = 1) (row : List ℤ) (hr : row ∈ X) (j : ℕ) :
    |((row.getD j 0 : ℤ) : K)| ≤ 1 := by
  rcases Nat.lt_or_ge j row.length with h | h
  · rw [List.getD_eq_getElem _ _ h]
    rcases hX row hr _ (List.getElem_mem h) with h | h | h <;> rw [h] <;> simp
  · rw [List.getD_eq_default _ _ h]; simp

theorem convertCorrLoop_eq [Field K] (f : K → K → K → K) (n : ℕ) (si sisj : List K)
    (h1 : si.length = n) (h2 : sisj.length = n * (n - 1) / 2) :
    convertCorrLoop f si sisj = .ok (List.zipWith (fun v p => f v (si.getD p.1 0) (si.getD p.2 0))
      sisj (upperPairs n)) := by
  unfold convertCorrLoop
  rw [h1, loopPairs_eq_upperPairs,
    enumWrite_full _ (fun k p => f (sisj.getD k 0) (si.getD p.1 0) (si.getD p.2 0))]
  · rw [zipIdx_map_getD (upperPairs n) sisj 0 (fun v p => f v (si.getD p.1 0) (si.getD p.2 0))
      (by rw [h2, length_upperPairs])]
  · intro i h
    have : i < sisj.length := by rw [h2, ← length_upperPairs]; exact h
    simp [this]
  · rw [List.length_replicate, h2, length_upperPairs]

theorem foldr_max_inv {α : Type*} [DecidableEq α] (u v : List α) (hu : u.Nodup)
    (hmem : ∀ x, x ∈ u ↔ x ∈ v) :
    (v.map fun x => u.idxOf x).foldr (fun x m => max (x + 1) m) 0 = u.length := by
  have hle : ∀ l : List α, (∀ x ∈ l, x ∈ u) →
      (l.map fun x => u.idxOf x).foldr (fun x m => max (x + 1) m) 0 ≤ u.length := by
    intro l hl
    induction l with
    | nil => simp
    | cons a l ih =>
      simp only [List.map_cons, List.foldr_cons]
      have := List.idxOf_lt_length_of_mem (hl a (by simp))
      have := ih fun x hx => hl x (by simp [hx])
      omega
  have hge : ∀ (l : List ℕ) (a : ℕ), a ∈ l → a + 1 ≤ l.foldr (fun x m => max (x + 1) m) 0 := by
    intro l
    induction l with
    | nil => simp
    | cons b l ih =>
      intro a ha
      simp only [List.foldr_cons]
      rcases List.mem_cons.1 ha with rfl | h
      · omega
      · have := ih a h; omega
  apply le_antisymm (hle v fun x hx => (hmem x).2 hx)
  rcases Nat.eq_zero_or_pos u.length with h | h
  · omega
  · have hlast : u.length - 1 < u.length := by omega
    have hm : u[u.length - 1] ∈ v := (hmem _).1 (List.getElem_mem hlast)
    have hi : u.idxOf u[u.length - 1] = u.length - 1 := hu.idxOf_getElem _ hlast
    have := hge (v.map fun x => u.idxOf x) (u.length - 1) (by
      rw [← hi]
      exact List.mem_map_of_mem hm)
    omega

theorem count_inv {α : Type*} [DecidableEq α] (u v : List α) (hu : u.Nodup)
    (hmem : ∀ x ∈ v, x ∈ u) (k : ℕ) (hk : k < u.length) :
    (v.map fun x => u.idxOf x).count k = v.count u[k] := by
  induction v with
  | nil => rfl
  | cons a v ih =>
    simp only [List.map_cons, List.count_cons]
    rw [ih fun x hx => hmem x (by simp [hx])]
    congr 1
    have ha : a ∈ u := hmem a (by simp)
    have hlt := List.idxOf_lt_length_of_mem ha
    by_cases h : a = u[k]
    · have : u.idxOf a = k := by rw [h]; exact hu.idxOf_getElem _ hk
      simp [h] at *
      simp [hu.idxOf_getElem k hk]
    · have : u.idxOf a ≠ k := by
        intro he
        apply h
        have := List.getElem_idxOf hlt
        simp only [he] at this
        exact this.symm
      simp [h, this]

theorem sum_count {α : Type*} [DecidableEq α] (u v : List α) (hu : u.Nodup)
    (hmem : ∀ x ∈ v, x ∈ u) : (u.map fun x => v.count x).sum = v.length := by
  induction v with
  | nil => simp
  | cons a v ih =>
    have ih' := ih fun x hx => hmem x (by simp [hx])
    have : (u.map fun x => (a :: v).count x) = u.map fun x => v.count x + if a = x then 1 else 0 := by
      apply List.map_congr_left
      intro x _
      rw [List.count_cons]
      simp
    rw [this, list_sum_add, ih', List.length_cons]
    congr 1
    have h1 : (u.map fun x => if a = x then 1 else 0).sum = u.count a := by
      clear ih ih' this hmem hu
      induction u with
      | nil => rfl
      | cons b u ih =>
        rw [List.map_cons, List.sum_cons, ih, List.count_cons]
        by_cases h : a = b
        · subst h; simp [Nat.add_comm]
        · have : ¬ b = a := fun h' => h h'.symm
          simp [h, this]
    rw [h1]
    exact List.count_eq_one_of_mem hu (hmem a (by simp))

theorem sum_indicator_given [Field K] {α : Type*} [DecidableEq α] (states : List α)
    (hnd : states.Nodup) (v : List α) (w : List K) (hw : w.length = v.length)
    (hall : ∀ x ∈ v, x ∈ states) :
    (states.map fun s => (List.zipWith (fun r w => (if s = r then 1 else 0) * w) v w).sum).sum =
      w.sum := by
  induction v generalizing w with
  | nil =>
    have : w = [] := List.length_eq_zero_iff.1 (by simpa using hw)
    subst this
    simp
  | cons a v ih =>
    rcases w with _ | ⟨c, w⟩
    · simp at hw
    · simp only [List.zipWith_cons_cons, List.sum_cons]
      rw [list_sum_add, ih w (by simpa using hw) fun x hx => hall x (by simp [hx]),
        list_sum_mul_right]
      congr 1
      have h1 : (states.map fun s => if s = a then (1 : K) else 0).sum = (states.count a : K) := by
        clear hall ih hnd
        induction states with
        | nil => simp
        | cons b u ih =>
          rw [List.map_cons, List.sum_cons, ih, List.count_cons]
          by_cases h : b = a <;> simp [h, add_comm]
      rw [h1, List.count_eq_one_of_mem hnd (hall a (by simp))]
      simp

end Verif.Lemmas
