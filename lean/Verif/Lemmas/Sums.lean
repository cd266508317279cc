/-
General lemmas about sums over lists, folds with counters, and array writes.
-/
import Verif.Basic
import Verif.Spec.Energy
import Mathlib.Algebra.BigOperators.Group.List.Basic
import Mathlib.Algebra.BigOperators.Intervals
import Mathlib.Algebra.BigOperators.Ring.List
import Mathlib.Tactic.Ring
import Mathlib.Tactic.Abel

namespace Verif.Lemmas
open Verif Finset

variable {K : Type*}

theorem sum_map_range [AddCommMonoid K] (n : ℕ) (f : ℕ → K) :
    ((List.range n).map f).sum = ∑ i ∈ range n, f i := by
  induction n with
  | zero => simp
  | succ n ih => rw [List.range_succ, List.map_append, List.sum_append, ih, Finset.sum_range_succ]; simp

theorem sum_flatMap [AddCommMonoid K] {α : Type*} (l : List α) (g : α → List K) :
    (l.flatMap g).sum = (l.map fun a => (g a).sum).sum := by
  induction l with
  | nil => rfl
  | cons a l ih => simp [ih]

theorem list_sum_add [AddCommMonoid K] {α : Type*} (l : List α) (f g : α → K) :
    (l.map fun a => f a + g a).sum = (l.map f).sum + (l.map g).sum := by
  induction l with
  | nil => simp
  | cons a l ih => simp only [List.map_cons, List.sum_cons, ih]; abel

theorem list_sum_neg [AddCommGroup K] {α : Type*} (l : List α) (f : α → K) :
    (l.map fun a => - f a).sum = - (l.map f).sum := by
  induction l with
  | nil => simp
  | cons a l ih => simp only [List.map_cons, List.sum_cons, ih]; abel

theorem list_sum_sub [AddCommGroup K] {α : Type*} (l : List α) (f g : α → K) :
    (l.map fun a => f a - g a).sum = (l.map f).sum - (l.map g).sum := by
  induction l with
  | nil => simp
  | cons a l ih => simp only [List.map_cons, List.sum_cons, ih]; abel

theorem list_sum_mul_left [NonUnitalNonAssocSemiring K] {α : Type*} (l : List α) (c : K) (f : α → K) :
    (l.map fun a => c * f a).sum = c * (l.map f).sum := by
  induction l with
  | nil => simp
  | cons a l ih => simp only [List.map_cons, List.sum_cons, ih, mul_add]

theorem list_sum_mul_right [NonUnitalNonAssocSemiring K] {α : Type*} (l : List α) (c : K) (f : α → K) :
    (l.map fun a => f a * c).sum = (l.map f).sum * c := by
  induction l with
  | nil => simp
  | cons a l ih => simp only [List.map_cons, List.sum_cons, ih, add_mul]

theorem list_sum_div [DivisionRing K] {α : Type*} (l : List α) (c : K) (f : α → K) :
    (l.map fun a => f a / c).sum = (l.map f).sum / c := by
  simp only [div_eq_mul_inv, list_sum_mul_right]

theorem list_sum_comm [AddCommMonoid K] {α β : Type*} (l : List α) (m : List β) (f : α → β → K) :
    (l.map fun a => (m.map fun b => f a b).sum).sum =
      (m.map fun b => (l.map fun a => f a b).sum).sum := by
  induction l with
  | nil => simp
  | cons a l ih => simp only [List.map_cons, List.sum_cons, ih, list_sum_add]

theorem list_sum_congr [AddCommMonoid K] {α : Type*} {l : List α} {f g : α → K}
    (h : ∀ a ∈ l, f a = g a) : (l.map f).sum = (l.map g).sum := by
  rw [List.map_congr_left h]

theorem list_sum_finset_comm [AddCommMonoid K] {α : Type*} (l : List α) (n : ℕ) (f : α → ℕ → K) :
    (l.map fun a => ∑ i ∈ range n, f a i).sum = ∑ i ∈ range n, (l.map fun a => f a i).sum := by
  induction l with
  | nil => simp
  | cons a l ih => simp only [List.map_cons, List.sum_cons, ih, Finset.sum_add_distrib]

/-- A loop that adds a term depending on a counter that is incremented each time. -/
theorem foldl_counter [AddCommMonoid K] {α : Type*} (f : ℕ → α → K) (l : List α) (a : K) (k : ℕ) :
    l.foldl (fun (st : K × ℕ) p => (st.1 + f st.2 p, st.2 + 1)) (a, k) =
      (a + ((l.zipIdx k).map fun q => f q.2 q.1).sum, k + l.length) := by
  induction l generalizing a k with
  | nil => simp
  | cons p l ih =>
    simp only [List.foldl_cons, ih, List.zipIdx_cons, List.map_cons, List.sum_cons,
      List.length_cons, Prod.mk.injEq]
    constructor
    · rw [add_assoc]
    · omega

theorem sum_zipIdx_getD [Semiring K] {α : Type*} (l : List α) (J : List K)
    (g : α → K) (b : ℕ) :
    ((l.zipIdx b).map fun q => J.getD q.2 0 * g q.1).sum =
      (List.zipWith (· * ·) (J.drop b) (l.map g)).sum := by
  induction l generalizing b with
  | nil => simp
  | cons p l ih =>
    rw [List.zipIdx_cons, List.map_cons, List.sum_cons, ih, List.map_cons]
    by_cases h : b < J.length
    · rw [List.drop_eq_getElem_cons h, List.zipWith_cons_cons, List.sum_cons,
        List.getD_eq_getElem _ _ h]
    · rw [List.drop_of_length_le (by omega), List.drop_of_length_le (by omega)]
      simp [List.getElem?_eq_none (show J.length ≤ b by omega)]

theorem dot_append [CommRing K] (a b c d : List K) (h : a.length = c.length) :
    Spec.dot (a ++ b) (c ++ d) = Spec.dot a c + Spec.dot b d := by
  unfold Spec.dot
  rw [List.zipWith_append h, List.sum_append]

theorem dot_eq_sum [CommRing K] (a b : List K) (h : a.length = b.length) :
    Spec.dot a b = ∑ i ∈ range a.length, a.getD i 0 * b.getD i 0 := by
  unfold Spec.dot
  rw [← sum_map_range]
  congr 1
  apply List.ext_getElem
  · simp [h]
  · intro i h1 h2
    have h3 : i < a.length := by simp at h2; exact h2
    have h4 : i < b.length := by omega
    simp [h3, h4]

theorem dot_comm [CommRing K] (a b : List K) : Spec.dot a b = Spec.dot b a := by
  unfold Spec.dot
  rw [List.zipWith_comm]
  simp only [mul_comm]

theorem dot_map_right [CommRing K] {α : Type*} (a : List K) (l : List α) (f : α → K) :
    Spec.dot a (l.map f) = ((a.zip l).map fun q => q.1 * f q.2).sum := by
  unfold Spec.dot
  rw [List.zipWith_map_right, List.zip, List.map_zipWith]

end Verif.Lemmas
