/-
Flattening of the upper triangle diagonal by diagonal.
-/
import Verif.Model.MeanField
import Verif.Spec.Quad
import Verif.Lemmas.Sums
import Verif.Lemmas.Matrix
import Mathlib.Algebra.BigOperators.Group.List.Lemmas
import Mathlib.Algebra.Order.Ring.Int
import Mathlib.Algebra.Ring.Int.Parity
import Mathlib.Tactic.Ring
import Mathlib.Tactic.LinearCombination

namespace Verif.Lemmas
open Verif Verif.Spec Verif.Model

variable {K : Type*}

/-- Number of entries on the diagonals before diagonal `k`. -/
def diagOff (n : ℕ) : ℕ → ℕ
  | 0 => 0
  | k + 1 => diagOff n k + (n - k)

theorem diagFlatIndex_eq (n i k : ℕ) (hk : k ≤ n) :
    diagFlatIndex i ((i + k : ℕ) : ℤ) n = ((diagOff n k + i : ℕ) : ℤ) := by
  have key : ∀ k ≤ n, 2 * (diagOff n k : ℤ) = 2 * (k * n) - k * (k - 1) := by
    intro k
    induction k with
    | zero => intro _; simp [diagOff]
    | succ k ih =>
      intro hk
      have := ih (by omega)
      have e : ((n - k : ℕ) : ℤ) = n - k := by omega
      simp only [diagOff]
      push_cast [e]
      linear_combination this
  have e1 := key k hk
  have ev : (k : ℤ) * (k - 1) = 2 * ((k : ℤ) * (k - 1) / 2) := by
    have := Int.mul_ediv_cancel' (Int.even_mul_pred_self (k : ℤ)).two_dvd
    exact this.symm
  have e2 : ((i + k : ℕ) : ℤ) - i = k := by push_cast; ring
  unfold diagFlatIndex
  simp only [e2]
  push_cast
  generalize (k : ℤ) * (k - 1) / 2 = t at *
  rw [ev] at e1
  linarith

theorem diagOff_mono {n a b : ℕ} (h : a ≤ b) : diagOff n a ≤ diagOff n b := by
  induction b with
  | zero => simp_all
  | succ b ih =>
    rcases Nat.lt_or_ge b a with h' | h'
    · have : a = b + 1 := by omega
      subst this; exact le_rfl
    · exact (ih h').trans (Nat.le_add_right _ _)

theorem two_mul_diagOff (n : ℕ) : 2 * diagOff n n = n * (n + 1) := by
  have key : ∀ k ≤ n, 2 * (diagOff n k : ℤ) = 2 * (k * n) - k * (k - 1) := by
    intro k
    induction k with
    | zero => intro _; simp [diagOff]
    | succ k ih =>
      intro hk
      have := ih (by omega)
      have e : ((n - k : ℕ) : ℤ) = n - k := by omega
      simp only [diagOff]
      push_cast [e]
      linear_combination this
  have := key n le_rfl
  zify
  linear_combination this

theorem diagOff_self (n : ℕ) : diagOff n n = n * (n + 1) / 2 := by
  have := two_mul_diagOff n
  omega

/-- The entries above and on the diagonal, diagonal by diagonal. -/
def diagList (n : ℕ) (f : ℕ → ℕ → K) : List K :=
  ((List.range n).map fun k => (List.range (n - k)).map fun a => f a (a + k)).flatten

theorem sum_take_lengths (n k : ℕ) (hk : k ≤ n) (f : ℕ → ℕ → K) :
    ((((List.range n).map fun k => (List.range (n - k)).map fun a => f a (a + k)).map
      List.length).take k).sum = diagOff n k := by
  induction k with
  | zero => simp [diagOff]
  | succ k ih =>
    rw [List.take_add_one, List.sum_append, ih (by omega)]
    simp [diagOff, show k < n by omega]

theorem length_diagList (n : ℕ) (f : ℕ → ℕ → K) : (diagList n f).length = diagOff n n := by
  have := sum_take_lengths n n le_rfl f
  rw [List.take_of_length_le (by simp)] at this
  rw [diagList, List.length_flatten, this]

theorem diagList_slice (n k : ℕ) (hk : k < n) (f : ℕ → ℕ → K) :
    ((diagList n f).take (diagOff n (k + 1))).drop (diagOff n k) =
      (List.range (n - k)).map fun a => f a (a + k) := by
  have h := List.drop_take_succ_flatten_eq_getElem
    ((List.range n).map fun k => (List.range (n - k)).map fun a => f a (a + k)) k (by simpa using hk)
  rw [sum_take_lengths n k hk.le, sum_take_lengths n (k + 1) hk] at h
  rw [diagList, h]
  simp

theorem diagList_get (n i k : ℕ) (h : i + k < n) (f : ℕ → ℕ → K) :
    (diagList n f)[diagOff n k + i]? = some (f i (i + k)) := by
  have hs := diagList_slice n k (by omega) f
  have : (((diagList n f).take (diagOff n (k + 1))).drop (diagOff n k))[i]? = some (f i (i + k)) := by
    rw [hs]
    simp [show i < n - k by omega]
  rw [List.getElem?_drop, List.getElem?_take] at this
  rw [if_pos (by simp only [diagOff]; omega)] at this
  exact this

theorem diagonalK_eq [Zero K] {M : Mat K} {n : ℕ} (hM : M.HasShape n n) (k : ℕ) :
    diagonalK M k = (List.range (n - k)).map fun a => M.at' a (a + k) := by
  rcases Nat.eq_zero_or_pos n with rfl | hn
  · have : M = [] := List.length_eq_zero_iff.1 hM.1
    subst this; simp [diagonalK]
  · rw [diagonalK, hM.1, Mat.ncols_eq hM hn, min_eq_right (by omega)]

theorem aboveDiagFlat_eq [Ring K] {M : Mat K} {n : ℕ} (hM : M.HasShape n n) (hn : 1 ≤ n) :
    aboveDiagFlat M true none = .ok (diagList n fun i j => M.at' i j) := by
  have hp : (pyRange 0 n) = List.range n := by simp [pyRange, List.range_eq_range']
  simp only [aboveDiagFlat, hM.1, if_true, hp]
  rw [if_neg (by simp; omega)]
  simp only [diagList, diagonalK_eq hM]

theorem flatSlice_eq (flat : List K) (n j : ℕ) (hj : j < n) :
    flatSlice flat n j = (flat.take (diagOff n (j + 1))).drop (diagOff n j) := by
  have e1 := diagFlatIndex_eq n 0 j hj.le
  have e2 := diagFlatIndex_eq n 0 (j + 1) hj
  simp only [Nat.zero_add, Nat.cast_zero, Nat.add_zero] at e1 e2
  simp only [flatSlice]
  rw [e1]
  push_cast at e2
  rw [e2]
  simp

theorem length_flatSlice (flat : List K) (n j : ℕ) (hj : j < n) (hl : flat.length = diagOff n n) :
    (flatSlice flat n j).length = n - j := by
  have h := diagOff_mono (n := n) (a := j + 1) (b := n) hj
  rw [flatSlice_eq _ _ _ hj, List.length_drop, List.length_take, hl, min_eq_left h]
  simp [diagOff]

theorem flatSlice_getD [Zero K] (flat : List K) (n i j : ℕ) (hj : i + j < n) :
    (flatSlice flat n j).getD i 0 = flat.getD (diagOff n j + i) 0 := by
  rw [flatSlice_eq _ _ _ (by omega), List.getD_eq_getElem?_getD, List.getElem?_drop,
    List.getElem?_take, if_pos (by simp only [diagOff]; omega), ← List.getD_eq_getElem?_getD]

theorem unflatten_eq [Field K] (flat : List K) (n : ℕ) (hn : 1 ≤ n)
    (hl : flat.length = diagOff n n) :
    unflatten flat n false = .ok (Mat.build n n fun a b =>
      if a ≤ b then flat.getD (diagOff n (b - a) + a) 0 else 0) := by
  obtain ⟨m, rfl⟩ : ∃ m, n = m + 1 := ⟨n - 1, by omega⟩
  have hsz : ∀ j < m + 1, (diagMat (flatSlice flat (m + 1) j) j).length = m + 1 := by
    intro j hj
    have := length_flatSlice flat (m + 1) j hj hl
    simp [diagMat, Mat.build, this]; omega
  have hent : ∀ a < m + 1, ∀ b < m + 1,
      (((List.range (m + 1)).map fun j => diagMat (flatSlice flat (m + 1) j) j).map
        fun M => M.at' a b).sum = if a ≤ b then flat.getD (diagOff (m + 1) (b - a) + a) 0 else 0 := by
    intro a ha b hb
    rw [List.map_map]
    have : ∀ j ∈ List.range (m + 1), ((fun M : Mat K => M.at' a b) ∘ fun j =>
        diagMat (flatSlice flat (m + 1) j) j) j =
        if j = b - a ∧ a ≤ b then flat.getD (diagOff (m + 1) (b - a) + a) 0 else 0 := by
      intro j hj
      have hj' := List.mem_range.1 hj
      have hlen := length_flatSlice flat (m + 1) j hj' hl
      have hsum : (flatSlice flat (m + 1) j).length + j = m + 1 := by omega
      simp only [Function.comp, diagMat, hsum]
      rw [Mat.at_build _ ha hb]
      by_cases h : b = a + j
      · rw [if_pos h, if_pos (by omega), flatSlice_getD _ _ _ _ (by omega), show b - a = j by omega]
      · rw [if_neg h, if_neg (by omega)]
    rw [List.map_congr_left this, sum_map_range]
    by_cases h : a ≤ b
    · simp [h, show b - a < m + 1 by omega]
    · simp [h]
  have hall : ((List.range (m + 1)).map fun j => diagMat (flatSlice flat (m + 1) j) j).all
      (fun M => decide (M.length = m + 1)) = true := by
    rw [List.all_eq_true]
    intro M hM
    obtain ⟨j, hj, rfl⟩ := List.mem_map.1 hM
    simpa using hsz j (List.mem_range.1 hj)
  obtain ⟨mats, hmats⟩ : ∃ r, r = (List.range (m + 1)).map fun j =>
    diagMat (flatSlice flat (m + 1) j) j := ⟨_, rfl⟩
  simp only [unflatten]
  rw [← hmats] at hall hent ⊢
  have h0 : ∃ M0 rest, mats = M0 :: rest ∧ M0.length = m + 1 := by
    rw [List.range_succ_eq_map, List.map_cons] at hmats
    exact ⟨_, _, hmats, hsz 0 (by omega)⟩
  obtain ⟨M0, rest, e, hM0⟩ := h0
  subst e
  simp only [hM0]
  rw [if_neg (by simpa using hall)]
  simp only [Bool.false_eq_true, if_false]
  congr 1
  exact Mat.ext' (Mat.build_shape _ _ _) (Mat.build_shape _ _ _) fun a ha b hb => by
    rw [Mat.at_build _ ha hb, Mat.at_build _ ha hb, hent a ha b hb]

theorem unflatten_sym [Field K] (flat : List K) (n : ℕ) (M : Mat K)
    (h : unflatten flat n false = .ok M) (hM : M.HasShape n n) :
    unflatten flat n true = .ok (Mat.build n n fun a b => 2⁻¹ * (M.at' a b + M.at' b a)) := by
  unfold unflatten at h ⊢
  obtain ⟨mats, hmats⟩ : ∃ r, r = (List.range n).map fun j => diagMat (flatSlice flat n j) j :=
    ⟨_, rfl⟩
  simp only [← hmats] at h ⊢
  rcases mats with _ | ⟨m, rest⟩
  · have : n = 0 := by simpa using congrArg List.length hmats.symm
    subst this
    simp [Mat.build]
  · dsimp only at h ⊢
    split at h
    · cases h
    · rename_i hall
      rw [if_neg hall]
      simp only [Bool.false_eq_true, if_false, Except.ok.injEq] at h
      subst h
      have : m.length = n := by simpa [Mat.build] using hM.1
      simp [this]

end Verif.Lemmas
