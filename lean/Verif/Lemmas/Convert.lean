import Verif.Lemmas.Matrix

namespace Verif.Lemmas
open Verif Verif.Model Verif.Spec Finset

variable {K : Type*}

/-- Symmetric matrix entry of a row-major coupling vector. -/
def symJ [CommRing K] (n : ℕ) (J : List K) (i j : ℕ) : K :=
  if i = j then 0 else couplingAt n J (min i j) (max i j)

theorem symJ_comm [CommRing K] (n : ℕ) (J : List K) (i j : ℕ) : symJ n J i j = symJ n J j i := by
  unfold symJ
  rw [min_comm, max_comm]
  simp only [eq_comm]

theorem symJ_lt [CommRing K] (n : ℕ) (J : List K) {i j : ℕ} (h : i < j) :
    symJ n J i j = couplingAt n J i j := by
  unfold symJ
  rw [if_neg h.ne, min_eq_left h.le, max_eq_right h.le]

theorem sum_symJ [CommRing K] (n : ℕ) (J : List K) (x : ℕ → K) :
    ∑ i ∈ range n, ∑ j ∈ range n, (if i < j then couplingAt n J i j * (x i + x j) else 0) =
      ∑ i ∈ range n, x i * ∑ j ∈ range n, symJ n J i j := by
  have h1 : ∀ i ∈ range n, ∀ j ∈ range n, x i * symJ n J i j =
      (if i < j then couplingAt n J i j * x i else 0) +
      (if j < i then couplingAt n J j i * x i else 0) := by
    intro i _ j _
    rcases lt_trichotomy i j with h | h | h
    · rw [if_pos h, if_neg h.le.not_gt, symJ_lt n J h]; ring
    · subst h; simp [symJ]
    · rw [if_neg h.le.not_gt, if_pos h, symJ_comm, symJ_lt n J h]; ring
  have h2 : ∑ i ∈ range n, x i * ∑ j ∈ range n, symJ n J i j =
      ∑ i ∈ range n, ∑ j ∈ range n, ((if i < j then couplingAt n J i j * x i else 0) +
      (if j < i then couplingAt n J j i * x i else 0)) := by
    refine Finset.sum_congr rfl fun i hi => ?_
    rw [Finset.mul_sum]
    exact Finset.sum_congr rfl fun j hj => h1 i hi j hj
  rw [h2]
  simp only [Finset.sum_add_distrib]
  rw [Finset.sum_comm (f := fun i j => if j < i then couplingAt n J j i * x i else 0)]
  rw [← Finset.sum_add_distrib]
  refine Finset.sum_congr rfl fun i _ => ?_
  rw [← Finset.sum_add_distrib]
  refine Finset.sum_congr rfl fun j _ => ?_
  split_ifs
  · ring
  · ring

theorem rowSums_build [CommRing K] (n : ℕ) (f : ℕ → ℕ → K) :
    (Mat.build n n f).map List.sum = (List.range n).map fun i => ∑ j ∈ range n, f i j := by
  unfold Mat.build
  rw [List.map_map]
  apply List.map_congr_left
  intro i _
  simp only [Function.comp]
  rw [sum_map_range]

theorem zipWith_range (f : K → K → K) (n : ℕ) (h : List K) (hh : h.length = n) (d : K)
    (g : ℕ → K) : List.zipWith f h ((List.range n).map g) =
      (List.range n).map fun i => f (h.getD i d) (g i) := by
  apply List.ext_getElem
  · simp [hh]
  · intro i h1 h2
    simp at h1
    have : i < h.length := by omega
    simp [this]

theorem convertParams_vec_b01 [Field K] [DecidableEq K] (n : ℕ) (hn : 1 ≤ n) (h J : List K)
    (hh : h.length = n) (hJ : J.length = n * (n - 1) / 2) :
    convertParams h (.vec J) .b01 =
      .ok ((List.range n).map (fun i => 2 * (h.getD i 0 - ∑ j ∈ range n, symJ n J i j)),
        J.map (· * 4)) := by
  unfold convertParams
  simp only [squareformVec_eq n hn J hJ, bind, Except.bind, pure, Except.pure]
  rw [rowSums_build]
  unfold broadcast2
  rw [if_pos (by simp [hh]), zipWith_range _ n h hh 0]
  simp only [List.map_map]
  rfl

theorem convertParams_vec_b11 [Field K] [DecidableEq K] (n : ℕ) (hn : 1 ≤ n) (h J : List K)
    (hh : h.length = n) (hJ : J.length = n * (n - 1) / 2) :
    convertParams h (.vec J) .b11 =
      .ok ((List.range n).map (fun i => h.getD i 0 / 2 + (∑ j ∈ range n, symJ n J i j) / 4),
        J.map (· / 4)) := by
  unfold convertParams
  simp only [squareformVec_eq n hn J hJ, bind, Except.bind, pure, Except.pure]
  rw [rowSums_build]
  unfold broadcast2
  rw [if_pos (by simp [hh]), List.map_map, zipWith_range _ n _ (by simp [hh]) 0]
  simp only
  congr 2
  apply List.map_congr_left
  intro i hi
  have : i < h.length := by rw [hh]; exact List.mem_range.1 hi
  simp only [Function.comp]
  congr 1
  simp [this]

theorem couplingAt_map [CommRing K] (n : ℕ) (J : List K) (f : K → K) (hf : f 0 = 0) (i j : ℕ) :
    couplingAt n (J.map f) i j = f (couplingAt n J i j) := by
  unfold couplingAt
  rw [List.getD_eq_getElem?_getD, List.getD_eq_getElem?_getD, List.getElem?_map]
  cases J[(upperPairs n).idxOf (i, j)]? <;> simp [hf]

theorem getD_map_range (n : ℕ) (f : ℕ → K) (d : K) {i : ℕ} (hi : i < n) :
    ((List.range n).map f).getD i d = f i := by
  simp [hi]

/-- A symmetric zero-diagonal matrix is handled like the vector of its upper triangle. -/
theorem convertParams_mat_eq_vec [Field K] [DecidableEq K] (n : ℕ) (hn : 1 ≤ n) (h : List K)
    (M : Mat K) (hM : M.HasShape n n) (hsym : ∀ i < n, ∀ j < n, M.at' i j = M.at' j i)
    (hz : ∀ i < n, M.at' i i = 0) (b : Basis) :
    convertParams h (.mat M) b =
      convertParams h (.vec ((upperPairs n).map fun p => M.at' p.1 p.2)) b := by
  have hlen : ((upperPairs n).map fun p => M.at' p.1 p.2).length = n * (n - 1) / 2 := by
    rw [List.length_map, length_upperPairs]
  have h1 : squareformMat M = .ok ((upperPairs n).map fun p => M.at' p.1 p.2) := by
    unfold squareformMat
    simp only [hM.1]
    rw [if_neg (by simpa using Mat.ncols_eq hM (by omega))]
    rw [if_neg (by
      simp only [not_not, List.mem_range]
      exact hsym), if_neg (by
      simp only [not_not, List.mem_range]
      exact hz)]
  have h2 : squareformVec ((upperPairs n).map fun p => M.at' p.1 p.2) = .ok M := by
    rw [squareformVec_eq n hn _ hlen]
    congr 1
    refine Mat.ext' (Mat.build_shape _ _ _) hM fun i hi j hj => ?_
    rw [Mat.at_build _ hi hj]
    have key : ∀ a b, a < b → b < n →
        ((upperPairs n).map fun p => M.at' p.1 p.2).getD ((upperPairs n).idxOf (a, b)) 0 =
          M.at' a b := by
      intro a b hab hb
      have hlt : (upperPairs n).idxOf (a, b) < (upperPairs n).length :=
        List.idxOf_lt_length_of_mem (mem_upperPairs.2 ⟨hab, hb⟩)
      rw [List.getD_eq_getElem _ _ (by simpa using hlt), List.getElem_map,
        List.getElem_idxOf hlt]
    rcases lt_trichotomy i j with h | h | h
    · rw [if_neg h.ne, min_eq_left h.le, max_eq_right h.le, key i j h hj]
    · subst h; rw [if_pos rfl, hz i hi]
    · rw [if_neg h.ne', min_eq_right h.le, max_eq_left h.le, key j i h hi, hsym i hi j hj]
  unfold convertParams
  simp only [h1, h2]
  rfl

end Verif.Lemmas
