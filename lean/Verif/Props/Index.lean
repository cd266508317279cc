/-
C01, C02, C03: index arithmetic of coniii/utils.py.
-/
import Verif.Lemmas.Index

namespace Verif.Props
open Verif Verif.Model Verif.Spec Verif.Lemmas

/-- C01. For two different sites below `n`, `sub_to_ind` returns the position of the pair in
the row-major list of all pairs, and that position is below `n(n-1)/2`. -/
theorem C01_sub_to_ind (n i j : ℕ) (hi : i < n) (hj : j < n) (hne : i ≠ j) :
    ∃ k : ℕ, subToInd n i j = .ok (k : ℤ) ∧
      (upperPairs n)[k]? = some (min i j, max i j) ∧ k < n * (n - 1) / 2 := by
  rcases lt_or_gt_of_ne hne with h | h
  · refine ⟨_, subToInd_lt h hj, ?_, ?_⟩
    · rw [upperPairs_rank h hj, min_eq_left h.le, max_eq_right h.le]
    · rw [← length_upperPairs]
      exact (List.getElem?_eq_some_iff.1 (upperPairs_rank h hj)).1
  · refine ⟨_, (subToInd_comm _ _ _).trans (subToInd_lt h hi), ?_, ?_⟩
    · rw [upperPairs_rank h hi, min_eq_right h.le, max_eq_left h.le]
    · rw [← length_upperPairs]
      exact (List.getElem?_eq_some_iff.1 (upperPairs_rank h hi)).1

/-- C01. The order of the two sites does not matter, for any integers. -/
theorem C01_symmetric (n i j : ℤ) : subToInd n i j = subToInd n j i := subToInd_comm n i j

/-- C01. Equal sites raise. -/
theorem C01_equal_raises (n i : ℤ) : subToInd n i i = .error .exception := by
  simp [subToInd]

/-- C01. Different pairs of sites get different positions. -/
theorem C01_injective (n i j i' j' : ℕ) (hij : i < j) (hj : j < n) (hij' : i' < j')
    (hj' : j' < n) (h : subToInd n i j = subToInd n i' j') : i = i' ∧ j = j' := by
  rw [subToInd_lt hij hj, subToInd_lt hij' hj'] at h
  have h' : rank n 0 [i, j] = rank n 0 [i', j'] := by
    have := Except.ok.inj h
    exact_mod_cast this
  have h1 := upperPairs_rank hij hj
  rw [h', upperPairs_rank hij' hj'] at h1
  simp only [Option.some.injEq, Prod.mk.injEq] at h1
  exact ⟨h1.1.symm, h1.2.symm⟩

/-- Non-vacuity of C01: a concrete interior pair, given in both orders. -/
example : subToInd 5 3 1 = .ok 5 ∧ (upperPairs 5)[5]? = some (1, 3) := by decide

/-- C02. Every position below `n(n-1)/2` is decoded to the pair that `sub_to_ind` encodes to
it. -/
theorem C02_ind_to_sub_then_back (n ix : ℕ) (h : ix < n * (n - 1) / 2) :
    ∃ i j, indToSub n ix = some (i, j) ∧ i < j ∧ j < n ∧ subToInd n i j = .ok (ix : ℤ) := by
  rw [← length_upperPairs] at h
  refine ⟨(upperPairs n)[ix].1, (upperPairs n)[ix].2, ?_, ?_⟩
  · rw [indToSub_eq, List.getElem?_eq_getElem h]
  · have hm : ((upperPairs n)[ix].1, (upperPairs n)[ix].2) ∈ upperPairs n :=
      List.getElem_mem h
    obtain ⟨h1, h2⟩ := mem_upperPairs.1 hm
    refine ⟨h1, h2, ?_⟩
    rw [subToInd_lt h1 h2]
    have h3 := upperPairs_rank h1 h2
    obtain ⟨h4, h5⟩ := List.getElem?_eq_some_iff.1 h3
    have := (List.Nodup.getElem_inj_iff (nodup_upperPairs n)).1 (h5.trans (by rfl : _ = (upperPairs n)[ix]))
    rw [this]

/-- C02. Decoding the code of a pair returns the pair. -/
theorem C02_back_then_ind_to_sub (n i j : ℕ) (hij : i < j) (hj : j < n) :
    ∃ ix : ℕ, subToInd n i j = .ok (ix : ℤ) ∧ indToSub n ix = some (i, j) :=
  ⟨_, subToInd_lt hij hj, by rw [indToSub_eq, upperPairs_rank hij hj]⟩

/-- C02. Positions from `n(n-1)/2` on are decoded to `None`. -/
theorem C02_out_of_range (n ix : ℕ) (h : n * (n - 1) / 2 ≤ ix) : indToSub n ix = none := by
  rw [indToSub_eq, List.getElem?_eq_none]
  rw [length_upperPairs]; exact h

example : indToSub 4 5 = some (2, 3) ∧ indToSub 4 6 = none := by decide

/-- C03 (library reference). `combos` really is the lexicographic list of increasing
tuples. -/
theorem C03_combinations (n k : ℕ) : IsCombinations n k (combos k (pyRange 0 n)) :=
  isCombinations_combos n k

/-- C03. For every strictly increasing tuple of `k ≥ 1` sites below `n`, `unravel_index` is the
position of the tuple in `itertools.combinations(range(n), k)`. -/
theorem C03_unravel_index (n : ℕ) (t : List ℕ) (hne : t ≠ []) (hs : t.Pairwise (· < ·))
    (hn : ∀ i ∈ t, i < n) :
    ∃ k, unravelIndex t n = .ok k ∧ (combos t.length (pyRange 0 n))[k]? = some t := by
  refine ⟨rank n 0 t, ?_, combos_rank n t 0 hs hn (by simp)⟩
  rcases t with _ | ⟨x, _ | ⟨y, ys⟩⟩
  · simp at hne
  · simp [unravelIndex, rank, pyRange]
  · have h1 : ∀ d ∈ pyRange 1 (x :: y :: ys).length,
        rd (x :: y :: ys) (d - 1) < rd (x :: y :: ys) d := by
      intro d hd
      obtain ⟨hd1, hd2⟩ := mem_pyRange.1 hd
      have := List.pairwise_iff_getElem.1 hs (d - 1) d (by omega) hd2 (by omega)
      simpa only [rd, List.getD_eq_getElem _ _ hd2,
        List.getD_eq_getElem _ _ (show d - 1 < (x :: y :: ys).length by omega)] using this
    have h3 := unravel_fold_rank n (x :: y :: ys) (by simp) 0 0 (by simp) hs
    unfold unravelIndex
    simp only
    rw [if_neg (by simpa using h1), if_neg (by simpa using hn)]
    simp only [zero_add] at h3
    rw [← h3]

/-- C03. Tuples of two or more sites that are not strictly increasing, or that contain a site
`≥ n`, are rejected by an assertion. (A one-element tuple is returned unchecked.) -/
theorem C03_rejects (n : ℕ) (t : List ℕ) (h2 : 2 ≤ t.length)
    (h : ¬ (t.Pairwise (· < ·) ∧ ∀ i ∈ t, i < n)) :
    unravelIndex t n = .error .assertion := by
  rcases t with _ | ⟨x, _ | ⟨y, ys⟩⟩
  · simp at h2
  · simp at h2
  · unfold unravelIndex
    simp only
    split_ifs with h3 h4
    · exfalso
      apply h
      refine ⟨?_, h4⟩
      rw [← List.isChain_iff_pairwise, List.isChain_iff_getElem]
      intro i hi
      have h5 := h3 (i + 1) (mem_pyRange.2 ⟨by omega, by omega⟩)
      simpa only [rd, List.getD_eq_getElem _ _ hi,
        List.getD_eq_getElem _ _ (show i < (x :: y :: ys).length by omega),
        Nat.add_sub_cancel] using h5
    · rfl
    · rfl

/-- C03. The positions of pairs agree with `sub_to_ind`. -/
theorem C03_agrees_with_sub_to_ind (n i j : ℕ) (hij : i < j) (hj : j < n) :
    ∃ k : ℕ, unravelIndex [i, j] n = .ok k ∧ subToInd n i j = .ok (k : ℤ) := by
  obtain ⟨k, h1, h2⟩ := C03_unravel_index n [i, j] (by simp) (by simpa using hij)
    (by simp; omega)
  refine ⟨k, h1, ?_⟩
  rw [subToInd_lt hij hj]
  have h3 := upperPairs_rank hij hj
  simp only [List.length_cons, List.length_nil] at h2
  rw [combos_two, List.getElem?_map] at h2
  obtain ⟨h4, h5⟩ := List.getElem?_eq_some_iff.1 h3
  rcases hh : (upperPairs n)[k]? with _ | ⟨a, b⟩
  · rw [hh] at h2; simp at h2
  · rw [hh] at h2
    simp at h2
    obtain ⟨h6, h7⟩ := List.getElem?_eq_some_iff.1 hh
    have := (List.Nodup.getElem_inj_iff (nodup_upperPairs n)).1
      (h5.trans (show (i, j) = (upperPairs n)[k] by rw [h7, h2.1, h2.2]))
    rw [this]

example : unravelIndex [1, 3, 4] 5 = .ok 8 ∧ unravelIndex [3, 1] 5 = .error .assertion := by
  decide

end Verif.Props
