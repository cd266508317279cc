/-
Lemmas about the start of the pseudolikelihood solver and the couplings it puts together.
-/
import Verif.Lemmas.Cond
import Verif.Lemmas.Matrix

namespace Verif.Lemmas
open Verif Verif.Model Verif.Spec

variable {K : Type*}

theorem sel_of_scatter (θ : List ℝ) (ix : List ℕ) (v : List ℝ) (hv : v.length = ix.length)
    (hnd : ix.Nodup) (h : ∀ p ∈ ix, θ.getD p 0 = v.getD (ix.idxOf p) 0) : sel θ ix = v := by
  unfold sel
  apply List.ext_getElem
  · simp [hv]
  · intro a h1 h2
    have hlt : a < ix.length := by simpa using h1
    rw [List.getElem_map, h _ (List.getElem_mem hlt), hnd.idxOf_getElem, List.getD_eq_getElem _ _ h2]

theorem otherSites_eq {n r : ℕ} (hr : r < n) :
    otherSites n r = (List.range (n - 1)).map fun a => if a < r then a else a + 1 := by
  obtain ⟨m, rfl⟩ : ∃ m, n = r + (m + 1) := ⟨n - r - 1, by omega⟩
  unfold otherSites
  have h1 : List.range (r + (m + 1)) = List.range r ++ r :: (List.range m).map fun a => a + r + 1 := by
    rw [List.range_add, List.range_succ_eq_map, List.map_cons, List.map_map]
    congr 2
    refine List.map_congr_left fun a _ => ?_
    simp only [Function.comp]; omega
  have h2 : List.range (r + (m + 1) - 1) = List.range r ++ (List.range m).map fun a => a + r := by
    rw [show r + (m + 1) - 1 = r + m by omega, List.range_add]
    congr 1
    exact List.map_congr_left fun a _ => by omega
  rw [h1, h2, List.filter_append, List.filter_cons, List.map_append, List.map_map]
  rw [if_neg (by simp)]
  congr 1
  · rw [List.filter_eq_self.2 (fun a ha => by have := List.mem_range.1 ha; simp; omega)]
    conv_lhs => rw [← List.map_id (List.range r)]
    exact List.map_congr_left fun a ha => by rw [if_pos (List.mem_range.1 ha)]; rfl
  · rw [List.filter_eq_self.2]
    · refine List.map_congr_left fun a _ => ?_
      simp only [Function.comp]
      rw [if_neg (by omega)]
    · intro a ha
      obtain ⟨b, _, rfl⟩ := List.mem_map.1 ha
      simp; omega

theorem foldl_set_rows {β : Type*} (G : ℕ → β → β) (d : β) (L : List ℕ) (hL : L.Nodup) (M : List β) :
    ∃ M', L.foldl (fun M i => M.set i (G i (M.getD i d))) M = M' ∧ M'.length = M.length ∧
      ∀ r < M.length, M'.getD r d = if r ∈ L then G r (M.getD r d) else M.getD r d := by
  induction L generalizing M with
  | nil => exact ⟨M, rfl, rfl, by simp⟩
  | cons i L ih =>
    obtain ⟨h1, h2⟩ := List.nodup_cons.1 hL
    obtain ⟨M', e, hl, hM⟩ := ih h2 (M.set i (G i (M.getD i d)))
    refine ⟨M', by rw [List.foldl_cons]; exact e, by rw [hl, List.length_set], fun r hr => ?_⟩
    rw [hM r (by rwa [List.length_set])]
    by_cases hri : r = i
    · subst hri
      rw [if_neg h1, if_pos (by simp)]
      simp [hr]
    · have e1 : (M.set i (G i (M.getD i d))).getD r d = M.getD r d := by
        simp [List.getElem?_set_ne (Ne.symm hri)]
      rw [e1]
      by_cases hrL : r ∈ L
      · rw [if_pos hrL, if_pos (by simp [hrL])]
      · rw [if_neg hrL, if_neg (by simp [hrL, hri])]

theorem startMat_row [Ring K] (n : ℕ) (hn : 1 ≤ n) (h J : List K) (hh : h.length = n)
    (hJ : J.length = n * (n - 1) / 2) :
    ∃ M, startMat n (h ++ J) = .ok M ∧ M.length = n ∧ ∀ r < n, M.getD r [] =
      (List.range n).map fun j => if j = 0 then h.getD r 0
        else J.getD (pairPos n (if j = r then 0 else j) r) 0 := by
  have e1 : squareformVec ((h ++ J).drop n) = .ok (Mat.build n n fun i j =>
      if i = j then 0 else J.getD (pairPos n j i) 0) := by
    rw [← hh, List.drop_left, hh, squareformVec_eq n hn J hJ]
    congr 2
    funext i j
    unfold pairPos
    rw [min_comm, max_comm]
  have hsh := Mat.build_shape n n fun i j => if i = j then (0 : K) else J.getD (pairPos n j i) 0
  have e2 : replaceDiag (Mat.build n n fun i j => if i = j then 0 else J.getD (pairPos n j i) 0)
      ((h ++ J).take n) = .ok (Mat.build n n fun i j => if i = j then h.getD i 0
        else J.getD (pairPos n j i) 0) := by
    rw [← hh, List.take_left, hh]
    unfold replaceDiag
    rw [if_neg (by
      rw [hsh.1, Mat.ncols_eq hsh hn]; simp [hh])]
    simp only
    rw [hsh.1]
    congr 1
    refine Mat.ext' (Mat.build_shape n n _) (Mat.build_shape n n _) fun i hi j hj => ?_
    rw [Mat.at_build _ hi hj, Mat.at_build _ hi hj, Mat.at_build _ hi hj, Mat.at_build _ hi hi]
    by_cases hij : i = j
    · simp [hij]
    · simp [hij]
  obtain ⟨B, hB⟩ : ∃ B : Mat K, B = Mat.build n n fun i j => if i = j then h.getD i 0
        else J.getD (pairPos n j i) 0 := ⟨_, rfl⟩
  have hBrow : ∀ r < n, B.getD r [] = (List.range n).map fun j => if r = j then h.getD r 0
        else J.getD (pairPos n j r) 0 := by
    intro r hr
    rw [hB]
    unfold Mat.build
    exact getD_map_range n _ [] hr
  have hBl : B.length = n := by rw [hB]; exact (Mat.build_shape n n _).1
  obtain ⟨M', e, hl, hM⟩ := foldl_set_rows (fun i row => (row.set i (rd row 0)).set 0 (rd row i)) []
    (pyRange 1 n) (by unfold pyRange; exact List.nodup_range') B
  refine ⟨M', ?_, by rw [hl, hBl], fun r hr => ?_⟩
  · unfold startMat
    rw [e1]
    simp only
    rw [e2]
    simp only
    rw [← hB]
    exact congrArg _ e
  · rw [hM r (by omega), hBrow r hr]
    by_cases hr0 : r = 0
    · subst hr0
      rw [if_neg (by simp [mem_pyRange])]
      refine List.map_congr_left fun j _ => ?_
      by_cases hj : j = 0
      · rw [if_pos hj, if_pos hj.symm]
      · rw [if_neg hj, if_neg (Ne.symm hj), if_neg hj]
    · rw [if_pos (by rw [mem_pyRange]; omega)]
      unfold rd
      rw [getD_map_range n _ 0 (show 0 < n by omega), getD_map_range n _ 0 hr]
      apply List.ext_getElem
      · simp
      intro j h1 h2
      have hj : j < n := by simpa using h2
      by_cases hj0 : j = 0
      · subst hj0
        simp
      · by_cases hjr : j = r
        · subst hjr
          simp [hj0, Ne.symm hj0]
        · simp [hj0, hjr, Ne.symm hj0, Ne.symm hjr]

theorem jmatRow_ok [Field K] {n r : ℕ} (hr : r < n) (a : K) (c : ℕ → K) :
    ∃ row, jmatRow n r (a :: (otherSites n r).map c) = .ok row ∧ row.length = n ∧
      ∀ j < n, row.getD j 0 = if j = r then a else c j := by
  have hsites : ((pyRange 0 n).filter fun i => decide (i ≠ r)) = otherSites n r := by
    simp [pyRange, List.range_eq_range', otherSites]
  have e1 : setAt (List.replicate n (0 : K)) r a = .ok ((List.replicate n (0 : K)).set r a) := by
    unfold setAt; rw [if_pos (by simpa using hr)]
  obtain ⟨row, e, hl, hrow⟩ := fancySet_ok ((List.replicate n (0 : K)).set r a) (otherSites n r)
    ((otherSites n r).map c) (by simp) (nodup_otherSites n r)
    (fun i hi => by simpa using (mem_otherSites.1 hi).1)
  refine ⟨row, ?_, by rw [hl]; simp, fun j hj => ?_⟩
  · unfold jmatRow
    rw [show rd (a :: (otherSites n r).map c) 0 = a from rfl, e1]
    simp only [hsites]
    exact e
  · rw [hrow]
    by_cases hjr : j = r
    · subst hjr
      rw [if_neg (by simp [mem_otherSites]), if_pos rfl]
      simp [hj]
    · have hm : j ∈ otherSites n r := mem_otherSites.2 ⟨hj, hjr⟩
      have hlt := List.idxOf_lt_length_iff.2 hm
      rw [if_pos hm, if_neg hjr]
      simp [hlt]

theorem assemble_ok [Field K] [DecidableEq K] (h2 : (2 : K) ≠ 0) {n : ℕ} (hn : 1 ≤ n)
    (a : ℕ → K) (c : ℕ → ℕ → K) (xs : List (List K))
    (hxs : ∀ r < n, xs.getD r [] = a r :: (otherSites n r).map (c r)) :
    assembleIsing n xs = .ok ((List.range n).map a ++
      (upperPairs n).map fun p => (c p.1 p.2 + c p.2 p.1) / 2) := by
  obtain ⟨row, hrow⟩ : ∃ row : ℕ → List K, ∀ r < n, jmatRow n r (xs.getD r []) = .ok (row r) ∧
      (row r).length = n ∧ ∀ j < n, (row r).getD j 0 = if j = r then a r else c r j := by
    classical
    have : ∀ r, ∃ w : List K, r < n → jmatRow n r (xs.getD r []) = .ok w ∧
        w.length = n ∧ ∀ j < n, w.getD j 0 = if j = r then a r else c r j := by
      intro r
      by_cases hr : r < n
      · obtain ⟨w, hw⟩ := jmatRow_ok hr (a r) (c r)
        exact ⟨w, fun _ => by rw [hxs r hr]; exact hw⟩
      · exact ⟨[], fun h => absurd h hr⟩
    choose w hw using this
    exact ⟨w, hw⟩
  have e1 : ((List.range n).mapM fun r => jmatRow n r (xs.getD r [])) = .ok ((List.range n).map row) :=
    mapM_ok _ _ _ fun r hr => (hrow r (List.mem_range.1 hr)).1
  have hat : ∀ i < n, ∀ j < n, Mat.at' ((List.range n).map row) i j = if j = i then a i else c i j := by
    intro i hi j hj
    unfold Mat.at'
    rw [getD_map_range n row [] hi]
    exact (hrow i hi).2.2 j hj
  obtain ⟨S, hS⟩ : ∃ S : Mat K, S = Mat.build n n fun i j =>
      (Mat.at' ((List.range n).map row) i j + Mat.at' ((List.range n).map row) j i) / 2 := ⟨_, rfl⟩
  have hSsh : S.HasShape n n := by rw [hS]; exact Mat.build_shape n n _
  have hSat : ∀ i < n, ∀ j < n, S.at' i j = if i = j then a i else (c i j + c j i) / 2 := by
    intro i hi j hj
    rw [hS, Mat.at_build _ hi hj, hat i hi j hj, hat j hj i hi]
    by_cases hij : i = j
    · subst hij
      simp only [if_true]
      field_simp
      ring
    · rw [if_neg (Ne.symm hij), if_neg hij, if_neg hij]
  have hz : zeroDiag S = .ok (Mat.build n n fun i j => if i = j then 0 else (c i j + c j i) / 2) := by
    unfold zeroDiag replaceDiag
    rw [if_neg (by rw [hSsh.1, Mat.ncols_eq hSsh hn]; simp)]
    simp only
    rw [hSsh.1]
    congr 1
    refine Mat.ext' (Mat.build_shape n n _) (Mat.build_shape n n _) fun i hi j hj => ?_
    rw [Mat.at_build _ hi hj, Mat.at_build _ hi hj, hSat i hi j hj, hSat i hi i hi]
    by_cases hij : i = j
    · subst hij; simp
    · simp [hij]
  have hsq : squareformMat (Mat.build n n fun i j => if i = j then 0 else (c i j + c j i) / 2) =
      .ok ((upperPairs n).map fun p => (c p.1 p.2 + c p.2 p.1) / 2) := by
    have hsh := Mat.build_shape n n fun i j => if i = j then (0 : K) else (c i j + c j i) / 2
    unfold squareformMat
    simp only
    rw [hsh.1, Mat.ncols_eq hsh hn, if_neg (by simp), if_neg (by
      rw [not_not]
      intro i hi j hj
      rw [Mat.at_build _ (List.mem_range.1 hi) (List.mem_range.1 hj),
        Mat.at_build _ (List.mem_range.1 hj) (List.mem_range.1 hi)]
      by_cases hij : i = j
      · simp [hij]
      · rw [if_neg hij, if_neg (Ne.symm hij), add_comm]), if_neg (by
      rw [not_not]
      intro i hi
      rw [Mat.at_build _ (List.mem_range.1 hi) (List.mem_range.1 hi), if_pos rfl])]
    congr 1
    refine List.map_congr_left fun p hp => ?_
    obtain ⟨h1, h3⟩ := mem_upperPairs.1 (show (p.1, p.2) ∈ upperPairs n from hp)
    rw [Mat.at_build _ (by omega) (by omega), if_neg (by omega)]
  have hdiag : diagonal S = (List.range n).map a := by
    unfold diagonal
    rw [hSsh.1, Mat.ncols_eq hSsh hn, min_self]
    refine List.map_congr_left fun i hi => ?_
    rw [hSat i (List.mem_range.1 hi) i (List.mem_range.1 hi), if_pos rfl]
  unfold assembleIsing
  rw [e1]
  simp only
  rw [← hS, hz]
  simp only
  rw [hsq, hdiag]

end Verif.Lemmas
