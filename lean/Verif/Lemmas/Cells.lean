/-
Matrices written cell by cell.
-/
import Verif.Lemmas.Flat
import Verif.Lemmas.Helpers

namespace Verif.Lemmas
open Verif Verif.Spec Verif.Model

variable {K : Type*}

theorem row_length {M : Mat K} {r c i : ℕ} (hM : M.HasShape r c) (hi : i < r) :
    (M.getD i []).length = c := by
  have h : i < M.length := hM.1 ▸ hi
  rw [List.getD_eq_getElem _ _ h]
  exact hM.2 _ (List.getElem_mem h)

theorem getAt_row {M : Mat K} {r c i : ℕ} (hM : M.HasShape r c) (hi : i < r) :
    getAt M i = .ok (M.getD i []) := by
  have h : i < M.length := hM.1 ▸ hi
  rw [getAt, List.getElem?_eq_getElem h, List.getD_eq_getElem _ _ h]

theorem getAt_entry [Zero K] {l : List K} {i : ℕ} (hi : i < l.length) :
    getAt l i = .ok (l.getD i 0) := by
  rw [getAt, List.getElem?_eq_getElem hi, List.getD_eq_getElem _ _ hi]

theorem getCell_ok [Zero K] {M : Mat K} {r c i j : ℕ} (hM : M.HasShape r c) (hi : i < r)
    (hj : j < c) : getCell M i j = .ok (M.at' i j) := by
  rw [getCell, getAt_row hM hi]
  simp only
  rw [getAt_entry (by rw [row_length hM hi]; exact hj)]
  rfl

theorem setCell_ok [Zero K] {M : Mat K} {r c i j : ℕ} (hM : M.HasShape r c) (hi : i < r)
    (hj : j < c) (v : K) :
    setCell M i j v = .ok (Mat.build r c fun a b => if a = i ∧ b = j then v else M.at' a b) := by
  have hl := row_length hM hi
  have h : i < M.length := hM.1 ▸ hi
  rw [setCell, getAt_row hM hi]
  simp only [setAt, hl, hj, if_true, h]
  congr 1
  apply Mat.ext' (r := r) (c := c) _ (Mat.build_shape _ _ _)
  · intro a ha b hb
    rw [Mat.at_build _ ha hb]
    have ha' : a < M.length := hM.1 ▸ ha
    have hrow : ∀ w : List K, (M.set i w).getD a [] = if a = i then w else M.getD a [] := by
      intro w
      rw [List.getD_eq_getElem _ _ (by simpa using ha'), List.getElem_set]
      by_cases e : i = a
      · simp [e]
      · rw [if_neg e, if_neg (by omega), List.getD_eq_getElem _ _ ha']
    by_cases e : a = i
    · subst e
      simp only [Mat.at', hrow, if_true]
      have hb' : b < ((M.getD a []).set j v).length := by rw [List.length_set, hl]; exact hb
      rw [List.getD_eq_getElem _ _ hb', List.getElem_set]
      have hb2 : b < (M.getD a []).length := by omega
      by_cases e2 : b = j
      · simp [e2]
      · rw [if_neg (by omega), if_neg (by omega), List.getD_eq_getElem _ _ hb2]
    · simp only [Mat.at', hrow]
      rw [if_neg e, if_neg (by tauto)]
  · constructor
    · simp [hM.1]
    · intro row hrow
      rcases List.mem_or_eq_of_mem_set hrow with h1 | h1
      · exact hM.2 _ h1
      · rw [h1, List.length_set, hl]

theorem foldlM_congr {α σ : Type*} (f g : σ → α → Py σ) (l : List α) (h : ∀ a ∈ l, ∀ s, f s a = g s a)
    (s : σ) : l.foldlM f s = l.foldlM g s := by
  induction l generalizing s with
  | nil => rfl
  | cons a l ih =>
    rw [List.foldlM_cons, List.foldlM_cons, h a (by simp) s]
    congr 1
    funext t
    exact ih (fun b hb => h b (by simp [hb])) t

theorem foldlM_flatMap' {α β σ : Type*} (f : σ → β → Py σ) (g : α → List β) (l : List α) (s : σ) :
    l.foldlM (fun s a => (g a).foldlM f s) s = (l.flatMap g).foldlM f s := by
  induction l generalizing s with
  | nil => rfl
  | cons a l ih =>
    rw [List.foldlM_cons, List.flatMap_cons, List.foldlM_append]
    congr 1
    funext t
    exact ih t

/-- Writing the values of a function into cells leaves the others as they were. -/
theorem writes_ok [Zero K] (f : ℕ → ℕ → K) (l : List (ℕ × ℕ)) {M : Mat K} {r c : ℕ}
    (hM : M.HasShape r c) (hl : ∀ p ∈ l, p.1 < r ∧ p.2 < c) :
    l.foldlM (fun J p => setCell J p.1 p.2 (f p.1 p.2)) M =
      .ok (Mat.build r c fun a b => if (a, b) ∈ l then f a b else M.at' a b) := by
  induction l generalizing M with
  | nil =>
    simp only [List.not_mem_nil, if_false]
    exact congrArg (Except.ok (ε := PyErr)) (Mat.eq_build hM)
  | cons p l ih =>
    have hp := hl p (by simp)
    rw [List.foldlM_cons, setCell_ok hM hp.1 hp.2]
    show List.foldlM _ _ _ = _
    rw [ih (Mat.build_shape _ _ _) (fun q hq => hl q (by simp [hq]))]
    congr 1
    apply Mat.ext' (Mat.build_shape _ _ _) (Mat.build_shape _ _ _)
    intro a ha b hb
    rw [Mat.at_build _ ha hb, Mat.at_build _ ha hb, Mat.at_build _ ha hb]
    obtain ⟨p1, p2⟩ := p
    by_cases e : (a, b) ∈ l
    · simp [e]
    · by_cases e2 : a = p1 ∧ b = p2
      · obtain ⟨rfl, rfl⟩ := e2; simp
      · have : (a, b) ≠ (p1, p2) := by simpa using e2
        simp [e, e2]

theorem coocCluster_ok [Zero K] {M : Mat K} {N : ℕ} (hM : M.HasShape N N) (c : List ℕ)
    (hc : ∀ i ∈ c, i < N) :
    coocCluster M c = .ok (Mat.build c.length c.length fun a b => M.at' (c.getD a 0) (c.getD b 0)) := by
  have h1 : c.mapM (fun i => getAt M i) = .ok (c.map fun i => M.getD i []) :=
    mapM_ok _ _ _ fun i hi => getAt_row hM (hc i hi)
  rw [coocCluster, h1]
  simp only
  have h2 : (c.map fun i => M.getD i []).mapM (fun row => c.mapM fun j => getAt row j) =
      .ok ((c.map fun i => M.getD i []).map fun row => c.map fun j => row.getD j 0) := by
    apply mapM_ok
    intro row hrow
    obtain ⟨i, hi, rfl⟩ := List.mem_map.1 hrow
    apply mapM_ok
    intro j hj
    exact getAt_entry (by rw [row_length hM (hc i hi)]; exact hc j hj)
  rw [h2, List.map_map]
  congr 1
  apply List.ext_getElem (by simp [Mat.build])
  intro a ha _
  have ha' : a < c.length := by simpa using ha
  apply List.ext_getElem (by simp [Mat.build])
  intro b hb _
  have hb' : b < c.length := by simpa using hb
  simp [Mat.build, Mat.at', ha', hb']

theorem jfull_ok [Zero K] {Jc : Mat K} (c : List ℕ) (N : ℕ) (hJ : Jc.HasShape c.length c.length)
    (hc : ∀ i ∈ c, i < N) (hd : c.Nodup) :
    jfullFromCluster Jc c N = .ok (Mat.build N N fun a b =>
      if a ∈ c ∧ b ∈ c then Jc.at' (c.idxOf a) (c.idxOf b) else 0) := by
  have hz : ∀ a ∈ c.zipIdx, a.1 ∈ c ∧ c.idxOf a.1 = a.2 ∧ a.2 < c.length := by
    intro a ha
    obtain ⟨x, i⟩ := a
    have := List.mem_zipIdx ha
    simp only [Nat.zero_le, true_and, Nat.zero_add, Nat.sub_zero] at this
    obtain ⟨h1, h2⟩ := this
    have h3 : List.idxOf x c = i := by
      conv_lhs => rw [h2]
      exact hd.idxOf_getElem _ _
    exact ⟨h2 ▸ List.getElem_mem h1, h3, h1⟩
  obtain ⟨F, hF⟩ : ∃ F : ℕ → ℕ → K, F = fun a b => Jc.at' (c.idxOf a) (c.idxOf b) := ⟨_, rfl⟩
  have hstep : ∀ a ∈ c.zipIdx, ∀ b ∈ c.zipIdx, ∀ J : Mat K,
      jfullStep Jc J a b = setCell J a.1 b.1 (F a.1 b.1) := by
    intro a ha b hb J
    obtain ⟨_, ia, la⟩ := hz a ha
    obtain ⟨_, ib, lb⟩ := hz b hb
    rw [jfullStep, getCell_ok hJ la lb, hF]
    simp only [ia, ib]
  have e1 : jfullFromCluster Jc c N = (c.zipIdx.flatMap fun a => c.zipIdx.map fun b =>
      (a.1, b.1)).foldlM (fun J p => setCell J p.1 p.2 (F p.1 p.2)) (Mat.build N N fun _ _ => (0 : K)) := by
    rw [jfullFromCluster, ← foldlM_flatMap']
    apply foldlM_congr
    intro a ha J
    rw [List.foldlM_map]
    apply foldlM_congr
    intro b hb J
    exact hstep a ha b hb J
  have hmem : ∀ a b, (a, b) ∈ (c.zipIdx.flatMap fun a => c.zipIdx.map fun b => (a.1, b.1)) ↔
      a ∈ c ∧ b ∈ c := by
    intro a b
    have hin : ∀ x, x ∈ c → ∃ i, (x, i) ∈ c.zipIdx := by
      intro x hx
      obtain ⟨i, hi, rfl⟩ := List.getElem_of_mem hx
      exact ⟨i, by rw [List.mem_zipIdx_iff_getElem?]; simp⟩
    constructor
    · intro h
      obtain ⟨p, hp, h⟩ := List.mem_flatMap.1 h
      obtain ⟨q, hq, h⟩ := List.mem_map.1 h
      cases h
      exact ⟨(hz p hp).1, (hz q hq).1⟩
    · rintro ⟨ha, hb⟩
      obtain ⟨i, hi⟩ := hin a ha
      obtain ⟨j, hj⟩ := hin b hb
      exact List.mem_flatMap.2 ⟨_, hi, List.mem_map.2 ⟨_, hj, rfl⟩⟩
  rw [e1, writes_ok F _ (Mat.build_shape _ _ _)]
  · congr 1
    apply Mat.ext' (Mat.build_shape _ _ _) (Mat.build_shape _ _ _)
    intro a ha b hb
    simp only [Mat.at_build _ ha hb, hmem, hF]
  · rintro ⟨a, b⟩ hp
    have := (hmem a b).1 hp
    exact ⟨hc a this.1, hc b this.2⟩

theorem mfReplaceDiag_ok [Ring K] {M : Mat K} {n : ℕ} (hM : M.HasShape n n) (hn : 1 ≤ n) (d : List K)
    (hd : d.length = n) :
    mfReplaceDiag M d = .ok (Mat.build n n fun i j => if i = j then d.getD i 0 else M.at' i j) := by
  unfold mfReplaceDiag
  rw [if_neg (by rw [Mat.ncols_eq hM hn, hM.1, hd]; simp)]
  simp only [hM.1]
  congr 1
  apply Mat.ext' (Mat.build_shape _ _ _) (Mat.build_shape _ _ _)
  intro a ha b hb
  rw [Mat.at_build _ ha hb, Mat.at_build _ ha hb]
  by_cases e : a = b
  · subst e; simp
  · simp [e]

theorem symmetrize_ok [Ring K] {M : Mat K} {n : ℕ} (hM : M.HasShape n n) (hn : 1 ≤ n) :
    symmetrizeUsingUpper M = .ok (Mat.build n n fun i j => M.at' (min i j) (max i j)) := by
  have hne : ∃ row rest, M = row :: rest := by
    rcases M with _ | ⟨row, rest⟩
    · have := hM.1; simp at this; omega
    · exact ⟨_, _, rfl⟩
  obtain ⟨row, rest, e⟩ := hne
  have hrow : row.length = n := hM.2 row (by rw [e]; simp)
  have hlen : (row :: rest).length = n := by rw [← e]; exact hM.1
  rw [e, symmetrizeUsingUpper]
  simp only [hlen, hrow, ne_eq, not_true, if_false]
  rw [← e, mfReplaceDiag_ok (Mat.build_shape _ _ _) hn]
  · congr 1
    apply Mat.ext' (Mat.build_shape _ _ _) (Mat.build_shape _ _ _)
    intro a ha b hb
    rw [Mat.at_build _ ha hb, Mat.at_build _ ha hb, Mat.at_build _ ha hb, Mat.at_build _ ha hb,
      Mat.at_build _ hb ha, diagonalK_eq hM]
    rcases lt_trichotomy a b with h | h | h
    · rw [if_neg h.ne, if_neg (by omega), if_pos h.le, min_eq_left h.le, max_eq_right h.le]; simp
    · subst h; simp [ha]
    · rw [if_neg h.ne', if_pos h.le, if_neg (by omega), min_eq_right h.le, max_eq_left h.le]; simp
  · rw [diagonalK_eq hM]; simp

end Verif.Lemmas
