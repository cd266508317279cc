/-
Lemmas for adj, calc_de and coarse_grain_with_func.
-/
import Verif.Model.Neighbors
import Verif.Lemmas.PseudoHelpers
import Verif.Lemmas.Matrix
import Mathlib.Data.List.Perm.Basic

namespace Verif.Lemmas
open Verif Verif.Spec Verif.Model

variable {K : Type*}

theorem flipScan_eq (flip : ℤ → ℤ) (hf : ∀ x, flip (flip x) = x) (s : List ℤ) :
    flipScan flip s = (s, (List.range s.length).map fun i => s.set i (flip (s.getD i 0))) := by
  have key : ∀ (L : List ℕ) (acc : List (List ℤ)), (∀ i ∈ L, i < s.length) →
      L.foldl (fun (st : List ℤ × List (List ℤ)) i =>
        let s1 := st.1.set i (flip (rd st.1 i))
        let s2 := s1.set i (flip (rd s1 i))
        (s2, st.2 ++ [s1])) (s, acc) =
      (s, acc ++ L.map fun i => s.set i (flip (s.getD i 0))) := by
    intro L
    induction L with
    | nil => simp
    | cons i L ih =>
      intro acc hL
      have hi : i < s.length := hL i (by simp)
      rw [List.foldl_cons]
      have e : ((s.set i (flip (rd s i))).set i (flip (rd (s.set i (flip (rd s i))) i))) = s := by
        rw [List.set_set]
        unfold rd
        rw [List.getD_eq_getElem (s.set i _) _ (by simpa using hi), List.getElem_set_self, hf,
          List.getD_eq_getElem _ _ hi, List.set_getElem_self]
      simp only
      rw [e, ih _ fun j hj => hL j (List.mem_cons_of_mem _ hj)]
      simp
  unfold flipScan
  rw [key _ _ (by intro i hi; exact (mem_pyRange.1 hi).2)]
  simp [pyRange, List.range_eq_range']

theorem drawNeighbor_some (s : List ℤ) (cs : List (List ℤ)) (c : List ℤ) (cs' : List (List ℤ))
    (h : drawNeighbor s cs = some (c, cs')) : c ≠ s ∧ c ∈ cs ∧ (∀ d ∈ cs', d ∈ cs) ∧
      (cs'.filter (· ≠ s)).length + 1 = (cs.filter (· ≠ s)).length := by
  induction cs with
  | nil => cases h
  | cons d cs ih =>
    unfold drawNeighbor at h
    by_cases hd : d = s
    · rw [if_neg (by simpa using hd)] at h
      obtain ⟨h1, h2, h3, h4⟩ := ih h
      refine ⟨h1, List.mem_cons_of_mem _ h2, fun x hx => List.mem_cons_of_mem _ (h3 x hx), ?_⟩
      rw [h4, List.filter_cons_of_neg (by simpa using hd)]
    · rw [if_pos hd] at h
      obtain ⟨rfl, rfl⟩ := Prod.mk.inj (Option.some.inj h)
      refine ⟨hd, by simp, fun x hx => List.mem_cons_of_mem _ hx, ?_⟩
      rw [List.filter_cons_of_pos (by simpa using hd), List.length_cons]

theorem drawNeighbor_none (s : List ℤ) (cs : List (List ℤ)) :
    drawNeighbor s cs = none ↔ (cs.filter (· ≠ s)).length = 0 := by
  induction cs with
  | nil => simp [drawNeighbor]
  | cons d cs ih =>
    unfold drawNeighbor
    by_cases hd : d = s
    · rw [if_neg (by simpa using hd), ih, List.filter_cons_of_neg (by simpa using hd)]
    · rw [if_pos hd, List.filter_cons_of_pos (by simpa using hd)]
      simp

theorem drawNeighbors_some (s : List ℤ) (m : ℕ) (cs nb : List (List ℤ))
    (h : drawNeighbors s m cs = some nb) : nb.length = m ∧ ∀ c ∈ nb, c ≠ s ∧ c ∈ cs := by
  induction m generalizing cs nb with
  | zero => cases h; simp
  | succ m ih =>
    unfold drawNeighbors at h
    cases hd : drawNeighbor s cs with
    | none => rw [hd] at h; cases h
    | some q =>
      obtain ⟨c, cs'⟩ := q
      rw [hd] at h
      obtain ⟨h1, h2, h3, -⟩ := drawNeighbor_some s cs c cs' hd
      obtain ⟨nb', hn, rfl⟩ := Option.map_eq_some_iff.1 h
      obtain ⟨h4, h5⟩ := ih _ _ hn
      refine ⟨by simp [h4], ?_⟩
      intro d hd
      rcases List.mem_cons.1 hd with rfl | hd
      · exact ⟨h1, h2⟩
      · exact ⟨(h5 d hd).1, h3 _ (h5 d hd).2⟩

theorem drawNeighbors_isSome (s : List ℤ) (m : ℕ) (cs : List (List ℤ)) :
    (∃ nb, drawNeighbors s m cs = some nb) ↔ m ≤ (cs.filter (· ≠ s)).length := by
  induction m generalizing cs with
  | zero => simp [drawNeighbors]
  | succ m ih =>
    unfold drawNeighbors
    cases hd : drawNeighbor s cs with
    | none =>
      have := (drawNeighbor_none s cs).1 hd
      rw [this]; simp
    | some q =>
      obtain ⟨c, cs'⟩ := q
      obtain ⟨-, -, -, h4⟩ := drawNeighbor_some s cs c cs' hd
      rw [← h4, Nat.add_le_add_iff_right, ← ih cs']
      simp only [Option.map_eq_some_iff]
      exact ⟨fun ⟨nb, nb', h, _⟩ => ⟨nb', h⟩, fun ⟨nb, h⟩ => ⟨_, nb, h, rfl⟩⟩

/-! ### parameter derivative -/

theorem dot_set_add [CommRing K] (θ obs : List K) (i : ℕ) (ε : K) (hi : i < θ.length)
    (ho : i < obs.length) :
    dot (θ.set i (θ.getD i 0 + ε)) obs = dot θ obs + ε * obs.getD i 0 := by
  induction θ generalizing obs i with
  | nil => simp at hi
  | cons a θ ih =>
    rcases obs with _ | ⟨o, obs⟩
    · simp at ho
    cases i with
    | zero => simp only [List.set_cons_zero, List.getD_cons_zero, dot_cons]; ring
    | succ i =>
      rw [List.length_cons, Nat.add_lt_add_iff_right] at hi ho
      simp only [List.set_cons_succ, List.getD_cons_succ, dot_cons]
      rw [ih obs i hi ho]; ring

/-! ### coarse graining -/

theorem pyIdx_ok {i len : ℕ} (h : i < len) : pyIdx (i : ℤ) len = .ok i := by
  unfold pyIdx
  rw [if_pos (by omega)]; rfl

theorem delAt_ok {α : Type*} (l : List α) (i : ℕ) (h : i < l.length) :
    delAt l (i : ℤ) = .ok (l.eraseIdx i) := by
  unfold delAt
  rw [pyIdx_ok h]

/-- Index in the original of entry `i` after deletion of entry `p`. -/
def skip (p i : ℕ) : ℕ := if i < p then i else i + 1

theorem getD_eraseIdx {α : Type*} (l : List α) (p i : ℕ) (d : α) :
    (l.eraseIdx p).getD i d = l.getD (skip p i) d := by
  unfold skip
  simp only [List.getD_eq_getElem?_getD, List.getElem?_eraseIdx]
  split <;> rfl

theorem getAt_ok {β : Type*} (l : List β) (i : ℕ) (h : i < l.length) : getAt l i = .ok l[i] := by
  unfold getAt
  rw [List.getElem?_eq_getElem h]

theorem mapM_delAt {α : Type*} (M : List (List α)) (p : ℕ) (h : ∀ row ∈ M, p < row.length) :
    (M.mapM fun row => delAt row (p : ℤ)) = .ok (M.map fun row => row.eraseIdx p) := by
  induction M with
  | nil => rfl
  | cons a M ih =>
    rw [List.mapM_cons, delAt_ok a p (h a (by simp)), ih fun x hx => h x (List.mem_cons_of_mem _ hx)]
    rfl

/-- Square, zero diagonal, positive elsewhere. -/
structure GoodSim [Zero K] [LinearOrder K] (m : ℕ) (M : Mat K) : Prop where
  shape : M.HasShape m m
  diag : ∀ i < m, M.at' i i = 0
  off : ∀ i < m, ∀ j < m, i ≠ j → 0 < M.at' i j

theorem delRowCol_good [Zero K] [LinearOrder K] (m : ℕ) (M : Mat K) (p : ℕ) (hM : GoodSim (m + 1) M)
    (hp : p < m + 1) : ∃ M', delRowCol M (p : ℤ) = .ok M' ∧ GoodSim m M' ∧
      ∀ i j, M'.at' i j = M.at' (skip p i) (skip p j) := by
  have hrow : ∀ row ∈ M.eraseIdx p, p < row.length := by
    intro row hr
    rw [hM.shape.2 row (List.mem_of_mem_eraseIdx hr)]; exact hp
  have hat : ∀ i j, Mat.at' ((M.eraseIdx p).map fun row => row.eraseIdx p) i j =
      M.at' (skip p i) (skip p j) := by
    intro i j
    unfold Mat.at'
    have : ((M.eraseIdx p).map fun row => row.eraseIdx p).getD i [] =
        ((M.eraseIdx p).getD i []).eraseIdx p := by
      simp only [List.getD_eq_getElem?_getD, List.getElem?_map]
      cases (M.eraseIdx p)[i]? <;> simp
    rw [this, getD_eraseIdx, getD_eraseIdx]
  have hs : ∀ i < m, skip p i < m + 1 := by
    intro i hi; unfold skip; split <;> omega
  have hinj : ∀ i j, i ≠ j → skip p i ≠ skip p j := by
    intro i j hij; unfold skip; split <;> split <;> omega
  refine ⟨_, ?_, ⟨⟨?_, ?_⟩, ?_, ?_⟩, hat⟩
  · unfold delRowCol
    rw [delAt_ok M p (by rw [hM.shape.1]; exact hp)]
    exact mapM_delAt _ _ hrow
  · rw [List.length_map, List.length_eraseIdx_of_lt (by rw [hM.shape.1]; exact hp), hM.shape.1]; rfl
  · intro row hr
    obtain ⟨r, hr', rfl⟩ := List.mem_map.1 hr
    rw [List.length_eraseIdx_of_lt (hrow r hr'), hM.shape.2 r (List.mem_of_mem_eraseIdx hr')]; rfl
  · intro i hi
    rw [hat]; exact hM.diag _ (hs i hi)
  · intro i hi j hj hij
    rw [hat]; exact hM.off _ (hs i hi) _ (hs j hj) (hinj i j hij)

theorem argmax_fold [LinearOrder K] (xs : List K) (k : ℕ) (b : K × ℕ) (l : List K)
    (hb : l[b.2]? = some b.1) (hl : ∀ i, xs[i]? = l[k + i]?)
    (hmax : ∀ i < k, ∀ x, l[i]? = some x → x ≤ b.1) (hlen : l.length = k + xs.length) :
    let q := (xs.zipIdx k).foldl (fun (b : K × ℕ) q => if b.1 < q.1 then q else b) b
    l[q.2]? = some q.1 ∧ ∀ x ∈ l, x ≤ q.1 := by
  induction xs generalizing k b with
  | nil =>
    refine ⟨hb, ?_⟩
    intro x hx
    obtain ⟨i, hi, rfl⟩ := List.mem_iff_getElem.1 hx
    exact hmax i (by simpa [hlen] using hi) _ (List.getElem?_eq_getElem hi)
  | cons a xs ih =>
    rw [List.zipIdx_cons, List.foldl_cons]
    have ha : l[k]? = some a := by
      have := hl 0
      simpa using this.symm
    apply ih (k + 1)
    · split
      · exact ha
      · exact hb
    · intro i
      have := hl (i + 1)
      rw [List.getElem?_cons_succ] at this
      rw [this]; congr 1; omega
    · intro i hi x hx
      rcases Nat.lt_succ_iff_lt_or_eq.1 hi with h | rfl
      · have h1 := hmax i h x hx
        split
        · exact h1.trans (le_of_lt (by assumption))
        · exact h1
      · rw [ha] at hx
        cases hx
        split
        · exact le_rfl
        · exact not_lt.1 (by assumption)
    · rw [hlen, List.length_cons]; omega

theorem argmax_ok [LinearOrder K] (l : List K) (hl : l ≠ []) :
    ∃ i, ∃ h : i < l.length, argmax l = .ok i ∧ ∀ x ∈ l, x ≤ l[i] := by
  rcases l with _ | ⟨a, xs⟩
  · exact absurd rfl hl
  · obtain ⟨h1, h2⟩ := argmax_fold xs 1 (a, 0) (a :: xs) rfl
      (by intro i; rw [Nat.add_comm, List.getElem?_cons_succ])
      (by intro i hi x hx
          have : i = 0 := by omega
          subst this
          cases hx; exact le_rfl)
      (by simp [Nat.add_comm])
    obtain ⟨h3, h4⟩ := List.getElem?_eq_some_iff.1 h1
    refine ⟨_, h3, rfl, ?_⟩
    rw [h4]; exact h2

theorem getElem?_flatten [Zero K] (M : Mat K) (r c : ℕ) (hM : M.HasShape r c) (i : ℕ)
    (hi : i < r * c) : M.flatten[i]? = some (M.at' (i / c) (i % c)) := by
  have hc : 0 < c := by
    rcases Nat.eq_zero_or_pos c with h | h
    · subst h; simp at hi
    · exact h
  induction M generalizing r i with
  | nil =>
    have := hM.1
    simp only [List.length_nil] at this
    subst this; simp at hi
  | cons row M ih =>
    have hrow : row.length = c := hM.2 row (by simp)
    obtain ⟨r, rfl⟩ : ∃ r', r = r' + 1 := ⟨M.length, by have := hM.1; simp at this; omega⟩
    have hM' : Mat.HasShape M r c :=
      ⟨by have := hM.1; simp at this; omega, fun x hx => hM.2 x (List.mem_cons_of_mem _ hx)⟩
    rw [List.flatten_cons]
    by_cases h : i < c
    · rw [List.getElem?_append_left (by omega), Nat.div_eq_of_lt h, Nat.mod_eq_of_lt h]
      unfold Mat.at'
      rw [List.getD_cons_zero, List.getD_eq_getElem _ _ (by omega), List.getElem?_eq_getElem]
    · rw [List.getElem?_append_right (by omega), hrow, ih r hM' (i - c) (by
        rw [Nat.add_mul, Nat.one_mul] at hi; omega)]
      have h1 : i / c = (i - c) / c + 1 := by
        rw [Nat.div_eq_sub_div hc (by omega)]
      have h2 : i % c = (i - c) % c := by
        rw [Nat.mod_eq_sub_mod (by omega)]
      rw [h1, h2]
      rfl

theorem length_flatten (M : Mat K) (r c : ℕ) (hM : M.HasShape r c) : M.flatten.length = r * c := by
  induction M generalizing r with
  | nil => have := hM.1; simp at this; subst this; simp
  | cons row M ih =>
    obtain ⟨r, rfl⟩ : ∃ r', r = r' + 1 := ⟨M.length, by have := hM.1; simp at this; omega⟩
    rw [List.flatten_cons, List.length_append, hM.2 row (by simp), ih r
      ⟨by have := hM.1; simp at this; omega, fun x hx => hM.2 x (List.mem_cons_of_mem _ hx)⟩]
    ring

/-- The maximum of a good matrix sits off the diagonal. -/
theorem argmax_good [Zero K] [LinearOrder K] (m : ℕ) (hm : 2 ≤ m) (M : Mat K) (hM : GoodSim m M) :
    ∃ mx, argmax M.flatten = .ok mx ∧ mx / m < m ∧ mx % m < m ∧ mx / m ≠ mx % m ∧
      ∀ i < m, ∀ j < m, M.at' i j ≤ M.at' (mx / m) (mx % m) := by
  have hlen := length_flatten M m m hM.shape
  obtain ⟨mx, h1, h2, h3⟩ := argmax_ok M.flatten (by
    intro h
    rw [h] at hlen
    simp at hlen; omega)
  rw [hlen] at h1
  have hdiv : mx / m < m := Nat.div_lt_of_lt_mul h1
  have hmod : mx % m < m := Nat.mod_lt _ (by omega)
  have hval := getElem?_flatten M m m hM.shape mx h1
  have hmax : ∀ i < m, ∀ j < m, M.at' i j ≤ M.at' (mx / m) (mx % m) := by
    intro i hi j hj
    have hij : i * m + j < m * m := by nlinarith
    have h4 := getElem?_flatten M m m hM.shape (i * m + j) hij
    have h5 : (i * m + j) / m = i := by
      rw [Nat.add_comm, Nat.add_mul_div_right _ _ (by omega), Nat.div_eq_of_lt hj, Nat.zero_add]
    have h6 : (i * m + j) % m = j := by
      rw [Nat.add_comm, Nat.add_mul_mod_self_right, Nat.mod_eq_of_lt hj]
    rw [h5, h6] at h4
    have h7 := h3 _ (List.mem_of_getElem? h4)
    have h8 : M.flatten[mx] = M.at' (mx / m) (mx % m) := by
      obtain ⟨_, e⟩ := List.getElem?_eq_some_iff.1 hval
      exact e
    rwa [h8] at h7
  refine ⟨mx, h2, hdiv, hmod, ?_, hmax⟩
  intro e
  have h9 := hmax 0 (by omega) 1 (by omega)
  rw [← e, hM.diag _ hdiv] at h9
  exact absurd (hM.off 0 (by omega) 1 (by omega) (by omega)) (not_lt.2 h9)

theorem perm_pop_two {α : Type*} (l : List α) (r c : ℕ) (hrc : r < c) (hc : c < l.length) :
    l.Perm (l[r] :: l[c] :: (l.eraseIdx r).eraseIdx (c - 1)) := by
  have h1 : l.Perm (l[r] :: l.eraseIdx r) := (List.getElem_cons_eraseIdx_perm (by omega)).symm
  have hlen : c - 1 < (l.eraseIdx r).length := by
    rw [List.length_eraseIdx_of_lt (by omega)]; omega
  have h2 : (l.eraseIdx r).Perm ((l.eraseIdx r)[c - 1] :: (l.eraseIdx r).eraseIdx (c - 1)) :=
    (List.getElem_cons_eraseIdx_perm hlen).symm
  have h3 : (l.eraseIdx r)[c - 1] = l[c] := by
    rw [List.getElem_eraseIdx_of_ge hlen (by omega)]
    congr 1; omega
  rw [h3] at h2
  exact h1.trans (h2.cons _)

theorem cgStep_good [Zero K] [LinearOrder K] (m : ℕ) (M : Mat K) (ix : List ℕ)
    (cl : List (List ℕ)) (hM : GoodSim (m + 2) M) (hix : ix.length = m + 2) :
    ∃ M' ix' a b, cgStep (m + 2) (M, ix, cl) = .ok (M', ix', cl ++ [[a, b]]) ∧ GoodSim m M' ∧
      ix'.length = m ∧ ix.Perm (a :: b :: ix') ∧
      ∃ r c, r < c ∧ c < m + 2 ∧ ix[r]? = some a ∧ ix[c]? = some b ∧
        (∀ i < m + 2, ∀ j < m + 2, M.at' i j ≤ M.at' r c ∨ M.at' i j ≤ M.at' c r) := by
  obtain ⟨mx, h1, h2, h3, h4, h5⟩ := argmax_good (m + 2) (by omega) M hM
  obtain ⟨r, hr⟩ : ∃ r, r = min (mx / (m + 2)) (mx % (m + 2)) := ⟨_, rfl⟩
  obtain ⟨c, hc⟩ : ∃ c, c = max (mx / (m + 2)) (mx % (m + 2)) := ⟨_, rfl⟩
  have hrc : r < c := by omega
  have hcm : c < m + 2 := by omega
  obtain ⟨M1, e1, g1, -⟩ := delRowCol_good (m + 1) M r hM (by omega)
  obtain ⟨M2, e2, g2, -⟩ := delRowCol_good m M1 (c - 1) g1 (by omega)
  have ec : ((c - 1 : ℕ) : ℤ) = (c : ℤ) - 1 := by omega
  rw [ec] at e2
  have d1 := delAt_ok ix r (by omega)
  have hlen1 : (ix.eraseIdx r).length = m + 1 := by
    rw [List.length_eraseIdx_of_lt (by omega)]; omega
  have d2 := delAt_ok (ix.eraseIdx r) (c - 1) (by omega)
  rw [ec] at d2
  refine ⟨M2, (ix.eraseIdx r).eraseIdx (c - 1), ix[r], ix[c], ?_, g2, ?_,
    perm_pop_two ix r c hrc (by omega), r, c, hrc, hcm, List.getElem?_eq_getElem _,
    List.getElem?_eq_getElem _, ?_⟩
  · unfold cgStep
    simp only [h1]
    rw [← hr, ← hc, getAt_ok ix r (by omega), getAt_ok ix c (by omega)]
    simp only [e1, e2, d1, d2]
  · rw [List.length_eraseIdx_of_lt (by omega)]; omega
  · intro i hi j hj
    have := h5 i hi j hj
    rcases le_total (mx / (m + 2)) (mx % (m + 2)) with h | h
    · left; rw [hr, hc, min_eq_left h, max_eq_right h]; exact this
    · right; rw [hr, hc, min_eq_right h, max_eq_left h]; exact this

theorem cgLoop_good [Zero K] [LinearOrder K] (n i todo m : ℕ) (M : Mat K) (ix : List ℕ)
    (cl : List (List ℕ)) (hm : n - 2 * i = m) (htodo : 2 * todo ≤ m) (hM : GoodSim m M)
    (hix : ix.length = m) :
    ∃ M' ix' new, cgLoop n i todo (M, ix, cl) = .ok (M', ix', cl ++ new) ∧
      ix'.length = m - 2 * todo ∧ (new.flatten ++ ix').Perm ix ∧ new.length = todo ∧
      ∀ c ∈ new, c.length = 2 := by
  induction todo generalizing i m M ix cl with
  | zero => exact ⟨M, ix, [], by simp [cgLoop], by omega, by simp, rfl, by simp⟩
  | succ todo ih =>
    obtain ⟨m, rfl⟩ : ∃ m', m = m' + 2 := ⟨m - 2, by omega⟩
    obtain ⟨M1, ix1, a, b, e, g, hl, hp, -⟩ := cgStep_good m M ix cl hM hix
    obtain ⟨M', ix', new, e', hl', hp', hn, h2⟩ :=
      ih (i + 1) m M1 ix1 (cl ++ [[a, b]]) (by omega) (by omega) g hl
    refine ⟨M', ix', [a, b] :: new, ?_, by omega, ?_, by simp [hn], ?_⟩
    · unfold cgLoop
      rw [hm, e]
      simp only
      rw [e']; simp
    · rw [List.flatten_cons]
      exact (List.Perm.cons _ (List.Perm.cons _ hp')).trans hp.symm
    · intro c hc
      rcases List.mem_cons.1 hc with rfl | hc
      · rfl
      · exact h2 c hc

theorem squareform_good [Zero K] [LinearOrder K] (n : ℕ) (hn : 2 ≤ n) (v : List K)
    (hv : v.length = n * (n - 1) / 2) (hpos : ∀ x ∈ v, 0 < x) :
    ∃ M, squareformVec v = .ok M ∧ GoodSim n M ∧
      ∀ i < n, ∀ j < n, i ≠ j → M.at' i j = v.getD ((upperPairs n).idxOf (min i j, max i j)) 0 := by
  refine ⟨_, squareformVec_eq n (by omega) v hv, ⟨Mat.build_shape _ _ _, ?_, ?_⟩, ?_⟩
  · intro i hi
    rw [Mat.at_build _ hi hi, if_pos rfl]
  · intro i hi j hj hij
    rw [Mat.at_build _ hi hj, if_neg hij]
    have h := idxOf_lt (n := n) (i := min i j) (j := max i j) (by omega) (by omega)
    rw [← hv] at h
    rw [List.getD_eq_getElem _ _ h]
    exact hpos _ (List.getElem_mem h)
  · intro i hi j hj hij
    rw [Mat.at_build _ hi hj, if_neg hij]

theorem cgClusters_good [Zero K] [LinearOrder K] (n : ℕ) (hn : 2 ≤ n) (v : List K)
    (hv : v.length = n * (n - 1) / 2) (hpos : ∀ x ∈ v, 0 < x) :
    ∃ cl, cgClusters n v = .ok cl ∧ cl.flatten.Perm (List.range n) ∧ cl.length = (n + 1) / 2 ∧
      ∀ c ∈ cl, c.length = 1 ∨ c.length = 2 := by
  obtain ⟨M, e, g, -⟩ := squareform_good n hn v hv hpos
  obtain ⟨M', ix', new, e', hl, hp, hn', h2⟩ := cgLoop_good n 0 (n / 2) n M (pyRange 0 n) []
    (by omega) (by omega) g (by simp [pyRange])
  have hr : pyRange 0 n = List.range n := by simp [pyRange, List.range_eq_range']
  unfold cgClusters
  rw [e]
  simp only
  rw [if_neg (by rw [g.shape.1, Mat.ncols_eq g.shape (by omega)]; simp), e']
  simp only [List.nil_append]
  rw [hr] at hp
  by_cases hodd : n % 2 = 0
  · rw [if_neg (by omega)]
    have : ix' = [] := List.length_eq_zero_iff.1 (by omega)
    subst this
    rw [List.append_nil] at hp
    exact ⟨new, rfl, hp, by omega, fun c hc => Or.inr (h2 c hc)⟩
  · rw [if_pos (by omega)]
    obtain ⟨a, rfl⟩ : ∃ a, ix' = [a] := List.length_eq_one_iff.1 (by omega)
    refine ⟨new ++ [[a]], rfl, ?_, ?_, ?_⟩
    · simpa using hp
    · simp; omega
    · intro c hc
      rcases List.mem_append.1 hc with hc | hc
      · exact Or.inr (h2 c hc)
      · rw [List.mem_singleton] at hc
        subst hc; exact Or.inl rfl

theorem flatten_map_get {α : Type*} (orig : List (List α)) :
    ((List.range orig.length).map fun i => orig.getD i []).flatten = orig.flatten := by
  congr 1
  apply List.ext_getElem (by simp)
  intro i h1 h2
  simp [h2]

theorem cgMerge_perm {γ : Type*} [Inhabited γ] (coarse : List γ → γ) (cl : List (List ℕ))
    (cols : List γ) (orig : List (List ℕ)) (hcl : cl.flatten.Perm (List.range orig.length)) :
    (cgMerge coarse cl cols orig).2.flatten.Perm orig.flatten := by
  have h1 : (cgMerge coarse cl cols orig).2.flatten =
      (cl.flatten.map fun i => orig.getD i []).flatten := by
    unfold cgMerge
    simp only
    clear hcl
    induction cl with
    | nil => rfl
    | cons c cl ih =>
      simp only [List.map_cons, List.flatten_cons, List.map_append, List.flatten_append, ih]
  rw [h1, ← flatten_map_get orig]
  exact (hcl.map _).flatten

end Verif.Lemmas

namespace Verif.Lemmas
open Verif Verif.Spec Verif.Model

variable {K : Type*}

theorem ceil_half (n t : ℕ) : ((n + 1) / 2 + 2 ^ t - 1) / 2 ^ t = (n + 2 ^ (t + 1) - 1) / 2 ^ (t + 1) := by
  have h : 1 ≤ 2 ^ t := Nat.one_le_two_pow
  have h1 : (n + 1) / 2 + 2 ^ t - 1 = (n + 2 ^ (t + 1) - 1) / 2 := by
    rw [pow_succ]; omega
  rw [h1, Nat.div_div_eq_div_mul, pow_succ, Nat.mul_comm]

/-- The similarity function returns one positive number per pair of columns. -/
def PosSim {γ : Type*} [Zero K] [LT K] (sim : List γ → List K) : Prop :=
  ∀ cols, (sim cols).length = cols.length * (cols.length - 1) / 2 ∧ ∀ x ∈ sim cols, 0 < x

theorem cgRounds_good {γ : Type*} [Inhabited γ] [Zero K] [LinearOrder K] (sim : List γ → List K)
    (coarse : List γ → γ) (hsim : PosSim sim) (Q : γ → List ℕ → Prop)
    (hQ : ∀ L : List (γ × List ℕ), L ≠ [] → (∀ q ∈ L, Q q.1 q.2) →
      Q (coarse (L.map Prod.fst)) (L.map Prod.snd).flatten) (t : ℕ) (cols : List γ)
    (orig : List (List ℕ)) (hn : 2 ^ t < cols.length) (ho : orig.length = cols.length)
    (hne : ∀ b ∈ orig, b ≠ [])
    (hinv : ∀ i < cols.length, Q (cols.getD i default) (orig.getD i [])) :
    ∃ cols' bins, cgRounds sim coarse t cols orig = .ok (cols', bins) ∧
      bins.flatten.Perm orig.flatten ∧ bins.length = (cols.length + 2 ^ t - 1) / 2 ^ t ∧
      cols'.length = bins.length ∧ (∀ b ∈ bins, b ≠ []) ∧
      ∀ i < cols'.length, Q (cols'.getD i default) (bins.getD i []) := by
  induction t generalizing cols orig with
  | zero => exact ⟨cols, orig, rfl, List.Perm.refl _, by simp [ho], ho.symm, hne, hinv⟩
  | succ t ih =>
    have h2 : 2 ≤ cols.length := by
      have : 1 ≤ 2 ^ t := Nat.one_le_two_pow
      rw [pow_succ] at hn; omega
    obtain ⟨hl, hpos⟩ := hsim cols
    obtain ⟨cl, e, hp, hlen, hsz⟩ := cgClusters_good cols.length h2 (sim cols) hl hpos
    have hmem : ∀ c ∈ cl, ∀ i ∈ c, i < cols.length := fun c hc i hi =>
      List.mem_range.1 (hp.mem_iff.1 (List.mem_flatten.2 ⟨c, hc, hi⟩))
    obtain ⟨cols', bins, e', hp', hlen', hlc, hne', hinv'⟩ := ih (cgMerge coarse cl cols orig).1
      (cgMerge coarse cl cols orig).2
      (by
        simp only [cgMerge, List.length_map, hlen]
        rw [pow_succ] at hn; omega)
      (by simp [cgMerge])
      (by
        intro b hb
        simp only [cgMerge, List.mem_map] at hb
        obtain ⟨c, hc, rfl⟩ := hb
        obtain ⟨i, hi⟩ : ∃ i, i ∈ c := by
          rcases c with _ | ⟨i, c⟩
          · have := hsz [] hc; simp at this
          · exact ⟨i, by simp⟩
        have hi' : i < orig.length := by rw [ho]; exact hmem c hc i hi
        intro h
        have h3 : orig.getD i [] = [] :=
          List.flatten_eq_nil_iff.1 h _ (List.mem_map.2 ⟨i, hi, rfl⟩)
        rw [List.getD_eq_getElem _ _ hi'] at h3
        exact hne _ (List.getElem_mem hi') h3)
      (by
        intro k hk
        simp only [cgMerge, List.length_map] at hk ⊢
        rw [List.getD_eq_getElem _ _ (by simpa using hk), List.getD_eq_getElem _ _ (by simpa using hk),
          List.getElem_map, List.getElem_map]
        have h4 := hQ (cl[k].map fun i => (cols.getD i default, orig.getD i []))
          (by
            intro h
            have := hsz _ (List.getElem_mem hk)
            rw [List.map_eq_nil_iff] at h
            rw [h] at this; simp at this)
          (by
            intro q hq
            obtain ⟨i, hi, rfl⟩ := List.mem_map.1 hq
            exact hinv i (hmem _ (List.getElem_mem hk) i hi))
        rw [List.map_map, List.map_map] at h4
        exact h4)
    refine ⟨cols', bins, ?_, ?_, ?_, hlc, hne', hinv'⟩
    · unfold cgRounds
      rw [e]
      exact e'
    · exact hp'.trans (cgMerge_perm coarse cl cols orig (by rw [ho]; exact hp))
    · rw [hlen']
      simp only [cgMerge, List.length_map, hlen]
      exact ceil_half _ _

/-- The first cluster of a round is a most similar pair. -/
theorem cgClusters_first [Zero K] [LinearOrder K] (n : ℕ) (hn : 2 ≤ n) (v : List K)
    (hv : v.length = n * (n - 1) / 2) (hpos : ∀ x ∈ v, 0 < x) :
    ∃ a b rest, cgClusters n v = .ok ([a, b] :: rest) ∧ a < b ∧ b < n ∧
      ∀ x ∈ v, x ≤ v.getD ((upperPairs n).idxOf (a, b)) 0 := by
  obtain ⟨M, e, g, hM⟩ := squareform_good n hn v hv hpos
  obtain ⟨m, rfl⟩ : ∃ m, n = m + 2 := ⟨n - 2, by omega⟩
  obtain ⟨M1, ix1, a, b, es, g1, hl1, -, r, c, hrc, hc, ha, hb, hmax⟩ :=
    cgStep_good m M (pyRange 0 (m + 2)) [] g (by simp [pyRange])
  obtain ⟨M', ix', new, e', hl, -, -, -⟩ := cgLoop_good (m + 2) 1 (m / 2) m M1 ix1 [[a, b]]
    (by omega) (by omega) g1 hl1
  have hget : ∀ i x : ℕ, (pyRange 0 (m + 2))[i]? = some x → i = x := by
    intro i x h
    rw [show pyRange 0 (m + 2) = List.range (m + 2) by simp [pyRange, List.range_eq_range']] at h
    obtain ⟨h1, h2⟩ := List.getElem?_eq_some_iff.1 h
    rw [List.getElem_range] at h2
    exact h2
  have hra := hget _ _ ha
  have hcb := hget _ _ hb
  subst hra hcb
  have hloop : cgLoop (m + 2) 0 ((m + 2) / 2) (M, pyRange 0 (m + 2), []) =
      .ok (M', ix', [r, c] :: new) := by
    rw [show (m + 2) / 2 = m / 2 + 1 by omega]
    unfold cgLoop
    rw [Nat.mul_zero, Nat.sub_zero, es]
    exact e'
  have hbound : ∀ x ∈ v, x ≤ v.getD ((upperPairs (m + 2)).idxOf (r, c)) 0 := by
    intro x hx
    obtain ⟨k, hk, rfl⟩ := List.mem_iff_getElem.1 hx
    have hk' : k < (upperPairs (m + 2)).length := by rw [length_upperPairs, ← hv]; exact hk
    obtain ⟨i, j, hij⟩ : ∃ i j, (upperPairs (m + 2))[k] = (i, j) := ⟨_, _, rfl⟩
    have hm := mem_upperPairs.1 (hij ▸ List.getElem_mem hk')
    have hv1 : M.at' i j = v[k] := by
      rw [hM i (by omega) j (by omega) (by omega), min_eq_left hm.1.le, max_eq_right hm.1.le, ← hij,
        (nodup_upperPairs _).idxOf_getElem, List.getD_eq_getElem _ _ hk]
    have h1 := hmax i (by omega) j (by omega)
    rw [hM r (by omega) c (by omega) (by omega), hM c (by omega) r (by omega) (by omega),
      min_eq_left hrc.le, max_eq_right hrc.le, min_eq_right hrc.le, max_eq_left hrc.le, or_self, hv1] at h1
    exact h1
  unfold cgClusters
  rw [e]
  simp only
  rw [if_neg (by rw [g.shape.1, Mat.ncols_eq g.shape (by omega)]; simp), hloop]
  simp only
  by_cases hodd : (m + 2) % 2 = 0
  · rw [if_neg (by omega)]
    exact ⟨r, c, _, rfl, hrc, hc, hbound⟩
  · rw [if_pos (by omega), getAt_ok ix' 0 (by omega)]
    exact ⟨r, c, _, rfl, hrc, hc, hbound⟩

end Verif.Lemmas
