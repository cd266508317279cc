import Verif.Lemmas.CppSampler

namespace Verif.Lemmas
open Verif Verif.Model Verif.Spec Prog

/-- The Metropolis update at a site keeps the Boltzmann distribution on every set of states that contains with
a state the state flipped at the site. -/
theorem keeps_flip {S : List (List ℤ)} (hS : S.Nodup) (i : ℕ) (hi : ∀ s ∈ S, i < s.length)
    (hc : ∀ s ∈ S, negAt s i ∈ S) (calcE : List ℤ → ℝ) :
    Keeps S (boltzmann S calcE) calcE
      fun st => (sampleMetropolis calcE (some i) st.1 st.2).bind fun r => .ret (r.1, st.2 + r.2) := by
  intro f
  obtain ⟨π, hπ⟩ : ∃ π, π = boltzmann S calcE := ⟨_, rfl⟩
  obtain ⟨a, ha⟩ : ∃ a : List ℤ → ℝ, a = fun s => min 1 (Real.exp (-(calcE (negAt s i) - calcE s))) :=
    ⟨_, rfl⟩
  have h1 : ∀ s ∈ S, boltzmann S calcE s * expectation f
      ((sampleMetropolis calcE (some i) s (calcE s)).bind fun r => .ret (r.1, calcE s + r.2)) =
      π s * f (s, calcE s) + (π s * a s * f (negAt s i, calcE (negAt s i)) - π s * a s * f (s, calcE s)) := by
    intro s hs
    rw [expectation_bind]
    simp only [expectation_ret]
    rw [expectation_metropolis calcE _ i s _ (hi s hs), ← hπ, ha]
    dsimp only
    rw [show calcE s + (calcE (negAt s i) - calcE s) = calcE (negAt s i) by ring, add_zero]
    ring
  rw [list_sum_congr h1, list_sum_add, list_sum_sub]
  have h2 : (S.map fun s => π s * a s * f (negAt s i, calcE (negAt s i))).sum =
      (S.map fun s => π s * a s * f (s, calcE s)).sum := by
    rw [← sum_invol S hS (fun s => negAt s i) hc (fun s _ => negAt_negAt s i)
      fun s => π s * a s * f (s, calcE s)]
    refine list_sum_congr fun s _ => ?_
    rw [ha, hπ]
    dsimp only
    rw [negAt_negAt, boltzmann_balance]
  rw [h2, sub_self, add_zero, hπ]

theorem returns_flip {S : List (List ℤ)} (i : ℕ) (hi : ∀ s ∈ S, i < s.length)
    (hc : ∀ s ∈ S, negAt s i ∈ S) (calcE : List ℤ → ℝ) (s : List ℤ) (hs : s ∈ S) :
    Returns (sampleMetropolis calcE (some i) s (calcE s)) fun r => r.1 ∈ S ∧ calcE s + r.2 = calcE r.1 := by
  refine returns_mono (fun r hr => ⟨?_, hr.2⟩) (returns_metropolis calcE i s (hi s hs))
  rcases hr.1 with h | h <;> rw [h]
  · exact hs
  · exact hc s hs

/-! ### The free sites -/

theorem cppNonIx_go (ix : List ℕ) (k : ℕ) : ∀ (m : ℕ) (acc pre rest : List ℕ), ix = pre ++ rest →
    (rest.Pairwise (· < ·)) → (∀ x ∈ rest, m ≤ x) →
    ((List.range' m k).foldl (fun (st : List ℕ × ℕ) i =>
      if st.2 < ix.length ∧ i ≠ ix.getD st.2 0 then (st.1 ++ [i], st.2)
      else if st.2 < ix.length then (st.1, st.2 + 1)
      else (st.1 ++ [i], st.2)) (acc, pre.length)).1 = acc ++ (List.range' m k).filter fun i => decide (i ∉ rest) := by
  induction k with
  | zero => intro m acc pre rest _ _ _; simp
  | succ k ih =>
    intro m acc pre rest hix hp hm
    rw [List.range'_succ, List.foldl_cons, List.filter_cons]
    cases rest with
    | nil =>
      have hl : ¬ pre.length < ix.length := by simp [hix]
      rw [if_neg (fun h => hl h.1), if_neg hl, ih (m + 1) (acc ++ [m]) pre [] hix List.Pairwise.nil (by simp)]
      simp
    | cons x rest =>
      have hl : pre.length < ix.length := by simp [hix]
      have hg : ix.getD pre.length 0 = x := by
        rw [hix, List.getD_append_right _ _ _ _ le_rfl, Nat.sub_self, List.getD_cons_zero]
      have hmx := hm x (by simp)
      have hp' := List.pairwise_cons.1 hp
      dsimp only
      by_cases h : m = x
      · subst h
        rw [hg, if_neg (fun h => h.2 rfl), if_pos hl]
        have := ih (m + 1) acc (pre ++ [m]) rest (by simp [hix]) hp'.2 fun y hy => hp'.1 y hy
        rw [List.length_append, List.length_singleton] at this
        rw [this]
        simp only [List.mem_cons, true_or, not_true_eq_false, decide_false, Bool.false_eq_true, if_false]
        congr 1
        refine List.filter_congr fun y hy => ?_
        have : m + 1 ≤ y := (List.mem_range'_1.1 hy).1
        have hne : y ≠ m := by omega
        simp [hne]
      · rw [hg, if_pos ⟨hl, h⟩, ih (m + 1) (acc ++ [m]) pre (x :: rest) hix hp]
        · have hm' : m ∉ x :: rest := by
            intro hmem
            rcases List.mem_cons.1 hmem with e | e
            · exact h e
            · have := hp'.1 m e; omega
          rw [if_pos (by simpa using hm')]
          simp
        · intro y hy
          rcases List.mem_cons.1 hy with e | e
          · omega
          · have := hp'.1 y e; omega

theorem cppNonIx_eq (n : ℕ) (ix : List ℕ) (h : ix.Pairwise (· < ·)) :
    cppNonIx n ix = (List.range n).filter fun i => decide (i ∉ ix) := by
  have := cppNonIx_go ix n 0 [] [] ix rfl h (by simp)
  unfold cppNonIx
  rw [List.range_eq_range']
  exact this.trans (List.nil_append _)

theorem length_free (n : ℕ) (ix : List ℕ) (h : ix.Nodup) (hn : ∀ i ∈ ix, i < n) :
    ix.length + ((List.range n).filter fun i => decide (i ∉ ix)).length = n := by
  have h1 : ((List.range n).filter fun i => decide (i ∈ ix)).length = ix.length := by
    refine List.Perm.length_eq ((List.perm_ext_iff_of_nodup (List.nodup_range.filter _) h).2 fun i => ?_)
    simp only [List.mem_filter, List.mem_range, decide_eq_true_eq]
    exact ⟨fun hi => hi.2, fun hi => ⟨hn i hi, hi⟩⟩
  have h2 := List.length_eq_length_filter_add (l := List.range n) fun i => decide (i ∈ ix)
  rw [List.length_range, h1] at h2
  simp only [decide_not] at *
  omega

/-! ### States with fixed spins -/

/-- The states with the given values of the fixed spins. -/
def fixedWords (n : ℕ) (fixed : List (ℕ × ℤ)) : List (List ℤ) :=
  (words [1, -1] n).filter fun s => decide (∀ p ∈ fixed, s.getD p.1 0 = p.2)

theorem mem_fixedWords {n : ℕ} {fixed : List (ℕ × ℤ)} {s : List ℤ} :
    s ∈ fixedWords n fixed ↔ s ∈ words [1, -1] n ∧ ∀ p ∈ fixed, s.getD p.1 0 = p.2 := by
  unfold fixedWords
  rw [List.mem_filter, decide_eq_true_eq]

theorem negAt_getD_ne (s : List ℤ) (i j : ℕ) (h : j ≠ i) : (negAt s i).getD j 0 = s.getD j 0 := by
  unfold negAt
  rw [List.getD_eq_getElem?_getD, List.getElem?_set_ne (Ne.symm h), ← List.getD_eq_getElem?_getD]

theorem negAt_mem_fixedWords {n : ℕ} {fixed : List (ℕ × ℤ)} {i : ℕ} (hi : i ∉ fixed.map Prod.fst) :
    ∀ s ∈ fixedWords n fixed, negAt s i ∈ fixedWords n fixed := by
  intro s hs
  obtain ⟨h1, h2⟩ := mem_fixedWords.1 hs
  refine mem_fixedWords.2 ⟨by rw [negAt_eq]; exact flip_mem_words n i s h1, fun p hp => ?_⟩
  have hne : p.1 ≠ i := fun e => hi (by rw [← e]; exact List.mem_map.2 ⟨p, hp, rfl⟩)
  rw [negAt_getD_ne _ _ _ hne, h2 p hp]

theorem nodup_fixedWords (n : ℕ) (fixed : List (ℕ × ℤ)) : (fixedWords n fixed).Nodup :=
  (nodup_words (by decide) n).filter _

theorem foldl_set_mem {n : ℕ} (fixed : List (ℕ × ℤ)) (hv : ∀ p ∈ fixed, p.2 = -1 ∨ p.2 = 1) :
    ∀ s ∈ words [1, -1] n, fixed.foldl (fun s p => s.set p.1 p.2) s ∈ words [1, -1] n := by
  induction fixed with
  | nil => exact fun s hs => hs
  | cons p l ih =>
    intro s hs
    refine ih (fun q hq => hv q (by simp [hq])) _ (set_mem_words hs ?_)
    rcases hv p (by simp) with h | h <;> rw [h] <;> simp

theorem foldl_set_getD (fixed : List (ℕ × ℤ)) : ∀ (s : List ℤ) (j : ℕ), j ∉ fixed.map Prod.fst →
    (fixed.foldl (fun s p => s.set p.1 p.2) s).getD j 0 = s.getD j 0 := by
  induction fixed with
  | nil => exact fun s j _ => rfl
  | cons p l ih =>
    intro s j hj
    simp only [List.map_cons, List.mem_cons, not_or] at hj
    rw [List.foldl_cons, ih _ _ hj.2, List.getD_eq_getElem?_getD, List.getElem?_set_ne (Ne.symm hj.1),
      ← List.getD_eq_getElem?_getD]

theorem foldl_set_fixed (fixed : List (ℕ × ℤ)) (hnd : (fixed.map Prod.fst).Nodup) : ∀ (s : List ℤ),
    (∀ p ∈ fixed, p.1 < s.length) → ∀ p ∈ fixed, (fixed.foldl (fun s p => s.set p.1 p.2) s).getD p.1 0 = p.2 := by
  induction fixed with
  | nil => simp
  | cons q l ih =>
    intro s hs p hp
    rw [List.map_cons, List.nodup_cons] at hnd
    rw [List.foldl_cons]
    rcases List.mem_cons.1 hp with rfl | hp
    · rw [foldl_set_getD _ _ _ hnd.1, List.getD_eq_getElem _ _ (by simpa using hs p (by simp)),
        List.getElem_set_self]
    · exact ih hnd.2 _ (fun r hr => by simpa using hs r (by simp [hr])) p hp

/-- The random state with the fixed values put in. -/
theorem fixed_start {n : ℕ} (fixed : List (ℕ × ℤ)) (hv : ∀ p ∈ fixed, p.2 = -1 ∨ p.2 = 1)
    (hnd : (fixed.map Prod.fst).Nodup) (hn : ∀ p ∈ fixed, p.1 < n) (s : List ℤ) (hs : s ∈ words [1, -1] n) :
    ((fixed.map Prod.fst).zip (fixed.map Prod.snd)).foldl (fun s p => s.set p.1 p.2) s ∈ fixedWords n fixed := by
  rw [show (fixed.map Prod.fst).zip (fixed.map Prod.snd) = fixed by
    rw [List.zip_map']; exact List.map_id' _]
  exact mem_fixedWords.2 ⟨foldl_set_mem fixed hv s hs,
    foldl_set_fixed fixed hnd s (by rw [(mem_words.1 hs).1]; exact hn)⟩

/-! ### The conditional chain -/

section
variable {S : List (List ℤ)} {w calcE : List ℤ → ℝ} {cmove : CppMove} {sites : List ℕ}
  (hsite : ∀ i ∈ sites, Keeps S w calcE fun st => (cmove i st.1).bind fun r => .ret (r.1, st.2 + r.2))
  (hret : ∀ i ∈ sites, ∀ s ∈ S, Returns (cmove i s) fun r => r.1 ∈ S ∧ calcE s + r.2 = calcE r.1)
  (hpos : 0 < sites.length)

theorem getD_sites (i : ℕ) (hi : i < sites.length) : sites.getD i 0 ∈ sites := by
  rw [List.getD_eq_getElem _ _ hi]; exact List.getElem_mem hi

include hsite hpos in
theorem keeps_condBody (systematic : Bool) (c : ℕ) :
    Keeps S w calcE (cppCondBody cmove sites sites.length systematic c) := by
  unfold cppCondBody cppSite
  cases systematic
  · simp only [Bool.false_eq_true, if_false]
    exact keeps_average hpos fun i hi => hsite _ (getD_sites i hi)
  · simp only [if_true, if_neg hpos.ne', Prog.bind]
    exact hsite _ (getD_sites _ (Nat.mod_lt _ hpos))

include hret hpos in
theorem returns_condBody (systematic : Bool) (c : ℕ) (st : List ℤ × ℝ) (hst : st.1 ∈ S ∧ st.2 = calcE st.1) :
    Returns (cppCondBody cmove sites sites.length systematic c st) fun r => r.1 ∈ S ∧ r.2 = calcE r.1 := by
  obtain ⟨s, e⟩ := st
  obtain ⟨h1, h2⟩ := hst
  dsimp only at h1 h2
  subst h2
  have key : ∀ i < sites.length, Returns ((cmove (sites.getD i 0) s).bind fun r => .ret (r.1, calcE s + r.2))
      fun r => r.1 ∈ S ∧ r.2 = calcE r.1 := fun i hi =>
    returns_bind (hret _ (getD_sites i hi) s h1) fun r hr => returns_ret hr
  unfold cppCondBody cppSite
  cases systematic
  · simp only [Bool.false_eq_true, if_false]
    exact returns_randint _ hpos _ key
  · simp only [if_true, if_neg hpos.ne', Prog.bind]
    exact key _ (Nat.mod_lt _ hpos)

end

end Verif.Lemmas
