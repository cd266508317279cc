/-
Systematic sweeps of Metropolis updates.
-/
import Verif.Lemmas.Recur
import Verif.Lemmas.Ergodic3
import Verif.Spec.Sweep

namespace Verif.Lemmas
open Verif Verif.Model Verif.Spec Prog

/-! ### Reversing spins -/

theorem negAt_turn (s : List ℤ) (i : ℕ) : negAt s i = turn i s := negAt_eq s i

theorem turn_turn (i : ℕ) (s : List ℤ) : turn i (turn i s) = s := by rw [← negAt_turn, ← negAt_turn, negAt_negAt]

theorem turn_length (i : ℕ) (s : List ℤ) : (turn i s).length = s.length := by simp [turn]

theorem getD_turn (i j : ℕ) (s : List ℤ) : (turn i s).getD j 0 = if i = j then -s.getD j 0 else s.getD j 0 := by
  unfold turn
  by_cases h : i = j
  · subst h
    rw [if_pos rfl]
    by_cases hi : i < s.length
    · rw [List.getD_eq_getElem _ _ (by simpa using hi), List.getElem_set_self]
    · rw [List.set_eq_of_length_le (by omega), List.getD_eq_default _ _ (by omega), neg_zero]
  · rw [if_neg h]
    simp [List.getElem?_set_ne h]

theorem list_ext_getD {s t : List ℤ} (hl : s.length = t.length) (h : ∀ j, s.getD j 0 = t.getD j 0) : s = t := by
  refine List.ext_getElem hl fun j h1 h2 => ?_
  have := h j
  rwa [List.getD_eq_getElem _ _ h1, List.getD_eq_getElem _ _ h2] at this

theorem turn_comm (i j : ℕ) (s : List ℤ) : turn i (turn j s) = turn j (turn i s) := by
  refine list_ext_getD (by simp [turn_length]) fun k => ?_
  simp only [getD_turn]
  split <;> split <;> rfl

theorem turns_nil (s : List ℤ) : turns [] s = s := rfl

theorem turns_cons (i : ℕ) (l : List ℕ) (s : List ℤ) : turns (i :: l) s = turns l (turn i s) := rfl

theorem turns_append (l l' : List ℕ) (s : List ℤ) : turns (l ++ l') s = turns l' (turns l s) := by
  unfold turns; rw [List.foldl_append]

theorem turns_turn (l : List ℕ) (i : ℕ) (s : List ℤ) : turns l (turn i s) = turn i (turns l s) := by
  induction l generalizing s with
  | nil => rfl
  | cons j l ih => rw [turns_cons, turns_cons, turn_comm, ih]

theorem turns_turns (l : List ℕ) (s : List ℤ) : turns l (turns l s) = s := by
  induction l generalizing s with
  | nil => rfl
  | cons j l ih => rw [turns_cons, turns_cons, ← turns_turn, turn_turn, ih]

theorem turn_mem {n : ℕ} {s : List ℤ} (i : ℕ) (hs : s ∈ words [1, -1] n) : turn i s ∈ words [1, -1] n :=
  flip_mem_words n i s hs

theorem turns_mem {n : ℕ} (l : List ℕ) : ∀ {s : List ℤ}, s ∈ words [1, -1] n → turns l s ∈ words [1, -1] n := by
  induction l with
  | nil => exact fun h => h
  | cons i l ih => exact fun h => ih (turn_mem i h)

theorem sweepBond_symm {E : List ℤ → ℝ} {n k : ℕ} {s t : List ℤ} (h : SweepBond E n k s t) : SweepBond E n k t s := by
  obtain ⟨l, i, l', h1, rfl, h3⟩ := h
  refine ⟨l, i, l', h1, (turn_turn i s).symm, ?_⟩
  rw [turns_turn, turn_turn]
  exact h3.symm

/-! ### Paths of updates -/

section
variable {α β : Type} [DecidableEq α] [DecidableEq β]

theorem bind_pos {p : Prog α} {q : α → Prog β} {Q : α → Prop} {R : β → Prop} (hp : FinDist p Q)
    (hq : ∀ a, Q a → FinDist (q a) R) (u : α) (t : β) (h1 : 0 < expectation (pointFn u) p)
    (h2 : 0 < expectation (pointFn t) (q u)) : 0 < expectation (pointFn t) (p.bind q) := by
  rw [expectation_bind]
  have h3 : expectation (fun a => 0 + expectation (pointFn t) (q u) * pointFn u a) p ≤
      expectation (fun a => expectation (pointFn t) (q a)) p := by
    refine hp.mono fun a ha => ?_
    unfold pointFn
    by_cases h : a = u
    · rw [if_pos h, mul_one, zero_add, h]
    · rw [if_neg h, mul_zero, add_zero]
      have := (hq a ha).mono (f := fun _ => 0) (g := fun b => if b = t then 1 else 0) fun b _ => by
        split <;> norm_num
      rwa [(hq a ha).const] at this
  rw [hp.affine, zero_add] at h3
  exact (mul_pos h2 h1).trans_le h3

end

section
variable {n : ℕ} (hn : 0 < n) (E : List ℤ → ℝ)
include hn

theorem metroIter_site (move : Move) (j : ℕ) (s : List ℤ) (e : ℝ) :
    metroIter move n true j (s, e) = (move (some (j % n)) s e).bind fun r => .ret (r.1, e + r.2) := by
  unfold metroIter siteArg
  simp only [if_true, if_neg hn.ne', Prog.ofPy, Prog.bind]

theorem finDist_site (j : ℕ) (st : List ℤ × ℝ) (hst : st ∈ withE E (words [1, -1] n)) :
    FinDist (metroIter (sampleMetropolis E) n true j st) (· ∈ withE E (words [1, -1] n)) := by
  obtain ⟨s, e⟩ := st
  obtain ⟨h1, h2⟩ := mem_withE.1 hst
  dsimp only at h1 h2
  subst h2
  rw [metroIter_site hn]
  exact finDist_bind (finDist_metropolis n E _ (Nat.mod_lt _ hn) s h1) fun r hr => finDist_ret (mem_withE.2 hr)

theorem finDist_sites (l : List ℕ) : ∀ st ∈ withE E (words [1, -1] n),
    FinDist (forEach (metroIter (sampleMetropolis E) n true) l st) (· ∈ withE E (words [1, -1] n)) :=
  finDist_forEach (I := (· ∈ withE E (words [1, -1] n))) l fun j _ => finDist_site hn E j

theorem expectation_site (f : List ℤ × ℝ → ℝ) (j : ℕ) (s : List ℤ) (hs : s ∈ words [1, -1] n) :
    expectation f (metroIter (sampleMetropolis E) n true j (s, E s)) =
      min 1 (Real.exp (-(E (turn (j % n) s) - E s))) * f (turn (j % n) s, E (turn (j % n) s)) +
        (1 - min 1 (Real.exp (-(E (turn (j % n) s) - E s)))) * f (s, E s) := by
  rw [metroIter_site hn, expectation_bind,
    expectation_metropolis E _ (j % n) s _ (by rw [(mem_words.1 hs).1]; exact Nat.mod_lt _ hn)]
  simp only [expectation_ret, add_zero, add_sub_cancel, negAt_turn]

/-- Every update may be accepted. -/
theorem turn_pos (j : ℕ) (s : List ℤ) (hs : s ∈ words [1, -1] n) :
    0 < expectation (pointFn (turn (j % n) s, E (turn (j % n) s))) (metroIter (sampleMetropolis E) n true j (s, E s)) := by
  rw [expectation_site hn E _ j s hs, pointFn_self, mul_one]
  exact add_pos_of_pos_of_nonneg (accept_pos _) (mul_nonneg (reject_nonneg _) (pointFn_nonneg _ _))

/-- An update that raises the energy may be rejected. -/
theorem keep_pos (j : ℕ) (s : List ℤ) (hs : s ∈ words [1, -1] n) (h : E s < E (turn (j % n) s)) :
    0 < expectation (pointFn (s, E s)) (metroIter (sampleMetropolis E) n true j (s, E s)) := by
  rw [expectation_site hn E _ j s hs, pointFn_self, mul_one]
  exact add_pos_of_nonneg_of_pos (mul_nonneg (accept_pos _).le (pointFn_nonneg _ _)) (reject_pos (by linarith))

/-- All updates may be accepted. -/
theorem turns_pos (l : List ℕ) : ∀ s ∈ words [1, -1] n,
    0 < expectation (pointFn (turns (l.map (· % n)) s, E (turns (l.map (· % n)) s)))
      (forEach (metroIter (sampleMetropolis E) n true) l (s, E s)) := by
  induction l with
  | nil => intro s _; simp [forEach, turns, pointFn]
  | cons j l ih =>
    intro s hs
    rw [forEach]
    exact bind_pos (finDist_site hn E j _ (mem_withE.2 ⟨hs, rfl⟩)) (finDist_sites hn E l) _ _ (turn_pos hn E j s hs)
      (ih _ (turn_mem _ hs))

/-- All updates but one may be accepted, if that one raises the energy. -/
theorem skip_pos (l : List ℕ) (j : ℕ) (l' : List ℕ) : ∀ s ∈ words [1, -1] n,
    E (turns (l.map (· % n)) s) < E (turn (j % n) (turns (l.map (· % n)) s)) →
    0 < expectation (pointFn (turn (j % n) (turns ((l ++ j :: l').map (· % n)) s),
        E (turn (j % n) (turns ((l ++ j :: l').map (· % n)) s))))
      (forEach (metroIter (sampleMetropolis E) n true) (l ++ j :: l') (s, E s)) := by
  induction l with
  | nil =>
    intro s hs h
    simp only [List.nil_append, List.map_cons, turns_cons, List.map_nil, turns_nil] at h ⊢
    rw [← turns_turn, turn_turn, forEach]
    exact bind_pos (finDist_site hn E j _ (mem_withE.2 ⟨hs, rfl⟩)) (finDist_sites hn E l') _ _ (keep_pos hn E j s hs h)
      (turns_pos hn E l' s hs)
  | cons i l ih =>
    intro s hs h
    simp only [List.cons_append, List.map_cons, turns_cons] at h ⊢
    rw [forEach]
    exact bind_pos (finDist_site hn E i _ (mem_withE.2 ⟨hs, rfl⟩)) (finDist_sites hn E _) _ _ (turn_pos hn E i s hs)
      (ih _ (turn_mem _ hs) h)

/-! ### Two rounds -/

omit hn in
theorem split_map {α β : Type} (f : α → β) : ∀ (l : List α) (a b : List β) (x : β), l.map f = a ++ x :: b →
    ∃ l1 y l2, l = l1 ++ y :: l2 ∧ l1.map f = a ∧ f y = x ∧ l2.map f = b := by
  intro l a b x h
  obtain ⟨l1, l2, rfl, h1, h2⟩ := List.map_eq_append_iff.1 h
  obtain ⟨y, l3, rfl, h3, h4⟩ := List.map_eq_cons_iff.1 h2
  exact ⟨l1, y, l3, rfl, h1, h3, h4⟩

variable (k : ℕ)

omit hn in
theorem turns_double (s : List ℤ) : turns (((List.range k ++ List.range k)).map (· % n)) s = s := by
  rw [List.map_append, turns_append, turns_turns]

/-- Connected states can be reached from each other, in one direction at least. -/
theorem bond_pos (s t : List ℤ) (hs : s ∈ words [1, -1] n) (h : SweepBond E n k s t) :
    t ∈ words [1, -1] n ∧
    (0 < expectation (pointFn (t, E t)) (forEach (metroIter (sampleMetropolis E) n true) (List.range k ++ List.range k)
        (s, E s)) ∨
      0 < expectation (pointFn (s, E s)) (forEach (metroIter (sampleMetropolis E) n true) (List.range k ++ List.range k)
        (t, E t))) := by
  obtain ⟨a, i, b, h1, rfl, h3⟩ := h
  have ht := turn_mem i hs
  refine ⟨ht, ?_⟩
  have h1' : (List.range k ++ List.range k).map (· % n) = a ++ i :: b := by
    rw [List.map_append]; exact h1
  obtain ⟨l1, j, l2, e, rfl, rfl, rfl⟩ := split_map _ _ _ _ _ h1'
  have hd : ∀ u, turns ((l1 ++ j :: l2).map (· % n)) u = u := fun u => by rw [← e]; exact turns_double k u
  rw [e]
  rcases lt_or_gt_of_ne h3 with h4 | h4
  · refine .inr ?_
    have := skip_pos hn E l1 j l2 (turn (j % n) s) ht (by rw [turns_turn, turn_turn]; exact h4)
    rwa [hd, turn_turn] at this
  · refine .inl ?_
    have := skip_pos hn E l1 j l2 s hs h4
    rwa [hd] at this

omit hn in
theorem forEach_blocks (move : Move) (st : List ℤ × ℝ) :
    forEach (metroIter move n true) (List.range k ++ List.range k) st =
      (metroRun move n true k st).bind (metroRun move n true k) := forEach_append _ _ _ st

/-- Rounds of `k` updates. -/
theorem ergodic_sweeps (hc : SweepsConnect E n k) :
    Ergodic (withE E (words [1, -1] n)) (fun st => boltzmann (words [1, -1] n) E st.1)
      (metroRun (sampleMetropolis E) n true k) := by
  have hne := words_ne_nil [1, -1] 1 (by simp) n
  have hm := goodMove_metropolis n E
  have hfin : ∀ st ∈ withE E (words [1, -1] n), FinDist (metroRun (sampleMetropolis E) n true k st)
      (· ∈ withE E (words [1, -1] n)) := finDist_sites hn E (List.range k)
  have hkeep : ∀ f : List ℤ × ℝ → ℝ, ((withE E (words [1, -1] n)).map fun st => boltzmann (words [1, -1] n) E st.1 *
      expectation f (metroRun (sampleMetropolis E) n true k st)).sum =
      ((withE E (words [1, -1] n)).map fun st => boltzmann (words [1, -1] n) E st.1 * f st).sum := fun f => by
    rw [sum_withE, sum_withE]
    exact keeps_metroRun hm hn true k f
  refine ⟨hfin, fun st _ => (boltzmann_pos _ _ hne _).le, by rw [sum_withE]; exact sum_boltzmann _ _ hne, hkeep, ?_⟩
  -- two rounds
  obtain ⟨N, hN⟩ := connected_pos (S := withE E (words [1, -1] n)) (w := fun st => boltzmann (words [1, -1] n) E st.1)
    (step := forEach (metroIter (sampleMetropolis E) n true) (List.range k ++ List.range k)) (finDist_sites hn E _)
    (fun st _ => boltzmann_pos _ _ hne _) (fun f => by
      simp only [forEach_blocks, expectation_bind]
      rw [hkeep fun st => expectation f (metroRun (sampleMetropolis E) n true k st), hkeep f])
    (fun st hst => by
      obtain ⟨s, e⟩ := st
      obtain ⟨h1, h2⟩ := mem_withE.1 hst
      dsimp only at h1 h2
      subst h2
      have := turns_pos hn E (List.range k ++ List.range k) s h1
      rwa [turns_double k] at this)
    (fun st st' => st'.2 = E st'.1 ∧ SweepBond E n k st.1 st'.1) (fun st hst st' hb => by
      obtain ⟨s, e⟩ := st
      obtain ⟨h1, h2⟩ := mem_withE.1 hst
      obtain ⟨t, e'⟩ := st'
      obtain ⟨h3, h4⟩ := hb
      dsimp only at h1 h2 h3 h4
      subst h2 h3
      obtain ⟨h5, h6⟩ := bond_pos hn E k s t h1 h4
      exact ⟨mem_withE.2 ⟨h5, rfl⟩, h6⟩)
    (fun st hst st' hst' => by
      obtain ⟨s, e⟩ := st
      obtain ⟨h1, h2⟩ := mem_withE.1 hst
      obtain ⟨t, e'⟩ := st'
      obtain ⟨h3, h4⟩ := mem_withE.1 hst'
      dsimp only at h1 h2 h3 h4
      subst h2 h4
      exact Relation.ReflTransGen.lift (p := fun st st' : List ℤ × ℝ => st'.2 = E st'.1 ∧ SweepBond E n k st.1 st'.1)
        (fun s => (s, E s)) (fun a b h => ⟨rfl, h⟩) _ _ (hc s h1 t h3))
  refine ⟨2 * N, fun st hst st' hst' => ?_⟩
  have h1 := hN st hst st' hst'
  have e : (fun (f : List ℤ × ℝ → ℝ) st => expectation f (forEach (metroIter (sampleMetropolis E) n true)
      (List.range k ++ List.range k) st)) =
      (fun f st => expectation f (metroRun (sampleMetropolis E) n true k st))^[2] := by
    funext f st
    rw [forEach_blocks, expectation_bind]
    rfl
  rwa [e, ← Function.iterate_mul] at h1

end

end Verif.Lemmas
