import Verif.Lemmas.TemperErgodic
import Mathlib.Data.List.Perm.Basic

namespace Verif.Lemmas
open Verif Verif.Model Verif.Spec Prog

section
variable {calcE : List ℤ → List ℝ → ℝ} {n k : ℕ} {theta beta : List ℝ}
  (hlin : ∀ s b, calcE s (theta.map (· * b)) = b * calcE s theta) (hb : ∀ b ∈ beta, b ≠ 0) (hn : 0 < n)
include hlin hb hn

/-! ### All rows of a sample -/

theorem blind_visits (l : List Unit) : ∀ (F : List (List (List ℤ)) → ℝ) (reps : List Replica), Sync theta beta reps →
    ∀ c ∈ words (words [1, -1] n) beta.length,
    expectation (fun tr => F (tr.map configs)) (visits (fun _ : Unit => burnAndExchange calcE n k beta beta.length) l
      (List.zipWith (holding calcE) reps c)) =
    expectation F (visits (fun _ : Unit => cfgFull calcE n k theta beta) l c) := by
  induction l with
  | nil => intro F reps _ c _; rfl
  | cons u l ih =>
    intro F reps hs c hc
    simp only [visits, expectation_bind, expectation_ret]
    refine blind_full hlin hb hn (fun reps' => expectation (fun tr => F (configs reps' :: tr.map configs))
      (visits (fun _ : Unit => burnAndExchange calcE n k beta beta.length) l reps'))
      (fun c' => expectation (fun tr => F (c' :: tr)) (visits (fun _ : Unit => cfgFull calcE n k theta beta) l c'))
      (fun reps' hs' c' hc' => ?_) reps hs c hc
    dsimp only
    rw [configs_holding _ _ (by rw [(mem_words.1 hc').1, hs'.length])]
    exact ih (fun tr => F (c' :: tr)) reps' hs' c' hc'

/-- The rows of each replica, from the configurations after each round. -/
def columns (R : ℕ) (tr : List (List (List ℤ))) : List (List (List ℤ)) :=
  (List.range R).map fun j => tr.map fun c => c.getD j []

theorem returns_round (reps : List Replica)
    (h : Consistent (calcE · theta) theta beta reps ∧ ∀ s ∈ configs reps, s ∈ words [1, -1] n) :
    Returns (burnAndExchange calcE n k beta beta.length reps) fun reps' =>
      Consistent (calcE · theta) theta beta reps' ∧ ∀ s ∈ configs reps', s ∈ words [1, -1] n := by
  obtain ⟨hs, he⟩ := holding_of_consistent hlin h.1
  have hcl : (configs reps).length = reps.length := by simp [configs]
  have hr := ready_holding (calcE := calcE) (n := n) hs rfl (configs reps) (mem_words.2 ⟨hcl, h.2⟩)
  rw [← he] at hr
  refine returns_mono ?_ (returns_burnAndExchange (k := k) hn hlin hb hr)
  rintro r ⟨reps', c', h1, h2, h3, rfl⟩
  obtain ⟨h4, h5⟩ := mem_words.1 h2
  have h6 : c'.length = reps'.length := by rw [h4, h1.length]
  exact ⟨consistent_holding hlin h1 c' h6, by rw [configs_holding _ _ h6]; exact h5⟩

omit hlin hb hn in
theorem columns_tempering (m : ℕ) (reps : List Replica) (tr : List (List Replica)) (hlen : tr.length = m)
    (hl : ∀ r ∈ tr, r.length = beta.length) :
    ((List.range beta.length).map fun j => ((List.range m).map fun b =>
      (List.range beta.length).map fun j => (((reps :: tr).getD (b + 1) reps).getD j default).sample.getD 0 []).map
        fun row => row.getD j []) = columns beta.length (tr.map configs) := by
  unfold columns
  refine List.map_congr_left fun j hj => ?_
  have hj := List.mem_range.1 hj
  rw [List.map_map, List.map_map]
  refine List.ext_getElem (by simp [hlen]) fun b hb1 hb2 => ?_
  simp only [List.length_map] at hb2
  rw [List.getElem_map, List.getElem_map, List.getElem_range, Function.comp, Function.comp, getD_map_range _ _ _ hj,
    List.getD_cons_succ, List.getD_eq_getElem tr _ hb2]
  have h1 := hl tr[b] (List.getElem_mem _)
  have h2 : (configs tr[b]).getD j [] = (configs tr[b])[j]'(by rw [configs, List.length_map, h1]; exact hj) :=
    List.getD_eq_getElem _ _ _
  rw [h2, List.getD_eq_getElem tr[b] _ (by rw [h1]; exact hj)]
  simp [configs]

/-- The sample of all replicas, as a function of the chain of configurations. -/
theorem expectation_tempering (G : List (List (List ℤ)) → ℝ) (m : ℕ) (reps : List Replica)
    (h : Consistent (calcE · theta) theta beta reps) (hw : ∀ s ∈ configs reps, s ∈ words [1, -1] n) :
    expectation (fun out => G out.1.1) (temperingSample calcE n k beta beta.length m reps) =
      expectation (fun tr => G (columns beta.length tr)) (visits (fun _ : Unit => cfgFull calcE n k theta beta)
        ((List.range m).flatMap fun _ => [()]) (configs reps)) := by
  obtain ⟨hs, he⟩ := holding_of_consistent hlin h
  have hcl : (configs reps).length = beta.length := by rw [configs, List.length_map, hs.length]
  have key := blind_visits (k := k) hlin hb hn ((List.range m).flatMap fun _ => [()]) (fun tr => G (columns beta.length tr))
    reps hs (configs reps) (mem_words.2 ⟨hcl, hw⟩)
  rw [← he] at key
  rw [← key, temperingSample_visits, expectation_bind]
  simp only [expectation_ret]
  refine expectation_congr _ (returns_visits (I := fun s => Consistent (calcE · theta) theta beta s ∧
    ∀ x ∈ configs s, x ∈ words [1, -1] n) _ _ (fun _ _ s hs => returns_round hlin hb hn s hs) reps ⟨h, hw⟩)
    fun tr htr => ?_
  rw [columns_tempering m reps tr (by rw [htr.1]; simp) fun r hr => (htr.2 r hr).1.length_eq]

/-! ### States that are never left -/

omit hlin hb in
theorem returns_burnReplica_trap (rep : Replica) (s : List ℤ) (hs : s ∈ words [1, -1] n) :
    Returns (burnReplica calcE n k (holding calcE rep s)) fun r => ∃ t ∈ words [1, -1] n,
      SweepClass (fun s => calcE s rep.theta) n k s t ∧ r = holding calcE rep t := by
  rw [burnReplica_eq calcE n k (holding calcE rep s) s rfl]
  refine returns_bind (returns_trap_first hn (fun s => calcE s rep.theta) s s hs .refl) ?_
  rintro r ⟨y, h1, h2, rfl⟩
  refine returns_bind (returns_trap_second hn (fun s => calcE s rep.theta) s y h1 h2) ?_
  rintro r ⟨y', h3, h4, rfl⟩
  exact returns_ret ⟨y', h3, h4, rfl⟩

theorem returns_burn_trap {reps : List Replica} (hs : Sync theta beta reps) : ∀ c : List (List ℤ), c.length = reps.length →
    (∀ s ∈ c, s ∈ words [1, -1] n) →
    Returns (burnInReplicas calcE n k (List.zipWith (holding calcE) reps c)) fun r => ∃ c' : List (List ℤ),
      List.Forall₂ (SweepClass (calcE · theta) n k) c c' ∧ (∀ s ∈ c', s ∈ words [1, -1] n) ∧
        r = List.zipWith (holding calcE) reps c' := by
  unfold burnInReplicas
  induction hs with
  | nil =>
    intro c hc _
    simp at hc
    subst hc
    exact returns_ret ⟨[], .nil, by simp, rfl⟩
  | @cons rep b reps beta h _ ih =>
    intro c hc hw
    match c, hc with
    | s :: c, hc =>
      rw [List.zipWith_cons_cons, mapEach]
      refine returns_bind (returns_burnReplica_trap hn rep s (hw s (by simp))) ?_
      rintro _ ⟨t, h1, h2, rfl⟩
      refine returns_bind (ih (fun b' hb' => hb b' (by simp [hb'])) c (by simpa using hc) fun x hx => hw x (by simp [hx])) ?_
      rintro _ ⟨c', h3, h4, rfl⟩
      refine returns_ret ⟨t :: c', .cons ?_ h3, fun x hx => ?_, rfl⟩
      · rw [h] at h2
        simp only [hlin] at h2
        exact Relation.ReflTransGen.mono (fun a b' hab => (sweepBond_scale (hb b (by simp))).1 hab) _ _ h2
      · rcases List.mem_cons.1 hx with rfl | hx
        · exact h1
        · exact h4 x hx

/-- After a round the configurations are connected with those before it, in some order. -/
theorem returns_round_trap (c0 : List (List ℤ)) (reps : List Replica)
    (h : (Consistent (calcE · theta) theta beta reps ∧ ∀ s ∈ configs reps, s ∈ words [1, -1] n) ∧
      ∃ p, p.Perm c0 ∧ List.Forall₂ (SweepClass (calcE · theta) n k) p (configs reps)) :
    Returns (burnAndExchange calcE n k beta beta.length reps) fun reps' =>
      (Consistent (calcE · theta) theta beta reps' ∧ ∀ s ∈ configs reps', s ∈ words [1, -1] n) ∧
      ∃ p, p.Perm c0 ∧ List.Forall₂ (SweepClass (calcE · theta) n k) p (configs reps') := by
  obtain ⟨⟨h1, h2⟩, p, h3, h4⟩ := h
  obtain ⟨hs, he⟩ := holding_of_consistent hlin h1
  have hcl : (configs reps).length = reps.length := by simp [configs]
  have hrl := hs.length
  have hround := returns_round (k := k) hlin hb hn reps ⟨h1, h2⟩
  refine returns_mono (fun r hr => ⟨hr.1, hr.2⟩) (returns_and hround ?_)
  unfold burnAndExchange
  have hburn := returns_burn_trap (k := k) hlin hb hn hs (configs reps) hcl h2
  rw [← he] at hburn
  refine returns_bind hburn ?_
  rintro _ ⟨c', h5, h6, rfl⟩
  have hcl' : c'.length = reps.length := by rw [← h5.length_eq, hcl]
  refine returns_mono ?_ (returns_exchanges (n := n) hlin hb (List.range (beta.length - 1))
    (fun i hi => by have := List.mem_range.1 hi; omega) reps c' hs hcl')
  rintro _ ⟨reps', c'', h7, h8, h9, rfl⟩
  rw [configs_holding _ _ h8]
  have hperm := h9.map Prod.snd
  rw [labels_snd _ _ h8, labels_snd _ _ hcl'] at hperm
  have h10 : List.Forall₂ (SweepClass (calcE · theta) n k) p c' := by
    have : ∀ (a b c : List (List ℤ)), List.Forall₂ (SweepClass (calcE · theta) n k) a b →
        List.Forall₂ (SweepClass (calcE · theta) n k) b c → List.Forall₂ (SweepClass (calcE · theta) n k) a c := by
      intro a b c hab
      induction hab generalizing c with
      | nil => intro h; exact h
      | cons x _ ih =>
        intro h
        cases h with
        | cons y h => exact .cons (Relation.ReflTransGen.trans x y) (ih _ h)
    exact this _ _ _ h4 h5
  have hf : List.Forall₂ (flip (SweepClass (calcE · theta) n k)) c' p := List.Forall₂.flip h10
  obtain ⟨p', hp1, hp2⟩ := List.perm_comp_forall₂ hperm hf
  exact ⟨p', hp2.trans h3, hp1.flip⟩

end

end Verif.Lemmas
