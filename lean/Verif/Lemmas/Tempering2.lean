import Verif.Lemmas.Tempering

namespace Verif.Lemmas
open Verif Verif.Model Verif.Spec Prog

section
variable (calcE : List ℤ → List ℝ → ℝ) (n k : ℕ)

/-- The configuration of a replica with parameters `th` after a burn-in from `s`. -/
noncomputable def chainCfg (th : List ℝ) (s : List ℤ) : Prog (List ℤ) :=
  (metroRun (sampleMetropolis fun s => calcE s th) n true k (s, calcE s th)).bind fun st =>
    (metroRun (sampleMetropolis fun s => calcE s th) n true k st).bind fun st' => .ret st'.1

theorem burnReplica_eq (rep : Replica) (s : List ℤ) (h : rep.kept = some [s]) :
    burnReplica calcE n k rep =
      (metroRun (sampleMetropolis fun s => calcE s rep.theta) n true k (s, calcE s rep.theta)).bind fun st =>
        (metroRun (sampleMetropolis fun s => calcE s rep.theta) n true k st).bind fun st' =>
          .ret { rep with sample := [st'.1], E := [st'.2], kept := some [st'.1] } := by
  unfold burnReplica generateSamplePy startStates
  rw [h]
  simp only [List.length_cons, List.length_nil, zero_add, ne_eq, not_true_eq_false, if_false, Prog.bind,
    Bool.false_eq_true, burnOr]
  rw [bind_assoc]
  congr 1
  funext st
  unfold metroRecord
  simp only [show List.range 1 = [0] from rfl, forEach, bind_assoc, Prog.bind, List.nil_append]

variable {calcE n k} (hn : 0 < n)
include hn

theorem returns_chainCfg (th : List ℝ) (s : List ℤ) (hs : s ∈ words [1, -1] n) :
    Returns (chainCfg calcE n k th s) fun s' => s' ∈ words [1, -1] n := by
  have hm := goodMove_metropolis n fun s => calcE s th
  exact returns_bind (returns_metroRun hm hn true k _ hs rfl) fun st hst =>
    returns_bind (returns_metroRun hm hn true k st hst.1 hst.2) fun st' hst' => returns_ret hst'.1

theorem expectation_burnReplica (rep : Replica) (s : List ℤ) (hs : s ∈ words [1, -1] n) (h : rep.kept = some [s])
    (F : Replica → ℝ) :
    expectation F (burnReplica calcE n k rep) =
      expectation (fun s' => F (holding calcE rep s')) (chainCfg calcE n k rep.theta s) := by
  have hm := goodMove_metropolis n fun s => calcE s rep.theta
  rw [burnReplica_eq calcE n k rep s h]
  unfold chainCfg
  simp only [expectation_bind, expectation_ret]
  refine expectation_congr _ (returns_metroRun hm hn true k _ hs rfl) fun st hst => ?_
  refine expectation_congr _ (returns_metroRun hm hn true k st hst.1 hst.2) fun st' hst' => ?_
  rw [hst'.2]
  rfl

theorem returns_burnReplica (rep : Replica) (h : rep.kept = none ∨ ∃ s ∈ words [1, -1] n, rep.kept = some [s]) :
    Returns (burnReplica calcE n k rep) fun r => ∃ s ∈ words [1, -1] n, r = holding calcE rep s := by
  have hm := goodMove_metropolis n fun s => calcE s rep.theta
  have key : ∀ s ∈ words [1, -1] n, ∀ rep' : Replica, rep'.theta = rep.theta → rep'.index = rep.index →
      Returns ((metroRun (sampleMetropolis fun s => calcE s rep.theta) n true k (s, calcE s rep.theta)).bind fun st =>
        (metroRun (sampleMetropolis fun s => calcE s rep.theta) n true k st).bind fun st' =>
          .ret { rep' with sample := [st'.1], E := [st'.2], kept := some [st'.1] })
        fun r => ∃ s ∈ words [1, -1] n, r = holding calcE rep s := by
    intro s hs rep' ht hi
    refine returns_bind (returns_metroRun hm hn true k _ hs rfl) fun st hst =>
      returns_bind (returns_metroRun hm hn true k st hst.1 hst.2) fun st' hst' => returns_ret ⟨st'.1, hst'.1, ?_⟩
    rw [hst'.2]
    unfold holding
    simp only [ht, hi]
  rcases h with h | ⟨s, hs, h⟩
  · unfold burnReplica generateSamplePy startStates
    rw [h, bind_assoc]
    dsimp only
    refine returns_bind (returns_randomSample n 1) fun x hx => ?_
    match x, hx with
    | [s], hx =>
      have := key s (hx.2 s (by simp)) rep rfl rfl
      rw [← burnReplica_eq calcE n k { rep with kept := some [s] } s rfl] at this
      unfold burnReplica generateSamplePy startStates at this
      exact this
  · rw [burnReplica_eq calcE n k rep s h]
    exact key s hs rep rfl rfl

theorem returns_burnIn (reps : List Replica)
    (h : ∀ rep ∈ reps, rep.kept = none ∨ ∃ s ∈ words [1, -1] n, rep.kept = some [s]) :
    Returns (burnInReplicas calcE n k reps) fun r =>
      ∃ c ∈ words (words [1, -1] n) reps.length, r = List.zipWith (holding calcE) reps c := by
  refine returns_mono (fun r hr => ?_) (returns_mapEach reps fun rep hrep => returns_burnReplica hn rep (h rep hrep))
  induction hr with
  | nil => exact ⟨[], by simp [words], rfl⟩
  | cons h1 _ ih =>
    obtain ⟨s, hs, rfl⟩ := h1
    obtain ⟨c, hc, rfl⟩ := ih fun rep hrep => h rep (by simp [hrep])
    exact ⟨s :: c, by rw [List.length_cons, words]; exact List.mem_flatMap.2 ⟨s, hs, List.mem_map.2 ⟨c, hc, rfl⟩⟩, rfl⟩

theorem expectation_burnIn (reps : List Replica) : ∀ c ∈ words (words [1, -1] n) reps.length,
    ∀ F : List Replica → ℝ,
    expectation F (burnInReplicas calcE n k (List.zipWith (holding calcE) reps c)) =
      expectation (fun c' => F (List.zipWith (holding calcE) reps c'))
        (mapEach (fun p : List ℝ × List ℤ => chainCfg calcE n k p.1 p.2) ((reps.map Replica.theta).zip c)) := by
  induction reps with
  | nil => intro c _ F; simp [burnInReplicas, mapEach]
  | cons rep reps ih =>
    intro c hc F
    rw [List.length_cons, words] at hc
    obtain ⟨s, hs, hc0⟩ := List.mem_flatMap.1 hc
    obtain ⟨c1, hc1, rfl⟩ := List.mem_map.1 hc0
    unfold burnInReplicas at ih ⊢
    simp only [List.zipWith_cons_cons, List.map_cons, List.zip_cons_cons, mapEach, expectation_bind, expectation_ret]
    rw [expectation_burnReplica hn (holding calcE rep s) s hs rfl]
    refine expectation_congr _ (returns_chainCfg hn rep.theta s hs) fun s' hs' => ?_
    rw [ih c1 hc1 fun as => F (holding calcE (holding calcE rep s) s' :: as)]
    rfl

end

/-! ### The chain of configurations -/

section
variable (calcE : List ℤ → List ℝ → ℝ) (n k : ℕ) (theta beta : List ℝ)

/-- One round of burn-in and exchanges, of the configurations alone. -/
noncomputable def cfgFull (c : List (List ℤ)) : Prog (List (List ℤ)) :=
  (mapEach (fun p : List ℝ × List ℤ => chainCfg calcE n k p.1 p.2) ((beta.map fun b => theta.map (· * b)).zip c)).bind
    (forEach (cfgStep (calcE · theta) beta) (List.range (beta.length - 1)))

/-- A function of the replicas that depends only on their configurations. -/
def Blind (F : List Replica → ℝ) (G : List (List ℤ) → ℝ) : Prop :=
  ∀ reps, Sync theta beta reps → ∀ c ∈ words (words [1, -1] n) beta.length,
    F (List.zipWith (holding calcE) reps c) = G c

variable {calcE n k theta beta} (hlin : ∀ s b, calcE s (theta.map (· * b)) = b * calcE s theta)
  (hb : ∀ b ∈ beta, b ≠ 0)
include hlin hb

theorem blind_exchanges (F : List Replica → ℝ) (G : List (List ℤ) → ℝ) (hF : Blind calcE n theta beta F G) (l : List ℕ)
    (hl : ∀ i ∈ l, i + 1 < beta.length) :
    Blind calcE n theta beta (fun reps => expectation F (forEach (exchangeStep calcE n beta) l reps))
      (fun c => expectation G (forEach (cfgStep (calcE · theta) beta) l c)) := by
  induction l with
  | nil => exact hF
  | cons i l ih =>
    intro reps hs c hc
    have hi := hl i (by simp)
    have hcl := (mem_words.1 hc).1
    have hrl := hs.length
    have ih' := ih fun j hj => hl j (by simp [hj])
    simp only [forEach]
    rw [exchangeStep_holding hlin hs hb n c (by omega) i (by omega)]
    unfold cfgStep
    simp only [Prog.bind, expectation]
    refine intervalIntegral.integral_congr fun u _ => ?_
    split
    · exact ih' _ (hs.swapIndex i (by omega)) _ (swapAt_mem_words [] i hc hi)
    · exact ih' _ hs _ hc

theorem blind_full (hn : 0 < n) (F : List Replica → ℝ) (G : List (List ℤ) → ℝ) (hF : Blind calcE n theta beta F G) :
    Blind calcE n theta beta (fun reps => expectation F (burnAndExchange calcE n k beta beta.length reps))
      (fun c => expectation G (cfgFull calcE n k theta beta c)) := by
  intro reps hs c hc
  have hrl := hs.length
  unfold burnAndExchange cfgFull
  dsimp only
  rw [expectation_bind, expectation_bind, expectation_burnIn hn reps c (by rw [hrl]; exact hc), sync_iff.1 hs]
  have hret : Returns (mapEach (fun p : List ℝ × List ℤ => chainCfg calcE n k p.1 p.2)
      ((beta.map fun b => theta.map (· * b)).zip c)) fun c' => c' ∈ words (words [1, -1] n) beta.length := by
    refine returns_mono (fun c' hc' => mem_words.2 ?_) (returns_mapEach (Q := fun _ s' => s' ∈ words [1, -1] n) _
      fun p hp => returns_chainCfg hn p.1 p.2 ((mem_words.1 hc).2 _ (List.of_mem_zip hp).2))
    have hl := hc'.length_eq
    rw [List.length_zip, List.length_map, (mem_words.1 hc).1, Nat.min_self] at hl
    refine ⟨hl.symm, fun x hx => ?_⟩
    obtain ⟨j, hj, rfl⟩ := List.getElem_of_mem hx
    exact (List.forall₂_iff_get.1 hc').2 j (by rw [hc'.length_eq]; exact hj) hj
  refine expectation_congr _ hret fun c' hc' => ?_
  exact blind_exchanges hlin hb F G hF _ (fun i hi => by have := List.mem_range.1 hi; omega) reps hs c' hc'

omit hlin hb in
theorem blind_forEach {step : Unit → List Replica → Prog (List Replica)} {cstep : Unit → List (List ℤ) → Prog (List (List ℤ))}
    (h : ∀ F G, Blind calcE n theta beta F G → Blind calcE n theta beta (fun reps => expectation F (step () reps))
      fun c => expectation G (cstep () c)) (l : List Unit) :
    ∀ F G, Blind calcE n theta beta F G → Blind calcE n theta beta (fun reps => expectation F (forEach step l reps))
      fun c => expectation G (forEach cstep l c) := by
  induction l with
  | nil => exact fun F G hF => hF
  | cons u l ih =>
    intro F G hF
    simp only [forEach, expectation_bind]
    exact h _ _ (ih F G hF)

end

/-! ### The product distribution -/

section
variable (calcE : List ℤ → List ℝ → ℝ) (n k : ℕ) (theta beta : List ℝ)

/-- The energy of all replicas together. -/
noncomputable def totalE (e : List ℤ → ℝ) (beta : List ℝ) (c : List (List ℤ)) : ℝ :=
  (List.zipWith (fun b s => b * e s) beta c).sum

theorem totalE_swap (e : List ℤ → ℝ) (i : ℕ) (hi : i + 1 < beta.length) (c : List (List ℤ)) (hc : c.length = beta.length) :
    totalE e beta (swapAt [] i c) - totalE e beta c =
      -((e (c.getD i []) - e (c.getD (i + 1) [])) * (beta.getD i 0 - beta.getD (i + 1) 0)) := by
  obtain ⟨pre, a, b, post, rfl, hi'⟩ := split_pair i beta hi
  obtain ⟨pre', x, y, post', rfl, hj'⟩ := split_pair i c (by omega)
  have ga : (pre ++ a :: b :: post).getD i 0 = a := by
    rw [hi', List.getD_append_right _ _ _ _ (le_refl _)]; simp
  have gb : (pre ++ a :: b :: post).getD (i + 1) 0 = b := by
    rw [hi', List.getD_append_right _ _ _ _ (by omega)]; simp
  have gx : (pre' ++ x :: y :: post').getD i [] = x := by
    rw [hj', List.getD_append_right _ _ _ _ (le_refl _)]; simp
  have gy : (pre' ++ x :: y :: post').getD (i + 1) [] = y := by
    rw [hj', List.getD_append_right _ _ _ _ (by omega)]; simp
  rw [ga, gb, gx, gy, swapAt_append [] i x y pre' post' hj']
  unfold totalE
  rw [List.zipWith_append (by omega), List.zipWith_append (by omega)]
  simp only [List.zipWith_cons_cons, List.sum_append, List.sum_cons]
  ring

theorem keeps_cfgStep (e : List ℤ → ℝ) (i : ℕ) (hi : i + 1 < beta.length) :
    KeepsG (words (words [1, -1] n) beta.length) (boltzmann (words (words [1, -1] n) beta.length) (totalE e beta))
      (cfgStep e beta i) := by
  have hp : ∀ c ∈ words (words ([1, -1] : List ℤ) n) beta.length, exchangeProb e beta i c =
      min 1 (Real.exp (-(totalE e beta (swapAt [] i c) - totalE e beta c))) := fun c hc => by
    rw [totalE_swap beta e i hi c (mem_words.1 hc).1, neg_neg]; rfl
  refine keepsG_accept (nodup_words (nodup_words (by decide) n) _) (a := exchangeProb e beta i) (swapAt [] i)
    (fun c hc => swapAt_mem_words [] i hc hi) (fun c hc => swapAt_swapAt [] i c (by rw [(mem_words.1 hc).1]; exact hi))
    (fun c hc => ?_) fun c hc f => ?_
  · rw [hp c hc, hp _ (swapAt_mem_words [] i hc hi), swapAt_swapAt [] i c (by rw [(mem_words.1 hc).1]; exact hi)]
    exact boltzmann_balance _ _ _ _
  · unfold cfgStep
    rw [expectation_rand_lt f _ _ (exchangeProb e beta i c) (le_min zero_le_one (Real.exp_pos _).le), expectation_ret, expectation_ret]
    have : min 1 (exchangeProb e beta i c) = exchangeProb e beta i c := by
      unfold exchangeProb; rw [← min_assoc, min_self]
    rw [this]

variable {calcE n k theta beta} (hlin : ∀ s b, calcE s (theta.map (· * b)) = b * calcE s theta)
include hlin

theorem weight_product (c : List (List ℤ)) (hc : c ∈ words (words [1, -1] n) beta.length) :
    boltzmann (words (words [1, -1] n) beta.length) (totalE (calcE · theta) beta) c =
      (List.zipWith (fun th s => boltzmann (words [1, -1] n) (calcE · th) s) (beta.map fun b => theta.map (· * b)) c).prod := by
  have := boltzmann_product (words ([1, -1] : List ℤ) n) (beta.map fun b s => b * calcE s theta) c
    (by rw [List.length_map]; exact (mem_words.1 hc).1)
  rw [List.length_map] at this
  simp only [List.zipWith_map_left] at this ⊢
  unfold totalE
  rw [this]
  simp only [hlin]

theorem keeps_cfgFull (hn : 0 < n) :
    KeepsG (words (words [1, -1] n) beta.length)
      (boltzmann (words (words [1, -1] n) beta.length) (totalE (calcE · theta) beta)) (cfgFull calcE n k theta beta) := by
  refine keepsG_bind (fun f => ?_) (keepsG_forEach _ fun i hi => keeps_cfgStep n beta _ i (by
    have := List.mem_range.1 hi; omega))
  have key := keepsTo_mapEach (S := words ([1, -1] : List ℤ) n) (w := fun th s => boltzmann (words [1, -1] n) (calcE · th) s)
    (k := chainCfg calcE n k) (out := fun _ s => s) (beta.map fun b => theta.map (· * b)) fun th _ F => by
      have hm := goodMove_metropolis n fun s => calcE s th
      have h1 := keeps_bind (keeps_metroRun hm hn true k) (keeps_metroRun hm hn true k) fun st => F st.1
      refine Eq.trans (list_sum_congr fun s _ => ?_) h1
      unfold chainCfg
      simp only [expectation_bind, expectation_ret]
  have := key f
  rw [List.length_map] at this
  refine Eq.trans (list_sum_congr fun c hc => ?_) (this.trans (list_sum_congr fun c hc => ?_))
  · rw [weight_product hlin c hc]
  · rw [weight_product hlin c hc]
    congr 2
    have hl := (mem_words.1 hc).1
    have : ∀ (l : List (List ℝ)) (c : List (List ℤ)), c.length = l.length → List.zipWith (fun _ s => s) l c = c := by
      intro l
      induction l with
      | nil => intro c hc; simp at hc; simp [hc]
      | cons x l ih =>
        intro c hc
        match c, hc with
        | s :: c, hc => simp [ih c (by simpa using hc)]
    exact this _ c (by simpa using hl)

end

end Verif.Lemmas
