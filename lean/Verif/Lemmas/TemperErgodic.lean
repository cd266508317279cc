import Verif.Lemmas.Tempering4
import Verif.Lemmas.Sweep3

namespace Verif.Lemmas
open Verif Verif.Model Verif.Spec Prog

/-! ### Bonds at other temperatures -/

theorem sweepBond_scale {E : List ℤ → ℝ} {n k : ℕ} {b : ℝ} (hb : b ≠ 0) {s t : List ℤ} :
    SweepBond (fun s => b * E s) n k s t ↔ SweepBond E n k s t := by
  unfold SweepBond
  simp only [ne_eq, mul_right_inj' hb]

/-! ### Products -/

section
variable {α : Type} [DecidableEq α] {ι : Type}

theorem mapEach_pos {f : ι → Prog α} {Q : ι → α → Prop} (l : List ι) (hf : ∀ i ∈ l, FinDist (f i) (Q i)) :
    ∀ as : List α, List.Forall₂ (fun i a => 0 < expectation (pointFn a) (f i)) l as →
      0 < expectation (pointFn as) (mapEach f l) := by
  induction l with
  | nil =>
    intro as h
    cases h
    simp [mapEach, pointFn]
  | cons i l ih =>
    intro as h
    cases h with
    | @cons _ a _ as h1 h2 =>
      rw [mapEach]
      have hl : FinDist (mapEach f l) (List.Forall₂ Q l) := finDist_mapEach l fun j hj => hf j (by simp [hj])
      refine bind_pos (hf i (by simp)) (R := fun _ => True)
        (fun b _ => finDist_bind hl fun _ _ => finDist_ret trivial) a _ h1 ?_
      refine bind_pos hl (R := fun _ => True) (fun _ _ => finDist_ret trivial) as _
        (ih (fun j hj => hf j (by simp [hj])) as h2) ?_
      simp [pointFn]

end

/-- Two lists that differ in one place, by a pair of a relation. -/
def OneOf {α : Type} (B : α → α → Prop) (c d : List α) : Prop :=
  ∃ pre s t post, c = pre ++ s :: post ∧ d = pre ++ t :: post ∧ B s t

theorem oneOf_connect {α : Type} {B : α → α → Prop} {S : List α} (h : ∀ s ∈ S, ∀ t ∈ S, Relation.ReflTransGen B s t)
    (R : ℕ) : ∀ c ∈ words S R, ∀ d ∈ words S R, Relation.ReflTransGen (OneOf B) c d := by
  induction R with
  | zero =>
    intro c hc d hd
    simp only [words, List.mem_singleton] at hc hd
    rw [hc, hd]
  | succ R ih =>
    intro c hc d hd
    rw [words] at hc hd
    obtain ⟨s, hs, hc0⟩ := List.mem_flatMap.1 hc
    obtain ⟨c1, hc1, rfl⟩ := List.mem_map.1 hc0
    obtain ⟨t, ht, hd0⟩ := List.mem_flatMap.1 hd
    obtain ⟨d1, hd1, rfl⟩ := List.mem_map.1 hd0
    have h1 : Relation.ReflTransGen (OneOf B) (s :: c1) (t :: c1) :=
      Relation.ReflTransGen.lift (p := OneOf B) (fun x => x :: c1) (fun a b h => ⟨[], a, b, c1, rfl, rfl, h⟩) _ _
        (h s hs t ht)
    have h2 : Relation.ReflTransGen (OneOf B) (t :: c1) (t :: d1) :=
      Relation.ReflTransGen.lift (p := OneOf B) (fun x => t :: x) (fun a b h => by
        obtain ⟨pre, x, y, post, rfl, rfl, h⟩ := h
        exact ⟨t :: pre, x, y, post, rfl, rfl, h⟩) _ _ (ih c1 hc1 d1 hd1)
    exact h1.trans h2

/-! ### One burn-in -/

section
variable {calcE : List ℤ → List ℝ → ℝ} {n k : ℕ} (hn : 0 < n)
include hn

theorem finDist_chainCfg (th : List ℝ) (s : List ℤ) (hs : s ∈ words [1, -1] n) :
    FinDist (chainCfg calcE n k th s) (· ∈ words [1, -1] n) :=
  finDist_bind (finDist_sites hn (fun s => calcE s th) (List.range k) (s, calcE s th) (mem_withE.2 ⟨hs, rfl⟩))
    fun st hst => finDist_bind (finDist_sites hn (fun s => calcE s th) (List.range k) st hst) fun _ hst' =>
      finDist_ret (mem_withE.1 hst').1

omit hn in
theorem chainCfg_blocks (th : List ℝ) (s : List ℤ) : chainCfg calcE n k th s =
    (forEach (metroIter (sampleMetropolis fun s => calcE s th) n true) (List.range k ++ List.range k)
      (s, calcE s th)).bind fun st => .ret st.1 := by
  rw [forEach_blocks, bind_assoc]
  rfl

theorem chainCfg_pos (th : List ℝ) (s t : List ℤ) (hs : s ∈ words [1, -1] n)
    (h : 0 < expectation (pointFn (t, calcE t th)) (forEach (metroIter (sampleMetropolis fun s => calcE s th) n true)
      (List.range k ++ List.range k) (s, calcE s th))) :
    0 < expectation (pointFn t) (chainCfg calcE n k th s) := by
  rw [chainCfg_blocks]
  refine bind_pos (finDist_sites hn (fun s => calcE s th) _ (s, calcE s th) (mem_withE.2 ⟨hs, rfl⟩))
    (R := fun _ => True) (fun _ _ => finDist_ret trivial) _ _ h ?_
  simp [pointFn]

theorem chainCfg_stay (th : List ℝ) (s : List ℤ) (hs : s ∈ words [1, -1] n) :
    0 < expectation (pointFn s) (chainCfg calcE n k th s) := by
  refine chainCfg_pos hn th s s hs ?_
  have := turns_pos hn (fun s => calcE s th) (List.range k ++ List.range k) s hs
  rwa [turns_double k] at this

theorem chainCfg_bond (th : List ℝ) (s t : List ℤ) (hs : s ∈ words [1, -1] n)
    (h : SweepBond (fun s => calcE s th) n k s t) : t ∈ words [1, -1] n ∧
      (0 < expectation (pointFn t) (chainCfg calcE n k th s) ∨ 0 < expectation (pointFn s) (chainCfg calcE n k th t)) := by
  obtain ⟨h1, h2⟩ := bond_pos hn (fun s => calcE s th) k s t hs h
  exact ⟨h1, h2.imp (chainCfg_pos hn th s t hs) (chainCfg_pos hn th t s h1)⟩

theorem returns_chainCfg_trap (th : List ℝ) (s : List ℤ) (hs : s ∈ words [1, -1] n) :
    Returns (chainCfg calcE n k th s) fun t => t ∈ words [1, -1] n ∧ SweepClass (fun s => calcE s th) n k s t := by
  unfold chainCfg
  refine returns_bind (returns_trap_first hn (fun s => calcE s th) s s hs .refl) ?_
  rintro r ⟨y, h1, h2, rfl⟩
  refine returns_bind (returns_trap_second hn (fun s => calcE s th) s y h1 h2) ?_
  rintro r ⟨y', h3, h4, rfl⟩
  exact returns_ret ⟨h3, h4⟩

end

/-! ### Burn-ins and exchanges -/

section
variable {calcE : List ℤ → List ℝ → ℝ} {n k : ℕ} {theta beta : List ℝ}

/-- The burn-ins of all replicas. -/
noncomputable def cfgBurn (calcE : List ℤ → List ℝ → ℝ) (n k : ℕ) (theta beta : List ℝ) (c : List (List ℤ)) :
    Prog (List (List ℤ)) :=
  mapEach (fun p : List ℝ × List ℤ => chainCfg calcE n k p.1 p.2) ((beta.map fun b => theta.map (· * b)).zip c)

theorem finDist_cfgBurn (hn : 0 < n) (c : List (List ℤ)) (hc : c ∈ words (words [1, -1] n) beta.length) :
    FinDist (cfgBurn calcE n k theta beta c) (· ∈ words (words [1, -1] n) beta.length) := by
  refine finDist_mono (fun c' hc' => mem_words.2 ?_) (finDist_mapEach (Q := fun _ s' => s' ∈ words [1, -1] n) _
      fun p hp => finDist_chainCfg hn p.1 p.2 ((mem_words.1 hc).2 _ (List.of_mem_zip hp).2))
  have hl := hc'.length_eq
  rw [List.length_zip, List.length_map, (mem_words.1 hc).1, Nat.min_self] at hl
  refine ⟨hl.symm, fun x hx => ?_⟩
  obtain ⟨j, hj, rfl⟩ := List.getElem_of_mem hx
  exact (List.forall₂_iff_get.1 hc').2 j (by rw [hc'.length_eq]; exact hj) hj

theorem cfgBurn_pos (hn : 0 < n) (c d : List (List ℤ)) (hc : c ∈ words (words [1, -1] n) beta.length)
    (h : List.Forall₂ (fun (p : List ℝ × List ℤ) t => 0 < expectation (pointFn t) (chainCfg calcE n k p.1 p.2))
      ((beta.map fun b => theta.map (· * b)).zip c) d) :
    0 < expectation (pointFn d) (cfgBurn calcE n k theta beta c) :=
  mapEach_pos (Q := fun _ s' => s' ∈ words [1, -1] n) _
    (fun p hp => finDist_chainCfg hn p.1 p.2 ((mem_words.1 hc).2 _ (List.of_mem_zip hp).2)) d h

theorem forall₂_stay (hn : 0 < n) (l : List (List ℝ)) : ∀ c : List (List ℤ), c.length = l.length →
    (∀ s ∈ c, s ∈ words [1, -1] n) →
    List.Forall₂ (fun (p : List ℝ × List ℤ) t => 0 < expectation (pointFn t) (chainCfg calcE n k p.1 p.2)) (l.zip c) c := by
  induction l with
  | nil => intro c hc _; simp at hc; simp [hc]
  | cons th l ih =>
    intro c hc hw
    match c, hc with
    | s :: c, hc =>
      exact .cons (chainCfg_stay hn th s (hw s (by simp))) (ih c (by simpa using hc) fun x hx => hw x (by simp [hx]))

theorem forall₂_one (hn : 0 < n) (l : List (List ℝ)) (pre : List (List ℤ)) (s t : List ℤ) (post : List (List ℤ))
    (hl : (pre ++ s :: post).length = l.length) (hw : ∀ x ∈ pre ++ s :: post, x ∈ words [1, -1] n)
    (h : ∀ th ∈ l, 0 < expectation (pointFn t) (chainCfg calcE n k th s) ∨
      0 < expectation (pointFn s) (chainCfg calcE n k th t)) :
    List.Forall₂ (fun (p : List ℝ × List ℤ) t => 0 < expectation (pointFn t) (chainCfg calcE n k p.1 p.2))
      (l.zip (pre ++ s :: post)) (pre ++ t :: post) ∨
    List.Forall₂ (fun (p : List ℝ × List ℤ) t => 0 < expectation (pointFn t) (chainCfg calcE n k p.1 p.2))
      (l.zip (pre ++ t :: post)) (pre ++ s :: post) := by
  induction pre generalizing l with
  | nil =>
    match l, hl with
    | th :: l, hl =>
      have := forall₂_stay (calcE := calcE) (k := k) hn l post (by simpa using hl) fun x hx => hw x (by simp [hx])
      exact (h th (by simp)).imp (fun h => .cons h this) (fun h => .cons h this)
  | cons a pre ih =>
    match l, hl with
    | th :: l, hl =>
      have h1 := chainCfg_stay (calcE := calcE) (k := k) hn th a (hw a (by simp))
      exact (ih l (by simpa using hl) (fun x hx => hw x (by
        rw [List.cons_append]; exact List.mem_cons_of_mem _ hx)) fun th' hth => h th' (by simp [hth])).imp
          (fun h => .cons h1 h) (fun h => .cons h1 h)

theorem finDist_cfgStep (e : List ℤ → ℝ) (i : ℕ) (hi : i + 1 < beta.length) (c : List (List ℤ))
    (hc : c ∈ words (words [1, -1] n) beta.length) :
    FinDist (cfgStep e beta i c) (· ∈ words (words [1, -1] n) beta.length) :=
  finDist_rand (fun u => u < exchangeProb e beta i c) measurableSet_Iio (finDist_ret (swapAt_mem_words [] i hc hi))
    (finDist_ret hc)

theorem cfgStep_pos (e : List ℤ → ℝ) (i : ℕ) (c : List (List ℤ)) :
    0 < expectation (pointFn (swapAt [] i c)) (cfgStep e beta i c) := by
  have hp : 0 < exchangeProb e beta i c := lt_min one_pos (Real.exp_pos _)
  have h1 : exchangeProb e beta i c ≤ 1 := min_le_left _ _
  unfold cfgStep
  rw [expectation_rand_lt _ _ _ _ hp.le, expectation_ret, expectation_ret, min_eq_right h1]
  unfold pointFn
  rw [if_pos rfl, mul_one]
  have : 0 ≤ (1 - exchangeProb e beta i c) * (if c = swapAt [] i c then (1 : ℝ) else 0) :=
    mul_nonneg (by linarith) (by split <;> norm_num)
  linarith

/-- All exchanges one after another. -/
def swaps (l : List ℕ) (c : List (List ℤ)) : List (List ℤ) := l.foldl (fun c i => swapAt [] i c) c

theorem swaps_pos (e : List ℤ → ℝ) (l : List ℕ) (hl : ∀ i ∈ l, i + 1 < beta.length) :
    ∀ c ∈ words (words [1, -1] n) beta.length,
      0 < expectation (pointFn (swaps l c)) (forEach (cfgStep e beta) l c) := by
  induction l with
  | nil => intro c _; simp [forEach, swaps, pointFn]
  | cons i l ih =>
    intro c hc
    rw [forEach]
    have hi := hl i (by simp)
    have hl' : ∀ j ∈ l, j + 1 < beta.length := fun j hj => hl j (by simp [hj])
    refine bind_pos (finDist_cfgStep e i hi c hc) (R := (· ∈ words (words [1, -1] n) beta.length))
      (fun a ha => finDist_forEach l (fun j hj s hs => finDist_cfgStep e j (hl' j hj) s hs) a ha) (swapAt [] i c) _
      (cfgStep_pos e i c) ?_
    exact ih hl' _ (swapAt_mem_words [] i hc hi)

theorem swaps_append (l l' : List ℕ) (c : List (List ℤ)) : swaps (l ++ l') c = swaps l' (swaps l c) := by
  unfold swaps; rw [List.foldl_append]

theorem swaps_range (a : List ℤ) (c post : List (List ℤ)) :
    swaps (List.range c.length) (a :: c ++ post) = c ++ a :: post := by
  induction c using List.reverseRecOn generalizing post with
  | nil => rfl
  | append_singleton c b ih =>
    rw [List.length_append, List.length_singleton, List.range_succ, swaps_append,
      show a :: (c ++ [b]) ++ post = a :: c ++ (b :: post) by simp, ih]
    unfold swaps
    rw [List.foldl_cons, List.foldl_nil, swapAt_append [] _ a b c post rfl]
    simp

/-- The exchanges of a round move the first configuration to the end. -/
theorem swaps_all (c : List (List ℤ)) : swaps (List.range (c.length - 1)) c = c.rotate 1 := by
  cases c with
  | nil => rfl
  | cons a c =>
    have := swaps_range a c []
    rw [List.append_nil] at this
    rw [List.length_cons, Nat.add_sub_cancel, this, List.rotate_cons_succ, List.rotate_zero]

theorem finDist_cfgFull (hn : 0 < n) (c : List (List ℤ)) (hc : c ∈ words (words [1, -1] n) beta.length) :
    FinDist (cfgFull calcE n k theta beta c) (· ∈ words (words [1, -1] n) beta.length) :=
  finDist_bind (finDist_cfgBurn hn c hc) fun a ha => finDist_forEach _ (fun i hi s hs => finDist_cfgStep _ i (by
    have := List.mem_range.1 hi; omega) s hs) a ha

theorem cfgFull_pos (hn : 0 < n) (c d : List (List ℤ)) (hc : c ∈ words (words [1, -1] n) beta.length)
    (hd : d ∈ words (words [1, -1] n) beta.length) (h : 0 < expectation (pointFn d) (cfgBurn calcE n k theta beta c)) :
    0 < expectation (pointFn (d.rotate 1)) (cfgFull calcE n k theta beta c) := by
  have hr : ∀ i ∈ List.range (beta.length - 1), i + 1 < beta.length := fun i hi => by
    have := List.mem_range.1 hi; omega
  refine bind_pos (finDist_cfgBurn hn c hc) (fun a ha => finDist_forEach _ (fun i hi s hs =>
    finDist_cfgStep _ i (hr i hi) s hs) a ha) d _ h ?_
  have := swaps_pos (n := n) (calcE · theta) (List.range (beta.length - 1)) hr d hd
  rwa [← (mem_words.1 hd).1, swaps_all, (mem_words.1 hd).1] at this

theorem rotate_mem {S : List (List ℤ)} {R : ℕ} {c : List (List ℤ)} (hc : c ∈ words S R) (m : ℕ) : c.rotate m ∈ words S R := by
  obtain ⟨h1, h2⟩ := mem_words.1 hc
  exact mem_words.2 ⟨by rw [List.length_rotate, h1], fun x hx => h2 x (List.mem_rotate.1 hx)⟩

theorem cfgFull_stays (hn : 0 < n) (c : List (List ℤ)) (hc : c ∈ words (words [1, -1] n) beta.length) :
    0 < expectation (pointFn (c.rotate 1)) (cfgFull calcE n k theta beta c) :=
  cfgFull_pos hn c c hc hc (cfgBurn_pos hn c c hc (forall₂_stay hn _ c (by rw [List.length_map]; exact (mem_words.1 hc).1)
    (mem_words.1 hc).2))

theorem rounds_stay (hn : 0 < n) (m : ℕ) : ∀ c ∈ words (words [1, -1] n) beta.length,
    0 < (fun f c => expectation f (cfgFull calcE n k theta beta c))^[m] (pointFn (c.rotate m)) c := by
  have hT := markov_step (S := words (words ([1, -1] : List ℤ) n) beta.length) (step := cfgFull calcE n k theta beta)
    fun c hc => finDist_cfgFull hn c hc
  induction m with
  | zero => intro c _; simp [pointFn]
  | succ m ih =>
    intro c hc
    have h1 := ih c hc
    have h2 := cfgFull_stays (calcE := calcE) (k := k) (theta := theta) hn _ (rotate_mem hc m)
    have := reach_trans hT hc h1 (by rw [Function.iterate_one]; exact h2)
    rwa [List.rotate_rotate] at this

theorem rounds_pos (hn : 0 < n) (hR : 0 < beta.length) (c d : List (List ℤ)) (hc : c ∈ words (words [1, -1] n) beta.length)
    (hd : d ∈ words (words [1, -1] n) beta.length) (h : 0 < expectation (pointFn d) (cfgBurn calcE n k theta beta c)) :
    0 < (fun f c => expectation f (cfgFull calcE n k theta beta c))^[beta.length] (pointFn d) c := by
  have hT := markov_step (S := words (words ([1, -1] : List ℤ) n) beta.length) (step := cfgFull calcE n k theta beta)
    fun c hc => finDist_cfgFull hn c hc
  have h1 := cfgFull_pos hn c d hc hd h
  have h2 := rounds_stay (calcE := calcE) (k := k) (theta := theta) hn (beta.length - 1) _ (rotate_mem hd 1)
  have := reach_trans hT hc (k := 1) (by rw [Function.iterate_one]; exact h1) h2
  rw [List.rotate_rotate, show 1 + (beta.length - 1) = beta.length by omega] at this
  have e : d.rotate beta.length = d := by rw [← (mem_words.1 hd).1, List.rotate_length]
  rwa [e] at this

/-- Rounds of burn-in and exchange. -/
theorem ergodic_cfgFull (hlin : ∀ s b, calcE s (theta.map (· * b)) = b * calcE s theta) (hb : ∀ b ∈ beta, b ≠ 0)
    (hn : 0 < n) (hR : 0 < beta.length) (hc : SweepsConnect (calcE · theta) n k) :
    Ergodic (words (words [1, -1] n) beta.length)
      (boltzmann (words (words [1, -1] n) beta.length) (totalE (calcE · theta) beta)) (cfgFull calcE n k theta beta) := by
  have hne0 := words_ne_nil ([1, -1] : List ℤ) 1 (by simp) n
  have hne : words (words ([1, -1] : List ℤ) n) beta.length ≠ [] := by
    obtain ⟨s, hs⟩ := List.exists_mem_of_ne_nil _ hne0
    exact List.ne_nil_of_mem (a := List.replicate beta.length s)
      (mem_words.2 ⟨by simp, fun x hx => by rw [List.eq_of_mem_replicate hx]; exact hs⟩)
  have hfin := fun c hc => finDist_cfgFull (calcE := calcE) (k := k) (theta := theta) (beta := beta) hn c hc
  have hkeep := keeps_cfgFull (beta := beta) (k := k) hlin hn
  refine ⟨hfin, fun c _ => (boltzmann_pos _ _ hne c).le, sum_boltzmann _ _ hne, hkeep, ?_⟩
  have hit : (fun (f : List (List ℤ) → ℝ) c => expectation f (forEach (fun _ : ℕ => cfgFull calcE n k theta beta)
      (List.range beta.length) c)) = (fun f c => expectation f (cfgFull calcE n k theta beta c))^[beta.length] := by
    funext f c
    rw [expectation_forEach_step, List.length_range]
  have hth : ∀ th ∈ beta.map fun b => theta.map (· * b), ∀ s t, SweepBond (calcE · theta) n k s t →
      SweepBond (fun s => calcE s th) n k s t := by
    intro th hth s t h
    obtain ⟨b, hbm, rfl⟩ := List.mem_map.1 hth
    simp only [hlin]
    exact (sweepBond_scale (hb b hbm)).2 h
  obtain ⟨N, hN⟩ := connected_pos (S := words (words ([1, -1] : List ℤ) n) beta.length)
    (w := boltzmann (words (words [1, -1] n) beta.length) (totalE (calcE · theta) beta))
    (step := forEach (fun _ : ℕ => cfgFull calcE n k theta beta) (List.range beta.length))
    (fun c hc => finDist_forEach _ (fun _ _ s hs => hfin s hs) c hc) (fun c _ => boltzmann_pos _ _ hne c)
    (keepsG_forEach _ fun _ _ => hkeep)
    (fun c hc => by
      rw [expectation_forEach_step, List.length_range]
      have := rounds_stay (calcE := calcE) (k := k) (theta := theta) hn beta.length c hc
      rwa [show c.rotate beta.length = c by rw [← (mem_words.1 hc).1, List.rotate_length]] at this)
    (OneOf (SweepBond (calcE · theta) n k)) (fun c hc d hcd => by
      obtain ⟨pre, s, t, post, rfl, rfl, h⟩ := hcd
      obtain ⟨h1, h2⟩ := mem_words.1 hc
      have hsm : s ∈ words ([1, -1] : List ℤ) n := h2 s (by simp)
      have htm : t ∈ words ([1, -1] : List ℤ) n := by
        obtain ⟨_, i, _, _, rfl, _⟩ := h
        exact turn_mem i hsm
      have hd : pre ++ t :: post ∈ words (words ([1, -1] : List ℤ) n) beta.length := by
        refine mem_words.2 ⟨by rw [← h1]; simp, fun x hx => ?_⟩
        simp only [List.mem_append, List.mem_cons] at hx
        rcases hx with hx | rfl | hx
        · exact h2 x (by simp [hx])
        · exact htm
        · exact h2 x (by simp [hx])
      refine ⟨hd, ?_⟩
      rw [expectation_forEach_step, expectation_forEach_step, List.length_range]
      exact (forall₂_one hn (beta.map fun b => theta.map (· * b)) pre s t post (by rw [h1, List.length_map]) h2
        fun th hm => (chainCfg_bond hn th s t hsm (hth th hm s t h)).2).imp
        (fun h => rounds_pos hn hR _ _ hc hd (cfgBurn_pos hn _ _ hc h))
        (fun h => rounds_pos hn hR _ _ hd hc (cfgBurn_pos hn _ _ hd h)))
    (oneOf_connect hc _)
  refine ⟨beta.length * N, fun c hc d hd => ?_⟩
  have h1 := hN c hc d hd
  rwa [hit, ← Function.iterate_mul] at h1

end

end Verif.Lemmas
