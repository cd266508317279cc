/-
Replica exchange: coniii/samplers.py ParallelTempering (C57, C58).
-/
import Verif.Lemmas.Tempering4

namespace Verif.Props
open Verif Verif.Model Verif.Spec Verif.Lemmas

/-! ### C57: replica exchange -/

section
variable (calcE : List ℤ → List ℝ → ℝ) (theta beta : List ℝ)
  (hlin : ∀ s b, calcE s (theta.map (· * b)) = b * calcE s theta) (hb : ∀ b ∈ beta, b ≠ 0)
include hlin

/-- C57: whatever the random numbers are, the exchanges between neighbouring replicas only permute the pairs of
index and configuration; every replica keeps the parameters of its temperature, and its stored energy is its
inverse temperature times the energy of the configuration it holds. The energy has to be linear in the
parameters, and no inverse temperature may be 0 (the energies are divided by it). -/
theorem C57_exchanges (hb : ∀ b ∈ beta, b ≠ 0) (n : ℕ) (reps : List Replica)
    (h : Consistent (calcE · theta) theta beta reps) :
    Returns (exchanges calcE n beta beta.length reps) fun reps' =>
      Consistent (calcE · theta) theta beta reps' ∧
        (reps'.map fun r => (r.index, r.sample)).Perm (reps.map fun r => (r.index, r.sample)) := by
  obtain ⟨hs, he⟩ := holding_of_consistent hlin h
  have hcl : (configs reps).length = reps.length := by simp [configs]
  have key := returns_exchanges (n := n) hlin hb (List.range (beta.length - 1))
    (fun i hi => by have := List.mem_range.1 hi; omega) reps (configs reps) hs hcl
  rw [← he] at key
  refine returns_mono ?_ key
  rintro r ⟨reps', c', h1, h2, h3, rfl⟩
  refine ⟨consistent_holding hlin h1 c' h2, ?_⟩
  rw [holding_labels reps' c' h2]
  conv_rhs => rw [he]
  rw [holding_labels reps _ hcl]
  exact h3.map _

/-- C57: the exchange of replicas `i` and `i+1` happens with probability
`min(1, exp((β_i - β_{i+1}) (e_i - e_{i+1})))`; it exchanges the configurations and the indices of the two and
nothing else. -/
theorem C57_accept (hb : ∀ b ∈ beta, b ≠ 0) (n : ℕ) (reps : List Replica)
    (h : Consistent (calcE · theta) theta beta reps) (i : ℕ) (hi : i + 1 < beta.length) :
    ∃ reps', Consistent (calcE · theta) theta beta reps' ∧
      configs reps' = ((configs reps).set i ((configs reps).getD (i + 1) [])).set (i + 1) ((configs reps).getD i []) ∧
      reps'.map Replica.index = ((reps.map Replica.index).set i ((reps.map Replica.index).getD (i + 1) 0)).set (i + 1)
        ((reps.map Replica.index).getD i 0) ∧
      ∀ f : List Replica → ℝ, expectation f (exchangeStep calcE n beta i reps) =
        min 1 (Real.exp ((beta.getD i 0 - beta.getD (i + 1) 0) *
          (calcE ((configs reps).getD i []) theta - calcE ((configs reps).getD (i + 1) []) theta))) * f reps' +
        (1 - min 1 (Real.exp ((beta.getD i 0 - beta.getD (i + 1) 0) *
          (calcE ((configs reps).getD i []) theta - calcE ((configs reps).getD (i + 1) []) theta)))) * f reps := by
  obtain ⟨hs, he⟩ := holding_of_consistent hlin h
  have hcl : (configs reps).length = reps.length := by simp [configs]
  have hrl := hs.length
  have hl2 : (swapAt [] i (configs reps)).length = (swapIndex i reps).length := by
    rw [swapAt_length, swapIndex_length, hcl]
  refine ⟨List.zipWith (holding calcE) (swapIndex i reps) (swapAt [] i (configs reps)),
    consistent_holding hlin (hs.swapIndex i (by omega)) _ hl2, configs_holding _ _ hl2, ?_, fun f => ?_⟩
  · rw [zipWith_holding_map Replica.index (fun _ _ => rfl) _ _ hl2, swapIndex_index i (by omega)]
    rfl
  · have hstep := exchangeStep_holding hlin hs hb n (configs reps) hcl i (by omega)
    rw [← he] at hstep
    have hp : exchangeProb (calcE · theta) beta i (configs reps) =
        min 1 (Real.exp ((beta.getD i 0 - beta.getD (i + 1) 0) *
          (calcE ((configs reps).getD i []) theta - calcE ((configs reps).getD (i + 1) []) theta))) := by
      unfold exchangeProb
      rw [mul_comm]
    have h0 : 0 ≤ exchangeProb (calcE · theta) beta i (configs reps) := by
      rw [hp]; exact le_min zero_le_one (Real.exp_pos _).le
    have h1 : min 1 (exchangeProb (calcE · theta) beta i (configs reps)) =
        exchangeProb (calcE · theta) beta i (configs reps) := by
      rw [hp, ← min_assoc, min_self]
    rw [hstep, expectation_rand_lt f _ _ _ h0, h1, expectation_ret, expectation_ret, hp]

/-- C57: one round of burn-in and exchange leaves consistent replicas with spins ±1, and the indices are a
permutation of what they were. -/
theorem C57_round (hb : ∀ b ∈ beta, b ≠ 0) (n : ℕ) (hn : 0 < n) (nIters : ℕ) (reps : List Replica)
    (h : Consistent (calcE · theta) theta beta reps) (hw : ∀ s ∈ configs reps, s ∈ words [1, -1] n) :
    Returns (burnAndExchange calcE n nIters beta beta.length reps) fun reps' =>
      Consistent (calcE · theta) theta beta reps' ∧ (∀ s ∈ configs reps', s ∈ words [1, -1] n) ∧
        (reps'.map Replica.index).Perm (reps.map Replica.index) := by
  obtain ⟨hs, he⟩ := holding_of_consistent hlin h
  have hcl : (configs reps).length = reps.length := by simp [configs]
  have hr := ready_holding (calcE := calcE) (n := n) hs rfl (configs reps) (mem_words.2 ⟨hcl, hw⟩)
  rw [← he] at hr
  refine returns_mono ?_ (returns_burnAndExchange (k := nIters) hn hlin hb hr)
  rintro r ⟨reps', c', h1, h2, h3, rfl⟩
  obtain ⟨h4, h5⟩ := mem_words.1 h2
  have h6 : c'.length = reps'.length := by rw [h4, h1.length]
  refine ⟨consistent_holding hlin h1 c' h6, ?_, ?_⟩
  · rw [configs_holding _ _ h6]; exact h5
  · rw [zipWith_holding_map Replica.index (fun _ _ => rfl) _ _ h6]; exact h3

/-- C57: if the configurations are distributed as independent replicas, each with the Boltzmann distribution of its
inverse temperature, then so they are after a round of burn-in and exchanges. -/
theorem C57_invariant (hb : ∀ b ∈ beta, b ≠ 0) (n : ℕ) (hn : 0 < n) (nIters : ℕ) (start : List (List ℤ) → List Replica)
    (hs : ∀ c ∈ words (words [1, -1] n) beta.length, Consistent (calcE · theta) theta beta (start c) ∧ configs (start c) = c)
    (f : List (List ℤ) → ℝ) :
    expect (words (words [1, -1] n) beta.length) (replicaE (calcE · theta) beta) (fun c =>
      expectation (fun reps => f (configs reps)) (burnAndExchange calcE n nIters beta beta.length (start c))) =
    expect (words (words [1, -1] n) beta.length) (replicaE (calcE · theta) beta) f := by
  have hE : ∀ c ∈ words (words ([1, -1] : List ℤ) n) beta.length,
      replicaE (calcE · theta) beta c = totalE (calcE · theta) beta c := fun c hc =>
    replicaE_eq _ beta c (mem_words.1 hc).1
  have hbl : Blind calcE n theta beta (fun reps => f (configs reps)) f := fun reps hs c hc => by
    dsimp only
    rw [configs_holding _ _ (by rw [(mem_words.1 hc).1, hs.length])]
  refine (expect_congr _ _ _ _ _ hE fun c hc => ?_).trans ((keeps_cfgFull (k := nIters) hlin hn f).trans
    (expect_congr _ _ (replicaE _ _) f f (fun c hc => (hE c hc).symm) fun _ _ => rfl))
  · obtain ⟨h1, h2⟩ := hs c hc
    obtain ⟨h3, h4⟩ := holding_of_consistent hlin h1
    have := blind_full (k := nIters) hlin hb hn _ f hbl (start c) h3 c hc
    rw [h2] at h4
    rw [← h4] at this
    exact this

/-- C57: the sample drawn by `generate_sample` has `sample_size` rows of spins ±1 for each replica, and every row of
the index history is a permutation of the indices. The replicas left are consistent. -/
theorem C57_sample_rows (hb : ∀ b ∈ beta, b ≠ 0) (n : ℕ) (hn : 0 < n) (nIters m : ℕ) (reps : List Replica)
    (h : Consistent (calcE · theta) theta beta reps) (hw : ∀ s ∈ configs reps, s ∈ words [1, -1] n) :
    Returns (temperingSample calcE n nIters beta beta.length m reps) fun out =>
      out.1.1.length = beta.length ∧ (∀ rows ∈ out.1.1, rows.length = m ∧ ∀ s ∈ rows, s ∈ words [1, -1] n) ∧
        out.1.2.length = m ∧ (∀ row ∈ out.1.2, row.Perm (reps.map Replica.index)) ∧
        Consistent (calcE · theta) theta beta out.2 := by
  rw [temperingSample_visits]
  have inv := returns_visits (I := fun reps' => Consistent (calcE · theta) theta beta reps' ∧
      (∀ s ∈ configs reps', s ∈ words [1, -1] n) ∧ (reps'.map Replica.index).Perm (reps.map Replica.index))
    (fun _ : Unit => burnAndExchange calcE n nIters beta beta.length) ((List.range m).flatMap fun _ => [()])
    (fun _ _ s hs => returns_mono (fun r hr => ⟨hr.1, hr.2.1, hr.2.2.trans hs.2.2⟩)
      (C57_round calcE theta beta hlin hb n hn nIters s hs.1 hs.2.1)) reps ⟨h, hw, .refl _⟩
  refine returns_bind inv fun tr htr => returns_ret ?_
  have hlen : tr.length = m := by rw [htr.1]; simp
  have hrow : ∀ b < m, (reps :: tr).getD (b + 1) reps ∈ tr := fun b hb' => by
    rw [List.getD_cons_succ, List.getD_eq_getElem _ _ (by omega)]; exact List.getElem_mem _
  have hl : ∀ r ∈ tr, r.length = beta.length := fun r hr => (htr.2 r hr).1.length_eq
  refine ⟨by simp, fun rows hrows => ?_, by simp, fun row hr => ?_, ?_⟩
  · obtain ⟨j, hj, rfl⟩ := List.mem_map.1 hrows
    refine ⟨by simp, fun s hs => ?_⟩
    rw [List.map_map] at hs
    obtain ⟨b, hb', rfl⟩ := List.mem_map.1 hs
    have hm := hrow b (List.mem_range.1 hb')
    have hj' := List.mem_range.1 hj
    refine (htr.2 _ hm).2.1 _ ?_
    rw [Function.comp, getD_map_range _ _ _ hj']
    unfold configs
    refine List.mem_map.2 ⟨_, ?_, rfl⟩
    generalize (reps :: tr).getD (b + 1) reps = x at hm
    rw [List.getD_eq_getElem _ _ (by rw [hl _ hm]; exact hj')]
    exact List.getElem_mem _
  · obtain ⟨b, hb', rfl⟩ := List.mem_map.1 hr
    have hm := hrow b (List.mem_range.1 hb')
    generalize (reps :: tr).getD (b + 1) reps = x at hm
    have e : ((List.range beta.length).map fun j => (x.getD j default).index) = x.map Replica.index := by
      refine List.ext_getElem (by simp [hl _ hm]) fun j hj hj' => ?_
      rw [List.length_map] at hj'
      rw [List.getElem_map, List.getElem_range, List.getElem_map, List.getD_eq_getElem _ _ hj']
    rw [e]
    exact (htr.2 _ hm).2.2
  · rcases List.eq_nil_or_concat tr with rfl | ⟨l, a, rfl⟩
    · exact h
    · simp only [List.concat_eq_append, List.getLastD_concat]
      exact (htr.2 a (by simp)).1

/-- C57: in a run that starts from independent replicas with the Boltzmann distributions of their temperatures, the
rows drawn at any time are distributed like this as well. -/
theorem C57_sample_joint (hb : ∀ b ∈ beta, b ≠ 0) (n : ℕ) (hn : 0 < n) (nIters m : ℕ) (start : List (List ℤ) → List Replica)
    (hs : ∀ c ∈ words (words [1, -1] n) beta.length, Consistent (calcE · theta) theta beta (start c) ∧ configs (start c) = c)
    (b : ℕ) (hbm : b < m) (f : List (List ℤ) → ℝ) :
    expect (words (words [1, -1] n) beta.length) (replicaE (calcE · theta) beta) (fun c =>
      expectation (fun out => f (out.1.1.map fun rows => rows.getD b []))
        (temperingSample calcE n nIters beta beta.length m (start c))) =
    expect (words (words [1, -1] n) beta.length) (replicaE (calcE · theta) beta) f := by
  have hE : ∀ c ∈ words (words ([1, -1] : List ℤ) n) beta.length,
      replicaE (calcE · theta) beta c = totalE (calcE · theta) beta c := fun c hc =>
    replicaE_eq _ beta c (mem_words.1 hc).1
  have hbl : Blind calcE n theta beta (fun reps => f (configs reps)) f := fun reps hs c hc => by
    dsimp only
    rw [configs_holding _ _ (by rw [(mem_words.1 hc).1, hs.length])]
  refine (expect_congr _ _ _ _ _ hE fun c hc => ?_).trans
    ((keepsG_forEach (body := fun _ : Unit => cfgFull calcE n nIters theta beta)
      (((List.range m).flatMap fun _ => [()]).take (b + 1)) (fun _ _ => keeps_cfgFull hlin hn) f).trans
    (expect_congr _ _ (replicaE _ _) f f (fun c hc => (hE c hc).symm) fun _ _ => rfl))
  · obtain ⟨h1, h2⟩ := hs c hc
    obtain ⟨h3, h4⟩ := holding_of_consistent hlin h1
    have hw : ∀ s ∈ configs (start c), s ∈ words [1, -1] n := by rw [h2]; exact (mem_words.1 hc).2
    have key := blind_forEach (step := fun _ => burnAndExchange calcE n nIters beta beta.length)
      (cstep := fun _ => cfgFull calcE n nIters theta beta) (fun F G hF => blind_full hlin hb hn F G hF)
      (((List.range m).flatMap fun _ => [()]).take (b + 1)) _ f hbl (start c) h3 c hc
    rw [h2] at h4
    rw [← h4] at key
    dsimp only at key
    rw [← key, temperingSample_visits, expectation_bind]
    simp only [expectation_ret]
    have hI : ∀ i ∈ ((List.range m).flatMap fun _ => [()]), ∀ s,
        (Consistent (calcE · theta) theta beta s ∧ ∀ x ∈ configs s, x ∈ words [1, -1] n) →
        Returns (burnAndExchange calcE n nIters beta beta.length s) fun s =>
          Consistent (calcE · theta) theta beta s ∧ ∀ x ∈ configs s, x ∈ words [1, -1] n := fun _ _ s hs =>
      returns_mono (fun r hr => ⟨hr.1, hr.2.1⟩) (C57_round calcE theta beta hlin hb n hn nIters s hs.1 hs.2)
    have hN : b + 1 ≤ ((List.range m).flatMap fun _ => [()]).length := by simp; omega
    rw [← expectation_visits_getD (fun _ : Unit => burnAndExchange calcE n nIters beta beta.length) _ hI (start c)
      ⟨h1, hw⟩ (b + 1) hN]
    refine expectation_congr _ (returns_visits _ _ hI (start c) ⟨h1, hw⟩) fun tr htr => ?_
    congr 1
    rw [List.map_map]
    have hlen : tr.length = m := by rw [htr.1]; simp
    have hm : (start c :: tr).getD (b + 1) (start c) ∈ tr := by
      rw [List.getD_cons_succ, List.getD_eq_getElem _ _ (by omega)]; exact List.getElem_mem _
    have hl := (htr.2 _ hm).1.length_eq
    unfold configs
    refine List.ext_getElem (by rw [List.length_map, List.length_range, List.length_map, hl]) fun j hj hj' => ?_
    simp only [List.length_map, List.length_range] at hj
    rw [List.getElem_map, List.getElem_map, List.getElem_range, Function.comp, List.map_map, getD_map_range _ _ _ hbm,
      Function.comp, getD_map_range _ _ _ hj, List.getD_eq_getElem (List.getD _ _ _) _ (by rw [hl]; exact hj)]

/-- C57: each row of the sample of replica `j` then has the Boltzmann distribution at inverse temperature `β_j`. -/
theorem C57_sample_row (hb : ∀ b ∈ beta, b ≠ 0) (n : ℕ) (hn : 0 < n) (nIters m : ℕ) (start : List (List ℤ) → List Replica)
    (hs : ∀ c ∈ words (words [1, -1] n) beta.length, Consistent (calcE · theta) theta beta (start c) ∧ configs (start c) = c)
    (b : ℕ) (hbm : b < m) (j : ℕ) (hj : j < beta.length) (f : List ℤ → ℝ) :
    expect (words (words [1, -1] n) beta.length) (replicaE (calcE · theta) beta) (fun c =>
      expectation (fun out => f ((out.1.1.getD j []).getD b []))
        (temperingSample calcE n nIters beta beta.length m (start c))) =
    expect (words [1, -1] n) (fun s => beta.getD j 0 * calcE s theta) f := by
  have hne : words ([1, -1] : List ℤ) n ≠ [] := by
    intro e
    have : List.replicate n (1 : ℤ) ∈ words ([1, -1] : List ℤ) n :=
      mem_words.2 ⟨by simp, fun x hx => by rw [List.eq_of_mem_replicate hx]; simp⟩
    rw [e] at this
    simp at this
  rw [← expect_replica (calcE · theta) beta _ hne j hj f]
  refine Eq.trans ?_ (C57_sample_joint calcE theta beta hlin hb n hn nIters m start hs b hbm fun c => f (c.getD j []))
  refine expect_congr _ _ _ _ _ (fun _ _ => rfl) fun c hc => ?_
  obtain ⟨h1, h2⟩ := hs c hc
  have hw : ∀ s ∈ configs (start c), s ∈ words [1, -1] n := by rw [h2]; exact (mem_words.1 hc).2
  refine expectation_congr _ (C57_sample_rows calcE theta beta hlin hb n hn nIters m (start c) h1 hw) fun out hout => ?_
  congr 1
  rw [getD_map' _ _ [] _ _ (by rw [hout.1]; exact hj)]

end

/-- C57: whatever the random numbers are, the constructor succeeds (its last assertion never fails in exact
arithmetic) and leaves `n_replicas` consistent replicas with indices 0, 1, ..., at strictly increasing inverse
temperatures, of which the largest is the one asked for. That the inverse temperatures are positive is not
claimed, see `C58_not_positive`. -/
theorem C57_constructor (calcE : List ℤ → List ℝ → ℝ) (theta : List ℝ)
    (hlin : ∀ s b, calcE s (theta.map (· * b)) = b * calcE s theta) (n : ℕ) (hn : 0 < n) (R : ℕ) (hR : 1 < R)
    (T0 T1 : ℝ) (h0 : 0 < T0) (h1 : T0 < T1) (replicaBurnin : Option ℕ) :
    Returns (tempering calcE n theta R T0 T1 replicaBurnin) fun br =>
      br.1.length = R ∧ (∀ i, i + 1 < R → br.1.getD i 0 < br.1.getD (i + 1) 0) ∧ br.1.getD (R - 1) 0 = 1 / T0 ∧
        Consistent (calcE · theta) theta br.1 br.2 ∧ (∀ s ∈ configs br.2, s ∈ words [1, -1] n) ∧
        br.2.map Replica.index = List.range R := by
  refine returns_mono ?_ (returns_tempering (theta := theta) (calcE := calcE) hn R hR T0 T1 h0 h1 replicaBurnin)
  rintro br ⟨b1, b2, b3, reps, c, hc, b4, b5, b6⟩
  have hcl : c.length = reps.length := by rw [(mem_words.1 hc).1, b4.length, b1]
  refine ⟨b1, fun i hi => b2 i (by rw [b1]; exact hi), b3, ?_, ?_, ?_⟩
  · rw [b6]; exact consistent_holding hlin b4 c hcl
  · rw [b6, configs_holding _ _ hcl]; exact (mem_words.1 hc).2
  · rw [b6, zipWith_holding_map Replica.index (fun _ _ => rfl) _ _ hcl, b5]

/-- C57: the constructor rejects temperature bounds that are not 0 < T0 < T1, and fewer than two replicas. -/
theorem C57_constructor_rejects (calcE : List ℤ → List ℝ → ℝ) (theta : List ℝ) (n R : ℕ) (T0 T1 : ℝ)
    (replicaBurnin : Option ℕ) (h : T0 ≤ 0 ∨ T1 ≤ T0 ∨ R ≤ 1) :
    tempering calcE n theta R T0 T1 replicaBurnin = .fail .assertion := by
  unfold tempering
  by_cases h1 : T0 < T1 ∧ T0 > 0
  · rw [if_neg (not_not.2 h1), if_pos]
    rcases h with h | h | h
    · exact absurd h1.2 (not_lt.2 h)
    · exact absurd h1.1 (not_lt.2 h)
    · omega
  · rw [if_pos h1]

/-- C57: the Ising energy computed by `calc_e` is linear in the parameters, as the exchanges require. -/
theorem C57_ising_linear (theta : List ℝ) (s : List ℤ) (b : ℝ) :
    isingCalcERow (theta.map (· * b)) s = b * isingCalcERow theta s := by
  have hd : ∀ (l m : List ℝ), dot (l.map (· * b)) m = b * dot l m := by
    intro l
    induction l with
    | nil => intro m; simp [dot]
    | cons x l ih =>
      intro m
      cases m with
      | nil => simp [dot]
      | cons y m =>
        have := ih m
        unfold dot at this ⊢
        simp only [List.map_cons, List.zipWith_cons_cons, List.sum_cons, this]
        ring
  have hz : ∀ (s : List ℤ) (l : List ℝ), (List.zipWith (fun (x : ℤ) p => (x : ℝ) * p) s (l.map (· * b))).sum =
      b * (List.zipWith (fun (x : ℤ) p => (x : ℝ) * p) s l).sum := by
    intro s
    induction s with
    | nil => intro l; simp
    | cons x s ih =>
      intro l
      cases l with
      | nil => simp
      | cons y l => simp only [List.map_cons, List.zipWith_cons_cons, List.sum_cons, ih]; ring
  unfold isingCalcERow
  rw [fastSum_eq, fastSum_eq, ← List.map_drop, ← List.map_take, hd, hz]
  ring

/-- Two replicas of two spins with different temperatures meet the hypotheses. -/
example : Consistent (fun s => isingCalcERow [1, 0, 2] s) [1, 0, 2] [1 / 2, 1]
    [⟨[1 / 2, 0, 1], [[1, 1]], some [[1, 1]], [-(3 / 2)], 1⟩, ⟨[1, 0, 2], [[1, -1]], some [[1, -1]], [1], 0⟩] := by
  refine .cons ⟨by norm_num, [1, 1], rfl, rfl, ?_⟩ (.cons ⟨by norm_num, [1, -1], rfl, rfl, ?_⟩ .nil)
  · rw [List.cons.injEq]
    refine ⟨?_, rfl⟩
    norm_num [isingCalcERow, fastSum, loopPairs, ent, rd, List.range_succ, List.zipWith, pyRange]
  · rw [List.cons.injEq]
    refine ⟨?_, rfl⟩
    norm_num [isingCalcERow, fastSum, loopPairs, ent, rd, List.range_succ, List.zipWith, pyRange]

/-- Starting replicas as in `C57_invariant`, for the Ising energy and any inverse temperatures. -/
example (theta beta : List ℝ) (n : ℕ) : ∃ start : List (List ℤ) → List Replica,
    ∀ c ∈ words (words [1, -1] n) beta.length,
      Consistent (fun s => isingCalcERow theta s) theta beta (start c) ∧ configs (start c) = c := by
  refine ⟨fun c => List.zipWith (holding fun s th => isingCalcERow th s)
    (beta.map fun b => (⟨theta.map (· * b), [], none, [], 0⟩ : Replica)) c, fun c hc => ?_⟩
  have hl : c.length = (beta.map fun b => (⟨theta.map (· * b), [], none, [], 0⟩ : Replica)).length := by
    rw [List.length_map]; exact (mem_words.1 hc).1
  refine ⟨consistent_holding (calcE := fun s th => isingCalcERow th s) (fun s b => C57_ising_linear theta s b)
    (sync_iff.2 (by simp)) c hl, configs_holding _ c hl⟩

/-! ### C58: iterate_beta -/

section
variable {K : Type} [Field K] [LinearOrder K] [IsStrictOrderedRing K]

/-- C58 (partial): for acceptance ratios in (0, 1], `iterate_beta` keeps the number of inverse temperatures, their
strict order and the largest one. Missing: positivity, which is false (`C58_not_positive`). -/
theorem C58_ordered_partial (beta ratio : List K) (hl : ratio.length + 1 = beta.length)
    (hr : ∀ r ∈ ratio, 0 < r ∧ r ≤ 1) (hb : ∀ i, i + 1 < beta.length → beta.getD i 0 < beta.getD (i + 1) 0) :
    ∃ nb, iterateBeta beta ratio = .ok (some nb) ∧ nb.length = beta.length ∧
      nb.getD (beta.length - 1) 0 = beta.getD (beta.length - 1) 0 ∧
      ∀ i, i + 1 < beta.length → nb.getD i 0 < nb.getD (i + 1) 0 := by
  obtain ⟨nb, hnb⟩ := iterateBeta_ok beta ratio hl hr
  obtain ⟨h1, h2, h3⟩ := iterateBeta_spec beta ratio nb hnb _ rfl
  refine ⟨nb, hnb, h1, h2, fun i hi => ?_⟩
  have h4 := h3 i hi
  have hne : ratio ≠ [] := by rintro rfl; simp at hl; omega
  have havg : 0 < ratio.sum / (ratio.length : K) := div_pos (sum_pos_of_pos _ hne fun r hr' => (hr r hr').1)
    (by exact_mod_cast List.length_pos_of_ne_nil hne)
  have hri : 0 < ratio.getD i 0 := by
    rw [List.getD_eq_getElem _ _ (by omega)]
    exact (hr _ (List.getElem_mem _)).1
  have := div_pos (mul_pos (sub_pos.2 (hb i hi)) hri) havg
  rw [← h4] at this
  exact sub_pos.1 this

omit [IsStrictOrderedRing K] in
/-- C58: each gap between neighbouring inverse temperatures is multiplied by its acceptance ratio divided by the
average ratio. -/
theorem C58_gaps (beta ratio nb : List K) (h : iterateBeta beta ratio = .ok (some nb)) (i : ℕ) (hi : i + 1 < beta.length) :
    nb.getD (i + 1) 0 - nb.getD i 0 =
      (beta.getD (i + 1) 0 - beta.getD i 0) * ratio.getD i 0 / (ratio.sum / (ratio.length : K)) :=
  (iterateBeta_spec beta ratio nb h _ rfl).2.2 i hi

/-- C58: all the new inverse temperatures are positive exactly if the sum of the gaps times their ratios is less than
the largest inverse temperature times the average ratio. -/
theorem C58_positive_iff (beta ratio nb : List K) (h : iterateBeta beta ratio = .ok (some nb))
    (hr : ∀ r ∈ ratio, 0 < r) (hne : ratio ≠ []) (hl : ratio.length + 1 = beta.length)
    (hb : ∀ i, i + 1 < beta.length → beta.getD i 0 < beta.getD (i + 1) 0) :
    (∀ b ∈ nb, 0 < b) ↔
      ∑ i ∈ Finset.range ratio.length, (beta.getD (i + 1) 0 - beta.getD i 0) * ratio.getD i 0 <
        beta.getD ratio.length 0 * (ratio.sum / (ratio.length : K)) := by
  obtain ⟨h1, h2, h3⟩ := iterateBeta_spec beta ratio nb h _ rfl
  have havg : 0 < ratio.sum / (ratio.length : K) := div_pos (sum_pos_of_pos _ hne hr)
    (by exact_mod_cast List.length_pos_of_ne_nil hne)
  rw [← hl, Nat.add_sub_cancel] at h2
  have tel : nb.getD ratio.length 0 - nb.getD 0 0 =
      (∑ i ∈ Finset.range ratio.length, (beta.getD (i + 1) 0 - beta.getD i 0) * ratio.getD i 0) /
        (ratio.sum / (ratio.length : K)) := by
    rw [← Finset.sum_range_sub (fun i => nb.getD i 0), Finset.sum_div]
    exact Finset.sum_congr rfl fun i hi => h3 i (by have := Finset.mem_range.1 hi; omega)
  have h0 : 0 < nb.getD 0 0 ↔
      ∑ i ∈ Finset.range ratio.length, (beta.getD (i + 1) 0 - beta.getD i 0) * ratio.getD i 0 <
        beta.getD ratio.length 0 * (ratio.sum / (ratio.length : K)) := by
    rw [← div_lt_iff₀ havg, ← tel, h2]
    constructor <;> intro hx <;> linarith
  rw [← h0]
  constructor
  · intro hx
    have : 0 < nb.length := by omega
    rw [List.getD_eq_getElem _ _ this]
    exact hx _ (List.getElem_mem _)
  · intro hx
    have mono : ∀ i, i < nb.length → 0 < nb.getD i 0 := by
      intro i
      induction i with
      | zero => exact fun _ => hx
      | succ i ih =>
        intro hi
        have h4 := h3 i (by omega)
        have hri : 0 < ratio.getD i 0 := by
          rw [List.getD_eq_getElem _ _ (by omega)]
          exact hr _ (List.getElem_mem _)
        have := div_pos (mul_pos (sub_pos.2 (hb i (by omega))) hri) havg
        rw [← h4] at this
        linarith [ih (by omega)]
    intro b hb'
    obtain ⟨i, hi, rfl⟩ := List.getElem_of_mem hb'
    have := mono i hi
    rwa [List.getD_eq_getElem _ _ hi] at this

/-- C58: the inverse temperatures stay as they are exactly if all acceptance ratios are equal. -/
theorem C58_fixed_iff (beta ratio : List K) (hl : ratio.length + 1 = beta.length)
    (hr : ∀ r ∈ ratio, 0 < r ∧ r ≤ 1) (hb : ∀ i, i + 1 < beta.length → beta.getD i 0 < beta.getD (i + 1) 0) :
    iterateBeta beta ratio = .ok (some beta) ↔ ∀ r ∈ ratio, ∀ r' ∈ ratio, r = r' := by
  obtain ⟨nb, hnb⟩ := iterateBeta_ok beta ratio hl hr
  obtain ⟨h1, h2, h3⟩ := iterateBeta_spec beta ratio nb hnb _ rfl
  rw [hnb]
  by_cases hne : ratio = []
  · subst hne
    simp only [List.not_mem_nil, false_implies, implies_true, iff_true]
    congr 2
    simp only [List.length_nil, zero_add] at hl
    rw [← hl, Nat.sub_self] at h2
    refine List.ext_getElem h1 fun i hi hi' => ?_
    have : i = 0 := by omega
    subst this
    rwa [List.getD_eq_getElem _ _ hi, List.getD_eq_getElem _ _ hi'] at h2
  have havg : 0 < ratio.sum / (ratio.length : K) := div_pos (sum_pos_of_pos _ hne fun r hr' => (hr r hr').1)
    (by exact_mod_cast List.length_pos_of_ne_nil hne)
  constructor
  · intro h
    have hnb' : nb = beta := by simpa using h
    have hall : ∀ r ∈ ratio, r = ratio.sum / (ratio.length : K) := by
      intro r hr'
      obtain ⟨i, hi, rfl⟩ := List.getElem_of_mem hr'
      have h4 := h3 i (by omega)
      rw [hnb', List.getD_eq_getElem ratio _ hi] at h4
      have hg := (sub_pos.2 (hb i (by omega))).ne'
      rw [eq_div_iff havg.ne'] at h4
      exact (mul_left_cancel₀ hg h4).symm
    intro r hr1 r' hr2
    rw [hall r hr1, hall r' hr2]
  · intro h
    obtain ⟨r0, hr0⟩ := List.exists_mem_of_ne_nil ratio hne
    have hrep : ratio = List.replicate ratio.length r0 :=
      List.eq_replicate_iff.2 ⟨rfl, fun b hb' => h b hb' r0 hr0⟩
    have hsum : ratio.sum / (ratio.length : K) = r0 := by
      have hnz : (ratio.length : K) ≠ 0 := by
        exact_mod_cast (List.length_pos_of_ne_nil hne).ne'
      rw [div_eq_iff hnz]
      conv_lhs => rw [hrep]
      rw [List.sum_replicate, nsmul_eq_mul, mul_comm]
    congr 2
    have hdiff : ∀ i, i + 1 < beta.length → nb.getD (i + 1) 0 - nb.getD i 0 = beta.getD (i + 1) 0 - beta.getD i 0 := by
      intro i hi
      have hri : ratio.getD i 0 = r0 := by
        rw [List.getD_eq_getElem _ _ (by omega)]
        exact h _ (List.getElem_mem _) r0 hr0
      rw [h3 i hi, hsum, hri]
      exact mul_div_cancel_right₀ _ (hr r0 hr0).1.ne'
    have hback : ∀ d, d < beta.length → nb.getD (beta.length - 1 - d) 0 = beta.getD (beta.length - 1 - d) 0 := by
      intro d
      induction d with
      | zero => exact fun _ => h2
      | succ d ih =>
        intro hd
        have h5 := ih (by omega)
        have h6 := hdiff (beta.length - 1 - (d + 1)) (by omega)
        rw [show beta.length - 1 - (d + 1) + 1 = beta.length - 1 - d by omega, h5] at h6
        linear_combination -h6
    refine List.ext_getElem h1 fun i hi hi' => ?_
    have := hback (beta.length - 1 - i) (by omega)
    rw [show beta.length - 1 - (beta.length - 1 - i) = i by omega] at this
    rwa [List.getD_eq_getElem _ _ hi, List.getD_eq_getElem _ _ hi'] at this

end

/-- C58 is false: increasing positive inverse temperatures with ratios in (0, 1] can give a negative inverse
temperature. -/
theorem C58_not_positive :
    iterateBeta (K := ℚ) [1 / 10, 1 / 5, 1] [1 / 100, 1] = .ok (some [-296 / 505, -59 / 101, 1]) := by decide +kernel

/-- C58: a wrong number of ratios and a ratio above 1 are rejected. -/
theorem C58_rejects {K : Type} [Field K] [LinearOrder K] (beta ratio : List K)
    (h : ratio.length + 1 ≠ beta.length ∨ ∃ r ∈ ratio, 1 < r) : iterateBeta beta ratio = .error .assertion := by
  unfold iterateBeta
  by_cases h1 : ratio.length + 1 ≠ beta.length
  · rw [if_pos h1]
  · rw [if_neg h1, if_pos]
    obtain ⟨r, hr, hr1⟩ := h.resolve_left h1
    exact fun h2 => absurd (h2 r hr) (not_le.2 hr1)

/-- An instance where the update is legitimate. -/
example : iterateBeta (K := ℚ) [1 / 2, 3 / 4, 1] [1 / 2, 1] = .ok (some [1 / 2, 2 / 3, 1]) := by decide +kernel

end Verif.Props
