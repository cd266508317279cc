/-
Properties C91 and C92: the samples of the Metropolis samplers approach the Boltzmann distribution from every first
state, and so do averages over the rows.
-/
import Verif.Lemmas.Ergodic3
import Verif.Lemmas.IsingUpdate

namespace Verif.Props
open Verif Verif.Model Verif.Spec Verif.Lemmas Filter

/-! ### C91 -/

/-- The first states that a call may use: given, kept from the last call, or random. -/
def UsableStart (A : List ℤ) (n sampleSize : ℕ) (prev initial : Option (List (List ℤ))) : Prop :=
  (∀ x, initial = some x → ∃ s ∈ words A n, x = [s]) ∧
    (initial = none → ∀ p, prev = some p → p.length = sampleSize → ∃ s ∈ words A n, p = [s])

theorem UsableStart.good {A : List ℤ} {n sampleSize : ℕ} {prev initial : Option (List (List ℤ))}
    (h : UsableStart A n sampleSize prev initial) : GoodStart (words A n) 1 sampleSize prev initial := by
  refine ⟨fun x hx => ?_, fun p hi hp hlen => ?_⟩
  · obtain ⟨s, hs, rfl⟩ := h.1 x hx
    simpa using hs
  · obtain ⟨s, hs, rfl⟩ := h.2 hi p hp hlen
    simpa using hs

/-- C91: updates at random sites approach the Boltzmann distribution from every first state, if the energy is not the
same for all states: the mean of every function of the state tends to its Boltzmann mean. -/
theorem C91_converges (n : ℕ) (hn : 0 < n) (E : List ℤ → ℝ)
    (hE : ∃ s ∈ words [1, -1] n, ∃ t ∈ words [1, -1] n, E s ≠ E t) (s : List ℤ) (hs : s ∈ words [1, -1] n)
    (f : List ℤ → ℝ) :
    Tendsto (fun m => expectation (fun r => f r.1) (metroRun (sampleMetropolis E) n false m (s, E s))) atTop
      (nhds (expect (words [1, -1] n) E f)) := by
  obtain ⟨r, -, h2, -, h4, -⟩ := (ergodic_metropolis n hn E hE).rate fun st => f st.1
  rw [sum_withE] at h4
  refine tendsto_iff_dist_tendsto_zero.2 (squeeze_zero (fun _ => dist_nonneg) (fun m => ?_) h2)
  have := h4 (List.range m) (s, E s) (mem_withE.2 ⟨hs, rfl⟩)
  rw [List.length_range] at this
  rw [Real.dist_eq]
  exact this

/-- C91: the same for the three-state Potts sampler, for every energy. -/
theorem C91_converges_potts3 (n : ℕ) (hn : 0 < n) (E : List ℤ → ℝ) (s : List ℤ) (hs : s ∈ words [0, 1, 2] n)
    (f : List ℤ → ℝ) :
    Tendsto (fun m => expectation (fun r => f r.1) (metroRun (sampleMetropolisPotts3 E) n false m (s, E s))) atTop
      (nhds (expect (words [0, 1, 2] n) E f)) := by
  obtain ⟨r, -, h2, -, h4, -⟩ := (ergodic_potts3 n hn E).rate fun st => f st.1
  rw [sum_withE] at h4
  refine tendsto_iff_dist_tendsto_zero.2 (squeeze_zero (fun _ => dist_nonneg) (fun m => ?_) h2)
  have := h4 (List.range m) (s, E s) (mem_withE.2 ⟨hs, rfl⟩)
  rw [List.length_range] at this
  rw [Real.dist_eq]
  exact this

/-- C91: the rows of `generate_sample` have approximately the Boltzmann distribution, once the number of updates before
them (burn-in and `n_iters` per row) is large, whatever the first state and the other arguments. -/
theorem C91_sample (n : ℕ) (hn : 0 < n) (E : List ℤ → ℝ)
    (hE : ∃ s ∈ words [1, -1] n, ∃ t ∈ words [1, -1] n, E s ≠ E t) (f : List ℤ → ℝ) (δ : ℝ) (hδ : 0 < δ) :
    ∃ M : ℕ, ∀ (sampleSize nIters : ℕ) (burnIn : Option ℕ) (saveHistory : Bool) (prev initial : Option (List (List ℤ)))
      (b : ℕ), UsableStart [1, -1] n sampleSize prev initial → b < sampleSize →
      M ≤ burnOr burnIn nIters + (b + 1) * nIters →
      |expectation (fun out : SampleOut => f (out.sample.getD b []))
        (generateSamplePy (sampleMetropolis E) (randomSample n) E n prev sampleSize nIters burnIn false saveHistory
          initial) - expect (words [1, -1] n) E f| < δ := by
  obtain ⟨r, h1, h2⟩ := generate_rate (goodMove_metropolis n E) (ergodic_metropolis n hn E hE) hn
    (finDist_randomSample n 1) f
  obtain ⟨M, hM⟩ := eventually_atTop.1 (h1.eventually (gt_mem_nhds hδ))
  exact ⟨M, fun sampleSize nIters burnIn saveHistory prev initial b hst hb hle =>
    (h2 sampleSize nIters burnIn saveHistory prev initial b hst.good hb).trans_lt (hM _ hle)⟩

/-- C91: the same for the three-state Potts sampler. -/
theorem C91_sample_potts3 (n : ℕ) (hn : 0 < n) (E : List ℤ → ℝ) (f : List ℤ → ℝ) (δ : ℝ) (hδ : 0 < δ) :
    ∃ M : ℕ, ∀ (sampleSize nIters : ℕ) (burnIn : Option ℕ) (saveHistory : Bool) (prev initial : Option (List (List ℤ)))
      (b : ℕ), UsableStart [0, 1, 2] n sampleSize prev initial → b < sampleSize →
      M ≤ burnOr burnIn nIters + (b + 1) * nIters →
      |expectation (fun out : SampleOut => f (out.sample.getD b []))
        (generateSamplePy (sampleMetropolisPotts3 E) (randomSamplePotts3 n) E n prev sampleSize nIters burnIn false
          saveHistory initial) - expect (words [0, 1, 2] n) E f| < δ := by
  obtain ⟨r, h1, h2⟩ := generate_rate (goodMove_potts3 n E) (ergodic_potts3 n hn E) hn
    (finDist_randomSamplePotts3 n 1) f
  obtain ⟨M, hM⟩ := eventually_atTop.1 (h1.eventually (gt_mem_nhds hδ))
  exact ⟨M, fun sampleSize nIters burnIn saveHistory prev initial b hst hb hle =>
    (h2 sampleSize nIters burnIn saveHistory prev initial b hst.good hb).trans_lt (hM _ hle)⟩

/-! #### Where it fails -/

theorem prod_set_neg (s : List ℤ) (i : ℕ) (hi : i < s.length) : (negAt s i).prod = -s.prod := by
  rw [negAt_eq]
  induction s generalizing i with
  | nil => simp at hi
  | cons a s ih =>
    cases i with
    | zero => simp
    | succ i =>
      simp only [List.length_cons, Nat.add_lt_add_iff_right] at hi
      have := ih i hi
      simp only [List.getD_cons_succ, List.set_cons_succ, List.prod_cons] at this ⊢
      rw [this]
      ring

/-- An update that does not change the energy is always accepted. -/
theorem metropolis_equal (E : List ℤ → ℝ) (s : List ℤ) (i : ℕ) (hi : i < s.length) (h : E (negAt s i) = E s) :
    sampleMetropolis E (some i) s (E s) = .ret (negAt s i, 0) := by
  unfold sampleMetropolis chooseSite
  simp only [Prog.bind, if_pos hi, h, sub_self, gt_iff_lt, lt_irrefl, if_false]

/-- C91: if the energy is the same for all states (for example all parameters zero), every update is accepted, and after
`m` updates the product of all spins is the first one times `(-1)^m`, for all random numbers: the state does not
approach the uniform distribution. -/
theorem C91_constant_energy (n : ℕ) (hn : 0 < n) (E : List ℤ → ℝ)
    (hE : ∀ s ∈ words [1, -1] n, ∀ t ∈ words [1, -1] n, E s = E t) (systematic : Bool) (m : ℕ) (s : List ℤ)
    (hs : s ∈ words [1, -1] n) :
    Returns (metroRun (sampleMetropolis E) n systematic m (s, E s)) fun r =>
      r.1 ∈ words [1, -1] n ∧ r.2 = E r.1 ∧ r.1.prod = (-1) ^ m * s.prod := by
  have key : ∀ l : List ℕ, ∀ s ∈ words [1, -1] n, Returns (Prog.forEach (metroIter (sampleMetropolis E) n systematic) l
      (s, E s)) fun r => r.1 ∈ words [1, -1] n ∧ r.2 = E r.1 ∧ r.1.prod = (-1) ^ l.length * s.prod := by
    intro l
    induction l with
    | nil => exact fun s hs => returns_ret ⟨hs, rfl, by simp⟩
    | cons j l ih =>
      intro s hs
      have hl := (mem_words.1 hs).1
      have hstep : ∀ i < n, Returns ((sampleMetropolis E (some i) s (E s)).bind fun r => .ret (r.1, E s + r.2))
          fun r => ∃ t ∈ words [1, -1] n, r = (t, E t) ∧ t.prod = -s.prod := by
        intro i hi
        have hmem : negAt s i ∈ words [1, -1] n := by rw [negAt_eq]; exact flip_mem_words n i s hs
        rw [metropolis_equal E s i (by omega) (hE _ hmem _ hs)]
        exact returns_ret ⟨_, hmem, by rw [add_zero, hE _ hs _ hmem], prod_set_neg s i (by omega)⟩
      have h1 : Returns (metroIter (sampleMetropolis E) n systematic j (s, E s))
          fun r => ∃ t ∈ words [1, -1] n, r = (t, E t) ∧ t.prod = -s.prod := by
        cases systematic
        · rw [metroIter_random (goodMove_metropolis n E) j s hs]
          exact returns_randint n hn _ hstep
        · unfold metroIter siteArg
          simp only [if_true, if_neg hn.ne', Prog.ofPy, Prog.bind]
          exact hstep _ (Nat.mod_lt _ hn)
      refine returns_bind h1 ?_
      rintro _ ⟨t, ht, rfl, htp⟩
      refine returns_mono (fun r hr => ⟨hr.1, hr.2.1, ?_⟩) (ih t ht)
      rw [hr.2.2, htp, List.length_cons, pow_succ]
      ring
  have := key (List.range m) s hs
  rwa [List.length_range] at this

/-- C91: so there is no convergence: the product of all spins has Boltzmann mean 0, but alternates between 1 and -1. -/
theorem C91_constant_energy_wrong (n : ℕ) (hn : 0 < n) (E : List ℤ → ℝ)
    (hE : ∀ s ∈ words [1, -1] n, ∀ t ∈ words [1, -1] n, E s = E t) (s : List ℤ) (hs : s ∈ words [1, -1] n) :
    ¬ ∃ x, Tendsto (fun m => expectation (fun r => ((r.1.prod : ℤ) : ℝ))
      (metroRun (sampleMetropolis E) n false m (s, E s))) atTop (nhds x) := by
  rintro ⟨x, hx⟩
  have hval : ∀ m, expectation (fun r => ((r.1.prod : ℤ) : ℝ)) (metroRun (sampleMetropolis E) n false m (s, E s)) =
      (-1) ^ m * ((s.prod : ℤ) : ℝ) := fun m => by
    refine expectation_certain _ (returns_mono (fun r hr => ?_) (C91_constant_energy n hn E hE false m s hs))
    rw [hr.2.2]; push_cast; ring
  simp only [hval] at hx
  have hne : ((s.prod : ℤ) : ℝ) ≠ 0 := by
    rw [Int.cast_ne_zero]
    intro h
    have := List.prod_eq_zero_iff.1 h
    have := (mem_words.1 hs).2 0 this
    simp at this
  have h1 := hx.comp (tendsto_atTop_mono (fun m => by omega : ∀ m : ℕ, m ≤ 2 * m) tendsto_id)
  have h2 := hx.comp (tendsto_atTop_mono (fun m => by omega : ∀ m : ℕ, m ≤ 2 * m + 1) tendsto_id)
  have e1 := tendsto_nhds_unique h1 (tendsto_const_nhds.congr fun m => by
    simp only [Function.comp]; rw [pow_mul]; norm_num : Tendsto _ atTop (nhds ((s.prod : ℤ) : ℝ)))
  have e2 := tendsto_nhds_unique h2 (tendsto_const_nhds.congr fun m => by
    simp only [Function.comp]; rw [pow_succ, pow_mul]; norm_num : Tendsto _ atTop (nhds (-((s.prod : ℤ) : ℝ))))
  exact hne (by linarith)

/-- What holds after every block holds for every row. -/
theorem returns_rows_of_blocks (I : List ℤ × ℝ → Prop) (move : Move) (random : ℕ → Prog (List (List ℤ)))
    (E : List ℤ → ℝ) (n sampleSize nIters : ℕ) (burnIn : Option ℕ) (systematic : Bool)
    (prev : Option (List (List ℤ))) (s : List ℤ) (hs : s.length = n)
    (hburn : Returns (metroRun move n systematic (burnOr burnIn nIters) (s, E s)) I)
    (hblock : ∀ st, I st → Returns (metroRun move n systematic nIters st) I) :
    Returns (generateSamplePy move random E n prev sampleSize nIters burnIn systematic false (some [s])) fun out =>
      ∀ r ∈ out.sample, ∃ e, I (r, e) := by
  unfold generateSamplePy startStates
  dsimp only
  rw [if_pos ⟨rfl, by simp [hs]⟩, Prog.bind]
  refine returns_bind hburn fun st hst => ?_
  rw [if_neg (by simp), metroRecord_blocks, bind_assoc]
  refine returns_bind (returns_visits (I := I) (fun _ : ℕ => metroRun move n systematic nIters) _
    (fun _ _ => hblock) st hst) fun tr htr => returns_ret fun r hr => ?_
  obtain ⟨x, hx, rfl⟩ := List.mem_map.1 hr
  exact ⟨x.2, htr.2 x hx⟩

/-- C91: with the default settings (`n_iters` even, also as burn-in) and constant energy, all rows have the parity of
the first state, for all random numbers. -/
theorem C91_constant_energy_rows (n : ℕ) (hn : 0 < n) (E : List ℤ → ℝ)
    (hE : ∀ s ∈ words [1, -1] n, ∀ t ∈ words [1, -1] n, E s = E t) (systematic : Bool) (sampleSize nIters : ℕ)
    (hq : Even nIters) (prev : Option (List (List ℤ))) (s : List ℤ) (hs : s ∈ words [1, -1] n) :
    Returns (generateSamplePy (sampleMetropolis E) (randomSample n) E n prev sampleSize nIters none systematic false
      (some [s])) fun out => ∀ r ∈ out.sample, r.prod = s.prod := by
  have hb : ∀ st : List ℤ × ℝ, (st.1 ∈ words [1, -1] n ∧ st.2 = E st.1 ∧ st.1.prod = s.prod) →
      Returns (metroRun (sampleMetropolis E) n systematic nIters st) fun st =>
        st.1 ∈ words [1, -1] n ∧ st.2 = E st.1 ∧ st.1.prod = s.prod := by
    rintro ⟨t, e⟩ ⟨h1, h2, h3⟩
    dsimp only at h1 h2 h3
    subst h2
    refine returns_mono (fun r hr => ⟨hr.1, hr.2.1, ?_⟩) (C91_constant_energy n hn E hE systematic nIters t h1)
    rw [hr.2.2, hq.neg_one_pow, one_mul, h3]
  refine returns_mono (fun out h r hr => ?_) (returns_rows_of_blocks
    (fun st => st.1 ∈ words [1, -1] n ∧ st.2 = E st.1 ∧ st.1.prod = s.prod) (sampleMetropolis E) (randomSample n) E n
    sampleSize nIters none systematic prev s (mem_words.1 hs).1 (hb (s, E s) ⟨hs, rfl, rfl⟩) hb)
  obtain ⟨e, h⟩ := h r hr
  exact h.2.2

/-- C91: with systematic sweeps there is no convergence either if the energy does not depend on one of the spins (a spin
without field and couplings): that spin is flipped in every sweep. -/
theorem C91_systematic (n : ℕ) (E : List ℤ → ℝ) (k : ℕ) (hk : k < n)
    (hE : ∀ s ∈ words [1, -1] n, E (s.set k (-s.getD k 0)) = E s) (m : ℕ) (s : List ℤ) (hs : s ∈ words [1, -1] n) :
    Returns (metroRun (sampleMetropolis E) n true m (s, E s)) fun r =>
      r.1 ∈ words [1, -1] n ∧ r.2 = E r.1 ∧
        r.1.getD k 0 = (-1) ^ ((List.range m).countP fun j => j % n = k) * s.getD k 0 := by
  have hn : 0 < n := by omega
  have key : ∀ l : List ℕ, ∀ s ∈ words [1, -1] n, Returns (Prog.forEach (metroIter (sampleMetropolis E) n true) l
      (s, E s)) fun r => r.1 ∈ words [1, -1] n ∧ r.2 = E r.1 ∧
        r.1.getD k 0 = (-1) ^ (l.countP fun j => j % n = k) * s.getD k 0 := by
    intro l
    induction l with
    | nil => exact fun s hs => returns_ret ⟨hs, rfl, by simp⟩
    | cons j l ih =>
      intro s hs
      have hl := (mem_words.1 hs).1
      have h1 : Returns (metroIter (sampleMetropolis E) n true j (s, E s))
          fun r => ∃ t ∈ words [1, -1] n, r = (t, E t) ∧ t.getD k 0 = (if j % n = k then -1 else 1) * s.getD k 0 := by
        unfold metroIter siteArg
        simp only [if_true, if_neg hn.ne', Prog.ofPy, Prog.bind]
        by_cases hjk : j % n = k
        · rw [hjk]
          have hmem : negAt s k ∈ words [1, -1] n := by rw [negAt_eq]; exact flip_mem_words n k s hs
          have he : E (negAt s k) = E s := by rw [negAt_eq]; exact hE s hs
          rw [metropolis_equal E s k (by omega) he]
          refine returns_ret ⟨_, hmem, by rw [add_zero, he], ?_⟩
          rw [if_pos rfl, negAt_eq, List.getD_eq_getElem _ _ (by simp [hl, hk]), List.getElem_set_self]
          ring
        · have hi : j % n < s.length := by rw [hl]; exact Nat.mod_lt _ hn
          refine returns_bind (returns_metropolis E (j % n) s hi) fun r hr => returns_ret ?_
          rw [if_neg hjk, one_mul]
          refine ⟨r.1, ?_, by rw [← hr.2], ?_⟩
          · rcases hr.1 with h | h <;> rw [h]
            · exact hs
            · rw [negAt_eq]; exact flip_mem_words n _ s hs
          · rcases hr.1 with h | h <;> rw [h]
            rw [negAt_eq]
            simp [List.getElem?_set_ne hjk]
      refine returns_bind h1 ?_
      rintro _ ⟨t, ht, rfl, htk⟩
      refine returns_mono (fun r hr => ⟨hr.1, hr.2.1, ?_⟩) (ih t ht)
      rw [hr.2.2, htk, List.countP_cons]
      by_cases hjk : j % n = k
      · simp only [hjk, if_true, decide_true, pow_add, pow_one]; ring
      · simp [hjk]
  exact key (List.range m) s hs

theorem countP_sweep (n q k : ℕ) (hk : k < n) : (List.range (n * q)).countP (fun j => decide (j % n = k)) = q := by
  induction q with
  | zero => simp
  | succ q ih =>
    rw [Nat.mul_succ, List.range_add, List.countP_append, ih, List.countP_map]
    congr 1
    have h1 : (List.range n).countP ((fun j => decide (j % n = k)) ∘ fun x => n * q + x) =
        (List.range n).countP fun x => x == k := by
      refine List.countP_congr fun x hx => ?_
      have hx := List.mem_range.1 hx
      simp [Nat.mod_eq_of_lt hx]
    rw [h1]
    exact List.count_eq_one_of_mem List.nodup_range (List.mem_range.2 hk)

/-- C91: if moreover the number of sweeps between rows is even, the spin has the same value in all rows, for all random
numbers. -/
theorem C91_systematic_frozen (n : ℕ) (E : List ℤ → ℝ) (k : ℕ) (hk : k < n)
    (hE : ∀ s ∈ words [1, -1] n, E (s.set k (-s.getD k 0)) = E s) (sampleSize sweeps : ℕ) (hq : Even sweeps)
    (prev : Option (List (List ℤ))) (s : List ℤ) (hs : s ∈ words [1, -1] n) :
    Returns (generateSamplePy (sampleMetropolis E) (randomSample n) E n prev sampleSize (n * sweeps) none true false
      (some [s])) fun out => ∀ r ∈ out.sample, r.getD k 0 = s.getD k 0 := by
  have hb : ∀ st : List ℤ × ℝ, (st.1 ∈ words [1, -1] n ∧ st.2 = E st.1 ∧ st.1.getD k 0 = s.getD k 0) →
      Returns (metroRun (sampleMetropolis E) n true (n * sweeps) st) fun st =>
        st.1 ∈ words [1, -1] n ∧ st.2 = E st.1 ∧ st.1.getD k 0 = s.getD k 0 := by
    rintro ⟨t, e⟩ ⟨h1, h2, h3⟩
    dsimp only at h1 h2 h3
    subst h2
    refine returns_mono (fun r hr => ⟨hr.1, hr.2.1, ?_⟩) (C91_systematic n E k hk hE (n * sweeps) t h1)
    rw [hr.2.2, countP_sweep n sweeps k hk, hq.neg_one_pow, one_mul, h3]
  refine returns_mono (fun out h r hr => ?_) (returns_rows_of_blocks
    (fun st => st.1 ∈ words [1, -1] n ∧ st.2 = E st.1 ∧ st.1.getD k 0 = s.getD k 0) (sampleMetropolis E)
    (randomSample n) E n sampleSize (n * sweeps) none true prev s (mem_words.1 hs).1 (hb (s, E s) ⟨hs, rfl, rfl⟩) hb)
  obtain ⟨e, h⟩ := h r hr
  exact h.2.2

/-- The energy of two spins of which only the first has a field. -/
def oneField (s : List ℤ) : ℝ := -((s.getD 0 0 : ℤ) : ℝ)

example : (∃ s ∈ words [1, -1] 2, ∃ t ∈ words [1, -1] 2, oneField s ≠ oneField t) ∧
    (∀ s ∈ words [1, -1] 2, oneField (s.set 1 (-s.getD 1 0)) = oneField s) := by
  refine ⟨⟨[1, 1], by decide, [-1, 1], by decide, by norm_num [oneField]⟩, fun s hs => ?_⟩
  match s, (mem_words.1 hs).1 with
  | [a, b], _ => rfl

example : UsableStart [1, -1] 2 5 none (some [[1, -1]]) ∧ UsableStart [1, -1] 2 5 none none ∧
    UsableStart [1, -1] 2 5 (some [[1, 1]]) none :=
  ⟨⟨fun x hx => ⟨[1, -1], by decide, by simpa using hx.symm⟩, by simp⟩, ⟨by simp, by simp⟩, ⟨by simp, by simp⟩⟩

/-! ### C92 -/

/-- C92: the average of a function over the rows approaches its Boltzmann mean as the number of rows grows, from every
first state and for every burn-in and every `n_iters` but 0: the mean square deviation is at most `K` divided by the
number of rows. -/
theorem C92_average (n : ℕ) (hn : 0 < n) (E : List ℤ → ℝ)
    (hE : ∃ s ∈ words [1, -1] n, ∃ t ∈ words [1, -1] n, E s ≠ E t) (f : List ℤ → ℝ) :
    ∃ K, ∀ (sampleSize nIters : ℕ) (burnIn : Option ℕ) (saveHistory : Bool) (prev initial : Option (List (List ℤ))),
      UsableStart [1, -1] n sampleSize prev initial → 0 < sampleSize → 0 < nIters →
      expectation (fun out : SampleOut => ((out.sample.map f).sum / sampleSize - expect (words [1, -1] n) E f) ^ 2)
        (generateSamplePy (sampleMetropolis E) (randomSample n) E n prev sampleSize nIters burnIn false saveHistory
          initial) ≤ K / sampleSize := by
  have he := ergodic_metropolis n hn E hE
  obtain ⟨K, h0, hK⟩ := generate_lln (goodMove_metropolis n E) he (finDist_randomSample n 1) f
  refine ⟨K, fun sampleSize nIters burnIn saveHistory prev initial hst hm hq => ?_⟩
  exact average_of_sum (finDist_generate (goodMove_metropolis n E) he (finDist_randomSample n 1) sampleSize nIters burnIn
    saveHistory prev initial hst.good) (fun out => (out.sample.map f).sum) _ K sampleSize hm
    (hK sampleSize nIters burnIn saveHistory prev initial hst.good hq)

/-- C92: hence, for every `δ`, the probability that the average over the rows differs from the Boltzmann mean by `δ` or
more is at most `K` divided by the number of rows and `δ²`. -/
theorem C92_probability (n : ℕ) (hn : 0 < n) (E : List ℤ → ℝ)
    (hE : ∃ s ∈ words [1, -1] n, ∃ t ∈ words [1, -1] n, E s ≠ E t) (f : List ℤ → ℝ) :
    ∃ K, ∀ (δ : ℝ) (sampleSize nIters : ℕ) (burnIn : Option ℕ) (saveHistory : Bool)
      (prev initial : Option (List (List ℤ))),
      UsableStart [1, -1] n sampleSize prev initial → 0 < δ → 0 < sampleSize → 0 < nIters →
      prob (generateSamplePy (sampleMetropolis E) (randomSample n) E n prev sampleSize nIters burnIn false saveHistory
          initial) (fun out => δ ≤ |(out.sample.map f).sum / sampleSize - expect (words [1, -1] n) E f|) ≤
        K / sampleSize / δ ^ 2 := by
  obtain ⟨K, hK⟩ := C92_average n hn E hE f
  refine ⟨K, fun δ sampleSize nIters burnIn saveHistory prev initial hst hδ hm hq => ?_⟩
  exact (finDist_generate (goodMove_metropolis n E) (ergodic_metropolis n hn E hE) (finDist_randomSample n 1) sampleSize
    nIters burnIn saveHistory prev initial hst.good).chebyshev
    (fun out => (out.sample.map f).sum / sampleSize - expect (words [1, -1] n) E f) δ _ hδ
    (hK sampleSize nIters burnIn saveHistory prev initial hst hm hq)

/-- C92: the same for the three-state Potts sampler, for every energy. -/
theorem C92_average_potts3 (n : ℕ) (hn : 0 < n) (E : List ℤ → ℝ) (f : List ℤ → ℝ) :
    ∃ K, ∀ (sampleSize nIters : ℕ) (burnIn : Option ℕ) (saveHistory : Bool) (prev initial : Option (List (List ℤ))),
      UsableStart [0, 1, 2] n sampleSize prev initial → 0 < sampleSize → 0 < nIters →
      expectation (fun out : SampleOut => ((out.sample.map f).sum / sampleSize - expect (words [0, 1, 2] n) E f) ^ 2)
        (generateSamplePy (sampleMetropolisPotts3 E) (randomSamplePotts3 n) E n prev sampleSize nIters burnIn false
          saveHistory initial) ≤ K / sampleSize := by
  have he := ergodic_potts3 n hn E
  obtain ⟨K, h0, hK⟩ := generate_lln (goodMove_potts3 n E) he (finDist_randomSamplePotts3 n 1) f
  refine ⟨K, fun sampleSize nIters burnIn saveHistory prev initial hst hm hq => ?_⟩
  exact average_of_sum (finDist_generate (goodMove_potts3 n E) he (finDist_randomSamplePotts3 n 1) sampleSize nIters
    burnIn saveHistory prev initial hst.good) (fun out => (out.sample.map f).sum) _ K sampleSize hm
    (hK sampleSize nIters burnIn saveHistory prev initial hst.good hq)

/-- C92: with constant energy the averages can be wrong however many rows are taken: for two spins, `n_iters` even and
equal first spins, every sample has correlation 1, where the Boltzmann mean is 0. -/
theorem C92_constant_energy_wrong (E : List ℤ → ℝ)
    (hE : ∀ s ∈ words [1, -1] 2, ∀ t ∈ words [1, -1] 2, E s = E t) (sampleSize nIters : ℕ) (hm : 0 < sampleSize)
    (hq : Even nIters) (prev : Option (List (List ℤ))) :
    Returns (generateSamplePy (sampleMetropolis E) (randomSample 2) E 2 prev sampleSize nIters none false false
      (some [[1, 1]])) (fun out => (out.sample.map fun s => ((s.prod : ℤ) : ℝ)).sum / sampleSize = 1) ∧
    expect (words [1, -1] 2) E (fun s => ((s.prod : ℤ) : ℝ)) = 0 := by
  constructor
  · have h1 := C91_constant_energy_rows 2 (by norm_num) E hE false sampleSize nIters hq prev [1, 1] (by decide)
    have h2 := returns_generateSamplePy (goodMove_metropolis 2 E) (by norm_num) (returns_randomSample 2 1) sampleSize
      nIters none false false prev (some [[1, 1]]) ⟨fun x hx => by cases hx; decide, by simp⟩
    refine returns_mono (fun out h => ?_) (returns_and h1 h2)
    have : out.sample.map (fun s => ((s.prod : ℤ) : ℝ)) = out.sample.map fun _ => (1 : ℝ) :=
      List.map_congr_left fun r hr => by rw [h.1 r hr]; norm_num
    rw [this, List.map_const', List.sum_replicate, h.2.1, nsmul_eq_mul, mul_one]
    have : (sampleSize : ℝ) ≠ 0 := by exact_mod_cast hm.ne'
    field_simp
  · have e : ∀ s ∈ words [1, -1] 2, E s = E [1, 1] := fun s hs => hE s hs _ (by decide)
    unfold expect boltzmann partition
    simp only [words, List.flatMap_cons, List.flatMap_nil, List.map_cons, List.map_nil, List.append_nil,
      List.cons_append, List.nil_append, List.sum_cons, List.sum_nil]
    rw [e [1, -1] (by decide), e [-1, 1] (by decide), e [-1, -1] (by decide)]
    norm_num

example : ∀ s ∈ words [1, -1] 2, ∀ t ∈ words [1, -1] 2, (fun _ => 0 : List ℤ → ℝ) s = (fun _ => 0 : List ℤ → ℝ) t :=
  fun _ _ _ _ => rfl

end Verif.Props
