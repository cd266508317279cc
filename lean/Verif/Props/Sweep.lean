/-
Property C106: convergence of systematic sweeps (`systematic_iter=True`).
-/
import Verif.Lemmas.Sweep3
import Verif.Props.Mixing

namespace Verif.Props
open Verif Verif.Model Verif.Spec Verif.Lemmas Filter

/-! ### Where it converges -/

/-- C106: rounds of `k` updates that go through the sites in order approach the Boltzmann distribution from every first
state, if any two states are connected by spins that the energy depends on when the update comes to them. -/
theorem C106_converges (n : ℕ) (hn : 0 < n) (E : List ℤ → ℝ) (k : ℕ) (hc : SweepsConnect E n k) (s : List ℤ)
    (hs : s ∈ words [1, -1] n) (f : List ℤ → ℝ) :
    Tendsto (fun m => expectation (fun r => f r.1)
      (Prog.forEach (fun _ : ℕ => metroRun (sampleMetropolis E) n true k) (List.range m) (s, E s))) atTop
      (nhds (expect (words [1, -1] n) E f)) := by
  obtain ⟨r, -, h2, -, h4, -⟩ := (ergodic_sweeps hn E k hc).rate fun st => f st.1
  rw [sum_withE] at h4
  refine tendsto_iff_dist_tendsto_zero.2 (squeeze_zero (fun _ => dist_nonneg) (fun m => ?_) h2)
  have := h4 (List.range m) (s, E s) (mem_withE.2 ⟨hs, rfl⟩)
  rw [List.length_range] at this
  rw [Real.dist_eq]
  exact this

/-- C106: then late rows of `generate_sample` have approximately the Boltzmann distribution, whatever the first state,
the burn-in and the sample size are. -/
theorem C106_sample (n : ℕ) (hn : 0 < n) (E : List ℤ → ℝ) (nIters : ℕ) (hc : SweepsConnect E n nIters)
    (f : List ℤ → ℝ) (δ : ℝ) (hδ : 0 < δ) :
    ∃ M : ℕ, ∀ (sampleSize : ℕ) (burnIn : Option ℕ) (saveHistory : Bool) (prev initial : Option (List (List ℤ)))
      (b : ℕ), UsableStart [1, -1] n sampleSize prev initial → b < sampleSize → M ≤ b →
      |expectation (fun out : SampleOut => f (out.sample.getD b []))
        (generateSamplePy (sampleMetropolis E) (randomSample n) E n prev sampleSize nIters burnIn true saveHistory
          initial) - expect (words [1, -1] n) E f| < δ := by
  obtain ⟨r, h1, h2⟩ := sweeps_rate hn E hc f
  obtain ⟨M, hM⟩ := eventually_atTop.1 (h1.eventually (gt_mem_nhds hδ))
  exact ⟨M, fun sampleSize burnIn saveHistory prev initial b hst hb hle =>
    (h2 sampleSize burnIn saveHistory prev initial b hst.good hb).trans_lt (hM _ (by omega))⟩

/-- C106: and averages over the rows approach the Boltzmann means as the number of rows grows. -/
theorem C106_average (n : ℕ) (hn : 0 < n) (E : List ℤ → ℝ) (nIters : ℕ) (hc : SweepsConnect E n nIters)
    (f : List ℤ → ℝ) :
    ∃ K, ∀ (sampleSize : ℕ) (burnIn : Option ℕ) (saveHistory : Bool) (prev initial : Option (List (List ℤ))),
      UsableStart [1, -1] n sampleSize prev initial → 0 < sampleSize →
      expectation (fun out : SampleOut => ((out.sample.map f).sum / sampleSize - expect (words [1, -1] n) E f) ^ 2)
        (generateSamplePy (sampleMetropolis E) (randomSample n) E n prev sampleSize nIters burnIn true saveHistory
          initial) ≤ K / sampleSize := by
  obtain ⟨K, h0, hK⟩ := sweeps_lln hn E hc f
  refine ⟨K, fun sampleSize burnIn saveHistory prev initial hst hm => ?_⟩
  exact average_of_sum (finDist_generate_sweeps hn E hst.good) (fun out => (out.sample.map f).sum) _ K sampleSize hm
    (hK sampleSize burnIn saveHistory prev initial hst.good)

/-- C106: hence the probability of a deviation of `δ` or more is at most `K` divided by the number of rows and `δ²`. -/
theorem C106_probability (n : ℕ) (hn : 0 < n) (E : List ℤ → ℝ) (nIters : ℕ) (hc : SweepsConnect E n nIters)
    (f : List ℤ → ℝ) :
    ∃ K, ∀ (δ : ℝ) (sampleSize : ℕ) (burnIn : Option ℕ) (saveHistory : Bool) (prev initial : Option (List (List ℤ))),
      UsableStart [1, -1] n sampleSize prev initial → 0 < δ → 0 < sampleSize →
      prob (generateSamplePy (sampleMetropolis E) (randomSample n) E n prev sampleSize nIters burnIn true saveHistory
          initial) (fun out => δ ≤ |(out.sample.map f).sum / sampleSize - expect (words [1, -1] n) E f|) ≤
        K / sampleSize / δ ^ 2 := by
  obtain ⟨K, hK⟩ := C106_average n hn E nIters hc f
  refine ⟨K, fun δ sampleSize burnIn saveHistory prev initial hst hδ hm => ?_⟩
  exact (finDist_generate_sweeps hn E hst.good).chebyshev
    (fun out => (out.sample.map f).sum / sampleSize - expect (words [1, -1] n) E f) δ _ hδ
    (hK sampleSize burnIn saveHistory prev initial hst hm)

/-- C106: the condition holds for an Ising model in which every spin has a field, or couplings that cannot cancel, if a
round is one sweep or at least two. -/
theorem C106_ising (n k : ℕ) (hk : k = n ∨ 2 * n ≤ k) (h : ℕ → ℝ) (J : ℕ → ℕ → ℝ)
    (hh : ∀ i < n, h i ≠ 0 ∨ ∀ s ∈ words [1, -1] n,
      (∑ j ∈ Finset.range n, if j = i then 0 else J (min i j) (max i j) * ((s.getD j 0 : ℤ) : ℝ)) ≠ 0) :
    SweepsConnect (fun s => isingE n h J fun i => ((s.getD i 0 : ℤ) : ℝ)) n k :=
  sweepsConnect_ising hk h J hh

example : ∀ i < 3, (fun i : ℕ => if i = 1 then (0 : ℝ) else 1) i ≠ 0 ∨ ∀ s ∈ words [1, -1] 3,
    (∑ j ∈ Finset.range 3, if j = i then 0 else (if (min i j) = 0 then (2 : ℝ) else 1) * ((s.getD j 0 : ℤ) : ℝ)) ≠ 0 := by
  intro i hi
  interval_cases i
  · left; norm_num
  · right
    intro s hs
    simp only [words, List.flatMap_cons, List.flatMap_nil, List.map_cons, List.map_nil, List.append_nil,
      List.cons_append, List.nil_append, List.mem_cons, List.not_mem_nil, or_false] at hs
    rcases hs with rfl | rfl | rfl | rfl | rfl | rfl | rfl | rfl <;> simp [Finset.sum_range_succ] <;> norm_num
  · left; norm_num

/-! ### Where it does not -/

/-- C106: for all random numbers, after `m` rounds the state is one that is connected with the first, apart from the
reversals that `m` rounds make if every update is accepted. -/
theorem C106_trapped (n : ℕ) (hn : 0 < n) (E : List ℤ → ℝ) (k m : ℕ) (s : List ℤ) (hs : s ∈ words [1, -1] n) :
    Returns (Prog.forEach (fun _ : ℕ => metroRun (sampleMetropolis E) n true k) (List.range m) (s, E s)) fun r =>
      ∃ t, Relation.ReflTransGen (SweepBond E n k) s t ∧ r.1 = (turns (sweepSites n k))^[m] t := by
  refine returns_mono ?_ (returns_trap_rounds hn E (k := k) s hs m)
  rintro r ⟨t, -, h2, rfl⟩
  exact ⟨t, h2, rfl⟩

/-- C106: so the condition is necessary as well: the rounds converge from every first state and for every function if
and only if any two states are connected. -/
theorem C106_iff (n : ℕ) (hn : 0 < n) (E : List ℤ → ℝ) (k : ℕ) :
    (∀ s ∈ words [1, -1] n, ∀ f : List ℤ → ℝ, Tendsto (fun m => expectation (fun r => f r.1)
      (Prog.forEach (fun _ : ℕ => metroRun (sampleMetropolis E) n true k) (List.range m) (s, E s))) atTop
      (nhds (expect (words [1, -1] n) E f))) ↔ SweepsConnect E n k := by
  refine ⟨fun h s hs t ht => ?_, fun hc s hs f => C106_converges n hn E k hc s hs f⟩
  by_contra hcon
  have h1 := (h s hs fun x => if x = t then 1 else 0).comp
    (tendsto_atTop_mono (fun m => by omega : ∀ m : ℕ, m ≤ 2 * m) tendsto_id)
  have h2 : ∀ m : ℕ, expectation (fun r : List ℤ × ℝ => if r.1 = t then (1 : ℝ) else 0)
      (Prog.forEach (fun _ : ℕ => metroRun (sampleMetropolis E) n true k) (List.range (2 * m)) (s, E s)) = 0 := by
    intro m
    refine expectation_certain _ (returns_mono ?_ (C106_trapped n hn E k (2 * m) s hs))
    rintro r ⟨y, hy, hr⟩
    have e : (turns (sweepSites n k))^[2 * m] y = y := by
      rw [Function.iterate_mul]
      have : (turns (sweepSites n k))^[2] = id := funext fun z => turns_turns _ z
      rw [this, Function.iterate_id, id]
    rw [e] at hr
    rw [if_neg fun h => hcon (by rw [← h, hr]; exact hy)]
  have h3 := tendsto_nhds_unique h1 (tendsto_const_nhds.congr fun m => (h2 m).symm : Tendsto _ atTop (nhds (0 : ℝ)))
  have h4 : 0 < expect (words [1, -1] n) E fun x => if x = t then 1 else 0 := by
    have hpos : ∀ x ∈ words ([1, -1] : List ℤ) n, 0 < boltzmann (words [1, -1] n) E x := fun x hx =>
      boltzmann_pos (words [1, -1] n) E (List.ne_nil_of_mem hx) x
    unfold expect
    have h0 : ∀ y ∈ (words ([1, -1] : List ℤ) n).map (fun x => boltzmann (words [1, -1] n) E x * if x = t then 1 else 0),
        0 ≤ y := by
      intro y hy
      obtain ⟨x, hx, rfl⟩ := List.mem_map.1 hy
      have := (hpos x hx).le
      split
      · rw [mul_one]; exact this
      · rw [mul_zero]
    have := List.single_le_sum h0 _ (List.mem_map.2 ⟨t, ht, rfl⟩)
    rw [if_pos rfl, mul_one] at this
    exact (hpos t ht).trans_le this
  exact h4.ne' h3

/-- The state 1, -1, 1, ... -/
def altState (n : ℕ) : List ℤ := (List.range n).map fun j => (-1) ^ j

/-- C106: if the number of spins is odd and the energy depends on the absolute value of the sum of the spins only, then
whole sweeps from the state 1, -1, 1, ... accept every update: for all random numbers the state after any number of
rounds is this one or its reverse. -/
theorem C106_stuck (n : ℕ) (hodd : Odd n) (E : List ℤ → ℝ)
    (hE : ∀ s ∈ words [1, -1] n, ∀ t ∈ words [1, -1] n, |t.sum| = |s.sum| → E t = E s) (sweeps m : ℕ) :
    Returns (Prog.forEach (fun _ : ℕ => metroRun (sampleMetropolis E) n true (n * sweeps)) (List.range m)
      (altState n, E (altState n))) fun r => r.1 = altState n ∨ r.1 = (altState n).map fun v => -v := by
  refine returns_mono ?_ (C106_trapped n hodd.pos E (n * sweeps) m (altState n) (alternating_mem n))
  rintro r ⟨t, h1, h2⟩
  have e := alternating_isolated hodd E (fun s hs t ht h => hE s hs t ht (by rw [h, abs_neg])) t h1
  rw [h2, e]
  exact iterate_sweeps hodd.pos sweeps m (alternating n) (mem_words.1 (alternating_mem n)).1

/-- The energy of an Ising model with equal couplings and no fields. -/
def equalE (n : ℕ) (J : ℝ) (s : List ℤ) : ℝ := isingE n (fun _ => 0) (fun _ _ => J) fun i => ((s.getD i 0 : ℤ) : ℝ)

theorem equalE_abs (n : ℕ) (J : ℝ) : ∀ s ∈ words [1, -1] n, ∀ t ∈ words [1, -1] n, |t.sum| = |s.sum| →
    equalE n J t = equalE n J s := by
  intro s hs t ht h
  have h1 := isingE_equal n J s hs
  have h2 := isingE_equal n J t ht
  unfold realSpin at h1 h2
  unfold equalE
  rw [h1, h2]
  have : ((t.sum : ℤ) : ℝ) ^ 2 = ((s.sum : ℤ) : ℝ) ^ 2 := by
    exact_mod_cast (sq_eq_sq_iff_abs_eq_abs t.sum s.sum).2 h
  rw [this]

/-- C106: so for an odd number of spins with equal couplings and no fields every sample from this state has the
correlation -1 of the first two spins, for all random numbers, however many rows are taken. The Boltzmann mean is not
-1. -/
theorem C106_equal_couplings_wrong (n : ℕ) (hodd : Odd n) (hn : 1 < n) (J : ℝ) (sampleSize sweeps : ℕ)
    (hm : 0 < sampleSize) (prev : Option (List (List ℤ))) :
    Returns (generateSamplePy (sampleMetropolis (equalE n J)) (randomSample n) (equalE n J) n prev sampleSize
      (n * sweeps) none true false (some [altState n])) (fun out =>
        (out.sample.map fun s => ((s.getD 0 0 * s.getD 1 0 : ℤ) : ℝ)).sum / sampleSize = -1) ∧
    -1 < expect (words [1, -1] n) (equalE n J) (fun s => ((s.getD 0 0 * s.getD 1 0 : ℤ) : ℝ)) := by
  have hst : altState n ∈ words [1, -1] n := alternating_mem n
  have h01 : (altState n).getD 0 0 = 1 ∧ (altState n).getD 1 0 = -1 :=
    ⟨by rw [show altState n = alternating n from rfl, getD_alternating n 0 (by omega), pow_zero],
      by rw [show altState n = alternating n from rfl, getD_alternating n 1 (by omega), pow_one]⟩
  constructor
  · obtain ⟨F, hF⟩ : ∃ F, F = turns (sweepSites n (n * sweeps)) (altState n) := ⟨_, rfl⟩
    have hiso := alternating_isolated (q := sweeps) hodd (equalE n J)
      (fun s hs t ht h => equalE_abs n J s hs t ht (by rw [h, abs_neg]))
    have hb : ∀ st : List ℤ × ℝ, (st = (altState n, equalE n J (altState n)) ∨ st = (F, equalE n J F)) →
        Returns (metroRun (sampleMetropolis (equalE n J)) n true (n * sweeps) st) fun st =>
          st = (altState n, equalE n J (altState n)) ∨ st = (F, equalE n J F) := by
      rintro st (rfl | rfl)
      · refine returns_mono ?_ (returns_trap_first hodd.pos (equalE n J) (altState n) (altState n) hst .refl)
        rintro r ⟨y, -, h, rfl⟩
        rw [hiso y h, hF]
        exact .inr rfl
      · rw [hF]
        refine returns_mono ?_ (returns_trap_second hodd.pos (equalE n J) (altState n) (altState n) hst .refl)
        rintro r ⟨y, -, h, rfl⟩
        rw [hiso y h]
        exact .inl rfl
    have h1 := returns_rows_of_blocks _ (sampleMetropolis (equalE n J)) (randomSample n) (equalE n J) n
      sampleSize (n * sweeps) none true prev (altState n) (mem_words.1 hst).1 (hb _ (.inl rfl)) hb
    have h2 := returns_generateSamplePy (goodMove_metropolis n (equalE n J)) (by omega) (returns_randomSample n 1)
      sampleSize (n * sweeps) none true false prev (some [altState n]) ⟨fun x hx => by cases hx; simpa using hst, by simp⟩
    refine returns_mono (fun out h => ?_) (returns_and h1 h2)
    have : out.sample.map (fun s => ((s.getD 0 0 * s.getD 1 0 : ℤ) : ℝ)) = out.sample.map fun _ => (-1 : ℝ) :=
      List.map_congr_left fun r hr => by
        obtain ⟨e, h⟩ := h.1 r hr
        have hr : r = altState n ∨ r = flipAll (altState n) := by
          rcases h with h | h
          · exact .inl (Prod.ext_iff.1 h).1
          · rw [show r = F from (Prod.ext_iff.1 h).1, hF]
            exact turns_sweeps hodd.pos sweeps _ (mem_words.1 hst).1
        rcases hr with rfl | rfl
        · rw [h01.1, h01.2]; norm_num
        · rw [getD_flipAll, getD_flipAll, h01.1, h01.2]; norm_num
    rw [this, List.map_const', List.sum_replicate, h.2.1, nsmul_eq_mul]
    have : (sampleSize : ℝ) ≠ 0 := by exact_mod_cast hm.ne'
    field_simp
  · have hne : words ([1, -1] : List ℤ) n ≠ [] := List.ne_nil_of_mem hst
    have hpos := boltzmann_pos (words [1, -1] n) (equalE n J) hne
    have hsum := sum_boltzmann (words [1, -1] n) (equalE n J) hne
    have hone : List.replicate n (1 : ℤ) ∈ words ([1, -1] : List ℤ) n :=
      mem_words.2 ⟨by simp, fun x hx => by rw [List.eq_of_mem_replicate hx]; simp⟩
    have h0 : ∀ y ∈ (words ([1, -1] : List ℤ) n).map (fun s => boltzmann (words [1, -1] n) (equalE n J) s *
        (((s.getD 0 0 * s.getD 1 0 : ℤ) : ℝ) + 1)), 0 ≤ y := by
      intro y hy
      obtain ⟨s, hs, rfl⟩ := List.mem_map.1 hy
      obtain ⟨h4, h5⟩ := mem_words.1 hs
      refine mul_nonneg (hpos s).le ?_
      rw [List.getD_eq_getElem _ _ (by omega), List.getD_eq_getElem _ _ (by omega)]
      have a := h5 _ (List.getElem_mem (by omega : 0 < s.length))
      have b := h5 _ (List.getElem_mem (by omega : 1 < s.length))
      simp only [List.mem_cons, List.not_mem_nil, or_false] at a b
      rcases a with a | a <;> rcases b with b | b <;> rw [a, b] <;> norm_num
    have h1 := List.single_le_sum h0 _ (List.mem_map.2 ⟨_, hone, rfl⟩)
    have h2 : (List.replicate n (1 : ℤ)).getD 0 0 = 1 ∧ (List.replicate n (1 : ℤ)).getD 1 0 = 1 := by
      constructor
      · rw [List.getD_eq_getElem _ _ (by simp; omega), List.getElem_replicate]
      · rw [List.getD_eq_getElem _ _ (by simp; omega), List.getElem_replicate]
    rw [h2.1, h2.2] at h1
    have h3 := hpos (List.replicate n (1 : ℤ))
    have e : ((words ([1, -1] : List ℤ) n).map (fun s => boltzmann (words [1, -1] n) (equalE n J) s *
        (((s.getD 0 0 * s.getD 1 0 : ℤ) : ℝ) + 1))).sum =
        expect (words [1, -1] n) (equalE n J) (fun s => ((s.getD 0 0 * s.getD 1 0 : ℤ) : ℝ)) + 1 := by
      simp only [mul_add, mul_one]
      rw [List.sum_map_add, hsum]
      rfl
    rw [e] at h1
    push_cast at h1 ⊢
    linarith

example : Odd 3 ∧ altState 3 = [1, -1, 1] := ⟨by decide, rfl⟩

/-- C106: and so for such a model whole sweeps do not converge. -/
theorem C106_equal_couplings_not_connected (n : ℕ) (hodd : Odd n) (hn : 1 < n) (J : ℝ) (sweeps : ℕ) :
    ¬ SweepsConnect (equalE n J) n (n * sweeps) := by
  intro hc
  have hone : List.replicate n (1 : ℤ) ∈ words ([1, -1] : List ℤ) n :=
    mem_words.2 ⟨by simp, fun x hx => by rw [List.eq_of_mem_replicate hx]; simp⟩
  have := alternating_isolated (q := sweeps) hodd (equalE n J)
    (fun s hs t ht h => equalE_abs n J s hs t ht (by rw [h, abs_neg])) _ (hc _ (alternating_mem n) _ hone)
  have h1 := congrArg (fun l => l.getD 1 0) this
  rw [getD_alternating n 1 hn, List.getD_eq_getElem _ _ (by simp; omega), List.getElem_replicate] at h1
  norm_num at h1

end Verif.Props
