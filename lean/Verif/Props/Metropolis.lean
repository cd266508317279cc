/-
Properties C50–C53 and the Python part of C56: the Metropolis samplers.
The expectations and probabilities are those of ideal random numbers (`Verif.Spec.expectation`); statements
with `Returns` hold for every stream of random numbers.
-/
import Verif.Lemmas.Metropolis3
import Verif.Lemmas.IsingUpdate

namespace Verif.Props
open Verif Verif.Model Verif.Spec Verif.Lemmas

/-! ### C50 -/

/-- C50: the update at site `i` flips the spin with probability `min(1, exp(-dE))` and otherwise leaves the
state as it is. -/
theorem C50_accept (n : ℕ) (E : List ℤ → ℝ) (i : ℕ) (hi : i < n) (s : List ℤ) (hs : s ∈ words [1, -1] n) :
    prob (sampleMetropolis E (some i) s (E s)) (fun r => r.1 = s.set i (-s.getD i 0)) =
        min 1 (Real.exp (-(E (s.set i (-s.getD i 0)) - E s))) ∧
      prob (sampleMetropolis E (some i) s (E s)) (fun r => r.1 = s) =
        1 - min 1 (Real.exp (-(E (s.set i (-s.getD i 0)) - E s))) := by
  have hl := (mem_words.1 hs).1
  have hne : s ≠ s.set i (-s.getD i 0) := by
    intro h
    have h1 := congrArg (fun l => l.getD i 0) h
    have h2 := getD_mem_of_words hi hs
    simp only [List.mem_cons, List.not_mem_nil, or_false] at h2
    have h3 : (s.set i (-s.getD i 0)).getD i 0 = -s.getD i 0 := by
      rw [List.getD_eq_getElem _ _ (by simp [hl, hi]), List.getElem_set_self]
    have h4 : s.getD i 0 = -s.getD i 0 := h1.trans h3
    omega
  unfold prob
  rw [expectation_metropolis E _ i s _ (by omega), expectation_metropolis E _ i s _ (by omega), negAt_eq]
  dsimp only
  rw [if_pos rfl, if_neg hne, if_neg (Ne.symm hne), if_pos rfl]
  constructor <;> ring

/-- C50: detailed balance of the update at one site. -/
theorem C50_detailed_balance_site (n : ℕ) (E : List ℤ → ℝ) (i : ℕ) (hi : i < n) (s t : List ℤ)
    (hs : s ∈ words [1, -1] n) (ht : t ∈ words [1, -1] n) :
    boltzmann (words [1, -1] n) E s * prob (sampleMetropolis E (some i) s (E s)) (fun r => r.1 = t) =
      boltzmann (words [1, -1] n) E t * prob (sampleMetropolis E (some i) t (E t)) (fun r => r.1 = s) := by
  by_cases hst : s = t
  · subst hst; rfl
  unfold prob
  rw [expectation_metropolis E _ i s _ (by rw [(mem_words.1 hs).1]; exact hi),
    expectation_metropolis E _ i t _ (by rw [(mem_words.1 ht).1]; exact hi)]
  dsimp only
  rw [if_neg hst, if_neg (Ne.symm hst)]
  by_cases h : negAt s i = t
  · have h' : negAt t i = s := by rw [← h, negAt_negAt]
    rw [if_pos h, if_pos h', h, h', mul_zero, mul_zero, add_zero, add_zero, mul_one, mul_one]
    exact boltzmann_balance _ E s t
  · have h' : negAt t i ≠ s := fun h2 => h (by rw [← h2, negAt_negAt])
    rw [if_neg h, if_neg h']
    ring

/-- C50: detailed balance of the update at a random site. -/
theorem C50_detailed_balance (n : ℕ) (hn : 0 < n) (E : List ℤ → ℝ) (s t : List ℤ)
    (hs : s ∈ words [1, -1] n) (ht : t ∈ words [1, -1] n) :
    boltzmann (words [1, -1] n) E s * prob (sampleMetropolis E none s (E s)) (fun r => r.1 = t) =
      boltzmann (words [1, -1] n) E t * prob (sampleMetropolis E none t (E t)) (fun r => r.1 = s) := by
  unfold prob
  rw [move_none _ E (Or.inl rfl), move_none _ E (Or.inl rfl), (mem_words.1 hs).1, (mem_words.1 ht).1,
    expectation_randint _ n hn, expectation_randint _ n hn, ← mul_div_assoc, ← mul_div_assoc,
    Finset.mul_sum, Finset.mul_sum]
  congr 1
  exact Finset.sum_congr rfl fun i hi =>
    C50_detailed_balance_site n E i (Finset.mem_range.1 hi) s t hs ht

/-- C50: any number of updates, at random sites or sweeping systematically, keeps the Boltzmann
distribution: if the first state has it, so has the state after the updates (and the running energy is the
energy of that state). -/
theorem C50_invariant (n : ℕ) (hn : 0 < n) (E : List ℤ → ℝ) (systematic : Bool) (m : ℕ)
    (f : List ℤ → ℝ → ℝ) :
    expect (words [1, -1] n) E (fun s => expectation (fun r => f r.1 r.2)
      (metroRun (sampleMetropolis E) n systematic m (s, E s))) =
      expect (words [1, -1] n) E fun s => f s (E s) :=
  keeps_metroRun (goodMove_metropolis n E) hn systematic m fun r => f r.1 r.2

/-- C50: the same for `generate_sample`: started from a state with the Boltzmann distribution, every row of
the sample has the Boltzmann distribution. -/
theorem C50_sample (n : ℕ) (hn : 0 < n) (E : List ℤ → ℝ) (prev : Option (List (List ℤ)))
    (sampleSize nIters : ℕ) (burnIn : Option ℕ) (systematic saveHistory : Bool) (b : ℕ)
    (hb : b < sampleSize) (f : List ℤ → ℝ) :
    expect (words [1, -1] n) E (fun s => expectation (fun out : SampleOut => f (out.sample.getD b []))
      (generateSamplePy (sampleMetropolis E) (randomSample n) E n prev sampleSize nIters burnIn systematic
        saveHistory (some [s]))) = expect (words [1, -1] n) E f :=
  keeps_generateSamplePy (goodMove_metropolis n E) hn _ sampleSize nIters burnIn systematic saveHistory prev b hb
    fun s _ => f s

/-- C50: `_jit_sample_metropolis` makes the same random update for the pairwise energy, if `J` is symmetric
with zero diagonal. -/
theorem C50_jit (n i : ℕ) (hi : i < n) (h : List ℝ) (J : Mat ℝ) (hs : ∀ a b, J.at' a b = J.at' b a)
    (h0 : ∀ a, J.at' a a = 0) (s : List ℤ) (hl : s.length = n) (f : List ℤ × ℝ → ℝ) :
    expectation f (jitSampleMetropolis h J i s) =
      expectation f (sampleMetropolis (fun s => isingE n (fun i => h.getD i 0) J.at' (spins s)) (some i) s
        (isingE n (fun i => h.getD i 0) J.at' (spins s))) := by
  have hi' : i < s.length := by omega
  rw [expectation_metropolis _ _ _ _ _ hi']
  have hde : isingE n (fun i => h.getD i 0) J.at' (spins (negAt s i)) -
      isingE n (fun i => h.getD i 0) J.at' (spins s) =
      -2 * (((negAt s i).getD i 0 : ℤ) : ℝ) * h.getD i 0 -
      ((List.range (negAt s i).length).map fun j => 2 * J.at' i j * (1 * (((negAt s i).getD i 0 : ℤ) : ℝ) *
        (((negAt s i).getD j 0 : ℤ) : ℝ))).sum := by
    have hsi : (negAt s i).getD i 0 = -s.getD i 0 := by
      rw [negAt_eq, List.getD_eq_getElem _ _ (by simp [hi']), List.getElem_set_self]
    have hsj : ∀ j, J.at' i j * (((negAt s i).getD j 0 : ℤ) : ℝ) = J.at' i j * ((s.getD j 0 : ℤ) : ℝ) := by
      intro j
      by_cases hj : j = i
      · rw [hj, h0, zero_mul, zero_mul]
      · rw [negAt_eq]
        simp [List.getElem?_set_ne (Ne.symm hj)]
    have e : (spins (negAt s i) : ℕ → ℝ) = fun k => if k = i then ((-s.getD i 0 : ℤ) : ℝ) else spins s k := by
      rw [negAt_eq, spins_set s i hi']
    rw [e, isingE_update_symm n i hi _ _ hs (h0 i), negAt_length, hl, sum_map_range, hsi]
    have e2 : ∑ j ∈ Finset.range n, 2 * J.at' i j * (1 * ((-s.getD i 0 : ℤ) : ℝ) *
        (((negAt s i).getD j 0 : ℤ) : ℝ)) =
        (-2 * ((s.getD i 0 : ℤ) : ℝ)) * ∑ j ∈ Finset.range n, J.at' i j * spins s j := by
      rw [Finset.mul_sum]
      refine Finset.sum_congr rfl fun j _ => ?_
      have := hsj j
      unfold spins
      push_cast
      linear_combination (-2 * ((s.getD i 0 : ℤ) : ℝ)) * this
    rw [e2]
    unfold spins
    push_cast
    ring
  unfold jitSampleMetropolis
  rw [if_pos hi']
  dsimp only
  rw [← hde, negAt_negAt]
  obtain ⟨de, hdef⟩ : ∃ de, de = isingE n (fun i => h.getD i 0) J.at' (spins (negAt s i)) -
    isingE n (fun i => h.getD i 0) J.at' (spins s) := ⟨_, rfl⟩
  rw [← hdef]
  by_cases hd : de < 0
  · have h1 : 1 ≤ Real.exp (-de) := Real.one_le_exp (by linarith)
    rw [if_pos hd, min_eq_left h1, expectation_ret]
    ring
  · have h1 : Real.exp (-de) ≤ 1 := Real.exp_le_one_iff.2 (by linarith)
    rw [if_neg hd, expectation_rand_gt _ _ _ _ (Real.exp_pos _).le h1, min_eq_right h1]
    simp only [expectation_ret]
    ring

/-- C50: with an entry on the diagonal of `J` the energy change of `_jit_sample_metropolis` is wrong: the
energy of a single spin without field does not change, but the update accepts a coupling of `1` to itself
as a gain of `2`. -/
theorem C50_jit_diagonal :
    jitSampleMetropolis [0] [[1]] 0 [1] = .ret ([-1], -2) := by
  unfold jitSampleMetropolis negAt
  simp [Mat.at']

example : ([1, -1, 1] : List ℤ) ∈ words [1, -1] 3 := by decide

/-! ### C51 -/

/-- C51: for every random stream, the sample has the requested number of rows, all rows are states of `n`
spins -1 or 1, the stored energies are the energies of the rows, and the kept state is a state. The first
state may be given, kept from the last call, or random. -/
theorem C51_sample (n : ℕ) (hn : 0 < n) (E : List ℤ → ℝ) (prev initial : Option (List (List ℤ)))
    (sampleSize nIters : ℕ) (burnIn : Option ℕ) (systematic saveHistory : Bool)
    (hinit : ∀ x, initial = some x → ∃ s ∈ words [1, -1] n, x = [s])
    (hprev : initial = none → ∀ p, prev = some p → p.length = sampleSize → ∃ s ∈ words [1, -1] n, p = [s]) :
    Returns (generateSamplePy (sampleMetropolis E) (randomSample n) E n prev sampleSize nIters burnIn
      systematic saveHistory initial) fun out =>
        out.sample.length = sampleSize ∧ (∀ r ∈ out.sample, r.length = n ∧ ∀ x ∈ r, x = 1 ∨ x = -1) ∧
        out.E = out.sample.map E ∧ (∃ s ∈ words [1, -1] n, out.replicas = [s]) ∧
        (out.history.isSome ↔ saveHistory) := by
  refine returns_mono ?_ (returns_generateSamplePy (goodMove_metropolis n E) hn (returns_randomSample n 1)
    sampleSize nIters burnIn systematic saveHistory prev initial ⟨?_, ?_⟩)
  · rintro out ⟨h1, h2, h3⟩
    refine ⟨h1, fun r hr => ?_, h3⟩
    have := mem_words.1 (h2 r hr)
    simpa using this
  · intro x hx
    obtain ⟨s, hs, rfl⟩ := hinit x hx
    simpa using hs
  · intro p hi hp hlen
    obtain ⟨s, hs, rfl⟩ := hprev hi p hp hlen
    simpa using hs

/-- C51: an initial sample of another shape is refused. -/
theorem C51_shape (n : ℕ) (move : Move) (random : ℕ → Prog (List (List ℤ))) (E : List ℤ → ℝ)
    (prev : Option (List (List ℤ))) (sampleSize nIters : ℕ) (burnIn : Option ℕ)
    (systematic saveHistory : Bool) (x : List (List ℤ)) (hx : ¬ (x.length = 1 ∧ ∀ r ∈ x, r.length = n)) :
    generateSamplePy move random E n prev sampleSize nIters burnIn systematic saveHistory (some x) =
      .fail .assertion := by
  unfold generateSamplePy startStates
  dsimp only
  rw [if_neg hx]
  rfl

/-- C51: after a parallel run with as many processors as samples now requested (at least two), the kept
states are taken for one state, and the call raises. -/
theorem C51_after_parallel (n : ℕ) (move : Move) (random : ℕ → Prog (List (List ℤ))) (E : List ℤ → ℝ)
    (p : List (List ℤ)) (sampleSize nIters : ℕ) (burnIn : Option ℕ) (systematic saveHistory : Bool)
    (hp : p.length = sampleSize) (h2 : 2 ≤ sampleSize) :
    generateSamplePy move random E n (some p) sampleSize nIters burnIn systematic saveHistory none =
      .fail .valueError := by
  unfold generateSamplePy startStates
  dsimp only
  rw [if_neg (by simp [hp])]
  match p, hp with
  | [], hp => simp at hp; omega
  | [_], hp => simp at hp; omega
  | _ :: _ :: _, _ => rfl

/-- C51: the docstring says that without `initial_sample` the kept state is used; it is used only when one
sample is requested. -/
theorem C51_kept (n : ℕ) (move : Move) (random : ℕ → Prog (List (List ℤ))) (E : List ℤ → ℝ)
    (s : List ℤ) (hs : s.length = n) (sampleSize nIters : ℕ) (burnIn : Option ℕ)
    (systematic saveHistory : Bool) :
    generateSamplePy move random E n (some [s]) sampleSize nIters burnIn systematic saveHistory none =
      if sampleSize = 1 then
        generateSamplePy move random E n none sampleSize nIters burnIn systematic saveHistory (some [s])
      else generateSamplePy move random E n none sampleSize nIters burnIn systematic saveHistory none := by
  unfold generateSamplePy startStates
  by_cases h : sampleSize = 1
  · subst h; simp [hs]
  · simp [h, Ne.symm h]

example : ∃ s ∈ words [1, -1] 2, ([[1, -1]] : List (List ℤ)) = [s] := ⟨[1, -1], by decide, rfl⟩

/-! ### C52 -/

/-- C52: parallel sampling on any number of processors returns exactly `sample_size` rows, all of them
states; one state per processor is kept, with its energy. -/
theorem C52_count (n : ℕ) (hn : 0 < n) (nCpus : ℕ) (hc : 0 < nCpus) (E : List ℤ → ℝ)
    (prev initial : Option (List (List ℤ))) (sampleSize nIters : ℕ) (burnIn : Option ℕ) (systematic : Bool)
    (hinit : ∀ x, initial = some x → x.length = nCpus ∧ ∀ s ∈ x, s ∈ words [1, -1] n)
    (hprev : initial = none → ∀ p, prev = some p → p.length = nCpus → ∀ s ∈ p, s ∈ words [1, -1] n) :
    Returns (generateSampleParallelPy (sampleMetropolis E) (randomSample n) E n nCpus prev sampleSize
      nIters burnIn systematic initial) fun out =>
        out.sample.length = sampleSize ∧ (∀ r ∈ out.sample, r.length = n ∧ ∀ x ∈ r, x = 1 ∨ x = -1) ∧
        out.replicas.length = nCpus ∧ (∀ s ∈ out.replicas, s ∈ words [1, -1] n) ∧
        out.E = out.replicas.map E := by
  refine returns_mono ?_ (returns_parallel (goodMove_metropolis n E) hn nCpus hc (returns_randomSample n nCpus)
    sampleSize nIters burnIn systematic prev initial
    ⟨hinit, fun p hi hp hl => ⟨hl, hprev hi p hp hl⟩⟩)
  rintro out ⟨h1, h2, h3, h4, h5, -⟩
  refine ⟨h1, fun r hr => ?_, h3, h4, h5⟩
  have := mem_words.1 (h2 r hr)
  simpa using this

/-- C52: the rows of processor `c` are `sample[c*q + b]` for `b < q = ceil(sample_size/n_cpus)`; if its first
state has the Boltzmann distribution, so has each of these rows, whatever the first states of the others. -/
theorem C52_rows (n : ℕ) (hn : 0 < n) (nCpus : ℕ) (E : List ℤ → ℝ) (prev : Option (List (List ℤ)))
    (sampleSize nIters : ℕ) (burnIn : Option ℕ) (systematic : Bool) (states : List (List ℤ))
    (hlen : states.length = nCpus) (hst : ∀ s ∈ states, s ∈ words [1, -1] n) (c b q : ℕ) (hc : c < nCpus)
    (hq : q = (sampleSize + nCpus - 1) / nCpus) (hb : b < q) (hcb : c * q + b < sampleSize)
    (f : List ℤ → ℝ) :
    expect (words [1, -1] n) E (fun s => expectation (fun out : SampleOut => f (out.sample.getD (c * q + b) []))
      (generateSampleParallelPy (sampleMetropolis E) (randomSample n) E n nCpus prev sampleSize nIters burnIn
        systematic (some (states.set c s)))) = expect (words [1, -1] n) E f := by
  subst hq
  exact keeps_parallel (goodMove_metropolis n E) hn nCpus _ sampleSize nIters burnIn systematic prev states hlen
    hst c b hc hb hcb f

example : ([[1, -1], [1, 1]] : List (List ℤ)).length = 2 ∧ 1 * 2 + 0 < 3 ∧ (3 + 2 - 1) / 2 = 2 := by decide

/-! ### C53 -/

/-- C53 is false of the code for `burn_in=0`: one spin that always flips, one update per sample, one sample.
Without burn-in the sample would be the flipped state; the burn-in of one update makes it the first
state. -/
theorem C53_burn_in_zero :
    generateSamplePy (sampleMetropolis fun _ => 0) (randomSample 1) (fun _ => 0) 1 none 1 1 (some 0)
        true false (some [[1]]) = .ret ⟨[[1]], [0], [[1]], none⟩ ∧
      sampleMetropolis (fun _ => 0) (some 0) [1] 0 = .ret ([-1], 0) := by
  have h : ∀ x, sampleMetropolis (fun _ => 0) (some 0) [x] 0 = .ret ([x * -1], 0) := by
    intro x
    simp [sampleMetropolis, chooseSite, Prog.bind, negAt]
  refine ⟨?_, h 1⟩
  simp [generateSamplePy, startStates, Prog.bind, burnOr, metroRun, metroRecord, Prog.forEach, metroIter,
    siteArg, Prog.ofPy, h]

/-- C53: `burn_in=0` is the default. -/
theorem C53_burn_in_default (move : Move) (random : ℕ → Prog (List (List ℤ))) (E : List ℤ → ℝ)
    (n : ℕ) (prev : Option (List (List ℤ))) (sampleSize nIters : ℕ) (systematic saveHistory : Bool)
    (initial : Option (List (List ℤ))) :
    generateSamplePy move random E n prev sampleSize nIters (some 0) systematic saveHistory initial =
      generateSamplePy move random E n prev sampleSize nIters none systematic saveHistory initial := rfl

/-- C53, what holds (missing: `burn_in = 0`; the last entry of the history): with `burn_in` positive, or None
for `n_iters`, that number of updates are made first. Then `sample_size` times `n_iters` updates are made;
the rows are the states after `n_iters`, `2 n_iters`, ... of them; the history contains the running energy after
every update, in order, followed by one 0. -/
theorem C53_history_partial (move : Move) (random : ℕ → Prog (List (List ℤ))) (E : List ℤ → ℝ)
    (n : ℕ) (prev : Option (List (List ℤ))) (sampleSize nIters : ℕ) (burnIn : Option ℕ)
    (systematic saveHistory : Bool) (s : List ℤ) (hs : s.length = n) (burn : ℕ)
    (hburn : (burnIn = none ∧ burn = nIters) ∨ (burnIn = some burn ∧ 0 < burn)) :
    generateSamplePy move random E n prev sampleSize nIters burnIn systematic saveHistory (some [s]) =
      (visits (metroIter move n systematic) (List.range burn) (s, E s)).bind fun pre =>
        (visits (metroIter move n systematic) ((List.range sampleSize).flatMap fun _ => List.range nIters)
          (pre.getLastD (s, E s))).bind fun tr =>
        .ret ⟨(List.range sampleSize).map fun b =>
              ((pre.getLastD (s, E s) :: tr).getD ((b + 1) * nIters) (pre.getLastD (s, E s))).1,
          (List.range sampleSize).map fun b =>
              ((pre.getLastD (s, E s) :: tr).getD ((b + 1) * nIters) (pre.getLastD (s, E s))).2,
          [(tr.getLastD (pre.getLastD (s, E s))).1],
          if saveHistory then some (tr.map Prod.snd ++ [0]) else none⟩ := by
  have hb : burnOr burnIn nIters = burn := by
    rcases hburn with ⟨rfl, rfl⟩ | ⟨rfl, h⟩
    · rfl
    · simp [burnOr, h.ne']
  unfold generateSamplePy startStates
  dsimp only
  rw [if_pos ⟨rfl, by simp [hs]⟩, Prog.bind, hb]
  unfold metroRun
  dsimp only
  rw [forEach_visits, bind_assoc]
  congr 1
  funext pre
  rw [Prog.bind]
  cases saveHistory
  · rw [if_neg (by simp), metroRecord_eq, bind_assoc]; rfl
  · rw [if_pos rfl, metroRecordHistory_eq, bind_assoc]; rfl

example : (some 3 = none ∧ 3 = 10) ∨ (some 3 = some 3 ∧ 0 < 3) := by decide

/-! ### C56, Python part -/

/-- C56: the update at site `i` proposes each of the two other values with equal chance and accepts with
probability `min(1, exp(-dE))`. -/
theorem C56_accept (n : ℕ) (E : List ℤ → ℝ) (i : ℕ) (hi : i < n) (s : List ℤ) (hs : s ∈ words [0, 1, 2] n)
    (v : ℤ) (hv : v ∈ ([0, 1, 2] : List ℤ)) (hne : v ≠ s.getD i 0) :
    prob (sampleMetropolisPotts3 E (some i) s (E s)) (fun r => r.1 = s.set i v) =
      1 / 2 * min 1 (Real.exp (-(E (s.set i v) - E s))) := by
  have hl := (mem_words.1 hs).1
  have hg : ∀ w : ℤ, (s.set i w).getD i 0 = w := fun w => by
    rw [List.getD_eq_getElem _ _ (by simp [hl, hi]), List.getElem_set_self]
  have hinj : ∀ w, s.set i w = s.set i v ↔ w = v := fun w =>
    ⟨fun h => by have := congrArg (fun l => l.getD i 0) h; rwa [hg, hg] at this, fun h => by rw [h]⟩
  have hs' : ¬ s = s.set i v := fun h => by
    have := congrArg (fun l => l.getD i 0) h
    exact hne ((hg v).symm.trans this.symm)
  unfold prob
  rw [expectation_potts3 E _ i s _ (by omega)]
  simp only [hs', if_false, hinj, mul_zero, add_zero, Finset.sum_range_succ, Finset.sum_range_zero, zero_add]
  have h2 := getD_mem_of_words hi hs
  simp only [List.mem_cons, List.not_mem_nil, or_false] at h2 hv
  rcases h2 with h | h | h <;> rw [h] at hne ⊢ <;> rcases hv with rfl | rfl | rfl <;>
    first | exact absurd rfl hne | (norm_num; ring)

/-- C56: detailed balance. -/
theorem C56_detailed_balance (n : ℕ) (hn : 0 < n) (E : List ℤ → ℝ) (s t : List ℤ)
    (hs : s ∈ words [0, 1, 2] n) (ht : t ∈ words [0, 1, 2] n) :
    (∀ i < n, boltzmann (words [0, 1, 2] n) E s *
        prob (sampleMetropolisPotts3 E (some i) s (E s)) (fun r => r.1 = t) =
      boltzmann (words [0, 1, 2] n) E t *
        prob (sampleMetropolisPotts3 E (some i) t (E t)) (fun r => r.1 = s)) ∧
    boltzmann (words [0, 1, 2] n) E s * prob (sampleMetropolisPotts3 E none s (E s)) (fun r => r.1 = t) =
      boltzmann (words [0, 1, 2] n) E t * prob (sampleMetropolisPotts3 E none t (E t)) (fun r => r.1 = s) := by
  have key : ∀ i < n, boltzmann (words [0, 1, 2] n) E s *
        prob (sampleMetropolisPotts3 E (some i) s (E s)) (fun r => r.1 = t) =
      boltzmann (words [0, 1, 2] n) E t *
        prob (sampleMetropolisPotts3 E (some i) t (E t)) (fun r => r.1 = s) := by
    intro i hi
    by_cases hst : s = t
    · subst hst; rfl
    have hl := (mem_words.1 hs).1
    have hlt := (mem_words.1 ht).1
    by_cases h : s.set i (t.getD i 0) = t
    · have h' : t.set i (s.getD i 0) = s := by
        rw [← h, List.set_set, set_getD_self]
      have hne : t.getD i 0 ≠ s.getD i 0 := fun h2 => hst (by rw [← h, h2, set_getD_self])
      have e1 := C56_accept n E i hi s hs _ (getD_mem_of_words hi ht) hne
      have e2 := C56_accept n E i hi t ht _ (getD_mem_of_words hi hs) (Ne.symm hne)
      rw [h] at e1
      rw [h'] at e2
      rw [e1, e2]
      linear_combination (1 / 2) * boltzmann_balance (words [0, 1, 2] n) E s t
    · have none_of : ∀ a b : List ℤ, a.length = n → b.length = n → a.set i (b.getD i 0) ≠ b → a ≠ b →
          prob (sampleMetropolisPotts3 E (some i) a (E a)) (fun r => r.1 = b) = 0 := by
        intro a b ha hb hab hab'
        have hz : ∀ w, a.set i w ≠ b := fun w hw => hab (by
          have : b.getD i 0 = w := by
            rw [← hw, List.getD_eq_getElem _ _ (by simp [ha, hi]), List.getElem_set_self]
          rw [this, hw])
        unfold prob
        rw [expectation_potts3 E _ i a _ (by omega)]
        simp [hz, hab']
      have h' : t.set i (s.getD i 0) ≠ s := fun h2 => h (by
        rw [← h2, List.set_set, set_getD_self])
      rw [none_of s t hl hlt h hst, none_of t s hlt hl h' (Ne.symm hst), mul_zero, mul_zero]
  refine ⟨key, ?_⟩
  unfold prob
  rw [move_none _ E (Or.inr rfl), move_none _ E (Or.inr rfl), (mem_words.1 hs).1, (mem_words.1 ht).1,
    expectation_randint _ n hn, expectation_randint _ n hn, ← mul_div_assoc, ← mul_div_assoc,
    Finset.mul_sum, Finset.mul_sum]
  congr 1
  exact Finset.sum_congr rfl fun i hi => key i (Finset.mem_range.1 hi)

/-- C56: for every random stream, sampling returns states of values 0, 1, 2 with their energies. -/
theorem C56_sample (n : ℕ) (hn : 0 < n) (E : List ℤ → ℝ) (prev initial : Option (List (List ℤ)))
    (sampleSize nIters : ℕ) (burnIn : Option ℕ) (systematic saveHistory : Bool)
    (hinit : ∀ x, initial = some x → ∃ s ∈ words [0, 1, 2] n, x = [s])
    (hprev : initial = none → ∀ p, prev = some p → p.length = sampleSize → ∃ s ∈ words [0, 1, 2] n, p = [s]) :
    Returns (generateSamplePy (sampleMetropolisPotts3 E) (randomSamplePotts3 n) E n prev sampleSize nIters
      burnIn systematic saveHistory initial) fun out =>
        out.sample.length = sampleSize ∧ (∀ r ∈ out.sample, r.length = n ∧ ∀ x ∈ r, x = 0 ∨ x = 1 ∨ x = 2) ∧
        out.E = out.sample.map E ∧ ∃ s ∈ words [0, 1, 2] n, out.replicas = [s] := by
  refine returns_mono ?_ (returns_generateSamplePy (goodMove_potts3 n E) hn (returns_randomSamplePotts3 n 1)
    sampleSize nIters burnIn systematic saveHistory prev initial ⟨?_, ?_⟩)
  · rintro out ⟨h1, h2, h3, h4, -⟩
    refine ⟨h1, fun r hr => ?_, h3, h4⟩
    have := mem_words.1 (h2 r hr)
    simpa using this
  · intro x hx
    obtain ⟨s, hs, rfl⟩ := hinit x hx
    simpa using hs
  · intro p hi hp hlen
    obtain ⟨s, hs, rfl⟩ := hprev hi p hp hlen
    simpa using hs

/-- C56: any number of updates keeps the Boltzmann distribution, and every row of a sample has it if the
first state has. -/
theorem C56_invariant (n : ℕ) (hn : 0 < n) (E : List ℤ → ℝ) (prev : Option (List (List ℤ)))
    (sampleSize nIters : ℕ) (burnIn : Option ℕ) (systematic saveHistory : Bool) (b : ℕ)
    (hb : b < sampleSize) (f : List ℤ → ℝ) :
    expect (words [0, 1, 2] n) E (fun s => expectation (fun r => f r.1)
      (metroRun (sampleMetropolisPotts3 E) n systematic nIters (s, E s))) = expect (words [0, 1, 2] n) E f ∧
    expect (words [0, 1, 2] n) E (fun s => expectation (fun out : SampleOut => f (out.sample.getD b []))
      (generateSamplePy (sampleMetropolisPotts3 E) (randomSamplePotts3 n) E n prev sampleSize nIters burnIn
        systematic saveHistory (some [s]))) = expect (words [0, 1, 2] n) E f :=
  ⟨keeps_metroRun (goodMove_potts3 n E) hn systematic nIters fun r => f r.1,
    keeps_generateSamplePy (goodMove_potts3 n E) hn _ sampleSize nIters burnIn systematic saveHistory prev b hb
      fun s _ => f s⟩

example : ([0, 2, 1] : List ℤ) ∈ words [0, 1, 2] 3 ∧ (1 : ℤ) ∈ ([0, 1, 2] : List ℤ) ∧
    (1 : ℤ) ≠ ([0, 2, 1] : List ℤ).getD 1 0 := by decide

end Verif.Props
