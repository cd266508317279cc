/-
Property C55: sampling with some spins fixed.
-/
import Verif.Lemmas.CondProgram

namespace Verif.Props
open Verif Verif.Model Verif.Spec Verif.Lemmas

/-- C55: the state made of the fixed spins and the free spins `r` has the fixed values at the fixed sites and the
spins of `r`, in order, at the other sites in increasing order; there is no other such state. -/
theorem C55_weave (n : ℕ) (fixed : List (ℕ × ℤ)) (hs : (fixed.map Prod.fst).Pairwise (· < ·))
    (hn : ∀ p ∈ fixed, p.1 < n) (r : List ℤ) (hr : r.length + fixed.length = n) :
    ((weave n fixed r).length = n ∧ HasFixed fixed (weave n fixed r) ∧
      (freeSites n fixed).map ((weave n fixed r).getD · 0) = r) ∧
    ∀ x : List ℤ, x.length = n → HasFixed fixed x → (freeSites n fixed).map (x.getD · 0) = r →
      x = weave n fixed r := by
  have h : GoodFixed n fixed := ⟨hs, hn⟩
  exact ⟨⟨weave_length r, fun p hp => weave_fixed h r hp, weave_free h r hr⟩, fun x hx hf he => by
    rw [← he]; exact weave_unique h x hx hf⟩

example : weave 5 [(1, -1), (3, 1)] [1, 1, -1] = [1, -1, 1, 1, -1] := by decide

/-- C55: the energy used for the free spins is the energy of the whole state. -/
theorem C55_energy (n : ℕ) (fixed : List (ℕ × ℤ)) (hs : (fixed.map Prod.fst).Pairwise (· < ·))
    (hn : ∀ p ∈ fixed, p.1 < n) (r : List ℤ) (hr : r.length + fixed.length = n) (calcE : List ℤ → ℝ) :
    condCalcE calcE n fixed r = .ok (calcE (weave n fixed r)) :=
  condCalcE_eq ⟨hs, hn⟩ calcE r hr

/-- C55: with the same random numbers `generate_cond_sample_py` returns what is got by first drawing the sample
that will be overwritten (if none is given), then a random state of the free spins, then running the Metropolis
chain of the free spins with the energy of the whole state, and last filling in the fixed spins. -/
theorem C55_python_run {σ : Type} (g : Gen σ) (hg : g.Valid) (n : ℕ) (fixed : List (ℕ × ℤ))
    (hs : (fixed.map Prod.fst).Pairwise (· < ·)) (hn : ∀ p ∈ fixed, p.1 < n) (hne : fixed ≠ [])
    (hv : ∀ p ∈ fixed, p.2 = -1 ∨ p.2 = 1) (hk : fixed.length < n) (calcE : List ℤ → ℝ) (sampleSize : ℕ)
    (hm : 0 < sampleSize) (burnIn nIters : ℕ) (initial : Option (List (List ℤ)))
    (hinit : ∀ x, initial = some x → x.length = sampleSize ∧ ∀ r ∈ x, r.length = n - fixed.length)
    (systematic : Bool) (E : List ℤ → ℝ) (hE : E = fun r => calcE (weave n fixed r)) (seed : σ) :
    run g (generateCondSamplePy calcE n sampleSize fixed burnIn nIters initial systematic false) seed =
      run g ((match initial with
        | none => randomSample (n - fixed.length) sampleSize
        | some x => .ret x).bind fun _ =>
        (Prog.mapEach (fun _ => (Prog.randint 2).bind fun b => .ret (if b = 0 then (-1 : ℤ) else 1))
          (List.range (n - fixed.length))).bind fun s =>
        (metroRun (sampleMetropolis E) (n - fixed.length) systematic burnIn (s, E s)).bind fun st =>
        (metroRecord (sampleMetropolis E) (n - fixed.length) systematic sampleSize nIters st).bind fun r =>
          .ret (r.2.1.map (weave n fixed), r.2.2)) seed := by
  subst hE
  exact ((agree_condPy ⟨hs, hn⟩ hne hv hk calcE sampleSize hm burnIn nIters initial hinit systematic).run
    g hg seed).symm

/-- C55: every run of `generate_cond_sample_py` returns `sampleSize` states of `n` spins with the fixed values at the
fixed sites, and the energies of these states. -/
theorem C55_python_rows (n : ℕ) (fixed : List (ℕ × ℤ))
    (hs : (fixed.map Prod.fst).Pairwise (· < ·)) (hn : ∀ p ∈ fixed, p.1 < n) (hne : fixed ≠ [])
    (hv : ∀ p ∈ fixed, p.2 = -1 ∨ p.2 = 1) (hk : fixed.length < n) (calcE : List ℤ → ℝ) (sampleSize : ℕ)
    (hm : 0 < sampleSize) (burnIn nIters : ℕ) (initial : Option (List (List ℤ)))
    (hinit : ∀ x, initial = some x → x.length = sampleSize ∧ ∀ r ∈ x, r.length = n - fixed.length)
    (systematic : Bool) :
    Returns (generateCondSamplePy calcE n sampleSize fixed burnIn nIters initial systematic false) fun out =>
      out.1.length = sampleSize ∧ (∀ r ∈ out.1, r.length = n ∧ (∀ x ∈ r, x = 1 ∨ x = -1) ∧ HasFixed fixed r) ∧
        out.2 = out.1.map calcE := by
  have h : GoodFixed n fixed := ⟨hs, hn⟩
  refine (agree_condPy h hne hv hk calcE sampleSize hm burnIn nIters initial hinit systematic).returns ?_
  refine returns_bind (Q := fun _ => True) ?_ fun old _ => ?_
  · cases initial with
    | none => exact returns_mono (fun _ _ => trivial) (returns_randomSample (n - fixed.length) sampleSize)
    | some x => exact returns_ret trivial
  · refine returns_bind (returns_randomRow [1, -1] (fun b => if b = 0 then -1 else 1) 2 (by norm_num)
      fun b _ => by by_cases h : b = 0 <;> simp [h]) fun s hs' => ?_
    refine returns_mono (fun out ho => ⟨ho.1, fun r hr => ?_, ho.2.2⟩)
      (returns_condIdeal h hv hk calcE sampleSize burnIn nIters systematic s hs')
    obtain ⟨h1, h2⟩ := mem_fixedWords.1 (ho.2.1 r hr)
    have h3 := mem_words.1 h1
    exact ⟨h3.1, fun x hx => by simpa using h3.2 x hx, h2⟩

/-- C55: if the free spins start in the conditional Boltzmann distribution given the fixed spins, then every row has
the conditional Boltzmann distribution. -/
theorem C55_python_conditional (n : ℕ) (fixed : List (ℕ × ℤ))
    (hs : (fixed.map Prod.fst).Pairwise (· < ·)) (hn : ∀ p ∈ fixed, p.1 < n)
    (hv : ∀ p ∈ fixed, p.2 = -1 ∨ p.2 = 1) (hk : fixed.length < n) (calcE : List ℤ → ℝ) (sampleSize : ℕ)
    (burnIn nIters : ℕ) (systematic : Bool) (b : ℕ) (hb : b < sampleSize) (f : List ℤ → ℝ)
    (E : List ℤ → ℝ) (hE : E = fun r => calcE (weave n fixed r))
    (chain : List ℤ → Prog (List (List ℤ) × List ℝ)) (hchain : chain = fun s =>
      (metroRun (sampleMetropolis E) (n - fixed.length) systematic burnIn (s, E s)).bind fun st =>
        (metroRecord (sampleMetropolis E) (n - fixed.length) systematic sampleSize nIters st).bind fun r =>
          .ret (r.2.1.map (weave n fixed), r.2.2)) :
    condExpect (words [1, -1] n) calcE (HasFixed fixed) (fun x =>
      expectation (fun out => f (out.1.getD b [])) (chain ((freeSites n fixed).map (x.getD · 0)))) =
    condExpect (words [1, -1] n) calcE (HasFixed fixed) f := by
  have h : GoodFixed n fixed := ⟨hs, hn⟩
  have hw : words ([1, -1] : List ℤ) n ≠ [] := by
    intro e
    have : List.replicate n (1 : ℤ) ∈ words ([1, -1] : List ℤ) n :=
      mem_words.2 ⟨by simp, fun x hx => by rw [List.eq_of_mem_replicate hx]; simp⟩
    rw [e] at this
    simp at this
  subst hE
  rw [← expect_filter _ hw, ← expect_filter _ hw]
  have e1 := expect_weave h hv calcE fun x =>
    expectation (fun out => f (out.1.getD b [])) (chain ((freeSites n fixed).map (x.getD · 0)))
  have e2 := expect_weave h hv calcE f
  have e3 := keeps_condIdeal hk calcE sampleSize burnIn nIters systematic b hb f
  refine e1.symm.trans (Eq.trans ?_ (e3.trans e2))
  unfold expect
  refine list_sum_congr fun s hs => ?_
  dsimp only
  rw [weave_free h s (by rw [(mem_words.1 hs).1]; omega), hchain]
  rfl

/-- C55: the sample given as `initial_sample` has no influence on the result. -/
theorem C55_initial_ignored {σ : Type} (g : Gen σ) (hg : g.Valid) (n : ℕ) (fixed : List (ℕ × ℤ))
    (hs : (fixed.map Prod.fst).Pairwise (· < ·)) (hn : ∀ p ∈ fixed, p.1 < n) (hne : fixed ≠ [])
    (hv : ∀ p ∈ fixed, p.2 = -1 ∨ p.2 = 1) (hk : fixed.length < n) (calcE : List ℤ → ℝ) (sampleSize : ℕ)
    (hm : 0 < sampleSize) (burnIn nIters : ℕ) (systematic : Bool) (x y : List (List ℤ))
    (hx : x.length = sampleSize ∧ ∀ r ∈ x, r.length = n - fixed.length)
    (hy : y.length = sampleSize ∧ ∀ r ∈ y, r.length = n - fixed.length) (seed : σ) :
    run g (generateCondSamplePy calcE n sampleSize fixed burnIn nIters (some x) systematic false) seed =
      run g (generateCondSamplePy calcE n sampleSize fixed burnIn nIters (some y) systematic false) seed := by
  have h : GoodFixed n fixed := ⟨hs, hn⟩
  rw [← (agree_condPy h hne hv hk calcE sampleSize hm burnIn nIters (some x)
      (fun z e => by cases e; exact hx) systematic).run g hg seed,
    ← (agree_condPy h hne hv hk calcE sampleSize hm burnIn nIters (some y)
      (fun z e => by cases e; exact hy) systematic).run g hg seed]
  rfl

example : ([(1, -1), (3, 1)] : List (ℕ × ℤ)).map Prod.fst = [1, 3] ∧ [1, 3].Pairwise (· < ·) ∧
    (∀ p ∈ ([(1, -1), (3, 1)] : List (ℕ × ℤ)), p.1 < 4 ∧ (p.2 = -1 ∨ p.2 = 1)) ∧
    ([(1, -1), (3, 1)] : List (ℕ × ℤ)).length < 4 := by decide

/-- C55: bad fixed spins are refused, by both versions: none at all (an index error), sites not in increasing
order, values other than -1 and 1. -/
theorem C55_checks (ndebug : Bool) (theta : List ℝ) (par : Option ℕ) (calcE : List ℤ → ℝ) (n sampleSize : ℕ)
    (hm : 0 < sampleSize) (fixed : List (ℕ × ℤ)) (burnIn nIters : ℕ)
    (initial : Option (List (List ℤ))) (systematic parallel : Bool) :
    (fixed = [] → generateCondSamplePy calcE n sampleSize fixed burnIn nIters initial systematic parallel =
        .fail .indexError ∧
      generateCondSampleBoost ndebug n theta par sampleSize fixed burnIn nIters systematic = .fail .indexError) ∧
    (fixed ≠ [] → ¬ ((fixed.map Prod.fst).Pairwise (· < ·) ∧ ∀ p ∈ fixed, p.2 = -1 ∨ p.2 = 1) →
      generateCondSamplePy calcE n sampleSize fixed burnIn nIters initial systematic parallel = .fail .assertion ∧
      generateCondSampleBoost ndebug n theta par sampleSize fixed burnIn nIters systematic = .fail .assertion) := by
  have key : ∀ e, checkFixed fixed = .error e →
      generateCondSamplePy calcE n sampleSize fixed burnIn nIters initial systematic parallel = .fail e ∧
      generateCondSampleBoost ndebug n theta par sampleSize fixed burnIn nIters systematic = .fail e := by
    intro e h
    unfold generateCondSamplePy generateCondSampleBoost
    rw [h, if_neg hm.ne']
    exact ⟨rfl, rfl⟩
  refine ⟨fun h => key _ ?_, fun h1 h2 => key _ ?_⟩
  · unfold checkFixed; rw [if_pos h]
  · unfold checkFixed
    rw [if_neg h1]
    by_cases h3 : (fixed.map Prod.fst).IsChain (· < ·)
    · rw [if_neg (not_not.2 h3), if_pos]
      exact fun h4 => h2 ⟨List.isChain_iff_pairwise.1 h3, h4⟩
    · rw [if_pos h3]

/-- C55: the Python version refuses to run in parallel. -/
theorem C55_python_parallel (n : ℕ) (fixed : List (ℕ × ℤ))
    (hs : (fixed.map Prod.fst).Pairwise (· < ·)) (hn : ∀ p ∈ fixed, p.1 < n) (hne : fixed ≠ [])
    (hv : ∀ p ∈ fixed, p.2 = -1 ∨ p.2 = 1) (calcE : List ℤ → ℝ) (sampleSize : ℕ) (burnIn nIters : ℕ)
    (x : List (List ℤ)) (hx : ∀ r ∈ x, r.length + fixed.length = n) (systematic : Bool) :
    generateCondSamplePy calcE n sampleSize fixed burnIn nIters (some x) systematic true = .fail .notImplemented := by
  have h : GoodFixed n fixed := ⟨hs, hn⟩
  unfold generateCondSamplePy condOld
  rw [checkFixed_ok h hne hv]
  simp only [Prog.ofPy, Prog.bind]
  rw [if_pos fun r hr => by have := hx r hr; omega]
  simp only [Prog.bind]
  rw [mapM_condCalcE h calcE x hx]
  simp only [Prog.bind, if_true]

/-- The compiled conditional energy of `define_jit_cond_calc_e` does not put the fixed spins in their places: with
the spins 1 and 2 fixed at 1 and -1, it uses a value of 2 for the first. -/
theorem C55_jit_wrong : jitCondFull 4 [1, 1, 2, -1] [7, 8] = [7, 2, -1, 8] ∧
    weave 4 [(1, 1), (2, -1)] [7, 8] = [7, 1, -1, 8] := by decide

/-! ### The compiled sampler -/

/-- C55: the compiled sampler chooses among exactly the free sites, in increasing order. -/
theorem C55_boost_sites (n : ℕ) (fixed : List (ℕ × ℤ)) (hs : (fixed.map Prod.fst).Pairwise (· < ·)) :
    cppNonIx n (fixed.map Prod.fst) = freeSites n fixed :=
  cppNonIx_eq n _ hs

/-- C55: the compiled conditional sampler, alone or on any positive number of processors, returns `sampleSize`
states of `n` spins with the fixed values at the fixed sites. -/
theorem C55_boost_rows (ndebug : Bool) (n : ℕ) (theta : List ℝ) (ht : theta.length = n + n * (n - 1) / 2)
    (fixed : List (ℕ × ℤ)) (hs : (fixed.map Prod.fst).Pairwise (· < ·)) (hn : ∀ p ∈ fixed, p.1 < n)
    (hne : fixed ≠ []) (hv : ∀ p ∈ fixed, p.2 = -1 ∨ p.2 = 1) (hk : fixed.length < n) (parallel : Option ℕ)
    (hp : parallel ≠ some 0) (sampleSize : ℕ) (hm : 0 < sampleSize) (burnIn nIters : ℕ) (systematic : Bool) :
    Returns (generateCondSampleBoost ndebug n theta parallel sampleSize fixed burnIn nIters systematic) fun rows =>
      rows.length = sampleSize ∧ ∀ r ∈ rows, r.length = n ∧ (∀ x ∈ r, x = 1 ∨ x = -1) ∧ HasFixed fixed r := by
  have h : GoodFixed n fixed := ⟨hs, hn⟩
  have key : ∀ rows : List (List ℤ), (rows.length = sampleSize ∧ ∀ r ∈ rows, r ∈ fixedWords n fixed) →
      rows.length = sampleSize ∧ ∀ r ∈ rows, r.length = n ∧ (∀ x ∈ r, x = 1 ∨ x = -1) ∧ HasFixed fixed r := by
    refine fun rows hr => ⟨hr.1, fun r hr' => ?_⟩
    obtain ⟨h1, h2⟩ := mem_fixedWords.1 (hr.2 r hr')
    have h3 := mem_words.1 h1
    exact ⟨h3.1, fun x hx => by simpa using h3.2 x hx, h2⟩
  unfold generateCondSampleBoost
  rw [if_neg hm.ne', checkFixed_ok h hne hv]
  simp only [Prog.ofPy, Prog.bind]
  cases parallel with
  | none => exact returns_mono key (condOne h hv hk ndebug theta ht _ nIters systematic sampleSize)
  | some c =>
    exact returns_mono key (returns_boostParallel (fixedWords n fixed) c sampleSize
      (Nat.pos_of_ne_zero fun e => hp (by rw [e])) _ fun q => condOne h hv hk ndebug theta ht _ nIters systematic q)

/-- C55: on several processors each row is distributed as a row of a run of one process. -/
theorem C55_boost_parallel (ndebug : Bool) (n : ℕ) (theta : List ℝ) (ht : theta.length = n + n * (n - 1) / 2)
    (fixed : List (ℕ × ℤ)) (hs : (fixed.map Prod.fst).Pairwise (· < ·)) (hn : ∀ p ∈ fixed, p.1 < n)
    (hne : fixed ≠ []) (hv : ∀ p ∈ fixed, p.2 = -1 ∨ p.2 = 1) (hk : fixed.length < n) (nCpus : ℕ)
    (sampleSize : ℕ) (hm : 0 < sampleSize) (burnIn nIters : ℕ) (systematic : Bool)
    (c b q : ℕ) (hc : c < nCpus) (hq : q = (sampleSize + nCpus - 1) / nCpus) (hb : b < q)
    (hcb : c * q + b < sampleSize) (f : List ℤ → ℝ) :
    expectation (fun rows => f (rows.getD (c * q + b) []))
      (generateCondSampleBoost ndebug n theta (some nCpus) sampleSize fixed burnIn nIters systematic) =
    expectation (fun rows => f (rows.getD b []))
      (generateCondSampleBoost ndebug n theta none q fixed burnIn nIters systematic) := by
  have h : GoodFixed n fixed := ⟨hs, hn⟩
  unfold generateCondSampleBoost
  rw [if_neg hm.ne', if_neg (by omega), checkFixed_ok h hne hv]
  exact expectation_boostParallel nCpus sampleSize _
    (fun q => returns_mono (fun _ h => h.1) (condOne h hv hk ndebug theta ht _ nIters systematic q)) c b q hc hq hb hcb f

/-- C55: a run of the compiled conditional sampler whose first state, after the fixed spins have been set, has the
conditional Boltzmann distribution given the fixed spins, has rows with this distribution. -/
theorem C55_boost_conditional (n : ℕ) (theta : List ℝ) (fixed : List (ℕ × ℤ))
    (hs : (fixed.map Prod.fst).Pairwise (· < ·)) (hn : ∀ p ∈ fixed, p.1 < n) (hk : fixed.length < n)
    (sampleSize burn nIters : ℕ) (systematic : Bool) (b : ℕ) (hb : b < sampleSize) (f : List ℤ → ℝ)
    (E : List ℤ → ℝ) (hE : E = fun s => isingVecE n (theta.take n) (theta.drop n) (spins s)) :
    condExpect (words [1, -1] n) E (HasFixed fixed) (fun s => expectation (fun rows => f (rows.getD b []))
      (cppChain (cppCondIter (cppIsingMove n theta (cppCouplingMat n n theta)) (cppNonIx n (fixed.map Prod.fst))
        (n - (fixed.map Prod.fst).length) systematic) sampleSize burn nIters s (cppIsingCalcE n theta s))) =
    condExpect (words [1, -1] n) E (HasFixed fixed) f := by
  have h : GoodFixed n fixed := ⟨hs, hn⟩
  have hw : words ([1, -1] : List ℤ) n ≠ [] := by
    intro e
    have : List.replicate n (1 : ℤ) ∈ words ([1, -1] : List ℤ) n :=
      mem_words.2 ⟨by simp, fun x hx => by rw [List.eq_of_mem_replicate hx]; simp⟩
    rw [e] at this
    simp at this
  have hc : cppIsingCalcE n theta = E := by
    rw [hE]; exact funext fun s => cppIsingCalcE_eq n (by omega) theta s
  have hlen := freeSites_length h
  have hnon : cppNonIx n (fixed.map Prod.fst) = freeSites n fixed := cppNonIx_eq n _ h.sorted
  have hkk : n - (fixed.map Prod.fst).length = (freeSites n fixed).length := by rw [List.length_map]; omega
  rw [← expect_filter _ hw, ← expect_filter _ hw, hc, hnon, hkk]
  have hlt : ∀ i ∈ freeSites n fixed, ∀ s ∈ fixedWords n fixed, i < s.length := fun i hi s hs => by
    rw [(mem_words.1 (mem_fixedWords.1 hs).1).1]; exact (mem_freeSites.1 hi).1
  have hmv : ∀ i ∈ freeSites n fixed, ∀ s ∈ fixedWords n fixed,
      cppIsingMove n theta (cppCouplingMat n n theta) i s = sampleMetropolis E (some i) s (E s) := fun i hi s hs => by
    rw [hE]
    exact cppIsingMove_eq n theta i (mem_freeSites.1 hi).1 s (mem_words.1 (mem_fixedWords.1 hs).1).1
  refine keeps_cppChain (S := fixedWords n fixed) (calcE := E)
    (cppCondIter_body _ (freeSites n fixed) _ systematic)
    (fun c st hst => returns_condBody (fun i hi s hs => ?_) (by omega) systematic c st hst)
    (fun c => keeps_condBody (fun i hi => ?_) (by omega) systematic c) sampleSize burn nIters b hb f
  · rw [hmv i hi s hs]
    exact returns_flip i (hlt i hi) (negAt_mem_fixedWords (mem_freeSites.1 hi).2) E s hs
  · refine keeps_congr (fun st hst => ?_) (keeps_flip (nodup_fixedWords n fixed) i (hlt i hi)
      (negAt_mem_fixedWords (mem_freeSites.1 hi).2) E)
    dsimp only
    rw [hmv i hi st hst]

end Verif.Props
