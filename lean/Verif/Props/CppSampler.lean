/-
Properties C54, C84 and the compiled parts of C52 and C56: the compiled samplers.
-/
import Verif.Lemmas.CppSampler
import Verif.Lemmas.CondProgram

namespace Verif.Props
open Verif Verif.Model Verif.Spec Verif.Lemmas

/-! ### C54 -/

/-- C54: `Ising::calc_e` is the Ising energy of the parameter vector. -/
theorem C54_calc_e {K : Type*} [CommRing K] (n : ℕ) (hn : 1 ≤ n) (theta : List K) (s : List ℤ) :
    cppIsingCalcE n theta s = isingVecE n (theta.take n) (theta.drop n) (spins s) :=
  cppIsingCalcE_eq n hn theta s

/-- C54: it is the energy of the Python function `calc_e` for the same parameters. -/
theorem C54_python (n : ℕ) (hn : 1 ≤ n) (theta : List ℝ) (ht : theta.length = n + n * (n - 1) / 2)
    (s : List ℤ) (hs : s.length = n) : cppIsingCalcE n theta s = isingCalcERow theta s := by
  rw [cppIsingCalcE_eq n hn, isingCalcERow_vec n s hs theta ht]

/-- C54: the energy change computed for a flip, from the flipped state, is the difference of the energies. -/
theorem C54_update {K : Type*} [CommRing K] (n : ℕ) (theta : List K) (s : List ℤ) (hs : s.length = n) (i : ℕ)
    (hi : i < n) :
    cppIsingDe n theta (cppCouplingMat n n theta) i (s.set i (-s.getD i 0)) =
      isingVecE n (theta.take n) (theta.drop n) (spins (s.set i (-s.getD i 0))) -
        isingVecE n (theta.take n) (theta.drop n) (spins s) := by
  rw [← negAt_eq]
  exact cppIsingDe_eq n theta s hs i hi

example : cppIsingDe 3 ([1, 2, 3, 4, 5, 6] : List ℚ) (cppCouplingMat 3 3 [1, 2, 3, 4, 5, 6]) 1 [1, 1, 1] = -24 := by
  decide +kernel

example : cppIsingCalcE 3 ([1, 2, 3, 4, 5, 6] : List ℚ) [1, 1, -1] = 7 := by decide +kernel

/-- C54: an update either flips the spin and returns the change of the energy, or leaves the state as it was and
returns 0; it flips with probability `min(1, exp(-dE))`. -/
theorem C54_move (n : ℕ) (theta : List ℝ) (s : List ℤ) (hs : s ∈ words [1, -1] n) (i : ℕ) (hi : i < n)
    (E : List ℤ → ℝ) (hE : E = fun s => isingVecE n (theta.take n) (theta.drop n) (spins s)) :
    Returns (cppIsingMove n theta (cppCouplingMat n n theta) i s) (fun r =>
      r = (s, 0) ∨ r = (s.set i (-s.getD i 0), E (s.set i (-s.getD i 0)) - E s)) ∧
    prob (cppIsingMove n theta (cppCouplingMat n n theta) i s) (fun r => r.1 = s.set i (-s.getD i 0)) =
      min 1 (Real.exp (-(E (s.set i (-s.getD i 0)) - E s))) := by
  have hl := (mem_words.1 hs).1
  have hne : s ≠ negAt s i := by
    intro h
    have h1 := congrArg (fun l => l.getD i 0) h
    have h2 := getD_mem_of_words hi hs
    simp only [List.mem_cons, List.not_mem_nil, or_false] at h2
    have h3 : (negAt s i).getD i 0 = -s.getD i 0 := by
      rw [negAt_eq, List.getD_eq_getElem _ _ (by simp [hl, hi]), List.getElem_set_self]
    have h4 : s.getD i 0 = -s.getD i 0 := h1.trans h3
    omega
  rw [cppIsingMove_eq n theta i hi s hl, ← negAt_eq, hE]
  constructor
  · unfold sampleMetropolis chooseSite
    simp only [Prog.bind, if_pos (show i < s.length by omega), negAt_negAt]
    exact returns_accept _ _ _ (Or.inl rfl) (Or.inr rfl)
  · unfold prob
    rw [expectation_metropolis _ _ i s _ (by omega)]
    dsimp only
    rw [if_pos rfl, if_neg hne]
    ring

/-- C54: with the same random numbers a run of the compiled sampler returns the rows of a run of
`Metropolis.sample_metropolis` with the Ising energy: a random first state, then updates (at the sites `0, 1, ..`
in turn if `systematic`, where the count of the sites goes on through the whole run), the rows being the states
after `burn + nIters, burn + 2 nIters, ...` updates. -/
theorem C54_run {σ : Type} (g : Gen σ) (hg : g.Valid) (ndebug : Bool) (n : ℕ) (hn : 1 ≤ n) (theta : List ℝ)
    (ht : theta.length = n + n * (n - 1) / 2) (sampleSize : ℕ) (hm : 0 < sampleSize) (nIters : ℕ)
    (burnIn : Option ℕ) (systematic : Bool) (burn : ℕ) (hburn : (burnIn = none ∨ burnIn = some 0) ∧ burn = nIters ∨
      burnIn = some burn ∧ 0 < burn)
    (E : List ℤ → ℝ) (hE : E = fun s => isingVecE n (theta.take n) (theta.drop n) (spins s)) (seed : σ) :
    run g (generateSampleBoost ndebug n theta sampleSize nIters burnIn systematic) seed =
      run g ((cppIsingInit n).bind fun s =>
        (visits (metroIter (sampleMetropolis E) n systematic) (List.range (burn + sampleSize * nIters))
          (s, E s)).bind fun tr => .ret ((List.range sampleSize).map fun b =>
            (((s, E s) :: tr).getD (burn + (b + 1) * nIters) (s, E s)).1)) seed := by
  have hb : burnOr burnIn nIters = burn := by
    rcases hburn with ⟨h | h, rfl⟩ | ⟨rfl, h⟩
    · rw [h]; rfl
    · rw [h]; rfl
    · show (if burn = 0 then nIters else burn) = burn
      rw [if_neg h.ne']
  unfold generateSampleBoost boostIsing
  rw [if_neg (by omega), if_neg (fun h => h.2 ht)]
  simp only [Prog.ofPy, Prog.bind, boostIsingSample, cppGenerateSample, hb]
  refine (((Agree.refl _).bind (returns_cppIsingInit n) fun s hs => ?_).run g hg seed).symm
  have hc : cppIsingCalcE n theta = E := by
    rw [hE]; exact funext fun s => cppIsingCalcE_eq n hn theta s
  rw [hc]
  refine agree_cppChain (goodMove_metropolis n E) hn (fun i hi s hs => ?_) systematic sampleSize burn nIters s hs
  rw [hE]
  exact cppIsingMove_eq n theta i hi s (mem_words.1 hs).1

/-- C54: a run returns the requested number of rows of `n` spins. -/
theorem C54_rows (ndebug : Bool) (n : ℕ) (hn : 1 ≤ n) (theta : List ℝ)
    (ht : theta.length = n + n * (n - 1) / 2) (sampleSize : ℕ) (hm : 0 < sampleSize) (nIters : ℕ)
    (burnIn : Option ℕ) (systematic : Bool) :
    Returns (generateSampleBoost ndebug n theta sampleSize nIters burnIn systematic) fun rows =>
      rows.length = sampleSize ∧ ∀ r ∈ rows, r.length = n ∧ ∀ x ∈ r, x = 1 ∨ x = -1 := by
  unfold generateSampleBoost boostIsing
  rw [if_neg (by omega), if_neg (fun h => h.2 ht)]
  simp only [Prog.ofPy, Prog.bind, boostIsingSample, cppGenerateSample]
  refine returns_bind (returns_cppIsingInit n) fun s hs => ?_
  obtain ⟨E, hE⟩ : ∃ E : List ℤ → ℝ, E = fun s => isingVecE n (theta.take n) (theta.drop n) (spins s) := ⟨_, rfl⟩
  have hc : cppIsingCalcE n theta = E := by
    rw [hE]; exact funext fun s => cppIsingCalcE_eq n hn theta s
  rw [hc]
  have hmove : ∀ i < n, ∀ s ∈ words [1, -1] n,
      cppIsingMove n theta (cppCouplingMat n n theta) i s = sampleMetropolis E (some i) s (E s) := fun i hi s hs => by
    rw [hE]
    exact cppIsingMove_eq n theta i hi s (mem_words.1 hs).1
  refine returns_mono (fun rows hr => ⟨hr.1, fun r hr' => ?_⟩) (returns_cppChain (cppIter_body _ n systematic)
    (fun c st hst => returns_cppBody (goodMove_metropolis n E) hn hmove systematic c st hst) sampleSize _ nIters s hs)
  have := mem_words.1 (hr.2 r hr')
  exact ⟨this.1, fun x hx => by simpa using this.2 x hx⟩

/-- C54: a run whose first state is drawn from the Boltzmann distribution of the Ising model has rows with this
distribution. -/
theorem C54_invariant (n : ℕ) (hn : 1 ≤ n) (theta : List ℝ) (sampleSize burn nIters : ℕ) (systematic : Bool)
    (b : ℕ) (hb : b < sampleSize) (f : List ℤ → ℝ)
    (E : List ℤ → ℝ) (hE : E = fun s => isingVecE n (theta.take n) (theta.drop n) (spins s)) :
    expect (words [1, -1] n) E (fun s => expectation (fun rows => f (rows.getD b []))
      (cppChain (cppIter (cppIsingMove n theta (cppCouplingMat n n theta)) n systematic) sampleSize burn nIters s
        (cppIsingCalcE n theta s))) = expect (words [1, -1] n) E f := by
  have hc : cppIsingCalcE n theta = E := by
    rw [hE]; exact funext fun s => cppIsingCalcE_eq n hn theta s
  have hmove : ∀ i < n, ∀ s ∈ words [1, -1] n,
      cppIsingMove n theta (cppCouplingMat n n theta) i s = sampleMetropolis E (some i) s (E s) := fun i hi s hs => by
    rw [hE]
    exact cppIsingMove_eq n theta i hi s (mem_words.1 hs).1
  rw [hc]
  exact keeps_cppChain (cppIter_body _ n systematic)
    (fun c st hst => returns_cppBody (goodMove_metropolis n E) hn hmove systematic c st hst)
    (fun c => keeps_cppBody (goodMove_metropolis n E) hn hmove systematic c) sampleSize burn nIters b hb f

example : (0 : ℕ) < 5 ∧ ([1, 2, 3] : List ℝ).length = 2 + 2 * (2 - 1) / 2 := by decide

/-- C54: with assertions compiled in, a parameter vector of another length is refused. -/
theorem C54_length (n : ℕ) (theta : List ℝ) (ht : theta.length ≠ n + n * (n - 1) / 2) (sampleSize nIters : ℕ)
    (burnIn : Option ℕ) (systematic : Bool) :
    generateSampleBoost false n theta sampleSize nIters burnIn systematic = .fail .assertion := by
  unfold generateSampleBoost boostIsing
  split
  · rfl
  · rw [if_pos ⟨rfl, ht⟩]; rfl

/-! ### C52 -/

/-- C52: the parallel compiled Ising sampler returns `sampleSize` rows of `n` spins on any positive number of
processors. -/
theorem C52_boost_count (ndebug : Bool) (n : ℕ) (hn : 1 ≤ n) (theta : List ℝ)
    (ht : theta.length = n + n * (n - 1) / 2) (nCpus : ℕ) (hc : 0 < nCpus) (sampleSize nIters : ℕ)
    (burnIn : Option ℕ) (systematic : Bool) :
    Returns (generateSampleParallelBoost ndebug n theta nCpus sampleSize nIters burnIn systematic) fun rows =>
      rows.length = sampleSize ∧ ∀ r ∈ rows, r.length = n ∧ ∀ x ∈ r, x = 1 ∨ x = -1 := by
  obtain ⟨E, hE⟩ : ∃ E : List ℤ → ℝ, E = fun s => isingVecE n (theta.take n) (theta.drop n) (spins s) := ⟨_, rfl⟩
  have hc' : cppIsingCalcE n theta = E := by
    rw [hE]; exact funext fun s => cppIsingCalcE_eq n hn theta s
  have hmove : ∀ i < n, ∀ s ∈ words [1, -1] n,
      cppIsingMove n theta (cppCouplingMat n n theta) i s = sampleMetropolis E (some i) s (E s) := fun i hi s hs => by
    rw [hE]
    exact cppIsingMove_eq n theta i hi s (mem_words.1 hs).1
  unfold generateSampleParallelBoost boostIsing
  rw [if_neg (fun h => h.2 ht)]
  simp only [Prog.ofPy, Prog.bind, boostIsingSample, cppGenerateSample, hc']
  refine returns_mono (fun rows hr => ⟨hr.1, fun r hr' => ?_⟩) (returns_boostParallel (words [1, -1] n) nCpus sampleSize
    hc _ fun q => returns_bind (returns_cppIsingInit n) fun s hs => returns_cppChain (cppIter_body _ n systematic)
    (fun c st hst => returns_cppBody (goodMove_metropolis n E) hn hmove systematic c st hst) q _ nIters s hs)
  have := mem_words.1 (hr.2 r hr')
  exact ⟨this.1, fun x hx => by simpa using this.2 x hx⟩

/-- C52: each row has the distribution of a row of a run of one process: row `c q + b` is row `b` of process `c`,
each process making `q = ⌈sampleSize/nCpus⌉` rows. -/
theorem C52_boost_rows (ndebug : Bool) (n : ℕ) (hn : 1 ≤ n) (theta : List ℝ)
    (ht : theta.length = n + n * (n - 1) / 2) (nCpus sampleSize nIters : ℕ)
    (burnIn : Option ℕ) (systematic : Bool) (c b q : ℕ) (hc : c < nCpus)
    (hq : q = (sampleSize + nCpus - 1) / nCpus) (hb : b < q) (hcb : c * q + b < sampleSize) (f : List ℤ → ℝ) :
    expectation (fun rows => f (rows.getD (c * q + b) []))
      (generateSampleParallelBoost ndebug n theta nCpus sampleSize nIters burnIn systematic) =
    expectation (fun rows => f (rows.getD b []))
      (generateSampleBoost ndebug n theta q nIters burnIn systematic) := by
  have h1 : ∀ q, Returns ((Prog.ofPy (boostIsing ndebug n theta)).bind fun b =>
      boostIsingSample n b q (burnOr burnIn nIters) nIters systematic) fun rows => rows.length = q := by
    intro q
    obtain ⟨E, hE⟩ : ∃ E : List ℤ → ℝ, E = fun s => isingVecE n (theta.take n) (theta.drop n) (spins s) := ⟨_, rfl⟩
    have hc' : cppIsingCalcE n theta = E := by
      rw [hE]; exact funext fun s => cppIsingCalcE_eq n hn theta s
    have hmove : ∀ i < n, ∀ s ∈ words [1, -1] n, cppIsingMove n theta (cppCouplingMat n n theta) i s =
        sampleMetropolis E (some i) s (E s) := fun i hi s hs => by
      rw [hE]
      exact cppIsingMove_eq n theta i hi s (mem_words.1 hs).1
    unfold boostIsing
    rw [if_neg (fun h => h.2 ht)]
    simp only [Prog.ofPy, Prog.bind, boostIsingSample, cppGenerateSample, hc']
    exact returns_bind (returns_cppIsingInit n) fun s hs => returns_mono (fun _ h => h.1)
      (returns_cppChain (cppIter_body _ n systematic)
        (fun c st hst => returns_cppBody (goodMove_metropolis n E) hn hmove systematic c st hst) q _ nIters s hs)
  unfold generateSampleParallelBoost generateSampleBoost
  rw [expectation_boostParallel nCpus sampleSize _ h1 c b q hc hq hb hcb f, if_neg (by omega)]

example : (1 : ℕ) < 3 ∧ (2 : ℕ) = (5 + 3 - 1) / 3 ∧ (1 : ℕ) < 2 ∧ 1 * 2 + 1 < 5 := by decide

/-! ### C56, compiled part -/

/-- C56: `Potts3::calc_e` is the energy of the three-state Potts model. -/
theorem C56_cpp_calc_e {K : Type*} [CommRing K] (n : ℕ) (hn : 1 ≤ n) (theta : List K) (s : List ℤ)
    (hs : s ∈ words [0, 1, 2] n) :
    cppPottsCalcE n theta s = pottsVecE n 3 (theta.take (3 * n)) (theta.drop (3 * n)) fun k => s.getD k 0 :=
  cppPottsCalcE_eq n hn theta s (three_states hs)

/-- C56: the energy change computed for a change of state is the difference of the energies. -/
theorem C56_cpp_update {K : Type*} [CommRing K] (n : ℕ) (theta : List K) (s : List ℤ)
    (hs : s ∈ words [0, 1, 2] n) (i : ℕ) (hi : i < n) (v : ℤ) (hv : v ∈ ([0, 1, 2] : List ℤ))
    (E : List ℤ → K) (hE : E = fun s => pottsVecE n 3 (theta.take (3 * n)) (theta.drop (3 * n)) fun k => s.getD k 0) :
    cppPottsDe n theta (cppCouplingMat n (n * 3) theta) i (s.getD i 0) (s.set i v) = E (s.set i v) - E s := by
  have h3 : ∀ w ∈ ([0, 1, 2] : List ℤ), ∃ b : ℕ, b < 3 ∧ w = (b : ℤ) := by
    intro w hw
    simp only [List.mem_cons, List.not_mem_nil, or_false] at hw
    rcases hw with h | h | h
    · exact ⟨0, by norm_num, h⟩
    · exact ⟨1, by norm_num, h⟩
    · exact ⟨2, by norm_num, h⟩
  obtain ⟨b, hb, hb'⟩ := h3 _ (getD_mem_of_words hi hs)
  obtain ⟨c, hc, hc'⟩ := h3 v hv
  subst hc'
  rw [hE]
  exact cppPottsDe_eq n theta s (mem_words.1 hs).1 i hi b c hb hc hb'

example : cppPottsDe 2 ([1, 2, 3, 4, 5, 6, 7] : List ℚ) (cppCouplingMat 2 (2 * 3) [1, 2, 3, 4, 5, 6, 7]) 0 0 [1, 1] =
    -9 := by decide +kernel

/-- C56: for every random stream the update of the compiled sampler is that of the Python sampler. -/
theorem C56_cpp_move (n : ℕ) (theta : List ℝ) (s : List ℤ) (hs : s ∈ words [0, 1, 2] n) (i : ℕ) (hi : i < n)
    (E : List ℤ → ℝ) (hE : E = fun s => pottsVecE n 3 (theta.take (3 * n)) (theta.drop (3 * n)) fun k => s.getD k 0) :
    cppPottsMove n theta (cppCouplingMat n (n * 3) theta) i s = sampleMetropolisPotts3 E (some i) s (E s) := by
  rw [hE]
  exact cppPottsMove_eq n theta i hi s hs

/-- C56: a run of the compiled sampler, started in the Boltzmann distribution of the Potts model, has rows with
this distribution. -/
theorem C56_cpp_invariant (n : ℕ) (hn : 1 ≤ n) (theta : List ℝ) (sampleSize burn nIters : ℕ) (systematic : Bool)
    (b : ℕ) (hb : b < sampleSize) (f : List ℤ → ℝ)
    (E : List ℤ → ℝ) (hE : E = fun s => pottsVecE n 3 (theta.take (3 * n)) (theta.drop (3 * n)) fun k => s.getD k 0) :
    expect (words [0, 1, 2] n) E (fun s => expectation (fun rows => f (rows.getD b []))
      (cppChain (cppIter (cppPottsMove n theta (cppCouplingMat n (n * 3) theta)) n systematic) sampleSize burn nIters s
        (cppPottsCalcE n theta s))) = expect (words [0, 1, 2] n) E f := by
  have hmove : ∀ i < n, ∀ s ∈ words [0, 1, 2] n, cppPottsMove n theta (cppCouplingMat n (n * 3) theta) i s =
      sampleMetropolisPotts3 E (some i) s (E s) := fun i hi s hs => C56_cpp_move n theta s hs i hi E hE
  have := keeps_cppChain (cppIter_body (cppPottsMove n theta (cppCouplingMat n (n * 3) theta)) n systematic)
    (fun c st hst => returns_cppBody (goodMove_potts3 n E) hn hmove systematic c st hst)
    (fun c => keeps_cppBody (goodMove_potts3 n E) hn hmove systematic c) sampleSize burn nIters b hb f
  unfold expect
  rw [← this]
  refine list_sum_congr fun s hs => ?_
  dsimp only
  rw [C56_cpp_calc_e n hn theta s hs, hE]

/-- C56, a second constructor (of the C++ class, not used from Python): the matrix made by the constructor from
a `std::vector` has fields in the place of couplings, and with it the energy change is wrong. -/
theorem C56_vector_constructor_wrong :
    cppPotts3FromVector false 2 [0, 0, 0, 0, 0, 0, 1] = .ok ([0, 0, 0, 0, 0, 0, 1], cppCouplingMat 2 2 [0, 0, 0, 0, 0, 0, 1]) ∧
    (cppPottsDe 2 ([0, 0, 0, 0, 0, 0, 1] : List ℚ) (cppCouplingMat 2 2 [0, 0, 0, 0, 0, 0, 1]) 0 0 [1, 1] = 0 ∧
      pottsVecE 2 3 (List.replicate 6 (0 : ℚ)) [1] (fun k => [1, 1].getD k 0) -
        pottsVecE 2 3 (List.replicate 6 (0 : ℚ)) [1] (fun k => [0, 1].getD k 0) = -1) := by
  refine ⟨by unfold cppPotts3FromVector; rw [if_neg (by simp)], by decide +kernel, by decide +kernel⟩

/-! ### C84 -/

/-- C84 is false of `Potts3.generate_sample` with the compiled library, which is the method inherited from
`Metropolis`: with assertions every call is aborted; -/
theorem C84_sample_aborts (n : ℕ) (hn : 1 ≤ n) (theta : List ℝ) (ht : theta.length = 3 * n + n * (n - 1) / 2)
    (sampleSize nIters : ℕ) (burnIn : Option ℕ) (systematic : Bool) :
    generateSampleBoost false n theta sampleSize nIters burnIn systematic = .fail .assertion :=
  C54_length n theta (by omega) sampleSize nIters burnIn systematic

/-- ... and without assertions it returns states of -1 and 1, of an Ising model whose fields are the first `n`
parameters and whose couplings are the parameters that follow (which are fields of the Potts model). -/
theorem C84_samples_ising (n : ℕ) (hn : 1 ≤ n) (theta : List ℝ)
    (sampleSize : ℕ) (hm : 0 < sampleSize) (nIters : ℕ) (burnIn : Option ℕ) (systematic : Bool) :
    Returns (generateSampleBoost true n theta sampleSize nIters burnIn systematic) (fun rows =>
      rows.length = sampleSize ∧ ∀ r ∈ rows, r.length = n ∧ ∀ x ∈ r, x = 1 ∨ x = -1) ∧
    generateSampleBoost true n theta sampleSize nIters burnIn systematic =
      cppGenerateSample (cppIsingInit n) (fun s => isingVecE n (theta.take n) (theta.drop n) (spins s))
        (cppIsingMove n theta (cppCouplingMat n n theta)) n sampleSize (burnOr burnIn nIters) nIters systematic := by
  obtain ⟨E, hE⟩ : ∃ E : List ℤ → ℝ, E = fun s => isingVecE n (theta.take n) (theta.drop n) (spins s) := ⟨_, rfl⟩
  have hc : cppIsingCalcE n theta = E := by
    rw [hE]; exact funext fun s => cppIsingCalcE_eq n hn theta s
  have hmove : ∀ i < n, ∀ s ∈ words [1, -1] n,
      cppIsingMove n theta (cppCouplingMat n n theta) i s = sampleMetropolis E (some i) s (E s) := fun i hi s hs => by
    rw [hE]
    exact cppIsingMove_eq n theta i hi s (mem_words.1 hs).1
  have e : generateSampleBoost true n theta sampleSize nIters burnIn systematic =
      cppGenerateSample (cppIsingInit n) E (cppIsingMove n theta (cppCouplingMat n n theta)) n sampleSize
        (burnOr burnIn nIters) nIters systematic := by
    unfold generateSampleBoost boostIsing
    rw [if_neg (by omega), if_neg (by simp)]
    simp only [Prog.ofPy, Prog.bind, boostIsingSample, hc]
  refine ⟨?_, by rw [e, hE]⟩
  rw [e]
  unfold cppGenerateSample
  refine returns_bind (returns_cppIsingInit n) fun s hs => ?_
  refine returns_mono (fun rows hr => ⟨hr.1, fun r hr' => ?_⟩) (returns_cppChain (cppIter_body _ n systematic)
    (fun c st hst => returns_cppBody (goodMove_metropolis n E) hn hmove systematic c st hst) sampleSize _ nIters s hs)
  have := mem_words.1 (hr.2 r hr')
  exact ⟨this.1, fun x hx => by simpa using this.2 x hx⟩

/-- C84, what holds (missing: `generate_sample`): the parallel method returns `sampleSize` rows of `n` Potts
states, each row distributed as row `b` of a run of the three-state sampler, which keeps the Boltzmann distribution of
the Potts model (C56). -/
theorem C84_parallel_partial (ndebug : Bool) (n : ℕ) (hn : 1 ≤ n) (theta : List ℝ)
    (ht : theta.length = 3 * n + n * (n - 1) / 2) (nCpus : ℕ) (hc : 2 ≤ nCpus) (sampleSize nIters : ℕ)
    (hs : nCpus < sampleSize) (burnIn : Option ℕ) (systematic : Bool) :
    Returns (generateSampleParallelBoostPotts3 ndebug n theta nCpus sampleSize nIters burnIn systematic) (fun rows =>
      rows.length = sampleSize ∧ ∀ r ∈ rows, r.length = n ∧ ∀ x ∈ r, x = 0 ∨ x = 1 ∨ x = 2) ∧
    ∀ (c b q : ℕ), c < nCpus → q = (sampleSize + nCpus - 1) / nCpus → b < q → c * q + b < sampleSize →
      ∀ f : List ℤ → ℝ, expectation (fun rows => f (rows.getD (c * q + b) []))
          (generateSampleParallelBoostPotts3 ndebug n theta nCpus sampleSize nIters burnIn systematic) =
        expectation (fun rows => f (rows.getD b [])) ((cppPottsInit n).bind fun s =>
          cppChain (cppIter (cppPottsMove n theta (cppCouplingMat n (n * 3) theta)) n systematic) q
            (burnOr burnIn nIters) nIters s (cppPottsCalcE n theta s)) := by
  obtain ⟨E, hE⟩ : ∃ E : List ℤ → ℝ,
    E = fun s => pottsVecE n 3 (theta.take (3 * n)) (theta.drop (3 * n)) fun k => s.getD k 0 := ⟨_, rfl⟩
  have hmove : ∀ i < n, ∀ s ∈ words [0, 1, 2] n, cppPottsMove n theta (cppCouplingMat n (n * 3) theta) i s =
      sampleMetropolisPotts3 E (some i) s (E s) := fun i hi s hs => C56_cpp_move n theta s hs i hi E hE
  have hone : ∀ q, Returns ((cppPottsInit n).bind fun s =>
      cppChain (cppIter (cppPottsMove n theta (cppCouplingMat n (n * 3) theta)) n systematic) q
        (burnOr burnIn nIters) nIters s (cppPottsCalcE n theta s)) fun rows =>
        rows.length = q ∧ ∀ r ∈ rows, r ∈ words [0, 1, 2] n := fun q =>
    returns_bind (returns_cppPottsInit n) fun s hs => by
      have e : cppPottsCalcE n theta s = E s := by rw [hE]; exact C56_cpp_calc_e n hn theta s hs
      rw [e]
      exact returns_cppChain (cppIter_body _ n systematic)
        (fun c st hst => returns_cppBody (goodMove_potts3 n E) hn hmove systematic c st hst) q _ nIters s hs
  have e : generateSampleParallelBoostPotts3 ndebug n theta nCpus sampleSize nIters burnIn systematic =
      boostParallel nCpus sampleSize fun q => (cppPottsInit n).bind fun s =>
        cppChain (cppIter (cppPottsMove n theta (cppCouplingMat n (n * 3) theta)) n systematic) q
          (burnOr burnIn nIters) nIters s (cppPottsCalcE n theta s) := by
    unfold generateSampleParallelBoostPotts3 boostPotts3
    rw [if_neg (by omega), if_neg (fun h => h.2 (by omega))]
    simp only [Prog.ofPy, Prog.bind, boostPottsSample, cppGenerateSample]
  rw [e]
  refine ⟨returns_mono (fun rows hr => ⟨hr.1, fun r hr' => ?_⟩) (returns_boostParallel (words [0, 1, 2] n) nCpus
    sampleSize (by omega) _ hone), fun c b q h1 h2 h3 h4 f => expectation_boostParallel nCpus sampleSize _
      (fun q => returns_mono (fun _ h => h.1) (hone q)) c b q h1 h2 h3 h4 f⟩
  have := mem_words.1 (hr.2 r hr')
  exact ⟨this.1, fun x hx => by simpa using this.2 x hx⟩

end Verif.Props
