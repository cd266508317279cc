/-
C102: the life of a model object. C103: `sample_ising`.
-/
import Verif.Lemmas.SampleFront3
import Verif.Props.Models

namespace Verif.Props
open Verif Verif.Model Verif.Spec Verif.Lemmas Prog

/-! ### C102 -/

/-- The number of samples that is meant: the argument, if it is given and not zero, else the number given to
`setup_sampler`. -/
def wantedSize (given : Option ℕ) (default : ℕ) : ℕ := if given = none ∨ given = some 0 then default else given.getD default

theorem wantedSize_eq (given : Option ℕ) (default : ℕ) :
    sizeOr given default = wantedSize given default := by
  rcases given with _ | _ | k <;> simp [wantedSize, sizeOr]

/-- C102: before `setup_sampler`, `generate_sample` and `set_rng` raise `AttributeError` (not the assertion with the text
"Must call setup_sampler() first."). -/
theorem C102_needs_setup (mc : Machine) (k : ModelKind) (a : IsingArg ℝ) (rng : ℕ) (o : ModelObj)
    (h : modelInit mc k a rng = .ok o) (x : List ℝ) (nIters : ℕ) (burnIn : Option ℕ) (multipliers : Option (List ℝ))
    (size : Option ℕ) (method : Option (List Char)) (parallel : Bool) (rng' : ℕ) :
    (∀ o' ∈ [o, o.setMultipliers x],
      o'.generateSample mc nIters burnIn multipliers size method parallel = .fail .attributeError ∧
      o'.setRng rng' = .error .attributeError) := by
  have hs : o.sampler = none := by
    unfold modelInit at h
    split at h
    · cases h
    · injection h with h
      subst h
      rfl
  intro o' ho
  have hs' : o'.sampler = none := by
    simp only [List.mem_cons, List.not_mem_nil, or_false] at ho
    rcases ho with rfl | rfl
    · exact hs
    · exact hs
  unfold ModelObj.generateSample ModelObj.setRng
  rw [hs']
  exact ⟨rfl, rfl⟩

/-- C102: whatever has been called: the class, the number of spins and the equations are those of the constructor; the
default argument of `calc_p` and `calc_observables` is the current vector of parameters; the sampler belongs to the same
class and number of spins and draws from the generator of the model; and the sample of the model is the last one of its
sampler. -/
theorem C102_consistent (mc : Machine) (k : ModelKind) (a : IsingArg ℝ) (o : ModelObj) (h : Reached mc k a o) :
    (∃ rng o₀, modelInit mc k a rng = .ok o₀ ∧ o.kind = k ∧ o.n = o₀.n ∧ o.eqns = mc.eqns k o₀.n) ∧
    o.bound = o.multipliers ∧ (o.sampler = none → o.sample = none) ∧
    ∀ s, o.sampler = some s → s.kind = k ∧ s.n = o.n ∧ s.rng = o.rng ∧ o.sample = s.sample := by
  obtain ⟨rng, o₀, h0, hi⟩ := reached_inv h
  refine ⟨⟨rng, o₀, h0, hi.kind, hi.n_eq, hi.eqns⟩, hi.bound, hi.fresh, fun s hs => ?_⟩
  obtain ⟨h1, h2, -, h4⟩ := hi.sampler s hs
  exact ⟨h1.kind, by rw [h1.n_eq, hi.n_eq], h2, h4⟩

/-- C102: `calc_p()` and `calc_observables()` are the probabilities and averages for the current parameters. -/
theorem C102_calc (mc : Machine) (k : ModelKind) (a : IsingArg ℝ) (o : ModelObj) (h : Reached mc k a o) (brk : ℕ → Bool) :
    o.calcP none = o.calcP (some o.multipliers) ∧
    o.calcObservables brk none = o.calcObservables brk (some o.multipliers) ∧
    ∀ e, mc.eqns k o.n = some e →
      o.calcP none = moduleP e o.multipliers ∧ o.calcObservables brk none = moduleObservables brk e o.multipliers := by
  obtain ⟨rng, o₀, h0, hi⟩ := reached_inv h
  refine ⟨?_, ?_, fun e he => ?_⟩
  · unfold ModelObj.calcP; rw [hi.bound]; rfl
  · unfold ModelObj.calcObservables; rw [hi.bound]; rfl
  · have : o.eqns = some e := by rw [hi.eqns, ← hi.n_eq]; exact he
    unfold ModelObj.calcP ModelObj.calcObservables
    rw [this, hi.bound]
    exact ⟨rfl, rfl⟩

/-- C102: without equations for that number of spins, `calc_p` is None (`TypeError` when called), and `calc_observables` is
missing in `Ising` and None in the other classes. -/
theorem C102_no_equations (mc : Machine) (k : ModelKind) (a : IsingArg ℝ) (o : ModelObj) (h : Reached mc k a o)
    (he : mc.eqns k o.n = none) (brk : ℕ → Bool) (x : Option (List ℝ)) :
    o.calcP x = .error .typeError ∧
    o.calcObservables brk x = .error (if k = .ising then .attributeError else .typeError) := by
  obtain ⟨rng, o₀, h0, hi⟩ := reached_inv h
  have : o.eqns = none := by rw [hi.eqns, ← hi.n_eq]; exact he
  unfold ModelObj.calcP ModelObj.calcObservables
  rw [this, hi.kind]
  refine ⟨rfl, ?_⟩
  cases k <;> simp

/-- C102: `setup_sampler` gives the sampler the current parameters, and forgets the sample; an unknown method raises. -/
theorem C102_setup (mc : Machine) (o : ModelObj) (method : List Char) (size : ℕ) (boost : Bool) :
    (∀ o', o.setupSampler mc method size boost = .ok o' → method = chars! "metropolis" ∧ o'.sample = none ∧
      o'.sampleSize = size ∧ o'.multipliers = o.multipliers ∧
      ∃ s, o'.sampler = some s ∧ s.theta = o.multipliers ∧ s.replicas = none ∧ s.rng = o.rng) ∧
    (method ≠ chars! "metropolis" → o.setupSampler mc method size boost = .error .notImplemented) := by
  constructor
  · intro o' h
    unfold ModelObj.setupSampler at h
    split at h
    · rename_i hm
      split at h
      · cases h
      · rename_i s hs
        obtain ⟨h1, h2, h3, h4, h5⟩ := samplerInv_init hs
        injection h with h
        subst h
        exact ⟨hm, rfl, rfl, rfl, s, rfl, h3, h5, h2⟩
    · cases h
  · intro hm
    unfold ModelObj.setupSampler
    rw [if_neg hm]

/-- C102: `setup_sampler` of a model with parameters of the right length never raises. -/
theorem C102_setup_works (mc : Machine) (o : ModelObj) (h : o.multipliers.length = paramCount o.kind o.n) (size : ℕ)
    (boost : Bool) : ∃ o', o.setupSampler mc (chars! "metropolis") size boost = .ok o' := by
  unfold ModelObj.setupSampler
  rw [if_pos rfl]
  unfold samplerInit
  cases hk : o.kind with
  | ising => exact ⟨_, rfl⟩
  | triplet => exact ⟨_, rfl⟩
  | potts3 =>
    rw [hk] at h
    have : ¬ (o.multipliers.length ≠ o.n * 3 + o.n * (o.n - 1) / 2) := by
      rw [h]
      show ¬ (3 * o.n + _ ≠ _)
      omega
    simp only [this, if_false]
    exact ⟨_, rfl⟩

/-- C102: parameters of another length than those at the time of `setup_sampler` are refused by `generate_sample`; also if
they are the current ones. -/
theorem C102_length_changed (mc : Machine) (k : ModelKind) (a : IsingArg ℝ) (o : ModelObj) (h : Reached mc k a o)
    (s : SamplerObj) (hs : o.sampler = some s) (nIters : ℕ) (burnIn : Option ℕ) (multipliers : Option (List ℝ))
    (hl : s.theta.length ≠ (multipliers.getD o.multipliers).length) (size : Option ℕ) (parallel : Bool) :
    o.generateSample mc nIters burnIn multipliers size none parallel = .fail .assertion := by
  obtain ⟨rng, o₀, h0, hi⟩ := reached_inv h
  obtain ⟨-, -, hm, -⟩ := hi.sampler s hs
  unfold ModelObj.generateSample
  rw [hs]
  dsimp only
  rw [if_pos (show methodOr none o.sampleMethod = _ from hm)]
  unfold SamplerObj.updateParameters
  rw [if_pos hl]
  rfl

/-- C102: an unknown method is refused. -/
theorem C102_method (mc : Machine) (o : ModelObj) (s : SamplerObj) (hs : o.sampler = some s) (nIters : ℕ)
    (burnIn : Option ℕ) (multipliers : Option (List ℝ)) (size : Option ℕ) (method : List Char) (hm : method ≠ [])
    (hm' : method ≠ chars! "metropolis") (parallel : Bool) :
    o.generateSample mc nIters burnIn multipliers size (some method) parallel = .fail .notImplemented := by
  unfold ModelObj.generateSample
  rw [hs]
  dsimp only
  have : methodOr (some method) o.sampleMethod = method := by simp [methodOr, hm]
  rw [this, if_neg hm']

/-- C102: if `generate_sample` returns, `sample` holds as many rows as wanted, of `n` values of a spin of the model
(except for the compiled sampler of `Potts3`); the sampler has the given parameters, and the parameters of the model,
its size of samples and its equations are not changed. -/
theorem C102_rows (mc : Machine) (hc : 0 < mc.cpus) (k : ModelKind) (a : IsingArg ℝ) (o : ModelObj)
    (h : Reached mc k a o) (hn : 0 < o.n) (nIters : ℕ) (burnIn : Option ℕ) (multipliers : Option (List ℝ)) (size : Option ℕ)
    (method : Option (List Char)) (parallel : Bool) (σ : Type) (g : Gen σ) (hg : g.Valid) (seed : σ) (o' : ModelObj)
    (hr : (run g (o.generateSample mc nIters burnIn multipliers size method parallel) seed).1 = .ok o') :
    ∃ s', o'.sampler = some s' ∧ s'.theta = multipliers.getD o.multipliers ∧ o'.multipliers = o.multipliers ∧
      o'.bound = o.bound ∧ o'.eqns = o.eqns ∧ o'.sampleSize = o.sampleSize ∧ o'.n = o.n ∧
      (s'.compiled = false ∨ k ≠ .potts3 → ∃ rows, o'.sample = some rows ∧ rows.length = wantedSize size o.sampleSize ∧
        ∀ r ∈ rows, r ∈ words (alphabet k) o.n) := by
  obtain ⟨rng, o₀, h0, hi⟩ := reached_inv h
  obtain ⟨-, s, s', rows, h1, h2, h3, h4, h5, h6, h7⟩ :=
    sound_run (hi.generate nIters burnIn multipliers size method parallel) g hg seed o' hr
  rw [← hi.n_eq, wantedSize_eq, ← h4] at h7
  subst h6
  exact ⟨s', rfl, h2, rfl, rfl, rfl, rfl, rfl, fun hk => ⟨rows, rfl, h7 hn hc hk⟩⟩

theorem samplerFits_of {mc : Machine} (hc : 0 < mc.cpus) {k : ModelKind} {n : ℕ} (hn : 0 < n) {s : SamplerObj}
    (h : SamplerInv mc k n s) (theta : List ℝ) (hl : s.theta.length = theta.length) (ht : theta.length = paramCount k n) :
    SamplerFits k n { s with theta := theta } :=
  ⟨h.kind, h.n_eq, ht, fun a b => hl ▸ h.compiled a b, h.kept hn hc⟩

/-- C102: `generate_sample` does not raise for parameters of the right length, which are as many as those at the time of
`setup_sampler`. Excluded are the compiled sequential sampler of `Potts3` (`C102_potts3_serial`) and its parallel one for
fewer than three processors or as few samples as workers, and the case of `C102_kept`. -/
theorem C102_returns (mc : Machine) (hc : 0 < mc.cpus) (k : ModelKind) (a : IsingArg ℝ) (o : ModelObj)
    (h : Reached mc k a o) (hn : 0 < o.n) (s : SamplerObj) (hs : o.sampler = some s) (multipliers : Option (List ℝ))
    (ht : (multipliers.getD o.multipliers).length = paramCount k o.n)
    (hl : s.theta.length = (multipliers.getD o.multipliers).length) (parallel : Bool) (size : Option ℕ) (m nIters : ℕ)
    (burnIn : Option ℕ) (hm : m = wantedSize size o.sampleSize) (hm0 : 0 < m)
    (hk : s.compiled = true → k = .potts3 → parallel = true ∧ 3 ≤ mc.cpus ∧ mc.cpus ≤ m)
    (hkept : parallel = false → s.compiled = false → ∀ p, s.replicas = some p → p.length = m → m = 1) :
    Returns (o.generateSample mc nIters burnIn multipliers size none parallel) fun o' => ∃ rows, o'.sample = some rows ∧
      rows.length = m ∧ ∀ r ∈ rows, r ∈ words (alphabet k) o.n := by
  obtain ⟨rng, o₀, h0, hi⟩ := reached_inv h
  rw [← hi.n_eq] at hi
  obtain ⟨h1, -, hmet, -⟩ := hi.sampler s hs
  unfold ModelObj.generateSample
  rw [hs]
  dsimp only
  rw [if_pos (show methodOr none o.sampleMethod = _ from hmet), wantedSize_eq, ← hm]
  unfold SamplerObj.updateParameters
  rw [if_neg (by simpa using hl), ofPy, Prog.bind]
  refine returns_bind (returns_generate mc hc k o.n hn _ (samplerFits_of hc hn h1 _ hl ht) parallel m nIters burnIn hm0
    (fun a b => ?_) hkept) fun o' ho' => returns_ret ho'
  obtain ⟨h2, h3, h4⟩ := hk a b
  have : s.nCpus = mc.cpus - 1 := by rw [h1.cpus, if_pos b]
  refine ⟨h2, ?_, ?_⟩
  · show 2 ≤ s.nCpus
    omega
  · show s.nCpus < m
    omega

/-- C102: for every model of `n` spins with parameters `theta` (not all zero, for spins -1 and 1), and every function `f`:
there is a number of updates such that, whatever was done with the model before, the rows that `generate_sample` leaves in
`sample` have expectations of `f` within `δ` of the Boltzmann mean, if at least so many updates come before the row;
sequential sampling. Excluded are the compiled sampler of `Potts3` (see `C102_potts3_serial`), and as many kept states as
wanted samples (see `C102_kept`). -/
theorem C102_serial (k : ModelKind) (n : ℕ) (hn : 0 < n) (theta : List ℝ) (ht : theta.length = paramCount k n)
    (hx : k ≠ .potts3 → ∃ x ∈ theta, x ≠ 0) (f : List ℤ → ℝ) (δ : ℝ) (hδ : 0 < δ) :
    ∃ M : ℕ, ∀ (mc : Machine) (a : IsingArg ℝ) (o : ModelObj) (s : SamplerObj), 0 < mc.cpus → Reached mc k a o → o.n = n →
      o.sampler = some s → s.theta.length = theta.length → (s.compiled = true → k ≠ .potts3) →
      ∀ (multipliers : Option (List ℝ)) (size : Option ℕ) (nIters : ℕ) (burnIn : Option ℕ) (b : ℕ),
      multipliers.getD o.multipliers = theta →
      (s.compiled = false → ∀ p, s.replicas = some p → p.length = wantedSize size o.sampleSize → p.length = 1) →
      b < wantedSize size o.sampleSize → M ≤ burnOr burnIn nIters + (b + 1) * nIters →
      |expectation (fun o' : ModelObj => f ((o'.sample.getD []).getD b []))
          (o.generateSample mc nIters burnIn multipliers size none false) -
        expect (words (alphabet k) n) (modelEnergy k n theta) f| < δ := by
  obtain ⟨M, hM⟩ := sampler_serial k n hn theta ht hx f δ hδ
  refine ⟨M, fun mc a o s hc h hon hs hl hpo multipliers size nIters burnIn b hmul hkept hb hle => ?_⟩
  obtain ⟨rng, o₀, h0, hi⟩ := reached_inv h
  rw [← hi.n_eq, hon] at hi
  obtain ⟨h1, -, hm, -⟩ := hi.sampler s hs
  unfold ModelObj.generateSample
  rw [hs]
  dsimp only
  rw [if_pos (show methodOr none o.sampleMethod = _ from hm), wantedSize_eq, hmul]
  unfold SamplerObj.updateParameters
  rw [if_neg (by simpa using hl), ofPy, Prog.bind, expectation_bind]
  exact hM mc _ (samplerFits_of hc hn h1 theta hl ht) rfl hpo _ nIters burnIn b
    (fun hc p hp hpl => by rw [← hpl]; exact hkept hc p hp hpl) hb hle

/-- C102: the same for parallel sampling (the default): row `c * q + b` is row `b` of worker `c`, who makes `q` rows. The
number of workers is that of processors, for the compiled sampler of `Potts3` one less; there must then be two workers or
more and fewer than wanted samples. -/
theorem C102_parallel (k : ModelKind) (n : ℕ) (hn : 0 < n) (theta : List ℝ) (ht : theta.length = paramCount k n)
    (hx : k ≠ .potts3 → ∃ x ∈ theta, x ≠ 0) (f : List ℤ → ℝ) (δ : ℝ) (hδ : 0 < δ) :
    ∃ M : ℕ, ∀ (mc : Machine) (a : IsingArg ℝ) (o : ModelObj) (s : SamplerObj), 0 < mc.cpus → Reached mc k a o → o.n = n →
      o.sampler = some s → s.theta.length = theta.length →
      ∀ (multipliers : Option (List ℝ)) (size : Option ℕ) (nIters : ℕ) (burnIn : Option ℕ) (m w c b q : ℕ),
      multipliers.getD o.multipliers = theta → m = wantedSize size o.sampleSize →
      w = (if s.compiled = true ∧ k = .potts3 then mc.cpus - 1 else mc.cpus) →
      (s.compiled = true → k = .potts3 → 2 ≤ w ∧ w < m) → c < w → q = (m + w - 1) / w → b < q → c * q + b < m →
      M ≤ burnOr burnIn nIters + (b + 1) * nIters →
      |expectation (fun o' : ModelObj => f ((o'.sample.getD []).getD (c * q + b) []))
          (o.generateSample mc nIters burnIn multipliers size none true) -
        expect (words (alphabet k) n) (modelEnergy k n theta) f| < δ := by
  obtain ⟨M, hM⟩ := sampler_parallel k n hn theta ht hx f δ hδ
  refine ⟨M, fun mc a o s hc h hon hs hl multipliers size nIters burnIn m w c b q hmul hm' hw hw2 hcw hq hb hcb hle => ?_⟩
  obtain ⟨rng, o₀, h0, hi⟩ := reached_inv h
  rw [← hi.n_eq, hon] at hi
  obtain ⟨h1, -, hm, -⟩ := hi.sampler s hs
  unfold ModelObj.generateSample
  rw [hs]
  dsimp only
  rw [if_pos (show methodOr none o.sampleMethod = _ from hm), wantedSize_eq, hmul, ← hm']
  unfold SamplerObj.updateParameters
  rw [if_neg (by simpa using hl), ofPy, Prog.bind, expectation_bind]
  refine hM mc _ (samplerFits_of hc hn h1 theta hl ht) rfl m nIters burnIn w c b q ?_ hw2 hcw hq hb hcb hle
  rw [hw]
  by_cases hcond : s.compiled = true ∧ k = .potts3
  · rw [if_pos hcond, if_pos hcond]
    show _ = s.nCpus
    rw [h1.cpus, if_pos hcond.2]
  · rw [if_neg hcond, if_neg hcond]

/-- C102: a `Potts3` model with the compiled extension (the default where it is installed): sequential sampling with the
current parameters aborts, whatever the arguments. -/
theorem C102_potts3_serial (mc : Machine) (hd : mc.ndebug = false) (a : IsingArg ℝ) (o : ModelObj)
    (h : Reached mc .potts3 a o) (hn : 0 < o.n) (s : SamplerObj) (hs : o.sampler = some s) (hc : s.compiled = true)
    (nIters : ℕ) (burnIn : Option ℕ) (multipliers : Option (List ℝ)) (size : Option ℕ) :
    o.generateSample mc nIters burnIn multipliers size none false = .fail .assertion := by
  by_cases hl : s.theta.length = (multipliers.getD o.multipliers).length
  · obtain ⟨rng, o₀, h0, hi⟩ := reached_inv h
    obtain ⟨h1, -, hm, -⟩ := hi.sampler s hs
    unfold ModelObj.generateSample
    rw [hs]
    dsimp only
    rw [if_pos (show methodOr none o.sampleMethod = _ from hm)]
    unfold SamplerObj.updateParameters
    rw [if_neg (by simpa using hl), ofPy, Prog.bind]
    unfold SamplerObj.generate
    rw [if_pos hc, if_pos (by simp), hd]
    have hsn : s.n = o.n := by rw [h1.n_eq, hi.n_eq]
    dsimp only
    rw [hsn, C84_sample_aborts o.n hn _ (by rw [← hl, h1.potts rfl, hi.n_eq])]
    rfl
  · exact C102_length_changed mc .potts3 a o h s hs nIters burnIn multipliers hl size false

/-- C102: after parallel sampling with the Python sampler, sequential sampling of as many samples as there are processors
raises `ValueError` (the states of the workers are kept and taken for the one starting state). -/
theorem C102_kept (mc : Machine) (hc : 2 ≤ mc.cpus) (k : ModelKind) (a : IsingArg ℝ) (o : ModelObj) (h : Reached mc k a o)
    (hn : 0 < o.n) (s : SamplerObj) (hs : o.sampler = some s) (hcomp : s.compiled = false) (nIters : ℕ)
    (burnIn : Option ℕ) (size : Option ℕ) (ht : o.multipliers.length = paramCount k o.n) (σ : Type) (g : Gen σ) (hg : g.Valid)
    (seed : σ) (o' : ModelObj) (hr : (run g (o.generateSample mc nIters burnIn none size none true) seed).1 = .ok o')
    (nIters' : ℕ) (burnIn' : Option ℕ) :
    o'.generateSample mc nIters' burnIn' none (some mc.cpus) none false = .fail .valueError := by
  obtain ⟨rng, o₀, h0, hi⟩ := reached_inv h
  rw [← hi.n_eq] at hi
  obtain ⟨h1, -, hm, -⟩ := hi.sampler s hs
  have key : Sound (o.generateSample mc nIters burnIn none size none true) fun o' => ∃ s' p, o'.sampler = some s' ∧
      s'.replicas = some p ∧ p.length = mc.cpus ∧ s'.compiled = false ∧ o'.sampleMethod = chars! "metropolis" ∧
      s'.theta = o'.multipliers ∧ o'.multipliers = o.multipliers ∧ s'.kind = k ∧ s'.n = o.n := by
    unfold ModelObj.generateSample
    rw [hs]
    dsimp only
    rw [if_pos (show methodOr none o.sampleMethod = _ from hm)]
    refine sound_bind (sound_ofPy fun _ e => h1.update e) fun s1 ⟨h2, h3, h4⟩ => ?_
    have hk2 := h2.kept hn (by omega)
    unfold SamplerObj.generate
    have e1 : s1.compiled = false := by rw [h3]; exact hcomp
    have e2 : s1.theta = o.multipliers := by rw [h3]; rfl
    rw [if_neg (by simp [e1])]
    refine sound_bind (sound_bind (sound_true _) fun _ _ => ?_) (Q := fun s' => ∃ p, s'.replicas = some p ∧
      p.length = mc.cpus ∧ s'.compiled = false ∧ s'.theta = o.multipliers ∧ s'.kind = k ∧ s'.n = o.n)
      fun s' ⟨p, a1, a2, a3, a4, a5, a6⟩ => sound_ret ⟨s', p, rfl, a1, a2, a3, hm, a4, rfl, a5, a6⟩
    rw [if_neg (by simp)]
    have hst := goodStart_parallel hk2 (c := mc.cpus)
    refine sound_bind (sound_of_returns (returns_parallel (goodMove_kind s1.kind s1.n s1.theta) (by rw [h2.n_eq]; exact hn)
      mc.cpus (by omega) (returns_kindRandom s1.kind s1.n mc.cpus) _ nIters burnIn false s1.replicas none hst))
      fun out ⟨_, _, b3, _⟩ => sound_ret ⟨out.replicas, rfl, b3, e1, e2, h2.kind, h2.n_eq⟩
  obtain ⟨s', p, c1, c2, c3, c4, c5, c6, c7, c8, c9⟩ := sound_run key g hg seed o' hr
  unfold ModelObj.generateSample
  rw [c1]
  dsimp only
  rw [if_pos (show methodOr none o'.sampleMethod = _ from c5)]
  unfold SamplerObj.updateParameters
  rw [if_neg (by simp [c6]), ofPy, Prog.bind]
  unfold SamplerObj.generate
  dsimp only
  rw [if_neg (by simp [c4])]
  unfold SamplerObj.checkEnergy
  dsimp only [Option.getD_none]
  rw [c8, c9, c7, kindCalcERow_eq k o.n o.multipliers ht _ (by simp), ofPy, Prog.bind, if_pos (by simp), c2,
    show sizeOr (some mc.cpus) o'.sampleSize = mc.cpus from if_neg (by omega), generateSamplePy_kept _ _ _ _ p _ nIters' burnIn' c3 (by omega)]
  rfl

/-- A machine without compiled extension and equations, with four processors. -/
def bareMachine : Machine := ⟨false, false, 4, fun _ _ => none⟩

/-- The hypotheses can be met: a user makes a model, changes its parameters and sets up the sampler. -/
example : ∃ o s, Reached bareMachine .ising (.parts [[1, 0], [2]]) o ∧ o.n = 2 ∧ o.multipliers = [0, 0, 1] ∧
    o.sampler = some s ∧ s.theta.length = paramCount .ising 2 ∧ s.compiled = false ∧ s.replicas = none ∧
    o.sampleSize = 10 :=
  ⟨_, _, ⟨7, [.setMultipliers [0, 0, 1], .setup (chars! "metropolis") 10 true], _, listGen, [], listGen_valid, rfl⟩,
    rfl, rfl, rfl, rfl, rfl, rfl, rfl⟩

/-- ... and the same for the other classes. -/
example : (∃ o s, Reached bareMachine .potts3 (.parts [[1, 0, 2, 0, 1, 0], [2]]) o ∧ o.n = 2 ∧ o.sampler = some s ∧
      s.theta.length = paramCount .potts3 2) ∧
    ∃ o s, Reached bareMachine .triplet (.parts [[1, 0, 2], [0, 1, 0], [2]]) o ∧ o.n = 3 ∧ o.sampler = some s ∧
      s.theta.length = paramCount .triplet 3 :=
  ⟨⟨_, _, ⟨7, [.setup (chars! "metropolis") 10 true], _, listGen, [], listGen_valid, rfl⟩, rfl, rfl, rfl⟩,
    ⟨_, _, ⟨7, [.setup (chars! "metropolis") 10 true], _, listGen, [], listGen_valid, rfl⟩, rfl, rfl, rfl⟩⟩

/-- Compiled samplers. -/
example : (∃ o s, Reached ⟨true, false, 4, fun _ _ => none⟩ .potts3 (.parts [[1, 0, 2, 0, 1, 0], [2]]) o ∧
      o.sampler = some s ∧ s.compiled = true) ∧
    ∃ o s, Reached ⟨true, false, 4, fun _ _ => none⟩ .ising (.parts [[1, 0], [2]]) o ∧ o.sampler = some s ∧
      s.compiled = true :=
  ⟨⟨_, _, ⟨7, [.setup (chars! "metropolis") 10 true], _, listGen, [], listGen_valid, rfl⟩, rfl, rfl⟩,
    ⟨_, _, ⟨7, [.setup (chars! "metropolis") 10 true], _, listGen, [], listGen_valid, rfl⟩, rfl, by simp [bareMachine]⟩⟩

/-! ### C103 -/

/-- C103: a list of two vectors is treated as the vector of all their entries: it is not checked that there are `n` fields
and `n(n-1)/2` couplings. -/
theorem C103_pair (mc : Machine) (h J h' J' : List ℝ) (e : h ++ J = h' ++ J') (size : ℕ) (parallel : Bool) (nIters : ℕ)
    (burnIn : Option ℕ) :
    sampleIsing mc (.parts [h, J]) size parallel nIters burnIn =
      sampleIsing mc (.parts [h', J']) size parallel nIters burnIn := by
  unfold sampleIsing sampleIsingArg
  dsimp only
  rw [e]

/-- ... where the class `Ising` raises. -/
theorem C103_pair_ising (a b c : ℝ) : ([a] ++ [b, c] : List ℝ) = [a, b] ++ [c] ∧
    isingInit (.parts [[a], [b, c]]) = .error .assertion ∧ isingInit (.parts [[a, b], [c]]) = .ok ⟨2, [a, b, c]⟩ := by
  refine ⟨rfl, C33_list_rejects [a] [b, c] (by simp), C33_list 2 [a, b] [c] rfl rfl⟩

/-- C103: a vector, or two vectors, whose number of entries is not `n + n(n-1)/2` for some `n`, are refused; a vector of two
entries too. -/
theorem C103_refused (mc : Machine) (v h J : List ℝ) (size : ℕ) (parallel : Bool) (nIters : ℕ) (burnIn : Option ℕ) :
    ((∀ n, v.length ≠ n + n * (n - 1) / 2) → ∃ e, sampleIsing mc (.vec v) size parallel nIters burnIn = .fail e) ∧
    ((∀ n, (h ++ J).length ≠ n + n * (n - 1) / 2) →
      sampleIsing mc (.parts [h, J]) size parallel nIters burnIn = .fail .assertion) := by
  have key : ∀ w : List ℝ, (∀ n, w.length ≠ n + n * (n - 1) / 2) →
      ¬ (Nat.sqrt (1 + 8 * w.length) * Nat.sqrt (1 + 8 * w.length) = 1 + 8 * w.length ∧
        (Nat.sqrt (1 + 8 * w.length) - 1) % 2 = 0) := by
    rintro w hw ⟨h1, h2⟩
    generalize Nat.sqrt (1 + 8 * w.length) = r at h1 h2
    have hr : 0 < r := by
      rcases Nat.eq_zero_or_pos r with h0 | h0
      · subst h0; omega
      · exact h0
    obtain ⟨n, rfl⟩ : ∃ n, r = 2 * n + 1 := ⟨(r - 1) / 2, by omega⟩
    refine hw n ?_
    have h3 := two_mul_tri n
    rcases n with _ | n
    · simp at h1 ⊢; omega
    · simp only [Nat.add_sub_cancel] at h3 ⊢
      nlinarith
  constructor
  · intro hv
    unfold sampleIsing sampleIsingArg
    dsimp only
    by_cases h2 : v.length = 2
    · rw [if_pos h2]; exact ⟨_, rfl⟩
    · rw [if_neg h2, ofPy, Prog.bind, if_neg (key v hv)]; exact ⟨_, rfl⟩
  · intro hv
    unfold sampleIsing sampleIsingArg
    dsimp only
    rw [ofPy, Prog.bind, if_neg (key _ hv)]

/-- The sampler that `sample_ising` makes. -/
theorem sampleIsing_eq (mc : Machine) (n : ℕ) (theta : List ℝ) (ht : theta.length = n + n * (n - 1) / 2) (a : IsingArg ℝ)
    (ha : a = .vec theta ∨ ∃ h J, a = .parts [h, J] ∧ h ++ J = theta) (size : ℕ) (parallel : Bool) (nIters : ℕ)
    (burnIn : Option ℕ) :
    ∃ s, SamplerFits .ising n s ∧ s.theta = theta ∧ s.replicas = none ∧ s.compiled = mc.ext ∧
      sampleIsing mc a size parallel nIters burnIn =
        (s.generate mc parallel size nIters burnIn).bind fun s => .ret (s.sample.getD []) := by
  have h2 := two_mul_tri n
  have hsq : 1 + 8 * theta.length = (2 * n + 1) * (2 * n + 1) := by
    rw [ht]
    rcases n with _ | n
    · simp
    · simp only [Nat.add_sub_cancel] at h2 ⊢
      nlinarith
  have hne : theta.length ≠ 2 := by
    rw [ht]
    rcases n with _ | _ | _ | n
    · simp
    · simp
    · simp
    · omega
  refine ⟨⟨.ising, n, theta, 0, mc.ext && decide (theta.length = n * (n - 1) / 2 + n), mc.cpus, none, none⟩,
    ⟨rfl, rfl, ht, fun _ _ => ht, fun p hp => by cases hp⟩, rfl, rfl, ?_, ?_⟩
  · have : theta.length = n * (n - 1) / 2 + n := by omega
    simp [this]
  · have hth : sampleIsingArg a = .ok theta := by
      unfold sampleIsingArg
      rcases ha with rfl | ⟨h, J, rfl, rfl⟩
      · dsimp only; rw [if_neg hne]
      · rfl
    unfold sampleIsing
    rw [hth, ofPy, Prog.bind]
    dsimp only
    rw [hsq, Nat.sqrt_eq, if_pos ⟨rfl, by omega⟩, show (2 * n + 1 - 1) / 2 = n by omega]
    rfl

/-- C103: parameters of `n` spins give `n_samples` rows of `n` spins -1 or 1, without exception. -/
theorem C103_rows (mc : Machine) (hc : 0 < mc.cpus) (n : ℕ) (hn : 0 < n) (theta : List ℝ)
    (ht : theta.length = n + n * (n - 1) / 2) (a : IsingArg ℝ)
    (ha : a = .vec theta ∨ ∃ h J, a = .parts [h, J] ∧ h ++ J = theta) (size : ℕ) (hs : 0 < size) (parallel : Bool)
    (nIters : ℕ) (burnIn : Option ℕ) :
    Returns (sampleIsing mc a size parallel nIters burnIn) fun rows =>
      rows.length = size ∧ ∀ r ∈ rows, r.length = n ∧ ∀ x ∈ r, x = 1 ∨ x = -1 := by
  obtain ⟨s, h1, h2, h3, h4, e⟩ := sampleIsing_eq mc n theta ht a ha size parallel nIters burnIn
  rw [e]
  refine returns_bind (returns_generate mc hc .ising n hn s h1 parallel size nIters burnIn hs (by simp) (by simp [h3]))
    fun o ho => returns_ret ?_
  obtain ⟨rows, e, hl, hr⟩ := ho
  rw [e]
  exact ⟨hl, fun r hr' => by simpa [alphabet] using mem_words.1 (hr r hr')⟩

/-- C103: and their expectations approach the Boltzmann means of that Ising model, if not all parameters are zero:
sequential sampling. -/
theorem C103_serial (n : ℕ) (hn : 0 < n) (theta : List ℝ) (ht : theta.length = n + n * (n - 1) / 2)
    (hx : ∃ x ∈ theta, x ≠ 0) (f : List ℤ → ℝ) (δ : ℝ) (hδ : 0 < δ) :
    ∃ M : ℕ, ∀ (mc : Machine) (a : IsingArg ℝ), (a = .vec theta ∨ ∃ h J, a = .parts [h, J] ∧ h ++ J = theta) →
      ∀ (size nIters : ℕ) (burnIn : Option ℕ) (b : ℕ), b < size → M ≤ burnOr burnIn nIters + (b + 1) * nIters →
      |expectation (fun rows => f (rows.getD b [])) (sampleIsing mc a size false nIters burnIn) -
        expect (words [1, -1] n) (fun s => isingVecE n (theta.take n) (theta.drop n) (spins s)) f| < δ := by
  obtain ⟨M, hM⟩ := sampler_serial .ising n hn theta ht (fun _ => hx) f δ hδ
  refine ⟨M, fun mc a ha size nIters burnIn b hb hle => ?_⟩
  obtain ⟨s, h1, h2, h3, h4, e⟩ := sampleIsing_eq mc n theta ht a ha size false nIters burnIn
  rw [e, expectation_bind]
  exact hM mc s h1 h2 (by simp) size nIters burnIn b (by simp [h3]) hb hle

/-- ... and parallel sampling; row `c * q + b` is row `b` of worker `c`. -/
theorem C103_parallel (n : ℕ) (hn : 0 < n) (theta : List ℝ) (ht : theta.length = n + n * (n - 1) / 2)
    (hx : ∃ x ∈ theta, x ≠ 0) (f : List ℤ → ℝ) (δ : ℝ) (hδ : 0 < δ) :
    ∃ M : ℕ, ∀ (mc : Machine) (a : IsingArg ℝ), (a = .vec theta ∨ ∃ h J, a = .parts [h, J] ∧ h ++ J = theta) →
      ∀ (size nIters : ℕ) (burnIn : Option ℕ) (c b q : ℕ), c < mc.cpus → q = (size + mc.cpus - 1) / mc.cpus → b < q →
      c * q + b < size → M ≤ burnOr burnIn nIters + (b + 1) * nIters →
      |expectation (fun rows => f (rows.getD (c * q + b) [])) (sampleIsing mc a size true nIters burnIn) -
        expect (words [1, -1] n) (fun s => isingVecE n (theta.take n) (theta.drop n) (spins s)) f| < δ := by
  obtain ⟨M, hM⟩ := sampler_parallel .ising n hn theta ht (fun _ => hx) f δ hδ
  refine ⟨M, fun mc a ha size nIters burnIn c b q hc hq hb hcb hle => ?_⟩
  obtain ⟨s, h1, h2, h3, h4, e⟩ := sampleIsing_eq mc n theta ht a ha size true nIters burnIn
  rw [e, expectation_bind]
  exact hM mc s h1 h2 size nIters burnIn mc.cpus c b q (by simp) (by simp) hc hq hb hcb hle

example : ([0, 1, 0.5] : List ℝ).length = 2 + 2 * (2 - 1) / 2 ∧ (∃ x ∈ ([0, 1, 0.5] : List ℝ), x ≠ 0) ∧
    ∀ n, ([1, 2] : List ℝ).length ≠ n + n * (n - 1) / 2 :=
  ⟨by norm_num, ⟨1, by simp, one_ne_zero⟩, fun n => by
    rcases n with _ | _ | _ | n
    · simp
    · simp
    · simp
    · simp; omega⟩

end Verif.Props
