/-
C131: samplers start from uniformly random states, and what this means for samples of any length.
-/
import Verif.Lemmas.WarmStart
import Verif.Props.SampleFront
import Verif.Lemmas.UniformKind

namespace Verif.Props
open Verif Verif.Model Verif.Spec Verif.Lemmas Prog

/-! ### the first states -/

/-- C131: `Metropolis.random_sample(k)` draws the `k` states of `n` spins independently and uniformly: every list of `k` states
is equally likely. -/
theorem C131_random_sample (n k : ℕ) (f : List (List ℤ) → ℝ) :
    expectation f (randomSample n k) = ((words (words [1, -1] n) k).map f).sum / (2 : ℝ) ^ (n * k) := by
  have h1 := uniformOn_words uniformOn_coin (List.range n)
  rw [List.length_range] at h1
  have := expectation_words _ _ h1 (List.range k) f
  rw [List.length_range, length_words] at this
  rw [randomSample, this]
  simp [pow_mul]

/-- C131: `Potts3.random_sample(k)` likewise. -/
theorem C131_random_sample_potts3 (n k : ℕ) (f : List (List ℤ) → ℝ) :
    expectation f (randomSamplePotts3 n k) = ((words (words [0, 1, 2] n) k).map f).sum / (3 : ℝ) ^ (n * k) := by
  have h1 := uniformOn_words uniformOn_die (List.range n)
  rw [List.length_range] at h1
  have := expectation_words _ _ h1 (List.range k) f
  rw [List.length_range, length_words] at this
  rw [randomSamplePotts3, this]
  simp [pow_mul]

/-- C131: so do the compiled samplers with the state they start from. -/
theorem C131_init_sample (n : ℕ) (f : List ℤ → ℝ) :
    expectation f (cppIsingInit n) = ((words [1, -1] n).map f).sum / (2 : ℝ) ^ n ∧
    expectation f (cppPottsInit n) = ((words [0, 1, 2] n).map f).sum / (3 : ℝ) ^ n := by
  refine ⟨?_, ?_⟩
  · rw [uniformOn_cppIsingInit n f, length_words]
    simp
  · rw [uniformOn_cppPottsInit n f, length_words]
    simp

example : (words (words [(1 : ℤ), -1] 2) 3).length = 2 ^ (2 * 3) := by decide

/-! ### rows of samples -/

theorem sum_abs_ge_dot (theta v : List ℝ) (hv : v.length = theta.length) (h : ∀ i, |v.getD i 0| ≤ 1) :
    |dot theta v| ≤ (theta.map fun x => |x|).sum := by
  rw [dot_eq_sum _ _ hv.symm]
  have e : (theta.map fun x => |x|).sum = ∑ i ∈ Finset.range theta.length, |theta.getD i 0| := by
    clear h hv v
    induction theta with
    | nil => simp
    | cons x t ih =>
      rw [List.map_cons, List.sum_cons, List.length_cons, Finset.sum_range_succ', ih, add_comm]
      simp
  rw [e]
  refine (Finset.abs_sum_le_sum_abs _ _).trans (Finset.sum_le_sum fun i _ => ?_)
  rw [abs_mul]
  exact mul_le_of_le_one_right (abs_nonneg _) (h i)

/-- Energies of two states differ by at most twice the sum of the absolute parameters. -/
theorem energy_diff (k : ModelKind) (n : ℕ) (theta : List ℝ) (ht : theta.length = paramCount k n) (s : List ℤ)
    (hs : s ∈ words (alphabet k) n) (t : List ℤ) (ht' : t ∈ words (alphabet k) n) :
    modelEnergy k n theta t - modelEnergy k n theta s ≤ 2 * (theta.map fun x => |x|).sum := by
  rw [modelEnergy_lin k n theta ht s (mem_words.1 hs).1, modelEnergy_lin k n theta ht t (mem_words.1 ht').1]
  have h1 := abs_le.1 (sum_abs_ge_dot theta (kindObs k n s) (by rw [kindObs_length, ht]) (kindObs_abs k hs))
  have h2 := abs_le.1 (sum_abs_ge_dot theta (kindObs k n t) (by rw [kindObs_length, ht]) (kindObs_abs k ht'))
  linarith [h1.1, h1.2, h2.1, h2.2]

/-- C131: a sampler that `setup_sampler` has just made keeps no states. -/
theorem C131_setup (mc : Machine) (o o' : ModelObj) (method : List Char) (size : ℕ) (boost : Bool)
    (h : o.setupSampler mc method size boost = .ok o') : ∃ s, o'.sampler = some s ∧ s.replicas = none := by
  unfold ModelObj.setupSampler at h
  split at h
  · unfold samplerInit at h
    cases hk : o.kind <;> rw [hk] at h <;> dsimp only at h
    · cases h; exact ⟨_, rfl, rfl⟩
    · cases h; exact ⟨_, rfl, rfl⟩
    · by_cases hl : o.multipliers.length ≠ o.n * 3 + o.n * (o.n - 1) / 2
      · rw [if_pos hl] at h; cases h
      · rw [if_neg hl] at h; cases h; exact ⟨_, rfl, rfl⟩
  · cases h

/-- C131: the first sample of a new sampler, made in Python, and every sample of a compiled one: for any number of iterations
and any burn-in, also none, each row has the distribution of the model up to a factor that only depends on the parameters: if no
two energies differ by more than `D`, probabilities of all events and means of all nonnegative functions are wrong at most by a
factor `exp D`. This holds for sequential and parallel sampling. Excluded is what does not work for the compiled sampler of
`Potts3` (C84, C102). -/
theorem C131_model (k : ModelKind) (n : ℕ) (hn : 0 < n) (mc : Machine) (hcpu : 0 < mc.cpus) (a : IsingArg ℝ) (o : ModelObj)
    (h : Reached mc k a o) (hon : o.n = n) (s : SamplerObj) (hs : o.sampler = some s)
    (hnew : s.compiled = false → s.replicas = none) (multipliers : Option (List ℝ)) (theta : List ℝ)
    (hmul : multipliers.getD o.multipliers = theta) (ht : theta.length = paramCount k n) (hl : s.theta.length = theta.length)
    (D : ℝ) (hD : ∀ x ∈ words (alphabet k) n, ∀ y ∈ words (alphabet k) n, modelEnergy k n theta y - modelEnergy k n theta x ≤ D)
    (parallel : Bool) (size : Option ℕ) (m nIters : ℕ) (burnIn : Option ℕ) (hm : m = wantedSize size o.sampleSize)
    (hk : s.compiled = true → k = .potts3 → parallel = true ∧ 3 ≤ mc.cpus ∧ mc.cpus ≤ m) (i : ℕ) (hi : i < m) :
    WithinFactor D (words (alphabet k) n) (modelEnergy k n theta) (fun o' : ModelObj => (o'.sample.getD []).getD i [])
      (o.generateSample mc nIters burnIn multipliers size none parallel) := by
  obtain ⟨rng, o₀, h0, hinv⟩ := reached_inv h
  rw [← hinv.n_eq, hon] at hinv
  obtain ⟨h1, -, hmet, -⟩ := hinv.sampler s hs
  unfold ModelObj.generateSample
  rw [hs]
  dsimp only
  rw [if_pos (show methodOr none o.sampleMethod = _ from hmet), wantedSize_eq, hmul, ← hm]
  unfold SamplerObj.updateParameters
  rw [if_neg (by simpa using hl), ofPy, Prog.bind]
  refine withinFactor_map (within_generate k n hn mc hcpu _ (samplerFits_of hcpu hn h1 theta hl ht) hnew hD parallel m nIters
    burnIn (fun hc hp => ?_) i hi) fun f => by rw [expectation_bind]; rfl
  obtain ⟨h2, h3, h4⟩ := hk hc hp
  have : s.nCpus = mc.cpus - 1 := by rw [h1.cpus, if_pos hp]
  refine ⟨h2, ?_, ?_⟩
  · show 2 ≤ s.nCpus
    omega
  · show s.nCpus < m
    omega

/-- C131: in particular with `D` twice the sum of the absolute values of the parameters. -/
theorem C131_parameters (k : ModelKind) (n : ℕ) (hn : 0 < n) (mc : Machine) (hcpu : 0 < mc.cpus) (a : IsingArg ℝ)
    (o : ModelObj) (h : Reached mc k a o) (hon : o.n = n) (s : SamplerObj) (hs : o.sampler = some s)
    (hnew : s.compiled = false → s.replicas = none) (multipliers : Option (List ℝ)) (theta : List ℝ)
    (hmul : multipliers.getD o.multipliers = theta) (ht : theta.length = paramCount k n) (hl : s.theta.length = theta.length)
    (parallel : Bool) (size : Option ℕ) (m nIters : ℕ) (burnIn : Option ℕ) (hm : m = wantedSize size o.sampleSize)
    (hk : s.compiled = true → k = .potts3 → parallel = true ∧ 3 ≤ mc.cpus ∧ mc.cpus ≤ m) (i : ℕ) (hi : i < m) :
    WithinFactor (2 * (theta.map fun x => |x|).sum) (words (alphabet k) n) (modelEnergy k n theta)
      (fun o' : ModelObj => (o'.sample.getD []).getD i [])
      (o.generateSample mc nIters burnIn multipliers size none parallel) :=
  C131_model k n hn mc hcpu a o h hon s hs hnew multipliers theta hmul ht hl _ (energy_diff k n theta ht) parallel size m
    nIters burnIn hm hk i hi

/-- C131: and if all parameters are zero, which is where the theorems about long runs (C91, C102) say nothing for spins -1 and
1, each row is drawn uniformly, for every number of iterations. -/
theorem C131_zero (k : ModelKind) (n : ℕ) (hn : 0 < n) (mc : Machine) (hcpu : 0 < mc.cpus) (a : IsingArg ℝ)
    (o : ModelObj) (h : Reached mc k a o) (hon : o.n = n) (s : SamplerObj) (hs : o.sampler = some s)
    (hnew : s.compiled = false → s.replicas = none) (multipliers : Option (List ℝ)) (theta : List ℝ)
    (hmul : multipliers.getD o.multipliers = theta) (ht : theta.length = paramCount k n) (hl : s.theta.length = theta.length)
    (h0 : ∀ x ∈ theta, x = 0)
    (parallel : Bool) (size : Option ℕ) (m nIters : ℕ) (burnIn : Option ℕ) (hm : m = wantedSize size o.sampleSize)
    (hk : s.compiled = true → k = .potts3 → parallel = true ∧ 3 ≤ mc.cpus ∧ mc.cpus ≤ m) (i : ℕ) (hi : i < m)
    (f : List ℤ → ℝ) (hf : ∀ x, 0 ≤ f x) :
    expectation (fun o' : ModelObj => f ((o'.sample.getD []).getD i []))
        (o.generateSample mc nIters burnIn multipliers size none parallel) =
      ((words (alphabet k) n).map f).sum / (words (alphabet k) n).length := by
  have hsum : 2 * (theta.map fun x => |x|).sum = 0 := by
    rw [List.sum_eq_zero, mul_zero]
    intro y hy
    obtain ⟨x, hx, rfl⟩ := List.mem_map.1 hy
    rw [h0 x hx, abs_zero]
  have h1 := C131_parameters k n hn mc hcpu a o h hon s hs hnew multipliers theta hmul ht hl parallel size m nIters burnIn hm
    hk i hi f hf
  have h2 := avg_within (energy_diff k n theta ht) f fun x _ => hf x
  rw [hsum, neg_zero, Real.exp_zero, one_mul] at h1 h2
  exact (le_antisymm h1.2 h1.1).trans (le_antisymm h2.1 h2.2)

/-- C131: the function `sample_ising`, whose sampler is always new. -/
theorem C131_sample_ising (mc : Machine) (hcpu : 0 < mc.cpus) (n : ℕ) (hn : 0 < n) (theta : List ℝ)
    (ht : theta.length = n + n * (n - 1) / 2) (a : IsingArg ℝ)
    (ha : a = .vec theta ∨ ∃ h J, a = .parts [h, J] ∧ h ++ J = theta) (parallel : Bool) (size nIters : ℕ) (burnIn : Option ℕ)
    (i : ℕ) (hi : i < size) :
    WithinFactor (2 * (theta.map fun x => |x|).sum) (words [1, -1] n)
      (fun s => isingVecE n (theta.take n) (theta.drop n) (spins s)) (fun rows => rows.getD i [])
      (sampleIsing mc a size parallel nIters burnIn) := by
  obtain ⟨s, h1, h2, h3, h4, e⟩ := sampleIsing_eq mc n theta ht a ha size parallel nIters burnIn
  rw [e]
  subst h2
  exact withinFactor_map (within_generate .ising n hn mc hcpu s h1 (fun _ => h3) (energy_diff .ising n s.theta ht) parallel size
    nIters burnIn (by simp) i hi) fun f => by rw [expectation_bind]; rfl

/-- Hypotheses of the theorems above can be met: a model of two spins after `setup_sampler`, on a machine with and one without
the compiled extension. -/
example : (∃ o s, Reached bareMachine .ising (.parts [[1, 0], [2]]) o ∧ o.n = 2 ∧ 0 < bareMachine.cpus ∧
      o.multipliers.length = paramCount .ising 2 ∧ o.sampler = some s ∧ s.theta.length = o.multipliers.length ∧
      s.compiled = false ∧ s.replicas = none ∧ 3 < wantedSize none o.sampleSize) ∧
    ∃ o s, Reached ⟨true, false, 4, fun _ _ => none⟩ .potts3 (.parts [[1, 0, 2, 0, 1, 0], [2]]) o ∧ o.n = 2 ∧
      o.multipliers.length = paramCount .potts3 2 ∧ o.sampler = some s ∧ s.theta.length = o.multipliers.length ∧
      s.compiled = true ∧ 4 ≤ wantedSize none o.sampleSize :=
  ⟨⟨_, _, ⟨7, [.setup (chars! "metropolis") 10 true], _, listGen, [], listGen_valid, rfl⟩,
    rfl, by decide, rfl, rfl, rfl, rfl, rfl, by decide⟩,
    ⟨_, _, ⟨7, [.setup (chars! "metropolis") 10 true], _, listGen, [], listGen_valid, rfl⟩,
    rfl, rfl, rfl, rfl, rfl, by decide⟩⟩

end Verif.Props
