/-
What holds of every model object that a user can have.
-/
import Verif.Lemmas.SampleFront2

namespace Verif.Lemmas
open Verif Verif.Model Verif.Spec Verif.Props Prog

/-- What holds of the sampler of a model of class `k` with `n` spins. -/
structure SamplerInv (mc : Machine) (k : ModelKind) (n : ℕ) (s : SamplerObj) : Prop where
  kind : s.kind = k
  n_eq : s.n = n
  ext : s.compiled = true → mc.ext = true
  compiled : s.compiled = true → k ≠ .potts3 → s.theta.length = n + n * (n - 1) / 2
  potts : k = .potts3 → s.theta.length = 3 * n + n * (n - 1) / 2
  cpus : s.nCpus = if k = .potts3 then mc.cpus - 1 else mc.cpus
  kept : 0 < n → 0 < mc.cpus → KeptOk s
  rows : 0 < n → 0 < mc.cpus → (s.compiled = false ∨ k ≠ .potts3) → ∀ x, s.sample = some x → ∀ r ∈ x,
    r ∈ words (alphabet k) n

/-- What holds of a model of class `k` with `n` spins. -/
structure ModelInv (mc : Machine) (k : ModelKind) (n : ℕ) (o : ModelObj) : Prop where
  kind : o.kind = k
  n_eq : o.n = n
  bound : o.bound = o.multipliers
  eqns : o.eqns = mc.eqns k n
  fresh : o.sampler = none → o.sample = none
  sampler : ∀ s, o.sampler = some s → SamplerInv mc k n s ∧ s.rng = o.rng ∧ o.sampleMethod = chars! "metropolis" ∧
    o.sample = s.sample

theorem samplerInv_init {mc : Machine} {k : ModelKind} {n : ℕ} {theta : List ℝ} {rng : ℕ} {boost : Bool} {s : SamplerObj}
    (h : samplerInit mc k n theta rng boost = .ok s) :
    SamplerInv mc k n s ∧ s.rng = rng ∧ s.theta = theta ∧ s.sample = none ∧ s.replicas = none := by
  cases k
  · injection h with h
    subst h
    refine ⟨⟨rfl, rfl, fun h => ?_, fun h _ => ?_, by simp, by simp, fun _ _ => by simp [KeptOk], by simp⟩, rfl, rfl, rfl, rfl⟩
    · simp only [Bool.and_eq_true] at h; exact h.1.2
    · simp only [Bool.and_eq_true, decide_eq_true_eq] at h; rw [h.2]; omega
  · injection h with h
    subst h
    refine ⟨⟨rfl, rfl, fun h => ?_, fun h _ => ?_, by simp, by simp, fun _ _ => by simp [KeptOk], by simp⟩, rfl, rfl, rfl, rfl⟩
    · simp only [Bool.and_eq_true] at h; exact h.1.2
    · simp only [Bool.and_eq_true, decide_eq_true_eq] at h; rw [h.2]; omega
  · unfold samplerInit at h
    dsimp only at h
    split at h
    · cases h
    · rename_i hl
      injection h with h
      subst h
      refine ⟨⟨rfl, rfl, fun h => ?_, fun h => by simp, fun _ => ?_, by simp, fun _ _ => by simp [KeptOk], by simp⟩, rfl, rfl, rfl, rfl⟩
      · simp only [Bool.and_eq_true] at h; exact h.2
      · have : theta.length = n * 3 + n * (n - 1) / 2 := by simpa using hl
        rw [this]; omega

theorem SamplerInv.update {mc : Machine} {k : ModelKind} {n : ℕ} {s s' : SamplerObj} {theta : List ℝ}
    (h : SamplerInv mc k n s) (e : s.updateParameters theta = .ok s') :
    SamplerInv mc k n s' ∧ s' = { s with theta := theta } ∧ s.theta.length = theta.length := by
  unfold SamplerObj.updateParameters at e
  split at e
  · cases e
  · rename_i hl
    have hl : s.theta.length = theta.length := by simpa using hl
    injection e with e
    subst e
    exact ⟨⟨h.kind, h.n_eq, h.ext, fun a b => hl ▸ h.compiled a b, fun a => hl ▸ h.potts a, h.cpus, h.kept, h.rows⟩,
      rfl, hl⟩

/-- A call keeps everything except the sample and the kept states. -/
theorem sound_generate_any (mc : Machine) (o : SamplerObj) (parallel : Bool) (size nIters : ℕ) (burnIn : Option ℕ) :
    Sound (o.generate mc parallel size nIters burnIn) fun o' => ∃ rows reps,
      o' = { o with sample := some rows, replicas := reps } := by
  unfold SamplerObj.generate
  split
  · exact sound_bind (sound_true _) fun rows _ => sound_ret ⟨rows, o.replicas, rfl⟩
  · exact sound_bind (sound_true _) fun _ _ => sound_bind (sound_true _) fun out _ => sound_ret ⟨out.sample, some out.replicas, rfl⟩

theorem sound_and {α : Type} {p : Prog α} {Q R : α → Prop} (h1 : Sound p Q) (h2 : Sound p R) : Sound p fun a => Q a ∧ R a := by
  induction p with
  | ret a => exact sound_ret ⟨h1 a rfl, h2 a rfl⟩
  | fail e => exact sound_fail
  | unif n k ih => exact fun i hi => ih i (h1 i hi) (h2 i hi)
  | rand k ih => exact fun u h0 h1' => ih u (h1 u h0 h1') (h2 u h0 h1')

theorem SamplerInv.generate {mc : Machine} {k : ModelKind} {n : ℕ} {o : SamplerObj} (h : SamplerInv mc k n o)
    (parallel : Bool) (size nIters : ℕ) (burnIn : Option ℕ) :
    Sound (o.generate mc parallel size nIters burnIn) fun o' => SamplerInv mc k n o' ∧ ∃ rows reps,
      o' = { o with sample := some rows, replicas := reps } ∧
      (0 < n → 0 < mc.cpus → (o.compiled = false ∨ k ≠ .potts3) → rows.length = size ∧ ∀ r ∈ rows,
        r ∈ words (alphabet k) n) := by
  by_cases hpos : 0 < n ∧ 0 < mc.cpus
  · refine sound_mono ?_ (sound_generate mc hpos.2 o (by rw [h.n_eq]; exact hpos.1) (h.kept hpos.1 hpos.2)
      (fun a b => by rw [h.n_eq]; exact h.compiled a (by rwa [h.kind] at b)) parallel size nIters burnIn)
    rintro o' ⟨rows, reps, e, hk, hr⟩
    rw [h.kind, h.n_eq] at hr
    subst e
    exact ⟨⟨h.kind, h.n_eq, h.ext, h.compiled, h.potts, h.cpus, fun _ _ => hk, fun _ _ hc x hx => by
      injection hx with hx; rw [← hx]; exact (hr hc).2⟩, rows, reps, rfl, fun _ _ => hr⟩
  · refine sound_mono ?_ (sound_generate_any mc o parallel size nIters burnIn)
    rintro o' ⟨rows, reps, e⟩
    subst e
    exact ⟨⟨h.kind, h.n_eq, h.ext, h.compiled, h.potts, h.cpus, fun a b => absurd ⟨a, b⟩ hpos,
      fun a b => absurd ⟨a, b⟩ hpos⟩, rows, reps, rfl, fun a b => absurd ⟨a, b⟩ hpos⟩

theorem sound_ite {α : Type} {c : Prop} [Decidable c] {p : Prog α} {e : PyErr} {Q : α → Prop} (h : c → Sound p Q) :
    Sound (if c then p else .fail e) Q := by
  split
  · exact h ‹_›
  · exact sound_fail

/-- What a call of `generate_sample` leaves. -/
theorem ModelInv.generate {mc : Machine} {k : ModelKind} {n : ℕ} {o : ModelObj} (h : ModelInv mc k n o) (nIters : ℕ)
    (burnIn : Option ℕ) (multipliers : Option (List ℝ)) (size : Option ℕ) (method : Option (List Char)) (parallel : Bool) :
    Sound (o.generateSample mc nIters burnIn multipliers size method parallel) fun o' => ModelInv mc k n o' ∧
      ∃ (s s' : SamplerObj) (rows : List (List ℤ)), o.sampler = some s ∧ s'.theta = multipliers.getD o.multipliers ∧
        s.theta.length = (multipliers.getD o.multipliers).length ∧ s'.compiled = s.compiled ∧ s'.sample = some rows ∧
        o' = { o with sampler := some s', sample := some rows } ∧
        (0 < n → 0 < mc.cpus → (s.compiled = false ∨ k ≠ .potts3) →
          rows.length = sizeOr size o.sampleSize ∧
          ∀ r ∈ rows, r ∈ words (alphabet k) n) := by
  unfold ModelObj.generateSample
  split
  · exact sound_fail
  · rename_i s hs
    obtain ⟨hi, hrng, hm, -⟩ := h.sampler s hs
    refine sound_ite fun _ => ?_
    refine sound_bind (sound_ofPy fun a ha => hi.update ha) fun s1 ⟨h1, h2, h3⟩ => ?_
    refine sound_bind (h1.generate parallel _ nIters burnIn) fun s2 ⟨h4, rows, reps, h5, h6⟩ => sound_ret ?_
    have e6 : s2.sample = some rows := by rw [h5]
    refine ⟨⟨h.kind, h.n_eq, h.bound, h.eqns, fun hc => (Option.noConfusion rfl (heq_of_eq hc)), fun s' e => ?_⟩,
      s, s2, rows, hs, by rw [h5, h2], h3, by rw [h5, h2], e6, by rw [e6], ?_⟩
    · injection e with e
      subst e
      exact ⟨h4, by rw [h5, h2]; exact hrng, hm, rfl⟩
    · have e1 : s1.compiled = s.compiled := by rw [h2]
      rw [← e1]
      exact h6

theorem ModelInv.apply {mc : Machine} {k : ModelKind} {n : ℕ} {o : ModelObj} (h : ModelInv mc k n o) (op : ModelOp) :
    Sound (o.apply mc op) (ModelInv mc k n) := by
  cases op with
  | setMultipliers x => exact sound_ret ⟨h.kind, h.n_eq, rfl, h.eqns, h.fresh, h.sampler⟩
  | setup method size boost =>
    refine sound_ofPy fun a ha => ?_
    unfold ModelObj.setupSampler at ha
    split at ha
    · rename_i hm
      split at ha
      · cases ha
      · rename_i s hs
        rw [h.kind, h.n_eq] at hs
        obtain ⟨h1, h2, h3, h4, h5⟩ := samplerInv_init hs
        injection ha with ha
        subst ha
        refine ⟨h.kind, h.n_eq, h.bound, h.eqns, fun _ => rfl, fun s' e => ?_⟩
        injection e with e
        subst e
        exact ⟨h1, h2, hm, h4.symm⟩
    · cases ha
  | setRng rng =>
    refine sound_ofPy fun a ha => ?_
    unfold ModelObj.setRng at ha
    split at ha
    · cases ha
    · rename_i s hs
      obtain ⟨h1, h2, h3, h4⟩ := h.sampler s hs
      injection ha with ha
      subst ha
      refine ⟨h.kind, h.n_eq, h.bound, h.eqns, fun hc => (Option.noConfusion rfl (heq_of_eq hc)), fun s' e => ?_⟩
      injection e with e
      subst e
      exact ⟨⟨h1.kind, h1.n_eq, h1.ext, h1.compiled, h1.potts, h1.cpus, h1.kept, h1.rows⟩, rfl, h3, h4⟩
  | generate nIters burnIn multipliers size method parallel =>
    exact sound_mono (fun _ h => h.1) (h.generate nIters burnIn multipliers size method parallel)

theorem reached_inv {mc : Machine} {k : ModelKind} {a : IsingArg ℝ} {o : ModelObj} (h : Reached mc k a o) :
    ∃ rng o₀, modelInit mc k a rng = .ok o₀ ∧ ModelInv mc k o₀.n o := by
  obtain ⟨rng, ops, σ, g, seed, hg, e⟩ := h
  unfold userProgram at e
  cases hi : modelInit mc k a rng with
  | error x => rw [hi] at e; cases e
  | ok o₀ =>
    rw [hi] at e
    refine ⟨rng, o₀, hi, ?_⟩
    have h0 : ModelInv mc k o₀.n o₀ := by
      unfold modelInit at hi
      split at hi
      · cases hi
      · injection hi with hi
        subst hi
        exact ⟨rfl, rfl, rfl, rfl, fun _ => rfl, fun s hs => (Option.noConfusion rfl (heq_of_eq hs))⟩
    exact sound_run (sound_forEach ops (fun op _ o ho => ho.apply op) o₀ h0) g hg seed o e

end Verif.Lemmas
