/-
What the samplers of model objects do.
-/
import Verif.Lemmas.SampleFront
import Verif.Lemmas.Pairs
import Verif.Lemmas.MaxEnt
import Mathlib.Data.Nat.Choose.Basic

namespace Verif.Lemmas
open Verif Verif.Model Verif.Spec Verif.Props Prog Filter

theorem choose_three' (n : ℕ) : n.choose 3 = n * (n - 1) * (n - 2) / 6 := choose_three n

theorem kindCalcERow_eq (k : ModelKind) (n : ℕ) (theta : List ℝ) (ht : theta.length = paramCount k n) (s : List ℤ)
    (hs : s.length = n) : kindCalcERow k theta s = .ok (modelEnergy k n theta s) := by
  cases k
  · exact congrArg Except.ok (isingCalcERow_vec n s hs theta ht)
  · replace ht : theta.length = n + n * (n - 1) / 2 + n.choose 3 := ht
    have e : theta = theta.take n ++ (theta.drop n).take (n * (n - 1) / 2) ++ theta.drop (n + n * (n - 1) / 2) := by
      rw [← List.drop_drop, List.append_assoc, List.take_append_drop, List.take_append_drop]
    unfold kindCalcERow modelEnergy
    dsimp only
    have := tripletCalcERow_eq s (theta.take n) ((theta.drop n).take (n * (n - 1) / 2)) (theta.drop (n + n * (n - 1) / 2))
      (by simp; omega) (by rw [hs]; simp; omega) (by rw [hs, ← choose_three']; simp; omega)
    rw [← e, hs] at this
    exact this
  · replace ht : theta.length = 3 * n + n * (n - 1) / 2 := ht
    have := pottsCalcERow_eq 3 s (theta.take (3 * n)) (theta.drop (3 * n)) (by simp; omega) (by rw [hs]; simp; omega)
    rw [List.take_append_drop, hs] at this
    exact this

theorem kindEnergy_eq (k : ModelKind) (n : ℕ) (theta : List ℝ) (ht : theta.length = paramCount k n) (s : List ℤ)
    (hs : s.length = n) : kindEnergy k theta s = modelEnergy k n theta s := by
  unfold kindEnergy
  rw [kindCalcERow_eq k n theta ht s hs]

/-- A triplet model without triplet interactions is an Ising model. -/
theorem triplet_eq_ising (n : ℕ) (theta : List ℝ) (ht : theta.length = n + n * (n - 1) / 2) (s : List ℤ) :
    modelEnergy .triplet n theta s = isingVecE n (theta.take n) (theta.drop n) (spins s) := by
  unfold modelEnergy
  have h1 : theta.drop (n + n * (n - 1) / 2) = [] := by rw [← ht]; simp
  have h2 : (theta.drop n).take (n * (n - 1) / 2) = theta.drop n := List.take_of_length_le (by simp; omega)
  dsimp only
  rw [h1, h2, ← polyE_two n (theta.take n) (theta.drop n) (by simp; omega) (by simp; omega)]
  unfold polyE
  simp [Finset.sum_range_succ, dot]

/-- The states kept by the sampler are states of the model. -/
def KeptOk (o : SamplerObj) : Prop := ∀ p, o.replicas = some p → ∀ s ∈ p, s ∈ words (alphabet o.kind) o.n

theorem goodStart_serial {o : SamplerObj} (hk : KeptOk o) {size : ℕ} (h1 : ∀ p, o.replicas = some p → p.length = size → size = 1) :
    GoodStart (words (alphabet o.kind) o.n) 1 size o.replicas none :=
  ⟨by simp, fun p _ hp hl => ⟨by rw [hl, h1 p hp hl], hk p hp⟩⟩

theorem goodStart_parallel {o : SamplerObj} (hk : KeptOk o) {c : ℕ} :
    GoodStart (words (alphabet o.kind) o.n) c c o.replicas none :=
  ⟨by simp, fun p _ hp hl => ⟨hl, hk p hp⟩⟩

/-- Several kept states, as many as samples asked for: the sequential Python sampler raises. -/
theorem generateSamplePy_kept (move : Move) (random : ℕ → Prog (List (List ℤ))) (E : List ℤ → ℝ) (n : ℕ)
    (p : List (List ℤ)) (size nIters : ℕ) (burnIn : Option ℕ) (hp : p.length = size) (h1 : size ≠ 1) :
    generateSamplePy move random E n (some p) size nIters burnIn false false none = .fail .valueError := by
  unfold generateSamplePy startStates
  dsimp only
  rw [if_neg (by simp [hp])]
  match p, hp with
  | [], _ => rfl
  | [_], hp => simp at hp; omega
  | _ :: _ :: _, _ => rfl

theorem words_of (n : ℕ) (r : List ℤ) (h : r.length = n ∧ ∀ x ∈ r, x = 1 ∨ x = -1) : r ∈ words [1, -1] n :=
  mem_words.2 ⟨h.1, fun x hx => by simpa using h.2 x hx⟩

/-- What every call leaves: the class, the size, the generator, the parameters and the choice of methods are as before,
and the kept states and the rows are states of the model (except those of the compiled sequential sampler of `Potts3`). -/
theorem sound_generate (mc : Machine) (hc : 0 < mc.cpus) (o : SamplerObj) (hn : 0 < o.n) (hk : KeptOk o)
    (hco : o.compiled = true → o.kind ≠ .potts3 → o.theta.length = o.n + o.n * (o.n - 1) / 2) (parallel : Bool)
    (size nIters : ℕ) (burnIn : Option ℕ) :
    Sound (o.generate mc parallel size nIters burnIn) fun o' => ∃ rows reps,
      o' = { o with sample := some rows, replicas := reps } ∧ KeptOk o' ∧
        ((o.compiled = false ∨ o.kind ≠ .potts3) → rows.length = size ∧ ∀ r ∈ rows, r ∈ words (alphabet o.kind) o.n) := by
  have hm := goodMove_kind o.kind o.n o.theta
  unfold SamplerObj.generate
  by_cases hcomp : o.compiled = true
  · rw [if_pos hcomp]
    by_cases hpotts : o.kind = .potts3
    · refine sound_bind (sound_true _) fun rows _ => sound_ret ⟨rows, o.replicas, rfl, hk, ?_⟩
      rintro (h | h)
      · rw [hcomp] at h; cases h
      · exact absurd hpotts h
    · have hl := hco hcomp hpotts
      have hal : alphabet o.kind = [1, -1] := by
        revert hpotts
        cases o.kind <;> simp [alphabet]
      refine sound_bind (Q := fun rows => rows.length = size ∧ ∀ r ∈ rows, r.length = o.n ∧ ∀ x ∈ r, x = 1 ∨ x = -1) ?_
        fun rows hrows => sound_ret ⟨rows, o.replicas, rfl, hk, fun _ => ⟨hrows.1, fun r hr => ?_⟩⟩
      · cases parallel
        · rw [if_pos (by simp)]
          rcases Nat.eq_zero_or_pos size with h0 | h0
          · unfold generateSampleBoost
            rw [if_pos h0]
            exact sound_fail
          · exact sound_of_returns (C54_rows mc.ndebug o.n hn o.theta hl size h0 nIters burnIn false)
        · rw [if_neg (by simp)]
          have := C52_boost_count mc.ndebug o.n hn o.theta hl mc.cpus hc size nIters burnIn false
          revert hpotts
          cases o.kind with
          | ising => exact fun _ => sound_of_returns this
          | triplet => exact fun _ => sound_of_returns this
          | potts3 => exact fun h => absurd rfl h
      · rw [hal]; exact words_of _ r (hrows.2 r hr)
  · rw [if_neg hcomp]
    refine sound_bind (sound_true _) fun _ _ => ?_
    refine sound_bind (Q := fun out => (out.sample.length = size ∧ ∀ r ∈ out.sample, r ∈ words (alphabet o.kind) o.n) ∧
      ∀ r ∈ out.replicas, r ∈ words (alphabet o.kind) o.n) ?_ fun out hout => sound_ret ⟨out.sample, some out.replicas, rfl,
        fun p hp => by injection hp with hp; rw [← hp]; exact hout.2, fun _ => hout.1⟩
    cases parallel
    · rw [if_pos (by simp)]
      by_cases hb : ∀ p, o.replicas = some p → p.length = size → size = 1
      · refine sound_of_returns (returns_mono ?_ (returns_generateSamplePy hm hn (returns_kindRandom o.kind o.n 1) size nIters
          burnIn false false o.replicas none (goodStart_serial hk hb)))
        rintro out ⟨h1, h2, -, ⟨s, hs, h3⟩, -⟩
        refine ⟨⟨h1, h2⟩, fun r hr => ?_⟩
        rw [h3] at hr
        rw [List.mem_singleton.1 hr]
        exact hs
      · push Not at hb
        obtain ⟨p, hp, hl, h1⟩ := hb
        rw [hp, generateSamplePy_kept _ _ _ _ p size nIters burnIn hl h1]
        exact sound_fail
    · rw [if_neg (by simp)]
      refine sound_of_returns (returns_mono ?_ (returns_parallel hm hn mc.cpus hc (returns_kindRandom o.kind o.n mc.cpus) size
        nIters burnIn false o.replicas none (goodStart_parallel hk)))
      rintro out ⟨h1, h2, h3, h4, -⟩
      exact ⟨⟨h1, h2⟩, h4⟩

/-- The energy of a model of spins -1 and 1 with a nonzero parameter is not constant. -/
theorem modelEnergy_not_constant (k : ModelKind) (n : ℕ) (theta : List ℝ) (ht : theta.length = paramCount k n)
    (hx : ∃ x ∈ theta, x ≠ 0) (hk : k ≠ .potts3) :
    ∃ s ∈ words [1, -1] n, ∃ t ∈ words [1, -1] n, modelEnergy k n theta s ≠ modelEnergy k n theta t := by
  cases k
  · exact ising_not_constant n theta ht hx
  · replace ht : theta.length = n + n * (n - 1) / 2 + n.choose 3 := ht
    obtain ⟨h, hh⟩ : ∃ h, h = theta.take n := ⟨_, rfl⟩
    obtain ⟨J, hJ⟩ : ∃ J, J = (theta.drop n).take (n * (n - 1) / 2) := ⟨_, rfl⟩
    obtain ⟨T, hT⟩ : ∃ T, T = theta.drop (n + n * (n - 1) / 2) := ⟨_, rfl⟩
    have e : theta = h ++ J ++ T := by
      rw [hh, hJ, hT, ← List.drop_drop, List.append_assoc, List.take_append_drop, List.take_append_drop]
    have l1 : h.length = n := by rw [hh]; simp; omega
    have l2 : J.length = n * (n - 1) / 2 := by rw [hJ]; simp; omega
    have l3 : T.length = n.choose 3 := by rw [hT]; simp; omega
    by_contra hcon
    push Not at hcon
    have hE : ∀ s, modelEnergy .triplet n theta s = polyE n [h, J, T] (spins s) := fun s => by
      unfold modelEnergy
      rw [hh, hJ, hT]
    simp only [hE] at hcon
    have hmem : ∀ s, s ∈ words (spinValues true) n ↔ s ∈ words [1, -1] n := fun s => by
      rw [mem_words, mem_words]
      simp only [spinValues, if_true, List.mem_cons, List.not_mem_nil, or_false]
      refine and_congr_right fun _ => ⟨fun h x hx => (h x hx).symm, fun h x hx => (h x hx).symm⟩
    obtain ⟨t, ht'⟩ := List.exists_mem_of_ne_nil _ (words_ne_nil [1, -1] 1 (by simp) n)
    have shape : ∀ P : List (List ℝ), P.map List.length = [n, n * (n - 1) / 2, n.choose 3] → PolyShape n P := by
      intro P hP q hq
      obtain ⟨a, b, c, rfl⟩ := List.length_eq_three.1 (by simpa using congrArg List.length hP)
      simp only [List.map_cons, List.map_nil, List.cons.injEq, and_true] at hP
      simp only [List.length_cons, List.length_nil] at hq
      rw [length_tuples]
      interval_cases q
      · simpa using hP.1
      · simp [hP.2.1, Nat.choose_two_right]
      · simpa using hP.2.2
    have hdot : ∀ (q : ℕ) (l : List ℝ), dot (List.replicate q (0 : ℝ)) l = 0 := by
      intro q
      induction q with
      | zero => intro l; simp [dot]
      | succ q ih => intro l; cases l with
        | nil => simp [dot]
        | cons y l =>
          have := ih l
          unfold dot at this ⊢
          simp [List.replicate_succ, this]
    have := poly_unique_words n true [h, J, T] [List.replicate n 0, List.replicate (n * (n - 1) / 2) 0,
      List.replicate (n.choose 3) 0] rfl (shape _ (by simp [l1, l2, l3])) (shape _ (by simp))
      (polyE n [h, J, T] (spins t)) fun s hs => by
        rw [hcon s ((hmem s).1 hs) t ht']
        have : polyE n [List.replicate n 0, List.replicate (n * (n - 1) / 2) 0, List.replicate (n.choose 3) 0]
            (spins s) = (0 : ℝ) := by
          unfold polyE
          simp [Finset.sum_range_succ, hdot]
        rw [this, zero_add]
    simp only [List.cons.injEq, and_true] at this
    obtain ⟨x, hx, h0⟩ := hx
    rw [e, this.1, this.2.1, this.2.2] at hx
    simp only [List.mem_append, List.mem_replicate] at hx
    rcases hx with (hx | hx) | hx <;> exact h0 hx.2
  · exact absurd rfl hk

/-! ### convergence of the sampler objects -/

/-- The sampler object belongs to a model of class `k` with `n` spins and its methods work for its parameters. -/
structure SamplerFits (k : ModelKind) (n : ℕ) (o : SamplerObj) : Prop where
  kind : o.kind = k
  n_eq : o.n = n
  length : o.theta.length = paramCount k n
  compiled : o.compiled = true → k ≠ .potts3 → o.theta.length = n + n * (n - 1) / 2
  kept : KeptOk o

theorem SamplerFits.check {k : ModelKind} {n : ℕ} {o : SamplerObj} (h : SamplerFits k n o) : o.checkEnergy = .ok () := by
  unfold SamplerObj.checkEnergy
  rw [h.kind, kindCalcERow_eq k n o.theta h.length _ (by rw [List.length_replicate, h.n_eq])]

/-- In a compiled sampler of spins -1 and 1 the energy is that of an Ising model. -/
theorem SamplerFits.ising {k : ModelKind} {n : ℕ} {o : SamplerObj} (h : SamplerFits k n o) (hc : o.compiled = true)
    (hk : k ≠ .potts3) (s : List ℤ) :
    modelEnergy k n o.theta s = isingVecE n (o.theta.take n) (o.theta.drop n) (spins s) := by
  cases k
  · rfl
  · exact triplet_eq_ising n o.theta (h.compiled hc hk) s
  · exact absurd rfl hk

theorem kindEnergy_not_constant (k : ModelKind) (n : ℕ) (theta : List ℝ) (ht : theta.length = paramCount k n)
    (hx : k ≠ .potts3 → ∃ x ∈ theta, x ≠ 0) (hk : k ≠ .potts3) :
    ∃ s ∈ words [1, -1] n, ∃ t ∈ words [1, -1] n, kindEnergy k theta s ≠ kindEnergy k theta t := by
  obtain ⟨s, hs, t, ht', h⟩ := modelEnergy_not_constant k n theta ht (hx hk) hk
  exact ⟨s, hs, t, ht', by
    rwa [kindEnergy_eq k n theta ht s (mem_words.1 hs).1, kindEnergy_eq k n theta ht t (mem_words.1 ht').1]⟩

theorem expect_kind (k : ModelKind) (n : ℕ) (theta : List ℝ) (ht : theta.length = paramCount k n) (f : List ℤ → ℝ) :
    expect (words (alphabet k) n) (kindEnergy k theta) f = expect (words (alphabet k) n) (modelEnergy k n theta) f :=
  expect_congr _ _ _ _ _ (fun s hs => kindEnergy_eq k n theta ht s (mem_words.1 hs).1) fun _ _ => rfl

/-- Sequential sampling: rows. -/
theorem sampler_serial (k : ModelKind) (n : ℕ) (hn : 0 < n) (theta : List ℝ) (ht : theta.length = paramCount k n)
    (hx : k ≠ .potts3 → ∃ x ∈ theta, x ≠ 0) (f : List ℤ → ℝ) (δ : ℝ) (hδ : 0 < δ) :
    ∃ M : ℕ, ∀ (mc : Machine) (o : SamplerObj), SamplerFits k n o → o.theta = theta →
      (o.compiled = true → k ≠ .potts3) → ∀ (size nIters : ℕ) (burnIn : Option ℕ) (b : ℕ),
      (o.compiled = false → ∀ p, o.replicas = some p → p.length = size → size = 1) → b < size →
      M ≤ burnOr burnIn nIters + (b + 1) * nIters →
      |expectation (fun o' : SamplerObj => f ((o'.sample.getD []).getD b [])) (o.generate mc false size nIters burnIn) -
        expect (words (alphabet k) n) (modelEnergy k n theta) f| < δ := by
  obtain ⟨r, h1, h2⟩ := generate_rate (goodMove_kind k n theta)
    (ergodic_kind k n hn theta (kindEnergy_not_constant k n theta ht hx)) hn (finDist_kindRandom k n 1) f
  obtain ⟨M₁, hM₁⟩ := eventually_atTop.1 (h1.eventually (gt_mem_nhds hδ))
  have hboost : ∃ M₂ : ℕ, k ≠ .potts3 → theta.length = n + n * (n - 1) / 2 → ∀ (ndebug : Bool) (sampleSize nIters : ℕ)
      (burnIn : Option ℕ) (b : ℕ), b < sampleSize → M₂ ≤ burnOr burnIn nIters + (b + 1) * nIters →
      |expectation (fun rows => f (rows.getD b [])) (generateSampleBoost ndebug n theta sampleSize nIters burnIn false) -
        expect (words [1, -1] n) (fun s => isingVecE n (theta.take n) (theta.drop n) (spins s)) f| < δ := by
    by_cases hk : k ≠ .potts3 ∧ theta.length = n + n * (n - 1) / 2
    · obtain ⟨M₂, hM₂⟩ := C91_boost n hn theta hk.2 (hx hk.1) _ rfl f δ hδ
      exact ⟨M₂, fun _ _ => hM₂⟩
    · exact ⟨0, fun a b => absurd ⟨a, b⟩ hk⟩
  obtain ⟨M₂, hM₂⟩ := hboost
  refine ⟨max M₁ M₂, fun mc o ho hth hpo size nIters burnIn b hkept hb hle => ?_⟩
  unfold SamplerObj.generate
  by_cases hc : o.compiled = true
  · have hk := hpo hc
    have hal : alphabet k = [1, -1] := by
      revert hk
      cases k <;> simp [alphabet]
    have hE : modelEnergy k n theta = fun s => isingVecE n (theta.take n) (theta.drop n) (spins s) := by
      funext s
      have := ho.ising hc hk s
      rwa [hth] at this
    rw [if_pos hc, if_pos (by simp), expectation_bind, hth, ho.n_eq, hE, hal]
    have := hM₂ hk (by have := ho.compiled hc hk; rwa [hth] at this) mc.ndebug size nIters burnIn b hb
      ((le_max_right _ _).trans hle)
    exact this
  · rw [if_neg hc, ho.check, ofPy, Prog.bind, if_pos (by simp), expectation_bind, ho.kind, ho.n_eq, hth, ← expect_kind k n theta ht]
    have := goodStart_serial ho.kept (hkept (by simpa using hc))
    rw [ho.kind, ho.n_eq] at this
    exact (h2 size nIters burnIn false o.replicas none b this hb).trans_lt (hM₁ _ ((le_max_left _ _).trans hle))

/-- Parallel sampling: rows. -/
theorem sampler_parallel (k : ModelKind) (n : ℕ) (hn : 0 < n) (theta : List ℝ) (ht : theta.length = paramCount k n)
    (hx : k ≠ .potts3 → ∃ x ∈ theta, x ≠ 0) (f : List ℤ → ℝ) (δ : ℝ) (hδ : 0 < δ) :
    ∃ M : ℕ, ∀ (mc : Machine) (o : SamplerObj), SamplerFits k n o → o.theta = theta →
      ∀ (size nIters : ℕ) (burnIn : Option ℕ) (w c b q : ℕ),
      w = (if o.compiled = true ∧ k = .potts3 then o.nCpus else mc.cpus) →
      (o.compiled = true → k = .potts3 → 2 ≤ w ∧ w < size) → c < w → q = (size + w - 1) / w → b < q →
      c * q + b < size → M ≤ burnOr burnIn nIters + (b + 1) * nIters →
      |expectation (fun o' : SamplerObj => f ((o'.sample.getD []).getD (c * q + b) []))
          (o.generate mc true size nIters burnIn) -
        expect (words (alphabet k) n) (modelEnergy k n theta) f| < δ := by
  obtain ⟨r, h1, h2⟩ := parallel_rate (random := kindRandom k n) (goodMove_kind k n theta)
    (ergodic_kind k n hn theta (kindEnergy_not_constant k n theta ht hx)) hn f
  obtain ⟨M₁, hM₁⟩ := eventually_atTop.1 (h1.eventually (gt_mem_nhds hδ))
  have hboost : ∃ M₂ : ℕ, k ≠ .potts3 → theta.length = n + n * (n - 1) / 2 → ∀ (ndebug : Bool) (nCpus sampleSize nIters : ℕ)
      (burnIn : Option ℕ) (c b q : ℕ), c < nCpus → q = (sampleSize + nCpus - 1) / nCpus → b < q → c * q + b < sampleSize →
      M₂ ≤ burnOr burnIn nIters + (b + 1) * nIters →
      |expectation (fun rows => f (rows.getD (c * q + b) []))
          (generateSampleParallelBoost ndebug n theta nCpus sampleSize nIters burnIn false) -
        expect (words [1, -1] n) (fun s => isingVecE n (theta.take n) (theta.drop n) (spins s)) f| < δ := by
    by_cases hk : k ≠ .potts3 ∧ theta.length = n + n * (n - 1) / 2
    · obtain ⟨M₂, hM₂⟩ := C91_boost_parallel n hn theta hk.2 (hx hk.1) _ rfl f δ hδ
      exact ⟨M₂, fun _ _ => hM₂⟩
    · exact ⟨0, fun a b => absurd ⟨a, b⟩ hk⟩
  obtain ⟨M₂, hM₂⟩ := hboost
  have hpotts : ∃ M₃ : ℕ, k = .potts3 → ∀ (ndebug : Bool) (nCpus sampleSize nIters : ℕ) (burnIn : Option ℕ) (c b q : ℕ),
      2 ≤ nCpus → nCpus < sampleSize → c < nCpus → q = (sampleSize + nCpus - 1) / nCpus → b < q →
      c * q + b < sampleSize → M₃ ≤ burnOr burnIn nIters + (b + 1) * nIters →
      |expectation (fun rows => f (rows.getD (c * q + b) []))
          (generateSampleParallelBoostPotts3 ndebug n theta nCpus sampleSize nIters burnIn false) -
        expect (words [0, 1, 2] n) (modelEnergy .potts3 n theta) f| < δ := by
    by_cases hk : k = .potts3
    · subst hk
      obtain ⟨M₃, hM₃⟩ := C91_boost_potts3 n hn theta ht _ rfl f δ hδ
      exact ⟨M₃, fun _ => hM₃⟩
    · exact ⟨0, fun a => absurd a hk⟩
  obtain ⟨M₃, hM₃⟩ := hpotts
  refine ⟨max M₁ (max M₂ M₃), fun mc o ho hth size nIters burnIn w c b q hw hw2 hc hq hb hcb hle => ?_⟩
  have hle₁ := (le_max_left _ _).trans hle
  have hle₂ := ((le_max_left _ _).trans (le_max_right _ _)).trans hle
  have hle₃ := ((le_max_right _ _).trans (le_max_right _ _)).trans hle
  unfold SamplerObj.generate
  by_cases hcomp : o.compiled = true
  · rw [if_pos hcomp, if_neg (by simp), expectation_bind, hth, ho.n_eq]
    by_cases hk : k = .potts3
    · rw [if_pos ⟨hcomp, hk⟩] at hw
      rw [ho.kind]
      subst hk
      have := hM₃ rfl mc.ndebug w size nIters burnIn c b q (hw2 hcomp rfl).1 (hw2 hcomp rfl).2 hc hq hb hcb hle₃
      rw [hw] at this
      exact this
    · rw [if_neg (by tauto)] at hw
      have hal : alphabet k = [1, -1] := by
        revert hk
        cases k <;> simp [alphabet]
      have hE : modelEnergy k n theta = fun s => isingVecE n (theta.take n) (theta.drop n) (spins s) := by
        funext s
        have := ho.ising hcomp hk s
        rwa [hth] at this
      have := hM₂ hk (by have := ho.compiled hcomp hk; rwa [hth] at this) mc.ndebug w size nIters burnIn c b q hc hq hb hcb
        hle₂
      rw [hw] at this
      rw [hE, hal, ho.kind]
      cases k with
      | ising => exact this
      | triplet => exact this
      | potts3 => exact absurd rfl hk
  · rw [if_neg (by tauto)] at hw
    rw [if_neg hcomp, ho.check, ofPy, Prog.bind, if_neg (by simp), expectation_bind, ho.kind, ho.n_eq, hth,
      ← expect_kind k n theta ht]
    have hst := goodStart_parallel ho.kept (c := w)
    rw [ho.kind, ho.n_eq] at hst
    have := h2 w size nIters burnIn o.replicas none c b q (finDist_kindRandom k n w) hst hc hq hb hcb
    rw [hw] at this
    refine this.trans_lt ?_
    exact hM₁ _ hle₁

/-- The sampler objects return. -/
theorem returns_generate (mc : Machine) (hc : 0 < mc.cpus) (k : ModelKind) (n : ℕ) (hn : 0 < n) (o : SamplerObj)
    (h : SamplerFits k n o) (parallel : Bool) (size nIters : ℕ) (burnIn : Option ℕ) (hsize : 0 < size)
    (hk : o.compiled = true → k = .potts3 → parallel = true ∧ 2 ≤ o.nCpus ∧ o.nCpus < size)
    (hkept : parallel = false → o.compiled = false → ∀ p, o.replicas = some p → p.length = size → size = 1) :
    Returns (o.generate mc parallel size nIters burnIn) fun o' => ∃ rows, o'.sample = some rows ∧ rows.length = size ∧
      ∀ r ∈ rows, r ∈ words (alphabet k) n := by
  unfold SamplerObj.generate
  rw [h.kind, h.n_eq]
  by_cases hcomp : o.compiled = true
  · rw [if_pos hcomp]
    refine returns_bind (Q := fun rows => rows.length = size ∧ ∀ r ∈ rows, r ∈ words (alphabet k) n) ?_
      fun rows hrows => returns_ret ⟨rows, rfl, hrows⟩
    by_cases hpotts : k = .potts3
    · obtain ⟨hp, h2, h3⟩ := hk hcomp hpotts
      subst hp hpotts
      rw [if_neg (by simp)]
      refine returns_mono ?_ (C84_parallel_partial mc.ndebug n hn o.theta h.length o.nCpus h2 size nIters h3 burnIn false).1
      rintro rows ⟨h1, h2⟩
      exact ⟨h1, fun r hr => mem_words.2 ⟨(h2 r hr).1, fun x hx => by
        simpa [alphabet] using (h2 r hr).2 x hx⟩⟩
    · have hl := h.compiled hcomp hpotts
      have hal : alphabet k = [1, -1] := by
        revert hpotts
        cases k <;> simp [alphabet]
      rw [hal]
      refine returns_mono (fun rows hrows => ⟨hrows.1, fun r hr => words_of _ r (hrows.2 r hr)⟩)
        (Q := fun rows => rows.length = size ∧ ∀ r ∈ rows, r.length = n ∧ ∀ x ∈ r, x = 1 ∨ x = -1) ?_
      cases parallel
      · rw [if_pos (by simp)]
        exact C54_rows mc.ndebug n hn o.theta hl size hsize nIters burnIn false
      · rw [if_neg (by simp)]
        have := C52_boost_count mc.ndebug n hn o.theta hl mc.cpus hc size nIters burnIn false
        cases k with
        | ising => exact this
        | triplet => exact this
        | potts3 => exact absurd rfl hpotts
  · rw [if_neg hcomp, h.check, ofPy, Prog.bind]
    refine returns_bind (Q := fun out => out.sample.length = size ∧ ∀ r ∈ out.sample, r ∈ words (alphabet k) n) ?_
      fun out hout => returns_ret ⟨out.sample, rfl, hout⟩
    have hm := goodMove_kind k n o.theta
    cases parallel
    · rw [if_pos (by simp)]
      have hst := goodStart_serial h.kept (hkept rfl (by simpa using hcomp))
      rw [h.kind, h.n_eq] at hst
      exact returns_mono (fun out ho => ⟨ho.1, ho.2.1⟩) (returns_generateSamplePy hm hn (returns_kindRandom k n 1) size nIters
          burnIn false false o.replicas none hst)
    · rw [if_neg (by simp)]
      have hst := goodStart_parallel h.kept (c := mc.cpus)
      rw [h.kind, h.n_eq] at hst
      exact returns_mono (fun out ho => ⟨ho.1, ho.2.1⟩) (returns_parallel hm hn mc.cpus hc (returns_kindRandom k n mc.cpus) size
        nIters burnIn false o.replicas none hst)

end Verif.Lemmas
