/-
Frequencies of the states in samples that `generate_sample` of a model leaves in `sample`, for all classes of models.
-/
import Verif.Lemmas.SampleFreq

namespace Verif.Lemmas
open Verif Verif.Model Verif.Spec Verif.Props Prog

/-- What is asked of a call: the compiled sampler of `Potts3` must be called in parallel with enough workers, and a sequential
call must not find kept states. -/
structure GoodCall (mc : Machine) (k : ModelKind) (o : SamplerObj) (parallel : Bool) (size : ℕ) : Prop where
  cpus : o.nCpus ≤ mc.cpus
  potts : o.compiled = true → k = .potts3 → parallel = true ∧ 2 ≤ o.nCpus ∧ o.nCpus < size
  kept : parallel = false → o.replicas = none

/-- The sampler returns one of finitely many values. -/
theorem finDist_any (mc : Machine) (k : ModelKind) (n : ℕ) (hn : 0 < n) (o : SamplerObj) (h : SamplerFits k n o)
    (hx : k ≠ .potts3 → ∃ x ∈ o.theta, x ≠ 0) (parallel : Bool) (size nIters : ℕ) (hs : 0 < size)
    (hg : GoodCall mc k o parallel size) (burnIn : Option ℕ) :
    FinDist (o.generate mc parallel size nIters burnIn) fun _ => True := by
  have he := ergodic_kind k n hn o.theta (kindEnergy_not_constant k n o.theta h.length hx)
  unfold SamplerObj.generate
  rw [h.kind, h.n_eq]
  by_cases hcomp : o.compiled = true
  · rw [if_pos hcomp]
    refine finDist_bind (Q := fun _ => True) ?_ fun _ _ => finDist_ret trivial
    by_cases hk : k = .potts3
    · subst hk
      obtain ⟨hp, h2, h3⟩ := hg.potts hcomp rfl
      rw [hp, if_neg (by simp)]
      dsimp only
      unfold generateSampleParallelBoostPotts3
      rw [if_neg (by omega)]
      exact finDist_boostParallel (ergodic_potts3 n hn _).fin _ _ _ _ _ _ (finDist_withE (finDist_cppPottsInit n))
        fun q => boost_rows_potts mc.ndebug n hn o.theta h.length _ rfl q nIters burnIn
    · have hl := h.compiled hcomp hk
      have hser : FinDist (generateSampleBoost mc.ndebug n o.theta size nIters burnIn false) fun _ => True := by
        unfold generateSampleBoost
        rw [if_neg (by omega)]
        exact finDist_mono (fun _ _ => trivial) ((boost_rows mc.ndebug n hn o.theta hl _ rfl size nIters burnIn).finDist
          (finDist_withE (finDist_cppIsingInit n)) (finDist_metroIter n _ hn))
      have hpar : FinDist (generateSampleParallelBoost mc.ndebug n o.theta mc.cpus size nIters burnIn false) fun _ => True :=
        finDist_boostParallel (finDist_metroIter n _ hn) _ _ _ _ _ _ (finDist_withE (finDist_cppIsingInit n))
          fun q => boost_rows mc.ndebug n hn o.theta hl _ rfl q nIters burnIn
      cases parallel
      · rw [if_pos (by simp)]
        exact hser
      · rw [if_neg (by simp)]
        cases k
        · exact hpar
        · exact hpar
        · exact absurd rfl hk
  · rw [if_neg hcomp, h.check, ofPy, Prog.bind]
    refine finDist_bind (Q := fun _ => True) ?_ fun _ _ => finDist_ret trivial
    cases parallel
    · rw [if_pos (by simp)]
      have hst := goodStart_serial h.kept (size := size) (by simp [hg.kept rfl])
      rw [h.kind, h.n_eq] at hst
      exact finDist_mono (fun _ _ => trivial) (finDist_generate (goodMove_kind k n o.theta) he
        (finDist_kindRandom k n 1) size nIters burnIn false o.replicas none hst)
    · rw [if_neg (by simp)]
      have hst := goodStart_parallel h.kept (c := mc.cpus)
      rw [h.kind, h.n_eq] at hst
      exact finDist_parallel (goodMove_kind k n o.theta) he.fin mc.cpus size nIters burnIn o.replicas none
        (finDist_kindRandom k n mc.cpus) hst

/-- Means over the sample. -/
theorem sampler_average (k : ModelKind) (n : ℕ) (hn : 0 < n) (theta : List ℝ) (ht : theta.length = paramCount k n)
    (hx : k ≠ .potts3 → ∃ x ∈ theta, x ≠ 0) (f : List ℤ → ℝ) :
    ∃ K, 0 ≤ K ∧ ∀ (mc : Machine), 0 < mc.cpus → ∀ (o : SamplerObj), SamplerFits k n o → o.theta = theta →
      ∀ (parallel : Bool) (size nIters : ℕ) (burnIn : Option ℕ), 0 < size → 0 < nIters → GoodCall mc k o parallel size →
      expectation (fun o' : SamplerObj => (((o'.sample.getD []).map f).sum / size -
        expect (words (alphabet k) n) (modelEnergy k n theta) f) ^ 2) (o.generate mc parallel size nIters burnIn) ≤
          (if parallel then (mc.cpus : ℝ) else 1) * K / size := by
  have he := ergodic_kind k n hn theta (kindEnergy_not_constant k n theta ht hx)
  obtain ⟨K₁, -, h₁⟩ := generate_lln (goodMove_kind k n theta) he (finDist_kindRandom k n 1) f
  obtain ⟨K₂, h₂⟩ := parallel_average (random := kindRandom k n) (goodMove_kind k n theta) he f
  have hb : ∃ K₃ K₄, k ≠ .potts3 → theta.length = n + n * (n - 1) / 2 → (∀ (ndebug : Bool) (sampleSize nIters : ℕ)
      (burnIn : Option ℕ), 0 < sampleSize → 0 < nIters →
      expectation (fun rows => ((rows.map f).sum / sampleSize - expect (words [1, -1] n)
        (fun s => isingVecE n (theta.take n) (theta.drop n) (spins s)) f) ^ 2)
        (generateSampleBoost ndebug n theta sampleSize nIters burnIn false) ≤ K₃ / sampleSize) ∧
      ∀ (ndebug : Bool) (nCpus sampleSize nIters : ℕ) (burnIn : Option ℕ), 0 < nCpus → 0 < sampleSize → 0 < nIters →
      expectation (fun rows => ((rows.map f).sum / sampleSize - expect (words [1, -1] n)
        (fun s => isingVecE n (theta.take n) (theta.drop n) (spins s)) f) ^ 2)
        (generateSampleParallelBoost ndebug n theta nCpus sampleSize nIters burnIn false) ≤ nCpus * K₄ / sampleSize := by
    by_cases hk : k ≠ .potts3 ∧ theta.length = n + n * (n - 1) / 2
    · obtain ⟨K₃, h₃⟩ := C92_boost n hn theta hk.2 (hx hk.1) _ rfl f
      obtain ⟨K₄, h₄⟩ := C92_boost_parallel n hn theta hk.2 (hx hk.1) _ rfl f
      exact ⟨K₃, K₄, fun _ _ => ⟨h₃, h₄⟩⟩
    · exact ⟨0, 0, fun a b => absurd ⟨a, b⟩ hk⟩
  obtain ⟨K₃, K₄, h₃₄⟩ := hb
  have hp : ∃ K₅, k = .potts3 → ∀ (ndebug : Bool) (nCpus sampleSize nIters : ℕ) (burnIn : Option ℕ), 2 ≤ nCpus →
      nCpus < sampleSize → 0 < nIters →
      expectation (fun rows => ((rows.map f).sum / sampleSize - expect (words [0, 1, 2] n) (modelEnergy .potts3 n theta) f) ^ 2)
        (generateSampleParallelBoostPotts3 ndebug n theta nCpus sampleSize nIters burnIn false) ≤
          nCpus * K₅ / sampleSize := by
    by_cases hk : k = .potts3
    · subst hk
      obtain ⟨K₅, h₅⟩ := C92_boost_potts3 n hn theta ht _ rfl f
      exact ⟨K₅, fun _ => h₅⟩
    · exact ⟨0, fun a => absurd a hk⟩
  obtain ⟨K₅, h₅⟩ := hp
  obtain ⟨K, hK⟩ : ∃ K, K = |K₁| + |K₂| + |K₃| + |K₄| + |K₅| := ⟨_, rfl⟩
  have a1 := abs_nonneg K₁
  have a2 := abs_nonneg K₂
  have a3 := abs_nonneg K₃
  have a4 := abs_nonneg K₄
  have a5 := abs_nonneg K₅
  have b1 := le_abs_self K₁
  have b2 := le_abs_self K₂
  have b3 := le_abs_self K₃
  have b4 := le_abs_self K₄
  have b5 := le_abs_self K₅
  refine ⟨K, by rw [hK]; positivity, fun mc hc o ho hth parallel size nIters burnIn hsize hk hg => ?_⟩
  have hs : (0 : ℝ) < size := by exact_mod_cast hsize
  have hser : ∀ K', K' ≤ K → K' / size ≤ (if (false : Bool) = true then (mc.cpus : ℝ) else 1) * K / size := fun K' h => by
    simp only [Bool.false_eq_true, if_false, one_mul]
    gcongr
  have hpar : ∀ (c : ℕ) K', c ≤ mc.cpus → K' ≤ K → (c : ℝ) * K' / size ≤ (if (true : Bool) = true then (mc.cpus : ℝ) else 1) * K / size :=
    fun c K' hc h => by
      simp only [if_true]
      have : (c : ℝ) ≤ mc.cpus := by exact_mod_cast hc
      have hK0 : 0 ≤ K := by rw [hK]; positivity
      have : (c : ℝ) * K' ≤ mc.cpus * K := (mul_le_mul_of_nonneg_left h (Nat.cast_nonneg c)).trans
        (mul_le_mul_of_nonneg_right this hK0)
      gcongr
  unfold SamplerObj.generate
  by_cases hcomp : o.compiled = true
  · rw [if_pos hcomp, expectation_bind, hth, ho.n_eq, ho.kind]
    by_cases hkp : k = .potts3
    · subst hkp
      obtain ⟨hp, h2, h3⟩ := hg.potts hcomp rfl
      subst hp
      rw [if_neg (by simp)]
      exact (h₅ rfl mc.ndebug o.nCpus size nIters burnIn h2 h3 hk).trans (hpar _ _ hg.cpus (by rw [hK]; linarith))
    · have hal : alphabet k = [1, -1] := by
        revert hkp
        cases k <;> simp [alphabet]
      have hE : modelEnergy k n theta = fun s => isingVecE n (theta.take n) (theta.drop n) (spins s) := by
        funext s
        have := ho.ising hcomp hkp s
        rwa [hth] at this
      obtain ⟨h₃, h₄⟩ := h₃₄ hkp (by have := ho.compiled hcomp hkp; rwa [hth] at this)
      rw [hal, hE]
      cases parallel
      · rw [if_pos (by simp)]
        exact (h₃ mc.ndebug size nIters burnIn hsize hk).trans (hser _ (by rw [hK]; linarith))
      · rw [if_neg (by simp)]
        have := (h₄ mc.ndebug mc.cpus size nIters burnIn hc hsize hk).trans (hpar _ _ le_rfl (by rw [hK]; linarith))
        cases k
        · exact this
        · exact this
        · exact absurd rfl hkp
  · rw [if_neg hcomp, ho.check, ofPy, Prog.bind, expectation_bind, ho.kind, ho.n_eq, hth, ← expect_kind k n theta ht]
    cases parallel
    · rw [if_pos (by simp)]
      have hst := goodStart_serial ho.kept (size := size) (by simp [hg.kept rfl])
      rw [ho.kind, ho.n_eq] at hst
      exact (average_of_sum (finDist_generate (goodMove_kind k n theta) he (finDist_kindRandom k n 1) size nIters
        burnIn false o.replicas none hst) (fun out => (out.sample.map f).sum) _ K₁ size hsize
        (h₁ size nIters burnIn false o.replicas none hst hk)).trans (hser _ (by rw [hK]; linarith))
    · rw [if_neg (by simp)]
      have hst := goodStart_parallel ho.kept (c := mc.cpus)
      rw [ho.kind, ho.n_eq] at hst
      exact (h₂ mc.cpus size nIters burnIn o.replicas none (finDist_kindRandom k n mc.cpus) hst hc hsize hk).trans
        (hpar _ _ le_rfl (by rw [hK]; linarith))

open scoped Classical in
/-- Frequencies are close to probabilities, except with a probability that the mean squared differences bound. -/
theorem prob_freq {β : Type} (p : Prog β) (rows : β → List (List ℤ)) (S : List (List ℤ)) (hnd : S.Nodup) (E : List ℤ → ℝ)
    (size : ℕ) (hs : 0 < size) (hfin : FinDist p fun b => (rows b).length = size ∧ ∀ r ∈ rows b, r ∈ S) (c : List ℤ → ℝ)
    (hvar : ∀ s, expectation (fun b => (((rows b).map fun t => if t = s then (1 : ℝ) else 0).sum / size -
      expect S E fun t => if t = s then 1 else 0) ^ 2) p ≤ c s) (δ : ℝ) (hδ : 0 < δ) :
    prob p (fun b => ¬ (rows b ≠ [] ∧ (∀ r ∈ rows b, r ∈ S) ∧
      ∀ s ∈ S, |((rows b).count s : ℝ) / (rows b).length - boltzmann S E s| < δ)) ≤ (S.map c).sum / δ ^ 2 := by
  obtain ⟨ind, hind⟩ : ∃ ind : List ℤ → List ℤ → ℝ, ind = fun s t => if t = s then 1 else 0 := ⟨_, rfl⟩
  have hvar' : ∀ s, expectation (fun b => (((rows b).map (ind s)).sum / size - expect S E (ind s)) ^ 2) p ≤ c s := by
    intro s
    rw [hind]
    exact hvar s
  unfold prob
  have hb := hfin.mono (f := fun b => if ¬ (rows b ≠ [] ∧ (∀ r ∈ rows b, r ∈ S) ∧
      ∀ s ∈ S, |((rows b).count s : ℝ) / (rows b).length - boltzmann S E s| < δ) then (1 : ℝ) else 0)
    (g := fun b => 0 + (δ ^ 2)⁻¹ * (S.map fun s => (((rows b).map (ind s)).sum / size - expect S E (ind s)) ^ 2).sum)
    (fun b h => by
      obtain ⟨X, hX⟩ : ∃ X, X = rows b := ⟨_, rfl⟩
      rw [← hX] at h ⊢
      have hnn : 0 ≤ (S.map fun s => ((X.map (ind s)).sum / size - expect S E (ind s)) ^ 2).sum :=
        List.sum_nonneg fun y hy => by
          obtain ⟨s, -, rfl⟩ := List.mem_map.1 hy
          exact sq_nonneg _
      rw [zero_add]
      by_cases hcl : X ≠ [] ∧ (∀ r ∈ X, r ∈ S) ∧ ∀ s ∈ S, |(X.count s : ℝ) / X.length - boltzmann S E s| < δ
      · rw [if_neg (not_not.2 hcl)]
        exact mul_nonneg (by positivity) hnn
      · rw [if_pos hcl]
        have hne : X ≠ [] := by
          rintro rfl
          simp at h
          omega
        have : ∃ s ∈ S, δ ≤ |(X.count s : ℝ) / X.length - boltzmann S E s| := by
          by_contra hno
          push Not at hno
          exact hcl ⟨hne, h.2, hno⟩
        obtain ⟨s, hsS, hle⟩ := this
        rw [inv_mul_eq_div, le_div_iff₀ (by positivity), one_mul]
        refine le_trans ?_ (List.single_le_sum (fun y hy => by
          obtain ⟨s, -, rfl⟩ := List.mem_map.1 hy
          exact sq_nonneg _) _ (List.mem_map.2 ⟨s, hsS, rfl⟩))
        rw [hind]
        dsimp only
        rw [sum_indicator, expect_indicator S hnd _ s hsS, ← h.1, ← sq_abs (_ - _)]
        gcongr)
  refine hb.trans ?_
  rw [hfin.affine, zero_add, hfin.sum, inv_mul_eq_div]
  gcongr
  exact List.sum_le_sum fun s _ => hvar' s

open scoped Classical in
/-- The frequencies of the states in the sample of a model are close to their probabilities, except with a probability that is
inversely proportional to the number of rows. -/
theorem model_close (k : ModelKind) (n : ℕ) (hn : 0 < n) (theta : List ℝ) (ht : theta.length = paramCount k n)
    (hx : k ≠ .potts3 → ∃ x ∈ theta, x ≠ 0) (δ : ℝ) (hδ : 0 < δ) :
    ∃ K, ∀ (mc : Machine), 0 < mc.cpus → ∀ (a : IsingArg ℝ) (o : ModelObj) (s : SamplerObj), Reached mc k a o → o.n = n →
      o.sampler = some s → s.theta.length = theta.length → ∀ (multipliers : Option (List ℝ)) (size : Option ℕ) (nIters : ℕ)
      (burnIn : Option ℕ) (parallel : Bool) (m : ℕ), multipliers.getD o.multipliers = theta →
      m = wantedSize size o.sampleSize → 0 < m → 0 < nIters →
      (s.compiled = true → k = .potts3 → parallel = true ∧ 3 ≤ mc.cpus ∧ mc.cpus ≤ m) →
      (parallel = false → s.replicas = none) →
      (FinDist (o.generateSample mc nIters burnIn multipliers size none parallel) fun _ => True) ∧
      prob (o.generateSample mc nIters burnIn multipliers size none parallel) (fun o' =>
        ¬ (o'.sample.getD [] ≠ [] ∧ (∀ r ∈ o'.sample.getD [], r ∈ words (alphabet k) n) ∧
          ∀ t ∈ words (alphabet k) n, |((o'.sample.getD []).count t : ℝ) / (o'.sample.getD []).length -
            boltzmann (words (alphabet k) n) (modelEnergy k n theta) t| < δ)) ≤
        (if parallel then (mc.cpus : ℝ) else 1) * K / m := by
  obtain ⟨S, hS⟩ : ∃ S, S = words (alphabet k) n := ⟨_, rfl⟩
  have hnd : S.Nodup := by
    rw [hS]
    exact nodup_words (by cases k <;> decide) n
  choose K hK0 hK using fun t : List ℤ => sampler_average k n hn theta ht hx fun u => if u = t then 1 else 0
  refine ⟨(S.map K).sum / δ ^ 2, fun mc hc a o s h hon hs hl multipliers size nIters burnIn parallel m hmul hm hm0 hk hpo
    hkept => ?_⟩
  obtain ⟨rng, o₀, h0, hi⟩ := reached_inv h
  rw [← hi.n_eq, hon] at hi
  obtain ⟨h1, -, hmet, -⟩ := hi.sampler s hs
  have hfit := samplerFits_of hc hn h1 theta hl ht
  have hcpu := h1.cpus
  have hgood : GoodCall mc k { s with theta := theta } parallel m := by
    refine ⟨?_, fun a b => ?_, fun hp => hkept hp⟩
    · show s.nCpus ≤ mc.cpus
      rw [hcpu]
      split_ifs <;> omega
    · obtain ⟨h2, h3, h4⟩ := hpo a b
      rw [if_pos b] at hcpu
      refine ⟨h2, ?_, ?_⟩
      · show 2 ≤ s.nCpus
        omega
      · show s.nCpus < m
        omega
  have hfin0 := finDist_any mc k n hn _ hfit hx parallel m nIters hm0 hgood burnIn
  have hret := returns_generate mc hc k n hn _ hfit parallel m nIters burnIn hm0 hgood.potts (fun hp _ p hp' => by
    rw [show s.replicas = none from hkept hp] at hp'
    cases hp')
  unfold ModelObj.generateSample
  rw [hs]
  dsimp only
  rw [if_pos (show methodOr none o.sampleMethod = _ from hmet), wantedSize_eq, hmul, ← hm]
  unfold SamplerObj.updateParameters
  rw [if_neg (by simpa using hl), ofPy, Prog.bind]
  have hfin := finDist_of_returns hfin0 hret
  refine ⟨finDist_bind (Q := fun _ => True) hfin0 fun _ _ => finDist_ret trivial, ?_⟩
  rw [← hS]
  have := prob_freq (({ s with theta := theta } : SamplerObj).generate mc parallel m nIters burnIn) (fun o' => o'.sample.getD [])
    S hnd (modelEnergy k n theta) m hm0 (finDist_mono (fun o' ho' => by
      obtain ⟨-, rows, e, hl', hr'⟩ := ho'
      rw [e]
      exact ⟨hl', hS ▸ hr'⟩) hfin) (fun t => (if parallel then (mc.cpus : ℝ) else 1) * K t / m) (fun t => by
        have := hK t mc hc _ hfit rfl parallel m nIters burnIn hm0 hk hgood
        rw [← hS] at this
        exact this) δ hδ
  unfold prob at this ⊢
  rw [expectation_bind]
  simp only [expectation_ret]
  refine this.trans (le_of_eq ?_)
  have e2 : (S.map fun t => (if parallel then (mc.cpus : ℝ) else 1) * K t / m) =
      S.map fun t => (if parallel then (mc.cpus : ℝ) else 1) / m * K t := List.map_congr_left fun t _ => by ring
  rw [e2, list_sum_mul_left]
  field_simp

end Verif.Lemmas
