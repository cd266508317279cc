/-
Frequencies of the states in samples that `sample_ising` draws.
-/
import Verif.Lemmas.SampleUniform
import Verif.Props.SampleFront
import Verif.Spec.Freq
import Verif.Lemmas.Stable2

namespace Verif.Lemmas
open Verif Verif.Model Verif.Spec Verif.Props Prog

variable {α : Type}

/-- The sequential sampler returns one of finitely many values. -/
theorem finDist_sampler_serial (mc : Machine) (n : ℕ) (hn : 0 < n) (o : SamplerObj) (h : SamplerFits .ising n o)
    (hx : ∃ x ∈ o.theta, x ≠ 0) (hr : o.replicas = none) (size nIters : ℕ) (hs : 0 < size) (burnIn : Option ℕ) :
    FinDist (o.generate mc false size nIters burnIn) fun _ => True := by
  unfold SamplerObj.generate
  rw [h.kind, h.n_eq]
  by_cases hcomp : o.compiled = true
  · rw [if_pos hcomp, if_pos (by simp)]
    have hl := h.compiled hcomp (by simp)
    refine finDist_bind (Q := fun _ => True) ?_ fun _ _ => finDist_ret trivial
    unfold generateSampleBoost
    rw [if_neg (by omega)]
    exact finDist_mono (fun _ _ => trivial) ((boost_rows mc.ndebug n hn o.theta hl _ rfl size nIters burnIn).finDist
      (finDist_withE (finDist_cppIsingInit n)) (finDist_metroIter n _ hn))
  · rw [if_neg hcomp, h.check, ofPy, Prog.bind, if_pos (by simp)]
    refine finDist_bind (Q := fun _ => True) ?_ fun _ _ => finDist_ret trivial
    have hst := goodStart_serial h.kept (size := size) (by simp [hr])
    rw [h.kind, h.n_eq] at hst
    exact finDist_mono (fun _ _ => trivial) (finDist_generate (goodMove_kind .ising n o.theta)
      (ergodic_kind .ising n hn o.theta (kindEnergy_not_constant .ising n o.theta h.length fun _ => hx))
      (finDist_kindRandom .ising n 1) size nIters burnIn false o.replicas none hst)

/-- Means over the sample of the sequential sampler. -/
theorem sampler_average_serial (n : ℕ) (hn : 0 < n) (theta : List ℝ) (ht : theta.length = n + n * (n - 1) / 2)
    (hx : ∃ x ∈ theta, x ≠ 0) (f : List ℤ → ℝ) :
    ∃ K, ∀ (mc : Machine) (o : SamplerObj), SamplerFits .ising n o → o.theta = theta → o.replicas = none →
      ∀ (size nIters : ℕ) (burnIn : Option ℕ), 0 < size → 0 < nIters →
      expectation (fun o' : SamplerObj => (((o'.sample.getD []).map f).sum / size -
        expect (words [1, -1] n) (modelEnergy .ising n theta) f) ^ 2) (o.generate mc false size nIters burnIn) ≤
          K / size := by
  have he := ergodic_kind .ising n hn theta (kindEnergy_not_constant .ising n theta ht fun _ => hx)
  obtain ⟨K₁, -, h₁⟩ := generate_lln (goodMove_kind .ising n theta) he (finDist_kindRandom .ising n 1) f
  obtain ⟨K₂, h₂⟩ := C92_boost n hn theta ht hx _ rfl f
  refine ⟨max K₁ K₂, fun mc o ho hth hr size nIters burnIn hsize hk => ?_⟩
  have hs : (0 : ℝ) < size := by exact_mod_cast hsize
  have hmax : ∀ K, K ≤ max K₁ K₂ → K / size ≤ max K₁ K₂ / size := fun K h => by gcongr
  unfold SamplerObj.generate
  rw [ho.kind, ho.n_eq, hth]
  by_cases hcomp : o.compiled = true
  · rw [if_pos hcomp, if_pos (by simp), expectation_bind]
    exact (h₂ mc.ndebug size nIters burnIn hsize hk).trans (hmax _ (le_max_right _ _))
  · have hck := ho.check
    rw [if_neg hcomp, hck, ofPy, Prog.bind, if_pos (by simp), expectation_bind]
    have hst := goodStart_serial ho.kept (size := size) (by simp [hr])
    rw [ho.kind, ho.n_eq] at hst
    have e := expect_kind .ising n theta ht f
    unfold alphabet at e
    rw [← e]
    exact (average_of_sum (finDist_generate (goodMove_kind .ising n theta) he (finDist_kindRandom .ising n 1) size nIters
      burnIn false o.replicas none hst) (fun out => (out.sample.map f).sum) _ K₁ size hsize
      (h₁ size nIters burnIn false o.replicas none hst hk)).trans (hmax _ (le_max_left _ _))

/-- Means over the sample of the parallel sampler. -/
theorem sampler_average_parallel (n : ℕ) (hn : 0 < n) (theta : List ℝ) (hx : ∃ x ∈ theta, x ≠ 0) (f : List ℤ → ℝ) :
    ∃ K, ∀ (mc : Machine), 0 < mc.cpus → ∀ (o : SamplerObj), SamplerFits .ising n o → o.theta = theta →
      ∀ (size nIters : ℕ) (burnIn : Option ℕ), 0 < size → 0 < nIters →
      expectation (fun o' : SamplerObj => (((o'.sample.getD []).map f).sum / size -
        expect (words [1, -1] n) (modelEnergy .ising n theta) f) ^ 2) (o.generate mc true size nIters burnIn) ≤
          mc.cpus * K / size := by
  obtain ⟨x, hxm, hx0⟩ := hx
  obtain ⟨K, -, h⟩ := sampler_uniform n hn (theta.map fun y => |y|).sum |x| ((words [1, -1] n).map fun s => |f s|).sum
    (abs_pos.2 hx0) (List.sum_nonneg fun y hy => by
      obtain ⟨s, -, rfl⟩ := List.mem_map.1 hy
      exact abs_nonneg _)
  have hle : ∀ {β : Type} (l : List β) (g : β → ℝ) (b : β), b ∈ l → |g b| ≤ (l.map fun y => |g y|).sum := by
    intro β l g b hb
    exact List.single_le_sum (fun y hy => by obtain ⟨s, -, rfl⟩ := List.mem_map.1 hy; exact abs_nonneg _) _
      (List.mem_map.2 ⟨b, hb, rfl⟩)
  refine ⟨K, fun mc hc o ho hth size nIters burnIn hs hk => ?_⟩
  subst hth
  exact h mc hc o ho (fun y hy => hle o.theta id y hy) ⟨x, hxm, le_rfl⟩ f (fun s hs => hle _ f s hs) size nIters burnIn hs hk

theorem list_sum_ite_eq [DecidableEq α] (S : List α) (hS : S.Nodup) (s : α) (hs : s ∈ S) (g : α → ℝ) :
    (S.map fun t => if t = s then g t else 0).sum = g s := by
  have := List.sum_toFinset (fun t => if t = s then g t else 0) hS
  rw [← this, Finset.sum_ite_eq']
  rw [if_pos (List.mem_toFinset.2 hs)]

theorem sum_indicator [BEq α] [LawfulBEq α] [DecidableEq α] (s : α) (X : List α) :
    (X.map fun t => if t = s then (1 : ℝ) else 0).sum = X.count s := by
  induction X with
  | nil => simp
  | cons t X ih =>
    rw [List.map_cons, List.sum_cons, ih, List.count_cons]
    by_cases h : t = s
    · simp [h, add_comm]
    · simp [h]

theorem expect_indicator [DecidableEq α] (S : List α) (hS : S.Nodup) (E : α → ℝ) (s : α) (hs : s ∈ S) :
    expect S E (fun t => if t = s then 1 else 0) = boltzmann S E s := by
  unfold expect
  simp only [mul_ite, mul_one, mul_zero]
  rw [list_sum_ite_eq S hS s hs]

theorem finDist_sampleIsing (mc : Machine) (hc : 0 < mc.cpus) (n : ℕ) (hn : 0 < n) (theta : List ℝ)
    (ht : theta.length = n + n * (n - 1) / 2) (hx : ∃ x ∈ theta, x ≠ 0) (a : IsingArg ℝ)
    (ha : a = .vec theta ∨ ∃ h J, a = .parts [h, J] ∧ h ++ J = theta) (size : ℕ) (hs : 0 < size) (parallel : Bool)
    (nIters : ℕ) (burnIn : Option ℕ) :
    FinDist (sampleIsing mc a size parallel nIters burnIn) fun X => X.length = size ∧ ∀ r ∈ X, r ∈ words [1, -1] n := by
  obtain ⟨o, ho, hth, hr, -, e⟩ := sampleIsing_eq mc n theta ht a ha size parallel nIters burnIn
  have h0 : FinDist (o.generate mc parallel size nIters burnIn) fun _ => True := by
    cases parallel
    · exact finDist_sampler_serial mc n hn o ho (hth ▸ hx) hr size nIters hs burnIn
    · exact finDist_sampler mc n hn o ho size nIters burnIn
  rw [e]
  refine finDist_bind (finDist_of_returns h0 (returns_generate mc hc .ising n hn o ho parallel size nIters burnIn hs
      (by simp) (by simp [hr]))) fun o' ho' => finDist_ret ?_
  obtain ⟨-, rows, e, hl, hr⟩ := ho'
  rw [e]
  exact ⟨hl, hr⟩

open scoped Classical in
/-- The frequencies of the states in the sample of `sample_ising` are close to their probabilities, except with a
probability that is inversely proportional to the number of rows. -/
theorem sample_close (n : ℕ) (hn : 0 < n) (theta : List ℝ) (ht : theta.length = n + n * (n - 1) / 2)
    (hx : ∃ x ∈ theta, x ≠ 0) (δ : ℝ) (hδ : 0 < δ) :
    ∃ K, ∀ (mc : Machine), 0 < mc.cpus → ∀ a : IsingArg ℝ,
      (a = .vec theta ∨ ∃ h J, a = .parts [h, J] ∧ h ++ J = theta) → ∀ (size : ℕ) (parallel : Bool) (nIters : ℕ)
      (burnIn : Option ℕ), 0 < size → 0 < nIters →
      prob (sampleIsing mc a size parallel nIters burnIn) (fun X => ¬ CloseFreq n theta δ X) ≤
        (if parallel then (mc.cpus : ℝ) else 1) * K / size := by
  obtain ⟨S, hS⟩ : ∃ S, S = words ([1, -1] : List ℤ) n := ⟨_, rfl⟩
  have hnd : S.Nodup := by rw [hS]; exact nodup_words (by decide) n
  obtain ⟨ind, hind⟩ : ∃ ind : List ℤ → List ℤ → ℝ, ind = fun s t => if t = s then 1 else 0 := ⟨_, rfl⟩
  choose K₁ h₁ using fun s => sampler_average_serial n hn theta ht hx (ind s)
  choose K₂ h₂ using fun s => sampler_average_parallel n hn theta hx (ind s)
  refine ⟨(S.map fun s => |K₁ s| + |K₂ s|).sum / δ ^ 2, fun mc hc a ha size parallel nIters burnIn hs hk => ?_⟩
  obtain ⟨o, ho, hth, hr, -, e⟩ := sampleIsing_eq mc n theta ht a ha size parallel nIters burnIn
  have hs' : (0 : ℝ) < size := by exact_mod_cast hs
  obtain ⟨c, hcdef⟩ : ∃ c : ℝ, c = if parallel then (mc.cpus : ℝ) else 1 := ⟨_, rfl⟩
  have hc0 : 0 < c := by
    rw [hcdef]
    split_ifs
    · exact_mod_cast hc
    · norm_num
  have hvar : ∀ s, expectation (fun o' : SamplerObj => (((o'.sample.getD []).map (ind s)).sum / size -
      expect S (modelEnergy .ising n theta) (ind s)) ^ 2) (o.generate mc parallel size nIters burnIn) ≤
        c * (|K₁ s| + |K₂ s|) / size := by
    intro s
    rw [hS]
    cases parallel
    · refine (h₁ s mc o ho hth hr size nIters burnIn hs hk).trans ?_
      rw [hcdef]
      gcongr
      simp only [Bool.false_eq_true, if_false, one_mul]
      linarith [le_abs_self (K₁ s), abs_nonneg (K₂ s)]
    · refine (h₂ s mc hc o ho hth size nIters burnIn hs hk).trans ?_
      rw [hcdef]
      simp only [if_true]
      gcongr
      linarith [le_abs_self (K₂ s), abs_nonneg (K₁ s)]
  have hfin : FinDist (o.generate mc parallel size nIters burnIn) fun o' =>
      (o'.sample.getD []).length = size ∧ ∀ r ∈ o'.sample.getD [], r ∈ S := by
    have h0 : FinDist (o.generate mc parallel size nIters burnIn) fun _ => True := by
      cases parallel
      · exact finDist_sampler_serial mc n hn o ho (hth ▸ hx) hr size nIters hs burnIn
      · exact finDist_sampler mc n hn o ho size nIters burnIn
    refine finDist_mono ?_ (finDist_of_returns h0 (returns_generate mc hc .ising n hn o ho parallel size nIters burnIn hs
      (by simp) (by simp [hr])))
    rintro o' ⟨-, rows, e, hl, hr⟩
    rw [e, hS]
    exact ⟨hl, hr⟩
  rw [e]
  unfold prob
  rw [expectation_bind]
  simp only [expectation_ret]
  have hb := hfin.mono (f := fun o' : SamplerObj => if ¬ CloseFreq n theta δ (o'.sample.getD []) then (1 : ℝ) else 0)
    (g := fun o' => 0 + (δ ^ 2)⁻¹ * (S.map fun s => (((o'.sample.getD []).map (ind s)).sum / size -
      expect S (modelEnergy .ising n theta) (ind s)) ^ 2).sum) (fun o' h => by
      obtain ⟨X, hX⟩ : ∃ X, X = o'.sample.getD [] := ⟨_, rfl⟩
      rw [← hX] at h ⊢
      have hnn : 0 ≤ (S.map fun s => ((X.map (ind s)).sum / size - expect S (modelEnergy .ising n theta) (ind s)) ^ 2).sum :=
        List.sum_nonneg fun y hy => by
          obtain ⟨s, -, rfl⟩ := List.mem_map.1 hy
          exact sq_nonneg _
      rw [zero_add]
      by_cases hcl : CloseFreq n theta δ X
      · rw [if_neg (not_not.2 hcl)]
        exact mul_nonneg (by positivity) hnn
      · rw [if_pos hcl]
        have hne : X ≠ [] := by
          rintro rfl
          simp at h
          omega
        have : ∃ s ∈ S, δ ≤ |(X.count s : ℝ) / X.length -
            boltzmann S (fun s => isingVecE n (theta.take n) (theta.drop n) (spins s)) s| := by
          by_contra hno
          push Not at hno
          exact hcl ⟨hne, hS ▸ h.2, hS ▸ hno⟩
        obtain ⟨s, hsS, hle⟩ := this
        rw [inv_mul_eq_div, le_div_iff₀ (by positivity), one_mul]
        refine le_trans ?_ (List.single_le_sum (fun y hy => by
          obtain ⟨s, -, rfl⟩ := List.mem_map.1 hy
          exact sq_nonneg _) _ (List.mem_map.2 ⟨s, hsS, rfl⟩))
        rw [hind]
        dsimp only
        rw [sum_indicator, expect_indicator S hnd _ s hsS, ← h.1, ← sq_abs (_ - _)]
        gcongr
        exact hle)
  refine hb.trans ?_
  rw [hfin.affine, zero_add, hfin.sum, ← hcdef]
  have : (S.map fun s => expectation (fun o' : SamplerObj => (((o'.sample.getD []).map (ind s)).sum / size -
      expect S (modelEnergy .ising n theta) (ind s)) ^ 2) (o.generate mc parallel size nIters burnIn)).sum ≤
      (S.map fun s => c * (|K₁ s| + |K₂ s|) / size).sum := List.sum_le_sum fun s _ => hvar s
  refine (mul_le_mul_of_nonneg_left this (by positivity)).trans (le_of_eq ?_)
  have e2 : (S.map fun s => c * (|K₁ s| + |K₂ s|) / size) = S.map fun s => c / size * (|K₁ s| + |K₂ s|) :=
    List.map_congr_left fun s _ => by ring
  rw [e2, list_sum_mul_left]
  field_simp

end Verif.Lemmas
