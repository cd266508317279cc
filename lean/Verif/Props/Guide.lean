/-
C118: what the settings and the triplet approximation of the usage guide make of the Monte Carlo histogram solver.
-/
import Verif.Model.Guide
import Verif.Lemmas.MchReach
import Verif.Lemmas.LearnTilt
import Verif.Lemmas.Mch
import Verif.Lemmas.Helpers2
import Verif.Props.MchProg
import Verif.Props.LearnTilt

namespace Verif.Props
open Verif Verif.Model Verif.Spec Verif.Lemmas Prog

/-! ### how far the parameters move -/

theorem returns_sound {α : Type} {p : Prog α} {Q R : α → Prop} (h1 : Returns p Q) (h2 : Sound p R) :
    Returns p fun a => Q a ∧ R a := by
  induction p with
  | ret a =>
    obtain ⟨b, e, hb⟩ := h1
    injection e with e
    subst e
    exact ⟨a, rfl, hb, h2 a rfl⟩
  | fail e => obtain ⟨b, e, hb⟩ := h1; cases e
  | unif n k ih => exact fun i hi => ih i (h1 i hi) (h2 i hi)
  | rand k ih => exact fun u h0 hu => ih u (h1 u h0 hu) (h2 u h0 hu)

/-- C118. `MCH.solve` moves every parameter by at most the sum over the rounds of `maxdlamda` plus twice the size of `eta`.
The rounds are the entries of the history after the first. -/
theorem C118_reach (mc : Machine) (hcpu : 0 < mc.cpus) (n : ℕ) (hn : 1 ≤ n) (s0 : ℕ) (hs0 : 0 < s0) (B Δ H : ℝ)
    (hB : 0 ≤ B) (m : MchObj) (hm : MchReached mc n m) (a : MchArgs) (c : List ℝ)
    (hc : a.constraints.or m.constraints = some c) (hfit : MchFits n s0 B Δ H a c) (hsize : s0 ≤ m.model.sampleSize) :
    Returns (mchSolveP mc m a) fun r => r.returned.length = paramCount .ising n ∧ ∀ i < paramCount .ising n,
      |r.returned.getD i 0 - (a.guess.getD []).getD i 0| ≤ ∑ j ∈ Finset.range (r.errors.length - 1),
        ((MchArgs.round a j).1.maxdlamda.getD 1 + 2 * |(MchArgs.round a j).1.eta.getD 1|) := by
  have lim : ∀ (g : Option ℝ) (d : ℝ), ∃ t, LimitIs g d t := by
    intro g d
    by_cases hg : g = none ∨ g = some 0
    · exact ⟨d, Or.inr ⟨hg, rfl⟩⟩
    · cases g with
      | none => simp at hg
      | some t => exact ⟨t, Or.inl ⟨rfl, by simpa using hg⟩⟩
  obtain ⟨tol, ht⟩ := lim a.tol (1 / Real.sqrt m.model.sampleSize)
  obtain ⟨tolNorm, htn⟩ := lim a.tolNorm (Real.sqrt (1 / m.model.sampleSize) * paramCount .ising n)
  obtain ⟨hr, hmn⟩ := ready_of_reached hm
  have h1 := C105_returns mc hcpu n hn s0 hs0 B Δ H hB m hm a c hc hfit hsize tol tolNorm ht htn
  have h2 : Sound (mchSolveP mc m a) fun r => ∀ i < n + n * (n - 1) / 2,
      |r.returned.getD i 0 - (startOf a c).getD i 0| ≤ ∑ j ∈ Finset.range (r.errors.length - 1),
        move (convF a.kw a.custom) j := by
    rw [solve_eq hB hmn hc hfit ht htn]
    refine sound_bind (sound_run_reach hcpu hn hs0 hB hfit hr hsize tol tolNorm) fun r hr' =>
      sound_bind (sound_true _) fun o _ => sound_ret ?_
    dsimp only
    rw [hr'.1, Nat.add_sub_cancel]
    exact hr'.2
  refine returns_mono (fun r hr => ⟨hr.1.1, fun i hi => ?_⟩) (returns_sound h1 h2)
  have h3 := hr.2 i hi
  have hs : (startOf a c).getD i 0 = (a.guess.getD []).getD i 0 := by
    unfold startOf
    cases a.guess with
    | none =>
      rw [Option.getD_none, Option.getD_none, List.getD_eq_default [] _ (by simp)]
      simp only [List.getD_eq_getElem?_getD, List.getElem?_replicate]
      split <;> rfl
    | some x => rfl
  rw [hs, convF_eq] at h3
  refine h3.trans (le_of_eq (Finset.sum_congr rfl fun j _ => ?_))
  unfold move LearnKw.args
  ring

theorem settings_sum (scale : ℝ) (hs : 0 ≤ scale) (k : ℕ) :
    ∑ j ∈ Finset.range k, (Real.exp (-j / 5) * scale + 2 * |Real.exp (-j / 5) * scale|) ≤ 17 * scale := by
  have h1 : ∀ j : ℕ, Real.exp (-j / 5) * scale + 2 * |Real.exp (-j / 5) * scale| = 3 * scale * Real.exp (-1 / 5) ^ j := by
    intro j
    rw [abs_of_nonneg (by positivity), ← Real.exp_nat_mul]
    ring_nf
  simp only [h1]
  rw [← Finset.mul_sum]
  set q := Real.exp (-1 / 5) with hq
  have hq0 : 0 < q := Real.exp_pos _
  have hq1 : q ≤ 50 / 61 := by
    have h := Real.quadratic_le_exp_of_nonneg (x := 1 / 5) (by norm_num)
    have e : q = (Real.exp (1 / 5))⁻¹ := by rw [hq, ← Real.exp_neg]; norm_num
    rw [e, inv_le_comm₀ (by positivity) (by norm_num)]
    norm_num at h ⊢
    linarith
  have hg : (∑ j ∈ Finset.range k, q ^ j) * (1 - q) ≤ 1 := by
    rw [geom_sum_mul_neg]
    have := pow_pos hq0 k
    linarith
  have hS : ∑ j ∈ Finset.range k, q ^ j ≤ 61 / 11 := by
    have h0 : 0 ≤ ∑ j ∈ Finset.range k, q ^ j := Finset.sum_nonneg fun j _ => (pow_pos hq0 j).le
    nlinarith
  nlinarith

/-- C118. With the `learn_settings` of the guide (`scale` 1, or 1/2 in the Potts section) no parameter is moved by more than
`17 scale`, however many rounds `maxiter` allows and whatever the data are. -/
theorem C118_guide_reach (mc : Machine) (hcpu : 0 < mc.cpus) (n : ℕ) (hn : 1 ≤ n) (m : MchObj) (hm : MchReached mc n m)
    (hsize : 1 ≤ m.model.sampleSize) (scale : ℝ) (hscale : 0 ≤ scale) (a : MchArgs) (ha : a.custom = some (guideSettings scale))
    (c : List ℝ) (hc : a.constraints.or m.constraints = some c) (hl : c.length = paramCount .ising n) (hc1 : ∀ x ∈ c, |x| ≤ 1)
    (hg : ∀ x, a.guess = some x → x.length = paramCount .ising n) :
    Returns (mchSolveP mc m a) fun r => r.returned.length = paramCount .ising n ∧ ∀ i < paramCount .ising n,
      |r.returned.getD i 0 - (a.guess.getD []).getD i 0| ≤ 17 * scale := by
  have hround : ∀ i, MchArgs.round a i = guideSettings scale i := fun i => by unfold MchArgs.round; rw [ha]
  have hle : ∀ i : ℕ, Real.exp (-i / 5) * scale ≤ scale := fun i =>
    mul_le_of_le_one_left hscale (Real.exp_le_one_iff.2 (by
      have : (0 : ℝ) ≤ i := Nat.cast_nonneg i
      linarith))
  have hfit : MchFits n 1 (((a.guess.getD []).map fun x => |x|).sum) scale scale a c := by
    refine ⟨hl, hc1, hg, fun x hx v hv => ?_, by rw [hround]; simp [guideSettings],
      Or.inl fun i => by rw [hround]; rfl, fun i => ?_, fun i => ?_⟩
    · rw [hx, Option.getD_some]
      exact List.single_le_sum (fun y hy => by obtain ⟨z, -, rfl⟩ := List.mem_map.1 hy; exact abs_nonneg z) _
        (List.mem_map.2 ⟨v, hv, rfl⟩)
    · rw [hround]
      exact ⟨by simp only [guideSettings, Option.getD_some]; positivity, by
        simp only [guideSettings, Option.getD_some]; exact hle i⟩
    · rw [hround]
      simp only [guideSettings, Option.getD_some]
      rw [abs_of_nonneg (by positivity)]
      exact hle i
  refine returns_mono (fun r hr => ⟨hr.1, fun i hi => (hr.2 i hi).trans ?_⟩)
    (C118_reach mc hcpu n hn 1 one_pos _ scale scale (List.sum_nonneg fun y hy => by
      obtain ⟨z, -, rfl⟩ := List.mem_map.1 hy; exact abs_nonneg z) m hm a c hc hfit hsize)
  simp only [hround, guideSettings, Option.getD_some]
  exact settings_sum scale hscale _

/-! ### the triplet approximation -/

/-- The observables of the states of a sample: spins, products of pairs, products of triples. -/
noncomputable def tripletRows (n : ℕ) (X : Data) : List (List ℝ) :=
  X.map fun s => (tuples n 1 ++ tuples n 2 ++ tuples n 3).map (mono (spins s))

theorem tripletCount (n : ℕ) : paramCount .triplet n = n + n * (n - 1) / 2 + n * (n - 1) * (n - 2) / 6 := by
  rw [← choose_three]
  rfl

theorem tripletObs_length (n : ℕ) (s : List ℤ) :
    ((tuples n 1 ++ tuples n 2 ++ tuples n 3).map (mono (K := ℝ) (spins s))).length =
      n + n * (n - 1) / 2 + n * (n - 1) * (n - 2) / 6 := by
  simp only [List.length_map, List.length_append, length_tuples, Nat.choose_one_right, Nat.choose_two_right, choose_three]

theorem abs_mono_le {n : ℕ} {s : List ℤ} (hs : s ∈ words [1, -1] n) (t : List ℕ) : |mono (K := ℝ) (spins s) t| ≤ 1 := by
  unfold mono
  induction t with
  | nil => simp
  | cons i t ih =>
    rw [List.map_cons, List.prod_cons, abs_mul]
    exact mul_le_one₀ (abs_word_spin_le hs i) (abs_nonneg _) ih

theorem abs_tripletObs_le {n : ℕ} {s : List ℤ} (hs : s ∈ words [1, -1] n) (i : ℕ) :
    |((tuples n 1 ++ tuples n 2 ++ tuples n 3).map (mono (K := ℝ) (spins s))).getD i 0| ≤ 1 := by
  by_cases hi : i < ((tuples n 1 ++ tuples n 2 ++ tuples n 3).map (mono (K := ℝ) (spins s))).length
  · rw [List.getD_eq_getElem _ _ hi, List.getElem_map]
    exact abs_mono_le hs _
  · rw [List.getD_eq_default _ _ (by omega)]
    norm_num

/-- The function of the guide is the mean over the sample with the weights `exp(-d . o)`. -/
theorem guideApprox_eq (n : ℕ) (X : Data) (hX : X ≠ []) (hw : ∀ s ∈ X, s ∈ words [1, -1] n) (d : List ℝ)
    (hd : d.length = n + n * (n - 1) / 2 + n * (n - 1) * (n - 2) / 6) :
    guideApprox n X d = .ok ((List.range (n + n * (n - 1) / 2 + n * (n - 1) * (n - 2) / 6)).map fun i =>
      expect X (fun s => dot d ((tuples n 1 ++ tuples n 2 ++ tuples n 3).map (mono (spins s))))
        fun s => ((tuples n 1 ++ tuples n 2 ++ tuples n 3).map (mono (spins s))).getD i 0) := by
  have e1 : (X.mapM fun s => tripletObservables (K := ℝ) s) = .ok (tripletRows n X) := by
    apply mapM_ok'
    intro s hs
    rw [tripletObservables_eq, (mem_words.1 (hw s hs)).1]
  have e2 : ((tripletRows n X).mapM fun o => npDot o d) = .ok ((tripletRows n X).map fun o => dot d o) := by
    apply mapM_ok'
    intro o ho
    obtain ⟨s, -, rfl⟩ := List.mem_map.1 ho
    rw [npDot_eq _ _ (by rw [tripletObs_length, hd]), dot_comm]
  have hlen : ((tripletRows n X).map fun o => dot d o).length = X.length := by simp [tripletRows]
  have hm : guideMeans (n + n * (n - 1) / 2 + n * (n - 1) * (n - 2) / 6) (tripletRows n X)
      ((tripletRows n X).map fun o => dot d o) =
      (List.range (n + n * (n - 1) / 2 + n * (n - 1) * (n - 2) / 6)).map fun i =>
        expect X (fun s => dot d ((tuples n 1 ++ tuples n 2 ++ tuples n 3).map (mono (spins s))))
          fun s => ((tuples n 1 ++ tuples n 2 ++ tuples n 3).map (mono (spins s))).getD i 0 := by
    unfold guideMeans
    refine List.map_congr_left fun i _ => ?_
    rw [← reweighted_sum X hX]
    unfold guideFraction
    rw [hlen]
    congr 1
    · unfold tripletRows
      rw [List.map_map, List.zipWith_map, List.zipWith_self, ← list_sum_div]
      congr 1
      refine List.map_congr_left fun s _ => ?_
      simp only [Function.comp_apply]
      ring
    · unfold tripletRows
      rw [List.map_map, List.map_map]
      rfl
  unfold guideApprox
  rw [e1]
  dsimp only
  rw [e2]
  dsimp only
  rw [if_neg (by rw [hlen]; simpa using hX), hm, if_neg]
  have hr := fun i => expect_abs_le X hX
    (fun s => dot d ((tuples n 1 ++ tuples n 2 ++ tuples n 3).map (mono (spins s))))
    (fun s => ((tuples n 1 ++ tuples n 2 ++ tuples n 3).map (mono (spins s))).getD i 0)
    fun s hs => abs_tripletObs_le (hw s hs) i
  rintro (⟨x, hx, h⟩ | ⟨x, hx, h⟩)
  · obtain ⟨i, -, rfl⟩ := List.mem_map.1 hx
    have := lt_of_le_of_lt (hr i).1 h
    norm_num at this
  · obtain ⟨i, -, rfl⟩ := List.mem_map.1 hx
    have := lt_of_lt_of_le h (hr i).2
    norm_num at this

theorem dot_neg (d o : List ℝ) : dot (d.map (-1 * ·)) o = -dot d o := by
  induction d generalizing o with
  | nil => simp [dot]
  | cons x d ih =>
    cases o with
    | nil => simp [dot]
    | cons y o => rw [List.map_cons, dot_cons, dot_cons, ih]; ring

theorem expect_tilted (n : ℕ) (X : Data) (d : List ℝ) (i : ℕ) :
    expect X (fun s => dot d ((tuples n 1 ++ tuples n 2 ++ tuples n 3).map (mono (spins s))))
      (fun s => ((tuples n 1 ++ tuples n 2 ++ tuples n 3).map (mono (spins s))).getD i 0) =
      tiltedMean (tripletRows n X) (d.map (-1 * ·)) i := by
  rw [expect_eq_div]
  unfold partition tiltedMean tripletRows
  simp only [dot_neg, List.map_map]
  rfl

/-- C118. The `mch_approximation` of the guide for triplet interactions predicts the means for the opposite of the change
that is given to it: it gives the state with observables `o` the weight `exp(-d . o)`, for every sample of spins. -/
theorem C118_opposite (n : ℕ) (X : Data) (hX : X ≠ []) (hw : ∀ s ∈ X, s ∈ words [1, -1] n) (d : List ℝ)
    (hd : d.length = paramCount .triplet n) :
    ∃ r, guideApprox n X d = .ok r ∧ r.length = paramCount .triplet n ∧
      ∀ i < paramCount .triplet n, r.getD i 0 = tiltedMean (X.map fun s =>
        (tuples n 1 ++ tuples n 2 ++ tuples n 3).map (mono (spins s))) (d.map (-1 * ·)) i := by
  have hN := tripletCount n
  rw [hN] at hd ⊢
  refine ⟨_, guideApprox_eq n X hX hw d hd, by simp, fun i hi => ?_⟩
  rw [List.getD_eq_getElem _ _ (by simpa using hi), List.getElem_map, List.getElem_range]
  exact expect_tilted n X d i

theorem dot_sub (a b o : List ℝ) (h : a.length = b.length) : dot (List.zipWith (· - ·) a b) o = dot a o - dot b o := by
  induction a generalizing b o with
  | nil =>
    have := List.length_eq_zero_iff.1 h.symm
    subst this
    simp [dot]
  | cons x a ih =>
    cases b with
    | nil => simp at h
    | cons y b =>
      cases o with
      | nil => simp [dot]
      | cons z o =>
        rw [List.zipWith_cons_cons, dot_cons, dot_cons, dot_cons, ih b o (by simpa using h)]
        ring

theorem modelEnergy_triplet (n : ℕ) (theta : List ℝ) (ht : theta.length = paramCount .triplet n) (s : List ℤ)
    (hs : s.length = n) :
    modelEnergy .triplet n theta s = -dot theta ((tuples n 1 ++ tuples n 2 ++ tuples n 3).map (mono (spins s))) := by
  have h := kindCalcERow_eq .triplet n theta ht s hs
  have h2 : kindCalcERow .triplet theta s = .ok (-dot theta ((tuples n 1 ++ tuples n 2 ++ tuples n 3).map (mono (spins s)))) := by
    unfold kindCalcERow tripletCalcERow
    dsimp only
    rw [tripletObservables_eq, hs]
    simp only [Bind.bind, Except.bind]
    rw [npDot_eq _ _ (by rw [tripletObs_length, ht, tripletCount]), dot_comm]
    rfl
  rw [h2] at h
  injection h with h
  exact h.symm

/-- C118. If the sample has the exact frequencies of the triplet model with parameters `theta`, the prediction for the change
`d` consists of the exact means of the model with parameters `theta - d`. -/
theorem C118_exact (n : ℕ) (X : Data) (hX : X ≠ []) (hw : ∀ s ∈ X, s ∈ words [1, -1] n) (theta d : List ℝ)
    (ht : theta.length = paramCount .triplet n) (hd : d.length = paramCount .triplet n)
    (hfreq : ∀ s ∈ words [1, -1] n, (X.count s : ℝ) / X.length =
      boltzmann (words [1, -1] n) (modelEnergy .triplet n theta) s) :
    ∃ r, guideApprox n X d = .ok r ∧ r.length = paramCount .triplet n ∧
      ∀ i < paramCount .triplet n, r.getD i 0 =
        expect (words [1, -1] n) (modelEnergy .triplet n (List.zipWith (· - ·) theta d))
          fun s => ((tuples n 1 ++ tuples n 2 ++ tuples n 3).map (mono (spins s))).getD i 0 := by
  have hN := tripletCount n
  refine ⟨_, guideApprox_eq n X hX hw d (by rw [← hN]; exact hd), by simp [hN], fun i hi => ?_⟩
  rw [hN] at hi
  rw [List.getD_eq_getElem _ _ (by simpa using hi), List.getElem_map, List.getElem_range,
    reweight (words [1, -1] n) X (nodup_words (by decide) n) hw hX (modelEnergy .triplet n theta) _ _ hfreq]
  refine expect_congr _ _ _ _ _ (fun s hs => ?_) fun _ _ => rfl
  have hl := (mem_words.1 hs).1
  rw [modelEnergy_triplet n theta ht s hl, modelEnergy_triplet n _ (by simp [ht, hd]) s hl, dot_sub _ _ _ (by rw [ht, hd])]
  ring

/-! ### what follows for the learning step -/

/-- C118. The steps of `learn_parameters_mch` with the function of the guide: the predicted error never falls, whatever `eta`
is, and rises strictly as long as the error, seen as a direction, tells two of the sampled states apart. -/
theorem C118_never_falls (n : ℕ) (X : Data) (hX : X ≠ []) (hw : ∀ s ∈ X, s ∈ words [1, -1] n) (est c : List ℝ)
    (hest : ∀ i < paramCount .triplet n, est.getD i 0 =
      avg X fun s => ((tuples n 1 ++ tuples n 2 ++ tuples n 3).map (mono (spins s))).getD i 0)
    (g : List ℝ → List ℝ) (hg : ∀ d, d.length = paramCount .triplet n → guideApprox n X d = .ok (g d)) (eta : ℝ)
    (d e : ℕ → List ℝ) (w : ℕ → ℝ) (hp : LearnPath g (paramCount .triplet n) est c eta d e w) :
    (0 ≤ eta → ∀ t, euclidDist (paramCount .triplet n) (e t) c ≤ euclidDist (paramCount .triplet n) (e (t + 1)) c) ∧
    (0 < eta → ∀ t, (∃ s₁ ∈ X, ∃ s₂ ∈ X, ∑ i ∈ Finset.range (paramCount .triplet n), ((e t).getD i 0 - c.getD i 0) *
        ((tuples n 1 ++ tuples n 2 ++ tuples n 3).map (mono (spins s₁))).getD i 0 ≠
      ∑ i ∈ Finset.range (paramCount .triplet n), ((e t).getD i 0 - c.getD i 0) *
        ((tuples n 1 ++ tuples n 2 ++ tuples n 3).map (mono (spins s₂))).getD i 0) →
      euclidDist (paramCount .triplet n) (e t) c < euclidDist (paramCount .triplet n) (e (t + 1)) c) := by
  have hO : tripletRows n X ≠ [] := by simpa [tripletRows] using hX
  have hl : ∀ o ∈ tripletRows n X, o.length = paramCount .triplet n := by
    intro o ho
    obtain ⟨s, -, rfl⟩ := List.mem_map.1 ho
    rw [tripletObs_length, tripletCount]
  have hg' : ∀ d : List ℝ, d.length = paramCount .triplet n → ∀ i < paramCount .triplet n,
      (g d).getD i 0 = tiltedMean (tripletRows n X) (d.map (-1 * ·)) i := by
    intro d hd i hi
    obtain ⟨r, h1, -, h3⟩ := C118_opposite n X hX hw d hd
    rw [hg d hd] at h1
    injection h1 with h1
    rw [h1]
    exact h3 i hi
  have hest' : ∀ i < paramCount .triplet n,
      est.getD i 0 = tiltedMean (tripletRows n X) (List.replicate (paramCount .triplet n) 0) i := by
    intro i hi
    rw [hest i hi]
    unfold tiltedMean avg tripletRows
    simp only [dot_zeros, List.map_map]
    simp [Function.comp_def]
  refine ⟨fun h0 t => learn_monotone hO hl hg' hest' hp h0 (Nat.le_succ t), fun h0 t => ?_⟩
  rintro ⟨s₁, h1, s₂, h2, hne⟩
  exact learn_rises hO hl hg' hest' hp h0 t _ _ (List.mem_map.2 ⟨s₁, h1, rfl⟩) (List.mem_map.2 ⟨s₂, h2, rfl⟩) hne

/-- C118. The same of the whole step: what `learn_parameters_mch` leaves in the parameters is predicted to be at least as far
from the constraints as the sample is. -/
theorem C118_step (n : ℕ) (X : Data) (hX : X ≠ []) (hw : ∀ s ∈ X, s ∈ words [1, -1] n) (est c mult : List ℝ)
    (hel : est.length = paramCount .triplet n) (hest : ∀ i < paramCount .triplet n, est.getD i 0 =
      avg X fun s => ((tuples n 1 ++ tuples n 2 ++ tuples n 3).map (mono (spins s))).getD i 0)
    (hc : c.length = paramCount .triplet n) (hm : mult.length = paramCount .triplet n) (a : LearnArgs) (heta : 0 ≤ a.eta) :
    ∃ r pred, learnMch (guideApprox n X) (fun d => .ok d) est c a mult = .ok r ∧ r.length = paramCount .triplet n ∧
      guideApprox n X (List.zipWith (· - ·) r mult) = .ok pred ∧
      euclidDist (paramCount .triplet n) est c ≤ euclidDist (paramCount .triplet n) pred c := by
  have hex : ∀ d : List ℝ, ∃ r, d.length = paramCount .triplet n → guideApprox n X d = .ok r ∧
      r.length = paramCount .triplet n := by
    intro d
    by_cases hd : d.length = paramCount .triplet n
    · obtain ⟨r, h1, h2, -⟩ := C118_opposite n X hX hw d hd
      exact ⟨r, fun _ => ⟨h1, h2⟩⟩
    · exact ⟨[], fun h => absurd h hd⟩
  choose g hg using hex
  obtain ⟨d, e, w, hp, -⟩ := C43_path g (paramCount .triplet n) est c a.eta
  obtain ⟨T, hT, -, -, -, r, hr, hrl, hri⟩ := C43_learn (guideApprox n X) g _ hg est c mult a hc hel hm d e w hp
  have hsub : List.zipWith (· - ·) r mult = d T := by
    apply List.ext_getElem
    · rw [List.length_zipWith, hrl, hm, hp.len, min_self]
    · intro i a1 a2
      have hi : i < paramCount .triplet n := by rw [hp.len] at a2; exact a2
      have := hri i hi
      rw [List.getD_eq_getElem _ _ (by rw [hrl]; exact hi), List.getD_eq_getElem _ _ (by rw [hm]; exact hi),
        List.getD_eq_getElem _ _ a2] at this
      rw [List.getElem_zipWith, this]
      ring
  refine ⟨r, g (d T), hr, hrl, by rw [hsub]; exact (hg _ (hp.len T)).1, ?_⟩
  have hmono : Monotone fun t => euclidDist (paramCount .triplet n) (e t) c := monotone_nat_of_le_succ
    ((C118_never_falls n X hX hw est c hest g (fun d hd => (hg d hd).1) a.eta d e w hp).1 heta)
  obtain ⟨t, rfl⟩ : ∃ t, T = t + 1 := ⟨T - 1, by omega⟩
  have := hmono (Nat.zero_le (t + 1))
  dsimp only at this
  rwa [hp.start_e, hp.pred] at this

/-- C118. The two signs differ: with three spins that agree, a positive change of the first field lowers the mean that the
function of the guide predicts and raises the mean of the reweighted sample. -/
theorem C118_witness (x : ℝ) (hx : 0 < x) :
    ∃ r, guideApprox 3 [[1, 1, 1], [-1, -1, -1]] [x, 0, 0, 0, 0, 0, 0] = .ok r ∧ r.getD 0 0 < 0 ∧
      0 < tiltedMean [[1, 1, 1, 1, 1, 1, 1], [-1, -1, -1, 1, 1, 1, -1]] [x, 0, 0, 0, 0, 0, 0] 0 := by
  obtain ⟨r, h1, h2, h3⟩ := C118_opposite 3 [[1, 1, 1], [-1, -1, -1]] (by simp) (by decide) [x, 0, 0, 0, 0, 0, 0] rfl
  have ht : tuples 3 1 ++ tuples 3 2 ++ tuples 3 3 = [[0], [1], [2], [0, 1], [0, 2], [1, 2], [0, 1, 2]] := by decide
  have hlt : Real.exp (-x) < Real.exp x := Real.exp_lt_exp.2 (by linarith)
  have hp := Real.exp_pos x
  have hp' := Real.exp_pos (-x)
  refine ⟨r, h1, ?_, ?_⟩
  · rw [h3 0 (by decide), ht]
    simp only [tiltedMean, mono, spins, dot, List.map_cons, List.map_nil, List.prod_cons, List.prod_nil, List.zipWith_cons_cons,
      List.zipWith_nil_left, List.sum_cons, List.sum_nil, List.getD_cons_zero, List.getD_cons_succ]
    norm_num
    apply div_neg_of_neg_of_pos <;> linarith
  · simp only [tiltedMean, dot, List.map_cons, List.map_nil, List.zipWith_cons_cons, List.zipWith_nil_left, List.sum_cons,
      List.sum_nil, List.getD_cons_zero]
    norm_num
    apply div_pos <;> linarith

/-- Non-vacuity of C118: the object made from two rows of data and the arguments of the guide. -/
example (mc : Machine) : ∃ (m : MchObj) (a : MchArgs) (c : List ℝ), MchReached mc 2 m ∧ 1 ≤ m.model.sampleSize ∧
    a.custom = some (guideSettings 1) ∧ a.constraints.or m.constraints = some c ∧ c.length = paramCount .ising 2 ∧
    (∀ x ∈ c, |x| ≤ 1) ∧ ∀ x, a.guess = some x → x.length = paramCount .ising 2 := by
  obtain ⟨m, c, h1, h2, h3, h4, h5, -⟩ := C105_usual_fits mc 2 [[1, 1], [1, -1]] (by simp) (by decide) 100 (by norm_num) true 0
  exact ⟨m, ⟨none, none, none, none, 30, 30, 40, ⟨none, none, none, none⟩, some (guideSettings 1)⟩, c, h2, by omega, rfl, h4,
    h5.length, h5.range, fun x hx => by cases hx⟩

end Verif.Props
