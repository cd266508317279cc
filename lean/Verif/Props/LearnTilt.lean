/-
C117: what the learning step of the Monte Carlo histogram solvers achieves on its sample.
-/
import Verif.Lemmas.LearnTilt
import Verif.Lemmas.MchProg
import Verif.Lemmas.Mch
import Verif.Lemmas.PottsHelpers
import Verif.Props.MchSolve
import Verif.Props.Neighbors

namespace Verif.Props
open Verif Verif.Model Verif.Spec Verif.Lemmas Filter

/-! ### the Ising helpers -/

/-- The observables of the states of a sample: spins and products of pairs. -/
def isingRows (n : ℕ) (X : Data) : List (List ℝ) := X.map fun s => pairObs n (spins s)

theorem isingRows_length {n : ℕ} {X : Data} : ∀ o ∈ isingRows n X, o.length = n + n * (n - 1) / 2 := by
  intro o ho
  obtain ⟨s, -, rfl⟩ := List.mem_map.1 ho
  simp [pairObs, length_upperPairs]

theorem isingRows_sq {n : ℕ} {X : Data} (hw : ∀ s ∈ X, s ∈ words [1, -1] n) : ∀ o ∈ isingRows n X,
    ∑ i ∈ Finset.range (n + n * (n - 1) / 2), o.getD i 0 ^ 2 ≤ (n + n * (n - 1) / 2 : ℕ) := by
  intro o ho
  obtain ⟨s, hs, rfl⟩ := List.mem_map.1 ho
  refine (Finset.sum_le_sum (g := fun _ => (1 : ℝ)) fun i _ => ?_).trans (by simp)
  exact (sq_le_one_iff_abs_le_one _).2 (abs_pairObs_le (hw s hs) i)

/-- The approximation is the reweighted mean. -/
theorem approx_tilted {o : ModelObj} {X : Data} (hX : X ≠ []) (hs : o.sample = some X)
    (hw : ∀ s ∈ X, s ∈ words [1, -1] o.n) (d : List ℝ) (hd : d.length = o.n + o.n * (o.n - 1) / 2) :
    ∃ r, mchApprox o d = .ok r ∧ r.length = o.n + o.n * (o.n - 1) / 2 ∧
      ∀ i < o.n + o.n * (o.n - 1) / 2, r.getD i 0 = tiltedMean (isingRows o.n X) d i := by
  obtain ⟨r, h1, h2, h3⟩ := C23_reweighted_mean o.n X hX (fun s h => word_entry (hw s h))
    (fun s h => (mem_words.1 (hw s h)).1) (d.take o.n) (d.drop o.n) (by rw [List.length_take]; omega)
    (by rw [List.length_drop]; omega)
  rw [List.take_append_drop] at h1 h3
  refine ⟨r.map fun v => v.getD 0, ?_, by simp [h2], fun i hi => ?_⟩
  · unfold mchApprox
    rw [hs, Option.getD_some, h1]
  · have := h3 i (by omega)
    rw [List.getD_eq_getElem _ _ (by omega)] at this
    rw [List.getD_eq_getElem _ _ (by simp; omega), List.getElem_map, this, Option.getD_some]
    unfold tiltedMean isingRows
    rw [List.map_map, List.map_map]
    rfl

theorem dot_zeros (N : ℕ) (o : List ℝ) : dot (List.replicate N 0) o = 0 := by
  unfold dot
  apply List.sum_eq_zero
  intro z hz
  obtain ⟨i, hi, rfl⟩ := List.getElem_of_mem hz
  rw [List.getElem_zipWith, List.getElem_replicate, zero_mul]

theorem obs_tilted {o : ModelObj} {X : Data} (hX : X ≠ []) (hs : o.sample = some X)
    (hw : ∀ s ∈ X, s ∈ words [1, -1] o.n) :
    ∃ est, mchObs o = .ok est ∧ est.length = o.n + o.n * (o.n - 1) / 2 ∧ ∀ i < o.n + o.n * (o.n - 1) / 2,
      est.getD i 0 = tiltedMean (isingRows o.n X) (List.replicate (o.n + o.n * (o.n - 1) / 2) 0) i := by
  obtain ⟨c, h1, h2, h3⟩ := obs_avg o.n X hX (fun s hs => (mem_words.1 (hw s hs)).1) fun s hs => word_entry (hw s hs)
  refine ⟨c, by unfold mchObs; rw [hs]; exact h1, h2, fun i hi => ?_⟩
  rw [h3 i hi]
  unfold tiltedMean isingRows avg
  simp only [dot_zeros, Real.exp_zero, one_mul, List.map_map]
  simp [Function.comp_def]

/-- C117. The steps of `learn_parameters_mch` with the Ising helpers: `d t` is the change of the parameters after `t` steps,
`e t` the prediction for it. Let `N` be the number of parameters. If `eta` is at most `2/N`, the predicted error never rises.
If it is smaller, it goes to zero exactly if the constraints are a mixture of the observables of the sampled states, and then
not slower than `T^(-1/3)`. -/
theorem C117_ising (o : ModelObj) (X : Data) (hX : X ≠ []) (hs : o.sample = some X) (hw : ∀ s ∈ X, s ∈ words [1, -1] o.n)
    (est c : List ℝ) (hest : mchObs o = .ok est) (g : List ℝ → List ℝ)
    (hg : ∀ d, d.length = paramCount .ising o.n → mchApprox o d = .ok (g d)) (eta : ℝ) (d e : ℕ → List ℝ) (w : ℕ → ℝ)
    (hp : LearnPath g (paramCount .ising o.n) est c eta d e w) :
    (0 ≤ eta → eta * paramCount .ising o.n ≤ 2 →
      ∀ t, euclidDist (paramCount .ising o.n) (e (t + 1)) c ≤ euclidDist (paramCount .ising o.n) (e t) c) ∧
    (0 < eta → eta * paramCount .ising o.n < 2 →
      (Tendsto (fun t => euclidDist (paramCount .ising o.n) (e t) c) atTop (nhds 0) ↔
        Mixture (X.map fun s => pairObs o.n (spins s)) (paramCount .ising o.n) c)) ∧
    (0 < eta → eta * paramCount .ising o.n < 2 → Mixture (X.map fun s => pairObs o.n (spins s)) (paramCount .ising o.n) c →
      ∀ T : ℕ, T * (eta * (1 - eta * paramCount .ising o.n / 2) * min 1 (euclidDist (paramCount .ising o.n) (e T) c) *
        euclidDist (paramCount .ising o.n) (e T) c ^ 2) ≤ Real.log X.length) := by
  have hO : isingRows o.n X ≠ [] := by simpa [isingRows] using hX
  have hg' : ∀ d : List ℝ, d.length = o.n + o.n * (o.n - 1) / 2 → ∀ i < o.n + o.n * (o.n - 1) / 2,
      (g d).getD i 0 = tiltedMean (isingRows o.n X) d i := by
    intro d hd i hi
    obtain ⟨r, h1, -, h3⟩ := approx_tilted hX hs hw d hd
    have := hg d hd
    rw [h1] at this
    injection this with this
    rw [← this, h3 i hi]
  have hest' : ∀ i < o.n + o.n * (o.n - 1) / 2,
      est.getD i 0 = tiltedMean (isingRows o.n X) (List.replicate (o.n + o.n * (o.n - 1) / 2) 0) i := by
    obtain ⟨r, h1, -, h3⟩ := obs_tilted hX hs hw
    rw [hest] at h1
    injection h1 with h1
    rw [h1]
    exact h3
  refine ⟨fun h0 h2 t => ?_, fun h0 h2 => ?_, fun h0 h2 hmix T => ?_⟩
  · exact learn_antitone hO isingRows_length hg' hest' hp (isingRows_sq hw) h0 h2 (Nat.le_succ t)
  · exact learn_tendsto hO isingRows_length hg' hest' hp (isingRows_sq hw) h0 h2
  · have := learn_rate hO isingRows_length hg' hest' hp (isingRows_sq hw) h0.le h2.le hmix T
    refine le_trans (le_of_eq ?_) (this.trans (le_of_eq (by simp [isingRows])))
    have : (paramCount .ising o.n : ℕ) = o.n + o.n * (o.n - 1) / 2 := rfl
    rw [this]
    ring

/-- C117. The same of the whole step: what `learn_parameters_mch` leaves in the parameters is predicted, by its own
approximation, to be at least as close to the constraints as the sample is, if `eta` is at most `2/N`. -/
theorem C117_step (o : ModelObj) (X : Data) (hX : X ≠ []) (hs : o.sample = some X) (hw : ∀ s ∈ X, s ∈ words [1, -1] o.n)
    (c mult : List ℝ) (hc : c.length = paramCount .ising o.n) (hm : mult.length = paramCount .ising o.n) (a : LearnArgs)
    (heta : 0 ≤ a.eta) (hetaN : a.eta * paramCount .ising o.n ≤ 2) :
    ∃ est r pred, mchObs o = .ok est ∧ learnMch (mchApprox o) (fun d => .ok d) est c a mult = .ok r ∧
      r.length = paramCount .ising o.n ∧ mchApprox o (List.zipWith (· - ·) r mult) = .ok pred ∧
      euclidDist (paramCount .ising o.n) pred c ≤ euclidDist (paramCount .ising o.n) est c := by
  obtain ⟨est, h1, h2, -⟩ := obs_tilted hX hs hw
  have hex : ∀ d : List ℝ, ∃ r, d.length = o.n + o.n * (o.n - 1) / 2 → mchApprox o d = .ok r ∧
      r.length = o.n + o.n * (o.n - 1) / 2 := by
    intro d
    by_cases hd : d.length = o.n + o.n * (o.n - 1) / 2
    · obtain ⟨r, h1, h2, -⟩ := approx_tilted hX hs hw d hd
      exact ⟨r, fun _ => ⟨h1, h2⟩⟩
    · exact ⟨[], fun h => absurd h hd⟩
  choose g hg using hex
  obtain ⟨d, e, w, hp, -⟩ := C43_path g (paramCount .ising o.n) est c a.eta
  obtain ⟨T, hT1, -, -, -, r, hr, hrl, hri⟩ := C43_learn (mchApprox o) g (paramCount .ising o.n) hg est c mult a hc h2 hm d e w hp
  have hsub : List.zipWith (· - ·) r mult = d T := by
    apply List.ext_getElem
    · rw [List.length_zipWith, hrl, hm, hp.len]
      exact min_self _
    · intro i a1 a2
      have hi : i < paramCount .ising o.n := by rw [hp.len] at a2; exact a2
      have := hri i hi
      rw [List.getD_eq_getElem _ _ (by rw [hrl]; exact hi), List.getD_eq_getElem _ _ (by rw [hm]; exact hi),
        List.getD_eq_getElem _ _ a2] at this
      rw [List.getElem_zipWith, this]
      ring
  refine ⟨est, r, g (d T), h1, hr, hrl, by rw [hsub]; exact (hg _ (hp.len T)).1, ?_⟩
  have hstep := (C117_ising o X hX hs hw est c h1 g (fun d hd => (hg d hd).1) a.eta d e w hp).1 heta hetaN
  have hanti : Antitone fun t => euclidDist (paramCount .ising o.n) (e t) c := antitone_nat_of_succ_le hstep
  obtain ⟨t, rfl⟩ : ∃ t, T = t + 1 := ⟨T - 1, by omega⟩
  have := hanti (Nat.zero_le (t + 1))
  dsimp only at this
  rwa [hp.start_e, hp.pred] at this

/-! ### the Potts helpers -/

theorem potts_sq (n k : ℕ) (s : ℕ → ℤ) :
    ∑ i ∈ Finset.range (k * n + n * (n - 1) / 2), (pottsObs n k s : List ℝ).getD i 0 ^ 2 ≤ (n + n * (n - 1) / 2 : ℕ) := by
  have h01 : ∀ v ∈ (pottsObs n k s : List ℝ), v ^ 2 = v := by
    intro v hv
    unfold pottsObs at hv
    rcases List.mem_append.1 hv with h | h
    · obtain ⟨a, -, h⟩ := List.mem_flatMap.1 h
      obtain ⟨i, -, rfl⟩ := List.mem_map.1 h
      split <;> norm_num
    · obtain ⟨p, -, rfl⟩ := List.mem_map.1 h
      split <;> norm_num
  have h1 : ∑ i ∈ Finset.range (k * n + n * (n - 1) / 2), (pottsObs n k s : List ℝ).getD i 0 ^ 2 =
      (pottsObs n k s : List ℝ).sum := by
    have hl := length_pottsObs (K := ℝ) n k s
    rw [← hl, Finset.sum_range, ← List.sum_ofFn]
    congr 1
    apply List.ext_getElem
    · simp
    · intro i a b
      rw [List.getElem_ofFn, List.getD_eq_getElem _ _ b]
      exact h01 _ (List.getElem_mem b)
  rw [h1]
  unfold pottsObs
  rw [List.sum_append]
  have h2 : (((List.range k).flatMap fun a : ℕ => (List.range n).map fun i => if s i = (a : ℤ) then (1 : ℝ) else 0)).sum ≤ n := by
    have e1 : (((List.range k).flatMap fun a : ℕ => (List.range n).map fun i => if s i = (a : ℤ) then (1 : ℝ) else 0)).sum =
        ∑ a ∈ Finset.range k, ∑ i ∈ Finset.range n, if s i = (a : ℤ) then (1 : ℝ) else 0 := by
      rw [List.flatMap_def, List.sum_flatten, List.map_map]
      rw [← sum_map_range]
      refine congrArg List.sum (List.map_congr_left fun a _ => ?_)
      rw [← sum_map_range]
      rfl
    rw [e1, Finset.sum_comm]
    refine (Finset.sum_le_sum (g := fun _ => (1 : ℝ)) fun i _ => ?_).trans (by simp)
    by_cases h : ∃ a ∈ Finset.range k, s i = (a : ℤ)
    · obtain ⟨a, ha, hs⟩ := h
      rw [Finset.sum_eq_single a (fun b _ hb => if_neg fun hb' => hb (by exact_mod_cast hb'.symm.trans hs))
        (fun h => absurd ha h), if_pos hs]
    · rw [Finset.sum_eq_zero fun a ha => if_neg fun hs => h ⟨a, ha, hs⟩]
      exact zero_le_one
  have h3 : ((upperPairs n).map fun p => if s p.1 = s p.2 then (1 : ℝ) else 0).sum ≤ ((n * (n - 1) / 2 : ℕ) : ℝ) := by
    have := List.sum_le_card_nsmul ((upperPairs n).map fun p => if s p.1 = s p.2 then (1 : ℝ) else 0) 1 (by
      intro x hx
      obtain ⟨p, -, rfl⟩ := List.mem_map.1 hx
      split <;> norm_num)
    simpa [length_upperPairs] using this
  push_cast
  linarith

/-- C117. The steps of `learn_parameters_mch` with the helpers of the Potts model with `k` values: `rows` are the observables
of the sampled states, `est` their means. The limit for `eta` is `2/(n + n(n-1)/2)`, whatever `k` is. -/
theorem C117_potts (k n : ℕ) (X : Data) (hX : X ≠ []) (hlen : ∀ s ∈ X, s.length = n) (rows : List (List ℝ))
    (hrows : (X.mapM fun s => pottsObservables (K := ℝ) k s) = .ok rows) (est c : List ℝ)
    (hest : ∀ i < (k * n + n * (n - 1) / 2), est.getD i 0 = avg rows fun o => o.getD i 0)
    (g : List ℝ → List ℝ) (hg : ∀ d, d.length = (k * n + n * (n - 1) / 2) → mchPotts k n X d = .ok (g d)) (eta : ℝ)
    (d e : ℕ → List ℝ) (w : ℕ → ℝ) (hp : LearnPath g ((k * n + n * (n - 1) / 2)) est c eta d e w) :
    (0 ≤ eta → eta * (n + n * (n - 1) / 2 : ℕ) ≤ 2 →
      ∀ t, euclidDist ((k * n + n * (n - 1) / 2)) (e (t + 1)) c ≤ euclidDist ((k * n + n * (n - 1) / 2)) (e t) c) ∧
    (0 < eta → eta * (n + n * (n - 1) / 2 : ℕ) < 2 →
      (Tendsto (fun t => euclidDist ((k * n + n * (n - 1) / 2)) (e t) c) atTop (nhds 0) ↔
        Mixture rows ((k * n + n * (n - 1) / 2)) c)) := by
  have hr : rows = X.map fun s => pottsObs n k fun i => s.getD i 0 := by
    have h2 : (X.mapM fun s => pottsObservables (K := ℝ) k s) =
        .ok (X.map fun s => pottsObs n k fun i => s.getD i 0) := by
      apply mapM_ok'
      intro s hs
      rw [pottsObservables_eq, hlen s hs]
    rw [h2] at hrows
    injection hrows with hrows
    exact hrows.symm
  have hO : rows ≠ [] := by rw [hr]; simpa using hX
  have hl : ∀ o ∈ rows, o.length = k * n + n * (n - 1) / 2 := by
    intro o ho
    rw [hr] at ho
    obtain ⟨s, -, rfl⟩ := List.mem_map.1 ho
    exact length_pottsObs n k _
  have hsq : ∀ o ∈ rows, ∑ i ∈ Finset.range (k * n + n * (n - 1) / 2), o.getD i 0 ^ 2 ≤ (n + n * (n - 1) / 2 : ℕ) := by
    intro o ho
    rw [hr] at ho
    obtain ⟨s, -, rfl⟩ := List.mem_map.1 ho
    exact potts_sq n k _
  have hg' : ∀ d : List ℝ, d.length = k * n + n * (n - 1) / 2 → ∀ i < k * n + n * (n - 1) / 2,
      (g d).getD i 0 = tiltedMean rows d i := by
    intro d hd i hi
    have h1 := mchPotts_eq k n X hX hlen (d.take (k * n)) (d.drop (k * n)) (by rw [List.length_take]; omega)
      (by rw [List.length_drop]; omega)
    rw [List.take_append_drop, hg d hd] at h1
    injection h1 with h1
    rw [h1, List.getD_eq_getElem _ _ (by simp; rw [Nat.mul_comm n k]; exact hi), List.getElem_map, List.getElem_range,
      expect_eq_div, hr]
    unfold tiltedMean partition
    simp only [← dot_pottsObs n k (d.take (k * n)) (d.drop (k * n)) (by rw [List.length_take]; omega)
      (by rw [List.length_drop]; omega), List.take_append_drop, neg_neg, List.map_map]
    rfl
  have hest' : ∀ i < k * n + n * (n - 1) / 2,
      est.getD i 0 = tiltedMean rows (List.replicate (k * n + n * (n - 1) / 2) 0) i := by
    intro i hi
    rw [hest i hi]
    unfold tiltedMean avg
    simp [dot_zeros]
  exact ⟨fun h0 h2 t => learn_antitone hO hl hg' hest' hp hsq h0 h2 (Nat.le_succ t),
    fun h0 h2 => learn_tendsto hO hl hg' hest' hp hsq h0 h2⟩

/-! ### larger factors -/

/-- C117. The limit on `eta` is needed: three spins that always agree, `eta = 1` (the default) and `maxdlamda = 0.05`. The
constraints ask for means 0.1; the step takes the prediction to more than 0.2. -/
theorem C117_overshoots (o : ModelObj) (hn : o.n = 3) (hs : o.sample = some [[1, 1, 1], [-1, -1, -1]]) (mult : List ℝ)
    (hm : mult.length = 6) :
    ∃ est r pred, mchObs o = .ok est ∧
      learnMch (mchApprox o) (fun d => .ok d) est [1 / 10, 1 / 10, 1 / 10, 1, 1, 1] ⟨1 / 20, 1, 50, 1⟩ mult = .ok r ∧
      mchApprox o (List.zipWith (· - ·) r mult) = .ok pred ∧ euclidDist 6 est [1 / 10, 1 / 10, 1 / 10, 1, 1, 1] <
        euclidDist 6 pred [1 / 10, 1 / 10, 1 / 10, 1, 1, 1] := by
  have hX : ([[1, 1, 1], [-1, -1, -1]] : Data) ≠ [] := by simp
  have hw : ∀ s ∈ ([[1, 1, 1], [-1, -1, -1]] : Data), s ∈ words [1, -1] o.n := by rw [hn]; decide
  have hrows : isingRows 3 [[1, 1, 1], [-1, -1, -1]] = [[1, 1, 1, 1, 1, 1], [-1, -1, -1, 1, 1, 1]] := by
    have : upperPairs 3 = [(0, 1), (0, 2), (1, 2)] := by decide
    simp [isingRows, pairObs, this, spins, List.range_succ]
  obtain ⟨est, h1, h2, h3⟩ := obs_tilted hX hs hw
  have hex : ∀ d : List ℝ, ∃ r, d.length = 6 → mchApprox o d = .ok r ∧ r.length = 6 ∧
      ∀ i < 6, r.getD i 0 = tiltedMean [[1, 1, 1, 1, 1, 1], [-1, -1, -1, 1, 1, 1]] d i := by
    intro d
    by_cases hd : d.length = 6
    · obtain ⟨r, h1, h2, h3⟩ := approx_tilted hX hs hw d (by rw [hn]; exact hd)
      rw [hn] at h2 h3
      rw [hrows] at h3
      exact ⟨r, fun _ => ⟨h1, h2, h3⟩⟩
    · exact ⟨[], fun h => absurd h hd⟩
  rw [hn] at h2 h3
  rw [hrows] at h3
  choose g hg using hex
  obtain ⟨d, e, w, hp, -⟩ := C43_path g 6 est [1 / 10, 1 / 10, 1 / 10, 1, 1, 1] 1
  obtain ⟨T, hT1, -, -, hmin, r, hr, hrl, hri⟩ := C43_learn (mchApprox o) g 6 (fun d hd => ⟨(hg d hd).1, (hg d hd).2.1⟩) est
    [1 / 10, 1 / 10, 1 / 10, 1, 1, 1] mult ⟨1 / 20, 1, 50, 1⟩ rfl h2 hm d e w hp
  have he0 : ∀ i < 6, est.getD i 0 = if i < 3 then 0 else 1 := by
    intro i hi
    rw [h3 i hi]
    unfold tiltedMean
    simp only [dot_zeros]
    interval_cases i <;> norm_num
  have hd1 : ∀ i < 6, (d 1).getD i 0 = if i < 3 then 1 / 10 else 0 := by
    intro i hi
    rw [hp.step 0 i hi, hp.start_d, hp.start_e, hp.start_w, he0 i hi]
    interval_cases i <;> norm_num
  have hT : T = 1 := by
    by_contra hne
    refine hmin 1 le_rfl (by omega) (Or.inr (Or.inl ⟨0, by norm_num, ?_⟩))
    rw [hd1 0 (by norm_num)]
    norm_num
  subst hT
  have hsub : List.zipWith (· - ·) r mult = d 1 := by
    apply List.ext_getElem
    · rw [List.length_zipWith, hrl, hm, hp.len]
      exact min_self _
    · intro i a1 a2
      have hi : i < 6 := by rw [hp.len] at a2; exact a2
      have := hri i hi
      rw [List.getD_eq_getElem _ _ (by rw [hrl]; exact hi), List.getD_eq_getElem _ _ (by rw [hm]; exact hi),
        List.getD_eq_getElem _ _ a2] at this
      rw [List.getElem_zipWith, this]
      ring
  refine ⟨est, r, g (d 1), h1, hr, by rw [hsub]; exact (hg _ (hp.len 1)).1, ?_⟩
  have hdl : d 1 = [1 / 10, 1 / 10, 1 / 10, 0, 0, 0] := by
    apply List.ext_getElem
    · rw [hp.len]; rfl
    · intro i a1 a2
      have hi : i < 6 := by rw [hp.len] at a1; exact a1
      rw [← List.getD_eq_getElem _ 0 a1, hd1 i hi]
      interval_cases i <;> norm_num
  obtain ⟨x, hx⟩ : ∃ x, x = Real.exp (3 / 10) := ⟨_, rfl⟩
  have hx1 : 1.3 ≤ x := by
    have := Real.add_one_le_exp (3 / 10)
    rw [hx]
    linarith
  have hpred : ∀ i < 6, (g (d 1)).getD i 0 = if i < 3 then (x - x⁻¹) / (x + x⁻¹) else 1 := by
    intro i hi
    rw [(hg _ (hp.len 1)).2.2 i hi, hdl]
    have e1 : dot [1 / 10, 1 / 10, 1 / 10, 0, 0, 0] [(1 : ℝ), 1, 1, 1, 1, 1] = 3 / 10 := by norm_num [dot]
    have e2 : dot [1 / 10, 1 / 10, 1 / 10, 0, 0, 0] [(-1 : ℝ), -1, -1, 1, 1, 1] = -(3 / 10) := by norm_num [dot]
    unfold tiltedMean
    simp only [List.map_cons, List.map_nil, e1, e2, Real.exp_neg, ← hx, List.sum_cons, List.sum_nil, add_zero]
    have hpos : x + x⁻¹ ≠ 0 := by positivity
    interval_cases i <;> simp [hpos, sub_eq_add_neg]
  have hθ : 2 / 10 < (x - x⁻¹) / (x + x⁻¹) := by
    have hx0 : 0 < x := by linarith
    rw [lt_div_iff₀ (by positivity)]
    have : x * x⁻¹ = 1 := mul_inv_cancel₀ hx0.ne'
    have : x⁻¹ ≤ 1 / 1.3 := by
      rw [inv_eq_one_div]
      exact one_div_le_one_div_of_le (by norm_num) hx1
    have : (1 : ℝ) / 1.3 < 0.78 := by norm_num
    linarith
  unfold euclidDist
  apply Real.sqrt_lt_sqrt (Finset.sum_nonneg fun _ _ => sq_nonneg _)
  simp only [Finset.sum_range_succ, Finset.sum_range_zero]
  rw [he0 0, he0 1, he0 2, he0 3, he0 4, he0 5, hpred 0, hpred 1, hpred 2, hpred 3, hpred 4, hpred 5] <;> try norm_num
  nlinarith

/-- Non-vacuity of C117: a model with a sample, and constraints that are a mixture of the observables of its states. -/
example : ∃ (o : ModelObj) (X : Data), X ≠ [] ∧ o.sample = some X ∧ (∀ s ∈ X, s ∈ words [1, -1] o.n) ∧
    Mixture (X.map fun s => pairObs o.n (spins s)) (paramCount .ising o.n) [2 / 3, 2 / 3, 1 / 3] := by
  refine ⟨⟨.ising, 2, [0, 0, 0], none, [0, 0, 0], 0, none, [], 0, some [[1, 1], [1, -1], [-1, 1]]⟩, _, by simp, rfl,
    by decide, [2 / 3, 1 / 6, 1 / 6], rfl, by norm_num, by norm_num, fun i hi => ?_⟩
  have : upperPairs 2 = [(0, 1)] := by decide
  have hi : i < 3 := hi
  interval_cases i <;> simp [pairObs, this, spins, List.range_succ] <;> norm_num

end Verif.Props
