/-
`MCH.solve` for one spin with data that are all 1, where the sampler does not move.
-/
import Verif.Lemmas.MchProg4
import Verif.Props.Mixing

namespace Verif.Lemmas
open Verif Verif.Model Verif.Spec Verif.Props Prog

variable {α β : Type}

theorem expectation_nonneg' (p : Prog α) {f : α → ℝ} (h : ∀ a, 0 ≤ f a) : 0 ≤ expectation f p := by
  induction p with
  | ret a => exact h a
  | fail e => exact le_rfl
  | unif n k ih => exact div_nonneg (Finset.sum_nonneg fun i _ => ih i) (by positivity)
  | rand k ih => exact intervalIntegral.integral_nonneg (by norm_num) fun u _ => ih u

/-- What happens for sure after an event is at least as likely as the event. -/
theorem prob_bind_ge {p : Prog α} {q : α → Prog β} {R Q : α → Prop} {S : β → Prop} [DecidablePred Q] [DecidablePred S]
    (hp : FinDist p R)
    (h : ∀ a, R a → Q a → Returns (q a) S) : prob p Q ≤ prob (p.bind q) S := by
  unfold prob
  rw [expectation_bind]
  refine hp.mono fun a ha => ?_
  by_cases hq : Q a
  · rw [if_pos hq, expectation_certain (c := 1) _ (returns_mono (fun b hb => if_pos hb) (h a ha hq))]
  · rw [if_neg hq]
    exact expectation_nonneg' _ fun b => by split <;> norm_num

theorem word_one {s : List ℤ} (hs : s ∈ words [1, -1] 1) (hp : s.prod = 1) : s = [1] := by
  have : s = [1] ∨ s = [-1] := by simpa [words] using hs
  rcases this with rfl | rfl
  · rfl
  · simp at hp

section
variable (E : List ℤ → ℝ) (hE : ∀ s ∈ words [1, -1] 1, ∀ t ∈ words [1, -1] 1, E s = E t)
include hE

theorem oneSpin_run (m : ℕ) (hm : Even m) :
    Returns (metroRun (sampleMetropolis E) 1 false m ([1], E [1])) fun st => st = ([1], E [1]) := by
  refine returns_mono (fun r hr => ?_) (C91_constant_energy 1 one_pos E hE false m [1] (by decide))
  obtain ⟨h1, h2, h3⟩ := hr
  rw [hm.neg_one_pow] at h3
  have := word_one h1 (by simpa using h3)
  exact Prod.ext this (by rw [h2, this])

theorem oneSpin_chain (burn m k : ℕ) (hb : Even burn) (hk : Even k) :
    Returns (parallelChain (sampleMetropolis E) E 1 false burn m k [1]) fun r =>
      r.1 = List.replicate m [1] ∧ r.2.1 = [1] := by
  unfold parallelChain
  refine returns_bind (oneSpin_run E hE burn hb) fun st hst => ?_
  subst hst
  rw [metroRecord_blocks, bind_assoc]
  refine returns_bind (returns_visits (I := fun st => st = ([1], E [1])) (fun _ : ℕ => metroRun (sampleMetropolis E) 1 false k)
    _ (fun _ _ st hst => by subst hst; exact oneSpin_run E hE k hk) _ rfl) fun tr htr => returns_ret ?_
  have : tr = List.replicate m ([1], E [1]) := by
    rw [List.eq_replicate_iff]
    exact ⟨by simpa using htr.1, htr.2⟩
  subst this
  refine ⟨by simp, ?_⟩
  dsimp only
  cases m with
  | zero => rfl
  | succ m =>
    have : ∀ m, (List.replicate m (([1], E [1]) : List ℤ × ℝ)).getLastD ([1], E [1]) = ([1], E [1]) := fun m => by
      induction m with
      | zero => rfl
      | succ m ih => rw [List.replicate_succ, List.getLastD_cons, ih]
    rw [this]

/-- The sampler with one process and even numbers of updates stays where it is. -/
theorem oneSpin_stay (size nIters burnIn : ℕ) (hk : Even nIters) (hb : Even burnIn)
    (states : List (List ℤ)) (hs : states = [[1]]) :
    Returns ((Prog.mapEach (parallelChain (sampleMetropolis E) E 1 false (burnOr (some burnIn) nIters)
        ((size + 1 - 1) / 1) nIters) states).bind fun rs =>
      (.ret ⟨(rs.flatMap fun r => r.1).take size, rs.map fun r => r.2.2, rs.map fun r => r.2.1, none⟩ : Prog SampleOut))
      fun out => out.sample = List.replicate size [1] ∧ out.replicas = [[1]] := by
  subst hs
  have hb' : Even (burnOr (some burnIn) nIters) := by
    unfold burnOr
    dsimp only
    split
    · exact hk
    · exact hb
  simp only [mapEach, Prog.bind, bind_assoc]
  refine returns_bind (oneSpin_chain E hE _ _ _ hb' hk) fun r hr => returns_ret ?_
  simp [hr.1, hr.2]

end

theorem oneSpin_energy : ∀ s ∈ words [1, -1] 1, ∀ t ∈ words [1, -1] 1, kindEnergy .ising [0] s = kindEnergy .ising [0] t := by
  intro s hs t ht
  rw [kindEnergy_eq .ising 1 [0] rfl s (mem_words.1 hs).1, kindEnergy_eq .ising 1 [0] rfl t (mem_words.1 ht).1]
  have : ∀ s, modelEnergy .ising 1 [0] s = 0 := fun s => by
    simp [modelEnergy, isingVecE, isingE]
  rw [this, this]

/-- The sample consists of rows 1 and the state kept is 1; the sampler is the one in Python. -/
def Still (size : ℕ) (o : ModelObj) : Prop :=
  o.sample = some (List.replicate size [1]) ∧ ∃ s, o.sampler = some s ∧ s.compiled = false ∧ s.replicas = some [[1]]

section
variable {mc : Machine} (hcpu : mc.cpus = 1) {o : ModelObj} (h : IsingReady mc 1 o) {s : SamplerObj} (hs : o.sampler = some s)
  (hcomp : s.compiled = false) (size nIters burnIn : ℕ) (hk : Even nIters) (hb : Even burnIn)
include hcpu h hs hcomp

theorem oneSpin_draw_eq : mchDraw mc nIters burnIn size [0] o =
    (startStates (randomSample 1) 1 1 1 s.replicas none).bind fun states =>
      ((Prog.mapEach (parallelChain (sampleMetropolis (kindEnergy .ising [0])) (kindEnergy .ising [0]) 1 false
        (burnOr (some burnIn) nIters) ((size + 1 - 1) / 1) nIters) states).bind fun rs =>
      (.ret ⟨(rs.flatMap fun r => r.1).take size, rs.map fun r => r.2.2, rs.map fun r => r.2.1, none⟩ : Prog SampleOut)).bind
        fun out => .ret { o with sampleSize := size, sampler := some { s with theta := [0], sample := some out.sample, replicas := some out.replicas }, sample := some out.sample } := by
  have hsi := (h.inv.sampler s hs).1
  have hl : s.theta.length = 1 + 1 * (1 - 1) / 2 := by
    obtain ⟨s', h1, h2⟩ := h.sampler
    rw [hs] at h1
    injection h1 with h1
    rw [h1, h2]
  have hfit : SamplerFits .ising 1 { s with theta := [0] } :=
    ⟨hsi.kind, hsi.n_eq, rfl, fun _ _ => rfl, hsi.kept one_pos (by omega)⟩
  have hcheck := hfit.check
  rw [draw_eq h hs hl nIters burnIn size [0] rfl]
  unfold SamplerObj.generate
  rw [if_neg (by rw [hcomp]; simp), hcheck, ofPy_ok_bind, if_neg (by simp)]
  unfold generateSampleParallelPy
  dsimp only
  rw [hsi.kind, hsi.n_eq, hcpu]
  simp only [bind_assoc, Prog.bind]
  rfl

include hk hb

theorem oneSpin_again (hrep : s.replicas = some [[1]]) :
    Returns (mchDraw mc nIters burnIn size [0] o) (Still size) := by
  rw [oneSpin_draw_eq hcpu h hs hcomp, hrep]
  refine returns_bind (Q := (· = [[1]])) (show Returns (.ret [[1]]) _ from returns_ret rfl) fun a ha => ?_
  refine returns_bind (oneSpin_stay _ oneSpin_energy size nIters burnIn hk hb a ha) fun out ho => returns_ret ?_
  exact ⟨by rw [ho.1], _, rfl, hcomp, by rw [ho.2]⟩

open scoped Classical in
theorem oneSpin_first (hrep : s.replicas = none) :
    1 / 2 ≤ prob (mchDraw mc nIters burnIn size [0] o) (Still size) := by
  rw [oneSpin_draw_eq hcpu h hs hcomp, hrep]
  have hp : prob (randomSample 1 1) (· = [[1]]) = 1 / 2 := by
    simp [prob, randomSample, mapEach, randint, Prog.bind, expectation, List.range_succ, Finset.sum_range_succ]
    norm_num
  rw [← hp]
  refine prob_bind_ge (finDist_randomSample 1 1) fun a _ ha => ?_
  refine returns_bind (oneSpin_stay _ oneSpin_energy size nIters burnIn hk hb a ha) fun out ho => returns_ret ?_
  exact ⟨by rw [ho.1], _, rfl, hcomp, by rw [ho.2]⟩

end

/-- All entries of the sample are 1: the approximation is 1 for all changes of the parameters. -/
theorem oneSpin_approx {mc : Machine} {o : ModelObj} (h : IsingReady mc 1 o) (size : ℕ) (hsize : 0 < size)
    (hs : o.sample = some (List.replicate size [1])) (d : List ℝ) : mchApprox o d = .ok [1] := by
  unfold mchApprox
  rw [h.inv.n_eq, hs, Option.getD_some, mchIsing_eq 1 _ (by simp; omega) (fun r hr x hx => by
    rw [(List.mem_replicate.1 hr).2] at hx; simp at hx; simp [hx])]
  have : expect (List.replicate size [1]) (isingCalcERow d) (fun s => spins s 0) = 1 := by
    unfold expect boltzmann partition
    have h0 : (size : ℝ) ≠ 0 := by exact_mod_cast hsize.ne'
    simp [spins]
    field_simp
  simp [upperPairs, cells, this]

theorem oneSpin_obs {mc : Machine} {o : ModelObj} (h : IsingReady mc 1 o) (size : ℕ) (hsize : 0 < size)
    (hs : o.sample = some (List.replicate size [1])) : mchObs o = .ok [1] := by
  unfold mchObs
  rw [h.inv.n_eq, hs, Option.getD_some]
  obtain ⟨c, h1, h2, h3⟩ := obs_avg 1 (List.replicate size [1]) (by simp; omega) (fun r hr => by
    rw [(List.mem_replicate.1 hr).2]; rfl) (fun r hr x hx => by
    rw [(List.mem_replicate.1 hr).2] at hx; simp at hx; simp [hx])
  rw [h1]
  match c, h2 with
  | [a], _ =>
    have := h3 0 (by norm_num)
    have h0 : (size : ℝ) ≠ 0 := by exact_mod_cast hsize.ne'
    simp [avg, pairObs, spins] at this
    rw [this, div_self h0]

theorem oneSpin_learn {mc : Machine} {o : ModelObj} (h : IsingReady mc 1 o) (size : ℕ) (hsize : 0 < size)
    (hs : o.sample = some (List.replicate size [1])) (a : LearnArgs) :
    learnMch (mchApprox o) (fun d => .ok d) [1] [1] a [0] = .ok [0] := by
  obtain ⟨d, e, w, hp, -⟩ := C43_path (fun _ => [1]) 1 [1] [1] a.eta
  obtain ⟨T, -, -, -, -, r, h1, h2, h3⟩ := C43_learn (mchApprox o) (fun _ => [1]) 1
    (fun d _ => ⟨oneSpin_approx h size hsize hs d, rfl⟩) [1] [1] [0] a rfl rfl rfl d e w hp
  have he : ∀ t, e t = [1] := fun t => by
    cases t with
    | zero => exact hp.start_e
    | succ t => exact hp.pred t
  have hd : ∀ t, (d t).getD 0 0 = 0 := fun t => by
    induction t with
    | zero => rw [hp.start_d]; rfl
    | succ t ih => rw [hp.step t 0 one_pos, ih, he]; simp
  rw [h1]
  match r, h2 with
  | [x], _ =>
    have := h3 0 one_pos
    rw [hd] at this
    simp at this
    rw [this]

section
variable {mc : Machine} (hcpu : mc.cpus = 1) {size nIters burnIn : ℕ} (hsize : 0 < size) (hk : Even nIters)
  (hb : Even burnIn)
include hcpu hsize hk hb

theorem oneSpin_round (kw : LearnKw) (st : MchState ModelObj) (h : IsingReady mc 1 st.sample) (hst : Still size st.sample)
    (hm : st.mult = [0]) (hcur : st.cur = [1]) (hsz : st.size = size) :
    Returns (mchRoundP mc nIters burnIn [1] (fun _ => (kw, none)) st) fun st' =>
      IsingReady mc 1 st'.sample ∧ Still size st'.sample ∧ st'.mult = [0] ∧ st'.size = size ∧
        st'.errors.getLastD [] = [0] := by
  obtain ⟨s, h1, h2, h3⟩ := hst.2
  have e1 : mchSettings (fun _ => (kw, none)) st.counter st.size = .ok (kw, size) := by rw [hsz]; rfl
  unfold mchRoundP
  rw [e1, ofPy_ok_bind]
  dsimp only
  rw [hm, hcur, oneSpin_learn h size hsize hst.1, ofPy_ok_bind]
  refine returns_bind (returns_and (both_draw (by omega) one_pos h nIters burnIn size hsize [0] rfl).1
    (oneSpin_again hcpu h h1 h2 size nIters burnIn hk hb h3)) fun o ho => ?_
  rw [oneSpin_obs ho.1.1 size hsize ho.2.1, ofPy_ok_bind]
  refine returns_ret ⟨ho.1.1, ho.2, rfl, rfl, ?_⟩
  simp

theorem oneSpin_loop (kw : LearnKw) {tol tolNorm : ℝ} (ht : 0 < tol) (htn : 0 < tolNorm) (maxiter : ℤ) (fuel : ℕ)
    (st : MchState ModelObj) (h : IsingReady mc 1 st.sample) (hst : Still size st.sample)
    (hm : st.mult = [0]) (hcur : st.cur = [1]) (hsz : st.size = size) :
    Returns (mchLoopP mc nIters burnIn [1] (fun _ => (kw, none)) tol tolNorm maxiter (fuel + 1) st) fun r =>
      r.2 = 0 ∧ IsingReady mc 1 r.1.sample ∧ Still size r.1.sample ∧ r.1.mult = [0] ∧ r.1.size = size := by
  unfold mchLoopP
  refine returns_bind (oneSpin_round hcpu hsize hk hb kw st h hst hm hcur hsz) fun st' h' => ?_
  obtain ⟨h1, h2, h3, h4, h5⟩ := h'
  have hd : mchDone tol tolNorm st' := by
    unfold mchDone
    rw [h5]
    refine ⟨?_, fun x hx => ?_⟩
    · simpa [vecNorm] using htn
    · rw [List.mem_singleton.1 hx, abs_zero]
      exact ht
  rw [if_pos hd]
  exact returns_ret ⟨rfl, h1, h2, h3, h4⟩

end

theorem oneSpin_mean : modelMean 1 [0] 0 = 0 := by
  unfold modelMean expect boltzmann partition
  have : ∀ s, modelEnergy .ising 1 [0] s = 0 := fun s => by
    simp [modelEnergy, isingVecE, isingE]
  simp [this, words, pairObs, spins]

end Verif.Lemmas
