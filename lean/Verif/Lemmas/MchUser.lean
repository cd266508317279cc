/-
`MCH.solve` for models of any class: the lemmas for the Ising model once more, for the class `k`.
-/
import Verif.Lemmas.UniformKind
import Verif.Lemmas.PseudoObj
import Verif.Lemmas.TripletFit
import Verif.Lemmas.MchProg4
import Verif.Spec.MchUser

namespace Verif.Lemmas.Kind
open Verif Verif.Model Verif.Spec Verif.Lemmas Verif.Props Prog

/-! ### observables and approximation -/

/-- The means of the observables over a sample of states. -/
theorem obs_eq (k : ModelKind) (n : ℕ) (X : List (List ℤ)) (hX : X ≠ []) (hw : ∀ s ∈ X, s ∈ words (alphabet k) n) :
    ∃ cur : List ℝ, (kindObsArg k).means n X = .ok cur ∧ cur.length = paramCount k n ∧
      ∀ i < paramCount k n, cur.getD i 0 = avg X (fun s => (kindObs k n s).getD i 0) ∧ |cur.getD i 0| ≤ 1 := by
  have hl : ¬ X.length = 0 := by simpa using hX
  have key : ∃ cur : List ℝ, (kindObsArg k).means n X = .ok cur ∧ cur.length = paramCount k n ∧
      ∀ i < paramCount k n, cur.getD i 0 = avg X (fun s => (kindObs k n s).getD i 0) := by
    cases k with
    | ising =>
      obtain ⟨c, h1, h2, h3⟩ := obs_avg n X hX (fun s hs => (mem_words.1 (hw s hs)).1) fun s hs => word_entry (hw s hs)
      exact ⟨c, h1, h2, h3⟩
    | triplet =>
      unfold kindObsArg ObsArg.means
      dsimp only
      rw [mapM_ok (tripletObservables (K := ℝ)) (kindObs .triplet n) X fun s hs => by
        rw [tripletObservables_eq, (mem_words.1 (hw s hs)).1]; rfl]
      dsimp only
      rw [if_neg hl, ← tripletCount]
      refine ⟨_, rfl, by simp, fun i hi => ?_⟩
      rw [List.getD_eq_getElem _ _ (by simpa using hi), List.getElem_map, List.getElem_range, List.map_map]
      rfl
    | potts3 =>
      unfold kindObsArg ObsArg.means
      dsimp only
      rw [mapM_ok (pottsObservables (K := ℝ) 3) (kindObs .potts3 n) X fun s hs => by
        rw [pottsObservables_eq, (mem_words.1 (hw s hs)).1]; rfl]
      dsimp only
      rw [if_neg hl, show n * 3 + n * (n - 1) / 2 = paramCount .potts3 n by rw [Nat.mul_comm n 3]; rfl]
      refine ⟨_, rfl, by simp, fun i hi => ?_⟩
      rw [List.getD_eq_getElem _ _ (by simpa using hi), List.getElem_map, List.getElem_range, List.map_map]
      rfl
  obtain ⟨cur, h1, h2, h3⟩ := key
  refine ⟨cur, h1, h2, fun i hi => ⟨h3 i hi, ?_⟩⟩
  rw [h3 i hi]
  exact abs_avg_le hX fun s hs => kindObs_abs k (hw s hs) i

theorem approx_eq {k : ModelKind} {ap : ApproxArg} (o : ModelObj) (hap : ApproxFits k o.n ap) (X : List (List ℤ)) (hX : X ≠ [])
    (hs : o.sample = some X) (hw : ∀ s ∈ X, s ∈ words (alphabet k) o.n) :
    ∃ g : List ℝ → List ℝ, ∀ d, d.length = paramCount k o.n → mchApproxU ap o d = .ok (g d) ∧
      (g d).length = paramCount k o.n ∧ ∀ i, |(g d).getD i 0| ≤ 1 := by
  cases ap with
  | none =>
    replace hap : k = .ising := hap
    subst hap
    obtain ⟨g, hg⟩ := Lemmas.approx_eq o X hX hs hw
    exact ⟨g, fun d _ => hg d⟩
  | some f =>
    replace hap := hap X hX hw
    have : ∀ d : List ℝ, ∃ r, d.length = paramCount k o.n → f X d = .ok r ∧ r.length = paramCount k o.n ∧ ∀ x ∈ r, |x| ≤ 1 := by
      intro d
      by_cases hd : d.length = paramCount k o.n
      · obtain ⟨r, h⟩ := hap d hd
        exact ⟨r, fun _ => h⟩
      · exact ⟨[], fun h => absurd h hd⟩
    choose g hg using this
    refine ⟨g, fun d hd => ?_⟩
    obtain ⟨h1, h2, h3⟩ := hg d hd
    refine ⟨by unfold mchApproxU; rw [hs]; exact h1, h2, fun i => ?_⟩
    by_cases hi : i < (g d).length
    · rw [List.getD_eq_getElem _ _ hi]
      exact h3 _ (List.getElem_mem hi)
    · rw [List.getD_eq_default _ _ (by omega)]
      norm_num

/-- One call of `learn_parameters_mch`. -/
theorem learn_eq {k : ModelKind} {ap : ApproxArg} (o : ModelObj) (hap : ApproxFits k o.n ap) (X : List (List ℤ)) (hX : X ≠ [])
    (hs : o.sample = some X) (hw : ∀ s ∈ X, s ∈ words (alphabet k) o.n) (est c mult : List ℝ) (a : LearnArgs)
    (hc : c.length = paramCount k o.n) (hest : est.length = paramCount k o.n)
    (hm : mult.length = paramCount k o.n) (hpos : 0 ≤ a.maxdlamda) (hc1 : ∀ x ∈ c, |x| ≤ 1)
    (he1 : ∀ i < paramCount k o.n, |est.getD i 0| ≤ 1) :
    ∃ r, learnMch (mchApproxU ap o) (fun d => .ok d) est c a mult = .ok r ∧ r.length = paramCount k o.n ∧
      ∀ i < paramCount k o.n, |r.getD i 0 - mult.getD i 0| ≤ a.maxdlamda + |a.eta| * 2 := by
  obtain ⟨g, hg⟩ := approx_eq o hap X hX hs hw
  have hc1' : ∀ i < paramCount k o.n, |c.getD i 0| ≤ 1 := fun i hi => by
    rw [List.getD_eq_getElem _ _ (by omega)]
    exact hc1 _ (List.getElem_mem _)
  have two : ∀ a b : ℝ, |a| ≤ 1 → |b| ≤ 1 → |a - b| ≤ 2 := fun a b ha hb => by
    have := abs_sub a b
    linarith
  obtain ⟨r, h1, h2⟩ := C43_bounded_change (mchApproxU ap o) g _ (fun d hd => ⟨(hg d hd).1, (hg d hd).2.1⟩) est c mult a hc hest
    hm hpos 2 (fun i hi => two _ _ (hc1' i hi) (he1 i hi)) fun d hd i hi => two _ _ (hc1' i hi) ((hg d hd).2.2 i)
  obtain ⟨d, e, w, hp, -⟩ := C43_path g _ est c a.eta
  obtain ⟨T, -, -, -, -, r', hr', hl, -⟩ := C43_learn (mchApproxU ap o) g _ (fun d hd => ⟨(hg d hd).1, (hg d hd).2.1⟩) est c mult
    a hc hest hm d e w hp
  rw [h1] at hr'
  injection hr' with hr'
  subst hr'
  exact ⟨r, h1, hl, h2⟩

/-! ### drawing a sample -/

/-- A model of class `k` with `n` spins with a sampler for the right number of parameters. -/
structure KindReady (mc : Machine) (k : ModelKind) (n : ℕ) (o : ModelObj) : Prop where
  inv : ModelInv mc k n o
  sampler : ∃ s, o.sampler = some s ∧ s.theta.length = paramCount k n

theorem sound_draw {mc : Machine} {k : ModelKind} {n : ℕ} {o : ModelObj} (h : KindReady mc k n o) (nIters burnIn size : ℕ) (mult : List ℝ) :
    Sound (mchDraw mc nIters burnIn size mult o) (KindReady mc k n) := by
  obtain ⟨s, hs, hl⟩ := h.sampler
  have hi : ModelInv mc k n { o with sampleSize := size } :=
    ⟨h.inv.kind, h.inv.n_eq, h.inv.bound, h.inv.eqns, h.inv.fresh, h.inv.sampler⟩
  unfold mchDraw
  refine sound_mono ?_ (hi.generate nIters (some burnIn) (some mult) none none true)
  rintro o' ⟨h1, s1, s2, rows, e1, e2, e3, -, -, e4, -⟩
  refine ⟨h1, s2, by rw [e4], ?_⟩
  replace e1 : o.sampler = some s1 := e1
  rw [hs] at e1
  injection e1 with e1
  rw [e2, ← e3, ← e1, hl]

theorem draw_eq {mc : Machine} {k : ModelKind} {n : ℕ} {o : ModelObj} (h : KindReady mc k n o) {s : SamplerObj} (hs : o.sampler = some s)
    (hl : s.theta.length = paramCount k n) (nIters burnIn size : ℕ) (mult : List ℝ)
    (hm : mult.length = paramCount k n) :
    mchDraw mc nIters burnIn size mult o = ({ s with theta := mult }.generate mc true size nIters (some burnIn)).bind
      fun s' => .ret { o with sampleSize := size, sampler := some s', sample := s'.sample } := by
  obtain ⟨-, -, h3, -⟩ := h.inv.sampler s hs
  unfold mchDraw ModelObj.generateSample
  dsimp only
  rw [hs]
  dsimp only
  unfold methodOr
  dsimp only
  rw [if_pos h3]
  unfold SamplerObj.updateParameters
  rw [Option.getD_some, if_neg (by rw [hl, hm]; simp)]
  rfl

/-- The model after a draw: its sample has `size` rows. -/
def Drawn (mc : Machine) (k : ModelKind) (n size : ℕ) (o o' : ModelObj) : Prop :=
  KindReady mc k n o' ∧ o'.multipliers = o.multipliers ∧ o'.sampleSize = size ∧
    ∃ X, o'.sample = some X ∧ X.length = size ∧ ∀ s ∈ X, s ∈ words (alphabet k) n

theorem both_draw {mc : Machine} (hcpu : 0 < mc.cpus) {k : ModelKind} {n : ℕ} (hn : 0 < n) {o : ModelObj} (h : KindReady mc k n o)
    (nIters burnIn size : ℕ) (hsize : 0 < size) (hwk : WorkersFit mc k size) (mult : List ℝ) (hm : mult.length = paramCount k n) :
    Both (mchDraw mc nIters burnIn size mult o) (Drawn mc k n size o) := by
  obtain ⟨s, hs, hl⟩ := h.sampler
  have hsi := (h.inv.sampler s hs).1
  have hfit : SamplerFits k n { s with theta := mult } :=
    ⟨hsi.kind, hsi.n_eq, hm, fun a b => (hm.trans hl.symm).trans (hsi.compiled a b), hsi.kept hn hcpu⟩
  have hpo : s.compiled = true → k = .potts3 → 2 ≤ s.nCpus ∧ s.nCpus < size ∧ s.nCpus ≤ mc.cpus := fun a b => by
    obtain ⟨h1, h2⟩ := hwk b (hsi.ext a)
    have h3 := hsi.cpus
    rw [if_pos b] at h3
    omega
  have hready := sound_draw h nIters burnIn size mult
  have hr : Returns (mchDraw mc nIters burnIn size mult o) fun o' => o'.multipliers = o.multipliers ∧ o'.sampleSize = size ∧
      ∃ X, o'.sample = some X ∧ X.length = size ∧ ∀ s ∈ X, s ∈ words (alphabet k) n := by
    rw [draw_eq h hs hl nIters burnIn size mult hm]
    refine returns_bind (returns_generate mc hcpu k n hn _ hfit true size nIters (some burnIn) hsize
      (fun a b => ⟨rfl, (hpo a b).1, (hpo a b).2.1⟩) (by simp))
      fun s' hs' => returns_ret ⟨rfl, rfl, hs'⟩
  refine ⟨returns_mono (fun o' h => ⟨h.1, h.2⟩) (returns_and (returns_of_sound hr hready) hr), ?_⟩
  rw [draw_eq h hs hl nIters burnIn size mult hm]
  exact finDist_bind (finDist_sampler_kind mc k n hn _ hfit size nIters (some burnIn) fun a b => ⟨(hpo a b).1, (hpo a b).2.1⟩) fun _ _ => finDist_ret trivial

theorem draw_uniform (k : ModelKind) (n : ℕ) (hn : 0 < n) (B ρ : ℝ) (hρ : 0 < ρ) :
    ∃ K, 0 ≤ K ∧ ∀ (mc : Machine), 0 < mc.cpus → ∀ o : ModelObj, KindReady mc k n o → ∀ mult : List ℝ,
      mult.length = paramCount k n → (∀ x ∈ mult, |x| ≤ B) → (k ≠ .potts3 → ∃ x ∈ mult, ρ ≤ |x|) →
      ∀ (size nIters burnIn i : ℕ), 0 < size → 0 < nIters → WorkersFit mc k size →
      expectation (fun o' : ModelObj => (((o'.sample.getD []).map fun s => (kindObs k n s).getD i 0).sum / size -
        kindMean k n mult i) ^ 2) (mchDraw mc nIters burnIn size mult o) ≤ mc.cpus * K / size := by
  obtain ⟨K, hK, h⟩ := sampler_uniform_kind k n hn B ρ 1 hρ zero_le_one
  refine ⟨K, hK, fun mc hcpu o ho mult hm hB hx size nIters burnIn i hsize hk hwk => ?_⟩
  obtain ⟨s, hs, hl⟩ := ho.sampler
  have hsi := (ho.inv.sampler s hs).1
  have hfit : SamplerFits k n { s with theta := mult } :=
    ⟨hsi.kind, hsi.n_eq, hm, fun a b => (hm.trans hl.symm).trans (hsi.compiled a b), hsi.kept hn hcpu⟩
  have hpo : s.compiled = true → k = .potts3 → 2 ≤ s.nCpus ∧ s.nCpus < size ∧ s.nCpus ≤ mc.cpus := fun a b => by
    obtain ⟨h1, h2⟩ := hwk b (hsi.ext a)
    have h3 := hsi.cpus
    rw [if_pos b] at h3
    omega
  rw [draw_eq ho hs hl nIters burnIn size mult hm, expectation_bind]
  exact h mc hcpu _ hfit hB hx _ (fun s hs => kindObs_abs k hs i) size nIters (some burnIn) hsize hk hpo

/-- Whatever the arguments, a run leaves a usable model. -/
theorem sound_round {mc : Machine} {k : ModelKind} {ap : ApproxArg} {n : ℕ} (nIters burnIn : ℕ) (c : List ℝ) (f : ℕ → LearnKw × Option ℕ)
    (st : MchState ModelObj) (h : KindReady mc k n st.sample) :
    Sound (mchRoundU mc (kindObsArg k) ap nIters burnIn c f st) fun st' => KindReady mc k n st'.sample := by
  unfold mchRoundU
  refine sound_bind (sound_true _) fun kw _ => sound_bind (sound_true _) fun mult _ => ?_
  refine sound_bind (sound_draw h nIters burnIn kw.2 mult) fun o ho => sound_bind (sound_true _) fun cur _ => ?_
  exact sound_bind (sound_true _) fun err _ => sound_ret ho

theorem sound_loop {mc : Machine} {k : ModelKind} {ap : ApproxArg} {n : ℕ} (nIters burnIn : ℕ) (c : List ℝ) (f : ℕ → LearnKw × Option ℕ) (tol tolNorm : ℝ)
    (maxiter : ℤ) (fuel : ℕ) : ∀ st : MchState ModelObj, KindReady mc k n st.sample →
    Sound (mchLoopU mc (kindObsArg k) ap nIters burnIn c f tol tolNorm maxiter fuel st) fun r => KindReady mc k n r.1.sample := by
  induction fuel with
  | zero => exact fun _ _ => sound_fail
  | succ fuel ih =>
    intro st h
    unfold mchLoopU
    refine sound_bind (sound_round nIters burnIn c f st h) fun st' h' => ?_
    split
    · exact sound_ret h'
    · split
      · exact sound_ret h'
      · exact ih st' h'

theorem sound_solve {mc : Machine} {k : ModelKind} {n : ℕ} (m : MchUser) (hobs : m.obs = kindObsArg k) (h : KindReady mc k n m.model) (a : MchArgs) :
    Sound (mchSolveU mc m a) fun r => KindReady mc k n r.sample := by
  unfold mchSolveU
  rw [hobs]
  split
  · exact sound_fail
  · split
    · exact sound_fail
    · dsimp only
      split
      · exact sound_fail
      · refine sound_bind (Q := fun r => KindReady mc k n r.1.sample) ?_ fun r hr => sound_bind (sound_draw hr _ _ _ _)
          fun o ho => sound_ret ho
        unfold mchRunU
        split
        · exact sound_fail
        · refine sound_bind (sound_draw h _ _ _ _) fun o ho => sound_bind (sound_true _) fun cur _ => ?_
          exact sound_bind (sound_true _) fun err _ => sound_loop _ _ _ _ _ _ _ _ _ ho

theorem workersFit_mono {mc : Machine} {k : ModelKind} {s t : ℕ} (h : WorkersFit mc k s) (hst : s ≤ t) : WorkersFit mc k t :=
  fun a b => ⟨(h a b).1, (h a b).2.trans hst⟩

/-! ### the state of the main loop -/

/-- What holds between two rounds: `lim i` bounds the parameters after `i` rounds, `start` are the parameters of the model
object, `s0` is the smallest size of a sample. -/
structure LoopInv (mc : Machine) (k : ModelKind) (n s0 : ℕ) (c start : List ℝ) (lim : ℕ → ℝ) (st : MchState ModelObj) : Prop where
  ready : KindReady mc k n st.sample
  rows : ∃ X, st.sample.sample = some X ∧ s0 ≤ X.length ∧ ∀ s ∈ X, s ∈ words (alphabet k) n
  mult_length : st.mult.length = paramCount k n
  mult : ∀ x ∈ st.mult, |x| ≤ lim st.counter
  cur_length : st.cur.length = paramCount k n
  cur : ∀ i < paramCount k n, |st.cur.getD i 0| ≤ 1
  size : s0 ≤ st.size
  last : st.errors.getLastD [] = List.zipWith (· - ·) st.cur c
  count : st.errors.length = st.counter + 1
  each : ∀ e ∈ st.errors, e.length = paramCount k n
  model : st.sample.multipliers = start

theorem obs_drawn {mc : Machine} {k : ModelKind} {n size : ℕ} (hsize : 0 < size) {o o' : ModelObj} (h : Drawn mc k n size o o') :
    ∃ cur, mchObsU (kindObsArg k) o' = .ok cur ∧ cur.length = paramCount k n ∧ ∀ i < paramCount k n,
      cur.getD i 0 = ((o'.sample.getD []).map fun s => (kindObs k n s).getD i 0).sum / size ∧ |cur.getD i 0| ≤ 1 := by
  obtain ⟨h1, -, -, X, h3, h4, h5⟩ := h
  have hX : X ≠ [] := by
    rintro rfl
    simp at h4
    omega
  obtain ⟨cur, e1, e2, e3⟩ := obs_eq k n X hX h5
  unfold mchObsU
  rw [h3, h1.inv.n_eq]
  refine ⟨cur, e1, e2, fun i hi => ⟨?_, (e3 i hi).2⟩⟩
  rw [(e3 i hi).1]
  unfold avg
  rw [h4]
  rfl

section
variable {mc : Machine} (hcpu : 0 < mc.cpus) {k : ModelKind} {n : ℕ} (hn : 0 < n) {ap : ApproxArg} (hap : ApproxFits k n ap)
  {s0 : ℕ} (hs0 : 0 < s0) (hwk : WorkersFit mc k s0) {c start : List ℝ}
  (hc : c.length = paramCount k n) (hc1 : ∀ x ∈ c, |x| ≤ 1) {Δ B : ℝ} (nIters burnIn : ℕ)
  {f : ℕ → LearnKw × Option ℕ} (hf : GoodSettings s0 Δ f)
include hcpu hn hap hs0 hwk hc hc1 hf

/-- The new parameters and the size of the new sample are known before the sample is drawn. -/
theorem round_eq (st : MchState ModelObj) (h : LoopInv mc k n s0 c start (fun i => B + i * Δ) st) :
    ∃ z mult, s0 ≤ z ∧ mult.length = paramCount k n ∧ (∀ x ∈ mult, |x| ≤ B + (st.counter + 1 : ℕ) * Δ) ∧
      mchRoundU mc (kindObsArg k) ap nIters burnIn c f st = (mchDraw mc nIters burnIn z mult st.sample).bind fun o =>
        (Prog.ofPy (mchObsU (kindObsArg k) o)).bind fun cur => (Prog.ofPy (broadcast2 (· - ·) cur c)).bind fun err =>
          .ret ⟨mult, o, cur, z, st.counter + 1, st.errors ++ [err]⟩ := by
  obtain ⟨z, hk, e1⟩ := hf.eq st.counter st.size h.size
  obtain ⟨X, hX, hl, hw⟩ := h.rows
  have hne : X ≠ [] := by
    rintro rfl
    simp at hl
    omega
  have hN := h.ready.inv.n_eq
  rw [← hN] at hw
  obtain ⟨r, e2, e3, e4⟩ := learn_eq st.sample (hN ▸ hap) X hne hX hw st.cur c st.mult (f st.counter).1.args (by rw [hN]; exact hc)
    (by rw [hN]; exact h.cur_length) (by rw [hN]; exact h.mult_length) (hf.nonneg _) hc1 (by rw [hN]; exact h.cur)
  rw [hN] at e3 e4
  refine ⟨z, r, hk, e3, fun x hx => ?_, ?_⟩
  · obtain ⟨i, hi, rfl⟩ := List.getElem_of_mem hx
    have h1 := e4 i (by omega)
    rw [List.getD_eq_getElem _ _ hi] at h1
    have h2 : |st.mult.getD i 0| ≤ B + st.counter * Δ := by
      rw [List.getD_eq_getElem _ _ (by rw [h.mult_length]; omega)]
      exact h.mult _ (List.getElem_mem _)
    have h3 := hf.change st.counter
    have h4 := abs_sub_abs_le_abs_sub r[i] (st.mult.getD i 0)
    push_cast
    linarith
  · unfold mchRoundU
    rw [e1, ofPy_ok_bind]
    dsimp only
    rw [e2, ofPy_ok_bind]

theorem both_round (st : MchState ModelObj) (h : LoopInv mc k n s0 c start (fun i => B + i * Δ) st) :
    Both (mchRoundU mc (kindObsArg k) ap nIters burnIn c f st) fun st' => LoopInv mc k n s0 c start (fun i => B + i * Δ) st' ∧
      st'.counter = st.counter + 1 := by
  obtain ⟨z, mult, hk, h1, h2, e⟩ := round_eq hcpu hn hap hs0 hwk hc hc1 nIters burnIn hf st h
  rw [e]
  refine both_bind (both_draw hcpu hn h.ready nIters burnIn z (by omega) (workersFit_mono hwk hk) mult h1) fun o ho => ?_
  obtain ⟨cur, c1, c2, c3⟩ := obs_drawn (by omega) ho
  rw [c1, ofPy_ok_bind, broadcast_sub (by rw [c2, hc]), ofPy_ok_bind]
  obtain ⟨d1, d2, d3, X, d4, d5, d6⟩ := ho
  refine both_ret ⟨⟨d1, ⟨X, d4, by omega, d6⟩, h1, h2, c2, fun i hi => (c3 i hi).2, hk, by simp, ?_, ?_, ?_⟩, rfl⟩
  · simp [h.count]
  · intro e he
    rcases List.mem_append.1 he with he | he
    · exact h.each e he
    · rw [List.mem_singleton.1 he]
      simp [c2, hc]
  · exact d2.trans h.model

/-- The loop ends. -/
theorem both_loop (tol tolNorm : ℝ) (maxiter : ℤ) (fuel : ℕ) : ∀ st : MchState ModelObj,
    LoopInv mc k n s0 c start (fun i => B + i * Δ) st → maxiter < st.counter + (fuel + 1 : ℕ) →
    Both (mchLoopU mc (kindObsArg k) ap nIters burnIn c f tol tolNorm maxiter (fuel + 1) st) fun r =>
      LoopInv mc k n s0 c start (fun i => B + i * Δ) r.1 ∧ st.counter < r.1.counter ∧
      r.1.counter ≤ st.counter + (fuel + 1) ∧ (r.2 = 0 ∧ mchDone tol tolNorm r.1 ∨
        r.2 = 1 ∧ ¬ mchDone tol tolNorm r.1 ∧ maxiter < r.1.counter) := by
  induction fuel with
  | zero =>
    intro st h hlt
    unfold mchLoopU
    refine both_bind (both_round hcpu hn hap hs0 hwk hc hc1 nIters burnIn hf st h) fun st' ⟨h', hc'⟩ => ?_
    split
    · exact both_ret ⟨h', by simp [hc'], by simp [hc'], Or.inl ⟨rfl, ‹_›⟩⟩
    · rw [if_pos (by rw [hc']; push_cast at hlt ⊢; omega)]
      exact both_ret ⟨h', by simp [hc'], by simp [hc'], Or.inr ⟨rfl, ‹_›, by
        dsimp only; rw [hc']; push_cast at hlt ⊢; omega⟩⟩
  | succ fuel ih =>
    intro st h hlt
    unfold mchLoopU
    refine both_bind (both_round hcpu hn hap hs0 hwk hc hc1 nIters burnIn hf st h) fun st' ⟨h', hc'⟩ => ?_
    split
    · exact both_ret ⟨h', by simp [hc'], by simp [hc'], Or.inl ⟨rfl, ‹_›⟩⟩
    · split
      · rename_i h1 h2
        exact both_ret ⟨h', by simp [hc'], by simp [hc'], Or.inr ⟨rfl, h1, h2⟩⟩
      · refine both_mono ?_ (ih st' h' (by rw [hc']; push_cast at hlt ⊢; omega))
        rintro r ⟨r1, r2, r3, r4⟩
        exact ⟨r1, by omega, by omega, r4⟩

end

/-- Unless the model is a Potts model the parameters are not all close to zero, and the mean of some observable over the sample is far from the mean in the
model. -/
def Far (k : ModelKind) (n : ℕ) (ρ ε : ℝ) (st : MchState ModelObj) : Prop :=
  (k ≠ .potts3 → ∃ x ∈ st.mult, ρ ≤ |x|) ∧ ∃ i < paramCount k n, ε ≤ |st.cur.getD i 0 - kindMean k n st.mult i|

open scoped Classical in
theorem prob_loop (k : ModelKind) (n : ℕ) (hn : 0 < n) (ρ : ℝ) (hρ : 0 < ρ) (B Δ : ℝ) (hΔ : 0 ≤ Δ) (F : ℕ) :
    ∃ K, 0 ≤ K ∧ ∀ (mc : Machine), 0 < mc.cpus → ∀ ap : ApproxArg, ApproxFits k n ap →
      ∀ (s0 : ℕ), 0 < s0 → WorkersFit mc k s0 → ∀ (c start : List ℝ),
      c.length = paramCount k n → (∀ x ∈ c, |x| ≤ 1) → ∀ (nIters burnIn : ℕ), 0 < nIters →
      ∀ f : ℕ → LearnKw × Option ℕ, GoodSettings s0 Δ f → ∀ (tol tolNorm : ℝ) (maxiter : ℤ) (ε : ℝ), 0 < ε →
      ∀ (fuel : ℕ) (st : MchState ModelObj), LoopInv mc k n s0 c start (fun i => B + i * Δ) st → st.counter + fuel ≤ F →
      prob (mchLoopU mc (kindObsArg k) ap nIters burnIn c f tol tolNorm maxiter fuel st) (fun r => Far k n ρ ε r.1) ≤
        fuel * ((paramCount k n : ℕ) * (mc.cpus * K / s0 / ε ^ 2)) := by
  obtain ⟨K, hK, hdraw⟩ := draw_uniform k n hn (B + F * Δ) ρ hρ
  refine ⟨K, hK, fun mc hcpu ap hap s0 hs0 hwk c start hc hc1 nIters burnIn hk f hf tol tolNorm maxiter ε hε fuel => ?_⟩
  obtain ⟨V, hV⟩ : ∃ V : ℝ, V = mc.cpus * K / s0 / ε ^ 2 := ⟨_, rfl⟩
  have hs0' : (0 : ℝ) < s0 := by exact_mod_cast hs0
  have hV0 : 0 ≤ V := by rw [hV]; positivity
  rw [← hV]
  have hround : ∀ st : MchState ModelObj, LoopInv mc k n s0 c start (fun i => B + i * Δ) st → st.counter + 1 ≤ F →
      prob (mchRoundU mc (kindObsArg k) ap nIters burnIn c f st) (Far k n ρ ε) ≤ (paramCount k n : ℕ) * V := by
    intro st h hF
    obtain ⟨z, mult, hks, h1, h2, e⟩ := round_eq hcpu hn hap hs0 hwk hc hc1 nIters burnIn hf st h
    have hboth := both_draw hcpu hn h.ready nIters burnIn z (by omega) (workersFit_mono hwk hks) mult h1
    have hk0 : (0 : ℝ) < z := by exact_mod_cast (by omega : 0 < z)
    -- the round as an event of the draw
    have hprob : prob (mchRoundU mc (kindObsArg k) ap nIters burnIn c f st) (Far k n ρ ε) = prob (mchDraw mc nIters burnIn z mult st.sample)
        fun o' => (k ≠ .potts3 → ∃ x ∈ mult, ρ ≤ |x|) ∧ ∃ i < paramCount k n, ε ≤
          |((o'.sample.getD []).map fun s => (kindObs k n s).getD i 0).sum / z - kindMean k n mult i| := by
      unfold prob
      rw [e, expectation_bind]
      refine hboth.fin.congr fun o ho => ?_
      obtain ⟨cur, c1, c2, c3⟩ := obs_drawn (by omega) ho
      rw [c1, ofPy_ok_bind, broadcast_sub (by rw [c2, hc]), ofPy_ok_bind]
      simp only [expectation_ret]
      refine if_congr ?_ rfl rfl
      unfold Far
      refine and_congr_right fun _ => exists_congr fun i => and_congr_right fun hi => ?_
      dsimp only
      rw [(c3 i hi).1]
    rw [hprob]
    by_cases hx : k ≠ .potts3 → ∃ x ∈ mult, ρ ≤ |x|
    · refine prob_union hboth.fin _ (fun i o' => ε ≤
          |((o'.sample.getD []).map fun s => (kindObs k n s).getD i 0).sum / z - kindMean k n mult i|) _
          (fun o' _ hb => And.right hb) V fun i hi => ?_
      refine le_trans ((hboth.fin).chebyshev _ ε _ hε (hdraw mc hcpu st.sample h.ready mult h1 (fun x hx' => ?_) hx z nIters
        burnIn i (by omega) hk (workersFit_mono hwk hks))) ?_
      · refine (h2 x hx').trans ?_
        have : ((st.counter + 1 : ℕ) : ℝ) ≤ F := by exact_mod_cast hF
        nlinarith
      · rw [hV]
        refine div_le_div_of_nonneg_right ?_ (by positivity)
        refine div_le_div_of_nonneg_left (by positivity) hs0' ?_
        exact_mod_cast hks
    · have : prob (mchDraw mc nIters burnIn z mult st.sample) (fun o' => (k ≠ .potts3 → ∃ x ∈ mult, ρ ≤ |x|) ∧ ∃ i < paramCount k n,
          ε ≤ |((o'.sample.getD []).map fun s => (kindObs k n s).getD i 0).sum / z - kindMean k n mult i|) = 0 := by
        unfold prob
        rw [hboth.fin.congr (g := fun _ => 0) fun o _ => if_neg fun h => hx h.1]
        exact hboth.fin.const 0
      rw [this]
      positivity
  induction fuel with
  | zero =>
    intro st _ _
    unfold mchLoopU prob
    simp [expectation]
  | succ fuel ih =>
    intro st h hF
    have hb := (both_round hcpu hn hap hs0 hwk hc hc1 nIters burnIn hf st h).fin
    unfold mchLoopU prob
    rw [expectation_bind]
    have h1 : expectation (fun st' : MchState ModelObj => expectation (fun r : MchState ModelObj × ℕ => if Far k n ρ ε r.1 then
        (1 : ℝ) else 0) (if mchDone tol tolNorm st' then .ret (st', 0)
          else if (st'.counter : ℤ) > maxiter then .ret (st', 1)
          else mchLoopU mc (kindObsArg k) ap nIters burnIn c f tol tolNorm maxiter fuel st')) (mchRoundU mc (kindObsArg k) ap nIters burnIn c f st) ≤
        expectation (fun st' => (fuel * ((paramCount k n : ℕ) * V)) + 1 * if Far k n ρ ε st' then (1 : ℝ) else 0)
          (mchRoundU mc (kindObsArg k) ap nIters burnIn c f st) := by
      refine hb.mono fun st' ⟨hst', hcount⟩ => ?_
      have hpos : 0 ≤ (fuel : ℝ) * ((paramCount k n : ℕ) * V) := by positivity
      have hone : 0 ≤ if Far k n ρ ε st' then (1 : ℝ) else 0 := by split <;> norm_num
      split
      · simp only [expectation_ret]; linarith
      · split
        · simp only [expectation_ret]; linarith
        · have := ih st' hst' (by omega)
          unfold prob at this
          linarith
    refine h1.trans ?_
    rw [hb.affine, one_mul]
    have := hround st h (by omega)
    unfold prob at this
    push_cast
    push_cast at this
    linarith

theorem ready_setup {mc : Machine} {k : ModelKind} {n size : ℕ} {boost : Bool} {o o' : ModelObj} (h : ModelInv mc k n o)
    (hl : o.multipliers.length = paramCount k n) (e : o.setupSampler mc (chars! "metropolis") size boost = .ok o') :
    KindReady mc k n o' := by
  have h1 := h.apply (.setup (chars! "metropolis") size boost)
  unfold ModelObj.apply at h1
  dsimp only at h1
  rw [e] at h1
  obtain ⟨-, -, -, -, s, hs, ht, -⟩ := (C102_setup mc o (chars! "metropolis") size boost).1 o' e
  exact ⟨h1 o' rfl, s, hs, by rw [ht, hl]⟩

/-- Every object that a user can have is ready for sampling, and knows its number of spins. -/
theorem ready_of_reached {mc : Machine} {k : ModelKind} {n : ℕ} {m : MchUser} (h : UserReached mc k n m) :
    KindReady mc k n m.model ∧ m.n = some n ∧ m.obs = kindObsArg k := by
  induction h with
  | made arg model size approx boost rng m harg hmodel hnone h =>
    have key : ∀ o, solverModel mc n model rng = .ok o → ModelInv mc k n o ∧
        o.multipliers.length = paramCount k n := by
      intro o ho
      unfold solverModel at ho
      cases hm : model with
      | some o1 =>
        rw [hm] at ho
        injection ho with ho
        subst ho
        obtain ⟨x, h1, h2, h3⟩ := hmodel o1 hm
        obtain ⟨rng', o₀, h4, h5⟩ := reached_inv h1
        have : o₀.n = n := by rw [← h5.n_eq, h2]
        exact ⟨this ▸ h5, h3⟩
      | none =>
        have hk := hnone hm
        subst hk
        rw [hm] at ho
        dsimp only at ho
        have h1 := modelInv_init ho
        unfold modelInit at ho
        dsimp only at ho
        rw [zeros_init n] at ho
        injection ho with ho
        subst ho
        exact ⟨h1, by simp [paramCount]⟩
    unfold mchInitUser at h
    split at h
    · cases h
    · cases arg with
      | nothing => cases harg
      | size z =>
        injection harg with harg
        unfold basicSetupObs at h
        dsimp only at h
        split_ifs at h
        rw [harg] at h
        cases hm : solverModel mc n model rng with
        | error e => rw [hm] at h; cases h
        | ok o =>
          rw [hm] at h
          dsimp only at h
          split at h
          · cases h
          · rename_i o' ho'
            injection h with h
            subst h
            exact ⟨ready_setup (key o hm).1 (key o hm).2 ho', rfl, rfl⟩
      | data z X =>
        injection harg with harg
        subst harg
        unfold basicSetupObs at h
        dsimp only at h
        cases hm : solverModel mc z model rng with
        | error e => rw [hm] at h; cases h
        | ok o =>
          rw [hm] at h
          dsimp only at h
          cases hc : (kindObsArg k).means z X with
          | error e => rw [hc] at h; cases h
          | ok c =>
            rw [hc] at h
            dsimp only at h
            split at h
            · cases h
            · rename_i o' ho'
              injection h with h
              subst h
              exact ⟨ready_setup (key o hm).1 (key o hm).2 ho', rfl, rfl⟩
  | solved m hm a σ g seed r hg h ih => exact ⟨sound_run (sound_solve m ih.2.2 ih.1 a) g hg seed r h, ih.2⟩

/-! ### from the start of `solve` -/

theorem goodSettings {k : ModelKind} {n s0 : ℕ} {B Δ H : ℝ} {a : MchArgs} {c : List ℝ} (h : UserFits k n s0 B Δ H a c) :
    GoodSettings s0 (Δ + H * 2) (convF a.kw a.custom) := by
  rw [convF_eq]
  exact ⟨h.sizes, fun i => (h.change i).1, fun i => add_le_add (h.change i).2
    (mul_le_mul_of_nonneg_right (h.factor i) (by norm_num))⟩

theorem startOf_spec {k : ModelKind} {n s0 : ℕ} {B Δ H : ℝ} {a : MchArgs} {c : List ℝ} (h : UserFits k n s0 B Δ H a c) (hB : 0 ≤ B) :
    (startOf a c).length = paramCount k n ∧ ∀ x ∈ startOf a c, |x| ≤ B := by
  unfold startOf
  cases hg : a.guess with
  | none =>
    refine ⟨by rw [Option.getD_none, List.length_replicate]; exact h.length, fun x hx => ?_⟩
    rw [Option.getD_none] at hx
    rw [(List.mem_replicate.1 hx).2, abs_zero]
    exact hB
  | some x => exact ⟨h.guess_length x hg, h.guess x hg⟩

section
variable {mc : Machine} (hcpu : 0 < mc.cpus) {k : ModelKind} {n : ℕ} (hn : 0 < n) {ap : ApproxArg} (hap : ApproxFits k n ap)
  {s0 : ℕ} (hs0 : 0 < s0) (hwk : WorkersFit mc k s0) {B Δ H : ℝ} (hB : 0 ≤ B)
  {a : MchArgs} {c : List ℝ} (hfit : UserFits k n s0 B Δ H a c) {o : ModelObj} (ho : KindReady mc k n o) (hsize : s0 ≤ o.sampleSize)
include hcpu hn hs0 hwk hB hfit ho hsize

/-- The state before the first round. -/
theorem both_first : Both (mchDraw mc a.nIters a.burnIn o.sampleSize (startOf a c) o) fun o' => ∃ cur err,
    mchObsU (kindObsArg k) o' = .ok cur ∧ broadcast2 (· - ·) cur c = .ok err ∧
    LoopInv mc k n s0 c o.multipliers (fun i => B + i * (Δ + H * 2)) ⟨startOf a c, o', cur, o.sampleSize, 0, [err]⟩ := by
  obtain ⟨h1, h2⟩ := startOf_spec hfit hB
  refine both_mono ?_ (both_draw hcpu hn ho a.nIters a.burnIn o.sampleSize (by omega) (workersFit_mono hwk hsize)
    (startOf a c) h1)
  intro o' ho'
  obtain ⟨cur, c1, c2, c3⟩ := obs_drawn (by omega) ho'
  obtain ⟨d1, d2, d3, X, d4, d5, d6⟩ := ho'
  have hl : cur.length = c.length := by rw [c2]; exact hfit.length.symm
  refine ⟨cur, _, c1, broadcast_sub hl, d1, ⟨X, d4, by omega, d6⟩, h1, fun x hx => ?_, c2, fun i hi => (c3 i hi).2, hsize,
    rfl, rfl, fun e he => ?_, d2⟩
  · have := h2 x hx
    simpa using this
  · rw [List.mem_singleton.1 he]
    simp only [List.length_zipWith]
    rw [← hl, min_self, c2]

include hap in
theorem both_run (tol tolNorm : ℝ) :
    Both (mchRunU mc (kindObsArg k) ap a.nIters a.burnIn c (startOf a c) (convF a.kw a.custom) tol tolNorm a.maxiter o) fun r =>
      LoopInv mc k n s0 c o.multipliers (fun i => B + i * (Δ + H * 2)) r.1 ∧ 0 < r.1.counter ∧
      r.1.counter ≤ (a.maxiter + 1).toNat + 1 ∧ (r.2 = 0 ∧ mchDone tol tolNorm r.1 ∨
        r.2 = 1 ∧ ¬ mchDone tol tolNorm r.1 ∧ a.maxiter < r.1.counter) := by
  unfold mchRunU
  rw [if_neg (by rw [convF_eq]; exact hfit.eta)]
  refine both_bind (both_first hcpu hn hs0 hwk hB hfit ho hsize) fun o' ho' => ?_
  obtain ⟨cur, err, h1, h2, h3⟩ := ho'
  rw [h1, ofPy_ok_bind, h2, ofPy_ok_bind]
  refine both_mono ?_ (both_loop hcpu hn hap hs0 hwk hfit.length hfit.range a.nIters a.burnIn (goodSettings hfit) tol tolNorm a.maxiter
    _ _ h3 (by dsimp only; push_cast; omega))
  rintro r ⟨r1, r2, r3, r4⟩
  exact ⟨r1, r2, by simpa using r3, r4⟩

end

open scoped Classical in
theorem prob_run (k : ModelKind) (n : ℕ) (hn : 0 < n) (ρ : ℝ) (hρ : 0 < ρ) (B Δ H : ℝ) (hB : 0 ≤ B) (hΔ : 0 ≤ Δ) (hH : 0 ≤ H)
    (maxiter : ℤ) :
    ∃ K, 0 ≤ K ∧ ∀ (mc : Machine), 0 < mc.cpus → ∀ ap : ApproxArg, ApproxFits k n ap →
      ∀ (s0 : ℕ), 0 < s0 → WorkersFit mc k s0 → ∀ (a : MchArgs) (c : List ℝ), a.maxiter = maxiter →
      0 < a.nIters → UserFits k n s0 B Δ H a c → ∀ o : ModelObj, KindReady mc k n o → s0 ≤ o.sampleSize →
      ∀ tol tolNorm ε : ℝ, 0 < ε →
      prob (mchRunU mc (kindObsArg k) ap a.nIters a.burnIn c (startOf a c) (convF a.kw a.custom) tol tolNorm a.maxiter o)
        (fun r => Far k n ρ ε r.1) ≤ mc.cpus * K / s0 / ε ^ 2 := by
  obtain ⟨K, hK, h⟩ := prob_loop k n hn ρ hρ B (Δ + H * 2) (by positivity) ((maxiter + 1).toNat + 1)
  refine ⟨((maxiter + 1).toNat + 1 : ℕ) * ((paramCount k n : ℕ) * K), by positivity,
    fun mc hcpu ap hap s0 hs0 hwk a c hm hk hfit o ho hsize tol tolNorm ε hε => ?_⟩
  unfold mchRunU prob
  rw [if_neg (by rw [convF_eq]; exact hfit.eta), expectation_bind]
  refine (both_first hcpu hn hs0 hwk hB hfit ho hsize).fin.le_of fun o' ho' => ?_
  obtain ⟨cur, err, h1, h2, h3⟩ := ho'
  rw [h1, ofPy_ok_bind, h2, ofPy_ok_bind, hm]
  have := h mc hcpu ap hap s0 hs0 hwk c o.multipliers hfit.length hfit.range a.nIters a.burnIn hk _ (goodSettings hfit) tol tolNorm
    maxiter ε hε ((maxiter + 1).toNat + 1) _ h3 (by dsimp only; omega)
  unfold prob at this
  refine this.trans (le_of_eq ?_)
  ring

end Verif.Lemmas.Kind
