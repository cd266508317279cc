/-
The rounds of `MCH.solve`.
-/
import Verif.Lemmas.MchProg

namespace Verif.Lemmas
open Verif Verif.Model Verif.Spec Verif.Props Prog

theorem convF_eq (a : MchArgs) : convF a.kw a.custom = MchArgs.round a := by
  unfold convF
  funext i
  unfold MchArgs.round
  cases a.custom <;> rfl

theorem ofPy_ok_bind {α β : Type} (a : α) (k : α → Prog β) : (Prog.ofPy (.ok a)).bind k = k a := rfl

/-- Whatever the arguments, a run leaves a usable model. -/
theorem sound_round {mc : Machine} {n : ℕ} (nIters burnIn : ℕ) (c : List ℝ) (f : ℕ → LearnKw × Option ℕ)
    (st : MchState ModelObj) (h : IsingReady mc n st.sample) :
    Sound (mchRoundP mc nIters burnIn c f st) fun st' => IsingReady mc n st'.sample := by
  unfold mchRoundP
  refine sound_bind (sound_true _) fun kw _ => sound_bind (sound_true _) fun mult _ => ?_
  refine sound_bind (sound_draw h nIters burnIn kw.2 mult) fun o ho => sound_bind (sound_true _) fun cur _ => ?_
  exact sound_bind (sound_true _) fun err _ => sound_ret ho

theorem sound_loop {mc : Machine} {n : ℕ} (nIters burnIn : ℕ) (c : List ℝ) (f : ℕ → LearnKw × Option ℕ) (tol tolNorm : ℝ)
    (maxiter : ℤ) (fuel : ℕ) : ∀ st : MchState ModelObj, IsingReady mc n st.sample →
    Sound (mchLoopP mc nIters burnIn c f tol tolNorm maxiter fuel st) fun r => IsingReady mc n r.1.sample := by
  induction fuel with
  | zero => exact fun _ _ => sound_fail
  | succ fuel ih =>
    intro st h
    unfold mchLoopP
    refine sound_bind (sound_round nIters burnIn c f st h) fun st' h' => ?_
    split
    · exact sound_ret h'
    · split
      · exact sound_ret h'
      · exact ih st' h'

theorem sound_solve {mc : Machine} {n : ℕ} (m : MchObj) (h : IsingReady mc n m.model) (a : MchArgs) :
    Sound (mchSolveP mc m a) fun r => IsingReady mc n r.sample := by
  unfold mchSolveP
  split
  · exact sound_fail
  · split
    · exact sound_fail
    · dsimp only
      split
      · exact sound_fail
      · refine sound_bind (Q := fun r => IsingReady mc n r.1.sample) ?_ fun r hr => sound_bind (sound_draw hr _ _ _ _)
          fun o ho => sound_ret ho
        unfold mchRunP
        split
        · exact sound_fail
        · refine sound_bind (sound_draw h _ _ _ _) fun o ho => sound_bind (sound_true _) fun cur _ => ?_
          exact sound_bind (sound_true _) fun err _ => sound_loop _ _ _ _ _ _ _ _ _ ho

/-! ### the state of the main loop -/

/-- What holds between two rounds: `lim i` bounds the parameters after `i` rounds, `start` are the parameters of the model
object, `s0` is the smallest size of a sample. -/
structure LoopInv (mc : Machine) (n s0 : ℕ) (c start : List ℝ) (lim : ℕ → ℝ) (st : MchState ModelObj) : Prop where
  ready : IsingReady mc n st.sample
  rows : ∃ X, st.sample.sample = some X ∧ s0 ≤ X.length ∧ ∀ s ∈ X, s ∈ words [1, -1] n
  mult_length : st.mult.length = n + n * (n - 1) / 2
  mult : ∀ x ∈ st.mult, |x| ≤ lim st.counter
  cur_length : st.cur.length = n + n * (n - 1) / 2
  cur : ∀ i < n + n * (n - 1) / 2, |st.cur.getD i 0| ≤ 1
  size : s0 ≤ st.size
  last : st.errors.getLastD [] = List.zipWith (· - ·) st.cur c
  count : st.errors.length = st.counter + 1
  each : ∀ e ∈ st.errors, e.length = n + n * (n - 1) / 2
  model : st.sample.multipliers = start

/-- The settings of a round of `solve`. -/
structure GoodSettings (s0 : ℕ) (Δ : ℝ) (f : ℕ → LearnKw × Option ℕ) : Prop where
  sizes : (∀ i, (f i).2 = none) ∨ ∀ i, ∃ k, (f i).2 = some k ∧ s0 ≤ k
  nonneg : ∀ i, 0 ≤ (f i).1.args.maxdlamda
  change : ∀ i, (f i).1.args.maxdlamda + |(f i).1.args.eta| * 2 ≤ Δ

theorem GoodSettings.eq {s0 : ℕ} {Δ : ℝ} {f : ℕ → LearnKw × Option ℕ} (h : GoodSettings s0 Δ f) (i size : ℕ)
    (hs : s0 ≤ size) : ∃ k, s0 ≤ k ∧ mchSettings f i size = .ok ((f i).1, k) := by
  unfold mchSettings
  rcases h.sizes with h1 | h1
  · rw [h1 0, h1 i]
    exact ⟨size, hs, rfl⟩
  · obtain ⟨k0, e0, -⟩ := h1 0
    obtain ⟨k, e, hk⟩ := h1 i
    rw [e0, e]
    exact ⟨k, hk, rfl⟩

theorem obs_drawn {mc : Machine} {n size : ℕ} (hsize : 0 < size) {o o' : ModelObj} (h : Drawn mc n size o o') :
    ∃ cur, mchObs o' = .ok cur ∧ cur.length = n + n * (n - 1) / 2 ∧ ∀ i < n + n * (n - 1) / 2,
      cur.getD i 0 = ((o'.sample.getD []).map fun s => (pairObs n (spins s)).getD i 0).sum / size ∧ |cur.getD i 0| ≤ 1 := by
  obtain ⟨h1, -, -, X, h3, h4, h5⟩ := h
  have hX : X ≠ [] := by
    rintro rfl
    simp at h4
    omega
  obtain ⟨cur, e1, e2, e3⟩ := obs_eq n X hX h5
  unfold mchObs
  rw [h3, h1.inv.n_eq]
  refine ⟨cur, e1, e2, fun i hi => ⟨?_, (e3 i hi).2⟩⟩
  rw [(e3 i hi).1]
  unfold avg
  rw [h4]
  rfl

theorem broadcast_sub {a b : List ℝ} (h : a.length = b.length) :
    broadcast2 (· - ·) a b = .ok (List.zipWith (· - ·) a b) := by
  unfold broadcast2
  rw [if_pos h]

section
variable {mc : Machine} (hcpu : 0 < mc.cpus) {n : ℕ} (hn : 0 < n) {s0 : ℕ} (hs0 : 0 < s0) {c start : List ℝ}
  (hc : c.length = n + n * (n - 1) / 2) (hc1 : ∀ x ∈ c, |x| ≤ 1) {Δ B : ℝ} (nIters burnIn : ℕ)
  {f : ℕ → LearnKw × Option ℕ} (hf : GoodSettings s0 Δ f)
include hcpu hn hs0 hc hc1 hf

/-- The new parameters and the size of the new sample are known before the sample is drawn. -/
theorem round_eq (st : MchState ModelObj) (h : LoopInv mc n s0 c start (fun i => B + i * Δ) st) :
    ∃ k mult, s0 ≤ k ∧ mult.length = n + n * (n - 1) / 2 ∧ (∀ x ∈ mult, |x| ≤ B + (st.counter + 1 : ℕ) * Δ) ∧
      mchRoundP mc nIters burnIn c f st = (mchDraw mc nIters burnIn k mult st.sample).bind fun o =>
        (Prog.ofPy (mchObs o)).bind fun cur => (Prog.ofPy (broadcast2 (· - ·) cur c)).bind fun err =>
          .ret ⟨mult, o, cur, k, st.counter + 1, st.errors ++ [err]⟩ := by
  obtain ⟨k, hk, e1⟩ := hf.eq st.counter st.size h.size
  obtain ⟨X, hX, hl, hw⟩ := h.rows
  have hne : X ≠ [] := by
    rintro rfl
    simp at hl
    omega
  have hN := h.ready.inv.n_eq
  rw [← hN] at hw
  obtain ⟨r, e2, e3, e4⟩ := learn_eq st.sample X hne hX hw st.cur c st.mult (f st.counter).1.args (by rw [hN]; exact hc)
    (by rw [hN]; exact h.cur_length) (by rw [hN]; exact h.mult_length) (hf.nonneg _) hc1 (by rw [hN]; exact h.cur)
  rw [hN] at e3 e4
  refine ⟨k, r, hk, e3, fun x hx => ?_, ?_⟩
  · obtain ⟨i, hi, rfl⟩ := List.getElem_of_mem hx
    have h1 := e4 i (by omega)
    rw [List.getD_eq_getElem _ _ hi] at h1
    have h2 : |st.mult.getD i 0| ≤ B + st.counter * Δ := by
      rw [List.getD_eq_getElem _ _ (by rw [h.mult_length]; omega)]
      exact h.mult _ (List.getElem_mem _)
    have h3 := hf.change st.counter
    have h4 := abs_sub_abs_le_abs_sub r[i] (st.mult.getD i 0)
    push_cast
    linarith
  · unfold mchRoundP
    rw [e1, ofPy_ok_bind]
    dsimp only
    rw [e2, ofPy_ok_bind]

theorem both_round (st : MchState ModelObj) (h : LoopInv mc n s0 c start (fun i => B + i * Δ) st) :
    Both (mchRoundP mc nIters burnIn c f st) fun st' => LoopInv mc n s0 c start (fun i => B + i * Δ) st' ∧
      st'.counter = st.counter + 1 := by
  obtain ⟨k, mult, hk, h1, h2, e⟩ := round_eq hcpu hn hs0 hc hc1 nIters burnIn hf st h
  rw [e]
  refine both_bind (both_draw hcpu hn h.ready nIters burnIn k (by omega) mult h1) fun o ho => ?_
  obtain ⟨cur, c1, c2, c3⟩ := obs_drawn (by omega) ho
  rw [c1, ofPy_ok_bind, broadcast_sub (by rw [c2, hc]), ofPy_ok_bind]
  obtain ⟨d1, d2, d3, X, d4, d5, d6⟩ := ho
  refine both_ret ⟨⟨d1, ⟨X, d4, by omega, d6⟩, h1, h2, c2, fun i hi => (c3 i hi).2, hk, by simp, ?_, ?_, ?_⟩, rfl⟩
  · simp [h.count]
  · intro e he
    rcases List.mem_append.1 he with he | he
    · exact h.each e he
    · rw [List.mem_singleton.1 he]
      simp [c2, hc]
  · exact d2.trans h.model

/-- The loop ends. -/
theorem both_loop (tol tolNorm : ℝ) (maxiter : ℤ) (fuel : ℕ) : ∀ st : MchState ModelObj,
    LoopInv mc n s0 c start (fun i => B + i * Δ) st → maxiter < st.counter + (fuel + 1 : ℕ) →
    Both (mchLoopP mc nIters burnIn c f tol tolNorm maxiter (fuel + 1) st) fun r =>
      LoopInv mc n s0 c start (fun i => B + i * Δ) r.1 ∧ st.counter < r.1.counter ∧
      r.1.counter ≤ st.counter + (fuel + 1) ∧ (r.2 = 0 ∧ mchDone tol tolNorm r.1 ∨
        r.2 = 1 ∧ ¬ mchDone tol tolNorm r.1 ∧ maxiter < r.1.counter) := by
  induction fuel with
  | zero =>
    intro st h hlt
    unfold mchLoopP
    refine both_bind (both_round hcpu hn hs0 hc hc1 nIters burnIn hf st h) fun st' ⟨h', hc'⟩ => ?_
    split
    · exact both_ret ⟨h', by simp [hc'], by simp [hc'], Or.inl ⟨rfl, ‹_›⟩⟩
    · rw [if_pos (by rw [hc']; push_cast at hlt ⊢; omega)]
      exact both_ret ⟨h', by simp [hc'], by simp [hc'], Or.inr ⟨rfl, ‹_›, by
        dsimp only; rw [hc']; push_cast at hlt ⊢; omega⟩⟩
  | succ fuel ih =>
    intro st h hlt
    unfold mchLoopP
    refine both_bind (both_round hcpu hn hs0 hc hc1 nIters burnIn hf st h) fun st' ⟨h', hc'⟩ => ?_
    split
    · exact both_ret ⟨h', by simp [hc'], by simp [hc'], Or.inl ⟨rfl, ‹_›⟩⟩
    · split
      · rename_i h1 h2
        exact both_ret ⟨h', by simp [hc'], by simp [hc'], Or.inr ⟨rfl, h1, h2⟩⟩
      · refine both_mono ?_ (ih st' h' (by rw [hc']; push_cast at hlt ⊢; omega))
        rintro r ⟨r1, r2, r3, r4⟩
        exact ⟨r1, by omega, by omega, r4⟩

end

end Verif.Lemmas
