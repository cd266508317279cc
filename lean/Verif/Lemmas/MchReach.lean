/-
How far `MCH.solve` moves the parameters.
-/
import Verif.Lemmas.MchProg4
import Verif.Lemmas.SampleFront3

namespace Verif.Lemmas
open Verif Verif.Model Verif.Spec Verif.Props Prog

/-- The settings of a round are those of the function, whatever is done with the sample size. -/
theorem mchSettings_fst {f : ℕ → LearnKw × Option ℕ} {i size : ℕ} {r : LearnKw × ℕ} (h : mchSettings f i size = .ok r) :
    r.1 = (f i).1 := by
  unfold mchSettings at h
  split at h
  · injection h with h; rw [← h]
  · injection h with h; rw [← h]
  · cases h

section
variable {mc : Machine} (hcpu : 0 < mc.cpus) {n : ℕ} (hn : 0 < n) {s0 : ℕ} (hs0 : 0 < s0) {c start : List ℝ}
  (hc : c.length = n + n * (n - 1) / 2) (hc1 : ∀ x ∈ c, |x| ≤ 1) {Δ B : ℝ} (nIters burnIn : ℕ)
  {f : ℕ → LearnKw × Option ℕ} (hf : GoodSettings s0 Δ f)

/-- The most that round `i` moves a parameter. -/
noncomputable def move (f : ℕ → LearnKw × Option ℕ) (i : ℕ) : ℝ := (f i).1.args.maxdlamda + |(f i).1.args.eta| * 2

include hs0 hc hc1 hf in
theorem sound_move (st : MchState ModelObj) (h : LoopInv mc n s0 c start (fun i => B + i * Δ) st) :
    Sound (mchRoundP mc nIters burnIn c f st) fun st' => ∀ i < n + n * (n - 1) / 2,
      |st'.mult.getD i 0 - st.mult.getD i 0| ≤ move f st.counter := by
  obtain ⟨X, hX, hl, hw⟩ := h.rows
  have hne : X ≠ [] := by
    rintro rfl
    simp at hl
    omega
  have hN := h.ready.inv.n_eq
  rw [← hN] at hw
  obtain ⟨r, e2, e3, e4⟩ := learn_eq st.sample X hne hX hw st.cur c st.mult (f st.counter).1.args (by rw [hN]; exact hc)
    (by rw [hN]; exact h.cur_length) (by rw [hN]; exact h.mult_length) (hf.nonneg _) hc1 (by rw [hN]; exact h.cur)
  unfold mchRoundP
  refine sound_bind (sound_ofPy fun kw hkw => mchSettings_fst hkw) fun kw hkw => ?_
  rw [hkw, e2]
  refine sound_bind (Q := fun m => m = r) (sound_ofPy fun a ha => by injection ha with ha; exact ha.symm) fun m hm => ?_
  subst hm
  refine sound_bind (sound_true _) fun o _ => sound_bind (sound_true _) fun cur _ => sound_bind (sound_true _) fun err _ =>
    sound_ret fun i hi => ?_
  exact e4 i (by rw [hN]; exact hi)

include hcpu hn hs0 hc hc1 hf in
theorem sound_reach (x0 : List ℝ) (tol tolNorm : ℝ) (maxiter : ℤ) (fuel : ℕ) : ∀ st : MchState ModelObj,
    LoopInv mc n s0 c start (fun i => B + i * Δ) st →
    (∀ i < n + n * (n - 1) / 2, |st.mult.getD i 0 - x0.getD i 0| ≤ ∑ j ∈ Finset.range st.counter, move f j) →
    Sound (mchLoopP mc nIters burnIn c f tol tolNorm maxiter fuel st) fun r => r.1.errors.length = r.1.counter + 1 ∧
      ∀ i < n + n * (n - 1) / 2, |r.1.mult.getD i 0 - x0.getD i 0| ≤ ∑ j ∈ Finset.range r.1.counter, move f j := by
  induction fuel with
  | zero => exact fun _ _ _ => sound_fail
  | succ fuel ih =>
    intro st h hr
    unfold mchLoopP
    refine sound_bind (sound_and (sound_of_returns (both_round hcpu hn hs0 hc hc1 nIters burnIn hf st h).1)
      (sound_move hs0 hc hc1 nIters burnIn hf st h)) fun st' ⟨⟨h', hc'⟩, hm⟩ => ?_
    have hr' : ∀ i < n + n * (n - 1) / 2, |st'.mult.getD i 0 - x0.getD i 0| ≤ ∑ j ∈ Finset.range st'.counter, move f j := by
      intro i hi
      rw [hc', Finset.sum_range_succ]
      have h1 := hm i hi
      have h2 := hr i hi
      have := abs_sub_le (st'.mult.getD i 0) (st.mult.getD i 0) (x0.getD i 0)
      linarith
    split
    · exact sound_ret ⟨h'.count, hr'⟩
    · split
      · exact sound_ret ⟨h'.count, hr'⟩
      · exact ih st' h' hr'

end

section
variable {mc : Machine} (hcpu : 0 < mc.cpus) {n : ℕ} (hn : 0 < n) {s0 : ℕ} (hs0 : 0 < s0) {B Δ H : ℝ} (hB : 0 ≤ B)
  {a : MchArgs} {c : List ℝ} (hfit : MchFits n s0 B Δ H a c) {o : ModelObj} (ho : IsingReady mc n o) (hsize : s0 ≤ o.sampleSize)
include hcpu hn hs0 hB hfit ho hsize

theorem sound_run_reach (tol tolNorm : ℝ) :
    Sound (mchRunP mc a.nIters a.burnIn c (startOf a c) (convF a.kw a.custom) tol tolNorm a.maxiter o) fun r =>
      r.1.errors.length = r.1.counter + 1 ∧ ∀ i < n + n * (n - 1) / 2,
        |r.1.mult.getD i 0 - (startOf a c).getD i 0| ≤ ∑ j ∈ Finset.range r.1.counter, move (convF a.kw a.custom) j := by
  unfold mchRunP
  rw [if_neg (by rw [convF_eq]; exact hfit.eta)]
  refine sound_bind (sound_of_returns (both_first hcpu hn hs0 hB hfit ho hsize).1) fun o' ho' => ?_
  obtain ⟨cur, err, h1, h2, h3⟩ := ho'
  rw [h1, ofPy_ok_bind, h2, ofPy_ok_bind]
  exact sound_reach hcpu hn hs0 hfit.length hfit.range a.nIters a.burnIn (goodSettings hfit) _ tol tolNorm a.maxiter _ _ h3
    (by intro i _; simp)

end

end Verif.Lemmas
