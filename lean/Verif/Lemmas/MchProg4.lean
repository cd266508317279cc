/-
Objects of class MCH that a user can have; the run of `solve` from its start.
-/
import Verif.Lemmas.MchProg3
import Verif.Props.Models
import Verif.Props.SampleFront

namespace Verif.Lemmas
open Verif Verif.Model Verif.Spec Verif.Props Prog

/-- The default model. -/
theorem zeros_init (n : ℕ) :
    isingInit (.vec (List.replicate ((n * n + n) / 2) (0 : ℝ))) = .ok ⟨n, List.replicate (n + n * (n - 1) / 2) 0⟩ := by
  have hlen : (n * n + n) / 2 = n + n * (n - 1) / 2 := by
    cases n with
    | zero => rfl
    | succ k =>
      rw [show (k + 1) * (k + 1) + (k + 1) = 2 * (k + 1) + (k + 1) * (k + 1 - 1) by rw [Nat.add_sub_cancel]; ring]
      omega
  rw [hlen, List.replicate_add]
  exact C33_vector n _ _ (by simp) (by simp)

theorem modelInv_init {mc : Machine} {k : ModelKind} {x : IsingArg ℝ} {rng : ℕ} {o : ModelObj}
    (h : modelInit mc k x rng = .ok o) : ModelInv mc k o.n o := by
  unfold modelInit at h
  split at h
  · cases h
  · injection h with h
    subst h
    exact ⟨rfl, rfl, rfl, rfl, fun _ => rfl, fun s hs => (Option.noConfusion rfl (heq_of_eq hs))⟩

theorem ready_setup {mc : Machine} {n size : ℕ} {boost : Bool} {o o' : ModelObj} (h : ModelInv mc .ising n o)
    (hl : o.multipliers.length = n + n * (n - 1) / 2) (e : o.setupSampler mc (chars! "metropolis") size boost = .ok o') :
    IsingReady mc n o' := by
  have h1 := h.apply (.setup (chars! "metropolis") size boost)
  unfold ModelObj.apply at h1
  dsimp only at h1
  rw [e] at h1
  obtain ⟨-, -, -, -, s, hs, ht, -⟩ := (C102_setup mc o (chars! "metropolis") size boost).1 o' e
  exact ⟨h1 o' rfl, s, hs, by rw [ht, hl]⟩

/-- Every object that a user can have is ready for sampling, and knows its number of spins. -/
theorem ready_of_reached {mc : Machine} {n : ℕ} {m : MchObj} (h : MchReached mc n m) :
    IsingReady mc n m.model ∧ m.n = some n := by
  induction h with
  | made arg model size boost rng m harg hmodel h =>
    have key : ∀ o, solverModel mc n model rng = .ok o → ModelInv mc .ising n o ∧
        o.multipliers.length = n + n * (n - 1) / 2 := by
      intro o ho
      unfold solverModel at ho
      cases hm : model with
      | some o1 =>
        rw [hm] at ho
        injection ho with ho
        subst ho
        obtain ⟨x, h1, h2, h3⟩ := hmodel o1 hm
        obtain ⟨rng', o₀, h4, h5⟩ := reached_inv h1
        have : o₀.n = n := by rw [← h5.n_eq, h2]
        exact ⟨this ▸ h5, h3⟩
      | none =>
        rw [hm] at ho
        dsimp only at ho
        have h1 := modelInv_init ho
        unfold modelInit at ho
        dsimp only at ho
        rw [zeros_init n] at ho
        injection ho with ho
        subst ho
        exact ⟨h1, by simp⟩
    unfold mchInit at h
    split at h
    · cases h
    · cases arg with
      | nothing => cases harg
      | size z =>
        injection harg with harg
        unfold basicSetup at h
        dsimp only at h
        split_ifs at h
        rw [harg] at h
        cases hm : solverModel mc n model rng with
        | error e => rw [hm] at h; cases h
        | ok o =>
          rw [hm] at h
          dsimp only at h
          split at h
          · cases h
          · rename_i o' ho'
            injection h with h
            subst h
            exact ⟨ready_setup (key o hm).1 (key o hm).2 ho', rfl⟩
      | data k X =>
        injection harg with harg
        subst harg
        unfold basicSetup at h
        dsimp only at h
        cases hm : solverModel mc k model rng with
        | error e => rw [hm] at h; cases h
        | ok o =>
          rw [hm] at h
          dsimp only at h
          cases hc : sampleConstraints (K := ℝ) k X with
          | error e => rw [hc] at h; cases h
          | ok c =>
            rw [hc] at h
            dsimp only at h
            split at h
            · cases h
            · rename_i o' ho'
              injection h with h
              subst h
              exact ⟨ready_setup (key o hm).1 (key o hm).2 ho', rfl⟩
  | solved m hm a σ g seed r hg h ih => exact ⟨sound_run (sound_solve m ih.1 a) g hg seed r h, ih.2⟩

/-! ### from the start of `solve` -/

theorem goodSettings {n s0 : ℕ} {B Δ H : ℝ} {a : MchArgs} {c : List ℝ} (h : MchFits n s0 B Δ H a c) :
    GoodSettings s0 (Δ + H * 2) (convF a.kw a.custom) := by
  rw [convF_eq]
  exact ⟨h.sizes, fun i => (h.change i).1, fun i => add_le_add (h.change i).2
    (mul_le_mul_of_nonneg_right (h.factor i) (by norm_num))⟩

/-- The first parameters. -/
def startOf (a : MchArgs) (c : List ℝ) : List ℝ := a.guess.getD (List.replicate c.length 0)

theorem startOf_spec {n s0 : ℕ} {B Δ H : ℝ} {a : MchArgs} {c : List ℝ} (h : MchFits n s0 B Δ H a c) (hB : 0 ≤ B) :
    (startOf a c).length = n + n * (n - 1) / 2 ∧ ∀ x ∈ startOf a c, |x| ≤ B := by
  unfold startOf
  cases hg : a.guess with
  | none =>
    refine ⟨by rw [Option.getD_none, List.length_replicate]; exact h.length, fun x hx => ?_⟩
    rw [Option.getD_none] at hx
    rw [(List.mem_replicate.1 hx).2, abs_zero]
    exact hB
  | some x => exact ⟨h.guess_length x hg, h.guess x hg⟩

section
variable {mc : Machine} (hcpu : 0 < mc.cpus) {n : ℕ} (hn : 0 < n) {s0 : ℕ} (hs0 : 0 < s0) {B Δ H : ℝ} (hB : 0 ≤ B)
  {a : MchArgs} {c : List ℝ} (hfit : MchFits n s0 B Δ H a c) {o : ModelObj} (ho : IsingReady mc n o) (hsize : s0 ≤ o.sampleSize)
include hcpu hn hs0 hB hfit ho hsize

/-- The state before the first round. -/
theorem both_first : Both (mchDraw mc a.nIters a.burnIn o.sampleSize (startOf a c) o) fun o' => ∃ cur err,
    mchObs o' = .ok cur ∧ broadcast2 (· - ·) cur c = .ok err ∧
    LoopInv mc n s0 c o.multipliers (fun i => B + i * (Δ + H * 2)) ⟨startOf a c, o', cur, o.sampleSize, 0, [err]⟩ := by
  obtain ⟨h1, h2⟩ := startOf_spec hfit hB
  refine both_mono ?_ (both_draw hcpu hn ho a.nIters a.burnIn o.sampleSize (by omega) (startOf a c) h1)
  intro o' ho'
  obtain ⟨cur, c1, c2, c3⟩ := obs_drawn (by omega) ho'
  obtain ⟨d1, d2, d3, X, d4, d5, d6⟩ := ho'
  have hl : cur.length = c.length := by rw [c2]; exact hfit.length.symm
  refine ⟨cur, _, c1, broadcast_sub hl, d1, ⟨X, d4, by omega, d6⟩, h1, fun x hx => ?_, c2, fun i hi => (c3 i hi).2, hsize,
    rfl, rfl, fun e he => ?_, d2⟩
  · have := h2 x hx
    simpa using this
  · rw [List.mem_singleton.1 he]
    simp only [List.length_zipWith]
    rw [← hl, min_self, c2]

theorem both_run (tol tolNorm : ℝ) :
    Both (mchRunP mc a.nIters a.burnIn c (startOf a c) (convF a.kw a.custom) tol tolNorm a.maxiter o) fun r =>
      LoopInv mc n s0 c o.multipliers (fun i => B + i * (Δ + H * 2)) r.1 ∧ 0 < r.1.counter ∧
      r.1.counter ≤ (a.maxiter + 1).toNat + 1 ∧ (r.2 = 0 ∧ mchDone tol tolNorm r.1 ∨
        r.2 = 1 ∧ ¬ mchDone tol tolNorm r.1 ∧ a.maxiter < r.1.counter) := by
  unfold mchRunP
  rw [if_neg (by rw [convF_eq]; exact hfit.eta)]
  refine both_bind (both_first hcpu hn hs0 hB hfit ho hsize) fun o' ho' => ?_
  obtain ⟨cur, err, h1, h2, h3⟩ := ho'
  rw [h1, ofPy_ok_bind, h2, ofPy_ok_bind]
  refine both_mono ?_ (both_loop hcpu hn hs0 hfit.length hfit.range a.nIters a.burnIn (goodSettings hfit) tol tolNorm a.maxiter
    _ _ h3 (by dsimp only; push_cast; omega))
  rintro r ⟨r1, r2, r3, r4⟩
  exact ⟨r1, r2, by simpa using r3, r4⟩

end

open scoped Classical in
theorem prob_run (n : ℕ) (hn : 0 < n) (ρ : ℝ) (hρ : 0 < ρ) (B Δ H : ℝ) (hB : 0 ≤ B) (hΔ : 0 ≤ Δ) (hH : 0 ≤ H)
    (maxiter : ℤ) :
    ∃ K, 0 ≤ K ∧ ∀ (mc : Machine), 0 < mc.cpus → ∀ (s0 : ℕ), 0 < s0 → ∀ (a : MchArgs) (c : List ℝ), a.maxiter = maxiter →
      0 < a.nIters → MchFits n s0 B Δ H a c → ∀ o : ModelObj, IsingReady mc n o → s0 ≤ o.sampleSize →
      ∀ tol tolNorm ε : ℝ, 0 < ε →
      prob (mchRunP mc a.nIters a.burnIn c (startOf a c) (convF a.kw a.custom) tol tolNorm a.maxiter o)
        (fun r => Far n ρ ε r.1) ≤ mc.cpus * K / s0 / ε ^ 2 := by
  obtain ⟨K, hK, h⟩ := prob_loop n hn ρ hρ B (Δ + H * 2) (by positivity) ((maxiter + 1).toNat + 1)
  refine ⟨((maxiter + 1).toNat + 1 : ℕ) * ((n + n * (n - 1) / 2 : ℕ) * K), by positivity,
    fun mc hcpu s0 hs0 a c hm hk hfit o ho hsize tol tolNorm ε hε => ?_⟩
  unfold mchRunP prob
  rw [if_neg (by rw [convF_eq]; exact hfit.eta), expectation_bind]
  refine (both_first hcpu hn hs0 hB hfit ho hsize).fin.le_of fun o' ho' => ?_
  obtain ⟨cur, err, h1, h2, h3⟩ := ho'
  rw [h1, ofPy_ok_bind, h2, ofPy_ok_bind, hm]
  have := h mc hcpu s0 hs0 c o.multipliers hfit.length hfit.range a.nIters a.burnIn hk _ (goodSettings hfit) tol tolNorm
    maxiter ε hε ((maxiter + 1).toNat + 1) _ h3 (by dsimp only; omega)
  unfold prob at this
  refine this.trans (le_of_eq ?_)
  ring

end Verif.Lemmas
