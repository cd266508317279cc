/-
Samples of Ising models drawn by model objects, with bounds that hold for many parameters at once.
-/
import Verif.Lemmas.UniformMetro
import Verif.Lemmas.SampleFront3

namespace Verif.Lemmas
open Verif Verif.Model Verif.Spec Verif.Props Prog

variable {α β : Type}

open scoped Classical in
/-- What always holds holds of all values of positive weight. -/
theorem finDist_of_returns {p : Prog α} {R Q : α → Prop} (hp : FinDist p R) (hq : Returns p Q) :
    FinDist p fun a => R a ∧ Q a := by
  obtain ⟨ws, h1, h2, h3⟩ := hp
  have key : ∀ f : α → ℝ, expectation f p = ((ws.filter fun x => Q x.2).map fun x => x.1 * f x.2).sum := by
    intro f
    rw [expectation_congr (g := fun a => if Q a then f a else 0) p hq fun a ha => (if_pos ha).symm, h3]
    clear h1 h2 h3
    induction ws with
    | nil => rfl
    | cons x ws ih =>
      by_cases hx : Q x.2
      · rw [List.filter_cons_of_pos (by simpa using hx)]
        simp only [List.map_cons, List.sum_cons, ih, if_pos hx]
      · rw [List.filter_cons_of_neg (by simpa using hx)]
        simp only [List.map_cons, List.sum_cons, ih, if_neg hx, mul_zero, zero_add]
  refine ⟨ws.filter fun x => Q x.2, fun x hx => ?_, ?_, key⟩
  · have := List.mem_filter.1 hx
    exact ⟨(h1 x this.1).1, (h1 x this.1).2, by simpa using this.2⟩
  · have e1 := key fun _ => 1
    have e2 := h3 fun _ => 1
    simp only [mul_one] at e1 e2
    rw [e1] at e2
    exact e2.trans h2

/-- The program returns, and its value takes finitely many values. -/
def Both (p : Prog α) (Q : α → Prop) : Prop := Returns p Q ∧ FinDist p fun _ => True

theorem Both.fin {p : Prog α} {Q : α → Prop} (h : Both p Q) : FinDist p Q :=
  finDist_mono (fun _ h => h.2) (finDist_of_returns h.2 h.1)

theorem both_ret {a : α} {Q : α → Prop} (h : Q a) : Both (.ret a) Q := ⟨returns_ret h, finDist_ret trivial⟩

theorem both_mono {p : Prog α} {Q R : α → Prop} (h : ∀ a, Q a → R a) (hp : Both p Q) : Both p R :=
  ⟨returns_mono h hp.1, hp.2⟩

theorem both_bind {p : Prog α} {q : α → Prog β} {Q : α → Prop} {R : β → Prop} (hp : Both p Q)
    (hq : ∀ a, Q a → Both (q a) R) : Both (p.bind q) R :=
  ⟨returns_bind hp.1 fun a ha => (hq a ha).1, finDist_bind hp.fin fun a ha => (hq a ha).2⟩

theorem returns_of_sound {p : Prog α} {Q R : α → Prop} (h : Returns p Q) (hs : Sound p R) : Returns p R := by
  induction p with
  | ret a => exact returns_ret (hs a rfl)
  | fail e => obtain ⟨b, hb, -⟩ := h; cases hb
  | unif n k ih => exact fun i hi => ih i (h i hi) (hs i hi)
  | rand k ih => exact fun u h0 h1 => ih u (h u h0 h1) (hs u h0 h1)

theorem SamplerInv.fits {mc : Machine} {n : ℕ} {s : SamplerObj} (h : SamplerInv mc .ising n s) (hn : 0 < n)
    (hc : 0 < mc.cpus) (hl : s.theta.length = n + n * (n - 1) / 2) : SamplerFits .ising n s :=
  ⟨h.kind, h.n_eq, hl, h.compiled, h.kept hn hc⟩

theorem finDist_sampler (mc : Machine) (n : ℕ) (hn : 0 < n) (o : SamplerObj) (h : SamplerFits .ising n o)
    (size nIters : ℕ) (burnIn : Option ℕ) : FinDist (o.generate mc true size nIters burnIn) fun _ => True := by
  unfold SamplerObj.generate
  rw [h.kind, h.n_eq]
  by_cases hcomp : o.compiled = true
  · rw [if_pos hcomp, if_neg (by simp)]
    have hl := h.compiled hcomp (by simp)
    refine finDist_bind (Q := fun _ => True) ?_ fun _ _ => finDist_ret trivial
    exact finDist_boostParallel (finDist_metroIter n _ hn) _ _ _ _ _ _ (finDist_withE (finDist_cppIsingInit n))
      fun q => boost_rows mc.ndebug n hn o.theta hl _ rfl q nIters burnIn
  · rw [if_neg hcomp, h.check, ofPy, Prog.bind, if_neg (by simp)]
    refine finDist_bind (Q := fun _ => True) ?_ fun _ _ => finDist_ret trivial
    have hst := goodStart_parallel h.kept (c := mc.cpus)
    rw [h.kind, h.n_eq] at hst
    exact finDist_parallel (goodMove_kind .ising n o.theta) (finDist_metroIter n _ hn) mc.cpus size nIters burnIn o.replicas
      none (finDist_kindRandom .ising n mc.cpus) hst

/-- Means over the sample, with one bound for all parameters in a range. -/
theorem sampler_uniform (n : ℕ) (hn : 0 < n) (B ρ c : ℝ) (hρ : 0 < ρ) (hc : 0 ≤ c) :
    ∃ K, 0 ≤ K ∧ ∀ (mc : Machine), 0 < mc.cpus → ∀ o : SamplerObj, SamplerFits .ising n o → (∀ x ∈ o.theta, |x| ≤ B) →
      (∃ x ∈ o.theta, ρ ≤ |x|) → ∀ f : List ℤ → ℝ, (∀ s ∈ words [1, -1] n, |f s| ≤ c) →
      ∀ (size nIters : ℕ) (burnIn : Option ℕ), 0 < size → 0 < nIters →
      expectation (fun o' : SamplerObj => (((o'.sample.getD []).map f).sum / size -
        expect (words [1, -1] n) (modelEnergy .ising n o.theta) f) ^ 2) (o.generate mc true size nIters burnIn) ≤
          mc.cpus * K / size := by
  obtain ⟨K, hK, h⟩ := uniform_lln n hn B ρ c hρ hc
  refine ⟨K, hK, fun mc hcpu o ho hB hx f hf size nIters burnIn hsize hk => ?_⟩
  have ht : o.theta.length = n + n * (n - 1) / 2 := ho.length
  unfold SamplerObj.generate
  rw [ho.kind, ho.n_eq]
  by_cases hcomp : o.compiled = true
  · rw [if_pos hcomp, if_neg (by simp), expectation_bind]
    have hl := h o.theta ht hB hx (fun s => isingVecE n (o.theta.take n) (o.theta.drop n) (spins s)) (fun _ _ => rfl) f hf
    have := hl.boostParallel _ _ _ _ mc.cpus size (finDist_withE (finDist_cppIsingInit n))
      (fun q => boost_rows mc.ndebug n hn o.theta ht _ rfl q nIters burnIn) hk hcpu hsize
    rw [sum_withE] at this
    exact this
  · rw [if_neg hcomp, ho.check, ofPy, Prog.bind, if_neg (by simp), expectation_bind]
    have hst := goodStart_parallel ho.kept (c := mc.cpus)
    rw [ho.kind, ho.n_eq] at hst
    have hl := h o.theta ht hB hx (kindEnergy .ising o.theta)
      (fun s hs => kindEnergy_eq .ising n o.theta ht s (mem_words.1 hs).1) f hf
    have e := expect_kind .ising n o.theta ht f
    unfold alphabet at e
    rw [← e]
    exact hl.parallel (goodMove_kind .ising n o.theta) mc.cpus size nIters burnIn o.replicas none
      (finDist_kindRandom .ising n mc.cpus) hst hcpu hsize hk

end Verif.Lemmas
