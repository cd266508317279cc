/-
C43, C44, C45: the Monte Carlo histogram solvers.
-/
import Verif.Lemmas.MchSolve
import Mathlib.Tactic.NormNum
import Mathlib.Tactic.IntervalCases
import Verif.Lemmas.Pseudo
import Verif.Lemmas.PottsHelpers

namespace Verif.Props
open Verif Verif.Model Verif.Spec Verif.Lemmas

/-! ### C43 -/

/-- C43: one call of `learn_parameters_mch` follows the path of steps `d`, stops at the first step
`T ≥ 1` whose change exceeds one of the two limits or whose number exceeds `maxLearningSteps`, and
adds the change reached to the old multipliers. In particular there is at least one step and there are
at most `maxLearningSteps+1` (one, if that number is not positive). `approx` succeeds on changes of the
right length. -/
theorem C43_learn (approx : List ℝ → Py (List ℝ)) (g : List ℝ → List ℝ) (n : ℕ)
    (hg : ∀ d, d.length = n → approx d = .ok (g d) ∧ (g d).length = n) (est c mult : List ℝ)
    (a : LearnArgs) (hc : c.length = n) (hest : est.length = n) (hm : mult.length = n)
    (d e : ℕ → List ℝ) (w : ℕ → ℝ) (hp : LearnPath g n est c a.eta d e w) :
    let Exit : ℕ → Prop := fun t => euclid n (d t) > a.maxdlamdaNorm ∨
      (∃ i < n, |(d t).getD i 0| > a.maxdlamda) ∨ (t : ℤ) > a.maxLearningSteps
    ∃ T : ℕ, 1 ≤ T ∧ (T : ℤ) ≤ max 1 (a.maxLearningSteps + 1) ∧ Exit T ∧
      (∀ t, 1 ≤ t → t < T → ¬ Exit t) ∧
      ∃ r, learnMch approx (fun d => .ok d) est c a mult = .ok r ∧ r.length = n ∧
        ∀ i < n, r.getD i 0 = mult.getD i 0 + (d T).getD i 0 := by
  intro Exit
  obtain ⟨T, h1, h2, h3, h4, h5⟩ := learnMch_path approx g n hg est c mult a hc hest (fun d => .ok d)
    (fun d => d) (fun d hd => ⟨rfl, hd.trans hm.symm⟩) d e w hp
  refine ⟨T, h1, h2, h3, h4, _, h5, by simp [hm, hp.len], ?_⟩
  intro i hi
  rw [List.getD_eq_getElem _ _ (by simp [hm, hp.len, hi]), List.getD_eq_getElem _ _ (by rw [hm]; exact hi),
    List.getD_eq_getElem _ _ (by rw [hp.len]; exact hi), List.getElem_zipWith]

/-- There is such a path, and only one. -/
theorem C43_path (g : List ℝ → List ℝ) (n : ℕ) (est c : List ℝ) (eta : ℝ) :
    ∃ d e w, LearnPath g n est c eta d e w ∧
      ∀ d' e' w', LearnPath g n est c eta d' e' w' → d' = d ∧ e' = e ∧ w' = w := by
  obtain ⟨d, e, w, hp⟩ := learnPath_exists g n est c eta
  refine ⟨d, e, w, hp, fun d' e' w' hp' => ?_⟩
  have key : ∀ t, d' t = d t ∧ e' t = e t ∧ w' t = w t := by
    intro t
    induction t with
    | zero => exact ⟨by rw [hp.start_d, hp'.start_d], by rw [hp.start_e, hp'.start_e],
        by rw [hp.start_w, hp'.start_w]⟩
    | succ t ih =>
      obtain ⟨h1, h2, h3⟩ := ih
      have hd : d' (t + 1) = d (t + 1) := by
        refine List.ext_getElem (by rw [hp.len, hp'.len]) fun i ha hb => ?_
        have hi : i < n := by rw [← hp'.len (t + 1)]; exact ha
        have e1 := hp.step t i hi
        have e2 := hp'.step t i hi
        rw [List.getD_eq_getElem _ _ hb] at e1
        rw [List.getD_eq_getElem _ _ ha] at e2
        rw [e1, e2, h1, h2, h3]
      have he : e' (t + 1) = e (t + 1) := by rw [hp.pred, hp'.pred, hd]
      exact ⟨hd, he, by rw [hp.dist, hp'.dist, he]⟩
  exact ⟨funext fun t => (key t).1, funext fun t => (key t).2.1, funext fun t => (key t).2.2⟩

/-- C43: no multiplier moves by more than `maxdlamda` plus one step, whose size is at most `eta` times
the error of the estimate before it; with observables between -1 and 1 that is `2*eta`. -/
theorem C43_bounded_change (approx : List ℝ → Py (List ℝ)) (g : List ℝ → List ℝ) (n : ℕ)
    (hg : ∀ d, d.length = n → approx d = .ok (g d) ∧ (g d).length = n) (est c mult : List ℝ)
    (a : LearnArgs) (hc : c.length = n) (hest : est.length = n) (hm : mult.length = n)
    (hpos : 0 ≤ a.maxdlamda) (B : ℝ) (hB0 : ∀ i < n, |c.getD i 0 - est.getD i 0| ≤ B)
    (hB : ∀ d, d.length = n → ∀ i < n, |c.getD i 0 - (g d).getD i 0| ≤ B) :
    ∃ r, learnMch approx (fun d => .ok d) est c a mult = .ok r ∧
      ∀ i < n, |r.getD i 0 - mult.getD i 0| ≤ a.maxdlamda + |a.eta| * B := by
  obtain ⟨d, e, w, hp, -⟩ := C43_path g n est c a.eta
  obtain ⟨T, h1, -, -, hmin, r, hr, -, hri⟩ := C43_learn approx g n hg est c mult a hc hest hm d e w hp
  refine ⟨r, hr, fun i hi => ?_⟩
  rw [hri i hi, add_sub_cancel_left]
  obtain ⟨t, rfl⟩ : ∃ t, T = t + 1 := ⟨T - 1, by omega⟩
  rw [hp.step t i hi]
  have hw : 0 ≤ min 1 (w t) ∧ min 1 (w t) ≤ 1 := by
    refine ⟨le_min zero_le_one ?_, min_le_left _ _⟩
    cases t with
    | zero => rw [hp.start_w]; exact zero_le_one
    | succ t => rw [hp.dist]; exact Real.sqrt_nonneg _
  have hstep : |a.eta * min 1 (w t) * (c.getD i 0 - (e t).getD i 0)| ≤ |a.eta| * B := by
    have hE : |c.getD i 0 - (e t).getD i 0| ≤ B := by
      cases t with
      | zero => rw [hp.start_e]; exact hB0 i hi
      | succ t => rw [hp.pred]; exact hB _ (hp.len _) i hi
    rw [abs_mul, abs_mul, abs_of_nonneg hw.1]
    have : |a.eta| * min 1 (w t) ≤ |a.eta| := mul_le_of_le_one_right (abs_nonneg _) hw.2
    exact mul_le_mul this hE (abs_nonneg _) (abs_nonneg _)
  have hold : |(d t).getD i 0| ≤ a.maxdlamda := by
    rcases Nat.eq_zero_or_pos t with rfl | ht
    · rw [hp.start_d]; simpa [List.getD_eq_getElem?_getD, List.getElem?_replicate, hi] using hpos
    · by_contra hgt
      exact hmin t ht (by omega) (Or.inr (Or.inl ⟨i, hi, not_le.mp hgt⟩))
  exact (abs_add_le _ _).trans (add_le_add hold hstep)

/-- C43: the loop always ends, whatever `approx` does (also if it raises or returns arrays of another
size); a loop that ends normally has made between 1 and `maxLearningSteps+1` steps and meets an exit
criterion. -/
theorem C43_terminates (approx : List ℝ → Py (List ℝ)) (est c : List ℝ) (a : LearnArgs) :
    ∃ r, learnLoop approx c a ((a.maxLearningSteps + 1).toNat + 1)
        ⟨List.replicate c.length 0, est, 1, 0⟩ = some r ∧
      ∀ st, r = .ok st → 1 ≤ st.steps ∧ (st.steps : ℤ) ≤ max 1 (a.maxLearningSteps + 1) ∧
        learnStops a st := by
  obtain ⟨r, hr, h⟩ := learnLoop_some approx c a ((a.maxLearningSteps + 1).toNat + 1)
    ⟨List.replicate c.length 0, est, 1, 0⟩ (by push_cast; omega) (by omega)
  refine ⟨r, hr, fun st hst => ?_⟩
  obtain ⟨h1, -, h3, h4⟩ := h st hst
  exact ⟨by simpa using h3, by simpa using h4, h1⟩

/-- C43: if the estimate already equals the constraints and the approximation agrees for no change,
learning leaves the multipliers alone. -/
theorem C43_fixed_point (approx : List ℝ → Py (List ℝ)) (g : List ℝ → List ℝ) (n : ℕ)
    (hg : ∀ d, d.length = n → approx d = .ok (g d) ∧ (g d).length = n) (c mult : List ℝ)
    (a : LearnArgs) (hc : c.length = n) (hm : mult.length = n) (h0 : g (List.replicate n 0) = c) :
    learnMch approx (fun d => .ok d) c c a mult = .ok mult := by
  obtain ⟨d, e, w, hp, -⟩ := C43_path g n c c a.eta
  obtain ⟨T, -, -, -, -, r, hr, hlen, hri⟩ := C43_learn approx g n hg c c mult a hc hc hm d e w hp
  have hz : ∀ t, d t = List.replicate n 0 ∧ e t = c := by
    intro t
    induction t with
    | zero => exact ⟨hp.start_d, hp.start_e⟩
    | succ t ih =>
      have hd : d (t + 1) = List.replicate n 0 := by
        refine List.ext_getElem (by simp [hp.len]) fun i h1 h2 => ?_
        have hi : i < n := by simpa using h2
        have := hp.step t i hi
        rw [List.getD_eq_getElem _ _ h1, ih.2, ih.1, sub_self, mul_zero, add_zero] at this
        rw [this]; simp [List.getD_eq_getElem?_getD, hi]
      exact ⟨hd, by rw [hp.pred, hd, h0]⟩
  rw [hr]
  congr 1
  refine List.ext_getElem (by rw [hlen, hm]) fun i h1 h2 => ?_
  have hi : i < n := by rw [← hlen]; exact h1
  have := hri i hi
  rw [List.getD_eq_getElem _ _ h1, List.getD_eq_getElem _ _ h2, (hz T).1] at this
  rw [this]; simp [List.getD_eq_getElem?_getD, hi]

/-- Non-vacuity of C43: the hypotheses hold for the constant approximation, and the loop then makes
one step here. -/
example : learnMch (fun _ => .ok [0, 0]) (fun d => .ok d) [1, 0] [0, 0] ⟨1 / 2, 5, 50, 1⟩ [7, 7] =
    .ok [6, 7] := by
  have h0 : learnStep (fun _ => .ok [0, 0]) [0, 0] 1 ⟨[0, 0], [1, 0], 1, 0⟩ =
      .ok ⟨[-1, 0], [0, 0], 0, 1⟩ := by
    simp [learnStep, broadcast2, addInto, assignRow, vecNorm]
  have hs : learnStops ⟨1 / 2, 5, 50, 1⟩ ⟨[-1, 0], [0, 0], 0, 1⟩ :=
    Or.inr (Or.inl ⟨-1, by simp, by norm_num⟩)
  have hl : learnLoop (fun _ => .ok [0, 0]) [0, 0] ⟨1 / 2, 5, 50, 1⟩ 52 ⟨[0, 0], [1, 0], 1, 0⟩ =
      some (.ok ⟨[-1, 0], [0, 0], 0, 1⟩) := by
    rw [learnLoop, h0]
    dsimp only
    rw [if_pos hs]
  have hrw : ((50 : ℤ) + 1).toNat + 1 = 52 := rfl
  unfold learnMch
  rw [hrw, show List.replicate ([0, 0] : List ℝ).length (0 : ℝ) = [0, 0] from rfl, hl]
  simp only [addInto, assignRow]
  norm_num

/-- C43: settings missing from `learn_params_kwargs` have the documented defaults, and the others are
used as given. -/
theorem C43_defaults (k : LearnKw) :
    (k.maxdlamda = none → k.args.maxdlamda = 1) ∧ (∀ x, k.maxdlamda = some x → k.args.maxdlamda = x) ∧
    (k.maxdlamdaNorm = none → k.args.maxdlamdaNorm = 1) ∧
    (∀ x, k.maxdlamdaNorm = some x → k.args.maxdlamdaNorm = x) ∧
    (k.maxLearningSteps = none → k.args.maxLearningSteps = 50) ∧
    (∀ x, k.maxLearningSteps = some x → k.args.maxLearningSteps = x) ∧
    (k.eta = none → k.args.eta = 1) ∧ (∀ x, k.eta = some x → k.args.eta = x) := by
  refine ⟨?_, ?_, ?_, ?_, ?_, ?_, ?_, ?_⟩ <;> intros <;> simp_all [LearnKw.args]

/-! ### C44 -/

variable {S : Type*}

/-- C44: when `MCH.solve` returns, it has made `R ≥ 1` learning rounds, at most `maxiter+1` (one, if
`maxiter` is negative); there is one entry in the error history for the start and one for each round;
the flag is 0 exactly if the last entry is within both tolerances, and otherwise it is 1 and the
number of rounds exceeds `maxiter`; no entry between the first and the last is within the tolerances;
the last entry is that of the multipliers returned. -/
theorem C44_solve (env : MchEnv S) (self guess constraints : Option (List ℝ)) (tol tolNorm : Option ℝ)
    (maxiter : ℤ) (kw : LearnKw) (custom : Option (ℕ → LearnKw × Option ℕ)) (size : ℕ)
    (c : List ℝ) (hc : constraints.or self = some c) (r : MchResult S)
    (h : mchSolve env self guess constraints tol tolNorm maxiter kw custom size = .ok r) :
    let t1 := numberOr tol (1 / √size)
    let t2 := numberOr tolNorm (√(1 / size) * c.length)
    ∃ R : ℕ, 1 ≤ R ∧ (R : ℤ) ≤ max 1 (maxiter + 1) ∧ r.errors.length = R + 1 ∧
      (r.errflag = 0 ∨ r.errflag = 1) ∧
      (r.errflag = 0 ↔ Within t1 t2 (r.errors.getD R [])) ∧
      (r.errflag = 1 → (R : ℤ) = max 1 (maxiter + 1)) ∧
      (∀ t, 1 ≤ t → t < R → ¬ Within t1 t2 (r.errors.getD t [])) ∧
      r.returned = r.multipliers ∧
      ∃ m s obs, env.gen R m r.multipliers = .ok s ∧ env.obs s = .ok obs ∧
        broadcast2 (· - ·) obs c = .ok (r.errors.getD R []) ∧
        env.gen (R + 1) m r.multipliers = .ok r.sample := by
  intro t1 t2
  unfold mchSolve at h
  rw [hc, orDefault_eq] at h
  simp only [orDefault_eq] at h
  by_cases hl : (guess.getD (List.replicate c.length 0)).length ≠ c.length
  · rw [if_pos hl] at h; cases h
  rw [if_neg hl] at h
  push Not at hl
  obtain ⟨x0, hx0⟩ : ∃ x0, x0 = guess.getD (List.replicate c.length 0) := ⟨_, rfl⟩
  rw [← hx0] at h hl
  cases hrun : mchRun env (fun d => .ok d) c x0 (convF kw custom) (numberOr tol (1 / √size))
      (numberOr tolNorm (√(1 / size) * x0.length)) maxiter size with
  | error e => rw [hrun] at h; cases h
  | ok q =>
    obtain ⟨st, flag⟩ := q
    rw [hrun] at h
    dsimp only at h
    rw [hl] at hrun
    cases hg : env.gen (st.counter + 1) st.size st.mult with
    | error e => rw [hg] at h; cases h
    | ok s =>
      rw [hg] at h
      dsimp only at h
      cases h
      unfold mchRun at hrun
      by_cases heta : (convF kw custom 0).1.eta = none
      · rw [if_pos heta] at hrun; cases hrun
      rw [if_neg heta] at hrun
      cases hg0 : env.gen 0 size x0 with
      | error e => rw [hg0] at hrun; cases hrun
      | ok s0 =>
        rw [hg0] at hrun
        dsimp only at hrun
        cases ho : env.obs s0 with
        | error e => rw [ho] at hrun; cases hrun
        | ok cur =>
          rw [ho] at hrun
          dsimp only at hrun
          cases hb : broadcast2 (· - ·) cur c with
          | error e => rw [hb] at hrun; cases hrun
          | ok err =>
            rw [hb] at hrun
            dsimp only at hrun
            obtain ⟨r, hr, hall⟩ := mchLoop_some env (fun d => .ok d) c (convF kw custom) t1 t2 maxiter
              ((maxiter + 1).toNat + 1) ⟨x0, s0, cur, size, 0, [err]⟩ (by push_cast; omega) (by omega)
            rw [hr] at hrun
            obtain ⟨a1, a2, a3, a4, a5, a6, ⟨cur', b1, b2, b3⟩, -⟩ := hall st flag hrun
            have hlen : st.errors.length = st.counter + 1 := by simpa [add_comm] using a3
            have hlast : st.errors.getLastD [] = st.errors.getD st.counter [] := by
              rw [List.getLastD_eq_getLast?, List.getLast?_eq_getElem?, hlen, List.getD_eq_getElem?_getD]
              simp
            rw [hlast] at a6 b3
            have hle : (st.counter : ℤ) ≤ max 1 (maxiter + 1) := by simpa using a2
            simp only at a1
            refine ⟨st.counter, by omega, hle, hlen, ?_, ?_, ?_, ?_, rfl,
              st.size, st.sample, cur', b1, b2, b3, hg⟩
            · rcases a6 with ⟨-, h⟩ | ⟨-, h, -⟩
              · exact Or.inl h
              · exact Or.inr h
            · rcases a6 with ⟨h1, h2⟩ | ⟨h1, h2, -⟩
              · simp only [h2, true_iff]; exact h1
              · simp only [h2, one_ne_zero, false_iff]; exact h1
            · rcases a6 with ⟨h1, h2⟩ | ⟨h1, h2, h3⟩
              · intro h; simp only at h; omega
              · intro _; omega
            · intro t ht1 ht2
              exact a5 t (by simpa using ht1) (by omega)

/-- C44: the whole course of `MCH.solve` when it returns. It starts from the guess, zero by default;
round `t` changes the multipliers `x t` by one call of the learning step (C43) on the sample `s t` drawn
for them, with the settings of round `t`; every entry of the error history belongs to the multipliers
of its round. -/
theorem C44_trace (env : MchEnv S) (self guess constraints : Option (List ℝ)) (tol tolNorm : Option ℝ)
    (maxiter : ℤ) (kw : LearnKw) (custom : Option (ℕ → LearnKw × Option ℕ)) (size : ℕ)
    (c : List ℝ) (hc : constraints.or self = some c) (r : MchResult S)
    (h : mchSolve env self guess constraints tol tolNorm maxiter kw custom size = .ok r) :
    ∃ (R : ℕ) (x o : ℕ → List ℝ) (m : ℕ → ℕ) (s : ℕ → S), r.errors.length = R + 1 ∧
      x 0 = guess.getD (List.replicate c.length 0) ∧ m 0 = size ∧ x R = r.multipliers ∧
      (∀ t ≤ R, env.gen t (m t) (x t) = .ok (s t) ∧ env.obs (s t) = .ok (o t) ∧
        ((o t).length = c.length → r.errors.getD t [] = List.zipWith (· - ·) (o t) c)) ∧
      ∀ t < R, m (t + 1) = ((custom.getD fun _ => (kw, none)) t).2.getD (m t) ∧
        learnMch (env.approx (s t)) (fun d => .ok d) (o t) c
          ((custom.getD fun _ => (kw, none)) t).1.args (x t) = .ok (x (t + 1)) := by
  unfold mchSolve at h
  rw [hc] at h
  dsimp only at h
  split at h
  · cases h
  split at h
  · cases h
  rename_i st flag hrun
  split at h
  · cases h
  rename_i s1 hs1
  cases h
  obtain ⟨R, x, o, m, s, h1, h2, h3, h4, h5, h6, h7, h8, h9⟩ := mchRun_trace _ _ _ _ _ _ _ _ _ _ _ hrun
  refine ⟨R, x, o, m, s, h1, h2, h3, h4, fun t ht => ⟨(h8 t ht).1, (h8 t ht).2.1, fun hl => ?_⟩, h9⟩
  have := (h8 t ht).2.2
  rw [broadcast_same _ _ _ hl] at this
  exact (Except.ok.inj this).symm

/-- C44: `MCH.solve` always returns if all the calls it makes do: whatever samples the sampler
produces. `custom_convergence_f` returns values of one form and its first dictionary has the key
`eta`; the constraints and the guess have the same length. -/
theorem C44_returns (env : MchEnv S) (n : ℕ) (self guess constraints : Option (List ℝ))
    (tol tolNorm : Option ℝ) (maxiter : ℤ) (kw : LearnKw) (custom : Option (ℕ → LearnKw × Option ℕ))
    (size : ℕ) (c : List ℝ) (hc : constraints.or self = some c) (hcn : c.length = n)
    (hguess : ∀ g, guess = some g → g.length = n)
    (hf : ∀ i, ((convF kw custom i).2).isSome = ((convF kw custom 0).2).isSome)
    (heta : (convF kw custom 0).1.eta ≠ none)
    (hgen : ∀ t m x, x.length = n → ∃ s, env.gen t m x = .ok s)
    (hobs : ∀ s, ∃ o, env.obs s = .ok o ∧ o.length = n)
    (happ : ∀ s d, d.length = n → ∃ o, env.approx s d = .ok o ∧ o.length = n) :
    ∃ r, mchSolve env self guess constraints tol tolNorm maxiter kw custom size = .ok r := by
  obtain ⟨x0, hx0⟩ : ∃ x0, x0 = guess.getD (List.replicate c.length 0) := ⟨_, rfl⟩
  have hx : x0.length = n := by
    rw [hx0]
    cases hg : guess with
    | none => simpa using hcn
    | some g => exact hguess g hg
  obtain ⟨s0, hs0⟩ := hgen 0 size x0 hx
  obtain ⟨o, ho, hol⟩ := hobs s0
  unfold mchSolve
  rw [hc]
  dsimp only
  rw [← hx0, if_neg (by rw [hx, hcn]; simp)]
  obtain ⟨r, hr, hr'⟩ := mchLoop_some env (fun d => .ok d) c (convF kw custom)
    (orDefault tol (1 / √size)) (orDefault tolNorm (√(1 / size) * x0.length)) maxiter
    ((maxiter + 1).toNat + 1) ⟨x0, s0, o, size, 0, [List.zipWith (· - ·) o c]⟩ (by push_cast; omega)
    (by omega)
  have hrun : mchRun env (fun d => .ok d) c x0 (convF kw custom) (orDefault tol (1 / √size))
      (orDefault tolNorm (√(1 / size) * x0.length)) maxiter size = r := by
    unfold mchRun
    rw [if_neg heta, hs0]
    dsimp only
    rw [ho]
    dsimp only
    rw [broadcast_same _ _ _ (hol.trans hcn.symm)]
    dsimp only
    rw [hr]
  rw [hrun]
  cases r with
  | error e =>
    exact absurd hr (mchLoop_ok env n c hcn _ hf hgen hobs happ _ _ _ _ _ hx hol e)
  | ok q =>
    obtain ⟨st, flag⟩ := q
    obtain ⟨-, -, -, -, -, -, -, hI⟩ := hr' st flag rfl
    have hlen : st.mult.length = n := by
      refine hI (fun m => m.length = n) ?_ hx
      intro s cur kw m m' hm h
      obtain ⟨r, hr, hr'⟩ := learnLoop_some (env.approx s) c kw ((kw.maxLearningSteps + 1).toNat + 1)
        ⟨List.replicate c.length 0, cur, 1, 0⟩ (by push_cast; omega) (by omega)
      unfold learnMch at h
      rw [hr] at h
      cases r with
      | error e => cases h
      | ok st => exact (addInto_length _ _ _ h).trans hm
    obtain ⟨s1, hs1⟩ := hgen (st.counter + 1) st.size st.mult hlen
    dsimp only
    rw [hs1]
    exact ⟨_, rfl⟩

/-- A tolerance of zero is taken for a missing one. -/
theorem C44_zero_tolerance_ignored (env : MchEnv S) (self guess constraints : Option (List ℝ))
    (maxiter : ℤ) (kw : LearnKw) (custom : Option (ℕ → LearnKw × Option ℕ)) (size : ℕ) :
    mchSolve env self guess constraints (some 0) (some 0) maxiter kw custom size =
      mchSolve env self guess constraints none none maxiter kw custom size := by
  simp [mchSolve, orDefault]

/-- The check `'maxdlamda' and 'eta' in keys` looks for `eta` only: without `eta` it fails, and a
dictionary without `maxdlamda` passes and is completed by the default. -/
theorem C44_settings_check (env : MchEnv S) (fill : List ℝ → Py (List ℝ)) (c x0 : List ℝ)
    (f : ℕ → LearnKw × Option ℕ) (tol tolNorm : ℝ) (maxiter : ℤ) (size : ℕ) :
    ((f 0).1.eta = none → mchRun env fill c x0 f tol tolNorm maxiter size = .error .assertion) ∧
      (⟨none, none, none, some 3⟩ : LearnKw).args = ⟨1, 1, 50, 3⟩ := by
  refine ⟨fun h => ?_, rfl⟩
  unfold mchRun
  rw [if_pos h]

/-- A sampler that produces the observables `[1]` whatever the multipliers. -/
def constEnv (o : List ℝ) : MchEnv Unit where
  gen _ _ _ := .ok ()
  obs _ := .ok o
  approx _ _ := .ok o

/-- Non-vacuity of C44: with observables that never change, `solve` returns; flag 0 if they are the
constraints, 1 if they differ by more than the tolerance, after `maxiter+1` rounds. -/
example : (∃ r, mchSolve (constEnv [0]) none none (some [0]) none none 3 ⟨some 1, none, none, some 1⟩ none 4
      = .ok r ∧ r.errflag = 0) ∧
    ∃ r, mchSolve (constEnv [1]) none none (some [0]) none none 3 ⟨some 1, none, none, some 1⟩ none 4
      = .ok r ∧ r.errflag = 1 ∧ r.errors.length = 5 := by
  have key : ∀ v : ℝ, ∃ r, mchSolve (constEnv [v]) none none (some [0]) none none 3
      ⟨some 1, none, none, some 1⟩ none 4 = .ok r := fun v =>
    C44_returns (constEnv [v]) 1 none none (some [0]) none none 3 _ none 4 [0] rfl rfl (by simp)
      (by simp [convF]) (by simp [convF]) (fun _ _ _ _ => ⟨(), rfl⟩) (fun _ => ⟨_, rfl, rfl⟩)
      (fun _ _ _ => ⟨_, rfl, rfl⟩)
  have hw : ∀ v : ℝ, Within (numberOr none (1 / √(4 : ℕ))) (numberOr none (√(1 / (4 : ℕ)) * (1 : ℕ))) [v] ↔
      |v| < 1 / 2 := by
    intro v
    have h4 : √((4 : ℕ) : ℝ) = 2 := by
      rw [show ((4 : ℕ) : ℝ) = 2 ^ 2 by norm_num]; exact Real.sqrt_sq (by norm_num)
    simp only [Within, numberOr, euclid]
    rw [Real.sqrt_div zero_le_one, h4, Real.sqrt_one]
    simp [Real.sqrt_sq_eq_abs]
  constructor
  · obtain ⟨r, hr⟩ := key 0
    refine ⟨r, hr, ?_⟩
    obtain ⟨R, -, -, -, -, h0, -, -, -, m, s, o, -, ho, hb, -⟩ :=
      C44_solve _ none none _ none none 3 _ none 4 [0] rfl r hr
    rw [h0]
    have : r.errors.getD R [] = [0] := by
      simp only [constEnv, Except.ok.injEq] at ho
      subst ho
      simpa [broadcast2] using hb.symm
    rw [this]
    have := (hw 0).mpr (by norm_num)
    simpa using this
  · obtain ⟨r, hr⟩ := key 1
    obtain ⟨R, -, -, hl, hor, h0, h1, -, -, m, s, o, -, ho, hb, -⟩ :=
      C44_solve _ none none _ none none 3 _ none 4 [0] rfl r hr
    have he : r.errors.getD R [] = [1] := by
      simp only [constEnv, Except.ok.injEq] at ho
      subst ho
      simpa [broadcast2] using hb.symm
    have hn : ¬ r.errflag = 0 := by
      rw [h0, he]
      intro hcon
      have := (hw 1).mp (by simpa using hcon)
      norm_num at this
    have hf : r.errflag = 1 := by tauto
    have := h1 hf
    exact ⟨r, hr, hf, by omega⟩

/-! ### C45 -/

/-- C45: every learning round of `SparseMCH` keeps the multipliers outside `parameter_ix` at zero,
whatever the samples: `ix` is the sorted list of positions, as `np.unique` makes it. A single position
other than the last cannot be used (see C35). -/
theorem C45_every_round (env : MchEnv S) (N : ℕ) (ix : List ℕ) (hs : ix.Pairwise (· < ·))
    (hN : ∀ p ∈ ix, p < N) (h2 : 2 ≤ ix.length ∨ ix = [N - 1]) (c : List ℝ) (hc : c.length = ix.length)
    (f : ℕ → LearnKw × Option ℕ) (st st' : MchState S) (h0 : ZeroOutside N ix st.mult)
    (h : mchRound (sparseEnv env N ix) (fun d => fillIn N ix d 0) c f st = .ok st') :
    ZeroOutside N ix st'.mult := by
  obtain ⟨-, -, kw, hkw⟩ := mchRound_counter _ _ _ _ _ _ h
  exact learnMch_zeroOutside N ix hs hN h2 _ _ c _ _ hc kw h0 hkw

/-- C45: when `SparseMCH.solve` returns, its multipliers vanish outside `parameter_ix`, the returned
vector lists those at `parameter_ix` in order, and error flag and history are as for `MCH`. -/
theorem C45_solve (env : MchEnv S) (N : ℕ) (ix : List ℕ) (hs : ix.Pairwise (· < ·))
    (hN : ∀ p ∈ ix, p < N) (h2 : 2 ≤ ix.length ∨ ix = [N - 1])
    (self guess constraints : Option (List ℝ)) (tol tolNorm : Option ℝ) (maxiter : ℤ) (kw : LearnKw)
    (custom : Option (ℕ → LearnKw × Option ℕ)) (size : ℕ) (r : MchResult S)
    (h : sparseMchSolve env N ix self guess constraints tol tolNorm maxiter kw custom size = .ok r) :
    let t1 := numberOr tol (1 / √size)
    let t2 := numberOr tolNorm (√(1 / size) * N)
    ZeroOutside N ix r.multipliers ∧ r.returned.length = ix.length ∧
      (∀ j (hj : j < ix.length), r.returned[j]? = r.multipliers[ix[j]]?) ∧
      ∃ R : ℕ, 1 ≤ R ∧ (R : ℤ) ≤ max 1 (maxiter + 1) ∧ r.errors.length = R + 1 ∧
        (r.errflag = 0 ∨ r.errflag = 1) ∧ (r.errflag = 0 ↔ Within t1 t2 (r.errors.getD R [])) ∧
        (r.errflag = 1 → (R : ℤ) = max 1 (maxiter + 1)) := by
  intro t1 t2
  unfold sparseMchSolve at h
  cases hset : sparseMchSetup ix self guess constraints with
  | error e => rw [hset] at h; cases h
  | ok q =>
    obtain ⟨x0, c⟩ := q
    rw [hset] at h
    dsimp only at h
    have hlen : x0.length = ix.length ∧ c.length = ix.length := by
      unfold sparseMchSetup at hset
      dsimp only at hset
      by_cases h1 : (guess.getD (List.replicate ix.length 0)).length ≠ ix.length
      · rw [if_pos h1] at hset; cases hset
      · rw [if_neg h1] at hset
        push Not at h1
        cases hcs : constraints with
        | some c' =>
          rw [hcs] at hset
          dsimp only at hset
          by_cases h3 : (guess.getD (List.replicate ix.length 0)).length ≠ c'.length
          · rw [if_pos h3] at hset; cases hset
          · rw [if_neg h3] at hset
            cases hset
            push Not at h3
            exact ⟨h1, h3.symm.trans h1⟩
        | none =>
          rw [hcs] at hset
          dsimp only at hset
          cases hself : self with
          | none => rw [hself] at hset; cases hset
          | some c' =>
            rw [hself] at hset
            dsimp only at hset
            by_cases h3 : c'.length = ix.length
            · rw [if_pos h3] at hset; cases hset; exact ⟨h1, h3⟩
            · rw [if_neg h3] at hset; cases hset
    obtain ⟨full, hfull, hz⟩ := fillIn_zeroOutside N ix hs hN h2 x0 hlen.1
    rw [hfull] at h
    simp only [orDefault_eq, hz.1] at h
    cases hrun : mchRun (sparseEnv env N ix) (fun d => fillIn N ix d 0) c full (convF kw custom) t1 t2
        maxiter size with
    | error e => rw [hrun] at h; cases h
    | ok q =>
      obtain ⟨st, flag⟩ := q
      rw [hrun] at h
      dsimp only at h
      cases htake : takeIx st.mult ix with
      | error e => rw [htake] at h; cases h
      | ok ret =>
        rw [htake] at h
        cases h
        unfold mchRun at hrun
        by_cases heta : (convF kw custom 0).1.eta = none
        · rw [if_pos heta] at hrun; cases hrun
        rw [if_neg heta] at hrun
        cases hg0 : (sparseEnv env N ix).gen 0 size full with
        | error e => rw [hg0] at hrun; cases hrun
        | ok s0 =>
          rw [hg0] at hrun
          dsimp only at hrun
          cases ho : (sparseEnv env N ix).obs s0 with
          | error e => rw [ho] at hrun; cases hrun
          | ok cur =>
            rw [ho] at hrun
            dsimp only at hrun
            cases hb : broadcast2 (· - ·) cur c with
            | error e => rw [hb] at hrun; cases hrun
            | ok err =>
              rw [hb] at hrun
              dsimp only at hrun
              obtain ⟨r, hr, hall⟩ := mchLoop_some (sparseEnv env N ix) (fun d => fillIn N ix d 0) c
                (convF kw custom) t1 t2 maxiter
                ((maxiter + 1).toNat + 1) ⟨full, s0, cur, size, 0, [err]⟩ (by push_cast; omega) (by omega)
              rw [hr] at hrun
              obtain ⟨a1, a2, a3, a4, a5, a6, -, hI⟩ := hall st flag hrun
              have hzo : ZeroOutside N ix st.mult := hI (ZeroOutside N ix)
                (fun s cur kw m m' hm hl => learnMch_zeroOutside N ix hs hN h2 _ _ c _ _ hlen.2 kw hm hl) hz
              have helen : st.errors.length = st.counter + 1 := by simpa [add_comm] using a3
              have hlast : st.errors.getLastD [] = st.errors.getD st.counter [] := by
                rw [List.getLastD_eq_getLast?, List.getLast?_eq_getElem?, helen,
                  List.getD_eq_getElem?_getD]
                simp
              rw [hlast] at a6
              simp only at a1
              have a2' : (st.counter : ℤ) ≤ max 1 (maxiter + 1) := by simpa using a2
              have hm : ∀ i ∈ ix, getAt st.mult i = .ok (st.mult.getD i 0) := fun i hi =>
                getAt_getD st.mult i (by rw [hzo.1]; exact hN i hi) 0
              have hret : ret = ix.map fun i => st.mult.getD i 0 := by
                have := mapM_ok (fun i => getAt st.mult i) (fun i => st.mult.getD i 0) ix hm
                unfold takeIx at htake
                rw [this] at htake
                exact (Except.ok.inj htake).symm
              refine ⟨hzo, by rw [hret]; simp, ?_, st.counter, by omega, a2', helen, ?_, ?_, ?_⟩
              · intro j hj
                have hb : ix[j] < st.mult.length := by rw [hzo.1]; exact hN _ (List.getElem_mem hj)
                simp only [hret]
                rw [List.getElem?_map, List.getElem?_eq_getElem hj, List.getElem?_eq_getElem hb,
                  Option.map_some, List.getD_eq_getElem _ _ hb]
              · rcases a6 with ⟨-, h⟩ | ⟨-, h, -⟩
                · exact Or.inl h
                · exact Or.inr h
              · rcases a6 with ⟨h1, h2⟩ | ⟨h1, h2, -⟩
                · simp only [h2, true_iff]; exact h1
                · simp only [h2, one_ne_zero, false_iff]; exact h1
              · rcases a6 with ⟨h1, h2⟩ | ⟨h1, h2, h3⟩
                · intro h; simp only at h; omega
                · intro _; omega

/-- C45: the learning step of `SparseMCH` is that of `MCH` (C43) for the selected parameters: the
observables are predicted for the change that has the selected entries and zeros elsewhere, only the
selected ones are compared with the constraints, and the change reached is added to the multipliers at
the selected positions. -/
theorem C45_learn (env : MchEnv S) (s : S) (N : ℕ) (ix : List ℕ) (hs : ix.Pairwise (· < ·))
    (hN : ∀ p ∈ ix, p < N) (h2 : 2 ≤ ix.length ∨ ix = [N - 1]) (G : List ℝ → List ℝ)
    (hG : ∀ D, D.length = N → env.approx s D = .ok (G D) ∧ (G D).length = N) (est c mult : List ℝ)
    (a : LearnArgs) (hc : c.length = ix.length) (hest : est.length = ix.length) (hm : mult.length = N)
    (d e : ℕ → List ℝ) (w : ℕ → ℝ)
    (hp : LearnPath (fun d => ix.map fun p => (G (spread N ix d)).getD p 0) ix.length est c a.eta d e w) :
    let Exit : ℕ → Prop := fun t => euclid ix.length (d t) > a.maxdlamdaNorm ∨
      (∃ i < ix.length, |(d t).getD i 0| > a.maxdlamda) ∨ (t : ℤ) > a.maxLearningSteps
    ∃ T : ℕ, 1 ≤ T ∧ (T : ℤ) ≤ max 1 (a.maxLearningSteps + 1) ∧ Exit T ∧
      (∀ t, 1 ≤ t → t < T → ¬ Exit t) ∧
      ∃ r, learnMch ((sparseEnv env N ix).approx s) (fun d => fillIn N ix d 0) est c a mult = .ok r ∧
        r.length = N ∧ (∀ q < N, q ∉ ix → r.getD q 0 = mult.getD q 0) ∧
        ∀ j (hj : j < ix.length), r.getD ix[j] 0 = mult.getD ix[j] 0 + (d T).getD j 0 := by
  intro Exit
  have hfill : ∀ d : List ℝ, d.length = ix.length → fillIn N ix d 0 = .ok (spread N ix d) :=
    fun d hd => fillIn_eq N ix hs hN h2 d hd 0
  have hlen : ∀ d, (spread N ix d).length = N := fun d => by simp [spread]
  obtain ⟨T, h1, h2, h3, h4, h5⟩ := learnMch_path ((sparseEnv env N ix).approx s)
    (fun d => ix.map fun p => (G (spread N ix d)).getD p 0) ix.length
    (fun d hd => by
      refine ⟨?_, by simp⟩
      simp only [sparseEnv]
      rw [hfill d hd]
      dsimp only
      rw [(hG _ (hlen d)).1]
      dsimp only
      exact takeIx_ok _ ix fun p hp => by rw [(hG _ (hlen d)).2]; exact hN p hp)
    est c mult a hc hest (fun d => fillIn N ix d 0) (spread N ix)
    (fun d hd => ⟨hfill d hd, (hlen d).trans hm.symm⟩) d e w hp
  have key : ∀ q < N, (List.zipWith (· + ·) mult (spread N ix (d T))).getD q 0 =
      mult.getD q 0 + if q ∈ ix then (d T).getD (ix.idxOf q) 0 else 0 := by
    intro q hq
    rw [List.getD_eq_getElem _ _ (by simp [hm, hlen, hq]), List.getElem_zipWith,
      List.getD_eq_getElem _ _ (by rw [hm]; exact hq)]
    simp [spread]
  refine ⟨T, h1, h2, h3, h4, _, h5, by simp [hm, hlen], ?_, ?_⟩
  · intro q hq hn
    rw [key q hq, if_neg hn, add_zero]
  · intro j hj
    rw [key _ (hN _ (List.getElem_mem hj)), if_pos (List.getElem_mem hj),
      List.Nodup.idxOf_getElem (hs.imp fun h => ne_of_lt h)]

/-- C45: the whole course of `SparseMCH.solve` when it returns: as for `MCH` (C44_trace), but starting
from the guess at the selected positions and zeros elsewhere, and with only the selected observables
compared with the constraints. -/
theorem C45_trace (env : MchEnv S) (N : ℕ) (ix : List ℕ) (hs : ix.Pairwise (· < ·))
    (hN : ∀ p ∈ ix, p < N) (h2 : 2 ≤ ix.length ∨ ix = [N - 1])
    (self guess constraints : Option (List ℝ)) (tol tolNorm : Option ℝ) (maxiter : ℤ) (kw : LearnKw)
    (custom : Option (ℕ → LearnKw × Option ℕ)) (size : ℕ) (c : List ℝ)
    (hc : constraints.or self = some c) (r : MchResult S)
    (h : sparseMchSolve env N ix self guess constraints tol tolNorm maxiter kw custom size = .ok r) :
    ∃ (R : ℕ) (x o : ℕ → List ℝ) (m : ℕ → ℕ) (s : ℕ → S), r.errors.length = R + 1 ∧
      x 0 = spread N ix (guess.getD (List.replicate ix.length 0)) ∧ m 0 = size ∧
      x R = r.multipliers ∧ s R = r.sample ∧
      (∀ t ≤ R, env.gen t (m t) (x t) = .ok (s t) ∧ ∃ full, env.obs (s t) = .ok full ∧
        o t = ix.map (fun p => full.getD p 0) ∧ (∀ p ∈ ix, p < full.length) ∧
        r.errors.getD t [] = List.zipWith (· - ·) (o t) c) ∧
      ∀ t < R, m (t + 1) = ((custom.getD fun _ => (kw, none)) t).2.getD (m t) ∧
        learnMch ((sparseEnv env N ix).approx (s t)) (fun d => fillIn N ix d 0) (o t) c
          ((custom.getD fun _ => (kw, none)) t).1.args (x t) = .ok (x (t + 1)) := by
  unfold sparseMchSolve at h
  split at h
  · cases h
  rename_i x0 c' hset
  have hlen : x0 = guess.getD (List.replicate ix.length 0) ∧ x0.length = ix.length ∧ c' = c ∧
      c.length = ix.length := by
    unfold sparseMchSetup at hset
    dsimp only at hset
    split at hset
    · cases hset
    rename_i h1
    push Not at h1
    split at hset
    · rename_i c1
      split at hset
      · cases hset
      rename_i h3
      push Not at h3
      cases hset
      obtain rfl := Option.some.inj hc
      exact ⟨rfl, h1, rfl, h3.symm.trans h1⟩
    · split at hset
      · cases hset
      split at hset
      · rename_i c1 h3
        cases hset
        obtain rfl := Option.some.inj hc
        exact ⟨rfl, h1, rfl, h3⟩
      · cases hset
  obtain ⟨e1, e2, rfl, e4⟩ := hlen
  rw [fillIn_eq N ix hs hN h2 x0 e2 0] at h
  dsimp only at h
  split at h
  · cases h
  rename_i st flag hrun
  split at h
  · cases h
  cases h
  obtain ⟨R, x, o, m, s, h1, h2, h3, h4, h5, h6, h7, h8, h9⟩ := mchRun_trace _ _ _ _ _ _ _ _ _ _ _ hrun
  refine ⟨R, x, o, m, s, h1, ?_, h3, h4, h5, fun t ht => ⟨(h8 t ht).1, ?_⟩, h9⟩
  · rw [h2, ← e1]; rfl
  · obtain ⟨-, k2, k3⟩ := h8 t ht
    simp only [sparseEnv] at k2
    split at k2
    · cases k2
    rename_i full hfull
    have hin : ∀ p ∈ ix, p < full.length := by
      intro p hp
      by_contra hcon
      have herr : getAt full p = .error .indexError := by
        unfold getAt
        rw [List.getElem?_eq_none (by omega)]
      obtain ⟨b, hb⟩ := mapM_error (fun i => getAt full i) ix _ k2 p hp
      rw [herr] at hb
      cases hb
    rw [takeIx_ok full ix hin] at k2
    have ho : o t = ix.map fun p => full.getD p 0 := (Except.ok.inj k2).symm
    refine ⟨full, hfull, ho, hin, ?_⟩
    rw [broadcast_same _ _ _ (by rw [ho, e4]; simp)] at k3
    exact (Except.ok.inj k3).symm

/-- Without given constraints those of the whole sample are used, so `SparseMCH.solve` raises unless
all parameters are selected. -/
theorem C45_default_constraints_raise (env : MchEnv S) (N : ℕ) (ix : List ℕ) (sc : List ℝ)
    (hN : sc.length = N) (hix : ix.length < N) (tol tolNorm : Option ℝ) (maxiter : ℤ) (kw : LearnKw)
    (custom : Option (ℕ → LearnKw × Option ℕ)) (size : ℕ) :
    sparseMchSolve env N ix (some sc) none none tol tolNorm maxiter kw custom size =
      .error .assertion := by
  have : ¬ N = ix.length := by omega
  simp [sparseMchSolve, sparseMchSetup, hN, this]

/-- Non-vacuity of C45: the hypotheses on `parameter_ix` and the shape of the multipliers. -/
example : ZeroOutside 4 [1, 3] [0, 5, 0, 6] ∧ ([1, 3] : List ℕ).Pairwise (· < ·) ∧
    fillIn 4 [1, 3] ([5, 6] : List ℝ) 0 = .ok [0, 5, 0, 6] := by
  refine ⟨⟨rfl, fun q hq hn => ?_⟩, by decide, ?_⟩
  · interval_cases q <;> simp at hn ⊢
  · simp [fillIn, insertionIx, npInsert, List.range, List.range.loop, List.count, List.countP,
      List.countP.go]

end Verif.Props
