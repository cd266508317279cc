/-
Helper lemmas for the Monte Carlo histogram solvers.
-/
import Verif.Model.MchSolve
import Verif.Spec.Learn
import Verif.Lemmas.Solvers
import Verif.Lemmas.Pseudo
import Mathlib.Tactic.Ring
import Mathlib.Tactic.Linarith

namespace Verif.Lemmas
open Verif Verif.Model Verif.Spec

theorem sum_list_range (v : List ℝ) (f : ℝ → ℝ) :
    (v.map f).sum = ∑ i ∈ Finset.range v.length, f (v.getD i 0) := by
  induction v with
  | nil => simp
  | cons x xs ih => simp [Finset.sum_range_succ', ih, add_comm]

theorem vecNorm_eq (v : List ℝ) : vecNorm v = euclid v.length v := by
  unfold vecNorm euclid
  rw [sum_list_range]
  simp [sq]

theorem broadcast_same {K : Type*} (f : K → K → K) (a b : List K) (h : a.length = b.length) :
    broadcast2 f a b = .ok (List.zipWith f a b) := by simp [broadcast2, h]

theorem getD_zipWith_sub (a b : List ℝ) (h : a.length = b.length) (i : ℕ) :
    (List.zipWith (· - ·) a b).getD i 0 = a.getD i 0 - b.getD i 0 := by
  by_cases hi : i < a.length
  · have hb : i < b.length := h ▸ hi
    simp [List.getD_eq_getElem?_getD, hi, hb]
  · have hb : ¬ i < b.length := h ▸ hi
    rw [List.getD_eq_default _ _ (by simp; omega), List.getD_eq_default _ _ (by omega),
      List.getD_eq_default _ _ (by omega), sub_zero]

theorem vecNorm_sub (a b : List ℝ) (n : ℕ) (ha : a.length = n) (hb : b.length = n) :
    vecNorm (List.zipWith (· - ·) a b) = euclidDist n a b := by
  rw [vecNorm_eq]
  unfold euclid euclidDist
  rw [List.length_zipWith, ha, hb, Nat.min_self]
  congr 1
  refine Finset.sum_congr rfl fun i _ => ?_
  rw [getD_zipWith_sub a b (ha.trans hb.symm)]

theorem addInto_same (a b : List ℝ) (h : b.length = a.length) :
    addInto a b = .ok (List.zipWith (· + ·) a b) := by simp [addInto, assignRow, h]

theorem addInto_length (a b r : List ℝ) (h : addInto a b = .ok r) : r.length = a.length := by
  unfold addInto assignRow at h
  by_cases h1 : b.length = a.length
  · simp [h1] at h
    subst h; simp [h1]
  · rw [if_neg h1] at h
    match b, h with
    | [x], h => simp at h; subst h; simp

/-- One step of the loop follows the path. -/
theorem learnStep_path (approx : List ℝ → Py (List ℝ)) (g : List ℝ → List ℝ) (n : ℕ)
    (hg : ∀ d, d.length = n → approx d = .ok (g d) ∧ (g d).length = n) (est c : List ℝ) (eta : ℝ)
    (hc : c.length = n) (hest : est.length = n) (d e : ℕ → List ℝ) (w : ℕ → ℝ)
    (hp : LearnPath g n est c eta d e w) (t : ℕ) :
    learnStep approx c eta ⟨d t, e t, w t, t⟩ = .ok ⟨d (t + 1), e (t + 1), w (t + 1), t + 1⟩ := by
  have he : ∀ t, (e t).length = n := by
    intro t
    cases t with
    | zero => rw [hp.start_e, hest]
    | succ t => rw [hp.pred]; exact (hg _ (hp.len _)).2
  have hd : List.zipWith (· + ·) (d t)
      ((List.zipWith (· - ·) (e t) c).map fun x => -x * min (w t) 1 * eta) = d (t + 1) := by
    refine List.ext_getElem (by simp [hp.len, he, hc]) fun i h1 h2 => ?_
    have hi : i < n := by simpa [hp.len] using h2
    have := hp.step t i hi
    rw [List.getD_eq_getElem _ _ h2, List.getD_eq_getElem _ _ (by rw [hp.len]; exact hi),
      List.getD_eq_getElem _ _ (by rw [hc]; exact hi), List.getD_eq_getElem _ _ (by rw [he]; exact hi)]
      at this
    rw [this]
    simp only [List.getElem_zipWith, List.getElem_map]
    rw [show min 1 (w t) = min (w t) 1 from min_comm _ _]; ring
  unfold learnStep
  rw [broadcast_same _ _ _ (by rw [he, hc])]
  dsimp only
  rw [addInto_same _ _ (by simp [hp.len, he, hc]), hd]
  dsimp only
  rw [(hg _ (hp.len _)).1]
  dsimp only
  rw [broadcast_same _ _ _ (by rw [(hg _ (hp.len _)).2, hc])]
  dsimp only
  rw [vecNorm_sub _ _ n (hg _ (hp.len _)).2 hc, ← hp.pred, ← hp.dist]

/-- The loop stops at the first step that meets an exit criterion. -/
theorem learnLoop_path (approx : List ℝ → Py (List ℝ)) (c : List ℝ) (a : LearnArgs)
    (st : ℕ → LearnState) (hst : ∀ t, learnStep approx c a.eta (st t) = .ok (st (t + 1))) (T : ℕ)
    (hT : learnStops a (st T)) (fuel t : ℕ) (ht : t < T) (hf : T ≤ t + fuel)
    (hn : ∀ u, t < u → u < T → ¬ learnStops a (st u)) :
    learnLoop approx c a fuel (st t) = some (.ok (st T)) := by
  induction fuel generalizing t with
  | zero => omega
  | succ fuel ih =>
    rw [learnLoop, hst]
    dsimp only
    by_cases h : t + 1 = T
    · subst h; rw [if_pos hT]
    · rw [if_neg (hn (t + 1) (by omega) (by omega))]
      exact ih (t + 1) (by omega) (by omega) fun u h1 h2 => hn u (by omega) h2

theorem learnStep_steps (approx : List ℝ → Py (List ℝ)) (c : List ℝ) (eta : ℝ) (st st' : LearnState)
    (h : learnStep approx c eta st = .ok st') :
    st'.steps = st.steps + 1 ∧ st'.dlamda.length = st.dlamda.length := by
  unfold learnStep at h
  cases h1 : broadcast2 (· - ·) st.est c with
  | error e => simp [h1] at h
  | ok diff =>
    simp only [h1] at h
    cases h2 : addInto st.dlamda (diff.map fun x => -x * min st.distance 1 * eta) with
    | error e => rw [h2] at h; cases h
    | ok d =>
      simp only [h2] at h
      cases h3 : approx d with
      | error e => simp [h3] at h
      | ok est =>
        simp only [h3] at h
        cases h4 : broadcast2 (· - ·) est c with
        | error e => simp [h4] at h
        | ok diff' =>
          simp only [h4] at h
          cases h
          exact ⟨rfl, addInto_length _ _ _ h2⟩

/-- The bound on the number of rounds is never used up. -/
theorem learnLoop_some (approx : List ℝ → Py (List ℝ)) (c : List ℝ) (a : LearnArgs) (fuel : ℕ)
    (st : LearnState) (hf : a.maxLearningSteps < st.steps + fuel) (h1 : 1 ≤ fuel) :
    ∃ r, learnLoop approx c a fuel st = some r ∧
      ∀ st', r = .ok st' → learnStops a st' ∧ st'.dlamda.length = st.dlamda.length ∧
        st.steps + 1 ≤ st'.steps ∧
        (st'.steps : ℤ) ≤ max (st.steps + 1 : ℤ) (a.maxLearningSteps + 1) := by
  induction fuel generalizing st with
  | zero => omega
  | succ fuel ih =>
    rw [learnLoop]
    cases h : learnStep approx c a.eta st with
    | error e => exact ⟨_, rfl, by simp⟩
    | ok st1 =>
      obtain ⟨hs, hl⟩ := learnStep_steps _ _ _ _ _ h
      dsimp only
      by_cases hstop : learnStops a st1
      · rw [if_pos hstop]
        refine ⟨_, rfl, ?_⟩
        intro st' h'
        cases h'
        exact ⟨hstop, hl, by omega, by omega⟩
      · rw [if_neg hstop]
        have hlt : (st1.steps : ℤ) ≤ a.maxLearningSteps := by
          by_contra hc
          exact hstop (Or.inr (Or.inr (not_le.mp hc)))
        obtain ⟨r, hr, hr'⟩ := ih st1 (by push_cast at *; omega) (by
          push_cast at hf
          omega)
        refine ⟨r, hr, fun st' h' => ?_⟩
        obtain ⟨a1, a2, a3, a4⟩ := hr' st' h'
        exact ⟨a1, a2.trans hl, by omega, by omega⟩

/-- A path exists. -/
theorem learnPath_exists (g : List ℝ → List ℝ) (n : ℕ) (est c : List ℝ) (eta : ℝ) :
    ∃ d e w, LearnPath g n est c eta d e w := by
  let nxt : List ℝ × List ℝ × ℝ → List ℝ × List ℝ × ℝ := fun p =>
    let d := (List.range n).map fun i =>
      p.1.getD i 0 + eta * min 1 p.2.2 * (c.getD i 0 - p.2.1.getD i 0)
    (d, g d, euclidDist n (g d) c)
  let s : ℕ → List ℝ × List ℝ × ℝ := fun t => nxt^[t] (List.replicate n 0, est, 1)
  have hs : ∀ t, s (t + 1) = nxt (s t) := fun t => Function.iterate_succ_apply' _ _ _
  refine ⟨fun t => (s t).1, fun t => (s t).2.1, fun t => (s t).2.2, ⟨rfl, rfl, rfl, ?_, ?_, ?_, ?_⟩⟩
  · intro t
    cases t with
    | zero => simp [s]
    | succ t => simp only [hs]; simp [nxt]
  · intro t i hi
    simp only [hs]
    simp [nxt, List.getD_eq_getElem?_getD, List.getElem?_map, List.getElem?_range hi]
  · intro t; simp only [hs]; rfl
  · intro t; simp only [hs]; rfl

variable {S : Type*}

theorem mchRound_counter (env : MchEnv S) (fill : List ℝ → Py (List ℝ)) (c : List ℝ)
    (f : ℕ → LearnKw × Option ℕ) (st st' : MchState S) (h : mchRound env fill c f st = .ok st') :
    st'.counter = st.counter + 1 ∧ (∃ err, st'.errors = st.errors ++ [err] ∧
      ∃ cur, env.gen st'.counter st'.size st'.mult = .ok st'.sample ∧
        env.obs st'.sample = .ok cur ∧ broadcast2 (· - ·) cur c = .ok err) ∧
      ∃ kw, learnMch (env.approx st.sample) fill st.cur c kw st.mult = .ok st'.mult := by
  unfold mchRound at h
  cases h1 : mchSettings f st.counter st.size with
  | error e => simp [h1] at h
  | ok q =>
    simp only [h1] at h
    cases h2 : learnMch (env.approx st.sample) fill st.cur c q.1.args st.mult with
    | error e => simp [h2] at h
    | ok m =>
      simp only [h2] at h
      cases h3 : env.gen (st.counter + 1) q.2 m with
      | error e => simp [h3] at h
      | ok s =>
        simp only [h3] at h
        cases h4 : env.obs s with
        | error e => simp [h4] at h
        | ok cur =>
          simp only [h4] at h
          cases h5 : broadcast2 (· - ·) cur c with
          | error e => simp [h5] at h
          | ok err =>
            simp only [h5] at h
            cases h
            exact ⟨rfl, ⟨err, rfl, cur, h3, h4, h5⟩, ⟨_, h2⟩⟩

/-- The main loop: it ends within the bound, and what holds at its end. `I` is any invariant of the
multipliers. -/
theorem mchLoop_some (env : MchEnv S) (fill : List ℝ → Py (List ℝ)) (c : List ℝ)
    (f : ℕ → LearnKw × Option ℕ) (tol tolNorm : ℝ) (maxiter : ℤ) (fuel : ℕ) (st : MchState S)
    (hf : maxiter < st.counter + fuel) (h1 : 1 ≤ fuel) :
    ∃ r, mchLoop env fill c f tol tolNorm maxiter fuel st = some r ∧
      ∀ st' flag, r = .ok (st', flag) →
        st.counter + 1 ≤ st'.counter ∧
        (st'.counter : ℤ) ≤ max (st.counter + 1 : ℤ) (maxiter + 1) ∧
        st'.errors.length + st.counter = st.errors.length + st'.counter ∧
        st.errors <+: st'.errors ∧
        (∀ t, st.errors.length ≤ t → t + 1 < st'.errors.length →
          ¬ Within tol tolNorm (st'.errors.getD t [])) ∧
        (Within tol tolNorm (st'.errors.getLastD []) ∧ flag = 0 ∨
          ¬ Within tol tolNorm (st'.errors.getLastD []) ∧ flag = 1 ∧ (st'.counter : ℤ) > maxiter) ∧
        (∃ cur, env.gen st'.counter st'.size st'.mult = .ok st'.sample ∧
          env.obs st'.sample = .ok cur ∧ broadcast2 (· - ·) cur c = .ok (st'.errors.getLastD [])) ∧
        ∀ I : List ℝ → Prop, (∀ s cur kw m m', I m →
          learnMch (env.approx s) fill cur c kw m = .ok m' → I m') → I st.mult → I st'.mult := by
  induction fuel generalizing st with
  | zero => omega
  | succ fuel ih =>
    rw [mchLoop]
    cases h : mchRound env fill c f st with
    | error e => exact ⟨_, rfl, by simp⟩
    | ok st1 =>
      obtain ⟨hc, ⟨err, herr, cur, hgen, hobs, hb⟩, kw, hkw⟩ := mchRound_counter _ _ _ _ _ _ h
      have hlast : st1.errors.getLastD [] = err := by rw [herr]; simp
      have hlen : st1.errors.length = st.errors.length + 1 := by rw [herr]; simp
      have hdone : mchDone tol tolNorm st1 ↔ Within tol tolNorm (st1.errors.getLastD []) := by
        unfold mchDone Within
        rw [vecNorm_eq]
      have hI : ∀ I : List ℝ → Prop, (∀ s cur kw m m', I m →
          learnMch (env.approx s) fill cur c kw m = .ok m' → I m') → I st.mult → I st1.mult :=
        fun I hI h0 => hI _ _ _ _ _ h0 hkw
      have hpre : st.errors <+: st1.errors := by rw [herr]; exact List.prefix_append _ _
      have hno : ∀ t, st.errors.length ≤ t → t + 1 < st1.errors.length →
          ¬ Within tol tolNorm (st1.errors.getD t []) := fun t a b => by omega
      dsimp only
      by_cases hd : mchDone tol tolNorm st1
      · rw [if_pos hd]
        refine ⟨_, rfl, ?_⟩
        rintro st' flag h'
        cases h'
        exact ⟨by omega, by omega, by omega, hpre, hno, Or.inl ⟨hdone.mp hd, rfl⟩,
          ⟨cur, hgen, hobs, by rw [hlast]; exact hb⟩, hI⟩
      · rw [if_neg hd]
        by_cases hm : (st1.counter : ℤ) > maxiter
        · rw [if_pos hm]
          refine ⟨_, rfl, ?_⟩
          rintro st' flag h'
          cases h'
          exact ⟨by omega, by omega, by omega, hpre, hno, Or.inr ⟨fun hw => hd (hdone.mpr hw), rfl, hm⟩,
            ⟨cur, hgen, hobs, by rw [hlast]; exact hb⟩, hI⟩
        · rw [if_neg hm]
          obtain ⟨r, hr, hr'⟩ := ih st1 (by push_cast at *; omega) (by push_cast at *; omega)
          refine ⟨r, hr, fun st' flag h' => ?_⟩
          obtain ⟨a1, a2, a3, a4, a5, a6, a7, a8⟩ := hr' st' flag h'
          refine ⟨by omega, by omega, by omega, hpre.trans a4, ?_, a6, a7,
            fun I hI1 h0 => a8 I hI1 (hI I hI1 h0)⟩
          intro t ht1 ht2
          by_cases heq : t = st.errors.length
          · subst heq
            have hg : st'.errors.getD st.errors.length [] = err := by
              obtain ⟨tl, htl⟩ := a4
              rw [← htl, herr]
              simp
            rw [hg, ← hlast]
            exact fun hw => hd (hdone.mpr hw)
          · exact a5 t (by omega) ht2

theorem orDefault_eq (x : Option ℝ) (d : ℝ) : orDefault x d = numberOr x d := by
  unfold orDefault numberOr
  cases x with
  | none => simp
  | some v => by_cases h : v = 0 <;> simp [h]

/-- Oracles that succeed: learning succeeds and keeps the length. -/
theorem learnMch_ok (approx : List ℝ → Py (List ℝ)) (n : ℕ)
    (hg : ∀ d, d.length = n → ∃ o, approx d = .ok o ∧ o.length = n) (est c mult : List ℝ)
    (a : LearnArgs) (hc : c.length = n) (hest : est.length = n) (hm : mult.length = n) :
    ∃ r, learnMch approx (fun d => .ok d) est c a mult = .ok r ∧ r.length = n := by
  have hok : ∀ fuel st, st.dlamda.length = n → st.est.length = n →
      ∀ e, learnLoop approx c a fuel st ≠ some (.error e) := by
    intro fuel
    induction fuel with
    | zero => intro st _ _ e; simp [learnLoop]
    | succ fuel ih =>
      intro st h1 h2 e
      obtain ⟨st', hst', h3, h4⟩ : ∃ st', learnStep approx c a.eta st = .ok st' ∧
          st'.dlamda.length = n ∧ st'.est.length = n := by
        unfold learnStep
        rw [broadcast_same _ _ _ (h2.trans hc.symm)]
        dsimp only
        rw [addInto_same _ _ (by simp [h1, h2, hc])]
        dsimp only
        obtain ⟨o, ho, hol⟩ := hg (List.zipWith (· + ·) st.dlamda
          ((List.zipWith (· - ·) st.est c).map fun x => -x * min st.distance 1 * a.eta))
          (by simp [h1, h2, hc])
        rw [ho]
        dsimp only
        rw [broadcast_same _ _ _ (hol.trans hc.symm)]
        exact ⟨_, rfl, by simp [h1, h2, hc], hol⟩
      rw [learnLoop, hst']
      dsimp only
      by_cases hs : learnStops a st'
      · rw [if_pos hs]; simp
      · rw [if_neg hs]; exact ih st' h3 h4 e
  obtain ⟨r, hr, hr'⟩ := learnLoop_some approx c a ((a.maxLearningSteps + 1).toNat + 1)
    ⟨List.replicate c.length 0, est, 1, 0⟩ (by push_cast; omega) (by omega)
  cases r with
  | error e => exact absurd hr (hok _ _ (by simpa using hc) hest e)
  | ok st =>
    obtain ⟨-, hl, -, -⟩ := hr' st rfl
    have hl' : st.dlamda.length = n := by simpa [hc] using hl
    refine ⟨List.zipWith (· + ·) mult st.dlamda, ?_, by simp [hm, hl']⟩
    unfold learnMch
    rw [hr]
    dsimp only
    rw [addInto_same _ _ (hl'.trans hm.symm)]

/-- The whole loop succeeds if all calls do. -/
theorem mchLoop_ok (env : MchEnv S) (n : ℕ) (c : List ℝ) (hc : c.length = n)
    (f : ℕ → LearnKw × Option ℕ) (hf : ∀ i, ((f i).2).isSome = ((f 0).2).isSome)
    (hgen : ∀ t m x, x.length = n → ∃ s, env.gen t m x = .ok s)
    (hobs : ∀ s, ∃ o, env.obs s = .ok o ∧ o.length = n)
    (happ : ∀ s d, d.length = n → ∃ o, env.approx s d = .ok o ∧ o.length = n)
    (tol tolNorm : ℝ) (maxiter : ℤ) (fuel : ℕ) (st : MchState S) (h1 : st.mult.length = n)
    (h2 : st.cur.length = n) (e : PyErr) :
    mchLoop env (fun d => .ok d) c f tol tolNorm maxiter fuel st ≠ some (.error e) := by
  induction fuel generalizing st with
  | zero => simp [mchLoop]
  | succ fuel ih =>
    obtain ⟨st', hst', h3, h4⟩ : ∃ st', mchRound env (fun d => .ok d) c f st = .ok st' ∧
        st'.mult.length = n ∧ st'.cur.length = n := by
      obtain ⟨q, hq⟩ : ∃ q, mchSettings f st.counter st.size = .ok q := by
        have := hf st.counter
        unfold mchSettings
        cases ha : (f 0).2 <;> cases hb : (f st.counter).2 <;> simp [ha, hb] at this ⊢
      obtain ⟨m, hm, hml⟩ := learnMch_ok (env.approx st.sample) n (happ st.sample) st.cur c st.mult
        q.1.args hc h2 h1
      obtain ⟨s, hs⟩ := hgen (st.counter + 1) q.2 m hml
      obtain ⟨o, ho, hol⟩ := hobs s
      unfold mchRound
      rw [hq]
      dsimp only
      rw [hm]
      dsimp only
      rw [hs]
      dsimp only
      rw [ho]
      dsimp only
      rw [broadcast_same _ _ _ (hol.trans hc.symm)]
      exact ⟨_, rfl, hml, hol⟩
    rw [mchLoop, hst']
    dsimp only
    by_cases hd : mchDone tol tolNorm st'
    · rw [if_pos hd]; simp
    · rw [if_neg hd]
      by_cases hm : (st'.counter : ℤ) > maxiter
      · rw [if_pos hm]; simp
      · rw [if_neg hm]; exact ih st' h3 h4

theorem fillIn_zeroOutside (N : ℕ) (ix : List ℕ) (hs : ix.Pairwise (· < ·)) (hN : ∀ p ∈ ix, p < N)
    (h2 : 2 ≤ ix.length ∨ ix = [N - 1]) (x : List ℝ) (hx : x.length = ix.length) :
    ∃ full, fillIn N ix x 0 = .ok full ∧ ZeroOutside N ix full := by
  refine ⟨_, fillIn_eq N ix hs hN h2 x hx 0, by simp, ?_⟩
  intro q hq hn
  rw [List.getElem?_map, List.getElem?_range hq, Option.map_some, if_neg hn]

theorem addInto_zeroOutside (N : ℕ) (ix : List ℕ) (a b r : List ℝ) (ha : ZeroOutside N ix a)
    (hb : ZeroOutside N ix b) (h : addInto a b = .ok r) : ZeroOutside N ix r := by
  rw [addInto_same a b (hb.1.trans ha.1.symm)] at h
  cases h
  refine ⟨by simp [ha.1, hb.1], fun q hq hn => ?_⟩
  rw [List.getElem?_zipWith, ha.2 q hq hn, hb.2 q hq hn]
  simp

/-- Learning with filled-in changes keeps the zeros. -/
theorem learnMch_zeroOutside (N : ℕ) (ix : List ℕ) (hs : ix.Pairwise (· < ·)) (hN : ∀ p ∈ ix, p < N)
    (h2 : 2 ≤ ix.length ∨ ix = [N - 1]) (approx : List ℝ → Py (List ℝ)) (est c m m' : List ℝ)
    (hc : c.length = ix.length) (a : LearnArgs) (hm : ZeroOutside N ix m)
    (h : learnMch approx (fun d => fillIn N ix d 0) est c a m = .ok m') : ZeroOutside N ix m' := by
  obtain ⟨r, hr, hr'⟩ := learnLoop_some approx c a ((a.maxLearningSteps + 1).toNat + 1)
    ⟨List.replicate c.length 0, est, 1, 0⟩ (by push_cast; omega) (by omega)
  unfold learnMch at h
  rw [hr] at h
  cases r with
  | error e => cases h
  | ok st =>
    obtain ⟨-, hl, -, -⟩ := hr' st rfl
    obtain ⟨full, hf, hz⟩ := fillIn_zeroOutside N ix hs hN h2 st.dlamda (by simpa [hc] using hl)
    dsimp only at h
    rw [hf] at h
    exact addInto_zeroOutside N ix m full m' hm hz h

/-- Learning along a path, with any way of filling in the change. -/
theorem learnMch_path (approx : List ℝ → Py (List ℝ)) (g : List ℝ → List ℝ) (n : ℕ)
    (hg : ∀ d, d.length = n → approx d = .ok (g d) ∧ (g d).length = n) (est c mult : List ℝ)
    (a : LearnArgs) (hc : c.length = n) (hest : est.length = n)
    (fill : List ℝ → Py (List ℝ)) (F : List ℝ → List ℝ)
    (hfill : ∀ d, d.length = n → fill d = .ok (F d) ∧ (F d).length = mult.length)
    (d e : ℕ → List ℝ) (w : ℕ → ℝ) (hp : LearnPath g n est c a.eta d e w) :
    let Exit : ℕ → Prop := fun t => euclid n (d t) > a.maxdlamdaNorm ∨
      (∃ i < n, |(d t).getD i 0| > a.maxdlamda) ∨ (t : ℤ) > a.maxLearningSteps
    ∃ T : ℕ, 1 ≤ T ∧ (T : ℤ) ≤ max 1 (a.maxLearningSteps + 1) ∧ Exit T ∧
      (∀ t, 1 ≤ t → t < T → ¬ Exit t) ∧
      learnMch approx fill est c a mult = .ok (List.zipWith (· + ·) mult (F (d T))) := by
  intro Exit
  have hex : ∀ t, learnStops a ⟨d t, e t, w t, t⟩ ↔ Exit t := by
    intro t
    simp only [learnStops, Exit]
    rw [vecNorm_eq, hp.len]
    have : (∃ x ∈ d t, |x| > a.maxdlamda) ↔ ∃ i < n, |(d t).getD i 0| > a.maxdlamda := by
      constructor
      · rintro ⟨x, hx, hgt⟩
        obtain ⟨i, hi, rfl⟩ := List.getElem_of_mem hx
        exact ⟨i, by rw [← hp.len t]; exact hi, by rw [List.getD_eq_getElem _ _ hi]; exact hgt⟩
      · rintro ⟨i, hi, hgt⟩
        rw [← hp.len t] at hi
        rw [List.getD_eq_getElem _ _ hi] at hgt
        exact ⟨_, List.getElem_mem hi, hgt⟩
    rw [this]
  have hex1 : ∃ t, 1 ≤ t ∧ Exit t :=
    ⟨(a.maxLearningSteps + 1).toNat + 1, by omega, Or.inr (Or.inr (by push_cast; omega))⟩
  classical
  obtain ⟨h1, hT⟩ := Nat.find_spec hex1
  have hmin : ∀ t, 1 ≤ t → t < Nat.find hex1 → ¬ Exit t := fun t ht hlt hE =>
    Nat.find_min hex1 hlt ⟨ht, hE⟩
  have hle : (Nat.find hex1 : ℤ) ≤ max 1 (a.maxLearningSteps + 1) := by
    by_contra hcon
    have h2 := hmin (Nat.find hex1 - 1) (by omega) (by omega)
    exact h2 (Or.inr (Or.inr (by omega)))
  refine ⟨Nat.find hex1, h1, hle, hT, hmin, ?_⟩
  have hloop := learnLoop_path approx c a (fun t => ⟨d t, e t, w t, t⟩)
    (fun t => learnStep_path approx g n hg est c a.eta hc hest d e w hp t) (Nat.find hex1)
    ((hex _).mpr hT) ((a.maxLearningSteps + 1).toNat + 1) 0 (by omega) (by omega)
    (fun u hu1 hu2 hs => hmin u (by omega) hu2 ((hex u).mp hs))
  simp only [hp.start_d, hp.start_e, hp.start_w] at hloop
  unfold learnMch
  rw [hc, hloop]
  dsimp only
  rw [(hfill _ (hp.len _)).1]
  dsimp only
  rw [addInto_same _ _ (hfill _ (hp.len _)).2]

/-- A successful round, in full. -/
theorem mchRound_ok (env : MchEnv S) (fill : List ℝ → Py (List ℝ)) (c : List ℝ)
    (f : ℕ → LearnKw × Option ℕ) (st st' : MchState S) (h : mchRound env fill c f st = .ok st') :
    learnMch (env.approx st.sample) fill st.cur c (f st.counter).1.args st.mult = .ok st'.mult ∧
      st'.size = (f st.counter).2.getD st.size ∧ st'.counter = st.counter + 1 ∧
      env.gen (st.counter + 1) st'.size st'.mult = .ok st'.sample ∧ env.obs st'.sample = .ok st'.cur ∧
      ∃ err, broadcast2 (· - ·) st'.cur c = .ok err ∧ st'.errors = st.errors ++ [err] := by
  unfold mchRound mchSettings at h
  cases h0 : (f 0).2 <;> cases hi : (f st.counter).2 <;> simp only [h0, hi] at h <;> try cases h
  all_goals
    cases hl : learnMch (env.approx st.sample) fill st.cur c (f st.counter).1.args st.mult with
    | error e => simp only [hl] at h; cases h
    | ok mult =>
      simp only [hl] at h
      split at h
      · cases h
      · rename_i s hs
        split at h
        · cases h
        · rename_i cur hcur
          split at h
          · cases h
          · rename_i err herr
            cases h
            exact ⟨rfl, rfl, rfl, hs, hcur, err, herr, rfl⟩

/-- The states of a finished main loop. -/
theorem mchLoop_chain (env : MchEnv S) (fill : List ℝ → Py (List ℝ)) (c : List ℝ)
    (f : ℕ → LearnKw × Option ℕ) (tol tolNorm : ℝ) (maxiter : ℤ) (fuel : ℕ) (st st' : MchState S)
    (flag : ℕ) (h : mchLoop env fill c f tol tolNorm maxiter fuel st = some (.ok (st', flag))) :
    ∃ (R : ℕ) (q : ℕ → MchState S), 1 ≤ R ∧ q 0 = st ∧ q R = st' ∧
      ∀ t < R, mchRound env fill c f (q t) = .ok (q (t + 1)) := by
  induction fuel generalizing st with
  | zero => cases h
  | succ fuel ih =>
    rw [mchLoop] at h
    cases h1 : mchRound env fill c f st with
    | error e => rw [h1] at h; cases h
    | ok st1 =>
      rw [h1] at h
      dsimp only at h
      have base : st1 = st' → ∃ (R : ℕ) (q : ℕ → MchState S), 1 ≤ R ∧ q 0 = st ∧ q R = st' ∧
          ∀ t < R, mchRound env fill c f (q t) = .ok (q (t + 1)) := by
        rintro rfl
        refine ⟨1, fun t => if t = 0 then st else st1, le_refl _, rfl, rfl, fun t ht => ?_⟩
        obtain rfl : t = 0 := by omega
        exact h1
      by_cases hd : mchDone tol tolNorm st1
      · rw [if_pos hd] at h; cases h; exact base rfl
      · rw [if_neg hd] at h
        by_cases hm : (st1.counter : ℤ) > maxiter
        · rw [if_pos hm] at h; cases h; exact base rfl
        · rw [if_neg hm] at h
          obtain ⟨R, q, hR, q0, qR, hq⟩ := ih st1 h
          refine ⟨R + 1, fun t => if t = 0 then st else q (t - 1), by omega, rfl, by simpa using qR, ?_⟩
          intro t ht
          rcases Nat.eq_zero_or_pos t with rfl | hp
          · simpa [q0] using h1
          · have := hq (t - 1) (by omega)
            rw [show t - 1 + 1 = t by omega] at this
            simpa [hp.ne'] using this

/-- All that happens in a run that ends: the multipliers `x`, sample sizes `m`, samples `s` and
observables `o` of every round. -/
theorem mchRun_trace (env : MchEnv S) (fill : List ℝ → Py (List ℝ)) (c x0 : List ℝ)
    (f : ℕ → LearnKw × Option ℕ) (tol tolNorm : ℝ) (maxiter : ℤ) (size : ℕ) (st : MchState S) (flag : ℕ)
    (h : mchRun env fill c x0 f tol tolNorm maxiter size = .ok (st, flag)) :
    ∃ (R : ℕ) (x o : ℕ → List ℝ) (m : ℕ → ℕ) (s : ℕ → S), st.errors.length = R + 1 ∧
      x 0 = x0 ∧ m 0 = size ∧ x R = st.mult ∧ s R = st.sample ∧ st.size = m R ∧ st.counter = R ∧
      (∀ t ≤ R, env.gen t (m t) (x t) = .ok (s t) ∧ env.obs (s t) = .ok (o t) ∧
        broadcast2 (· - ·) (o t) c = .ok (st.errors.getD t [])) ∧
      ∀ t < R, m (t + 1) = (f t).2.getD (m t) ∧
        learnMch (env.approx (s t)) fill (o t) c (f t).1.args (x t) = .ok (x (t + 1)) := by
  unfold mchRun at h
  split at h
  · cases h
  split at h
  · cases h
  rename_i s0 hs0
  split at h
  · cases h
  rename_i o0 ho0
  split at h
  · cases h
  rename_i err0 herr0
  split at h
  · cases h
  rename_i r hr
  subst h
  obtain ⟨R, q, hR, q0, qR, hq⟩ := mchLoop_chain _ _ _ _ _ _ _ _ _ _ _ hr
  have inv : ∀ t ≤ R, (q t).counter = t ∧ (q t).errors.length = t + 1 ∧
      env.gen t (q t).size (q t).mult = .ok (q t).sample ∧ env.obs (q t).sample = .ok (q t).cur ∧
      ∀ u ≤ t, broadcast2 (· - ·) (q u).cur c = .ok ((q t).errors.getD u []) := by
    intro t
    induction t with
    | zero =>
      intro _
      rw [q0]
      refine ⟨rfl, rfl, hs0, ho0, fun u hu => ?_⟩
      obtain rfl : u = 0 := by omega
      rw [q0]
      exact herr0
    | succ t ih =>
      intro ht
      obtain ⟨c1, c2, c3, c4, c5⟩ := ih (by omega)
      obtain ⟨d1, d2, d3, d4, d5, err, d6, d7⟩ := mchRound_ok _ _ _ _ _ _ (hq t (by omega))
      rw [c1] at d3 d4
      refine ⟨d3, by rw [d7]; simp [c2], d4, d5, fun u hu => ?_⟩
      rcases Nat.lt_or_ge u (t + 1) with hlt | hge
      · rw [c5 u (by omega), d7, List.getD_eq_getElem?_getD, List.getD_eq_getElem?_getD,
          List.getElem?_append_left (by omega)]
      · obtain rfl : u = t + 1 := by omega
        rw [d6, d7, List.getD_eq_getElem?_getD, List.getElem?_append_right (by omega), c2]
        simp
  refine ⟨R, fun t => (q t).mult, fun t => (q t).cur, fun t => (q t).size, fun t => (q t).sample,
    ?_, by simp [q0], by simp [q0], by simp [qR], by simp [qR], by simp [qR], ?_, ?_, ?_⟩
  · rw [← qR]; exact (inv R (le_refl _)).2.1
  · rw [← qR]; exact (inv R (le_refl _)).1
  · intro t ht
    obtain ⟨-, -, c3, c4, -⟩ := inv t ht
    refine ⟨c3, c4, ?_⟩
    rw [← qR]
    exact (inv R (le_refl _)).2.2.2.2 t ht
  · intro t ht
    obtain ⟨d1, d2, -⟩ := mchRound_ok _ _ _ _ _ _ (hq t ht)
    rw [(inv t (by omega)).1] at d1 d2
    exact ⟨d2, d1⟩

theorem takeIx_ok (v : List ℝ) (ix : List ℕ) (h : ∀ p ∈ ix, p < v.length) :
    takeIx v ix = .ok (ix.map fun p => v.getD p 0) :=
  mapM_ok _ _ ix fun p hp => getAt_getD v p (h p hp) 0

end Verif.Lemmas
