/-
The rounds of `SparseMCH.solve`.
-/
import Verif.Spec.SparseMchProg
import Verif.Lemmas.MchProg4
import Verif.Lemmas.SparseObj

namespace Verif.Lemmas
open Verif Verif.Model Verif.Spec Verif.Props Prog

/-! ### the learning step -/

/-- The positions that can be worked with. -/
structure GoodIx (N : ℕ) (ix : List ℕ) : Prop where
  sorted : ix.Pairwise (· < ·)
  range : ∀ p ∈ ix, p < N
  usable : 2 ≤ ix.length ∨ ix = [N - 1]

theorem GoodIx.fill {N : ℕ} {ix : List ℕ} (h : GoodIx N ix) (d : List ℝ) (hd : d.length = ix.length) :
    fillIn N ix d 0 = .ok (spread N ix d) := fillIn_eq N ix h.sorted h.range h.usable d hd 0

theorem spread_length (N : ℕ) (ix : List ℕ) (d : List ℝ) : (spread N ix d).length = N := by simp [spread]

theorem spread_getD (N : ℕ) (ix : List ℕ) (d : List ℝ) (q : ℕ) (hq : q < N) :
    (spread N ix d).getD q 0 = if q ∈ ix then d.getD (ix.idxOf q) 0 else 0 := by
  rw [List.getD_eq_getElem _ _ (by rw [spread_length]; exact hq)]
  simp [spread]

theorem abs_map_getD {ix : List ℕ} {v : List ℝ} (h : ∀ i, |v.getD i 0| ≤ 1) (i : ℕ) :
    |(ix.map fun p => v.getD p 0).getD i 0| ≤ 1 := by
  by_cases hi : i < ix.length
  · rw [List.getD_eq_getElem _ _ (by simpa using hi), List.getElem_map]
    exact h _
  · rw [List.getD_eq_default _ _ (by simpa using hi)]
    norm_num

/-- One call of `learn_parameters_mch` of `SparseMCH`. -/
theorem sparse_learn_eq (o : ModelObj) (X : List (List ℤ)) (hX : X ≠ []) (hs : o.sample = some X)
    (hw : ∀ s ∈ X, s ∈ words [1, -1] o.n) (ix : List ℕ) (hix : GoodIx (o.n + o.n * (o.n - 1) / 2) ix)
    (est c mult : List ℝ) (a : LearnArgs) (hc : c.length = ix.length) (hest : est.length = ix.length)
    (hm : mult.length = o.n + o.n * (o.n - 1) / 2) (hpos : 0 ≤ a.maxdlamda) (hc1 : ∀ x ∈ c, |x| ≤ 1)
    (he1 : ∀ i < ix.length, |est.getD i 0| ≤ 1) :
    ∃ r, learnMch (sparseApprox (o.n + o.n * (o.n - 1) / 2) ix o) (fun d => fillIn (o.n + o.n * (o.n - 1) / 2) ix d 0)
        est c a mult = .ok r ∧ r.length = o.n + o.n * (o.n - 1) / 2 ∧
      (∀ q < o.n + o.n * (o.n - 1) / 2, q ∉ ix → r.getD q 0 = mult.getD q 0) ∧
      ∀ q < o.n + o.n * (o.n - 1) / 2, |r.getD q 0 - mult.getD q 0| ≤ a.maxdlamda + |a.eta| * 2 := by
  obtain ⟨N, hN⟩ : ∃ N, N = o.n + o.n * (o.n - 1) / 2 := ⟨_, rfl⟩
  obtain ⟨g, hg⟩ := approx_eq o X hX hs hw
  rw [← hN] at hix hm hg ⊢
  obtain ⟨G, hG⟩ : ∃ G : List ℝ → List ℝ, G = fun d => ix.map fun p => (g (spread N ix d)).getD p 0 := ⟨_, rfl⟩
  have happ : ∀ d, d.length = ix.length → sparseApprox N ix o d = .ok (G d) ∧ (G d).length = ix.length := by
    intro d hd
    refine ⟨?_, by rw [hG]; simp⟩
    unfold sparseApprox
    rw [hix.fill d hd]
    dsimp only
    rw [(hg _).1]
    dsimp only
    rw [hG]
    exact takeIx_ok _ ix fun p hp => by rw [(hg _).2.1]; exact hix.range p hp
  have hc1' : ∀ i < ix.length, |c.getD i 0| ≤ 1 := fun i hi => by
    rw [List.getD_eq_getElem _ _ (by omega)]
    exact hc1 _ (List.getElem_mem _)
  have two : ∀ a b : ℝ, |a| ≤ 1 → |b| ≤ 1 → |a - b| ≤ 2 := fun a b ha hb => by
    have := abs_sub a b
    linarith
  -- the change of the selected parameters
  obtain ⟨d, e, w, hp, hdl⟩ := C43_path G ix.length est c a.eta
  obtain ⟨r0, h1, h2⟩ := C43_bounded_change (sparseApprox N ix o) G ix.length happ est c (List.replicate ix.length 0) a hc hest
    (by simp) hpos 2 (fun i hi => two _ _ (hc1' i hi) (he1 i hi)) fun d _ i hi => two _ _ (hc1' i hi) (by
      rw [hG]; exact abs_map_getD (fun j => (hg _).2.2 j) i)
  obtain ⟨T, t1, -, t2, t3, r0', hr0', -, t4⟩ := C43_learn (sparseApprox N ix o) G ix.length happ est c
    (List.replicate ix.length 0) a hc hest (by simp) d e w hp
  rw [h1] at hr0'
  injection hr0' with hr0'
  subst hr0'
  have hd : ∀ i < ix.length, |(d T).getD i 0| ≤ a.maxdlamda + |a.eta| * 2 := by
    intro i hi
    have e1 := h2 i hi
    rw [t4 i hi] at e1
    simpa using e1
  obtain ⟨T', s1, -, s2, s3, s4⟩ := learnMch_path (sparseApprox N ix o) G ix.length happ est c mult a hc hest
    (fun d => fillIn N ix d 0) (spread N ix) (fun d hd => ⟨hix.fill d hd, by rw [spread_length, hm]⟩) d e w hp
  have hT : T' = T := by
    rcases lt_trichotomy T' T with h | h | h
    · exact absurd s2 (t3 T' s1 h)
    · exact h
    · exact absurd t2 (s3 T t1 h)
  subst hT
  have hget : ∀ q < N, (List.zipWith (· + ·) mult (spread N ix (d T'))).getD q 0 =
      mult.getD q 0 + if q ∈ ix then (d T').getD (ix.idxOf q) 0 else 0 := by
    intro q hq
    rw [List.getD_eq_getElem _ _ (by simp [hm, spread_length, hq]), List.getElem_zipWith, ← spread_getD N ix _ q hq,
      List.getD_eq_getElem _ _ (by rw [hm]; exact hq), List.getD_eq_getElem _ _ (by rw [spread_length]; exact hq)]
  refine ⟨_, s4, by simp [hm, spread_length], fun q hq hqi => ?_, fun q hq => ?_⟩
  · rw [hget q hq, if_neg hqi, add_zero]
  · rw [hget q hq, add_sub_cancel_left]
    split
    · rename_i hqi
      exact hd _ (List.idxOf_lt_length_iff.2 hqi)
    · rw [abs_zero]
      have := abs_nonneg a.eta
      positivity

/-! ### the state of the main loop -/

theorem sound_sparseRound {mc : Machine} {n : ℕ} (N : ℕ) (ix : List ℕ) (nIters burnIn : ℕ) (c : List ℝ)
    (f : ℕ → LearnKw × Option ℕ) (st : MchState ModelObj) (h : IsingReady mc n st.sample) :
    Sound (sparseRoundP mc N ix nIters burnIn c f st) fun st' => IsingReady mc n st'.sample := by
  unfold sparseRoundP
  refine sound_bind (sound_true _) fun kw _ => sound_bind (sound_true _) fun mult _ => ?_
  refine sound_bind (sound_draw h nIters burnIn kw.2 mult) fun o ho => sound_bind (sound_true _) fun cur _ => ?_
  exact sound_bind (sound_true _) fun err _ => sound_ret ho

theorem sound_sparseLoop {mc : Machine} {n : ℕ} (N : ℕ) (ix : List ℕ) (nIters burnIn : ℕ) (c : List ℝ)
    (f : ℕ → LearnKw × Option ℕ) (tol tolNorm : ℝ) (maxiter : ℤ) (fuel : ℕ) : ∀ st : MchState ModelObj,
    IsingReady mc n st.sample →
    Sound (sparseLoopP mc N ix nIters burnIn c f tol tolNorm maxiter fuel st) fun r => IsingReady mc n r.1.sample := by
  induction fuel with
  | zero => exact fun _ _ => sound_fail
  | succ fuel ih =>
    intro st h
    unfold sparseLoopP
    refine sound_bind (sound_sparseRound N ix nIters burnIn c f st h) fun st' h' => ?_
    split
    · exact sound_ret h'
    · split
      · exact sound_ret h'
      · exact ih st' h'

theorem sound_sparseSolve {mc : Machine} {n : ℕ} (m : SparseMchObj) (h : IsingReady mc n m.model) (a : MchArgs) :
    Sound (sparseMchSolveP mc m a) fun r => IsingReady mc n r.sample := by
  unfold sparseMchSolveP
  split
  · exact sound_fail
  · split
    · exact sound_fail
    · split
      · exact sound_fail
      · refine sound_bind (Q := fun r => IsingReady mc n r.1.sample) ?_ fun r hr => sound_bind (sound_true _) fun ret _ =>
          sound_ret hr
        unfold sparseRunP
        split
        · exact sound_fail
        · refine sound_bind (sound_draw h _ _ _ _) fun o ho => sound_bind (sound_true _) fun cur _ => ?_
          exact sound_bind (sound_true _) fun err _ => sound_sparseLoop _ _ _ _ _ _ _ _ _ _ _ ho

/-- What holds between two rounds: `lim i` bounds the parameters after `i` rounds, `start` are the parameters of the model
object, `s0` is the smallest size of a sample. -/
structure SparseInv (mc : Machine) (n : ℕ) (ix : List ℕ) (s0 : ℕ) (c start : List ℝ) (lim : ℕ → ℝ)
    (st : MchState ModelObj) : Prop where
  ready : IsingReady mc n st.sample
  rows : ∃ X, st.sample.sample = some X ∧ s0 ≤ X.length ∧ ∀ s ∈ X, s ∈ words [1, -1] n
  mult_length : st.mult.length = n + n * (n - 1) / 2
  mult : ∀ x ∈ st.mult, |x| ≤ lim st.counter
  zero : ∀ q, q ∉ ix → st.mult.getD q 0 = 0
  cur_length : st.cur.length = ix.length
  cur : ∀ i < ix.length, |st.cur.getD i 0| ≤ 1
  mean : ∀ j < ix.length, st.cur.getD j 0 = avg (st.sample.sample.getD []) (paramObs n (ix.getD j 0))
  size : s0 ≤ st.size
  last : st.errors.getLastD [] = List.zipWith (· - ·) st.cur c
  count : st.errors.length = st.counter + 1
  each : ∀ e ∈ st.errors, e.length = ix.length
  model : st.sample.multipliers = start

theorem sparse_obs_drawn {mc : Machine} {n size : ℕ} (hsize : 0 < size) {o o' : ModelObj} (h : Drawn mc n size o o')
    {ix : List ℕ} (hix : GoodIx (n + n * (n - 1) / 2) ix) :
    ∃ cur, sparseObs ix o' = .ok cur ∧ cur.length = ix.length ∧ ∀ j (hj : j < ix.length),
      cur.getD j 0 = ((o'.sample.getD []).map fun s => (pairObs n (spins s)).getD ix[j] 0).sum / size ∧
        |cur.getD j 0| ≤ 1 ∧ cur.getD j 0 = avg (o'.sample.getD []) (paramObs n (ix.getD j 0)) := by
  obtain ⟨v, h1, h2, h3⟩ := obs_drawn hsize h
  have hsz : (o'.sample.getD []).length = size := by
    obtain ⟨-, -, -, X, e1, e2, -⟩ := h
    rw [e1]
    exact e2
  unfold sparseObs
  rw [h1]
  refine ⟨_, takeIx_ok v ix fun p hp => by rw [h2]; exact hix.range p hp, by simp, fun j hj => ?_⟩
  have hlt := hix.range _ (List.getElem_mem hj)
  rw [List.getD_eq_getElem _ _ (by simpa using hj), List.getElem_map]
  refine ⟨(h3 _ hlt).1, (h3 _ hlt).2, (h3 _ hlt).1.trans ?_⟩
  unfold avg paramObs
  rw [hsz, List.getD_eq_getElem ix 0 hj]

section
variable {mc : Machine} (hcpu : 0 < mc.cpus) {n : ℕ} (hn : 0 < n) {ix : List ℕ} (hix : GoodIx (n + n * (n - 1) / 2) ix)
  {s0 : ℕ} (hs0 : 0 < s0) {c start : List ℝ} (hc : c.length = ix.length) (hc1 : ∀ x ∈ c, |x| ≤ 1) {Δ B : ℝ}
  (nIters burnIn : ℕ) {f : ℕ → LearnKw × Option ℕ} (hf : GoodSettings s0 Δ f)
include hix hs0 hc hc1 hf

/-- The new parameters and the size of the new sample are known before the sample is drawn. -/
theorem sparse_round_eq (st : MchState ModelObj) (h : SparseInv mc n ix s0 c start (fun i => B + i * Δ) st) :
    ∃ k mult, s0 ≤ k ∧ mult.length = n + n * (n - 1) / 2 ∧ (∀ x ∈ mult, |x| ≤ B + (st.counter + 1 : ℕ) * Δ) ∧
      (∀ q, q ∉ ix → mult.getD q 0 = 0) ∧
      sparseRoundP mc (n + n * (n - 1) / 2) ix nIters burnIn c f st =
        (mchDraw mc nIters burnIn k mult st.sample).bind fun o =>
        (Prog.ofPy (sparseObs ix o)).bind fun cur => (Prog.ofPy (broadcast2 (· - ·) cur c)).bind fun err =>
          .ret ⟨mult, o, cur, k, st.counter + 1, st.errors ++ [err]⟩ := by
  obtain ⟨k, hk, e1⟩ := hf.eq st.counter st.size h.size
  obtain ⟨X, hX, hl, hw⟩ := h.rows
  have hne : X ≠ [] := by
    rintro rfl
    simp at hl
    omega
  have hN := h.ready.inv.n_eq
  rw [← hN] at hw
  obtain ⟨r, e2, e3, e4, e5⟩ := sparse_learn_eq st.sample X hne hX hw ix (by rw [hN]; exact hix) st.cur c st.mult
    (f st.counter).1.args hc h.cur_length (by rw [hN]; exact h.mult_length) (hf.nonneg _) hc1 h.cur
  rw [hN] at e2 e3 e4 e5
  refine ⟨k, r, hk, e3, fun x hx => ?_, fun q hq => ?_, ?_⟩
  · obtain ⟨i, hi, rfl⟩ := List.getElem_of_mem hx
    have h1 := e5 i (by omega)
    rw [List.getD_eq_getElem _ _ hi] at h1
    have h2 : |st.mult.getD i 0| ≤ B + st.counter * Δ := by
      rw [List.getD_eq_getElem _ _ (by rw [h.mult_length]; omega)]
      exact h.mult _ (List.getElem_mem _)
    have h3 := hf.change st.counter
    have h4 := abs_sub_abs_le_abs_sub r[i] (st.mult.getD i 0)
    push_cast
    linarith
  · by_cases hlt : q < n + n * (n - 1) / 2
    · rw [e4 q hlt hq, h.zero q hq]
    · exact List.getD_eq_default _ _ (by omega)
  · unfold sparseRoundP
    rw [e1, ofPy_ok_bind]
    dsimp only
    rw [e2, ofPy_ok_bind]

include hcpu hn

theorem both_sparseRound (st : MchState ModelObj) (h : SparseInv mc n ix s0 c start (fun i => B + i * Δ) st) :
    Both (sparseRoundP mc (n + n * (n - 1) / 2) ix nIters burnIn c f st) fun st' =>
      SparseInv mc n ix s0 c start (fun i => B + i * Δ) st' ∧ st'.counter = st.counter + 1 := by
  obtain ⟨k, mult, hk, h1, h2, h3, e⟩ := sparse_round_eq hix hs0 hc hc1 nIters burnIn hf st h
  rw [e]
  refine both_bind (both_draw hcpu hn h.ready nIters burnIn k (by omega) mult h1) fun o ho => ?_
  obtain ⟨cur, c1, c2, c3⟩ := sparse_obs_drawn (by omega) ho hix
  rw [c1, ofPy_ok_bind, broadcast_sub (by rw [c2, hc]), ofPy_ok_bind]
  obtain ⟨d1, d2, d3, X, d4, d5, d6⟩ := ho
  refine both_ret ⟨⟨d1, ⟨X, d4, by omega, d6⟩, h1, h2, h3, c2, fun i hi => (c3 i hi).2.1, fun i hi => (c3 i hi).2.2, hk, by simp, ?_, ?_, ?_⟩, rfl⟩
  · simp [h.count]
  · intro e he
    rcases List.mem_append.1 he with he | he
    · exact h.each e he
    · rw [List.mem_singleton.1 he]
      simp [c2, hc]
  · exact d2.trans h.model

/-- The loop ends. -/
theorem both_sparseLoop (tol tolNorm : ℝ) (maxiter : ℤ) (fuel : ℕ) : ∀ st : MchState ModelObj,
    SparseInv mc n ix s0 c start (fun i => B + i * Δ) st → maxiter < st.counter + (fuel + 1 : ℕ) →
    Both (sparseLoopP mc (n + n * (n - 1) / 2) ix nIters burnIn c f tol tolNorm maxiter (fuel + 1) st) fun r =>
      SparseInv mc n ix s0 c start (fun i => B + i * Δ) r.1 ∧ st.counter < r.1.counter ∧
      r.1.counter ≤ st.counter + (fuel + 1) ∧ (r.2 = 0 ∧ mchDone tol tolNorm r.1 ∨
        r.2 = 1 ∧ ¬ mchDone tol tolNorm r.1 ∧ maxiter < r.1.counter) := by
  induction fuel with
  | zero =>
    intro st h hlt
    unfold sparseLoopP
    refine both_bind (both_sparseRound hcpu hn hix hs0 hc hc1 nIters burnIn hf st h) fun st' ⟨h', hc'⟩ => ?_
    split
    · exact both_ret ⟨h', by simp [hc'], by simp [hc'], Or.inl ⟨rfl, ‹_›⟩⟩
    · rw [if_pos (by rw [hc']; push_cast at hlt ⊢; omega)]
      exact both_ret ⟨h', by simp [hc'], by simp [hc'], Or.inr ⟨rfl, ‹_›, by
        dsimp only; rw [hc']; push_cast at hlt ⊢; omega⟩⟩
  | succ fuel ih =>
    intro st h hlt
    unfold sparseLoopP
    refine both_bind (both_sparseRound hcpu hn hix hs0 hc hc1 nIters burnIn hf st h) fun st' ⟨h', hc'⟩ => ?_
    split
    · exact both_ret ⟨h', by simp [hc'], by simp [hc'], Or.inl ⟨rfl, ‹_›⟩⟩
    · split
      · rename_i h1 h2
        exact both_ret ⟨h', by simp [hc'], by simp [hc'], Or.inr ⟨rfl, h1, h2⟩⟩
      · refine both_mono ?_ (ih st' h' (by rw [hc']; push_cast at hlt ⊢; omega))
        rintro r ⟨r1, r2, r3, r4⟩
        exact ⟨r1, by omega, by omega, r4⟩

end

/-! ### the probability that the last error is far from the true one -/

/-- The parameters are not all close to zero, and the mean of some selected observable over the sample is far from the mean
in the model. -/
def FarAt (n : ℕ) (ix : List ℕ) (ρ ε : ℝ) (st : MchState ModelObj) : Prop :=
  (∃ x ∈ st.mult, ρ ≤ |x|) ∧ ∃ j < ix.length, ε ≤ |st.cur.getD j 0 - modelMean n st.mult (ix.getD j 0)|

open scoped Classical in
theorem prob_sparseLoop (n : ℕ) (hn : 0 < n) (ρ : ℝ) (hρ : 0 < ρ) (B Δ : ℝ) (hΔ : 0 ≤ Δ) (F : ℕ) :
    ∃ K, 0 ≤ K ∧ ∀ (mc : Machine), 0 < mc.cpus → ∀ (ix : List ℕ), GoodIx (n + n * (n - 1) / 2) ix →
      ∀ (s0 : ℕ), 0 < s0 → ∀ (c start : List ℝ),
      c.length = ix.length → (∀ x ∈ c, |x| ≤ 1) → ∀ (nIters burnIn : ℕ), 0 < nIters →
      ∀ f : ℕ → LearnKw × Option ℕ, GoodSettings s0 Δ f → ∀ (tol tolNorm : ℝ) (maxiter : ℤ) (ε : ℝ), 0 < ε →
      ∀ (fuel : ℕ) (st : MchState ModelObj), SparseInv mc n ix s0 c start (fun i => B + i * Δ) st → st.counter + fuel ≤ F →
      prob (sparseLoopP mc (n + n * (n - 1) / 2) ix nIters burnIn c f tol tolNorm maxiter fuel st)
        (fun r => FarAt n ix ρ ε r.1) ≤ fuel * (ix.length * (mc.cpus * K / s0 / ε ^ 2)) := by
  obtain ⟨K, hK, hdraw⟩ := draw_uniform n hn (B + F * Δ) ρ hρ
  refine ⟨K, hK, fun mc hcpu ix hix s0 hs0 c start hc hc1 nIters burnIn hk f hf tol tolNorm maxiter ε hε fuel => ?_⟩
  obtain ⟨V, hV⟩ : ∃ V : ℝ, V = mc.cpus * K / s0 / ε ^ 2 := ⟨_, rfl⟩
  have hs0' : (0 : ℝ) < s0 := by exact_mod_cast hs0
  have hV0 : 0 ≤ V := by rw [hV]; positivity
  rw [← hV]
  have hround : ∀ st : MchState ModelObj, SparseInv mc n ix s0 c start (fun i => B + i * Δ) st → st.counter + 1 ≤ F →
      prob (sparseRoundP mc (n + n * (n - 1) / 2) ix nIters burnIn c f st) (FarAt n ix ρ ε) ≤ ix.length * V := by
    intro st h hF
    obtain ⟨k, mult, hks, h1, h2, -, e⟩ := sparse_round_eq hix hs0 hc hc1 nIters burnIn hf st h
    have hboth := both_draw hcpu hn h.ready nIters burnIn k (by omega) mult h1
    have hk0 : (0 : ℝ) < k := by exact_mod_cast (by omega : 0 < k)
    -- the round as an event of the draw
    have hprob : prob (sparseRoundP mc (n + n * (n - 1) / 2) ix nIters burnIn c f st) (FarAt n ix ρ ε) =
        prob (mchDraw mc nIters burnIn k mult st.sample)
        fun o' => (∃ x ∈ mult, ρ ≤ |x|) ∧ ∃ j < ix.length, ε ≤
          |((o'.sample.getD []).map fun s => (pairObs n (spins s)).getD (ix.getD j 0) 0).sum / k -
            modelMean n mult (ix.getD j 0)| := by
      unfold prob
      rw [e, expectation_bind]
      refine hboth.fin.congr fun o ho => ?_
      obtain ⟨cur, c1, c2, c3⟩ := sparse_obs_drawn (by omega) ho hix
      rw [c1, ofPy_ok_bind, broadcast_sub (by rw [c2, hc]), ofPy_ok_bind]
      simp only [expectation_ret]
      refine if_congr ?_ rfl rfl
      unfold FarAt
      refine and_congr_right fun _ => exists_congr fun j => and_congr_right fun hj => ?_
      dsimp only
      rw [(c3 j hj).1, List.getD_eq_getElem ix _ hj]
    rw [hprob]
    by_cases hx : ∃ x ∈ mult, ρ ≤ |x|
    · refine prob_union hboth.fin _ (fun j o' => ε ≤
          |((o'.sample.getD []).map fun s => (pairObs n (spins s)).getD (ix.getD j 0) 0).sum / k -
            modelMean n mult (ix.getD j 0)|) _ (fun o' _ hb => And.right hb) V fun j hj => ?_
      refine le_trans ((hboth.fin).chebyshev _ ε _ hε (hdraw mc hcpu st.sample h.ready mult h1 (fun x hx' => ?_) hx k nIters
        burnIn (ix.getD j 0) (by omega) hk)) ?_
      · refine (h2 x hx').trans ?_
        have : ((st.counter + 1 : ℕ) : ℝ) ≤ F := by exact_mod_cast hF
        nlinarith
      · rw [hV]
        refine div_le_div_of_nonneg_right ?_ (by positivity)
        refine div_le_div_of_nonneg_left (by positivity) hs0' ?_
        exact_mod_cast hks
    · have : prob (mchDraw mc nIters burnIn k mult st.sample) (fun o' => (∃ x ∈ mult, ρ ≤ |x|) ∧ ∃ j < ix.length,
          ε ≤ |((o'.sample.getD []).map fun s => (pairObs n (spins s)).getD (ix.getD j 0) 0).sum / k -
            modelMean n mult (ix.getD j 0)|) = 0 := by
        unfold prob
        rw [hboth.fin.congr (g := fun _ => 0) fun o _ => if_neg fun h => hx h.1]
        exact hboth.fin.const 0
      rw [this]
      positivity
  induction fuel with
  | zero =>
    intro st _ _
    unfold sparseLoopP prob
    simp [expectation]
  | succ fuel ih =>
    intro st h hF
    have hb := (both_sparseRound hcpu hn hix hs0 hc hc1 nIters burnIn hf st h).fin
    unfold sparseLoopP prob
    rw [expectation_bind]
    have h1 : expectation (fun st' : MchState ModelObj => expectation (fun r : MchState ModelObj × ℕ => if FarAt n ix ρ ε r.1 then
        (1 : ℝ) else 0) (if mchDone tol tolNorm st' then .ret (st', 0)
          else if (st'.counter : ℤ) > maxiter then .ret (st', 1)
          else sparseLoopP mc (n + n * (n - 1) / 2) ix nIters burnIn c f tol tolNorm maxiter fuel st'))
          (sparseRoundP mc (n + n * (n - 1) / 2) ix nIters burnIn c f st) ≤
        expectation (fun st' => (fuel * (ix.length * V)) + 1 * if FarAt n ix ρ ε st' then (1 : ℝ) else 0)
          (sparseRoundP mc (n + n * (n - 1) / 2) ix nIters burnIn c f st) := by
      refine hb.mono fun st' ⟨hst', hcount⟩ => ?_
      have hpos : 0 ≤ (fuel : ℝ) * (ix.length * V) := by positivity
      have hone : 0 ≤ if FarAt n ix ρ ε st' then (1 : ℝ) else 0 := by split <;> norm_num
      split
      · simp only [expectation_ret]; linarith
      · split
        · simp only [expectation_ret]; linarith
        · have := ih st' hst' (by omega)
          unfold prob at this
          linarith
    refine h1.trans ?_
    rw [hb.affine, one_mul]
    have := hround st h (by omega)
    unfold prob at this
    push_cast
    linarith

end Verif.Lemmas
