/-
The probability that the last error of `MCH.solve` is far from the true one.
-/
import Verif.Lemmas.MchProg2

namespace Verif.Lemmas
open Verif Verif.Model Verif.Spec Verif.Props Prog

variable {α : Type}

/-- The probability that one of finitely many events happens. -/
theorem prob_union {p : Prog α} {Q : α → Prop} (hp : FinDist p Q) (m : ℕ) (A : ℕ → α → Prop) (Bad : α → Prop)
    [DecidablePred Bad] [∀ i, DecidablePred (A i)] (h : ∀ a, Q a → Bad a → ∃ i < m, A i a) (V : ℝ) (hV : ∀ i < m, prob p (A i) ≤ V) : prob p Bad ≤ m * V := by
  unfold prob at hV ⊢
  have h1 : expectation (fun a => if Bad a then 1 else 0) p ≤
      expectation (fun a => ((List.range m).map fun i => if A i a then (1 : ℝ) else 0).sum) p := by
    refine hp.mono fun a ha => ?_
    have hnn : ∀ y ∈ (List.range m).map fun i => if A i a then (1 : ℝ) else 0, 0 ≤ y := by
      intro y hy
      obtain ⟨i, -, rfl⟩ := List.mem_map.1 hy
      split <;> norm_num
    split
    · rename_i hb
      obtain ⟨i, hi, hA⟩ := h a ha hb
      refine List.single_le_sum hnn _ (List.mem_map.2 ⟨i, List.mem_range.2 hi, ?_⟩)
      rw [if_pos hA]
    · exact List.sum_nonneg hnn
  refine h1.trans ?_
  rw [hp.sum]
  have : ∀ y ∈ (List.range m).map fun i => expectation (fun a => if A i a then (1 : ℝ) else 0) p, y ≤ V := by
    intro y hy
    obtain ⟨i, hi, rfl⟩ := List.mem_map.1 hy
    exact hV i (List.mem_range.1 hi)
  have h2 := List.sum_le_card_nsmul _ _ this
  rwa [List.length_map, List.length_range, nsmul_eq_mul] at h2

/-- The parameters are not all close to zero, and the mean of some observable over the sample is far from the mean in the
model. -/
def Far (n : ℕ) (ρ ε : ℝ) (st : MchState ModelObj) : Prop :=
  (∃ x ∈ st.mult, ρ ≤ |x|) ∧ ∃ i < n + n * (n - 1) / 2, ε ≤ |st.cur.getD i 0 - modelMean n st.mult i|

open scoped Classical in
theorem prob_loop (n : ℕ) (hn : 0 < n) (ρ : ℝ) (hρ : 0 < ρ) (B Δ : ℝ) (hΔ : 0 ≤ Δ) (F : ℕ) :
    ∃ K, 0 ≤ K ∧ ∀ (mc : Machine), 0 < mc.cpus → ∀ (s0 : ℕ), 0 < s0 → ∀ (c start : List ℝ),
      c.length = n + n * (n - 1) / 2 → (∀ x ∈ c, |x| ≤ 1) → ∀ (nIters burnIn : ℕ), 0 < nIters →
      ∀ f : ℕ → LearnKw × Option ℕ, GoodSettings s0 Δ f → ∀ (tol tolNorm : ℝ) (maxiter : ℤ) (ε : ℝ), 0 < ε →
      ∀ (fuel : ℕ) (st : MchState ModelObj), LoopInv mc n s0 c start (fun i => B + i * Δ) st → st.counter + fuel ≤ F →
      prob (mchLoopP mc nIters burnIn c f tol tolNorm maxiter fuel st) (fun r => Far n ρ ε r.1) ≤
        fuel * ((n + n * (n - 1) / 2 : ℕ) * (mc.cpus * K / s0 / ε ^ 2)) := by
  obtain ⟨K, hK, hdraw⟩ := draw_uniform n hn (B + F * Δ) ρ hρ
  refine ⟨K, hK, fun mc hcpu s0 hs0 c start hc hc1 nIters burnIn hk f hf tol tolNorm maxiter ε hε fuel => ?_⟩
  obtain ⟨V, hV⟩ : ∃ V : ℝ, V = mc.cpus * K / s0 / ε ^ 2 := ⟨_, rfl⟩
  have hs0' : (0 : ℝ) < s0 := by exact_mod_cast hs0
  have hV0 : 0 ≤ V := by rw [hV]; positivity
  rw [← hV]
  have hround : ∀ st : MchState ModelObj, LoopInv mc n s0 c start (fun i => B + i * Δ) st → st.counter + 1 ≤ F →
      prob (mchRoundP mc nIters burnIn c f st) (Far n ρ ε) ≤ (n + n * (n - 1) / 2 : ℕ) * V := by
    intro st h hF
    obtain ⟨k, mult, hks, h1, h2, e⟩ := round_eq hcpu hn hs0 hc hc1 nIters burnIn hf st h
    have hboth := both_draw hcpu hn h.ready nIters burnIn k (by omega) mult h1
    have hk0 : (0 : ℝ) < k := by exact_mod_cast (by omega : 0 < k)
    -- the round as an event of the draw
    have hprob : prob (mchRoundP mc nIters burnIn c f st) (Far n ρ ε) = prob (mchDraw mc nIters burnIn k mult st.sample)
        fun o' => (∃ x ∈ mult, ρ ≤ |x|) ∧ ∃ i < n + n * (n - 1) / 2, ε ≤
          |((o'.sample.getD []).map fun s => (pairObs n (spins s)).getD i 0).sum / k - modelMean n mult i| := by
      unfold prob
      rw [e, expectation_bind]
      refine hboth.fin.congr fun o ho => ?_
      obtain ⟨cur, c1, c2, c3⟩ := obs_drawn (by omega) ho
      rw [c1, ofPy_ok_bind, broadcast_sub (by rw [c2, hc]), ofPy_ok_bind]
      simp only [expectation_ret]
      refine if_congr ?_ rfl rfl
      unfold Far
      refine and_congr_right fun _ => exists_congr fun i => and_congr_right fun hi => ?_
      dsimp only
      rw [(c3 i hi).1]
    rw [hprob]
    by_cases hx : ∃ x ∈ mult, ρ ≤ |x|
    · refine prob_union hboth.fin _ (fun i o' => ε ≤
          |((o'.sample.getD []).map fun s => (pairObs n (spins s)).getD i 0).sum / k - modelMean n mult i|) _
          (fun o' _ hb => And.right hb) V fun i hi => ?_
      refine le_trans ((hboth.fin).chebyshev _ ε _ hε (hdraw mc hcpu st.sample h.ready mult h1 (fun x hx' => ?_) hx k nIters
        burnIn i (by omega) hk)) ?_
      · refine (h2 x hx').trans ?_
        have : ((st.counter + 1 : ℕ) : ℝ) ≤ F := by exact_mod_cast hF
        nlinarith
      · rw [hV]
        refine div_le_div_of_nonneg_right ?_ (by positivity)
        refine div_le_div_of_nonneg_left (by positivity) hs0' ?_
        exact_mod_cast hks
    · have : prob (mchDraw mc nIters burnIn k mult st.sample) (fun o' => (∃ x ∈ mult, ρ ≤ |x|) ∧ ∃ i < n + n * (n - 1) / 2,
          ε ≤ |((o'.sample.getD []).map fun s => (pairObs n (spins s)).getD i 0).sum / k - modelMean n mult i|) = 0 := by
        unfold prob
        rw [hboth.fin.congr (g := fun _ => 0) fun o _ => if_neg fun h => hx h.1]
        exact hboth.fin.const 0
      rw [this]
      positivity
  induction fuel with
  | zero =>
    intro st _ _
    unfold mchLoopP prob
    simp [expectation]
  | succ fuel ih =>
    intro st h hF
    have hb := (both_round hcpu hn hs0 hc hc1 nIters burnIn hf st h).fin
    unfold mchLoopP prob
    rw [expectation_bind]
    have h1 : expectation (fun st' : MchState ModelObj => expectation (fun r : MchState ModelObj × ℕ => if Far n ρ ε r.1 then
        (1 : ℝ) else 0) (if mchDone tol tolNorm st' then .ret (st', 0)
          else if (st'.counter : ℤ) > maxiter then .ret (st', 1)
          else mchLoopP mc nIters burnIn c f tol tolNorm maxiter fuel st')) (mchRoundP mc nIters burnIn c f st) ≤
        expectation (fun st' => (fuel * ((n + n * (n - 1) / 2 : ℕ) * V)) + 1 * if Far n ρ ε st' then (1 : ℝ) else 0)
          (mchRoundP mc nIters burnIn c f st) := by
      refine hb.mono fun st' ⟨hst', hcount⟩ => ?_
      have hpos : 0 ≤ (fuel : ℝ) * ((n + n * (n - 1) / 2 : ℕ) * V) := by positivity
      have hone : 0 ≤ if Far n ρ ε st' then (1 : ℝ) else 0 := by split <;> norm_num
      split
      · simp only [expectation_ret]; linarith
      · split
        · simp only [expectation_ret]; linarith
        · have := ih st' hst' (by omega)
          unfold prob at this
          linarith
    refine h1.trans ?_
    rw [hb.affine, one_mul]
    have := hround st h (by omega)
    unfold prob at this
    push_cast
    push_cast at this
    linarith

end Verif.Lemmas
