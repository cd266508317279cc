import Verif.Lemmas.Ergodic2

namespace Verif.Lemmas
open Verif Verif.Model Verif.Spec Prog Filter

/-! ### The rows of `generate_sample` -/

theorem finDist_randomRow {n : ℕ} (vals : List ℤ) (f : ℕ → ℤ) (k : ℕ) (hk : 0 < k) (hf : ∀ b < k, f b ∈ vals) :
    FinDist (mapEach (fun _ : ℕ => (Prog.randint k).bind fun b => .ret (f b)) (List.range n)) fun s => s ∈ words vals n := by
  refine finDist_mono (fun s hs => ?_) (finDist_mapEach (Q := fun _ x => x ∈ vals) _ fun _ _ =>
    finDist_randint k hk _ fun b hb => finDist_ret (hf b hb))
  refine mem_words.2 ⟨by simpa using hs.length_eq.symm, fun x hx => ?_⟩
  obtain ⟨i, hi, rfl⟩ := List.getElem_of_mem hx
  exact (List.forall₂_iff_get.1 hs).2 i (by rw [hs.length_eq]; exact hi) hi

theorem finDist_rows {S : List (List ℤ)} {p : Prog (List ℤ)} (hp : FinDist p fun s => s ∈ S) (k : ℕ) :
    FinDist (mapEach (fun _ : ℕ => p) (List.range k)) fun x => x.length = k ∧ ∀ s ∈ x, s ∈ S := by
  refine finDist_mono (fun x hx => ⟨by simpa using hx.length_eq.symm, fun s hs => ?_⟩)
    (finDist_mapEach (Q := fun _ s => s ∈ S) _ fun _ _ => hp)
  obtain ⟨i, hi, rfl⟩ := List.getElem_of_mem hs
  exact (List.forall₂_iff_get.1 hx).2 i (by rw [hx.length_eq]; exact hi) hi

theorem finDist_randomSample (n k : ℕ) :
    FinDist (randomSample n k) fun x => x.length = k ∧ ∀ s ∈ x, s ∈ words [1, -1] n :=
  finDist_rows (finDist_randomRow [1, -1] (fun b => if b = 0 then -1 else 1) 2 (by norm_num)
    fun b _ => by by_cases h : b = 0 <;> simp [h]) k

theorem finDist_randomSamplePotts3 (n k : ℕ) :
    FinDist (randomSamplePotts3 n k) fun x => x.length = k ∧ ∀ s ∈ x, s ∈ words [0, 1, 2] n :=
  finDist_rows (finDist_randomRow [0, 1, 2] (fun b => (b : ℤ)) 3 (by norm_num)
    fun b hb => by
      simp only [List.mem_cons, List.not_mem_nil, or_false]
      omega) k

variable {S : List (List ℤ)} {w calcE : List ℤ → ℝ} {n : ℕ} {move : Move} {random : ℕ → Prog (List (List ℤ))}

theorem finDist_startStates (hS : ∀ s ∈ S, s.length = n) {k m : ℕ}
    (hr : FinDist (random k) fun x => x.length = k ∧ ∀ s ∈ x, s ∈ S) {prev initial : Option (List (List ℤ))}
    (h : GoodStart S k m prev initial) :
    FinDist (startStates random n k m prev initial) fun x => x.length = k ∧ ∀ s ∈ x, s ∈ S := by
  unfold startStates
  cases initial with
  | none =>
    cases prev with
    | none => exact hr
    | some p =>
      dsimp only
      split
      · exact hr
      · rename_i hp
        exact finDist_ret (h.2 p rfl rfl (not_not.1 hp))
  | some x =>
    have := h.1 x rfl
    dsimp only
    rw [if_pos ⟨this.1, fun r hr => hS r (this.2 r hr)⟩]
    exact finDist_ret this

theorem record_blocks {σ A B ι : Type} (step : σ → Prog σ) (g1 : σ → A) (g2 : σ → B) (l : List ι) :
    ∀ (s : σ) (xs : List A) (ys : List B),
    forEach (fun (_ : ι) acc => (step acc.1).bind fun st' =>
        .ret (st', acc.2.1 ++ [g1 st'], acc.2.2 ++ [g2 st'])) l (s, xs, ys) =
      (visits (fun _ => step) l s).bind fun tr => .ret (tr.getLastD s, xs ++ tr.map g1, ys ++ tr.map g2) := by
  induction l with
  | nil => intro s xs ys; simp [forEach, visits, Prog.bind]
  | cons i l ih =>
    intro s xs ys
    simp only [forEach, visits, bind_assoc, Prog.bind]
    congr 1
    funext s'
    rw [ih]
    simp only [List.getLastD_cons, List.map_cons, List.append_assoc, List.singleton_append]

/-- The recorded rows are the states visited by blocks of steps. -/
theorem metroRecord_blocks (systematic : Bool) (m k : ℕ) (st : List ℤ × ℝ) :
    metroRecord move n systematic m k st =
      (visits (fun _ : ℕ => metroRun move n systematic k) (List.range m) st).bind fun tr =>
        .ret (tr.getLastD st, tr.map Prod.fst, tr.map Prod.snd) :=
  (record_blocks (metroRun move n systematic k) Prod.fst Prod.snd (List.range m) st [] [])

section
variable (hm : GoodMove S w calcE n move)
include hm

/-- The sample is made from the first state by the burn-in and the recorded blocks. -/
theorem expectation_generate (random : ℕ → Prog (List (List ℤ))) (sampleSize nIters : ℕ) (burnIn : Option ℕ)
    (systematic saveHistory : Bool) (prev initial : Option (List (List ℤ))) (F : List (List ℤ) → ℝ) (lo hi : ℝ)
    (hr : FinDist (random 1) fun x => x.length = 1 ∧ ∀ s ∈ x, s ∈ S) (h : GoodStart S 1 sampleSize prev initial)
    (hF : ∀ s ∈ S, lo ≤ expectation (fun st => expectation (fun tr => F (tr.map Prod.fst))
        (visits (fun _ : ℕ => metroRun move n systematic nIters) (List.range sampleSize) st))
        (metroRun move n systematic (burnOr burnIn nIters) (s, calcE s)) ∧
      expectation (fun st => expectation (fun tr => F (tr.map Prod.fst))
        (visits (fun _ : ℕ => metroRun move n systematic nIters) (List.range sampleSize) st))
        (metroRun move n systematic (burnOr burnIn nIters) (s, calcE s)) ≤ hi) :
    lo ≤ expectation (fun out : SampleOut => F out.sample)
      (generateSamplePy move random calcE n prev sampleSize nIters burnIn systematic saveHistory initial) ∧
    expectation (fun out : SampleOut => F out.sample)
      (generateSamplePy move random calcE n prev sampleSize nIters burnIn systematic saveHistory initial) ≤ hi := by
  have key : ∀ st, expectation (fun out : SampleOut => F out.sample)
      (if saveHistory then
          (metroRecordHistory move n systematic sampleSize nIters st).bind fun r =>
            .ret ⟨r.2.1, r.2.2, [r.1.1.1], some r.1.2.1⟩
        else
          (metroRecord move n systematic sampleSize nIters st).bind fun r =>
            .ret ⟨r.2.1, r.2.2, [r.1.1], none⟩) =
      expectation (fun tr => F (tr.map Prod.fst))
        (visits (fun _ : ℕ => metroRun move n systematic nIters) (List.range sampleSize) st) := by
    intro st
    have e1 : expectation (fun tr => F (tr.map Prod.fst))
        (visits (fun _ : ℕ => metroRun move n systematic nIters) (List.range sampleSize) st) =
        expectation (fun r => F r.2.1) (metroRecord move n systematic sampleSize nIters st) := by
      rw [metroRecord_blocks, expectation_bind]; rfl
    rw [e1]
    cases saveHistory
    · rw [if_neg (by simp), expectation_bind]; rfl
    · rw [if_pos rfl, metroRecordHistory_eq, metroRecord_eq, expectation_bind, expectation_bind, expectation_bind]; rfl
  have hfin := finDist_startStates hm.length hr h
  unfold generateSamplePy
  rw [expectation_bind]
  constructor
  · rw [← hfin.const lo]
    refine hfin.mono fun x hx => ?_
    match x, hx with
    | [s], hx =>
      dsimp only
      rw [expectation_bind]
      simp only [key]
      exact (hF s (hx.2 s (by simp))).1
  · conv_rhs => rw [← hfin.const hi]
    refine hfin.mono fun x hx => ?_
    match x, hx with
    | [s], hx =>
      dsimp only
      rw [expectation_bind]
      simp only [key]
      exact (hF s (hx.2 s (by simp))).2

variable (he : Ergodic (withE calcE S) (fun st => w st.1) (metroIter move n false 0))
include he

theorem finDist_generate (hr : FinDist (random 1) fun x => x.length = 1 ∧ ∀ s ∈ x, s ∈ S) (sampleSize nIters : ℕ)
    (burnIn : Option ℕ) (saveHistory : Bool) (prev initial : Option (List (List ℤ)))
    (hst : GoodStart S 1 sampleSize prev initial) :
    FinDist (generateSamplePy move random calcE n prev sampleSize nIters burnIn false saveHistory initial)
      fun out => out.sample.length = sampleSize := by
  have hblock : ∀ q, ∀ st ∈ withE calcE S, FinDist (metroRun move n false q st) (· ∈ withE calcE S) := fun q =>
    finDist_forEach (I := (· ∈ withE calcE S)) _ fun _ _ => he.fin
  unfold generateSamplePy
  refine finDist_bind (finDist_startStates hm.length hr hst) fun x hx => ?_
  match x, hx with
  | [s], hx =>
    dsimp only
    refine finDist_bind (hblock _ (s, calcE s) (mem_withE.2 ⟨hx.2 s (by simp), rfl⟩)) fun st hst => ?_
    have hv := finDist_visits (ι := ℕ) he.fin ((List.range sampleSize).flatMap fun _ => List.range nIters) st hst
    split
    · rw [metroRecordHistory_eq, bind_assoc]
      exact finDist_bind hv fun tr htr => finDist_ret (by simp)
    · rw [metroRecord_eq, bind_assoc]
      exact finDist_bind hv fun tr htr => finDist_ret (by simp)

/-- The rows approach the distribution, whatever the first state. -/
theorem generate_rate (hn : 0 < n) (hr : FinDist (random 1) fun x => x.length = 1 ∧ ∀ s ∈ x, s ∈ S) (f : List ℤ → ℝ) :
    ∃ r : ℕ → ℝ, Tendsto r atTop (nhds 0) ∧ ∀ (sampleSize nIters : ℕ) (burnIn : Option ℕ) (saveHistory : Bool)
      (prev initial : Option (List (List ℤ))) (b : ℕ), GoodStart S 1 sampleSize prev initial → b < sampleSize →
      |expectation (fun out : SampleOut => f (out.sample.getD b []))
        (generateSamplePy move random calcE n prev sampleSize nIters burnIn false saveHistory initial) -
          (S.map fun s => w s * f s).sum| ≤ r (burnOr burnIn nIters + (b + 1) * nIters) := by
  obtain ⟨r, h1, h2, h3, h4, -⟩ := he.rate fun st => f st.1
  rw [sum_withE] at h4
  refine ⟨r, h2, fun sampleSize nIters burnIn saveHistory prev initial b hst hb => ?_⟩
  obtain ⟨μ, hμ⟩ : ∃ μ, μ = (S.map fun s => w s * f s).sum := ⟨_, rfl⟩
  rw [← hμ] at h4 ⊢
  rw [abs_sub_le_iff]
  have := expectation_generate hm random sampleSize nIters burnIn false saveHistory prev initial
    (fun x => f (x.getD b [])) (μ - r (burnOr burnIn nIters + (b + 1) * nIters))
    (μ + r (burnOr burnIn nIters + (b + 1) * nIters)) hr hst fun s hs => ?_
  · constructor <;> linarith [this.1, this.2]
  have hs' : (s, calcE s) ∈ withE calcE S := mem_withE.2 ⟨hs, rfl⟩
  have hret : ∀ st ∈ withE calcE S, Returns (metroIter move n false 0 st) (· ∈ withE calcE S) := fun st hst =>
    returns_mono (fun r hr => mem_withE.2 hr)
      (returns_metroIter hm hn false 0 st (mem_withE.1 hst).1 (mem_withE.1 hst).2)
  have hblock : ∀ q, ∀ st ∈ withE calcE S, FinDist (metroRun move n false q st) (· ∈ withE calcE S) := fun q =>
    finDist_forEach (I := (· ∈ withE calcE S)) _ fun _ _ => he.fin
  have e1 : expectation (fun st => expectation (fun tr => f ((tr.map Prod.fst).getD b []))
        (visits (fun _ : ℕ => metroRun move n false nIters) (List.range sampleSize) st))
        (metroRun move n false (burnOr burnIn nIters) (s, calcE s)) =
      expectation (fun st => f st.1) (forEach (fun _ => metroIter move n false 0)
        (List.range (burnOr burnIn nIters + (b + 1) * nIters)) (s, calcE s)) := by
    have e2 : ∀ st ∈ withE calcE S, expectation (fun tr => f ((tr.map Prod.fst).getD b []))
        (visits (fun _ : ℕ => metroRun move n false nIters) (List.range sampleSize) st) =
        (fun f s => expectation f (metroIter move n false 0 s))^[(b + 1) * nIters] (fun st => f st.1) st := by
      intro st hst
      have hv := finDist_visits (ι := ℕ) (hblock nIters) (List.range sampleSize) st hst
      rw [hv.congr (g := fun tr => (fun st : List ℤ × ℝ => f st.1) ((st :: tr).getD (b + 1) st)) fun tr htr => ?_]
      · refine (expectation_visits_getD (I := (· ∈ withE calcE S)) (fun _ : ℕ => metroRun move n false nIters)
          (List.range sampleSize) (fun _ _ st hst => returns_forEach
          (I := (· ∈ withE calcE S)) _ (fun _ _ => hret) st hst) st hst (b + 1) (by simpa using hb) fun st => f st.1).trans ?_
        rw [expectation_forEach_step]
        unfold metroRun
        change (fun f s => expectation f (forEach (fun _ : ℕ => metroIter move n false 0) (List.range nIters) s))^[_] _ _ = _
        rw [iterate_block, List.length_take, List.length_range, min_eq_left (by omega), Nat.mul_comm]
      · have hlen : b < tr.length := by rw [htr.1, List.length_range]; exact hb
        rw [List.getD_cons_succ, List.getD_eq_getElem _ _ (by simpa using hlen), List.getD_eq_getElem _ _ hlen,
          List.getElem_map]
    rw [(hblock _ _ hs').congr e2]
    unfold metroRun
    change expectation _ (forEach (fun _ => metroIter move n false 0) _ _) = _
    rw [expectation_forEach_step, expectation_forEach_step, ← Function.iterate_add_apply, List.length_range, List.length_range]
  rw [e1]
  have := h4 (List.range (burnOr burnIn nIters + (b + 1) * nIters)) _ hs'
  rw [List.length_range, abs_sub_le_iff] at this
  constructor <;> linarith [this.1, this.2]

/-- The averages over the rows approach the mean: the mean square deviation is at most `K` over the number of rows. -/
theorem generate_lln (hr : FinDist (random 1) fun x => x.length = 1 ∧ ∀ s ∈ x, s ∈ S) (f : List ℤ → ℝ) :
    ∃ K, 0 ≤ K ∧ ∀ (sampleSize nIters : ℕ) (burnIn : Option ℕ) (saveHistory : Bool)
      (prev initial : Option (List (List ℤ))), GoodStart S 1 sampleSize prev initial → 0 < nIters →
      expectation (fun out : SampleOut => ((out.sample.map f).sum - sampleSize * (S.map fun s => w s * f s).sum) ^ 2)
        (generateSamplePy move random calcE n prev sampleSize nIters burnIn false saveHistory initial) ≤ sampleSize * K := by
  obtain ⟨K, h0, hK⟩ := he.lln fun st => f st.1
  rw [sum_withE] at hK
  refine ⟨K, h0, fun sampleSize nIters burnIn saveHistory prev initial hst hq => ?_⟩
  have hblock : ∀ q, ∀ st ∈ withE calcE S, FinDist (metroRun move n false q st) (· ∈ withE calcE S) := fun q =>
    finDist_forEach (I := (· ∈ withE calcE S)) _ fun _ _ => he.fin
  refine (expectation_generate hm random sampleSize nIters burnIn false saveHistory prev initial
    (fun x => ((x.map f).sum - sampleSize * (S.map fun s => w s * f s).sum) ^ 2) 0 (sampleSize * K) hr hst
    fun s hs => ?_).2
  have hs' : (s, calcE s) ∈ withE calcE S := mem_withE.2 ⟨hs, rfl⟩
  have hin : ∀ st ∈ withE calcE S, 0 ≤ expectation (fun tr => (((tr.map Prod.fst).map f).sum -
      sampleSize * (S.map fun s => w s * f s).sum) ^ 2)
        (visits (fun _ : ℕ => metroRun move n false nIters) (List.range sampleSize) st) ∧
      expectation (fun tr => (((tr.map Prod.fst).map f).sum - sampleSize * (S.map fun s => w s * f s).sum) ^ 2)
        (visits (fun _ : ℕ => metroRun move n false nIters) (List.range sampleSize) st) ≤ sampleSize * K := by
    intro st hst
    refine ⟨(finDist_visits (ι := ℕ) (hblock nIters) _ st hst).nonneg fun tr _ => sq_nonneg _, ?_⟩
    have := hK nIters hq (List.range sampleSize) st hst
    rw [List.length_range] at this
    simp only [List.map_map]
    exact this
  constructor
  · exact (hblock _ _ hs').nonneg fun st hst => (hin st hst).1
  · have := (hblock (burnOr burnIn nIters) _ hs').mono fun st hst => (hin st hst).2
    rwa [(hblock _ _ hs').const] at this

end

/-- The average in place of the sum. -/
theorem average_of_sum {α : Type} {p : Prog α} {Q : α → Prop} (hp : FinDist p Q) (X : α → ℝ) (μ K : ℝ) (m : ℕ) (hm : 0 < m)
    (h : expectation (fun a => (X a - m * μ) ^ 2) p ≤ m * K) : expectation (fun a => (X a / m - μ) ^ 2) p ≤ K / m := by
  have hm' : (0 : ℝ) < m := by exact_mod_cast hm
  have e : (fun a => (X a / m - μ) ^ 2) = fun a => 0 + ((m : ℝ) ^ 2)⁻¹ * (X a - m * μ) ^ 2 := by
    funext a
    field_simp
    ring
  rw [e, hp.affine, zero_add]
  refine (mul_le_mul_of_nonneg_left h (by positivity)).trans_eq ?_
  field_simp

/-- Chebyshev's inequality. -/
theorem FinDist.chebyshev {α : Type} {p : Prog α} {Q : α → Prop} (hp : FinDist p Q) (X : α → ℝ) (δ V : ℝ) (hδ : 0 < δ)
    (hV : expectation (fun a => X a ^ 2) p ≤ V) : prob p (fun a => δ ≤ |X a|) ≤ V / δ ^ 2 := by
  unfold prob
  have hδ2 : 0 < δ ^ 2 := by positivity
  have h1 : expectation (fun a => if δ ≤ |X a| then 1 else 0) p ≤ expectation (fun a => 0 + (δ ^ 2)⁻¹ * X a ^ 2) p := by
    refine hp.mono fun a _ => ?_
    split
    · rename_i h
      have h2 : δ ^ 2 ≤ X a ^ 2 := by
        rw [← sq_abs (X a)]
        exact pow_le_pow_left₀ hδ.le h 2
      rw [zero_add, ← div_eq_inv_mul, le_div_iff₀ hδ2]
      linarith
    · positivity
  rw [hp.affine, zero_add] at h1
  refine h1.trans ?_
  rw [div_eq_inv_mul]
  exact mul_le_mul_of_nonneg_left hV (by positivity)

end Verif.Lemmas
