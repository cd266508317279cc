/-
Averages over the states of a chain, with bounds that hold for many chains at once.
-/
import Verif.Lemmas.Ergodic4

namespace Verif.Lemmas
open Verif Verif.Model Verif.Spec Prog Filter

variable {α β : Type}

/-- The step stays in `S`, and the second moment of the deviation of the sum of `f` over every `q`-th state is at most `K`
times the number of states, for all first states. -/
structure LlnK (S : List α) (w : α → ℝ) (step : α → Prog α) (f : α → ℝ) (K : ℝ) : Prop where
  fin : ∀ s ∈ S, FinDist (step s) (· ∈ S)
  nonneg : 0 ≤ K
  bound : ∀ q, 0 < q → ∀ l : List ℕ, ∀ s ∈ S,
    expectation (fun tr => ((tr.map f).sum - l.length * (S.map fun s => w s * f s).sum) ^ 2)
      (visits (fun _ : ℕ => forEach (fun _ : ℕ => step) (List.range q)) l s) ≤ l.length * K

/-- If `N` steps lead from every state to every state with probability at least `ε`. -/
theorem llnK_of_reach [DecidableEq α] {S : List α} {w : α → ℝ} {step : α → Prog α}
    (hfin : ∀ s ∈ S, FinDist (step s) (· ∈ S)) (hw : ∀ s ∈ S, 0 ≤ w s) (hW : (S.map w).sum = 1)
    (hk : ∀ f : α → ℝ, (S.map fun s => w s * expectation f (step s)).sum = (S.map fun s => w s * f s).sum) (N : ℕ)
    (hN : 0 < N) {ε : ℝ} (hε0 : 0 < ε) (hε1 : ε ≤ 1)
    (hpos : ∀ s ∈ S, ∀ t ∈ S, ε ≤ (fun f s => expectation f (step s))^[N] (pointFn t) s)
    (f : α → ℝ) (c : ℝ) (hc0 : 0 ≤ c) (hc : ∀ s ∈ S, |f s| ≤ c) :
    LlnK S w step f ((2 * c) ^ 2 + 2 * (2 * c) * (2 * c * (N / ε))) := by
  obtain ⟨μ, hμ⟩ : ∃ μ, μ = (S.map fun s => w s * f s).sum := ⟨_, rfl⟩
  obtain ⟨C, hC2, hC⟩ := mixing_rate (markov_step hfin) w hw hW hk N hpos hε1 f
  rw [← hμ] at hC
  have hC2 := hC2 c hc0 hc
  have hρ0 : 0 ≤ 1 - ε := by linarith
  have hρ1 : 1 - ε < 1 := by linarith
  refine ⟨hfin, by positivity, fun q hq l s hs => ?_⟩
  rw [← hμ]
  obtain ⟨r, hr⟩ : ∃ r : ℕ → ℝ, r = fun m => 2 * c * (1 - ε) ^ (m / N) := ⟨_, rfl⟩
  have h3 : Antitone r := by
    intro a b hab
    rw [hr]
    exact mul_le_mul_of_nonneg_left (pow_le_pow_of_le_one hρ0 hρ1.le (Nat.div_le_div_right hab)) (by positivity)
  have hB : ∀ M, ∑ m ∈ Finset.range M, r m ≤ 2 * c * (N / ε) := by
    intro M
    rw [hr, ← Finset.mul_sum]
    have := sum_pow_div N hN hρ0 hρ1 M
    rw [sub_sub_cancel] at this
    exact mul_le_mul_of_nonneg_left this (by positivity)
  have hr0 : r 0 = 2 * c := by rw [hr]; simp
  have hblock : ∀ s ∈ S, FinDist (forEach (fun _ : ℕ => step) (List.range q) s) (· ∈ S) :=
    finDist_forEach (I := (· ∈ S)) _ fun _ _ => hfin
  have hg : ∀ (m : ℕ), ∀ s ∈ S, |(fun f s => expectation f (step s))^[m] (fun t => f t - μ) s| ≤ r m := by
    intro m s hs
    have e := ((markov_step hfin).iter m).affine (-μ) 1 f s hs
    rw [show (fun t => f t - μ) = fun t => -μ + 1 * f t from by funext t; ring, e, one_mul, neg_add_eq_sub]
    refine (hC (m / N) m (Nat.mul_div_le m N) s hs).trans ?_
    rw [hr]
    exact mul_le_mul_of_nonneg_right ((le_abs_self C).trans hC2) (pow_nonneg hρ0 _)
  have key := second_moment (ι := ℕ) hblock (fun t => f t - μ) (r 0) (2 * c * (N / ε)) (hg 0) (fun M s hs => ?_) l s hs
  · rw [(finDist_visits (ι := ℕ) hblock l s hs).congr
      (g := fun tr => (tr.map fun t => f t - μ).sum ^ 2) fun tr htr => ?_]
    · rw [hr0] at key
      exact key
    · have e : ∀ tr : List α, (tr.map fun t => f t - μ).sum = (tr.map f).sum - tr.length * μ := fun tr => by
        induction tr with
        | nil => simp
        | cons a tr ih => simp only [List.map_cons, List.sum_cons, ih, List.length_cons]; push_cast; ring
      rw [e, htr.1]
  · refine (Finset.abs_sum_le_sum_abs _ _).trans ((Finset.sum_le_sum fun k _ => ?_).trans (hB M))
    rw [iterate_block]
    exact (hg _ s hs).trans (h3 (by nlinarith))

/-- Averages over the first `j` rows. -/
theorem LlnK.rows_take {S : List α} {w : α → ℝ} {step : α → Prog α} {g : α → β} {f : β → ℝ} {K : ℝ}
    (hl : LlnK S w step (fun s => f (g s)) K) (p : Prog (List β)) (init : Prog α) (burn k m j : ℕ)
    (hi : FinDist init (· ∈ S)) (hp : IsRows p init g step burn k m) (hk : 0 < k) (hj : j ≤ m) :
    expectation (fun rows => (((rows.take j).map f).sum - j * (S.map fun s => w s * f (g s)).sum) ^ 2) p ≤ j * K := by
  have hb : ∀ q, ∀ st ∈ S, FinDist (forEach (fun _ : ℕ => step) (List.range q) st) (· ∈ S) := fun q =>
    finDist_forEach (I := (· ∈ S)) _ fun _ _ => hl.fin
  rw [hp]
  refine hi.le_of fun s hs => ?_
  have : expectation (fun tr => ((tr.map fun s => f (g s)).sum - j * (S.map fun s => w s * f (g s)).sum) ^ 2)
      (chainRows step burn k j s) ≤ j * K := by
    unfold chainRows
    rw [expectation_bind]
    have h1 := fun st hst => hl.bound k hk (List.range j) st hst
    simp only [List.length_range] at h1
    have := (hb burn s hs).mono (g := fun _ => j * K) h1
    rwa [(hb burn s hs).const] at this
  rw [← expectation_chainRows_take hl.fin _ burn k m j hj s hs] at this
  simpa only [← List.map_take, List.map_map, Function.comp_def] using this

/-- Several compiled chains. -/
theorem LlnK.boostParallel {S : List α} {w : α → ℝ} {step : α → Prog α} {g : α → List ℤ} {f : List ℤ → ℝ} {K : ℝ}
    (hl : LlnK S w step (fun s => f (g s)) K) (one : ℕ → Prog (List (List ℤ))) (init : Prog α) (burn k nCpus m : ℕ)
    (hi : FinDist init (· ∈ S)) (hrows : ∀ q, IsRows (one q) init g step burn k q) (hk : 0 < k) (hc : 0 < nCpus)
    (hm : 0 < m) :
    expectation (fun rows => ((rows.map f).sum / m - (S.map fun s => w s * f (g s)).sum) ^ 2)
      (Model.boostParallel nCpus m one) ≤ nCpus * K / m := by
  obtain ⟨q, hq⟩ : ∃ q, q = (m + nCpus - 1) / nCpus := ⟨_, rfl⟩
  have h1 := (hrows q).finDist hi hl.fin
  have h2 := parallel_lln (rows := fun r : List (List ℤ) => r) (f := f) (q := q) (List.range nCpus)
    (fun _ _ => h1) (fun _ _ j hj => hl.rows_take _ _ _ _ _ j hi (hrows q) hk hj) m (by
      rw [List.length_range, hq]
      exact ceil_mul_ge m nCpus hc)
  have h3 : FinDist (Model.boostParallel nCpus m one) fun _ => True := by
    unfold Model.boostParallel
    rw [← hq]
    exact finDist_bind (finDist_mapEach _ fun _ _ => h1) fun _ _ => finDist_ret trivial
  rw [List.length_range] at h2
  refine average_of_sum h3 (fun rows => (rows.map f).sum) _ (nCpus * K) m hm ?_
  unfold Model.boostParallel
  rw [← hq, expectation_bind]
  simp only [expectation_ret]
  simp only [List.flatMap_id'] at h2
  refine le_trans h2 (le_of_eq ?_)
  ring

theorem finDist_boostParallel {S : List α} {step : α → Prog α} {g : α → List ℤ}
    (hfin : ∀ s ∈ S, FinDist (step s) (· ∈ S)) (one : ℕ → Prog (List (List ℤ))) (init : Prog α) (burn k nCpus m : ℕ)
    (hi : FinDist init (· ∈ S)) (hrows : ∀ q, IsRows (one q) init g step burn k q) :
    FinDist (Model.boostParallel nCpus m one) fun _ => True := by
  unfold Model.boostParallel
  exact finDist_bind (finDist_mapEach _ fun _ _ => (hrows _).finDist hi hfin) fun _ _ => finDist_ret trivial

section
variable {S : List (List ℤ)} {w calcE : List ℤ → ℝ} {n : ℕ} {move : Move} {random : ℕ → Prog (List (List ℤ))}

theorem finDist_parallelChain' (hfin : ∀ st ∈ withE calcE S, FinDist (metroIter move n false 0 st) (· ∈ withE calcE S))
    (burn m k : ℕ) (s : List ℤ) (hs : s ∈ S) :
    FinDist (parallelChain move calcE n false burn m k s) fun r => r.1.length = m := by
  have hblock : ∀ q, ∀ st ∈ withE calcE S, FinDist (metroRun move n false q st) (· ∈ withE calcE S) := fun q =>
    finDist_forEach (I := (· ∈ withE calcE S)) _ fun _ _ => hfin
  unfold parallelChain
  refine finDist_bind (hblock burn _ (mem_withE.2 ⟨hs, rfl⟩)) fun st hst => ?_
  rw [metroRecord_blocks, bind_assoc]
  refine finDist_bind (finDist_visits (ι := ℕ) (hblock k) (List.range m) st hst) fun tr htr => ?_
  exact finDist_ret (by simp [htr.1])

variable (hm : GoodMove S w calcE n move)
include hm

theorem finDist_parallel (hfin : ∀ st ∈ withE calcE S, FinDist (metroIter move n false 0 st) (· ∈ withE calcE S))
    (nCpus sampleSize nIters : ℕ) (burnIn : Option ℕ) (prev initial : Option (List (List ℤ)))
    (hr : FinDist (random nCpus) fun x => x.length = nCpus ∧ ∀ s ∈ x, s ∈ S) (hst : GoodStart S nCpus nCpus prev initial) :
    FinDist (generateSampleParallelPy move random calcE n nCpus prev sampleSize nIters burnIn false initial)
      fun _ => True := by
  unfold generateSampleParallelPy
  exact finDist_bind (finDist_startStates hm.length hr hst) fun states hs => finDist_bind (finDist_mapEach _ fun s hs' =>
    finDist_parallelChain' hfin _ _ _ s (hs.2 s hs')) fun _ _ => finDist_ret trivial

/-- Averages over the rows of the parallel sampler. -/
theorem LlnK.parallel {f : List ℤ → ℝ} {K : ℝ}
    (hl : LlnK (withE calcE S) (fun st => w st.1) (metroIter move n false 0) (fun st => f st.1) K)
    (nCpus sampleSize nIters : ℕ) (burnIn : Option ℕ) (prev initial : Option (List (List ℤ)))
    (hr : FinDist (random nCpus) fun x => x.length = nCpus ∧ ∀ s ∈ x, s ∈ S)
    (hst : GoodStart S nCpus nCpus prev initial) (hc : 0 < nCpus) (hm' : 0 < sampleSize) (hk : 0 < nIters) :
    expectation (fun out : SampleOut => ((out.sample.map f).sum / sampleSize - (S.map fun s => w s * f s).sum) ^ 2)
      (generateSampleParallelPy move random calcE n nCpus prev sampleSize nIters burnIn false initial) ≤
        nCpus * K / sampleSize := by
  obtain ⟨q, hq⟩ : ∃ q, q = (sampleSize + nCpus - 1) / nCpus := ⟨_, rfl⟩
  have hss := finDist_startStates hm.length hr hst
  have hfin := finDist_parallel hm hl.fin nCpus sampleSize nIters burnIn prev initial hr hst
  refine average_of_sum hfin (fun out : SampleOut => (out.sample.map f).sum) _ (nCpus * K) sampleSize hm' ?_
  unfold generateSampleParallelPy
  rw [expectation_bind, ← hq]
  refine hss.le_of fun states hs => ?_
  rw [expectation_bind]
  simp only [expectation_ret]
  refine (parallel_lln (rows := fun r : List (List ℤ) × List ℤ × ℝ => r.1) (K := K) (q := q) states (fun s hs' =>
    finDist_parallelChain' hl.fin _ _ _ s (hs.2 s hs')) (fun s hs' j hj => ?_) sampleSize ?_).trans (le_of_eq ?_)
  · have := hl.rows_take _ _ _ _ _ j (finDist_ret (mem_withE.2 ⟨hs.2 s hs', rfl⟩))
      (isRows_parallelChain (move := move) (calcE := calcE) (n := n) (burnOr burnIn nIters) q nIters s) hk hj
    rw [sum_withE, expectation_bind] at this
    exact this
  · rw [hs.1, hq]
    exact ceil_mul_ge sampleSize nCpus hc
  · rw [hs.1]
    ring

end

/-! ### Leading everywhere with a known probability -/

section
variable [DecidableEq α] {S : List α} {T : (α → ℝ) → α → ℝ}

theorem reach_trans_le (hT : Markov S T) {k l : ℕ} {s u t : α} {a b : ℝ} (hs : s ∈ S) (ha : 0 ≤ a) (h0 : 0 ≤ b)
    (h1 : a ≤ T^[k] (pointFn u) s) (h2 : b ≤ T^[l] (pointFn t) u) : a * b ≤ T^[k + l] (pointFn t) s := by
  rw [Function.iterate_add_apply]
  have h3 : T^[k] (fun v => T^[l] (pointFn t) u * pointFn u v) s ≤ T^[k] (T^[l] (pointFn t)) s := by
    refine (hT.iter k).mono (fun v hv => ?_) s hs
    unfold pointFn
    by_cases h : v = u
    · rw [if_pos h, mul_one, h]
    · rw [if_neg h, mul_zero]
      refine (hT.iter l).nonneg (fun t' _ => ?_) v hv
      split <;> norm_num
  rw [(hT.iter k).smul _ _ s hs] at h3
  refine le_trans ?_ h3
  rw [mul_comm]
  exact mul_le_mul h2 h1 ha (h0.trans h2)

theorem hold_le (hT : Markov S T) {a : α} {p : ℝ} (ha : a ∈ S) (hp : 0 ≤ p) (h : p ≤ T (pointFn a) a) (k : ℕ) :
    p ^ k ≤ T^[k] (pointFn a) a := by
  induction k with
  | zero => simp [pointFn]
  | succ k ih =>
    rw [pow_succ]
    exact reach_trans_le hT (k := k) (l := 1) ha (pow_nonneg hp k) hp ih h

end

end Verif.Lemmas
