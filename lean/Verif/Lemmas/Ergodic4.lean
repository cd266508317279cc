/-
Convergence of the compiled samplers, and energies that are not constant.
-/
import Verif.Lemmas.ParRows
import Verif.Lemmas.CppSampler
import Verif.Lemmas.CondProgram
import Verif.Lemmas.Solvers

namespace Verif.Lemmas
open Verif Verif.Model Verif.Spec Prog Filter

/-- The energy of an Ising model with a nonzero parameter is not constant. -/
theorem ising_not_constant (n : ℕ) (theta : List ℝ) (ht : theta.length = n + n * (n - 1) / 2)
    (hx : ∃ x ∈ theta, x ≠ 0) :
    ∃ s ∈ words [1, -1] n, ∃ t ∈ words [1, -1] n, isingVecE n (theta.take n) (theta.drop n) (spins s) ≠
      isingVecE n (theta.take n) (theta.drop n) (spins t) := by
  by_contra hcon
  push Not at hcon
  obtain ⟨x, hx, hx0⟩ := hx
  have hE : ∀ v : List ℝ, v.length = n + n * (n - 1) / 2 → ∀ s : List ℤ,
      groupE (allOrders n 2) [v.take n, v.drop n] (spins s) = isingVecE n (v.take n) (v.drop n) (spins s) := by
    intro v hv s
    have h1 : (v.take n).length = n := by rw [List.length_take]; omega
    have h2 : (v.drop n).length = n * (n - 1) / 2 := by rw [List.length_drop]; omega
    have := groupE_allOrders n [v.take n, v.drop n] (spins s)
    rw [← polyE_two n _ _ h1 h2, ← this]; rfl
  have hz : ∀ s : List ℤ, isingVecE n ((List.replicate (n + n * (n - 1) / 2) (0 : ℝ)).take n)
      ((List.replicate (n + n * (n - 1) / 2) (0 : ℝ)).drop n) (spins s) = 0 := by
    intro s
    have h0 : ∀ (q i : ℕ), (List.replicate q (0 : ℝ)).getD i 0 = 0 := fun q i => by
      simp
    unfold isingVecE isingE couplingAt
    simp only [List.take_replicate, List.drop_replicate, h0, zero_mul, Finset.sum_const_zero, ite_self, neg_zero,
      sub_zero]
  have hmem : ∀ s, s ∈ words (spinValues true) n ↔ s ∈ words [1, -1] n := fun s => by
    rw [mem_words, mem_words]
    simp only [spinValues, if_true, List.mem_cons, List.not_mem_nil, or_false]
    refine and_congr_right fun _ => ⟨fun h x hx => (h x hx).symm, fun h x hx => (h x hx).symm⟩
  obtain ⟨t, ht'⟩ := List.exists_mem_of_ne_nil _ (words_ne_nil [1, -1] 1 (by simp) n)
  have := pairwise_unique n true theta (List.replicate (n + n * (n - 1) / 2) 0) ht (by simp) fun i hi => Or.inr (by
    unfold expect
    refine congrArg List.sum (List.map_congr_left fun s hs => ?_)
    rw [boltzmann_shift (words (spinValues true) n)
      (fun s => groupE (allOrders n 2) [(List.replicate (n + n * (n - 1) / 2) (0 : ℝ)).take n,
        (List.replicate (n + n * (n - 1) / 2) (0 : ℝ)).drop n] (spins s)) _
      (isingVecE n (theta.take n) (theta.drop n) (spins t)) (fun s hs => ?_) s hs]
    rw [hE theta ht, hE _ (by simp), hz, zero_add]
    exact hcon s ((hmem s).1 hs) t ht')
  rw [this] at hx
  exact hx0 (List.eq_of_mem_replicate hx)

section
variable {S : List (List ℤ)} {w calcE : List ℤ → ℝ} {n : ℕ} {move : Move} {cmove : CppMove}
  (hm : GoodMove S w calcE n move) (hn : 0 < n)
  (h : ∀ i < n, ∀ s ∈ S, cmove i s = move (some i) s (calcE s))
include hm hn h

/-- A run of the compiled sampler gives the rows of a chain. -/
theorem isRows_cpp {init : Prog (List ℤ)} (hi : Returns init (· ∈ S)) {cE : List ℤ → ℝ} (hE : ∀ s ∈ S, cE s = calcE s)
    (m burn k : ℕ) :
    IsRows (cppGenerateSample init cE cmove n m burn k false) (init.bind fun s => .ret (s, calcE s)) Prod.fst
      (metroIter move n false 0) burn k m := by
  intro F
  unfold cppGenerateSample
  rw [expectation_bind, expectation_bind]
  refine expectation_congr _ hi fun s hs => ?_
  rw [hE s hs, ← (agree_cppChain hm hn h false m burn k s hs).expectation F, expectation_ret, chainRows_eq, expectation_bind,
    expectation_bind]
  simp only [expectation_ret, List.map_map, Function.comp_def]
  rfl

end

theorem finDist_cppIsingInit (n : ℕ) : FinDist (cppIsingInit n) fun s => s ∈ words [1, -1] n :=
  finDist_randomRow [1, -1] (fun b => if b = 0 then 1 else -1) 2 (by norm_num)
    fun b _ => by by_cases h : b = 0 <;> simp [h]

theorem finDist_cppPottsInit (n : ℕ) : FinDist (cppPottsInit n) fun s => s ∈ words [0, 1, 2] n :=
  finDist_randomRow [0, 1, 2] (fun b => (b : ℤ)) 3 (by norm_num) fun b hb => by
    simp only [List.mem_cons, List.not_mem_nil, or_false]
    omega

theorem finDist_withE {S : List (List ℤ)} {calcE : List ℤ → ℝ} {init : Prog (List ℤ)} (h : FinDist init (· ∈ S)) :
    FinDist (init.bind fun s => .ret (s, calcE s)) (· ∈ withE calcE S) :=
  finDist_bind h fun _ hs => finDist_ret (mem_withE.2 ⟨hs, rfl⟩)

end Verif.Lemmas

namespace Verif.Lemmas
open Verif Verif.Model Verif.Spec Prog Filter

/-- Rows of several compiled chains. -/
theorem Ergodic.boostParallel {α : Type} [DecidableEq α] {S : List α} {w : α → ℝ} {step : α → Prog α}
    (he : Ergodic S w step) (g : α → List ℤ) (f : List ℤ → ℝ) :
    ∃ K, ∀ (one : ℕ → Prog (List (List ℤ))) (init : Prog α) (burn k nCpus m : ℕ),
      FinDist init (· ∈ S) → (∀ q, IsRows (one q) init g step burn k q) → 0 < k → 0 < nCpus → 0 < m →
      expectation (fun rows => ((rows.map f).sum / m - (S.map fun s => w s * f (g s)).sum) ^ 2)
        (boostParallel nCpus m one) ≤ nCpus * K / m := by
  obtain ⟨K, -, hK⟩ := he.isRows_lln_take g f
  refine ⟨K, fun one init burn k nCpus m hi hrows hk hc hm => ?_⟩
  obtain ⟨q, hq⟩ : ∃ q, q = (m + nCpus - 1) / nCpus := ⟨_, rfl⟩
  have h1 := (hrows q).finDist hi he.fin
  have h2 := parallel_lln (rows := fun r : List (List ℤ) => r) (f := f) (q := q) (List.range nCpus)
    (fun _ _ => h1) (fun _ _ j hj => hK _ _ _ _ _ j hi (hrows q) hk hj) m (by
      rw [List.length_range, hq]
      exact ceil_mul_ge m nCpus hc)
  have h3 : FinDist (Model.boostParallel nCpus m one) fun _ => True := by
    unfold Model.boostParallel
    rw [← hq]
    exact finDist_bind (finDist_mapEach _ fun _ _ => h1) fun _ _ => finDist_ret trivial
  rw [List.length_range] at h2
  refine average_of_sum h3 (fun rows => (rows.map f).sum) _ (nCpus * K) m hm ?_
  unfold Model.boostParallel
  rw [← hq, expectation_bind]
  simp only [expectation_ret]
  simp only [List.flatMap_id'] at h2
  refine le_trans h2 (le_of_eq ?_)
  ring

/-! ### The parallel Python sampler -/

section
variable {S : List (List ℤ)} {w calcE : List ℤ → ℝ} {n : ℕ} {move : Move} {random : ℕ → Prog (List (List ℤ))}

theorem isRows_parallelChain (burn m k : ℕ) (s : List ℤ) :
    IsRows ((parallelChain move calcE n false burn m k s).bind fun r => .ret r.1) (.ret (s, calcE s)) Prod.fst
      (metroIter move n false 0) burn k m := by
  intro F
  unfold parallelChain
  simp only [metroRecord_blocks, bind_assoc, Prog.bind]
  rw [expectation_ret]
  unfold chainRows
  simp only [expectation_bind, expectation_ret]
  rfl

variable (hm : GoodMove S w calcE n move) (he : Ergodic (withE calcE S) (fun st => w st.1) (metroIter move n false 0))
include hm he

omit hm in
theorem finDist_parallelChain (burn m k : ℕ) (s : List ℤ) (hs : s ∈ S) :
    FinDist (parallelChain move calcE n false burn m k s) fun r => r.1.length = m := by
  have hblock : ∀ q, ∀ st ∈ withE calcE S, FinDist (metroRun move n false q st) (· ∈ withE calcE S) := fun q =>
    finDist_forEach (I := (· ∈ withE calcE S)) _ fun _ _ => he.fin
  unfold parallelChain
  refine finDist_bind (hblock burn _ (mem_withE.2 ⟨hs, rfl⟩)) fun st hst => ?_
  rw [metroRecord_blocks, bind_assoc]
  refine finDist_bind (finDist_visits (ι := ℕ) (hblock k) (List.range m) st hst) fun tr htr => ?_
  exact finDist_ret (by simp [htr.1])

/-- Rows of the parallel sampler approach the distribution. -/
theorem parallel_rate (hn : 0 < n) (f : List ℤ → ℝ) :
    ∃ r : ℕ → ℝ, Tendsto r atTop (nhds 0) ∧ ∀ (nCpus sampleSize nIters : ℕ) (burnIn : Option ℕ)
      (prev initial : Option (List (List ℤ))) (c b q : ℕ),
      (FinDist (random nCpus) fun x => x.length = nCpus ∧ ∀ s ∈ x, s ∈ S) →
      GoodStart S nCpus nCpus prev initial → c < nCpus → q = (sampleSize + nCpus - 1) / nCpus → b < q →
      c * q + b < sampleSize →
      |expectation (fun out : SampleOut => f (out.sample.getD (c * q + b) []))
        (generateSampleParallelPy move random calcE n nCpus prev sampleSize nIters burnIn false initial) -
          (S.map fun s => w s * f s).sum| ≤ r (burnOr burnIn nIters + (b + 1) * nIters) := by
  obtain ⟨r, h1, h2⟩ := he.isRows_rate Prod.fst f []
  refine ⟨r, h1, fun nCpus sampleSize nIters burnIn prev initial c b q hr hst hc hq hb hcb => ?_⟩
  unfold generateSampleParallelPy
  rw [expectation_bind, ← hq]
  refine (finDist_startStates hm.length hr hst).bound fun states hs => ?_
  have hch : ∀ x ∈ states, Returns (parallelChain move calcE n false (burnOr burnIn nIters) q nIters x)
      fun r => r.1.length = q := fun x hx =>
    returns_mono (fun r hr => hr.1) (returns_parallelChain hm hn false _ _ _ x (hs.2 x hx))
  have hc' : c < states.length := by rw [hs.1]; exact hc
  rw [expectation_bind, expectation_congr (g := fun as => f ((as.getD c ([], [], 0)).1.getD b [])) _
    (returns_mapEach (Q := fun _ r => r.1.length = q) _ hch)]
  · rw [expectation_mapEach_getD _ (fun r => r.1.length = q) ([], [], 0) (fun r => f (r.1.getD b [])) _ hch c hc']
    have := h2 _ _ _ _ _ b (finDist_ret (mem_withE.2 ⟨hs.2 _ (List.getElem_mem hc'), rfl⟩))
      (isRows_parallelChain (move := move) (calcE := calcE) (n := n) (burnOr burnIn nIters) q nIters states[c]) hb
    rw [sum_withE, expectation_bind] at this
    exact this
  · intro rs hrs
    rw [expectation_ret]
    dsimp only
    have hlen' : rs.length = nCpus := by rw [← hrs.length_eq, hs.1]
    have hall : ∀ r ∈ rs, r.1.length = q := by
      intro r hr
      obtain ⟨i, hi, rfl⟩ := List.getElem_of_mem hr
      exact (List.forall₂_iff_get.1 hrs).2 i (by rw [hrs.length_eq]; exact hi) hi
    rw [getD_take _ _ _ _ hcb, getD_flatMap_const rs q hall c b (by omega) hb]

/-- Averages over the rows of the parallel sampler approach the mean. -/
theorem parallel_average (f : List ℤ → ℝ) :
    ∃ K, ∀ (nCpus sampleSize nIters : ℕ) (burnIn : Option ℕ) (prev initial : Option (List (List ℤ))),
      (FinDist (random nCpus) fun x => x.length = nCpus ∧ ∀ s ∈ x, s ∈ S) →
      GoodStart S nCpus nCpus prev initial → 0 < nCpus → 0 < sampleSize → 0 < nIters →
      expectation (fun out : SampleOut => ((out.sample.map f).sum / sampleSize - (S.map fun s => w s * f s).sum) ^ 2)
        (generateSampleParallelPy move random calcE n nCpus prev sampleSize nIters burnIn false initial) ≤
          nCpus * K / sampleSize := by
  obtain ⟨K, -, hK⟩ := he.isRows_lln_take Prod.fst f
  refine ⟨K, fun nCpus sampleSize nIters burnIn prev initial hr hst hc hm' hk => ?_⟩
  obtain ⟨q, hq⟩ : ∃ q, q = (sampleSize + nCpus - 1) / nCpus := ⟨_, rfl⟩
  have hss := finDist_startStates hm.length hr hst
  have hfin : FinDist (generateSampleParallelPy move random calcE n nCpus prev sampleSize nIters burnIn false initial)
      fun _ => True := by
    unfold generateSampleParallelPy
    exact finDist_bind hss fun states hs => finDist_bind (finDist_mapEach _ fun s hs' =>
      finDist_parallelChain he _ _ _ s (hs.2 s hs')) fun _ _ => finDist_ret trivial
  refine average_of_sum hfin (fun out : SampleOut => (out.sample.map f).sum) _ (nCpus * K) sampleSize hm' ?_
  unfold generateSampleParallelPy
  rw [expectation_bind, ← hq]
  refine hss.le_of fun states hs => ?_
  rw [expectation_bind]
  simp only [expectation_ret]
  refine (parallel_lln (rows := fun r : List (List ℤ) × List ℤ × ℝ => r.1) (K := K) (q := q) states (fun s hs' =>
    finDist_parallelChain he _ _ _ s (hs.2 s hs')) (fun s hs' j hj => ?_) sampleSize ?_).trans (le_of_eq ?_)
  · have := hK _ _ _ _ _ j (finDist_ret (mem_withE.2 ⟨hs.2 s hs', rfl⟩))
      (isRows_parallelChain (move := move) (calcE := calcE) (n := n) (burnOr burnIn nIters) q nIters s) hk hj
    rw [sum_withE, expectation_bind] at this
    exact this
  · rw [hs.1, hq]
    exact ceil_mul_ge sampleSize nCpus hc
  · rw [hs.1]
    ring

end

end Verif.Lemmas
