/-
Properties C91 and C92 for the compiled samplers.
-/
import Verif.Lemmas.Ergodic4
import Verif.Lemmas.ParRows
import Verif.Props.CppSampler

namespace Verif.Props
open Verif Verif.Model Verif.Spec Verif.Lemmas Filter

/-- The run of the compiled Ising sampler as a chain. -/
theorem boost_rows (ndebug : Bool) (n : ℕ) (hn : 1 ≤ n) (theta : List ℝ) (ht : theta.length = n + n * (n - 1) / 2)
    (E : List ℤ → ℝ) (hE : E = fun s => isingVecE n (theta.take n) (theta.drop n) (spins s)) (m nIters : ℕ)
    (burnIn : Option ℕ) :
    IsRows ((Prog.ofPy (boostIsing ndebug n theta)).bind fun b =>
        boostIsingSample n b m (burnOr burnIn nIters) nIters false)
      ((cppIsingInit n).bind fun s => .ret (s, E s)) Prod.fst (metroIter (sampleMetropolis E) n false 0)
      (burnOr burnIn nIters) nIters m := by
  unfold boostIsing
  rw [if_neg (fun h => h.2 ht)]
  simp only [Prog.ofPy, Prog.bind, boostIsingSample]
  refine isRows_cpp (goodMove_metropolis n E) hn (fun i hi s hs => ?_) (returns_cppIsingInit n) (fun s _ => ?_) m _ nIters
  · rw [hE]
    exact cppIsingMove_eq n theta i hi s (mem_words.1 hs).1
  · rw [hE]
    exact cppIsingCalcE_eq n hn theta s

/-- C91: the rows of the compiled sampler (the one used by default) have approximately the Boltzmann distribution of the
Ising model, once the number of updates before them is large, if any parameter is not zero. -/
theorem C91_boost (n : ℕ) (hn : 1 ≤ n) (theta : List ℝ) (ht : theta.length = n + n * (n - 1) / 2)
    (hx : ∃ x ∈ theta, x ≠ 0) (E : List ℤ → ℝ)
    (hE : E = fun s => isingVecE n (theta.take n) (theta.drop n) (spins s)) (f : List ℤ → ℝ) (δ : ℝ) (hδ : 0 < δ) :
    ∃ M : ℕ, ∀ (ndebug : Bool) (sampleSize nIters : ℕ) (burnIn : Option ℕ) (b : ℕ), b < sampleSize →
      M ≤ burnOr burnIn nIters + (b + 1) * nIters →
      |expectation (fun rows => f (rows.getD b []))
        (generateSampleBoost ndebug n theta sampleSize nIters burnIn false) - expect (words [1, -1] n) E f| < δ := by
  have he := ergodic_metropolis n hn E (by rw [hE]; exact ising_not_constant n theta ht hx)
  obtain ⟨r, h1, h2⟩ := he.isRows_rate Prod.fst f []
  obtain ⟨M, hM⟩ := eventually_atTop.1 (h1.eventually (gt_mem_nhds hδ))
  refine ⟨M, fun ndebug sampleSize nIters burnIn b hb hle => ?_⟩
  have := h2 _ _ _ _ _ b (finDist_withE (finDist_cppIsingInit n)) (boost_rows ndebug n hn theta ht E hE sampleSize nIters
    burnIn) hb
  rw [sum_withE] at this
  unfold generateSampleBoost
  rw [if_neg (by omega)]
  exact this.trans_lt (hM _ hle)

/-- C91: the same on any number of processors: row `c q + b` has approximately the Boltzmann distribution, `q` being the
number of rows of one process. -/
theorem C91_boost_parallel (n : ℕ) (hn : 1 ≤ n) (theta : List ℝ) (ht : theta.length = n + n * (n - 1) / 2)
    (hx : ∃ x ∈ theta, x ≠ 0) (E : List ℤ → ℝ)
    (hE : E = fun s => isingVecE n (theta.take n) (theta.drop n) (spins s)) (f : List ℤ → ℝ) (δ : ℝ) (hδ : 0 < δ) :
    ∃ M : ℕ, ∀ (ndebug : Bool) (nCpus sampleSize nIters : ℕ) (burnIn : Option ℕ) (c b q : ℕ), c < nCpus →
      q = (sampleSize + nCpus - 1) / nCpus → b < q → c * q + b < sampleSize →
      M ≤ burnOr burnIn nIters + (b + 1) * nIters →
      |expectation (fun rows => f (rows.getD (c * q + b) []))
        (generateSampleParallelBoost ndebug n theta nCpus sampleSize nIters burnIn false) -
          expect (words [1, -1] n) E f| < δ := by
  obtain ⟨M, hM⟩ := C91_boost n hn theta ht hx E hE f δ hδ
  refine ⟨M, fun ndebug nCpus sampleSize nIters burnIn c b q hc hq hb hcb hle => ?_⟩
  rw [C52_boost_rows ndebug n hn theta ht nCpus sampleSize nIters burnIn false c b q hc hq hb hcb f]
  exact hM ndebug q nIters burnIn b hb hle

/-- C92: averages over the rows of the compiled sampler approach the Boltzmann means. -/
theorem C92_boost (n : ℕ) (hn : 1 ≤ n) (theta : List ℝ) (ht : theta.length = n + n * (n - 1) / 2)
    (hx : ∃ x ∈ theta, x ≠ 0) (E : List ℤ → ℝ)
    (hE : E = fun s => isingVecE n (theta.take n) (theta.drop n) (spins s)) (f : List ℤ → ℝ) :
    ∃ K, ∀ (ndebug : Bool) (sampleSize nIters : ℕ) (burnIn : Option ℕ), 0 < sampleSize → 0 < nIters →
      expectation (fun rows => ((rows.map f).sum / sampleSize - expect (words [1, -1] n) E f) ^ 2)
        (generateSampleBoost ndebug n theta sampleSize nIters burnIn false) ≤ K / sampleSize := by
  have he := ergodic_metropolis n hn E (by rw [hE]; exact ising_not_constant n theta ht hx)
  obtain ⟨K, hK⟩ := he.isRows_lln Prod.fst f
  refine ⟨K, fun ndebug sampleSize nIters burnIn hm hk => ?_⟩
  have := hK _ _ _ _ _ (finDist_withE (finDist_cppIsingInit n)) (boost_rows ndebug n hn theta ht E hE sampleSize nIters
    burnIn) hk hm
  rw [sum_withE] at this
  unfold generateSampleBoost
  rw [if_neg (by omega)]
  exact this

/-- C92: averages over the rows of `c` processes: the mean square deviation is at most `c K` divided by the number of
rows, with one `K` for all numbers of processors. -/
theorem C92_boost_parallel (n : ℕ) (hn : 1 ≤ n) (theta : List ℝ) (ht : theta.length = n + n * (n - 1) / 2)
    (hx : ∃ x ∈ theta, x ≠ 0) (E : List ℤ → ℝ)
    (hE : E = fun s => isingVecE n (theta.take n) (theta.drop n) (spins s)) (f : List ℤ → ℝ) :
    ∃ K, ∀ (ndebug : Bool) (nCpus sampleSize nIters : ℕ) (burnIn : Option ℕ), 0 < nCpus → 0 < sampleSize → 0 < nIters →
      expectation (fun rows => ((rows.map f).sum / sampleSize - expect (words [1, -1] n) E f) ^ 2)
        (generateSampleParallelBoost ndebug n theta nCpus sampleSize nIters burnIn false) ≤ nCpus * K / sampleSize := by
  have he := ergodic_metropolis n hn E (by rw [hE]; exact ising_not_constant n theta ht hx)
  obtain ⟨K, hK⟩ := he.boostParallel Prod.fst f
  refine ⟨K, fun ndebug nCpus sampleSize nIters burnIn hc hm hk => ?_⟩
  have := hK _ _ _ _ nCpus sampleSize (finDist_withE (finDist_cppIsingInit n))
    (fun q => boost_rows ndebug n hn theta ht E hE q nIters burnIn) hk hc hm
  rw [sum_withE] at this
  exact this

example : ([0, 0, 1] : List ℝ).length = 2 + 2 * (2 - 1) / 2 ∧ ∃ x ∈ ([0, 0, 1] : List ℝ), x ≠ 0 :=
  ⟨by decide, 1, by simp, by norm_num⟩

/-! ### Three-state Potts model, compiled -/

/-- The run of the compiled Potts sampler as a chain. -/
theorem boost_rows_potts (ndebug : Bool) (n : ℕ) (hn : 1 ≤ n) (theta : List ℝ)
    (ht : theta.length = 3 * n + n * (n - 1) / 2) (E : List ℤ → ℝ)
    (hE : E = fun s => pottsVecE n 3 (theta.take (3 * n)) (theta.drop (3 * n)) fun k => s.getD k 0) (m nIters : ℕ)
    (burnIn : Option ℕ) :
    IsRows ((Prog.ofPy (boostPotts3 ndebug n theta)).bind fun b =>
        boostPottsSample n b m (burnOr burnIn nIters) nIters false)
      ((cppPottsInit n).bind fun s => .ret (s, E s)) Prod.fst (metroIter (sampleMetropolisPotts3 E) n false 0)
      (burnOr burnIn nIters) nIters m := by
  unfold boostPotts3
  rw [if_neg (fun h => h.2 (by omega))]
  simp only [Prog.ofPy, Prog.bind, boostPottsSample]
  refine isRows_cpp (goodMove_potts3 n E) hn (fun i hi s hs => C56_cpp_move n theta s hs i hi E hE)
    (returns_cppPottsInit n) (fun s hs => ?_) m _ nIters
  rw [hE]
  exact C56_cpp_calc_e n hn theta s hs

/-- C91: the rows of the compiled parallel Potts sampler have approximately the Boltzmann distribution of the Potts
model, once the number of updates before them is large, for all parameters. -/
theorem C91_boost_potts3 (n : ℕ) (hn : 1 ≤ n) (theta : List ℝ) (ht : theta.length = 3 * n + n * (n - 1) / 2)
    (E : List ℤ → ℝ) (hE : E = fun s => pottsVecE n 3 (theta.take (3 * n)) (theta.drop (3 * n)) fun k => s.getD k 0)
    (f : List ℤ → ℝ) (δ : ℝ) (hδ : 0 < δ) :
    ∃ M : ℕ, ∀ (ndebug : Bool) (nCpus sampleSize nIters : ℕ) (burnIn : Option ℕ) (c b q : ℕ), 2 ≤ nCpus →
      nCpus < sampleSize → c < nCpus → q = (sampleSize + nCpus - 1) / nCpus → b < q → c * q + b < sampleSize →
      M ≤ burnOr burnIn nIters + (b + 1) * nIters →
      |expectation (fun rows => f (rows.getD (c * q + b) []))
        (generateSampleParallelBoostPotts3 ndebug n theta nCpus sampleSize nIters burnIn false) -
          expect (words [0, 1, 2] n) E f| < δ := by
  obtain ⟨r, h1, h2⟩ := (ergodic_potts3 n hn E).isRows_rate Prod.fst f []
  obtain ⟨M, hM⟩ := eventually_atTop.1 (h1.eventually (gt_mem_nhds hδ))
  refine ⟨M, fun ndebug nCpus sampleSize nIters burnIn c b q hc2 hs hc hq hb hcb hle => ?_⟩
  have hr := boost_rows_potts ndebug n hn theta ht E hE q nIters burnIn
  have := h2 _ _ _ _ _ b (finDist_withE (finDist_cppPottsInit n)) hr hb
  rw [sum_withE] at this
  unfold boostPotts3 at this
  rw [if_neg (fun h => h.2 (by omega))] at this
  rw [(C84_parallel_partial ndebug n hn theta ht nCpus hc2 sampleSize nIters hs burnIn false).2 c b q hc hq hb hcb f]
  exact this.trans_lt (hM _ hle)

/-- C92: averages over the rows of the compiled parallel Potts sampler approach the Boltzmann means. -/
theorem C92_boost_potts3 (n : ℕ) (hn : 1 ≤ n) (theta : List ℝ) (ht : theta.length = 3 * n + n * (n - 1) / 2)
    (E : List ℤ → ℝ) (hE : E = fun s => pottsVecE n 3 (theta.take (3 * n)) (theta.drop (3 * n)) fun k => s.getD k 0)
    (f : List ℤ → ℝ) :
    ∃ K, ∀ (ndebug : Bool) (nCpus sampleSize nIters : ℕ) (burnIn : Option ℕ), 2 ≤ nCpus → nCpus < sampleSize →
      0 < nIters →
      expectation (fun rows => ((rows.map f).sum / sampleSize - expect (words [0, 1, 2] n) E f) ^ 2)
        (generateSampleParallelBoostPotts3 ndebug n theta nCpus sampleSize nIters burnIn false) ≤
          nCpus * K / sampleSize := by
  obtain ⟨K, hK⟩ := (ergodic_potts3 n hn E).boostParallel Prod.fst f
  refine ⟨K, fun ndebug nCpus sampleSize nIters burnIn hc2 hs hk => ?_⟩
  have := hK _ _ _ _ nCpus sampleSize (finDist_withE (finDist_cppPottsInit n))
    (fun q => boost_rows_potts ndebug n hn theta ht E hE q nIters burnIn) hk (by omega) (by omega)
  rw [sum_withE] at this
  unfold generateSampleParallelBoostPotts3
  rw [if_neg (by omega)]
  exact this

/-! ### The parallel Python sampler -/

/-- The first states that a parallel call may use: given, kept from the last call, or random. -/
def UsableStarts (A : List ℤ) (n nCpus : ℕ) (prev initial : Option (List (List ℤ))) : Prop :=
  (∀ x, initial = some x → x.length = nCpus ∧ ∀ s ∈ x, s ∈ words A n) ∧
    (initial = none → ∀ p, prev = some p → p.length = nCpus → ∀ s ∈ p, s ∈ words A n)

theorem UsableStarts.good {A : List ℤ} {n nCpus : ℕ} {prev initial : Option (List (List ℤ))}
    (h : UsableStarts A n nCpus prev initial) : GoodStart (words A n) nCpus nCpus prev initial :=
  ⟨h.1, fun p hi hp hl => ⟨hl, h.2 hi p hp hl⟩⟩

/-- C91: the same for the parallel Python sampler, from all first states. -/
theorem C91_parallel (n : ℕ) (hn : 0 < n) (E : List ℤ → ℝ)
    (hE : ∃ s ∈ words [1, -1] n, ∃ t ∈ words [1, -1] n, E s ≠ E t) (f : List ℤ → ℝ) (δ : ℝ) (hδ : 0 < δ) :
    ∃ M : ℕ, ∀ (nCpus sampleSize nIters : ℕ) (burnIn : Option ℕ) (prev initial : Option (List (List ℤ))) (c b q : ℕ),
      UsableStarts [1, -1] n nCpus prev initial → c < nCpus → q = (sampleSize + nCpus - 1) / nCpus → b < q →
      c * q + b < sampleSize → M ≤ burnOr burnIn nIters + (b + 1) * nIters →
      |expectation (fun out : SampleOut => f (out.sample.getD (c * q + b) []))
        (generateSampleParallelPy (sampleMetropolis E) (randomSample n) E n nCpus prev sampleSize nIters burnIn false
          initial) - expect (words [1, -1] n) E f| < δ := by
  obtain ⟨r, h1, h2⟩ := parallel_rate (random := randomSample n) (goodMove_metropolis n E) (ergodic_metropolis n hn E hE)
    hn f
  obtain ⟨M, hM⟩ := eventually_atTop.1 (h1.eventually (gt_mem_nhds hδ))
  exact ⟨M, fun nCpus sampleSize nIters burnIn prev initial c b q hst hc hq hb hcb hle =>
    (h2 nCpus sampleSize nIters burnIn prev initial c b q (finDist_randomSample n nCpus) hst.good hc hq hb hcb).trans_lt
      (hM _ hle)⟩

/-- C92: averages over the rows of the parallel Python sampler approach the Boltzmann means. -/
theorem C92_parallel (n : ℕ) (hn : 0 < n) (E : List ℤ → ℝ)
    (hE : ∃ s ∈ words [1, -1] n, ∃ t ∈ words [1, -1] n, E s ≠ E t) (f : List ℤ → ℝ) :
    ∃ K, ∀ (nCpus sampleSize nIters : ℕ) (burnIn : Option ℕ) (prev initial : Option (List (List ℤ))),
      UsableStarts [1, -1] n nCpus prev initial → 0 < nCpus → 0 < sampleSize → 0 < nIters →
      expectation (fun out : SampleOut => ((out.sample.map f).sum / sampleSize - expect (words [1, -1] n) E f) ^ 2)
        (generateSampleParallelPy (sampleMetropolis E) (randomSample n) E n nCpus prev sampleSize nIters burnIn false
          initial) ≤ nCpus * K / sampleSize := by
  obtain ⟨K, hK⟩ := parallel_average (random := randomSample n) (goodMove_metropolis n E) (ergodic_metropolis n hn E hE) f
  exact ⟨K, fun nCpus sampleSize nIters burnIn prev initial hst hc hm hk =>
    hK nCpus sampleSize nIters burnIn prev initial (finDist_randomSample n nCpus) hst.good hc hm hk⟩

example : UsableStarts [1, -1] 2 2 none (some [[1, -1], [1, 1]]) ∧ UsableStarts [1, -1] 2 3 none none :=
  ⟨⟨fun x hx => by cases hx; decide, by simp⟩, ⟨by simp, by simp⟩⟩

end Verif.Props
