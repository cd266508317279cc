/-
Properties C91 and C92 for the samplers with fixed spins.
-/
import Verif.Lemmas.CondErgodic
import Verif.Props.CondSampler

namespace Verif.Props
open Verif Verif.Model Verif.Spec Verif.Lemmas Filter

/-- Fixed spins the samplers accept: increasing sites below `n`, values ±1, at least one fixed and one free. -/
structure UsableFixed (n : ℕ) (fixed : List (ℕ × ℤ)) : Prop where
  sorted : (fixed.map Prod.fst).Pairwise (· < ·)
  lt : ∀ p ∈ fixed, p.1 < n
  ne : fixed ≠ []
  spin : ∀ p ∈ fixed, p.2 = -1 ∨ p.2 = 1
  free : fixed.length < n

theorem UsableFixed.good {n : ℕ} {fixed : List (ℕ × ℤ)} (h : UsableFixed n fixed) : GoodFixed n fixed := ⟨h.sorted, h.lt⟩

theorem finDist_condInitPy (n : ℕ) (E : List ℤ → ℝ) :
    FinDist ((Prog.mapEach (fun _ => (Prog.randint 2).bind fun b => .ret (if b = 0 then (-1 : ℤ) else 1))
      (List.range n)).bind fun s => .ret (s, E s)) (· ∈ withE E (words [1, -1] n)) :=
  finDist_withE (finDist_randomRow [1, -1] (fun b => if b = 0 then -1 else 1) 2 (by norm_num)
    fun b _ => by by_cases h : b = 0 <;> simp [h])

/-- C91: the rows of the Python sampler with fixed spins have approximately the conditional Boltzmann distribution given
these spins, once the number of updates before them is large, if two states with the fixed spins have different
energies. -/
theorem C91_conditional (n : ℕ) (fixed : List (ℕ × ℤ)) (hf : UsableFixed n fixed) (E : List ℤ → ℝ)
    (hE : ∃ s ∈ words [1, -1] n, ∃ t ∈ words [1, -1] n, HasFixed fixed s ∧ HasFixed fixed t ∧ E s ≠ E t)
    (f : List ℤ → ℝ) (δ : ℝ) (hδ : 0 < δ) :
    ∃ M : ℕ, ∀ (sampleSize burnIn nIters : ℕ) (initial : Option (List (List ℤ))) (b : ℕ),
      (∀ x, initial = some x → x.length = sampleSize ∧ ∀ r ∈ x, r.length = n - fixed.length) → b < sampleSize →
      M ≤ burnIn + (b + 1) * nIters →
      |expectation (fun out => f (out.1.getD b []))
        (generateCondSamplePy E n sampleSize fixed burnIn nIters initial false false) -
          condExpect (words [1, -1] n) E (HasFixed fixed) f| < δ := by
  have h := hf.good
  have he := ergodic_metropolis (n - fixed.length) (by have := hf.free; omega) (fun r => E (weave n fixed r))
    (cond_not_constant h hE)
  obtain ⟨r, h1, h2⟩ := he.isRows_rate (fun st => weave n fixed st.1) f []
  obtain ⟨M, hM⟩ := eventually_atTop.1 (h1.eventually (gt_mem_nhds hδ))
  refine ⟨M, fun sampleSize burnIn nIters initial b hinit hb hle => ?_⟩
  have := h2 _ _ _ _ _ b (finDist_condInitPy (n - fixed.length) fun r => E (weave n fixed r))
    (isRows_condPy h hf.ne hf.spin hf.free E sampleSize (by omega) burnIn nIters initial hinit) hb
  rw [sum_cond h hf.spin, expectation_bind] at this
  exact this.trans_lt (hM _ hle)

/-- C92: averages over the rows of the Python sampler with fixed spins approach the conditional Boltzmann means. -/
theorem C92_conditional (n : ℕ) (fixed : List (ℕ × ℤ)) (hf : UsableFixed n fixed) (E : List ℤ → ℝ)
    (hE : ∃ s ∈ words [1, -1] n, ∃ t ∈ words [1, -1] n, HasFixed fixed s ∧ HasFixed fixed t ∧ E s ≠ E t)
    (f : List ℤ → ℝ) :
    ∃ K, ∀ (sampleSize burnIn nIters : ℕ) (initial : Option (List (List ℤ))),
      (∀ x, initial = some x → x.length = sampleSize ∧ ∀ r ∈ x, r.length = n - fixed.length) → 0 < sampleSize →
      0 < nIters →
      expectation (fun out => ((out.1.map f).sum / sampleSize - condExpect (words [1, -1] n) E (HasFixed fixed) f) ^ 2)
        (generateCondSamplePy E n sampleSize fixed burnIn nIters initial false false) ≤ K / sampleSize := by
  have h := hf.good
  have he := ergodic_metropolis (n - fixed.length) (by have := hf.free; omega) (fun r => E (weave n fixed r))
    (cond_not_constant h hE)
  obtain ⟨K, hK⟩ := he.isRows_lln (fun st => weave n fixed st.1) f
  refine ⟨K, fun sampleSize burnIn nIters initial hinit hm hk => ?_⟩
  have := hK _ _ _ _ _ (finDist_condInitPy (n - fixed.length) fun r => E (weave n fixed r))
    (isRows_condPy h hf.ne hf.spin hf.free E sampleSize hm burnIn nIters initial hinit) hk hm
  rw [sum_cond h hf.spin, expectation_bind] at this
  exact this

/-- The run of the compiled sampler with fixed spins as a chain. -/
theorem boost_cond_rows (ndebug : Bool) (n : ℕ) (theta : List ℝ) (ht : theta.length = n + n * (n - 1) / 2)
    (fixed : List (ℕ × ℤ)) (hf : UsableFixed n fixed) (E : List ℤ → ℝ)
    (hE : E = fun s => isingVecE n (theta.take n) (theta.drop n) (spins s)) (m burn nIters : ℕ) :
    IsRows ((Prog.ofPy (boostIsing ndebug n theta)).bind fun b =>
        cppGenerateCondSample ndebug (cppIsingInit n) (cppIsingCalcE n b.1) (cppIsingMove n b.1 b.2) n
          (fixed.map Prod.fst) (fixed.map Prod.snd) m burn nIters false)
      (condInit n fixed E) (fun st => weave n fixed st.1)
      (metroIter (sampleMetropolis fun r => E (weave n fixed r)) (n - fixed.length) false 0) burn nIters m := by
  have hc : cppIsingCalcE n theta = E := by
    rw [hE]; exact funext fun s => cppIsingCalcE_eq n (by have := hf.free; omega) theta s
  unfold boostIsing
  rw [if_neg (fun h => h.2 ht)]
  simp only [Prog.ofPy, Prog.bind, hc]
  refine isRows_condCpp hf.good hf.spin hf.free (fun i hi s hs => ?_) ndebug m burn nIters
  rw [hE]
  exact cppIsingMove_eq n theta i hi s hs

/-- C91: the same for the compiled sampler with fixed spins. -/
theorem C91_conditional_boost (n : ℕ) (theta : List ℝ) (ht : theta.length = n + n * (n - 1) / 2)
    (fixed : List (ℕ × ℤ)) (hf : UsableFixed n fixed) (E : List ℤ → ℝ)
    (hE : E = fun s => isingVecE n (theta.take n) (theta.drop n) (spins s))
    (hx : ∃ s ∈ words [1, -1] n, ∃ t ∈ words [1, -1] n, HasFixed fixed s ∧ HasFixed fixed t ∧ E s ≠ E t)
    (f : List ℤ → ℝ) (δ : ℝ) (hδ : 0 < δ) :
    ∃ M : ℕ, ∀ (ndebug : Bool) (sampleSize burnIn nIters b : ℕ), b < sampleSize →
      M ≤ burnOr (some burnIn) nIters + (b + 1) * nIters →
      |expectation (fun rows => f (rows.getD b []))
        (generateCondSampleBoost ndebug n theta none sampleSize fixed burnIn nIters false) -
          condExpect (words [1, -1] n) E (HasFixed fixed) f| < δ := by
  have h := hf.good
  have he := ergodic_metropolis (n - fixed.length) (by have := hf.free; omega) (fun r => E (weave n fixed r))
    (cond_not_constant h hx)
  obtain ⟨r, h1, h2⟩ := he.isRows_rate (fun st => weave n fixed st.1) f []
  obtain ⟨M, hM⟩ := eventually_atTop.1 (h1.eventually (gt_mem_nhds hδ))
  refine ⟨M, fun ndebug sampleSize burnIn nIters b hb hle => ?_⟩
  have := h2 _ _ _ _ _ b (finDist_condInit h hf.spin E) (boost_cond_rows ndebug n theta ht fixed hf E hE sampleSize
    (burnOr (some burnIn) nIters) nIters) hb
  rw [sum_cond h hf.spin] at this
  unfold generateCondSampleBoost
  rw [if_neg (by omega), checkFixed_ok h hf.ne hf.spin]
  exact this.trans_lt (hM _ hle)

/-- C91: the same on any number of processors: row `c q + b`, `q` being the number of rows of one process. -/
theorem C91_conditional_boost_parallel (n : ℕ) (theta : List ℝ) (ht : theta.length = n + n * (n - 1) / 2)
    (fixed : List (ℕ × ℤ)) (hf : UsableFixed n fixed) (E : List ℤ → ℝ)
    (hE : E = fun s => isingVecE n (theta.take n) (theta.drop n) (spins s))
    (hx : ∃ s ∈ words [1, -1] n, ∃ t ∈ words [1, -1] n, HasFixed fixed s ∧ HasFixed fixed t ∧ E s ≠ E t)
    (f : List ℤ → ℝ) (δ : ℝ) (hδ : 0 < δ) :
    ∃ M : ℕ, ∀ (ndebug : Bool) (nCpus sampleSize burnIn nIters c b q : ℕ), c < nCpus →
      q = (sampleSize + nCpus - 1) / nCpus → b < q → c * q + b < sampleSize →
      M ≤ burnOr (some burnIn) nIters + (b + 1) * nIters →
      |expectation (fun rows => f (rows.getD (c * q + b) []))
        (generateCondSampleBoost ndebug n theta (some nCpus) sampleSize fixed burnIn nIters false) -
          condExpect (words [1, -1] n) E (HasFixed fixed) f| < δ := by
  obtain ⟨M, hM⟩ := C91_conditional_boost n theta ht fixed hf E hE hx f δ hδ
  refine ⟨M, fun ndebug nCpus sampleSize burnIn nIters c b q hc hq hb hcb hle => ?_⟩
  rw [C55_boost_parallel ndebug n theta ht fixed hf.sorted hf.lt hf.ne hf.spin hf.free nCpus sampleSize (by omega) burnIn
    nIters false c b q hc hq hb hcb f]
  exact hM ndebug q burnIn nIters b hb hle

/-- C92: averages over the rows of the compiled sampler with fixed spins approach the conditional Boltzmann means, on one
or several processors. -/
theorem C92_conditional_boost (n : ℕ) (theta : List ℝ) (ht : theta.length = n + n * (n - 1) / 2)
    (fixed : List (ℕ × ℤ)) (hf : UsableFixed n fixed) (E : List ℤ → ℝ)
    (hE : E = fun s => isingVecE n (theta.take n) (theta.drop n) (spins s))
    (hx : ∃ s ∈ words [1, -1] n, ∃ t ∈ words [1, -1] n, HasFixed fixed s ∧ HasFixed fixed t ∧ E s ≠ E t)
    (f : List ℤ → ℝ) :
    ∃ K, ∀ (ndebug : Bool) (sampleSize burnIn nIters : ℕ), 0 < sampleSize → 0 < nIters →
      expectation (fun rows => ((rows.map f).sum / sampleSize - condExpect (words [1, -1] n) E (HasFixed fixed) f) ^ 2)
        (generateCondSampleBoost ndebug n theta none sampleSize fixed burnIn nIters false) ≤ K / sampleSize ∧
      ∀ nCpus, 0 < nCpus →
        expectation (fun rows => ((rows.map f).sum / sampleSize - condExpect (words [1, -1] n) E (HasFixed fixed) f) ^ 2)
          (generateCondSampleBoost ndebug n theta (some nCpus) sampleSize fixed burnIn nIters false) ≤
            nCpus * K / sampleSize := by
  have h := hf.good
  have he := ergodic_metropolis (n - fixed.length) (by have := hf.free; omega) (fun r => E (weave n fixed r))
    (cond_not_constant h hx)
  obtain ⟨K1, hK1⟩ := he.isRows_lln (fun st => weave n fixed st.1) f
  obtain ⟨K2, hK2⟩ := he.boostParallel (fun st => weave n fixed st.1) f
  refine ⟨max K1 K2, fun ndebug sampleSize burnIn nIters hm hk => ?_⟩
  have hrows := fun q => boost_cond_rows ndebug n theta ht fixed hf E hE q (burnOr (some burnIn) nIters) nIters
  have h1 := hK1 _ _ _ _ _ (finDist_condInit h hf.spin E) (hrows sampleSize) hk hm
  rw [sum_cond h hf.spin] at h1
  unfold generateCondSampleBoost
  simp only [if_neg hm.ne', checkFixed_ok h hf.ne hf.spin]
  have hm' : (0 : ℝ) < sampleSize := by exact_mod_cast hm
  refine ⟨h1.trans (by gcongr; exact le_max_left _ _), fun nCpus hc => ?_⟩
  have h2 := hK2 _ _ _ _ nCpus sampleSize (finDist_condInit h hf.spin E) hrows hk hc hm
  rw [sum_cond h hf.spin] at h2
  exact h2.trans (by gcongr; exact le_max_right _ _)

example : UsableFixed 3 [(0, 1), (2, -1)] := ⟨by decide, by decide, by decide, by decide, by decide⟩

example : ∃ s ∈ words ([1, -1] : List ℤ) 2, ∃ t ∈ words ([1, -1] : List ℤ) 2,
    HasFixed [(0, 1)] s ∧ HasFixed [(0, 1)] t ∧ (fun s : List ℤ => ((s.getD 1 0 : ℤ) : ℝ)) s ≠
      (fun s : List ℤ => ((s.getD 1 0 : ℤ) : ℝ)) t :=
  ⟨[1, 1], by decide, [1, -1], by decide, by decide, by decide, by norm_num⟩

end Verif.Props
