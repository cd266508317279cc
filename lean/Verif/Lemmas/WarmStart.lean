/-
Samples of chains that start from uniformly random states.
-/
import Verif.Lemmas.RandWords
import Verif.Lemmas.SampleFront2
import Verif.Spec.WarmStart

namespace Verif.Lemmas
open Verif Verif.Model Verif.Spec Verif.Props Prog

variable {S : List (List ℤ)} {E : List ℤ → ℝ} {D : ℝ}

/-- The mean over all states, for energies that differ by at most `D`. -/
theorem avg_within (hD : ∀ s ∈ S, ∀ t ∈ S, E t - E s ≤ D) (h : List ℤ → ℝ) (h0 : ∀ s ∈ S, 0 ≤ h s) :
    Real.exp (-D) * expect S E h ≤ (S.map h).sum / S.length ∧ (S.map h).sum / S.length ≤ Real.exp D * expect S E h := by
  rcases S.eq_nil_or_concat with rfl | ⟨S', x, rfl⟩
  · simp [expect]
  generalize hS : S'.concat x = S at *
  have hne : S ≠ [] := by rw [← hS]; simp
  have hpos : (0 : ℝ) < S.length := by
    have := List.length_pos_of_ne_nil hne
    exact_mod_cast this
  have hZ : 0 < partition S E := by
    unfold partition
    exact List.sum_pos _ (by simpa using fun s _ => Real.exp_pos _) (by simpa using hne)
  have hlow : ∀ s ∈ S, partition S E ≤ S.length * (Real.exp D * Real.exp (-E s)) := fun s hs => by
    unfold partition
    have := List.sum_le_card_nsmul (S.map fun t => Real.exp (-E t)) (Real.exp D * Real.exp (-E s)) (by
      intro y hy
      obtain ⟨t, ht, rfl⟩ := List.mem_map.1 hy
      rw [← Real.exp_add]
      exact Real.exp_le_exp.2 (by have := hD t ht s hs; linarith))
    simpa using this
  have hupp : ∀ s ∈ S, S.length * (Real.exp (-D) * Real.exp (-E s)) ≤ partition S E := fun s hs => by
    unfold partition
    have := List.card_nsmul_le_sum (S.map fun t => Real.exp (-E t)) (Real.exp (-D) * Real.exp (-E s)) (by
      intro y hy
      obtain ⟨t, ht, rfl⟩ := List.mem_map.1 hy
      rw [← Real.exp_add]
      exact Real.exp_le_exp.2 (by have := hD s hs t ht; linarith))
    simpa using this
  unfold expect boltzmann
  rw [← List.sum_map_mul_left, ← List.sum_map_mul_left, div_eq_mul_inv, ← List.sum_map_mul_right]
  constructor
  · refine List.sum_le_sum fun s hs => ?_
    have h1 := hupp s hs
    rw [mul_comm (h s), ← mul_assoc]
    refine mul_le_mul_of_nonneg_right ?_ (h0 s hs)
    rw [← mul_div_assoc, div_le_iff₀ hZ, ← div_eq_inv_mul, le_div_iff₀ hpos]
    linarith
  · refine List.sum_le_sum fun s hs => ?_
    have h1 := hlow s hs
    rw [mul_comm (h s), ← mul_assoc]
    refine mul_le_mul_of_nonneg_right ?_ (h0 s hs)
    rw [← mul_div_assoc, le_div_iff₀ hZ, ← div_eq_inv_mul, div_le_iff₀ hpos]
    linarith

/-- A run from a uniformly random state, if runs keep the distribution of the model. -/
theorem withinFactor_of {α : Type} (hD : ∀ s ∈ S, ∀ t ∈ S, E t - E s ≤ D) (row : α → List ℤ) (p : Prog α)
    (K : List ℤ → Prog α)
    (h1 : ∀ g : List ℤ → ℝ, expectation (fun a => g (row a)) p =
      (S.map fun s => expectation (fun a => g (row a)) (K s)).sum / S.length)
    (h2 : ∀ g : List ℤ → ℝ, (S.map fun s => boltzmann S E s * expectation (fun a => g (row a)) (K s)).sum =
      (S.map fun s => boltzmann S E s * g s).sum) : WithinFactor D S E row p := fun f hf => by
  have := avg_within hD (fun s => expectation (fun a => f (row a)) (K s)) fun s _ =>
    expectation_nonneg' _ fun a => hf _
  rw [← h1 f] at this
  have e : expect S E (fun s => expectation (fun a => f (row a)) (K s)) = expect S E f := h2 f
  rwa [e] at this

theorem withinFactor_map {α β : Type} {row : α → List ℤ} {p : Prog α} {row' : β → List ℤ} {q : α → Prog β}
    (h : WithinFactor D S E row p) (e : ∀ f : List ℤ → ℝ, expectation (fun b => f (row' b)) (p.bind q) =
      expectation (fun a => f (row a)) p) : WithinFactor D S E row' (p.bind q) := fun f hf => by
  rw [e]; exact h f hf

/-- `random_sample` draws each state uniformly. -/
theorem uniformOn_kindRandom (k : ModelKind) (n m c : ℕ) (hc : c < m) (g : List ℤ → ℝ) :
    expectation (fun x => g (x.getD c [])) (kindRandom k n m) =
      ((words (alphabet k) n).map g).sum / (words (alphabet k) n).length := by
  cases k
  · exact uniformOn_randomSample n m c hc g
  · exact uniformOn_randomSample n m c hc g
  · exact uniformOn_randomSamplePotts3 n m c hc g

section
variable {k : ModelKind} {n : ℕ} {theta : List ℝ}

/-- Sequential sampling in Python. -/
theorem within_py (hn : 0 < n) (S : List (List ℤ)) (hS : S = words (alphabet k) n) (E : List ℤ → ℝ)
    (hE : E = kindEnergy k theta) (hD : ∀ s ∈ S, ∀ t ∈ S, E t - E s ≤ D) (size nIters : ℕ) (burnIn : Option ℕ)
    (b : ℕ) (hb : b < size) :
    WithinFactor D S E (fun out : SampleOut => out.sample.getD b [])
      (generateSamplePy (kindMove k theta) (kindRandom k n) (kindEnergy k theta) n none size nIters burnIn false false
        none) := by
  refine withinFactor_of hD _ _ (fun s => generateSamplePy (kindMove k theta) (kindRandom k n) (kindEnergy k theta) n none
    size nIters burnIn false false (some [s])) (fun g => ?_) fun g => ?_
  · have key : ∀ x : List (List ℤ), x.length = 1 ∧ (∀ s ∈ x, s ∈ words (alphabet k) n) →
        expectation (fun out : SampleOut => g (out.sample.getD b [])) (match x with
          | [s] => (metroRun (kindMove k theta) n false (burnOr burnIn nIters) (s, kindEnergy k theta s)).bind fun st =>
              if false = true then
                (metroRecordHistory (kindMove k theta) n false size nIters st).bind fun r =>
                  .ret ⟨r.2.1, r.2.2, [r.1.1.1], some r.1.2.1⟩
              else
                (metroRecord (kindMove k theta) n false size nIters st).bind fun r =>
                  .ret ⟨r.2.1, r.2.2, [r.1.1], none⟩
          | _ => .fail .valueError) =
        expectation (fun out : SampleOut => g (out.sample.getD b [])) (generateSamplePy (kindMove k theta) (kindRandom k n)
          (kindEnergy k theta) n none size nIters burnIn false false (some [x.getD 0 []])) := by
      rintro x ⟨hx, hm⟩
      obtain ⟨s, rfl⟩ := List.length_eq_one_iff.1 hx
      unfold generateSamplePy startStates
      dsimp only
      rw [List.getD_cons_zero, if_pos (show [s].length = 1 ∧ ∀ r ∈ [s], r.length = n from
        ⟨rfl, by simpa using (mem_words.1 (hm s (by simp))).1⟩), Prog.bind]
    have := uniformOn_kindRandom k n 1 0 (by norm_num) fun s => expectation (fun out : SampleOut => g (out.sample.getD b []))
      (generateSamplePy (kindMove k theta) (kindRandom k n) (kindEnergy k theta) n none size nIters burnIn false false
        (some [s]))
    rw [hS, ← this, ← expectation_congr _ (returns_kindRandom k n 1) key, ← expectation_bind]
    rfl
  · rw [hE, hS]
    exact keeps_generateSamplePy (goodMove_kind k n theta) hn (kindRandom k n) size nIters burnIn false false none b hb
      fun s _ => g s

/-- Parallel sampling in Python. -/
theorem within_py_parallel (hn : 0 < n) (S : List (List ℤ)) (hS : S = words (alphabet k) n) (E : List ℤ → ℝ)
    (hE : E = kindEnergy k theta) (hD : ∀ s ∈ S, ∀ t ∈ S, E t - E s ≤ D) (w size nIters : ℕ) (burnIn : Option ℕ)
    (c b q : ℕ) (hc : c < w) (hq : q = (size + w - 1) / w) (hb : b < q) (hcb : c * q + b < size) :
    WithinFactor D S E (fun out : SampleOut => out.sample.getD (c * q + b) [])
      (generateSampleParallelPy (kindMove k theta) (kindRandom k n) (kindEnergy k theta) n w none size nIters burnIn false
        none) := by
  obtain ⟨K, hK⟩ : ∃ K : List ℤ → Prog (List (List ℤ) × List ℤ × ℝ), K = parallelChain (kindMove k theta) (kindEnergy k theta)
    n false (burnOr burnIn nIters) q nIters := ⟨_, rfl⟩
  have hm := goodMove_kind k n theta
  have e : ∀ g : List ℤ → ℝ, expectation (fun out : SampleOut => g (out.sample.getD (c * q + b) []))
      (generateSampleParallelPy (kindMove k theta) (kindRandom k n) (kindEnergy k theta) n w none size nIters burnIn false
        none) = (S.map fun s => expectation (fun r => g (r.1.getD b [])) (K s)).sum / S.length := fun g => by
    rw [hS, ← uniformOn_kindRandom k n w c hc fun s => expectation (fun r => g (r.1.getD b [])) (K s)]
    unfold generateSampleParallelPy startStates
    dsimp only
    rw [expectation_bind, ← hq]
    refine expectation_congr _ (returns_kindRandom k n w) fun x hx => ?_
    have hch : ∀ s ∈ x, Returns (parallelChain (kindMove k theta) (kindEnergy k theta) n false (burnOr burnIn nIters) q nIters
        s) fun r => r.1.length = q := fun s hs =>
      returns_mono (fun r hr => hr.1) (returns_parallelChain hm hn false _ _ _ s (hx.2 s hs))
    have hcx : c < x.length := by rw [hx.1]; exact hc
    rw [expectation_bind, expectation_congr (g := fun as => g ((as.getD c ([], [], 0)).1.getD b [])) _
      (returns_mapEach (Q := fun _ r => r.1.length = q) _ hch)]
    · rw [expectation_mapEach_getD _ (fun r => r.1.length = q) ([], [], 0) (fun r => g (r.1.getD b [])) _ hch c hcx, hK,
        List.getD_eq_getElem _ _ hcx]
    · intro rs hrs
      rw [expectation_ret]
      dsimp only
      have hlen' : rs.length = w := by rw [← hrs.length_eq, hx.1]
      have hall : ∀ r ∈ rs, r.1.length = q := by
        intro r hr
        obtain ⟨i, hi, rfl⟩ := List.getElem_of_mem hr
        exact (List.forall₂_iff_get.1 hrs).2 i (by rw [hrs.length_eq]; exact hi) hi
      rw [getD_take _ _ _ _ hcb, getD_flatMap_const rs q hall c b (by omega) hb]
  intro f hf
  have := avg_within hD (fun s => expectation (fun r => f (r.1.getD b [])) (K s)) fun s _ =>
    expectation_nonneg' _ fun a => hf _
  rw [← e f] at this
  have e2 : expect S E (fun s => expectation (fun r => f (r.1.getD b [])) (K s)) = expect S E f := by
    rw [hE, hS, hK]
    exact keeps_parallelChain hm hn false (burnOr burnIn nIters) q nIters b hb f
  rwa [e2] at this

end

/-- Sequential sampling by the compiled Ising sampler. -/
theorem within_boost (ndebug : Bool) (n : ℕ) (hn : 1 ≤ n) (theta : List ℝ) (ht : theta.length = n + n * (n - 1) / 2)
    (E : List ℤ → ℝ) (hE : E = fun s => isingVecE n (theta.take n) (theta.drop n) (spins s))
    (hD : ∀ s ∈ words [1, -1] n, ∀ t ∈ words [1, -1] n, E t - E s ≤ D) (size nIters : ℕ) (burnIn : Option ℕ) (b : ℕ)
    (hb : b < size) :
    WithinFactor D (words [1, -1] n) E (fun rows => rows.getD b [])
      (generateSampleBoost ndebug n theta size nIters burnIn false) := by
  refine withinFactor_of hD _ _ (fun s => cppChain (cppIter (cppIsingMove n theta (cppCouplingMat n n theta)) n false) size
    (burnOr burnIn nIters) nIters s (cppIsingCalcE n theta s)) (fun g => ?_) fun g =>
      C54_invariant n hn theta size (burnOr burnIn nIters) nIters false b hb g E hE
  rw [← uniformOn_cppIsingInit n, ← expectation_bind]
  unfold generateSampleBoost boostIsing
  rw [if_neg (by omega), if_neg (fun h => h.2 ht)]
  simp only [Prog.ofPy, Prog.bind, boostIsingSample, cppGenerateSample]

theorem within_boost_parallel (ndebug : Bool) (n : ℕ) (hn : 1 ≤ n) (theta : List ℝ)
    (ht : theta.length = n + n * (n - 1) / 2)
    (E : List ℤ → ℝ) (hE : E = fun s => isingVecE n (theta.take n) (theta.drop n) (spins s))
    (hD : ∀ s ∈ words [1, -1] n, ∀ t ∈ words [1, -1] n, E t - E s ≤ D) (w size nIters : ℕ) (burnIn : Option ℕ)
    (c b q : ℕ) (hc : c < w) (hq : q = (size + w - 1) / w) (hb : b < q) (hcb : c * q + b < size) :
    WithinFactor D (words [1, -1] n) E (fun rows => rows.getD (c * q + b) [])
      (generateSampleParallelBoost ndebug n theta w size nIters burnIn false) := fun f hf => by
  rw [C52_boost_rows ndebug n hn theta ht w size nIters burnIn false c b q hc hq hb hcb f]
  exact within_boost ndebug n hn theta ht E hE hD q nIters burnIn b hb f hf

theorem within_boost_potts3 (ndebug : Bool) (n : ℕ) (hn : 1 ≤ n) (theta : List ℝ)
    (ht : theta.length = 3 * n + n * (n - 1) / 2) (E : List ℤ → ℝ)
    (hE : E = fun s => pottsVecE n 3 (theta.take (3 * n)) (theta.drop (3 * n)) fun k => s.getD k 0)
    (hD : ∀ s ∈ words [0, 1, 2] n, ∀ t ∈ words [0, 1, 2] n, E t - E s ≤ D) (w size nIters : ℕ) (hw : 2 ≤ w) (hws : w < size)
    (burnIn : Option ℕ) (c b q : ℕ) (hc : c < w) (hq : q = (size + w - 1) / w) (hb : b < q) (hcb : c * q + b < size) :
    WithinFactor D (words [0, 1, 2] n) E (fun rows => rows.getD (c * q + b) [])
      (generateSampleParallelBoostPotts3 ndebug n theta w size nIters burnIn false) := fun f hf => by
  rw [(C84_parallel_partial ndebug n hn theta ht w hw size nIters hws burnIn false).2 c b q hc hq hb hcb f]
  refine withinFactor_of hD (fun rows => rows.getD b []) _ (fun s =>
    cppChain (cppIter (cppPottsMove n theta (cppCouplingMat n (n * 3) theta)) n false) q (burnOr burnIn nIters) nIters s
      (cppPottsCalcE n theta s)) (fun g => ?_) (fun g =>
      C56_cpp_invariant n hn theta q (burnOr burnIn nIters) nIters false b hb g E hE) f hf
  rw [expectation_bind, uniformOn_cppPottsInit n]

/-- A new sampler object. -/
theorem within_generate (k : ModelKind) (n : ℕ) (hn : 0 < n) (mc : Machine) (hcpu : 0 < mc.cpus) (o : SamplerObj)
    (ho : SamplerFits k n o) (hnew : o.compiled = false → o.replicas = none)
    (hD : ∀ s ∈ words (alphabet k) n, ∀ t ∈ words (alphabet k) n, modelEnergy k n o.theta t - modelEnergy k n o.theta s ≤ D)
    (parallel : Bool) (size nIters : ℕ) (burnIn : Option ℕ)
    (hk : o.compiled = true → k = .potts3 → parallel = true ∧ 2 ≤ o.nCpus ∧ o.nCpus < size) (i : ℕ) (hi : i < size) :
    WithinFactor D (words (alphabet k) n) (modelEnergy k n o.theta) (fun o' : SamplerObj => (o'.sample.getD []).getD i [])
      (o.generate mc parallel size nIters burnIn) := by
  have split : ∀ w : ℕ, 0 < w → ∃ c b q, c < w ∧ q = (size + w - 1) / w ∧ b < q ∧ c * q + b = i := by
    intro w hw
    have hge := ceil_mul_ge size w hw
    generalize hq : (size + w - 1) / w = q at hge
    have hq0 : 0 < q := by
      rcases Nat.eq_zero_or_pos q with h | h
      · subst h; omega
      · exact h
    refine ⟨i / q, i % q, q, ?_, rfl, Nat.mod_lt _ hq0, Nat.div_add_mod' i q⟩
    rw [Nat.div_lt_iff_lt_mul hq0]
    omega
  have hEk : ∀ f : List ℤ → ℝ, expect (words (alphabet k) n) (kindEnergy k o.theta) f =
      expect (words (alphabet k) n) (modelEnergy k n o.theta) f := expect_kind k n o.theta ho.length
  have hDk : ∀ s ∈ words (alphabet k) n, ∀ t ∈ words (alphabet k) n, kindEnergy k o.theta t - kindEnergy k o.theta s ≤ D :=
    fun s hs t ht => by
      rw [kindEnergy_eq k n _ ho.length _ (mem_words.1 hs).1, kindEnergy_eq k n _ ho.length _ (mem_words.1 ht).1]
      exact hD s hs t ht
  unfold SamplerObj.generate
  by_cases hc : o.compiled = true
  · rw [if_pos hc, ho.n_eq, ho.kind]
    by_cases hp : k = .potts3
    · obtain ⟨hpar, h2, h3⟩ := hk hc hp
      subst hp hpar
      rw [if_neg (by simp)]
      obtain ⟨c, b, q, h4, h5, h6, rfl⟩ := split o.nCpus (by omega)
      exact withinFactor_map (within_boost_potts3 mc.ndebug n hn o.theta ho.length _ rfl hD o.nCpus size nIters h2 h3 burnIn
        c b q h4 h5 h6 hi) fun f => by rw [expectation_bind]; rfl
    · have hal : alphabet k = [1, -1] := by
        revert hp
        cases k <;> simp [alphabet]
      have hE : modelEnergy k n o.theta = fun s => isingVecE n (o.theta.take n) (o.theta.drop n) (spins s) :=
        funext fun s => ho.ising hc hp s
      rw [hal] at hD ⊢
      cases parallel
      · rw [if_pos (by simp)]
        exact withinFactor_map (within_boost mc.ndebug n hn o.theta (ho.compiled hc hp) _ hE hD size nIters burnIn i hi)
          fun f => by rw [expectation_bind]; rfl
      · rw [if_neg (by simp)]
        obtain ⟨c, b, q, h4, h5, h6, rfl⟩ := split mc.cpus hcpu
        have := within_boost_parallel mc.ndebug n hn o.theta (ho.compiled hc hp) _ hE hD mc.cpus size nIters burnIn
          c b q h4 h5 h6 hi
        cases k with
        | ising => exact withinFactor_map this fun f => by rw [expectation_bind]; rfl
        | triplet => exact withinFactor_map this fun f => by rw [expectation_bind]; rfl
        | potts3 => exact absurd rfl hp
  · rw [if_neg hc, ho.check, ofPy, Prog.bind, hnew (by simpa using hc), ho.kind, ho.n_eq]
    cases parallel
    · rw [if_pos (by simp)]
      intro f hf
      rw [← hEk]
      exact withinFactor_map (within_py hn _ rfl _ rfl hDk size nIters burnIn i hi)
        (fun f => by rw [expectation_bind]; rfl) f hf
    · rw [if_neg (by simp)]
      obtain ⟨c, b, q, h4, h5, h6, rfl⟩ := split mc.cpus hcpu
      intro f hf
      rw [← hEk]
      exact withinFactor_map (within_py_parallel hn _ rfl _ rfl hDk mc.cpus size nIters burnIn c b q h4 h5 h6 hi)
        (fun f => by rw [expectation_bind]; rfl) f hf

end Verif.Lemmas
