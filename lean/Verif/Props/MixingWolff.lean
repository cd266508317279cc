/-
Properties C91 and C92 for the cluster sampler.
-/
import Verif.Lemmas.WolffErgodic
import Verif.Props.Mixing

namespace Verif.Props
open Verif Verif.Model Verif.Spec Verif.Lemmas Filter

theorem wolff_start_row (n samplesize : ℕ) (initial : Option (List (List ℤ)))
    (hi : ∀ x, initial = some x → x.length = samplesize ∧ ∀ s ∈ x, s ∈ words [1, -1] n) :
    FinDist (match initial with
      | none => wolffStart n samplesize
      | some x => .ret x) fun rows => rows.length = samplesize ∧ ∀ s ∈ rows, s ∈ words [1, -1] n := by
  cases initial with
  | none =>
    exact finDist_rows (finDist_randomRow [1, -1] (fun b => if b = 0 then -1 else 1) 2 (by norm_num)
      fun b _ => by by_cases h : b = 0 <;> simp [h]) samplesize
  | some x => exact finDist_ret (hi x rfl)

section
variable (n : ℕ) (hn : 1 ≤ n) (v h : List ℝ) (hh : h.length = n) (hv : v.length = n * (n - 1) / 2)
  (hx : (∃ x ∈ h, x ≠ 0) ∨ ∃ x ∈ v, x ≠ 0) (M : Mat ℝ) (g : List ℝ) (hM : wolffInit (.inl v) h = .ok (M, g))
  (E : List ℤ → ℝ) (hE : E = fun s => isingVecE n h v (spins s))
include hn hh hv hx hM hE

theorem wolff_chain : Ergodic (words [1, -1] n) (boltzmann (words [1, -1] n) E) (wolffStep n M g none) := by
  obtain ⟨M', h1, _, h3, h4⟩ := C60_constructor n hn v h hh hv
  rw [h1] at hM
  injection hM with hM
  injection hM with hM hg
  subst hM hg
  refine ergodic_wolff n M' h hn h3 E (fun s => by rw [hE, h4]) ?_
  have := ising_not_constant n (h ++ v) (by rw [List.length_append, hh, hv]) (by
    rcases hx with ⟨x, h1, h2⟩ | ⟨x, h1, h2⟩
    · exact ⟨x, List.mem_append_left _ h1, h2⟩
    · exact ⟨x, List.mem_append_right _ h1, h2⟩)
  rw [← hh, List.take_left, List.drop_left, hh] at this
  rw [hE]
  exact this

/-- C91: the rows of the cluster sampler have approximately the Boltzmann distribution, once the number of steps is
large, from all first states, if any parameter is not zero. -/
theorem C91_wolff (f : List ℤ → ℝ) (δ : ℝ) (hδ : 0 < δ) :
    ∃ N : ℕ, ∀ (samplesize nIters : ℕ) (initial : Option (List (List ℤ))) (b : ℕ),
      (∀ x, initial = some x → x.length = samplesize ∧ ∀ s ∈ x, s ∈ words [1, -1] n) → b < samplesize → N ≤ nIters →
      |expectation (fun rows => f (rows.getD b [])) (wolffSample n M g samplesize nIters initial) -
        expect (words [1, -1] n) E f| < δ := by
  have he := wolff_chain n hn v h hh hv hx M g hM E hE
  obtain ⟨r, -, h1, -, h2, -⟩ := he.rate f
  obtain ⟨N, hN⟩ := eventually_atTop.1 (h1.eventually (gt_mem_nhds hδ))
  refine ⟨N, fun samplesize nIters initial b hi hb hle => lt_of_le_of_lt ?_ (hN nIters hle)⟩
  unfold wolffSample
  rw [expectation_bind]
  refine (wolff_start_row n samplesize initial hi).bound fun rows hr => ?_
  rw [expectation_mapEach_getD _ (· ∈ words [1, -1] n) _ _ rows (fun s hs => returns_forEach (I := (· ∈ words [1, -1] n)) _
    (fun _ _ t ht => returns_step_words n hn M g t ht none (by simp)) s (hr.2 s hs)) b (by omega)]
  have := h2 (List.range nIters) rows[b] (hr.2 _ (List.getElem_mem _))
  rw [List.length_range] at this
  exact this

/-- C92: averages over the rows of the cluster sampler, which are independent: the mean square deviation from the
Boltzmann mean is at most `K` divided by the number of rows, and an error that vanishes with the number of steps. -/
theorem C92_wolff (f : List ℤ → ℝ) : ∃ (K : ℝ) (r : ℕ → ℝ), Tendsto r atTop (nhds 0) ∧
    ∀ (samplesize nIters : ℕ) (initial : Option (List (List ℤ))),
      (∀ x, initial = some x → x.length = samplesize ∧ ∀ s ∈ x, s ∈ words [1, -1] n) → 0 < samplesize →
      expectation (fun rows => ((rows.map f).sum / samplesize - expect (words [1, -1] n) E f) ^ 2)
        (wolffSample n M g samplesize nIters initial) ≤ K / samplesize + r nIters := by
  have he := wolff_chain n hn v h hh hv hx M g hM E hE
  obtain ⟨r, hr0, h1, -, h2, -⟩ := he.rate f
  obtain ⟨μ, hμ⟩ : ∃ μ, μ = expect (words [1, -1] n) E f := ⟨_, rfl⟩
  obtain ⟨t, -, ht⟩ := list_max (S := words ([1, -1] : List ℤ) n) (fun s => (f s - μ) ^ 2)
    (words_ne_nil [1, -1] 1 (by simp) n)
  refine ⟨(f t - μ) ^ 2, fun m => r m ^ 2, by simpa using h1.pow 2, fun samplesize nIters initial hi hm => ?_⟩
  have hm' : (0 : ℝ) < samplesize := by exact_mod_cast hm
  rw [← hμ]
  unfold wolffSample
  rw [expectation_bind]
  refine (wolff_start_row n samplesize initial hi).le_of fun rows hrow => ?_
  have hp : ∀ s ∈ rows, FinDist (Prog.forEach (fun _ s => wolffStep n M g none s) (List.range nIters) s)
      (· ∈ words [1, -1] n) := fun s hs =>
    finDist_forEach (I := (· ∈ words [1, -1] n)) _ (fun _ _ => he.fin) s (hrow.2 s hs)
  have key := (independent_sum (fun s => Prog.forEach (fun _ s => wolffStep n M g none s) (List.range nIters) s)
    (· ∈ words [1, -1] n) (fun s => f s - μ) (r nIters) ((f t - μ) ^ 2) (hr0 _) rows hp (fun s hs => ?_)
    (fun s hs => ?_)).2
  · have hall := finDist_mapEach (Q := fun _ => (· ∈ words ([1, -1] : List ℤ) n)) rows hp
    rw [hall.congr (g := fun as => 0 + ((samplesize : ℝ) ^ 2)⁻¹ * ((as.map fun s => f s - μ).sum) ^ 2) fun as has => ?_]
    · rw [hall.affine, zero_add]
      rw [hrow.1] at key
      calc ((samplesize : ℝ) ^ 2)⁻¹ * _ ≤ ((samplesize : ℝ) ^ 2)⁻¹ *
            (samplesize * (f t - μ) ^ 2 + (samplesize * r nIters) ^ 2) :=
            mul_le_mul_of_nonneg_left key (by positivity)
        _ = _ := by field_simp
    · have hlen : as.length = samplesize := by rw [← has.length_eq, hrow.1]
      have hs : (as.map fun s => f s - μ).sum = (as.map f).sum - samplesize * μ := by
        rw [← hlen]
        clear has hlen
        induction as with
        | nil => simp
        | cons a as ih => simp only [List.map_cons, List.sum_cons, List.length_cons, ih]; push_cast; ring
      rw [hs]
      field_simp
      ring
  · have h := h2 (List.range nIters) s (hrow.2 s hs)
    rw [List.length_range] at h
    have e := (hp s hs).affine (-μ) 1 f
    rw [show (fun t => -μ + 1 * f t) = fun s => f s - μ from funext fun t => by ring] at e
    rw [e, show -μ + 1 * expectation f _ = expectation f
      (Prog.forEach (fun _ s => wolffStep n M g none s) (List.range nIters) s) - μ from by ring, hμ]
    exact h
  · exact (hp s hs).le_of fun u hu => ht u hu

end

/-- C91: if all parameters are zero, every step of the cluster sampler flips exactly one spin, so that the product of the
spins alternates and the sample never approaches the Boltzmann distribution. -/
theorem C91_wolff_zero (n : ℕ) (hn : 0 < n) (J : Mat ℝ) (hJ : ∀ i j, J.at' i j = 0) (h : List ℝ) (hh : ∀ i, h.getD i 0 = 0)
    (m : ℕ) (s : List ℤ) (hs : s ∈ words [1, -1] n) :
    Returns (Prog.forEach (fun (_ : ℕ) s => wolffStep n J h none s) (List.range m) s) fun t =>
      t ∈ words [1, -1] n ∧ t.prod = (-1) ^ m * s.prod := by
  have step : ∀ s ∈ words ([1, -1] : List ℤ) n, Returns (wolffStep n J h none s) fun t =>
      t ∈ words [1, -1] n ∧ t.prod = -s.prod := by
    intro s hs
    rw [wolffStep_eq]
    refine returns_randint n hn _ fun i hi => ?_
    refine returns_bind (returns_buildCluster n J s i hi) fun c hc => ?_
    have hsingle : ∀ x ∈ c, x = i := fun x hx => by
      have := hc.2.2.2 x hx
      induction this with
      | refl => rfl
      | tail _ hr _ => simp [hJ] at hr
    have hc1 : c = [i] := by
      have h1 := hc.1
      have h2 := hc.2.1
      match c, h1, h2, hsingle with
      | [a], _, _, h3 => rw [h3 a (by simp)]
      | a :: b :: c, _, h2, h3 =>
        have e1 := h3 a (by simp)
        have e2 := h3 b (by simp)
        rw [e1, e2] at h2
        simp at h2
    intro u _ hu
    dsimp only
    have hf : (c.map fun i => h.getD i 0 * ((s.getD i 0 : ℤ) : ℝ)).sum = 0 := by
      rw [hc1]; simp only [List.map_cons, List.map_nil, List.sum_cons, List.sum_nil, hh]; ring
    rw [hf, mul_zero, Real.exp_zero, if_pos hu]
    refine returns_ret ⟨flipCluster_mem n s c hs, ?_⟩
    rw [hc1, flipCluster_single]
    exact prod_set_neg s i (by rw [(mem_words.1 hs).1]; exact hi)
  have key : ∀ l : List ℕ, ∀ s ∈ words ([1, -1] : List ℤ) n,
      Returns (Prog.forEach (fun (_ : ℕ) s => wolffStep n J h none s) l s) fun t =>
        t ∈ words [1, -1] n ∧ t.prod = (-1) ^ l.length * s.prod := by
    intro l
    induction l with
    | nil => exact fun s hs => returns_ret ⟨hs, by simp⟩
    | cons i l ih =>
      intro s hs
      refine returns_bind (step s hs) fun t ht => returns_mono (fun u hu => ⟨hu.1, ?_⟩) (ih t ht.1)
      rw [hu.2, ht.2, List.length_cons, pow_succ]; ring
  have := key (List.range m) s hs
  rwa [List.length_range] at this

/-- The hypotheses are met: three spins with one coupling. -/
example : ∃ M g, wolffInit (.inl ([1, 0, 0] : List ℝ)) [0, 0, 0] = .ok (M, g) ∧ ((∃ x ∈ ([0, 0, 0] : List ℝ), x ≠ 0) ∨
    ∃ x ∈ ([1, 0, 0] : List ℝ), x ≠ 0) := by
  obtain ⟨M, h1, _⟩ := C60_constructor 3 (by norm_num) [1, 0, 0] [0, 0, 0] rfl rfl
  exact ⟨M, _, h1, .inr ⟨1, by simp, by norm_num⟩⟩

end Verif.Props
