/-
C138: the Metropolis sampler in floating-point arithmetic.
-/
import Verif.Lemmas.FloatMetropolis
import Verif.Props.FloatMch
import Verif.Props.Mixing
import Verif.Lemmas.Ergodic4

namespace Verif.Props
open Verif Verif.Model Verif.Spec Verif.Lemmas FlArith

/-- C138: rounding errors of the tracked energy do not add up. After any number of iterations, every energy that is recorded differs
from the energy computed for the recorded state by at most `ε (3 m + 4)`, where `m` bounds the energies. -/
theorem C138_energy (A : FlArith) (ε : ℝ) (h : Ieee A) (ha : Accurate A ε) (n : ℕ) (hn : 0 < n) (m : ℝ) (calcE : List ℤ → Fl)
    (hc : ∀ s ∈ words [1, -1] n, ∃ e, calcE s = .num e ∧ A.rd e = e ∧ |e| ≤ m) (hm : m ≤ A.big / 8) (hε : ε * (3 * m + 4) ≤ 1)
    (systematic : Bool) (burn sampleSize nIters : ℕ) (s : List ℤ) (hs : s ∈ words [1, -1] n) :
    Returns (metroSampleFl A calcE n systematic burn sampleSize nIters s) fun out =>
      out.1.length = sampleSize ∧ out.2.length = sampleSize ∧ ∀ p ∈ out.1.zip out.2,
        p.1 ∈ words [1, -1] n ∧ ∃ x e, p.2 = .num x ∧ calcE p.1 = .num e ∧ |x - e| ≤ ε * (3 * m + 4) := by
  have hc' : CalcOk A calcE (words [1, -1] n) m := by
    intro t ht
    obtain ⟨e, e1, e2, e3⟩ := hc t ht
    rw [e1]
    exact ⟨rfl, e2, e3⟩
  have hm0 : 0 ≤ m := by
    obtain ⟨e, -, -, e3⟩ := hc s hs
    exact (abs_nonneg _).trans e3
  have hε0 := ha.nonneg
  have hstart : Tracks A ε m calcE (words [1, -1] n) (s, calcE s) := by
    refine ⟨hs, _, (hc' s hs).1, (hc' s hs).2.1, ?_⟩
    rw [sub_self, abs_zero]
    positivity
  unfold metroSampleFl
  refine returns_bind (returns_metroRunFl h ha n hn hc' hm hε systematic burn _ hstart) fun st hst => ?_
  have key : ∀ (l : List ℕ) (acc : (List ℤ × Fl) × List (List ℤ) × List Fl), Tracks A ε m calcE (words [1, -1] n) acc.1 →
      acc.2.1.length = acc.2.2.length → (∀ p ∈ acc.2.1.zip acc.2.2, Tracks A ε m calcE (words [1, -1] n) p) →
      Returns (Prog.forEach (fun _ (acc : (List ℤ × Fl) × List (List ℤ) × List Fl) =>
        (metroRunFl A calcE n systematic nIters acc.1).bind fun st' =>
          .ret (st', acc.2.1 ++ [st'.1], acc.2.2 ++ [st'.2])) l acc) fun r =>
        r.2.1.length = acc.2.1.length + l.length ∧ r.2.2.length = acc.2.2.length + l.length ∧
          ∀ p ∈ r.2.1.zip r.2.2, Tracks A ε m calcE (words [1, -1] n) p := by
    intro l
    induction l with
    | nil => exact fun acc _ _ h3 => returns_ret ⟨rfl, rfl, h3⟩
    | cons j l ih =>
      intro acc h1 h2 h3
      refine returns_bind (returns_bind (returns_metroRunFl h ha n hn hc' hm hε systematic nIters _ h1)
        (R := fun r => Tracks A ε m calcE (words [1, -1] n) r.1 ∧ r.2.1.length = acc.2.1.length + 1 ∧
          r.2.2.length = acc.2.2.length + 1 ∧ ∀ p ∈ r.2.1.zip r.2.2, Tracks A ε m calcE (words [1, -1] n) p)
        fun st' hst' => returns_ret ⟨hst', by simp, by simp, ?_⟩) fun r hr => ?_
      · intro p hp
        rw [List.zip_append h2] at hp
        rcases List.mem_append.1 hp with hp | hp
        · exact h3 p hp
        · simp only [List.zip_cons_cons, List.zip_nil_right, List.mem_singleton] at hp
          rw [hp]
          exact hst'
      · obtain ⟨r1, r2, r3, r4⟩ := hr
        refine returns_mono (fun q hq => ?_) (ih r r1 (by rw [r2, r3, h2]) r4)
        rw [r2, r3] at hq
        refine ⟨?_, ?_, hq.2.2⟩
        · rw [hq.1, List.length_cons]
          omega
        · rw [hq.2.1, List.length_cons]
          omega
  refine returns_bind (key (List.range sampleSize) (st, [], []) hst rfl (by simp)) fun r hr => returns_ret ?_
  obtain ⟨r1, r2, r3⟩ := hr
  refine ⟨by simpa using r1, by simpa using r2, fun p hp => ?_⟩
  obtain ⟨q1, x, q2, -, q3⟩ := r3 p hp
  exact ⟨q1, x, _, q2, (hc' _ q1).1, q3⟩

/-- C138: the probability that a flip is accepted is the one of the Metropolis rule up to rounding errors, if the tracked energy is as
`C138_energy` says. `κ` bounds the error of the energies that are computed. -/
theorem C138_acceptance (A : FlArith) (ε : ℝ) (h : Ieee A) (ha : Accurate A ε) (n : ℕ) (m κ : ℝ) (calcE : List ℤ → Fl)
    (E : List ℤ → ℝ) (hc : ∀ s ∈ words [1, -1] n, ∃ e, calcE s = .num e ∧ A.rd e = e ∧ |e| ≤ m ∧ |e - E s| ≤ κ)
    (hm : m ≤ A.big / 8) (hε : ε * (3 * m + 4) ≤ 1) (i : ℕ) (hi : i < n) (s : List ℤ) (hs : s ∈ words [1, -1] n) (x e : ℝ)
    (he : calcE s = .num e) (hx : |x - e| ≤ ε * (3 * m + 4)) :
    |prob (sampleMetropolisFl A calcE (some i) s (.num x)) (fun r => r.1 = s.set i (-s.getD i 0)) -
      min 1 (Real.exp (-(E (s.set i (-s.getD i 0)) - E s)))| ≤ ε * (5 * m + 8) + 2 * κ := by
  have hε0 := ha.nonneg
  have hl := (mem_words.1 hs).1
  obtain ⟨e', he', -, he2, he3⟩ := hc s hs
  obtain rfl : e = e' := Fl.num.inj (he.symm.trans he')
  rw [← negAt_eq]
  have hs1 : negAt s i ∈ words [1, -1] n := by rw [negAt_eq]; exact flip_mem_words n i s hs
  have hne : s ≠ negAt s i := by
    intro h0
    rw [negAt_eq] at h0
    have h1 := congrArg (fun l => l.getD i 0) h0
    have h2 := getD_mem_of_words hi hs
    simp only [List.mem_cons, List.not_mem_nil, or_false] at h2
    have h3 : (s.set i (-s.getD i 0)).getD i 0 = -s.getD i 0 := by
      rw [List.getD_eq_getElem _ _ (by simp [hl, hi]), List.getElem_set_self]
    rw [h3] at h1
    omega
  obtain ⟨f, f1, f2, f3, f4⟩ := hc _ hs1
  have hxm : |x| ≤ m + 1 := by
    have h1 := abs_add_le (x - e) e
    rw [sub_add_cancel] at h1
    linarith
  obtain ⟨de, d1, d2, -⟩ := step_acc h ha hm hε hxm f3
  have hde : |de - (E (negAt s i) - E s)| ≤ ε * (5 * m + 6) + 2 * κ := by
    obtain ⟨a1, a2⟩ := abs_le.1 d2
    obtain ⟨b1, b2⟩ := abs_le.1 f4
    obtain ⟨c1, c2⟩ := abs_le.1 he3
    obtain ⟨g1, g2⟩ := abs_le.1 hx
    rw [abs_le]
    constructor <;> linarith
  have hlip := (min_one_exp_lip de (E (negAt s i) - E s)).trans hde
  have hprob : |prob (sampleMetropolisFl A calcE (some i) s (.num x)) (fun r => r.1 = negAt s i) - min 1 (Real.exp (-de))| ≤
      ε * 2 := by
    unfold prob sampleMetropolisFl chooseSite
    simp only [Prog.bind, if_pos (show i < s.length by rw [hl]; exact hi), negAt_negAt]
    rw [f1, d1]
    by_cases hpos : 0 < de
    · have hexp := h.exp_range (-de) (by linarith)
      have e1 : A.exp (neg (.num de)) = .num (A.expf (-de)) := by
        show (if A.big < A.expf (-de) then _ else _) = _
        rw [if_neg]
        have : (2 : ℝ) ^ 53 ≤ A.big := h.big
        norm_num at this
        linarith [hexp.2]
      have e2 : (Prog.rand fun u => if lt (A.exp (neg (.num de))) (.num u) = true then Prog.ret (s, Fl.num 0)
          else Prog.ret (negAt s i, Fl.num de)) =
          Prog.rand fun u => if u > A.expf (-de) then Prog.ret (s, Fl.num 0) else Prog.ret (negAt s i, Fl.num de) := by
        rw [e1]
        congr 1
        funext u
        simp only [lt, decide_eq_true_eq, gt_iff_lt]
      rw [if_pos (by simpa [lt] using hpos), e2, expectation_rand_gt _ _ _ _ hexp.1 hexp.2]
      simp only [expectation_ret, if_neg hne, if_true, mul_zero, zero_add, mul_one]
      have h1 : Real.exp (-de) ≤ 1 := Real.exp_le_one_iff.2 (by linarith)
      rw [min_eq_right h1]
      refine (ha.exp (-de) (by linarith)).trans (mul_le_mul_of_nonneg_left (by linarith) hε0)
    · rw [if_neg (by simpa [lt] using hpos)]
      simp only [expectation_ret, if_true]
      rw [min_eq_left (Real.one_le_exp (by linarith)), sub_self, abs_zero]
      positivity
  refine (abs_sub_le _ (min 1 (Real.exp (-de))) _).trans ?_
  linarith

/-- C138: after `k` iterations, the average of any `f` between -1 and 1 over the random numbers differs from that of the sampler in
real numbers by at most `2 k (ε (5 m + 8) + 2 κ)`. -/
theorem C138_law (A : FlArith) (ε : ℝ) (h : Ieee A) (ha : Accurate A ε) (n : ℕ) (hn : 0 < n) (m κ : ℝ) (calcE : List ℤ → Fl)
    (E : List ℤ → ℝ) (hc : ∀ s ∈ words [1, -1] n, ∃ e, calcE s = .num e ∧ A.rd e = e ∧ |e| ≤ m ∧ |e - E s| ≤ κ)
    (hm : m ≤ A.big / 8) (hε : ε * (3 * m + 4) ≤ 1) (systematic : Bool) (k : ℕ) (f : List ℤ → ℝ)
    (hf : ∀ s ∈ words [1, -1] n, |f s| ≤ 1) (s : List ℤ) (hs : s ∈ words [1, -1] n) :
    |expectation (fun r => f r.1) (metroRunFl A calcE n systematic k (s, calcE s)) -
      expectation (fun r => f r.1) (metroRun (sampleMetropolis E) n systematic k (s, E s))| ≤
      k * (2 * (ε * (5 * m + 8) + 2 * κ)) := by
  have hc' : CalcOk A calcE (words [1, -1] n) m ∧ ∀ t ∈ words [1, -1] n, |flNum (calcE t) - E t| ≤ κ := by
    refine ⟨fun t ht => ?_, fun t ht => ?_⟩ <;> obtain ⟨e, e1, e2, e3, e4⟩ := hc t ht <;> rw [e1]
    · exact ⟨rfl, e2, e3⟩
    · exact e4
  have hm0 : 0 ≤ m := (abs_nonneg _).trans (hc'.1 s hs).2.2
  have hε0 := ha.nonneg
  have hstart : Tracks A ε m calcE (words [1, -1] n) (s, calcE s) := by
    refine ⟨hs, _, (hc'.1 s hs).1, (hc'.1 s hs).2.1, ?_⟩
    rw [sub_self, abs_zero]
    positivity
  have := (run_law h ha E n hn hc'.1 hc'.2 hm hε systematic f hf (List.range k) _ hstart).1
  rwa [List.length_range] at this

/-- C138: there is a rate `r`, which depends only on the energy and the average, such that after at least `K` iterations with updates
at random sites averages are those of the Boltzmann distribution up to `r K` and the rounding errors of `K` iterations only, however
long the run. (The energies must not all be equal, as in C91.) -/
theorem C138_rate (n : ℕ) (hn : 0 < n) (E : List ℤ → ℝ) (hE : ∃ s ∈ words [1, -1] n, ∃ t ∈ words [1, -1] n, E s ≠ E t)
    (f : List ℤ → ℝ) (hf : ∀ s ∈ words [1, -1] n, |f s| ≤ 1) :
    ∃ r : ℕ → ℝ, Filter.Tendsto r Filter.atTop (nhds 0) ∧ ∀ (A : FlArith) (ε m κ : ℝ) (calcE : List ℤ → Fl), Ieee A → Accurate A ε →
      (∀ s ∈ words [1, -1] n, ∃ e, calcE s = .num e ∧ A.rd e = e ∧ |e| ≤ m ∧ |e - E s| ≤ κ) → m ≤ A.big / 8 →
      ε * (3 * m + 4) ≤ 1 → ∀ K k, K ≤ k → ∀ s ∈ words [1, -1] n,
        |expectation (fun r => f r.1) (metroRunFl A calcE n false k (s, calcE s)) - expect (words [1, -1] n) E f| ≤
          r K + K * (2 * (ε * (5 * m + 8) + 2 * κ)) := by
  obtain ⟨r, -, h2, -, h4, -⟩ := (ergodic_metropolis n hn E hE).rate fun st => f st.1
  rw [sum_withE] at h4
  refine ⟨r, h2, ?_⟩
  intro A ε m κ calcE h ha hc hm hε K k hk s hs
  have hc' : CalcOk A calcE (words [1, -1] n) m ∧ ∀ t ∈ words [1, -1] n, |flNum (calcE t) - E t| ≤ κ := by
    refine ⟨fun t ht => ?_, fun t ht => ?_⟩ <;> obtain ⟨e, e1, e2, e3, e4⟩ := hc t ht <;> rw [e1]
    · exact ⟨rfl, e2, e3⟩
    · exact e4
  have hm0 : 0 ≤ m := (abs_nonneg _).trans (hc'.1 s hs).2.2
  have hε0 := ha.nonneg
  have hstart : Tracks A ε m calcE (words [1, -1] n) (s, calcE s) := by
    refine ⟨hs, _, (hc'.1 s hs).1, (hc'.1 s hs).2.1, ?_⟩
    rw [sub_self, abs_zero]
    positivity
  obtain ⟨k', rfl⟩ := Nat.exists_eq_add_of_le hk
  have hrange : List.range (K + k') = List.range k' ++ (List.range K).map (k' + ·) := by
    rw [add_comm, List.range_add]
  unfold metroRunFl
  rw [hrange]
  refine run_longer h ha n hn hc'.1 hm hε f _ _ _ (fun st hst => ?_) _ _ hstart
  have h5 := (run_law h ha E n hn hc'.1 hc'.2 hm hε false f hf ((List.range K).map (k' + ·)) st hst).1
  have h6 := h4 ((List.range K).map (k' + ·)) (st.1, E st.1) (mem_withE.2 ⟨hst.1, rfl⟩)
  rw [List.length_map, List.length_range] at h5 h6
  refine (abs_sub_le _ (expectation (fun r => f r.1) (Prog.forEach (metroIter (sampleMetropolis E) n false)
    ((List.range K).map (k' + ·)) (st.1, E st.1))) _).trans ?_
  have h11 : |expectation (fun r => f r.1) (Prog.forEach (metroIter (sampleMetropolis E) n false)
    ((List.range K).map (k' + ·)) (st.1, E st.1)) - expect (words [1, -1] n) E f| ≤ r K := h6
  linarith

/-- C138: however long the sampler runs, with updates at random sites, averages are those of the Boltzmann distribution up to any
tolerance, if the arithmetic and the computed energies are accurate enough. -/
theorem C138_boltzmann (n : ℕ) (hn : 0 < n) (E : List ℤ → ℝ) (hE : ∃ s ∈ words [1, -1] n, ∃ t ∈ words [1, -1] n, E s ≠ E t)
    (f : List ℤ → ℝ) (hf : ∀ s ∈ words [1, -1] n, |f s| ≤ 1) (δ : ℝ) (hδ : 0 < δ) :
    ∃ (ε₀ : ℝ) (K : ℕ), 0 < ε₀ ∧ ∀ (A : FlArith) (ε m κ : ℝ) (calcE : List ℤ → Fl), Ieee A → Accurate A ε →
      (∀ s ∈ words [1, -1] n, ∃ e, calcE s = .num e ∧ A.rd e = e ∧ |e| ≤ m ∧ |e - E s| ≤ κ) → m ≤ A.big / 8 →
      ε * (3 * m + 4) ≤ 1 → ε * (5 * m + 8) + 2 * κ ≤ ε₀ → ∀ k, K ≤ k → ∀ s ∈ words [1, -1] n,
        |expectation (fun r => f r.1) (metroRunFl A calcE n false k (s, calcE s)) - expect (words [1, -1] n) E f| ≤ δ := by
  obtain ⟨r, h1, h2⟩ := C138_rate n hn E hE f hf
  obtain ⟨K, hK⟩ := Filter.eventually_atTop.1 (h1.eventually (gt_mem_nhds (half_pos hδ)))
  refine ⟨δ / (4 * (K + 1)), K, by positivity, ?_⟩
  intro A ε m κ calcE h ha hc hm hε hsmall k hk s hs
  refine (h2 A ε m κ calcE h ha hc hm hε K k hk s hs).trans ?_
  have h7 := hK K le_rfl
  have h8 : (K : ℝ) * (2 * (ε * (5 * m + 8) + 2 * κ)) ≤ δ / 2 := by
    have h9 : (K : ℝ) * (2 * (ε * (5 * m + 8) + 2 * κ)) ≤ K * (2 * (δ / (4 * (K + 1)))) :=
      mul_le_mul_of_nonneg_left (by linarith) (Nat.cast_nonneg K)
    refine h9.trans ?_
    have : (K : ℝ) * (2 * (δ / (4 * (K + 1)))) = δ / 2 * (K / (K + 1)) := by
      field_simp
      norm_num
    rw [this]
    have h10 : (K : ℝ) / (K + 1) ≤ 1 := by
      rw [div_le_one (by positivity)]
      linarith
    nlinarith
  linarith

/-- C138 for the Ising model: recorded energies are the energies of the recorded states, up to rounding errors that do not depend on
the number of iterations. -/
theorem C138_ising (A : FlArith) (ε : ℝ) (h : Ieee A) (ha : Accurate A ε) (n b : ℕ) (hn : 0 < n) (θ : List ℝ)
    (hθ : θ.length = n + n * (n - 1) / 2) (hb : ∀ v ∈ θ, A.rd v = v ∧ |v| ≤ b) (hK : b * (n + n * (n - 1) / 2) ≤ 2 ^ 50)
    (tE : SumTree) (htE : tE.Adds n) (hε : ε * (3 * (b * (n + n * (n - 1) / 2) : ℕ) + 4) ≤ 1)
    (systematic : Bool) (burn sampleSize nIters : ℕ) (s : List ℤ) (hs : s ∈ words [1, -1] n) :
    Returns (metroSampleFl A (isingCalcERowFl A tE (θ.map .num)) n systematic burn sampleSize nIters s) fun out =>
      out.1.length = sampleSize ∧ out.2.length = sampleSize ∧ ∀ p ∈ out.1.zip out.2,
        p.1.length = n ∧ (∀ v ∈ p.1, v = 1 ∨ v = -1) ∧ ∃ x, p.2 = .num x ∧
          |x - isingVecE n (θ.take n) (θ.drop n) (spins p.1)| ≤ ε * (3 * (b * (n + n * (n - 1) / 2) : ℕ) + 4) +
            ε * (((b * (n + n * (n - 1) / 2) : ℕ) + 1) * (n + n * (n - 1) / 2 : ℕ)) := by
  have hw : ∀ t ∈ words [1, -1] n, t.length = n ∧ ∀ v ∈ t, v = 1 ∨ v = -1 := by
    intro t ht
    simpa using mem_words.1 ht
  have hsp := fun t ht => spin_energy A ε h ha n b θ hθ hb (hK.trans (by norm_num)) tE htE t (hw t ht).1 (hw t ht).2
  refine returns_mono (fun out ho => ⟨ho.1, ho.2.1, fun p hp => ?_⟩) (C138_energy A ε h ha n hn
    ((b * (n + n * (n - 1) / 2) : ℕ) : ℝ) (isingCalcERowFl A tE (θ.map .num))
    (fun t ht => ⟨_, (hsp t ht).1, (hsp t ht).2.1, (hsp t ht).2.2.1⟩) (by
      have h1 : ((b * (n + n * (n - 1) / 2) : ℕ) : ℝ) ≤ 2 ^ 50 := by exact_mod_cast hK
      have h2 := h.big
      norm_num at h1 h2 ⊢
      linarith) hε systematic burn sampleSize nIters s hs)
  obtain ⟨p1, x, e, p2, p3, p4⟩ := ho.2.2 p hp
  refine ⟨(hw _ p1).1, (hw _ p1).2, x, p2, ?_⟩
  have h1 := (hsp _ p1).2.2.2
  rw [p3] at h1
  rw [← isingCalcERow_vec n p.1 (hw _ p1).1 θ hθ]
  refine (abs_sub_le _ e _).trans (add_le_add p4 ?_)
  rw [← mul_assoc]
  exact h1

/-- C138 for the Ising model: the probability that a flip is accepted. -/
theorem C138_ising_acceptance (A : FlArith) (ε : ℝ) (h : Ieee A) (ha : Accurate A ε) (n b : ℕ) (θ : List ℝ)
    (hθ : θ.length = n + n * (n - 1) / 2) (hb : ∀ v ∈ θ, A.rd v = v ∧ |v| ≤ b) (hK : b * (n + n * (n - 1) / 2) ≤ 2 ^ 50)
    (tE : SumTree) (htE : tE.Adds n) (hε : ε * (3 * (b * (n + n * (n - 1) / 2) : ℕ) + 4) ≤ 1) (i : ℕ) (hi : i < n) (s : List ℤ)
    (hs : s ∈ words [1, -1] n) (x e : ℝ) (he : isingCalcERowFl A tE (θ.map .num) s = .num e)
    (hx : |x - e| ≤ ε * (3 * (b * (n + n * (n - 1) / 2) : ℕ) + 4)) :
    |prob (sampleMetropolisFl A (isingCalcERowFl A tE (θ.map .num)) (some i) s (.num x)) (fun r => r.1 = s.set i (-s.getD i 0)) -
      min 1 (Real.exp (-(isingVecE n (θ.take n) (θ.drop n) (spins (s.set i (-s.getD i 0))) -
        isingVecE n (θ.take n) (θ.drop n) (spins s))))| ≤
      ε * (5 * (b * (n + n * (n - 1) / 2) : ℕ) + 8) +
        2 * (ε * ((b * (n + n * (n - 1) / 2) : ℕ) + 1) * (n + n * (n - 1) / 2 : ℕ)) := by
  have hw : ∀ t ∈ words [1, -1] n, t.length = n ∧ ∀ v ∈ t, v = 1 ∨ v = -1 := by
    intro t ht
    simpa using mem_words.1 ht
  have hsp := fun t ht => spin_energy A ε h ha n b θ hθ hb (hK.trans (by norm_num)) tE htE t (hw t ht).1 (hw t ht).2
  refine C138_acceptance A ε h ha n _ _ (isingCalcERowFl A tE (θ.map .num))
    (fun t => isingVecE n (θ.take n) (θ.drop n) (spins t)) (fun t ht => ?_) (by
      have h1 : ((b * (n + n * (n - 1) / 2) : ℕ) : ℝ) ≤ 2 ^ 50 := by exact_mod_cast hK
      have h2 := h.big
      norm_num at h1 h2 ⊢
      linarith) hε i hi s hs x e he hx
  rw [← isingCalcERow_vec n t (hw t ht).1 θ hθ]
  exact ⟨_, hsp t ht⟩

/-- C138 for the Ising model with some parameter not 0: with updates at random sites the state has the model's distribution, up to the
rate `r` and the rounding errors of `K` iterations, however long the run. -/
theorem C138_ising_rate (n b : ℕ) (hn : 0 < n) (θ : List ℝ) (hθ : θ.length = n + n * (n - 1) / 2) (hb : ∀ v ∈ θ, |v| ≤ b)
    (h0 : ∃ v ∈ θ, v ≠ 0) (hK : b * (n + n * (n - 1) / 2) ≤ 2 ^ 50) (f : List ℤ → ℝ) (hf : ∀ s ∈ words [1, -1] n, |f s| ≤ 1) :
    ∃ r : ℕ → ℝ, Filter.Tendsto r Filter.atTop (nhds 0) ∧ ∀ (A : FlArith) (ε : ℝ), Ieee A → Accurate A ε →
      (∀ v ∈ θ, A.rd v = v) → ε * (3 * (b * (n + n * (n - 1) / 2) : ℕ) + 4) ≤ 1 → ∀ tE : SumTree, tE.Adds n → ∀ K k, K ≤ k →
      ∀ s ∈ words [1, -1] n,
        |expectation (fun r => f r.1) (metroRunFl A (isingCalcERowFl A tE (θ.map .num)) n false k
          (s, isingCalcERowFl A tE (θ.map .num) s)) -
            expect (words [1, -1] n) (fun t => isingVecE n (θ.take n) (θ.drop n) (spins t)) f| ≤
          r K + K * (2 * (ε * (5 * (b * (n + n * (n - 1) / 2) : ℕ) + 8) +
            2 * (ε * ((b * (n + n * (n - 1) / 2) : ℕ) + 1) * (n + n * (n - 1) / 2 : ℕ)))) := by
  obtain ⟨r, h1, h2⟩ := C138_rate n hn (fun t => isingVecE n (θ.take n) (θ.drop n) (spins t)) (ising_not_constant n θ hθ h0) f hf
  refine ⟨r, h1, fun A ε h ha hrd hε tE htE K k hk s hs => ?_⟩
  have hw : ∀ t ∈ words [1, -1] n, t.length = n ∧ ∀ v ∈ t, v = 1 ∨ v = -1 := by
    intro t ht
    simpa using mem_words.1 ht
  have hsp := fun t ht => spin_energy A ε h ha n b θ hθ (fun v hv => ⟨hrd v hv, hb v hv⟩) (hK.trans (by norm_num)) tE htE t
    (hw t ht).1 (hw t ht).2
  refine h2 A ε _ _ _ h ha (fun t ht => ?_) (by
      have h1 : ((b * (n + n * (n - 1) / 2) : ℕ) : ℝ) ≤ 2 ^ 50 := by exact_mod_cast hK
      have h2 := h.big
      norm_num at h1 h2 ⊢
      linarith) hε K k hk s hs
  rw [← isingCalcERow_vec n t (hw t ht).1 θ hθ]
  exact ⟨_, hsp t ht⟩

/-- Non-vacuity of C138_ising, C138_energy and C138_acceptance: two spins. -/
example (burn sampleSize nIters : ℕ) : Returns (metroSampleFl finestArith (isingCalcERowFl finestArith (.node (.leaf 0) (.leaf 1))
      ([1, 0, -2].map .num)) 2 true burn sampleSize nIters [1, -1]) fun out =>
      out.1.length = sampleSize ∧ out.2.length = sampleSize ∧ ∀ p ∈ out.1.zip out.2, p.1.length = 2 ∧ (∀ v ∈ p.1, v = 1 ∨ v = -1) ∧
        ∃ x, p.2 = .num x ∧ |x - isingVecE 2 [1, 0] [-2] (spins p.1)| ≤ 1 / 1000000000 := by
  have hrd : ∀ m : ℕ, finestArith.rd m = m := finest_nat
  refine returns_mono (fun out ho => ⟨ho.1, ho.2.1, fun p hp => ?_⟩) (C138_ising finestArith (1 / 2 ^ 60) finestArith_ieee
    finestArith_accurate 2 2 (by norm_num) [1, 0, -2] rfl (by
      intro v hv
      simp only [List.mem_cons, List.not_mem_nil, or_false] at hv
      rcases hv with rfl | rfl | rfl
      · exact ⟨by exact_mod_cast hrd 1, by norm_num⟩
      · exact ⟨by exact_mod_cast hrd 0, by norm_num⟩
      · refine ⟨?_, by norm_num⟩
        rw [finestArith_ieee.neg]
        exact congrArg Neg.neg (by exact_mod_cast hrd 2)) (by norm_num) _ two_adds (by norm_num) true burn sampleSize nIters [1, -1]
    (by decide))
  obtain ⟨h1, h2, x, h3, h4⟩ := ho.2.2 p hp
  refine ⟨h1, h2, x, h3, h4.trans ?_⟩
  norm_num

/-- Numbers cut off, with steps of `1 / (2 ^ 52 * N)`. -/
noncomputable def grid (N : ℕ) (x : ℝ) : ℝ := cut (N * x) / N

theorem grid_acc {N : ℕ} (hN : 0 < N) (x : ℝ) : |grid N x - x| ≤ 1 / N := by
  have hN' : (0 : ℝ) < N := by exact_mod_cast hN
  have e : grid N x - x = (cut (N * x) - N * x) / N := by
    unfold grid
    field_simp
  rw [e, abs_div, abs_of_pos hN']
  exact div_le_div_of_nonneg_right ((cut_acc _).trans (by norm_num)) hN'.le

theorem grid_idem {N : ℕ} (hN : 0 < N) (x : ℝ) : grid N (grid N x) = grid N x := by
  have hN' : (N : ℝ) ≠ 0 := by exact_mod_cast hN.ne'
  unfold grid
  rw [mul_div_cancel₀ _ hN', cut_idem]

theorem grid_nat {N : ℕ} (hN : 0 < N) (m : ℕ) : grid N m = m := by
  have hN' : (N : ℝ) ≠ 0 := by exact_mod_cast hN.ne'
  unfold grid
  have := cut_nat (N * m)
  push_cast at this
  rw [this, mul_div_cancel_left₀ _ hN']

theorem grid_nonneg {N : ℕ} {x : ℝ} (hx : 0 ≤ x) : 0 ≤ grid N x :=
  div_nonneg (cut_nonneg (mul_nonneg (Nat.cast_nonneg N) hx)) (Nat.cast_nonneg N)

theorem grid_mono (N : ℕ) : Monotone (grid N) := fun _ _ h =>
  div_le_div_of_nonneg_right (cut_mono (mul_le_mul_of_nonneg_left h (Nat.cast_nonneg N))) (Nat.cast_nonneg N)

/-- An arithmetic that rounds with these steps. -/
noncomputable def gridArith (N : ℕ) : FlArith := ⟨grid N, 2 ^ 53 * N, fun x => grid N (Real.exp x), fun y => grid N (Real.log y)⟩

theorem gridArith_ieee {N : ℕ} (hN : 0 < N) : Ieee (gridArith N) where
  mono := grid_mono N
  neg x := by
    show grid N (-x) = -grid N x
    unfold grid
    rw [mul_neg, cut_neg, neg_div]
  idem := grid_idem hN
  nat m _ := grid_nat hN m
  big := le_mul_of_one_le_right (by positivity) (by exact_mod_cast hN)
  big_rd := by
    show grid N (2 ^ 53 * N) = 2 ^ 53 * N
    have := grid_nat hN (2 ^ 53 * N)
    rwa [Nat.cast_mul, Nat.cast_pow, Nat.cast_ofNat] at this
  exp_zero := by
    show grid N (Real.exp 0) = 1
    rw [Real.exp_zero]
    simpa using grid_nat hN 1
  exp_range x hx := by
    refine ⟨grid_nonneg (Real.exp_pos x).le, ?_⟩
    have := grid_mono N (Real.exp_le_one_iff.2 hx)
    rwa [show grid N 1 = 1 by simpa using grid_nat hN 1] at this
  exp_rd x := grid_idem hN _
  log_nonneg y h := grid_nonneg (Real.log_nonneg h)

theorem gridArith_accurate {N : ℕ} (hN : 0 < N) : Accurate (gridArith N) (1 / N) where
  nonneg := by positivity
  rd x := (grid_acc hN x).trans (le_mul_of_one_le_right (by positivity) (by linarith [abs_nonneg x]))
  exp x _ := (grid_acc hN _).trans (le_mul_of_one_le_right (by positivity) (by linarith [Real.exp_pos x]))
  log y _ := (grid_acc hN _).trans (le_mul_of_one_le_right (by positivity) (by linarith [abs_nonneg (Real.log y)]))
  log_small y hy e := by
    have hN' : (1 : ℝ) ≤ N := by exact_mod_cast hN
    have hN0 : (N : ℝ) ≠ 0 := by linarith
    have e1 : cut (N * y) = N * y := by
      have e2 : cut (N * y) / N = y := e
      rw [div_eq_iff hN0] at e2
      linarith
    have h1 := cut_ge (mul_pos (by linarith) hy) e1
    have h2 := Real.log_le_log (by norm_num) h1
    rw [Real.log_mul hN0 hy.ne', show (1 : ℝ) / 4503599627370496 = (2 ^ 52)⁻¹ by norm_num, Real.log_inv, Real.log_pow] at h2
    have h3 := Real.log_le_sub_one_of_pos (x := 2) (by norm_num)
    have h4 := Real.log_le_sub_one_of_pos (x := (N : ℝ)) (by linarith)
    show -((2 : ℝ) ^ 53 * N / 8) ≤ _
    push_cast at h2
    norm_num at h2 h3 ⊢
    linarith

/-- Non-vacuity of C138_boltzmann and C138_law: there are accurate enough arithmetics for every tolerance. One spin, energy `s₀`. -/
example (δ : ℝ) (hδ : 0 < δ) : ∃ (A : FlArith) (K : ℕ), ∀ k, K ≤ k → ∀ s ∈ words [1, -1] 1,
    |expectation (fun r => ((r.1.getD 0 0 : ℤ) : ℝ)) (metroRunFl A (fun s => .num ((s.getD 0 0 : ℤ) : ℝ)) 1 false k
      (s, .num ((s.getD 0 0 : ℤ) : ℝ))) - expect (words [1, -1] 1) (fun s => ((s.getD 0 0 : ℤ) : ℝ)) (fun s => ((s.getD 0 0 : ℤ) : ℝ))| ≤
      δ := by
  have hw : ∀ s ∈ words [1, -1] 1, s.getD 0 0 = 1 ∨ s.getD 0 0 = -1 := by decide
  have hw1 : ∀ s ∈ words [1, -1] 1, |((s.getD 0 0 : ℤ) : ℝ)| ≤ 1 := fun s hs => by rcases hw s hs with e | e <;> rw [e] <;> norm_num
  obtain ⟨ε₀, K, h0, hK⟩ := C138_boltzmann 1 one_pos (fun s => ((s.getD 0 0 : ℤ) : ℝ))
    ⟨[1], by decide, [-1], by decide, by norm_num⟩ (fun s => ((s.getD 0 0 : ℤ) : ℝ)) hw1 δ hδ
  obtain ⟨N, hN⟩ := exists_nat_gt (max 13 (13 / ε₀))
  have hN1 : (13 : ℝ) < N := (le_max_left _ _).trans_lt hN
  have hN2 : 13 / ε₀ < N := (le_max_right _ _).trans_lt hN
  have hNp : 0 < N := by exact_mod_cast (by linarith : (0 : ℝ) < N)
  have hNr : (0 : ℝ) < N := by exact_mod_cast hNp
  have hI := gridArith_ieee hNp
  have hrd : ∀ m : ℕ, (gridArith N).rd m = m := grid_nat hNp
  refine ⟨gridArith N, K, fun k hk s hs => hK (gridArith N) (1 / N) 1 0 _ hI (gridArith_accurate hNp) (fun s hs => ?_) ?_ ?_ ?_ k hk s hs⟩
  · refine ⟨_, rfl, ?_, hw1 s hs, by simp⟩
    rcases hw s hs with e | e <;> rw [e]
    · exact_mod_cast hrd 1
    · rw [show ((-1 : ℤ) : ℝ) = -(1 : ℕ) by norm_num, hI.neg, hrd]
  · have := hI.big
    norm_num at this ⊢
    linarith
  · rw [one_div, inv_mul_le_iff₀ hNr]
    linarith
  · rw [div_lt_iff₀ h0] at hN2
    rw [mul_zero, add_zero, one_div, inv_mul_le_iff₀ hNr]
    linarith

/-- Non-vacuity of C138_ising_rate: two spins; after sufficiently many iterations the average of the first spin is right up to any
tolerance. -/
example (δ : ℝ) (hδ : 0 < δ) : ∃ (A : FlArith) (K : ℕ), ∀ k, K ≤ k → ∀ s ∈ words [1, -1] 2,
    |expectation (fun r => ((r.1.getD 0 0 : ℤ) : ℝ)) (metroRunFl A (isingCalcERowFl A (.node (.leaf 0) (.leaf 1)) ([1, 0, -2].map .num))
      2 false k (s, isingCalcERowFl A (.node (.leaf 0) (.leaf 1)) ([1, 0, -2].map .num) s)) -
        expect (words [1, -1] 2) (fun t => isingVecE 2 [1, 0] [-2] (spins t)) (fun s => ((s.getD 0 0 : ℤ) : ℝ))| ≤ δ := by
  have hw : ∀ s ∈ words [1, -1] 2, s.getD 0 0 = 1 ∨ s.getD 0 0 = -1 := by decide
  have hw1 : ∀ s ∈ words [1, -1] 2, |((s.getD 0 0 : ℤ) : ℝ)| ≤ 1 := fun s hs => by rcases hw s hs with e | e <;> rw [e] <;> norm_num
  obtain ⟨r, h1, h2⟩ := C138_ising_rate 2 2 (by norm_num) [1, 0, -2] rfl (by
      intro v hv
      simp only [List.mem_cons, List.not_mem_nil, or_false] at hv
      rcases hv with rfl | rfl | rfl <;> norm_num) ⟨1, by simp, by norm_num⟩ (by norm_num) (fun s => ((s.getD 0 0 : ℤ) : ℝ)) hw1
  obtain ⟨K, hK⟩ := Filter.eventually_atTop.1 (h1.eventually (gt_mem_nhds (half_pos hδ)))
  obtain ⟨N, hN⟩ := exists_nat_gt (max 22 (K * 160 / (δ / 2)))
  have hN1 : (22 : ℝ) < N := (le_max_left _ _).trans_lt hN
  have hN2 : K * 160 / (δ / 2) < N := (le_max_right _ _).trans_lt hN
  have hNp : 0 < N := by exact_mod_cast (by linarith : (0 : ℝ) < N)
  have hNr : (0 : ℝ) < N := by exact_mod_cast hNp
  have hI := gridArith_ieee hNp
  have hrd : ∀ m : ℕ, (gridArith N).rd m = m := grid_nat hNp
  refine ⟨gridArith N, K, fun k hk s hs => (h2 (gridArith N) (1 / N) hI (gridArith_accurate hNp) (fun v hv => ?_) ?_ _ two_adds K k hk s
    hs).trans ?_⟩
  · simp only [List.mem_cons, List.not_mem_nil, or_false] at hv
    rcases hv with rfl | rfl | rfl
    · exact_mod_cast hrd 1
    · exact_mod_cast hrd 0
    · rw [hI.neg]
      exact congrArg Neg.neg (by exact_mod_cast hrd 2)
  · rw [one_div, inv_mul_le_iff₀ hNr, show ((2 * (2 + 2 * (2 - 1) / 2) : ℕ) : ℝ) = 6 by norm_num]
    linarith
  · have h3 := hK K le_rfl
    have h4 : (K : ℝ) * (2 * (1 / N * (5 * ((2 * (2 + 2 * (2 - 1) / 2) : ℕ) : ℝ) + 8) +
        2 * (1 / N * (((2 * (2 + 2 * (2 - 1) / 2) : ℕ) : ℝ) + 1) * ((2 + 2 * (2 - 1) / 2 : ℕ) : ℝ)))) = K * 160 / N := by
      norm_num
      ring
    rw [h4]
    have h5 : K * 160 / (N : ℝ) ≤ δ / 2 := by
      rw [div_lt_iff₀ (half_pos hδ)] at hN2
      rw [div_le_iff₀ hNr]
      linarith
    linarith

end Verif.Props
