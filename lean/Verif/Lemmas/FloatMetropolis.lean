/-
Rounding errors of Metropolis steps.
-/
import Verif.Lemmas.FloatMch
import Verif.Lemmas.Metropolis
import Verif.Model.FloatMetropolis

namespace Verif.Lemmas
open Verif Verif.Model Verif.Spec FlArith

variable {A : FlArith} {ε : ℝ}

theorem min_one_exp_lip (a b : ℝ) : |min 1 (Real.exp (-a)) - min 1 (Real.exp (-b))| ≤ |a - b| := by
  have key : ∀ a : ℝ, min 1 (Real.exp (-a)) = Real.exp (-max a 0) := by
    intro a
    rcases le_total a 0 with h | h
    · rw [max_eq_right h, neg_zero, Real.exp_zero, min_eq_left (Real.one_le_exp (by linarith))]
    · rw [max_eq_left h, min_eq_right (Real.exp_le_one_iff.2 (by linarith))]
  rw [key, key]
  have h1 := exp_lip_le (a := -max a 0) (b := -max b 0) (c := 0) (by simp) (by simp)
  rw [Real.exp_zero, one_mul] at h1
  refine h1.trans ?_
  rw [neg_sub_neg, abs_sub_comm]
  exact abs_max_sub_max_le_abs a b 0

/-- The change of energy and the new tracked energy. -/
theorem step_acc (h : Ieee A) (ha : Accurate A ε) {m x0 e1 : ℝ} (hm : m ≤ A.big / 8) (hε : ε * (3 * m + 4) ≤ 1)
    (hx0 : |x0| ≤ m + 1) (he1 : |e1| ≤ m) :
    ∃ de, A.sub (.num e1) (.num x0) = .num de ∧ |de - (e1 - x0)| ≤ ε * (2 * m + 2) ∧
      ∃ x1, A.add (.num x0) (.num de) = .num x1 ∧ A.rd x1 = x1 ∧ |x1 - e1| ≤ ε * (3 * m + 4) := by
  have hε0 := ha.nonneg
  have hm0 : 0 ≤ m := (abs_nonneg _).trans he1
  have hbig : (2 : ℝ) ^ 53 ≤ A.big := h.big
  have hεm : 0 ≤ ε * m := by positivity
  obtain ⟨a1, a2⟩ := abs_le.1 hx0
  obtain ⟨b1, b2⟩ := abs_le.1 he1
  have hd : |e1 - x0| ≤ 2 * m + 1 := abs_le.2 ⟨by linarith, by linarith⟩
  have hde := ha.rd (e1 - x0)
  have hde' : ε * (|e1 - x0| + 1) ≤ ε * (2 * m + 2) := mul_le_mul_of_nonneg_left (by linarith) hε0
  refine ⟨A.rd (e1 - x0), ?_, hde.trans hde', A.rd (x0 + A.rd (e1 - x0)), ?_, h.idem _, ?_⟩
  · show A.round (e1 + -x0) = _
    rw [← sub_eq_add_neg]
    refine IeeeK.round_num h (rd_le_big h ?_)
    norm_num at hbig
    linarith
  all_goals
    obtain ⟨c1, c2⟩ := abs_le.1 (hde.trans hde')
    have hs : |x0 + A.rd (e1 - x0)| ≤ m + 1 := abs_le.2 ⟨by linarith, by linarith⟩
  · refine IeeeK.round_num h (rd_le_big h ?_)
    norm_num at hbig
    linarith
  · have h1 := ha.rd (x0 + A.rd (e1 - x0))
    have h2 : ε * (|x0 + A.rd (e1 - x0)| + 1) ≤ ε * (m + 2) := mul_le_mul_of_nonneg_left (by linarith) hε0
    obtain ⟨d1, d2⟩ := abs_le.1 (h1.trans h2)
    rw [abs_le]
    constructor <;> linarith

/-- The number, or 0 if it is infinite or NaN. -/
def flNum : Fl → ℝ
  | .num x => x
  | _ => 0

/-- The energies that are computed are numbers of the format not larger than `m`. -/
def CalcOk (A : FlArith) (calcE : List ℤ → Fl) (S : List (List ℤ)) (m : ℝ) : Prop :=
  ∀ s ∈ S, calcE s = .num (flNum (calcE s)) ∧ A.rd (flNum (calcE s)) = flNum (calcE s) ∧ |flNum (calcE s)| ≤ m

/-- The energy that is tracked is near the energy computed for the state. -/
def Tracks (A : FlArith) (ε m : ℝ) (calcE : List ℤ → Fl) (S : List (List ℤ)) (st : List ℤ × Fl) : Prop :=
  st.1 ∈ S ∧ ∃ x, st.2 = .num x ∧ A.rd x = x ∧ |x - flNum (calcE st.1)| ≤ ε * (3 * m + 4)

theorem tracks_bound {m : ℝ} {calcE : List ℤ → Fl} {S : List (List ℤ)} {s : List ℤ} {x : ℝ} (hc : CalcOk A calcE S m)
    (hε : ε * (3 * m + 4) ≤ 1) (hs : s ∈ S) (hx : |x - flNum (calcE s)| ≤ ε * (3 * m + 4)) : |x| ≤ m + 1 := by
  have h1 := abs_add_le (x - flNum (calcE s)) (flNum (calcE s))
  rw [sub_add_cancel] at h1
  linarith [(hc s hs).2.2]

theorem returns_sampleMetropolisFl (h : Ieee A) (ha : Accurate A ε) {m : ℝ} {calcE : List ℤ → Fl} (n : ℕ)
    (hc : CalcOk A calcE (words [1, -1] n) m) (hm : m ≤ A.big / 8) (hε : ε * (3 * m + 4) ≤ 1) (i : ℕ) (hi : i < n)
    (st : List ℤ × Fl) (hst : Tracks A ε m calcE (words [1, -1] n) st) :
    Returns ((sampleMetropolisFl A calcE (some i) st.1 st.2).bind fun r => .ret (r.1, A.add st.2 r.2))
      (Tracks A ε m calcE (words [1, -1] n)) := by
  obtain ⟨s, E0⟩ := st
  obtain ⟨hs, x, rfl, hrd, hx⟩ := hst
  dsimp only at hs hx ⊢
  have hl := (mem_words.1 hs).1
  have hs1 : negAt s i ∈ words [1, -1] n := by rw [negAt_eq]; exact flip_mem_words n i s hs
  have hxm := tracks_bound hc hε hs hx
  obtain ⟨e1, e2, e3⟩ := hc _ hs1
  obtain ⟨de, d1, -, x1, d3, d4, d5⟩ := step_acc h ha hm hε hxm e3
  have hacc : Tracks A ε m calcE (words [1, -1] n) (negAt s i, A.add (.num x) (.num de)) := ⟨hs1, x1, d3, d4, d5⟩
  have hrej : Tracks A ε m calcE (words [1, -1] n) (s, A.add (.num x) (.num 0)) := by
    refine ⟨hs, x, ?_, hrd, hx⟩
    show A.round (x + 0) = _
    rw [add_zero]
    have hbig : (2 : ℝ) ^ 53 ≤ A.big := h.big
    rw [IeeeK.round_num h (rd_le_big h (by norm_num at hbig; linarith)), hrd]
  unfold sampleMetropolisFl chooseSite
  simp only [Prog.bind, if_pos (show i < s.length by rw [hl]; exact hi), negAt_negAt]
  rw [e1, d1]
  split
  · intro u _ _
    dsimp only
    split
    · exact ⟨_, rfl, hrej⟩
    · exact ⟨_, rfl, hacc⟩
  · exact ⟨_, rfl, hacc⟩

theorem returns_metroRunFl (h : Ieee A) (ha : Accurate A ε) {m : ℝ} {calcE : List ℤ → Fl} (n : ℕ) (hn : 0 < n)
    (hc : CalcOk A calcE (words [1, -1] n) m) (hm : m ≤ A.big / 8) (hε : ε * (3 * m + 4) ≤ 1) (systematic : Bool) (k : ℕ)
    (st : List ℤ × Fl) (hst : Tracks A ε m calcE (words [1, -1] n) st) :
    Returns (metroRunFl A calcE n systematic k st) (Tracks A ε m calcE (words [1, -1] n)) := by
  refine returns_forEach _ (fun j _ s hs => ?_) st hst
  unfold metroIterFl siteArg
  have key := fun i hi => returns_sampleMetropolisFl h ha n hc hm hε i hi s hs
  cases systematic
  · have e : ∀ (t : List ℤ) (E0 : Fl), sampleMetropolisFl A calcE none t E0 =
        (Prog.randint t.length).bind fun i => sampleMetropolisFl A calcE (some i) t E0 := fun _ _ => rfl
    simp only [Bool.false_eq_true, if_false, Prog.ofPy, Prog.bind, e, bind_assoc, (mem_words.1 hs.1).1]
    exact returns_randint n hn _ key
  · simp only [if_true, if_neg hn.ne', Prog.ofPy, Prog.bind]
    exact key _ (Nat.mod_lt _ hn)

/-- One step in floating-point arithmetic: a state and energy after acceptance and one after rejection, and the probability of
acceptance. -/
theorem step_law (h : Ieee A) (ha : Accurate A ε) {m κ : ℝ} {calcE : List ℤ → Fl} (E : List ℤ → ℝ) (n : ℕ)
    (hc : CalcOk A calcE (words [1, -1] n) m) (hκ : ∀ s ∈ words [1, -1] n, |flNum (calcE s) - E s| ≤ κ) (hm : m ≤ A.big / 8)
    (hε : ε * (3 * m + 4) ≤ 1) (i : ℕ) (hi : i < n) (st : List ℤ × Fl) (hst : Tracks A ε m calcE (words [1, -1] n) st) :
    ∃ (a : ℝ) (x y : List ℤ × Fl), 0 ≤ a ∧ a ≤ 1 ∧
      |a - min 1 (Real.exp (-(E (negAt st.1 i) - E st.1)))| ≤ ε * (5 * m + 8) + 2 * κ ∧
      Tracks A ε m calcE (words [1, -1] n) x ∧ x.1 = negAt st.1 i ∧ Tracks A ε m calcE (words [1, -1] n) y ∧ y.1 = st.1 ∧
      ∀ g : List ℤ × Fl → ℝ, expectation g ((sampleMetropolisFl A calcE (some i) st.1 st.2).bind fun r =>
        .ret (r.1, A.add st.2 r.2)) = a * g x + (1 - a) * g y := by
  have hε0 := ha.nonneg
  obtain ⟨s, E0⟩ := st
  obtain ⟨hs, x, rfl, hrd, hx⟩ := hst
  dsimp only at hs hx ⊢
  have hl := (mem_words.1 hs).1
  have hs1 : negAt s i ∈ words [1, -1] n := by rw [negAt_eq]; exact flip_mem_words n i s hs
  have hxm := tracks_bound hc hε hs hx
  obtain ⟨e1, e2, e3⟩ := hc _ hs1
  obtain ⟨de, d1, d2, x1, d3, d4, d5⟩ := step_acc h ha hm hε hxm e3
  have hbig : (2 : ℝ) ^ 53 ≤ A.big := h.big
  norm_num at hbig
  have hacc : Tracks A ε m calcE (words [1, -1] n) (negAt s i, A.add (.num x) (.num de)) := ⟨hs1, x1, d3, d4, d5⟩
  have hrej : Tracks A ε m calcE (words [1, -1] n) (s, A.add (.num x) (.num 0)) := by
    refine ⟨hs, x, ?_, hrd, hx⟩
    show A.round (x + 0) = _
    rw [add_zero, IeeeK.round_num h (rd_le_big h (by linarith)), hrd]
  have hde : |de - (E (negAt s i) - E s)| ≤ ε * (5 * m + 6) + 2 * κ := by
    obtain ⟨a1, a2⟩ := abs_le.1 d2
    obtain ⟨b1, b2⟩ := abs_le.1 (hκ _ hs1)
    obtain ⟨c1, c2⟩ := abs_le.1 (hκ _ hs)
    obtain ⟨g1, g2⟩ := abs_le.1 hx
    rw [abs_le]
    constructor <;> linarith
  have hlip := (min_one_exp_lip de (E (negAt s i) - E s)).trans hde
  by_cases hpos : 0 < de
  · have hexp := h.exp_range (-de) (by linarith)
    have h1 : Real.exp (-de) ≤ 1 := Real.exp_le_one_iff.2 (by linarith)
    refine ⟨A.expf (-de), _, _, hexp.1, hexp.2, ?_, hacc, rfl, hrej, rfl, fun g => ?_⟩
    · rw [min_eq_right h1] at hlip
      have h2 := (ha.exp (-de) (by linarith)).trans (mul_le_mul_of_nonneg_left (show Real.exp (-de) + 1 ≤ 2 by linarith) hε0)
      refine (abs_sub_le _ (Real.exp (-de)) _).trans ?_
      linarith
    · have e4 : A.exp (neg (.num de)) = .num (A.expf (-de)) := by
        show (if A.big < A.expf (-de) then _ else _) = _
        rw [if_neg]
        linarith [hexp.2]
      unfold sampleMetropolisFl chooseSite
      simp only [Prog.bind, if_pos (show i < s.length by rw [hl]; exact hi), negAt_negAt]
      rw [e1, d1, if_pos (by simpa [lt] using hpos)]
      simp only [Prog.bind]
      have e5 : (Prog.rand fun u => (if lt (A.exp (neg (.num de))) (.num u) = true then Prog.ret (s, Fl.num 0)
          else Prog.ret (negAt s i, Fl.num de)).bind fun r => Prog.ret (r.1, A.add (.num x) r.2)) =
          Prog.rand fun u => if u > A.expf (-de) then Prog.ret (s, A.add (.num x) (.num 0)) else
            Prog.ret (negAt s i, A.add (.num x) (.num de)) := by
        rw [e4]
        congr 1
        funext u
        simp only [lt, decide_eq_true_eq, gt_iff_lt]
        split <;> rfl
      rw [e5, expectation_rand_gt _ _ _ _ hexp.1 hexp.2]
      simp only [expectation_ret]
      ring
  · refine ⟨1, _, _, by norm_num, le_rfl, ?_, hacc, rfl, hrej, rfl, fun g => ?_⟩
    · rw [min_eq_left (Real.one_le_exp (by linarith))] at hlip
      linarith
    · unfold sampleMetropolisFl chooseSite
      simp only [Prog.bind, if_pos (show i < s.length by rw [hl]; exact hi), negAt_negAt]
      rw [e1, d1, if_neg (by simpa [lt] using hpos)]
      simp only [Prog.bind, expectation_ret]
      ring

/-- Two mixtures. -/
theorem mixture_close {a p gx gy ux uy d c : ℝ} (ha0 : 0 ≤ a) (ha1 : a ≤ 1) (hap : |a - p| ≤ d) (hx : |gx - ux| ≤ c)
    (hy : |gy - uy| ≤ c) (hux : |ux| ≤ 1) (huy : |uy| ≤ 1) :
    |a * gx + (1 - a) * gy - (p * ux + (1 - p) * uy)| ≤ c + 2 * d := by
  have e : a * gx + (1 - a) * gy - (p * ux + (1 - p) * uy) = a * (gx - ux) + (1 - a) * (gy - uy) + (a - p) * (ux - uy) := by ring
  rw [e]
  refine (abs_add_le _ _).trans ?_
  have h1 := abs_add_le (a * (gx - ux)) ((1 - a) * (gy - uy))
  rw [abs_mul, abs_mul, abs_of_nonneg ha0, abs_of_nonneg (by linarith : 0 ≤ 1 - a)] at h1
  have h2 : a * |gx - ux| ≤ a * c := mul_le_mul_of_nonneg_left hx ha0
  have h3 : (1 - a) * |gy - uy| ≤ (1 - a) * c := mul_le_mul_of_nonneg_left hy (by linarith)
  have h4 : |ux - uy| ≤ 2 := by
    obtain ⟨a1, a2⟩ := abs_le.1 hux
    obtain ⟨b1, b2⟩ := abs_le.1 huy
    exact abs_le.2 ⟨by linarith, by linarith⟩
  have h5 : |(a - p) * (ux - uy)| ≤ d * 2 := by
    rw [abs_mul]
    exact mul_le_mul hap h4 (abs_nonneg _) ((abs_nonneg _).trans hap)
  linarith

theorem average_close {n : ℕ} (hn : 0 < n) (g u : ℕ → ℝ) (c : ℝ) (h : ∀ i < n, |g i - u i| ≤ c) :
    |(∑ i ∈ Finset.range n, g i) / n - (∑ i ∈ Finset.range n, u i) / n| ≤ c := by
  have hn' : (0 : ℝ) < n := by exact_mod_cast hn
  rw [← sub_div, ← Finset.sum_sub_distrib, abs_div, abs_of_pos hn', div_le_iff₀ hn']
  refine (Finset.abs_sum_le_sum_abs _ _).trans ?_
  refine (Finset.sum_le_sum fun i hi => h i (Finset.mem_range.1 hi)).trans ?_
  rw [Finset.sum_const, Finset.card_range, nsmul_eq_mul, mul_comm]

/-- The runs in floating-point arithmetic and in real numbers. -/
theorem run_law (h : Ieee A) (ha : Accurate A ε) {m κ : ℝ} {calcE : List ℤ → Fl} (E : List ℤ → ℝ) (n : ℕ) (hn : 0 < n)
    (hc : CalcOk A calcE (words [1, -1] n) m) (hκ : ∀ s ∈ words [1, -1] n, |flNum (calcE s) - E s| ≤ κ) (hm : m ≤ A.big / 8)
    (hε : ε * (3 * m + 4) ≤ 1) (systematic : Bool) (f : List ℤ → ℝ) (hf : ∀ s ∈ words [1, -1] n, |f s| ≤ 1) (l : List ℕ) :
    ∀ st : List ℤ × Fl, Tracks A ε m calcE (words [1, -1] n) st →
      |expectation (fun r => f r.1) (Prog.forEach (metroIterFl A calcE n systematic) l st) -
        expectation (fun r => f r.1) (Prog.forEach (metroIter (sampleMetropolis E) n systematic) l (st.1, E st.1))| ≤
        l.length * (2 * (ε * (5 * m + 8) + 2 * κ)) ∧
      |expectation (fun r => f r.1) (Prog.forEach (metroIter (sampleMetropolis E) n systematic) l (st.1, E st.1))| ≤ 1 := by
  induction l with
  | nil =>
    intro st hst
    simp only [Prog.forEach, expectation_ret, sub_self, abs_zero, List.length_nil, Nat.cast_zero, zero_mul, le_refl, true_and]
    exact hf _ hst.1
  | cons j l ih =>
    intro st hst
    have key : ∀ i < n,
        |expectation (fun r => expectation (fun r => f r.1) (Prog.forEach (metroIterFl A calcE n systematic) l r))
            ((sampleMetropolisFl A calcE (some i) st.1 st.2).bind fun r => .ret (r.1, A.add st.2 r.2)) -
          expectation (fun r => expectation (fun r => f r.1) (Prog.forEach (metroIter (sampleMetropolis E) n systematic) l r))
            ((sampleMetropolis E (some i) st.1 (E st.1)).bind fun r => .ret (r.1, E st.1 + r.2))| ≤
          ((j :: l).length : ℕ) * (2 * (ε * (5 * m + 8) + 2 * κ)) ∧
        |expectation (fun r => expectation (fun r => f r.1) (Prog.forEach (metroIter (sampleMetropolis E) n systematic) l r))
            ((sampleMetropolis E (some i) st.1 (E st.1)).bind fun r => .ret (r.1, E st.1 + r.2))| ≤ 1 := by
      intro i hi
      obtain ⟨a, x, y, a0, a1, a2, hx, hx1, hy, hy1, hg⟩ := step_law h ha E n hc hκ hm hε i hi st hst
      obtain ⟨ix1, ix2⟩ := ih x hx
      obtain ⟨iy1, iy2⟩ := ih y hy
      rw [hx1] at ix1 ix2
      rw [hy1] at iy1 iy2
      rw [hg, expectation_bind, expectation_metropolis E _ i st.1 (E st.1) (by rw [(mem_words.1 hst.1).1]; exact hi)]
      simp only [expectation_ret, add_sub_cancel, add_zero]
      have hp0 : 0 ≤ min 1 (Real.exp (-(E (negAt st.1 i) - E st.1))) := le_min (by norm_num) (Real.exp_pos _).le
      have hp1 : min 1 (Real.exp (-(E (negAt st.1 i) - E st.1))) ≤ 1 := min_le_left _ _
      refine ⟨?_, ?_⟩
      · refine (mixture_close a0 a1 a2 ix1 iy1 ix2 iy2).trans (le_of_eq ?_)
        rw [List.length_cons]
        push_cast
        ring
      · have h1 := abs_add_le (min 1 (Real.exp (-(E (negAt st.1 i) - E st.1))) *
            expectation (fun r => f r.1) (Prog.forEach (metroIter (sampleMetropolis E) n systematic) l (negAt st.1 i, E (negAt st.1 i))))
          ((1 - min 1 (Real.exp (-(E (negAt st.1 i) - E st.1)))) *
            expectation (fun r => f r.1) (Prog.forEach (metroIter (sampleMetropolis E) n systematic) l (st.1, E st.1)))
        rw [abs_mul, abs_mul, abs_of_nonneg hp0, abs_of_nonneg (sub_nonneg.2 hp1)] at h1
        have h2 := mul_le_mul_of_nonneg_left ix2 hp0
        have h3 := mul_le_mul_of_nonneg_left iy2 (sub_nonneg.2 hp1)
        linarith
    have c1 : expectation (fun r => f r.1) (Prog.forEach (metroIterFl A calcE n systematic) (j :: l) st) =
        expectation (fun r => expectation (fun r => f r.1) (Prog.forEach (metroIterFl A calcE n systematic) l r))
          (metroIterFl A calcE n systematic j st) := expectation_bind _ _ _
    have c2 : expectation (fun r => f r.1) (Prog.forEach (metroIter (sampleMetropolis E) n systematic) (j :: l) (st.1, E st.1)) =
        expectation (fun r => expectation (fun r => f r.1) (Prog.forEach (metroIter (sampleMetropolis E) n systematic) l r))
          (metroIter (sampleMetropolis E) n systematic j (st.1, E st.1)) := expectation_bind _ _ _
    rw [c1, c2]
    cases systematic
    · have e : metroIterFl A calcE n false j st = (Prog.randint n).bind fun i =>
          (sampleMetropolisFl A calcE (some i) st.1 st.2).bind fun r => .ret (r.1, A.add st.2 r.2) := by
        conv_rhs => rw [← (mem_words.1 hst.1).1]
        exact bind_assoc (Prog.randint st.1.length) (fun i => sampleMetropolisFl A calcE (some i) st.1 st.2) _
      have e' : metroIter (sampleMetropolis E) n false j (st.1, E st.1) = (Prog.randint n).bind fun i =>
          (sampleMetropolis E (some i) st.1 (E st.1)).bind fun r => .ret (r.1, E st.1 + r.2) := by
        conv_rhs => rw [← (mem_words.1 hst.1).1]
        exact bind_assoc (Prog.randint st.1.length) (fun i => sampleMetropolis E (some i) st.1 (E st.1)) _
      rw [e, e', expectation_randint _ n hn, expectation_randint _ n hn]
      refine ⟨average_close hn _ _ _ fun i hi => (key i hi).1, ?_⟩
      have := average_close hn (fun i => expectation (fun r => expectation (fun r => f r.1)
        (Prog.forEach (metroIter (sampleMetropolis E) n false) l r))
            ((sampleMetropolis E (some i) st.1 (E st.1)).bind fun r => .ret (r.1, E st.1 + r.2))) (fun _ => 0) 1
        fun i hi => by rw [sub_zero]; exact (key i hi).2
      rwa [Finset.sum_const_zero, zero_div, sub_zero] at this
    · have e : metroIterFl A calcE n true j st =
          (sampleMetropolisFl A calcE (some (j % n)) st.1 st.2).bind fun r => .ret (r.1, A.add st.2 r.2) := by
        unfold metroIterFl siteArg
        rw [if_pos rfl, if_neg hn.ne']
        rfl
      have e' : metroIter (sampleMetropolis E) n true j (st.1, E st.1) =
          (sampleMetropolis E (some (j % n)) st.1 (E st.1)).bind fun r => .ret (r.1, E st.1 + r.2) := by
        unfold metroIter siteArg
        rw [if_pos rfl, if_neg hn.ne']
        rfl
      rw [e, e']
      exact key _ (Nat.mod_lt _ hn)

/-- What holds of the last iterations, whatever the tracked state before them, holds after more iterations. -/
theorem run_longer (h : Ieee A) (ha : Accurate A ε) {m : ℝ} {calcE : List ℤ → Fl} (n : ℕ) (hn : 0 < n)
    (hc : CalcOk A calcE (words [1, -1] n) m) (hm : m ≤ A.big / 8) (hε : ε * (3 * m + 4) ≤ 1) (f : List ℤ → ℝ) (l' : List ℕ) (c δ : ℝ)
    (hl : ∀ st : List ℤ × Fl, Tracks A ε m calcE (words [1, -1] n) st →
      |expectation (fun r => f r.1) (Prog.forEach (metroIterFl A calcE n false) l' st) - c| ≤ δ) (l : List ℕ) :
    ∀ st : List ℤ × Fl, Tracks A ε m calcE (words [1, -1] n) st →
      |expectation (fun r => f r.1) (Prog.forEach (metroIterFl A calcE n false) (l ++ l') st) - c| ≤ δ := by
  induction l with
  | nil => exact hl
  | cons j l ih =>
    intro st hst
    have c1 : expectation (fun r => f r.1) (Prog.forEach (metroIterFl A calcE n false) (j :: l ++ l') st) =
        expectation (fun r => expectation (fun r => f r.1) (Prog.forEach (metroIterFl A calcE n false) (l ++ l') r))
          (metroIterFl A calcE n false j st) := expectation_bind _ _ _
    have e : metroIterFl A calcE n false j st = (Prog.randint n).bind fun i =>
        (sampleMetropolisFl A calcE (some i) st.1 st.2).bind fun r => .ret (r.1, A.add st.2 r.2) := by
      conv_rhs => rw [← (mem_words.1 hst.1).1]
      exact bind_assoc (Prog.randint st.1.length) (fun i => sampleMetropolisFl A calcE (some i) st.1 st.2) _
    rw [c1, e, expectation_randint _ n hn]
    have h1 := average_close hn (fun i => expectation (fun r => expectation (fun r => f r.1)
        (Prog.forEach (metroIterFl A calcE n false) (l ++ l') r))
          ((sampleMetropolisFl A calcE (some i) st.1 st.2).bind fun r => .ret (r.1, A.add st.2 r.2))) (fun _ => c) δ fun i hi => by
      obtain ⟨a, x, y, a0, a1, -, hx, -, hy, -, hg⟩ := step_law h ha (fun s => flNum (calcE s)) n hc (κ := 0)
        (fun s _ => by simp) hm hε i hi st hst
      rw [hg]
      have h2 : ∀ u v : ℝ, a * u + (1 - a) * v - c = a * (u - c) + (1 - a) * (v - c) := fun u v => by ring
      rw [h2]
      refine (abs_add_le _ _).trans ?_
      rw [abs_mul, abs_mul, abs_of_nonneg a0, abs_of_nonneg (sub_nonneg.2 a1)]
      have h3 := mul_le_mul_of_nonneg_left (ih x hx) a0
      have h4 := mul_le_mul_of_nonneg_left (ih y hy) (sub_nonneg.2 a1)
      linarith
    have hn' : (n : ℝ) ≠ 0 := by exact_mod_cast hn.ne'
    rwa [Finset.sum_const, Finset.card_range, nsmul_eq_mul, mul_div_cancel_left₀ _ hn'] at h1

end Verif.Lemmas
