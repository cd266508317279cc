/-
Rounding errors of Metropolis steps of the three-state Potts model.
-/
import Verif.Lemmas.FloatMetropolis
import Verif.Model.FloatPotts3

namespace Verif.Lemmas
open Verif Verif.Model Verif.Spec FlArith

variable {A : FlArith} {ε : ℝ}

theorem potts3_mem {n : ℕ} {s : List ℤ} (hs : s ∈ words [0, 1, 2] n) (i : ℕ) (k : ℤ) :
    s.set i ((s.getD i 0 + k) % 3) ∈ words [0, 1, 2] n := by
  refine set_mem_words hs ?_
  have := Int.emod_nonneg (s.getD i 0 + k) (by norm_num : (3 : ℤ) ≠ 0)
  have := Int.emod_lt_of_pos (s.getD i 0 + k) (by norm_num : (0 : ℤ) < 3)
  simp only [List.mem_cons, List.not_mem_nil, or_false]
  omega

theorem returns_samplePotts3Fl (h : Ieee A) (ha : Accurate A ε) {m : ℝ} {calcE : List ℤ → Fl} (n : ℕ)
    (hc : CalcOk A calcE (words [0, 1, 2] n) m) (hm : m ≤ A.big / 8) (hε : ε * (3 * m + 4) ≤ 1) (i : ℕ) (hi : i < n)
    (st : List ℤ × Fl) (hst : Tracks A ε m calcE (words [0, 1, 2] n) st) :
    Returns ((sampleMetropolisPotts3Fl A calcE (some i) st.1 st.2).bind fun r => .ret (r.1, A.add st.2 r.2))
      (fun r => Tracks A ε m calcE (words [0, 1, 2] n) r ∧ ∀ j, j ≠ i → r.1.getD j 0 = st.1.getD j 0) := by
  obtain ⟨s, E0⟩ := st
  obtain ⟨hs, x, rfl, hrd, hx⟩ := hst
  dsimp only at hs hx ⊢
  have hl := (mem_words.1 hs).1
  have hi' : i < s.length := by rw [hl]; exact hi
  have hxm := tracks_bound hc hε hs hx
  have hrej : Tracks A ε m calcE (words [0, 1, 2] n) (s, A.add (.num x) (.num 0)) := by
    refine ⟨hs, x, ?_, hrd, hx⟩
    show A.round (x + 0) = _
    rw [add_zero]
    have hbig : (2 : ℝ) ^ 53 ≤ A.big := h.big
    rw [IeeeK.round_num h (rd_le_big h (by norm_num at hbig; linarith)), hrd]
  unfold sampleMetropolisPotts3Fl chooseSite
  simp only [Prog.bind, if_pos hi']
  rw [bind_assoc]
  refine returns_randint 2 (by norm_num) _ fun r _ => ?_
  have hs1 := potts3_mem hs i (1 + (r : ℤ))
  obtain ⟨e1, e2, e3⟩ := hc _ hs1
  obtain ⟨de, d1, -, x1, d3, d4, d5⟩ := step_acc h ha hm hε hxm e3
  have hacc : Tracks A ε m calcE (words [0, 1, 2] n) (s.set i ((s.getD i 0 + (1 + (r : ℤ))) % 3), A.add (.num x) (.num de)) :=
    ⟨hs1, x1, d3, d4, d5⟩
  have hback : (s.set i ((s.getD i 0 + (1 + (r : ℤ))) % 3)).set i (s.getD i 0) = s := by
    rw [List.set_set, List.getD_eq_getElem _ _ hi', List.set_getElem_self]
  have hother : ∀ j, j ≠ i → (s.set i ((s.getD i 0 + (1 + (r : ℤ))) % 3)).getD j 0 = s.getD j 0 := by
    intro j hj
    simp only [List.getD_eq_getElem?_getD, List.getElem?_set_ne (Ne.symm hj)]
  simp only [hback]
  rw [e1, d1]
  split
  · intro u _ _
    dsimp only
    split
    · exact ⟨_, rfl, hrej, fun _ _ => rfl⟩
    · exact ⟨_, rfl, hacc, hother⟩
  · exact ⟨_, rfl, hacc, hother⟩

theorem returns_metroRunPotts3Fl (h : Ieee A) (ha : Accurate A ε) {m : ℝ} {calcE : List ℤ → Fl} (n : ℕ) (hn : 0 < n)
    (hc : CalcOk A calcE (words [0, 1, 2] n) m) (hm : m ≤ A.big / 8) (hε : ε * (3 * m + 4) ≤ 1) (systematic : Bool) (k : ℕ)
    (st : List ℤ × Fl) (hst : Tracks A ε m calcE (words [0, 1, 2] n) st) :
    Returns (metroRunPotts3Fl A calcE n systematic k st) (Tracks A ε m calcE (words [0, 1, 2] n)) := by
  refine returns_forEach _ (fun j _ s hs => ?_) st hst
  unfold metroIterPotts3Fl siteArg
  have key := fun i hi => returns_mono (fun _ hr => hr.1) (returns_samplePotts3Fl h ha n hc hm hε i hi s hs)
  cases systematic
  · have e : ∀ (t : List ℤ) (E0 : Fl), sampleMetropolisPotts3Fl A calcE none t E0 =
        (Prog.randint t.length).bind fun i => sampleMetropolisPotts3Fl A calcE (some i) t E0 := fun _ _ => rfl
    simp only [Bool.false_eq_true, if_false, Prog.ofPy, Prog.bind, e, bind_assoc, (mem_words.1 hs.1).1]
    exact returns_randint n hn _ key
  · simp only [if_true, if_neg hn.ne', Prog.ofPy, Prog.bind]
    exact key _ (Nat.mod_lt _ hn)

/-- The other state number `r` of site `i`. -/
def other (s : List ℤ) (i r : ℕ) : List ℤ := s.set i ((s.getD i 0 + (1 + (r : ℤ))) % 3)

/-- One step in floating-point arithmetic: a mixture over the two proposals and whether they are accepted. -/
theorem step_law3 (h : Ieee A) (ha : Accurate A ε) {m κ : ℝ} {calcE : List ℤ → Fl} (E : List ℤ → ℝ) (n : ℕ)
    (hc : CalcOk A calcE (words [0, 1, 2] n) m) (hκ : ∀ s ∈ words [0, 1, 2] n, |flNum (calcE s) - E s| ≤ κ) (hm : m ≤ A.big / 8)
    (hε : ε * (3 * m + 4) ≤ 1) (i : ℕ) (hi : i < n) (st : List ℤ × Fl) (hst : Tracks A ε m calcE (words [0, 1, 2] n) st) :
    ∃ (a : ℕ → ℝ) (x y : ℕ → List ℤ × Fl), (∀ r, 0 ≤ a r ∧ a r ≤ 1 ∧
      |a r - min 1 (Real.exp (-(E (other st.1 i r) - E st.1)))| ≤ ε * (5 * m + 8) + 2 * κ ∧
      Tracks A ε m calcE (words [0, 1, 2] n) (x r) ∧ (x r).1 = other st.1 i r ∧ Tracks A ε m calcE (words [0, 1, 2] n) (y r) ∧
      (y r).1 = st.1) ∧
      ∀ g : List ℤ × Fl → ℝ, expectation g ((sampleMetropolisPotts3Fl A calcE (some i) st.1 st.2).bind fun r =>
        .ret (r.1, A.add st.2 r.2)) = (∑ r ∈ Finset.range 2, (a r * g (x r) + (1 - a r) * g (y r))) / (2 : ℕ) := by
  have hε0 := ha.nonneg
  obtain ⟨s, E0⟩ := st
  obtain ⟨hs, x, rfl, hrd, hx⟩ := hst
  dsimp only at hs hx ⊢
  have hl := (mem_words.1 hs).1
  have hi' : i < s.length := by rw [hl]; exact hi
  have hxm := tracks_bound hc hε hs hx
  have hbig : (2 : ℝ) ^ 53 ≤ A.big := h.big
  norm_num at hbig
  have hrej : Tracks A ε m calcE (words [0, 1, 2] n) (s, A.add (.num x) (.num 0)) := by
    refine ⟨hs, x, ?_, hrd, hx⟩
    show A.round (x + 0) = _
    rw [add_zero, IeeeK.round_num h (rd_le_big h (by linarith)), hrd]
  have hback : ∀ r : ℕ, (s.set i ((s.getD i 0 + (1 + (r : ℤ))) % 3)).set i (s.getD i 0) = s := by
    intro r
    rw [List.set_set, List.getD_eq_getElem _ _ hi', List.set_getElem_self]
  have key : ∀ r : ℕ, ∃ (a : ℝ) (y z : List ℤ × Fl), (0 ≤ a ∧ a ≤ 1 ∧
      |a - min 1 (Real.exp (-(E (other s i r) - E s)))| ≤ ε * (5 * m + 8) + 2 * κ ∧
      Tracks A ε m calcE (words [0, 1, 2] n) y ∧ y.1 = other s i r ∧ Tracks A ε m calcE (words [0, 1, 2] n) z ∧ z.1 = s) ∧
      ∀ g : List ℤ × Fl → ℝ, expectation g ((if lt (.num 0) (A.sub (calcE (other s i r)) (.num x)) = true then
          Prog.rand fun u => if lt (A.exp (neg (A.sub (calcE (other s i r)) (.num x)))) (.num u) = true then .ret (s, .num 0)
            else .ret (other s i r, A.sub (calcE (other s i r)) (.num x))
        else .ret (other s i r, A.sub (calcE (other s i r)) (.num x))).bind fun r => .ret (r.1, A.add (.num x) r.2)) =
          a * g y + (1 - a) * g z := by
    intro r
    have hs1 : other s i r ∈ words [0, 1, 2] n := potts3_mem hs i (1 + (r : ℤ))
    obtain ⟨e1, e2, e3⟩ := hc _ hs1
    obtain ⟨de, d1, d2, x1, d3, d4, d5⟩ := step_acc h ha hm hε hxm e3
    have hacc : Tracks A ε m calcE (words [0, 1, 2] n) (other s i r, A.add (.num x) (.num de)) := ⟨hs1, x1, d3, d4, d5⟩
    have hde : |de - (E (other s i r) - E s)| ≤ ε * (5 * m + 6) + 2 * κ := by
      obtain ⟨a1, a2⟩ := abs_le.1 d2
      obtain ⟨b1, b2⟩ := abs_le.1 (hκ _ hs1)
      obtain ⟨c1, c2⟩ := abs_le.1 (hκ _ hs)
      obtain ⟨g1, g2⟩ := abs_le.1 hx
      rw [abs_le]
      constructor <;> linarith
    have hlip := (min_one_exp_lip de (E (other s i r) - E s)).trans hde
    rw [e1, d1]
    by_cases hpos : 0 < de
    · have hexp := h.exp_range (-de) (by linarith)
      have h1 : Real.exp (-de) ≤ 1 := Real.exp_le_one_iff.2 (by linarith)
      refine ⟨A.expf (-de), _, _, ⟨hexp.1, hexp.2, ?_, hacc, rfl, hrej, rfl⟩, fun g => ?_⟩
      · rw [min_eq_right h1] at hlip
        have h2 := (ha.exp (-de) (by linarith)).trans (mul_le_mul_of_nonneg_left (show Real.exp (-de) + 1 ≤ 2 by linarith) hε0)
        refine (abs_sub_le _ (Real.exp (-de)) _).trans ?_
        linarith
      · have e4 : A.exp (neg (.num de)) = .num (A.expf (-de)) := by
          show (if A.big < A.expf (-de) then _ else _) = _
          rw [if_neg]
          linarith [hexp.2]
        rw [if_pos (by simpa [lt] using hpos)]
        simp only [Prog.bind]
        have e5 : (Prog.rand fun u => (if lt (A.exp (neg (.num de))) (.num u) = true then Prog.ret (s, Fl.num 0)
            else Prog.ret (other s i r, Fl.num de)).bind fun r => Prog.ret (r.1, A.add (.num x) r.2)) =
            Prog.rand fun u => if u > A.expf (-de) then Prog.ret (s, A.add (.num x) (.num 0)) else
              Prog.ret (other s i r, A.add (.num x) (.num de)) := by
          rw [e4]
          congr 1
          funext u
          simp only [lt, decide_eq_true_eq, gt_iff_lt]
          split <;> rfl
        rw [e5, expectation_rand_gt _ _ _ _ hexp.1 hexp.2]
        simp only [expectation_ret]
        ring
    · refine ⟨1, _, _, ⟨by norm_num, le_rfl, ?_, hacc, rfl, hrej, rfl⟩, fun g => ?_⟩
      · rw [min_eq_left (Real.one_le_exp (by linarith))] at hlip
        linarith
      · rw [if_neg (by simpa [lt] using hpos)]
        simp only [Prog.bind, expectation_ret]
        ring
  choose a y z hk hg using key
  refine ⟨a, y, z, hk, fun g => ?_⟩
  unfold sampleMetropolisPotts3Fl chooseSite
  simp only [Prog.bind, if_pos hi', hback]
  rw [bind_assoc, expectation_randint _ 2 (by norm_num)]
  congr 1
  exact Finset.sum_congr rfl fun r _ => hg r g

/-- The runs in floating-point arithmetic and in real numbers, with updates at random sites. -/
theorem run_law3 (h : Ieee A) (ha : Accurate A ε) {m κ : ℝ} {calcE : List ℤ → Fl} (E : List ℤ → ℝ) (n : ℕ) (hn : 0 < n)
    (hc : CalcOk A calcE (words [0, 1, 2] n) m) (hκ : ∀ s ∈ words [0, 1, 2] n, |flNum (calcE s) - E s| ≤ κ) (hm : m ≤ A.big / 8)
    (hε : ε * (3 * m + 4) ≤ 1) (f : List ℤ → ℝ) (hf : ∀ s ∈ words [0, 1, 2] n, |f s| ≤ 1) (l : List ℕ) :
    ∀ st : List ℤ × Fl, Tracks A ε m calcE (words [0, 1, 2] n) st →
      |expectation (fun r => f r.1) (Prog.forEach (metroIterPotts3Fl A calcE n false) l st) -
        expectation (fun r => f r.1) (Prog.forEach (metroIter (sampleMetropolisPotts3 E) n false) l (st.1, E st.1))| ≤
        l.length * (2 * (ε * (5 * m + 8) + 2 * κ)) ∧
      |expectation (fun r => f r.1) (Prog.forEach (metroIter (sampleMetropolisPotts3 E) n false) l (st.1, E st.1))| ≤ 1 := by
  induction l with
  | nil =>
    intro st hst
    simp only [Prog.forEach, expectation_ret, sub_self, abs_zero, List.length_nil, Nat.cast_zero, zero_mul, le_refl, true_and]
    exact hf _ hst.1
  | cons j l ih =>
    intro st hst
    have key : ∀ i < n,
        |expectation (fun r => expectation (fun r => f r.1) (Prog.forEach (metroIterPotts3Fl A calcE n false) l r))
            ((sampleMetropolisPotts3Fl A calcE (some i) st.1 st.2).bind fun r => .ret (r.1, A.add st.2 r.2)) -
          expectation (fun r => expectation (fun r => f r.1) (Prog.forEach (metroIter (sampleMetropolisPotts3 E) n false) l r))
            ((sampleMetropolisPotts3 E (some i) st.1 (E st.1)).bind fun r => .ret (r.1, E st.1 + r.2))| ≤
          ((j :: l).length : ℕ) * (2 * (ε * (5 * m + 8) + 2 * κ)) ∧
        |expectation (fun r => expectation (fun r => f r.1) (Prog.forEach (metroIter (sampleMetropolisPotts3 E) n false) l r))
            ((sampleMetropolisPotts3 E (some i) st.1 (E st.1)).bind fun r => .ret (r.1, E st.1 + r.2))| ≤ 1 := by
      intro i hi
      obtain ⟨a, x, y, hk, hg⟩ := step_law3 h ha E n hc hκ hm hε i hi st hst
      rw [hg, expectation_bind, expectation_potts3 E _ i st.1 (E st.1) (by rw [(mem_words.1 hst.1).1]; exact hi)]
      simp only [expectation_ret, add_sub_cancel, add_zero]
      have two : ((2 : ℕ) : ℝ) = 2 := by norm_num
      rw [← two]
      refine ⟨average_close (n := 2) (by norm_num) _ _ _ fun r _ => ?_, ?_⟩
      · obtain ⟨a0, a1, a2, hx, hx1, hy, hy1⟩ := hk r
        obtain ⟨ix1, ix2⟩ := ih _ hx
        obtain ⟨iy1, iy2⟩ := ih _ hy
        rw [hx1] at ix1 ix2
        rw [hy1] at iy1 iy2
        refine (mixture_close a0 a1 a2 ix1 iy1 ix2 iy2).trans (le_of_eq ?_)
        rw [List.length_cons]
        push_cast
        ring
      · have := average_close (n := 2) (by norm_num) (fun r : ℕ => min 1 (Real.exp (-(E (other st.1 i r) - E st.1))) *
            expectation (fun r => f r.1) (Prog.forEach (metroIter (sampleMetropolisPotts3 E) n false) l
              (other st.1 i r, E (other st.1 i r))) + (1 - min 1 (Real.exp (-(E (other st.1 i r) - E st.1)))) *
            expectation (fun r => f r.1) (Prog.forEach (metroIter (sampleMetropolisPotts3 E) n false) l (st.1, E st.1)))
          (fun _ => 0) 1 fun r _ => by
            obtain ⟨a0, a1, a2, hx, hx1, hy, hy1⟩ := hk r
            have ix2 := (ih _ hx).2
            have iy2 := (ih _ hy).2
            rw [hx1] at ix2
            rw [hy1] at iy2
            have hp0 : 0 ≤ min 1 (Real.exp (-(E (other st.1 i r) - E st.1))) := le_min (by norm_num) (Real.exp_pos _).le
            have hp1 : min 1 (Real.exp (-(E (other st.1 i r) - E st.1))) ≤ 1 := min_le_left _ _
            rw [sub_zero]
            refine (abs_add_le _ _).trans ?_
            rw [abs_mul, abs_mul, abs_of_nonneg hp0, abs_of_nonneg (sub_nonneg.2 hp1)]
            have h2 := mul_le_mul_of_nonneg_left ix2 hp0
            have h3 := mul_le_mul_of_nonneg_left iy2 (sub_nonneg.2 hp1)
            linarith
        rwa [Finset.sum_const_zero, zero_div, sub_zero] at this
    have c1 : expectation (fun r => f r.1) (Prog.forEach (metroIterPotts3Fl A calcE n false) (j :: l) st) =
        expectation (fun r => expectation (fun r => f r.1) (Prog.forEach (metroIterPotts3Fl A calcE n false) l r))
          (metroIterPotts3Fl A calcE n false j st) := expectation_bind _ _ _
    have c2 : expectation (fun r => f r.1) (Prog.forEach (metroIter (sampleMetropolisPotts3 E) n false) (j :: l) (st.1, E st.1)) =
        expectation (fun r => expectation (fun r => f r.1) (Prog.forEach (metroIter (sampleMetropolisPotts3 E) n false) l r))
          (metroIter (sampleMetropolisPotts3 E) n false j (st.1, E st.1)) := expectation_bind _ _ _
    rw [c1, c2]
    have e : metroIterPotts3Fl A calcE n false j st = (Prog.randint n).bind fun i =>
        (sampleMetropolisPotts3Fl A calcE (some i) st.1 st.2).bind fun r => .ret (r.1, A.add st.2 r.2) := by
      conv_rhs => rw [← (mem_words.1 hst.1).1]
      exact bind_assoc (Prog.randint st.1.length) (fun i => sampleMetropolisPotts3Fl A calcE (some i) st.1 st.2) _
    have e' : metroIter (sampleMetropolisPotts3 E) n false j (st.1, E st.1) = (Prog.randint n).bind fun i =>
        (sampleMetropolisPotts3 E (some i) st.1 (E st.1)).bind fun r => .ret (r.1, E st.1 + r.2) := by
      conv_rhs => rw [← (mem_words.1 hst.1).1]
      exact bind_assoc (Prog.randint st.1.length) (fun i => sampleMetropolisPotts3 E (some i) st.1 (E st.1)) _
    rw [e, e', expectation_randint _ n hn, expectation_randint _ n hn]
    refine ⟨average_close hn _ _ _ fun i hi => (key i hi).1, ?_⟩
    have := average_close hn (fun i => expectation (fun r => expectation (fun r => f r.1)
      (Prog.forEach (metroIter (sampleMetropolisPotts3 E) n false) l r))
          ((sampleMetropolisPotts3 E (some i) st.1 (E st.1)).bind fun r => .ret (r.1, E st.1 + r.2))) (fun _ => 0) 1
      fun i hi => by rw [sub_zero]; exact (key i hi).2
    rwa [Finset.sum_const_zero, zero_div, sub_zero] at this

/-- What holds of the last iterations, whatever the tracked state before them, holds after more iterations. -/
theorem run_longer3 (h : Ieee A) (ha : Accurate A ε) {m : ℝ} {calcE : List ℤ → Fl} (n : ℕ) (hn : 0 < n)
    (hc : CalcOk A calcE (words [0, 1, 2] n) m) (hm : m ≤ A.big / 8) (hε : ε * (3 * m + 4) ≤ 1) (f : List ℤ → ℝ) (l' : List ℕ) (c δ : ℝ)
    (hl : ∀ st : List ℤ × Fl, Tracks A ε m calcE (words [0, 1, 2] n) st →
      |expectation (fun r => f r.1) (Prog.forEach (metroIterPotts3Fl A calcE n false) l' st) - c| ≤ δ) (l : List ℕ) :
    ∀ st : List ℤ × Fl, Tracks A ε m calcE (words [0, 1, 2] n) st →
      |expectation (fun r => f r.1) (Prog.forEach (metroIterPotts3Fl A calcE n false) (l ++ l') st) - c| ≤ δ := by
  induction l with
  | nil => exact hl
  | cons j l ih =>
    intro st hst
    have c1 : expectation (fun r => f r.1) (Prog.forEach (metroIterPotts3Fl A calcE n false) (j :: l ++ l') st) =
        expectation (fun r => expectation (fun r => f r.1) (Prog.forEach (metroIterPotts3Fl A calcE n false) (l ++ l') r))
          (metroIterPotts3Fl A calcE n false j st) := expectation_bind _ _ _
    have e : metroIterPotts3Fl A calcE n false j st = (Prog.randint n).bind fun i =>
        (sampleMetropolisPotts3Fl A calcE (some i) st.1 st.2).bind fun r => .ret (r.1, A.add st.2 r.2) := by
      conv_rhs => rw [← (mem_words.1 hst.1).1]
      exact bind_assoc (Prog.randint st.1.length) (fun i => sampleMetropolisPotts3Fl A calcE (some i) st.1 st.2) _
    rw [c1, e, expectation_randint _ n hn]
    have h1 := average_close hn (fun i => expectation (fun r => expectation (fun r => f r.1)
        (Prog.forEach (metroIterPotts3Fl A calcE n false) (l ++ l') r))
          ((sampleMetropolisPotts3Fl A calcE (some i) st.1 st.2).bind fun r => .ret (r.1, A.add st.2 r.2))) (fun _ => c) δ fun i hi => by
      obtain ⟨a, x, y, hk, hg⟩ := step_law3 h ha (fun s => flNum (calcE s)) n hc (κ := 0)
        (fun s _ => by simp) hm hε i hi st hst
      rw [hg]
      have h5 := average_close (n := 2) (by norm_num) (fun r => a r * expectation (fun r => f r.1)
          (Prog.forEach (metroIterPotts3Fl A calcE n false) (l ++ l') (x r)) + (1 - a r) * expectation (fun r => f r.1)
          (Prog.forEach (metroIterPotts3Fl A calcE n false) (l ++ l') (y r))) (fun _ => c) δ fun r _ => by
        obtain ⟨a0, a1, -, hx, -, hy, -⟩ := hk r
        have h2 : ∀ u v : ℝ, a r * u + (1 - a r) * v - c = a r * (u - c) + (1 - a r) * (v - c) := fun u v => by ring
        rw [h2]
        refine (abs_add_le _ _).trans ?_
        rw [abs_mul, abs_mul, abs_of_nonneg a0, abs_of_nonneg (sub_nonneg.2 a1)]
        have h3 := mul_le_mul_of_nonneg_left (ih _ hx) a0
        have h4 := mul_le_mul_of_nonneg_left (ih _ hy) (sub_nonneg.2 a1)
        linarith
      rwa [Finset.sum_const, Finset.card_range, nsmul_eq_mul, mul_div_cancel_left₀ c (by norm_num : ((2 : ℕ) : ℝ) ≠ 0)] at h5
    have hn' : (n : ℝ) ≠ 0 := by exact_mod_cast hn.ne'
    rwa [Finset.sum_const, Finset.card_range, nsmul_eq_mul, mul_div_cancel_left₀ _ hn'] at h1

end Verif.Lemmas
