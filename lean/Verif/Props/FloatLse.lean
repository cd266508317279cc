/-
C132: the generated equations in floating-point arithmetic.
-/
import Verif.Lemmas.FloatLse
import Mathlib.Analysis.SpecialFunctions.Log.Basic

namespace Verif.Props
open Verif Verif.Model Verif.Spec Verif.Lemmas FlArith

/-- The energies are finite numbers of the format. -/
theorem finite_list {A : FlArith} {X : List Fl} (hX : ∀ v ∈ X, Finite A v) :
    ∃ x : List ℝ, X = x.map .num ∧ ∀ v ∈ x, A.rd v = v ∧ |v| ≤ A.big := by
  induction X with
  | nil => exact ⟨[], rfl, by simp⟩
  | cons v X ih =>
    obtain ⟨x, rfl, hx⟩ := ih fun v hv => hX v (by simp [hv])
    obtain ⟨a, rfl, h1, h2⟩ := hX v (by simp)
    refine ⟨a :: x, rfl, fun w hw => ?_⟩
    rcases List.mem_cons.1 hw with rfl | hw
    · exact ⟨h1, h2⟩
    · exact hx w hw

/-- C132: `fast_logsumexp` of finite numbers, however large: no exponential overflows, the result is not NaN nor minus infinity,
and not below the largest number; it is infinite only if the sum of the largest number and of a logarithm is. This holds for
every order in which numpy may add the exponentials. -/
theorem C132_logsumexp (A : FlArith) (h : Ieee A) (X : List Fl) (hX : ∀ v ∈ X, Finite A v) (h0 : X ≠ [])
    (hl : X.length ≤ 2 ^ 53) (t : SumTree) (ht : t.Adds X.length) :
    ∃ M y, .num M ∈ X ∧ (∀ v, .num v ∈ X → v ≤ M) ∧ 1 ≤ y ∧ y ≤ (X.length : ℝ) ∧
      fastLseFl A t X none = .ok (A.round (A.logf y + M), .num 1) ∧
      ((∃ L, A.round (A.logf y + M) = .num L ∧ M ≤ L) ∨ A.round (A.logf y + M) = .inf false ∧ A.big < A.rd (A.logf y + M)) := by
  obtain ⟨x, rfl, hx⟩ := finite_list hX
  rw [List.length_map] at hl ht ⊢
  obtain ⟨M, a, y, h1, h2, -, -, -, -, h8, h9, h10, -⟩ := lse_none h x (by simpa using h0) hl t ht
  refine ⟨M, y, List.mem_map_of_mem h1, fun v hv => ?_, h8, h9, h10, ?_⟩
  · obtain ⟨w, hw, e⟩ := List.mem_map.1 hv
    injection e with e
    subst e
    exact h2 w hw
  · rcases round_ge h (hx M h1).1 (hx M h1).2 (h.log_nonneg y h8) with e | ⟨L, e, e1, -⟩
    · refine Or.inr ⟨e, ?_⟩
      unfold FlArith.round at e
      split at e
      · assumption
      · split at e <;> cases e
    · exact Or.inl ⟨L, e, e1⟩

/-- C132: `p(params)` of a generated module: if the energies are finite, every entry is a number between 0 and 1. -/
theorem C132_p (A : FlArith) (h : Ieee A) (X : List Fl) (hX : ∀ v ∈ X, Finite A v) (h0 : X ≠ [])
    (hl : X.length ≤ 2 ^ 53) (t : SumTree) (ht : t.Adds X.length) :
    ∃ P, modulePFl A t X = .ok P ∧ P.length = X.length ∧ ∀ v ∈ P, Between 0 1 v := by
  obtain ⟨M, y, -, h2, -, -, h4, h5⟩ := C132_logsumexp A h X hX h0 hl t ht
  unfold modulePFl
  rw [h4]
  refine ⟨_, rfl, by simp, fun v hv => ?_⟩
  obtain ⟨w, hw, rfl⟩ := List.mem_map.1 hv
  obtain ⟨x, rfl, -, -⟩ := hX w hw
  obtain ⟨a, h6, h7, h8, -⟩ := IeeeK.exp_nonpos h (v := A.sub (.num x) (A.round (A.logf y + M))) (by
    rcases h5 with ⟨L, e, hL⟩ | ⟨e, -⟩
    · rw [e]
      rcases IeeeK.sub_nonpos h ((h2 x hw).trans hL) with h1 | ⟨d, h1, h2, -⟩
      · exact Or.inl h1
      · exact Or.inr ⟨d, h1, h2⟩
    · rw [e]
      exact Or.inl rfl)
  exact ⟨a, h6, h7, h8⟩

/-- C132: `calc_observables(params)` of a generated module: if the energies are finite, every entry is a number between -1 and
1, provided that numpy adds the terms of numerator and denominator in the same order, and that the library's logarithm is
monotone. -/
theorem C132_observables (A : FlArith) (h : Ieee A) (hlog : ∀ y z, 0 < y → y ≤ z → A.logf y ≤ A.logf z) (X : List Fl)
    (hX : ∀ v ∈ X, Finite A v) (h0 : X ≠ []) (hl : X.length ≤ 2 ^ 53) (t : SumTree) (ht : t.Adds X.length) (c : List ℝ)
    (hc : ∀ x ∈ c, x = 0 ∨ x = 1 ∨ x = -1) (hcl : c.length = X.length) :
    ∃ v, moduleObsFl A t t X (c.map .num) = .ok v ∧ Between (-1) 1 v := by
  obtain ⟨x, rfl, hx⟩ := finite_list hX
  rw [List.length_map] at hl ht hcl
  obtain ⟨M, a, y, h1, h2, h3, h4, h5, h6, h8, h9, h10, h11⟩ := lse_none h x (by simpa using h0) hl t ht
  have hb := IeeeK.big_ge_one h
  obtain ⟨z, hz⟩ : ∃ z : List ℝ, z = List.zipWith (· * ·) a c := ⟨_, rfl⟩
  have hzip : List.zipWith A.mul (a.map .num) (c.map .num) = z.map .num := by
    rw [hz, List.zipWith_map, List.map_zipWith]
    refine List.ext_getElem (by simp) fun i h1 h2 => ?_
    simp only [List.getElem_zipWith]
    exact (mul_coeff h (h5 _ (List.getElem_mem _)) (hc _ (List.getElem_mem _))).1
  have hzle : ∀ i, |z.getD i 0| ≤ a.getD i 0 := by
    intro i
    by_cases hi : i < a.length
    · have hi' : i < c.length := by omega
      have hiz : i < z.length := by rw [hz, List.length_zipWith]; omega
      rw [List.getD_eq_getElem _ _ hi, List.getD_eq_getElem _ _ hiz]
      simp only [hz, List.getElem_zipWith]
      exact (mul_coeff h (h5 _ (List.getElem_mem _)) (hc _ (List.getElem_mem _))).2
    · rw [List.getD_eq_default _ _ (by rw [hz, List.length_zipWith]; omega), List.getD_eq_default _ _ (by omega), abs_zero]
  have htl : t.leaves.length ≤ 2 ^ 53 := by
    rw [ht.length_eq, List.length_range]; exact hl
  obtain ⟨y', w, e1, e2, hw⟩ := treeSum_signed h a z h5 hzle t htl
  obtain rfl : y' = y := by
    rw [h6] at e1
    injection e1 with e1
    exact e1.symm
  -- the numerator
  have hnum : ∃ (s : ℝ) (u : Fl), (s = 1 ∨ s = -1) ∧
      fastLseFl A t (x.map .num) (some (c.map .num)) = .ok (A.add u (.num M), .num s) ∧
      (u = .inf true ∨ ∃ l, u = .num l ∧ l ≤ A.logf y') := by
    obtain ⟨x0, xs, rfl⟩ := List.exists_cons_of_ne_nil (show x ≠ [] by simpa using h0)
    unfold fastLseFl
    rw [List.map_cons]
    dsimp only
    rw [← List.map_cons (f := Fl.num), h11 x0 xs rfl, List.map_map]
    have e : (List.map ((fun v => A.exp (A.sub v (.num M))) ∘ Fl.num) (x0 :: xs)) = a.map .num := h4
    rw [e, if_pos (by simpa using hcl), hzip, e2]
    dsimp only
    by_cases hneg : w < 0
    · have e3 : lt (.num w) (.num 0) = true := by simp [lt, hneg]
      rw [if_pos e3]
      refine ⟨-1, _, Or.inr rfl, rfl, Or.inr ⟨A.logf |w|, ?_, hlog _ _ (abs_pos.2 hneg.ne) hw⟩⟩
      show (if 0 < |w| then _ else _) = _
      rw [if_pos (abs_pos.2 hneg.ne)]
    · have e3 : ¬ lt (.num w) (.num 0) = true := by simpa [lt] using hneg
      rw [if_neg e3]
      refine ⟨1, _, Or.inl rfl, rfl, ?_⟩
      by_cases hpos : 0 < w
      · refine Or.inr ⟨A.logf w, ?_, hlog _ _ hpos ((le_abs_self w).trans hw)⟩
        show (if 0 < w then _ else _) = _
        rw [if_pos hpos]
      · refine Or.inl ?_
        show (if 0 < w then _ else _) = _
        rw [if_neg hpos, if_pos (by linarith)]
  obtain ⟨s, u, hs, e3, hu⟩ := hnum
  unfold moduleObsFl
  rw [h10]
  dsimp only
  rw [e3]
  dsimp only
  refine ⟨_, rfl, ?_⟩
  have hM := hx M h1
  -- the difference of the logarithms
  have hdiff : A.sub (A.add u (.num M)) (A.round (A.logf y' + M)) = .nan ∨
      A.sub (A.add u (.num M)) (A.round (A.logf y' + M)) = .inf true ∨
      ∃ d, A.sub (A.add u (.num M)) (A.round (A.logf y' + M)) = .num d ∧ d ≤ 0 := by
    rcases hu with rfl | ⟨l, rfl, hl'⟩
    · rcases round_ge h hM.1 hM.2 (h.log_nonneg y' h8) with e | ⟨L, e, -, -⟩
      · rw [e]; exact Or.inr (Or.inl rfl)
      · rw [e]; exact Or.inr (Or.inl rfl)
    · have hle : A.rd (l + M) ≤ A.rd (A.logf y' + M) := h.mono (by linarith)
      have hadd : A.add (.num l) (.num M) = A.round (l + M) := rfl
      rw [hadd]
      rcases round_ge h hM.1 hM.2 (h.log_nonneg y' h8) with e | ⟨L, e, -, hL⟩
      · rw [e]
        unfold FlArith.round
        split
        · exact Or.inl rfl
        · split
          · exact Or.inr (Or.inl rfl)
          · exact Or.inr (Or.inl rfl)
      · have hLb : L ≤ A.big := by
          unfold FlArith.round at e
          split at e
          · cases e
          · split at e
            · cases e
            · injection e with e
              rw [← e]
              linarith
        rw [e]
        unfold FlArith.round
        rw [if_neg (by linarith)]
        split
        · exact Or.inr (Or.inl rfl)
        · rcases IeeeK.sub_nonpos h (a := A.rd (l + M)) (b := L) (by linarith) with h1 | ⟨d, h1, h2, -⟩
          · exact Or.inr (Or.inl h1)
          · exact Or.inr (Or.inr ⟨d, h1, h2⟩)
  rcases hdiff with e | e
  · rw [e]
    exact ⟨0, rfl, by norm_num, by norm_num⟩
  · obtain ⟨p, e4, h12, h13, h14⟩ := IeeeK.exp_nonpos h e
    rw [e4]
    have := mul_coeff h ⟨h12, h13, h14⟩ (c := s) (by tauto)
    rw [this.1]
    have h15 := abs_le.1 this.2
    exact ⟨p * s, rfl, by linarith [h15.1], by linarith [h15.2]⟩

/-- C132: energies that overflow. If one of the energies is plus infinity (and none NaN), then all probabilities are NaN, and
all observables are 0: the line that sets NaN to 0 hides the overflow. -/
theorem C132_overflow (A : FlArith) (X : List Fl) (hX : .inf false ∈ X) (hn : .nan ∉ X) (t : SumTree) (ht : t.Adds X.length) :
    modulePFl A t X = .ok (X.map fun _ => .nan) ∧
    ∀ (t' : SumTree) (c : List Fl), t'.Adds X.length → c.length = X.length → moduleObsFl A t t' X c = .ok (.num 0) := by
  have hlse : fastLseFl A t X none = .ok (.nan, .num 1) := by
    obtain ⟨x, xs, rfl⟩ := List.exists_cons_of_ne_nil (List.ne_nil_of_mem hX)
    unfold fastLseFl
    dsimp only
    rw [maxFl_inf x xs hX hn]
    obtain ⟨i, hi, e⟩ := List.getElem_of_mem hX
    have hs : A.treeSum ((x :: xs).map fun v => A.exp (A.sub v (.inf false))) t = .nan := by
      refine treeSum_nan _ t i (ht.mem_iff.2 (List.mem_range.2 hi)) ?_
      rw [List.getD_eq_getElem _ _ (by simpa using hi), List.getElem_map, e]
      rfl
    rw [hs]
    rfl
  refine ⟨?_, fun t' c ht' hc => ?_⟩
  · unfold modulePFl
    rw [hlse]
    refine congrArg Except.ok (List.map_congr_left fun v _ => ?_)
    show A.exp (A.add v .nan) = _
    rw [add_nan]
    rfl
  · unfold moduleObsFl
    rw [hlse]
    dsimp only
    have : ∃ u s, fastLseFl A t' X (some c) = .ok (u, s) := by
      obtain ⟨x, xs, rfl⟩ := List.exists_cons_of_ne_nil (List.ne_nil_of_mem hX)
      unfold fastLseFl
      dsimp only
      rw [if_pos hc]
      dsimp only
      split
      · exact ⟨_, _, rfl⟩
      · exact ⟨_, _, rfl⟩
    obtain ⟨u, s, e⟩ := this
    rw [e]
    dsimp only
    have e2 : A.sub u .nan = .nan := add_nan u
    rw [e2]
    rfl

/-- Exact arithmetic with a largest number. -/
noncomputable def exactArith : FlArith := ⟨id, 2 ^ 53, Real.exp, Real.log⟩

theorem exactArith_ieee : Ieee exactArith where
  mono := monotone_id
  neg _ := rfl
  idem _ := rfl
  nat _ _ := rfl
  big := le_rfl
  big_rd := rfl
  exp_zero := Real.exp_zero
  exp_range x hx := ⟨(Real.exp_pos x).le, Real.exp_le_one_iff.2 hx⟩
  exp_rd _ := rfl
  log_nonneg _ h := Real.log_nonneg h

/-- Numbers cut off after 52 binary places. -/
noncomputable def cut (x : ℝ) : ℝ := if 0 ≤ x then (⌊4503599627370496 * x⌋ : ℝ) / 4503599627370496 else -((⌊4503599627370496 * -x⌋ : ℝ) / 4503599627370496)

theorem cut_nonneg {x : ℝ} (hx : 0 ≤ x) : 0 ≤ cut x := by
  rw [cut, if_pos hx]
  have : (0 : ℤ) ≤ ⌊4503599627370496 * x⌋ := Int.floor_nonneg.2 (by linarith)
  positivity

theorem cut_neg (x : ℝ) : cut (-x) = -cut x := by
  rcases lt_trichotomy x 0 with h | rfl | h
  · rw [cut, cut, if_pos (by linarith), if_neg (by linarith), neg_neg]
  · simp [cut]
  · rw [cut, cut, if_neg (by linarith), if_pos h.le, neg_neg]

theorem cut_mono_nonneg {x y : ℝ} (hx : 0 ≤ x) (h : x ≤ y) : cut x ≤ cut y := by
  rw [cut, cut, if_pos hx, if_pos (hx.trans h)]
  have : ⌊4503599627370496 * x⌋ ≤ ⌊4503599627370496 * y⌋ := Int.floor_le_floor (by linarith)
  have : (⌊4503599627370496 * x⌋ : ℝ) ≤ ⌊4503599627370496 * y⌋ := by exact_mod_cast this
  linarith

theorem cut_grid (k : ℤ) (hk : 0 ≤ k) : cut ((k : ℝ) / 4503599627370496) = k / 4503599627370496 := by
  have : (0 : ℝ) ≤ k := by exact_mod_cast hk
  rw [cut, if_pos (by positivity), mul_div_cancel₀ _ (by norm_num : (4503599627370496 : ℝ) ≠ 0), Int.floor_intCast]

theorem cut_idem (x : ℝ) : cut (cut x) = cut x := by
  by_cases h : 0 ≤ x
  · have e : cut x = (⌊4503599627370496 * x⌋ : ℝ) / 4503599627370496 := if_pos h
    rw [e, cut_grid _ (Int.floor_nonneg.2 (by linarith))]
  · have e : cut x = -((⌊4503599627370496 * -x⌋ : ℝ) / 4503599627370496) := if_neg h
    rw [e, cut_neg, cut_grid _ (Int.floor_nonneg.2 (by linarith))]

theorem cut_nat (m : ℕ) : cut m = m := by
  have := cut_grid (4503599627370496 * m) (by positivity)
  push_cast at this
  rwa [mul_div_cancel_left₀ _ (by norm_num : (4503599627370496 : ℝ) ≠ 0)] at this

theorem cut_mono : Monotone cut := by
  intro x y h
  by_cases hx : 0 ≤ x
  · exact cut_mono_nonneg hx h
  · by_cases hy : 0 ≤ y
    · have h1 := cut_nonneg hy
      have h2 := cut_nonneg (x := -x) (by linarith)
      rw [cut_neg] at h2
      linarith
    · have := cut_mono_nonneg (x := -y) (y := -x) (by linarith) (by linarith)
      rw [cut_neg, cut_neg] at this
      linarith

/-- An arithmetic that rounds. -/
noncomputable def cutArith : FlArith := ⟨cut, 2 ^ 60, fun x => cut (Real.exp x), fun y => cut (Real.log y)⟩

theorem cutArith_ieee : Ieee cutArith where
  mono := cut_mono
  neg := cut_neg
  idem := cut_idem
  nat m _ := cut_nat m
  big := by show (2 : ℝ) ^ 53 ≤ 2 ^ 60; norm_num
  big_rd := by
    show cut (2 ^ 60) = 2 ^ 60
    have := cut_nat (2 ^ 60)
    rwa [Nat.cast_pow, Nat.cast_ofNat] at this
  exp_zero := by
    show cut (Real.exp 0) = 1
    rw [Real.exp_zero]
    simpa using cut_nat 1
  exp_range x hx := by
    refine ⟨cut_nonneg (Real.exp_pos x).le, ?_⟩
    have := cut_mono (Real.exp_le_one_iff.2 hx)
    rwa [show cut 1 = 1 by simpa using cut_nat 1] at this
  exp_rd x := cut_idem _
  log_nonneg y h := cut_nonneg (Real.log_nonneg h)

theorem cut_finite (m : ℕ) (hm : m ≤ 2 ^ 60) : Finite cutArith (.num m) :=
  ⟨m, rfl, cut_nat m, by
    rw [abs_of_nonneg (Nat.cast_nonneg m)]
    show (m : ℝ) ≤ 2 ^ 60
    exact_mod_cast hm⟩

/-- Non-vacuity of C132_logsumexp, C132_p and C132_observables: energies 1000000, 3 and 0, whose exponentials are out of range,
added in an order other than the order of the list. -/
example : ∃ P, modulePFl cutArith (.node (.leaf 2) (.node (.leaf 0) (.leaf 1))) [.num (1000000 : ℕ), .num (3 : ℕ), .num (0 : ℕ)] =
    .ok P ∧ P.length = 3 ∧ ∀ v ∈ P, Between 0 1 v :=
  C132_p cutArith cutArith_ieee _ (by
    intro v hv
    simp only [List.mem_cons, List.not_mem_nil, or_false] at hv
    rcases hv with rfl | rfl | rfl <;> exact cut_finite _ (by norm_num)) (by simp) (by norm_num) _ (by
    show List.Perm _ _
    decide)

example : ∀ y z : ℝ, 0 < y → y ≤ z → cutArith.logf y ≤ cutArith.logf z :=
  fun _ _ hy h => cut_mono (Real.log_le_log hy h)

example : ∀ x ∈ [(1 : ℝ), -1, 0], x = 0 ∨ x = 1 ∨ x = -1 := by simp

/-- Non-vacuity of C132_overflow: one of two energies is infinite. -/
example : modulePFl cutArith (.node (.leaf 0) (.leaf 1)) [.num 0, .inf false] = .ok [.nan, .nan] :=
  (C132_overflow cutArith [.num 0, .inf false] (by simp) (by simp) (.node (.leaf 0) (.leaf 1)) (by
    show List.Perm _ _
    decide)).1

end Verif.Props
