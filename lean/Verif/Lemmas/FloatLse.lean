/-
Floating-point `fast_logsumexp`.
-/
import Verif.Spec.FloatLse
import Mathlib.Tactic.Linarith
import Mathlib.Tactic.Positivity

namespace Verif.Lemmas
open Verif Verif.Model Verif.Spec FlArith

variable {A : FlArith}

namespace IeeeK
variable (h : Ieee A)
include h

theorem rd_zero : A.rd 0 = 0 := by simpa using h.nat 0 (by norm_num)
theorem rd_one : A.rd 1 = 1 := by simpa using h.nat 1 (by norm_num)
theorem big_ge_one : 1 ≤ A.big := le_trans (by norm_num) h.big

theorem round_num {x : ℝ} (hx : |A.rd x| ≤ A.big) : A.round x = .num (A.rd x) := by
  obtain ⟨h1, h2⟩ := abs_le.1 hx
  unfold FlArith.round
  rw [if_neg (not_lt.2 h2), if_neg (not_lt.2 h1)]

theorem rd_abs_le {x : ℝ} (hx : |x| ≤ A.big) : |A.rd x| ≤ A.big := by
  obtain ⟨h1, h2⟩ := abs_le.1 hx
  refine abs_le.2 ⟨?_, ?_⟩
  · have := h.mono h1
    rwa [h.neg, h.big_rd] at this
  · have := h.mono h2
    rwa [h.big_rd] at this

/-- A number of the format. -/
theorem round_self {x : ℝ} (hx : A.rd x = x) (hb : |x| ≤ A.big) : A.round x = .num x := by
  rw [round_num h (by rwa [hx]), hx]

/-- Differences that are not positive. -/
theorem sub_nonpos {a b : ℝ} (hab : a ≤ b) :
    (A.sub (.num a) (.num b) = .inf true) ∨ ∃ d, A.sub (.num a) (.num b) = .num d ∧ d ≤ 0 ∧ d = A.rd (a - b) := by
  have h1 : A.rd (a - b) ≤ 0 := by
    have := h.mono (show a - b ≤ 0 by linarith)
    rwa [rd_zero h] at this
  have hb := big_ge_one h
  show A.round (a + -b) = _ ∨ ∃ d, A.round (a + -b) = _ ∧ _
  rw [← sub_eq_add_neg]
  unfold FlArith.round
  rw [if_neg (by linarith)]
  by_cases h2 : A.rd (a - b) < -A.big
  · rw [if_pos h2]; exact Or.inl rfl
  · rw [if_neg h2]; exact Or.inr ⟨_, rfl, h1, rfl⟩

/-- `exp` of a number that is not positive, or of minus infinity. -/
theorem exp_nonpos {v : Fl} (hv : v = .inf true ∨ ∃ d, v = .num d ∧ d ≤ 0) :
    ∃ a, A.exp v = .num a ∧ 0 ≤ a ∧ a ≤ 1 ∧ A.rd a = a := by
  have hb := big_ge_one h
  rcases hv with rfl | ⟨d, rfl, hd⟩
  · exact ⟨0, rfl, le_refl _, zero_le_one, rd_zero h⟩
  · obtain ⟨h1, h2⟩ := h.exp_range d hd
    refine ⟨A.expf d, ?_, h1, h2, h.exp_rd d⟩
    show (if A.big < A.expf d then _ else _) = _
    rw [if_neg (by linarith)]

theorem term_ok {a b : ℝ} (hab : a ≤ b) :
    ∃ c, A.exp (A.sub (.num a) (.num b)) = .num c ∧ 0 ≤ c ∧ c ≤ 1 ∧ A.rd c = c ∧ (a = b → c = 1) := by
  obtain ⟨c, h1, h2, h3, h4⟩ := exp_nonpos h (v := A.sub (.num a) (.num b)) (by
    rcases sub_nonpos h hab with h1 | ⟨d, h1, h2, -⟩
    · exact Or.inl h1
    · exact Or.inr ⟨d, h1, h2⟩)
  refine ⟨c, h1, h2, h3, h4, fun e => ?_⟩
  subst e
  have hb := big_ge_one h
  have e1 : A.sub (.num a) (.num a) = .num 0 := by
    show A.round (a + -a) = _
    rw [add_neg_cancel]
    exact round_self h (rd_zero h) (by rw [abs_zero]; linarith)
  rw [e1] at h1
  have e2 : A.exp (.num 0) = .num 1 := by
    show (if A.big < A.expf 0 then _ else _) = _
    rw [h.exp_zero, if_neg (by linarith)]
  rw [e2] at h1
  injection h1 with h1
  exact h1.symm

end IeeeK

/-! ### maximum -/

theorem maxFl_num (x : ℝ) (xs : List ℝ) : ∃ m, maxFl (.num x) (xs.map .num) = .num m ∧ m ∈ x :: xs ∧ ∀ v ∈ x :: xs, v ≤ m := by
  induction xs generalizing x with
  | nil => exact ⟨x, rfl, by simp, by simp⟩
  | cons v vs ih =>
    rw [List.map_cons, maxFl]
    by_cases hv : x < v
    · have e : lt (.num x) (.num v) = true := by simp [lt, hv]
      rw [if_pos e]
      obtain ⟨m, h1, h2, h3⟩ := ih v
      refine ⟨m, h1, by simp only [List.mem_cons] at h2 ⊢; tauto, fun w hw => ?_⟩
      rcases List.mem_cons.1 hw with rfl | hw
      · exact hv.le.trans (h3 v (by simp))
      · exact h3 w hw
    · have e : ¬ lt (.num x) (.num v) = true := by simp [lt, hv]
      rw [if_neg e]
      obtain ⟨m, h1, h2, h3⟩ := ih x
      refine ⟨m, h1, by simp only [List.mem_cons] at h2 ⊢; tauto, fun w hw => ?_⟩
      simp only [List.mem_cons] at hw
      rcases hw with rfl | rfl | hw
      · exact h3 w (by simp)
      · exact (not_lt.1 hv).trans (h3 x (by simp))
      · exact h3 w (by simp [hw])

/-! ### sums -/

/-- Sum of numbers between 0 and 1 in any order. -/
theorem treeSum_ok (h : Ieee A) (x : List ℝ) (hx : ∀ a ∈ x, 0 ≤ a ∧ a ≤ 1 ∧ A.rd a = a) (t : SumTree)
    (ht : t.leaves.length ≤ 2 ^ 53) :
    ∃ y, A.treeSum (x.map .num) t = .num y ∧ A.rd y = y ∧ 0 ≤ y ∧ y ≤ t.leaves.length ∧ ∀ i ∈ t.leaves, x.getD i 0 ≤ y := by
  induction t with
  | leaf i =>
    refine ⟨x.getD i 0, ?_, ?_⟩
    · rw [treeSum, List.getD_map]
    · by_cases hi : i < x.length
      · rw [List.getD_eq_getElem _ _ hi]
        obtain ⟨h1, h2, h3⟩ := hx _ (List.getElem_mem hi)
        refine ⟨h3, h1, by simpa [SumTree.leaves] using h2, fun j hj => ?_⟩
        rw [List.mem_singleton.1 hj, List.getD_eq_getElem _ _ hi]
      · rw [List.getD_eq_default _ _ (by omega)]
        refine ⟨IeeeK.rd_zero h, le_refl _, by simp [SumTree.leaves], fun j hj => ?_⟩
        rw [List.mem_singleton.1 hj, List.getD_eq_default _ _ (by omega)]
  | node l r ihl ihr =>
    rw [SumTree.leaves, List.length_append] at ht
    obtain ⟨a, h1, h2, h3, h4, h5⟩ := ihl (by omega)
    obtain ⟨b, g1, g2, g3, g4, g5⟩ := ihr (by omega)
    have hab : a ≤ A.rd (a + b) := by
      have := h.mono (show a ≤ a + b by linarith)
      rwa [h2] at this
    have hba : b ≤ A.rd (a + b) := by
      have := h.mono (show b ≤ a + b by linarith)
      rwa [g2] at this
    have hup : A.rd (a + b) ≤ ((l.leaves.length + r.leaves.length : ℕ) : ℝ) := by
      rw [← h.nat _ ht]
      refine h.mono ?_
      push_cast
      linarith
    have hcast : ((l.leaves.length + r.leaves.length : ℕ) : ℝ) ≤ A.big := by
      refine le_trans ?_ h.big
      exact_mod_cast ht
    refine ⟨A.rd (a + b), ?_, h.idem _, h3.trans hab, by rw [SumTree.leaves, List.length_append]; exact hup, fun i hi => ?_⟩
    · rw [treeSum, h1, g1]
      exact IeeeK.round_num h (abs_le.2 ⟨by linarith, by linarith⟩)
    · rw [SumTree.leaves, List.mem_append] at hi
      rcases hi with hi | hi
      · exact (h5 i hi).trans hab
      · exact (g5 i hi).trans hba

/-- Signed sum, compared with the sum in the same order. -/
theorem treeSum_signed (h : Ieee A) (x z : List ℝ) (hx : ∀ a ∈ x, 0 ≤ a ∧ a ≤ 1 ∧ A.rd a = a)
    (hz : ∀ i, |z.getD i 0| ≤ x.getD i 0) (t : SumTree)
    (ht : t.leaves.length ≤ 2 ^ 53) :
    ∃ y w, A.treeSum (x.map .num) t = .num y ∧ A.treeSum (z.map .num) t = .num w ∧ |w| ≤ y := by
  induction t with
  | leaf i =>
    exact ⟨x.getD i 0, z.getD i 0, by rw [treeSum, List.getD_map], by rw [treeSum, List.getD_map], hz i⟩
  | node l r ihl ihr =>
    obtain ⟨y, hy1, -, -, hy2, -⟩ := treeSum_ok h x hx (.node l r) ht
    have ht' := ht
    rw [SumTree.leaves, List.length_append] at ht
    obtain ⟨a, a', h1, h2, h3⟩ := ihl (by omega)
    obtain ⟨b, b', g1, g2, g3⟩ := ihr (by omega)
    have hcast : ((SumTree.node l r).leaves.length : ℝ) ≤ A.big := by
      refine le_trans ?_ h.big
      exact_mod_cast ht'
    obtain ⟨h4, h5⟩ := abs_le.1 h3
    obtain ⟨g4, g5⟩ := abs_le.1 g3
    have e : A.round (a + b) = .num y := by
      rw [treeSum, h1, g1] at hy1
      exact hy1
    have hy : A.rd (a + b) = y := by
      unfold FlArith.round at e
      split at e
      · cases e
      · split at e
        · cases e
        · injection e
    have hw : |A.rd (a' + b')| ≤ y := by
      rw [← hy]
      refine abs_le.2 ⟨?_, h.mono (by linarith)⟩
      rw [← h.neg]
      exact h.mono (by linarith)
    refine ⟨y, A.rd (a' + b'), hy1, ?_, hw⟩
    rw [treeSum, h2, g2]
    exact IeeeK.round_num h (hw.trans (hy2.trans hcast))

/-! ### the function -/

/-- The state of affairs before the logarithm is taken: `M` is the maximum, `y` the sum. -/
theorem lse_parts (h : Ieee A) (X : List ℝ) (hX : X ≠ []) (hl : X.length ≤ 2 ^ 53) (t : SumTree) (ht : t.Adds X.length) :
    ∃ (M : ℝ) (a : List ℝ) (y : ℝ), M ∈ X ∧ (∀ v ∈ X, v ≤ M) ∧ a.length = X.length ∧
      X.map (fun v => A.exp (A.sub (.num v) (.num M))) = a.map .num ∧ (∀ c ∈ a, 0 ≤ c ∧ c ≤ 1 ∧ A.rd c = c) ∧
      A.treeSum (a.map .num) t = .num y ∧ A.rd y = y ∧ 1 ≤ y ∧ y ≤ X.length ∧
      (∀ x xs, X = x :: xs → maxFl (.num x) (xs.map .num) = .num M) := by
  obtain ⟨x, xs, rfl⟩ := List.exists_cons_of_ne_nil hX
  obtain ⟨M, h1, h2, h3⟩ := maxFl_num x xs
  obtain ⟨f, hf⟩ : ∃ f : ℝ → ℝ, ∀ v ∈ x :: xs, A.exp (A.sub (.num v) (.num M)) = .num (f v) ∧ 0 ≤ f v ∧ f v ≤ 1 ∧
      A.rd (f v) = f v ∧ (v = M → f v = 1) := by
    classical
    refine ⟨fun v => if hv : v ≤ M then Classical.choose (IeeeK.term_ok h hv) else 0, fun v hv => ?_⟩
    have := h3 v hv
    dsimp only
    rw [dif_pos this]
    exact Classical.choose_spec (IeeeK.term_ok h this)
  have hlen : t.leaves.length = (x :: xs).length := by rw [ht.length_eq, List.length_range]
  have ha : ∀ c ∈ (x :: xs).map f, 0 ≤ c ∧ c ≤ 1 ∧ A.rd c = c := by
    intro c hc
    obtain ⟨v, hv, rfl⟩ := List.mem_map.1 hc
    exact ⟨(hf v hv).2.1, (hf v hv).2.2.1, (hf v hv).2.2.2.1⟩
  obtain ⟨y, g1, g2, g3, g4, g5⟩ := treeSum_ok h ((x :: xs).map f) ha t (by rw [hlen]; exact hl)
  refine ⟨M, (x :: xs).map f, y, h2, h3, by simp, ?_, ha, g1, g2, ?_, by rw [hlen] at g4; exact g4, fun x' xs' e => ?_⟩
  · rw [List.map_map]
    exact List.map_congr_left fun v hv => (hf v hv).1
  · obtain ⟨i, hi, e⟩ := List.getElem_of_mem h2
    have hm : i ∈ t.leaves := ht.mem_iff.2 (List.mem_range.2 hi)
    have := g5 i hm
    rw [List.getD_eq_getElem _ _ (by simpa using hi), List.getElem_map, e, (hf M h2).2.2.2.2 rfl] at this
    exact this
  · injection e with e1 e2
    subst e1 e2
    exact h1

/-- `fast_logsumexp` without coefficients. -/
theorem lse_none (h : Ieee A) (X : List ℝ) (hX : X ≠ []) (hl : X.length ≤ 2 ^ 53) (t : SumTree) (ht : t.Adds X.length) :
    ∃ (M : ℝ) (a : List ℝ) (y : ℝ), M ∈ X ∧ (∀ v ∈ X, v ≤ M) ∧ a.length = X.length ∧
      X.map (fun v => A.exp (A.sub (.num v) (.num M))) = a.map .num ∧ (∀ c ∈ a, 0 ≤ c ∧ c ≤ 1 ∧ A.rd c = c) ∧
      A.treeSum (a.map .num) t = .num y ∧ 1 ≤ y ∧ y ≤ X.length ∧
      fastLseFl A t (X.map .num) none = .ok (A.round (A.logf y + M), .num 1) ∧
      (∀ x xs, X = x :: xs → maxFl (.num x) (xs.map .num) = .num M) := by
  obtain ⟨M, a, y, h1, h2, h3, h4, h5, h6, h7, h8, h9, h10⟩ := lse_parts h X hX hl t ht
  refine ⟨M, a, y, h1, h2, h3, h4, h5, h6, h8, h9, ?_, h10⟩
  obtain ⟨x, xs, rfl⟩ := List.exists_cons_of_ne_nil hX
  unfold fastLseFl
  rw [List.map_cons]
  dsimp only
  rw [← List.map_cons (f := Fl.num), h10 x xs rfl, List.map_map]
  have e : (List.map ((fun v => A.exp (A.sub v (.num M))) ∘ Fl.num) (x :: xs)) = a.map .num := h4
  rw [e, h6]
  have e2 : ¬ lt (.num y) (.num 0) = true := by simp [lt]; linarith
  rw [if_neg e2]
  have e3 : A.log (.num y) = .num (A.logf y) := by
    show (if 0 < y then _ else _) = _
    rw [if_pos (by linarith)]
  rw [e3]
  rfl

/-- What the logarithm of the sum may be. -/
theorem round_ge (h : Ieee A) {M z : ℝ} (hM : A.rd M = M) (hb : |M| ≤ A.big) (hz : 0 ≤ z) :
    A.round (z + M) = .inf false ∨ ∃ L, A.round (z + M) = .num L ∧ M ≤ L ∧ L = A.rd (z + M) := by
  have h1 : M ≤ A.rd (z + M) := by
    have := h.mono (show M ≤ z + M by linarith)
    rwa [hM] at this
  have h2 := (abs_le.1 hb).1
  unfold FlArith.round
  by_cases hbig : A.big < A.rd (z + M)
  · rw [if_pos hbig]; exact Or.inl rfl
  · rw [if_neg hbig, if_neg (by linarith)]
    exact Or.inr ⟨_, rfl, h1, rfl⟩

/-- The products with coefficients. -/
theorem mul_coeff_big (h : Ieee A) {a c : ℝ} (ha : A.rd a = a) (hb : |a| ≤ A.big) (hc : c = 0 ∨ c = 1 ∨ c = -1) :
    A.mul (.num a) (.num c) = .num (a * c) := by
  have hb1 := IeeeK.big_ge_one h
  have e : A.mul (.num a) (.num c) = A.round (a * c) := rfl
  rw [e]
  rcases hc with rfl | rfl | rfl
  · rw [mul_zero]
    exact IeeeK.round_self h (IeeeK.rd_zero h) (by rw [abs_zero]; linarith)
  · rw [mul_one]
    exact IeeeK.round_self h ha hb
  · rw [mul_neg, mul_one]
    exact IeeeK.round_self h (by rw [h.neg, ha]) (by rwa [abs_neg])

theorem mul_coeff (h : Ieee A) {a c : ℝ} (ha : 0 ≤ a ∧ a ≤ 1 ∧ A.rd a = a) (hc : c = 0 ∨ c = 1 ∨ c = -1) :
    A.mul (.num a) (.num c) = .num (a * c) ∧ |a * c| ≤ a := by
  obtain ⟨h1, h2, h3⟩ := ha
  have hb := IeeeK.big_ge_one h
  refine ⟨mul_coeff_big h h3 (by rw [abs_of_nonneg h1]; linarith) hc, ?_⟩
  rw [abs_mul, abs_of_nonneg h1]
  rcases hc with rfl | rfl | rfl <;> simp [h1]

/-! ### NaN spreads -/

theorem add_nan (v : Fl) : A.add v .nan = .nan := by cases v <;> rfl
theorem nan_add (v : Fl) : A.add .nan v = .nan := rfl
theorem mul_nan (v : Fl) : A.mul v .nan = .nan := by cases v <;> rfl
theorem nan_mul (v : Fl) : A.mul .nan v = .nan := rfl

theorem treeSum_nan (x : List Fl) (t : SumTree) (i : ℕ) (hi : i ∈ t.leaves) (hx : x.getD i (.num 0) = .nan) :
    A.treeSum x t = .nan := by
  induction t with
  | leaf j =>
    rw [SumTree.leaves, List.mem_singleton] at hi
    subst hi
    exact hx
  | node l r ihl ihr =>
    rw [SumTree.leaves, List.mem_append] at hi
    rw [treeSum]
    rcases hi with hi | hi
    · rw [ihl hi, nan_add]
    · rw [ihr hi, add_nan]

theorem maxFl_inf (x : Fl) (xs : List Fl) (h : .inf false ∈ x :: xs) (hn : .nan ∉ x :: xs) : maxFl x xs = .inf false := by
  induction xs generalizing x with
  | nil => rw [maxFl]; exact (List.mem_singleton.1 h).symm
  | cons v vs ih =>
    rw [maxFl]
    simp only [List.mem_cons, not_or] at hn
    by_cases hx : x = .inf false
    · subst hx
      have e : ¬ lt (.inf false) v = true := by cases v <;> simp [lt]
      rw [if_neg e]
      exact ih _ (by simp) (by simp only [List.mem_cons, not_or]; tauto)
    · by_cases hv : v = .inf false
      · subst hv
        have e : lt x (.inf false) = true := by
          rcases x with x | s | _
          · simp [lt]
          · cases s
            · exact absurd rfl hx
            · simp [lt]
          · exact absurd rfl hn.1
        rw [if_pos e]
        exact ih _ (by simp) (by simp only [List.mem_cons, not_or]; tauto)
      · have hm : Fl.inf false ∈ vs := by
          simp only [List.mem_cons] at h
          tauto
        split
        · exact ih _ (by simp [hm]) (by simp only [List.mem_cons, not_or]; tauto)
        · exact ih _ (by simp [hm]) (by simp only [List.mem_cons, not_or]; tauto)

end Verif.Lemmas
