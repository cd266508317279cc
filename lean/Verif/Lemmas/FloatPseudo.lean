/-
Rounding errors of the conditional log-likelihood.
-/
import Verif.Model.FloatPseudo
import Verif.Spec.FloatPseudo
import Verif.Lemmas.FloatAcc

namespace Verif.Lemmas
open Verif Verif.Model Verif.Spec FlArith

variable {A : FlArith} {ε : ℝ}

/-- The real numbers behind one term. -/
theorem sigmoid_acc {ε B X x y q c : ℝ} (hε : 0 ≤ ε) (hs : ε ≤ 1 / 8) (hB : 1 ≤ B) (hX : 0 < X) (hx0 : 0 ≤ x) (hxB : x ≤ B)
    (h1 : |x - X| ≤ ε * (X + 1 / B)) (h2 : |y - (1 + x)| ≤ ε * (1 + x + 1 / B)) (hy1 : 1 ≤ y)
    (h3 : |q - 1 / y| ≤ ε * (1 / y + 1 / B)) (h4 : |c - q * x| ≤ ε * (|q * x| + 1 / B)) :
    |q * x - X / (1 + X)| ≤ 6 * ε ∧ |q * x| ≤ 2 ∧ |c - X / (1 + X)| ≤ 9 * ε := by
  have hB' : 0 < 1 / B := by positivity
  have hB1 : 1 / B ≤ 1 := by rw [div_le_one (by linarith)]; exact hB
  have hy : 7 / 8 * x ≤ y := by
    have := (abs_le.1 h2).1
    have h5 : ε * (1 + x + 1 / B) ≤ 1 / 8 * (1 + x + 1) :=
      mul_le_mul hs (by linarith) (by linarith) (by norm_num)
    linarith
  have hxy : x / y ≤ 8 / 7 := by rw [div_le_iff₀ (by linarith)]; linarith
  have hxy0 : 0 ≤ x / y := by positivity
  have hxB' : x * (1 / B) ≤ 1 := by
    rw [mul_one_div, div_le_one (by linarith)]
    exact hxB
  have a1 : |q * x - x / y| ≤ 15 / 7 * ε := by
    have e : q * x - x / y = x * (q - 1 / y) := by ring
    rw [e, abs_mul, abs_of_nonneg hx0]
    have h5 := mul_le_mul_of_nonneg_left h3 hx0
    have h6 : x * (ε * (1 / y + 1 / B)) = ε * (x / y + x * (1 / B)) := by ring
    have h7 : ε * (x / y + x * (1 / B)) ≤ ε * (15 / 7) := mul_le_mul_of_nonneg_left (by linarith) hε
    linarith
  have a2 : |x / y - x / (1 + x)| ≤ 16 / 7 * ε := by
    have e : x / y - x / (1 + x) = x / y * ((1 + x - y) / (1 + x)) := by
      have : y ≠ 0 := by linarith
      have : 1 + x ≠ 0 := by linarith
      field_simp
    rw [e, abs_mul, abs_of_nonneg hxy0, abs_div, abs_of_pos (show 0 < 1 + x by linarith), abs_sub_comm]
    have h5 : |y - (1 + x)| / (1 + x) ≤ 2 * ε := by
      rw [div_le_iff₀ (by linarith)]
      have : ε * (1 + x + 1 / B) ≤ ε * (2 * (1 + x)) := mul_le_mul_of_nonneg_left (by linarith) hε
      linarith
    have h6 : 0 ≤ |y - (1 + x)| / (1 + x) := by positivity
    have := mul_le_mul hxy h5 h6 (by norm_num)
    linarith
  have a3 : |x / (1 + x) - X / (1 + X)| ≤ ε := by
    have e : x / (1 + x) - X / (1 + X) = (x - X) / ((1 + x) * (1 + X)) := by
      have : 1 + X ≠ 0 := by linarith
      have : 1 + x ≠ 0 := by linarith
      field_simp
      ring
    have hp : 0 < (1 + x) * (1 + X) := by positivity
    rw [e, abs_div, abs_of_pos hp, div_le_iff₀ hp]
    have h5 : ε * (X + 1 / B) ≤ ε * (X + 1) := mul_le_mul_of_nonneg_left (by linarith) hε
    have h6 : ε * (X + 1) ≤ ε * ((1 + x) * (1 + X)) := mul_le_mul_of_nonneg_left (by nlinarith) hε
    linarith
  have a4 : |q * x - X / (1 + X)| ≤ 6 * ε := by
    have e : q * x - X / (1 + X) = (q * x - x / y) + (x / y - x / (1 + x)) + (x / (1 + x) - X / (1 + X)) := by ring
    rw [e]
    have := abs_add_le ((q * x - x / y) + (x / y - x / (1 + x))) (x / (1 + x) - X / (1 + X))
    have := abs_add_le (q * x - x / y) (x / y - x / (1 + x))
    linarith
  have a5 : |q * x| ≤ 2 := by
    have h5 : 0 ≤ X / (1 + X) := by positivity
    have h6 : X / (1 + X) ≤ 1 := by rw [div_le_one (by linarith)]; linarith
    obtain ⟨h7, h8⟩ := abs_le.1 a4
    rw [abs_le]
    constructor <;> linarith
  refine ⟨a4, a5, ?_⟩
  have h5 : ε * (|q * x| + 1 / B) ≤ ε * 3 := mul_le_mul_of_nonneg_left (by linarith) hε
  have e : c - X / (1 + X) = (c - q * x) + (q * x - X / (1 + X)) := by ring
  rw [e]
  have := abs_add_le (c - q * x) (q * x - X / (1 + X))
  linarith

/-- Logarithms of numbers that are close. -/
theorem log_close {a b δ : ℝ} (hb : 0 < b) (ha : 1 / 2 * b ≤ a) (h : |a - b| ≤ δ * b) :
    |Real.log a - Real.log b| ≤ 2 * δ := by
  have ha0 : 0 < a := by linarith
  have h0 : 0 ≤ δ := by
    by_contra hn
    have := abs_nonneg (a - b)
    nlinarith
  obtain ⟨h1, h2⟩ := abs_le.1 h
  rw [abs_le]
  constructor
  · have h3 := Real.log_le_sub_one_of_pos (x := b / a) (by positivity)
    rw [Real.log_div hb.ne' ha0.ne'] at h3
    have h4 : b / a - 1 ≤ 2 * δ := by
      rw [sub_le_iff_le_add, div_le_iff₀ ha0]
      nlinarith
    linarith
  · have h3 := Real.log_le_sub_one_of_pos (x := a / b) (by positivity)
    rw [Real.log_div ha0.ne' hb.ne'] at h3
    have h4 : a / b - 1 ≤ δ := by
      rw [sub_le_iff_le_add, div_le_iff₀ hb]
      nlinarith
    linarith

theorem softplus_acc {ε B X x y l : ℝ} (hε : 0 ≤ ε) (hs : ε ≤ 1 / 8) (hB : 1 ≤ B) (hX : 0 < X) (hx0 : 0 ≤ x)
    (h1 : |x - X| ≤ ε * (X + 1 / B)) (h2 : |y - (1 + x)| ≤ ε * (1 + x + 1 / B)) (hy1 : 1 ≤ y)
    (h3 : |l - Real.log y| ≤ ε * (|Real.log y| + 1)) :
    |l - Real.log (1 + X)| ≤ ε * (Real.log (1 + X) + 13) := by
  have hB' : 0 < 1 / B := by positivity
  have hB1 : 1 / B ≤ 1 := by rw [div_le_one (by linarith)]; exact hB
  have k1 : ε * (X + 1 / B) ≤ ε * (1 + X) := mul_le_mul_of_nonneg_left (by linarith) hε
  have k2 : ε * (1 + X) ≤ 1 / 8 * (1 + X) := mul_le_mul_of_nonneg_right hs (by linarith)
  obtain ⟨g1, g2⟩ := abs_le.1 h1
  have k3 : ε * (1 + x + 1 / B) ≤ ε * (25 / 8 * (1 + X)) := mul_le_mul_of_nonneg_left (by linarith) hε
  have k3' : ε * (1 + x + 1 / B) ≤ 1 / 8 * (1 + x + 1) := mul_le_mul hs (by linarith) (by linarith) (by norm_num)
  obtain ⟨g3, g4⟩ := abs_le.1 h2
  have k4 : |y - (1 + X)| ≤ 33 / 8 * ε * (1 + X) := by
    rw [abs_le]
    constructor <;> nlinarith
  have k5 := log_close (show 0 < 1 + X by linarith) (a := y) (by linarith) k4
  have hly : 0 ≤ Real.log y := Real.log_nonneg hy1
  rw [abs_of_nonneg hly] at h3
  obtain ⟨g5, g6⟩ := abs_le.1 k5
  have k6 : ε * (Real.log y + 1) ≤ ε * (Real.log (1 + X) + 4) := mul_le_mul_of_nonneg_left (by linarith) hε
  have e : l - Real.log (1 + X) = (l - Real.log y) + (Real.log y - Real.log (1 + X)) := by ring
  rw [e]
  have := abs_add_le (l - Real.log y) (Real.log y - Real.log (1 + X))
  nlinarith

/-- Rounding errors of a sum of numbers not larger than `k`. -/
theorem treeSum_rel (h : Ieee A) (hε : Relative A ε) (x : List ℝ) (k : ℕ) (hx : ∀ a ∈ x, |a| ≤ k ∧ A.rd a = a) (N : ℕ)
    (hN : k * N ≤ 2 ^ 53) (t : SumTree) (ht : t.leaves.length ≤ N) :
    ∃ w, A.treeSum (x.map .num) t = .num w ∧ A.rd w = w ∧ |w| ≤ k * t.leaves.length ∧
      |w - exactSum x t| ≤ ε * (k * N + 1) * (t.leaves.length - 1) := by
  have hb1 := IeeeK.big_ge_one h
  have hB1 : 1 / A.big ≤ 1 := by rw [div_le_one (by linarith)]; exact hb1
  induction t with
  | leaf i =>
    refine ⟨x.getD i 0, by rw [treeSum, List.getD_map], ?_⟩
    have hz : |x.getD i 0 - exactSum x (.leaf i)| ≤ ε * (k * N + 1) * (((SumTree.leaf i).leaves.length : ℝ) - 1) := by
      simp [exactSum, SumTree.leaves]
    by_cases hi : i < x.length
    · rw [List.getD_eq_getElem _ _ hi] at hz ⊢
      obtain ⟨h1, h2⟩ := hx _ (List.getElem_mem hi)
      exact ⟨h2, by simpa [SumTree.leaves] using h1, hz⟩
    · rw [List.getD_eq_default _ _ (by omega)] at hz ⊢
      exact ⟨IeeeK.rd_zero h, by simp [SumTree.leaves], hz⟩
  | node l r ihl ihr =>
    rw [SumTree.leaves, List.length_append] at ht
    obtain ⟨a, h1, h2, h3, h4⟩ := ihl (by omega)
    obtain ⟨b, g1, g2, g3, g4⟩ := ihr (by omega)
    have hle : k * (l.leaves.length + r.leaves.length) ≤ k * N := Nat.mul_le_mul_left k ht
    have hn : A.rd ((k * (l.leaves.length + r.leaves.length) : ℕ) : ℝ) = ((k * (l.leaves.length + r.leaves.length) : ℕ) : ℝ) :=
      h.nat _ (hle.trans hN)
    have hab : |a + b| ≤ ((k * (l.leaves.length + r.leaves.length) : ℕ) : ℝ) := by
      push_cast
      exact (abs_add_le a b).trans (by linarith)
    have hNr : ((k * (l.leaves.length + r.leaves.length) : ℕ) : ℝ) ≤ k * N := by exact_mod_cast hle
    obtain ⟨h5, h6⟩ := abs_le.1 hab
    have hup : |A.rd (a + b)| ≤ ((k * (l.leaves.length + r.leaves.length) : ℕ) : ℝ) := by
      refine abs_le.2 ⟨?_, ?_⟩
      · have := h.mono h5
        rwa [h.neg, hn] at this
      · have := h.mono h6
        rwa [hn] at this
    have hcast : ((k * (l.leaves.length + r.leaves.length) : ℕ) : ℝ) ≤ A.big := by
      refine le_trans ?_ h.big
      exact_mod_cast hle.trans hN
    have hlen : (SumTree.node l r).leaves.length = l.leaves.length + r.leaves.length := by
      rw [SumTree.leaves, List.length_append]
    refine ⟨A.rd (a + b), ?_, h.idem _, ?_, ?_⟩
    · rw [treeSum, h1, g1]
      exact IeeeK.round_num h (hup.trans hcast)
    · rw [hlen]
      exact_mod_cast hup
    · rw [hlen, exactSum]
      have h7 := hε.rd (a + b)
      have h8 : ε * (|a + b| + 1 / A.big) ≤ ε * (k * N + 1) := mul_le_mul_of_nonneg_left (by linarith) hε.nonneg
      have h9 : |A.rd (a + b) - (exactSum x l + exactSum x r)| ≤
          |A.rd (a + b) - (a + b)| + (|a - exactSum x l| + |b - exactSum x r|) := by
        have e : A.rd (a + b) - (exactSum x l + exactSum x r) =
            (A.rd (a + b) - (a + b)) + ((a - exactSum x l) + (b - exactSum x r)) := by ring
        rw [e]
        exact (abs_add_le _ _).trans (add_le_add_right (abs_add_le _ _) _)
      push_cast
      nlinarith

/-- The parts of one term, if `1 + exp(2 E)` is in range. -/
theorem parts (h : Ieee A) (hε : Relative A ε) {e : ℝ} (he : A.rd e = e) (hb : |2 * e| ≤ A.big) (hr : InRange A (2 * e)) :
    A.exp (A.mul (.num 2) (.num e)) = .num (A.expf (2 * e)) ∧ 1 ≤ A.rd (1 + A.expf (2 * e)) ∧
      A.add (.num 1) (A.exp (A.mul (.num 2) (.num e))) = .num (A.rd (1 + A.expf (2 * e))) := by
  have e1 : A.mul (.num 2) (.num e) = .num (2 * e) := IeeeK.round_self h (hε.double e he) hb
  have e2 : A.exp (.num (2 * e)) = .num (A.expf (2 * e)) := if_neg (not_lt.2 hr.1)
  have h0 := hε.exp_nonneg (2 * e)
  have h1 : 1 ≤ A.rd (1 + A.expf (2 * e)) := by
    have := h.mono (show 1 ≤ 1 + A.expf (2 * e) by linarith)
    rwa [IeeeK.rd_one h] at this
  refine ⟨by rw [e1, e2], h1, ?_⟩
  rw [e1, e2]
  exact IeeeK.round_num h (abs_le.2 ⟨by linarith [IeeeK.big_ge_one h], hr.2⟩)

theorem condProb_acc (h : Ieee A) (hε : Relative A ε) {e : ℝ} (he : A.rd e = e) (hb : |2 * e| ≤ A.big)
    (hr : InRange A (2 * e)) :
    ∃ c, condProbFl A (.num e) = .num c ∧ A.rd c = c ∧ 0 ≤ c ∧ c ≤ 2 ∧
      |c - Real.exp (2 * e) / (1 + Real.exp (2 * e))| ≤ 9 * ε := by
  obtain ⟨p1, p2, p3⟩ := parts h hε he hb hr
  have hb1 := IeeeK.big_ge_one h
  have hbig : (2 : ℝ) ≤ A.big := le_trans (by norm_num) h.big
  obtain ⟨x, hx⟩ : ∃ x, x = A.expf (2 * e) := ⟨_, rfl⟩
  obtain ⟨y, hy⟩ : ∃ y, y = A.rd (1 + x) := ⟨_, rfl⟩
  have hx0 : 0 ≤ x := hx ▸ hε.exp_nonneg (2 * e)
  have hxr : A.rd x = x := hx ▸ h.exp_rd (2 * e)
  unfold condProbFl
  rw [p3, p1]
  rw [← hx] at p2 ⊢
  rw [← hy] at p2 ⊢
  have hq0 : 0 ≤ A.rd (1 / y) := by
    have := h.mono (show 0 ≤ 1 / y by positivity)
    rwa [IeeeK.rd_zero h] at this
  have hq1 : A.rd (1 / y) ≤ 1 := by
    have := h.mono (show 1 / y ≤ 1 by rw [div_le_one (by linarith)]; exact p2)
    rwa [IeeeK.rd_one h] at this
  have er : A.recip (.num y) = .num (A.rd (1 / y)) := by
    show (if y = 0 then _ else _) = _
    rw [if_neg (by linarith)]
    exact IeeeK.round_num h (abs_le.2 ⟨by linarith, by linarith⟩)
  rw [er]
  have hexp := hε.exp (2 * e) hr.1
  rw [← hx] at hexp
  have k2 := hε.rd (1 + x)
  rw [← hy, abs_of_nonneg (show 0 ≤ 1 + x by linarith)] at k2
  have k3 := hε.rd (1 / y)
  rw [abs_of_nonneg (show 0 ≤ 1 / y by positivity)] at k3
  obtain ⟨-, a2, a3⟩ := sigmoid_acc hε.nonneg hε.small hb1 (Real.exp_pos (2 * e)) hx0 (hx ▸ hr.1) hexp k2 p2 k3
    (hε.rd (A.rd (1 / y) * x))
  have hp0 : 0 ≤ A.rd (1 / y) * x := mul_nonneg hq0 hx0
  have hc0 : 0 ≤ A.rd (A.rd (1 / y) * x) := by
    have := h.mono hp0
    rwa [IeeeK.rd_zero h] at this
  have hc2 : A.rd (A.rd (1 / y) * x) ≤ 2 := by
    have := h.mono (show A.rd (1 / y) * x ≤ ((2 : ℕ) : ℝ) by push_cast; exact (le_abs_self _).trans a2)
    rw [h.nat 2 (by norm_num)] at this
    exact_mod_cast this
  refine ⟨_, IeeeK.round_num h (abs_le.2 ⟨by linarith, by linarith⟩), h.idem _, hc0, hc2, a3⟩

theorem condLog_acc (h : Ieee A) (hε : Relative A ε) {e : ℝ} (he : A.rd e = e) (hb : |2 * e| ≤ A.big)
    (hr : InRange A (2 * e)) :
    ∃ l, condLogFl A (.num e) = .num l ∧ A.rd l = l ∧ 0 ≤ l ∧ l ≤ 1024 ∧
      |l - Real.log (1 + Real.exp (2 * e))| ≤ ε * (Real.log (1 + Real.exp (2 * e)) + 13) := by
  obtain ⟨p1, p2, p3⟩ := parts h hε he hb hr
  have hb1 := IeeeK.big_ge_one h
  have hx0 := hε.exp_nonneg (2 * e)
  have k2 := hε.rd (1 + A.expf (2 * e))
  rw [abs_of_nonneg (show 0 ≤ 1 + A.expf (2 * e) by linarith)] at k2
  refine ⟨A.logf (A.rd (1 + A.expf (2 * e))), ?_, hε.log_rd _, h.log_nonneg _ p2, hε.log_le _ p2 hr.2,
    softplus_acc hε.nonneg hε.small hb1 (Real.exp_pos (2 * e)) hx0 (hε.exp _ hr.1) k2 p2 (hε.log _ p2)⟩
  unfold condLogFl
  rw [p3]
  show (if 0 < _ then _ else _) = _
  rw [if_pos (by linarith)]

/-! ### exact functions -/

theorem sigmoid_lip (u v : ℝ) : |Real.exp u / (1 + Real.exp u) - Real.exp v / (1 + Real.exp v)| ≤ |u - v| := by
  wlog huv : v ≤ u generalizing u v
  · rw [abs_sub_comm, abs_sub_comm u v]
    exact this v u (by linarith)
  have hX := Real.exp_pos u
  have hY := Real.exp_pos v
  have e : Real.exp u / (1 + Real.exp u) - Real.exp v / (1 + Real.exp v) =
      (Real.exp u - Real.exp v) / ((1 + Real.exp u) * (1 + Real.exp v)) := by
    have : 1 + Real.exp u ≠ 0 := by linarith
    have : 1 + Real.exp v ≠ 0 := by linarith
    field_simp
    ring
  have h1 := exp_lip_le (a := u) (b := v) (c := u) le_rfl huv
  have hp : 0 < (1 + Real.exp u) * (1 + Real.exp v) := by positivity
  rw [e, abs_div, abs_of_pos hp, div_le_iff₀ hp]
  refine h1.trans ?_
  rw [mul_comm]
  exact mul_le_mul_of_nonneg_left (by nlinarith) (abs_nonneg _)

theorem softplus_lip (u v : ℝ) : |Real.log (1 + Real.exp u) - Real.log (1 + Real.exp v)| ≤ |u - v| := by
  wlog huv : v ≤ u generalizing u v
  · rw [abs_sub_comm, abs_sub_comm u v]
    exact this v u (by linarith)
  have hX := Real.exp_pos u
  have hY := Real.exp_pos v
  have hXY := Real.exp_le_exp.2 huv
  have h1 : Real.log (1 + Real.exp v) ≤ Real.log (1 + Real.exp u) := Real.log_le_log (by linarith) (by linarith)
  rw [abs_of_nonneg (by linarith), abs_of_nonneg (by linarith)]
  have h2 : 1 + Real.exp u ≤ Real.exp (u - v) * (1 + Real.exp v) := by
    have : Real.exp (u - v) * Real.exp v = Real.exp u := by rw [← Real.exp_add]; congr 1; ring
    have h3 : 1 ≤ Real.exp (u - v) := Real.one_le_exp (by linarith)
    nlinarith
  have h3 := Real.log_le_log (by linarith) h2
  rw [Real.log_mul (Real.exp_pos _).ne' (by linarith), Real.log_exp] at h3
  linarith

theorem softplus_le (u : ℝ) : Real.log (1 + Real.exp u) ≤ |u| + 1 := by
  have h1 := softplus_lip u 0
  rw [sub_zero, Real.exp_zero] at h1
  have h2 := Real.log_le_sub_one_of_pos (x := 1 + 1) (by norm_num)
  have := (abs_le.1 h1).2
  linarith

theorem sum_near {α : Type*} (f g : α → ℝ) (δ : ℝ) (x : List α) (hx : ∀ v ∈ x, |f v - g v| ≤ δ) :
    |(x.map f).sum - (x.map g).sum| ≤ x.length * δ := by
  induction x with
  | nil => simp
  | cons v x ih =>
    have h1 := ih fun w hw => hx w (by simp [hw])
    have h2 := hx v (by simp)
    rw [List.map_cons, List.map_cons, List.sum_cons, List.sum_cons, List.length_cons]
    have e : f v + (x.map f).sum - (g v + (x.map g).sum) = (f v - g v) + ((x.map f).sum - (x.map g).sum) := by ring
    rw [e]
    push_cast
    have := abs_add_le (f v - g v) ((x.map f).sum - (x.map g).sum)
    linarith

/-! ### energies -/

theorem flDot_acc (h : Ieee A) (hε : Relative A ε) (n b : ℕ) (hnb : b * n ≤ 2 ^ 53) (o m : List ℝ) (ho : o.length = n)
    (hov : ∀ v ∈ o, v = 0 ∨ v = 1 ∨ v = -1) (hm : m.length = n) (hmv : ∀ v ∈ m, A.rd v = v ∧ |v| ≤ b) (t : SumTree)
    (ht : t.Adds n) :
    ∃ w, flDot A t (o.map .num) (m.map .num) = .ok (.num w) ∧ A.rd w = w ∧ |w| ≤ b * n ∧
      |w - (List.zipWith (· * ·) o m).sum| ≤ ε * (b * n + 1) * n := by
  have hbb : 1 ≤ n → (b : ℝ) ≤ A.big := fun hn => by
    refine le_trans ?_ h.big
    exact_mod_cast (Nat.le_mul_of_pos_right b hn).trans hnb
  have hz : List.zipWith A.mul (o.map .num) (m.map .num) = (List.zipWith (· * ·) o m).map .num := by
    rw [List.zipWith_map, List.map_zipWith]
    refine List.ext_getElem (by simp) fun i h1 h2 => ?_
    simp only [List.getElem_zipWith]
    rw [List.length_zipWith] at h1
    have hmi := hmv m[i] (List.getElem_mem _)
    have := mul_coeff_big h hmi.1 (hmi.2.trans (hbb (by omega))) (hov o[i] (List.getElem_mem _))
    rw [mul_comm o[i]]
    rw [← this]
    show A.round _ = A.round _
    rw [mul_comm]
  have hl : (List.zipWith (· * ·) o m).length = n := by simp [ho, hm]
  have hx : ∀ a : ℝ, a ∈ List.zipWith (· * ·) o m → |a| ≤ b ∧ A.rd a = a := by
    intro a ha
    obtain ⟨i, hi, rfl⟩ := List.getElem_of_mem ha
    rw [List.getElem_zipWith]
    have hi' : i < n := by omega
    have hmi := hmv (m[i]'(by omega)) (List.getElem_mem _)
    have hoi := hov (o[i]'(by omega)) (List.getElem_mem _)
    rcases hoi with e | e | e <;> rw [e]
    · rw [zero_mul, abs_zero]
      exact ⟨Nat.cast_nonneg b, IeeeK.rd_zero h⟩
    · rw [one_mul]
      exact hmi.symm
    · rw [neg_one_mul, abs_neg, h.neg, hmi.1]
      exact ⟨hmi.2, rfl⟩
  have htl : t.leaves.length = n := by rw [ht.length_eq, List.length_range]
  obtain ⟨w, h1, h2, h3, h4⟩ := treeSum_rel h hε _ b hx n hnb t htl.le
  refine ⟨w, ?_, h2, by rw [htl] at h3; exact h3, ?_⟩
  · unfold flDot
    rw [if_pos (by simp [ho, hm]), hz, h1]
  · rw [exactSum_adds _ t (by rw [hl]; exact ht), htl] at h4
    refine h4.trans (mul_le_mul_of_nonneg_left (by linarith) (mul_nonneg hε.nonneg (by positivity)))

theorem mapM_oks {α β : Type} (f : α → Py β) (g : α → β) (l : List α) (hf : ∀ x ∈ l, f x = .ok (g x)) :
    l.mapM f = .ok (l.map g) := by
  induction l with
  | nil => rfl
  | cons x l ih =>
    rw [List.mapM_cons, hf x (by simp), ih fun y hy => hf y (by simp [hy])]
    rfl

/-- One column of the gradient, and the logarithms. -/
theorem sums_acc (h : Ieee A) (hε : Relative A ε) (obs : List (List ℝ)) (f g : List ℝ → ℝ) (η : ℝ) (M : ℝ)
    (hS : 1024 * obs.length ≤ 2 ^ 53)
    (hf : ∀ o ∈ obs, A.rd (f o) = f o ∧ |2 * f o| ≤ A.big ∧ InRange A (2 * f o) ∧ |f o - g o| ≤ η ∧ |2 * f o| ≤ M)
    (hov : ∀ o ∈ obs, ∀ v ∈ o, v = 0 ∨ v = 1 ∨ v = -1) :
    (∀ t : SumTree, t.Adds obs.length → ∃ w, A.treeSum (obs.map fun o => condLogFl A (.num (f o))) t = .num w ∧
      |w - (obs.map fun o => Real.log (1 + Real.exp (2 * g o))).sum| ≤
        obs.length * (ε * (1024 * obs.length + 15 + M) + 2 * η)) ∧
    ∀ (a : ℕ) (t : SumTree), t.Adds obs.length → ∃ w,
      A.treeSum (obs.map fun o => A.mul (A.mul (neg (condProbFl A (.num (f o)))) (.num 2)) (.num (o.getD a 0))) t = .num w ∧
      |w - (obs.map fun o => -(1 / (1 + Real.exp (2 * g o)) * Real.exp (2 * g o)) * 2 * o.getD a 0).sum| ≤
        obs.length * (ε * (4 * obs.length + 19) + 4 * η) := by
  have hε0 := hε.nonneg
  have hbig : (4 : ℝ) ≤ A.big := le_trans (by norm_num) h.big
  have hS' : (0 : ℝ) ≤ obs.length := Nat.cast_nonneg _
  constructor
  · intro t ht
    have htl : t.leaves.length = obs.length := by rw [ht.length_eq, List.length_range]
    have hl : ∀ o : List ℝ, ∃ l, o ∈ obs → condLogFl A (.num (f o)) = .num l ∧ A.rd l = l ∧ 0 ≤ l ∧ l ≤ 1024 ∧
        |l - Real.log (1 + Real.exp (2 * f o))| ≤ ε * (Real.log (1 + Real.exp (2 * f o)) + 13) := by
      intro o
      by_cases ho : o ∈ obs
      · obtain ⟨h1, h2, h3, -, -⟩ := hf o ho
        obtain ⟨l, hl⟩ := condLog_acc h hε h1 h2 h3
        exact ⟨l, fun _ => hl⟩
      · exact ⟨0, fun hh => absurd hh ho⟩
    choose l hl using hl
    have e1 : obs.map (fun o => condLogFl A (.num (f o))) = (obs.map l).map .num := by
      rw [List.map_map]
      exact List.map_congr_left fun o ho => (hl o ho).1
    obtain ⟨w, h1, -, -, h4⟩ := treeSum_rel h hε (obs.map l) 1024 (fun a ha => by
      obtain ⟨o, ho, rfl⟩ := List.mem_map.1 ha
      obtain ⟨-, g2, g3, g4, -⟩ := hl o ho
      exact ⟨by rw [abs_of_nonneg g3]; push_cast; exact g4, g2⟩) obs.length hS t htl.le
    refine ⟨w, by rw [e1]; exact h1, ?_⟩
    rw [exactSum_adds _ t (by rw [List.length_map]; exact ht), htl] at h4
    have h5 := sum_near l (fun o => Real.log (1 + Real.exp (2 * g o))) (ε * (M + 14) + 2 * η) obs (fun o ho => by
      obtain ⟨-, -, -, -, g5⟩ := hl o ho
      obtain ⟨-, -, -, k4, k5⟩ := hf o ho
      have k6 := softplus_lip (2 * f o) (2 * g o)
      have k7 : |2 * f o - 2 * g o| = 2 * |f o - g o| := by rw [← mul_sub, abs_mul, abs_of_pos (by norm_num : (0 : ℝ) < 2)]
      have k8 := softplus_le (2 * f o)
      have k9 : ε * (Real.log (1 + Real.exp (2 * f o)) + 13) ≤ ε * (M + 14) := mul_le_mul_of_nonneg_left (by linarith) hε0
      have := abs_add_le (l o - Real.log (1 + Real.exp (2 * f o))) (Real.log (1 + Real.exp (2 * f o)) - Real.log (1 + Real.exp (2 * g o)))
      rw [sub_add_sub_cancel] at this
      linarith)
    have := abs_add_le (w - (obs.map l).sum) ((obs.map l).sum - (obs.map fun o => Real.log (1 + Real.exp (2 * g o))).sum)
    rw [sub_add_sub_cancel] at this
    push_cast at h4
    have h6 : ε * (1024 * obs.length + 1) * (obs.length - 1) ≤ ε * (1024 * obs.length + 1) * obs.length :=
      mul_le_mul_of_nonneg_left (by linarith) (mul_nonneg hε0 (by linarith))
    nlinarith
  · intro a t ht
    have htl : t.leaves.length = obs.length := by rw [ht.length_eq, List.length_range]
    have hl : ∀ o : List ℝ, ∃ c, o ∈ obs → condProbFl A (.num (f o)) = .num c ∧ A.rd c = c ∧ 0 ≤ c ∧ c ≤ 2 ∧
        |c - Real.exp (2 * f o) / (1 + Real.exp (2 * f o))| ≤ 9 * ε := by
      intro o
      by_cases ho : o ∈ obs
      · obtain ⟨h1, h2, h3, -, -⟩ := hf o ho
        obtain ⟨l, hl⟩ := condProb_acc h hε h1 h2 h3
        exact ⟨l, fun _ => hl⟩
      · exact ⟨0, fun hh => absurd hh ho⟩
    choose c hc using hl
    have ho' : ∀ o ∈ obs, o.getD a 0 = 0 ∨ o.getD a 0 = 1 ∨ o.getD a 0 = -1 := by
      intro o ho
      by_cases ha : a < o.length
      · rw [List.getD_eq_getElem _ _ ha]
        exact hov o ho _ (List.getElem_mem _)
      · rw [List.getD_eq_default _ _ (by omega)]
        exact Or.inl rfl
    have hterm : ∀ o ∈ obs, A.rd (2 * -c o) = 2 * -c o ∧ |2 * -c o| ≤ 4 := by
      intro o ho
      obtain ⟨-, g2, g3, g4, -⟩ := hc o ho
      refine ⟨hε.double _ (by rw [h.neg, g2]), ?_⟩
      rw [abs_le]
      constructor <;> linarith
    have e1 : obs.map (fun o => A.mul (A.mul (neg (condProbFl A (.num (f o)))) (.num 2)) (.num (o.getD a 0))) =
        (obs.map fun o => 2 * -c o * o.getD a 0).map .num := by
      rw [List.map_map]
      refine List.map_congr_left fun o ho => ?_
      obtain ⟨h1, h2⟩ := hterm o ho
      rw [(hc o ho).1]
      have e2 : A.mul (neg (.num (c o))) (.num 2) = .num (2 * -c o) := by
        show A.round (-c o * 2) = _
        rw [mul_comm]
        exact IeeeK.round_self h h1 (h2.trans hbig)
      rw [e2, mul_coeff_big h h1 (h2.trans hbig) (ho' o ho)]
      rfl
    obtain ⟨w, h1, -, -, h4⟩ := treeSum_rel h hε (obs.map fun o => 2 * -c o * o.getD a 0) 4 (fun v hv => by
      obtain ⟨o, ho, rfl⟩ := List.mem_map.1 hv
      obtain ⟨h1, h2⟩ := hterm o ho
      rcases ho' o ho with e | e | e <;> rw [e]
      · rw [mul_zero, abs_zero]
        exact ⟨by norm_num, IeeeK.rd_zero h⟩
      · rw [mul_one]
        exact ⟨by push_cast; exact h2, h1⟩
      · rw [mul_neg_one, abs_neg, h.neg, h1]
        exact ⟨by push_cast; exact h2, rfl⟩) obs.length (by omega) t htl.le
    refine ⟨w, by rw [e1]; exact h1, ?_⟩
    rw [exactSum_adds _ t (by rw [List.length_map]; exact ht), htl] at h4
    have h5 := sum_near (fun o => 2 * -c o * o.getD a 0)
      (fun o => -(1 / (1 + Real.exp (2 * g o)) * Real.exp (2 * g o)) * 2 * o.getD a 0) (18 * ε + 4 * η) obs (fun o ho => by
      obtain ⟨-, -, -, -, g5⟩ := hc o ho
      obtain ⟨-, -, -, k4, -⟩ := hf o ho
      have k6 := sigmoid_lip (2 * f o) (2 * g o)
      have k7 : |2 * f o - 2 * g o| = 2 * |f o - g o| := by rw [← mul_sub, abs_mul, abs_of_pos (by norm_num : (0 : ℝ) < 2)]
      have k8 : |o.getD a 0| ≤ 1 := by rcases ho' o ho with e | e | e <;> rw [e] <;> norm_num
      have e : 2 * -c o * o.getD a 0 - -(1 / (1 + Real.exp (2 * g o)) * Real.exp (2 * g o)) * 2 * o.getD a 0 =
          -2 * (c o - Real.exp (2 * g o) / (1 + Real.exp (2 * g o))) * o.getD a 0 := by ring
      rw [e, abs_mul, abs_mul, abs_neg, abs_of_pos (by norm_num : (0 : ℝ) < 2)]
      have k9 := abs_add_le (c o - Real.exp (2 * f o) / (1 + Real.exp (2 * f o)))
        (Real.exp (2 * f o) / (1 + Real.exp (2 * f o)) - Real.exp (2 * g o) / (1 + Real.exp (2 * g o)))
      rw [sub_add_sub_cancel] at k9
      have k10 : 2 * |c o - Real.exp (2 * g o) / (1 + Real.exp (2 * g o))| * |o.getD a 0| ≤
          2 * |c o - Real.exp (2 * g o) / (1 + Real.exp (2 * g o))| * 1 :=
        mul_le_mul_of_nonneg_left k8 (by positivity)
      linarith)
    have := abs_add_le (w - (obs.map fun o => 2 * -c o * o.getD a 0).sum) ((obs.map fun o => 2 * -c o * o.getD a 0).sum -
      (obs.map fun o => -(1 / (1 + Real.exp (2 * g o)) * Real.exp (2 * g o)) * 2 * o.getD a 0).sum)
    rw [sub_add_sub_cancel] at this
    push_cast at h4
    have h6 : ε * (4 * obs.length + 1) * (obs.length - 1) ≤ ε * (4 * obs.length + 1) * obs.length :=
      mul_le_mul_of_nonneg_left (by linarith) (mul_nonneg hε0 (by linarith))
    nlinarith

/-! ### overflow -/

/-- Numbers that are not negative, and plus infinity. -/
def NonnegFl (v : Fl) : Prop := v = .inf false ∨ ∃ x, v = .num x ∧ 0 ≤ x

theorem add_nonnegFl (h : Ieee A) {v w : Fl} (hv : NonnegFl v) (hw : NonnegFl w) :
    NonnegFl (A.add v w) ∧ (v = .inf false ∨ w = .inf false → A.add v w = .inf false) := by
  rcases hv with rfl | ⟨x, rfl, hx⟩ <;> rcases hw with rfl | ⟨y, rfl, hy⟩
  · exact ⟨Or.inl rfl, fun _ => rfl⟩
  · exact ⟨Or.inl rfl, fun _ => rfl⟩
  · exact ⟨Or.inl rfl, fun _ => rfl⟩
  · refine ⟨?_, fun hh => by rcases hh with hh | hh <;> cases hh⟩
    have h0 : 0 ≤ A.rd (x + y) := by
      have := h.mono (show 0 ≤ x + y by linarith)
      rwa [IeeeK.rd_zero h] at this
    have hb := IeeeK.big_ge_one h
    show NonnegFl (A.round (x + y))
    unfold FlArith.round
    by_cases h1 : A.big < A.rd (x + y)
    · rw [if_pos h1]; exact Or.inl rfl
    · rw [if_neg h1, if_neg (by linarith)]; exact Or.inr ⟨_, rfl, h0⟩

theorem treeSum_inf (h : Ieee A) (x : List Fl) (hx : ∀ v ∈ x, NonnegFl v) (t : SumTree) :
    NonnegFl (A.treeSum x t) ∧ ∀ i ∈ t.leaves, x.getD i (.num 0) = .inf false → A.treeSum x t = .inf false := by
  induction t with
  | leaf j =>
    refine ⟨?_, fun i hi e => ?_⟩
    · show NonnegFl (x.getD j (.num 0))
      by_cases hj : j < x.length
      · rw [List.getD_eq_getElem _ _ hj]
        exact hx _ (List.getElem_mem _)
      · rw [List.getD_eq_default _ _ (by omega)]
        exact Or.inr ⟨0, rfl, le_rfl⟩
    · rw [SumTree.leaves, List.mem_singleton] at hi
      subst hi
      exact e
  | node l r ihl ihr =>
    obtain ⟨h1, h2⟩ := add_nonnegFl h ihl.1 ihr.1
    refine ⟨h1, fun i hi e => ?_⟩
    rw [SumTree.leaves, List.mem_append] at hi
    rcases hi with hi | hi
    · exact h2 (Or.inl (ihl.2 i hi e))
    · exact h2 (Or.inr (ihr.2 i hi e))

theorem condLog_nonneg (h : Ieee A) (hexp : ∀ x, 0 ≤ A.expf x) {v : Fl} (hv : v ≠ .nan) : NonnegFl (condLogFl A v) := by
  have h1 : A.mul (.num 2) v ≠ .nan := by
    cases v with
    | num x =>
      show A.round (2 * x) ≠ _
      unfold FlArith.round
      split
      · simp
      · split <;> simp
    | inf s =>
      show (if (2 : ℝ) = 0 then Fl.nan else _) ≠ _
      rw [if_neg (by norm_num)]
      simp
    | nan => exact absurd rfl hv
  have h2 : NonnegFl (A.exp (A.mul (.num 2) v)) := by
    cases hu : A.mul (.num 2) v with
    | num x =>
      show NonnegFl (if A.big < A.expf x then _ else _)
      split
      · exact Or.inl rfl
      · exact Or.inr ⟨_, rfl, hexp x⟩
    | inf s =>
      cases s
      · exact Or.inl rfl
      · exact Or.inr ⟨0, rfl, le_rfl⟩
    | nan => exact absurd hu h1
  unfold condLogFl
  have hb := IeeeK.big_ge_one h
  rcases h2 with e | ⟨x, e, hx⟩ <;> rw [e]
  · exact Or.inl rfl
  · have h3 : 1 ≤ A.rd (1 + x) := by
      have := h.mono (show 1 ≤ 1 + x by linarith)
      rwa [IeeeK.rd_one h] at this
    show NonnegFl (A.log (A.round (1 + x)))
    unfold FlArith.round
    by_cases h4 : A.big < A.rd (1 + x)
    · rw [if_pos h4]; exact Or.inl rfl
    · rw [if_neg h4, if_neg (by linarith)]
      show NonnegFl (if 0 < A.rd (1 + x) then _ else _)
      rw [if_pos (by linarith)]
      exact Or.inr ⟨_, rfl, h.log_nonneg _ h3⟩

end Verif.Lemmas
