/-
Accuracy of the floating-point `fast_logsumexp`.
-/
import Verif.Lemmas.FloatLse
import Verif.Spec.FloatAcc

namespace Verif.Lemmas
open Verif Verif.Model Verif.Spec FlArith

/-! ### real functions -/

theorem exp_lip_le {a b c : ℝ} (ha : a ≤ c) (hb : b ≤ c) : |Real.exp a - Real.exp b| ≤ Real.exp c * |a - b| := by
  wlog hab : b ≤ a generalizing a b
  · rw [abs_sub_comm, abs_sub_comm a b]
    exact this hb ha (by linarith)
  have h1 : Real.exp b ≤ Real.exp a := Real.exp_le_exp.2 hab
  rw [abs_of_nonneg (by linarith), abs_of_nonneg (by linarith)]
  have h2 : Real.exp b = Real.exp a * Real.exp (b - a) := by rw [← Real.exp_add]; congr 1; ring
  have h3 := Real.add_one_le_exp (b - a)
  have h4 : Real.exp a ≤ Real.exp c := Real.exp_le_exp.2 ha
  have h5 := Real.exp_pos a
  calc Real.exp a - Real.exp b = Real.exp a * (1 - Real.exp (b - a)) := by rw [h2]; ring
    _ ≤ Real.exp a * (a - b) := mul_le_mul_of_nonneg_left (by linarith) h5.le
    _ ≤ Real.exp c * (a - b) := mul_le_mul_of_nonneg_right h4 (by linarith)

theorem log_lip {a b : ℝ} (ha : 1 ≤ a) (hb : 1 ≤ b) : |Real.log a - Real.log b| ≤ |a - b| := by
  wlog hab : b ≤ a generalizing a b
  · rw [abs_sub_comm, abs_sub_comm a b]
    exact this hb ha (by linarith)
  have h1 : Real.log b ≤ Real.log a := Real.log_le_log (by linarith) hab
  rw [abs_of_nonneg (by linarith), abs_of_nonneg (by linarith), ← Real.log_div (by linarith) (by linarith)]
  have h2 := Real.log_le_sub_one_of_pos (x := a / b) (by positivity)
  have h3 : a / b - 1 ≤ a - b := by
    rw [div_sub_one (by linarith), div_le_iff₀ (by linarith)]
    nlinarith
  linarith

theorem exp_le_inv {x : ℝ} (hx : x < 1) : Real.exp x ≤ 1 / (1 - x) := by
  rw [le_div_iff₀ (by linarith)]
  have h1 := Real.add_one_le_exp (-x)
  have h2 : Real.exp x * Real.exp (-x) = 1 := by rw [← Real.exp_add]; simp
  have h3 := Real.exp_pos x
  nlinarith

theorem mul_exp_half (t : ℝ) : t * Real.exp (-t / 2) ≤ 2 := by
  have h1 := Real.add_one_le_exp (t / 2)
  have h2 : Real.exp (t / 2) * Real.exp (-t / 2) = 1 := by rw [← Real.exp_add]; ring_nf; simp
  have h3 := Real.exp_pos (-t / 2)
  nlinarith

theorem exp_close {ε R l e y : ℝ} (hε : 0 ≤ ε) (hsm : 4 * (ε * R) ≤ 1) (hsc : 19 ≤ R) (hε2 : ε ≤ 1 / 76) (ha0 : 0 ≤ l)
    (h7 : |e - y| ≤ ε * (R + 4 * l)) (hy : (y ≤ 1 / 4 ∧ 8 * l ≤ R) ∨ y ≤ -l) :
    e ≤ 5 / 8 ∧ |Real.exp e - Real.exp y| ≤ 4 * (ε * R) := by
  have h8 := (abs_le.1 h7).2
  have hεR : ε * (R + 4 * l) = ε * R + 4 * (ε * l) := by ring
  have hR0 : 0 ≤ ε * R := mul_nonneg hε (by linarith)
  rcases hy with ⟨hy, hl⟩ | hy
  · have h9 : ε * l ≤ ε * (R / 8) := mul_le_mul_of_nonneg_left (by linarith) hε
    have h10 : ε * (R + 4 * l) ≤ (3 / 2) * (ε * R) := by
      rw [hεR]
      have : ε * (R / 8) = (ε * R) / 8 := by ring
      linarith
    have h11 : e ≤ 5 / 8 := by linarith
    refine ⟨h11, ?_⟩
    have h12 := exp_lip_le (a := e) (b := y) (c := 5 / 8) h11 (by linarith)
    have h13 : Real.exp (5 / 8) ≤ 8 / 3 := (exp_le_inv (by norm_num)).trans (by norm_num)
    calc _ ≤ Real.exp (5 / 8) * |e - y| := h12
      _ ≤ (8 / 3) * ((3 / 2) * (ε * R)) := mul_le_mul h13 (by linarith) (abs_nonneg _) (by norm_num)
      _ = 4 * (ε * R) := by ring
  · have hεl : ε * l ≤ (1 / 76) * l := mul_le_mul_of_nonneg_right hε2 ha0
    have h10 : e ≤ -l / 2 + 1 / 4 := by linarith
    refine ⟨by linarith, ?_⟩
    have h12 := exp_lip_le (a := e) (b := y) (c := -l / 2 + 1 / 4) h10 (by linarith)
    have h13 : Real.exp (1 / 4) ≤ 4 / 3 := (exp_le_inv (by norm_num)).trans (by norm_num)
    have h14 := mul_exp_half l
    have h15 : Real.exp (-l / 2) ≤ 1 := Real.exp_le_one_iff.2 (by linarith)
    have h16 : Real.exp (-l / 2) * (R + 4 * l) ≤ R + 8 := by
      have : Real.exp (-l / 2) * R ≤ 1 * R := mul_le_mul_of_nonneg_right h15 (by linarith)
      linarith
    rw [Real.exp_add] at h12
    have hp := Real.exp_pos (-l / 2)
    have hp4 := Real.exp_pos (1 / 4)
    calc _ ≤ Real.exp (-l / 2) * Real.exp (1 / 4) * |e - y| := h12
      _ ≤ Real.exp (-l / 2) * Real.exp (1 / 4) * (ε * (R + 4 * l)) := mul_le_mul_of_nonneg_left h7 (by positivity)
      _ = Real.exp (1 / 4) * (ε * (Real.exp (-l / 2) * (R + 4 * l))) := by ring
      _ ≤ (4 / 3) * (ε * (R + 8)) := mul_le_mul h13 (mul_le_mul_of_nonneg_left h16 hε)
          (mul_nonneg hε (mul_nonneg hp.le (by linarith))) (by norm_num)
      _ ≤ (4 / 3) * (ε * (2 * R)) := mul_le_mul_of_nonneg_left (mul_le_mul_of_nonneg_left (by linarith) hε) (by norm_num)
      _ = (8 / 3) * (ε * R) := by ring
      _ ≤ 4 * (ε * R) := by linarith

variable {A : FlArith} {ε : ℝ}

/-- The exponential of a rounded number. -/
theorem exp_rd_acc (hε : Accurate A ε) (h2 : ε ≤ 1 / 2) {x : ℝ} (hx : x ≤ 0) (hd : A.rd x ≤ 0) :
    |A.expf (A.rd x) - Real.exp x| ≤ 4 * ε := by
  have h0 := hε.nonneg
  have h3 := hε.exp (A.rd x) (by linarith)
  have h4 : Real.exp (A.rd x) ≤ 1 := Real.exp_le_one_iff.2 hd
  have h5 := hε.rd x
  rw [abs_of_nonpos hx] at h5
  have h6 : |Real.exp (A.rd x) - Real.exp x| ≤ 2 * ε := by
    have h7 := exp_lip_le (a := A.rd x) (b := x) (c := (x - 1) / 2 + 1) (by
      have := (abs_le.1 h5).2
      nlinarith) (by linarith)
    have h8 := Real.add_one_le_exp (-((x - 1) / 2 + 1))
    have h9 : Real.exp ((x - 1) / 2 + 1) * Real.exp (-((x - 1) / 2 + 1)) = 1 := by rw [← Real.exp_add]; simp
    have h10 := Real.exp_pos ((x - 1) / 2 + 1)
    have h11 : Real.exp ((x - 1) / 2 + 1) * (-x + 1) ≤ 2 := by nlinarith
    calc _ ≤ Real.exp ((x - 1) / 2 + 1) * |A.rd x - x| := h7
      _ ≤ Real.exp ((x - 1) / 2 + 1) * (ε * (-x + 1)) := mul_le_mul_of_nonneg_left h5 h10.le
      _ = ε * (Real.exp ((x - 1) / 2 + 1) * (-x + 1)) := by ring
      _ ≤ ε * 2 := mul_le_mul_of_nonneg_left h11 h0
      _ = 2 * ε := by ring
  have h12 : ε * (Real.exp (A.rd x) + 1) ≤ ε * 2 := mul_le_mul_of_nonneg_left (by linarith) h0
  have := abs_sub_le (A.expf (A.rd x)) (Real.exp (A.rd x)) (Real.exp x)
  linarith

/-- The exact sum in an order. -/
noncomputable def exactSum (x : List ℝ) : SumTree → ℝ
  | .leaf i => x.getD i 0
  | .node l r => exactSum x l + exactSum x r

theorem exactSum_leaves (x : List ℝ) (t : SumTree) : exactSum x t = (t.leaves.map fun i => x.getD i 0).sum := by
  induction t with
  | leaf i => simp [exactSum, SumTree.leaves]
  | node l r ihl ihr => rw [exactSum, SumTree.leaves, List.map_append, List.sum_append, ihl, ihr]

theorem exactSum_adds (x : List ℝ) (t : SumTree) (ht : t.Adds x.length) : exactSum x t = x.sum := by
  rw [exactSum_leaves, (ht.map _).sum_eq]
  congr 1
  refine List.ext_getElem (by simp) fun i h1 h2 => ?_
  simp [h2]

/-- Rounding errors of a sum. -/
theorem treeSum_acc (h : Ieee A) (hε : Accurate A ε) (x : List ℝ) (hx : ∀ a ∈ x, |a| ≤ 1 ∧ A.rd a = a) (N : ℕ) (hN : N ≤ 2 ^ 53)
    (t : SumTree) (ht : t.leaves.length ≤ N) :
    ∃ w, A.treeSum (x.map .num) t = .num w ∧ A.rd w = w ∧ |w| ≤ t.leaves.length ∧
      |w - exactSum x t| ≤ ε * (N + 1) * (t.leaves.length - 1) := by
  induction t with
  | leaf i =>
    refine ⟨x.getD i 0, by rw [treeSum, List.getD_map], ?_⟩
    have hz : |x.getD i 0 - exactSum x (.leaf i)| ≤ ε * (N + 1) * (((SumTree.leaf i).leaves.length : ℝ) - 1) := by
      simp [exactSum, SumTree.leaves]
    by_cases hi : i < x.length
    · rw [List.getD_eq_getElem _ _ hi] at hz ⊢
      obtain ⟨h1, h2⟩ := hx _ (List.getElem_mem hi)
      exact ⟨h2, by simpa [SumTree.leaves] using h1, hz⟩
    · rw [List.getD_eq_default _ _ (by omega)] at hz ⊢
      exact ⟨IeeeK.rd_zero h, by simp [SumTree.leaves], hz⟩
  | node l r ihl ihr =>
    rw [SumTree.leaves, List.length_append] at ht
    obtain ⟨a, h1, h2, h3, h4⟩ := ihl (by omega)
    obtain ⟨b, g1, g2, g3, g4⟩ := ihr (by omega)
    have hn : A.rd ((l.leaves.length + r.leaves.length : ℕ) : ℝ) = ((l.leaves.length + r.leaves.length : ℕ) : ℝ) :=
      h.nat _ (by omega)
    have hab : |a + b| ≤ ((l.leaves.length + r.leaves.length : ℕ) : ℝ) := by
      push_cast
      exact (abs_add_le a b).trans (by linarith)
    have hNr : ((l.leaves.length + r.leaves.length : ℕ) : ℝ) ≤ N := by exact_mod_cast ht
    obtain ⟨h5, h6⟩ := abs_le.1 hab
    have hup : |A.rd (a + b)| ≤ ((l.leaves.length + r.leaves.length : ℕ) : ℝ) := by
      refine abs_le.2 ⟨?_, ?_⟩
      · have := h.mono h5
        rwa [h.neg, hn] at this
      · have := h.mono h6
        rwa [hn] at this
    have hcast : ((l.leaves.length + r.leaves.length : ℕ) : ℝ) ≤ A.big := by
      refine le_trans ?_ h.big
      exact_mod_cast ht.trans hN
    have hlen : (SumTree.node l r).leaves.length = l.leaves.length + r.leaves.length := by
      rw [SumTree.leaves, List.length_append]
    refine ⟨A.rd (a + b), ?_, h.idem _, by rw [hlen]; exact hup, ?_⟩
    · rw [treeSum, h1, g1]
      exact IeeeK.round_num h (hup.trans hcast)
    · rw [hlen, exactSum]
      have h7 := hε.rd (a + b)
      have h8 : ε * (|a + b| + 1) ≤ ε * (N + 1) := mul_le_mul_of_nonneg_left (by linarith) hε.nonneg
      have h9 : |A.rd (a + b) - (exactSum x l + exactSum x r)| ≤
          |A.rd (a + b) - (a + b)| + (|a - exactSum x l| + |b - exactSum x r|) := by
        have e : A.rd (a + b) - (exactSum x l + exactSum x r) =
            (A.rd (a + b) - (a + b)) + ((a - exactSum x l) + (b - exactSum x r)) := by ring
        rw [e]
        exact (abs_add_le _ _).trans (add_le_add_right (abs_add_le _ _) _)
      push_cast
      nlinarith

/-- Sums of numbers that are close. -/
theorem sum_close (f g : ℝ → ℝ) (δ : ℝ) (x : List ℝ) (hx : ∀ v ∈ x, |f v - g v| ≤ δ) :
    |(x.map f).sum - (x.map g).sum| ≤ x.length * δ := by
  induction x with
  | nil => simp
  | cons v x ih =>
    have h1 := ih fun w hw => hx w (by simp [hw])
    have h2 := hx v (by simp)
    rw [List.map_cons, List.map_cons, List.sum_cons, List.sum_cons, List.length_cons]
    have e : f v + (x.map f).sum - (g v + (x.map g).sum) = (f v - g v) + ((x.map f).sum - (x.map g).sum) := by ring
    rw [e]
    refine (abs_add_le _ _).trans ?_
    push_cast
    linarith

theorem sum_exp_bounds (x : List ℝ) (M : ℝ) (hM : M ∈ x) (hmax : ∀ v ∈ x, v ≤ M) :
    1 ≤ (x.map fun v => Real.exp (v - M)).sum ∧ (x.map fun v => Real.exp (v - M)).sum ≤ x.length := by
  constructor
  · have : Real.exp (M - M) ≤ (x.map fun v => Real.exp (v - M)).sum :=
      List.single_le_sum (fun y hy => by
        obtain ⟨v, -, rfl⟩ := List.mem_map.1 hy
        exact (Real.exp_pos _).le) _ (List.mem_map_of_mem (f := fun v => Real.exp (v - M)) hM)
    simpa using this
  · have := List.sum_le_card_nsmul (x.map fun v => Real.exp (v - M)) 1 (fun y hy => by
        obtain ⟨v, hv, rfl⟩ := List.mem_map.1 hy
        exact Real.exp_le_one_iff.2 (by linarith [hmax v hv]))
    simpa using this

theorem sum_exp_shift (x : List ℝ) (M : ℝ) :
    (x.map Real.exp).sum = Real.exp M * (x.map fun v => Real.exp (v - M)).sum := by
  rw [← List.sum_map_mul_left]
  congr 1
  refine List.map_congr_left fun v _ => ?_
  rw [← Real.exp_add]
  congr 1
  ring

/-- What is assumed about the energies. -/
structure Energies (A : FlArith) (ε m : ℝ) (x : List ℝ) : Prop where
  ieee : Ieee A
  acc : Accurate A ε
  rd : ∀ v ∈ x, A.rd v = v
  le : ∀ v ∈ x, |v| ≤ m
  big : m ≤ A.big / 8
  ne : x ≠ []
  len : x.length ≤ 2 ^ 50
  small : 4 * (ε * errScale x.length m) ≤ 1

namespace Energies
variable {m : ℝ} {x : List ℝ} (H : Energies A ε m x)
include H

theorem one_le : (1 : ℝ) ≤ x.length := by
  have := List.length_pos_iff.2 H.ne
  exact_mod_cast this

theorem m_nonneg : 0 ≤ m := by
  obtain ⟨v, vs, rfl⟩ := List.exists_cons_of_ne_nil H.ne
  exact (abs_nonneg v).trans (H.le v (by simp))

theorem scale_ge : 19 ≤ errScale x.length m := by
  have h1 := H.one_le
  have h2 := H.m_nonneg
  unfold errScale
  nlinarith

theorem eps_le : ε ≤ 1 / 76 := by
  have h1 := H.scale_ge
  have h2 := H.small
  have h3 := H.acc.nonneg
  nlinarith

theorem len_le_big : (8 : ℝ) * x.length ≤ A.big := by
  refine le_trans ?_ H.ieee.big
  have : (x.length : ℝ) ≤ 2 ^ 50 := by exact_mod_cast H.len
  linarith

theorem big_ge : (1000 : ℝ) ≤ A.big := le_trans (by norm_num) H.ieee.big

/-- The logarithm of the sum. -/
theorem lse (t : SumTree) (ht : t.Adds x.length) :
    ∃ M L, M ∈ x ∧ (∀ v ∈ x, v ≤ M) ∧
      x.map (fun v => A.exp (A.sub (.num v) (.num M))) = (x.map fun v => A.expf (A.rd (v - M))).map .num ∧
      (∀ v ∈ x, 0 ≤ A.expf (A.rd (v - M)) ∧ A.expf (A.rd (v - M)) ≤ 1 ∧ A.rd (A.expf (A.rd (v - M))) = A.expf (A.rd (v - M)) ∧
        |A.expf (A.rd (v - M)) - Real.exp (v - M)| ≤ 4 * ε) ∧
      fastLseFl A t (x.map .num) none = .ok (.num L, .num 1) ∧ M ≤ L ∧ |L| ≤ A.big / 2 ∧
      |L - (M + Real.log (x.map fun v => Real.exp (v - M)).sum)| ≤ ε * (x.length ^ 2 + 7 * x.length + m) ∧
      (∀ y ys, x = y :: ys → maxFl (.num y) (ys.map .num) = .num M) := by
  have hε := H.acc.nonneg
  have hε2 := H.eps_le
  have hn1 := H.one_le
  have hnb := H.len_le_big
  have hbig := H.big_ge
  have hm0 := H.m_nonneg
  have hmb := H.big
  obtain ⟨M, a, y, h1, h2, h3, h4, h5, h6, h8, h9, h10, h11⟩ :=
    lse_none H.ieee x H.ne (H.len.trans (by norm_num)) t ht
  have hM := H.le M h1
  have hrd : ∀ v ∈ x, A.rd (v - M) ≤ 0 := by
    intro v hv
    have := H.ieee.mono (show v - M ≤ 0 by linarith [h2 v hv])
    rwa [IeeeK.rd_zero H.ieee] at this
  have hf : x.map (fun v => A.exp (A.sub (.num v) (.num M))) = (x.map fun v => A.expf (A.rd (v - M))).map .num := by
    rw [List.map_map]
    refine List.map_congr_left fun v hv => ?_
    have e1 : A.sub (.num v) (.num M) = .num (A.rd (v - M)) := by
      show A.round (v + -M) = _
      rw [← sub_eq_add_neg]
      refine IeeeK.round_num H.ieee (IeeeK.rd_abs_le H.ieee ?_)
      have := H.le v hv
      exact (abs_sub _ _).trans (by linarith)
    rw [e1]
    show (if A.big < A.expf (A.rd (v - M)) then _ else _) = _
    rw [if_neg (by linarith [(H.ieee.exp_range _ (hrd v hv)).2])]
    rfl
  have hterm : ∀ v ∈ x, 0 ≤ A.expf (A.rd (v - M)) ∧ A.expf (A.rd (v - M)) ≤ 1 ∧
      A.rd (A.expf (A.rd (v - M))) = A.expf (A.rd (v - M)) ∧ |A.expf (A.rd (v - M)) - Real.exp (v - M)| ≤ 4 * ε :=
    fun v hv => ⟨(H.ieee.exp_range _ (hrd v hv)).1, (H.ieee.exp_range _ (hrd v hv)).2, H.ieee.exp_rd _,
      exp_rd_acc H.acc (by linarith) (by linarith [h2 v hv]) (hrd v hv)⟩
  have ha : a = x.map fun v => A.expf (A.rd (v - M)) := by
    have := h4.symm.trans hf
    exact List.map_injective_iff.2 (fun u v e => by injection e) this
  obtain ⟨Z, hZ⟩ : ∃ Z, Z = (x.map fun v => Real.exp (v - M)).sum := ⟨_, rfl⟩
  obtain ⟨hZ1, hZn⟩ := sum_exp_bounds x M h1 h2
  rw [← hZ] at hZ1 hZn
  -- the sum
  have hlen : t.leaves.length = x.length := by rw [ht.length_eq, List.length_range]
  have hy : |y - Z| ≤ ε * (x.length ^ 2 + 4 * x.length) := by
    obtain ⟨w, e1, -, -, e2⟩ := treeSum_acc H.ieee H.acc a (fun c hc => by
      obtain ⟨g1, g2, g3⟩ := h5 c hc
      exact ⟨by rw [abs_of_nonneg g1]; exact g2, g3⟩) x.length (H.len.trans (by norm_num)) t hlen.le
    obtain rfl : y = w := by
      rw [h6] at e1
      injection e1
    rw [exactSum_adds a t (by rw [h3]; exact ht), hlen, ha] at e2
    have e3 := sum_close (fun v => A.expf (A.rd (v - M))) (fun v => Real.exp (v - M)) (4 * ε) x fun v hv => (hterm v hv).2.2.2
    rw [← hZ] at e3
    have := abs_sub_le y (x.map fun v => A.expf (A.rd (v - M))).sum Z
    nlinarith
  -- its logarithm
  have hlogy : Real.log y ≤ x.length - 1 := by
    have := Real.log_le_sub_one_of_pos (x := y) (by linarith)
    linarith
  have hlogy0 : 0 ≤ Real.log y := Real.log_nonneg h8
  have hl := H.acc.log y (by linarith)
  rw [abs_of_nonneg hlogy0] at hl
  have hl' : ε * (Real.log y + 1) ≤ ε * x.length := mul_le_mul_of_nonneg_left (by linarith) hε
  have hll := log_lip h8 hZ1
  have hεn : ε * x.length ≤ x.length := by nlinarith
  have hlf0 := H.ieee.log_nonneg y h8
  have hlf : A.logf y ≤ 2 * x.length - 1 := by linarith [(abs_le.1 hl).2]
  obtain ⟨hM1, hM2⟩ := abs_le.1 hM
  have hlM : |A.logf y + M| ≤ 2 * x.length - 1 + m := abs_le.2 ⟨by linarith, by linarith⟩
  have hL := H.acc.rd (A.logf y + M)
  have hL' : ε * (|A.logf y + M| + 1) ≤ ε * (2 * x.length + m) := mul_le_mul_of_nonneg_left (by linarith) hε
  have hround : A.round (A.logf y + M) = .num (A.rd (A.logf y + M)) :=
    IeeeK.round_num H.ieee (IeeeK.rd_abs_le H.ieee (by linarith))
  refine ⟨M, A.rd (A.logf y + M), h1, h2, hf, hterm, by rw [h10, hround], ?_, ?_, ?_, h11⟩
  · have := H.ieee.mono (show M ≤ A.logf y + M by linarith)
    rwa [H.rd M h1] at this
  · have e1 : |A.rd (A.logf y + M)| ≤ |A.logf y + M| + ε * (2 * x.length + m) := by
      have := abs_sub_abs_le_abs_sub (A.rd (A.logf y + M)) (A.logf y + M)
      linarith
    have e2 : ε * (2 * x.length + m) ≤ (1 / 76) * (2 * x.length + m) := mul_le_mul_of_nonneg_right hε2 (by linarith)
    linarith
  · rw [← hZ]
    have e1 : A.rd (A.logf y + M) - (M + Real.log Z) =
        (A.rd (A.logf y + M) - (A.logf y + M)) + ((A.logf y - Real.log y) + (Real.log y - Real.log Z)) := by ring
    rw [e1]
    have e2 := abs_add_le (A.rd (A.logf y + M) - (A.logf y + M)) ((A.logf y - Real.log y) + (Real.log y - Real.log Z))
    have e3 := abs_add_le (A.logf y - Real.log y) (Real.log y - Real.log Z)
    have e4 : ε * (x.length ^ 2 + 7 * x.length + m) =
        ε * (2 * x.length + m) + (ε * x.length + ε * (x.length ^ 2 + 4 * x.length)) := by ring
    rw [e4]
    linarith

/-- The probabilities. -/
theorem p (t : SumTree) (ht : t.Adds x.length) :
    ∃ P : List ℝ, modulePFl A t (x.map .num) = .ok (P.map .num) ∧ P.length = x.length ∧
      ∀ i < x.length, |P.getD i 0 - softmax x i| ≤ ε * errScale x.length m := by
  have hε := H.acc.nonneg
  have hε2 := H.eps_le
  have hn1 := H.one_le
  have hbig := H.big_ge
  have hm0 := H.m_nonneg
  have hmb := H.big
  obtain ⟨M, L, h1, h2, -, -, h5, h6, h7, h8, -⟩ := H.lse t ht
  have hrd : ∀ v ∈ x, A.rd (v - L) ≤ 0 := by
    intro v hv
    have := H.ieee.mono (show v - L ≤ 0 by linarith [h2 v hv])
    rwa [IeeeK.rd_zero H.ieee] at this
  refine ⟨x.map fun v => A.expf (A.rd (v - L)), ?_, by simp, fun i hi => ?_⟩
  · unfold modulePFl
    rw [h5]
    refine congrArg Except.ok ?_
    rw [List.map_map, List.map_map]
    refine List.map_congr_left fun v hv => ?_
    have e1 : A.sub (.num v) (.num L) = .num (A.rd (v - L)) := by
      show A.round (v + -L) = _
      rw [← sub_eq_add_neg]
      refine IeeeK.round_num H.ieee (IeeeK.rd_abs_le H.ieee ?_)
      have := H.le v hv
      exact (abs_sub _ _).trans (by linarith)
    show A.exp (A.sub (.num v) (.num L)) = _
    rw [e1]
    show (if A.big < A.expf (A.rd (v - L)) then _ else _) = _
    rw [if_neg (by linarith [(H.ieee.exp_range _ (hrd v hv)).2])]
    rfl
  · have hv := List.getElem_mem hi
    rw [List.getD_eq_getElem _ _ (by simpa using hi), List.getElem_map, softmax, List.getD_eq_getElem _ _ hi,
      sum_exp_shift x M]
    obtain ⟨hZ1, hZn⟩ := sum_exp_bounds x M h1 h2
    obtain ⟨Z, hZ⟩ : ∃ Z, Z = (x.map fun v => Real.exp (v - M)).sum := ⟨_, rfl⟩
    rw [← hZ] at hZ1 hZn h8 ⊢
    obtain ⟨v, hv'⟩ : ∃ v, v = x[i] := ⟨_, rfl⟩
    rw [← hv'] at hv ⊢
    have e1 : Real.exp v / (Real.exp M * Z) = Real.exp (v - (M + Real.log Z)) := by
      rw [Real.exp_sub, Real.exp_add, Real.exp_log (by linarith)]
    rw [e1]
    have e2 := exp_rd_acc H.acc (by linarith) (x := v - L) (by linarith [h2 v hv]) (hrd v hv)
    have e3 := exp_lip_le (a := v - L) (b := v - (M + Real.log Z)) (c := 0) (by linarith [h2 v hv])
      (by linarith [h2 v hv, Real.log_nonneg hZ1])
    rw [Real.exp_zero, one_mul] at e3
    have e4 : v - L - (v - (M + Real.log Z)) = -(L - (M + Real.log Z)) := by ring
    rw [e4, abs_neg] at e3
    have e5 := abs_sub_le (A.expf (A.rd (v - L))) (Real.exp (v - L)) (Real.exp (v - (M + Real.log Z)))
    have e6 : ε * errScale x.length m = ε * (x.length ^ 2 + 7 * x.length + m) + 4 * ε + ε * (x.length + m + 6) := by
      unfold errScale; ring
    have e7 : 0 ≤ ε * (x.length + m + 6) := mul_nonneg hε (by linarith)
    linarith

/-- The logarithm of a signed sum, after the logarithm of the sum is taken off. -/
theorem log_part {L Z q M : ℝ} (hM : |M| ≤ m) (hL : |L| ≤ A.big / 2) (hZ1 : 1 ≤ Z) (hZn : Z ≤ x.length)
    (hLZ : |L - (M + Real.log Z)| ≤ ε * (x.length ^ 2 + 7 * x.length + m)) (hq : 0 < q) (hqr : A.rd q = q)
    (hqn : q ≤ x.length) (hqZ : Real.log q - Real.log Z ≤ 1 / 4) :
    ∃ e, A.sub (A.add (.num (A.logf q)) (.num M)) (.num L) = .num e ∧ e ≤ 5 / 8 ∧
      |Real.exp e - q / Z| ≤ 4 * (ε * errScale x.length m) := by
  have hε := H.acc.nonneg
  have hε2 := H.eps_le
  have hn1 := H.one_le
  have hnb := H.len_le_big
  have hbig := H.big_ge
  have hm0 := H.m_nonneg
  have hmb := H.big
  have hsm := H.small
  have hsc := H.scale_ge
  obtain ⟨R, hR⟩ : ∃ R, R = errScale x.length m := ⟨_, rfl⟩
  have hR' : R = x.length ^ 2 + 8 * x.length + 2 * m + 10 := hR
  rw [← hR] at hsm hsc ⊢
  have hlq : Real.log q ≤ x.length - 1 := by
    have := Real.log_le_sub_one_of_pos hq
    linarith
  have hlq2 := H.acc.log_small q hq hqr
  have hlqb : |Real.log q| ≤ A.big / 8 := abs_le.2 ⟨hlq2, by linarith⟩
  have ha0 := abs_nonneg (Real.log q)
  obtain ⟨l, hl⟩ : ∃ l, l = |Real.log q| := ⟨_, rfl⟩
  have hlogf := H.acc.log q hq
  rw [← hl] at hlogf ha0 hlqb
  have hZ0 : 0 ≤ Real.log Z := Real.log_nonneg hZ1
  have hZl : Real.log Z ≤ x.length - 1 := by
    have := Real.log_le_sub_one_of_pos (x := Z) (by linarith)
    linarith
  have hεl : ε * l ≤ (1 / 76) * l := mul_le_mul_of_nonneg_right hε2 ha0
  have hεl0 : 0 ≤ ε * l := mul_nonneg hε ha0
  -- first sum
  have h1 : |A.logf q + M| ≤ l + ε * (l + 1) + m := by
    have e1 := abs_add_le (A.logf q) M
    have e2 := abs_sub_abs_le_abs_sub (A.logf q) (Real.log q)
    linarith
  have h1b : |A.logf q + M| ≤ (77 / 76) * l + 1 / 76 + m := by linarith
  have e1 : A.add (.num (A.logf q)) (.num M) = .num (A.rd (A.logf q + M)) :=
    IeeeK.round_num H.ieee (IeeeK.rd_abs_le H.ieee (by linarith))
  have h2 := H.acc.rd (A.logf q + M)
  have h2' : ε * (|A.logf q + M| + 1) ≤ ε * ((77 / 76) * l + 77 / 76 + m) := mul_le_mul_of_nonneg_left (by linarith) hε
  obtain ⟨K, hK⟩ : ∃ K, K = A.rd (A.logf q + M) := ⟨_, rfl⟩
  rw [← hK] at e1 h2
  have h3 : |K - (M + Real.log q)| ≤ ε * (m + (5 / 2) * l + 5 / 2) := by
    have e2 : K - (M + Real.log q) = (K - (A.logf q + M)) + (A.logf q - Real.log q) := by ring
    rw [e2]
    have e3 := abs_add_le (K - (A.logf q + M)) (A.logf q - Real.log q)
    have e4 : ε * (m + (5 / 2) * l + 5 / 2) = ε * ((77 / 76) * l + 77 / 76 + m) + ε * (l + 1) + (37 / 76) * (ε * l) + (37 / 76) * ε := by
      ring
    linarith
  have hKb : |K| ≤ A.big / 2 := by
    have e2 := abs_sub_abs_le_abs_sub K (A.logf q + M)
    have e3 : ε * ((77 / 76) * l + 77 / 76 + m) ≤ (1 / 76) * ((77 / 76) * l + 77 / 76 + m) :=
      mul_le_mul_of_nonneg_right hε2 (by linarith)
    linarith
  -- difference
  have e2 : A.sub (.num K) (.num L) = .num (A.rd (K - L)) := by
    show A.round (K + -L) = _
    rw [← sub_eq_add_neg]
    exact IeeeK.round_num H.ieee (IeeeK.rd_abs_le H.ieee ((abs_sub _ _).trans (by linarith)))
  have h4 : |K - L - (Real.log q - Real.log Z)| ≤ ε * (x.length ^ 2 + 7 * x.length + 2 * m + (5 / 2) * l + 5 / 2) := by
    have e3 : K - L - (Real.log q - Real.log Z) = (K - (M + Real.log q)) - (L - (M + Real.log Z)) := by ring
    rw [e3]
    have e4 := abs_sub (K - (M + Real.log q)) (L - (M + Real.log Z))
    have e5 : ε * (x.length ^ 2 + 7 * x.length + 2 * m + (5 / 2) * l + 5 / 2) =
      ε * (m + (5 / 2) * l + 5 / 2) + ε * (x.length ^ 2 + 7 * x.length + m) := by ring
    linarith
  have h4' : ε * (x.length ^ 2 + 7 * x.length + 2 * m + (5 / 2) * l + 5 / 2) ≤ 1 / 4 + (5 / 2) * (ε * l) := by
    have e3 : ε * (x.length ^ 2 + 7 * x.length + 2 * m + (5 / 2) * l + 5 / 2) =
      ε * R + (5 / 2) * (ε * l) - ε * (x.length + 15 / 2) := by rw [hR']; ring
    have e4 : 0 ≤ ε * (x.length + 15 / 2) := mul_nonneg hε (by linarith)
    linarith
  have h5 : |K - L| ≤ (11 / 10) * l + x.length := by
    have e3 := abs_sub_abs_le_abs_sub (K - L) (Real.log q - Real.log Z)
    have e4 := abs_sub (Real.log q) (Real.log Z)
    rw [← hl, abs_of_nonneg hZ0] at e4
    linarith
  have h6 := H.acc.rd (K - L)
  have h6' : ε * (|K - L| + 1) ≤ ε * ((11 / 10) * l + x.length + 1) := mul_le_mul_of_nonneg_left (by linarith) hε
  obtain ⟨e, he⟩ : ∃ e, e = A.rd (K - L) := ⟨_, rfl⟩
  rw [← he] at e2 h6
  have h7 : |e - (Real.log q - Real.log Z)| ≤ ε * (R + 4 * l) := by
    have e3 : e - (Real.log q - Real.log Z) = (e - (K - L)) + (K - L - (Real.log q - Real.log Z)) := by ring
    rw [e3]
    have e4 := abs_add_le (e - (K - L)) (K - L - (Real.log q - Real.log Z))
    have e5 : ε * (R + 4 * l) = ε * (x.length ^ 2 + 7 * x.length + 2 * m + (5 / 2) * l + 5 / 2) +
      ε * ((11 / 10) * l + x.length + 1) + ε * ((4 / 10) * l + 13 / 2) := by rw [hR']; ring
    have e6 : 0 ≤ ε * ((4 / 10) * l + 13 / 2) := mul_nonneg hε (by linarith)
    linarith
  have hqZe : q / Z = Real.exp (Real.log q - Real.log Z) := by
    rw [Real.exp_sub, Real.exp_log hq, Real.exp_log (by linarith)]
  refine ⟨e, by rw [e1, e2], ?_⟩
  rw [hqZe]
  refine exp_close hε hsm hsc hε2 ha0 h7 ?_
  by_cases hpos : 0 ≤ Real.log q
  · rw [abs_of_nonneg hpos] at hl
    exact Or.inl ⟨hqZ, by rw [hl, hR']; nlinarith⟩
  · rw [abs_of_neg (not_le.1 hpos)] at hl
    exact Or.inr (by linarith)

theorem softAverage_shift (c : List ℝ) (M : ℝ) :
    softAverage x c = (List.zipWith (fun v k => Real.exp (v - M) * k) x c).sum / (x.map fun v => Real.exp (v - M)).sum := by
  have h1 : (List.zipWith (fun v k => Real.exp v * k) x c).sum =
      Real.exp M * (List.zipWith (fun v k => Real.exp (v - M) * k) x c).sum := by
    clear H
    induction x generalizing c with
    | nil => simp
    | cons v x ih =>
      cases c with
      | nil => simp
      | cons k c =>
        rw [List.zipWith_cons_cons, List.zipWith_cons_cons, List.sum_cons, List.sum_cons, ih, mul_add, ← mul_assoc, ← Real.exp_add]
        congr 4
        ring
  rw [softAverage, h1, sum_exp_shift x M, mul_div_mul_left _ _ (Real.exp_pos M).ne']

end Energies

/-- Sums with coefficients. -/
theorem zip_close (f g : ℝ → ℝ) (δ : ℝ) (x c : List ℝ) (hδ : 0 ≤ δ) (hx : ∀ v ∈ x, |f v - g v| ≤ δ) (hc : ∀ k ∈ c, |k| ≤ 1) :
    |(List.zipWith (fun v k => f v * k) x c).sum - (List.zipWith (fun v k => g v * k) x c).sum| ≤ x.length * δ := by
  induction x generalizing c with
  | nil => simp
  | cons v x ih =>
    cases c with
    | nil => simp; positivity
    | cons k c =>
      have h1 := ih c (fun w hw => hx w (by simp [hw])) fun j hj => hc j (by simp [hj])
      have h2 := hx v (by simp)
      have h3 := hc k (by simp)
      rw [List.zipWith_cons_cons, List.zipWith_cons_cons, List.sum_cons, List.sum_cons, List.length_cons]
      have e : ∀ a b : ℝ, f v * k + a - (g v * k + b) = (f v - g v) * k + (a - b) := fun a b => by ring
      rw [e]
      refine (abs_add_le _ _).trans ?_
      rw [abs_mul]
      have : |f v - g v| * |k| ≤ δ * 1 := mul_le_mul h2 h3 (abs_nonneg _) hδ
      push_cast
      linarith

theorem zip_abs_le (g : ℝ → ℝ) (hg : ∀ v, 0 ≤ g v) (x c : List ℝ) (hc : ∀ k ∈ c, |k| ≤ 1) :
    |(List.zipWith (fun v k => g v * k) x c).sum| ≤ (x.map g).sum := by
  induction x generalizing c with
  | nil => simp
  | cons v x ih =>
    cases c with
    | nil =>
      simp only [List.zipWith_nil_right, List.sum_nil, abs_zero]
      exact List.sum_nonneg fun y hy => by
        obtain ⟨w, -, rfl⟩ := List.mem_map.1 hy
        exact hg w
    | cons k c =>
      have h1 := ih c fun j hj => hc j (by simp [hj])
      rw [List.zipWith_cons_cons, List.sum_cons, List.map_cons, List.sum_cons]
      refine (abs_add_le _ _).trans ?_
      rw [abs_mul, abs_of_nonneg (hg v)]
      have := mul_le_mul_of_nonneg_left (hc k (by simp)) (hg v)
      linarith

namespace Energies
variable {m : ℝ} {x : List ℝ} (H : Energies A ε m x)
include H

/-- The observables. -/
theorem obs (t t' : SumTree) (ht : t.Adds x.length) (ht' : t'.Adds x.length) (c : List ℝ)
    (hc : ∀ k ∈ c, k = 0 ∨ k = 1 ∨ k = -1) (hcl : c.length = x.length) :
    ∃ v, moduleObsFl A t t' (x.map .num) (c.map .num) = .ok (.num v) ∧ |v - softAverage x c| ≤ 6 * (ε * errScale x.length m) := by
  have hε := H.acc.nonneg
  have hε2 := H.eps_le
  have hn1 := H.one_le
  have hbig := H.big_ge
  have hm0 := H.m_nonneg
  have hsm := H.small
  have hsc := H.scale_ge
  obtain ⟨M, L, h1, h2, h3, h4, h5, h6, h7, h8, h9⟩ := H.lse t ht
  obtain ⟨hZ1, hZn⟩ := sum_exp_bounds x M h1 h2
  rw [H.softAverage_shift c M]
  obtain ⟨Z, hZ⟩ : ∃ Z, Z = (x.map fun v => Real.exp (v - M)).sum := ⟨_, rfl⟩
  obtain ⟨W, hW⟩ : ∃ W, W = (List.zipWith (fun v k => Real.exp (v - M) * k) x c).sum := ⟨_, rfl⟩
  obtain ⟨R, hR⟩ : ∃ R, R = errScale x.length m := ⟨_, rfl⟩
  have hR' : R = x.length ^ 2 + 8 * x.length + 2 * m + 10 := hR
  have hck : ∀ k ∈ c, |k| ≤ 1 := fun k hk => by rcases hc k hk with rfl | rfl | rfl <;> simp
  have hWZ : |W| ≤ Z := by
    rw [hW, hZ]
    exact zip_abs_le _ (fun v => (Real.exp_pos _).le) x c hck
  rw [← hZ] at hZ1 hZn h8
  rw [← hZ, ← hW]
  -- the terms
  obtain ⟨z, hz⟩ : ∃ z : List ℝ, z = List.zipWith (fun v k => A.expf (A.rd (v - M)) * k) x c := ⟨_, rfl⟩
  have hzip : List.zipWith A.mul ((x.map fun v => A.expf (A.rd (v - M))).map .num) (c.map .num) = z.map .num := by
    rw [hz, List.zipWith_map, List.zipWith_map_left, List.map_zipWith]
    refine List.ext_getElem (by simp) fun i h1 h2 => ?_
    simp only [List.getElem_zipWith]
    obtain ⟨g1, g2, g3, -⟩ := h4 _ (List.getElem_mem (l := x) (n := i) (by simp at h1; omega))
    exact (mul_coeff H.ieee ⟨g1, g2, g3⟩ (hc _ (List.getElem_mem _))).1
  have hz1 : ∀ a ∈ z, |a| ≤ 1 ∧ A.rd a = a := by
    intro a ha
    obtain ⟨i, hi, rfl⟩ := List.getElem_of_mem ha
    simp only [hz, List.getElem_zipWith]
    rw [hz, List.length_zipWith] at hi
    obtain ⟨g1, g2, g3, -⟩ := h4 _ (List.getElem_mem (l := x) (n := i) (by omega))
    refine ⟨(mul_coeff H.ieee ⟨g1, g2, g3⟩ (hc _ (List.getElem_mem _))).2.trans g2, ?_⟩
    rcases hc _ (List.getElem_mem (l := c) (n := i) (by omega)) with e | e | e
    · rw [e, mul_zero]; exact IeeeK.rd_zero H.ieee
    · rw [e, mul_one]; exact g3
    · rw [e, mul_neg, mul_one, H.ieee.neg, g3]
  have hlen : t'.leaves.length = x.length := by rw [ht'.length_eq, List.length_range]
  have hzl : z.length = x.length := by rw [hz, List.length_zipWith]; omega
  obtain ⟨w, e1, hwr, hwn, e2⟩ := treeSum_acc H.ieee H.acc z hz1 x.length (H.len.trans (by norm_num)) t' hlen.le
  rw [hlen] at hwn e2
  rw [exactSum_adds z t' (by rw [hzl]; exact ht'), hz] at e2
  have hw : |w - W| ≤ ε * (x.length ^ 2 + 4 * x.length) := by
    have e3 := zip_close (fun v => A.expf (A.rd (v - M))) (fun v => Real.exp (v - M)) (4 * ε) x c (by linarith)
      (fun v hv => (h4 v hv).2.2.2) hck
    rw [← hW] at e3
    have := abs_sub_le w (List.zipWith (fun v k => A.expf (A.rd (v - M)) * k) x c).sum W
    nlinarith
  have hB : ε * (x.length ^ 2 + 4 * x.length) ≤ ε * R - 10 * ε := by
    have : ε * (x.length ^ 2 + 4 * x.length) = ε * R - ε * (4 * x.length + 2 * m + 10) := by rw [hR']; ring
    rw [this]
    have : ε * 10 ≤ ε * (4 * x.length + 2 * m + 10) := mul_le_mul_of_nonneg_left (by linarith) hε
    linarith
  rw [← hR] at hsm hsc ⊢
  have hwZ : |w / Z - W / Z| ≤ ε * R := by
    rw [← sub_div, abs_div, abs_of_pos (by linarith : 0 < Z)]
    exact (div_le_self (abs_nonneg _) hZ1).trans (by linarith)
  -- the sign
  have hfast : ∀ (u : Fl) (s : ℝ), (lt (.num w) (.num 0) = true → u = A.log (.num |w|) ∧ s = -1) →
      (¬ lt (.num w) (.num 0) = true → u = A.log (.num w) ∧ s = 1) →
      fastLseFl A t' (x.map .num) (some (c.map .num)) = .ok (A.add u (.num M), .num s) := by
    intro u s g1 g2
    obtain ⟨x0, xs, e⟩ := List.exists_cons_of_ne_nil H.ne
    have g3 := h9 x0 xs e
    rw [e] at h3 hzip hcl ⊢
    unfold fastLseFl
    rw [List.map_cons]
    dsimp only
    rw [← List.map_cons (f := Fl.num), g3, List.map_map]
    have e : (List.map ((fun v => A.exp (A.sub v (.num M))) ∘ Fl.num) (x0 :: xs)) =
      ((x0 :: xs).map fun v => A.expf (A.rd (v - M))).map .num := h3
    rw [e, if_pos (by simpa using hcl), hzip, e1]
    dsimp only
    by_cases hlt : lt (.num w) (.num 0) = true
    · rw [if_pos hlt, (g1 hlt).1, (g1 hlt).2]
      rfl
    · rw [if_neg hlt, (g2 hlt).1, (g2 hlt).2]
  unfold moduleObsFl
  rw [h5]
  dsimp only
  by_cases hw0 : w = 0
  · rw [hfast (.inf true) 1 (fun g => by simp [lt, hw0] at g) (fun _ => ⟨by
      show _ = if 0 < w then _ else _
      rw [if_neg (by linarith), if_pos hw0], rfl⟩)]
    dsimp only
    have e3 : A.exp (A.sub (A.add (.inf true) (.num M)) (.num L)) = .num 0 := rfl
    rw [e3, mul_coeff_big H.ieee (IeeeK.rd_zero H.ieee) (by rw [abs_zero]; linarith) (by simp)]
    refine ⟨0 * 1, rfl, ?_⟩
    rw [hw0, zero_div] at hwZ
    rw [zero_mul]
    have : 0 ≤ ε * R := mul_nonneg hε (by linarith)
    linarith
  · have hq : 0 < |w| := abs_pos.2 hw0
    have hqr : A.rd |w| = |w| := by
      rcases abs_cases w with ⟨e, -⟩ | ⟨e, -⟩
      · rw [e, hwr]
      · rw [e, H.ieee.neg, hwr]
    have hqZ : Real.log |w| - Real.log Z ≤ 1 / 4 := by
      rw [← Real.log_div hq.ne' (by linarith)]
      have g1 := Real.log_le_sub_one_of_pos (x := |w| / Z) (by positivity)
      have g2 : |w| / Z - 1 ≤ 1 / 4 := by
        rw [div_sub_one (by linarith), div_le_iff₀ (by linarith)]
        have g3 := abs_sub_abs_le_abs_sub w W
        linarith
      linarith
    obtain ⟨e, he, he5, hee⟩ := H.log_part (H.le M h1) h7 hZ1 hZn h8 hq hqr hwn hqZ
    rw [← hR] at hee
    have hlog : A.log (.num |w|) = .num (A.logf |w|) := by
      show (if 0 < |w| then _ else _) = _
      rw [if_pos hq]
    have hexp := H.acc.exp e (by linarith)
    have hexp8 : Real.exp e ≤ 8 / 3 := (Real.exp_le_exp.2 he5).trans ((exp_le_inv (by norm_num)).trans (by norm_num))
    have hexp' : ε * (Real.exp e + 1) ≤ ε * (11 / 3) := mul_le_mul_of_nonneg_left (by linarith) hε
    have hv1 : |A.expf e - |w| / Z| ≤ 5 * (ε * R) := by
      have := abs_sub_le (A.expf e) (Real.exp e) (|w| / Z)
      have g : ε * 19 ≤ ε * R := mul_le_mul_of_nonneg_left hsc hε
      linarith
    have hexpb : |A.expf e| ≤ A.big := by
      have g1 := abs_sub_abs_le_abs_sub (A.expf e) (Real.exp e)
      rw [abs_of_pos (Real.exp_pos e)] at g1
      linarith
    have hexpf : A.exp (.num e) = .num (A.expf e) := by
      show (if A.big < A.expf e then _ else _) = _
      rw [if_neg (by linarith [le_abs_self (A.expf e)])]
    have hfin : ∀ s : ℝ, (s = 1 ∨ s = -1) → s * |w| = w →
        ∃ v, (Except.ok (nanToZero (A.mul (A.exp (A.sub (A.add (.num (A.logf |w|)) (.num M)) (.num L))) (.num s))) : Py Fl) =
          .ok (.num v) ∧ |v - W / Z| ≤ 6 * (ε * R) := by
      intro s hs hsw
      rw [he, hexpf, mul_coeff_big H.ieee (H.ieee.exp_rd e) hexpb (by tauto)]
      refine ⟨A.expf e * s, rfl, ?_⟩
      have g1 : A.expf e * s - W / Z = (A.expf e - |w| / Z) * s + (w / Z - W / Z) := by
        rw [← hsw]
        rcases hs with rfl | rfl
        · simp
        · rw [show (-1 : ℝ) * |w| = -|w| by ring]
          simp only [abs_neg, abs_abs]
          ring
      rw [g1]
      have g2 : |(A.expf e - |w| / Z) * s| = |A.expf e - |w| / Z| := by
        rw [abs_mul]
        rcases hs with rfl | rfl <;> simp
      have g3 := abs_add_le ((A.expf e - |w| / Z) * s) (w / Z - W / Z)
      linarith
    by_cases hneg : w < 0
    · rw [hfast (.num (A.logf |w|)) (-1) (fun _ => ⟨hlog.symm, rfl⟩) (fun g => by simp [lt, hneg] at g)]
      exact hfin (-1) (Or.inr rfl) (by rw [abs_of_neg hneg]; ring)
    · have e0 : |w| = w := abs_of_nonneg (not_lt.1 hneg)
      rw [hfast (.num (A.logf |w|)) 1 (fun g => by simp [lt, hneg] at g) (fun _ => ⟨by rw [← hlog, e0], rfl⟩)]
      exact hfin 1 (Or.inl rfl) (by rw [one_mul, e0])

end Energies

end Verif.Lemmas
