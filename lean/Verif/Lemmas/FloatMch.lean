/-
Rounding and overflow in `mch_approximation`.
-/
import Verif.Model.FloatMch
import Verif.Lemmas.FloatMpf

namespace Verif.Lemmas
open Verif Verif.Model Verif.Spec FlArith

variable {A : FlArith} {ε : ℝ}

theorem treeSum_lost (x : List Fl) (t : SumTree) (i : ℕ) (hi : i ∈ t.leaves) (h : Lost (x.getD i (.num 0))) : Lost (A.treeSum x t) := by
  induction t with
  | leaf j =>
    rw [SumTree.leaves, List.mem_singleton] at hi
    subst hi
    exact h
  | node l r ihl ihr =>
    rw [SumTree.leaves, List.mem_append] at hi
    rcases hi with hi | hi
    · exact lost_add (Or.inl (ihl hi))
    · exact lost_add (Or.inr (ihr hi))

theorem mul_lost (c : ℝ) {v : Fl} (h : Lost v) : Lost (A.mul (.num c) v) := by
  rcases h with rfl | ⟨s, rfl⟩
  · exact Or.inl rfl
  · show Lost (if c = 0 then _ else _)
    split
    · exact Or.inl rfl
    · exact Or.inr ⟨_, rfl⟩

theorem lost_mul_zero {v : Fl} (h : Lost v) : A.mul v (.num 0) = .nan := by
  rcases h with rfl | ⟨s, rfl⟩
  · rfl
  · show (if (0 : ℝ) = 0 then _ else _) = _
    rw [if_pos rfl]

/-! ### accuracy -/

theorem rd_le_big (h : Ieee A) {x : ℝ} (hx : |x| ≤ A.big) : |A.rd x| ≤ A.big := by
  obtain ⟨h5, h6⟩ := abs_le.1 hx
  refine abs_le.2 ⟨?_, ?_⟩
  · have := h.mono h5
    rwa [h.neg, h.big_rd] at this
  · have := h.mono h6
    rwa [h.big_rd] at this

theorem leaves_pos (t : SumTree) : 1 ≤ t.leaves.length := by
  induction t with
  | leaf i => simp [SumTree.leaves]
  | node l r i1 _ => rw [SumTree.leaves, List.length_append]; omega

theorem exactSum_abs (x : List ℝ) (t : SumTree) : |exactSum x t| ≤ exactSum (x.map fun a => |a|) t ∧ 0 ≤ exactSum (x.map fun a => |a|) t := by
  induction t with
  | leaf i =>
    have e : exactSum (x.map fun a => |a|) (.leaf i) = |x.getD i 0| := by
      show (x.map fun a => |a|).getD i 0 = _
      by_cases hi : i < x.length
      · rw [List.getD_eq_getElem _ _ (by rwa [List.length_map]), List.getElem_map, List.getD_eq_getElem _ _ hi]
      · rw [List.getD_eq_default _ _ (by rw [List.length_map]; omega), List.getD_eq_default _ _ (by omega), abs_zero]
    rw [e]
    exact ⟨le_rfl, abs_nonneg _⟩
  | node l r ihl ihr =>
    rw [exactSum, exactSum]
    exact ⟨(abs_add_le _ _).trans (add_le_add ihl.1 ihr.1), add_nonneg ihl.2 ihr.2⟩

/-- Rounding errors of a sum, relative to the sum of the absolute values. -/
theorem treeSum_relative (h : Ieee A) (hε : Relative A ε) (x : List ℝ) (t : SumTree)
    (hb : (1 + ε) ^ t.leaves.length * (exactSum (x.map fun a => |a|) t + t.leaves.length / A.big) ≤ A.big) :
    ∃ w, A.treeSum (x.map .num) t = .num w ∧
      |w - exactSum x t| ≤ ((1 + ε) ^ t.leaves.length - 1) * (exactSum (x.map fun a => |a|) t + t.leaves.length / A.big) := by
  have hb1 := IeeeK.big_ge_one h
  have hε0 := hε.nonneg
  have hδ : 0 < 1 / A.big := by positivity
  have hone : ∀ k : ℕ, 1 ≤ (1 + ε) ^ k := fun k => one_le_pow₀ (by linarith)
  have hpos : ∀ t : SumTree, 0 ≤ exactSum (x.map fun a => |a|) t + t.leaves.length / A.big := fun t =>
    add_nonneg (exactSum_abs x t).2 (by positivity)
  induction t with
  | leaf i =>
    refine ⟨x.getD i 0, by rw [treeSum, List.getD_map], ?_⟩
    have e : x.getD i 0 - exactSum x (.leaf i) = 0 := sub_self _
    rw [e, abs_zero]
    exact mul_nonneg (by linarith [hone (SumTree.leaf i).leaves.length]) (hpos _)
  | node l r ihl ihr =>
    have hj : (SumTree.node l r).leaves.length = l.leaves.length + r.leaves.length := by
      rw [SumTree.leaves, List.length_append]
    have el : exactSum (x.map fun a => |a|) (.node l r) = exactSum (x.map fun a => |a|) l + exactSum (x.map fun a => |a|) r := rfl
    have es : exactSum x (.node l r) = exactSum x l + exactSum x r := rfl
    rw [hj, el] at hb
    rw [hj, el, es]
    have hl1 := leaves_pos l
    have hr1 := leaves_pos r
    set jl := l.leaves.length
    set jr := r.leaves.length
    set a := exactSum (x.map fun a => |a|) l + jl / A.big with ha
    set b := exactSum (x.map fun a => |a|) r + jr / A.big with hbdef
    have ha0 : 0 ≤ a := hpos l
    have hb0 : 0 ≤ b := hpos r
    have eab : exactSum (x.map fun a => |a|) l + exactSum (x.map fun a => |a|) r + ((jl + jr : ℕ) : ℝ) / A.big = a + b := by
      rw [ha, hbdef]
      push_cast
      ring
    rw [eab] at hb ⊢
    set P := (1 + ε) ^ (jl + jr - 1) with hP
    have hPs : (1 + ε) ^ (jl + jr) = (1 + ε) * P := by
      rw [hP, ← pow_succ']
      congr 1
      omega
    have hPl : (1 + ε) ^ jl ≤ P := pow_le_pow_right₀ (by linarith) (by omega)
    have hPr : (1 + ε) ^ jr ≤ P := pow_le_pow_right₀ (by linarith) (by omega)
    have hP1 : 1 ≤ P := hone _
    rw [hPs] at hb ⊢
    have hPab : P * (a + b) ≤ A.big := by nlinarith [mul_nonneg hε0 (mul_nonneg (by linarith : 0 ≤ P) (add_nonneg ha0 hb0))]
    obtain ⟨u, u1, u2⟩ := ihl (by nlinarith)
    obtain ⟨v, v1, v2⟩ := ihr (by nlinarith)
    have u3 : |u - exactSum x l| ≤ (P - 1) * a := u2.trans (mul_le_mul_of_nonneg_right (by linarith) ha0)
    have v3 : |v - exactSum x r| ≤ (P - 1) * b := v2.trans (mul_le_mul_of_nonneg_right (by linarith) hb0)
    have hS := abs_add_le (exactSum x l) (exactSum x r)
    have hSl := (exactSum_abs x l).1
    have hSr := (exactSum_abs x r).1
    have hdl : 1 / A.big ≤ jl / A.big := by
      refine div_le_div_of_nonneg_right ?_ (by linarith)
      exact_mod_cast hl1
    have hdr : 0 ≤ (jr : ℝ) / A.big := by positivity
    have hx1 : |u + v| + 1 / A.big ≤ P * (a + b) := by
      have e : u + v = (u - exactSum x l) + (v - exactSum x r) + (exactSum x l + exactSum x r) := by ring
      have h1 := abs_add_le ((u - exactSum x l) + (v - exactSum x r)) (exactSum x l + exactSum x r)
      have h2 := abs_add_le (u - exactSum x l) (v - exactSum x r)
      rw [← e] at h1
      nlinarith
    have hx2 : |u + v| ≤ A.big := by linarith
    have hrd := hε.rd (u + v)
    refine ⟨A.rd (u + v), ?_, ?_⟩
    · rw [treeSum, u1, v1]
      exact IeeeK.round_num h (rd_le_big h hx2)
    · have h1 : ε * (|u + v| + 1 / A.big) ≤ ε * (P * (a + b)) := mul_le_mul_of_nonneg_left hx1 hε0
      have e : A.rd (u + v) - (exactSum x l + exactSum x r) =
          (A.rd (u + v) - (u + v)) + ((u - exactSum x l) + (v - exactSum x r)) := by ring
      have h2 := abs_add_le (A.rd (u + v) - (u + v)) ((u - exactSum x l) + (v - exactSum x r))
      have h3 := abs_add_le (u - exactSum x l) (v - exactSum x r)
      rw [e]
      nlinarith

theorem pow_sub_one_le {ε : ℝ} (hε : 0 ≤ ε) (S : ℕ) (hS : ε * S ≤ 1 / 2) : (1 + ε) ^ S - 1 ≤ 2 * (ε * S) := by
  have h0 : 0 ≤ ε * S := by positivity
  have h1 : (1 + ε) ^ S ≤ Real.exp (ε * S) := by
    have h2 := Real.add_one_le_exp ε
    have h3 := pow_le_pow_left₀ (show 0 ≤ 1 + ε by linarith) (show 1 + ε ≤ Real.exp ε by linarith) S
    rwa [← Real.exp_nat_mul, mul_comm (S : ℝ)] at h3
  have h2 := exp_le_inv (show ε * S < 1 by linarith)
  have h3 : 1 / (1 - ε * S) ≤ 1 + 2 * (ε * S) := by
    rw [div_le_iff₀ (by linarith)]
    nlinarith
  linarith

/-- The denominator, for sums that may be small. -/
theorem den_acc_small {ε R Z L D δ : ℝ} (hε : 0 ≤ ε) (hδ : δ ≤ Z) (hZ : 0 < Z) (hR : 0 ≤ R) (hR1 : 4 * (ε * R) ≤ 1)
    (hL : |L - Real.log Z| ≤ ε * R) (hD : |D - Real.exp L| ≤ ε * (Real.exp L + δ)) :
    |D - Z| ≤ ε * (2 * R + 3) * Z := by
  have hεR : 0 ≤ ε * R := mul_nonneg hε hR
  have hZe : Real.exp (Real.log Z) = Z := Real.exp_log hZ
  have e1 : Real.exp L = Z * Real.exp (L - Real.log Z) := by
    conv_lhs => rw [show L = Real.log Z + (L - Real.log Z) by ring, Real.exp_add, hZe]
  obtain ⟨h1, h2⟩ := abs_le.1 hL
  have h3 : Real.exp (L - Real.log Z) ≤ 1 + 2 * (ε * R) := by
    refine (Real.exp_le_exp.2 h2).trans ((exp_le_inv (by linarith)).trans ?_)
    rw [div_le_iff₀ (by linarith)]
    nlinarith
  have h4 : 1 - ε * R ≤ Real.exp (L - Real.log Z) := by
    have := Real.add_one_le_exp (L - Real.log Z)
    linarith
  have h5 : |Real.exp L - Z| ≤ 2 * (ε * R) * Z := by
    rw [e1, abs_le]
    constructor <;> nlinarith
  have h6 : Real.exp L ≤ 3 / 2 * Z := by
    rw [e1]
    nlinarith
  have h7 : ε * (Real.exp L + δ) ≤ ε * (3 * Z) := mul_le_mul_of_nonneg_left (by linarith) hε
  have h8 := abs_add_le (D - Real.exp L) (Real.exp L - Z)
  rw [sub_add_sub_cancel] at h8
  nlinarith

/-- `ZFraction`. -/
theorem frac_acc {ε Z D S z k δ : ℝ} (hε : 0 ≤ ε) (hZ : 0 < Z) (hS : 0 < S) (hk : 0 ≤ k) (hk1 : ε * k ≤ 1 / 2)
    (hD : |D - Z| ≤ ε * k * Z) (hδ : δ * (2 * Z) ≤ S) (hδ0 : 0 ≤ δ) (hz : |z - S / D| ≤ ε * (S / D + δ)) :
    |z - S / Z| ≤ ε * (4 + 2 * k) * (S / Z) ∧ Z / 2 ≤ D := by
  obtain ⟨h1, h2⟩ := abs_le.1 hD
  have hD1 : Z / 2 ≤ D := by nlinarith
  have hD2 : D ≤ 2 * Z := by nlinarith
  have hD0 : 0 < D := by linarith
  have h3 : S / D ≤ 2 * (S / Z) := by
    rw [div_le_iff₀ hD0]
    have : 2 * (S / Z) * D = S * (D / (Z / 2)) := by
      field_simp
    rw [this]
    have h4 : 1 ≤ D / (Z / 2) := by rw [le_div_iff₀ (by linarith)]; linarith
    nlinarith
  have h4 : δ ≤ S / D := by
    rw [le_div_iff₀ hD0]
    nlinarith
  have h5 : |S / D - S / Z| ≤ ε * k * (2 * (S / Z)) := by
    have e : S / D - S / Z = S / D * ((Z - D) / Z) := by
      field_simp
    rw [e, abs_mul, abs_of_pos (div_pos hS hD0), abs_div, abs_of_pos hZ, abs_sub_comm]
    have h6 : |D - Z| / Z ≤ ε * k := by
      rw [div_le_iff₀ hZ]
      exact hD
    have h7 : 0 ≤ |D - Z| / Z := by positivity
    have h8 : 0 < S / D := div_pos hS hD0
    have h9 : 0 ≤ ε * k := by positivity
    nlinarith
  have h6 : ε * (S / D + δ) ≤ ε * (4 * (S / Z)) := mul_le_mul_of_nonneg_left (by linarith) hε
  have h7 := abs_add_le (z - S / D) (S / D - S / Z)
  rw [sub_add_sub_cancel] at h7
  refine ⟨?_, hD1⟩
  nlinarith

/-- The product of a sum and `ZFraction`. -/
theorem ratio_acc {ε Q N u z a d : ℝ} (hQ : 0 < Q) (hN : |N| ≤ Q) (hu : |u - N| ≤ ε * a * Q)
    (hz : |z - 1 / Q| ≤ ε * d * (1 / Q)) (hd : ε * d ≤ 1) : |u * z - N / Q| ≤ ε * (2 * a + d) := by
  have hQ' : 0 < 1 / Q := by positivity
  have hzb : |z| ≤ 2 * (1 / Q) := by
    have h1 := abs_add_le (z - 1 / Q) (1 / Q)
    rw [sub_add_cancel, abs_of_pos hQ'] at h1
    nlinarith
  have e : u * z - N / Q = (u - N) * z + N * (z - 1 / Q) := by
    rw [div_eq_mul_one_div N Q]
    ring
  rw [e]
  have h1 := abs_add_le ((u - N) * z) (N * (z - 1 / Q))
  rw [abs_mul, abs_mul] at h1
  have h2 : |u - N| * |z| ≤ ε * a * Q * (2 * (1 / Q)) := mul_le_mul hu hzb (abs_nonneg _) ((abs_nonneg _).trans hu)
  have h3 : |N| * |z - 1 / Q| ≤ Q * (ε * d * (1 / Q)) := mul_le_mul hN hz (abs_nonneg _) hQ.le
  have e1 : ε * a * Q * (2 * (1 / Q)) = 2 * (ε * a) := by field_simp
  have e2 : Q * (ε * d * (1 / Q)) = ε * d := by field_simp
  rw [e1] at h2
  rw [e2] at h3
  linarith

/-- One weight. -/
theorem weight_acc {ε P E w S δ : ℝ} (hε : 0 ≤ ε) (hε1 : ε ≤ 1 / 8) (hP : 0 < P) (hS : 1 ≤ S) (hδ : S * δ ≤ P) (hδ0 : 0 ≤ δ)
    (hE : |E - P| ≤ ε * (P + δ)) (hw : |w - E / S| ≤ ε * (|E / S| + δ)) : |w - P / S| ≤ ε * 5 * (P / S) ∧ |E| ≤ 5 / 4 * P := by
  have hS0 : 0 < S := by linarith
  have hδP : δ ≤ P := by nlinarith
  have h1 : |E - P| ≤ ε * 2 * P := hE.trans (by nlinarith)
  have h2 : |E| ≤ 5 / 4 * P := by
    have := abs_add_le (E - P) P
    rw [sub_add_cancel, abs_of_pos hP] at this
    nlinarith
  have hδS : δ ≤ P / S := by
    rw [le_div_iff₀ hS0]
    linarith
  have h3 : |E / S| ≤ 5 / 4 * (P / S) := by
    rw [abs_div, abs_of_pos hS0, ← mul_div_assoc]
    exact div_le_div_of_nonneg_right h2 hS0.le
  have h4 : |E / S - P / S| ≤ ε * 2 * (P / S) := by
    rw [← sub_div, abs_div, abs_of_pos hS0, ← mul_div_assoc]
    exact div_le_div_of_nonneg_right h1 hS0.le
  have h5 := abs_add_le (w - E / S) (E / S - P / S)
  rw [sub_add_sub_cancel] at h5
  have h6 : ε * (|E / S| + δ) ≤ ε * (9 / 4 * (P / S)) := mul_le_mul_of_nonneg_left (by linarith) hε
  refine ⟨?_, h2⟩
  have : 0 ≤ ε * (P / S) := by positivity
  nlinarith

/-- Averages with weights that are exponentials change little with the exponents. -/
theorem average_lipschitz {α : Type*} (X : List α) (hX : X ≠ []) (p r c : α → ℝ) (hc : ∀ s ∈ X, |c s| ≤ 1) (η : ℝ) (hη : 2 * η ≤ 1)
    (hη0 : 0 ≤ η) (hpr : ∀ s ∈ X, |p s - r s| ≤ η) :
    |(X.map fun s => c s * Real.exp (p s)).sum / (X.map fun s => Real.exp (p s)).sum -
      (X.map fun s => c s * Real.exp (r s)).sum / (X.map fun s => Real.exp (r s)).sum| ≤ 4 * η := by
  have hZp := sum_exp_map_pos X hX p
  have hZr := sum_exp_map_pos X hX r
  have hk : ∀ s ∈ X, |Real.exp (p s) - Real.exp (r s)| ≤ 2 * η * Real.exp (r s) := by
    intro s hs
    obtain ⟨h1, h2⟩ := abs_le.1 (hpr s hs)
    have e : Real.exp (p s) = Real.exp (r s) * Real.exp (p s - r s) := by
      rw [← Real.exp_add]
      congr 1
      ring
    have h3 : Real.exp (p s - r s) ≤ 1 + 2 * η := by
      refine (Real.exp_le_exp.2 h2).trans ((exp_le_inv (by linarith)).trans ?_)
      rw [div_le_iff₀ (by linarith)]
      nlinarith
    have h4 : 1 - η ≤ Real.exp (p s - r s) := by
      have := Real.add_one_le_exp (p s - r s)
      linarith
    have h5 := Real.exp_pos (r s)
    rw [e, abs_le]
    constructor <;> nlinarith
  have hsum : ∀ (L : List α), (∀ s ∈ L, s ∈ X) →
      |(L.map fun s => Real.exp (p s)).sum - (L.map fun s => Real.exp (r s)).sum| ≤ 2 * η * (L.map fun s => Real.exp (r s)).sum ∧
      |(L.map fun s => c s * Real.exp (p s)).sum - (L.map fun s => c s * Real.exp (r s)).sum| ≤
        2 * η * (L.map fun s => Real.exp (r s)).sum ∧
      |(L.map fun s => c s * Real.exp (p s)).sum| ≤ (L.map fun s => Real.exp (p s)).sum := by
    intro L
    induction L with
    | nil => intro _; simp
    | cons s L ih =>
      intro hL
      obtain ⟨i1, i2, i3⟩ := ih fun s hs => hL s (by simp [hs])
      have k1 := hk s (hL s (by simp))
      have k2 := hc s (hL s (by simp))
      simp only [List.map_cons, List.sum_cons]
      refine ⟨?_, ?_, ?_⟩
      · rw [add_sub_add_comm, mul_add]
        exact (abs_add_le _ _).trans (add_le_add k1 i1)
      · rw [add_sub_add_comm, mul_add]
        refine (abs_add_le _ _).trans (add_le_add ?_ i2)
        rw [← mul_sub, abs_mul]
        have := abs_nonneg (Real.exp (p s) - Real.exp (r s))
        nlinarith
      · refine (abs_add_le _ _).trans (add_le_add ?_ i3)
        rw [abs_mul, abs_of_pos (Real.exp_pos _)]
        have := Real.exp_pos (p s)
        nlinarith
  obtain ⟨h1, h2, h3⟩ := hsum X fun s hs => hs
  set Zp := (X.map fun s => Real.exp (p s)).sum
  set Zr := (X.map fun s => Real.exp (r s)).sum
  set Np := (X.map fun s => c s * Real.exp (p s)).sum
  set Nr := (X.map fun s => c s * Real.exp (r s)).sum
  have e : Np / Zp - Nr / Zr = Np / Zp * ((Zr - Zp) / Zr) + (Np - Nr) / Zr := by
    field_simp
    ring
  have h4 : |Np / Zp| ≤ 1 := by
    rw [abs_div, abs_of_pos hZp, div_le_one hZp]
    exact h3
  have h5 : |(Zr - Zp) / Zr| ≤ 2 * η := by
    rw [abs_div, abs_of_pos hZr, div_le_iff₀ hZr, abs_sub_comm]
    exact h1
  have h6 : |(Np - Nr) / Zr| ≤ 2 * η := by
    rw [abs_div, abs_of_pos hZr, div_le_iff₀ hZr]
    exact h2
  rw [e]
  refine (abs_add_le _ _).trans ?_
  rw [abs_mul]
  have := abs_nonneg ((Zr - Zp) / Zr)
  nlinarith

/-- Sums of weights that are nearly right. -/
theorem sum_weights {α : Type*} (X : List α) (w P c : α → ℝ) (hc : ∀ s ∈ X, |c s| ≤ 1) (κ : ℝ)
    (hw : ∀ s ∈ X, |w s - P s| ≤ κ * P s) (hP : ∀ s ∈ X, 0 ≤ P s) :
    |(X.map fun s => w s * c s).sum - (X.map fun s => c s * P s).sum| ≤ κ * (X.map P).sum ∧
      (X.map fun s => |w s * c s|).sum ≤ (1 + κ) * (X.map P).sum ∧ |(X.map fun s => c s * P s).sum| ≤ (X.map P).sum := by
  induction X with
  | nil => simp
  | cons s X ih =>
    obtain ⟨i1, i2, i3⟩ := ih (fun s hs => hc s (by simp [hs])) (fun s hs => hw s (by simp [hs])) (fun s hs => hP s (by simp [hs]))
    have k1 := hc s (by simp)
    have k2 := hw s (by simp)
    have k3 := hP s (by simp)
    simp only [List.map_cons, List.sum_cons]
    refine ⟨?_, ?_, ?_⟩
    · rw [add_sub_add_comm, mul_add]
      refine (abs_add_le _ _).trans (add_le_add ?_ i1)
      rw [mul_comm (c s), ← sub_mul, abs_mul]
      have := abs_nonneg (w s - P s)
      nlinarith
    · rw [mul_add]
      refine add_le_add ?_ i2
      rw [abs_mul]
      have h1 : |w s| ≤ |w s - P s| + |P s| := by
        have := abs_add_le (w s - P s) (P s)
        rwa [sub_add_cancel] at this
      rw [abs_of_nonneg k3] at h1
      have := abs_nonneg (w s)
      nlinarith
    · refine (abs_add_le _ _).trans (add_le_add ?_ i3)
      rw [abs_mul, abs_of_nonneg k3]
      nlinarith

set_option maxHeartbeats 1000000 in
/-- Rounding errors of one prediction. `p` are the exponents, `c` the values of the observable and `L` what `logsumexp` returns. -/
theorem column_acc {α : Type*} (h : Ieee A) (hε : Relative A ε) (X : List α) (hX : X ≠ []) (p c : α → ℝ) (B R L : ℝ)
    (hB : ∀ s ∈ X, |p s| ≤ B) (hc : ∀ s ∈ X, c s = 0 ∨ c s = 1 ∨ c s = -1)
    (hrange : 6 * (X.length : ℝ) ^ 2 * Real.exp B ≤ A.big) (hR : 0 ≤ R)
    (hL : |L - Real.log (X.map fun s => Real.exp (p s)).sum| ≤ ε * R) (hexpL : A.expf L ≤ A.big)
    (hexp : ∀ s ∈ X, A.expf (p s) ≤ A.big) (hsmall : ε * (4 * R + 12 * X.length + 23) ≤ 1) (t : SumTree) (ht : t.Adds X.length) :
    (∀ s ∈ X, A.div (A.exp (.num (p s))) (.num (X.length : ℝ)) = .num (A.rd (A.expf (p s) / X.length)) ∧
      |A.rd (A.expf (p s) / X.length)| ≤ A.big) ∧
    ∃ z, A.div (.num (X.length : ℝ)) (A.exp (.num L)) = .num z ∧
      ∃ q, A.mul (A.treeSum ((X.map fun s => A.rd (A.expf (p s) / X.length) * c s).map .num) t) (.num z) = .num q ∧
        |q - (X.map fun s => c s * Real.exp (p s)).sum / (X.map fun s => Real.exp (p s)).sum| ≤ ε * (4 * R + 12 * X.length + 23) := by
  have hε0 := hε.nonneg
  have hε8 := hε.small
  have hbig1 := IeeeK.big_ge_one h
  set S : ℝ := (X.length : ℝ) with hSdef
  have hS1 : 1 ≤ S := by
    rw [hSdef]
    exact_mod_cast List.length_pos_iff.2 hX
  set δ := 1 / A.big with hδdef
  have hδ0 : 0 < δ := by positivity
  have hb0 : 0 < A.big := by linarith
  have hB0 : 0 ≤ B := by
    obtain ⟨s, hs⟩ := List.exists_mem_of_ne_nil X hX
    exact (abs_nonneg _).trans (hB s hs)
  have hexpB : 1 ≤ Real.exp B := Real.one_le_exp hB0
  have hPlow : ∀ s ∈ X, S * δ * (S * 6) ≤ Real.exp (p s) := by
    intro s hs
    have h1 : Real.exp (-B) ≤ Real.exp (p s) := Real.exp_le_exp.2 (abs_le.1 (hB s hs)).1
    refine le_trans ?_ h1
    rw [Real.exp_neg, hδdef, le_inv_comm₀ (by positivity) (Real.exp_pos _), inv_eq_one_div, le_div_iff₀ (by positivity)]
    have e : Real.exp B * (S * (1 / A.big) * (S * 6)) = 6 * S ^ 2 * Real.exp B / A.big := by ring
    rw [e, div_le_one hb0]
    exact hrange
  have hPlow1 : ∀ s ∈ X, S * δ ≤ Real.exp (p s) := by
    intro s hs
    refine le_trans ?_ (hPlow s hs)
    have : 0 < S * δ := by positivity
    nlinarith
  have hPup : ∀ s ∈ X, Real.exp (p s) ≤ Real.exp B := fun s hs => Real.exp_le_exp.2 (abs_le.1 (hB s hs)).2
  have hSeB : 6 * S * Real.exp B ≤ A.big := by
    have h1 : S ≤ S ^ 2 := by nlinarith
    nlinarith
  have hW : ∀ s ∈ X, |A.rd (A.expf (p s) / S) - Real.exp (p s) / S| ≤ ε * 5 * (Real.exp (p s) / S) ∧
      |A.expf (p s)| ≤ 5 / 4 * Real.exp (p s) := fun s hs =>
    weight_acc hε0 hε8 (Real.exp_pos _) hS1 (hPlow1 s hs) hδ0.le (hε.exp _ (hexp s hs)) (hε.rd _)
  have hWb : ∀ s ∈ X, |A.rd (A.expf (p s) / S)| ≤ A.big := by
    intro s hs
    refine rd_le_big h ?_
    rw [abs_div, abs_of_pos (by linarith : 0 < S), div_le_iff₀ (by linarith)]
    have h1 := (hW s hs).2
    have h2 := hPup s hs
    nlinarith
  refine ⟨fun s hs => ⟨?_, hWb s hs⟩, ?_⟩
  · have e : A.exp (.num (p s)) = .num (A.expf (p s)) := by
      show (if A.big < A.expf (p s) then _ else _) = _
      rw [if_neg (by linarith [hexp s hs])]
    rw [e]
    show (if S = 0 then _ else _) = _
    rw [if_neg (by linarith)]
    exact IeeeK.round_num h (hWb s hs)
  -- the sum of the exponentials
  set Z := (X.map fun s => Real.exp (p s)).sum with hZdef
  have hZ : 0 < Z := sum_exp_map_pos X hX p
  have hZup : Z ≤ S * Real.exp B := by
    have := List.sum_le_card_nsmul (X.map fun s => Real.exp (p s)) (Real.exp B) (by
      intro v hv
      obtain ⟨s, hs, rfl⟩ := List.mem_map.1 hv
      exact hPup s hs)
    rwa [List.length_map, nsmul_eq_mul] at this
  have hZlow : S * (S * δ) ≤ Z := by
    have := List.card_nsmul_le_sum (X.map fun s => Real.exp (p s)) (S * δ) (by
      intro v hv
      obtain ⟨s, hs, rfl⟩ := List.mem_map.1 hv
      exact hPlow1 s hs)
    rwa [List.length_map, nsmul_eq_mul] at this
  have hδZ : δ ≤ Z := by
    have : δ * 1 ≤ δ * (S * S) := mul_le_mul_of_nonneg_left (by nlinarith) hδ0.le
    nlinarith
  have hεR : ε * R ≤ 1 / 4 := by
    have h1 : 0 ≤ ε * S := by positivity
    have h2 : 0 ≤ ε * R := by positivity
    linarith
  have hD := den_acc_small hε0 hδZ hZ hR (by linarith) hL (hε.exp L hexpL)
  have hδS : δ * (2 * Z) ≤ S := by
    have h1 : δ * (2 * Z) ≤ δ * (2 * (S * Real.exp B)) := mul_le_mul_of_nonneg_left (by linarith) hδ0.le
    refine h1.trans ?_
    rw [hδdef, div_mul_eq_mul_div, one_mul, div_le_iff₀ hb0]
    nlinarith
  have hk1 : ε * (2 * R + 3) ≤ 1 / 2 := by
    have h1 : 0 ≤ ε * S := by positivity
    have h2 : 0 ≤ ε * R := by positivity
    linarith
  obtain ⟨-, hD2⟩ := frac_acc (z := S / A.expf L) hε0 hZ (by linarith : 0 < S) (by linarith) hk1 hD hδS hδ0.le (by
    rw [sub_self, abs_zero]
    have : 0 ≤ A.expf L := hε.exp_nonneg L
    have : 0 ≤ S / A.expf L := by positivity
    positivity)
  have hDpos : 0 < A.expf L := by linarith
  have hSD : 0 < S / A.expf L := by positivity
  have hSDb : |S / A.expf L| ≤ A.big := by
    rw [abs_of_pos hSD, div_le_iff₀ hDpos]
    have h1 : S ≤ A.big * (S * (S * δ)) * (1 / S) := by
      rw [hδdef]
      have : A.big * (S * (S * (1 / A.big))) * (1 / S) = S := by field_simp
      rw [this]
    have h2 : S * δ * (S * 6) * S ≤ Z := by
      have := List.card_nsmul_le_sum (X.map fun s => Real.exp (p s)) (S * δ * (S * 6)) (by
        intro v hv
        obtain ⟨s, hs, rfl⟩ := List.mem_map.1 hv
        exact hPlow s hs)
      rw [List.length_map, nsmul_eq_mul] at this
      linarith
    have h3 : A.big * δ = 1 := by rw [hδdef]; field_simp
    have h4 : A.big * (S * δ * (S * 6) * S) = 6 * S ^ 3 := by
      calc A.big * (S * δ * (S * 6) * S) = 6 * S ^ 3 * (A.big * δ) := by ring
        _ = 6 * S ^ 3 := by rw [h3, mul_one]
    have h5 : S ≤ S ^ 3 := by nlinarith [sq_nonneg S, mul_nonneg (by linarith : (0 : ℝ) ≤ S) (by nlinarith : (0 : ℝ) ≤ S ^ 2 - 1)]
    have h6 : A.big * (S * δ * (S * 6) * S) ≤ A.big * Z := mul_le_mul_of_nonneg_left h2 hb0.le
    have h7 : A.big * (Z / 2) ≤ A.big * A.expf L := mul_le_mul_of_nonneg_left (by linarith) hb0.le
    linarith
  refine ⟨A.rd (S / A.expf L), ?_, ?_⟩
  · have e : A.exp (.num L) = .num (A.expf L) := by
      show (if A.big < A.expf L then _ else _) = _
      rw [if_neg (by linarith)]
    rw [e]
    show (if A.expf L = 0 then _ else _) = _
    rw [if_neg hDpos.ne']
    exact IeeeK.round_num h (rd_le_big h hSDb)
  have hzrd := hε.rd (S / A.expf L)
  rw [abs_of_pos hSD] at hzrd
  obtain ⟨hz, -⟩ := frac_acc hε0 hZ (by linarith : 0 < S) (by linarith) hk1 hD hδS hδ0.le hzrd
  -- the sum of the observable
  have hc1 : ∀ s ∈ X, |c s| ≤ 1 := fun s hs => by rcases hc s hs with e | e | e <;> rw [e] <;> simp
  obtain ⟨w1, w2, w3⟩ := sum_weights X (fun s => A.rd (A.expf (p s) / S)) (fun s => Real.exp (p s) / S) c hc1 (ε * 5)
    (fun s hs => (hW s hs).1) (fun s _ => by positivity)
  have eQ : (X.map fun s => Real.exp (p s) / S).sum = Z / S := by rw [hZdef, ← list_sum_div]
  have eN : (X.map fun s => c s * (Real.exp (p s) / S)).sum = (X.map fun s => c s * Real.exp (p s)).sum / S := by
    rw [← list_sum_div]
    simp only [mul_div_assoc]
  rw [eQ, eN] at w1
  rw [eQ] at w2
  rw [eQ, eN] at w3
  set Q := Z / S with hQdef
  have hQ : 0 < Q := by positivity
  set N := (X.map fun s => c s * Real.exp (p s)).sum with hNdef
  have hSδ : S * δ ≤ Q := by
    rw [hQdef, le_div_iff₀ (by linarith)]
    linarith
  have hQup : Q ≤ Real.exp B := by
    rw [hQdef, div_le_iff₀ (by linarith)]
    linarith
  have htl : t.leaves.length = X.length := by
    have := ht.length_eq
    rwa [List.length_range] at this
  have hεS : ε * S ≤ 1 / 12 := by
    have h1 : 0 ≤ ε * R := by positivity
    linarith
  have hpow := pow_sub_one_le hε0 X.length (by rw [← hSdef]; linarith)
  rw [← hSdef] at hpow
  have htot : (X.map fun s => |A.rd (A.expf (p s) / S) * c s|).sum + S / A.big ≤ 21 / 8 * Q := by
    have h1 : S / A.big = S * δ := by rw [hδdef]; ring
    rw [h1]
    have h2 : ε * Q ≤ 1 / 8 * Q := mul_le_mul_of_nonneg_right hε8 hQ.le
    linarith
  have hex1 : exactSum ((X.map fun s => A.rd (A.expf (p s) / S) * c s).map fun a => |a|) t =
      (X.map fun s => |A.rd (A.expf (p s) / S) * c s|).sum := by
    rw [exactSum_adds _ _ (by simpa using ht), List.map_map]
    rfl
  have htot0 : 0 ≤ (X.map fun s => |A.rd (A.expf (p s) / S) * c s|).sum + S / A.big :=
    add_nonneg (List.sum_nonneg (by
      intro v hv
      obtain ⟨s, -, rfl⟩ := List.mem_map.1 hv
      exact abs_nonneg _)) (by positivity)
  obtain ⟨u, u1, u2⟩ := treeSum_relative h hε (X.map fun s => A.rd (A.expf (p s) / S) * c s) t (by
    rw [hex1, htl, ← hSdef]
    have h1 : (1 + ε) ^ X.length ≤ 2 := by linarith
    have h2 : (1 + ε) ^ X.length * ((X.map fun s => |A.rd (A.expf (p s) / S) * c s|).sum + S / A.big) ≤ 2 * (21 / 8 * Q) :=
      mul_le_mul h1 htot htot0 (by norm_num)
    have h3 : Real.exp B ≤ S * Real.exp B := le_mul_of_one_le_left (Real.exp_pos _).le hS1
    linarith)
  rw [hex1, htl, ← hSdef, exactSum_adds _ _ (by simpa using ht)] at u2
  have hu : |u - N / S| ≤ ε * (6 * S + 5) * Q := by
    have h1 : ((1 + ε) ^ X.length - 1) * ((X.map fun s => |A.rd (A.expf (p s) / S) * c s|).sum + S / A.big) ≤
        2 * (ε * S) * (21 / 8 * Q) := mul_le_mul hpow htot htot0 (by positivity)
    have h2 := abs_add_le (u - (X.map fun s => A.rd (A.expf (p s) / S) * c s).sum)
      ((X.map fun s => A.rd (A.expf (p s) / S) * c s).sum - N / S)
    rw [sub_add_sub_cancel] at h2
    have h3 : 0 ≤ ε * S * Q := by positivity
    linarith
  have hzQ : |A.rd (S / A.expf L) - 1 / Q| ≤ ε * (4 * R + 10) * (1 / Q) := by
    have e : 1 / Q = S / Z := by
      rw [hQdef]
      field_simp
    rw [e]
    refine hz.trans (le_of_eq ?_)
    ring
  have hd : ε * (4 * R + 10) ≤ 1 := by
    have h1 : 0 ≤ ε * S := by positivity
    have h2 : 0 ≤ ε * R := by positivity
    linarith
  have hratio := ratio_acc hQ w3 hu hzQ hd
  have eNZ : N / S / Q = N / Z := by
    rw [hQdef]
    field_simp
  rw [eNZ] at hratio
  have hNZ : |N / Z| ≤ 1 := by
    rw [← eNZ, abs_div, abs_of_pos hQ, div_le_one hQ]
    exact w3
  set z := A.rd (S / A.expf L)
  have huz : |u * z| ≤ 2 := by
    have h1 := abs_add_le (u * z - N / Z) (N / Z)
    rw [sub_add_cancel] at h1
    have h2 : ε * (2 * (6 * S + 5) + (4 * R + 10)) ≤ 1 := by linarith
    linarith
  refine ⟨A.rd (u * z), ?_, ?_⟩
  · rw [u1]
    refine IeeeK.round_num h (rd_le_big h ?_)
    have : (2 : ℝ) ≤ A.big := le_trans (by norm_num) h.big
    linarith
  · have h1 := hε.rd (u * z)
    have hδ1 : δ ≤ 1 := by rw [hδdef, div_le_one hb0]; exact hbig1
    have h2 : ε * (|u * z| + δ) ≤ ε * 3 := mul_le_mul_of_nonneg_left (by linarith) hε0
    have h3 := abs_add_le (A.rd (u * z) - u * z) (u * z - N / Z)
    rw [sub_add_sub_cancel] at h3
    linarith

end Verif.Lemmas
