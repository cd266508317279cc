/-
Rounding errors of energies, and what they do to probabilities.
-/
import Verif.Lemmas.FloatAcc
import Verif.Spec.Boltzmann
import Verif.Spec.Energy
import Verif.Spec.Poly

namespace Verif.Lemmas
open Verif Verif.Model Verif.Spec FlArith

variable {A : FlArith} {ε : ℝ}

/-- The exact sum. -/
def energyR (r : List (ℤ × ℝ)) : ℝ := (r.map fun q => (q.1 : ℝ) * q.2).sum

/-- Errors of a sum of at most `K` terms. -/
theorem energyFl_acc (h : Ieee A) (hε : Accurate A ε) (b : ℝ) (hb : 0 ≤ b) (K : ℕ) (hK : ε * K ≤ 1 / 2)
    (hbig : 2 * (K : ℝ) * b + 1 ≤ A.big) (r : List (ℤ × ℝ)) (hr : ∀ q ∈ r, (q.1 = 0 ∨ q.1 = 1 ∨ q.1 = -1) ∧ |q.2| ≤ b)
    (k : ℕ) (hk : k + r.length ≤ K) (e e0 : ℝ) (he0 : |e0| ≤ k * b) (hd : |e - e0| ≤ k * (ε * (2 * K * b + 2)))
    (hrd : A.rd e = e) :
    ∃ v, energyFl A (.num e) (r.map fun q => (q.1, .num q.2)) = .num v ∧ A.rd v = v ∧
      |v - (e0 + energyR r)| ≤ K * (ε * (2 * K * b + 2)) ∧ |e0 + energyR r| ≤ K * b := by
  have hε0 := hε.nonneg
  have hK0 : (0 : ℝ) ≤ K := Nat.cast_nonneg K
  have hKb : 0 ≤ (K : ℝ) * b := mul_nonneg hK0 hb
  have hδ : 0 ≤ ε * (2 * K * b + 2) := mul_nonneg hε0 (by linarith)
  induction r generalizing k e e0 with
  | nil =>
    have hk' : (k : ℝ) ≤ K := by exact_mod_cast (by simpa using hk)
    refine ⟨e, rfl, hrd, ?_, ?_⟩
    · simp only [energyR, List.map_nil, List.sum_nil, add_zero]
      exact hd.trans (mul_le_mul_of_nonneg_right hk' hδ)
    · simp only [energyR, List.map_nil, List.sum_nil, add_zero]
      exact he0.trans (mul_le_mul_of_nonneg_right hk' hb)
  | cons q r ih =>
    obtain ⟨hq, hqb⟩ := hr q (by simp)
    have hk1 : (k : ℝ) + 1 ≤ K := by
      have : k + 1 ≤ K := by simp only [List.length_cons] at hk; omega
      exact_mod_cast this
    rw [List.map_cons, energyFl]
    have hstep : ∀ u : ℝ, |u| ≤ b → (if q.1 = 0 then Fl.num e else if q.1 < 0 then A.sub (.num e) (.num q.2) else A.add (.num e) (.num q.2))
        = A.round (e + u) → (q.1 : ℝ) * q.2 = u → ∃ v, energyFl A (if q.1 = 0 then Fl.num e else if q.1 < 0 then
          A.sub (.num e) (.num q.2) else A.add (.num e) (.num q.2)) (r.map fun q => (q.1, .num q.2)) = .num v ∧ A.rd v = v ∧
      |v - (e0 + energyR (q :: r))| ≤ K * (ε * (2 * K * b + 2)) ∧ |e0 + energyR (q :: r)| ≤ K * b := by
      intro u hu hform hqu
      have h1 : |e| ≤ k * b + k * (ε * (2 * K * b + 2)) := by
        have := abs_sub_abs_le_abs_sub e e0
        linarith
      have h2 : (k : ℝ) * (ε * (2 * K * b + 2)) ≤ K * b + 1 := by
        calc (k : ℝ) * (ε * (2 * K * b + 2)) ≤ K * (ε * (2 * K * b + 2)) := mul_le_mul_of_nonneg_right (by linarith) hδ
          _ = (ε * K) * (2 * K * b + 2) := by ring
          _ ≤ (1 / 2) * (2 * K * b + 2) := mul_le_mul_of_nonneg_right hK (by linarith)
          _ = K * b + 1 := by ring
      have h3 : (k : ℝ) * b + b ≤ K * b := by
        have := mul_le_mul_of_nonneg_right hk1 hb
        linarith
      have h4 : |e + u| ≤ 2 * K * b + 1 := (abs_add_le _ _).trans (by linarith)
      have h5 : A.round (e + u) = .num (A.rd (e + u)) :=
        IeeeK.round_num h (IeeeK.rd_abs_le h (h4.trans hbig))
      have h6 := hε.rd (e + u)
      have h7 : ε * (|e + u| + 1) ≤ ε * (2 * K * b + 2) := mul_le_mul_of_nonneg_left (by linarith) hε0
      rw [hform, h5]
      obtain ⟨v, g1, g2, g3, g4⟩ := ih (fun q hq => hr q (by simp [hq])) (k + 1) (by simp only [List.length_cons] at hk; omega)
        (A.rd (e + u)) (e0 + u) (by
          push_cast
          exact (abs_add_le _ _).trans (by linarith)) (by
          have : A.rd (e + u) - (e0 + u) = (A.rd (e + u) - (e + u)) + (e - e0) := by ring
          rw [this]
          push_cast
          exact (abs_add_le _ _).trans (by linarith)) (h.idem _)
      have h8 : energyR (q :: r) = u + energyR r := by
        simp only [energyR, List.map_cons, List.sum_cons, hqu]
      refine ⟨v, g1, g2, ?_, ?_⟩
      · rw [h8, ← add_assoc]; exact g3
      · rw [h8, ← add_assoc]; exact g4
    rcases hq with hq | hq | hq
    · refine hstep 0 (by simpa using hb) ?_ (by rw [hq]; simp)
      rw [if_pos hq, add_zero]
      have h1 : |e| ≤ k * b + k * (ε * (2 * K * b + 2)) := by
        have := abs_sub_abs_le_abs_sub e e0
        linarith
      have h2 : (k : ℝ) * (ε * (2 * K * b + 2)) ≤ K * b + 1 := by
        calc (k : ℝ) * (ε * (2 * K * b + 2)) ≤ K * (ε * (2 * K * b + 2)) := mul_le_mul_of_nonneg_right (by linarith) hδ
          _ = (ε * K) * (2 * K * b + 2) := by ring
          _ ≤ (1 / 2) * (2 * K * b + 2) := mul_le_mul_of_nonneg_right hK (by linarith)
          _ = K * b + 1 := by ring
      have h3 : (k : ℝ) * b ≤ K * b := mul_le_mul_of_nonneg_right (by linarith) hb
      exact (IeeeK.round_self h hrd (by linarith)).symm
    · refine hstep q.2 hqb ?_ (by rw [hq]; simp)
      rw [hq, if_neg (by norm_num), if_neg (by norm_num)]
      rfl
    · refine hstep (-q.2) (by rwa [abs_neg]) ?_ (by rw [hq]; simp)
      rw [hq, if_neg (by norm_num), if_pos (by norm_num)]
      rfl

/-! ### probabilities for energies that are close -/

theorem exp_sub_one_le {δ : ℝ} (h0 : 0 ≤ δ) (h1 : δ ≤ 1 / 4) : Real.exp (2 * δ) - 1 ≤ 4 * δ := by
  have h2 := exp_le_inv (x := 2 * δ) (by linarith)
  have h3 : 1 / (1 - 2 * δ) ≤ 1 + 4 * δ := by
    rw [div_le_iff₀ (by linarith)]
    nlinarith
  linarith

theorem sum_exp_ratio (x y : List ℝ) (δ : ℝ) (hxy : List.Forall₂ (fun a b => a ≤ b + δ) x y) :
    (x.map Real.exp).sum ≤ Real.exp δ * (y.map Real.exp).sum := by
  induction hxy with
  | nil => simp
  | cons h _ ih =>
    rw [List.map_cons, List.map_cons, List.sum_cons, List.sum_cons, mul_add, ← Real.exp_add]
    have := Real.exp_le_exp.2 h
    rw [add_comm] at this
    linarith

theorem sum_exp_pos (x : List ℝ) (hx : x ≠ []) : 0 < (x.map Real.exp).sum := by
  apply List.sum_pos
  · intro y hy
    obtain ⟨z, -, rfl⟩ := List.mem_map.1 hy
    exact Real.exp_pos z
  · simpa using hx

/-- The exponentials of close energies, divided by their sums. -/
theorem ratio_close {x y : List ℝ} (hx : x ≠ []) {δ : ℝ} (h0 : 0 ≤ δ) (h1 : δ ≤ 1 / 4)
    (hxy : List.Forall₂ (fun a b => |a - b| ≤ δ) x y) {a b : ℝ} (hab : |a - b| ≤ δ) :
    |Real.exp a / (x.map Real.exp).sum - Real.exp b / (y.map Real.exp).sum| ≤ 4 * δ * (Real.exp b / (y.map Real.exp).sum) := by
  have hy : y ≠ [] := by
    rintro rfl
    cases hxy
    exact hx rfl
  have hX := sum_exp_pos x hx
  have hY := sum_exp_pos y hy
  have r1 := sum_exp_ratio x y δ (hxy.imp fun a b h => by linarith [(abs_le.1 h).2])
  have r2 := sum_exp_ratio y x δ (hxy.flip.imp fun a b h => by linarith [(abs_le.1 h).1])
  obtain ⟨g1, g2⟩ := abs_le.1 hab
  have hb := Real.exp_pos b
  have ha := Real.exp_pos a
  have e1 : Real.exp a ≤ Real.exp δ * Real.exp b := by rw [← Real.exp_add]; exact Real.exp_le_exp.2 (by linarith)
  have e2 : Real.exp b ≤ Real.exp δ * Real.exp a := by rw [← Real.exp_add]; exact Real.exp_le_exp.2 (by linarith)
  have hδ := Real.exp_pos δ
  have e3 : Real.exp (2 * δ) = Real.exp δ * Real.exp δ := by rw [← Real.exp_add]; ring_nf
  have e4 := exp_sub_one_le h0 h1
  have p0 : 0 ≤ Real.exp b / (y.map Real.exp).sum := (div_pos hb hY).le
  have up : Real.exp a / (x.map Real.exp).sum ≤ Real.exp (2 * δ) * (Real.exp b / (y.map Real.exp).sum) := by
    rw [div_le_iff₀ hX, e3]
    calc Real.exp a ≤ Real.exp δ * Real.exp b := e1
      _ = Real.exp δ * (Real.exp b / (y.map Real.exp).sum) * (y.map Real.exp).sum := by field_simp
      _ ≤ Real.exp δ * (Real.exp b / (y.map Real.exp).sum) * (Real.exp δ * (x.map Real.exp).sum) :=
        mul_le_mul_of_nonneg_left r2 (mul_nonneg hδ.le p0)
      _ = _ := by ring
  have lo : Real.exp b / (y.map Real.exp).sum ≤ Real.exp (2 * δ) * (Real.exp a / (x.map Real.exp).sum) := by
    have q0 : 0 ≤ Real.exp a / (x.map Real.exp).sum := (div_pos ha hX).le
    rw [div_le_iff₀ hY, e3]
    calc Real.exp b ≤ Real.exp δ * Real.exp a := e2
      _ = Real.exp δ * (Real.exp a / (x.map Real.exp).sum) * (x.map Real.exp).sum := by field_simp
      _ ≤ Real.exp δ * (Real.exp a / (x.map Real.exp).sum) * (Real.exp δ * (y.map Real.exp).sum) :=
        mul_le_mul_of_nonneg_left r1 (mul_nonneg hδ.le q0)
      _ = _ := by ring
  obtain ⟨P, hP⟩ : ∃ P, P = Real.exp a / (x.map Real.exp).sum := ⟨_, rfl⟩
  obtain ⟨Q, hQ⟩ : ∃ Q, Q = Real.exp b / (y.map Real.exp).sum := ⟨_, rfl⟩
  rw [← hP, ← hQ] at up lo ⊢
  rw [← hQ] at p0
  have h2 := Real.add_one_le_exp (-(2 * δ))
  have h3 : Real.exp (2 * δ) * Real.exp (-(2 * δ)) = 1 := by rw [← Real.exp_add]; simp
  have h4 : (1 - 2 * δ) * Q ≤ P := by
    have h5 : Real.exp (-(2 * δ)) * Q ≤ P := by
      have := mul_le_mul_of_nonneg_left lo (Real.exp_pos (-(2 * δ))).le
      calc _ ≤ Real.exp (-(2 * δ)) * (Real.exp (2 * δ) * P) := this
        _ = (Real.exp (2 * δ) * Real.exp (-(2 * δ))) * P := by ring
        _ = P := by rw [h3, one_mul]
    have h6 := mul_le_mul_of_nonneg_right h2 p0
    linarith
  have h7 : Real.exp (2 * δ) * Q ≤ (1 + 4 * δ) * Q := mul_le_mul_of_nonneg_right (by linarith) p0
  have h8 : 0 ≤ δ * Q := mul_nonneg h0 p0
  exact abs_le.2 ⟨by linarith, by linarith⟩

end Verif.Lemmas
