/-
Range of the numbers in the pseudolikelihood of the Potts model.
-/
import Verif.Model.FloatPotts
import Verif.Lemmas.FloatPseudo

namespace Verif.Lemmas
open Verif Verif.Model Verif.Spec FlArith

variable {A : FlArith} {ε : ℝ}

/-- Infinite or NaN. -/
def Lost (v : Fl) : Prop := v = .nan ∨ ∃ s, v = .inf s

theorem lost_add {v w : Fl} (h : Lost v ∨ Lost w) : Lost (A.add v w) := by
  have inf_inf : ∀ s t : Bool, Lost (A.add (.inf s) (.inf t)) := fun s t => by
    show Lost (if s = t then _ else _)
    split
    · exact Or.inr ⟨s, rfl⟩
    · exact Or.inl rfl
  rcases h with (rfl | ⟨s, rfl⟩) | (rfl | ⟨s, rfl⟩)
  · exact Or.inl rfl
  · cases w with
    | num x => exact Or.inr ⟨s, rfl⟩
    | inf t => exact inf_inf s t
    | nan => exact Or.inl rfl
  · rw [add_nan]
    exact Or.inl rfl
  · cases v with
    | num x => exact Or.inr ⟨s, rfl⟩
    | inf t => exact inf_inf t s
    | nan => exact Or.inl rfl

theorem lost_foldl (l : List Fl) (v : Fl) (h : Lost v ∨ ∃ w ∈ l, Lost w) : Lost (l.foldl A.add v) := by
  induction l generalizing v with
  | nil =>
    rcases h with h | ⟨w, hw, -⟩
    · exact h
    · cases hw
  | cons u l ih =>
    rw [List.foldl_cons]
    refine ih _ ?_
    rcases h with h | ⟨w, hw, h⟩
    · exact Or.inl (lost_add (Or.inl h))
    · rcases List.mem_cons.1 hw with rfl | hw
      · exact Or.inl (lost_add (Or.inr h))
      · exact Or.inr ⟨w, hw, h⟩

theorem div_lost {v : Fl} (h : Lost v) (s : Bool) : A.div v (.inf s) = .nan := by
  rcases h with rfl | ⟨t, rfl⟩ <;> rfl

theorem mul_inf_lost (c : ℝ) : Lost (A.mul (.num c) (.inf false)) := by
  show Lost (if c = 0 then _ else _)
  split
  · exact Or.inl rfl
  · exact Or.inr ⟨_, rfl⟩

/-- Sums of a few numbers that stay in range. -/
theorem foldl_num (h : Ieee A) (hd : ∀ x, A.rd x = x → A.rd (2 * x) = 2 * x) (B : ℝ) (hB : A.rd B = B) (hB0 : 0 ≤ B)
    (l : List ℝ) (hl : ∀ v ∈ l, |v| ≤ B) (j : ℕ) (a : ℝ) (ha : |a| ≤ 2 ^ j * B) (hbig : 2 ^ (j + l.length) * B ≤ A.big) :
    ∃ w, (l.map .num).foldl A.add (.num a) = .num w ∧ |w| ≤ 2 ^ (j + l.length) * B := by
  have hp : ∀ i : ℕ, A.rd (2 ^ i * B) = 2 ^ i * B := by
    intro i
    induction i with
    | zero => simpa using hB
    | succ i ih =>
      have := hd _ ih
      rwa [← mul_assoc, ← pow_succ'] at this
  induction l generalizing j a with
  | nil => exact ⟨a, rfl, by simpa using ha⟩
  | cons v l ih =>
    have h1 : |a + v| ≤ 2 ^ (j + 1) * B := by
      have h2 := abs_add_le a v
      have h3 := hl v (by simp)
      have h4 : (1 : ℝ) ≤ 2 ^ j := one_le_pow₀ (by norm_num)
      rw [pow_succ]
      nlinarith
    have h2 : |A.rd (a + v)| ≤ 2 ^ (j + 1) * B := by
      obtain ⟨h3, h4⟩ := abs_le.1 h1
      refine abs_le.2 ⟨?_, ?_⟩
      · have := h.mono h3
        rwa [h.neg, hp] at this
      · have := h.mono h4
        rwa [hp] at this
    have h3 : (2 : ℝ) ^ (j + 1) * B ≤ A.big := by
      refine le_trans (mul_le_mul_of_nonneg_right (pow_le_pow_right₀ (by norm_num) ?_) hB0) hbig
      rw [List.length_cons]
      omega
    rw [List.map_cons, List.foldl_cons]
    have e : A.add (.num a) (.num v) = .num (A.rd (a + v)) := IeeeK.round_num h (h2.trans h3)
    rw [e]
    have e2 : j + (v :: l).length = j + 1 + l.length := by rw [List.length_cons]; omega
    rw [e2] at hbig ⊢
    exact ih (fun u hu => hl u (by simp [hu])) (j + 1) _ h2 hbig

/-- Rounding errors of such a sum. -/
theorem foldl_rel (h : Ieee A) (hε : Relative A ε) (B : ℝ) (hB : A.rd B = B) (hB0 : 0 ≤ B)
    (l : List ℝ) (hl : ∀ v ∈ l, |v| ≤ B) (N j : ℕ) (hN : j + l.length ≤ N) (a : ℝ) (ha : |a| ≤ 2 ^ j * B)
    (hbig : 2 ^ N * B ≤ A.big) :
    ∃ w, (l.map .num).foldl A.add (.num a) = .num w ∧ |w - (a + l.sum)| ≤ l.length * (ε * (2 ^ N * B + 1)) := by
  have hb1 := IeeeK.big_ge_one h
  have hB1 : 1 / A.big ≤ 1 := by rw [div_le_one (by linarith)]; exact hb1
  have hp : ∀ i : ℕ, A.rd (2 ^ i * B) = 2 ^ i * B := by
    intro i
    induction i with
    | zero => simpa using hB
    | succ i ih =>
      have := hε.double _ ih
      rwa [← mul_assoc, ← pow_succ'] at this
  induction l generalizing j a with
  | nil => exact ⟨a, rfl, by simp⟩
  | cons v l ih =>
    rw [List.length_cons] at hN
    have h1 : |a + v| ≤ 2 ^ (j + 1) * B := by
      have h2 := abs_add_le a v
      have h3 := hl v (by simp)
      have h4 : (1 : ℝ) ≤ 2 ^ j := one_le_pow₀ (by norm_num)
      rw [pow_succ]
      nlinarith
    have h2 : |A.rd (a + v)| ≤ 2 ^ (j + 1) * B := by
      obtain ⟨h3, h4⟩ := abs_le.1 h1
      refine abs_le.2 ⟨?_, ?_⟩
      · have := h.mono h3
        rwa [h.neg, hp] at this
      · have := h.mono h4
        rwa [hp] at this
    have h3 : (2 : ℝ) ^ (j + 1) * B ≤ 2 ^ N * B :=
      mul_le_mul_of_nonneg_right (pow_le_pow_right₀ (by norm_num) (by omega)) hB0
    rw [List.map_cons, List.foldl_cons]
    have e : A.add (.num a) (.num v) = .num (A.rd (a + v)) := IeeeK.round_num h (h2.trans (h3.trans hbig))
    rw [e]
    obtain ⟨w, g1, g2⟩ := ih (fun u hu => hl u (by simp [hu])) (j + 1) (by omega) _ h2
    refine ⟨w, g1, ?_⟩
    have h5 := hε.rd (a + v)
    have h6 : ε * (|a + v| + 1 / A.big) ≤ ε * (2 ^ N * B + 1) := mul_le_mul_of_nonneg_left (by linarith) hε.nonneg
    have h7 := abs_add_le (w - (A.rd (a + v) + l.sum)) (A.rd (a + v) - (a + v))
    have e2 : w - (a + (v :: l).sum) = (w - (A.rd (a + v) + l.sum)) + (A.rd (a + v) - (a + v)) := by
      rw [List.sum_cons]
      ring
    rw [e2, List.length_cons]
    push_cast
    linarith

/-- Rounding errors of a quotient. -/
theorem quot_acc {ε a d Z N u D q B : ℝ} (hε : 0 ≤ ε) (hB : 1 ≤ B) (ha1 : ε * a ≤ 1) (hd1 : ε * d ≤ 1 / 2)
    (hZ : 1 ≤ Z) (hN : |N| ≤ Z) (hu : |u - N| ≤ ε * a * Z) (hD : |D - Z| ≤ ε * d * Z)
    (hq : |q - u / -D| ≤ ε * (|u / -D| + 1 / B)) :
    |q - N / -Z| ≤ ε * (2 * a + 2 * d + 5) := by
  have hB' : 0 < 1 / B := by positivity
  have hB1 : 1 / B ≤ 1 := by rw [div_le_one (by linarith)]; exact hB
  have hDZ : Z / 2 ≤ D := by
    have := (abs_le.1 hD).1
    nlinarith
  have hD0 : 0 < D := by linarith
  have h1 : |u / D - N / Z| ≤ ε * (2 * a + 2 * d) := by
    have e : u / D - N / Z = (u - N) / D + N / Z * ((Z - D) / D) := by
      have : D ≠ 0 := hD0.ne'
      have : Z ≠ 0 := by linarith
      field_simp
      ring
    have h2 : |(u - N) / D| ≤ 2 * (ε * a) := by
      rw [abs_div, abs_of_pos hD0, div_le_iff₀ hD0]
      have h3 : 0 ≤ ε * a * Z := (abs_nonneg _).trans hu
      have h4 : 0 ≤ ε * a := by
        by_contra hn
        nlinarith
      nlinarith
    have h5 : |N / Z| ≤ 1 := by
      rw [abs_div, abs_of_pos (show 0 < Z by linarith), div_le_one (by linarith)]
      exact hN
    have h6 : |(Z - D) / D| ≤ 2 * (ε * d) := by
      rw [abs_div, abs_of_pos hD0, div_le_iff₀ hD0, abs_sub_comm]
      have h3 : 0 ≤ ε * d * Z := (abs_nonneg _).trans hD
      have h4 : 0 ≤ ε * d := by
        by_contra hn
        nlinarith
      nlinarith
    rw [e]
    have h7 := abs_add_le ((u - N) / D) (N / Z * ((Z - D) / D))
    rw [abs_mul] at h7
    have h8 : |N / Z| * |(Z - D) / D| ≤ 1 * |(Z - D) / D| := mul_le_mul_of_nonneg_right h5 (abs_nonneg _)
    linarith
  have h2 : |u / -D| ≤ 4 := by
    rw [abs_div, abs_neg, abs_of_pos hD0, div_le_iff₀ hD0]
    have h3 : |u| ≤ |u - N| + |N| := by
      have := abs_add_le (u - N) N
      rwa [sub_add_cancel] at this
    nlinarith
  have h3 : ε * (|u / -D| + 1 / B) ≤ ε * 5 := mul_le_mul_of_nonneg_left (by linarith) hε
  have e : q - N / -Z = (q - u / -D) + -(u / D - N / Z) := by
    rw [div_neg, div_neg]
    ring
  rw [e]
  have := abs_add_le (q - u / -D) (-(u / D - N / Z))
  rw [abs_neg (u / D - N / Z)] at this
  linarith

/-- The denominator. -/
theorem den_acc {ε R Z L D B : ℝ} (hε : 0 ≤ ε) (hε1 : ε ≤ 1 / 8) (hB : 1 ≤ B) (hZ : 1 ≤ Z) (hR : 0 ≤ R) (hR1 : 4 * (ε * R) ≤ 1)
    (hL : |L - Real.log Z| ≤ ε * R) (hD : |D - Real.exp L| ≤ ε * (Real.exp L + 1 / B)) :
    |D - Z| ≤ ε * (2 * R + 3) * Z := by
  have hB1 : 1 / B ≤ 1 := by rw [div_le_one (by linarith)]; exact hB
  have hεR : 0 ≤ ε * R := mul_nonneg hε hR
  have hZe : Real.exp (Real.log Z) = Z := Real.exp_log (by linarith)
  have e1 : Real.exp L = Z * Real.exp (L - Real.log Z) := by
    conv_lhs => rw [show L = Real.log Z + (L - Real.log Z) by ring, Real.exp_add, hZe]
  obtain ⟨h1, h2⟩ := abs_le.1 hL
  have h3 : Real.exp (L - Real.log Z) ≤ 1 + 2 * (ε * R) := by
    refine (Real.exp_le_exp.2 h2).trans ((exp_le_inv (by linarith)).trans ?_)
    rw [div_le_iff₀ (by linarith)]
    nlinarith
  have h4 : 1 - ε * R ≤ Real.exp (L - Real.log Z) := by
    have := Real.add_one_le_exp (L - Real.log Z)
    linarith
  have h5 : |Real.exp L - Z| ≤ 2 * (ε * R) * Z := by
    rw [e1, abs_le]
    constructor <;> nlinarith
  have h6 : Real.exp L ≤ 3 / 2 * Z := by
    rw [e1]
    nlinarith
  have h7 : ε * (Real.exp L + 1 / B) ≤ ε * (3 * Z) := mul_le_mul_of_nonneg_left (by linarith) hε
  have h8 := abs_add_le (D - Real.exp L) (Real.exp L - Z)
  rw [sub_add_sub_cancel] at h8
  nlinarith

end Verif.Lemmas
