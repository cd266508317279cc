/-
Rounding errors of energies and of the objectives of MPF.
-/
import Verif.Model.FloatMpf
import Verif.Lemmas.FloatPotts
import Verif.Lemmas.Mpf

namespace Verif.Lemmas
open Verif Verif.Model Verif.Spec FlArith

variable {A : FlArith} {ε : ℝ}

/-- Rounding keeps a number within natural bounds. -/
theorem rd_le_nat (h : Ieee A) {x : ℝ} (k : ℕ) (hk : k ≤ 2 ^ 53) (hx : |x| ≤ k) : |A.rd x| ≤ k := by
  obtain ⟨h5, h6⟩ := abs_le.1 hx
  refine abs_le.2 ⟨?_, ?_⟩
  · have := h.mono h5
    rwa [h.neg, h.nat k hk] at this
  · have := h.mono h6
    rwa [h.nat k hk] at this

/-- An operation whose exact result is at most a natural number. -/
theorem round_nat (h : Ieee A) (ha : Accurate A ε) {x : ℝ} (k : ℕ) (hk : k ≤ 2 ^ 53) (hx : |x| ≤ k) :
    A.round x = .num (A.rd x) ∧ A.rd (A.rd x) = A.rd x ∧ |A.rd x| ≤ k ∧ |A.rd x - x| ≤ ε * (k + 1) := by
  have h1 := rd_le_nat h k hk hx
  have h2 : (k : ℝ) ≤ A.big := le_trans (by exact_mod_cast hk) h.big
  exact ⟨IeeeK.round_num h (h1.trans h2), h.idem _, h1,
    (ha.rd x).trans (mul_le_mul_of_nonneg_left (by linarith) ha.nonneg)⟩

/-- Multiplication with -1, 0 or 1. -/
theorem mul_sign (h : Ieee A) {x c : ℝ} (hx : A.rd x = x) (hxb : |x| ≤ A.big) (hc : c = 0 ∨ c = 1 ∨ c = -1) :
    A.mul (.num x) (.num c) = .num (x * c) ∧ A.rd (x * c) = x * c ∧ |x * c| ≤ |x| := by
  have h1 : A.rd (x * c) = x * c := by
    rcases hc with rfl | rfl | rfl
    · rw [mul_zero, IeeeK.rd_zero h]
    · rw [mul_one, hx]
    · rw [mul_neg, mul_one, h.neg, hx]
  have h2 : |x * c| ≤ |x| := by
    rw [abs_mul]
    have : |c| ≤ 1 := by rcases hc with rfl | rfl | rfl <;> simp
    have := mul_le_mul_of_nonneg_left this (abs_nonneg x)
    linarith
  refine ⟨?_, h1, h2⟩
  show A.round (x * c) = _
  rw [IeeeK.round_num h (by rw [h1]; linarith), h1]

/-- Rounding errors of a sum of numbers not larger than `k`, in any order. -/
theorem treeSum_near (h : Ieee A) (ha : Accurate A ε) (x : List ℝ) (k : ℕ) (hx : ∀ a ∈ x, |a| ≤ k ∧ A.rd a = a) (N : ℕ)
    (hN : k * N ≤ 2 ^ 53) (t : SumTree) (ht : t.leaves.length ≤ N) :
    ∃ w, A.treeSum (x.map .num) t = .num w ∧ A.rd w = w ∧ |w| ≤ k * t.leaves.length ∧
      |w - exactSum x t| ≤ ε * (k * N + 1) * (t.leaves.length - 1) := by
  induction t with
  | leaf i =>
    refine ⟨x.getD i 0, by rw [treeSum, List.getD_map], ?_⟩
    have hz : |x.getD i 0 - exactSum x (.leaf i)| ≤ ε * (k * N + 1) * (((SumTree.leaf i).leaves.length : ℝ) - 1) := by
      simp [exactSum, SumTree.leaves]
    by_cases hi : i < x.length
    · rw [List.getD_eq_getElem _ _ hi] at hz ⊢
      obtain ⟨h1, h2⟩ := hx _ (List.getElem_mem hi)
      exact ⟨h2, by simpa [SumTree.leaves] using h1, hz⟩
    · rw [List.getD_eq_default _ _ (by omega)] at hz ⊢
      exact ⟨IeeeK.rd_zero h, by simp [SumTree.leaves], hz⟩
  | node l r ihl ihr =>
    rw [SumTree.leaves, List.length_append] at ht
    obtain ⟨a, h1, h2, h3, h4⟩ := ihl (by omega)
    obtain ⟨b, g1, g2, g3, g4⟩ := ihr (by omega)
    have hle : k * (l.leaves.length + r.leaves.length) ≤ k * N := Nat.mul_le_mul_left k ht
    have hab : |a + b| ≤ ((k * (l.leaves.length + r.leaves.length) : ℕ) : ℝ) := by
      push_cast
      exact (abs_add_le a b).trans (by linarith)
    have hNr : ((k * (l.leaves.length + r.leaves.length) : ℕ) : ℝ) ≤ k * N := by exact_mod_cast hle
    obtain ⟨r1, r2, r3, r4⟩ := round_nat h ha _ (hle.trans hN) hab
    have hlen : (SumTree.node l r).leaves.length = l.leaves.length + r.leaves.length := by
      rw [SumTree.leaves, List.length_append]
    refine ⟨A.rd (a + b), ?_, r2, ?_, ?_⟩
    · rw [treeSum, h1, g1]
      exact r1
    · rw [hlen]
      exact_mod_cast r3
    · rw [hlen, exactSum]
      have h8 := mul_le_mul_of_nonneg_left (show ((k * (l.leaves.length + r.leaves.length) : ℕ) : ℝ) + 1 ≤ k * N + 1 by linarith) ha.nonneg
      have h9 : |A.rd (a + b) - (exactSum x l + exactSum x r)| ≤
          |A.rd (a + b) - (a + b)| + (|a - exactSum x l| + |b - exactSum x r|) := by
        have e : A.rd (a + b) - (exactSum x l + exactSum x r) =
            (A.rd (a + b) - (a + b)) + ((a - exactSum x l) + (b - exactSum x r)) := by ring
        rw [e]
        exact (abs_add_le _ _).trans (add_le_add_right (abs_add_le _ _) _)
      push_cast
      nlinarith

/-- The loop of `fast_sum`. -/
theorem fastSum_fold (h : Ieee A) (ha : Accurate A ε) (b N : ℕ) (hN : b * N ≤ 2 ^ 53) (J : List ℝ)
    (hJ : ∀ v ∈ J, A.rd v = v ∧ |v| ≤ b) (s : List ℤ) (hs : ∀ i, (ent s i : ℝ) = 0 ∨ (ent s i : ℝ) = 1 ∨ (ent s i : ℝ) = -1)
    (L : List (ℕ × ℕ)) (j k : ℕ) (hj : j + L.length ≤ N) (w W : ℝ) (hw : A.rd w = w) (hwb : |w| ≤ b * j)
    (hwe : |w - W| ≤ ε * (b * N + 1) * j) :
    ∃ w', (L.foldl (fun (st : Fl × ℕ) p => (A.add st.1 (A.mul (A.mul ((J.map Fl.num).getD st.2 (.num 0)) (.num (ent s p.1)))
        (.num (ent s p.2))), st.2 + 1)) (Fl.num w, k)).1 = .num w' ∧ A.rd w' = w' ∧ |w'| ≤ b * (j + L.length) ∧
      |w' - (L.foldl (fun (st : ℝ × ℕ) p => (st.1 + rd J st.2 * ent s p.1 * ent s p.2, st.2 + 1)) (W, k)).1| ≤
        ε * (b * N + 1) * (j + L.length) := by
  induction L generalizing j k w W with
  | nil => exact ⟨w, rfl, hw, by simpa using hwb, by simpa using hwe⟩
  | cons p L ih =>
    rw [List.length_cons] at hj
    have hJk : A.rd (J.getD k 0) = J.getD k 0 ∧ |J.getD k 0| ≤ b := by
      by_cases hk : k < J.length
      · rw [List.getD_eq_getElem _ _ hk]
        exact hJ _ (List.getElem_mem _)
      · rw [List.getD_eq_default _ _ (by omega)]
        exact ⟨IeeeK.rd_zero h, by simp⟩
    have hbN : b * (j + 1) ≤ b * N := Nat.mul_le_mul_left b (by omega)
    have hb53 : b ≤ 2 ^ 53 := by
      have : b * 1 ≤ b * N := Nat.mul_le_mul_left b (by omega)
      omega
    have hbb : (b : ℝ) ≤ A.big := le_trans (by exact_mod_cast hb53) h.big
    obtain ⟨m1, m2, m3⟩ := mul_sign h hJk.1 (hJk.2.trans hbb) (hs p.1)
    obtain ⟨m4, m5, m6⟩ := mul_sign h m2 (m3.trans (hJk.2.trans hbb)) (hs p.2)
    have hsum : |w + J.getD k 0 * ent s p.1 * ent s p.2| ≤ ((b * (j + 1) : ℕ) : ℝ) := by
      push_cast
      have := abs_add_le w (J.getD k 0 * ent s p.1 * ent s p.2)
      linarith [hJk.2]
    obtain ⟨r1, r2, r3, r4⟩ := round_nat h ha _ (hbN.trans hN) hsum
    have hbNr : ((b * (j + 1) : ℕ) : ℝ) ≤ b * N := by exact_mod_cast hbN
    obtain ⟨w', e1, e2, e3, e4⟩ := ih (j + 1) (k + 1) (by omega) (A.rd (w + J.getD k 0 * ent s p.1 * ent s p.2))
      (W + J.getD k 0 * ent s p.1 * ent s p.2) r2 (by push_cast at r3 ⊢; exact r3) (by
        have h8 := mul_le_mul_of_nonneg_left (show ((b * (j + 1) : ℕ) : ℝ) + 1 ≤ b * N + 1 by linarith) ha.nonneg
        have e : A.rd (w + J.getD k 0 * ent s p.1 * ent s p.2) - (W + J.getD k 0 * ent s p.1 * ent s p.2) =
          (A.rd (w + J.getD k 0 * ent s p.1 * ent s p.2) - (w + J.getD k 0 * ent s p.1 * ent s p.2)) + (w - W) := by ring
        rw [e]
        have := abs_add_le (A.rd (w + J.getD k 0 * ent s p.1 * ent s p.2) - (w + J.getD k 0 * ent s p.1 * ent s p.2)) (w - W)
        push_cast
        linarith)
    refine ⟨w', ?_, e2, ?_, ?_⟩
    · rw [List.foldl_cons]
      dsimp only
      rw [List.getD_map, m1, m4]
      have : A.add (.num w) (.num (J.getD k 0 * ent s p.1 * ent s p.2)) = .num (A.rd (w + J.getD k 0 * ent s p.1 * ent s p.2)) := r1
      rw [this]
      exact e1
    · rw [List.length_cons]
      push_cast at e3 ⊢
      linarith
    · rw [List.foldl_cons, List.length_cons]
      push_cast at e4 ⊢
      have e5 : (j : ℝ) + (L.length + 1) = j + 1 + L.length := by ring
      rw [e5]
      exact e4

/-- Rounding errors of the energy of a state. -/
theorem energy_acc (h : Ieee A) (ha : Accurate A ε) (n b : ℕ) (s : List ℤ) (hs : s.length = n)
    (hv : ∀ x ∈ s, x = 0 ∨ x = 1 ∨ x = -1) (θ : List ℝ) (hθ : θ.length = n + n * (n - 1) / 2)
    (hb : ∀ v ∈ θ, A.rd v = v ∧ |v| ≤ b) (hK : b * (n + n * (n - 1) / 2) ≤ 2 ^ 53) (tE : SumTree) (htE : tE.Adds n) :
    ∃ e, isingCalcERowFl A tE (θ.map .num) s = .num e ∧ A.rd e = e ∧ |e| ≤ ((b * (n + n * (n - 1) / 2) : ℕ) : ℝ) ∧
      |e - isingCalcERow θ s| ≤ ε * (((b * (n + n * (n - 1) / 2) : ℕ) : ℝ) + 1) * ((n + n * (n - 1) / 2 : ℕ) : ℝ) := by
  set m := n * (n - 1) / 2 with hm
  have hlp : (loopPairs s.length).length = m := by rw [loopPairs_eq_upperPairs, length_upperPairs, hs]
  have hent : ∀ i, (ent s i : ℝ) = 0 ∨ (ent s i : ℝ) = 1 ∨ (ent s i : ℝ) = -1 := by
    intro i
    unfold ent
    by_cases hi : i < s.length
    · rw [List.getD_eq_getElem _ _ hi]
      rcases hv _ (List.getElem_mem hi) with e | e | e <;> rw [e] <;> simp
    · rw [List.getD_eq_default _ _ (by omega)]
      simp
  obtain ⟨w, w1, w2, w3, w4⟩ := fastSum_fold h ha b (n + m) hK (θ.drop n) (fun v hv => hb v (List.mem_of_mem_drop hv)) s hent
    (loopPairs s.length) 0 0 (by rw [hlp]; omega) 0 0 (IeeeK.rd_zero h) (by simp) (by simp)
  rw [hlp] at w3 w4
  -- the fields
  have hbig : (b : ℝ) ≤ A.big ∨ n + m = 0 := by
    rcases Nat.eq_zero_or_pos (n + m) with e | e
    · exact Or.inr e
    · refine Or.inl (le_trans ?_ h.big)
      have : b * 1 ≤ b * (n + m) := Nat.mul_le_mul_left b e
      exact_mod_cast (show b ≤ 2 ^ 53 by omega)
  have hz : List.zipWith (fun (x : ℤ) p => A.mul (.num (x : ℝ)) p) s ((θ.take n).map .num) =
      (List.zipWith (fun (x : ℤ) p => (x : ℝ) * p) s (θ.take n)).map .num ∧
      ∀ a ∈ List.zipWith (fun (x : ℤ) p => (x : ℝ) * p) s (θ.take n), |a| ≤ b ∧ A.rd a = a := by
    have key : ∀ (s : List ℤ) (q : List ℝ), (∀ x ∈ s, x = 0 ∨ x = 1 ∨ x = -1) → (∀ v ∈ q, A.rd v = v ∧ |v| ≤ b) →
        (s ≠ [] → (b : ℝ) ≤ A.big) →
        List.zipWith (fun (x : ℤ) p => A.mul (.num (x : ℝ)) p) s (q.map .num) =
          (List.zipWith (fun (x : ℤ) p => (x : ℝ) * p) s q).map .num ∧
        ∀ a ∈ List.zipWith (fun (x : ℤ) p => (x : ℝ) * p) s q, |a| ≤ b ∧ A.rd a = a := by
      intro s
      induction s with
      | nil => intro q _ _ _; simp
      | cons x s ih =>
        intro q hx hq hbb
        cases q with
        | nil => simp
        | cons v q =>
          obtain ⟨i1, i2⟩ := ih q (fun y hy => hx y (by simp [hy])) (fun y hy => hq y (by simp [hy])) (fun _ => hbb (by simp))
          have hb' := hbb (by simp)
          obtain ⟨q1, q2⟩ := hq v (by simp)
          have hc : (x : ℝ) = 0 ∨ (x : ℝ) = 1 ∨ (x : ℝ) = -1 := by
            rcases hx x (by simp) with e | e | e <;> rw [e] <;> simp
          obtain ⟨m1, m2, m3⟩ := mul_sign h q1 (q2.trans hb') hc
          rw [mul_comm] at m2 m3
          have m1' : A.mul (.num (x : ℝ)) (.num v) = .num (x * v) := by
            rw [← mul_comm v (x : ℝ), ← m1]
            show A.round (x * v) = A.round (v * x)
            rw [mul_comm]
          refine ⟨?_, ?_⟩
          · rw [List.map_cons, List.zipWith_cons_cons, List.zipWith_cons_cons, List.map_cons, i1, m1']
          · intro a hma
            rw [List.zipWith_cons_cons, List.mem_cons] at hma
            rcases hma with rfl | hma
            · exact ⟨m3.trans q2, m2⟩
            · exact i2 a hma
    refine key s _ hv (fun v hv => hb v (List.mem_of_mem_take hv)) fun hne => ?_
    rcases hbig with e | e
    · exact e
    · exact absurd (List.length_eq_zero_iff.1 (by omega)) hne
  obtain ⟨z1, z2⟩ := hz
  have hzl : (List.zipWith (fun (x : ℤ) p => (x : ℝ) * p) s (θ.take n)).length = n := by
    rw [List.length_zipWith, List.length_take, hs, hθ]
    omega
  have htl : tE.leaves.length = n := by
    have := htE.length_eq
    rwa [List.length_range] at this
  have hbn : b * n ≤ 2 ^ 53 := (Nat.mul_le_mul_left b (by omega)).trans hK
  obtain ⟨f, f1, f2, f3, f4⟩ := treeSum_near h ha _ b z2 n hbn tE htl.le
  rw [htl] at f3 f4
  rw [exactSum_adds _ _ (by rw [hzl]; exact htE)] at f4
  have hsum : |-w - f| ≤ ((b * (n + m) : ℕ) : ℝ) := by
    have : |-w - f| ≤ |w| + |f| := by
      have := abs_add_le (-w) (-f)
      rw [abs_neg, abs_neg] at this
      rwa [sub_eq_add_neg]
    push_cast
    push_cast at w3
    linarith
  obtain ⟨r1, r2, r3, r4⟩ := round_nat h ha _ hK hsum
  refine ⟨A.rd (-w - f), ?_, r2, r3, ?_⟩
  · unfold isingCalcERowFl fastSumFl
    rw [hs] at w1 ⊢
    rw [← List.map_drop, ← List.map_take, w1, z1, f1]
    show A.round (-w + -f) = _
    rw [← sub_eq_add_neg, r1]
  · have e1 : isingCalcERow θ s = -fastSum (θ.drop n) s - (List.zipWith (fun (x : ℤ) p => (x : ℝ) * p) s (θ.take n)).sum := by
      rw [isingCalcERow, hs]
    have e2 : fastSum (θ.drop n) s = ((loopPairs s.length).foldl (fun (st : ℝ × ℕ) p =>
        (st.1 + rd (θ.drop n) st.2 * ent s p.1 * ent s p.2, st.2 + 1)) (0, 0)).1 := rfl
    rw [e1, e2]
    set F := ((loopPairs s.length).foldl (fun (st : ℝ × ℕ) p =>
        (st.1 + rd (θ.drop n) st.2 * ent s p.1 * ent s p.2, st.2 + 1)) (0, 0)).1
    set G := (List.zipWith (fun (x : ℤ) p => (x : ℝ) * p) s (θ.take n)).sum
    have e3 : A.rd (-w - f) - (-F - G) = (A.rd (-w - f) - (-w - f)) + (-(w - F) + -(f - G)) := by ring
    have e4 := abs_add_le (A.rd (-w - f) - (-w - f)) (-(w - F) + -(f - G))
    have e5 := abs_add_le (-(w - F)) (-(f - G))
    rw [abs_neg, abs_neg] at e5
    rw [e3]
    have hn1 : 1 ≤ n := by
      rw [← htl]
      cases tE with
      | leaf i => simp [SumTree.leaves]
      | node l r =>
        have : ∀ t : SumTree, 1 ≤ t.leaves.length := by
          intro t
          induction t with
          | leaf i => simp [SumTree.leaves]
          | node l r i1 _ => rw [SumTree.leaves, List.length_append]; omega
        exact this _
    have hn1' : (1 : ℝ) ≤ n := by exact_mod_cast hn1
    have hmono : ε * ((b : ℝ) * n + 1) ≤ ε * ((b : ℝ) * (n + m) + 1) := by
      refine mul_le_mul_of_nonneg_left ?_ ha.nonneg
      have : (0 : ℝ) ≤ b * m := by positivity
      linarith
    have hmono2 := mul_le_mul_of_nonneg_right hmono (show (0 : ℝ) ≤ n - 1 by linarith)
    push_cast at w4 f4 r4 ⊢
    have e6 : ε * ((b : ℝ) * (n + m) + 1) * (n + m) = ε * ((b : ℝ) * (n + m) + 1) + (ε * ((b : ℝ) * (n + m) + 1) * (0 + m) +
      ε * ((b : ℝ) * (n + m) + 1) * (n - 1)) := by ring
    rw [e6]
    linarith

/-! ### the logarithm of the objective -/

theorem sum_le_mul {α : Type*} (P : List α) (q r : α → ℝ) (δ : ℝ) (hδ : ∀ p ∈ P, q p ≤ r p + δ) :
    (P.map fun p => Real.exp (q p)).sum ≤ Real.exp δ * (P.map fun p => Real.exp (r p)).sum := by
  induction P with
  | nil => simp
  | cons p P ih =>
    rw [List.map_cons, List.map_cons, List.sum_cons, List.sum_cons, mul_add, ← Real.exp_add]
    exact add_le_add (Real.exp_le_exp.2 (by linarith [hδ p (by simp)])) (ih fun p hp => hδ p (by simp [hp]))

theorem sum_exp_map_pos {α : Type*} (P : List α) (hP : P ≠ []) (q : α → ℝ) : 0 < (P.map fun p => Real.exp (q p)).sum := by
  refine List.sum_pos _ ?_ (by simpa using hP)
  intro x hx
  obtain ⟨p, -, rfl⟩ := List.mem_map.1 hx
  exact Real.exp_pos _

/-- The logarithm of a sum of exponentials moves no further than its arguments. -/
theorem lse_map_lipschitz {α : Type*} (P : List α) (hP : P ≠ []) (q r : α → ℝ) (δ : ℝ) (hδ : ∀ p ∈ P, |q p - r p| ≤ δ) :
    |Real.log (P.map fun p => Real.exp (q p)).sum - Real.log (P.map fun p => Real.exp (r p)).sum| ≤ δ := by
  have hq := sum_exp_map_pos P hP q
  have hr := sum_exp_map_pos P hP r
  have h1 := Real.log_le_log hq (sum_le_mul P q r δ fun p hp => by linarith [(abs_le.1 (hδ p hp)).2])
  have h2 := Real.log_le_log hr (sum_le_mul P r q δ fun p hp => by linarith [(abs_le.1 (hδ p hp)).1])
  rw [Real.log_mul (Real.exp_ne_zero _) hr.ne', Real.log_exp] at h1
  rw [Real.log_mul (Real.exp_ne_zero _) hq.ne', Real.log_exp] at h2
  exact abs_le.2 ⟨by linarith, by linarith⟩

/-- Logarithms of counts. -/
theorem log_count (ha : Accurate A ε) (hε : ε ≤ 1) (c : ℕ) (hc : 0 < c) (hc2 : c ≤ 2 ^ 53) :
    A.log (.num (c : ℝ)) = .num (A.logf c) ∧ |A.logf c| ≤ 107 ∧ |A.logf c - Real.log c| ≤ ε * 54 := by
  have hc' : (0 : ℝ) < c := by exact_mod_cast hc
  have h0 : 0 ≤ Real.log c := Real.log_nonneg (by exact_mod_cast hc)
  have h1 : Real.log c ≤ 53 := by
    have h2 : (c : ℝ) ≤ 2 ^ 53 := by exact_mod_cast hc2
    have h3 := Real.log_le_log hc' h2
    rw [Real.log_pow] at h3
    have h4 : Real.log 2 ≤ 1 := by
      have := Real.log_le_sub_one_of_pos (show (0 : ℝ) < 2 by norm_num)
      linarith
    push_cast at h3
    linarith
  have h5 := ha.log c hc'
  rw [abs_of_nonneg h0] at h5
  have h6 : |A.logf c - Real.log c| ≤ ε * 54 := h5.trans (mul_le_mul_of_nonneg_left (by linarith) ha.nonneg)
  refine ⟨?_, ?_, h6⟩
  · show (if 0 < (c : ℝ) then _ else _) = _
    rw [if_pos hc']
  · have h7 : |A.logf c| ≤ |A.logf c - Real.log c| + |Real.log c| := by
      have := abs_add_le (A.logf c - Real.log c) (Real.log c)
      rwa [sub_add_cancel] at this
    rw [abs_of_nonneg h0] at h7
    linarith

/-- Half the difference of two energies. -/
theorem half_diff (h : Ieee A) (ha : Accurate A ε) (B : ℕ) (hB : B + 214 ≤ 2 ^ 50) (x y : ℝ) (hx : |x| ≤ B) (hy : |y| ≤ B) :
    ∃ p, A.mul (.num (1 / 2)) (A.sub (.num x) (.num y)) = .num p ∧ |p - 1 / 2 * (x - y)| ≤ ε * (2 * B + 2) := by
  have h1 : |x - y| ≤ ((2 * B : ℕ) : ℝ) := by
    have := abs_sub x y
    push_cast
    linarith
  obtain ⟨a1, a2, a3, a4⟩ := round_nat h ha _ (by omega) h1
  have h2 : |1 / 2 * A.rd (x - y)| ≤ (B : ℝ) := by
    rw [abs_mul, abs_of_pos (by norm_num : (0 : ℝ) < 1 / 2)]
    push_cast at a3
    linarith
  obtain ⟨b1, b2, b3, b4⟩ := round_nat h ha _ (by omega) h2
  refine ⟨A.rd (1 / 2 * A.rd (x - y)), ?_, ?_⟩
  rotate_left
  · have e : A.rd (1 / 2 * A.rd (x - y)) - 1 / 2 * (x - y) =
        (A.rd (1 / 2 * A.rd (x - y)) - 1 / 2 * A.rd (x - y)) + 1 / 2 * (A.rd (x - y) - (x - y)) := by ring
    rw [e]
    refine (abs_add_le _ _).trans ?_
    rw [abs_mul (1 / 2 : ℝ), abs_of_pos (by norm_num : (0 : ℝ) < 1 / 2)]
    push_cast at a4 b4
    have := ha.nonneg
    linarith
  · have e : A.sub (.num x) (.num y) = .num (A.rd (x - y)) := by
      rw [← a1, sub_eq_add_neg]
      rfl
    rw [e]
    exact b1

/-- One term of the sum. -/
theorem term_acc (h : Ieee A) (ha : Accurate A ε) (hε : ε ≤ 1) (B : ℕ) (hB : B + 214 ≤ 2 ^ 50) (x y gx gy η : ℝ)
    (hx : |x| ≤ B) (hy : |y| ≤ B) (hgx : |x - gx| ≤ η) (hgy : |y - gy| ≤ η) (c N : ℕ) (hc : 0 < c) (hcN : c ≤ N) (hN : N ≤ 2 ^ 53) :
    ∃ p q, A.mul (.num (1 / 2)) (A.sub (.num x) (.num y)) = .num p ∧
      A.sub (A.add (.num p) (A.log (.num (c : ℝ)))) (A.log (.num (N : ℝ))) = .num q ∧ A.rd q = q ∧
      |q| ≤ ((B + 214 : ℕ) : ℝ) ∧ |q - (1 / 2 * (gx - gy) + Real.log c - Real.log N)| ≤ η + ε * (4 * B + 433) := by
  have h1 : |x - y| ≤ ((2 * B : ℕ) : ℝ) := by
    have := abs_sub x y
    push_cast
    linarith
  obtain ⟨a1, a2, a3, a4⟩ := round_nat h ha _ (by omega) h1
  have h2 : |1 / 2 * A.rd (x - y)| ≤ (B : ℝ) := by
    rw [abs_mul, abs_of_pos (by norm_num : (0 : ℝ) < 1 / 2)]
    push_cast at a3
    linarith
  obtain ⟨b1, b2, b3, b4⟩ := round_nat h ha _ (by omega) h2
  obtain ⟨l1, l2, l3⟩ := log_count ha hε c hc (hcN.trans hN)
  obtain ⟨m1, m2, m3⟩ := log_count ha hε N (by omega) hN
  set p := A.rd (1 / 2 * A.rd (x - y))
  have h3 : |p + A.logf c| ≤ ((B + 107 : ℕ) : ℝ) := by
    have := abs_add_le p (A.logf c)
    push_cast
    linarith
  obtain ⟨c1, c2, c3, c4⟩ := round_nat h ha _ (by omega) h3
  have h4 : |A.rd (p + A.logf c) - A.logf N| ≤ ((B + 214 : ℕ) : ℝ) := by
    have := abs_sub (A.rd (p + A.logf c)) (A.logf N)
    push_cast at c3 ⊢
    linarith
  obtain ⟨d1, d2, d3, d4⟩ := round_nat h ha _ (by omega) h4
  have hp : |p - 1 / 2 * (x - y)| ≤ ε * (2 * B + 3 / 2) := by
    have e : p - 1 / 2 * (x - y) = (p - 1 / 2 * A.rd (x - y)) + 1 / 2 * (A.rd (x - y) - (x - y)) := by ring
    rw [e]
    refine (abs_add_le _ _).trans ?_
    rw [abs_mul, abs_of_pos (by norm_num : (0 : ℝ) < 1 / 2)]
    push_cast at a4 b4
    linarith
  refine ⟨p, A.rd (A.rd (p + A.logf c) - A.logf N), ?_, ?_, d2, d3, ?_⟩
  · have e : A.sub (.num x) (.num y) = .num (A.rd (x - y)) := by
      rw [← a1, sub_eq_add_neg]
      rfl
    rw [e]
    exact b1
  · rw [l1, m1]
    have e : A.add (.num p) (.num (A.logf c)) = .num (A.rd (p + A.logf c)) := c1
    rw [e, ← d1, sub_eq_add_neg]
    rfl
  · set q1 := A.rd (p + A.logf c)
    set q := A.rd (q1 - A.logf N)
    push_cast at c4 d4
    obtain ⟨g1, g2⟩ := abs_le.1 hgx
    obtain ⟨g3, g4⟩ := abs_le.1 hgy
    obtain ⟨p1, p2⟩ := abs_le.1 hp
    obtain ⟨c5, c6⟩ := abs_le.1 c4
    obtain ⟨d5, d6⟩ := abs_le.1 d4
    obtain ⟨l5, l6⟩ := abs_le.1 l3
    obtain ⟨m5, m6⟩ := abs_le.1 m3
    have := ha.nonneg
    exact abs_le.2 ⟨by linarith, by linarith⟩

/-- The pairs of a state and a neighbour. -/
def nbPairs (U : Data) (nb : List ℤ → Data) : List (List ℤ × List ℤ) := (U.map fun s => (nb s).map fun t => (s, t)).flatten

theorem map_nbPairs {α : Type*} (U : Data) (nb : List ℤ → Data) (f : List ℤ → List ℤ → α) :
    (nbPairs U nb).map (fun p => f p.1 p.2) = (U.map fun s => (nb s).map fun t => f s t).flatten := by
  unfold nbPairs
  rw [List.map_flatten, List.map_map]
  congr 1
  refine List.map_congr_left fun s _ => ?_
  rw [Function.comp, List.map_map]
  rfl

theorem mem_nbPairs {U : Data} {nb : List ℤ → Data} {p : List ℤ × List ℤ} (hp : p ∈ nbPairs U nb) : p.1 ∈ U ∧ p.2 ∈ nb p.1 := by
  obtain ⟨l, hl, hp⟩ := List.mem_flatten.1 hp
  obtain ⟨s, hs, rfl⟩ := List.mem_map.1 hl
  obtain ⟨t, ht, rfl⟩ := List.mem_map.1 hp
  exact ⟨hs, ht⟩

theorem length_nbPairs (U : Data) (nb : List ℤ → Data) (m : ℕ) (hm : ∀ s ∈ U, (nb s).length = m) : (nbPairs U nb).length = U.length * m := by
  unfold nbPairs
  induction U with
  | nil => simp
  | cons s U ih =>
    rw [List.map_cons, List.flatten_cons, List.length_append, ih fun s hs => hm s (by simp [hs]), List.length_map, hm s (by simp),
      List.length_cons]
    ring

/-- The exact sum. -/
theorem sum_nbPairs (U : Data) (nb : List ℤ → Data) (c : List ℤ → ℕ) (hc : ∀ s ∈ U, 0 < c s) (N : ℕ) (hN : 0 < N) (g : List ℤ → ℝ) :
    ((nbPairs U nb).map fun p => Real.exp (1 / 2 * (g p.1 - g p.2) + Real.log (c p.1) - Real.log N)).sum =
      ((U.map fun s => (s, c s, nb s)).map fun it => (mpfDobj (fun _ => g) [] it).sum).sum / N := by
  have hN' : (0 : ℝ) < N := by exact_mod_cast hN
  rw [map_nbPairs U nb fun s t => Real.exp (1 / 2 * (g s - g t) + Real.log (c s) - Real.log N)]
  induction U with
  | nil => simp
  | cons s U ih =>
    rw [List.map_cons, List.flatten_cons, List.sum_append, ih fun s hs => hc s (by simp [hs])]
    simp only [List.map_cons, List.sum_cons]
    rw [add_div]
    congr 1
    have hc' : (0 : ℝ) < c s := by exact_mod_cast hc s (by simp)
    unfold mpfDobj
    rw [← list_sum_div]
    apply list_sum_congr
    intro t _
    rw [Real.exp_sub, Real.exp_add, Real.exp_log hc', Real.exp_log hN']
    ring

/-- Rounding errors of `logK`, for any function that computes energies. -/
theorem logK_acc (h : Ieee A) (ha : Accurate A ε) (U : Data) (hU : U ≠ []) (nb : List ℤ → Data) (m : ℕ) (hm : 1 ≤ m)
    (hnb : ∀ s ∈ U, (nb s).length = m) (c : List ℤ → ℕ) (hc : ∀ s ∈ U, 0 < c s) (hN : (U.map c).sum ≤ 2 ^ 53) (B : ℕ)
    (hB : B + 214 ≤ 2 ^ 50) (η : ℝ) (E : List ℤ → Fl) (e g : List ℤ → ℝ)
    (h1 : ∀ s ∈ U, E s = .num (e s) ∧ |e s| ≤ B ∧ |e s - g s| ≤ η)
    (h2 : ∀ s ∈ U, ∀ t ∈ nb s, E t = .num (e t) ∧ |e t| ≤ B ∧ |e t - g t| ≤ η)
    (hT : U.length * m ≤ 2 ^ 50) (hsmall : 4 * (ε * errScale (U.length * m) ((B + 214 : ℕ) : ℝ)) ≤ 1)
    (t : SumTree) (ht : t.Adds (U.length * m)) :
    ∃ L, mpfLogKFl A t E U (U.map c) (U.map nb) = .ok (.num L) ∧ |L| ≤ A.big / 2 ∧
      |L - Real.log (((U.map fun s => (s, c s, nb s)).map fun it => (mpfDobj (fun _ => g) [] it).sum).sum / ((U.map c).sum : ℕ))| ≤
        η + ε * (4 * B + 433) + ε * (((U.length * m : ℕ) : ℝ) ^ 2 + 7 * (U.length * m : ℕ) + (B + 214)) := by
  have hε0 := ha.nonneg
  set N := (U.map c).sum with hNdef
  have hcN : ∀ s ∈ U, c s ≤ N := fun s hs => List.single_le_sum (by simp) _ (List.mem_map_of_mem hs)
  have hNpos : 0 < N := by
    obtain ⟨s, hs⟩ := List.exists_mem_of_ne_nil U hU
    exact (hc s hs).trans_le (hcN s hs)
  have hε1 : ε ≤ 1 := by
    have h3 : (1 : ℝ) ≤ errScale (U.length * m) ((B + 214 : ℕ) : ℝ) := by
      unfold errScale
      have h4 : (0 : ℝ) ≤ ((B + 214 : ℕ) : ℝ) := Nat.cast_nonneg _
      have h5 : (0 : ℝ) ≤ ((U.length * m : ℕ) : ℝ) := Nat.cast_nonneg _
      have h6 := sq_nonneg ((U.length * m : ℕ) : ℝ)
      linarith
    nlinarith
  -- the terms
  set T : List ℤ → List ℤ → Fl := fun s u =>
    A.sub (A.add (A.mul (.num (1 / 2)) (A.sub (E s) (E u))) (A.log (.num (c s : ℝ)))) (A.log (.num (N : ℝ))) with hTdef
  have hex : ∀ p : List ℤ × List ℤ, ∃ q, p ∈ nbPairs U nb → T p.1 p.2 = .num q ∧ A.rd q = q ∧ |q| ≤ ((B + 214 : ℕ) : ℝ) ∧
      |q - (1 / 2 * (g p.1 - g p.2) + Real.log (c p.1) - Real.log N)| ≤ η + ε * (4 * B + 433) := by
    intro p
    by_cases hp : p ∈ nbPairs U nb
    · obtain ⟨hs, hu⟩ := mem_nbPairs hp
      obtain ⟨a1, a2, a3⟩ := h1 _ hs
      obtain ⟨b1, b2, b3⟩ := h2 _ hs _ hu
      obtain ⟨p', q, k1, k2, k3, k4, k5⟩ := term_acc h ha hε1 B hB _ _ _ _ η a2 b2 a3 b3 (c p.1) N (hc _ hs) (hcN _ hs) hN
      refine ⟨q, fun _ => ⟨?_, k3, k4, k5⟩⟩
      rw [hTdef]
      dsimp only
      rw [a1, b1, k1, k2]
    · exact ⟨0, fun h => absurd h hp⟩
  choose q hq using hex
  have hlen : (nbPairs U nb).length = U.length * m := length_nbPairs U nb m hnb
  have hne : nbPairs U nb ≠ [] := by
    have h3 := List.length_pos_iff.2 hU
    refine List.ne_nil_of_length_pos ?_
    rw [hlen]
    positivity
  have hterms : (U.map fun s => (nb s).map fun u => T s u).flatten = ((nbPairs U nb).map q).map .num := by
    rw [← map_nbPairs, List.map_map]
    exact List.map_congr_left fun p hp => (hq p hp).1
  have hE : Energies A ε ((B + 214 : ℕ) : ℝ) ((nbPairs U nb).map q) := by
    refine ⟨h, ha, ?_, ?_, ?_, by simpa using hne, by rw [List.length_map, hlen]; exact hT, by rw [List.length_map, hlen]; exact hsmall⟩
    · intro v hv
      obtain ⟨p, hp, rfl⟩ := List.mem_map.1 hv
      exact (hq p hp).2.1
    · intro v hv
      obtain ⟨p, hp, rfl⟩ := List.mem_map.1 hv
      exact (hq p hp).2.2.1
    · have h3 := h.big
      have h4 : ((B + 214 : ℕ) : ℝ) ≤ ((2 ^ 50 : ℕ) : ℝ) := by exact_mod_cast hB
      push_cast at h4 ⊢
      norm_num at h3 h4 ⊢
      linarith
  obtain ⟨M, L, -, -, -, -, l1, -, l2, l3, -⟩ := hE.lse t (by rw [List.length_map, hlen]; exact ht)
  refine ⟨L, ?_, l2, ?_⟩
  · have hhead : (U.map nb).head? = some (nb (U.head hU)) := by
      rw [List.head?_map, List.head?_eq_some_head hU]
      rfl
    have hrows : (U.map fun s => (s, c s, nb s)).mapM (mpfPowerRowFl A E m) =
        .ok (U.map fun s => (nb s).map fun u => A.mul (.num (1 / 2)) (A.sub (E s) (E u))) := by
      rw [mapM_ok _ (fun it => it.2.2.map fun u => A.mul (.num (1 / 2)) (A.sub (E it.1) (E u)))]
      · rw [List.map_map]
        rfl
      · intro it hit
        obtain ⟨s, hs, rfl⟩ := List.mem_map.1 hit
        unfold mpfPowerRowFl
        exact assignRow_eq _ _ (by simp [hnb s hs])
    unfold mpfLogKFl
    rw [hhead]
    dsimp only
    rw [mpfItems_eq]
    dsimp only
    rw [hnb _ (List.head_mem hU), hrows]
    dsimp only
    rw [if_neg (by simp), zipWith_map_map, ← hNdef]
    have e5 : (U.map fun s => ((nb s).map fun u => A.mul (.num (1 / 2)) (A.sub (E s) (E u))).map fun p =>
        A.sub (A.add p (A.log (.num (c s : ℝ)))) (A.log (.num (N : ℝ)))) = U.map fun s => (nb s).map fun u => T s u := by
      refine List.map_congr_left fun s _ => ?_
      rw [List.map_map]
      rfl
    rw [e5, hterms, l1]
  · have e6 : M + Real.log (((nbPairs U nb).map q).map fun v => Real.exp (v - M)).sum =
        Real.log ((nbPairs U nb).map fun p => Real.exp (q p)).sum := by
      have e7 : (((nbPairs U nb).map q).map fun v => Real.exp (v - M)).sum =
          ((nbPairs U nb).map fun p => Real.exp (q p)).sum * Real.exp (-M) := by
        rw [List.map_map, ← List.sum_map_mul_right]
        congr 1
        refine List.map_congr_left fun p _ => ?_
        rw [Function.comp, ← Real.exp_add, sub_eq_add_neg]
      rw [e7, Real.log_mul (sum_exp_map_pos _ hne q).ne' (Real.exp_ne_zero _), Real.log_exp]
      ring
    rw [e6, List.length_map, hlen] at l3
    have h8 := lse_map_lipschitz (nbPairs U nb) hne q (fun p => 1 / 2 * (g p.1 - g p.2) + Real.log (c p.1) - Real.log N) _
      fun p hp => (hq p hp).2.2.2
    rw [sum_nbPairs U nb c hc N hNpos g] at h8
    obtain ⟨u1, u2⟩ := abs_le.1 l3
    obtain ⟨u3, u4⟩ := abs_le.1 h8
    push_cast at u1 u2 ⊢
    exact abs_le.2 ⟨by linarith, by linarith⟩

/-! ### overflow -/

theorem foldl_inf (h : Ieee A) {α : Type*} (l : List α) (f : α → Fl) (hf : ∀ a ∈ l, NonnegFl (f a)) (v : Fl) (hv : NonnegFl v) :
    NonnegFl (l.foldl (fun o a => A.add o (f a)) v) ∧
      ((v = .inf false ∨ ∃ a ∈ l, f a = .inf false) → l.foldl (fun o a => A.add o (f a)) v = .inf false) := by
  induction l generalizing v with
  | nil => exact ⟨hv, fun hh => by
      rcases hh with hh | ⟨a, ha, -⟩
      · exact hh
      · cases ha⟩
  | cons a l ih =>
    obtain ⟨h1, h2⟩ := add_nonnegFl h hv (hf a (by simp))
    obtain ⟨h3, h4⟩ := ih (fun b hb => hf b (by simp [hb])) _ h1
    refine ⟨h3, fun hh => h4 ?_⟩
    rcases hh with hh | ⟨b, hb, hh⟩
    · exact Or.inl (h2 (Or.inl hh))
    · rcases List.mem_cons.1 hb with rfl | hb
      · exact Or.inl (h2 (Or.inr hh))
      · exact Or.inr ⟨b, hb, hh⟩

theorem mul_nonnegFl (h : Ieee A) {c : ℝ} (hc : 0 < c) {v : Fl} (hv : NonnegFl v) :
    NonnegFl (A.mul (.num c) v) ∧ (v = .inf false → A.mul (.num c) v = .inf false) := by
  have hinf : A.mul (.num c) (.inf false) = .inf false := by
    show (if c = 0 then _ else _) = _
    rw [if_neg hc.ne', decide_eq_false (by linarith)]
    rfl
  rcases hv with rfl | ⟨x, rfl, hx⟩
  · exact ⟨Or.inl hinf, fun _ => hinf⟩
  · refine ⟨?_, fun hh => by cases hh⟩
    have h0 : 0 ≤ A.rd (c * x) := by
      have := h.mono (show 0 ≤ c * x by positivity)
      rwa [IeeeK.rd_zero h] at this
    have hb := IeeeK.big_ge_one h
    show NonnegFl (A.round (c * x))
    unfold FlArith.round
    by_cases h1 : A.big < A.rd (c * x)
    · rw [if_pos h1]; exact Or.inl rfl
    · rw [if_neg h1, if_neg (by linarith)]; exact Or.inr ⟨_, rfl, h0⟩

theorem exp_nonnegFl (hexp : ∀ x, 0 ≤ A.expf x) {v : Fl} (hv : v ≠ .nan) : NonnegFl (A.exp v) := by
  cases v with
  | nan => exact absurd rfl hv
  | inf s =>
    cases s with
    | false => exact Or.inl rfl
    | true => exact Or.inr ⟨0, rfl, le_rfl⟩
  | num x =>
    show NonnegFl (if A.big < A.expf x then _ else _)
    split
    · exact Or.inl rfl
    · exact Or.inr ⟨_, rfl, hexp x⟩

end Verif.Lemmas
