/-
Product distributions on words.
-/
import Verif.Lemmas.Cooc
import Mathlib.Algebra.BigOperators.Ring.Finset

namespace Verif.Lemmas
open Verif Verif.Spec Verif.Model

theorem sum_words_prod (A : List ℤ) (n : ℕ) (g : ℕ → ℤ → ℝ) :
    ((words A n).map fun s => ∏ i ∈ Finset.range n, g i (s.getD i 0)).sum =
      ∏ i ∈ Finset.range n, (A.map (g i)).sum := by
  induction n generalizing g with
  | zero => simp [words]
  | succ n ih =>
    rw [words, List.map_flatMap, sum_flatMap, Finset.prod_range_succ']
    have : ∀ a ∈ A, (((words A n).map (a :: ·)).map fun s =>
        ∏ i ∈ Finset.range (n + 1), g i (s.getD i 0)).sum =
        (∏ i ∈ Finset.range n, (A.map (g (i + 1))).sum) * g 0 a := by
      intro a _
      rw [← ih fun i => g (i + 1), ← list_sum_mul_right, List.map_map]
      apply list_sum_congr
      intro s _
      simp only [Function.comp]
      rw [Finset.prod_range_succ']
      simp
    rw [list_sum_congr this, list_sum_mul_left]

/-- Energy of independent spins. -/
theorem quadE_diag (n : ℕ) (h : ℕ → ℝ) (x : ℕ → ℝ) :
    quadE n (fun i j => if i = j then h i else 0) x = ∑ i ∈ Finset.range n, h i * x i := by
  unfold quadE
  have : ∀ i ∈ Finset.range n, (∑ j ∈ Finset.range n, if i = j then 0 else
      (if i = j then h i else 0) * x i * x j) = 0 := by
    intro i _
    apply Finset.sum_eq_zero
    intro j _
    by_cases e : i = j <;> simp [e]
  rw [Finset.sum_eq_zero this]
  simp

/-- The field of a spin that is one with frequency `f`. -/
noncomputable def logitField (f : ℝ) : ℝ := -Real.log (f / (1 - f))

theorem exp_neg_logit (f : ℝ) (h0 : 0 < f) (h1 : f < 1) : Real.exp (-logitField f) = f / (1 - f) := by
  rw [logitField, neg_neg, Real.exp_log (div_pos h0 (by linarith))]

/-- Frequency of the value `v` of a spin that is one with frequency `f`. -/
def bitProb (f : ℝ) (v : ℤ) : ℝ := if v = 1 then f else 1 - f

theorem partition_independent (n : ℕ) (f : ℕ → ℝ) (hf : ∀ i < n, 0 < f i ∧ f i < 1) :
    partition (words [(0 : ℤ), 1] n)
      (fun s => quadE n (fun i j => if i = j then logitField (f i) else 0) (spins s)) =
      ∏ i ∈ Finset.range n, (1 - f i)⁻¹ := by
  unfold partition
  have h1 : ∀ s : List ℤ, Real.exp (-quadE n (fun i j => if i = j then logitField (f i) else 0) (spins s)) =
      ∏ i ∈ Finset.range n, Real.exp (-logitField (f i) * ((s.getD i 0 : ℤ) : ℝ)) := by
    intro s
    rw [quadE_diag, ← Real.exp_sum, ← Finset.sum_neg_distrib]
    congr 1
    exact Finset.sum_congr rfl fun i _ => by simp only [spins]; ring
  simp only [h1]
  rw [sum_words_prod [(0 : ℤ), 1] n fun i v => Real.exp (-logitField (f i) * ((v : ℤ) : ℝ))]
  refine Finset.prod_congr rfl fun i hi => ?_
  obtain ⟨h0, h1⟩ := hf i (Finset.mem_range.1 hi)
  simp only [List.map_cons, List.map_nil, List.sum_cons, List.sum_nil, Int.cast_zero, mul_zero,
    Real.exp_zero, Int.cast_one, mul_one, add_zero]
  rw [exp_neg_logit _ h0 h1]
  have : 1 - f i ≠ 0 := by linarith
  field_simp
  ring

theorem boltzmann_independent (n : ℕ) (f : ℕ → ℝ) (hf : ∀ i < n, 0 < f i ∧ f i < 1)
    (s : List ℤ) (hs : s ∈ words [(0 : ℤ), 1] n) :
    boltzmann (words [(0 : ℤ), 1] n)
      (fun s => quadE n (fun i j => if i = j then logitField (f i) else 0) (spins s)) s =
      ∏ i ∈ Finset.range n, bitProb (f i) (s.getD i 0) := by
  unfold boltzmann
  rw [partition_independent n f hf]
  beta_reduce
  rw [quadE_diag, ← Finset.sum_neg_distrib, Real.exp_sum, ← Finset.prod_div_distrib]
  refine Finset.prod_congr rfl fun i hi => ?_
  have hi' := Finset.mem_range.1 hi
  obtain ⟨h0, h1⟩ := hf i hi'
  have hlen : i < s.length := by rw [(mem_words.1 hs).1]; exact hi'
  have hv := (mem_words.1 hs).2 _ (List.getElem_mem hlen)
  simp only [spins, bitProb]
  rw [List.getD_eq_getElem _ _ hlen]
  simp only [List.mem_cons, List.not_mem_nil, or_false] at hv
  rcases hv with h | h
  · rw [h]; simp
  · rw [h]
    simp only [Int.cast_one, mul_one, if_true]
    rw [exp_neg_logit _ h0 h1]
    field_simp
    exact div_self (by linarith)

/-- Averages of products over independent spins. -/
theorem expect_independent (n : ℕ) (f : ℕ → ℝ) (hf : ∀ i < n, 0 < f i ∧ f i < 1) (a b : ℕ)
    (ha : a < n) (hb : b < n) :
    expect (words [(0 : ℤ), 1] n)
      (fun s => quadE n (fun i j => if i = j then logitField (f i) else 0) (spins s))
      (fun s => spins s a * spins s b) = if a = b then f a else f a * f b := by
  unfold expect
  have h1 : ∀ s ∈ words [(0 : ℤ), 1] n, boltzmann (words [(0 : ℤ), 1] n)
      (fun s => quadE n (fun i j => if i = j then logitField (f i) else 0) (spins s)) s *
      (spins s a * spins s b) = ∏ i ∈ Finset.range n, bitProb (f i) (s.getD i 0) *
        ((if i = a then ((s.getD i 0 : ℤ) : ℝ) else 1) * (if i = b then ((s.getD i 0 : ℤ) : ℝ) else 1)) := by
    intro s hs
    rw [boltzmann_independent n f hf s hs, Finset.prod_mul_distrib, Finset.prod_mul_distrib,
      Finset.prod_ite_eq', Finset.prod_ite_eq', if_pos (Finset.mem_range.2 ha),
      if_pos (Finset.mem_range.2 hb)]
    rfl
  rw [list_sum_congr h1]
  rw [sum_words_prod [(0 : ℤ), 1] n fun i v => bitProb (f i) v *
    ((if i = a then ((v : ℤ) : ℝ) else 1) * (if i = b then ((v : ℤ) : ℝ) else 1))]
  have h2 : ∀ i ∈ Finset.range n, (([(0 : ℤ), 1]).map fun v => bitProb (f i) v *
      ((if i = a then ((v : ℤ) : ℝ) else 1) * (if i = b then ((v : ℤ) : ℝ) else 1))).sum =
      if i = a ∨ i = b then f i else 1 := by
    intro i _
    by_cases e1 : i = a
    · simp [e1, bitProb]
    · by_cases e2 : i = b
      · simp [e2, bitProb]
      · simp [e1, e2, bitProb]
  rw [Finset.prod_congr rfl h2]
  by_cases e : a = b
  · subst e
    simp [ha]
  · rw [if_neg e]
    have h3 : ∀ i ∈ Finset.range n, (if i = a ∨ i = b then f i else 1) =
        (if i = a then f i else 1) * (if i = b then f i else 1) := by
      intro i _
      by_cases e1 : i = a
      · have : i ≠ b := fun h => e (e1.symm.trans h)
        simp [e1, e]
      · simp [e1]
    rw [Finset.prod_congr rfl h3, Finset.prod_mul_distrib, Finset.prod_ite_eq', Finset.prod_ite_eq',
      if_pos (Finset.mem_range.2 ha), if_pos (Finset.mem_range.2 hb)]

/-- Entropy of independent spins. -/
theorem entropy_independent (n : ℕ) (f : ℕ → ℝ) (hf : ∀ i < n, 0 < f i ∧ f i < 1) :
    entropy (words [(0 : ℤ), 1] n) (boltzmann (words [(0 : ℤ), 1] n)
      (fun s => quadE n (fun i j => if i = j then logitField (f i) else 0) (spins s))) =
      ∑ i ∈ Finset.range n, (-f i * Real.log (f i) - (1 - f i) * Real.log (1 - f i)) := by
  have hne : words [(0 : ℤ), 1] n ≠ [] := by
    rw [← statesFrom_zero]
    exact statesFrom_ne_nil n 0 (by omega)
  rw [entropy_boltzmann _ _ hne, partition_independent n f hf, expect_eq_mean, mean_quadE,
    Real.log_prod (fun i hi => by
      have := hf i (Finset.mem_range.1 hi); exact inv_ne_zero (by linarith)),
    ← Finset.sum_add_distrib]
  refine Finset.sum_congr rfl fun i hi => ?_
  have hi' := Finset.mem_range.1 hi
  obtain ⟨h0, h1⟩ := hf i hi'
  rw [Finset.sum_eq_single i]
  · have := expect_independent n f hf i i hi' hi'
    rw [expect_eq_mean] at this
    rw [this]
    simp only [if_true, logitField]
    rw [Real.log_div (by linarith) (by linarith), Real.log_inv]
    ring
  · intro j _ hj
    rw [if_neg (fun h => hj h.symm), zero_mul]
  · intro h; exact absurd hi h

end Verif.Lemmas
