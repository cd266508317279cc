/-
Consistency of conditional likelihoods within a set of states.
-/
import Verif.Lemmas.MaxEnt
import Verif.Lemmas.Boltzmann
import Verif.Spec.PseudoOld

namespace Verif.Lemmas
open Verif Verif.Spec

variable {α β : Type*}

/-- Probability of `s` given the value of `c`. -/
noncomputable def ctxProb [DecidableEq β] (S : List α) (c : α → β) (E : α → ℝ) (s : α) : ℝ :=
  Real.exp (-E s) / ((S.filter fun t => c t = c s).map fun t => Real.exp (-E t)).sum

theorem condOn_eq (S : List (List ℤ)) (E : List ℤ → ℝ) (r : ℕ) (s : List ℤ) :
    condOn S E r s = ctxProb S (fun t => t.eraseIdx r) E s := rfl

theorem sum_filter {K : Type*} [AddCommMonoid K] (S : List α) (P : α → Prop) [DecidablePred P] (f : α → K) :
    ((S.filter fun t => P t).map f).sum = (S.map fun t => if P t then f t else 0).sum := by
  induction S with
  | nil => rfl
  | cons a S ih =>
    by_cases h : P a
    · simp [h, ih]
    · simp [h, ih]

theorem ctxSum_pos [DecidableEq β] (S : List α) (c : α → β) (f : α → ℝ) (hf : ∀ s ∈ S, 0 < f s) (s : α)
    (hs : s ∈ S) : 0 < ((S.filter fun t => c t = c s).map f).sum := by
  refine List.sum_pos _ (fun x hx => ?_) (fun h => ?_)
  · obtain ⟨t, ht, rfl⟩ := List.mem_map.1 hx
    exact hf t (List.mem_filter.1 ht).1
  · rw [List.map_eq_nil_iff] at h
    have : s ∈ S.filter fun t => c t = c s := List.mem_filter.2 ⟨hs, by simp⟩
    rw [h] at this
    simp at this

theorem ctxProb_pos [DecidableEq β] (S : List α) (c : α → β) (E : α → ℝ) (s : α) (hs : s ∈ S) :
    0 < ctxProb S c E s :=
  div_pos (Real.exp_pos _) (ctxSum_pos S c _ (fun _ _ => Real.exp_pos _) s hs)

theorem sum_ctxProb [DecidableEq β] (S : List α) (c : α → β) (E : α → ℝ) (s : α) (hs : s ∈ S) :
    ((S.filter fun t => c t = c s).map (ctxProb S c E)).sum = 1 := by
  have e : ((S.filter fun t => c t = c s).map (ctxProb S c E)).sum =
      ((S.filter fun t => c t = c s).map fun t => Real.exp (-E t) /
        ((S.filter fun t => c t = c s).map fun t => Real.exp (-E t)).sum).sum := by
    apply list_sum_congr
    intro t ht
    have : c t = c s := by simpa using (List.mem_filter.1 ht).2
    unfold ctxProb
    rw [this]
  rw [e, list_sum_div, div_self]
  exact (ctxSum_pos S c _ (fun _ _ => Real.exp_pos _) s hs).ne'

theorem ctx_swap [DecidableEq β] (S : List α) (c : α → β) (F : α → α → ℝ) :
    (S.map fun s => ((S.filter fun t => c t = c s).map fun t => F s t).sum).sum =
      (S.map fun s => ((S.filter fun t => c t = c s).map fun t => F t s).sum).sum := by
  simp only [sum_filter]
  rw [list_sum_comm]
  apply list_sum_congr
  intro s _
  apply list_sum_congr
  intro t _
  by_cases h : c s = c t
  · rw [if_pos h, if_pos h.symm]
  · rw [if_neg h, if_neg (Ne.symm h)]

/-- If the sample has the frequencies of the Boltzmann distribution of `E` on `S`, the conditional
log-likelihood is largest for `E`. -/
theorem ctx_gibbs [DecidableEq α] [DecidableEq β] (S : List α) (hnd : S.Nodup) (c : α → β) (E E' : α → ℝ)
    (X : List α) (hne : X ≠ []) (hX : ∀ s ∈ X, s ∈ S)
    (hdist : ∀ s ∈ S, (X.count s : ℝ) / X.length = boltzmann S E s) :
    (X.map fun s => Real.log (ctxProb S c E' s)).sum ≤ (X.map fun s => Real.log (ctxProb S c E s)).sum ∧
      ((X.map fun s => Real.log (ctxProb S c E s)).sum ≤ (X.map fun s => Real.log (ctxProb S c E' s)).sum →
        ∀ s ∈ S, ctxProb S c E' s = ctxProb S c E s) := by
  have hN : (0 : ℝ) < X.length := by
    have : X.length ≠ 0 := by simpa using hne
    exact_mod_cast Nat.pos_of_ne_zero this
  have hS0 : S ≠ [] := by
    obtain ⟨x, hx⟩ := List.exists_mem_of_ne_nil X hne
    exact List.ne_nil_of_mem (hX x hx)
  obtain ⟨p, hp⟩ : ∃ p : α → ℝ, p = boltzmann S E := ⟨_, rfl⟩
  obtain ⟨q, hq⟩ : ∃ q : α → ℝ, q = fun s => ((S.filter fun t => c t = c s).map p).sum := ⟨_, rfl⟩
  have hppos : ∀ s, 0 < p s := fun s => hp ▸ boltzmann_pos S E hS0 s
  have hqpos : ∀ s ∈ S, 0 < q s := fun s hs => hq ▸ ctxSum_pos S c p (fun t _ => hppos t) s hs
  have hpq : ∀ s ∈ S, p s = q s * ctxProb S c E s := by
    intro s hs
    have h1 := ctxSum_pos S c (fun t => Real.exp (-E t)) (fun _ _ => Real.exp_pos _) s hs
    have hZ := partition_pos S E hS0
    rw [hq, hp]
    unfold ctxProb boltzmann
    beta_reduce
    rw [list_sum_div]
    field_simp
  have hll : ∀ F : α → ℝ, (X.map fun s => Real.log (ctxProb S c F s)).sum =
      X.length * (S.map fun s => p s * Real.log (ctxProb S c F s)).sum := by
    intro F
    rw [sum_by_count S X hnd hX, ← list_sum_mul_left]
    apply list_sum_congr
    intro s hs
    have := hdist s hs
    rw [← hp] at this
    rw [← this]
    field_simp
  have hone : ∀ F : α → ℝ, (S.map fun s => q s * ctxProb S c F s).sum = (S.map p).sum := by
    intro F
    have e := ctx_swap S c fun s t => p t * ctxProb S c F s
    have e1 : (S.map fun s => q s * ctxProb S c F s).sum =
        (S.map fun s => ((S.filter fun t => c t = c s).map fun t => p t * ctxProb S c F s).sum).sum := by
      apply list_sum_congr
      intro s _
      rw [hq, list_sum_mul_right]
    rw [e1, e]
    apply list_sum_congr
    intro s hs
    rw [list_sum_mul_left]
    have := sum_ctxProb S c F s hs
    rw [this, mul_one]
  have hterm : ∀ s ∈ S, 0 ≤ q s * (ctxProb S c E s * Real.log (ctxProb S c E s) -
      ctxProb S c E s * Real.log (ctxProb S c E' s) - ctxProb S c E s + ctxProb S c E' s) :=
    fun s hs => mul_nonneg (hqpos s hs).le
      (gibbs_term _ _ (ctxProb_pos S c E s hs).le (ctxProb_pos S c E' s hs)).1
  have hD : (X.map fun s => Real.log (ctxProb S c E s)).sum - (X.map fun s => Real.log (ctxProb S c E' s)).sum =
      X.length * (S.map fun s => q s * (ctxProb S c E s * Real.log (ctxProb S c E s) -
        ctxProb S c E s * Real.log (ctxProb S c E' s) - ctxProb S c E s + ctxProb S c E' s)).sum := by
    rw [hll, hll]
    have e : (S.map fun s => q s * (ctxProb S c E s * Real.log (ctxProb S c E s) -
        ctxProb S c E s * Real.log (ctxProb S c E' s) - ctxProb S c E s + ctxProb S c E' s)).sum =
        (S.map fun s => (p s * Real.log (ctxProb S c E s) - p s * Real.log (ctxProb S c E' s)) +
          (q s * ctxProb S c E' s - q s * ctxProb S c E s)).sum := by
      apply list_sum_congr
      intro s hs
      rw [hpq s hs]; ring
    rw [e, list_sum_add, list_sum_sub, list_sum_sub, hone, hone]
    ring
  have hsum : 0 ≤ (S.map fun s => q s * (ctxProb S c E s * Real.log (ctxProb S c E s) -
      ctxProb S c E s * Real.log (ctxProb S c E' s) - ctxProb S c E s + ctxProb S c E' s)).sum :=
    List.sum_nonneg (by
      intro x hx
      obtain ⟨s, hs, rfl⟩ := List.mem_map.1 hx
      exact hterm s hs)
  constructor
  · have := mul_nonneg hN.le hsum
    linarith
  · intro hle s hs
    have h0 : X.length * (S.map fun s => q s * (ctxProb S c E s * Real.log (ctxProb S c E s) -
        ctxProb S c E s * Real.log (ctxProb S c E' s) - ctxProb S c E s + ctxProb S c E' s)).sum = 0 := by
      have := mul_nonneg hN.le hsum
      linarith
    have h1 := eq_of_sum_zero S _ hterm ((mul_eq_zero.1 h0).resolve_left hN.ne') s hs
    have h2 := (mul_eq_zero.1 h1).resolve_left (hqpos s hs).ne'
    exact ((gibbs_term _ _ (ctxProb_pos S c E s hs).le (ctxProb_pos S c E' s hs)).2 h2).symm

end Verif.Lemmas
