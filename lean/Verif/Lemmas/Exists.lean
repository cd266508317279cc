/-
Existence of the maximum-entropy model: if every state has positive probability, a model of the family
with the same expectations exists.
-/
import Verif.Lemmas.MaxEnt
import Verif.Lemmas.Mpf
import Mathlib.Analysis.Normed.Module.FiniteDimension
import Mathlib.Analysis.Calculus.LocalExtr.Basic
import Mathlib.Analysis.SpecialFunctions.Log.Deriv
import Mathlib.Analysis.SpecialFunctions.ExpDeriv

namespace Verif.Lemmas
open Verif Verif.Spec

variable {α : Type*} {V : Type*} [NormedAddCommGroup V] [NormedSpace ℝ V] [FiniteDimensional ℝ V]

/-- Cross entropy of the data `p` and the model with energy `E`. -/
noncomputable def crossEnt (S : List α) (p E : α → ℝ) : ℝ :=
  (S.map fun s => p s * E s).sum + Real.log (partition S E)

theorem crossEnt_eq (S : List α) (hS : S ≠ []) (p E : α → ℝ) (hp : (S.map p).sum = 1) :
    crossEnt S p E = (S.map fun s => p s * -Real.log (boltzmann S E s)).sum := by
  have h : ∀ s ∈ S, p s * -Real.log (boltzmann S E s) = p s * E s + p s * Real.log (partition S E) := by
    intro s _
    rw [log_boltzmann S E hS]; ring
  rw [List.map_congr_left h, list_sum_add, list_sum_mul_right, hp, one_mul]
  rfl

theorem boltzmann_le_one (S : List α) (hS : S ≠ []) (E : α → ℝ) (s : α) (hs : s ∈ S) :
    boltzmann S E s ≤ 1 := by
  rw [boltzmann, div_le_one (partition_pos S E hS), partition]
  refine List.single_le_sum (fun x hx => ?_) _ (List.mem_map.2 ⟨s, hs, rfl⟩)
  obtain ⟨t, _, rfl⟩ := List.mem_map.1 hx
  exact (Real.exp_pos _).le

theorem crossEnt_bound (S : List α) (hS : S ≠ []) (p E : α → ℝ) (hp : (S.map p).sum = 1)
    (hpos : ∀ s ∈ S, 0 < p s) (c : ℝ) (hc : crossEnt S p E ≤ c) (s : α) (hs : s ∈ S) :
    0 ≤ -Real.log (boltzmann S E s) ∧ -Real.log (boltzmann S E s) ≤ c / p s := by
  have hnn : ∀ t ∈ S, 0 ≤ -Real.log (boltzmann S E t) := by
    intro t ht
    rw [neg_nonneg]
    exact Real.log_nonpos (boltzmann_pos S E hS t).le (boltzmann_le_one S hS E t ht)
  refine ⟨hnn s hs, ?_⟩
  rw [le_div_iff₀ (hpos s hs), mul_comm]
  refine le_trans ?_ hc
  rw [crossEnt_eq S hS p E hp]
  refine List.single_le_sum (fun x hx => ?_) _ (List.mem_map.2 ⟨s, hs, rfl⟩)
  obtain ⟨t, ht, rfl⟩ := List.mem_map.1 hx
  exact mul_nonneg (hpos t ht).le (hnn t ht)

theorem continuous_crossEnt (S : List α) (hS : S ≠ []) (p : α → ℝ) (E : V →ₗ[ℝ] (α → ℝ)) :
    Continuous fun v => crossEnt S p (E v) := by
  have hE : ∀ s, Continuous fun v => E v s := fun s =>
    LinearMap.continuous_of_finiteDimensional ((LinearMap.proj s).comp E)
  unfold crossEnt partition
  refine Continuous.add ?_ (Continuous.log ?_ fun v => (partition_pos S (E v) hS).ne')
  · exact continuous_list_sum S fun s _ => (continuous_const.mul (hE s))
  · exact continuous_list_sum S fun s _ => Real.continuous_exp.comp (hE s).neg

theorem exists_model (S : List α) (hS : S ≠ []) (p : α → ℝ) (hp : (S.map p).sum = 1)
    (hpos : ∀ s ∈ S, 0 < p s) (E : V →ₗ[ℝ] (α → ℝ))
    (hid : ∀ v, (∃ c, ∀ s ∈ S, E v s = c) → v = 0) :
    ∃ v, ∀ w, expect S (E v) (E w) = (S.map fun s => p s * E w s).sum := by
  obtain ⟨s0, hs0⟩ := List.exists_mem_of_ne_nil S hS
  -- energies relative to one state determine the parameters
  let T : V →ₗ[ℝ] (Fin S.length → ℝ) :=
    { toFun := fun v j => E v S[j] - E v s0
      map_add' := fun v w => by funext j; simp; ring
      map_smul' := fun a v => by funext j; simp; ring }
  have hT : LinearMap.ker T = ⊥ := by
    rw [LinearMap.ker_eq_bot']
    intro v hv
    refine hid v ⟨E v s0, fun s hs => ?_⟩
    obtain ⟨j, hj, rfl⟩ := List.getElem_of_mem hs
    have := congrFun hv ⟨j, hj⟩
    simp only [Pi.zero_apply] at this
    exact sub_eq_zero.1 this
  obtain ⟨K, hK, hanti⟩ := LinearMap.exists_antilipschitzWith T hT
  set c := crossEnt S p (E 0) with hc
  have hc0 : 0 ≤ c := by
    have h := crossEnt_bound S hS p (E 0) hp hpos c le_rfl s0 hs0
    have h1 := h.1.trans h.2
    have h2 := hpos s0 hs0
    by_contra hneg
    push Not at hneg
    exact absurd h1 (not_le.2 (div_neg_of_neg_of_pos hneg h2))
  set B := (S.map fun s => c / p s).sum with hB
  have hle : ∀ s ∈ S, c / p s ≤ B := by
    intro s hs
    refine List.single_le_sum (fun x hx => ?_) _ (List.mem_map.2 ⟨s, hs, rfl⟩)
    obtain ⟨t, ht, rfl⟩ := List.mem_map.1 hx
    exact div_nonneg hc0 (hpos t ht).le
  have hB0 : 0 ≤ B := (div_nonneg hc0 (hpos s0 hs0).le).trans (hle s0 hs0)
  -- small cross entropy means small parameters
  have hsmall : ∀ v, crossEnt S p (E v) ≤ c → v ∈ Metric.closedBall (0 : V) (K * B) := by
    intro v hv
    rw [mem_closedBall_zero_iff]
    have h1 : ‖T v‖ ≤ B := by
      rw [pi_norm_le_iff_of_nonneg hB0]
      intro j
      have hj : S[j] ∈ S := List.getElem_mem _
      have a := crossEnt_bound S hS p (E v) hp hpos c hv _ hj
      have b := crossEnt_bound S hS p (E v) hp hpos c hv _ hs0
      rw [log_boltzmann S (E v) hS] at a b
      rw [Real.norm_eq_abs, abs_le]
      have a' := hle _ hj
      have b' := hle _ hs0
      show -B ≤ E v S[j] - E v s0 ∧ E v S[j] - E v s0 ≤ B
      constructor <;> linarith [a.1, a.2, b.1, b.2]
    have h2 := hanti.le_mul_dist v 0
    rw [map_zero, dist_zero_right, dist_zero_right] at h2
    exact h2.trans (mul_le_mul_of_nonneg_left h1 K.coe_nonneg)
  have : ProperSpace V := FiniteDimensional.proper ℝ V
  obtain ⟨v, hvb, hmin⟩ := (isCompact_closedBall (0 : V) (K * B)).exists_isMinOn
    ⟨0, hsmall 0 le_rfl⟩ (continuous_crossEnt S hS p E).continuousOn
  have hglob : ∀ w, crossEnt S p (E v) ≤ crossEnt S p (E w) := by
    intro w
    by_cases hw : crossEnt S p (E w) ≤ c
    · exact hmin (hsmall w hw)
    · exact (hmin (hsmall 0 le_rfl)).trans (not_le.1 hw).le
  refine ⟨v, fun w => ?_⟩
  -- the derivative in direction `w` vanishes
  have hderiv : HasDerivAt (fun t : ℝ => crossEnt S p (E (v + t • w)))
      ((S.map fun s => p s * E w s).sum +
        (S.map fun s => Real.exp (-E v s) * -E w s).sum / partition S (E v)) 0 := by
    have hlin : ∀ s, HasDerivAt (fun t : ℝ => E (v + t • w) s) (E w s) 0 := by
      intro s
      have : (fun t : ℝ => E (v + t • w) s) = fun t => E v s + t * E w s := by
        funext t
        simp
      rw [this]
      simpa using ((hasDerivAt_id (0 : ℝ)).mul_const (E w s)).const_add (E v s)
    have hz : ∀ s, E (v + (0 : ℝ) • w) s = E v s := fun s => by simp
    unfold crossEnt
    refine HasDerivAt.add ?_ ?_
    · exact hasDerivAt_list_sum S _ _ 0 fun s _ => (hlin s).const_mul (p s)
    · have h1 : HasDerivAt (fun t : ℝ => partition S (E (v + t • w)))
          ((S.map fun s => Real.exp (-E v s) * -E w s).sum) 0 := by
        unfold partition
        refine hasDerivAt_list_sum S _ _ 0 fun s _ => ?_
        have := (hlin s).neg.exp
        have e : (-fun t : ℝ => E (v + t • w) s) 0 = -E v s := by
          show -(E (v + (0 : ℝ) • w) s) = _
          rw [hz]
        rw [e] at this
        exact this
      have h2 := h1.log (partition_pos S _ hS).ne'
      have h3 : partition S (E (v + (0 : ℝ) • w)) = partition S (E v) := by
        congr 1
        simp
      rw [h3] at h2
      exact h2
  have hext : IsLocalMin (fun t : ℝ => crossEnt S p (E (v + t • w))) 0 := by
    refine Filter.Eventually.of_forall fun t => ?_
    have := hglob (v + t • w)
    simpa using this
  have h0 := hext.hasDerivAt_eq_zero hderiv
  rw [expect_eq_div]
  have h1 : (S.map fun s => Real.exp (-E v s) * -E w s).sum =
      -(S.map fun s => Real.exp (-E v s) * E w s).sum := by
    rw [← list_sum_neg]
    exact list_sum_congr fun s _ => by ring
  rw [h1, neg_div] at h0
  linarith

end Verif.Lemmas
