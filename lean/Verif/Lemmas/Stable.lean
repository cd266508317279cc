/-
Minima of averages of convex functions: if the frequencies are close to given probabilities, the minima are close to the
minimum of the mean.
-/
import Verif.Lemmas.Attain2
import Mathlib.Analysis.Convex.SpecificFunctions.Basic

namespace Verif.Lemmas
open Verif Verif.Spec

section
variable {α : Type*} {V : Type*} [NormedAddCommGroup V] [NormedSpace ℝ V]

theorem exp_mix (a b x y : ℝ) (ha : 0 ≤ a) (hb : 0 ≤ b) (hab : a + b = 1) :
    Real.exp (a * x + b * y) ≤ a * Real.exp x + b * Real.exp y := by
  have := convexOn_exp.2 (Set.mem_univ x) (Set.mem_univ y) ha hb hab
  simpa using this

theorem convexOn_exp_lin (B : V →ₗ[ℝ] ℝ) : ConvexOn ℝ Set.univ fun v => Real.exp (B v) := by
  refine ⟨convex_univ, fun v _ w _ a b ha hb hab => ?_⟩
  simp only [map_add, map_smul, smul_eq_mul]
  exact exp_mix a b _ _ ha hb hab

theorem convexOn_list_sum {ι : Type*} (l : List ι) (g : ι → V → ℝ) (h : ∀ i ∈ l, ConvexOn ℝ Set.univ (g i)) :
    ConvexOn ℝ Set.univ fun v => (l.map fun i => g i v).sum := by
  induction l with
  | nil => simpa using convexOn_const (0 : ℝ) convex_univ
  | cons a l ih =>
    simp only [List.map_cons, List.sum_cons]
    exact (h a (by simp)).add (ih fun i hi => h i (List.mem_cons_of_mem _ hi))

/-- The logarithm of the partition function is convex. -/
theorem convexOn_crossLin (S : List α) (hS : S ≠ []) (E : V →ₗ[ℝ] (α → ℝ)) (L : V →ₗ[ℝ] ℝ) :
    ConvexOn ℝ Set.univ (crossLin S E L) := by
  refine ⟨convex_univ, fun v _ w _ a b ha hb hab => ?_⟩
  have hv := partition_pos S (E v) hS
  have hw := partition_pos S (E w) hS
  have hm := partition_pos S (E (a • v + b • w)) hS
  obtain ⟨A, hA⟩ : ∃ A, A = Real.log (partition S (E v)) := ⟨_, rfl⟩
  obtain ⟨B, hB⟩ : ∃ B, B = Real.log (partition S (E w)) := ⟨_, rfl⟩
  have eA : partition S (E v) * Real.exp (-A) = 1 := by
    rw [hA, Real.exp_neg, Real.exp_log hv, mul_inv_cancel₀ hv.ne']
  have eB : partition S (E w) * Real.exp (-B) = 1 := by
    rw [hB, Real.exp_neg, Real.exp_log hw, mul_inv_cancel₀ hw.ne']
  have h1 : partition S (E (a • v + b • w)) * Real.exp (-(a * A + b * B)) ≤ 1 := by
    have e1 : partition S (E (a • v + b • w)) * Real.exp (-(a * A + b * B)) =
        (S.map fun s => Real.exp (a * (-E v s - A) + b * (-E w s - B))).sum := by
      unfold partition
      rw [← list_sum_mul_right]
      refine list_sum_congr fun s _ => ?_
      rw [← Real.exp_add]
      congr 1
      simp only [map_add, map_smul, Pi.add_apply, Pi.smul_apply, smul_eq_mul]
      ring
    have e2 : (S.map fun s => a * Real.exp (-E v s - A) + b * Real.exp (-E w s - B)).sum = 1 := by
      rw [list_sum_add, list_sum_mul_left, list_sum_mul_left]
      have k1 : (S.map fun s => Real.exp (-E v s - A)).sum = 1 := by
        rw [← eA]
        unfold partition
        rw [← list_sum_mul_right]
        exact list_sum_congr fun s _ => by rw [← Real.exp_add]; rfl
      have k2 : (S.map fun s => Real.exp (-E w s - B)).sum = 1 := by
        rw [← eB]
        unfold partition
        rw [← list_sum_mul_right]
        exact list_sum_congr fun s _ => by rw [← Real.exp_add]; rfl
      rw [k1, k2]
      linarith
    rw [e1, ← e2]
    exact List.sum_le_sum fun s _ => exp_mix a b _ _ ha hb hab
  have h2 : Real.log (partition S (E (a • v + b • w))) ≤ a * A + b * B := by
    rw [Real.log_le_iff_le_exp hm]
    calc partition S (E (a • v + b • w))
        = partition S (E (a • v + b • w)) * Real.exp (-(a * A + b * B)) * Real.exp (a * A + b * B) := by
          rw [mul_assoc, ← Real.exp_add]; simp
      _ ≤ 1 * Real.exp (a * A + b * B) := mul_le_mul_of_nonneg_right h1 (Real.exp_pos _).le
      _ = _ := one_mul _
  unfold crossLin
  rw [← hA, ← hB]
  simp only [map_add, map_smul, smul_eq_mul] at h2 ⊢
  linarith

theorem abs_list_sum_le {ι : Type*} (l : List ι) (f : ι → ℝ) : |(l.map f).sum| ≤ (l.map fun i => |f i|).sum := by
  induction l with
  | nil => simp
  | cons a l ih =>
    simp only [List.map_cons, List.sum_cons]
    exact (abs_add_le _ _).trans (by linarith)

/-- A convex function that is smaller at `θ` than on a sphere around it has no points outside that are as small. -/
theorem inside_of_sphere (f : V → ℝ) (hf : ConvexOn ℝ Set.univ f) (θ : V) (ε : ℝ) (hε : 0 < ε)
    (hs : ∀ u, ‖u - θ‖ = ε → f θ < f u) (v : V) (hv : f v ≤ f θ) : ‖v - θ‖ < ε := by
  by_contra hc
  push Not at hc
  have hpos : 0 < ‖v - θ‖ := hε.trans_le hc
  obtain ⟨t, ht⟩ : ∃ t, t = ε / ‖v - θ‖ := ⟨_, rfl⟩
  have t0 : 0 < t := by rw [ht]; positivity
  have t1 : t ≤ 1 := by rw [ht]; exact (div_le_one hpos).2 hc
  have hu := hs ((1 - t) • θ + t • v) (by
    have : (1 - t) • θ + t • v - θ = t • (v - θ) := by
      rw [sub_smul, one_smul, smul_sub]; abel
    rw [this, norm_smul, Real.norm_of_nonneg t0.le, ht]
    field_simp)
  have hcv := hf.2 (Set.mem_univ θ) (Set.mem_univ v) (sub_nonneg.2 t1) t0.le (by ring)
  simp only [smul_eq_mul] at hcv
  nlinarith

variable [FiniteDimensional ℝ V]

/-- Averages over samples with nearly the right frequencies are smaller at the minimum of the mean than far from it. -/
theorem stable_below [BEq α] [LawfulBEq α] (S : List α) (hS : S.Nodup) (p : α → ℝ) (g : V → α → ℝ)
    (hconv : ∀ s ∈ S, ConvexOn ℝ Set.univ fun u => g u s) (hcont : ∀ s ∈ S, Continuous fun u => g u s) (θ : V)
    (hmin : ∀ u, u ≠ θ → (S.map fun s => p s * g θ s).sum < (S.map fun s => p s * g u s).sum) (ε : ℝ) (hε : 0 < ε) :
    ∃ δ, 0 < δ ∧ ∀ X : List α, X ≠ [] → (∀ s ∈ X, s ∈ S) → (∀ s ∈ S, |(X.count s : ℝ) / X.length - p s| < δ) →
      ∀ v, (X.map (g v)).sum ≤ (X.map (g θ)).sum → ‖v - θ‖ < ε := by
  have : ProperSpace V := FiniteDimensional.proper ℝ V
  obtain ⟨F, hF⟩ : ∃ F : V → ℝ, F = fun u => (S.map fun s => p s * g u s).sum := ⟨_, rfl⟩
  have hFc : Continuous F := by
    rw [hF]
    exact continuous_list_sum S fun s hs => continuous_const.mul (hcont s hs)
  -- how much larger the mean is on the sphere
  obtain ⟨m, hm, hsph⟩ : ∃ m, 0 < m ∧ ∀ u, ‖u - θ‖ = ε → F θ + m ≤ F u := by
    rcases (Metric.sphere θ ε).eq_empty_or_nonempty with h0 | hne
    · refine ⟨1, one_pos, fun u hu => ?_⟩
      have : u ∈ Metric.sphere θ ε := by rwa [mem_sphere_iff_norm]
      rw [h0] at this
      exact this.elim
    · obtain ⟨u0, hu0, hmin0⟩ := (isCompact_sphere θ ε).exists_isMinOn hne hFc.continuousOn
      have hne0 : u0 ≠ θ := by
        rintro rfl
        rw [mem_sphere_iff_norm, sub_self, norm_zero] at hu0
        exact hε.ne hu0
      refine ⟨F u0 - F θ, by have := hmin u0 hne0; rw [hF]; linarith, fun u hu => ?_⟩
      have : F u0 ≤ F u := hmin0 (by rwa [mem_sphere_iff_norm])
      linarith
  -- a bound of the terms
  obtain ⟨B, hB, hbound⟩ : ∃ B, 0 < B ∧ ∀ u, ‖u - θ‖ ≤ ε → (S.map fun s => |g u s|).sum ≤ B := by
    have hc : Continuous fun u => (S.map fun s => |g u s|).sum :=
      continuous_list_sum S fun s hs => (hcont s hs).abs
    obtain ⟨u0, hu0, hmax⟩ := (isCompact_closedBall θ ε).exists_isMaxOn ⟨θ, by simp [hε.le]⟩ hc.continuousOn
    refine ⟨(S.map fun s => |g u0 s|).sum + 1, ?_, fun u hu => ?_⟩
    · have : 0 ≤ (S.map fun s => |g u0 s|).sum := List.sum_nonneg fun x hx => by
        obtain ⟨s, _, rfl⟩ := List.mem_map.1 hx
        exact abs_nonneg _
      linarith
    · have : (S.map fun s => |g u s|).sum ≤ (S.map fun s => |g u0 s|).sum := hmax (by rwa [mem_closedBall_iff_norm])
      linarith
  refine ⟨m / (3 * B), by positivity, fun X hX hXS hfreq v hv => ?_⟩
  have hl : (0 : ℝ) < X.length := by exact_mod_cast List.length_pos_of_ne_nil hX
  obtain ⟨f, hf⟩ : ∃ f : V → ℝ, f = fun u => (S.map fun s => (X.count s : ℝ) / X.length * g u s).sum := ⟨_, rfl⟩
  have hfX : ∀ u, f u = (X.map (g u)).sum / X.length := by
    intro u
    have := sum_by_count S X hS hXS (g u)
    rw [show (X.map (g u)).sum = (X.map fun s => g u s).sum from rfl, this, hf, ← list_sum_div]
    exact list_sum_congr fun s _ => by ring
  have hfconv : ConvexOn ℝ Set.univ f := by
    rw [hf]
    refine convexOn_list_sum S _ fun s hs => ?_
    exact (hconv s hs).smul (by positivity)
  have hclose : ∀ u, ‖u - θ‖ ≤ ε → |f u - F u| ≤ m / 3 := by
    intro u hu
    rw [hf, hF]
    dsimp only
    rw [← list_sum_sub]
    have h1 : |(S.map fun s => (X.count s : ℝ) / X.length * g u s - p s * g u s).sum| ≤
        (S.map fun s => m / (3 * B) * |g u s|).sum := by
      refine (abs_list_sum_le _ _).trans (List.sum_le_sum fun s hs => ?_)
      rw [← sub_mul, abs_mul]
      exact mul_le_mul_of_nonneg_right (hfreq s hs).le (abs_nonneg _)
    refine h1.trans ?_
    rw [list_sum_mul_left]
    calc m / (3 * B) * (S.map fun s => |g u s|).sum ≤ m / (3 * B) * B :=
          mul_le_mul_of_nonneg_left (hbound u hu) (by positivity)
      _ = m / 3 := by field_simp
  refine inside_of_sphere f hfconv θ ε hε (fun u hu => ?_) v ?_
  · have a1 := abs_le.1 (hclose u hu.le)
    have a2 := abs_le.1 (hclose θ (by simp [hε.le]))
    have := hsph u hu
    linarith [a1.1, a2.2]
  · rw [hfX, hfX]
    exact div_le_div_of_nonneg_right hv hl.le

/-- Averages over samples with nearly the right frequencies have their minima near the minimum of the mean. -/
theorem stable_avg [BEq α] [LawfulBEq α] (S : List α) (hS : S.Nodup) (p : α → ℝ) (g : V → α → ℝ)
    (hconv : ∀ s ∈ S, ConvexOn ℝ Set.univ fun u => g u s) (hcont : ∀ s ∈ S, Continuous fun u => g u s) (θ : V)
    (hmin : ∀ u, u ≠ θ → (S.map fun s => p s * g θ s).sum < (S.map fun s => p s * g u s).sum) (ε : ℝ) (hε : 0 < ε) :
    ∃ δ, 0 < δ ∧ ∀ X : List α, X ≠ [] → (∀ s ∈ X, s ∈ S) → (∀ s ∈ S, |(X.count s : ℝ) / X.length - p s| < δ) →
      ∀ v, (∀ u, (X.map (g v)).sum ≤ (X.map (g u)).sum) → ‖v - θ‖ < ε := by
  obtain ⟨δ, hδ, h⟩ := stable_below S hS p g hconv hcont θ hmin ε hε
  exact ⟨δ, hδ, fun X h1 h2 h3 v hv => h X h1 h2 h3 v (hv θ)⟩

end

end Verif.Lemmas
