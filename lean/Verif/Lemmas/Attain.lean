/-
When sums of exponentials of linear functions have a minimum.
-/
import Verif.Lemmas.EnumerateObj2
import Verif.Spec.Flow
import Verif.Spec.Cond
import Mathlib.LinearAlgebra.Basis.VectorSpace

namespace Verif.Lemmas
open Verif Verif.Spec

section
variable {α : Type*} {V : Type*} [NormedAddCommGroup V] [NormedSpace ℝ V]

theorem crossLin_shift (S : List α) (hS : S ≠ []) (E : V →ₗ[ℝ] (α → ℝ)) (L : V →ₗ[ℝ] ℝ) (v w : V)
    (h : ∀ s ∈ S, E w s = L w) : crossLin S E L (v + w) = crossLin S E L v := by
  have e : partition S (E (v + w)) = Real.exp (-L w) * partition S (E v) := by
    unfold partition
    rw [← list_sum_mul_left]
    refine list_sum_congr fun s hs => ?_
    rw [map_add, Pi.add_apply, h s hs, ← Real.exp_add]
    congr 1
    ring
  unfold crossLin
  rw [e, Real.log_mul (Real.exp_pos _).ne' (partition_pos S _ hS).ne', Real.log_exp, map_add]
  ring

theorem crossLin_decreases (S : List α) (hS : S ≠ []) (E : V →ₗ[ℝ] (α → ℝ)) (L : V →ₗ[ℝ] ℝ) (v w : V)
    (h : ∀ s ∈ S, L w ≤ E w s) (s0 : α) (hs0 : s0 ∈ S) (hlt : L w < E w s0) :
    crossLin S E L (v + w) < crossLin S E L v := by
  have e : partition S (E (v + w)) < Real.exp (-L w) * partition S (E v) := by
    unfold partition
    rw [← list_sum_mul_left]
    refine List.sum_lt_sum _ _ (fun s hs => ?_) ⟨s0, hs0, ?_⟩
    · rw [map_add, Pi.add_apply, ← Real.exp_add]
      exact Real.exp_le_exp.2 (by linarith [h s hs])
    · rw [map_add, Pi.add_apply, ← Real.exp_add]
      exact Real.exp_lt_exp.2 (by linarith)
  have := Real.log_lt_log (partition_pos S _ hS) e
  rw [Real.log_mul (Real.exp_pos _).ne' (partition_pos S _ hS).ne', Real.log_exp] at this
  unfold crossLin
  rw [map_add]
  linarith

/-- The minima differ by directions in which nothing changes. -/
theorem crossLin_minima (S : List α) (hS : S ≠ []) (E : V →ₗ[ℝ] (α → ℝ)) (L : V →ₗ[ℝ] ℝ) (v w : V)
    (hv : ∀ u, crossLin S E L v ≤ crossLin S E L u) (hw : crossLin S E L (v + w) ≤ crossLin S E L v) :
    ∀ s ∈ S, E w s = L w := by
  have hm := moments_of_min S hS E L v hv w
  have hZ := partition_pos S (E v) hS
  -- the ratio of the partition functions
  have hr : partition S (E (v + w)) = partition S (E v) * (S.map fun s => boltzmann S (E v) s * Real.exp (-E w s)).sum := by
    rw [← list_sum_mul_left]
    conv_lhs => unfold partition
    refine list_sum_congr fun s _ => ?_
    rw [map_add, Pi.add_apply, neg_add, Real.exp_add]
    unfold boltzmann
    rw [← mul_assoc, mul_div_cancel₀ _ hZ.ne']
  set q := (S.map fun s => boltzmann S (E v) s * Real.exp (-E w s)).sum with hq
  have hqpos : 0 < q := by
    have h1 := partition_pos S (E (v + w)) hS
    rw [hr] at h1
    exact (pos_iff_pos_of_mul_pos h1).1 hZ
  have hle : Real.log q ≤ -L w := by
    unfold crossLin at hw
    rw [hr, Real.log_mul hZ.ne' hqpos.ne', map_add] at hw
    linarith
  have hq1 : q * Real.exp (L w) ≤ 1 := by
    rw [Real.log_le_iff_le_exp hqpos] at hle
    calc q * Real.exp (L w) ≤ Real.exp (-L w) * Real.exp (L w) := mul_le_mul_of_nonneg_right hle (Real.exp_pos _).le
      _ = 1 := by rw [← Real.exp_add]; simp
  have hsum : (S.map fun s => boltzmann S (E v) s * (Real.exp (L w - E w s) - (L w - E w s) - 1)).sum =
      q * Real.exp (L w) - 1 := by
    have e1 : (S.map fun s => boltzmann S (E v) s * (Real.exp (L w - E w s) - (L w - E w s) - 1)) =
        S.map fun s => (boltzmann S (E v) s * Real.exp (-E w s) * Real.exp (L w) + boltzmann S (E v) s * E w s) -
          boltzmann S (E v) s * (L w + 1) := List.map_congr_left fun s _ => by
      rw [sub_eq_add_neg (L w), Real.exp_add]
      ring
    have e2 : (S.map fun s => boltzmann S (E v) s * E w s).sum = L w := hm
    rw [e1, list_sum_sub, list_sum_add, list_sum_mul_right, list_sum_mul_right, sum_boltzmann S _ hS, e2, ← hq]
    ring
  have hnn : ∀ s ∈ S, 0 ≤ boltzmann S (E v) s * (Real.exp (L w - E w s) - (L w - E w s) - 1) := fun s _ =>
    mul_nonneg (boltzmann_pos S (E v) hS s).le (by linarith [Real.add_one_le_exp (L w - E w s)])
  have hz : (S.map fun s => boltzmann S (E v) s * (Real.exp (L w - E w s) - (L w - E w s) - 1)).sum = 0 := by
    refine le_antisymm (by rw [hsum]; linarith) (List.sum_nonneg fun x hx => ?_)
    obtain ⟨s, hs, rfl⟩ := List.mem_map.1 hx
    exact hnn s hs
  intro s hs
  have h0 := eq_of_sum_zero S _ hnn hz s hs
  rcases mul_eq_zero.1 h0 with h1 | h1
  · exact absurd h1 (boltzmann_pos S (E v) hS s).ne'
  · by_contra hne
    have := Real.add_one_lt_exp (x := L w - E w s) (fun h => hne (by linarith))
    linarith

variable [FiniteDimensional ℝ V]

theorem crossLin_attained (S : List α) (hS : S ≠ []) (E : V →ₗ[ℝ] (α → ℝ)) (L : V →ₗ[ℝ] ℝ)
    (h : ∀ w, w ≠ 0 → ∃ s ∈ S, E w s < L w) : ∃ v, ∀ w, crossLin S E L v ≤ crossLin S E L w := by
  rcases subsingleton_or_nontrivial V with hV | hV
  · exact ⟨0, fun w => by rw [Subsingleton.elim w 0]⟩
  obtain ⟨d, hd, hb⟩ := exists_lower_bound S E L h
  have hle : ∀ v, d * ‖v‖ ≤ crossLin S E L v := fun v => by
    obtain ⟨s, hs, h1⟩ := hb v
    exact h1.trans (crossLin_ge S E L v s hs)
  have : ProperSpace V := FiniteDimensional.proper ℝ V
  set c := crossLin S E L 0 with hc
  have hsmall : ∀ v, crossLin S E L v ≤ c → v ∈ Metric.closedBall (0 : V) (c / d) := fun v hv => by
    rw [mem_closedBall_zero_iff, le_div_iff₀ hd, mul_comm]
    exact (hle v).trans hv
  obtain ⟨v, hvb, hmin⟩ := (isCompact_closedBall (0 : V) (c / d)).exists_isMinOn
    ⟨0, hsmall 0 le_rfl⟩ (continuous_crossLin S hS E L).continuousOn
  refine ⟨v, fun w => ?_⟩
  by_cases hw : crossLin S E L w ≤ c
  · exact hmin (hsmall w hw)
  · exact (hmin (hsmall 0 le_rfl)).trans (not_le.1 hw).le

/-- The cross entropy has a minimum if and only if it decreases forever in no direction. -/
theorem crossLin_attained_iff (S : List α) (hS : S ≠ []) (E : V →ₗ[ℝ] (α → ℝ)) (L : V →ₗ[ℝ] ℝ) :
    (∃ v, ∀ w, crossLin S E L v ≤ crossLin S E L w) ↔
      ∀ w, (∀ s ∈ S, L w ≤ E w s) → ∀ s ∈ S, E w s = L w := by
  constructor
  · rintro ⟨v, hv⟩ w hw s hs
    by_contra hne
    exact absurd (hv (v + w)) (not_le.2 (crossLin_decreases S hS E L v w hw s hs
      (lt_of_le_of_ne (hw s hs) fun h => hne h.symm)))
  · intro h
    let N : Submodule ℝ V :=
      { carrier := {w | ∀ s ∈ S, E w s = L w}
        add_mem' := fun {a b} ha hb s hs => by
          rw [map_add, map_add, Pi.add_apply, ha s hs, hb s hs]
        zero_mem' := fun s _ => by simp
        smul_mem' := fun c a ha s hs => by
          rw [map_smul, map_smul, Pi.smul_apply, ha s hs] }
    obtain ⟨W, hW⟩ := N.exists_isCompl
    obtain ⟨v, hv⟩ := crossLin_attained S hS (E.comp W.subtype) (L.comp W.subtype) fun w hw => by
      by_contra hc
      push Not at hc
      have : (w : V) ∈ N := h w hc
      have := (Submodule.disjoint_def.1 hW.disjoint) _ this w.2
      exact hw (Subtype.ext this)
    refine ⟨v, fun u => ?_⟩
    obtain ⟨a, ha, b, hb, rfl⟩ := Submodule.mem_sup.1 ((hW.sup_eq_top ▸ Submodule.mem_top : u ∈ N ⊔ W))
    rw [add_comm, crossLin_shift S hS E L b a ha]
    exact hv ⟨b, hb⟩

end

/-! ### Sums of `log(1 + exp)` -/

theorem sum_sublists {κ : Type*} (S : List κ) (B : κ → ℝ) :
    (S.sublists'.map fun T => Real.exp (-(T.map B).sum)).sum = (S.map fun k => 1 + Real.exp (-B k)).prod := by
  induction S with
  | nil => simp
  | cons a S ih =>
    rw [List.sublists'_cons, List.map_append, List.sum_append, List.map_map, ih, List.map_cons, List.prod_cons, ← ih,
      add_mul, one_mul, ← list_sum_mul_left]
    congr 1
    · refine list_sum_congr fun T _ => ?_
      simp only [Function.comp, List.map_cons, List.sum_cons]
      rw [← Real.exp_add]
      congr 1
      ring

theorem log_prod_list {κ : Type*} (S : List κ) (f : κ → ℝ) (h : ∀ k ∈ S, 0 < f k) :
    Real.log (S.map f).prod = (S.map fun k => Real.log (f k)).sum := by
  induction S with
  | nil => simp
  | cons a S ih =>
    have hS : ∀ k ∈ S, 0 < f k := fun k hk => h k (List.mem_cons_of_mem _ hk)
    have hp : 0 < (S.map f).prod := List.prod_pos fun x hx => by
      obtain ⟨k, hk, rfl⟩ := List.mem_map.1 hx
      exact hS k hk
    rw [List.map_cons, List.prod_cons, Real.log_mul (h a (by simp)).ne' hp.ne', ih hS, List.map_cons, List.sum_cons]

/-- Energies of sets. -/
noncomputable def sumLin {V κ : Type*} [AddCommGroup V] [Module ℝ V] (B : V →ₗ[ℝ] (κ → ℝ)) : V →ₗ[ℝ] (List κ → ℝ) where
  toFun v T := (T.map (B v)).sum
  map_add' v w := by
    funext T
    rw [map_add]
    exact list_sum_add T (B v) (B w)
  map_smul' c v := by
    funext T
    rw [map_smul]
    exact list_sum_mul_left T c (B v)

theorem sum_log_eq {V κ : Type*} [NormedAddCommGroup V] [NormedSpace ℝ V] (S : List κ) (B : V →ₗ[ℝ] (κ → ℝ)) (v : V) :
    (S.map fun k => Real.log (1 + Real.exp (-B v k))).sum = crossLin S.sublists' (sumLin B) 0 v := by
  unfold crossLin partition
  show _ = (0 : ℝ) + Real.log (S.sublists'.map fun T => Real.exp (-(T.map (B v)).sum)).sum
  rw [sum_sublists, log_prod_list _ _ fun k _ => by positivity, zero_add]

theorem sublists_ne {κ : Type*} (S : List κ) : S.sublists' ≠ [] := fun h => by
  have : [] ∈ S.sublists' := by simp
  rw [h] at this
  simp at this

theorem sumLin_iff {V κ : Type*} [NormedAddCommGroup V] [NormedSpace ℝ V] (S : List κ) (B : V →ₗ[ℝ] (κ → ℝ)) (w : V) :
    ((∀ T ∈ S.sublists', (0 : ℝ) ≤ sumLin B w T) ↔ ∀ k ∈ S, 0 ≤ B w k) ∧
    ((∀ T ∈ S.sublists', sumLin B w T = 0) ↔ ∀ k ∈ S, B w k = 0) := by
  have hsing : ∀ k ∈ S, [k] ∈ S.sublists' := fun k hk => by simpa using hk
  refine ⟨⟨fun h k hk => ?_, fun h T hT => ?_⟩, fun h k hk => ?_, fun h T hT => ?_⟩
  · simpa [sumLin] using h _ (hsing k hk)
  · rw [List.mem_sublists'] at hT
    refine List.sum_nonneg fun x hx => ?_
    obtain ⟨k, hk, rfl⟩ := List.mem_map.1 hx
    exact h k (hT.subset hk)
  · simpa [sumLin] using h _ (hsing k hk)
  · rw [List.mem_sublists'] at hT
    refine List.sum_eq_zero fun x hx => ?_
    obtain ⟨k, hk, rfl⟩ := List.mem_map.1 hx
    exact h k (hT.subset hk)

/-! ### Parameters as lists -/

theorem ofFn_getD {m : ℕ} (θ : List ℝ) (hθ : θ.length = m) : List.ofFn (fun i : Fin m => θ.getD i 0) = θ := by
  subst hθ
  refine Eq.trans ?_ (List.ofFn_getElem (xs := θ))
  congr 1
  funext i
  exact List.getD_eq_getElem _ _ i.2

theorem forall_ofFn {m : ℕ} {P : List ℝ → Prop} : (∀ θ : List ℝ, θ.length = m → P θ) ↔ ∀ v : Fin m → ℝ, P (List.ofFn v) :=
  ⟨fun h _ => h _ List.length_ofFn, fun h θ hθ => ofFn_getD θ hθ ▸ h _⟩

theorem exists_ofFn {m : ℕ} {P : List ℝ → Prop} :
    (∃ θ : List ℝ, θ.length = m ∧ P θ) ↔ ∃ v : Fin m → ℝ, P (List.ofFn v) :=
  ⟨fun ⟨θ, hθ, h⟩ => ⟨fun i => θ.getD i 0, (ofFn_getD θ hθ).symm ▸ h⟩, fun ⟨_, h⟩ => ⟨_, List.length_ofFn, h⟩⟩

/-- The energies of a pairwise model as a linear function of the parameters. -/
noncomputable def pairLin (n : ℕ) : (Fin (n + n * (n - 1) / 2) → ℝ) →ₗ[ℝ] (List ℤ → ℝ) where
  toFun v s := -∑ i, v i * (pairObs n (spins s)).getD i 0
  map_add' v w := by
    funext s
    simp only [Pi.add_apply, add_mul, Finset.sum_add_distrib]
    ring
  map_smul' a v := by
    funext s
    simp only [Pi.smul_apply, smul_eq_mul, mul_assoc, ← Finset.mul_sum, RingHom.id_apply]
    ring

theorem pairLin_apply (n : ℕ) (v : Fin (n + n * (n - 1) / 2) → ℝ) (s : List ℤ) :
    pairLin n v s = pairE n (List.ofFn v) s := by
  rw [pairE_dot n _ List.length_ofFn, dot_fin _ _ List.length_ofFn (by simp [pairObs, length_upperPairs])]
  simp [pairLin]

/-- Energy differences times a number. -/
noncomputable def diffLin (n : ℕ) (c : ℝ) : (Fin (n + n * (n - 1) / 2) → ℝ) →ₗ[ℝ] (List ℤ × List ℤ → ℝ) where
  toFun v p := c * (pairLin n v p.2 - pairLin n v p.1)
  map_add' v w := by
    funext p
    simp only [map_add, Pi.add_apply]
    ring
  map_smul' a v := by
    funext p
    simp only [map_smul, Pi.smul_apply, smul_eq_mul, RingHom.id_apply]
    ring

theorem diffLin_apply (n : ℕ) (c : ℝ) (v : Fin (n + n * (n - 1) / 2) → ℝ) (p : List ℤ × List ℤ) :
    diffLin n c v p = c * (pairE n (List.ofFn v) p.2 - pairE n (List.ofFn v) p.1) := by
  show c * _ = _
  rw [pairLin_apply, pairLin_apply]

end Verif.Lemmas
