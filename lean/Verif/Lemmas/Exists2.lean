/-
Which expectations a model of an exponential family can have: exactly those in the interior of the convex hull of the
observables of the states.
-/
import Verif.Lemmas.Exists
import Mathlib.Topology.Order.Lattice
import Mathlib.Analysis.Normed.Module.RCLike.Real

namespace Verif.Lemmas
open Verif Verif.Spec

section
variable {α : Type*} {V : Type*} [NormedAddCommGroup V] [NormedSpace ℝ V] [FiniteDimensional ℝ V]

/-- Cross entropy of data with mean energies `L` and the model with parameters `v`. -/
noncomputable def crossLin (S : List α) (E : V →ₗ[ℝ] (α → ℝ)) (L : V →ₗ[ℝ] ℝ) (v : V) : ℝ :=
  L v + Real.log (partition S (E v))

theorem continuous_energy (E : V →ₗ[ℝ] (α → ℝ)) (s : α) : Continuous fun v => E v s :=
  LinearMap.continuous_of_finiteDimensional ((LinearMap.proj s).comp E)

theorem continuous_crossLin (S : List α) (hS : S ≠ []) (E : V →ₗ[ℝ] (α → ℝ)) (L : V →ₗ[ℝ] ℝ) :
    Continuous (crossLin S E L) := by
  unfold crossLin partition
  refine Continuous.add (LinearMap.continuous_of_finiteDimensional L)
    (Continuous.log ?_ fun v => (partition_pos S (E v) hS).ne')
  exact continuous_list_sum S fun s _ => Real.continuous_exp.comp (continuous_energy E s).neg

omit [FiniteDimensional ℝ V] in
theorem crossLin_ge (S : List α) (E : V →ₗ[ℝ] (α → ℝ)) (L : V →ₗ[ℝ] ℝ) (v : V) (s : α) (hs : s ∈ S) :
    L v - E v s ≤ crossLin S E L v := by
  have h : Real.exp (-E v s) ≤ partition S (E v) := by
    refine List.single_le_sum (fun x hx => ?_) _ (List.mem_map.2 ⟨s, hs, rfl⟩)
    obtain ⟨t, _, rfl⟩ := List.mem_map.1 hx
    exact (Real.exp_pos _).le
  have := Real.log_le_log (Real.exp_pos _) h
  rw [Real.log_exp] at this
  unfold crossLin
  linarith

omit [FiniteDimensional ℝ V] in
/-- Where the cross entropy is least, the expectations are right. -/
theorem moments_of_min (S : List α) (hS : S ≠ []) (E : V →ₗ[ℝ] (α → ℝ)) (L : V →ₗ[ℝ] ℝ) (v : V)
    (hglob : ∀ w, crossLin S E L v ≤ crossLin S E L w) (w : V) : expect S (E v) (E w) = L w := by
  have hderiv : HasDerivAt (fun t : ℝ => crossLin S E L (v + t • w))
      (L w + (S.map fun s => Real.exp (-E v s) * -E w s).sum / partition S (E v)) 0 := by
    have hlin : ∀ s, HasDerivAt (fun t : ℝ => E (v + t • w) s) (E w s) 0 := by
      intro s
      have : (fun t : ℝ => E (v + t • w) s) = fun t => E v s + t * E w s := by
        funext t
        simp
      rw [this]
      simpa using ((hasDerivAt_id (0 : ℝ)).mul_const (E w s)).const_add (E v s)
    have hz : ∀ s, E (v + (0 : ℝ) • w) s = E v s := fun s => by simp
    unfold crossLin
    refine HasDerivAt.add ?_ ?_
    · have : (fun t : ℝ => L (v + t • w)) = fun t => L v + t * L w := by
        funext t
        simp
      rw [this]
      simpa using ((hasDerivAt_id (0 : ℝ)).mul_const (L w)).const_add (L v)
    · have h1 : HasDerivAt (fun t : ℝ => partition S (E (v + t • w)))
          ((S.map fun s => Real.exp (-E v s) * -E w s).sum) 0 := by
        unfold partition
        refine hasDerivAt_list_sum S _ _ 0 fun s _ => ?_
        have := (hlin s).neg.exp
        have e : (-fun t : ℝ => E (v + t • w) s) 0 = -E v s := by
          show -(E (v + (0 : ℝ) • w) s) = _
          rw [hz]
        rw [e] at this
        exact this
      have h2 := h1.log (partition_pos S _ hS).ne'
      have h3 : partition S (E (v + (0 : ℝ) • w)) = partition S (E v) := by
        congr 1
        simp
      rw [h3] at h2
      exact h2
  have hext : IsLocalMin (fun t : ℝ => crossLin S E L (v + t • w)) 0 := by
    refine Filter.Eventually.of_forall fun t => ?_
    have := hglob (v + t • w)
    simpa using this
  have h0 := hext.hasDerivAt_eq_zero hderiv
  rw [expect_eq_div]
  have h1 : (S.map fun s => Real.exp (-E v s) * -E w s).sum =
      -(S.map fun s => Real.exp (-E v s) * E w s).sum := by
    rw [← list_sum_neg]
    exact list_sum_congr fun s _ => by ring
  rw [h1, neg_div] at h0
  linarith

/-- Some state has less energy than average unless the energy is constant. -/
theorem exists_below (S : List α) (hS : S ≠ []) (E f : α → ℝ) (hf : ¬ ∃ c, ∀ s ∈ S, f s = c) :
    ∃ s ∈ S, f s < expect S E f := by
  by_contra h
  push Not at h
  apply hf
  refine ⟨expect S E f, fun s hs => ?_⟩
  have h0 : (S.map fun s => boltzmann S E s * (f s - expect S E f)).sum = 0 := by
    have e : (S.map fun s => boltzmann S E s * (f s - expect S E f)) =
        S.map fun s => boltzmann S E s * f s - boltzmann S E s * expect S E f :=
      List.map_congr_left fun s _ => by ring
    rw [e, list_sum_sub, list_sum_mul_right, sum_boltzmann S E hS, one_mul]
    exact sub_self _
  have := eq_of_sum_zero S _ (fun t ht => mul_nonneg (boltzmann_pos S E hS t).le (sub_nonneg.2 (h t ht))) h0 s hs
  rcases mul_eq_zero.1 this with h1 | h1
  · exact absurd h1 (boltzmann_pos S E hS s).ne'
  · exact sub_eq_zero.1 h1

/-- A continuous function that is the largest of finitely many. -/
theorem exists_lower_bound [Nontrivial V] (S : List α) (E : V →ₗ[ℝ] (α → ℝ)) (L : V →ₗ[ℝ] ℝ)
    (h : ∀ w, w ≠ 0 → ∃ s ∈ S, E w s < L w) :
    ∃ d > 0, ∀ w : V, ∃ s ∈ S, d * ‖w‖ ≤ L w - E w s := by
  have : ProperSpace V := FiniteDimensional.proper ℝ V
  have hcov : Metric.sphere (0 : V) 1 ⊆ ⋃ p : {s // s ∈ S} × ℕ, {w | 1 / ((p.2 : ℝ) + 1) < L w - E w p.1} := by
    intro w hw
    have hw0 : w ≠ 0 := by
      rintro rfl
      simp at hw
    obtain ⟨s, hs, hlt⟩ := h w hw0
    obtain ⟨k, hk⟩ := exists_nat_one_div_lt (sub_pos.2 hlt)
    exact Set.mem_iUnion.2 ⟨(⟨s, hs⟩, k), hk⟩
  have hopen : ∀ p : {s // s ∈ S} × ℕ, IsOpen {w : V | 1 / ((p.2 : ℝ) + 1) < L w - E w p.1} := fun p =>
    isOpen_lt continuous_const ((LinearMap.continuous_of_finiteDimensional L).sub (continuous_energy E _))
  obtain ⟨t, ht⟩ := (isCompact_sphere (0 : V) 1).elim_finite_subcover _ hopen hcov
  set N := t.sup fun p => p.2
  have hN : (0 : ℝ) < 1 / ((N : ℝ) + 1) := by positivity
  refine ⟨1 / ((N : ℝ) + 1), hN, fun w => ?_⟩
  by_cases hw : w = 0
  · obtain ⟨u, hu⟩ := exists_ne (0 : V)
    obtain ⟨s, hs, -⟩ := h u hu
    exact ⟨s, hs, by simp [hw]⟩
  · have hn : 0 < ‖w‖ := norm_pos_iff.2 hw
    have hu : ‖w‖⁻¹ • w ∈ Metric.sphere (0 : V) 1 := by
      rw [mem_sphere_zero_iff_norm, norm_smul, norm_inv, norm_norm, inv_mul_cancel₀ hn.ne']
    obtain ⟨p, hp, hlt⟩ := Set.mem_iUnion₂.1 (ht hu)
    refine ⟨p.1, p.1.2, ?_⟩
    have h1 : (p.2 : ℝ) ≤ N := by exact_mod_cast Finset.le_sup (f := fun p : {s // s ∈ S} × ℕ => p.2) hp
    have h2 : 1 / ((N : ℝ) + 1) ≤ 1 / ((p.2 : ℝ) + 1) :=
      one_div_le_one_div_of_le (by positivity) (by linarith)
    have h3 : 1 / ((p.2 : ℝ) + 1) < ‖w‖⁻¹ * L w - ‖w‖⁻¹ * E w p.1 := by simpa using hlt
    have h4 : 1 / ((N : ℝ) + 1) ≤ ‖w‖⁻¹ * (L w - E w p.1) := by rw [mul_sub]; linarith
    calc 1 / ((N : ℝ) + 1) * ‖w‖ ≤ ‖w‖⁻¹ * (L w - E w p.1) * ‖w‖ := mul_le_mul_of_nonneg_right h4 hn.le
      _ = L w - E w p.1 := by field_simp

/-- Mean energies `L` are those of a model of the family if and only if in every direction some state has less energy
than `L`. -/
theorem exists_moments_iff (S : List α) (hS : S ≠ []) (E : V →ₗ[ℝ] (α → ℝ))
    (hid : ∀ v, (∃ c, ∀ s ∈ S, E v s = c) → v = 0) (L : V →ₗ[ℝ] ℝ) :
    (∃ v, ∀ w, expect S (E v) (E w) = L w) ↔ ∀ w, w ≠ 0 → ∃ s ∈ S, E w s < L w := by
  constructor
  · rintro ⟨v, hv⟩ w hw
    obtain ⟨s, hs, h⟩ := exists_below S hS (E v) (E w) fun hc => hw (hid w hc)
    exact ⟨s, hs, by rw [← hv w]; exact h⟩
  · intro h
    rcases subsingleton_or_nontrivial V with hV | hV
    · refine ⟨0, fun w => ?_⟩
      rw [Subsingleton.elim w 0, map_zero, map_zero]
      simp [expect]
    obtain ⟨d, hd, hb⟩ := exists_lower_bound S E L h
    have hle : ∀ v, d * ‖v‖ ≤ crossLin S E L v := fun v => by
      obtain ⟨s, hs, h1⟩ := hb v
      exact h1.trans (crossLin_ge S E L v s hs)
    have : ProperSpace V := FiniteDimensional.proper ℝ V
    set c := crossLin S E L 0 with hc
    have hsmall : ∀ v, crossLin S E L v ≤ c → v ∈ Metric.closedBall (0 : V) (c / d) := fun v hv => by
      rw [mem_closedBall_zero_iff, le_div_iff₀ hd, mul_comm]
      exact (hle v).trans hv
    obtain ⟨v, hvb, hmin⟩ := (isCompact_closedBall (0 : V) (c / d)).exists_isMinOn
      ⟨0, hsmall 0 le_rfl⟩ (continuous_crossLin S hS E L).continuousOn
    refine ⟨v, moments_of_min S hS E L v fun w => ?_⟩
    by_cases hw : crossLin S E L w ≤ c
    · exact hmin (hsmall w hw)
    · exact (hmin (hsmall 0 le_rfl)).trans (not_le.1 hw).le

end

/-! ### Parameters as lists -/

theorem dot_fin {m : ℕ} (a b : List ℝ) (ha : a.length = m) (hb : b.length = m) :
    dot a b = ∑ i : Fin m, a.getD i 0 * b.getD i 0 := by
  subst ha
  induction a generalizing b with
  | nil => simp [dot]
  | cons x a ih =>
    rcases b with _ | ⟨y, b⟩
    · simp at hb
    · have := ih b (by simpa using hb)
      simp only [dot, List.zipWith_cons_cons, List.sum_cons, List.length_cons] at this ⊢
      rw [this, Fin.sum_univ_succ]
      simp

variable {α β : Type*}

/-- Moments `c` of the observables `f t`, `t ∈ O`, are those of a model of the family if and only if every linear
combination of the observables is larger at some state than the combination of `c`. -/
theorem family_exists_iff (S : List α) (hS : S ≠ []) (O : List β) (f : β → α → ℝ) (c : List ℝ)
    (hc : c.length = O.length)
    (hid : ∀ θ : List ℝ, θ.length = O.length → (∃ k, ∀ s ∈ S, dot θ (O.map fun t => f t s) = k) → ∀ x ∈ θ, x = 0) :
    (∃ θ : List ℝ, θ.length = O.length ∧
      (O.map fun t => expect S (fun s => -dot θ (O.map fun t => f t s)) (f t)) = c) ↔
    ∀ w : List ℝ, w.length = O.length → (∃ x ∈ w, x ≠ 0) → ∃ s ∈ S, dot w c < dot w (O.map fun t => f t s) := by
  obtain ⟨m, hm⟩ : ∃ m, m = O.length := ⟨_, rfl⟩
  rw [← hm] at hc
  let E : (Fin m → ℝ) →ₗ[ℝ] (α → ℝ) :=
    { toFun := fun v s => -∑ i : Fin m, v i * (O.map fun t => f t s).getD i 0
      map_add' := fun v w => by
        funext s
        simp only [Pi.add_apply, add_mul, Finset.sum_add_distrib]
        ring
      map_smul' := fun a v => by
        funext s
        simp only [Pi.smul_apply, smul_eq_mul, mul_assoc, ← Finset.mul_sum, RingHom.id_apply]
        ring }
  let L : (Fin m → ℝ) →ₗ[ℝ] ℝ :=
    { toFun := fun v => -∑ i : Fin m, v i * c.getD i 0
      map_add' := fun v w => by
        simp only [Pi.add_apply, add_mul, Finset.sum_add_distrib]
        ring
      map_smul' := fun a v => by
        simp only [Pi.smul_apply, smul_eq_mul, mul_assoc, ← Finset.mul_sum, RingHom.id_apply]
        ring }
  have hl : ∀ s, (O.map fun t => f t s).length = m := fun s => by rw [List.length_map, hm]
  have eE : ∀ v s, E v s = -dot (List.ofFn v) (O.map fun t => f t s) := fun v s => by
    rw [dot_fin _ _ (List.length_ofFn) (hl s)]
    simp [E]
  have eL : ∀ v, L v = -dot (List.ofFn v) c := fun v => by
    rw [dot_fin _ _ (List.length_ofFn) hc]
    simp [L]
  have key := exists_moments_iff S hS E (fun v ⟨k, hk⟩ => by
    have := hid (List.ofFn v) (by rw [List.length_ofFn, hm]) ⟨-k, fun s hs => by rw [← hk s hs, eE, neg_neg]⟩
    funext i
    exact this (v i) (List.mem_ofFn.2 ⟨i, rfl⟩)) L
  have hback : ∀ θ : List ℝ, θ.length = m → List.ofFn (fun i : Fin m => θ.getD i 0) = θ := fun θ hθ => by
    subst hθ
    refine Eq.trans ?_ (List.ofFn_getElem (xs := θ))
    congr 1
    funext i
    exact List.getD_eq_getElem _ _ i.2
  constructor
  · rintro ⟨θ, hθ, h⟩ w hw ⟨x, hx, hx0⟩
    rw [← hm] at hθ hw
    have hv : ∀ u, expect S (E fun i => θ.getD i 0) (E u) = L u := fun u => by
      have e1 : E (fun i => θ.getD i 0) = fun s => -dot θ (O.map fun t => f t s) := by
        funext s
        rw [eE, hback θ hθ]
      have e2 : E u = fun s => -dot (List.ofFn u) (O.map fun t => f t s) := funext (eE u)
      rw [e1, e2, eL, expect_eq_mean, mean_neg, mean_dot]
      congr 2
    obtain ⟨s, hs, hlt⟩ := key.1 ⟨_, hv⟩ (fun i => w.getD i 0) (fun h0 => hx0 (by
      obtain ⟨i, hi, rfl⟩ := List.getElem_of_mem hx
      have : w.getD i 0 = 0 := congrFun h0 ⟨i, hw ▸ hi⟩
      rwa [List.getD_eq_getElem _ _ hi] at this))
    rw [eE, eL, hback w hw] at hlt
    exact ⟨s, hs, by linarith⟩
  · intro h
    obtain ⟨v, hv⟩ := key.2 fun w hw => by
      obtain ⟨i, hi⟩ := Function.ne_iff.1 hw
      obtain ⟨s, hs, hlt⟩ := h (List.ofFn w) (by rw [List.length_ofFn, hm]) ⟨w i, List.mem_ofFn.2 ⟨i, rfl⟩, hi⟩
      exact ⟨s, hs, by rw [eE, eL]; linarith⟩
    refine ⟨List.ofFn v, by rw [List.length_ofFn, hm], ?_⟩
    have eEv : (fun s => -dot (List.ofFn v) (O.map fun t => f t s)) = E v := funext fun s => (eE v s).symm
    rw [eEv]
    refine List.ext_getElem (by rw [List.length_map, hc, hm]) fun i h1 h2 => ?_
    rw [hc] at h2
    have := hv (Pi.single ⟨i, h2⟩ 1)
    have e3 : E (Pi.single ⟨i, h2⟩ 1) = fun s => -f O[i] s := by
      funext s
      show -∑ j : Fin m, _ = _
      rw [Finset.sum_eq_single ⟨i, h2⟩]
      · simp [List.getD_eq_getElem?_getD, List.getElem?_eq_getElem (show i < O.length by omega)]
      · intro j _ hj
        simp [Pi.single_eq_of_ne hj]
      · simp
    have e4 : L (Pi.single ⟨i, h2⟩ 1) = -c[i] := by
      show -∑ j : Fin m, _ = _
      rw [Finset.sum_eq_single ⟨i, h2⟩]
      · simp [List.getD_eq_getElem?_getD, List.getElem?_eq_getElem (show i < c.length by omega)]
      · intro j _ hj
        simp [Pi.single_eq_of_ne hj]
      · simp
    rw [e3, e4, expect_eq_mean, mean_neg] at this
    rw [List.getElem_map]
    exact neg_injective this

/-- Parameters that maximise the mean log likelihood for moments `c` have these moments. -/
theorem family_of_max (S : List α) (hS : S ≠ []) (O : List β) (f : β → α → ℝ) (c : List ℝ) (hc : c.length = O.length)
    (θ : List ℝ) (hθ : θ.length = O.length)
    (hmax : ∀ w : List ℝ, w.length = O.length →
      dot w c - Real.log (partition S fun s => -dot w (O.map fun t => f t s)) ≤
        dot θ c - Real.log (partition S fun s => -dot θ (O.map fun t => f t s))) :
    (O.map fun t => expect S (fun s => -dot θ (O.map fun t => f t s)) (f t)) = c := by
  obtain ⟨m, hm⟩ : ∃ m, m = O.length := ⟨_, rfl⟩
  rw [← hm] at hc hθ
  let E : (Fin m → ℝ) →ₗ[ℝ] (α → ℝ) :=
    { toFun := fun v s => -∑ i : Fin m, v i * (O.map fun t => f t s).getD i 0
      map_add' := fun v w => by
        funext s
        simp only [Pi.add_apply, add_mul, Finset.sum_add_distrib]
        ring
      map_smul' := fun a v => by
        funext s
        simp only [Pi.smul_apply, smul_eq_mul, mul_assoc, ← Finset.mul_sum, RingHom.id_apply]
        ring }
  let L : (Fin m → ℝ) →ₗ[ℝ] ℝ :=
    { toFun := fun v => -∑ i : Fin m, v i * c.getD i 0
      map_add' := fun v w => by
        simp only [Pi.add_apply, add_mul, Finset.sum_add_distrib]
        ring
      map_smul' := fun a v => by
        simp only [Pi.smul_apply, smul_eq_mul, mul_assoc, ← Finset.mul_sum, RingHom.id_apply]
        ring }
  have hl : ∀ s, (O.map fun t => f t s).length = m := fun s => by rw [List.length_map, hm]
  have eE : ∀ v, E v = fun s => -dot (List.ofFn v) (O.map fun t => f t s) := fun v => by
    funext s
    rw [dot_fin _ _ (List.length_ofFn) (hl s)]
    simp [E]
  have eL : ∀ v, L v = -dot (List.ofFn v) c := fun v => by
    rw [dot_fin _ _ (List.length_ofFn) hc]
    simp [L]
  have hback : ∀ θ : List ℝ, θ.length = m → List.ofFn (fun i : Fin m => θ.getD i 0) = θ := fun θ hθ => by
    subst hθ
    refine Eq.trans ?_ (List.ofFn_getElem (xs := θ))
    congr 1
    funext i
    exact List.getD_eq_getElem _ _ i.2
  have key := moments_of_min S hS E L (fun i => θ.getD i 0) fun w => by
    have := hmax (List.ofFn w) (by rw [List.length_ofFn, hm])
    unfold crossLin
    rw [eE, eE, eL, eL, hback θ hθ]
    linarith
  apply List.ext_getElem
  · rw [List.length_map, hc, hm]
  · intro i h1 h2
    have hi : i < m := by rwa [List.length_map, ← hm] at h1
    have := key (Pi.single ⟨i, hi⟩ (-1))
    rw [eE (fun i => θ.getD i 0), hback θ hθ] at this
    have e1 : E (Pi.single ⟨i, hi⟩ (-1)) = fun s => f (O[i]'(hm ▸ hi)) s := by
      funext s
      have : ∑ k : Fin m, (Pi.single ⟨i, hi⟩ (-1) : Fin m → ℝ) k * (O.map fun t => f t s).getD k 0 =
          -(O.map fun t => f t s).getD i 0 := by
        rw [Finset.sum_eq_single ⟨i, hi⟩ (fun k _ hk => by rw [Pi.single_eq_of_ne hk, zero_mul])
          (fun h => absurd (Finset.mem_univ _) h), Pi.single_eq_same]
        ring
      show -_ = _
      rw [this, neg_neg, List.getD_eq_getElem _ _ (by rw [hl]; exact hi), List.getElem_map]
    have e2 : L (Pi.single ⟨i, hi⟩ (-1)) = c[i] := by
      have : ∑ k : Fin m, (Pi.single ⟨i, hi⟩ (-1) : Fin m → ℝ) k * c.getD k 0 = -c.getD i 0 := by
        rw [Finset.sum_eq_single ⟨i, hi⟩ (fun k _ hk => by rw [Pi.single_eq_of_ne hk, zero_mul])
          (fun h => absurd (Finset.mem_univ _) h), Pi.single_eq_same]
        ring
      show -_ = _
      rw [this, neg_neg, List.getD_eq_getElem _ _ h2]
    rw [e1, e2] at this
    rw [List.getElem_map]
    exact this

end Verif.Lemmas
