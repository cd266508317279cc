/-
Lemmas about models with interactions of up to `m` spins: independence, likelihood, probability flow, {0,1} form.
-/
import Verif.Spec.Orders
import Verif.Lemmas.Stable2
import Verif.Props.MpfObj

namespace Verif.Lemmas
open Verif Verif.Model Verif.Spec Verif.Props

theorem orderTuples_eq (n m : ℕ) : orderTuples n m = (allOrders n m).flatMap fun g => g.2 := by
  unfold orderTuples allOrders
  rw [List.flatMap_map]

theorem length_orderTuples_three (n : ℕ) :
    (orderTuples n 3).length = n + n * (n - 1) / 2 + n * (n - 1) * (n - 2) / 6 := by
  simp [orderTuples, List.range_succ, length_tuples, Nat.choose_two_right, choose_three, Nat.add_assoc]

theorem mem_orderTuples {n m : ℕ} {t : List ℕ} (ht : t ∈ orderTuples n m) : ∀ i ∈ t, i < n := by
  obtain ⟨k, -, hk⟩ := List.mem_flatMap.1 ht
  intro i hi
  have := (mem_words.1 (List.mem_filter.1 hk).1).2 i hi
  exact List.mem_range.1 this

theorem orderE_groupE (n m : ℕ) (P : List (List ℝ)) (hP : ParamsFit (allOrders n m) P) (s : List ℤ) :
    groupE (allOrders n m) P (spins s) = orderE n m P.flatten s := by
  rw [groupE_flatten _ _ hP, ← orderTuples_eq]
  rfl

/-- Parameters are determined by the energies up to a constant, in both bases. -/
theorem order_unique (n m : ℕ) (sym : Bool) (v w : List ℝ) (hv : v.length = (orderTuples n m).length)
    (hw : w.length = (orderTuples n m).length) (c : ℝ)
    (h : ∀ s ∈ words (spinValues sym) n, orderE n m v s = orderE n m w s + c) : v = w := by
  rw [orderTuples_eq] at hv hw
  obtain ⟨P, hP, rfl⟩ := split_params _ v hv
  obtain ⟨Q, hQ, rfl⟩ := split_params _ w hw
  obtain ⟨lP, sP⟩ := polyShape_of_fit n m P hP
  obtain ⟨lQ, sQ⟩ := polyShape_of_fit n m Q hQ
  rw [poly_unique_words n sym P Q (lP.trans lQ.symm) sP sQ c fun s hs => by
    rw [← groupE_allOrders, ← groupE_allOrders, lP, lQ, orderE_groupE n m P hP, orderE_groupE n m Q hQ]
    exact h s hs]

/-- The energy as a linear function of the parameters. -/
noncomputable def orderLin (n m : ℕ) : (Fin (orderTuples n m).length → ℝ) →ₗ[ℝ] (List ℤ → ℝ) where
  toFun u s := -∑ i, u i * ((orderTuples n m).map (mono (spins s))).getD i 0
  map_add' v w := by
    funext s
    simp only [Pi.add_apply, add_mul, Finset.sum_add_distrib]
    ring
  map_smul' a v := by
    funext s
    simp only [Pi.smul_apply, smul_eq_mul, mul_assoc, ← Finset.mul_sum, RingHom.id_apply]
    ring

theorem orderLin_apply (n m : ℕ) (u : Fin (orderTuples n m).length → ℝ) : orderE n m (List.ofFn u) = orderLin n m u := by
  funext s
  unfold orderE
  rw [dot_fin _ _ List.length_ofFn (by simp)]
  simp [orderLin]

theorem order_flat_eq (n m : ℕ) (u v : Fin (orderTuples n m).length → ℝ)
    (h : ∀ s ∈ words [1, -1] n, ∀ r < n, orderE n m (List.ofFn u) (s.set r (-s.getD r 0)) -
      orderE n m (List.ofFn v) (s.set r (-s.getD r 0)) = orderE n m (List.ofFn u) s - orderE n m (List.ofFn v) s) : u = v := by
  have hc := const_of_flips n (fun s => orderE n m (List.ofFn u) s - orderE n m (List.ofFn v) s) h
  refine List.ofFn_injective (order_unique n m true _ _ List.length_ofFn List.length_ofFn
    (orderE n m (List.ofFn u) (List.replicate n 1) - orderE n m (List.ofFn v) (List.replicate n 1)) fun s hs => ?_)
  have := hc s (mem_words_pm.2 hs)
  linarith

/-! ### Likelihood -/

/-- Equal means of the logarithm: only for equal energies. -/
theorem order_likelihood_lt (n m : ℕ) (θ u : List ℝ) (hθ : θ.length = (orderTuples n m).length)
    (hu : u.length = (orderTuples n m).length) (hne : u ≠ θ) (S : List (List ℤ)) (hSn : S ≠ []) (hS : ∀ s ∈ words [-1, 1] n, s ∈ S) :
    (S.map fun s => boltzmann S (orderE n m θ) s * Real.log (boltzmann S (orderE n m u) s)).sum <
      (S.map fun s => boltzmann S (orderE n m θ) s * Real.log (boltzmann S (orderE n m θ) s)).sum := by
  by_contra hc
  push Not at hc
  have hterm : ∀ s ∈ S, 0 ≤ boltzmann S (orderE n m θ) s * Real.log (boltzmann S (orderE n m θ) s) -
      boltzmann S (orderE n m θ) s * Real.log (boltzmann S (orderE n m u) s) - boltzmann S (orderE n m θ) s +
      boltzmann S (orderE n m u) s := fun s _ =>
    (gibbs_term _ _ (boltzmann_pos S _ hSn s).le (boltzmann_pos S _ hSn s)).1
  have hz := eq_of_sum_zero S _ hterm (le_antisymm (by
    rw [list_sum_add, list_sum_sub, list_sum_sub, sum_boltzmann S _ hSn, sum_boltzmann S _ hSn]
    linarith) (List.sum_nonneg fun y hy => by
      obtain ⟨s, hs, rfl⟩ := List.mem_map.1 hy
      exact hterm s hs))
  refine hne (order_unique n m true u θ hu hθ
    (Real.log (partition S (orderE n m θ)) - Real.log (partition S (orderE n m u))) fun s hs => ?_)
  have := (gibbs_term _ _ (boltzmann_pos S _ hSn s).le (boltzmann_pos S _ hSn s)).2 (hz s (hS s hs))
  have := congrArg Real.log this
  rw [log_boltzmann S _ hSn, log_boltzmann S _ hSn] at this
  linarith

theorem order_stable_likelihood (n m : ℕ) (θ : List ℝ) (hθ : θ.length = (orderTuples n m).length) (ε : ℝ) (hε : 0 < ε) :
    ∃ δ, 0 < δ ∧ ∀ X : List (List ℤ), CloseTo n (orderE n m θ) δ X →
      ∀ v : List ℝ, v.length = (orderTuples n m).length →
        orderLik n m θ X ≤ orderLik n m v X → Near ε v θ := by
  obtain ⟨S, hS⟩ : ∃ S, S = words ([1, -1] : List ℤ) n := ⟨_, rfl⟩
  have hSn : S ≠ [] := hS ▸ words_mp_ne n
  obtain ⟨g, hg⟩ : ∃ g : (Fin (orderTuples n m).length → ℝ) → List ℤ → ℝ,
      g = fun u s => -Real.log (boltzmann S (orderE n m (List.ofFn u)) s) := ⟨_, rfl⟩
  have hgc : ∀ s, (fun u => g u s) = crossLin S (orderLin n m) ((LinearMap.proj s).comp (orderLin n m)) := by
    intro s
    funext u
    rw [hg]
    dsimp only
    rw [log_boltzmann S _ hSn, orderLin_apply]
    unfold crossLin
    show _ = orderLin n m u s + _
    ring
  obtain ⟨t, ht⟩ : ∃ t : Fin (orderTuples n m).length → ℝ, t = fun i : Fin (orderTuples n m).length => θ.getD i 0 := ⟨_, rfl⟩
  have htθ : List.ofFn t = θ := by rw [ht]; exact ofFn_getD θ hθ
  obtain ⟨δ, hδ, h⟩ := stable_below S (by rw [hS]; exact nodup_words (by decide) n) (boltzmann S (orderE n m θ)) g
    (fun s _ => by rw [hgc]; exact convexOn_crossLin S hSn _ _) (fun s _ => by rw [hgc]; exact continuous_crossLin S hSn _ _)
    t (fun u hu => by
      rw [hg]
      dsimp only
      rw [htθ]
      simp only [mul_neg]
      rw [list_sum_neg, list_sum_neg]
      exact neg_lt_neg (order_likelihood_lt n m θ (List.ofFn u) hθ List.length_ofFn
        (fun e => hu (List.ofFn_injective (e.trans htθ.symm))) S hSn fun s hs => hS ▸ mem_words_pm.2 hs)) ε hε
  refine ⟨δ, hδ, fun X hX v hv hmax => ⟨hv.trans hθ.symm, ?_⟩⟩
  obtain ⟨hne, hXS, hf⟩ := hX
  rw [← hS] at hXS hf
  rw [hθ]
  refine norm_lt_getD v θ ε hε ?_
  rw [← ht]
  have hval : ∀ u, (X.map (g u)).sum = -orderLik n m (List.ofFn u) X := by
    intro u
    unfold orderLik
    rw [← list_sum_neg, hg, ← boltzmann_pm, ← hS]
  refine h X hne hXS hf _ ?_
  rw [hval, hval, ofFn_getD v hv, htθ]
  exact neg_le_neg hmax

/-! ### Probability flow -/

theorem order_flow_lt (n m : ℕ) (θ u : List ℝ) (hθ : θ.length = (orderTuples n m).length)
    (hu : u.length = (orderTuples n m).length) (hne : u ≠ θ) (S : List (List ℤ)) (hS : S = words [1, -1] n) :
    ((List.range n).map fun i => (S.map fun s => boltzmann S (orderE n m θ) s *
        Real.exp ((orderE n m θ s - orderE n m θ (s.set i (-s.getD i 0))) / 2)).sum).sum <
      ((List.range n).map fun i => (S.map fun s => boltzmann S (orderE n m θ) s *
        Real.exp ((orderE n m u s - orderE n m u (s.set i (-s.getD i 0))) / 2)).sum).sum := by
  have hnd : S.Nodup := by rw [hS]; exact nodup_words (by decide) n
  by_contra hc
  push Not at hc
  have key := fun i => flow_invol S hnd (fun s => s.set i (-s.getD i 0))
    (fun s hsm => by rw [hS] at hsm ⊢; exact flip_mem_words n i s hsm) (fun s _ => Lemmas.flip_flip i s) (orderE n m θ)
    (orderE n m u)
  have hz := eq_of_sum_zero (List.range n) (fun i => (S.map fun s => boltzmann S (orderE n m θ) s *
      Real.exp ((orderE n m u s - orderE n m u (s.set i (-s.getD i 0))) / 2)).sum -
    (S.map fun s => boltzmann S (orderE n m θ) s *
      Real.exp ((orderE n m θ s - orderE n m θ (s.set i (-s.getD i 0))) / 2)).sum)
    (fun i _ => sub_nonneg.2 (key i).1) (le_antisymm (by
      rw [list_sum_sub]
      linarith) (List.sum_nonneg fun y hy => by
        obtain ⟨i, -, rfl⟩ := List.mem_map.1 hy
        exact sub_nonneg.2 (key i).1))
  have := order_flat_eq n m (fun i => u.getD i 0) (fun i => θ.getD i 0) fun s hs i hi => by
    rw [ofFn_getD u hu, ofFn_getD θ hθ]
    exact (key i).2 (sub_nonpos.1 (hz i (List.mem_range.2 hi)).le) s (hS ▸ hs)
  exact hne (by rw [← ofFn_getD u hu, this, ofFn_getD θ hθ])

theorem order_flow_sum (n m : ℕ) (u : List ℝ) (X : List (List ℤ)) (hX : X ≠ []) (hXS : ∀ s ∈ X, s ∈ words [1, -1] n) :
    (X.map fun s => ((List.range n).map fun i =>
      Real.exp ((orderE n m u s - orderE n m u (s.set i (-s.getD i 0))) / 2)).sum).sum =
      X.length * orderFlow n m X u := by
  have hl : (0 : ℝ) < X.length := by exact_mod_cast List.length_pos_of_ne_nil hX
  unfold orderFlow probFlow
  rw [mul_div_cancel₀ _ hl.ne']
  refine list_sum_congr fun s hs => ?_
  unfold flips
  rw [List.map_map, (mem_words.1 (hXS s hs)).1]
  rfl

theorem order_stable_flow (n m : ℕ) (θ : List ℝ) (hθ : θ.length = (orderTuples n m).length) (ε : ℝ) (hε : 0 < ε) :
    ∃ δ, 0 < δ ∧ ∀ X : List (List ℤ), CloseTo n (orderE n m θ) δ X →
      ∀ v : List ℝ, v.length = (orderTuples n m).length →
        orderFlow n m X v ≤ orderFlow n m X θ → Near ε v θ := by
  obtain ⟨S, hS⟩ : ∃ S, S = words ([1, -1] : List ℤ) n := ⟨_, rfl⟩
  have hSn : S ≠ [] := hS ▸ words_mp_ne n
  have hnd : S.Nodup := by rw [hS]; exact nodup_words (by decide) n
  obtain ⟨g, hg⟩ : ∃ g : (Fin (orderTuples n m).length → ℝ) → List ℤ → ℝ,
      g = fun u s => ((List.range n).map fun i =>
        Real.exp ((orderE n m (List.ofFn u) s - orderE n m (List.ofFn u) (s.set i (-s.getD i 0))) / 2)).sum := ⟨_, rfl⟩
  have hlin : ∀ u s s', Real.exp ((orderE n m (List.ofFn u) s - orderE n m (List.ofFn u) s') / 2) =
      Real.exp ((((1 / 2 : ℝ) • ((LinearMap.proj s).comp (orderLin n m) - (LinearMap.proj s').comp (orderLin n m))) :
        (Fin (orderTuples n m).length → ℝ) →ₗ[ℝ] ℝ) u) := by
    intro u s s'
    congr 1
    rw [orderLin_apply]
    show _ = (1 / 2 : ℝ) * (orderLin n m u s - orderLin n m u s')
    ring
  obtain ⟨t, ht⟩ : ∃ t : Fin (orderTuples n m).length → ℝ, t = fun i : Fin (orderTuples n m).length => θ.getD i 0 := ⟨_, rfl⟩
  have htθ : List.ofFn t = θ := by rw [ht]; exact ofFn_getD θ hθ
  have hsum : ∀ u, (S.map fun s => boltzmann S (orderE n m θ) s * g u s).sum = ((List.range n).map fun i => (S.map fun s =>
      boltzmann S (orderE n m θ) s *
        Real.exp ((orderE n m (List.ofFn u) s - orderE n m (List.ofFn u) (s.set i (-s.getD i 0))) / 2)).sum).sum := by
    intro u
    rw [← list_sum_comm, hg]
    exact list_sum_congr fun s _ => by rw [list_sum_mul_left]
  obtain ⟨δ, hδ, h⟩ := stable_below S hnd (boltzmann S (orderE n m θ)) g
    (fun s _ => by
      rw [hg]
      refine convexOn_list_sum _ _ fun i _ => ?_
      simp only [hlin]
      exact convexOn_exp_lin _)
    (fun s _ => by
      rw [hg]
      refine continuous_list_sum _ fun i _ => ?_
      simp only [hlin]
      exact Real.continuous_exp.comp (LinearMap.continuous_of_finiteDimensional _)) t (fun u hu => by
      rw [hsum, hsum, htθ]
      exact order_flow_lt n m θ (List.ofFn u) hθ List.length_ofFn
        (fun e => hu (List.ofFn_injective (e.trans htθ.symm))) S hS) ε hε
  refine ⟨δ, hδ, fun X hX v hv hmin => ⟨hv.trans hθ.symm, ?_⟩⟩
  obtain ⟨hne, hXS, hf⟩ := hX
  rw [hθ]
  refine norm_lt_getD v θ ε hε ?_
  rw [← ht]
  have hl : (0 : ℝ) < X.length := by exact_mod_cast List.length_pos_of_ne_nil hne
  have hval : ∀ u, (X.map (g u)).sum = X.length * orderFlow n m X (List.ofFn u) := by
    intro u
    rw [hg]
    exact order_flow_sum n m _ X hne hXS
  rw [← hS] at hXS hf
  refine h X hne hXS hf _ ?_
  rw [hval, hval, ofFn_getD v hv, htθ]
  exact mul_le_mul_of_nonneg_left hmin hl.le

end Verif.Lemmas
