/-
Likelihood, pseudolikelihood and probability flow of samples whose frequencies are close to those of a pairwise model.
-/
import Verif.Lemmas.Stable
import Verif.Props.Pseudo
import Verif.Lemmas.Mpf2

namespace Verif.Lemmas
open Verif Verif.Model Verif.Spec Verif.Props

theorem words_pm_perm (n : ℕ) : (words ([1, -1] : List ℤ) n).Perm (words [-1, 1] n) := by
  rw [List.perm_ext_iff_of_nodup (nodup_words (by decide) n) (nodup_words (by decide) n)]
  intro s
  rw [mem_words, mem_words]
  refine and_congr_right fun _ => forall_congr' fun x => imp_congr_right fun _ => ?_
  simp [or_comm]

theorem mem_words_pm {n : ℕ} {s : List ℤ} : s ∈ words [1, -1] n ↔ s ∈ words [-1, 1] n :=
  (words_pm_perm n).mem_iff

theorem partition_pm (n : ℕ) (E : List ℤ → ℝ) : partition (words [1, -1] n) E = partition (words [-1, 1] n) E :=
  ((words_pm_perm n).map _).sum_eq

theorem boltzmann_pm (n : ℕ) (E : List ℤ → ℝ) : boltzmann (words [1, -1] n) E = boltzmann (words [-1, 1] n) E := by
  funext s
  unfold boltzmann
  rw [partition_pm]

theorem words_mp_ne (n : ℕ) : words ([1, -1] : List ℤ) n ≠ [] := fun h => by
  have := (words_pm_perm n)
  rw [h] at this
  exact words_pm_ne n this.nil_eq.symm

/-- Parameters near each other. -/
theorem norm_lt_getD {m : ℕ} (v θ : List ℝ) (ε : ℝ) (hε : 0 < ε)
    (h : ‖(fun i : Fin m => v.getD i 0) - fun i : Fin m => θ.getD i 0‖ < ε) : ∀ i < m, |v.getD i 0 - θ.getD i 0| < ε := by
  intro i hi
  have := (pi_norm_lt_iff hε).1 h ⟨i, hi⟩
  simpa [Real.norm_eq_abs] using this

theorem flat_eq (n : ℕ) (u v : Fin (n + n * (n - 1) / 2) → ℝ)
    (h : ∀ s ∈ words [1, -1] n, ∀ r < n, pairE n (List.ofFn u) (s.set r (-s.getD r 0)) -
      pairE n (List.ofFn v) (s.set r (-s.getD r 0)) = pairE n (List.ofFn u) s - pairE n (List.ofFn v) s) : u = v := by
  have hz := flat_zero n (List.ofFn (u - v)) List.length_ofFn fun s hs r hr => by
    rw [← pairLin_apply, ← pairLin_apply, map_sub, Pi.sub_apply, Pi.sub_apply, pairLin_apply, pairLin_apply, pairLin_apply,
      pairLin_apply]
    exact (h s (mem_words_pm.2 hs) r hr).symm
  funext i
  exact sub_eq_zero.1 (hz _ (List.mem_ofFn.2 ⟨i, rfl⟩))

/-! ### Likelihood -/

theorem stable_likelihood (n : ℕ) (θ : List ℝ) (hθ : θ.length = n + n * (n - 1) / 2) (ε : ℝ) (hε : 0 < ε) :
    ∃ δ, 0 < δ ∧ ∀ X : List (List ℤ), X ≠ [] → (∀ s ∈ X, s ∈ words [1, -1] n) →
      (∀ s ∈ words [1, -1] n, |(X.count s : ℝ) / X.length - boltzmann (words [1, -1] n) (pairE n θ) s| < δ) →
      ∀ v : List ℝ, v.length = n + n * (n - 1) / 2 →
        (∀ w : List ℝ, w.length = n + n * (n - 1) / 2 → logLik n w X ≤ logLik n v X) →
        ∀ i < n + n * (n - 1) / 2, |v.getD i 0 - θ.getD i 0| < ε := by
  obtain ⟨S, hS⟩ : ∃ S, S = words ([1, -1] : List ℤ) n := ⟨_, rfl⟩
  have hSn : S ≠ [] := hS ▸ words_mp_ne n
  obtain ⟨g, hg⟩ : ∃ g : (Fin (n + n * (n - 1) / 2) → ℝ) → List ℤ → ℝ,
      g = fun u s => -Real.log (boltzmann S (pairE n (List.ofFn u)) s) := ⟨_, rfl⟩
  have hgc : ∀ s, (fun u => g u s) = crossLin S (pairLin n) ((LinearMap.proj s).comp (pairLin n)) := by
    intro s
    funext u
    rw [hg]
    dsimp only
    rw [log_boltzmann S _ hSn]
    unfold crossLin
    have : pairE n (List.ofFn u) = pairLin n u := by funext t; rw [pairLin_apply]
    rw [this]
    show _ = pairLin n u s + _
    ring
  obtain ⟨t, ht⟩ : ∃ t : Fin (n + n * (n - 1) / 2) → ℝ, t = fun i : Fin (n + n * (n - 1) / 2) => θ.getD i 0 := ⟨_, rfl⟩
  have htθ : List.ofFn t = θ := by rw [ht]; exact ofFn_getD θ hθ
  obtain ⟨δ, hδ, h⟩ := stable_avg S (by rw [hS]; exact nodup_words (by decide) n) (boltzmann S (pairE n θ)) g
    (fun s _ => by rw [hgc]; exact convexOn_crossLin S hSn _ _) (fun s _ => by rw [hgc]; exact continuous_crossLin S hSn _ _)
    t (fun u hu => by
      by_contra hc
      push Not at hc
      rw [hg] at hc
      dsimp only at hc
      rw [htθ] at hc
      simp only [mul_neg] at hc
      rw [list_sum_neg, list_sum_neg] at hc
      have hterm : ∀ s ∈ S, 0 ≤ boltzmann S (pairE n θ) s * Real.log (boltzmann S (pairE n θ) s) -
          boltzmann S (pairE n θ) s * Real.log (boltzmann S (pairE n (List.ofFn u)) s) - boltzmann S (pairE n θ) s +
          boltzmann S (pairE n (List.ofFn u)) s := fun s _ =>
        (gibbs_term _ _ (boltzmann_pos S _ hSn s).le (boltzmann_pos S _ hSn s)).1
      have hz := eq_of_sum_zero S _ hterm (le_antisymm (by
        rw [list_sum_add, list_sum_sub, list_sum_sub, sum_boltzmann S _ hSn, sum_boltzmann S _ hSn]
        linarith) (List.sum_nonneg fun y hy => by
          obtain ⟨s, hs, rfl⟩ := List.mem_map.1 hy
          exact hterm s hs))
      have hp : ∀ s ∈ S, pairE n (List.ofFn u) s - pairE n θ s =
          Real.log (partition S (pairE n θ)) - Real.log (partition S (pairE n (List.ofFn u))) := fun s hs => by
        have := (gibbs_term _ _ (boltzmann_pos S _ hSn s).le (boltzmann_pos S _ hSn s)).2 (hz s hs)
        have := congrArg Real.log this
        rw [log_boltzmann S _ hSn, log_boltzmann S _ hSn] at this
        linarith
      refine hu (flat_eq n u t fun s hs r hr => ?_)
      rw [htθ, hp _ (hS ▸ flip_mem_words n r s hs), hp s (hS ▸ hs)]) ε hε
  refine ⟨δ, hδ, fun X hX hXS hf v hv hmax => ?_⟩
  rw [← hS] at hXS hf
  refine norm_lt_getD v θ ε hε ?_
  rw [← ht]
  have hval : ∀ u, (X.map (g u)).sum = -logLik n (List.ofFn u) X := by
    intro u
    unfold logLik
    rw [← list_sum_neg, hg, ← boltzmann_pm, ← hS]
  refine h X hX hXS hf _ fun u => ?_
  rw [hval, hval, ofFn_getD v hv]
  exact neg_le_neg (hmax _ List.length_ofFn)

/-! ### Pseudolikelihood -/

theorem pm_of_words {n r : ℕ} (hr : r < n) {s : List ℤ} (hs : s ∈ words [1, -1] n) :
    s.length = n ∧ (s.getD r 0 = 1 ∨ s.getD r 0 = -1) :=
  ⟨(mem_words.1 hs).1, by simpa using getD_mem_of_words hr hs⟩

theorem stable_pseudo (n : ℕ) (θ : List ℝ) (hθ : θ.length = n + n * (n - 1) / 2) (ε : ℝ) (hε : 0 < ε) :
    ∃ δ, 0 < δ ∧ ∀ X : List (List ℤ), X ≠ [] → (∀ s ∈ X, s ∈ words [1, -1] n) →
      (∀ s ∈ words [1, -1] n, |(X.count s : ℝ) / X.length - boltzmann (words [1, -1] n) (pairE n θ) s| < δ) →
      ∀ v : List ℝ, v.length = n + n * (n - 1) / 2 →
        (∀ w : List ℝ, w.length = n + n * (n - 1) / 2 →
          ((List.range n).map fun r => negCondLogLik (pairE n v) [1, -1] X r).sum ≤
            ((List.range n).map fun r => negCondLogLik (pairE n w) [1, -1] X r).sum) →
        ∀ i < n + n * (n - 1) / 2, |v.getD i 0 - θ.getD i 0| < ε := by
  obtain ⟨S, hS⟩ : ∃ S, S = words ([1, -1] : List ℤ) n := ⟨_, rfl⟩
  have hSn : S ≠ [] := hS ▸ words_mp_ne n
  obtain ⟨g, hg⟩ : ∃ g : (Fin (n + n * (n - 1) / 2) → ℝ) → List ℤ → ℝ,
      g = fun u s => ((List.range n).map fun r => negCondLogLik (pairE n (List.ofFn u)) [1, -1] [s] r).sum := ⟨_, rfl⟩
  have hgc : ∀ s ∈ S, (fun u => g u s) =
      crossLin (sitePairs [s] (List.range n)).sublists' (sumLin (diffLin n 1)) 0 := by
    intro s hs
    funext u
    rw [hg]
    dsimp only
    refine pseudo_cross n [s] (List.range n) (fun r hr s' hs' => ?_) u
    obtain rfl := List.mem_singleton.1 hs'
    have := pm_of_words (List.mem_range.1 hr) (hS ▸ hs)
    exact ⟨by rw [this.1]; exact List.mem_range.1 hr, this.2⟩
  obtain ⟨t, ht⟩ : ∃ t : Fin (n + n * (n - 1) / 2) → ℝ, t = fun i : Fin (n + n * (n - 1) / 2) => θ.getD i 0 := ⟨_, rfl⟩
  have htθ : List.ofFn t = θ := by rw [ht]; exact ofFn_getD θ hθ
  have hsum : ∀ u, (S.map fun s => boltzmann S (pairE n θ) s * g u s).sum =
      -((List.range n).map fun r => (S.map fun s =>
        boltzmann S (pairE n θ) s * Real.log (condProb (pairE n (List.ofFn u)) [1, -1] r s)).sum).sum := by
    intro u
    rw [← list_sum_comm, ← list_sum_neg, hg]
    refine list_sum_congr fun s _ => ?_
    rw [list_sum_mul_left, ← mul_neg, ← list_sum_neg]
    simp [negCondLogLik]
  obtain ⟨δ, hδ, h⟩ := stable_avg S (by rw [hS]; exact nodup_words (by decide) n) (boltzmann S (pairE n θ)) g
    (fun s hs => by rw [hgc s hs]; exact convexOn_crossLin _ (sublists_ne _) _ _)
    (fun s hs => by rw [hgc s hs]; exact continuous_crossLin _ (sublists_ne _) _ _) t (fun u hu => by
      by_contra hc
      push Not at hc
      rw [hsum, hsum, htθ] at hc
      have key := fun r (hr : r < n) => cond_gibbs_mean (vals := [1, -1]) (by decide) hr (pairE n θ)
        (pairE n (List.ofFn u)) S hS hSn
      have hz := eq_of_sum_zero (List.range n) (fun r => (S.map fun s =>
          boltzmann S (pairE n θ) s * Real.log (condProb (pairE n θ) [1, -1] r s)).sum -
        (S.map fun s => boltzmann S (pairE n θ) s * Real.log (condProb (pairE n (List.ofFn u)) [1, -1] r s)).sum)
        (fun r hr => sub_nonneg.2 (key r (List.mem_range.1 hr)).1) (le_antisymm (by
          rw [list_sum_sub]
          linarith) (List.sum_nonneg fun y hy => by
            obtain ⟨r, hr, rfl⟩ := List.mem_map.1 hy
            exact sub_nonneg.2 (key r (List.mem_range.1 hr)).1))
      have he : List.ofFn u = θ := eq_of_sel θ (List.ofFn u) hθ List.length_ofFn fun r hr =>
        sel_of_cond hr θ (List.ofFn u) (hS ▸ (key r hr).2 (sub_nonpos.1 (hz r (List.mem_range.2 hr)).le))
      exact hu (List.ofFn_injective (he.trans htθ.symm))) ε hε
  refine ⟨δ, hδ, fun X hX hXS hf v hv hmin => ?_⟩
  rw [← hS] at hXS hf
  refine norm_lt_getD v θ ε hε ?_
  rw [← ht]
  have hval : ∀ u, (X.map (g u)).sum =
      ((List.range n).map fun r => negCondLogLik (pairE n (List.ofFn u)) [1, -1] X r).sum := by
    intro u
    rw [hg]
    show (X.map fun s => _).sum = _
    rw [list_sum_comm]
    refine list_sum_congr fun r _ => ?_
    unfold negCondLogLik
    rw [← list_sum_neg]
    simp
  refine h X hX hXS hf _ fun u => ?_
  rw [hval, hval, ofFn_getD v hv]
  exact hmin _ List.length_ofFn

/-- Twice the energy of a spin with given parameters of the spin. -/
noncomputable def spinLin (n r : ℕ) : (Fin n → ℝ) →ₗ[ℝ] (List ℤ → ℝ) where
  toFun u s := 2 * ∑ i, u i * (spinObs n r s).getD i 0
  map_add' v w := by
    funext s
    simp only [Pi.add_apply, add_mul, Finset.sum_add_distrib]
    ring
  map_smul' a v := by
    funext s
    simp only [Pi.smul_apply, smul_eq_mul, mul_assoc, ← Finset.mul_sum, RingHom.id_apply]
    ring

theorem spinLin_apply {n r : ℕ} (hr : r < n) (u : Fin n → ℝ) (s : List ℤ) :
    spinLin n r u s = 2 * dot (spinObs n r s) (List.ofFn u) := by
  rw [dot_comm, dot_fin _ _ List.length_ofFn (length_spinObs hr s)]
  simp [spinLin]

theorem stable_spin (n r : ℕ) (hr : r < n) (θ : List ℝ) (_hθ : θ.length = n + n * (n - 1) / 2) (ε : ℝ) (hε : 0 < ε) :
    ∃ δ, 0 < δ ∧ ∀ X : List (List ℤ), X ≠ [] → (∀ s ∈ X, s ∈ words [1, -1] n) →
      (∀ s ∈ words [1, -1] n, |(X.count s : ℝ) / X.length - boltzmann (words [1, -1] n) (pairE n θ) s| < δ) →
      ∀ v : List ℝ, v.length = n + n * (n - 1) / 2 →
        (∀ w : List ℝ, w.length = n + n * (n - 1) / 2 →
          negCondLogLik (pairE n v) [1, -1] X r ≤ negCondLogLik (pairE n w) [1, -1] X r) →
        ∀ q ∈ spinIx n r, |v.getD q 0 - θ.getD q 0| < ε := by
  obtain ⟨S, hS⟩ : ∃ S, S = words ([1, -1] : List ℤ) n := ⟨_, rfl⟩
  have hSn : S ≠ [] := hS ▸ words_mp_ne n
  obtain ⟨g, hg⟩ : ∃ g : (Fin n → ℝ) → List ℤ → ℝ,
      g = fun u s => Real.log (1 + Real.exp (-spinLin n r u s)) := ⟨_, rfl⟩
  have hgc : ∀ s, (fun u => g u s) = crossLin [s].sublists' (sumLin (spinLin n r)) 0 := by
    intro s
    funext u
    rw [← sum_log_eq, hg]
    simp
  have hsel : ∀ w : List ℝ, (sel w (spinIx n r)).length = n := fun w => by simp [sel, length_spinIx hr]
  have hgw : ∀ w : List ℝ, ∀ s ∈ S, g (fun i => (sel w (spinIx n r)).getD i 0) s =
      -Real.log (condProb (pairE n w) [1, -1] r s) := by
    intro w s hs
    obtain ⟨h1, h2⟩ := pm_of_words hr (hS ▸ hs)
    rw [show pairE n w = vecE n w from rfl, condProb_ising hr w s h1 h2, Real.log_inv, neg_neg, hg]
    dsimp only
    rw [spinLin_apply hr, ofFn_getD _ (hsel w)]
    congr 3
    ring
  have hevery : ∀ u : Fin n → ℝ, ∃ w : List ℝ, w.length = n + n * (n - 1) / 2 ∧ (fun i : Fin n => (sel w (spinIx n r)).getD i 0) = u := by
    intro u
    obtain ⟨w, ix, hw, hm⟩ := C40_every_argument n r hr (List.ofFn u) List.length_ofFn
    rw [getMultipliersR_sel hr w hw] at hm
    simp only [Except.ok.injEq, Prod.mk.injEq] at hm
    refine ⟨w, hw, ?_⟩
    rw [hm.1]
    funext i
    simp
  obtain ⟨t, ht⟩ : ∃ t : Fin n → ℝ, t = fun i : Fin n => (sel θ (spinIx n r)).getD i 0 := ⟨_, rfl⟩
  obtain ⟨δ, hδ, h⟩ := stable_avg S (by rw [hS]; exact nodup_words (by decide) n) (boltzmann S (pairE n θ)) g
    (fun s _ => by rw [hgc s]; exact convexOn_crossLin _ (sublists_ne _) _ _)
    (fun s _ => by rw [hgc s]; exact continuous_crossLin _ (sublists_ne _) _ _) t (fun u hu => by
      by_contra hc
      push Not at hc
      obtain ⟨w, hw, rfl⟩ := hevery u
      rw [ht] at hc
      have hval : ∀ w : List ℝ, (S.map fun s => boltzmann S (pairE n θ) s * g (fun i => (sel w (spinIx n r)).getD i 0) s).sum =
          -(S.map fun s => boltzmann S (pairE n θ) s * Real.log (condProb (pairE n w) [1, -1] r s)).sum := by
        intro w
        rw [← list_sum_neg]
        refine list_sum_congr fun s hs => ?_
        rw [hgw w s hs, mul_neg]
      rw [hval, hval] at hc
      have := (cond_gibbs_mean (vals := [1, -1]) (by decide) hr (pairE n θ) (pairE n w) S hS hSn).2 (by linarith)
      have he := sel_of_cond hr θ w (hS ▸ this)
      exact hu (by rw [ht, he])) ε hε
  refine ⟨δ, hδ, fun X hX hXS hf v hv hmin => ?_⟩
  rw [← hS] at hXS hf
  have hval : ∀ w : List ℝ, (X.map (g fun i => (sel w (spinIx n r)).getD i 0)).sum = negCondLogLik (pairE n w) [1, -1] X r := by
    intro w
    unfold negCondLogLik
    rw [← list_sum_neg]
    exact list_sum_congr fun s hs => hgw w s (hXS s hs)
  have hlt := norm_lt_getD (m := n) (sel v (spinIx n r)) (sel θ (spinIx n r)) ε hε (by
    rw [← ht]
    refine h X hX hXS hf _ fun u => ?_
    obtain ⟨w, hw, rfl⟩ := hevery u
    rw [hval, hval]
    exact hmin w hw)
  intro q hq
  obtain ⟨k, hk, rfl⟩ := List.mem_iff_getElem.1 hq
  have := hlt k (by rwa [length_spinIx hr] at hk)
  unfold sel at this
  rw [List.getD_eq_getElem _ _ (by simpa using hk), List.getD_eq_getElem _ _ (by simpa using hk), List.getElem_map,
    List.getElem_map] at this
  exact this

/-! ### Probability flow -/

theorem stable_flow (n : ℕ) (θ : List ℝ) (hθ : θ.length = n + n * (n - 1) / 2) (ε : ℝ) (hε : 0 < ε) :
    ∃ δ, 0 < δ ∧ ∀ X : List (List ℤ), X ≠ [] → (∀ s ∈ X, s ∈ words [1, -1] n) →
      (∀ s ∈ words [1, -1] n, |(X.count s : ℝ) / X.length - boltzmann (words [1, -1] n) (pairE n θ) s| < δ) →
      ∀ v : List ℝ, v.length = n + n * (n - 1) / 2 →
        probFlow X (flips fun x => -x) (pairE n v) ≤ probFlow X (flips fun x => -x) (pairE n θ) →
        ∀ i < n + n * (n - 1) / 2, |v.getD i 0 - θ.getD i 0| < ε := by
  obtain ⟨S, hS⟩ : ∃ S, S = words ([1, -1] : List ℤ) n := ⟨_, rfl⟩
  have hSn : S ≠ [] := hS ▸ words_mp_ne n
  have hnd : S.Nodup := by rw [hS]; exact nodup_words (by decide) n
  obtain ⟨g, hg⟩ : ∃ g : (Fin (n + n * (n - 1) / 2) → ℝ) → List ℤ → ℝ,
      g = fun u s => ((List.range n).map fun i =>
        Real.exp ((pairE n (List.ofFn u) s - pairE n (List.ofFn u) (s.set i (-s.getD i 0))) / 2)).sum := ⟨_, rfl⟩
  have hlin : ∀ u s s', Real.exp ((pairE n (List.ofFn u) s - pairE n (List.ofFn u) s') / 2) =
      Real.exp (((LinearMap.proj (s', s)).comp (diffLin n (1 / 2))) u) := by
    intro u s s'
    congr 1
    show _ = diffLin n (1 / 2) u (s', s)
    rw [diffLin_apply]
    ring
  obtain ⟨t, ht⟩ : ∃ t : Fin (n + n * (n - 1) / 2) → ℝ, t = fun i : Fin (n + n * (n - 1) / 2) => θ.getD i 0 := ⟨_, rfl⟩
  have htθ : List.ofFn t = θ := by rw [ht]; exact ofFn_getD θ hθ
  have hsum : ∀ u, (S.map fun s => boltzmann S (pairE n θ) s * g u s).sum = ((List.range n).map fun i => (S.map fun s =>
      boltzmann S (pairE n θ) s *
        Real.exp ((pairE n (List.ofFn u) s - pairE n (List.ofFn u) (s.set i (-s.getD i 0))) / 2)).sum).sum := by
    intro u
    rw [← list_sum_comm, hg]
    exact list_sum_congr fun s _ => by rw [list_sum_mul_left]
  obtain ⟨δ, hδ, h⟩ := stable_below S hnd (boltzmann S (pairE n θ)) g
    (fun s _ => by
      rw [hg]
      refine convexOn_list_sum _ _ fun i _ => ?_
      simp only [hlin]
      exact convexOn_exp_lin _)
    (fun s _ => by
      rw [hg]
      refine continuous_list_sum _ fun i _ => ?_
      simp only [hlin]
      exact Real.continuous_exp.comp (LinearMap.continuous_of_finiteDimensional _)) t (fun u hu => by
      by_contra hc
      push Not at hc
      rw [hsum, hsum, htθ] at hc
      have key := fun i => flow_invol S hnd (fun s => s.set i (-s.getD i 0))
        (fun s hsm => by rw [hS] at hsm ⊢; exact flip_mem_words n i s hsm) (fun s _ => flip_flip i s) (pairE n θ)
        (pairE n (List.ofFn u))
      have hz := eq_of_sum_zero (List.range n) (fun i => (S.map fun s => boltzmann S (pairE n θ) s *
          Real.exp ((pairE n (List.ofFn u) s - pairE n (List.ofFn u) (s.set i (-s.getD i 0))) / 2)).sum -
        (S.map fun s => boltzmann S (pairE n θ) s *
          Real.exp ((pairE n θ s - pairE n θ (s.set i (-s.getD i 0))) / 2)).sum)
        (fun i _ => sub_nonneg.2 (key i).1) (le_antisymm (by
          rw [list_sum_sub]
          linarith) (List.sum_nonneg fun y hy => by
            obtain ⟨i, -, rfl⟩ := List.mem_map.1 hy
            exact sub_nonneg.2 (key i).1))
      refine hu (flat_eq n u t fun s hs i hi => ?_)
      rw [htθ]
      exact (key i).2 (sub_nonpos.1 (hz i (List.mem_range.2 hi)).le) s (hS ▸ hs)) ε hε
  refine ⟨δ, hδ, fun X hX hXS hf v hv hmin => ?_⟩
  rw [← hS] at hXS hf
  refine norm_lt_getD v θ ε hε ?_
  rw [← ht]
  have hl : (0 : ℝ) < X.length := by exact_mod_cast List.length_pos_of_ne_nil hX
  have hval : ∀ u, (X.map (g u)).sum = X.length * probFlow X (flips fun x => -x) (pairE n (List.ofFn u)) := by
    intro u
    unfold probFlow
    rw [mul_div_cancel₀ _ hl.ne', hg]
    refine list_sum_congr fun s hs => ?_
    unfold flips
    rw [List.map_map, (mem_words.1 (hS ▸ hXS s hs)).1]
    rfl
  refine h X hX hXS hf _ ?_
  rw [hval, hval, ofFn_getD v hv, htθ]
  exact mul_le_mul_of_nonneg_left hmin hl.le

/-- Samples with nearly the right frequencies contain all states. -/
theorem full_of_close (n : ℕ) (E : List ℤ → ℝ) : ∃ δ, 0 < δ ∧ ∀ X : List (List ℤ),
    (∀ s ∈ words [1, -1] n, |(X.count s : ℝ) / X.length - boltzmann (words [1, -1] n) E s| < δ) →
      ∀ s ∈ words [1, -1] n, s ∈ X := by
  obtain ⟨S, hS⟩ : ∃ S, S = words ([1, -1] : List ℤ) n := ⟨_, rfl⟩
  have hSn : S ≠ [] := hS ▸ words_mp_ne n
  rw [← hS]
  obtain ⟨s0, hs0⟩ := List.exists_mem_of_ne_nil _ hSn
  obtain ⟨m, hm, hmin⟩ := S.toFinset.exists_min_image (boltzmann S E) ⟨s0, List.mem_toFinset.2 hs0⟩
  refine ⟨boltzmann S E m, boltzmann_pos S E hSn m, fun X h s hs => ?_⟩
  by_contra hc
  have := h s hs
  rw [List.count_eq_zero_of_not_mem hc, Nat.cast_zero, zero_div, zero_sub, abs_neg,
    abs_of_pos (boltzmann_pos S E hSn s)] at this
  exact absurd (hmin s (List.mem_toFinset.2 hs)) (not_le.2 this)

end Verif.Lemmas
