/-
Lemmas about conditional probabilities and the consistency of the pseudolikelihood.
-/
import Verif.Lemmas.Pseudo2
import Verif.Lemmas.MaxEnt
import Mathlib.Data.List.ProdSigma

namespace Verif.Lemmas
open Verif Verif.Spec

theorem set_mem_words {vals : List ℤ} {n r : ℕ} {s : List ℤ} (hs : s ∈ words vals n) {v : ℤ}
    (hv : v ∈ vals) : s.set r v ∈ words vals n := by
  obtain ⟨h1, h2⟩ := mem_words.1 hs
  refine mem_words.2 ⟨by simpa using h1, fun x hx => ?_⟩
  rcases List.mem_or_eq_of_mem_set hx with h | h
  · exact h2 x h
  · exact h ▸ hv

theorem getD_mem_of_words {vals : List ℤ} {n r : ℕ} (hr : r < n) {s : List ℤ} (hs : s ∈ words vals n) :
    s.getD r 0 ∈ vals := by
  obtain ⟨h1, h2⟩ := mem_words.1 hs
  rw [List.getD_eq_getElem _ _ (by omega)]
  exact h2 _ (List.getElem_mem _)

theorem sum_product {α β : Type*} (S : List α) (T : List β) (F : α × β → ℝ) :
    ((S ×ˢ T).map F).sum = (S.map fun s => (T.map fun t => F (s, t)).sum).sum := by
  induction S with
  | nil => simp
  | cons a S ih => rw [List.product_cons, List.map_append, List.sum_append, ih]; simp [Function.comp_def]

/-- Exchange of a state and the state with one spin replaced. -/
theorem sum_swap {vals : List ℤ} (hv : vals.Nodup) {n r : ℕ} (hr : r < n) (F : List ℤ → List ℤ → ℝ) :
    ((words vals n).map fun s => (vals.map fun v => F s (s.set r v)).sum).sum =
      ((words vals n).map fun s => (vals.map fun v => F (s.set r v) s).sum).sum := by
  rw [← sum_product _ _ fun q : List ℤ × ℤ => F q.1 (q.1.set r q.2),
    ← sum_product _ _ fun q : List ℤ × ℤ => F (q.1.set r q.2) q.1]
  have hnd : (words vals n ×ˢ vals).Nodup := (nodup_words hv n).product hv
  rw [← sum_invol (words vals n ×ˢ vals) hnd (fun q => (q.1.set r q.2, q.1.getD r 0)) ?_ ?_
    (fun q => F (q.1.set r q.2) q.1)]
  · congr 1
    refine List.map_congr_left fun q hq => ?_
    obtain ⟨h1, h2⟩ := List.mem_product.1 (show (q.1, q.2) ∈ _ from hq)
    have hl := (mem_words.1 h1).1
    rw [List.set_set, set_getD_self]
  · rintro ⟨s, v⟩ hq
    obtain ⟨h1, h2⟩ := List.mem_product.1 hq
    exact List.mem_product.2 ⟨set_mem_words h1 h2, getD_mem_of_words hr h1⟩
  · rintro ⟨s, v⟩ hq
    obtain ⟨h1, h2⟩ := List.mem_product.1 hq
    have hl := (mem_words.1 h1).1
    simp only [List.set_set, set_getD_self, Prod.mk.injEq, true_and]
    simp [hl, hr]

theorem condSum_pos {vals : List ℤ} {n r : ℕ} (hr : r < n) {s : List ℤ} (hs : s ∈ words vals n)
    (f : List ℤ → ℝ) (hf : ∀ s, 0 < f s) : 0 < (vals.map fun v => f (s.set r v)).sum := by
  have hm := getD_mem_of_words hr hs
  refine List.sum_pos _ (fun x hx => ?_) (by
    intro h; rw [List.map_eq_nil_iff] at h; rw [h] at hm; simp at hm)
  obtain ⟨v, _, rfl⟩ := List.mem_map.1 hx
  exact hf _

theorem condProb_pos {vals : List ℤ} {n r : ℕ} (hr : r < n) {s : List ℤ} (hs : s ∈ words vals n)
    (E : List ℤ → ℝ) : 0 < condProb E vals r s :=
  div_pos (Real.exp_pos _) (condSum_pos hr hs (fun s => Real.exp (-E s)) fun _ => Real.exp_pos _)

theorem sum_condProb {vals : List ℤ} {n r : ℕ} (hr : r < n) {s : List ℤ} (hs : s ∈ words vals n)
    (E : List ℤ → ℝ) : (vals.map fun v => condProb E vals r (s.set r v)).sum = 1 := by
  unfold condProb
  simp only [List.set_set]
  rw [list_sum_div, div_self]
  exact (condSum_pos hr hs (fun s => Real.exp (-E s)) fun _ => Real.exp_pos _).ne'

/-- Consistency of one conditional log-likelihood, in the mean over the distribution. -/
theorem cond_gibbs_mean {vals : List ℤ} (hv : vals.Nodup) {n r : ℕ} (hr : r < n) (E E' : List ℤ → ℝ)
    (S : List (List ℤ)) (hS : S = words vals n) (hS0 : S ≠ []) :
    (S.map fun s => boltzmann S E s * Real.log (condProb E' vals r s)).sum ≤
      (S.map fun s => boltzmann S E s * Real.log (condProb E vals r s)).sum ∧
    ((S.map fun s => boltzmann S E s * Real.log (condProb E vals r s)).sum ≤
      (S.map fun s => boltzmann S E s * Real.log (condProb E' vals r s)).sum →
      ∀ s ∈ S, condProb E' vals r s = condProb E vals r s) := by
  obtain ⟨p, hp⟩ : ∃ p : List ℤ → ℝ, p = boltzmann S E := ⟨_, rfl⟩
  obtain ⟨q, hq⟩ : ∃ q : List ℤ → ℝ, q = fun s => (vals.map fun v => p (s.set r v)).sum := ⟨_, rfl⟩
  have hppos : ∀ s, 0 < p s := by
    intro s
    rw [hp]
    exact boltzmann_pos S E hS0 s
  have hqpos : ∀ s ∈ S, 0 < q s := by
    intro s hs
    rw [hq]
    exact condSum_pos hr (hS ▸ hs) p hppos
  have hpq : ∀ s ∈ S, p s = q s * condProb E vals r s := by
    intro s hs
    have h1 : 0 < (vals.map fun v => Real.exp (-E (s.set r v))).sum :=
      condSum_pos hr (hS ▸ hs) (fun s => Real.exp (-E s)) fun _ => Real.exp_pos _
    have hZ := partition_pos S E hS0
    rw [hq, hp]
    unfold condProb boltzmann
    beta_reduce
    rw [list_sum_div]
    field_simp
  have hone : ∀ F : List ℤ → ℝ, (S.map fun s => q s * condProb F vals r s).sum = (S.map p).sum := by
    intro F
    have e := sum_swap hv hr fun s t => p t * condProb F vals r s
    rw [← hS] at e
    have e1 : (S.map fun s => q s * condProb F vals r s).sum =
        (S.map fun s => (vals.map fun v => p (s.set r v) * condProb F vals r s).sum).sum := by
      apply list_sum_congr
      intro s _
      rw [hq, list_sum_mul_right]
    rw [e1, e]
    apply list_sum_congr
    intro s hs
    rw [list_sum_mul_left, sum_condProb hr (hS ▸ hs), mul_one]
  have hterm : ∀ s ∈ S, 0 ≤ q s * (condProb E vals r s * Real.log (condProb E vals r s) -
      condProb E vals r s * Real.log (condProb E' vals r s) - condProb E vals r s +
        condProb E' vals r s) := fun s hs => mul_nonneg (hqpos s hs).le
      (gibbs_term _ _ (condProb_pos hr (hS ▸ hs) E).le (condProb_pos hr (hS ▸ hs) E')).1
  have hD : (S.map fun s => p s * Real.log (condProb E vals r s)).sum -
      (S.map fun s => p s * Real.log (condProb E' vals r s)).sum = (S.map fun s =>
      q s * (condProb E vals r s * Real.log (condProb E vals r s) -
      condProb E vals r s * Real.log (condProb E' vals r s) - condProb E vals r s +
        condProb E' vals r s)).sum := by
    have e : (S.map fun s => q s * (condProb E vals r s * Real.log (condProb E vals r s) -
      condProb E vals r s * Real.log (condProb E' vals r s) - condProb E vals r s +
        condProb E' vals r s)).sum =
        (S.map fun s => (p s * Real.log (condProb E vals r s) - p s * Real.log (condProb E' vals r s)) +
          (q s * condProb E' vals r s - q s * condProb E vals r s)).sum := by
      apply list_sum_congr
      intro s hs
      rw [hpq s hs]; ring
    rw [e, list_sum_add, list_sum_sub, list_sum_sub, hone, hone]
    ring
  have hsum : 0 ≤ (S.map fun s =>
      q s * (condProb E vals r s * Real.log (condProb E vals r s) -
      condProb E vals r s * Real.log (condProb E' vals r s) - condProb E vals r s +
        condProb E' vals r s)).sum := List.sum_nonneg (by
      intro x hx
      obtain ⟨s, hs, rfl⟩ := List.mem_map.1 hx
      exact hterm s hs)
  rw [← hp]
  constructor
  · linarith
  · intro hle s hs
    have h1 := eq_of_sum_zero S _ hterm (by linarith) s hs
    have h2 := (mul_eq_zero.1 h1).resolve_left (hqpos s hs).ne'
    exact ((gibbs_term _ _ (condProb_pos hr (hS ▸ hs) E).le (condProb_pos hr (hS ▸ hs) E')).2 h2).symm

/-- Consistency of one conditional log-likelihood. -/
theorem cond_gibbs {vals : List ℤ} (hv : vals.Nodup) {n r : ℕ} (hr : r < n) (E E' : List ℤ → ℝ)
    (X : List (List ℤ)) (hne : X ≠ []) (hX : ∀ s ∈ X, s ∈ words vals n)
    (hdist : ∀ s ∈ words vals n, (X.count s : ℝ) / X.length = boltzmann (words vals n) E s) :
    negCondLogLik E vals X r ≤ negCondLogLik E' vals X r ∧
      (negCondLogLik E' vals X r ≤ negCondLogLik E vals X r →
        ∀ s ∈ words vals n, condProb E' vals r s = condProb E vals r s) := by
  obtain ⟨S, hS⟩ : ∃ S, S = words vals n := ⟨_, rfl⟩
  have hnd : S.Nodup := by rw [hS]; exact nodup_words hv n
  have hN : (0 : ℝ) < X.length := by
    have : X.length ≠ 0 := by simpa using hne
    exact_mod_cast Nat.pos_of_ne_zero this
  have hS0 : S ≠ [] := by
    obtain ⟨x, hx⟩ := List.exists_mem_of_ne_nil X hne
    rw [hS]; exact List.ne_nil_of_mem (hX x hx)
  have hneg : ∀ F : List ℤ → ℝ, negCondLogLik F vals X r =
      -(X.length * (S.map fun s => boltzmann S E s * Real.log (condProb F vals r s)).sum) := by
    intro F
    unfold negCondLogLik
    rw [sum_by_count S X hnd (by rw [hS]; exact hX), ← list_sum_mul_left]
    congr 1
    apply list_sum_congr
    intro s hs
    have := hdist s (hS ▸ hs)
    rw [← hS] at this
    rw [← this]
    field_simp
  obtain ⟨h1, h2⟩ := cond_gibbs_mean hv hr E E' S hS hS0
  rw [hneg, hneg, ← hS]
  refine ⟨?_, fun hle => h2 ?_⟩
  · have := mul_le_mul_of_nonneg_left h1 hN.le
    linarith
  · exact le_of_mul_le_mul_left (by linarith) hN

/-- Equal conditional probabilities of one spin: the energies differ by something that does not depend
on that spin. -/
theorem energy_of_cond {vals : List ℤ} {n r : ℕ} (hr : r < n) (E E' : List ℤ → ℝ)
    (h : ∀ s ∈ words vals n, condProb E' vals r s = condProb E vals r s) :
    ∀ s ∈ words vals n, ∀ v ∈ vals, E' (s.set r v) - E (s.set r v) = E' s - E s := by
  intro s hs v hv
  have h1 := h s hs
  have h2 := h (s.set r v) (set_mem_words hs hv)
  unfold condProb at h1 h2
  simp only [List.set_set] at h2
  obtain ⟨A, hA⟩ : ∃ A, A = (vals.map fun v => Real.exp (-E' (s.set r v))).sum := ⟨_, rfl⟩
  obtain ⟨B, hB⟩ : ∃ B, B = (vals.map fun v => Real.exp (-E (s.set r v))).sum := ⟨_, rfl⟩
  have hA0 : 0 < A := hA ▸ condSum_pos hr hs (fun s => Real.exp (-E' s)) fun _ => Real.exp_pos _
  have hB0 : 0 < B := hB ▸ condSum_pos hr hs (fun s => Real.exp (-E s)) fun _ => Real.exp_pos _
  rw [← hA, ← hB] at h1 h2
  have k : ∀ t, Real.exp (-E' t) / A = Real.exp (-E t) / B →
      E' t - E t = Real.log B - Real.log A := by
    intro t ht
    have := congrArg Real.log ht
    rw [Real.log_div (Real.exp_pos _).ne' hA0.ne', Real.log_div (Real.exp_pos _).ne' hB0.ne',
      Real.log_exp, Real.log_exp] at this
    linarith
  rw [k _ h1, k _ h2]

/-- A function of the states that does not change when one spin is replaced is constant. -/
theorem const_of_sets {vals : List ℤ} {n : ℕ} (D : List ℤ → ℝ)
    (h : ∀ r < n, ∀ s ∈ words vals n, ∀ v ∈ vals, D (s.set r v) = D s) :
    ∀ s ∈ words vals n, ∀ t ∈ words vals n, D s = D t := by
  intro s hs t ht
  have hl := (mem_words.1 ht).1
  have hls := (mem_words.1 hs).1
  have key : ∀ m ≤ n, ∃ u ∈ words vals n, D u = D s ∧ ∀ i, u.getD i 0 =
      if i < m then t.getD i 0 else s.getD i 0 := by
    intro m
    induction m with
    | zero => intro _; exact ⟨s, hs, rfl, by simp⟩
    | succ m ih =>
      intro hm
      obtain ⟨u, hu, hD, hi⟩ := ih (by omega)
      have hv := getD_mem_of_words (r := m) (by omega) ht
      refine ⟨u.set m (t.getD m 0), set_mem_words hu hv, by rw [h m (by omega) u hu _ hv, hD], ?_⟩
      intro i
      have hul := (mem_words.1 hu).1
      by_cases him : i = m
      · subst him
        rw [if_pos (by omega)]
        simp [hul, show i < n by omega]
      · have e : (u.set m (t.getD m 0)).getD i 0 = u.getD i 0 := by
          simp [List.getElem?_set_ne (Ne.symm him)]
        rw [e, hi]
        by_cases h1 : i < m
        · rw [if_pos h1, if_pos (by omega)]
        · rw [if_neg h1, if_neg (by omega)]
  obtain ⟨u, hu, hD, hi⟩ := key n le_rfl
  have : u = t := by
    have hul := (mem_words.1 hu).1
    apply List.ext_getElem (by omega)
    intro i h1 h2
    have := hi i
    rw [if_pos (by omega), List.getD_eq_getElem _ _ h1, List.getD_eq_getElem _ _ h2] at this
    exact this
  rw [← hD, this]

/-- The parameters of one spin are determined by the conditional probabilities. -/
theorem sel_of_cond {n r : ℕ} (hr : r < n) (θ θ' : List ℝ)
    (h : ∀ s ∈ words [1, -1] n, condProb (vecE n θ') [1, -1] r s = condProb (vecE n θ) [1, -1] r s) :
    sel θ' (spinIx n r) = sel θ (spinIx n r) := by
  have hd : ∀ s ∈ words [1, -1] n,
      dot (spinObs n r s) (sel θ' (spinIx n r)) = dot (spinObs n r s) (sel θ (spinIx n r)) := by
    intro s hs
    have hl := (mem_words.1 hs).1
    have hm := getD_mem_of_words hr hs
    have hsr : s.getD r 0 = 1 ∨ s.getD r 0 = -1 := by simpa using hm
    have := h s hs
    rw [condProb_ising hr θ s hl hsr, condProb_ising hr θ' s hl hsr] at this
    have := inv_injective this
    have := Real.exp_injective (add_left_cancel this)
    linarith
  -- in terms of the local field
  have hF : ∀ s ∈ words [1, -1] n, localField n (θ'.take n) (θ'.drop n) (spins s) r =
      localField n (θ.take n) (θ.drop n) (spins s) r := by
    intro s hs
    have := hd s hs
    rw [dot_spinObs hr, dot_spinObs hr] at this
    have hm := getD_mem_of_words hr hs
    have h0 : (spins s r : ℝ) ≠ 0 := by
      unfold spins
      simp only [List.mem_cons, List.not_mem_nil, or_false] at hm
      rcases hm with e | e <;> rw [e] <;> simp
    exact mul_left_cancel₀ h0 this
  have hones : List.replicate n (1 : ℤ) ∈ words [1, -1] n :=
    mem_words.2 ⟨by simp, fun x hx => by rw [List.eq_of_mem_replicate hx]; simp⟩
  have hsp1 : ∀ j < n, (spins (List.replicate n (1 : ℤ)) j : ℝ) = 1 := by
    intro j hj; unfold spins; simp [hj]
  have hflip : ∀ (h J : List ℝ) (j : ℕ), j < n → j ≠ r →
      localField n h J (spins (List.replicate n (1 : ℤ))) r -
        localField n h J (spins ((List.replicate n (1 : ℤ)).set j (-1))) r = 2 * couplingOf n J r j := by
    intro h J j hj hjr
    unfold localField
    rw [spins_set _ _ (by simpa using hj), add_sub_add_left_eq_sub, ← Finset.sum_sub_distrib,
      Finset.sum_eq_single j]
    · beta_reduce
      rw [if_neg hjr, if_neg hjr, if_pos rfl, hsp1 j hj]; push_cast; ring
    · intro i _ hij
      by_cases hir : i = r
      · rw [if_pos hir, if_pos hir, sub_zero]
      · beta_reduce
        rw [if_neg hir, if_neg hir, if_neg hij, sub_self]
    · intro hn; exact absurd (Finset.mem_range.2 hj) hn
  have hJ : ∀ j < n, j ≠ r → couplingOf n (θ'.drop n) r j = couplingOf n (θ.drop n) r j := by
    intro j hj hjr
    have h1 := hF _ hones
    have h2 := hF _ (set_mem_words (r := j) hones (show (-1 : ℤ) ∈ [1, -1] by simp))
    have e1 := hflip (θ'.take n) (θ'.drop n) j hj hjr
    have e2 := hflip (θ.take n) (θ.drop n) j hj hjr
    rw [h1, h2] at e1
    linarith
  have hh : (θ'.take n).getD r 0 = (θ.take n).getD r 0 := by
    have h1 := hF _ hones
    unfold localField at h1
    have : ∀ j ∈ Finset.range n, (if j = r then (0 : ℝ) else couplingOf n (θ'.drop n) r j *
          spins (List.replicate n (1 : ℤ)) j) =
        if j = r then 0 else couplingOf n (θ.drop n) r j * spins (List.replicate n (1 : ℤ)) j := by
      intro j hj
      by_cases hjr : j = r
      · rw [if_pos hjr, if_pos hjr]
      · rw [if_neg hjr, if_neg hjr, hJ j (Finset.mem_range.1 hj) hjr]
    rw [Finset.sum_congr rfl this] at h1
    exact add_right_cancel h1
  unfold sel spinIx
  rw [List.map_cons, List.map_cons, List.map_map, List.map_map]
  congr 1
  · rwa [getD_take _ _ _ _ hr, getD_take _ _ _ _ hr] at hh
  · refine List.map_congr_left fun i hi => ?_
    obtain ⟨h1, h2⟩ := mem_otherSites.1 hi
    have := hJ i h1 h2
    rw [couplingOf_comm, couplingOf_eq, couplingOf_comm, couplingOf_eq] at this
    simpa [add_comm] using this

/-- Every parameter belongs to some spin. -/
theorem eq_of_sel {n : ℕ} (θ θ' : List ℝ) (hθ : θ.length = n + n * (n - 1) / 2)
    (hθ' : θ'.length = n + n * (n - 1) / 2)
    (h : ∀ r < n, sel θ' (spinIx n r) = sel θ (spinIx n r)) : θ' = θ := by
  have hq : ∀ r < n, ∀ q ∈ spinIx n r, θ'.getD q 0 = θ.getD q 0 := fun r hr =>
    List.map_inj_left.1 (h r hr)
  apply List.ext_getElem (by omega)
  intro p h1 h2
  rw [← List.getD_eq_getElem θ' 0 h1, ← List.getD_eq_getElem θ 0 h2]
  by_cases hp : p < n
  · exact hq p hp p (by simp [spinIx])
  · have hk : p - n < (upperPairs n).length := by rw [length_upperPairs]; omega
    obtain ⟨e1, e2⟩ := mem_upperPairs.1 (List.getElem_mem hk)
    simp only [List.get_eq_getElem] at e1 e2
    obtain ⟨i, hi⟩ : ∃ i, i = (upperPairs n)[p - n].1 := ⟨_, rfl⟩
    obtain ⟨j, hj⟩ : ∃ j, j = (upperPairs n)[p - n].2 := ⟨_, rfl⟩
    rw [← hi, ← hj] at e1
    rw [← hj] at e2
    refine hq i (by omega) p ?_
    unfold spinIx
    refine List.mem_cons_of_mem _ (List.mem_map.2 ⟨j, mem_otherSites.2 ⟨e2, by omega⟩, ?_⟩)
    unfold pairPos
    rw [min_eq_right e1.le, max_eq_left e1.le, hi, hj]
    rw [show ((upperPairs n)[p - n].1, (upperPairs n)[p - n].2) = (upperPairs n)[p - n] from rfl,
      (nodup_upperPairs n).idxOf_getElem]
    omega

end Verif.Lemmas
