/-
`ClusterExpansion.solve` when no spin is in two kept pairs.
-/
import Verif.Lemmas.ClusterPairs2

namespace Verif.Lemmas
open Verif Verif.Model Verif.Spec Verif.Props

/-- Probabilities of the two values of a spin as energy. -/
theorem solo_energy {n : ℕ} {p : List ℤ → ℝ} (hp : PairPositive n p) (hn : 2 ≤ n) (k : ℕ) (hk : k < n) (a : ℤ)
    (ha : a = 1 ∨ a = -1) : logitField (spinProb n p k 1) * (((a : ℝ) + 1) / 2) =
      Real.log (spinProb n p k (-1)) - Real.log (spinProb n p k a) := by
  have h1 := spinProb_pos hp hn k hk 1 (by simp)
  have h2 := spinProb_pos hp hn k hk (-1) (by simp)
  have h3 : 1 - spinProb n p k 1 = spinProb n p k (-1) := by have := spinProb_sum hp k hk; linarith
  unfold logitField
  rw [h3, Real.log_div h1.ne' h2.ne']
  rcases ha with rfl | rfl <;> push_cast <;> ring

theorem spin_unit {n : ℕ} {p : List ℤ → ℝ} (hp : PairPositive n p) (hn : 2 ≤ n) (k : ℕ) (hk : k < n) :
    0 < spinProb n p k 1 ∧ spinProb n p k 1 < 1 := by
  have h1 := spinProb_pos hp hn k hk 1 (by simp)
  have h2 := spinProb_pos hp hn k hk (-1) (by simp)
  have h3 := spinProb_sum hp k hk
  exact ⟨h1, by linarith⟩

open scoped Classical in
theorem cluster_pairs (lsq : (List ℝ → Py (List ℝ)) → List ℝ → Py (List ℝ)) (hlsq : ExactLsq lsq) (n : ℕ) (hn : 2 ≤ n)
    (X : List (List ℤ)) (hne : X ≠ []) (hX : ∀ r ∈ X, r ∈ words [1, -1] n) (hp : PairPositive n (stateFreq X)) (T : ℝ)
    (hdis : Disjointed n (Linked n (stateFreq X) T)) (ns : Option ℕ) :
    ∃ M levels, aceCooc n X = some M ∧ clusterExpansionSolve lsq n M T none 0 ns false true =
        .ok (pairedParams n (stateFreq X) (Linked n (stateFreq X) T),
          ∑ i ∈ Finset.range n, siteEntropy n (stateFreq X) i - ∑ i ∈ Finset.range n, ∑ j ∈ Finset.range n,
            (if i < j then (if Linked n (stateFreq X) T i j then mutualInfo n (stateFreq X) i j else 0) else 0), levels) ∧
      (∀ g ∈ levels.flatten, g.Pairwise (· < ·)) ∧ levels.flatten.Nodup ∧
      ∀ A : Finset ℕ, (∃ g ∈ levels.flatten, g.toFinset = A) ↔ (∃ i < n, A = {i}) ∨
        ∃ i < n, ∃ j < n, Linked n (stateFreq X) T i j ∧ A = {i, j} := by
  obtain ⟨p, hpdef⟩ : ∃ p, p = stateFreq X := ⟨_, rfl⟩
  rw [← hpdef] at hp hdis ⊢
  have hK := linked_pairing hdis
  obtain ⟨M, hM, hMs, hMv⟩ := aceCooc_ok n X hne fun r hr => (mem_words.1 (hX r hr)).1
  obtain ⟨C, hC⟩ : ∃ C : ℕ → ℕ → ℝ, C = fun i j => pairProb n p i j 1 1 := ⟨_, rfl⟩
  have hMv' : ∀ i < n, ∀ j < n, i ≤ j → M.at' i j = C i j := fun i hi j hj hij => by
    rw [hMv i hi j hj, if_pos hij, hC, hpdef, cooc_pair hX i j hi hj]
  have hMd : ∀ i < n, M.at' i i = spinProb n p i 1 := fun i hi => by
    rw [hMv' i hi i hi (le_refl i), hC]
    exact pairProb_self n p i
  have hf : ∀ i < n, 0 < M.at' i i ∧ M.at' i i < 1 := fun i hi => by rw [hMd i hi]; exact spin_unit hp hn i hi
  obtain ⟨C0, hC0⟩ : ∃ C0 : ℕ → ℕ → ℝ, C0 = fun i j => if i = j then M.at' i i else M.at' i i * M.at' j j := ⟨_, rfl⟩
  -- the independent models
  have ind : ∀ c : List ℕ, c.Nodup → (∀ i ∈ c, i < n) →
      fitVal n C0 c.toFinset = (∑ a ∈ Finset.range c.length, siteEntropy n p (c.getD a 0),
        fun i j : Fin n => (fun i j : ℕ => if i = j ∧ i ∈ c then logitField (spinProb n p i 1) else 0) i j) := by
    intro c hc hcn
    obtain ⟨h1, h2⟩ := fits_independent c hc (fun i => spinProb n p i 1) fun i hi => spin_unit hp hn i (hcn i hi)
    have h3 : Fits c.toFinset C0 (fun i j : ℕ => if i = j ∧ i ∈ c then logitField (spinProb n p i 1) else 0) :=
      Fits.congr_moments h1 fun i hi j hj => by
        rw [hC0]
        beta_reduce
        rw [hMd i (hcn i (List.mem_toFinset.1 hi)), hMd j (hcn j (List.mem_toFinset.1 hj))]
    rw [fitVal_eq h3, h2]
    congr 1
    refine Finset.sum_congr rfl fun a ha => ?_
    have hk : c.getD a 0 < n := hcn _ (by
      rw [List.getD_eq_getElem _ _ (Finset.mem_range.1 ha)]; exact List.getElem_mem _)
    have : 1 - spinProb n p (c.getD a 0) 1 = spinProb n p (c.getD a 0) (-1) := by
      have := spinProb_sum hp _ hk; linarith
    rw [this, siteEntropy]
    ring
  have indE : ∀ c : List ℕ, c.Nodup → (∀ i ∈ c, i < n) → ∀ s ∈ words [1, -1] n,
      energyHom n (fun i => (spins s i + 1) / 2) (fitVal n C0 c.toFinset) = ∑ k ∈ Finset.range n,
        if k ∈ c then Real.log (spinProb n p k (-1)) - Real.log (spinProb n p k (s.getD k 0)) else 0 := by
    intro c hc hcn s hs
    rw [ind c hc hcn, energyHom_fun n _ _ fun i j : ℕ => if i = j ∧ i ∈ c then logitField (spinProb n p i 1) else 0]
    have : (fun i j : ℕ => if i = j ∧ i ∈ c then logitField (spinProb n p i 1) else 0) =
        fun i j => if i = j then (fun i => if i ∈ c then logitField (spinProb n p i 1) else 0) i else 0 := by
      funext i j
      by_cases h : i = j <;> by_cases h' : i ∈ c <;> simp [h, h']
    rw [this, quadE_diag]
    refine Finset.sum_congr rfl fun k hk => ?_
    have hk' := Finset.mem_range.1 hk
    by_cases h : k ∈ c
    · rw [if_pos h, if_pos h, ← solo_energy hp hn k hk' _ (spin_pm hs hk')]
      rfl
    · rw [if_neg h, if_neg h, zero_mul]
  -- pairs
  have duo : ∀ i < n, ∀ j < n, i ≠ j → fitVal n C {i, j} =
      (-(pairProb n p i j 1 1 * Real.log (pairProb n p i j 1 1) + pairProb n p i j 1 (-1) * Real.log (pairProb n p i j 1 (-1)) +
       pairProb n p i j (-1) 1 * Real.log (pairProb n p i j (-1) 1) +
       pairProb n p i j (-1) (-1) * Real.log (pairProb n p i j (-1) (-1))),
        fun a b : Fin n => duoJ i j (pairProb n p i j (-1) (-1)) (pairProb n p i j 1 (-1)) (pairProb n p i j (-1) 1)
          (pairProb n p i j 1 1) a b) ∧ ∃ G, Fits {i, j} C G := by
    intro i hi j hj hij
    have pos := hp.pos i hi j hj hij
    have b1 := spinProb_split n p i j hj 1
    have b2 := spinProb_split n p i j hj (-1)
    have b3 := spinProb_split' n p i j hi 1
    have b4 := spinProb_sum hp i hi
    obtain ⟨h1, h2⟩ := fits_duo hij (pos (-1) (-1) (by simp) (by simp)) (pos 1 (-1) (by simp) (by simp))
      (pos (-1) 1 (by simp) (by simp)) (pos 1 1 (by simp) (by simp)) (by linarith) (C := C)
      (by rw [hC]; beta_reduce; rw [pairProb_self]; linarith)
      (by rw [hC]; beta_reduce; rw [pairProb_self]; linarith) (by rw [hC]) (by rw [hC]; exact pairProb_swap n p i j 1 1)
    exact ⟨by rw [fitVal_eq h1, h2], _, h1⟩
  have one : ∀ i < n, fitVal n C {i} = fitVal n C0 {i} ∧ ∃ G, Fits {i} C G := by
    intro i hi
    obtain ⟨h1, -⟩ := fits_independent [i] (by simp) (fun i => spinProb n p i 1) fun k hk => by
      rw [List.mem_singleton.1 hk]; exact spin_unit hp hn i hi
    rw [show ([i] : List ℕ).toFinset = {i} by simp] at h1
    have h2 : Fits {i} C _ := Fits.congr_moments h1 fun a ha b hb => by
      rw [Finset.mem_singleton.1 ha, Finset.mem_singleton.1 hb, hC, if_pos rfl]
      exact pairProb_self n p i
    have h3 : Fits {i} C0 _ := Fits.congr_moments h1 fun a ha b hb => by
      rw [Finset.mem_singleton.1 ha, Finset.mem_singleton.1 hb, hC0]
      simp [hMd i hi]
    exact ⟨by rw [fitVal_eq h2, fitVal_eq h3], _, h2⟩
  obtain ⟨F, hF⟩ : ∃ F : Finset ℕ → ℝ × (Fin n → Fin n → ℝ), F = fun A => fitVal n C A - fitVal n C0 A := ⟨_, rfl⟩
  have hset : ∀ i j : ℕ, ([i, j] : List ℕ).toFinset = {i, j} := fun i j => by ext; simp
  have F1 : ∀ i < n, ∀ j < n, i ≠ j → (F {i, j}).1 = -mutualInfo n p i j := by
    intro i hi j hj hij
    rw [hF]
    show (fitVal n C {i, j}).1 - (fitVal n C0 {i, j}).1 = _
    rw [(duo i hi j hj hij).1, ← hset, ind [i, j] (by simp [hij]) (by simp [hi, hj]), mutualInfo_entropies hp hn i j hi hj hij]
    simp [Finset.sum_range_succ]
    ring
  have FE : ∀ i < n, ∀ j < n, i < j → ∀ s ∈ words [1, -1] n, energyHom n (fun i => (spins s i + 1) / 2) (F {i, j}) =
      (Real.log (pairProb n p i j (-1) (-1)) - Real.log (spinProb n p i (-1)) - Real.log (spinProb n p j (-1))) -
        Real.log (linkRatio n p (i, j) (s.getD i 0) (s.getD j 0)) := by
    intro i hi j hj hij s hs
    have hi' := spin_pm hs hi
    have hj' := spin_pm hs hj
    have pi := spinProb_pos hp hn i hi _ hi'
    have pj := spinProb_pos hp hn j hj _ hj'
    have e1 : energyHom n (fun i => (spins s i + 1) / 2) (fitVal n C0 {i, j}) =
        (Real.log (spinProb n p i (-1)) - Real.log (spinProb n p i (s.getD i 0))) +
        (Real.log (spinProb n p j (-1)) - Real.log (spinProb n p j (s.getD j 0))) := by
      rw [← hset, indE [i, j] (by simp [hij.ne]) (by simp [hi, hj]) s hs]
      have : ∀ k, (if k ∈ [i, j] then Real.log (spinProb n p k (-1)) - Real.log (spinProb n p k (s.getD k 0)) else 0) =
          (if k = i then Real.log (spinProb n p i (-1)) - Real.log (spinProb n p i (s.getD i 0)) else 0) +
          (if k = j then Real.log (spinProb n p j (-1)) - Real.log (spinProb n p j (s.getD j 0)) else 0) := by
        intro k
        by_cases a : k = i
        · subst a; simp [hij.ne]
        · by_cases b : k = j
          · subst b; simp [a]
          · simp [a, b]
      simp only [this, Finset.sum_add_distrib]
      rw [Finset.sum_ite_eq' _ _ fun _ => _, Finset.sum_ite_eq' _ _ fun _ => _, if_pos (Finset.mem_range.2 hi),
        if_pos (Finset.mem_range.2 hj)]
    rw [hF]
    beta_reduce
    rw [map_sub, (duo i hi j hj hij.ne).1, energyHom_fun, quadE_duo n hi hj hij.ne, e1, linkRatio,
      Real.log_div (hp.pos i hi j hj hij.ne _ _ hi' hj').ne' (mul_pos pi pj).ne', Real.log_mul pi.ne' pj.ne']
    unfold spins
    rcases hi' with h | h <;> rcases hj' with h' | h' <;> rw [h, h'] <;> push_cast <;> ring
  have hkeep : ∀ i < n, ∀ j < n, i ≠ j → (decide (|(F {i, j}).1| > T) = true ↔ Linked n p T i j) := by
    intro i hi j hj hij
    rw [F1 i hi j hj hij, abs_neg, abs_of_nonneg (mutualInfo_nonneg hp hn i j hi hj hij), decide_eq_true_iff]
    exact ⟨fun h => ⟨hij, h⟩, fun h => h.2⟩
  have hrange : (List.range n).toFinset = Finset.range n := by ext; simp
  obtain ⟨levels, d, hsolve, l1, l2, l3⟩ := aceSolve_pairs
    (S := fun c => entJPy n (clusterS none lsq M false 0 ns c)) (S0 := fun c => entJPy n (sIndependent M c)) (F := F)
    (fun v => decide (|v.1| > T)) n hn _
    (by rw [entJPy_ind hMs _ List.nodup_range (by simp; omega) (by simp) fun i hi => hf i (by simpa using hi), ← hC0])
    (fun i hi => by rw [hF]; beta_reduce; rw [(one i hi).1, sub_self])
    (fun g g1 g2 g3 g4 g5 => by
      refine ⟨fitVal n C g.toFinset, fitVal n C0 g.toFinset, ?_, ?_, by rw [hF]⟩
      · refine entJPy_S hlsq hMs C g g1 g2 g4 (fun a b ha hb hab => ?_) ?_ _ _
        · refine hMv' _ (g4 _ (List.getElem_mem _)) _ (g4 _ (List.getElem_mem _)) ?_
          rcases Nat.eq_or_lt_of_le hab with rfl | hlt
          · exact le_refl _
          · exact List.pairwise_iff_getElem.1 g5 a b ha hb hlt
        · match g, g1, g2, g3, g4 with
          | [i], _, _, _, g4 =>
            rw [show ([i] : List ℕ).toFinset = {i} by simp]
            exact (one i (g4 i (by simp))).2
          | [i, j], g1, _, _, g4 =>
            rw [hset]
            exact (duo i (g4 i (by simp)) j (g4 j (by simp)) (by simpa using g1)).2
      · rw [entJPy_ind hMs g g1 g2 g4 fun i hi => hf i (g4 i hi), ← hC0])
    (fun i hi j hj k hk hij hik h1 h2 => hdis i hi j hj k hk ((hkeep i hi j hj hij).1 h1) ((hkeep i hi k hk hik).1 h2))
  rw [hrange] at hsolve
  have hsum : ∀ {β : Type} [AddCommMonoid β] (φ : (ℝ × (Fin n → Fin n → ℝ)) →+ β),
      φ (fitVal n C0 (Finset.range n) + ∑ i ∈ Finset.range n, ∑ j ∈ Finset.range n,
          (if i < j then (if decide (|(F {i, j}).1| > T) = true then F {i, j} else 0) else 0)) =
        φ (fitVal n C0 (Finset.range n)) + ∑ i ∈ Finset.range n, ∑ j ∈ Finset.range n,
          (if i < j then (if Linked n p T i j then φ (F {i, j}) else 0) else 0) := by
    intro β _ φ
    rw [map_add, map_sum]
    congr 1
    refine Finset.sum_congr rfl fun i hi => ?_
    rw [map_sum]
    refine Finset.sum_congr rfl fun j hj => ?_
    by_cases hij : i < j
    · rw [if_pos hij, if_pos hij]
      have hk := hkeep i (Finset.mem_range.1 hi) j (Finset.mem_range.1 hj) hij.ne
      by_cases h : Linked n p T i j
      · rw [if_pos (hk.2 h), if_pos h]
      · rw [if_neg (fun h' => h (hk.1 h')), if_neg h, map_zero]
    · rw [if_neg hij, if_neg hij, map_zero]
  obtain ⟨v, hv⟩ : ∃ v, v = fitVal n C0 (Finset.range n) + ∑ i ∈ Finset.range n, ∑ j ∈ Finset.range n,
      (if i < j then (if decide (|(F {i, j}).1| > T) = true then F {i, j} else 0) else 0) := ⟨_, rfl⟩
  rw [← hv] at hsolve
  have hent : v.1 = ∑ i ∈ Finset.range n, siteEntropy n p i - ∑ i ∈ Finset.range n, ∑ j ∈ Finset.range n,
      (if i < j then (if Linked n p T i j then mutualInfo n p i j else 0) else 0) := by
    have h := hsum (AddMonoidHom.fst ℝ (Fin n → Fin n → ℝ))
    rw [← hv] at h
    simp only [AddMonoidHom.coe_fst] at h
    rw [h, ← hrange, ind _ List.nodup_range (by simp), hrange, sub_eq_add_neg, ← Finset.sum_neg_distrib]
    congr 1
    · rw [List.length_range]
      show ∑ a ∈ Finset.range n, siteEntropy n p ((List.range n).getD a 0) = _
      refine Finset.sum_congr rfl fun k hk => ?_
      rw [List.getD_eq_getElem _ _ (by simpa using hk)]
      simp
    · refine Finset.sum_congr rfl fun i hi => ?_
      rw [← Finset.sum_neg_distrib]
      refine Finset.sum_congr rfl fun j hj => ?_
      by_cases hij : i < j
      · rw [if_pos hij, if_pos hij, F1 i (Finset.mem_range.1 hi) j (Finset.mem_range.1 hj) hij.ne]
        split_ifs <;> simp
      · rw [if_neg hij, if_neg hij, neg_zero]
  have hsym : ∀ i j : Fin n, v.2 i j = v.2 j i := by
    intro i j
    have h := hsum (asymHom n i j)
    rw [← hv, asymHom_fit] at h
    have h0 : ∀ A, asymHom n i j (F A) = 0 := fun A => by
      rw [hF]; beta_reduce; rw [map_sub, asymHom_fit, asymHom_fit, sub_zero]
    simp only [h0, ite_self, Finset.sum_const_zero, add_zero] at h
    exact sub_eq_zero.1 h
  obtain ⟨Jm, e⟩ : ∃ Jm : Mat ℝ, Jm = Mat.build n n fun i j =>
      if h : i < n ∧ j < n then v.2 ⟨i, h.1⟩ ⟨j, h.2⟩ else 0 := ⟨_, rfl⟩
  have hJm : Jm.HasShape n n := e ▸ Mat.build_shape _ _ _
  have hJv : ∀ i < n, ∀ j < n, Jm.at' i j = extendM n v.2 i j := fun i hi j hj => by
    rw [e, Mat.at_build _ hi hj, extendM]
  obtain ⟨x, hx, hxl, k, hE⟩ := aceParams_ok (n := n) (by omega) hJm fun i hi j hj => by
    rw [hJv i hi j hj, hJv j hj i hi, extendM, extendM, dif_pos ⟨hi, hj⟩, dif_pos ⟨hj, hi⟩, hsym]
  obtain ⟨c, hc⟩ := paired_energy hp hn hK
  obtain ⟨c1, hc1⟩ : ∃ c1, c1 = ∑ k ∈ Finset.range n, Real.log (spinProb n p k (-1)) +
      ∑ i ∈ Finset.range n, ∑ j ∈ Finset.range n, (if i < j then (if Linked n p T i j then
        (Real.log (pairProb n p i j (-1) (-1)) - Real.log (spinProb n p i (-1)) - Real.log (spinProb n p j (-1))) else 0) else 0) :=
    ⟨_, rfl⟩
  have hxe : x = pairedParams n p (Linked n p T) := by
    refine pair_unique n _ _ hxl (length_pairedParams n p _) (c1 + k - c) fun s hs => ?_
    rw [hc s hs, log_weight hp hn s hs]
    show isingVecE n (x.take n) (x.drop n) (spins s) = _
    rw [hE (spins s)]
    have h1 : quadE n (fun i j => Jm.at' i j) (fun i => (spins s i + 1) / 2) =
        energyHom n (fun i => (spins s i + 1) / 2) v := by
      show _ = quadE n (extendM n v.2) _
      exact quadE_congr n _ _ _ _ hJv fun _ _ => rfl
    have h := hsum (energyHom n fun i => (spins s i + 1) / 2)
    rw [← hv] at h
    rw [h1, h, ← hrange, indE _ List.nodup_range (by simp) s hs, hrange,
      sum_links n (Linked n p T) fun i j => Real.log (linkRatio n p (i, j) (s.getD i 0) (s.getD j 0)), hc1]
    have h2 : (∑ k ∈ Finset.range n, if k ∈ List.range n then
        Real.log (spinProb n p k (-1)) - Real.log (spinProb n p k (s.getD k 0)) else 0) =
        ∑ k ∈ Finset.range n, Real.log (spinProb n p k (-1)) - ∑ k ∈ Finset.range n, Real.log (spinProb n p k (s.getD k 0)) := by
      rw [← Finset.sum_sub_distrib]
      refine Finset.sum_congr rfl fun k hk => ?_
      rw [if_pos (by simpa using hk)]
    have h3 : (∑ i ∈ Finset.range n, ∑ j ∈ Finset.range n, (if i < j then (if Linked n p T i j then
          energyHom n (fun i => (spins s i + 1) / 2) (F {i, j}) else 0) else 0)) =
        ∑ i ∈ Finset.range n, ∑ j ∈ Finset.range n, (if i < j then (if Linked n p T i j then
          (Real.log (pairProb n p i j (-1) (-1)) - Real.log (spinProb n p i (-1)) - Real.log (spinProb n p j (-1))) else 0) else 0) -
        ∑ i ∈ Finset.range n, ∑ j ∈ Finset.range n, (if i < j then (if Linked n p T i j then
          Real.log (linkRatio n p (i, j) (s.getD i 0) (s.getD j 0)) else 0) else 0) := by
      rw [← Finset.sum_sub_distrib]
      refine Finset.sum_congr rfl fun i hi => ?_
      rw [← Finset.sum_sub_distrib]
      refine Finset.sum_congr rfl fun j hj => ?_
      by_cases hij : i < j
      · rw [if_pos hij, if_pos hij, if_pos hij, FE i (Finset.mem_range.1 hi) j (Finset.mem_range.1 hj) hij s hs]
        split_ifs <;> simp
      · rw [if_neg hij, if_neg hij, if_neg hij, sub_zero]
    rw [h2, h3]
    ring
  refine ⟨M, levels, hM, ?_, l1, l2, fun A => ?_⟩
  · unfold clusterExpansionSolve
    rw [Option.getD_none]
    simp only [gt_iff_lt] at hsolve ⊢
    rw [hsolve]
    dsimp only
    rw [← e, hx, hxe, hent]
  · rw [l3 A]
    refine or_congr_right (exists_congr fun i => and_congr_right fun hi => exists_congr fun j => and_congr_right fun hj => ?_)
    constructor
    · rintro ⟨h1, h2, h3⟩
      exact ⟨(hkeep i hi j hj h1).1 h2, h3⟩
    · rintro ⟨h1, h2⟩
      exact ⟨h1.1, (hkeep i hi j hj h1.1).2 h1, h2⟩

end Verif.Lemmas
