/-
C40, C41, C42, C76, C77: the pseudolikelihood solvers.
-/
import Verif.Lemmas.Pseudo3

namespace Verif.Props
open Verif Verif.Model Verif.Spec Verif.Lemmas

variable {K : Type*}

/-! ### C40 -/

/-- C40. For every model `θ`, the function handed to the optimiser for spin `r`, called with the
parameters of that spin, is minus the conditional log-likelihood of the spin, and the vector it returns
holds the derivatives with respect to those parameters. `G` is what the array `guess` happens to hold. -/
theorem C40_conditional_objective (n r : ℕ) (hr : r < n) (X : Data)
    (hX : ∀ s ∈ X, s.length = n ∧ (s.getD r 0 = 1 ∨ s.getD r 0 = -1)) (θ G : List ℝ)
    (hθ : θ.length = n + n * (n - 1) / 2) (hG : G.length = n + n * (n - 1) / 2) (m : List ℝ)
    (ix : List ℕ) (hm : getMultipliersR n r θ = .ok (m, ix)) :
    ∃ g, isingPseudoF n r X G m = .ok (negCondLogLik (vecE n θ) [1, -1] X r, g) ∧ g.length = n ∧
      ∀ a < n, HasDerivAt (fun x => negCondLogLik (vecE n (θ.set (ix.getD a 0) x)) [1, -1] X r)
        (g.getD a 0) (θ.getD (ix.getD a 0) 0) := by
  rw [getMultipliersR_sel hr θ hθ] at hm
  simp only [Except.ok.injEq, Prod.mk.injEq] at hm
  obtain ⟨rfl, rfl⟩ := hm
  obtain ⟨G', e, hl, hG'⟩ := fancySet_ok G (spinIx n r) (sel θ (spinIx n r)) (by simp [sel])
    (nodup_spinIx hr) (fun i hi => by rw [hG]; exact spinIx_lt hr i hi)
  have hsel : sel G' (spinIx n r) = sel θ (spinIx n r) := by
    refine List.map_congr_left fun q hq => ?_
    rw [hG', if_pos hq]
    have := List.idxOf_lt_length_iff.2 hq
    unfold sel
    simp [this]
  obtain ⟨d, e1, hd, hder⟩ := isingCondTerm_ok hr θ X hX
  refine ⟨d, ?_, hd, fun a ha => ?_⟩
  · unfold isingPseudoF
    rw [obsR_map hr, getMultipliersR_sel hr G hG]
    simp only [e]
    rw [getMultipliersR_sel hr G' (by rw [hl, hG])]
    simp only [hsel, e1, neg_neg]
  · have hlt : a < (spinIx n r).length := by rw [length_spinIx hr]; exact ha
    have h1 : (spinIx n r).getD a 0 = (spinIx n r)[a] := List.getD_eq_getElem _ _ hlt
    have := hder ((spinIx n r).getD a 0) (by
      rw [hθ, h1]; exact spinIx_lt hr _ (List.getElem_mem hlt))
    rw [h1, (nodup_spinIx hr).idxOf_getElem] at this
    rw [h1]
    exact this

/-- C40, every argument of the objective is covered: any vector of `n` numbers holds the parameters of
spin `r` of some model. -/
theorem C40_every_argument (n r : ℕ) (hr : r < n) (m : List ℝ) (hm : m.length = n) :
    ∃ θ ix, θ.length = n + n * (n - 1) / 2 ∧ getMultipliersR n r θ = .ok (m, ix) := by
  obtain ⟨θ, _, hl, hθ⟩ := fancySet_ok (List.replicate (n + n * (n - 1) / 2) (0 : ℝ)) (spinIx n r) m
    (by rw [hm, length_spinIx hr]) (nodup_spinIx hr)
    (fun i hi => by rw [List.length_replicate]; exact spinIx_lt hr i hi)
  rw [List.length_replicate] at hl
  refine ⟨θ, spinIx n r, hl, ?_⟩
  rw [getMultipliersR_sel hr θ hl]
  rw [sel_of_scatter θ (spinIx n r) m (by rw [hm, length_spinIx hr]) (nodup_spinIx hr)
    fun p hp => by rw [hθ, if_pos hp]]

/-- C40, the objective has no memory: it writes to the array `guess`, but what an earlier call left there
does not matter. -/
theorem C40_no_memory (n r : ℕ) (hr : r < n) (X : Data)
    (G G' : List ℝ) (hG : G.length = n + n * (n - 1) / 2) (hG' : G'.length = n + n * (n - 1) / 2) (m : List ℝ)
    (hm : m.length = n) : isingPseudoF n r X G m = isingPseudoF n r X G' m := by
  have key : ∀ G : List ℝ, G.length = n + n * (n - 1) / 2 → isingPseudoF n r X G m =
      (isingCondTerm n (X.map (spinObs n r)) m).map fun q => (-q.1, q.2) := by
    intro G hG
    obtain ⟨G1, e, hl, hG1⟩ := fancySet_ok G (spinIx n r) m (by rw [hm, length_spinIx hr])
      (nodup_spinIx hr) (fun i hi => by rw [hG]; exact spinIx_lt hr i hi)
    have hsel : sel G1 (spinIx n r) = m :=
      sel_of_scatter G1 (spinIx n r) m (by rw [hm, length_spinIx hr]) (nodup_spinIx hr)
        fun p hp => by rw [hG1, if_pos hp]
    unfold isingPseudoF
    rw [obsR_map hr, getMultipliersR_sel hr G hG]
    simp only [e]
    rw [getMultipliersR_sel hr G1 (by rw [hl, hG])]
    simp only [hsel]
    rcases isingCondTerm n (X.map (spinObs n r)) m with er | ⟨ll, d⟩ <;> rfl
  rw [key G hG, key G' hG']

/-- C40, `_solve_general`: the objective is the sum of minus the conditional log-likelihoods of all
spins and the second value its gradient. -/
theorem C40_total_objective (n : ℕ) (X : Data)
    (hX : ∀ s ∈ X, s.length = n ∧ ∀ r < n, s.getD r 0 = 1 ∨ s.getD r 0 = -1) (θ : List ℝ)
    (hθ : θ.length = n + n * (n - 1) / 2) :
    ∃ g, generalPseudoF n X θ =
        .ok (((List.range n).map fun r => negCondLogLik (vecE n θ) [1, -1] X r).sum, g) ∧
      g.length = θ.length ∧
      ∀ p < θ.length, HasDerivAt (fun x =>
        ((List.range n).map fun r => negCondLogLik (vecE n (θ.set p x)) [1, -1] X r).sum)
        (g.getD p 0) (θ.getD p 0) := by
  have hrange : pyRange 0 n = List.range n := by simp [pyRange, List.range_eq_range']
  obtain ⟨g, e, hl, hder⟩ := loop_terms (fun r st => generalStep n X θ r st) θ.length (List.range n)
    (fun r => -negCondLogLik (vecE n θ) [1, -1] X r)
    (fun r p x => negCondLogLik (vecE n (θ.set p x)) [1, -1] X r) 1 (fun p => θ.getD p 0)
    (fun r hr l g hg => by
      have hr := List.mem_range.1 hr
      simp only [one_mul]
      exact generalStep_ok hr θ hθ X (fun s hs => ⟨(hX s hs).1, (hX s hs).2 r hr⟩) l g hg)
    0 (List.replicate θ.length 0) (by simp)
  refine ⟨g, ?_, hl, fun p hp => ?_⟩
  · unfold generalPseudoF
    rw [hrange, e]
    simp only [zero_add]
    congr 2
    rw [← list_sum_neg]
    simp only [neg_neg]
  · obtain ⟨d, h1, h2⟩ := hder p hp
    have : g.getD p 0 = 1 * d := by rw [h1]; simp [hp]
    rw [this]
    exact h2

example : (∀ s ∈ ([[1, -1], [1, 1], [-1, -1]] : Data), s.length = 2 ∧
      ∀ r < 2, s.getD r 0 = 1 ∨ s.getD r 0 = -1) ∧
    ([1 / 2, -1, 2] : List ℝ).length = 2 + 2 * (2 - 1) / 2 ∧
    getMultipliersR (K := ℚ) 2 1 [1 / 2, -1, 2] = .ok ([-1, 2], [1, 2]) := by
  refine ⟨by decide, by simp, by decide +kernel⟩

/-! ### C41 -/

/-- C41. The objective of `_solve_potts` is the sum of minus the conditional log-likelihoods of all
spins plus the cost, and the second value its gradient, provided `costJac` is the gradient of the cost. -/
theorem C41_objective (n k : ℕ) (hk : 2 ≤ k) (X : Data)
    (hX : ∀ s ∈ X, s.length = n ∧ ∀ r < n, s.getD r 0 ∈ pottsVals k) (θ : List ℝ)
    (hθ : θ.length = k * n + n * (n - 1) / 2) (cost : List ℝ → ℝ) (costJac : List ℝ → List ℝ)
    (hcl : (costJac θ).length = θ.length)
    (hcj : ∀ p < θ.length, HasDerivAt (fun x => cost (θ.set p x)) ((costJac θ).getD p 0) (θ.getD p 0)) :
    ∃ g, pottsPseudoF n k X cost costJac θ =
        .ok (((List.range n).map fun r => negCondLogLik (vecPottsE n k θ) (pottsVals k) X r).sum +
          cost θ, g) ∧
      g.length = θ.length ∧
      ∀ p < θ.length, HasDerivAt (fun x => ((List.range n).map fun r =>
          negCondLogLik (vecPottsE n k (θ.set p x)) (pottsVals k) X r).sum + cost (θ.set p x))
        (g.getD p 0) (θ.getD p 0) := by
  have hrange : pyRange 0 n = List.range n := by simp [pyRange, List.range_eq_range']
  obtain ⟨g, e, hl, hder⟩ := loop_terms (fun r st => pottsStep n k X θ r st) θ.length (List.range n)
    (fun r => -negCondLogLik (vecPottsE n k θ) (pottsVals k) X r)
    (fun r p x => negCondLogLik (vecPottsE n k (θ.set p x)) (pottsVals k) X r) (-1)
    (fun p => θ.getD p 0)
    (fun r hr l g hg => by
      have hr := List.mem_range.1 hr
      simp only [neg_one_mul]
      exact pottsStep_ok hr hk θ hθ X (fun s hs => ⟨(hX s hs).1, (hX s hs).2 r hr⟩) l g hg)
    0 (List.replicate θ.length 0) (by simp)
  refine ⟨List.zipWith (· + ·) (g.map fun x => -x) (costJac θ), ?_, by simp [hl, hcl], fun p hp => ?_⟩
  · unfold pottsPseudoF
    rw [hrange, e]
    simp only [zero_add]
    unfold broadcast2
    rw [if_pos (by simp [hl, hcl])]
    simp only
    congr 3
    rw [← list_sum_neg]
    simp only [neg_neg]
  · obtain ⟨d, h1, h2⟩ := hder p hp
    have hp1 : p < g.length := by omega
    have hp2 : p < (costJac θ).length := by omega
    have h3 : g.getD p 0 = d := by rw [h1]; simp [hp]
    have : (List.zipWith (· + ·) (g.map fun x => -x) (costJac θ)).getD p 0 =
        -1 * d + (costJac θ).getD p 0 := by
      rw [← h3]
      simp [hp1, hp2]
    rw [this]
    exact h2.add (hcj p hp)

/-- C41 without a cost function: the default derivative is the number 0, which numpy adds to every
entry. -/
theorem C41_no_cost (n k : ℕ) (hk : 2 ≤ k) (X : Data)
    (hX : ∀ s ∈ X, s.length = n ∧ ∀ r < n, s.getD r 0 ∈ pottsVals k) (θ : List ℝ)
    (hθ : θ.length = k * n + n * (n - 1) / 2) :
    ∃ g, pottsPseudoF n k X (fun _ => 0) (fun _ => [0]) θ =
        .ok (((List.range n).map fun r => negCondLogLik (vecPottsE n k θ) (pottsVals k) X r).sum, g) ∧
      g.length = θ.length ∧
      ∀ p < θ.length, HasDerivAt (fun x => ((List.range n).map fun r =>
          negCondLogLik (vecPottsE n k (θ.set p x)) (pottsVals k) X r).sum)
        (g.getD p 0) (θ.getD p 0) := by
  obtain ⟨g, e, hl, hder⟩ := C41_objective n k hk X hX θ hθ (fun _ => 0)
    (fun _ => List.replicate θ.length 0) (by simp)
    (fun p hp => by simpa [hp] using hasDerivAt_const (θ.getD p 0) (0 : ℝ))
  refine ⟨g, ?_, hl, fun p hp => by simpa using hder p hp⟩
  rw [add_zero] at e
  rw [← e]
  unfold pottsPseudoF
  rcases h : (pyRange 0 n).foldlM (fun st r => pottsStep n k X θ r st)
      ((0 : ℝ), List.replicate θ.length (0 : ℝ)) with er | ⟨ll, g'⟩
  · rfl
  · have hlen : g'.length = θ.length := by
      unfold pottsPseudoF at e
      rw [h] at e
      simp only at e
      unfold broadcast2 at e
      by_cases hc : g'.length = θ.length
      · exact hc
      · rw [if_neg (by simpa using hc)] at e
        exfalso
        obtain ⟨g2, e2, hl2, -⟩ := loop_terms (fun r st => pottsStep n k X θ r st) θ.length
          (List.range n)
          (fun r => -negCondLogLik (vecPottsE n k θ) (pottsVals k) X r)
          (fun r p x => negCondLogLik (vecPottsE n k (θ.set p x)) (pottsVals k) X r) (-1)
          (fun p => θ.getD p 0)
          (fun r hr l g hg => by
            have hr := List.mem_range.1 hr
            simp only [neg_one_mul]
            exact pottsStep_ok hr hk θ hθ X (fun s hs => ⟨(hX s hs).1, (hX s hs).2 r hr⟩) l g hg)
          0 (List.replicate θ.length 0) (by simp)
        have hrange : pyRange 0 n = List.range n := by simp [pyRange, List.range_eq_range']
        rw [hrange] at h
        rw [h] at e2
        simp only [Except.ok.injEq, Prod.mk.injEq] at e2
        exact hc (e2.2 ▸ hl2)
    have b1 : broadcast2 (· + ·) (g'.map fun x => -x) [(0 : ℝ)] = .ok (g'.map fun x => -x) := by
      unfold broadcast2
      by_cases h1 : (g'.map fun x => -x).length = [(0 : ℝ)].length
      · rw [if_pos h1]
        obtain ⟨y, hy⟩ := List.length_eq_one_iff.1 h1
        rw [hy]; simp
      · rw [if_neg h1]
        simp
    have b2 : broadcast2 (· + ·) (g'.map fun x => -x) (List.replicate θ.length (0 : ℝ)) =
        .ok (g'.map fun x => -x) := by
      unfold broadcast2
      rw [if_pos (by simpa using hlen)]
      congr 1
      apply List.ext_getElem
      · simp [hlen]
      · intro i h1 h2; simp
    simp only [b1, b2]

/-- C41, one state per spin: the objective raises as soon as there is a spin. -/
theorem C41_one_state_raises (n : ℕ) (hn : 1 ≤ n) (X : Data) (θ : List ℝ)
    (hθ : θ.length = 1 * n + n * (n - 1) / 2) (cost : List ℝ → ℝ) (costJac : List ℝ → List ℝ) :
    pottsPseudoF n 1 X cost costJac θ = .error .valueError := by
  have hrange : pyRange 0 n = 0 :: pyRange 1 n := pyRange_cons (by omega)
  unfold pottsPseudoF
  rw [hrange, List.foldlM_cons]
  have : pottsStep n 1 X θ 0 ((0 : ℝ), List.replicate θ.length 0) = .error .valueError := by
    unfold pottsStep
    rw [pottsMultipliersR_sel (by omega) le_rfl θ hθ]
    simp
  rw [this]
  rfl

example : (∀ s ∈ ([[0, 2], [1, 1]] : Data), s.length = 2 ∧ ∀ r < 2, s.getD r 0 ∈ pottsVals 3) ∧
    ([1, 2, 3, 4, 5, 6, 7] : List ℝ).length = 3 * 2 + 2 * (2 - 1) / 2 := by
  refine ⟨by decide, by simp⟩

/-! ### C42 -/

/-- C42 (partial). The vector handed to the optimiser for spin `r` is `h_r` followed by the couplings of
the spin, with the coupling to spin 0 at position `r` and the coupling to spin `j` at position `j`. It is
the order the objective uses only for `r ≤ 1`, see `C42_right_iff`. -/
theorem C42_start_partial [Ring K] (n : ℕ) (hn : 1 ≤ n) (h J : List K) (hh : h.length = n)
    (hJ : J.length = n * (n - 1) / 2) :
    ∃ M, startMat n (h ++ J) = .ok M ∧ M.length = n ∧ ∀ r < n, M.getD r [] =
      (List.range n).map fun j => if j = 0 then h.getD r 0
        else J.getD ((upperPairs n).idxOf
          (min (if j = r then 0 else j) r, max (if j = r then 0 else j) r)) 0 :=
  startMat_row n hn h J hh hJ

/-- C42, exactly when the start is right: the vector handed to the optimiser for spin `r` holds the
parameters of that spin in the order of the objective iff the couplings of spin `r` to all spins before
it are equal. -/
theorem C42_right_iff [CommRing K] (n r : ℕ) (hr : r < n) (h J : List K) (hh : h.length = n)
    (hJ : J.length = n * (n - 1) / 2) :
    ∃ M m ix, startMat n (h ++ J) = .ok M ∧ getMultipliersR n r (h ++ J) = .ok (m, ix) ∧
      (M.getD r [] = m ↔ ∀ j < r, couplingOf n J j r = couplingOf n J 0 r) := by
  obtain ⟨M, e, hl, hM⟩ := startMat_row n (by omega) h J hh hJ
  refine ⟨M, _, _, e, getMultipliersR_eq n r hr h J hh hJ, ?_⟩
  rw [hM r hr, otherSites_eq hr, List.map_map]
  obtain ⟨q, rfl⟩ : ∃ q, n = q + 1 := ⟨n - 1, by omega⟩
  rw [List.range_succ_eq_map, List.map_cons, List.map_map, List.cons.injEq]
  simp only [if_true, true_and, Nat.add_sub_cancel]
  rw [List.map_inj_left]
  simp only [Function.comp, Nat.succ_ne_zero, if_false, List.mem_range, Nat.succ_eq_add_one]
  simp only [← couplingOf_eq]
  constructor
  · intro H j
    induction j with
    | zero => intro _; rfl
    | succ j ih =>
      intro hj
      have := H j (by omega)
      rw [if_neg (by omega), if_pos (by omega)] at this
      rw [this]
      exact ih (by omega)
  · intro H a ha
    by_cases h1 : a + 1 = r
    · rw [if_pos h1, if_pos (by omega)]
      exact (H a (by omega)).symm
    · rw [if_neg h1]
      by_cases h2 : a < r
      · rw [if_pos h2, H (a + 1) (by omega), H a h2]
      · rw [if_neg h2]

/-- C42, the first two spins start from the guess. -/
theorem C42_first_spins [CommRing K] (n r : ℕ) (hr : r < n) (hr1 : r ≤ 1) (h J : List K)
    (hh : h.length = n) (hJ : J.length = n * (n - 1) / 2) :
    ∃ M m ix, startMat n (h ++ J) = .ok M ∧ getMultipliersR n r (h ++ J) = .ok (m, ix) ∧
      M.getD r [] = m := by
  obtain ⟨M, m, ix, e1, e2, e3⟩ := C42_right_iff n r hr h J hh hJ
  refine ⟨M, m, ix, e1, e2, e3.2 fun j hj => ?_⟩
  have : j = 0 := by omega
  rw [this]

/-- C42, the default guess (all zero) is used as it should. -/
theorem C42_zero_guess [CommRing K] (n r : ℕ) (hr : r < n) :
    ∃ M m ix, startMat n (List.replicate n (0 : K) ++ List.replicate (n * (n - 1) / 2) 0) = .ok M ∧
      getMultipliersR n r (List.replicate n (0 : K) ++ List.replicate (n * (n - 1) / 2) 0) =
        .ok (m, ix) ∧ M.getD r [] = m := by
  obtain ⟨M, m, ix, e1, e2, e3⟩ := C42_right_iff n r hr (List.replicate n (0 : K))
    (List.replicate (n * (n - 1) / 2) 0) (by simp) (by simp)
  refine ⟨M, m, ix, e1, e2, e3.2 fun j _ => ?_⟩
  simp only [couplingOf_eq]
  simp [List.getElem?_replicate]
  split_ifs <;> rfl

/-- C42, the start of the third spin is wrong: its couplings to the first two spins are exchanged. -/
theorem C42_wrong_order :
    startMat (K := ℤ) 3 [1, 2, 3, 12, 13, 23] = .ok [[1, 12, 13], [2, 12, 23], [3, 23, 13]] ∧
    getMultipliersR (K := ℤ) 3 2 [1, 2, 3, 12, 13, 23] = .ok ([3, 13, 23], [2, 4, 5]) := by
  decide +kernel

/-! ### C76 -/

/-- C76. If the optimum for spin `r` holds the parameters of spin `r` of a model `θ r`, the solution has
the fields `h_i` of `θ i` and the average of the couplings `J_ij` of `θ i` and `θ j`. -/
theorem C76_assembled [Field K] [DecidableEq K] (h2 : (2 : K) ≠ 0) (n : ℕ) (hn : 1 ≤ n)
    (h J : ℕ → List K) (hh : ∀ r < n, (h r).length = n) (hJ : ∀ r < n, (J r).length = n * (n - 1) / 2)
    (xs : List (List K)) (ix : ℕ → List ℕ)
    (hxs : ∀ r < n, getMultipliersR n r (h r ++ J r) = .ok (xs.getD r [], ix r)) :
    assembleIsing n xs = .ok ((List.range n).map (fun i => (h i).getD i 0) ++
      (upperPairs n).map fun p =>
        (couplingAt n (J p.1) p.1 p.2 + couplingAt n (J p.2) p.1 p.2) / 2) := by
  rw [assemble_ok h2 hn (fun r => (h r).getD r 0) (fun r j => couplingOf n (J r) j r) xs
    (fun r hr => by
      have := hxs r hr
      rw [getMultipliersR_eq n r hr (h r) (J r) (hh r hr) (hJ r hr)] at this
      simp only [Except.ok.injEq, Prod.mk.injEq] at this
      exact this.1.symm)]
  congr 2
  refine List.map_congr_left fun p hp => ?_
  obtain ⟨h1, _⟩ := mem_upperPairs.1 (show (p.1, p.2) ∈ upperPairs n from hp)
  unfold couplingOf
  rw [min_eq_right h1.le, max_eq_left h1.le, min_eq_left h1.le, max_eq_right h1.le]

/-- C76, round trip: the spins' parameters of one model are put together to that model. -/
theorem C76_round_trip [Field K] [DecidableEq K] (h2 : (2 : K) ≠ 0) (n : ℕ) (hn : 1 ≤ n)
    (h J : List K) (hh : h.length = n) (hJ : J.length = n * (n - 1) / 2)
    (xs : List (List K)) (ix : ℕ → List ℕ)
    (hxs : ∀ r < n, getMultipliersR n r (h ++ J) = .ok (xs.getD r [], ix r)) :
    assembleIsing n xs = .ok (h ++ J) := by
  rw [C76_assembled h2 n hn (fun _ => h) (fun _ => J) (fun _ _ => hh) (fun _ _ => hJ) xs ix hxs]
  congr 2
  · apply List.ext_getElem
    · simp [hh]
    · intro i h1 h3; simp [h3]
  · conv_rhs => rw [← upperPairs_map_coupling n J hJ]
    refine List.map_congr_left fun p _ => ?_
    unfold couplingAt
    field_simp
    ring

example : assembleIsing (K := ℚ) 3 [[1, 5, 7], [2, 3, 9], [4, 1, 0]] =
    .ok [1, 2, 4, 4, 4, 9 / 2] := by decide +kernel

/-! ### C77 -/

/-- C77. Consistency: if the states occur in the sample with the frequencies of the Boltzmann
distribution of `θ`, the conditional log-likelihood of spin `r` is largest at `θ`, and elsewhere only if
the parameters of spin `r` are the same. -/
theorem C77_conditional (n r : ℕ) (hr : r < n) (θ θ' : List ℝ)
    (hθ : θ.length = n + n * (n - 1) / 2) (hθ' : θ'.length = n + n * (n - 1) / 2) (X : Data)
    (hne : X ≠ []) (hX : ∀ s ∈ X, s ∈ words [1, -1] n)
    (hdist : ∀ s ∈ words [1, -1] n, (X.count s : ℝ) / X.length =
      boltzmann (words [1, -1] n) (vecE n θ) s) :
    negCondLogLik (vecE n θ) [1, -1] X r ≤ negCondLogLik (vecE n θ') [1, -1] X r ∧
      (negCondLogLik (vecE n θ') [1, -1] X r ≤ negCondLogLik (vecE n θ) [1, -1] X r →
        getMultipliersR n r θ' = getMultipliersR n r θ) := by
  obtain ⟨h1, h2⟩ := cond_gibbs (by decide) hr (vecE n θ) (vecE n θ') X hne hX hdist
  refine ⟨h1, fun hle => ?_⟩
  rw [getMultipliersR_sel hr θ hθ, getMultipliersR_sel hr θ' hθ', sel_of_cond hr θ θ' (h2 hle)]

/-- C77, the whole of `_solve_ising`: with the frequencies of the Boltzmann distribution of `θ` and an
optimiser that returns minimisers, the solver returns `θ`, whatever the initial guess. -/
theorem C77_solve_recovers (n : ℕ) (hn : 1 ≤ n) (θ G : List ℝ)
    (hθ : θ.length = n + n * (n - 1) / 2) (hG : G.length = n + n * (n - 1) / 2) (X : Data)
    (hne : X ≠ []) (hX : ∀ s ∈ X, s ∈ words [1, -1] n)
    (hdist : ∀ s ∈ words [1, -1] n, (X.count s : ℝ) / X.length =
      boltzmann (words [1, -1] n) (vecE n θ) s)
    (minimize : (List ℝ → Py (ℝ × List ℝ)) → List ℝ → Py (List ℝ))
    (hmin : ∀ r < n, ∀ x0, x0.length = n → ∃ x, minimize (isingPseudoF n r X G) x0 = .ok x ∧
      IsMinimizer (isingPseudoF n r X G) n x) :
    isingPseudoSolve minimize n X G = .ok θ := by
  have hXr : ∀ r < n, ∀ s ∈ X, s.length = n ∧ (s.getD r 0 = 1 ∨ s.getD r 0 = -1) := by
    intro r hr s hs
    refine ⟨(mem_words.1 (hX s hs)).1, ?_⟩
    have := getD_mem_of_words hr (hX s hs)
    simpa using this
  have hlt : (G.take n).length = n := by simp; omega
  have hld : (G.drop n).length = n * (n - 1) / 2 := by simp; omega
  obtain ⟨M, eM, hMl, hM⟩ := startMat_row n hn (G.take n) (G.drop n) hlt hld
  rw [List.take_append_drop] at eM
  have key : ∀ r < n, minimize (isingPseudoF n r X G) (M.getD r []) =
      .ok (sel θ (spinIx n r)) := by
    intro r hr
    obtain ⟨x, ex, hxl, hx⟩ := hmin r hr (M.getD r []) (by rw [hM r hr]; simp)
    rw [ex]
    congr 1
    obtain ⟨θ', ix', hl', hm'⟩ := C40_every_argument n r hr x hxl
    obtain ⟨g', e', -⟩ := C40_conditional_objective n r hr X (hXr r hr) θ' G hl' hG x ix' hm'
    have hm := getMultipliersR_sel hr θ hθ
    obtain ⟨g, e, -⟩ := C40_conditional_objective n r hr X (hXr r hr) θ G hθ hG _ _ hm
    have hle := hx _ _ _ _ _ (by simp [sel, length_spinIx hr]) e' e
    have := (C77_conditional n r hr θ θ' hθ hl' X hne hX hdist).2 hle
    rw [hm', hm] at this
    simp only [Except.ok.injEq, Prod.mk.injEq] at this
    exact this.1
  unfold isingPseudoSolve
  rw [eM]
  simp only
  rw [mapM_ok _ (fun r => sel θ (spinIx n r)) _ fun r hr => key r (List.mem_range.1 hr)]
  simp only
  have hl1 : (θ.take n).length = n := by simp; omega
  have hl2 : (θ.drop n).length = n * (n - 1) / 2 := by simp; omega
  have := C76_round_trip (K := ℝ) two_ne_zero n hn (θ.take n) (θ.drop n) hl1 hl2
    ((List.range n).map fun r => sel θ (spinIx n r)) (fun r => spinIx n r)
  rw [List.take_append_drop] at this
  convert this ?_
  intro r hr
  rw [getMultipliersR_sel hr θ hθ, getD_map_range n _ [] hr]

/-- C77, `_solve_general`: the summed objective is smallest at `θ` and nowhere else. -/
theorem C77_general (n : ℕ) (θ θ' : List ℝ)
    (hθ : θ.length = n + n * (n - 1) / 2) (hθ' : θ'.length = n + n * (n - 1) / 2) (X : Data)
    (hne : X ≠ []) (hX : ∀ s ∈ X, s ∈ words [1, -1] n)
    (hdist : ∀ s ∈ words [1, -1] n, (X.count s : ℝ) / X.length =
      boltzmann (words [1, -1] n) (vecE n θ) s) (v w : ℝ) (g g' : List ℝ)
    (hv : generalPseudoF n X θ = .ok (v, g)) (hw : generalPseudoF n X θ' = .ok (w, g')) :
    v ≤ w ∧ (w ≤ v → θ' = θ) := by
  have hXr : ∀ s ∈ X, s.length = n ∧ ∀ r < n, s.getD r 0 = 1 ∨ s.getD r 0 = -1 := by
    intro s hs
    refine ⟨(mem_words.1 (hX s hs)).1, fun r hr => ?_⟩
    have := getD_mem_of_words hr (hX s hs)
    simpa using this
  obtain ⟨g1, e1, -⟩ := C40_total_objective n X hXr θ hθ
  obtain ⟨g2, e2, -⟩ := C40_total_objective n X hXr θ' hθ'
  rw [hv] at e1
  rw [hw] at e2
  simp only [Except.ok.injEq, Prod.mk.injEq] at e1 e2
  obtain ⟨rfl, -⟩ := e1
  obtain ⟨rfl, -⟩ := e2
  have key := fun r hr => C77_conditional n r hr θ θ' hθ hθ' X hne hX hdist
  refine ⟨list_sum_le _ _ _ fun r hr => (key r (List.mem_range.1 hr)).1, fun hle => ?_⟩
  have hz := eq_of_sum_zero (List.range n)
    (fun r => negCondLogLik (vecE n θ') [1, -1] X r - negCondLogLik (vecE n θ) [1, -1] X r)
    (fun r hr => sub_nonneg.2 (key r (List.mem_range.1 hr)).1) (by
      rw [list_sum_sub]
      have := list_sum_le (List.range n) _ _ fun r hr => (key r (List.mem_range.1 hr)).1
      linarith)
  refine eq_of_sel θ θ' hθ hθ' fun r hr => ?_
  have h1 := (key r hr).2 (by have := hz r (List.mem_range.2 hr); linarith)
  rw [getMultipliersR_sel hr θ hθ, getMultipliersR_sel hr θ' hθ'] at h1
  simp only [Except.ok.injEq, Prod.mk.injEq] at h1
  exact h1.1

/-- C77, `_solve_potts` without cost: with the frequencies of the Boltzmann distribution of `θ` the
objective is smallest at `θ`, and every other place where it is as small has the same distribution. -/
theorem C77_potts (n k : ℕ) (hk : 2 ≤ k) (θ θ' : List ℝ)
    (hθ : θ.length = k * n + n * (n - 1) / 2) (hθ' : θ'.length = k * n + n * (n - 1) / 2) (X : Data)
    (hne : X ≠ []) (hX : ∀ s ∈ X, s ∈ words (pottsVals k) n)
    (hdist : ∀ s ∈ words (pottsVals k) n, (X.count s : ℝ) / X.length =
      boltzmann (words (pottsVals k) n) (vecPottsE n k θ) s) (v w : ℝ) (g g' : List ℝ)
    (hv : pottsPseudoF n k X (fun _ => 0) (fun _ => [0]) θ = .ok (v, g))
    (hw : pottsPseudoF n k X (fun _ => 0) (fun _ => [0]) θ' = .ok (w, g')) :
    v ≤ w ∧ (w ≤ v → ∀ s ∈ words (pottsVals k) n,
      boltzmann (words (pottsVals k) n) (vecPottsE n k θ') s =
        boltzmann (words (pottsVals k) n) (vecPottsE n k θ) s) := by
  have hXr : ∀ s ∈ X, s.length = n ∧ ∀ r < n, s.getD r 0 ∈ pottsVals k := fun s hs =>
    ⟨(mem_words.1 (hX s hs)).1, fun r hr => getD_mem_of_words hr (hX s hs)⟩
  have hvals : (pottsVals k).Nodup := by
    unfold pottsVals
    exact List.Nodup.map (fun a b h => by simpa using h) List.nodup_range
  obtain ⟨g1, e1, -⟩ := C41_no_cost n k hk X hXr θ hθ
  obtain ⟨g2, e2, -⟩ := C41_no_cost n k hk X hXr θ' hθ'
  rw [hv] at e1
  rw [hw] at e2
  simp only [Except.ok.injEq, Prod.mk.injEq] at e1 e2
  obtain ⟨rfl, -⟩ := e1
  obtain ⟨rfl, -⟩ := e2
  have key := fun r hr => cond_gibbs (n := n) (r := r) hvals hr (vecPottsE n k θ) (vecPottsE n k θ')
    X hne hX hdist
  refine ⟨list_sum_le _ _ _ fun r hr => (key r (List.mem_range.1 hr)).1, fun hle => ?_⟩
  have hz := eq_of_sum_zero (List.range n)
    (fun r => negCondLogLik (vecPottsE n k θ') (pottsVals k) X r -
      negCondLogLik (vecPottsE n k θ) (pottsVals k) X r)
    (fun r hr => sub_nonneg.2 (key r (List.mem_range.1 hr)).1) (by
      rw [list_sum_sub]
      have := list_sum_le (List.range n) _ _ fun r hr => (key r (List.mem_range.1 hr)).1
      linarith)
  have hcst := const_of_sets (vals := pottsVals k) (n := n)
    (fun s => vecPottsE n k θ' s - vecPottsE n k θ s) (fun r hr s hs v hv => by
      refine energy_of_cond hr (vecPottsE n k θ) (vecPottsE n k θ') ?_ s hs v hv
      exact (key r hr).2 (by have := hz r (List.mem_range.2 hr); linarith))
  intro s hs
  have e : ∀ t ∈ words (pottsVals k) n, Real.exp (-vecPottsE n k θ' t) =
      Real.exp (-vecPottsE n k θ t) * Real.exp (-(vecPottsE n k θ' s - vecPottsE n k θ s)) := by
    intro t ht
    rw [← hcst t ht s hs, ← Real.exp_add]
    congr 1; ring
  unfold boltzmann partition
  rw [list_sum_congr e, list_sum_mul_right, e s hs, mul_div_mul_right _ _ (Real.exp_pos _).ne']

/-- The hypotheses of C77 can be met: all four states once, no fields and couplings. -/
example : ∀ s ∈ words [1, -1] 2, ((words [1, -1] 2).count s : ℝ) / (words [1, -1] 2).length =
    boltzmann (words [1, -1] 2) (vecE 2 [0, 0, 0]) s := by
  have hE : ∀ s, vecE 2 [0, 0, 0] s = 0 := by
    intro s
    have : couplingAt 2 ([0] : List ℝ) = fun _ _ => 0 := by
      funext i j
      unfold couplingAt
      rcases (upperPairs 2).idxOf (i, j) with _ | m <;> simp
    simp [vecE, isingVecE, isingE, this, Finset.sum_range_succ]
  intro s hs
  unfold boltzmann partition
  simp only [hE]
  rw [List.count_eq_one_of_mem (nodup_words (by decide) 2) hs]
  simp

end Verif.Props
