/-
Lemmas about the pseudolikelihood objective of the Potts model, and about the sum over all spins.
-/
import Verif.Lemmas.Pseudo

namespace Verif.Lemmas
open Verif Verif.Model Verif.Spec

/-- Positions of the parameters of spin `r` of the Potts model. -/
def pottsIx (n k r : ℕ) : List ℕ :=
  ((List.range k).map fun a => a * n + r) ++ (otherSites n r).map fun i => pairPos n i r + k * n

theorem length_pottsIx {n k r : ℕ} (hr : r < n) : (pottsIx n k r).length = k + (n - 1) := by
  simp [pottsIx, length_otherSites hr]

theorem field_lt {n k r a : ℕ} (hr : r < n) (ha : a < k) : a * n + r < k * n :=
  calc a * n + r < a * n + n := by omega
    _ = (a + 1) * n := by ring
    _ ≤ k * n := Nat.mul_le_mul_right _ ha

theorem nodup_pottsIx {n k r : ℕ} (hr : r < n) : (pottsIx n k r).Nodup := by
  unfold pottsIx
  rw [List.nodup_append]
  refine ⟨?_, ?_, ?_⟩
  · refine List.Nodup.map_on ?_ List.nodup_range
    intro a _ b _ e
    have : a * n = b * n := by omega
    exact Nat.eq_of_mul_eq_mul_right (by omega) this
  · refine List.Nodup.map_on ?_ (nodup_otherSites n r)
    intro i hi j hj e
    obtain ⟨hi1, hi2⟩ := mem_otherSites.1 hi
    obtain ⟨hj1, hj2⟩ := mem_otherSites.1 hj
    exact pairPos_inj hi1 hr hi2 hj2 (by omega)
  · intro a ha b hb e
    obtain ⟨c, hc, rfl⟩ := List.mem_map.1 ha
    obtain ⟨d, _, rfl⟩ := List.mem_map.1 hb
    have := field_lt hr (List.mem_range.1 hc)
    omega

theorem pottsIx_lt {n k r : ℕ} (hr : r < n) :
    ∀ i ∈ pottsIx n k r, i < k * n + n * (n - 1) / 2 := by
  intro i hi
  unfold pottsIx at hi
  rcases List.mem_append.1 hi with h | h
  · obtain ⟨c, hc, rfl⟩ := List.mem_map.1 h
    have := field_lt hr (List.mem_range.1 hc)
    omega
  · obtain ⟨j, hj, rfl⟩ := List.mem_map.1 h
    obtain ⟨h1, h2⟩ := mem_otherSites.1 hj
    have := pairPos_lt h1 hr h2
    omega

theorem potts_sel {n k r : ℕ} (hr : r < n) (θ : List ℝ) :
    ((List.range k).map fun a => (θ.take (k * n)).getD (a * n + r) 0) ++
        (otherSites n r).map (fun i => couplingOf n (θ.drop (k * n)) i r) = sel θ (pottsIx n k r) := by
  unfold sel pottsIx
  rw [List.map_append, List.map_map, List.map_map]
  congr 1
  · refine List.map_congr_left fun a ha => ?_
    rw [getD_take _ _ _ _ (field_lt hr (List.mem_range.1 ha))]
    rfl
  · refine List.map_congr_left fun i _ => ?_
    rw [couplingOf_eq]
    simp [add_comm]

theorem pottsMultipliersR_sel {n k r : ℕ} (hr : r < n) (hk : 1 ≤ k) (θ : List ℝ)
    (hθ : θ.length = k * n + n * (n - 1) / 2) :
    pottsMultipliersR n k r θ = .ok (sel θ (pottsIx n k r), pottsIx n k r) := by
  have h1 : (θ.take (k * n)).length = k * n := by simp; omega
  have := pottsMultipliersR_eq n k r hr hk (θ.take (k * n)) (θ.drop (k * n)) h1 (by simp; omega)
  rw [List.take_append_drop, potts_sel hr] at this
  exact this

theorem length_pottsSpinObs {n k r : ℕ} (hr : r < n) (s : ℕ → ℤ) (b : ℤ) :
    (pottsSpinObs n k s r b : List ℝ).length = k + (n - 1) := by
  simp [pottsSpinObs, length_otherSites hr]

/-- The difference `dot` product of state `b` and of the actual state of spin `r`. -/
noncomputable def dotDiff (n k r : ℕ) (θ : List ℝ) (s : List ℤ) (x b : ℕ) : ℝ :=
  dot (pottsSpinObs n k (fun i => s.getD i 0) r (b : ℤ)) (sel θ (pottsIx n k r)) -
    dot (pottsSpinObs n k (fun i => s.getD i 0) r (x : ℤ)) (sel θ (pottsIx n k r))

theorem getD_set_fun (s : List ℤ) (r : ℕ) (hr : r < s.length) (v : ℤ) :
    (fun i => (s.set r v).getD i 0) = fun i => if i = r then v else s.getD i 0 := by
  funext i
  by_cases h : i = r
  · subst h; simp [hr]
  · simp [h, List.getElem?_set_ne (Ne.symm h)]

theorem dotDiff_energy {n k r : ℕ} (hr : r < n) (θ : List ℝ) (s : List ℤ) (hs : s.length = n)
    (x b : ℕ) (hx : x < k) (hb : b < k) (hsx : s.getD r 0 = (x : ℤ)) :
    dotDiff n k r θ s x b = vecPottsE n k θ s - vecPottsE n k θ (s.set r (b : ℤ)) := by
  unfold dotDiff
  rw [← potts_sel hr, dot_pottsSpinObs n k _ _ _ r b hb, dot_pottsSpinObs n k _ _ _ r x hx]
  have h := pottsVecE_update n k r hr (θ.take (k * n)) (θ.drop (k * n)) (fun i => s.getD i 0) b x hb hx
  have e1 : (fun i => if i = r then (x : ℤ) else s.getD i 0) = fun i => s.getD i 0 := by
    funext i
    by_cases hi : i = r
    · subst hi; rw [if_pos rfl, hsx]
    · rw [if_neg hi]
  unfold vecPottsE
  rw [getD_set_fun s r (by omega)]
  rw [e1] at h
  linear_combination h

theorem sum_range_split (k x : ℕ) (hx : x < k) (f : ℕ → ℝ) :
    ((List.range k).map f).sum = f x + ((otherSites k x).map f).sum := by
  rw [sum_otherSites, sum_map_range, ← Finset.add_sum_erase _ _ (Finset.mem_range.2 hx)]
  congr 1
  rw [← Finset.sum_erase (Finset.range k) (a := x) (f := fun i => if i = x then 0 else f i) (by simp)]
  refine Finset.sum_congr rfl fun i hi => ?_
  rw [if_neg (Finset.ne_of_mem_erase hi)]

theorem condProb_potts {n k r : ℕ} (hr : r < n) (θ : List ℝ) (s : List ℤ) (hs : s.length = n)
    (x : ℕ) (hx : x < k) (hsx : s.getD r 0 = (x : ℤ)) :
    condProb (vecPottsE n k θ) (pottsVals k) r s =
      (((otherSites k x).map fun b => Real.exp (dotDiff n k r θ s x b)).sum + 1)⁻¹ := by
  unfold condProb pottsVals
  rw [List.map_map]
  have e : ((List.range k).map ((fun v => Real.exp (-vecPottsE n k θ (s.set r v))) ∘ fun a : ℕ => (a : ℤ))) =
      (List.range k).map fun b => Real.exp (dotDiff n k r θ s x b) * Real.exp (-vecPottsE n k θ s) := by
    refine List.map_congr_left fun b hb => ?_
    rw [dotDiff_energy hr θ s hs x b hx (List.mem_range.1 hb) hsx, ← Real.exp_add]
    simp only [Function.comp]
    congr 1; ring
  rw [e, list_sum_mul_right, mul_comm, div_mul_eq_div_div, div_self (Real.exp_pos _).ne', one_div,
    sum_range_split k x hx]
  have : dotDiff n k r θ s x x = 0 := by unfold dotDiff; ring
  rw [this, Real.exp_zero, add_comm]

theorem list_sum_pos_of {α : Type*} (l : List α) (f : α → ℝ) (h : ∀ a ∈ l, 0 < f a) :
    0 ≤ (l.map f).sum := by
  apply List.sum_nonneg
  intro y hy
  obtain ⟨a, ha, rfl⟩ := List.mem_map.1 hy
  exact (h a ha).le

theorem sgn_field (x b a : ℕ) (hb : b ≠ x) :
    fieldSgn (x : ℤ) (a : ℤ) (b : ℤ) =
      (if (b : ℤ) = (a : ℤ) then (1 : ℝ) else 0) - if (x : ℤ) = (a : ℤ) then 1 else 0 := by
  unfold fieldSgn
  by_cases h1 : (x : ℤ) = a
  · rw [if_pos h1, if_pos h1, if_neg (by omega)]; ring
  · by_cases h2 : (b : ℤ) = a
    · rw [if_neg h1, if_neg h1, if_pos h2, if_neg (by omega)]; ring
    · rw [if_neg h1, if_neg h1, if_neg h2, if_pos h2]; ring

theorem sgn_coupling (x b : ℕ) (y : ℤ) (hb : b ≠ x) :
    couplingSgn (x : ℤ) y (b : ℤ) =
      (if y = (b : ℤ) then (1 : ℝ) else 0) - if y = (x : ℤ) then 1 else 0 := by
  unfold couplingSgn
  by_cases h1 : y = (x : ℤ)
  · rw [if_pos h1.symm, if_pos h1, if_neg (by omega)]; ring
  · by_cases h2 : y = (b : ℤ)
    · rw [if_neg (Ne.symm h1), if_neg h1, if_pos h2, if_pos h2.symm]; ring
    · rw [if_neg (Ne.symm h1), if_neg h1, if_neg h2, if_neg (Ne.symm h2)]; ring

/-- Difference of the observables of two states of spin `r` at position `a`. -/
noncomputable def obsDiff (n k r : ℕ) (s : List ℤ) (x b a : ℕ) : ℝ :=
  (pottsSpinObs n k (fun i => s.getD i 0) r (b : ℤ) : List ℝ).getD a 0 -
    (pottsSpinObs n k (fun i => s.getD i 0) r (x : ℤ) : List ℝ).getD a 0

/-- What one row contributes, in terms of `dotDiff` and `obsDiff`. -/
theorem pottsRowTerm_ok {n k r : ℕ} (hr : r < n) (θ : List ℝ) (s : List ℤ) (hs : s.length = n)
    (x : ℕ) (hx : x < k) (hsx : s.getD r 0 = (x : ℤ)) :
    pottsRowTerm n k r (sel θ (pottsIx n k r)) s =
      .ok (Real.log (condProb (vecPottsE n k θ) (pottsVals k) r s),
        (List.range (k + (n - 1))).map fun a =>
          -(((otherSites k x).map fun b => obsDiff n k r s x b a * Real.exp (dotDiff n k r θ s x b)).sum /
            (((otherSites k x).map fun b => Real.exp (dotDiff n k r θ s x b)).sum + 1))) := by
  have hl : ∀ b : ℤ, npDot (pottsSpinObs n k (fun i => s.getD i 0) r b) (sel θ (pottsIx n k r)) =
      .ok (dot (pottsSpinObs n k (fun i => s.getD i 0) r b) (sel θ (pottsIx n k r))) := by
    intro b
    exact npDot_ok _ _ (by rw [length_pottsSpinObs hr]; simp [sel, length_pottsIx hr])
  have hed : pottsEdelta (pottsSpinObs n k (fun i => s.getD i 0) r x)
      ((otherSites k x).map fun b : ℕ => pottsSpinObs n k (fun i => s.getD i 0) r (b : ℤ))
      (sel θ (pottsIx n k r)) = .ok ((otherSites k x).map fun b => -dotDiff n k r θ s x b) := by
    unfold pottsEdelta
    have : ((otherSites k x).map fun b : ℕ => pottsSpinObs n k (fun i => s.getD i 0) r (b : ℤ)).mapM
        (fun o => npDot o (sel θ (pottsIx n k r))) =
        .ok (((otherSites k x).map fun b : ℕ => pottsSpinObs n k (fun i => s.getD i 0) r (b : ℤ)).map
          fun o => dot o (sel θ (pottsIx n k r))) := by
      refine mapM_ok _ _ _ fun o ho => ?_
      obtain ⟨b, _, rfl⟩ := List.mem_map.1 ho
      exact hl b
    rw [hl, this]
    simp only [List.map_map]
    congr 1
    refine List.map_congr_left fun b _ => ?_
    simp only [Function.comp, dotDiff]
    ring
  have hZ : (((((otherSites k x).map fun b => -dotDiff n k r θ s x b) ++ [0]).map fun e =>
      Real.exp (-e)).sum) = ((otherSites k x).map fun b => Real.exp (dotDiff n k r θ s x b)).sum + 1 := by
    rw [List.map_append, List.sum_append, List.map_map]
    simp [Function.comp_def]
  have hpos : 0 < ((otherSites k x).map fun b => Real.exp (dotDiff n k r θ s x b)).sum + 1 := by
    have := list_sum_pos_of (otherSites k x) (fun b => Real.exp (dotDiff n k r θ s x b))
      (fun b _ => Real.exp_pos _)
    linarith
  have hll : pottsRowLL ((otherSites k x).map fun b => -dotDiff n k r θ s x b) =
      Real.log (condProb (vecPottsE n k θ) (pottsVals k) r s) := by
    unfold pottsRowLL
    rw [hZ, condProb_potts hr θ s hs x hx hsx, Real.log_inv]
  have hnd : ∀ (sgn : ℤ → ℝ), pottsNumDen ((otherSites k x).map fun b => -dotDiff n k r θ s x b)
      (otherSites k x) sgn =
      -(((otherSites k x).map fun b : ℕ => sgn (b : ℤ) * Real.exp (dotDiff n k r θ s x b)).sum /
        (((otherSites k x).map fun b => Real.exp (dotDiff n k r θ s x b)).sum + 1)) := by
    intro sgn
    unfold pottsNumDen pottsRowLL
    rw [hZ, neg_neg, Real.exp_log hpos, div_neg]
    congr 3
    rw [List.zipWith_map_left, List.zipWith_self]
    refine List.map_congr_left fun b _ => ?_
    simp
  unfold pottsRowTerm
  rw [pottsObservablesR_eq n k r hr s x hx hsx]
  simp only [hed, hll]
  congr 2
  have hrange : pyRange 0 k = List.range k := by simp [pyRange, List.range_eq_range']
  have hsites : ((pyRange 0 n).filter fun i => decide (i ≠ r)) = otherSites n r := by
    simp [pyRange, List.range_eq_range', otherSites]
  rw [hrange, hsites, hsx]
  apply List.ext_getElem
  · simp [length_otherSites hr]
  intro a h1 h2
  rw [List.length_append, List.length_map, List.length_map, List.length_range, length_otherSites hr] at h1
  rw [List.getElem_map, List.getElem_range]
  by_cases ha : a < k
  · rw [List.getElem_append_left (by simpa using ha), List.getElem_map, List.getElem_range, hnd]
    congr 3
    refine List.map_congr_left fun b hb => ?_
    rw [sgn_field x b a (mem_otherSites.1 hb).2]
    unfold obsDiff pottsSpinObs
    rw [List.getD_append _ _ _ _ (by simpa using ha), List.getD_append _ _ _ _ (by simpa using ha),
      getD_map_range k _ 0 ha, getD_map_range k _ 0 ha]
  · rw [List.getElem_append_right (by simpa using ha), List.getElem_map, hnd]
    congr 3
    refine List.map_congr_left fun b hb => ?_
    have hlt : a - k < (otherSites n r).length := by rw [length_otherSites hr]; omega
    rw [sgn_coupling x b _ (mem_otherSites.1 hb).2]
    unfold obsDiff pottsSpinObs
    rw [List.getD_append_right _ _ _ _ (by simpa using ha),
      List.getD_append_right _ _ _ _ (by simpa using ha)]
    simp [hlt]

theorem hasDerivAt_dotDiff {n k r : ℕ} (hr : r < n) (θ : List ℝ) (s : List ℤ) (x b p : ℕ)
    (hp : p < θ.length) (y : ℝ) :
    HasDerivAt (fun t => dotDiff n k r (θ.set p t) s x b)
      (obsDiff n k r s x b ((pottsIx n k r).idxOf p)) y :=
  (hasDerivAt_dot_sel _ θ _ p (by rw [length_pottsSpinObs hr, length_pottsIx hr]) (nodup_pottsIx hr)
    hp y).sub (hasDerivAt_dot_sel _ θ _ p (by rw [length_pottsSpinObs hr, length_pottsIx hr])
      (nodup_pottsIx hr) hp y)

theorem hasDerivAt_logCond {n k r : ℕ} (hr : r < n) (θ : List ℝ) (s : List ℤ) (hs : s.length = n)
    (x : ℕ) (hx : x < k) (hsx : s.getD r 0 = (x : ℤ)) (p : ℕ) (hp : p < θ.length) :
    HasDerivAt (fun t => Real.log (condProb (vecPottsE n k (θ.set p t)) (pottsVals k) r s))
      (-(((otherSites k x).map fun b => obsDiff n k r s x b ((pottsIx n k r).idxOf p) *
            Real.exp (dotDiff n k r θ s x b)).sum /
          (((otherSites k x).map fun b => Real.exp (dotDiff n k r θ s x b)).sum + 1)))
      (θ.getD p 0) := by
  have e : (fun t => Real.log (condProb (vecPottsE n k (θ.set p t)) (pottsVals k) r s)) = fun t =>
      -Real.log (((otherSites k x).map fun b => Real.exp (dotDiff n k r (θ.set p t) s x b)).sum + 1) := by
    funext t
    rw [condProb_potts hr _ s hs x hx hsx, Real.log_inv]
  rw [e]
  have hd := hasDerivAt_list_sum (otherSites k x)
    (fun b t => Real.exp (dotDiff n k r (θ.set p t) s x b))
    (fun b => obsDiff n k r s x b ((pottsIx n k r).idxOf p) * Real.exp (dotDiff n k r θ s x b))
    (θ.getD p 0) (fun b _ => by
      refine ((hasDerivAt_dotDiff hr θ s x b p hp (θ.getD p 0)).exp).congr_deriv ?_
      rw [set_getD_self]; ring)
  have hpos : (0 : ℝ) < ((otherSites k x).map fun b => Real.exp (dotDiff n k r θ s x b)).sum + 1 := by
    have := list_sum_pos_of (otherSites k x) (fun b => Real.exp (dotDiff n k r θ s x b))
      (fun b _ => Real.exp_pos _)
    linarith
  have := ((hd.add_const 1).log (by rw [set_getD_self]; exact hpos.ne')).neg
  refine this.congr_deriv ?_
  rw [set_getD_self]

/-- One round of the Potts loop. -/
theorem pottsStep_ok {n k r : ℕ} (hr : r < n) (hk : 2 ≤ k) (θ : List ℝ)
    (hθ : θ.length = k * n + n * (n - 1) / 2) (X : Data)
    (hX : ∀ s ∈ X, s.length = n ∧ s.getD r 0 ∈ pottsVals k) (l : ℝ) (g : List ℝ)
    (hg : g.length = θ.length) :
    ∃ g', pottsStep n k X θ r (l, g) =
        .ok (l + -negCondLogLik (vecPottsE n k θ) (pottsVals k) X r, g') ∧ g'.length = θ.length ∧
      ∀ p < θ.length, ∃ d, g'.getD p 0 = g.getD p 0 + d ∧ HasDerivAt
        (fun t => negCondLogLik (vecPottsE n k (θ.set p t)) (pottsVals k) X r) (-d) (θ.getD p 0) := by
  have hx : ∀ s ∈ X, ∃ x : ℕ, x < k ∧ s.getD r 0 = (x : ℤ) := by
    intro s hs
    obtain ⟨x, hx, e⟩ := List.mem_map.1 (hX s hs).2
    exact ⟨x, List.mem_range.1 hx, e.symm⟩
  -- the contribution of a row, as a function
  obtain ⟨D, hD⟩ : ∃ D : List ℤ → ℕ → ℝ, ∀ s ∈ X,
      pottsRowTerm n k r (sel θ (pottsIx n k r)) s =
        .ok (Real.log (condProb (vecPottsE n k θ) (pottsVals k) r s),
          (List.range (k + (n - 1))).map (D s)) ∧
      ∀ p < θ.length, HasDerivAt
        (fun t => Real.log (condProb (vecPottsE n k (θ.set p t)) (pottsVals k) r s))
        (D s ((pottsIx n k r).idxOf p)) (θ.getD p 0) := by
    refine ⟨fun s a => -(((otherSites k (s.getD r 0).toNat).map fun b =>
      obsDiff n k r s (s.getD r 0).toNat b a *
        Real.exp (dotDiff n k r θ s (s.getD r 0).toNat b)).sum /
            (((otherSites k (s.getD r 0).toNat).map fun b =>
              Real.exp (dotDiff n k r θ s (s.getD r 0).toNat b)).sum + 1)), fun s hs => ?_⟩
    obtain ⟨x, hx1, hx2⟩ := hx s hs
    have : (s.getD r 0).toNat = x := by rw [hx2]; simp
    beta_reduce
    rw [this]
    exact ⟨pottsRowTerm_ok hr θ s (hX s hs).1 x hx1 hx2,
      fun p hp => hasDerivAt_logCond hr θ s (hX s hs).1 x hx1 hx2 p hp⟩
  have hrows : X.mapM (pottsRowTerm n k r (sel θ (pottsIx n k r))) =
      .ok (X.map fun s => (Real.log (condProb (vecPottsE n k θ) (pottsVals k) r s),
        (List.range (k + (n - 1))).map (D s))) :=
    mapM_ok _ _ X fun s hs => (hD s hs).1
  obtain ⟨g', e, hl, hg'⟩ := fancyAdd_ok g (pottsIx n k r)
    ((List.range (k + (n - 1))).map fun a => (X.map fun s => D s a).sum)
    (by simp [length_pottsIx hr]) (nodup_pottsIx hr)
    (fun i hi => by rw [hg, hθ]; exact pottsIx_lt hr i hi)
  refine ⟨g', ?_, by rw [hl, hg], fun p hp => ?_⟩
  · unfold pottsStep
    rw [pottsMultipliersR_sel hr (by omega) θ hθ]
    simp only
    rw [if_neg (by omega), hrows]
    simp only [List.map_map]
    have e1 : ((List.range (k + (n - 1))).map fun a => (X.map
        ((fun q : ℝ × List ℝ => q.2.getD a 0) ∘ fun s =>
          (Real.log (condProb (vecPottsE n k θ) (pottsVals k) r s),
        (List.range (k + (n - 1))).map (D s)))).sum) =
        (List.range (k + (n - 1))).map fun a => (X.map fun s => D s a).sum := by
      refine List.map_congr_left fun a ha => ?_
      congr 1
      refine List.map_congr_left fun s _ => ?_
      simp only [Function.comp]
      exact getD_map_range _ _ _ (List.mem_range.1 ha)
    rw [e1, e]
    simp only [negCondLogLik, neg_neg]
    rfl
  · refine ⟨((List.range (k + (n - 1))).map fun a => (X.map fun s => D s a).sum).getD
      ((pottsIx n k r).idxOf p) 0, hg' p (by omega), ?_⟩
    have hsum := (hasDerivAt_list_sum X _ _ (θ.getD p 0) (fun s hs => (hD s hs).2 p hp)).neg
    by_cases hpx : p ∈ pottsIx n k r
    · have hlt : (pottsIx n k r).idxOf p < k + (n - 1) := by
        rw [← length_pottsIx hr]; exact List.idxOf_lt_length_iff.2 hpx
      rw [getD_map_range _ _ _ hlt]
      exact hsum
    · rw [List.getD_eq_default _ _ (by
        rw [List.length_map, List.length_range, ← length_pottsIx hr, List.idxOf_eq_length hpx])]
      rw [neg_zero]
      have hc : (fun t => negCondLogLik (vecPottsE n k (θ.set p t)) (pottsVals k) X r) =
          fun _ => negCondLogLik (vecPottsE n k θ) (pottsVals k) X r := by
        funext t
        unfold negCondLogLik
        congr 2
        refine List.map_congr_left fun s hs => ?_
        obtain ⟨x, hx1, hx2⟩ := hx s hs
        rw [condProb_potts hr _ s (hX s hs).1 x hx1 hx2, condProb_potts hr _ s (hX s hs).1 x hx1 hx2]
        unfold dotDiff
        rw [sel_set_notMem _ _ _ _ hpx]
      rw [hc]
      exact hasDerivAt_const _ _

/-- One round of the general loop with the Ising helpers. -/
theorem generalStep_ok {n r : ℕ} (hr : r < n) (θ : List ℝ)
    (hθ : θ.length = n + n * (n - 1) / 2) (X : Data)
    (hX : ∀ s ∈ X, s.length = n ∧ (s.getD r 0 = 1 ∨ s.getD r 0 = -1)) (l : ℝ) (g : List ℝ)
    (hg : g.length = θ.length) :
    ∃ g', generalStep n X θ r (l, g) =
        .ok (l + -negCondLogLik (vecE n θ) [1, -1] X r, g') ∧ g'.length = θ.length ∧
      ∀ p < θ.length, ∃ d, g'.getD p 0 = g.getD p 0 + d ∧ HasDerivAt
        (fun t => negCondLogLik (vecE n (θ.set p t)) [1, -1] X r) d (θ.getD p 0) := by
  obtain ⟨d, e, hd, hder⟩ := isingCondTerm_ok hr θ X hX
  obtain ⟨g', e', hl, hg'⟩ := fancyAdd_ok g (spinIx n r) d (by rw [hd, length_spinIx hr])
    (nodup_spinIx hr) (fun i hi => by rw [hg, hθ]; exact spinIx_lt hr i hi)
  refine ⟨g', ?_, by rw [hl, hg], fun p hp => ⟨_, hg' p (by omega), hder p hp⟩⟩
  unfold generalStep
  rw [obsR_map hr, getMultipliersR_sel hr θ hθ]
  simp only [e, e']

/-- A loop over spins that adds one term per spin to the value and to the gradient. -/
theorem loop_terms (f : ℕ → ℝ × List ℝ → Py (ℝ × List ℝ)) (L : ℕ) (R : List ℕ) (v : ℕ → ℝ)
    (F : ℕ → ℕ → ℝ → ℝ) (c : ℝ) (y : ℕ → ℝ)
    (h : ∀ r ∈ R, ∀ (l : ℝ) (g : List ℝ), g.length = L → ∃ g', f r (l, g) = .ok (l + v r, g') ∧
      g'.length = L ∧ ∀ p < L, ∃ d, g'.getD p 0 = g.getD p 0 + d ∧
        HasDerivAt (F r p) (c * d) (y p)) :
    ∀ (l : ℝ) (g : List ℝ), g.length = L → ∃ g', R.foldlM (fun st r => f r st) (l, g) =
        .ok (l + (R.map v).sum, g') ∧ g'.length = L ∧
      ∀ p < L, ∃ d, g'.getD p 0 = g.getD p 0 + d ∧
        HasDerivAt (fun t => (R.map fun r => F r p t).sum) (c * d) (y p) := by
  induction R with
  | nil =>
    intro l g hg
    exact ⟨g, by simp [pure, Except.pure], hg, fun p _ => ⟨0, by simp, by
      simpa using hasDerivAt_const (y p) (0 : ℝ)⟩⟩
  | cons r R ih =>
    intro l g hg
    obtain ⟨g1, e1, hl1, hp1⟩ := h r (by simp) l g hg
    obtain ⟨g2, e2, hl2, hp2⟩ := ih (fun q hq => h q (List.mem_cons_of_mem _ hq)) (l + v r) g1 hl1
    refine ⟨g2, ?_, hl2, fun p hp => ?_⟩
    · rw [List.foldlM_cons, e1]
      simp only [bind, Except.bind]
      rw [e2, List.map_cons, List.sum_cons, add_assoc]
    · obtain ⟨d1, q1, D1⟩ := hp1 p hp
      obtain ⟨d2, q2, D2⟩ := hp2 p hp
      refine ⟨d1 + d2, by rw [q2, q1, add_assoc], ?_⟩
      rw [mul_add]
      simp only [List.map_cons, List.sum_cons]
      exact D1.add D2

end Verif.Lemmas
