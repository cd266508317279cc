/-
Pairwise models of which only some parameters may differ from zero.
-/
import Verif.Model.SparseObj
import Verif.Spec.Sparse
import Verif.Props.EnumerateObj

namespace Verif.Lemmas
open Verif Verif.Model Verif.Spec Verif.Props

theorem mem_uniqueIx {l : List ℕ} {q : ℕ} : q ∈ uniqueIx l ↔ q ∈ l := by
  simp [uniqueIx]

theorem uniqueIx_sorted (l : List ℕ) : (uniqueIx l).Pairwise (· < ·) := by
  have h1 : (uniqueIx l).Pairwise (· ≤ ·) := by
    refine List.Pairwise.sublist (List.dedup_sublist _) ?_
    have := List.pairwise_mergeSort (le := fun a b : ℕ => decide (a ≤ b)) (fun a b c h1 h2 => by simp at *; omega)
      (fun a b => by simp; omega) l
    simpa using this
  have h2 : (uniqueIx l).Nodup := List.nodup_dedup _
  exact (h1.and h2).imp fun h => lt_of_le_of_ne h.1 h.2

/-- The full vector. -/
noncomputable def fillVec (N : ℕ) (ix : List ℕ) (x : List ℝ) : List ℝ :=
  (List.range N).map fun q => if q ∈ ix then x.getD (ix.idxOf q) 0 else 0

theorem length_fillVec (N : ℕ) (ix : List ℕ) (x : List ℝ) : (fillVec N ix x).length = N := by
  simp [fillVec]

theorem fillVec_getD (N : ℕ) (ix : List ℕ) (x : List ℝ) (q : ℕ) :
    (fillVec N ix x).getD q 0 = if q < N ∧ q ∈ ix then x.getD (ix.idxOf q) 0 else 0 := by
  unfold fillVec
  by_cases h : q < N
  · rw [List.getD_eq_getElem _ _ (by simpa using h)]
    simp [h]
  · rw [List.getD_eq_default _ _ (by simpa using h), if_neg (fun hc => h hc.1)]

theorem fillVec_fills (N : ℕ) (ix : List ℕ) (hs : ix.Pairwise (· < ·)) (hN : ∀ p ∈ ix, p < N) (x : List ℝ) :
    FillsIn N ix x (fillVec N ix x) := by
  refine ⟨⟨length_fillVec _ _ _, fun q hq => ?_⟩, fun j hj => ?_⟩
  · rw [fillVec_getD, if_neg fun h => hq h.2]
  · have hnd : ix.Nodup := hs.imp fun h => ne_of_lt h
    rw [fillVec_getD, List.getD_eq_getElem _ _ hj, if_pos ⟨hN _ (List.getElem_mem hj), List.getElem_mem hj⟩,
      hnd.idxOf_getElem]

theorem zeroOff_eq (N : ℕ) (ix : List ℕ) (w : List ℝ) (h : ZeroOff N ix w) :
    w = fillVec N ix (ix.map fun q => w.getD q 0) := by
  refine List.ext_getElem (by rw [h.1, length_fillVec]) fun q h1 h2 => ?_
  have e1 : w[q] = w.getD q 0 := (List.getD_eq_getElem _ _ h1).symm
  have e2 : (fillVec N ix (ix.map fun q => w.getD q 0))[q] = (fillVec N ix (ix.map fun q => w.getD q 0)).getD q 0 :=
    (List.getD_eq_getElem _ _ h2).symm
  rw [e1, e2, fillVec_getD]
  by_cases hq : q ∈ ix
  · rw [if_pos ⟨h.1 ▸ h1, hq⟩]
    have hi : ix.idxOf q < ix.length := List.idxOf_lt_length_iff.2 hq
    rw [List.getD_eq_getElem (ix.map fun q => w.getD q 0) 0 (n := ix.idxOf q) (by rw [List.length_map]; exact hi),
      List.getElem_map, List.getElem_idxOf hi]
  · rw [if_neg fun hc => hq hc.2, h.2 q hq]

theorem fills_eq {N : ℕ} {ix : List ℕ} {x w : List ℝ} (hx : x.length = ix.length) (h : FillsIn N ix x w) :
    w = fillVec N ix x := by
  have : (ix.map fun q => w.getD q 0) = x := by
    refine List.ext_getElem (by rw [List.length_map, hx]) fun j h1 h2 => ?_
    rw [List.getElem_map]
    have := h.2 j (hx ▸ h2)
    rw [List.getD_eq_getElem _ _ (hx ▸ h2 : j < ix.length), List.getD_eq_getElem _ _ h2] at this
    exact this
  have h2 := zeroOff_eq N ix w h.1
  rwa [this] at h2

theorem fillVec_inj {N : ℕ} {ix : List ℕ} (hs : ix.Pairwise (· < ·)) (hN : ∀ p ∈ ix, p < N) {x y : List ℝ}
    (hx : x.length = ix.length) (hy : y.length = ix.length) (h : fillVec N ix x = fillVec N ix y) : x = y := by
  refine List.ext_getElem (by rw [hx, hy]) fun j h1 h2 => ?_
  have e1 := (fillVec_fills N ix hs hN x).2 j (hx ▸ h1)
  have e2 := (fillVec_fills N ix hs hN y).2 j (hx ▸ h1)
  rw [h, e2, List.getD_eq_getElem _ _ h1, List.getD_eq_getElem _ _ h2] at e1
  exact e1.symm

theorem dot_getD (N : ℕ) (a b : List ℝ) (ha : a.length = N) (hb : b.length = N) :
    dot a b = ((List.range N).map fun q => a.getD q 0 * b.getD q 0).sum := by
  have e : ∀ c : List ℝ, c.length = N → c = (List.range N).map fun q => c.getD q 0 := by
    intro c hc
    refine List.ext_getElem (by simp [hc]) fun i h1 h2 => ?_
    simp [List.getD_eq_getElem?_getD, h1]
  conv_lhs => rw [e a ha, e b hb]
  rw [dot_maps]

theorem dot_fillVec (N : ℕ) (ix : List ℕ) (hs : ix.Pairwise (· < ·)) (hN : ∀ p ∈ ix, p < N) (x : List ℝ)
    (hx : x.length = ix.length) (b : List ℝ) (hb : b.length = N) :
    dot (fillVec N ix x) b = dot x (ix.map fun q => b.getD q 0) := by
  have hnd : ix.Nodup := hs.imp fun h => ne_of_lt h
  have hx' : x = ix.map fun q => x.getD (ix.idxOf q) 0 := by
    refine List.ext_getElem (by simp [hx]) fun j h1 h2 => ?_
    rw [List.getElem_map, hnd.idxOf_getElem, List.getD_eq_getElem _ _ h1]
  rw [dot_getD N _ b (length_fillVec _ _ _) hb]
  conv_rhs => rw [hx']
  rw [dot_maps]
  rw [← List.sum_toFinset _ List.nodup_range, ← List.sum_toFinset _ hnd]
  symm
  refine Finset.sum_subset_zero_on_sdiff (fun q hq => ?_) (fun q hq => ?_) fun q hq => ?_
  · rw [List.mem_toFinset] at hq ⊢
    exact List.mem_range.2 (hN q hq)
  · rw [Finset.mem_sdiff, List.mem_toFinset, List.mem_toFinset] at hq
    rw [fillVec_getD, if_neg fun h => hq.2 h.2, zero_mul]
  · rw [List.mem_toFinset] at hq
    rw [fillVec_getD, if_pos ⟨hN q hq, hq⟩]

theorem length_pairObs' (n : ℕ) (s : List ℤ) : (pairObs n (spins s) : List ℝ).length = n + n * (n - 1) / 2 := by
  rw [← pairFns_map, List.length_map, length_pairFns]

/-- The energy of the full vector in the selected observables. -/
theorem pairE_fill (n : ℕ) (ix : List ℕ) (hs : ix.Pairwise (· < ·)) (hN : ∀ p ∈ ix, p < n + n * (n - 1) / 2) (x : List ℝ)
    (hx : x.length = ix.length) :
    pairE n (fillVec (n + n * (n - 1) / 2) ix x) = fun s => -dot x (ix.map fun q => paramObs n q s) := by
  funext s
  rw [pairE_dot n _ (length_fillVec _ _ _), dot_fillVec _ ix hs hN x hx _ (length_pairObs' n s)]
  rfl

theorem param_independent (n : ℕ) (ix : List ℕ) (hs : ix.Pairwise (· < ·)) (hN : ∀ p ∈ ix, p < n + n * (n - 1) / 2)
    (θ : List ℝ) (hθ : θ.length = ix.length)
    (hk : ∃ k, ∀ s ∈ words ([-1, 1] : List ℤ) n, dot θ (ix.map fun q => paramObs n q s) = k) : ∀ x ∈ θ, x = 0 := by
  obtain ⟨k, hk⟩ := hk
  have h0 := orders_independent n 2 true (fillVec (n + n * (n - 1) / 2) ix θ)
    (by rw [length_fillVec]; exact (length_pairTuples n).symm) ⟨k, fun s hs' => by
      rw [orders_pairObs, dot_fillVec _ ix hs hN θ hθ _ (length_pairObs' n s)]
      exact hk s hs'⟩
  intro x hx
  obtain ⟨j, hj, rfl⟩ := List.getElem_of_mem hx
  have e := (fillVec_fills _ ix hs hN θ).2 j (hθ ▸ hj)
  rw [List.getD_eq_getElem _ _ hj] at e
  rw [← e]
  have hlt : ix.getD j 0 < (fillVec (n + n * (n - 1) / 2) ix θ).length := by
    rw [length_fillVec, List.getD_eq_getElem _ _ (hθ ▸ hj : j < ix.length)]
    exact hN _ (List.getElem_mem _)
  rw [List.getD_eq_getElem _ _ hlt]
  exact h0 _ (List.getElem_mem hlt)

theorem length_momentsAt (n : ℕ) (ix : List ℕ) (X : List (List ℤ)) : (momentsAt n ix X).length = ix.length := by
  simp [momentsAt]

theorem meetsAt_iff (n : ℕ) (ix : List ℕ) (w c : List ℝ) (hc : c.length = ix.length) :
    MeetsAt n ix w c ↔ (ix.map fun q => expect (words [-1, 1] n) (pairE n w) (paramObs n q)) = c := by
  constructor
  · intro h
    refine List.ext_getElem (by simp [hc]) fun j h1 h2 => ?_
    have := h j (hc ▸ h2)
    rw [List.getD_eq_getElem _ _ (hc ▸ h2 : j < ix.length), List.getD_eq_getElem _ _ h2] at this
    rw [List.getElem_map, this]
  · intro h j hj
    rw [← h, List.getD_eq_getElem _ _ hj, List.getD_eq_getElem _ _ (by simpa using hj), List.getElem_map]

theorem dot_momentsAt (n : ℕ) (ix : List ℕ) (X : List (List ℤ)) (w : List ℝ) :
    dot w (momentsAt n ix X) = avg X fun r => dot w (ix.map fun q => paramObs n q r) := by
  have := avg_dot X w (ix.map fun q => paramObs n q)
  simpa [momentsAt, Function.comp_def] using this

theorem logLik_fill (n : ℕ) (ix : List ℕ) (hs : ix.Pairwise (· < ·)) (hN : ∀ p ∈ ix, p < n + n * (n - 1) / 2) (x : List ℝ)
    (hx : x.length = ix.length) (X : List (List ℤ)) (hX : X ≠ []) :
    logLik n (fillVec (n + n * (n - 1) / 2) ix x) X = X.length * (dot x (momentsAt n ix X) -
      Real.log (partition (words [-1, 1] n) fun s => -dot x (ix.map fun q => paramObs n q s))) := by
  rw [logLik_eq n _ (length_fillVec _ _ _) X hX, pairE_fill n ix hs hN x hx,
    dot_fillVec _ ix hs hN x hx _ (length_moments n X)]
  congr 3
  unfold momentsAt
  refine List.map_congr_left fun q hq => ?_
  rw [← pairFns_moments]
  have hl : q < (pairFns n).length := by rw [length_pairFns]; exact hN q hq
  rw [List.getD_eq_getElem _ _ (by simpa using hl), List.getElem_map]
  congr 1
  funext s
  unfold paramObs
  rw [← pairFns_map, List.getD_eq_getElem _ _ (by simpa using hl), List.getElem_map]

/-- In an exponential family the vector with the given moments has the greatest value of the log likelihood, and no other
vector has it. -/
theorem family_strict {α β : Type*} (S : List α) (hS : S ≠ []) (O : List β) (f : β → α → ℝ) (c : List ℝ)
    (hid : ∀ θ : List ℝ, θ.length = O.length → (∃ k, ∀ s ∈ S, dot θ (O.map fun t => f t s) = k) → ∀ x ∈ θ, x = 0)
    (θ : List ℝ) (hθ : θ.length = O.length)
    (hm : (O.map fun t => expect S (fun s => -dot θ (O.map fun t => f t s)) (f t)) = c) (w : List ℝ)
    (hw : w.length = O.length) (hne : w ≠ θ) :
    dot w c - Real.log (partition S fun s => -dot w (O.map fun t => f t s)) <
      dot θ c - Real.log (partition S fun s => -dot θ (O.map fun t => f t s)) := by
  obtain ⟨E, hE⟩ : ∃ E : List ℝ → α → ℝ, E = fun v s => -dot v (O.map fun t => f t s) := ⟨_, rfl⟩
  have hd := isDist_boltzmann S (E θ) hS
  have key : ∀ u : List ℝ, dot u c - Real.log (partition S (E u)) =
      (S.map fun s => boltzmann S (E θ) s * Real.log (boltzmann S (E u) s)).sum := by
    intro u
    have := cross_entropy S (E u) (boltzmann S (E θ)) hS hd.2
    have hmean : mean S (boltzmann S (E θ)) (E u) = -dot u c := by
      conv_lhs => rw [show E u = fun s => -dot u (O.map fun t => f t s) by rw [hE]]
      rw [mean_neg, mean_dot S _ u O f, ← hm, hE]
      rfl
    rw [hmean] at this
    linarith
  have kw := key w
  have kθ := key θ
  rw [hE] at kw kθ
  rw [kw, kθ]
  rw [← hE]
  have hterm : ∀ s ∈ S, 0 ≤ boltzmann S (E θ) s * Real.log (boltzmann S (E θ) s) -
      boltzmann S (E θ) s * Real.log (boltzmann S (E w) s) - boltzmann S (E θ) s + boltzmann S (E w) s := fun s _ =>
    (gibbs_term _ _ (boltzmann_pos S _ hS s).le (boltzmann_pos S _ hS s)).1
  have hsum : (S.map fun s => boltzmann S (E θ) s * Real.log (boltzmann S (E θ) s) -
      boltzmann S (E θ) s * Real.log (boltzmann S (E w) s) - boltzmann S (E θ) s + boltzmann S (E w) s).sum =
      (S.map fun s => boltzmann S (E θ) s * Real.log (boltzmann S (E θ) s)).sum -
      (S.map fun s => boltzmann S (E θ) s * Real.log (boltzmann S (E w) s)).sum := by
    rw [list_sum_add, list_sum_sub, list_sum_sub, sum_boltzmann S _ hS, sum_boltzmann S _ hS]
    ring
  have hnn := List.sum_nonneg (l := S.map fun s => boltzmann S (E θ) s * Real.log (boltzmann S (E θ) s) -
      boltzmann S (E θ) s * Real.log (boltzmann S (E w) s) - boltzmann S (E θ) s + boltzmann S (E w) s) fun y hy => by
    obtain ⟨s, hs, rfl⟩ := List.mem_map.1 hy
    exact hterm s hs
  rcases hnn.lt_or_eq with hlt | heq
  · linarith
  · exfalso
    apply hne
    have hz := eq_of_sum_zero S _ hterm heq.symm
    have hp : ∀ s ∈ S, boltzmann S (E θ) s = boltzmann S (E w) s := fun s hs =>
      (gibbs_term _ _ (boltzmann_pos S _ hS s).le (boltzmann_pos S _ hS s)).2 (hz s hs)
    have hlen : (List.zipWith (· - ·) w θ).length = O.length := by simp [hw, hθ]
    have h0 := hid (List.zipWith (· - ·) w θ) hlen
      ⟨Real.log (partition S (E w)) - Real.log (partition S (E θ)), fun s hs => by
        have h1 := congrArg Real.log (hp s hs)
        rw [log_boltzmann S _ hS, log_boltzmann S _ hS] at h1
        rw [dot_sub_left w θ _ (by rw [hw, hθ])]
        have e1 : E w s = -dot w (O.map fun t => f t s) := by rw [hE]
        have e2 : E θ s = -dot θ (O.map fun t => f t s) := by rw [hE]
        linarith⟩
    refine List.ext_getElem (by rw [hw, hθ]) fun j h1 h2 => ?_
    have hj : j < (List.zipWith (· - ·) w θ).length := by rw [hlen, ← hw]; exact h1
    have := h0 _ (List.getElem_mem hj)
    rw [List.getElem_zipWith] at this
    linarith

end Verif.Lemmas
