/-
When the probability flow and the pseudolikelihood of a pairwise model have a minimum.
-/
import Verif.Lemmas.Attain

namespace Verif.Lemmas
open Verif Verif.Spec

/-! ### Probability flow -/

/-- The data with their neighbours. -/
def nbrPairs (X : List (List ℤ)) (nb : List ℤ → List (List ℤ)) : List (List ℤ × List ℤ) :=
  X.flatMap fun s => (nb s).map fun t => (s, t)

theorem mem_nbrPairs {X : List (List ℤ)} {nb : List ℤ → List (List ℤ)} {p : List ℤ × List ℤ} :
    p ∈ nbrPairs X nb ↔ p.1 ∈ X ∧ p.2 ∈ nb p.1 := by
  unfold nbrPairs
  rw [List.mem_flatMap]
  constructor
  · rintro ⟨s, hs, h⟩
    obtain ⟨t, ht, rfl⟩ := List.mem_map.1 h
    exact ⟨hs, ht⟩
  · rintro ⟨h1, h2⟩
    exact ⟨p.1, h1, List.mem_map.2 ⟨p.2, h2, rfl⟩⟩

theorem probFlow_pairs (X : List (List ℤ)) (nb : List ℤ → List (List ℤ)) (E : List ℤ → ℝ) :
    probFlow X nb E = ((nbrPairs X nb).map fun p => Real.exp ((E p.1 - E p.2) / 2)).sum / X.length := by
  unfold probFlow nbrPairs
  congr 1
  rw [List.map_flatMap, List.flatMap_def, List.sum_flatten, List.map_map]
  congr 1
  refine List.map_congr_left fun s _ => ?_
  simp [Function.comp_def]

theorem flow_cross (n : ℕ) (X : List (List ℤ)) (nb : List ℤ → List (List ℤ)) (v : Fin (n + n * (n - 1) / 2) → ℝ) :
    partition (nbrPairs X nb) (diffLin n (1 / 2) v) = X.length * probFlow X nb (pairE n (List.ofFn v)) := by
  rcases X with _ | ⟨s, X⟩
  · simp [partition, nbrPairs]
  rw [probFlow_pairs, mul_div_cancel₀ _ (by simp; positivity)]
  unfold partition
  refine list_sum_congr fun p _ => ?_
  rw [diffLin_apply]
  congr 1
  ring

theorem flow_le_iff (n : ℕ) (X : List (List ℤ)) (nb : List ℤ → List (List ℤ)) (hne : nbrPairs X nb ≠ [])
    (v w : Fin (n + n * (n - 1) / 2) → ℝ) :
    crossLin (nbrPairs X nb) (diffLin n (1 / 2)) 0 v ≤ crossLin (nbrPairs X nb) (diffLin n (1 / 2)) 0 w ↔
      probFlow X nb (pairE n (List.ofFn v)) ≤ probFlow X nb (pairE n (List.ofFn w)) := by
  have hX : X ≠ [] := by
    rintro rfl
    exact hne rfl
  have hl : (0 : ℝ) < X.length := by exact_mod_cast List.length_pos_of_ne_nil hX
  unfold crossLin
  show (0 : ℝ) + _ ≤ 0 + _ ↔ _
  rw [zero_add, zero_add, Real.log_le_log_iff (partition_pos _ _ hne) (partition_pos _ _ hne), flow_cross, flow_cross]
  exact ⟨fun h => le_of_mul_le_mul_left h hl, fun h => mul_le_mul_of_nonneg_left h hl.le⟩

/-- The flow has a minimum exactly if no energy function lets all data be stable without being flat. -/
theorem flow_attained_iff (n : ℕ) (X : List (List ℤ)) (nb : List ℤ → List (List ℤ)) (hne : nbrPairs X nb ≠ []) :
    (∃ θ : List ℝ, θ.length = n + n * (n - 1) / 2 ∧ ∀ θ' : List ℝ, θ'.length = n + n * (n - 1) / 2 →
      probFlow X nb (pairE n θ) ≤ probFlow X nb (pairE n θ')) ↔
    ∀ w : List ℝ, w.length = n + n * (n - 1) / 2 → (∀ s ∈ X, ∀ t ∈ nb s, pairE n w s ≤ pairE n w t) →
      ∀ s ∈ X, ∀ t ∈ nb s, pairE n w s = pairE n w t := by
  have key := crossLin_attained_iff (nbrPairs X nb) hne (diffLin n (1 / 2)) 0
  have h1 : (∃ θ : List ℝ, θ.length = n + n * (n - 1) / 2 ∧ ∀ θ' : List ℝ, θ'.length = n + n * (n - 1) / 2 →
      probFlow X nb (pairE n θ) ≤ probFlow X nb (pairE n θ')) ↔
      ∃ v, ∀ w, crossLin (nbrPairs X nb) (diffLin n (1 / 2)) 0 v ≤ crossLin (nbrPairs X nb) (diffLin n (1 / 2)) 0 w := by
    rw [exists_ofFn]
    refine exists_congr fun v => ?_
    rw [forall_ofFn]
    exact forall_congr' fun w => (flow_le_iff n X nb hne v w).symm
  rw [h1, key, forall_ofFn]
  refine forall_congr' fun w => ?_
  simp only [LinearMap.zero_apply, diffLin_apply, mem_nbrPairs]
  refine imp_congr ⟨fun h s hs t ht => ?_, fun h p hp => ?_⟩ ⟨fun h s hs t ht => ?_, fun h p hp => ?_⟩
  · linarith [h (s, t) ⟨hs, ht⟩]
  · linarith [h p.1 hp.1 p.2 hp.2]
  · linarith [h (s, t) ⟨hs, ht⟩]
  · rw [h p.1 hp.1 p.2 hp.2]
    ring

theorem sub_ofFn {m : ℕ} (v w : Fin m → ℝ) :
    List.zipWith (fun a b : ℝ => a - b) (List.ofFn v) (List.ofFn w) = List.ofFn (v - w) := by
  refine List.ext_getElem (by simp) fun i h1 h2 => ?_
  simp

/-- Two minima of the flow have the same energy differences at the data. -/
theorem flow_minima (n : ℕ) (X : List (List ℤ)) (nb : List ℤ → List (List ℤ)) (hne : nbrPairs X nb ≠ [])
    (v w : Fin (n + n * (n - 1) / 2) → ℝ)
    (hv : ∀ u : Fin (n + n * (n - 1) / 2) → ℝ, probFlow X nb (pairE n (List.ofFn v)) ≤ probFlow X nb (pairE n (List.ofFn u)))
    (hw : probFlow X nb (pairE n (List.ofFn w)) ≤ probFlow X nb (pairE n (List.ofFn v))) :
    ∀ s ∈ X, ∀ t ∈ nb s, pairE n (List.ofFn (w - v)) s = pairE n (List.ofFn (w - v)) t := by
  have := crossLin_minima (nbrPairs X nb) hne (diffLin n (1 / 2)) 0 v (w - v)
    (fun u => (flow_le_iff n X nb hne v u).2 (hv u)) (by
      rw [add_sub_cancel]
      exact (flow_le_iff n X nb hne w v).2 hw)
  intro s hs t ht
  have h := this (s, t) (mem_nbrPairs.2 ⟨hs, ht⟩)
  rw [diffLin_apply, LinearMap.zero_apply] at h
  linarith

/-! ### Pseudolikelihood -/

theorem condProb_pm (E : List ℤ → ℝ) (s : List ℤ) (r : ℕ) (hr : r < s.length) (h : s.getD r 0 = 1 ∨ s.getD r 0 = -1) :
    Real.log (condProb E [1, -1] r s) = -Real.log (1 + Real.exp (-(E (s.set r (-s.getD r 0)) - E s))) := by
  have hset : s.set r (s.getD r 0) = s := by
    rw [List.getD_eq_getElem _ _ hr]
    exact List.set_getElem_self hr
  have hsum : (([1, -1] : List ℤ).map fun v => Real.exp (-E (s.set r v))).sum =
      Real.exp (-E s) * (1 + Real.exp (-(E (s.set r (-s.getD r 0)) - E s))) := by
    rw [mul_add, mul_one, ← Real.exp_add]
    rcases h with h | h
    · rw [h] at hset ⊢
      simp only [List.map_cons, List.map_nil, List.sum_cons, List.sum_nil, hset]
      rw [show -E s + -(E (s.set r (-1)) - E s) = -E (s.set r (-1)) by ring]
      ring
    · rw [h] at hset ⊢
      simp only [List.map_cons, List.map_nil, List.sum_cons, List.sum_nil, hset, neg_neg]
      rw [show -E s + -(E (s.set r 1) - E s) = -E (s.set r 1) by ring]
      ring
  unfold condProb
  rw [hsum, ← Real.log_inv]
  congr 1
  have := (Real.exp_pos (-E s)).ne'
  have : (1 + Real.exp (-(E (s.set r (-s.getD r 0)) - E s))) ≠ 0 := by positivity
  field_simp

/-- The data with their flips at the sites `R`. -/
def sitePairs (X : List (List ℤ)) (R : List ℕ) : List (List ℤ × List ℤ) :=
  R.flatMap fun r => X.map fun s => (s, s.set r (-s.getD r 0))

theorem mem_sitePairs {X : List (List ℤ)} {R : List ℕ} {p : List ℤ × List ℤ} :
    p ∈ sitePairs X R ↔ p.1 ∈ X ∧ ∃ r ∈ R, p.2 = p.1.set r (-p.1.getD r 0) := by
  unfold sitePairs
  rw [List.mem_flatMap]
  constructor
  · rintro ⟨r, hr, h⟩
    obtain ⟨s, hs, rfl⟩ := List.mem_map.1 h
    exact ⟨hs, r, hr, rfl⟩
  · rintro ⟨h1, r, hr, h2⟩
    exact ⟨r, hr, List.mem_map.2 ⟨p.1, h1, by rw [← h2]⟩⟩

theorem pseudo_cross (n : ℕ) (X : List (List ℤ)) (R : List ℕ)
    (hX : ∀ r ∈ R, ∀ s ∈ X, r < s.length ∧ (s.getD r 0 = 1 ∨ s.getD r 0 = -1)) (v : Fin (n + n * (n - 1) / 2) → ℝ) :
    (R.map fun r => negCondLogLik (pairE n (List.ofFn v)) [1, -1] X r).sum =
      crossLin (sitePairs X R).sublists' (sumLin (diffLin n 1)) 0 v := by
  rw [← sum_log_eq]
  unfold sitePairs
  rw [List.map_flatMap, List.flatMap_def, List.sum_flatten, List.map_map]
  congr 1
  refine List.map_congr_left fun r hr => ?_
  unfold negCondLogLik
  rw [← list_sum_neg]
  simp only [Function.comp, List.map_map]
  refine list_sum_congr fun s hs => ?_
  simp only [Function.comp]
  rw [condProb_pm _ s r (hX r hr s hs).1 (hX r hr s hs).2, neg_neg, diffLin_apply, one_mul]

/-- The pseudolikelihood of the sites `R` has a maximum exactly if no energy function makes all data stable against
flips at these sites without being flat. -/
theorem pseudo_attained_iff (n : ℕ) (X : List (List ℤ)) (R : List ℕ)
    (hX : ∀ r ∈ R, ∀ s ∈ X, r < s.length ∧ (s.getD r 0 = 1 ∨ s.getD r 0 = -1)) :
    (∃ θ : List ℝ, θ.length = n + n * (n - 1) / 2 ∧ ∀ θ' : List ℝ, θ'.length = n + n * (n - 1) / 2 →
      (R.map fun r => negCondLogLik (pairE n θ) [1, -1] X r).sum ≤
        (R.map fun r => negCondLogLik (pairE n θ') [1, -1] X r).sum) ↔
    ∀ w : List ℝ, w.length = n + n * (n - 1) / 2 →
      (∀ s ∈ X, ∀ r ∈ R, pairE n w s ≤ pairE n w (s.set r (-s.getD r 0))) →
      ∀ s ∈ X, ∀ r ∈ R, pairE n w s = pairE n w (s.set r (-s.getD r 0)) := by
  have key := crossLin_attained_iff (sitePairs X R).sublists' (sublists_ne _) (sumLin (diffLin n 1)) 0
  have h1 : (∃ θ : List ℝ, θ.length = n + n * (n - 1) / 2 ∧ ∀ θ' : List ℝ, θ'.length = n + n * (n - 1) / 2 →
      (R.map fun r => negCondLogLik (pairE n θ) [1, -1] X r).sum ≤
        (R.map fun r => negCondLogLik (pairE n θ') [1, -1] X r).sum) ↔
      ∃ v, ∀ w, crossLin (sitePairs X R).sublists' (sumLin (diffLin n 1)) 0 v ≤
        crossLin (sitePairs X R).sublists' (sumLin (diffLin n 1)) 0 w := by
    rw [exists_ofFn]
    refine exists_congr fun v => ?_
    rw [forall_ofFn]
    refine forall_congr' fun w => ?_
    rw [pseudo_cross n X R hX, pseudo_cross n X R hX]
  rw [h1, key, forall_ofFn]
  refine forall_congr' fun w => ?_
  obtain ⟨e1, e2⟩ := sumLin_iff (sitePairs X R) (diffLin n 1) w
  simp only [LinearMap.zero_apply]
  rw [e1, e2]
  simp only [diffLin_apply, mem_sitePairs]
  refine imp_congr ⟨fun h s hs r hr => ?_, fun h p hp => ?_⟩ ⟨fun h s hs r hr => ?_, fun h p hp => ?_⟩
  · linarith [h (s, s.set r (-s.getD r 0)) ⟨hs, r, hr, rfl⟩]
  · obtain ⟨hp, r, hr, e⟩ := hp
    rw [e]
    linarith [h p.1 hp r hr]
  · linarith [h (s, s.set r (-s.getD r 0)) ⟨hs, r, hr, rfl⟩]
  · obtain ⟨hp, r, hr, e⟩ := hp
    rw [e, ← h p.1 hp r hr]
    ring

theorem pseudo_minima (n : ℕ) (X : List (List ℤ)) (R : List ℕ)
    (hX : ∀ r ∈ R, ∀ s ∈ X, r < s.length ∧ (s.getD r 0 = 1 ∨ s.getD r 0 = -1)) (v w : Fin (n + n * (n - 1) / 2) → ℝ)
    (hv : ∀ u : Fin (n + n * (n - 1) / 2) → ℝ, (R.map fun r => negCondLogLik (pairE n (List.ofFn v)) [1, -1] X r).sum ≤
      (R.map fun r => negCondLogLik (pairE n (List.ofFn u)) [1, -1] X r).sum)
    (hw : (R.map fun r => negCondLogLik (pairE n (List.ofFn w)) [1, -1] X r).sum ≤
      (R.map fun r => negCondLogLik (pairE n (List.ofFn v)) [1, -1] X r).sum) :
    ∀ s ∈ X, ∀ r ∈ R, pairE n (List.ofFn (w - v)) s = pairE n (List.ofFn (w - v)) (s.set r (-s.getD r 0)) := by
  have := crossLin_minima (sitePairs X R).sublists' (sublists_ne _) (sumLin (diffLin n 1)) 0 v (w - v)
    (fun u => by rw [← pseudo_cross n X R hX, ← pseudo_cross n X R hX]; exact hv u) (by
      rw [add_sub_cancel, ← pseudo_cross n X R hX, ← pseudo_cross n X R hX]
      exact hw)
  simp only [LinearMap.zero_apply] at this
  rw [(sumLin_iff _ _ _).2] at this
  intro s hs r hr
  have h := this (s, s.set r (-s.getD r 0)) (mem_sitePairs.2 ⟨hs, r, hr, rfl⟩)
  rw [diffLin_apply] at h
  linarith

/-! ### Energies that no flip changes -/

/-- An energy function that is flat under all flips is constant. -/
theorem flat_const (n : ℕ) (E : List ℤ → ℝ)
    (h : ∀ s ∈ words [-1, 1] n, ∀ r < n, E s = E (s.set r (-s.getD r 0))) (s : List ℤ) (hs : s ∈ words [-1, 1] n) :
    E s = E (List.replicate n 1) := by
  have hlen := (mem_words.1 hs).1
  have key : ∀ k ≤ n, E s = E (List.replicate k 1 ++ s.drop k) ∧ List.replicate k 1 ++ s.drop k ∈ words [-1, 1] n := by
    intro k
    induction k with
    | zero => intro _; simpa using hs
    | succ k ih =>
      intro hk
      obtain ⟨e, hw⟩ := ih (by omega)
      have hkl : k < s.length := by omega
      have hget : (List.replicate k 1 ++ s.drop k).getD k 0 = s[k] := by
        rw [List.getD_append_right _ _ _ _ (by simp)]
        simp [hkl]
      have hset : ∀ x : ℤ, (List.replicate k 1 ++ s.drop k).set k x = List.replicate k 1 ++ x :: s.drop (k + 1) := by
        intro x
        rw [List.set_append_right _ _ (by simp), List.length_replicate, Nat.sub_self, List.drop_eq_getElem_cons hkl]
        rfl
      have hnew : List.replicate (k + 1) (1 : ℤ) ++ s.drop (k + 1) = List.replicate k 1 ++ 1 :: s.drop (k + 1) := by
        rw [List.replicate_succ', List.append_assoc]
        rfl
      have hmem : List.replicate (k + 1) (1 : ℤ) ++ s.drop (k + 1) ∈ words [-1, 1] n := by
        refine mem_words.2 ⟨by simp; omega, fun x hx => ?_⟩
        rcases List.mem_append.1 hx with hx | hx
        · rw [List.eq_of_mem_replicate hx]; simp
        · exact (mem_words.1 hs).2 x (List.mem_of_mem_drop hx)
      refine ⟨?_, hmem⟩
      have hx := (mem_words.1 hs).2 s[k] (List.getElem_mem hkl)
      simp only [List.mem_cons, List.not_mem_nil, or_false] at hx
      rcases hx with hx | hx
      · have := h _ hw k (by omega)
        rw [hget, hset, hx] at this
        rw [e, this, hnew]
        rfl
      · rw [e, hnew, ← hset 1]
        congr 1
        rw [hset, ← hx, ← List.drop_eq_getElem_cons hkl]
  have := (key n le_rfl).1
  rwa [List.drop_of_length_le (by omega), List.append_nil] at this

/-- Only zero parameters are flat under all flips. -/
theorem flat_zero (n : ℕ) (w : List ℝ) (hw : w.length = n + n * (n - 1) / 2)
    (h : ∀ s ∈ words [-1, 1] n, ∀ r < n, pairE n w s = pairE n w (s.set r (-s.getD r 0))) : ∀ x ∈ w, x = 0 := by
  refine orders_independent n 2 true w ?_ ⟨-pairE n w (List.replicate n 1), fun s hs => ?_⟩
  · rw [hw, ← List.length_map (f := fun t => mono (fun _ => (0 : ℝ)) t), orders_pairObs]
    simp [pairObs, length_upperPairs]
  · rw [orders_pairObs, ← flat_const n (pairE n w) h s hs, pairE_dot n w hw, neg_neg]

end Verif.Lemmas
