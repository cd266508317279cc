/-
The frequencies of a sample as co-occurrences, and the two-spin formulas.
-/
import Verif.Lemmas.Cluster6
import Verif.Lemmas.EnumerateWrap

namespace Verif.Lemmas
open Verif Verif.Model Verif.Spec Verif.Props

/-- The spins of `A` that are 1 in a row. -/
def upSpins (A : Finset ℕ) (r : List ℤ) : Finset ℕ := A.filter fun i => r.getD i 0 = 1

theorem sum_list_finset {α β : Type*} (l : List α) (B : Finset β) (f : α → β → ℝ) :
    ∑ X ∈ B, (l.map fun r => f r X).sum = (l.map fun r => ∑ X ∈ B, f r X).sum := by
  induction l with
  | nil => simp
  | cons a l ih => simp only [List.map_cons, List.sum_cons, Finset.sum_add_distrib, ih]

/-- If every state of the spins `A` occurs in a sample of ±1 states, some pairwise model on `A` has the
co-occurrences of the sample. -/
theorem sample_fits (sample : List (List ℤ)) (A : Finset ℕ)
    (hpm : ∀ r ∈ sample, ∀ i ∈ A, r.getD i 0 = 1 ∨ r.getD i 0 = -1)
    (hall : ∀ X ⊆ A, ∃ r ∈ sample, upSpins A r = X) :
    ∃ J, Fits A (fun i j => avg sample fun r => ((r.getD i 0 : ℤ) + 1 : ℝ) / 2 * (((r.getD j 0 : ℤ) + 1) / 2))
      J := by
  have hne : sample ≠ [] := by
    obtain ⟨r, hr, -⟩ := hall ∅ (by simp)
    exact List.ne_nil_of_mem hr
  have hN : (0 : ℝ) < sample.length := by exact_mod_cast List.length_pos_iff.2 hne
  have hmarg : ∀ P : Finset ℕ → Prop, ∀ _ : DecidablePred P, ∑ X ∈ A.powerset with P X,
      avg sample (fun r => if upSpins A r = X then (1 : ℝ) else 0) =
        avg sample fun r => if P (upSpins A r) then 1 else 0 := by
    intro P _
    unfold avg
    rw [← Finset.sum_div, sum_list_finset]
    congr 2
    refine List.map_congr_left fun r _ => ?_
    rw [Finset.sum_filter]
    rw [Finset.sum_eq_single (upSpins A r)]
    · simp
    · intro X _ hX
      have h0 : ¬ upSpins A r = X := fun h => hX h.symm
      simp [h0]
    · intro h
      exact absurd (Finset.mem_powerset.2 (Finset.filter_subset _ _)) h
  obtain ⟨J, hJ⟩ := exists_fits A (fun X => avg sample fun r => if upSpins A r = X then (1 : ℝ) else 0)
    (by
      intro X hX
      obtain ⟨r, hr, rfl⟩ := hall X (Finset.mem_powerset.1 hX)
      unfold avg
      refine div_pos ?_ hN
      obtain ⟨l1, l2, e⟩ := List.append_of_mem hr
      rw [e, List.map_append, List.map_cons, List.sum_append, List.sum_cons, if_pos rfl]
      have h0 : ∀ l : List (List ℤ), 0 ≤ (l.map fun r' => if upSpins A r' = upSpins A r then (1 : ℝ) else 0).sum :=
        fun l => List.sum_nonneg (by
          intro x hx
          obtain ⟨r', -, rfl⟩ := List.mem_map.1 hx
          split <;> norm_num)
      linarith [h0 l1, h0 l2])
    (by
      have := hmarg (fun _ => True) (fun _ => inferInstance)
      simp only [Finset.filter_true, if_true] at this
      rw [this]
      unfold avg
      simp [hN.ne'])
  refine ⟨J, hJ.symm, hJ.supp, fun i hi j hj => ?_⟩
  rw [hJ.moments i hi j hj]
  have := hmarg (fun X => i ∈ X ∧ j ∈ X) (fun _ => inferInstance)
  rw [this]
  unfold avg
  congr 2
  refine List.map_congr_left fun r hr => ?_
  have hi' := hpm r hr i hi
  have hj' := hpm r hr j hj
  unfold upSpins
  simp only [Finset.mem_filter, hi, hj, true_and]
  rcases hi' with h | h <;> rcases hj' with h' | h' <;> simp only [h, h'] <;> norm_num

/-- Value of the co-occurrence matrix of a sample. -/
theorem aceCooc_ok (n : ℕ) (sample : List (List ℤ)) (hne : sample ≠ [])
    (hlen : ∀ r ∈ sample, r.length = n) :
    ∃ M, aceCooc n sample = some M ∧ M.HasShape n n ∧ ∀ i < n, ∀ j < n, M.at' i j =
      if i ≤ j then avg sample fun r => ((r.getD i 0 : ℤ) + 1 : ℝ) / 2 * (((r.getD j 0 : ℤ) + 1) / 2)
      else 0 := by
  obtain ⟨h1, h2⟩ := C66_cooccurrence n (sample.map fun r => r.map fun x : ℤ => ((x : ℝ) + 1) / 2) true
  refine ⟨_, by rw [aceCooc, if_neg hne], ⟨by simpa using h1.1, ?_⟩, fun i hi j hj => ?_⟩
  · intro r hr
    obtain ⟨r', hr', rfl⟩ := List.mem_map.1 hr
    simpa using h1.2 r' hr'
  · have hrow : i < (cooccurrenceMatrix n (sample.map fun r => r.map fun x : ℤ => ((x : ℝ) + 1) / 2) true).length := by
      rw [h1.1]; exact hi
    have hcol := h1.2 _ (List.getElem_mem hrow)
    have := h2 i hi j hj
    rw [List.getD_eq_getElem _ _ hrow, List.getD_eq_getElem _ _ (by rw [hcol]; exact hj)] at this
    unfold Mat.at'
    have hmap : ((cooccurrenceMatrix n (sample.map fun r => r.map fun x : ℤ => ((x : ℝ) + 1) / 2) true).map
        fun row => row.map fun x => x.getD 0).getD i [] =
        (cooccurrenceMatrix n (sample.map fun r => r.map fun x : ℤ => ((x : ℝ) + 1) / 2) true)[i].map
          fun x => x.getD 0 := by
      rw [List.getD_eq_getElem _ _ (by simpa using hrow), List.getElem_map]
    rw [hmap, List.getD_eq_getElem _ _ (by simpa [hcol] using hj), List.getElem_map, this,
      if_neg (by simpa using hne)]
    by_cases hij : i ≤ j
    · rw [if_pos hij, if_pos (by simp; omega), Option.getD_some]
      unfold avg
      rw [List.map_map, List.length_map]
      congr 2
      refine List.map_congr_left fun r hr => ?_
      have hl := hlen r hr
      simp only [Function.comp]
      rw [List.getD_eq_getElem _ _ (by simpa [hl] using hi), List.getD_eq_getElem _ _ (by simpa [hl] using hj),
        List.getElem_map, List.getElem_map, List.getD_eq_getElem _ _ (by rw [hl]; exact hi),
        List.getD_eq_getElem _ _ (by rw [hl]; exact hj)]
    · rw [if_neg hij, if_neg (by simp; omega), Option.getD_some]

theorem analyticTwo_shape (log : ℝ → ℝ) (p q r : ℝ) : (analyticTwo log p q r).HasShape 2 2 := by
  constructor <;> simp [analyticTwo]

/-- The two-spin model with given frequencies. -/
theorem analyticTwo_expect (p q r : ℝ) (h1 : 0 < r) (h2 : 0 < p - r) (h3 : 0 < q - r)
    (h4 : 0 < 1 - p - q + r) (a b : ℕ) (ha : a < 2) (hb : b < 2) (hab : a ≤ b) :
    expect (words [(0 : ℤ), 1] 2)
      (fun s => quadE 2 (fun i j => (analyticTwo Real.log p q r).at' i j) (spins s))
      (fun s => spins s a * spins s b) = if a = b then (if a = 0 then p else q) else r := by
  obtain ⟨w, hw⟩ : ∃ w, w = 1 - p - q + r := ⟨_, rfl⟩
  have hw0 : 0 < w := hw ▸ h4
  have e1 : Real.exp (Real.log ((p - r) / w)) = (p - r) / w := Real.exp_log (by positivity)
  have e2 : Real.exp (Real.log ((q - r) / w)) = (q - r) / w := Real.exp_log (by positivity)
  have e3 : Real.exp (Real.log ((p - r) / w) + Real.log ((q - r) / w) +
      (Real.log r - Real.log (p - r) - Real.log (q - r) + Real.log w)) = r / w := by
    rw [← Real.log_div h1.ne' h2.ne', ← Real.log_div (by positivity) h3.ne',
      ← Real.log_mul (by positivity) hw0.ne', ← Real.log_mul (by positivity) (by positivity),
      ← Real.log_mul (by positivity) (by positivity), Real.exp_log (by positivity)]
    field_simp
  have hwords : words [(0 : ℤ), 1] 2 = [[0, 0], [0, 1], [1, 0], [1, 1]] := by decide
  have hE : ∀ x y : ℤ, quadE 2 (fun i j => (analyticTwo Real.log p q r).at' i j) (spins [x, y]) =
      -Real.log ((p - r) / w) * x + -Real.log ((q - r) / w) * y +
        (-Real.log r + Real.log (p - r) + Real.log (q - r) - Real.log w) * x * y := by
    intro x y
    simp [quadE, Finset.sum_range_succ, analyticTwo, Mat.at', spins, ← hw]
    ring
  have hX : ∀ x y : ℤ, Real.exp (-quadE 2 (fun i j => (analyticTwo Real.log p q r).at' i j) (spins [x, y])) =
      Real.exp (Real.log ((p - r) / w) * x + Real.log ((q - r) / w) * y +
        (Real.log r - Real.log (p - r) - Real.log (q - r) + Real.log w) * x * y) := by
    intro x y
    rw [hE]
    congr 1
    ring
  rw [expect_eq_div, hwords]
  simp only [partition, List.map_cons, List.map_nil, List.sum_cons, List.sum_nil, hX]
  push_cast
  simp only [mul_zero, mul_one, add_zero, zero_add, Real.exp_zero, e1, e2, e3]
  have hZ : 1 + ((q - r) / w + ((p - r) / w + r / w)) = 1 / w := by
    rw [hw]; rw [hw] at hw0; field_simp; ring
  rw [hZ]
  interval_cases a <;> interval_cases b <;> simp [spins] <;> field_simp <;> ring

end Verif.Lemmas
