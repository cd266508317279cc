/-
Lemmas for mch_approximation.
-/
import Verif.Model.Mch
import Verif.Lemmas.Boltzmann
import Verif.Lemmas.PottsHelpers
import Verif.Props.Corr

namespace Verif.Lemmas
open Verif Verif.Spec Verif.Model

theorem wsum_map {α K : Type*} [Field K] (X : List α) (g f : α → K) :
    wsum X (X.map g) f = (X.map fun s => g s * f s).sum := by
  unfold wsum
  congr 1
  induction X with
  | nil => rfl
  | cons a X ih => simp [ih]

/-- The normalised weighted sum is the expectation over the sample. -/
theorem reweighted_sum {α : Type*} (X : List α) (hX : X ≠ []) (E f : α → ℝ) :
    (X.map fun s => Real.exp (-E s) / (X.length : ℝ) * f s).sum *
      ((X.length : ℝ) / Real.exp (Real.log (X.map fun s => Real.exp (-E s)).sum)) =
      expect X E f := by
  have hZ := partition_pos X E hX
  have hlen : (X.length : ℝ) ≠ 0 := by
    have := List.length_pos_iff.2 hX
    positivity
  rw [expect_eq_div]
  unfold partition at hZ ⊢
  rw [Real.exp_log hZ]
  have : (X.map fun s => Real.exp (-E s) / (X.length : ℝ) * f s).sum =
      (X.map fun s => Real.exp (-E s) * f s).sum / X.length := by
    rw [← list_sum_div]
    congr 1
    apply List.map_congr_left
    intro s _
    ring
  rw [this]
  field_simp

theorem abs_entry_le (X : Data) (hok : ∀ row ∈ X, ∀ x ∈ row, x = -1 ∨ x = 0 ∨ x = 1) (s : List ℤ)
    (hs : s ∈ X) (j : ℕ) : |(spins s j : ℝ)| ≤ 1 := by
  unfold spins
  by_cases hj : j < s.length
  · rw [List.getD_eq_getElem _ _ hj]
    rcases hok s hs _ (List.getElem_mem hj) with h | h | h <;> simp [h]
  · rw [List.getD_eq_default _ _ (by omega)]; simp

theorem expect_abs_le {α : Type*} (X : List α) (hX : X ≠ []) (E f : α → ℝ)
    (h : ∀ s ∈ X, |f s| ≤ 1) : -1 ≤ expect X E f ∧ expect X E f ≤ 1 :=
  ⟨le_expect X E f hX _ fun s hs => (abs_le.1 (h s hs)).1,
    expect_le X E f hX _ fun s hs => (abs_le.1 (h s hs)).2⟩

theorem pairObs_field {K : Type*} [CommRing K] (n : ℕ) (s : ℕ → K) (i : ℕ) (hi : i < n) :
    (pairObs n s).getD i 0 = s i := by
  unfold pairObs
  rw [List.getD_append _ _ _ _ (by simpa using hi), List.getD_eq_getElem _ _ (by simpa using hi),
    List.getElem_map, List.getElem_range]

theorem pairObs_pair {K : Type*} [CommRing K] (n : ℕ) (s : ℕ → K) (m : ℕ) (p : ℕ × ℕ)
    (h : (upperPairs n)[m]? = some p) : (pairObs n s).getD (n + m) 0 = s p.1 * s p.2 := by
  unfold pairObs
  rw [List.getD_append_right _ _ _ _ (by simp)]
  simp [h]

theorem mchIsing_eq (N : ℕ) (X : Data) (hX : X ≠ []) 
    (hok : ∀ row ∈ X, ∀ x ∈ row, x = -1 ∨ x = 0 ∨ x = 1) (θ : List ℝ) :
    mchIsing N X θ = .ok
      (((List.range N).map fun j => some (expect X (isingCalcERow θ) fun s => spins s j)) ++
        (upperPairs N).map fun p =>
          some (expect X (isingCalcERow θ) fun s => spins s p.1 * spins s p.2)) := by
  have hlen : (isingCalcE X θ).length ≠ 0 := by
    simpa [isingCalcE] using hX
  have hsum : ∀ f : List ℤ → ℝ, wsum X ((isingCalcE X θ).map fun e =>
      Real.exp (-e) / ((isingCalcE X θ).length : ℝ)) f * (((isingCalcE X θ).length : ℝ) /
        Real.exp (Real.log ((isingCalcE X θ).map fun e => Real.exp (-e)).sum)) =
      expect X (isingCalcERow θ) f := by
    intro f
    rw [← reweighted_sum X hX]
    unfold isingCalcE
    rw [List.map_map, List.map_map, wsum_map, List.length_map]
    rfl
  unfold mchIsing
  simp only
  rw [if_neg hlen, Props.C07_concat _ _ _ _ _ _ _ _
    (Props.C07_array_weights N X hok _ (by simp [isingCalcE]))]
  simp only
  have hmap : ∀ (β : Type) (L : List β) (f : β → List ℤ → ℝ),
      (L.map fun b => some (wsum X ((isingCalcE X θ).map fun e =>
        Real.exp (-e) / ((isingCalcE X θ).length : ℝ)) (f b))).map
          (fun v : Option ℝ => v.map (· * (((isingCalcE X θ).length : ℝ) /
        Real.exp (Real.log ((isingCalcE X θ).map fun e => Real.exp (-e)).sum)))) =
      L.map fun b => some (expect X (isingCalcERow θ) (f b)) := by
    intro β L f
    rw [List.map_map]
    apply List.map_congr_left
    intro b _
    simp only [Function.comp_apply, Option.map_some, hsum]
  rw [List.map_append, hmap ℕ (List.range N) (fun j s => ((s.getD j 0 : ℤ) : ℝ)),
    hmap (ℕ × ℕ) (upperPairs N) (fun p s => ((s.getD p.1 0 : ℤ) : ℝ) * ((s.getD p.2 0 : ℤ) : ℝ)),
    if_neg]
  · rfl
  · have hrange : ∀ v ∈ (((List.range N).map fun j => some (expect X (isingCalcERow θ) fun s => ((s.getD j 0 : ℤ) : ℝ))) ++
        (upperPairs N).map fun p =>
          some (expect X (isingCalcERow θ) fun s => ((s.getD p.1 0 : ℤ) : ℝ) * ((s.getD p.2 0 : ℤ) : ℝ))),
        ∀ x : ℝ, v = some x → -1 ≤ x ∧ x ≤ 1 := by
      intro v hv x hx
      rcases List.mem_append.1 hv with hv | hv
      · obtain ⟨j, _, rfl⟩ := List.mem_map.1 hv
        rw [← Option.some_inj.1 hx]
        exact expect_abs_le X hX _ _ fun s hs => abs_entry_le X hok s hs j
      · obtain ⟨p, _, rfl⟩ := List.mem_map.1 hv
        rw [← Option.some_inj.1 hx]
        refine expect_abs_le X hX _ _ fun s hs => ?_
        rw [abs_mul]
        exact mul_le_one₀ (abs_entry_le X hok s hs p.1) (abs_nonneg _) (abs_entry_le X hok s hs p.2)
    rintro (⟨v, hv, x, hx, h⟩ | ⟨v, hv, x, hx, h⟩)
    · have := (hrange v hv x hx).1
      norm_num at h
      linarith
    · have := (hrange v hv x hx).2
      norm_num at h
      linarith

theorem mapM_ok' {α β : Type*} (f : α → Py β) (g : α → β) (L : List α) (h : ∀ a ∈ L, f a = .ok (g a)) :
    L.mapM f = .ok (L.map g) := by
  induction L with
  | nil => rfl
  | cons a L ih =>
    rw [List.mapM_cons, h a (by simp), ih fun x hx => h x (List.mem_cons_of_mem _ hx)]
    rfl

theorem pottsObs_range (n k : ℕ) (s : ℕ → ℤ) (a : ℕ) :
    0 ≤ (pottsObs n k s : List ℝ).getD a 0 ∧ (pottsObs n k s : List ℝ).getD a 0 ≤ 1 := by
  by_cases ha : a < (pottsObs n k s : List ℝ).length
  · rw [List.getD_eq_getElem _ _ ha]
    have : ∀ v ∈ (pottsObs n k s : List ℝ), 0 ≤ v ∧ v ≤ 1 := by
      intro v hv
      unfold pottsObs at hv
      rcases List.mem_append.1 hv with hv | hv
      · obtain ⟨b, _, hv⟩ := List.mem_flatMap.1 hv
        obtain ⟨i, _, rfl⟩ := List.mem_map.1 hv
        split <;> norm_num
      · obtain ⟨p, _, rfl⟩ := List.mem_map.1 hv
        split <;> norm_num
    exact this _ (List.getElem_mem ha)
  · rw [List.getD_eq_default _ _ (by omega)]; norm_num

theorem mchPotts_eq (k N : ℕ) (X : Data) (hX : X ≠ []) (hlen : ∀ s ∈ X, s.length = N)
    (h J : List ℝ) (hh : h.length = k * N) (hJ : J.length = N * (N - 1) / 2) :
    mchPotts k N X (h ++ J) = .ok
      ((List.range (N * k + N * (N - 1) / 2)).map fun a =>
        expect X (fun s => pottsVecE N k h J fun i => s.getD i 0)
          fun s => (pottsObs N k fun i => s.getD i 0).getD a 0) := by
  set E : List ℤ → ℝ := fun s => pottsVecE N k h J fun i => s.getD i 0 with hE
  have h1 : (X.mapM fun s => pottsCalcERow k s (h ++ J)) = .ok (X.map E) := by
    apply mapM_ok'
    intro s hs
    have := hlen s hs
    subst this
    exact pottsCalcERow_eq k s h J hh hJ
  have h2 : (X.mapM fun s => pottsObservables (K := ℝ) k s) =
      .ok (X.map fun s => pottsObs N k fun i => s.getD i 0) := by
    apply mapM_ok'
    intro s hs
    have := hlen s hs
    subst this
    exact pottsObservables_eq k s
  unfold mchPotts
  rw [h1, h2]
  simp only
  rw [if_neg (by simpa using hX)]
  have hp : ((List.range (N * k + N * (N - 1) / 2)).map fun a =>
      (List.zipWith (fun (e : ℝ) (o : List ℝ) => Real.exp (-e) / ((X.map E).length : ℝ) * o.getD a 0)
        (X.map E) (X.map fun s => (pottsObs N k fun i => s.getD i 0 : List ℝ))).sum *
      (((X.map E).length : ℝ) / Real.exp (Real.log ((X.map E).map fun e => Real.exp (-e)).sum))) =
      (List.range (N * k + N * (N - 1) / 2)).map fun a =>
        expect X E fun s => (pottsObs N k fun i => s.getD i 0).getD a 0 := by
    apply List.map_congr_left
    intro a _
    rw [← reweighted_sum X hX, List.length_map, List.map_map]
    congr 2
    rw [List.zipWith_map]
    clear h1 h2
    induction X with
    | nil => rfl
    | cons x X ih => simp [List.zipWith_self]
  rw [hp, if_neg]
  rintro (⟨x, hx, h⟩ | ⟨x, hx, h⟩)
  · obtain ⟨a, _, rfl⟩ := List.mem_map.1 hx
    exact absurd h (not_lt.2 (le_expect X E _ hX 0 fun s _ => (pottsObs_range N k _ a).1))
  · obtain ⟨a, _, rfl⟩ := List.mem_map.1 hx
    have := expect_le X E _ hX 1 fun s _ =>
      (pottsObs_range N k (fun i => s.getD i 0) a).2
    have h3 : (1 : ℝ) < 1 + 1e-10 := by norm_num
    linarith

end Verif.Lemmas
