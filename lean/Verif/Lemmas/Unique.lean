import Verif.Lemmas.HighOrder

namespace Verif.Lemmas
open Verif Verif.Model Verif.Spec

variable {K : Type*}

/-- The 0/1 state with ones exactly at the sites of `t`. -/
def indicator [CommRing K] (t : List ℕ) (i : ℕ) : K := if i ∈ t then 1 else 0

theorem mono_indicator [CommRing K] (t u : List ℕ) :
    mono (indicator t : ℕ → K) u = if ∀ i ∈ u, i ∈ t then 1 else 0 := by
  unfold mono
  induction u with
  | nil => simp
  | cons a u ih =>
    rw [List.map_cons, List.prod_cons, ih]
    unfold indicator
    by_cases h : a ∈ t <;> simp [h]

theorem eq_of_subset_of_length {t u : List ℕ} (ht : t.Pairwise (· < ·)) (hu : u.Pairwise (· < ·))
    (hsub : ∀ i ∈ u, i ∈ t) (hlen : t.length ≤ u.length) : u = t := by
  have h1 : u.Nodup := hu.nodup
  have h2 : u.Perm t := (h1.subperm hsub).perm_of_length_le hlen
  exact h2.eq_of_pairwise (fun a b _ _ h h' => absurd h (lt_asymm h')) hu ht

theorem dot_sub_left [CommRing K] (a a' b : List K) (h : a.length = a'.length) :
    dot (List.zipWith (· - ·) a a') b = dot a b - dot a' b := by
  unfold dot
  induction a generalizing a' b with
  | nil =>
    have : a' = [] := List.length_eq_zero_iff.1 (by simpa using h.symm)
    subst this; simp
  | cons x a ih =>
    rcases a' with _ | ⟨x', a'⟩
    · simp at h
    · rcases b with _ | ⟨y, b⟩
      · simp
      · simp only [List.zipWith_cons_cons, List.sum_cons]
        rw [ih a' b (by simpa using h)]
        ring

/-- Coefficients are determined by the energies of the 0/1 states up to a constant. -/
theorem poly_unique [CommRing K] (n : ℕ) (P Q : List (List K)) (hl : P.length = Q.length)
    (hP : PolyShape n P) (hQ : PolyShape n Q) (c : K)
    (h : ∀ x : ℕ → K, (∀ i, x i = 0 ∨ x i = 1) → polyE n P x = polyE n Q x + c) : P = Q := by
  have key : ∀ k, k < P.length → P.getD k [] = Q.getD k [] := by
    intro k
    induction k using Nat.strong_induction_on with
    | _ k ih =>
      intro hk
      have hPk := hP k hk
      have hQk := hQ k (hl ▸ hk)
      apply List.ext_getElem (hPk.trans hQk.symm)
      intro i hi1 hi2
      have hi : i < (tuples n (k + 1)).length := hPk ▸ hi1
      set t := (tuples n (k + 1))[i] with htdef
      have htm := ((isCombinations_tuples n (k + 1)).mem_iff t).1 (List.getElem_mem hi)
      have h1 := h (indicator t) (by intro j; unfold indicator; by_cases hj : j ∈ t <;> simp [hj])
      have h0 := h (indicator []) (by intro j; simp [indicator])
      have e0 : ∀ R : List (List K), polyE n R (indicator []) = 0 := by
        intro R
        unfold polyE
        rw [neg_eq_zero]
        refine Finset.sum_eq_zero fun j _ => ?_
        unfold dot
        apply List.sum_eq_zero
        intro v hv
        obtain ⟨a, ha, rfl⟩ := List.mem_iff_getElem.1 hv
        simp only [List.getElem_zipWith, List.getElem_map]
        rw [mono_indicator, if_neg]
        · simp
        · intro hall
          have ha' : a < (tuples n (j + 1)).length := by
            simp at ha; exact ha.2
          have hm := ((isCombinations_tuples n (j + 1)).mem_iff _).1 (List.getElem_mem ha')
          rcases hu : (tuples n (j + 1))[a] with _ | ⟨b, u⟩
          · rw [hu] at hm; simp at hm
          · have := hall b (by rw [hu]; simp)
            simp at this
      rw [e0, e0, zero_add] at h0
      rw [← h0, add_zero] at h1
      -- split the energy of the indicator of t
      have split : ∀ R : List (List K), R.length = P.length → PolyShape n R → ∀ hi' : i < (R.getD k []).length,
          -polyE n R (indicator t) = ∑ j ∈ Finset.range k,
            dot (R.getD j []) ((tuples n (j + 1)).map (mono (indicator t))) + (R.getD k [])[i] := by
        intro R hRl hR hi'
        unfold polyE
        rw [neg_neg, hRl]
        obtain ⟨d, hd⟩ : ∃ d, P.length = (k + 1) + d := ⟨P.length - (k + 1), by omega⟩
        rw [hd, Finset.sum_range_add, Finset.sum_range_succ]
        have z : ∑ j ∈ Finset.range d, dot (R.getD (k + 1 + j) [])
            ((tuples n (k + 1 + j + 1)).map (mono (indicator t))) = 0 := by
          refine Finset.sum_eq_zero fun j _ => ?_
          unfold dot
          apply List.sum_eq_zero
          intro v hv
          obtain ⟨a, ha, rfl⟩ := List.mem_iff_getElem.1 hv
          simp only [List.getElem_zipWith, List.getElem_map]
          rw [mono_indicator, if_neg]
          · simp
          · intro hall
            have ha' : a < (tuples n (k + 1 + j + 1)).length := by
              simp at ha; exact ha.2
            have hm := ((isCombinations_tuples n (k + 1 + j + 1)).mem_iff _).1 (List.getElem_mem ha')
            have hle := (hm.2.1.nodup.subperm hall).length_le
            rw [hm.1, htm.1] at hle
            omega
        rw [z, add_zero]
        congr 1
        have hRk := hR k (by omega)
        rw [dot_eq_sum _ _ (by rw [hRk, List.length_map])]
        rw [Finset.sum_eq_single i]
        · rw [List.getD_eq_getElem (l := R.getD k []) (hn := hi'),
            List.getD_eq_getElem (l := (tuples n (k + 1)).map _) (hn := by simpa using hi),
            List.getElem_map, mono_indicator, if_pos (fun j hj => hj), mul_one]
        · intro a ha hai
          have ha' : a < (tuples n (k + 1)).length := hRk ▸ Finset.mem_range.1 ha
          rw [List.getD_eq_getElem (l := (tuples n (k + 1)).map _) (hn := by simpa using ha'),
            List.getElem_map, mono_indicator, if_neg, mul_zero]
          intro hall
          have hm := ((isCombinations_tuples n (k + 1)).mem_iff _).1 (List.getElem_mem ha')
          have := eq_of_subset_of_length htm.2.1 hm.2.1 hall (by rw [hm.1, htm.1])
          exact hai ((nodup_tuples n (k + 1)).getElem_inj_iff.1 this)
        · intro hni
          exact absurd (Finset.mem_range.2 hi') hni
      have s1 := split P rfl hP hi1
      have s2 := split Q hl.symm hQ hi2
      rw [h1] at s1
      rw [s1] at s2
      have : ∑ j ∈ Finset.range k, dot (P.getD j []) ((tuples n (j + 1)).map (mono (indicator t))) =
          ∑ j ∈ Finset.range k, dot (Q.getD j []) ((tuples n (j + 1)).map (mono (indicator t))) := by
        refine Finset.sum_congr rfl fun j hj => ?_
        have hj' := Finset.mem_range.1 hj
        rw [ih j hj' (by omega)]
      rw [this] at s2
      exact add_left_cancel s2
  apply List.ext_getElem hl
  intro k h1 h2
  have := key k h1
  rwa [List.getD_eq_getElem _ _ h1, List.getD_eq_getElem _ _ h2] at this

end Verif.Lemmas
