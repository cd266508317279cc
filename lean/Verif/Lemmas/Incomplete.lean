/-
The prediction of MCHIncompleteData.
-/
import Verif.Model.Incomplete
import Verif.Spec.Incomplete
import Verif.Props.MchProg

namespace Verif.Lemmas
open Verif Verif.Model Verif.Spec Verif.Props

theorem approxRows_eq {N : ℕ} {Y : Data} (hY : SpinRows N Y) {d : List ℝ} (hd : d.length = N + N * (N - 1) / 2) :
    approxRows N Y d = .ok ((List.range (N + N * (N - 1) / 2)).map fun a => reweighted N Y d a) := by
  obtain ⟨r, h1, h2, h3⟩ := C23_reweighted_mean N Y hY.1 (fun s hs => (hY.2 s hs).2) (fun s hs => (hY.2 s hs).1)
    (d.take N) (d.drop N) (by rw [List.length_take]; omega) (by rw [List.length_drop]; omega)
  rw [List.take_append_drop] at h1 h3
  unfold approxRows
  rw [h1]
  dsimp only
  congr 1
  refine List.ext_getElem (by simp [h2]) fun a ha hb => ?_
  have ha' : a < r.length := by simpa using ha
  have := h3 a ha'
  rw [List.getD_eq_getElem _ _ ha'] at this
  rw [List.getElem_map, this, List.getElem_map, List.getElem_range]
  rfl

theorem reweighted_abs_le {N : ℕ} {Y : Data} (hY : SpinRows N Y) (d : List ℝ) (hd : d.length = N + N * (N - 1) / 2) (a : ℕ)
    (ha : a < N + N * (N - 1) / 2) : |reweighted N Y d a| ≤ 1 := by
  obtain ⟨r, h1, h2⟩ := C23_range N Y hY.1 (fun s hs => (hY.2 s hs).2) d
  have h3 := approxRows_eq hY hd
  unfold approxRows at h3
  rw [h1] at h3
  have h4 := Except.ok.inj h3
  have hl : r.length = N + N * (N - 1) / 2 := by
    have := congrArg List.length h4
    simpa using this
  have h5 : (r.map fun v => v.getD 0)[a]'(by simp; omega) = reweighted N Y d a := by
    simp only [h4]
    rw [List.getElem_map, List.getElem_range]
  rw [← h5, List.getElem_map]
  obtain ⟨x, hx, k1, k2⟩ := h2 _ (List.getElem_mem (by omega : a < r.length))
  rw [hx]
  exact abs_le.2 ⟨k1, k2⟩

theorem addInto_maps (M : ℕ) (f g : ℕ → ℝ) :
    addInto ((List.range M).map f) ((List.range M).map g) = .ok ((List.range M).map fun a => f a + g a) := by
  unfold addInto assignRow
  rw [if_pos (by simp)]
  dsimp only
  congr 1
  rw [List.zipWith_map, List.zipWith_self]

theorem incAdd_eq (N : ℕ) (full : ℝ) (counts : List ℕ) (d : List ℝ) (hd : d.length = N + N * (N - 1) / 2)
    (cond : List Data) (hcond : ∀ Y ∈ cond, SpinRows N Y) (i : ℕ) (hi : i + cond.length ≤ counts.length) (f : ℕ → ℝ) :
    incAdd N full counts d i cond ((List.range (N + N * (N - 1) / 2)).map f) =
      .ok ((List.range (N + N * (N - 1) / 2)).map fun a => f a +
        (List.zipWith (fun (k : ℕ) Y => (1 - full) * ((k : ℝ) / (counts.sum : ℝ)) * reweighted N Y d a)
          (counts.drop i) cond).sum) := by
  induction cond generalizing i f with
  | nil => simp [incAdd]
  | cons Y rest ih =>
    have hlt : i < counts.length := by simp at hi; omega
    unfold incAdd
    have hg : getAt counts i = .ok counts[i] := by
      unfold getAt
      rw [List.getElem?_eq_getElem hlt]
    rw [hg]
    dsimp only
    rw [approxRows_eq (hcond Y (by simp)) hd]
    dsimp only
    rw [List.map_map, Function.comp_def, addInto_maps]
    dsimp only
    rw [ih (fun Y hY => hcond Y (by simp [hY])) (i + 1) (by simp at hi; omega)]
    congr 1
    refine List.map_congr_left fun a _ => ?_
    rw [List.drop_eq_getElem_cons hlt, List.zipWith_cons_cons, List.sum_cons]
    ring

/-- How often a row occurs. -/
def times {α : Type*} [DecidableEq α] (v : List α) (u : α) : ℕ := v.count u

theorem times_filter {α : Type*} [DecidableEq α] (v : List α) (p : α → Bool) (u : α) (hu : p u = true) :
    times (v.filter p) u = (v.filter fun r => decide (r = u)).length := by
  unfold times
  rw [List.count_eq_length_filter, List.filter_filter]
  congr 1
  refine List.filter_congr fun r _ => ?_
  by_cases hr : r = u
  · subst hr
    simp [hu]
  · simp [hr]

theorem sum_times {α : Type*} [DecidableEq α] (S v : List α) (hS : S.Nodup) (hv : ∀ x ∈ v, x ∈ S) (f : α → ℝ) :
    (S.map fun s => (times v s : ℝ) * f s).sum = (v.map f).sum :=
  (sum_by_count S v hS hv f).symm

theorem unique_times {α : Type*} [DecidableEq α] (uniq : List α → List α) (hu : UniqSpec uniq) (v : List α) :
    (uniqueRowsIx uniq v).filterMap (fun i => v[i]?) = uniq v ∧ bincount (uniqueRowsInv uniq v) = (uniq v).map (times v) ∧
      ((uniq v).map (times v)).sum = v.length := by
  obtain ⟨hnd, hmem⟩ := hu v
  refine ⟨?_, ?_, sum_count (uniq v) v hnd fun x hx => (hmem x).2 hx⟩
  · unfold uniqueRowsIx
    rw [List.filterMap_map]
    conv_rhs => rw [← List.filterMap_some (l := uniq v)]
    apply List.filterMap_congr
    intro x hx
    have := List.idxOf_lt_length_of_mem ((hmem x).1 hx)
    simp [this]
  · unfold bincount uniqueRowsInv
    rw [foldr_max_inv _ _ hnd hmem]
    apply List.ext_getElem
    · simp
    · intro k h1 h2
      simp only [List.getElem_map, List.getElem_range]
      exact count_inv _ _ hnd (fun x hx => (hmem x).2 hx) k (by simpa using h2)

theorem incCounts_eq {uniq : Data → Data} (hu : UniqSpec uniq) (X : Data) :
    incCounts uniq X = (incStates uniq X).map (times (incompleteRows X)) ∧ (incStates uniq X).Nodup ∧
      (∀ u, u ∈ incStates uniq X ↔ u ∈ incompleteRows X) ∧
      (incCounts uniq X).sum = (incompleteRows X).length := by
  obtain ⟨hnd, hmem⟩ := hu (incompleteRows X)
  obtain ⟨h1, h2, h3⟩ := unique_times uniq hu (incompleteRows X)
  have e : incStates uniq X = uniq (incompleteRows X) := h1
  have e2 : incCounts uniq X = (uniq (incompleteRows X)).map (times (incompleteRows X)) := h2
  rw [e, e2]
  exact ⟨rfl, hnd, hmem, h3⟩

theorem sum_split {α : Type*} (X : List α) (p : α → Bool) (g : α → ℝ) :
    (X.map g).sum = ((X.filter fun r => !p r).map g).sum + ((X.filter p).map g).sum := by
  induction X with
  | nil => simp
  | cons x X ih =>
    rw [List.map_cons, List.sum_cons, ih]
    by_cases h : p x = true
    · rw [List.filter_cons_of_neg (by simp [h]), List.filter_cons_of_pos h, List.map_cons, List.sum_cons]
      ring
    · rw [List.filter_cons_of_pos (by simp [h]), List.filter_cons_of_neg h, List.map_cons, List.sum_cons]
      ring

/-- The sample from which the prediction for a row of the data is made: the one of the model for complete rows, the
conditional one for the others. -/
noncomputable def sampleFor (uniq : Data → Data) (X samples : Data) (cond : List Data) (row : List ℤ) : Data :=
  if 0 ∈ row then cond.getD ((incStates uniq X).idxOf row) [] else samples

/-- The data, the samples and the object fit together. -/
structure IncFits (N : ℕ) (uniq : Data → Data) (X samples : Data) (o : IncObj) : Prop where
  distinct : UniqSpec uniq
  data : X ≠ []
  full : (∃ r ∈ X, 0 ∉ r) → o.samples = some samples ∧ SpinRows N samples
  number : o.condSamples.length = (incStates uniq X).length
  rows : ∀ Y ∈ o.condSamples, SpinRows N Y

theorem incApprox_eq {N : ℕ} {uniq : Data → Data} {X samples : Data} {o : IncObj} (h : IncFits N uniq X samples o)
    (d : List ℝ) (hd : d.length = N + N * (N - 1) / 2) :
    incApprox N o (fullFraction X) (incCounts uniq X) d = .ok ((List.range (N + N * (N - 1) / 2)).map fun a =>
      avg X fun row => reweighted N (sampleFor uniq X samples o.condSamples row) d a) := by
  obtain ⟨c1, c2, c3, hsum⟩ := incCounts_eq h.distinct X
  have hXl : (0 : ℝ) < X.length := by exact_mod_cast List.length_pos_of_ne_nil h.data
  have hsplit : X.length = (X.filter fun r => !decide (0 ∈ r)).length + (incompleteRows X).length := by
    unfold incompleteRows
    clear hXl c1 c2 c3 hsum h
    induction X with
    | nil => simp
    | cons x X ih =>
      by_cases hx : 0 ∈ x
      · rw [List.filter_cons_of_neg (by simp [hx]), List.filter_cons_of_pos (by simp [hx])]
        simp only [List.length_cons]
        omega
      · rw [List.filter_cons_of_pos (by simp [hx]), List.filter_cons_of_neg (by simp [hx])]
        simp only [List.length_cons]
        omega
  have hfull : fullFraction X = ((X.filter fun r => !decide (0 ∈ r)).length : ℝ) / X.length := by
    unfold fullFraction
    congr 1
    rw [hsplit]
    push_cast
    ring
  have hrest : 1 - fullFraction X = ((incompleteRows X).length : ℝ) / X.length := by
    unfold fullFraction
    field_simp
    ring
  have hstart : incStart N o.samples (fullFraction X) d = .ok ((List.range (N + N * (N - 1) / 2)).map fun a =>
      reweighted N samples d a * fullFraction X) := by
    unfold incStart
    split_ifs with hpos
    · have : ∃ r ∈ X, 0 ∉ r := by
        rw [hfull] at hpos
        have : 0 < (X.filter fun r => !decide (0 ∈ r)).length := by
          by_contra hc
          rw [Nat.eq_zero_of_not_pos hc] at hpos
          simp at hpos
        obtain ⟨r, hr⟩ := List.exists_mem_of_length_pos this
        rw [List.mem_filter] at hr
        exact ⟨r, hr.1, by simpa using hr.2⟩
      obtain ⟨hs, hrows⟩ := h.full this
      rw [hs]
      dsimp only
      rw [approxRows_eq hrows hd]
      dsimp only
      rw [List.map_map]
      rfl
    · have hz : fullFraction X = 0 := by
        refine le_antisymm (not_lt.1 hpos) ?_
        rw [hfull]
        positivity
      congr 1
      refine List.ext_getElem (by simp [hd]) fun a h1 h2 => ?_
      simp [hz]
  unfold incApprox
  rw [hstart]
  dsimp only
  rw [incAdd_eq N _ _ d hd _ h.rows 0 (by rw [h.number, c1]; simp) _]
  congr 1
  refine List.map_congr_left fun a _ => ?_
  rw [List.drop_zero]
  obtain ⟨g, hg⟩ : ∃ g : List ℤ → ℝ, g = fun row => reweighted N (sampleFor uniq X samples o.condSamples row) d a := ⟨_, rfl⟩
  have hzip : List.zipWith (fun (k : ℕ) Y => (1 - fullFraction X) * ((k : ℝ) / ((incCounts uniq X).sum : ℝ)) *
      reweighted N Y d a) (incCounts uniq X) o.condSamples =
      (incStates uniq X).map fun u => (times (incompleteRows X) u : ℝ) * g u * (1 / X.length) := by
    refine List.ext_getElem (by rw [List.length_zipWith, c1, h.number]; simp) fun i h1 h2 => ?_
    have hi : i < (incStates uniq X).length := by simpa using h2
    have hi' : i < o.condSamples.length := by rw [h.number]; exact hi
    rw [List.getElem_zipWith, List.getElem_map]
    have e1 : (incCounts uniq X)[i]'(by rw [c1]; simpa using hi) = times (incompleteRows X) (incStates uniq X)[i] := by
      simp only [c1, List.getElem_map]
    have hmem : (incStates uniq X)[i] ∈ incompleteRows X := (c3 _).1 (List.getElem_mem hi)
    have hz : 0 ∈ (incStates uniq X)[i] := by
      unfold incompleteRows at hmem
      rw [List.mem_filter] at hmem
      simpa using hmem.2
    have e2 : g (incStates uniq X)[i] = reweighted N o.condSamples[i] d a := by
      rw [hg]
      dsimp only
      unfold sampleFor
      rw [if_pos hz, c2.idxOf_getElem, List.getD_eq_getElem _ _ hi']
    have hpos : ((incompleteRows X).length : ℝ) ≠ 0 := by
      have := List.length_pos_of_mem hmem
      positivity
    simp only [e1, e2, hrest, hsum]
    field_simp
  rw [hzip, list_sum_mul_right, sum_times _ _ c2 fun x hx => (c3 x).2 hx]
  unfold avg
  have hcomp : ((X.filter fun r => !decide (0 ∈ r)).map g).sum =
      ((X.filter fun r => !decide (0 ∈ r)).length : ℝ) * reweighted N samples d a := by
    rw [show (X.filter fun r => !decide (0 ∈ r)).map g =
      (X.filter fun r => !decide (0 ∈ r)).map fun _ => reweighted N samples d a from List.map_congr_left fun r hr => by
        rw [List.mem_filter] at hr
        have h0 : 0 ∉ r := by simpa using hr.2
        rw [hg]
        dsimp only
        unfold sampleFor
        rw [if_neg h0]]
    simp
  rw [← hg, sum_split X (fun r => decide (0 ∈ r)) g, hcomp, hfull]
  unfold incompleteRows
  field_simp

end Verif.Lemmas
