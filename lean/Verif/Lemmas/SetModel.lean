/-
The model on a set of spins and the model on the words of a list of its spins.
-/
import Verif.Lemmas.Cooc
import Verif.Spec.SetModel

namespace Verif.Lemmas
open Verif Verif.Model Verif.Spec

/-- The spins of `c` that are one in the word `s`. -/
def onSet : List ℕ → List ℤ → Finset ℕ
  | i :: c, v :: s => if v = 1 then insert i (onSet c s) else onSet c s
  | _, _ => ∅

theorem onSet_subset (c : List ℕ) (s : List ℤ) : onSet c s ⊆ c.toFinset := by
  induction c generalizing s with
  | nil => simp [onSet]
  | cons i c ih =>
    cases s with
    | nil => simp [onSet]
    | cons v s =>
      rw [onSet, List.toFinset_cons]
      split
      · exact Finset.insert_subset_insert _ (ih s)
      · exact (ih s).trans (Finset.subset_insert _ _)

theorem sum_onSet {β : Type*} [AddCommMonoid β] (c : List ℕ) (hc : c.Nodup) (f : Finset ℕ → β) :
    ((words [(0 : ℤ), 1] c.length).map fun s => f (onSet c s)).sum =
      ∑ X ∈ c.toFinset.powerset, f X := by
  induction c generalizing f with
  | nil => simp [words, onSet]
  | cons i c ih =>
    obtain ⟨h1, h2⟩ := List.nodup_cons.1 hc
    rw [List.toFinset_cons, Finset.sum_powerset_insert (by simpa using h1), ← ih h2, ← ih h2]
    simp [words, List.map_map, Function.comp_def, onSet]

theorem mem_onSet (c : List ℕ) (hc : c.Nodup) (s : List ℤ) (hs : s.length = c.length) (a : ℕ)
    (ha : a < c.length) : c[a] ∈ onSet c s ↔ s.getD a 0 = 1 := by
  induction c generalizing s a with
  | nil => simp at ha
  | cons i c ih =>
    cases s with
    | nil => simp at hs
    | cons v s =>
      obtain ⟨h1, h2⟩ := List.nodup_cons.1 hc
      have hno : i ∉ onSet c s := fun h => h1 (by simpa using onSet_subset c s h)
      cases a with
      | zero =>
        rw [onSet]
        by_cases hv : v = 1
        · simp [hv]
        · simp [hv, hno]
      | succ a =>
        have ha' : a < c.length := by simpa using ha
        have hne : c[a] ≠ i := fun h => h1 (h ▸ List.getElem_mem ha')
        have := ih h2 s (by simpa using hs) a ha'
        rw [onSet]
        by_cases hv : v = 1
        · simpa [hv, hne] using this
        · simpa [hv] using this

theorem sum_onSet_elems (c : List ℕ) (hc : c.Nodup) (s : List ℤ)
    (hs : s ∈ words [(0 : ℤ), 1] c.length) (g : ℕ → ℝ) :
    ∑ i ∈ onSet c s, g i = ∑ a ∈ Finset.range c.length, spins s a * g (c.getD a 0) := by
  induction c generalizing s with
  | nil => simp [onSet]
  | cons i c ih =>
    cases s with
    | nil => have := (mem_words.1 hs).1; simp at this
    | cons v s =>
      obtain ⟨h1, h2⟩ := List.nodup_cons.1 hc
      have hno : i ∉ onSet c s := fun h => h1 (by simpa using onSet_subset c s h)
      obtain ⟨hl, hv⟩ := mem_words.1 hs
      have hs' : s ∈ words [(0 : ℤ), 1] c.length :=
        mem_words.2 ⟨by simpa using hl, fun x hx => hv x (by simp [hx])⟩
      have hstep := ih h2 s hs'
      rw [List.length_cons, Finset.sum_range_succ', onSet]
      have e : ∀ a, spins (v :: s) (a + 1) * g ((i :: c).getD (a + 1) 0) =
          spins s a * g (c.getD a 0) := fun a => by simp [spins]
      simp only [e, ← hstep]
      have hv0 : v = 0 ∨ v = 1 := by simpa using hv v (by simp)
      rcases hv0 with rfl | rfl
      · simp [spins]
      · rw [if_pos rfl, Finset.sum_insert hno]
        simp [spins, add_comm]

theorem setE_onSet (c : List ℕ) (hc : c.Nodup) (s : List ℤ) (hs : s ∈ words [(0 : ℤ), 1] c.length)
    (J : ℕ → ℕ → ℝ) :
    setE J (onSet c s) = quadE c.length (fun a b => J (c.getD a 0) (c.getD b 0)) (spins s) := by
  unfold setE quadE
  rw [sum_onSet_elems c hc s hs, ← Finset.sum_add_distrib]
  refine Finset.sum_congr rfl fun a ha => ?_
  rw [sum_onSet_elems c hc s hs, Finset.mul_sum]
  have e : ∀ b ∈ Finset.range c.length, spins s a * (spins s b * J (c.getD a 0) (c.getD b 0)) =
      (if a = b then J (c.getD a 0) (c.getD a 0) * spins s a else 0) +
        if a = b then 0 else J (c.getD a 0) (c.getD b 0) * spins s a * spins s b := by
    intro b _
    by_cases h : a = b
    · subst h
      simp only [if_true, add_zero]
      rw [← mul_assoc, bit_sq hs, mul_comm]
    · simp only [h, if_false, zero_add]; ring
  rw [Finset.sum_congr rfl e, Finset.sum_add_distrib, Finset.sum_ite_eq, if_pos ha]

theorem partition_onSet (c : List ℕ) (hc : c.Nodup) (J : ℕ → ℕ → ℝ) :
    partition (words [(0 : ℤ), 1] c.length)
      (fun s => quadE c.length (fun a b => J (c.getD a 0) (c.getD b 0)) (spins s)) =
      ∑ Y ∈ c.toFinset.powerset, Real.exp (-setE J Y) := by
  rw [← sum_onSet c hc fun Y => Real.exp (-setE J Y), partition]
  exact list_sum_congr fun s hs => by rw [setE_onSet c hc s hs]

theorem boltzmann_onSet (c : List ℕ) (hc : c.Nodup) (J : ℕ → ℕ → ℝ) (s : List ℤ)
    (hs : s ∈ words [(0 : ℤ), 1] c.length) :
    boltzmann (words [(0 : ℤ), 1] c.length)
      (fun s => quadE c.length (fun a b => J (c.getD a 0) (c.getD b 0)) (spins s)) s =
      setProb c.toFinset J (onSet c s) := by
  rw [boltzmann, setProb, partition_onSet c hc, setE_onSet c hc s hs]

theorem entropy_onSet (c : List ℕ) (hc : c.Nodup) (J : ℕ → ℕ → ℝ) :
    entropy (words [(0 : ℤ), 1] c.length) (boltzmann (words [(0 : ℤ), 1] c.length)
      fun s => quadE c.length (fun a b => J (c.getD a 0) (c.getD b 0)) (spins s)) =
      setEntropy c.toFinset J := by
  rw [entropy, setEntropy, ← sum_onSet c hc fun X => setProb c.toFinset J X *
    Real.log (setProb c.toFinset J X)]
  congr 1
  exact list_sum_congr fun s hs => by rw [boltzmann_onSet c hc J s hs]

theorem expect_onSet (c : List ℕ) (hc : c.Nodup) (J : ℕ → ℕ → ℝ) (a b : ℕ) (ha : a < c.length)
    (hb : b < c.length) :
    expect (words [(0 : ℤ), 1] c.length)
      (fun s => quadE c.length (fun a b => J (c.getD a 0) (c.getD b 0)) (spins s))
      (fun s => spins s a * spins s b) = setMoment c.toFinset J c[a] c[b] := by
  rw [expect, setMoment, Finset.sum_filter,
    ← sum_onSet c hc fun X => if c[a] ∈ X ∧ c[b] ∈ X then setProb c.toFinset J X else 0]
  refine list_sum_congr fun s hs => ?_
  rw [boltzmann_onSet c hc J s hs]
  have hl := (mem_words.1 hs).1
  have hv : ∀ a, a < c.length → s.getD a 0 = 0 ∨ s.getD a 0 = 1 := by
    intro a ha
    have : s.getD a 0 ∈ s := by
      rw [List.getD_eq_getElem _ _ (hl ▸ ha)]; exact List.getElem_mem _
    simpa using (mem_words.1 hs).2 _ this
  have m1 := mem_onSet c hc s hl a ha
  have m2 := mem_onSet c hc s hl b hb
  simp only [m1, m2]
  unfold spins
  rcases hv a ha with h | h <;> rcases hv b hb with h' | h' <;>
    simp only [h, h'] <;> simp

/-- The couplings are determined by the co-occurrence frequencies. -/
theorem Fits.unique {A : Finset ℕ} {C J J' : ℕ → ℕ → ℝ} (h : Fits A C J) (h' : Fits A C J') : J = J' := by
  obtain ⟨c, hc, rfl⟩ : ∃ c : List ℕ, c.Nodup ∧ c.toFinset = A :=
    ⟨A.toList, A.nodup_toList, A.toList_toFinset⟩
  obtain ⟨hd, ho⟩ := cooc_unique c.length (fun a b => J (c.getD a 0) (c.getD b 0))
    (fun a b => J' (c.getD a 0) (c.getD b 0)) (fun a ha b hb _ => by
      rw [expect_onSet c hc J a b ha hb, expect_onSet c hc J' a b ha hb,
        h.moments _ (by simp) _ (by simp), h'.moments _ (by simp) _ (by simp)])
  funext i j
  by_cases hi : i ∈ c.toFinset ∧ j ∈ c.toFinset
  · obtain ⟨a, ha, rfl⟩ := List.getElem_of_mem (List.mem_toFinset.1 hi.1)
    obtain ⟨b, hb, rfl⟩ := List.getElem_of_mem (List.mem_toFinset.1 hi.2)
    by_cases hab : a = b
    · subst hab
      have := hd a ha
      simp only [List.getD_eq_getElem _ _ ha] at this
      exact this
    · have := ho a ha b hb hab
      simp only [List.getD_eq_getElem _ _ ha, List.getD_eq_getElem _ _ hb] at this
      rw [h.symm c[b] c[a], h'.symm c[b] c[a]] at this
      linarith
  · rw [h.supp i j (by tauto), h'.supp i j (by tauto)]

theorem setMoment_comm (A : Finset ℕ) (J : ℕ → ℕ → ℝ) (i j : ℕ) : setMoment A J i j = setMoment A J j i := by
  unfold setMoment
  congr 1
  ext X
  simp only [Finset.mem_filter]
  tauto

end Verif.Lemmas
