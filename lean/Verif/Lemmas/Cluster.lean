/-
Lemmas on the cluster expansion.
-/
import Verif.Model.Cluster
import Verif.Spec.Cluster
import Verif.Lemmas.Cells
import Mathlib.Data.Finset.Powerset
import Mathlib.Data.Finset.Card
import Mathlib.Data.List.Dedup
import Mathlib.Tactic.Linarith
import Mathlib.Tactic.Abel

namespace Verif.Lemmas
open Verif Verif.Model Verif.Spec

theorem subsets_ok (l : List ℕ) (hl : l.Nodup) (k : ℕ) (hk : 1 ≤ k) :
    ∃ L, subsets l k = .ok L ∧ (∀ s ∈ L, s.Nodup ∧ s.length = k ∧ ∀ x ∈ s, x ∈ l) ∧
      (L.map List.toFinset).Nodup ∧
      ∀ A : Finset ℕ, A ⊆ l.toFinset → A.card = k → ∃ s ∈ L, s.toFinset = A := by
  induction l generalizing k with
  | nil =>
    refine ⟨[], ?_, by simp, by simp, fun A hA hc => ?_⟩
    · unfold subsets
      rw [if_neg (by simp), if_neg (by simp; omega), if_pos (by simp; omega)]
    · simp at hA; subst hA; simp at hc; omega
  | cons s rest ih =>
    have hdup : ¬ ((s :: rest).length ≠ (s :: rest).dedup.length) := by
      rw [List.dedup_eq_self.2 hl]; simp
    have hcard : (s :: rest).toFinset.card = (s :: rest).length := List.toFinset_card_of_nodup hl
    rcases lt_trichotomy k (s :: rest).length with hlt | heq | hgt
    · by_cases h1 : k = 1
      · subst h1
        refine ⟨(s :: rest).map fun s => [s], ?_, ?_, ?_, ?_⟩
        · unfold subsets
          rw [if_neg hdup, if_neg (by exact_mod_cast hlt.ne), if_neg (by push_cast; push_cast at hlt; omega),
            if_neg (by omega), if_pos (by norm_num)]
        · intro t ht
          obtain ⟨x, hx, rfl⟩ := List.mem_map.1 ht
          simpa using hx
        · rw [List.map_map]
          apply hl.map
          intro a b hab
          simpa using hab
        · intro A hA hc
          obtain ⟨x, rfl⟩ := Finset.card_eq_one.1 hc
          refine ⟨[x], List.mem_map.2 ⟨x, ?_, rfl⟩, by simp⟩
          simpa using hA
      · have hr : rest.Nodup := (List.nodup_cons.1 hl).2
        have hs : s ∉ rest := (List.nodup_cons.1 hl).1
        obtain ⟨L1, e1, a1, b1, c1⟩ := ih hr k hk
        obtain ⟨L2, e2, a2, b2, c2⟩ := ih hr (k - 1) (by omega)
        refine ⟨L1 ++ L2.map fun r => r ++ [s], ?_, ?_, ?_, ?_⟩
        · unfold subsets
          rw [if_neg hdup, if_neg (by exact_mod_cast hlt.ne), if_neg (by push_cast; push_cast at hlt; omega),
            if_neg (by omega), if_neg (by omega)]
          simp only
          rw [e1, show ((k : ℤ) - 1) = ((k - 1 : ℕ) : ℤ) by omega, e2]
        · intro t ht
          rcases List.mem_append.1 ht with ht | ht
          · obtain ⟨q1, q2, q3⟩ := a1 t ht
            exact ⟨q1, q2, fun x hx => List.mem_cons_of_mem _ (q3 x hx)⟩
          · obtain ⟨r, hrm, rfl⟩ := List.mem_map.1 ht
            obtain ⟨q1, q2, q3⟩ := a2 r hrm
            refine ⟨?_, by simp; omega, ?_⟩
            · rw [List.nodup_append]
              refine ⟨q1, by simp, ?_⟩
              intro x hx y hy
              simp at hy
              subst hy
              rintro rfl
              exact hs (q3 x hx)
            · intro x hx
              rcases List.mem_append.1 hx with hx | hx
              · exact List.mem_cons_of_mem _ (q3 x hx)
              · simp at hx; simp [hx]
        · rw [List.map_append, List.nodup_append]
          refine ⟨b1, ?_, ?_⟩
          · rw [List.map_map]
            have b2' : L2.Nodup := List.Nodup.of_map _ b2
            apply List.Nodup.map_on _ b2'
            intro x hx y hy hxy
            simp only [Function.comp_def] at hxy
            apply List.inj_on_of_nodup_map b2 hx hy
            have : ∀ r ∈ L2, r.toFinset = (r ++ [s]).toFinset.erase s := by
              intro r hrm
              ext z
              simp only [List.toFinset_append, Finset.mem_erase, Finset.mem_union, List.mem_toFinset,
                List.mem_singleton]
              constructor
              · intro hz
                exact ⟨fun hzs => hs (hzs ▸ (a2 r hrm).2.2 z hz), Or.inl hz⟩
              · rintro ⟨h1, h2 | h2⟩
                · exact h2
                · exact absurd h2 h1
            rw [this x hx, this y hy, hxy]
          · intro A hA B hB
            obtain ⟨t, ht, rfl⟩ := List.mem_map.1 hA
            obtain ⟨t', ht', rfl⟩ := List.mem_map.1 hB
            obtain ⟨r, hrm, rfl⟩ := List.mem_map.1 ht'
            intro h
            have : s ∈ t.toFinset := by rw [h]; simp
            exact hs ((a1 t ht).2.2 s (by simpa using this))
        · intro A hA hc
          by_cases hsA : s ∈ A
          · obtain ⟨r, hrm, hre⟩ := c2 (A.erase s) (by
              intro z hz
              have h1 := hA (Finset.mem_of_mem_erase hz)
              simp only [List.toFinset_cons, Finset.mem_insert, List.mem_toFinset] at h1 ⊢
              exact h1.resolve_left (Finset.ne_of_mem_erase hz)) (by
              rw [Finset.card_erase_of_mem hsA, hc])
            refine ⟨r ++ [s], List.mem_append_right _ (List.mem_map.2 ⟨r, hrm, rfl⟩), ?_⟩
            rw [List.toFinset_append, hre]
            ext z
            simp only [Finset.mem_union, Finset.mem_erase, List.mem_toFinset, List.mem_singleton]
            constructor
            · rintro (⟨_, h⟩ | rfl)
              · exact h
              · exact hsA
            · intro hz
              by_cases hzs : z = s
              · exact Or.inr hzs
              · exact Or.inl ⟨hzs, hz⟩
          · obtain ⟨r, hrm, hre⟩ := c1 A (by
              intro z hz
              have h1 := hA hz
              simp only [List.toFinset_cons, Finset.mem_insert, List.mem_toFinset] at h1 ⊢
              exact h1.resolve_left (by rintro rfl; exact hsA hz)) hc
            exact ⟨r, List.mem_append_left _ hrm, hre⟩
    · refine ⟨[s :: rest], ?_, ?_, by simp, ?_⟩
      · unfold subsets
        rw [if_neg hdup, if_pos (by exact_mod_cast heq)]
      · intro t ht
        simp only [List.mem_singleton] at ht
        subst ht
        exact ⟨hl, heq.symm, fun x hx => hx⟩
      · intro A hA hc
        exact ⟨_, List.mem_singleton.2 rfl, (Finset.eq_of_subset_of_card_le hA (by omega)).symm⟩
    · refine ⟨[], ?_, by simp, by simp, ?_⟩
      · unfold subsets
        rw [if_neg hdup, if_neg (by exact_mod_cast hgt.ne'), if_pos (by exact_mod_cast hgt)]
      · intro A hA hc
        have := Finset.card_le_card hA
        omega

/-- A sum over the subsets found is the sum over the sets of that size. -/
theorem subsets_sum {V : Type*} [AddCommGroup V] (l : List ℕ) (k : ℕ) (L : List (List ℕ))
    (h1 : ∀ s ∈ L, s.Nodup ∧ s.length = k ∧ ∀ x ∈ s, x ∈ l) (h2 : (L.map List.toFinset).Nodup)
    (h3 : ∀ A : Finset ℕ, A ⊆ l.toFinset → A.card = k → ∃ s ∈ L, s.toFinset = A)
    (D : Finset ℕ → V) :
    (L.map fun s => D s.toFinset).sum = ∑ A ∈ l.toFinset.powersetCard k, D A := by
  have : (L.map List.toFinset).toFinset = l.toFinset.powersetCard k := by
    ext A
    rw [List.mem_toFinset, List.mem_map, Finset.mem_powersetCard]
    constructor
    · rintro ⟨s, hs, rfl⟩
      obtain ⟨q1, q2, q3⟩ := h1 s hs
      refine ⟨fun x hx => ?_, by rw [List.toFinset_card_of_nodup q1, q2]⟩
      rw [List.mem_toFinset] at hx ⊢
      exact q3 x hx
    · rintro ⟨q1, q2⟩
      exact h3 A q1 q2
  rw [← this, List.sum_toFinset _ h2, List.map_map]
  rfl

theorem sortSpins_perm (l : List ℕ) : (sortSpins l).Perm l := List.perm_insertionSort _ l

theorem sortSpins_toFinset (l : List ℕ) : (sortSpins l).toFinset = l.toFinset :=
  List.toFinset_eq_of_perm _ _ (sortSpins_perm l)

theorem sortSpins_nodup {l : List ℕ} (h : l.Nodup) : (sortSpins l).Nodup :=
  (sortSpins_perm l).nodup_iff.2 h

theorem sortSpins_sorted (l : List ℕ) : (sortSpins l).Pairwise (· ≤ ·) :=
  List.pairwise_insertionSort _ l

theorem sortSpins_eq_of_perm {l l' : List ℕ} (h : l.Perm l') : sortSpins l = sortSpins l' :=
  List.Perm.eq_of_pairwise (fun _ _ _ _ h1 h2 => le_antisymm h1 h2) (sortSpins_sorted l)
    (sortSpins_sorted l') ((sortSpins_perm l).trans (h.trans (sortSpins_perm l').symm))

theorem sortSpins_eq_of_toFinset {l l' : List ℕ} (h : l.Nodup) (h' : l'.Nodup)
    (he : l.toFinset = l'.toFinset) : sortSpins l = sortSpins l' :=
  sortSpins_eq_of_perm (List.perm_of_nodup_nodup_toFinset_eq h h' he)

/-! ### Contributions -/

/-- Every function of sets has contributions. -/
theorem exists_telescopes {V : Type*} [AddCommGroup V] (F : Finset ℕ → V) : ∃ D, Telescopes F D := by
  let D : Finset ℕ → V := Finset.strongInduction (p := fun _ => V) fun A ih =>
    F A - ∑ B ∈ A.ssubsets.attach, if B.1 = ∅ then 0 else ih B.1 (Finset.mem_ssubsets.1 B.2)
  have hD : ∀ A, D A = F A - ∑ B ∈ A.ssubsets, if B = ∅ then 0 else D B := by
    intro A
    show Finset.strongInduction _ A = _
    rw [Finset.strongInduction_eq]
    rw [← Finset.sum_attach A.ssubsets]
  refine ⟨D, fun A hA => ?_⟩
  have h1 : ∑ B ∈ A.powerset.erase ∅, D B = ∑ B ∈ A.powerset, if B = ∅ then 0 else D B := by
    rw [← Finset.add_sum_erase _ _ (Finset.empty_mem_powerset A), if_pos rfl, zero_add]
    apply Finset.sum_congr rfl
    intro B hB
    rw [if_neg (Finset.ne_of_mem_erase hB)]
  rw [h1, ← Finset.add_sum_erase _ _ (Finset.mem_powerset_self A), if_neg hA.ne_empty, hD A]
  show F A - ∑ B ∈ A.powerset.erase A, _ + _ = _
  abel

theorem telescopes_unique {V : Type*} [AddCommGroup V] {F D D' : Finset ℕ → V} (h : Telescopes F D)
    (h' : Telescopes F D') (A : Finset ℕ) (hA : A.Nonempty) : D A = D' A := by
  induction A using Finset.strongInduction with
  | _ A ih =>
    have e : ∀ D : Finset ℕ → V, ∑ B ∈ A.powerset.erase ∅, D B =
        D A + ∑ B ∈ (A.powerset.erase ∅).erase A, D B := fun D =>
      (Finset.add_sum_erase _ _ (Finset.mem_erase.2 ⟨hA.ne_empty, Finset.mem_powerset_self A⟩)).symm
    have h1 := h A hA
    have h2 := h' A hA
    rw [e] at h1 h2
    have : ∑ B ∈ (A.powerset.erase ∅).erase A, D B = ∑ B ∈ (A.powerset.erase ∅).erase A, D' B := by
      apply Finset.sum_congr rfl
      intro B hB
      simp only [Finset.mem_erase, Finset.mem_powerset] at hB
      exact ih B (lt_of_le_of_ne hB.2.2 hB.1) (Finset.nonempty_iff_ne_empty.2 hB.2.1)
    rw [this] at h1
    exact add_right_cancel (h1.trans h2.symm)

/-- The sum over all sizes below the full one. -/
theorem telescopes_sizes {V : Type*} [AddCommGroup V] {F D : Finset ℕ → V} (h : Telescopes F D)
    (A : Finset ℕ) (hA : A.Nonempty) :
    D A = F A - ((pyRange 1 A.card).map fun k => ∑ B ∈ A.powersetCard k, D B).sum := by
  have h1 := h A hA
  have h2 : ∑ B ∈ A.powerset, D B = D ∅ + ∑ B ∈ A.powerset.erase ∅, D B :=
    (Finset.add_sum_erase _ _ (Finset.empty_mem_powerset A)).symm
  rw [Finset.sum_powerset, Finset.sum_range_succ, Finset.powersetCard_self, Finset.sum_singleton] at h2
  have hc : 1 ≤ A.card := hA.card_pos
  have h3 : ∑ k ∈ Finset.range A.card, ∑ B ∈ A.powersetCard k, D B =
      D ∅ + ((pyRange 1 A.card).map fun k => ∑ B ∈ A.powersetCard k, D B).sum := by
    have : Finset.range A.card = (0 :: pyRange 1 A.card).toFinset := by
      ext k
      simp only [Finset.mem_range, List.mem_toFinset, List.mem_cons, mem_pyRange]
      omega
    rw [this, List.sum_toFinset]
    · simp
    · rw [List.nodup_cons]
      refine ⟨by simp [mem_pyRange], by unfold pyRange; exact List.nodup_range'⟩
  rw [h3, h1] at h2
  have : D A = F A - ((pyRange 1 A.card).map fun k => ∑ B ∈ A.powersetCard k, D B).sum := by
    have h4 : D ∅ + (((pyRange 1 A.card).map fun k => ∑ B ∈ A.powersetCard k, D B).sum + D A) =
        D ∅ + F A := by rw [← h2]; abel
    rw [← add_left_cancel h4]
    abel
  exact this

end Verif.Lemmas
