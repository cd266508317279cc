/-
Lemmas on the selection of clusters.
-/
import Verif.Lemmas.Cluster2

namespace Verif.Lemmas
open Verif Verif.Model Verif.Spec

variable {V : Type*} [AddCommGroup V]

theorem mem_pairsOf {α : Type*} {l : List α} {p : α × α} (h : p ∈ pairsOf l) : p.1 ∈ l ∧ p.2 ∈ l := by
  induction l with
  | nil => simp [pairsOf] at h
  | cons a l ih =>
    rw [pairsOf, List.mem_append] at h
    rcases h with h | h
    · obtain ⟨b, hb, rfl⟩ := List.mem_map.1 h
      exact ⟨by simp, by simp [hb]⟩
    · obtain ⟨h1, h2⟩ := ih h
      exact ⟨by simp [h1], by simp [h2]⟩

theorem pairsOf_mem {α : Type*} {l : List α} {a b : α} (ha : a ∈ l) (hb : b ∈ l) (hab : a ≠ b) :
    (a, b) ∈ pairsOf l ∨ (b, a) ∈ pairsOf l := by
  induction l with
  | nil => simp at ha
  | cons c l ih =>
    rw [pairsOf, List.mem_append, List.mem_append]
    rcases List.mem_cons.1 ha with rfl | ha
    · rcases List.mem_cons.1 hb with rfl | hb
      · exact absurd rfl hab
      · exact Or.inl (Or.inl (List.mem_map.2 ⟨b, hb, rfl⟩))
    · rcases List.mem_cons.1 hb with rfl | hb
      · exact Or.inr (Or.inl (List.mem_map.2 ⟨a, by assumption, rfl⟩))
      · rcases ih ha hb with h | h
        · exact Or.inl (Or.inr h)
        · exact Or.inr (Or.inr h)

/-- The clusters of one size. -/
structure LevelOk (U : Finset ℕ) (k : ℕ) (cl : List (List ℕ)) : Prop where
  mem : ∀ g ∈ cl, g.Nodup ∧ g.length = k ∧ g.toFinset ⊆ U ∧ g.Pairwise (· ≤ ·)
  nodup : (cl.map List.toFinset).Nodup

theorem unionSpins_toFinset (a b : List ℕ) :
    (sortSpins (a ++ b).dedup).toFinset = a.toFinset ∪ b.toFinset := by
  rw [sortSpins_toFinset]
  ext x
  simp

theorem unionSpins_nodup (a b : List ℕ) : (sortSpins (a ++ b).dedup).Nodup :=
  sortSpins_nodup (List.nodup_dedup _)

theorem inter_length (a b : List ℕ) :
    ((a.filter fun x => x ∈ b).dedup).length = (a.toFinset ∩ b.toFinset).card := by
  rw [← List.toFinset_card_of_nodup (List.nodup_dedup _)]
  congr 1
  ext x
  simp

theorem inter_card (k : ℕ) (a b : List ℕ) (ha : a.Nodup) (hb : b.Nodup) (hak : a.length = k)
    (hbk : b.length = k) : ((a.filter fun x => x ∈ b).dedup).length + 1 = k ↔
      (a.toFinset ∪ b.toFinset).card = k + 1 := by
  rw [inter_length]
  have h := Finset.card_union_add_card_inter a.toFinset b.toFinset
  rw [List.toFinset_card_of_nodup ha, List.toFinset_card_of_nodup hb] at h
  omega

theorem sorted_eq {a b : List ℕ} (ha : a.Nodup) (hb : b.Nodup) (ha' : a.Pairwise (· ≤ ·))
    (hb' : b.Pairwise (· ≤ ·)) (h : a.toFinset = b.toFinset) : a = b :=
  (List.perm_of_nodup_nodup_toFinset_eq ha hb h).eq_of_pairwise
    (fun _ _ _ _ h1 h2 => le_antisymm h1 h2) ha' hb'

theorem aceStep_fold {S S0 : List ℕ → Py V} {F D : Finset ℕ → V} (hF : Telescopes F D)
    (keep : V → Bool) (U : Finset ℕ) (k : ℕ) (P : List (List ℕ × List ℕ))
    (hP : ∀ p ∈ P, p.1.Nodup ∧ p.1.length = k ∧ p.1.toFinset ⊆ U ∧ p.2.Nodup ∧ p.2.length = k ∧
      p.2.toFinset ⊆ U)
    (out : List (List ℕ)) (d : Dict V) (hout : LevelOk U (k + 1) out) (hd : DictInv D d)
    (hev : ∀ p ∈ P, (p.1.toFinset ∪ p.2.toFinset).card = k + 1 →
      ∀ g : List ℕ, g.Nodup → g.Pairwise (· ≤ ·) → g.toFinset = p.1.toFinset ∪ p.2.toFinset →
        Evaluable S S0 F d g) :
    ∃ out' d', P.foldlM (aceStep (deltaSRun S S0) keep k) (out, d) = .ok (out', d') ∧
      LevelOk U (k + 1) out' ∧ DictInv D d' ∧ DictExt d d' ∧
      (∀ A : Finset ℕ, (∃ g ∈ out', g.toFinset = A) ↔ (∃ g ∈ out, g.toFinset = A) ∨
        ((∃ p ∈ P, A = p.1.toFinset ∪ p.2.toFinset) ∧ A.card = k + 1 ∧ keep (D A) = true)) ∧
      ∀ p ∈ P, (p.1.toFinset ∪ p.2.toFinset).card = k + 1 → ∀ g : List ℕ, g.Nodup →
        g.toFinset = p.1.toFinset ∪ p.2.toFinset → d'.lookup (clusterID g) ≠ none := by
  induction P generalizing out d with
  | nil => exact ⟨out, d, rfl, hout, hd, .refl d, by simp, by simp⟩
  | cons p P ih =>
    obtain ⟨p1, p2, p3, p4, p5, p6⟩ := hP p (by simp)
    have hP' : ∀ q ∈ P, q.1.Nodup ∧ q.1.length = k ∧ q.1.toFinset ⊆ U ∧ q.2.Nodup ∧ q.2.length = k ∧
      q.2.toFinset ⊆ U := fun q hq => hP q (by simp [hq])
    rw [List.foldlM_cons]
    set g := sortSpins (p.1 ++ p.2).dedup with hg
    have hgs : g.toFinset = p.1.toFinset ∪ p.2.toFinset := unionSpins_toFinset _ _
    have hgn : g.Nodup := unionSpins_nodup _ _
    have hgo : g.Pairwise (· ≤ ·) := sortSpins_sorted _
    by_cases hcard : (p.1.toFinset ∪ p.2.toFinset).card = k + 1
    · have hgl : g.length = k + 1 := by rw [← List.toFinset_card_of_nodup hgn, hgs, hcard]
      have hgne : g ≠ [] := by intro h; rw [h] at hgl; simp at hgl
      obtain ⟨d1, e1, i1, x1, q1⟩ := deltaS_ok hF (g.length + 1) g d hgn hgne (by omega) hd
        (hev p (by simp) hcard g hgn hgo hgs)
      have hif := (inter_card k p.1 p.2 p1 p4 p2 p5).2 hcard
      -- the state after this step
      obtain ⟨out1, ho1, hstep, hch⟩ : ∃ out1, LevelOk U (k + 1) out1 ∧
          aceStep (deltaSRun S S0) keep k (out, d) p = .ok (out1, d1) ∧
          ∀ A : Finset ℕ, (∃ g ∈ out1, g.toFinset = A) ↔ (∃ g ∈ out, g.toFinset = A) ∨
            (A = p.1.toFinset ∪ p.2.toFinset ∧ keep (D A) = true) := by
        by_cases hkeep : keep (D g.toFinset) = true ∧ g ∉ out
        · refine ⟨out ++ [g], ⟨?_, ?_⟩, ?_, ?_⟩
          · intro t ht
            rcases List.mem_append.1 ht with ht | ht
            · exact hout.mem t ht
            · rw [List.mem_singleton] at ht
              subst ht
              exact ⟨hgn, hgl, by rw [hgs]; exact Finset.union_subset p3 p6, hgo⟩
          · rw [List.map_append, List.nodup_append]
            refine ⟨hout.nodup, by simp, ?_⟩
            intro A hA B hB
            obtain ⟨t, ht, rfl⟩ := List.mem_map.1 hA
            simp only [List.map_cons, List.map_nil, List.mem_singleton] at hB
            subst hB
            intro he
            obtain ⟨m1, -, -, m4⟩ := hout.mem t ht
            rw [sorted_eq m1 hgn m4 hgo he] at ht
            exact hkeep.2 ht
          · simp only [aceStep]
            rw [if_pos hif, ← hg]
            simp only [deltaSRun, e1]
            rw [if_pos hkeep]
          · intro A
            constructor
            · rintro ⟨t, ht, rfl⟩
              rcases List.mem_append.1 ht with ht | ht
              · exact Or.inl ⟨t, ht, rfl⟩
              · rw [List.mem_singleton] at ht
                subst ht
                exact Or.inr ⟨hgs, hkeep.1⟩
            · rintro (⟨t, ht, rfl⟩ | ⟨rfl, -⟩)
              · exact ⟨t, List.mem_append_left _ ht, rfl⟩
              · exact ⟨g, by simp, hgs⟩
        · refine ⟨out, hout, ?_, ?_⟩
          · simp only [aceStep]
            rw [if_pos hif, ← hg]
            simp only [deltaSRun, e1]
            rw [if_neg hkeep]
          · intro A
            constructor
            · exact fun h => Or.inl h
            · rintro (h | ⟨rfl, h⟩)
              · exact h
              · rw [← hgs] at h ⊢
                have : g ∈ out := by
                  by_contra hc
                  exact hkeep ⟨h, hc⟩
                exact ⟨g, this, rfl⟩
      obtain ⟨out2, d2, e2, l2, i2, x2, c2, q2⟩ := ih hP' out1 d1 ho1 i1 (fun q hq hc t h1 h2 h3 =>
        (hev q (by simp [hq]) hc t h1 h2 h3).mono x1)
      refine ⟨out2, d2, ?_, l2, i2, x1.trans x2, ?_, ?_⟩
      · rw [hstep]; exact e2
      · intro A
        rw [c2 A, hch A]
        constructor
        · rintro ((h | ⟨h1, h2⟩) | ⟨⟨q, hq, h1⟩, h2⟩)
          · exact Or.inl h
          · exact Or.inr ⟨⟨p, by simp, h1⟩, by rw [h1, hcard], h2⟩
          · exact Or.inr ⟨⟨q, by simp [hq], h1⟩, h2⟩
        · rintro (h | ⟨⟨q, hq, h1⟩, h2⟩)
          · exact Or.inl (Or.inl h)
          · rcases List.mem_cons.1 hq with rfl | hq
            · exact Or.inl (Or.inr ⟨h1, h2.2⟩)
            · exact Or.inr ⟨⟨q, hq, h1⟩, h2⟩
      · intro q hq hc t ht hts
        rcases List.mem_cons.1 hq with rfl | hq
        · have : clusterID t = clusterID g := sortSpins_eq_of_toFinset ht hgn (hts.trans hgs.symm)
          rw [this]
          exact x2.ne_none q1
        · exact q2 q hq hc t ht hts
    · have hif : ¬ ((p.1.filter fun x => x ∈ p.2).dedup).length + 1 = k := fun h =>
        hcard ((inter_card k p.1 p.2 p1 p4 p2 p5).1 h)
      obtain ⟨out2, d2, e2, l2, i2, x2, c2, q2⟩ := ih hP' out d hout hd (fun q hq hc t h1 h2 h3 =>
        hev q (by simp [hq]) hc t h1 h2 h3)
      refine ⟨out2, d2, ?_, l2, i2, x2, ?_, ?_⟩
      · have : aceStep (deltaSRun S S0) keep k (out, d) p = .ok (out, d) := by
          simp only [aceStep]
          rw [if_neg hif]
        rw [this]; exact e2
      · intro A
        rw [c2 A]
        constructor
        · rintro (h | ⟨⟨q, hq, h1⟩, h2⟩)
          · exact Or.inl h
          · exact Or.inr ⟨⟨q, by simp [hq], h1⟩, h2⟩
        · rintro (h | ⟨⟨q, hq, h1⟩, h2⟩)
          · exact Or.inl h
          · rcases List.mem_cons.1 hq with rfl | hq
            · exact absurd (h1 ▸ h2.1) hcard
            · exact Or.inr ⟨⟨q, hq, h1⟩, h2⟩
      · intro q hq hc t ht hts
        rcases List.mem_cons.1 hq with rfl | hq
        · exact absurd hc hcard
        · exact q2 q hq hc t ht hts

/-- One level of the selection. -/
theorem aceLevel_ok {S S0 : List ℕ → Py V} {F D : Finset ℕ → V} (hF : Telescopes F D)
    (keep : V → Bool) (U : Finset ℕ) (k : ℕ) (cl : List (List ℕ)) (hcl : LevelOk U k cl)
    (d : Dict V) (hd : DictInv D d)
    (hev : ∀ g : List ℕ, g.Nodup → g.Pairwise (· ≤ ·) → g.length = k + 1 → g.toFinset ⊆ U →
      (∃ b ∈ cl, ∃ c ∈ cl, g.toFinset = b.toFinset ∪ c.toFinset) → Evaluable S S0 F d g) :
    ∃ out' d', (pairsOf cl).foldlM (aceStep (deltaSRun S S0) keep k) ([], d) = .ok (out', d') ∧
      LevelOk U (k + 1) out' ∧ DictInv D d' ∧ DictExt d d' ∧
      (∀ A : Finset ℕ, (∃ g ∈ out', g.toFinset = A) ↔
        (∃ B C : Finset ℕ, (∃ g ∈ cl, g.toFinset = B) ∧ (∃ g ∈ cl, g.toFinset = C) ∧ A = B ∪ C) ∧
          A.card = k + 1 ∧ keep (D A) = true) ∧
      ∀ b ∈ cl, ∀ c ∈ cl, (b.toFinset ∪ c.toFinset).card = k + 1 → ∀ g : List ℕ, g.Nodup →
        g.toFinset = b.toFinset ∪ c.toFinset → d'.lookup (clusterID g) ≠ none := by
  have hP : ∀ p ∈ pairsOf cl, p.1.Nodup ∧ p.1.length = k ∧ p.1.toFinset ⊆ U ∧ p.2.Nodup ∧
      p.2.length = k ∧ p.2.toFinset ⊆ U := by
    intro p hp
    obtain ⟨h1, h2⟩ := mem_pairsOf hp
    obtain ⟨a1, a2, a3, -⟩ := hcl.mem _ h1
    obtain ⟨b1, b2, b3, -⟩ := hcl.mem _ h2
    exact ⟨a1, a2, a3, b1, b2, b3⟩
  obtain ⟨out', d', e, l, i, x, c, q⟩ := aceStep_fold (S := S) (S0 := S0) hF keep U k (pairsOf cl) hP
    [] d ⟨by simp, by simp⟩ hd (by
      intro p hp hc g h1 h2 h3
      obtain ⟨-, -, a3, -, -, b3⟩ := hP p hp
      obtain ⟨m1, m2⟩ := mem_pairsOf hp
      refine hev g h1 h2 ?_ (by rw [h3]; exact Finset.union_subset a3 b3) ⟨_, m1, _, m2, h3⟩
      rw [← List.toFinset_card_of_nodup h1, h3, hc])
  have hne : ∀ b ∈ cl, ∀ c ∈ cl, (b.toFinset ∪ c.toFinset).card = k + 1 → b ≠ c := by
    rintro b hb c - hc rfl
    rw [Finset.union_self, List.toFinset_card_of_nodup (hcl.mem b hb).1, (hcl.mem b hb).2.1] at hc
    omega
  refine ⟨out', d', e, l, i, x, ?_, ?_⟩
  · intro A
    rw [c A]
    simp only [List.not_mem_nil, false_and, exists_false, false_or]
    constructor
    · rintro ⟨⟨p, hp, h1⟩, h2⟩
      obtain ⟨m1, m2⟩ := mem_pairsOf hp
      exact ⟨⟨_, _, ⟨_, m1, rfl⟩, ⟨_, m2, rfl⟩, h1⟩, h2⟩
    · rintro ⟨⟨B, C, ⟨b, hb, rfl⟩, ⟨c, hc, rfl⟩, h1⟩, h2⟩
      refine ⟨?_, h2⟩
      rcases pairsOf_mem hb hc (hne b hb c hc (h1 ▸ h2.1)) with h | h
      · exact ⟨_, h, h1⟩
      · exact ⟨_, h, by rw [h1, Finset.union_comm]⟩
  · intro b hb c hc hcard g hg hgs
    rcases pairsOf_mem hb hc (hne b hb c hc hcard) with h | h
    · exact q _ h hcard g hg hgs
    · exact q _ h (by simpa only [Finset.union_comm] using hcard) g hg
        (by simpa only [Finset.union_comm] using hgs)

theorem Selected.card {keep : Finset ℕ → Prop} {U : Finset ℕ} {k : ℕ} {A : Finset ℕ}
    (h : Selected keep U k A) : A.card = k := by
  match k, h with
  | 1, h => obtain ⟨i, -, rfl⟩ := h; simp
  | k + 2, h => exact h.1

theorem Selected.subset {keep : Finset ℕ → Prop} {U : Finset ℕ} {k : ℕ} {A : Finset ℕ}
    (h : Selected keep U k A) : A ⊆ U := by
  induction k generalizing A with
  | zero => exact h.elim
  | succ k ih =>
    cases k with
    | zero => obtain ⟨i, hi, rfl⟩ := h; simpa using hi
    | succ k =>
      obtain ⟨-, -, B, C, hB, hC, rfl⟩ := h
      exact Finset.union_subset (ih hB) (ih hC)

theorem Selected.succ {keep : Finset ℕ → Prop} {U : Finset ℕ} {k : ℕ} (hk : 1 ≤ k) {A : Finset ℕ} :
    Selected keep U (k + 1) A ↔ (∃ B C, Selected keep U k B ∧ Selected keep U k C ∧ A = B ∪ C) ∧
      A.card = k + 1 ∧ keep A := by
  obtain ⟨j, rfl⟩ := Nat.exists_eq_add_of_le' hk
  show (_ ∧ _ ∧ _) ↔ _
  constructor
  · rintro ⟨h1, h2, h3⟩; exact ⟨h3, h1, h2⟩
  · rintro ⟨h3, h1, h2⟩; exact ⟨h1, h2, h3⟩

theorem Selected.none_above {keep : Finset ℕ → Prop} {U : Finset ℕ} {k : ℕ} (hk : 1 ≤ k)
    (h : ∀ A, ¬ Selected keep U k A) (j : ℕ) (hj : k ≤ j) (A : Finset ℕ) : ¬ Selected keep U j A := by
  induction j, hj using Nat.le_induction generalizing A with
  | base => exact h A
  | succ j hj ih =>
    rw [Selected.succ (hk.trans hj)]
    rintro ⟨⟨B, C, hB, -⟩, -⟩
    exact ih B hB

/-- The loop over sizes. `Q` is what is known of the dictionaries at each size. -/
theorem aceLoop_ok {S S0 : List ℕ → Py V} {F D : Finset ℕ → V} (hF : Telescopes F D)
    (keep : V → Bool) (U : Finset ℕ) (Q : ℕ → Dict V → Prop)
    (hQev : ∀ k d, 1 ≤ k → DictInv D d → Q k d → ∀ g : List ℕ, g.Nodup → g.Pairwise (· ≤ ·) →
      g.length = k + 1 → g.toFinset ⊆ U →
      (∃ B C, Selected (fun A => keep (D A) = true) U k B ∧ Selected (fun A => keep (D A) = true) U k C ∧
        g.toFinset = B ∪ C) → Evaluable S S0 F d g)
    (hQstep : ∀ k d d', 1 ≤ k → Q k d → DictExt d d' →
      (∀ B C, Selected (fun A => keep (D A) = true) U k B → Selected (fun A => keep (D A) = true) U k C →
        (B ∪ C).card = k + 1 → ∀ g : List ℕ, g.Nodup → g.toFinset = B ∪ C →
        d'.lookup (clusterID g) ≠ none) → Q (k + 1) d')
    (fuel : ℕ) : ∀ (k : ℕ) (cl : List (List ℕ)) (d : Dict V), 1 ≤ k → k ≤ U.card + 1 →
      U.card + 2 ≤ fuel + k → LevelOk U k cl →
      (∀ A, (∃ g ∈ cl, g.toFinset = A) ↔ Selected (fun A => keep (D A) = true) U k A) →
      DictInv D d → Q k d →
      ∃ levels d', aceLoop (deltaSRun S S0) keep fuel k cl d = .ok (cl :: levels, d') ∧
        DictInv D d' ∧ DictExt d d' ∧
        (∀ g ∈ (cl :: levels).flatten, g.Nodup ∧ k ≤ g.length ∧ g.toFinset ⊆ U ∧ g.Pairwise (· ≤ ·)) ∧
        ((cl :: levels).flatten.map List.toFinset).Nodup ∧
        (∀ i (h : i < (cl :: levels).length),
          (∀ A, (∃ g ∈ (cl :: levels)[i], g.toFinset = A) ↔
            Selected (fun A => keep (D A) = true) U (k + i) A)) ∧
        (∀ A, (∃ g ∈ (cl :: levels).flatten, g.toFinset = A) ↔
          ∃ j, k ≤ j ∧ Selected (fun A => keep (D A) = true) U j A) ∧
        (∀ g ∈ levels.flatten, d'.lookup (clusterID g) ≠ none) ∧
        (∀ B C, Selected (fun A => keep (D A) = true) U k B →
          Selected (fun A => keep (D A) = true) U k C → (B ∪ C).card = k + 1 → ∀ g : List ℕ, g.Nodup →
            g.toFinset = B ∪ C → d'.lookup (clusterID g) ≠ none) := by
  induction fuel with
  | zero => intro k cl d _ h1 h2; omega
  | succ fuel ih =>
    intro k cl d hk hkU hfuel hcl hsel hd hQ
    by_cases hlen : cl.length > 0
    · obtain ⟨g0, hg0⟩ := List.exists_mem_of_length_pos hlen
      have hkU' : k ≤ U.card := by
        obtain ⟨m1, m2, m3, -⟩ := hcl.mem g0 hg0
        rw [← m2, ← List.toFinset_card_of_nodup m1]
        exact Finset.card_le_card m3
      obtain ⟨cl', d1, e1, l1, i1, x1, c1, q1⟩ := aceLevel_ok hF keep U k cl hcl d hd
        fun g g1 g2 g3 g4 ⟨b, hb, c, hc, h⟩ => hQev k d hk hd hQ g g1 g2 g3 g4
          ⟨_, _, (hsel _).1 ⟨b, hb, rfl⟩, (hsel _).1 ⟨c, hc, rfl⟩, h⟩
      have hsel' : ∀ A, (∃ g ∈ cl', g.toFinset = A) ↔
          Selected (fun A => keep (D A) = true) U (k + 1) A := by
        intro A
        rw [c1 A, Selected.succ hk]
        simp only [hsel]
      have hpairs : ∀ B C, Selected (fun A => keep (D A) = true) U k B →
          Selected (fun A => keep (D A) = true) U k C → (B ∪ C).card = k + 1 → ∀ g : List ℕ, g.Nodup →
            g.toFinset = B ∪ C → d1.lookup (clusterID g) ≠ none := by
        intro B C hB hC hc g hg hgs
        obtain ⟨b, hb, rfl⟩ := (hsel B).2 hB
        obtain ⟨c, hc', rfl⟩ := (hsel C).2 hC
        exact q1 b hb c hc' hc g hg hgs
      obtain ⟨levels, d2, e2, i2, x2, f1, f2, f3, f4, f5, -⟩ := ih (k + 1) cl' d1 (by omega) (by omega)
        (by omega) l1 hsel' i1 (hQstep k d d1 hk hQ x1 hpairs)
      refine ⟨cl' :: levels, d2, ?_, i2, x1.trans x2, ?_, ?_, ?_, ?_, ?_, ?_⟩
      · rw [aceLoop, if_pos hlen, e1]
        simp only [e2]
      · intro g hg
        rw [List.flatten_cons, List.mem_append] at hg
        rcases hg with hg | hg
        · obtain ⟨m1, m2, m3, m4⟩ := hcl.mem g hg
          exact ⟨m1, m2.ge, m3, m4⟩
        · obtain ⟨m1, m2, m3, m4⟩ := f1 g hg
          exact ⟨m1, by omega, m3, m4⟩
      · rw [List.flatten_cons, List.map_append, List.nodup_append]
        refine ⟨hcl.nodup, f2, ?_⟩
        rintro A hA B hB rfl
        obtain ⟨a, ha, rfl⟩ := List.mem_map.1 hA
        obtain ⟨b, hb, hab⟩ := List.mem_map.1 hB
        obtain ⟨m1, m2, -⟩ := hcl.mem a ha
        obtain ⟨n1, n2, -⟩ := f1 b hb
        have := congrArg Finset.card hab
        rw [List.toFinset_card_of_nodup m1, List.toFinset_card_of_nodup n1] at this
        omega
      · intro i hi A
        cases i with
        | zero => exact hsel A
        | succ i =>
          have := f3 i (by simpa using hi) A
          rw [show k + (i + 1) = k + 1 + i by omega]
          exact this
      · intro A
        rw [List.flatten_cons]
        constructor
        · rintro ⟨g, hg, rfl⟩
          rcases List.mem_append.1 hg with hg | hg
          · exact ⟨k, le_refl k, (hsel _).1 ⟨g, hg, rfl⟩⟩
          · obtain ⟨j, hj, h⟩ := (f4 _).1 ⟨g, hg, rfl⟩
            exact ⟨j, by omega, h⟩
        · rintro ⟨j, hj, h⟩
          rcases hj.eq_or_lt with rfl | hj
          · obtain ⟨g, hg, h⟩ := (hsel A).2 h
            exact ⟨g, List.mem_append_left _ hg, h⟩
          · obtain ⟨g, hg, h⟩ := (f4 A).2 ⟨j, hj, h⟩
            exact ⟨g, List.mem_append_right _ hg, h⟩
      · intro g hg
        rw [List.flatten_cons, List.mem_append] at hg
        rcases hg with hg | hg
        · obtain ⟨⟨B, C, hB, hC, h1⟩, h2, -⟩ := (Selected.succ hk).1 ((hsel' _).1 ⟨g, hg, rfl⟩)
          exact x2.ne_none (hpairs B C hB hC (h1 ▸ h2) g (l1.mem g hg).1 h1)
        · exact f5 g hg
      · intro B C hB hC hc g hg hgs
        exact x2.ne_none (hpairs B C hB hC hc g hg hgs)
    · have hnil : cl = [] := by
        cases cl with
        | nil => rfl
        | cons a l => simp at hlen
      subst hnil
      have hno : ∀ A, ¬ Selected (fun A => keep (D A) = true) U k A := fun A hA => by
        obtain ⟨g, hg, -⟩ := (hsel A).2 hA
        simp at hg
      refine ⟨[], d, by simp [aceLoop], hd, .refl d, by simp, by simp, ?_, ?_, by simp, ?_⟩
      · intro i hi A
        have hi0 : i = 0 := by simpa using hi
        subst hi0
        exact hsel A
      · intro A
        constructor
        · simp
        · rintro ⟨j, hj, h⟩
          exact absurd h (Selected.none_above hk hno j hj A)
      · intro B C hB
        exact absurd hB (hno B)

theorem aceAdd_fold {D : Finset ℕ → V} {d : Dict V} (hd : DictInv D d) (L : List (List ℕ))
    (hL : ∀ g ∈ L, d.lookup (clusterID g) ≠ none) (v : V) :
    L.foldlM (aceAdd d) v = .ok (v + (L.map fun g => D g.toFinset).sum) := by
  induction L generalizing v with
  | nil => simp [pure, Except.pure]
  | cons g L ih =>
    obtain ⟨w, hw⟩ := Option.ne_none_iff_exists'.1 (hL g (by simp))
    have hstep : aceAdd d v g = .ok (v + D g.toFinset) := by
      rw [aceAdd, hw, hd.val _ _ hw, clusterID, sortSpins_toFinset]
    rw [List.foldlM_cons, hstep]
    show List.foldlM _ _ L = _
    rw [ih fun t ht => hL t (by simp [ht])]
    simp [add_assoc]

theorem singles_ok (c : List ℕ) (hc : c.Nodup) : LevelOk c.toFinset 1 (c.map fun i => [i]) := by
  refine ⟨?_, ?_⟩
  · intro g hg
    obtain ⟨i, hi, rfl⟩ := List.mem_map.1 hg
    simp [hi]
  · rw [List.map_map]
    refine hc.map fun i j h => ?_
    simpa using h

theorem singles_selected (keep : Finset ℕ → Prop) (c : List ℕ) (A : Finset ℕ) :
    (∃ g ∈ c.map fun i => [i], g.toFinset = A) ↔ Selected keep c.toFinset 1 A := by
  constructor
  · rintro ⟨g, hg, rfl⟩
    obtain ⟨i, hi, rfl⟩ := List.mem_map.1 hg
    exact ⟨i, by simpa using hi, by simp⟩
  · rintro ⟨i, hi, rfl⟩
    exact ⟨[i], List.mem_map.2 ⟨i, by simpa using hi, rfl⟩, by simp⟩

/-- `solve` from the loop to the sums. -/
theorem aceSolve_ok {S S0 : List ℕ → Py V} {F D : Finset ℕ → V} (hF : Telescopes F D)
    (keep : V → Bool) (c : List ℕ) (hc : c.Nodup) (hc2 : 2 ≤ c.length) (s0 : V) (hs0 : S0 c = .ok s0)
    (Q : ℕ → Dict V → Prop) (hQ1 : Q 1 [])
    (hQev : ∀ k d, 1 ≤ k → DictInv D d → Q k d → ∀ g : List ℕ, g.Nodup → g.Pairwise (· ≤ ·) →
      g.length = k + 1 → g.toFinset ⊆ c.toFinset →
      (∃ B C, Selected (fun A => keep (D A) = true) c.toFinset k B ∧
        Selected (fun A => keep (D A) = true) c.toFinset k C ∧ g.toFinset = B ∪ C) → Evaluable S S0 F d g)
    (hQstep : ∀ k d d', 1 ≤ k → Q k d → DictExt d d' →
      (∀ B C, Selected (fun A => keep (D A) = true) c.toFinset k B →
        Selected (fun A => keep (D A) = true) c.toFinset k C →
        (B ∪ C).card = k + 1 → ∀ g : List ℕ, g.Nodup → g.toFinset = B ∪ C →
        d'.lookup (clusterID g) ≠ none) → Q (k + 1) d') :
    ∃ levels d', aceSolve S S0 keep true false c [] =
        .ok (s0 + (levels.flatten.map fun g => D g.toFinset).sum, levels, d') ∧ DictInv D d' ∧
      levels ≠ [] ∧
      (∀ g ∈ levels.flatten, g.Nodup ∧ g ≠ [] ∧ g.toFinset ⊆ c.toFinset ∧ g.Pairwise (· ≤ ·)) ∧
      (levels.flatten.map List.toFinset).Nodup ∧
      (∀ i (h : i < levels.length), (∀ A, (∃ g ∈ levels[i], g.toFinset = A) ↔
        Selected (fun A => keep (D A) = true) c.toFinset (i + 1) A)) ∧
      (∀ A, (∃ g ∈ levels.flatten, g.toFinset = A) ↔
        ∃ j, Selected (fun A => keep (D A) = true) c.toFinset j A) := by
  have hcard : c.toFinset.card = c.length := List.toFinset_card_of_nodup hc
  obtain ⟨levels, d', e, i, -, f1, f2, f3, f4, f5, f6⟩ := aceLoop_ok (S := S) (S0 := S0) hF keep c.toFinset Q
    hQev hQstep (c.length + 2) 1 (c.map fun i => [i]) [] (le_refl 1) (by omega) (by omega)
    (singles_ok c hc) (singles_selected _ c) (dictInv_nil D) hQ1
  have hdelta : deltaSRef S S0 true false = deltaSRun S S0 := by
    funext a b
    simp [deltaSRef]
  -- single spins are stored, as parts of pairs
  have hsingle : ∀ i ∈ c, d'.lookup (clusterID [i]) ≠ none := by
    intro a ha
    obtain ⟨b, hb, hab⟩ : ∃ b ∈ c, b ≠ a := by
      by_contra hcon
      push Not at hcon
      have : c.toFinset ⊆ {a} := fun x hx => by
        rw [Finset.mem_singleton]; exact hcon x (by simpa using hx)
      have := Finset.card_le_card this
      rw [Finset.card_singleton] at this
      omega
    have h1 := f6 {a} {b} ⟨a, by simpa using ha, rfl⟩ ⟨b, by simpa using hb, rfl⟩
      (by rw [Finset.card_union_of_disjoint (by simpa using hab.symm)]; simp) [a, b]
      (by simp [hab.symm]) (by ext x; simp)
    refine i.closed _ h1 [a] (by simp) (by simp) ?_
    rw [clusterID, sortSpins_toFinset]
    simp
  have hlook : ∀ g ∈ ((c.map fun i => [i]) :: levels).flatten, d'.lookup (clusterID g) ≠ none := by
    intro g hg
    rw [List.flatten_cons, List.mem_append] at hg
    rcases hg with hg | hg
    · obtain ⟨a, ha, rfl⟩ := List.mem_map.1 hg
      exact hsingle a ha
    · exact f5 g hg
  refine ⟨(c.map fun i => [i]) :: levels, d', ?_, i, by simp, ?_, f2, ?_, ?_⟩
  · unfold aceSolve
    rw [if_neg (by simp), hdelta, e]
    simp only [if_true, hs0]
    rw [aceAdd_fold i _ hlook]
  · intro g hg
    obtain ⟨m1, m2, m3, m4⟩ := f1 g hg
    exact ⟨m1, by rintro rfl; simp at m2, m3, m4⟩
  · intro j hj A
    rw [f3 j hj A, Nat.add_comm]
  · intro A
    rw [f4 A]
    constructor
    · rintro ⟨j, -, h⟩; exact ⟨j, h⟩
    · rintro ⟨j, h⟩
      refine ⟨j, ?_, h⟩
      cases j with
      | zero => exact h.elim
      | succ j => omega

/-- If everything is kept, all sets of spins are selected. -/
theorem selected_all (keep : Finset ℕ → Prop) (hkeep : ∀ A, keep A) (U : Finset ℕ) (k : ℕ) (hk : 1 ≤ k)
    (A : Finset ℕ) : Selected keep U k A ↔ A ⊆ U ∧ A.card = k := by
  refine ⟨fun h => ⟨Selected.subset h, Selected.card h⟩, ?_⟩
  induction k, hk using Nat.le_induction generalizing A with
  | base =>
    rintro ⟨h1, h2⟩
    obtain ⟨i, rfl⟩ := Finset.card_eq_one.1 h2
    exact ⟨i, by simpa using h1, rfl⟩
  | succ k hk ih =>
    rintro ⟨h1, h2⟩
    rw [Selected.succ hk]
    refine ⟨?_, h2, hkeep A⟩
    obtain ⟨x, hx, y, hy, hxy⟩ := Finset.one_lt_card.1 (show 1 < A.card by omega)
    refine ⟨A.erase x, A.erase y, ih _ ⟨(Finset.erase_subset _ _).trans h1, ?_⟩,
      ih _ ⟨(Finset.erase_subset _ _).trans h1, ?_⟩, ?_⟩
    · rw [Finset.card_erase_of_mem hx]; omega
    · rw [Finset.card_erase_of_mem hy]; omega
    · ext z
      simp only [Finset.mem_union, Finset.mem_erase]
      constructor
      · intro hz
        by_cases h : z = x
        · right; exact ⟨by rw [h]; exact hxy, hz⟩
        · left; exact ⟨h, hz⟩
      · rintro (⟨-, h⟩ | ⟨-, h⟩) <;> exact h

end Verif.Lemmas
