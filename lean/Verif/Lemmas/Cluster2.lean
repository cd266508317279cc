/-
Lemmas on the memoised computation of cluster contributions.
-/
import Verif.Lemmas.Cluster

namespace Verif.Lemmas
open Verif Verif.Model Verif.Spec

variable {V : Type*}

section
variable [AddCommGroup V]

/-- What the dictionaries hold: the contribution of each cluster, and with a cluster all its
sub-clusters. -/
structure DictInv (D : Finset ℕ → V) (d : Dict V) : Prop where
  val : ∀ k v, d.lookup k = some v → v = D k.toFinset
  closed : ∀ k, d.lookup k ≠ none → ∀ s : List ℕ, s.Nodup → s ≠ [] → s.toFinset ⊆ k.toFinset →
    d.lookup (clusterID s) ≠ none

end

/-- The dictionaries only grow. -/
def DictExt (d d' : Dict V) : Prop := ∀ k v, d.lookup k = some v → d'.lookup k = some v

theorem DictExt.refl (d : Dict V) : DictExt d d := fun _ _ h => h
theorem DictExt.trans {d d' d'' : Dict V} (h : DictExt d d') (h' : DictExt d' d'') : DictExt d d'' :=
  fun k v hk => h' k v (h k v hk)
theorem DictExt.ne_none {d d' : Dict V} (h : DictExt d d') {k} (hk : d.lookup k ≠ none) :
    d'.lookup k ≠ none := by
  obtain ⟨v, hv⟩ := Option.ne_none_iff_exists'.1 hk
  rw [h k v hv]; simp

variable [AddCommGroup V]

/-- Evaluating a cluster meets only clusters that are stored, or for which the entropies are those of
the function `F` of sets. -/
inductive Evaluable (S S0 : List ℕ → Py V) (F : Finset ℕ → V) (d : Dict V) : List ℕ → Prop
  | memo (c : List ℕ) : d.lookup (clusterID c) ≠ none → Evaluable S S0 F d c
  | fresh (c : List ℕ) : (∃ s s0, S c = .ok s ∧ S0 c = .ok s0 ∧ s - s0 = F c.toFinset) →
      (∀ s : List ℕ, s.Nodup → s ≠ [] → s.toFinset ⊂ c.toFinset → Evaluable S S0 F d s) →
      Evaluable S S0 F d c

theorem Evaluable.mono {S S0 : List ℕ → Py V} {F : Finset ℕ → V} {d d' : Dict V} (h : DictExt d d')
    {c : List ℕ} (hc : Evaluable S S0 F d c) : Evaluable S S0 F d' c := by
  induction hc with
  | memo c hc => exact .memo c (h.ne_none hc)
  | fresh c hc _ ih => exact .fresh c hc ih

/-- If the entropies are functions of the set, everything is evaluable. -/
theorem evaluable_all {S S0 : List ℕ → Py V} {F : Finset ℕ → V} (d : Dict V) (U : Finset ℕ)
    (h : ∀ c : List ℕ, c.Nodup → c ≠ [] → c.toFinset ⊆ U →
      ∃ s s0, S c = .ok s ∧ S0 c = .ok s0 ∧ s - s0 = F c.toFinset)
    (c : List ℕ) (hc : c.Nodup) (hne : c ≠ []) (hU : c.toFinset ⊆ U) : Evaluable S S0 F d c := by
  induction hA : c.toFinset using Finset.strongInduction generalizing c with
  | _ A ih =>
    refine .fresh c (h c hc hne hU) fun s hs hne' hlt => ?_
    exact ih s.toFinset (hA ▸ hlt) s hs hne' (hlt.subset.trans hU) rfl

theorem subtractSubs_fold {S S0 : List ℕ → Py V} {F D : Finset ℕ → V} (fuel : ℕ)
    (hrec : ∀ s d, s.Nodup → s ≠ [] → s.length < fuel → DictInv D d → Evaluable S S0 F d s →
      ∃ d', deltaS S S0 fuel s d = .ok (D s.toFinset, d') ∧ DictInv D d' ∧ DictExt d d' ∧
        d'.lookup (clusterID s) ≠ none)
    (L : List (List ℕ)) (acc : V) (d : Dict V) (hd : DictInv D d)
    (hL : ∀ s ∈ L, s.Nodup ∧ s ≠ [] ∧ s.length < fuel ∧ Evaluable S S0 F d s) :
    ∃ d', L.foldlM (subtractSubs (deltaS S S0 fuel)) (acc, d) =
        .ok (acc - (L.map fun s => D s.toFinset).sum, d') ∧ DictInv D d' ∧ DictExt d d' ∧
      ∀ s ∈ L, d'.lookup (clusterID s) ≠ none := by
  induction L generalizing acc d with
  | nil => exact ⟨d, by simp [pure, Except.pure], hd, .refl d, by simp⟩
  | cons s L ih =>
    obtain ⟨h1, h2, h3, h4⟩ := hL s (by simp)
    obtain ⟨d1, e1, i1, x1, p1⟩ := hrec s d h1 h2 h3 hd h4
    obtain ⟨d2, e2, i2, x2, p2⟩ := ih (acc - D s.toFinset) d1 i1 (fun t ht => by
      obtain ⟨q1, q2, q3, q4⟩ := hL t (by simp [ht])
      exact ⟨q1, q2, q3, q4.mono x1⟩)
    refine ⟨d2, ?_, i2, x1.trans x2, ?_⟩
    · rw [List.foldlM_cons]
      simp only [subtractSubs, e1, bind, Except.bind]
      rw [e2, List.map_cons, List.sum_cons]
      congr 2
      abel
    · intro t ht
      rcases List.mem_cons.1 ht with rfl | ht
      · exact x2.ne_none p1
      · exact p2 t ht

theorem subtractSize_fold {S S0 : List ℕ → Py V} {F D : Finset ℕ → V} (fuel : ℕ)
    (hrec : ∀ s d, s.Nodup → s ≠ [] → s.length < fuel → DictInv D d → Evaluable S S0 F d s →
      ∃ d', deltaS S S0 fuel s d = .ok (D s.toFinset, d') ∧ DictInv D d' ∧ DictExt d d' ∧
        d'.lookup (clusterID s) ≠ none)
    (c : List ℕ) (hc : c.Nodup) (hlen : c.length ≤ fuel) (ks : List ℕ)
    (hks : ∀ k ∈ ks, 1 ≤ k ∧ k < c.length) (acc : V) (d : Dict V) (hd : DictInv D d)
    (hsub : ∀ s : List ℕ, s.Nodup → s ≠ [] → s.toFinset ⊂ c.toFinset → Evaluable S S0 F d s) :
    ∃ d', ks.foldlM (subtractSize (deltaS S S0 fuel) c) (acc, d) =
        .ok (acc - (ks.map fun k => ∑ B ∈ c.toFinset.powersetCard k, D B).sum, d') ∧ DictInv D d' ∧
      DictExt d d' ∧
      ∀ s : List ℕ, s.Nodup → s.toFinset ⊆ c.toFinset → s.length ∈ ks →
        d'.lookup (clusterID s) ≠ none := by
  induction ks generalizing acc d with
  | nil => exact ⟨d, by simp [pure, Except.pure], hd, .refl d, by simp⟩
  | cons k ks ih =>
    obtain ⟨hk1, hk2⟩ := hks k (by simp)
    obtain ⟨L, e, h1, h2, h3⟩ := subsets_ok c hc k hk1
    have hL : ∀ s ∈ L, s.Nodup ∧ s ≠ [] ∧ s.length < fuel ∧ Evaluable S S0 F d s := by
      intro s hs
      obtain ⟨q1, q2, q3⟩ := h1 s hs
      have hne : s ≠ [] := by rintro rfl; simp at q2; omega
      refine ⟨q1, hne, by omega, hsub s q1 hne ?_⟩
      refine lt_of_le_of_ne (fun x hx => ?_) fun he => ?_
      · rw [List.mem_toFinset] at hx ⊢
        exact q3 x hx
      · have := congrArg Finset.card he
        rw [List.toFinset_card_of_nodup q1, List.toFinset_card_of_nodup hc] at this
        omega
    obtain ⟨d1, e1, i1, x1, p1⟩ := subtractSubs_fold fuel hrec L acc d hd hL
    obtain ⟨d2, e2, i2, x2, p2⟩ := ih (fun k hk => hks k (by simp [hk]))
      (acc - (L.map fun s => D s.toFinset).sum) d1 i1
      (fun s q1 q2 q3 => (hsub s q1 q2 q3).mono x1)
    refine ⟨d2, ?_, i2, x1.trans x2, ?_⟩
    · have hstep : subtractSize (deltaS S S0 fuel) c (acc, d) k =
          .ok (acc - (L.map fun s => D s.toFinset).sum, d1) := by
        simp only [subtractSize, e]
        exact e1
      rw [List.foldlM_cons, hstep]
      show List.foldlM _ _ ks = _
      rw [e2, List.map_cons, List.sum_cons, subsets_sum c k L h1 h2 h3]
      congr 2
      abel
    · intro s hs hsc hmem
      rcases List.mem_cons.1 hmem with hk | hmem
      · obtain ⟨t, ht, hts⟩ := h3 s.toFinset hsc (by rw [List.toFinset_card_of_nodup hs, hk])
        have : clusterID s = clusterID t := sortSpins_eq_of_toFinset hs (h1 t ht).1 hts.symm
        rw [this]
        exact x2.ne_none (p1 t ht)
      · exact p2 s hs hsc hmem

theorem deltaS_ok {S S0 : List ℕ → Py V} {F D : Finset ℕ → V} (hF : Telescopes F D) (fuel : ℕ) :
    ∀ c d, c.Nodup → c ≠ [] → c.length < fuel → DictInv D d → Evaluable S S0 F d c →
      ∃ d', deltaS S S0 fuel c d = .ok (D c.toFinset, d') ∧ DictInv D d' ∧ DictExt d d' ∧
        d'.lookup (clusterID c) ≠ none := by
  induction fuel with
  | zero => intro c d _ _ h; omega
  | succ fuel ih =>
    intro c d hc hne hlen hd hev
    cases hlk : d.lookup (clusterID c) with
    | some v =>
      refine ⟨d, ?_, hd, .refl d, by simp [hlk]⟩
      simp only [deltaS, hlk]
      rw [hd.val _ _ hlk, clusterID, sortSpins_toFinset]
    | none =>
      cases hev with
      | memo _ h => exact absurd hlk h
      | fresh _ h hsub =>
        obtain ⟨s, s0, hs, hs0, hF'⟩ := h
        have hcard : c.toFinset.card = c.length := List.toFinset_card_of_nodup hc
        obtain ⟨d1, e1, i1, x1, p1⟩ := subtractSize_fold fuel ih c hc (by omega)
          (pyRange 1 c.length).reverse (fun k hk => by
            rw [List.mem_reverse, mem_pyRange] at hk; exact hk) (s - s0) d hd hsub
        have hsum : s - s0 - ((pyRange 1 c.length).reverse.map
            fun k => ∑ B ∈ c.toFinset.powersetCard k, D B).sum = D c.toFinset := by
          rw [List.map_reverse, List.sum_reverse, hF', telescopes_sizes hF c.toFinset (by
            simpa [List.toFinset_nonempty_iff] using hne), hcard]
        rw [hsum] at e1
        refine ⟨(clusterID c, D c.toFinset) :: d1, ?_, ?_, ?_, ?_⟩
        · simp only [deltaS, hlk, hs, hs0]
          rw [e1]
        · constructor
          · intro k v hk
            rw [List.lookup_cons] at hk
            by_cases hkc : k = clusterID c
            · subst hkc
              simp only [beq_self_eq_true] at hk
              rw [← Option.some.inj hk, clusterID, sortSpins_toFinset]
            · simp only [beq_eq_false_iff_ne.2 hkc] at hk
              exact i1.val k v hk
          · intro k hk t ht htne hsubk
            rw [List.lookup_cons]
            by_cases htc : clusterID t = clusterID c
            · simp [htc]
            · simp only [beq_eq_false_iff_ne.2 htc]
              by_cases hkc : k = clusterID c
              · subst hkc
                rw [clusterID, sortSpins_toFinset] at hsubk
                refine p1 t ht hsubk ?_
                rw [List.mem_reverse, mem_pyRange]
                have h1 : t.toFinset.card = t.length := List.toFinset_card_of_nodup ht
                have h2 := Finset.card_le_card hsubk
                have h3 : t.length ≠ 0 := by simpa using htne
                refine ⟨by omega, lt_of_le_of_ne (by omega) fun he => htc ?_⟩
                exact sortSpins_eq_of_toFinset ht hc (Finset.eq_of_subset_of_card_le hsubk (by omega))
              · refine i1.closed k ?_ t ht htne hsubk
                rw [List.lookup_cons] at hk
                simpa only [beq_eq_false_iff_ne.2 hkc] using hk
        · intro k v hk
          rw [List.lookup_cons]
          by_cases hkc : k = clusterID c
          · subst hkc
            rw [hlk] at hk
            simp at hk
          · simp only [beq_eq_false_iff_ne.2 hkc]
            exact x1 k v hk
        · simp

omit [AddCommGroup V] in
theorem dictInv_nil (D : Finset ℕ → V) : DictInv D ([] : Dict V) :=
  ⟨by simp, by simp⟩

theorem deltaSMany_ok {S S0 : List ℕ → Py V} {F D : Finset ℕ → V} (hF : Telescopes F D) (U : Finset ℕ)
    (h : ∀ c : List ℕ, c.Nodup → c ≠ [] → c.toFinset ⊆ U →
      ∃ s s0, S c = .ok s ∧ S0 c = .ok s0 ∧ s - s0 = F c.toFinset)
    (cs : List (List ℕ)) (hcs : ∀ c ∈ cs, c.Nodup ∧ c ≠ [] ∧ c.toFinset ⊆ U) (d : Dict V)
    (hd : DictInv D d) :
    ∃ d', deltaSMany S S0 cs d = .ok (cs.map fun c => D c.toFinset, d') ∧ DictInv D d' := by
  induction cs generalizing d with
  | nil => exact ⟨d, rfl, hd⟩
  | cons c cs ih =>
    obtain ⟨h1, h2, h3⟩ := hcs c (by simp)
    obtain ⟨d1, e1, i1, -, -⟩ := deltaS_ok hF (c.length + 1) c d h1 h2 (by omega) hd
      (evaluable_all d U h c h1 h2 h3)
    obtain ⟨d2, e2, i2⟩ := ih (fun c hc => hcs c (by simp [hc])) d1 i1
    refine ⟨d2, ?_, i2⟩
    simp only [deltaSMany, deltaSRun, e1, e2, List.map_cons]

end Verif.Lemmas
