/-
The adaptive cluster expansion when no spin is in two kept pairs.
-/
import Verif.Lemmas.Cluster5
import Verif.Lemmas.Product

namespace Verif.Lemmas
open Verif Verif.Model Verif.Spec Verif.Props

theorem telescopes_one {V : Type*} [AddCommGroup V] {F D : Finset ℕ → V} (h : Telescopes F D) (i : ℕ) : D {i} = F {i} := by
  rw [← h {i} (by simp), show ({i} : Finset ℕ).powerset.erase ∅ = {{i}} from ?_, Finset.sum_singleton]
  ext A
  simp only [Finset.mem_erase, Finset.mem_powerset, Finset.subset_singleton_iff, Finset.mem_singleton]
  constructor
  · rintro ⟨h1, h2⟩; exact h2.resolve_left h1
  · rintro rfl; simp

theorem telescopes_two {V : Type*} [AddCommGroup V] {F D : Finset ℕ → V} (h : Telescopes F D) {i j : ℕ} (hij : i ≠ j) :
    D {i, j} = F {i, j} - F {i} - F {j} := by
  have hi : i ∉ ({j} : Finset ℕ) := by simpa using hij
  have hs : ({i, j} : Finset ℕ).powerset.erase ∅ = {{i}, {j}, {i, j}} := by
    ext A
    rw [show ({i, j} : Finset ℕ) = insert i {j} from rfl, Finset.powerset_insert]
    simp only [Finset.mem_erase, Finset.mem_union, Finset.mem_powerset, Finset.mem_image, Finset.subset_singleton_iff,
      Finset.mem_insert, Finset.mem_singleton]
    constructor
    · rintro ⟨h1, (h2 | h2) | ⟨B, h2 | h2, h3⟩⟩
      · exact absurd h2 h1
      · exact Or.inr (Or.inl h2)
      · subst h2; subst h3; exact Or.inl (by simp)
      · subst h2; subst h3; exact Or.inr (Or.inr rfl)
    · rintro (h2 | h2 | h2)
      · subst h2; exact ⟨by simp, Or.inr ⟨∅, Or.inl rfl, by simp⟩⟩
      · subst h2; exact ⟨by simp, Or.inl (Or.inr rfl)⟩
      · subst h2; exact ⟨by simp, Or.inr ⟨{j}, Or.inr rfl, rfl⟩⟩
  have h1 : ({i} : Finset ℕ) ∉ ({{j}, {i, j}} : Finset (Finset ℕ)) := by
    simp only [Finset.mem_insert, Finset.mem_singleton, Finset.singleton_inj, not_or]
    refine ⟨hij, fun h => ?_⟩
    have : j ∈ ({i} : Finset ℕ) := h ▸ by simp
    simp at this; exact hij this.symm
  have h2 : ({j} : Finset ℕ) ∉ ({{i, j}} : Finset (Finset ℕ)) := by
    simp only [Finset.mem_singleton]
    intro h
    have : i ∈ ({j} : Finset ℕ) := h ▸ by simp
    simp at this; exact hij this
  have := h {i, j} (by simp)
  rw [hs, Finset.sum_insert h1, Finset.sum_insert h2, Finset.sum_singleton, telescopes_one h, telescopes_one h] at this
  rw [← this]
  abel

open scoped Classical in
/-- No spin in two kept pairs: only single spins and pairs are evaluated. -/
theorem aceSolve_pairs {V : Type*} [AddCommGroup V] {S S0 : List ℕ → Py V} {F : Finset ℕ → V} (keep : V → Bool) (n : ℕ)
    (hn : 2 ≤ n) (s0 : V) (hs0 : S0 (List.range n) = .ok s0) (hF1 : ∀ i < n, F {i} = 0)
    (h : ∀ g : List ℕ, g.Nodup → g ≠ [] → g.length ≤ 2 → (∀ i ∈ g, i < n) → g.Pairwise (· ≤ ·) →
      ∃ s s0, S g = .ok s ∧ S0 g = .ok s0 ∧ s - s0 = F g.toFinset)
    (hdis : ∀ i < n, ∀ j < n, ∀ k < n, i ≠ j → i ≠ k → keep (F {i, j}) = true → keep (F {i, k}) = true → j = k) :
    ∃ levels d, aceSolve S S0 keep true false (List.range n) [] =
        .ok (s0 + ∑ i ∈ Finset.range n, ∑ j ∈ Finset.range n,
          (if i < j then (if keep (F {i, j}) = true then F {i, j} else 0) else 0), levels, d) ∧
      (∀ g ∈ levels.flatten, g.Pairwise (· < ·)) ∧ levels.flatten.Nodup ∧
      ∀ A : Finset ℕ, (∃ g ∈ levels.flatten, g.toFinset = A) ↔ (∃ i < n, A = {i}) ∨
        ∃ i < n, ∃ j < n, i ≠ j ∧ keep (F {i, j}) = true ∧ A = {i, j} := by
  obtain ⟨D, hD⟩ := exists_telescopes F
  have hrange : (List.range n).toFinset = Finset.range n := by ext; simp
  set K : Finset ℕ → Prop := fun A => keep (D A) = true with hK
  have hD2 : ∀ i < n, ∀ j < n, i ≠ j → D {i, j} = F {i, j} := fun i hi j hj hij => by
    rw [telescopes_two hD hij, hF1 i hi, hF1 j hj, sub_zero, sub_zero]
  have hsel2 : ∀ A, Selected K (Finset.range n) 2 A ↔
      ∃ i < n, ∃ j < n, i ≠ j ∧ keep (F {i, j}) = true ∧ A = {i, j} := by
    intro A
    rw [show 2 = 1 + 1 from rfl, Selected.succ (le_refl 1)]
    constructor
    · rintro ⟨⟨B, C, ⟨i, hi, rfl⟩, ⟨j, hj, rfl⟩, rfl⟩, hc, hk⟩
      have hi' := Finset.mem_range.1 hi
      have hj' := Finset.mem_range.1 hj
      have hij : i ≠ j := by rintro rfl; simp at hc
      have he : ({i} ∪ {j} : Finset ℕ) = {i, j} := rfl
      rw [he] at hk ⊢
      rw [hK] at hk
      exact ⟨i, hi', j, hj', hij, by rw [← hD2 i hi' j hj' hij]; exact hk, rfl⟩
    · rintro ⟨i, hi, j, hj, hij, hk, rfl⟩
      refine ⟨⟨{i}, {j}, ⟨i, by simpa using hi, rfl⟩, ⟨j, by simpa using hj, rfl⟩, rfl⟩, Finset.card_pair hij, ?_⟩
      rw [hK]
      show keep (D {i, j}) = true
      rw [hD2 i hi j hj hij]; exact hk
  have htriple : ∀ B C, Selected K (Finset.range n) 2 B → Selected K (Finset.range n) 2 C → (B ∪ C).card ≠ 3 := by
    intro B C hB hC hcard
    obtain ⟨i, hi, j, hj, hij, k1, rfl⟩ := (hsel2 B).1 hB
    obtain ⟨a, ha, b, hb, hab, k2, rfl⟩ := (hsel2 C).1 hC
    have hcc : ∀ u v : ℕ, ({u, v} : Finset ℕ) = {v, u} := fun u v => Finset.pair_comm u v
    by_cases c1 : i = a
    · subst c1
      have := hdis i hi j hj b hb hij hab k1 k2
      subst this
      rw [Finset.union_self, Finset.card_pair hij] at hcard; omega
    by_cases c2 : i = b
    · subst c2
      have := hdis i hi j hj a ha hij (Ne.symm hab) k1 (by rw [hcc]; exact k2)
      subst this
      rw [hcc j i, Finset.union_self, Finset.card_pair hij] at hcard; omega
    by_cases c3 : j = a
    · subst c3
      have := hdis j hj i hi b hb (Ne.symm hij) hab (by rw [hcc]; exact k1) k2
      exact c2 this
    by_cases c4 : j = b
    · subst c4
      have := hdis j hj i hi a ha (Ne.symm hij) (Ne.symm hab) (by rw [hcc]; exact k1) (by rw [hcc]; exact k2)
      exact c1 this
    have hd : Disjoint ({i, j} : Finset ℕ) {a, b} := by
      simp only [Finset.disjoint_insert_left, Finset.disjoint_singleton_left, Finset.mem_insert, Finset.mem_singleton]
      tauto
    rw [Finset.card_union_of_disjoint hd, Finset.card_pair hij, Finset.card_pair hab] at hcard
    omega
  have hno3 : ∀ j, 3 ≤ j → ∀ A, ¬ Selected K (Finset.range n) j A := by
    intro j hj
    refine Selected.none_above (by omega) (fun A hA => ?_) j hj
    obtain ⟨⟨B, C, hB, hC, rfl⟩, hc, -⟩ := (Selected.succ (by omega : 1 ≤ 2)).1 hA
    exact htriple B C hB hC hc
  obtain ⟨levels, d, e, -, -, f1, f2, -, f4⟩ := aceSolve_ok (S := S) (S0 := S0) hD keep (List.range n) List.nodup_range
    (by simpa using hn) s0 hs0 (fun _ _ => True) trivial
    (by
      intro k d hk hd _ g g1 g2 g3 g4 ⟨B, C, hB, hC, hU⟩
      rw [hrange] at hB hC
      have hgn : ∀ i ∈ g, i < n := fun i hi => by
        have := g4 (List.mem_toFinset.2 hi); simpa using this
      rcases (show k = 1 ∨ k = 2 ∨ 3 ≤ k by omega) with rfl | rfl | hk3
      · refine .fresh g (h g g1 (by rintro rfl; simp at g3) (by omega) hgn g2) fun s s1 s2 s3 => ?_
        have hlt : s.length < g.length := by
          rw [← List.toFinset_card_of_nodup s1, ← List.toFinset_card_of_nodup g1]
          exact Finset.card_lt_card s3
        have hs1 : s.length = 1 := by
          have := List.length_pos_iff.2 s2
          omega
        obtain ⟨i, rfl⟩ := List.length_eq_one_iff.1 hs1
        have hin : i < n := hgn i (List.mem_toFinset.1 (s3.subset (by simp)))
        refine .fresh _ (h _ s1 s2 (by simp) (by simpa using hin) (by simp)) fun t t1 t2 t3 => ?_
        exfalso
        have := Finset.card_lt_card t3
        rw [List.toFinset_card_of_nodup t1, List.toFinset_card_of_nodup s1] at this
        have := List.length_pos_iff.2 t2
        simp only [List.length_singleton] at *
        omega
      · exfalso
        refine htriple B C hB hC ?_
        rw [← hU, List.toFinset_card_of_nodup g1, g3]
      · exact absurd hB (hno3 k hk3 B))
    (fun _ _ _ _ _ _ _ => trivial)
  rw [hrange] at f4
  have hmem : ∀ A : Finset ℕ, (∃ g ∈ levels.flatten, g.toFinset = A) ↔ (∃ i < n, A = {i}) ∨
        ∃ i < n, ∃ j < n, i ≠ j ∧ keep (F {i, j}) = true ∧ A = {i, j} := by
    intro A
    rw [f4 A]
    constructor
    · rintro ⟨j, hj⟩
      rcases (show j = 0 ∨ j = 1 ∨ j = 2 ∨ 3 ≤ j by omega) with rfl | rfl | rfl | h3
      · exact hj.elim
      · obtain ⟨i, hi, h⟩ := hj
        exact Or.inl ⟨i, Finset.mem_range.1 hi, h⟩
      · exact Or.inr ((hsel2 A).1 hj)
      · exact absurd hj (hno3 j h3 A)
    · rintro (⟨i, hi, rfl⟩ | h)
      · exact ⟨1, i, Finset.mem_range.2 hi, rfl⟩
      · exact ⟨2, (hsel2 A).2 h⟩
  refine ⟨levels, d, ?_, fun g hg => ?_, List.Nodup.of_map _ f2, hmem⟩
  · rw [e]
    congr 2
    obtain ⟨P, hP⟩ : ∃ P : Finset (ℕ × ℕ), P = (Finset.range n ×ˢ Finset.range n).filter
      fun q => q.1 < q.2 ∧ keep (F {q.1, q.2}) = true := ⟨_, rfl⟩
    have hPm : ∀ q, q ∈ P ↔ q.1 < n ∧ q.2 < n ∧ q.1 < q.2 ∧ keep (F {q.1, q.2}) = true := by
      intro q
      rw [hP, Finset.mem_filter, Finset.mem_product, Finset.mem_range, Finset.mem_range, and_assoc]
    have hinj : Set.InjOn (fun q : ℕ × ℕ => ({q.1, q.2} : Finset ℕ)) P := by
      intro q hq r hr hqr
      have h1 := (hPm q).1 hq
      have h2 := (hPm r).1 hr
      simp only at hqr
      have a1 : q.1 ∈ ({r.1, r.2} : Finset ℕ) := hqr ▸ by simp
      have a2 : q.2 ∈ ({r.1, r.2} : Finset ℕ) := hqr ▸ by simp
      simp only [Finset.mem_insert, Finset.mem_singleton] at a1 a2
      exact Prod.ext (by omega) (by omega)
    have hsub : P.image (fun q : ℕ × ℕ => ({q.1, q.2} : Finset ℕ)) ⊆ (levels.flatten.map List.toFinset).toFinset := by
      intro A hA
      obtain ⟨q, hq, rfl⟩ := Finset.mem_image.1 hA
      obtain ⟨a1, a2, a3, a4⟩ := (hPm q).1 hq
      obtain ⟨g, hg, hgA⟩ := (hmem {q.1, q.2}).2 (Or.inr ⟨q.1, a1, q.2, a2, a3.ne, a4, rfl⟩)
      exact List.mem_toFinset.2 (List.mem_map.2 ⟨g, hg, hgA⟩)
    have hsum : (levels.flatten.map fun g => D g.toFinset).sum = ∑ A ∈ (levels.flatten.map List.toFinset).toFinset, D A := by
      rw [List.sum_toFinset _ f2, List.map_map]; rfl
    rw [hsum, ← Finset.sum_subset hsub, Finset.sum_image hinj, hP, Finset.sum_filter, Finset.sum_product]
    · congr 1
      refine Finset.sum_congr rfl fun i hi => Finset.sum_congr rfl fun j hj => ?_
      by_cases hij : i < j
      · by_cases hk : keep (F {i, j}) = true
        · rw [if_pos ⟨hij, hk⟩, if_pos hij, if_pos hk, hD2 i (Finset.mem_range.1 hi) j (Finset.mem_range.1 hj) hij.ne]
        · rw [if_neg (fun h => hk h.2), if_pos hij, if_neg hk]
      · rw [if_neg (fun h => hij h.1), if_neg hij]
    · intro A hA hA'
      obtain ⟨g, hg, rfl⟩ := List.mem_map.1 (List.mem_toFinset.1 hA)
      rcases (hmem g.toFinset).1 ⟨g, hg, rfl⟩ with ⟨i, hi, h1⟩ | ⟨i, hi, j, hj, hij, hk, h1⟩
      · rw [h1, telescopes_one hD, hF1 i hi]
      · exfalso
        refine hA' (Finset.mem_image.2 ?_)
        rcases lt_or_gt_of_ne hij with hlt | hlt
        · exact ⟨(i, j), (hPm _).2 ⟨hi, hj, hlt, hk⟩, h1.symm⟩
        · exact ⟨(j, i), (hPm _).2 ⟨hj, hi, hlt, by rw [Finset.pair_comm]; exact hk⟩, by rw [h1, Finset.pair_comm]⟩
  · obtain ⟨m1, -, -, m4⟩ := f1 g hg
    exact (List.Pairwise.and m1 m4).imp fun h => lt_of_le_of_ne h.2 h.1

/-! ### The fits of one and two spins -/

theorem sum_powerset_two (i j : ℕ) (hij : i ≠ j) (f : Finset ℕ → ℝ) :
    ∑ X ∈ ({i, j} : Finset ℕ).powerset, f X = f ∅ + f {j} + f {i} + f {i, j} := by
  rw [show ({i, j} : Finset ℕ) = insert i {j} from rfl, Finset.sum_powerset_insert (by simpa using hij)]
  have : ({j} : Finset ℕ).powerset = {∅, {j}} := by
    ext X; simp [Finset.subset_singleton_iff]
  rw [this, Finset.sum_pair (by simp [Finset.ext_iff]), Finset.sum_pair (by simp [Finset.ext_iff])]
  simp only [insert_empty_eq]
  ring

/-- The couplings of two spins with given frequencies. -/
noncomputable def duoJ (i j : ℕ) (p00 p10 p01 p11 : ℝ) (x y : ℕ) : ℝ :=
  (if x = i ∧ y = i then Real.log p00 - Real.log p10 else 0) + (if x = j ∧ y = j then Real.log p00 - Real.log p01 else 0) +
    if (x = i ∧ y = j) ∨ (x = j ∧ y = i) then (Real.log p10 + Real.log p01 - Real.log p11 - Real.log p00) / 2 else 0

theorem fits_duo {i j : ℕ} (hij : i ≠ j) {p00 p10 p01 p11 : ℝ} (h0 : 0 < p00) (h1 : 0 < p10) (h2 : 0 < p01) (h3 : 0 < p11)
    (hs : p00 + p10 + p01 + p11 = 1) {C : ℕ → ℕ → ℝ} (hi : C i i = p10 + p11) (hj : C j j = p01 + p11) (hc : C i j = p11)
    (hc' : C j i = p11) :
    Fits {i, j} C (duoJ i j p00 p10 p01 p11) ∧ setEntropy {i, j} (duoJ i j p00 p10 p01 p11) =
      -(p11 * Real.log p11 + p10 * Real.log p10 + p01 * Real.log p01 + p00 * Real.log p00) := by
  obtain ⟨J, hJ⟩ : ∃ J, J = duoJ i j p00 p10 p01 p11 := ⟨_, rfl⟩
  have hji : j ≠ i := hij.symm
  have eii : J i i = Real.log p00 - Real.log p10 := by rw [hJ]; simp [duoJ, hij, hji]
  have ejj : J j j = Real.log p00 - Real.log p01 := by rw [hJ]; simp [duoJ, hij, hji]
  have eij : J i j = (Real.log p10 + Real.log p01 - Real.log p11 - Real.log p00) / 2 := by rw [hJ]; simp [duoJ, hij, hji]
  have eji : J j i = (Real.log p10 + Real.log p01 - Real.log p11 - Real.log p00) / 2 := by rw [hJ]; simp [duoJ, hij, hji]
  have s0 : setE J ∅ = 0 := by simp [setE]
  have s1 : setE J {i} = Real.log p00 - Real.log p10 := by simp [setE, eii]
  have s2 : setE J {j} = Real.log p00 - Real.log p01 := by simp [setE, ejj]
  have s3 : setE J {i, j} = Real.log p00 - Real.log p11 := by
    rw [setE, Finset.sum_pair hij, Finset.sum_pair hij, Finset.sum_pair hij, eii, ejj, eij, eji]; ring
  have ex : ∀ q : ℝ, 0 < q → Real.exp (-(Real.log p00 - Real.log q)) = q / p00 := fun q hq => by
    rw [neg_sub, ← Real.log_div hq.ne' h0.ne', Real.exp_log (div_pos hq h0)]
  have hZ : ∑ Y ∈ ({i, j} : Finset ℕ).powerset, Real.exp (-setE J Y) = 1 / p00 := by
    rw [sum_powerset_two i j hij, s0, s1, s2, s3, ex _ h1, ex _ h2, ex _ h3, neg_zero, Real.exp_zero]
    field_simp
    linarith
  have q0 : setProb {i, j} J ∅ = p00 := by rw [setProb, hZ, s0, neg_zero, Real.exp_zero]; field_simp
  have q1 : setProb {i, j} J {i} = p10 := by rw [setProb, hZ, s1, ex _ h1]; field_simp
  have q2 : setProb {i, j} J {j} = p01 := by rw [setProb, hZ, s2, ex _ h2]; field_simp
  have q3 : setProb {i, j} J {i, j} = p11 := by rw [setProb, hZ, s3, ex _ h3]; field_simp
  have hm : ∀ a b, setMoment {i, j} J a b = ∑ X ∈ ({i, j} : Finset ℕ).powerset, if a ∈ X ∧ b ∈ X then setProb {i, j} J X else 0 := by
    intro a b
    rw [setMoment, Finset.sum_filter]
  rw [← hJ]
  refine ⟨⟨?_, ?_, ?_⟩, ?_⟩
  · intro x y
    rw [hJ, duoJ, duoJ]
    congr 1
    · congr 1
      · simp only [and_comm]
      · simp only [and_comm]
    · congr 1
      simp only [eq_iff_iff]
      tauto
  · intro x y hxy
    simp only [Finset.mem_insert, Finset.mem_singleton] at hxy
    rw [hJ, duoJ, if_neg (by tauto), if_neg (by tauto), if_neg (by tauto)]
    simp
  · intro a ha b hb
    simp only [Finset.mem_insert, Finset.mem_singleton] at ha hb
    rw [hm, sum_powerset_two i j hij]
    rcases ha with rfl | rfl <;> rcases hb with rfl | rfl
    · simp [hij, q1, q3, hi]
    · simp [hij, hji, q3, hc]
    · simp [hij, hji, q3, hc']
    · simp [hji, q2, q3, hj]
  · rw [setEntropy, sum_powerset_two i j hij, q0, q1, q2, q3]
    ring

/-- The independent model. -/
theorem fits_independent (c : List ℕ) (hc : c.Nodup) (f : ℕ → ℝ) (hf : ∀ i ∈ c, 0 < f i ∧ f i < 1) :
    Fits c.toFinset (fun i j => if i = j then f i else f i * f j) (fun i j => if i = j ∧ i ∈ c then logitField (f i) else 0) ∧
      setEntropy c.toFinset (fun i j => if i = j ∧ i ∈ c then logitField (f i) else 0) =
        ∑ a ∈ Finset.range c.length, (-f (c.getD a 0) * Real.log (f (c.getD a 0)) -
          (1 - f (c.getD a 0)) * Real.log (1 - f (c.getD a 0))) := by
  obtain ⟨J, hJ⟩ : ∃ J : ℕ → ℕ → ℝ, J = fun i j => if i = j ∧ i ∈ c then logitField (f i) else 0 := ⟨_, rfl⟩
  rw [← hJ]
  have hmem : ∀ a < c.length, c.getD a 0 ∈ c := fun a ha => by
    rw [List.getD_eq_getElem _ _ ha]; exact List.getElem_mem _
  have hfun : ∀ s : List ℤ, quadE c.length (fun a b => J (c.getD a 0) (c.getD b 0)) (spins s) =
      quadE c.length (fun a b => if a = b then logitField ((fun a => f (c.getD a 0)) a) else 0) (spins s) := by
    intro s
    refine quadE_congr _ _ _ _ _ (fun a ha b hb => ?_) fun _ _ => rfl
    rw [hJ]
    beta_reduce
    have hinj : c.getD a 0 = c.getD b 0 ↔ a = b := by
      rw [List.getD_eq_getElem _ _ ha, List.getD_eq_getElem _ _ hb]
      exact hc.getElem_inj_iff
    by_cases h : a = b
    · rw [if_pos ⟨hinj.2 h, hmem a ha⟩, if_pos h]
    · rw [if_neg (fun h' => h (hinj.1 h'.1)), if_neg h]
  have hf' : ∀ a < c.length, 0 < f (c.getD a 0) ∧ f (c.getD a 0) < 1 := fun a ha => hf _ (hmem a ha)
  refine ⟨⟨?_, ?_, ?_⟩, ?_⟩
  · intro i j
    rw [hJ]
    by_cases h : i = j
    · subst h; rfl
    · simp [h, Ne.symm h]
  · intro i j hij
    rw [hJ]
    refine if_neg fun h => ?_
    obtain ⟨rfl, h2⟩ := h
    simp only [List.mem_toFinset] at hij
    tauto
  · intro i hi j hj
    obtain ⟨a, ha, rfl⟩ := List.getElem_of_mem (List.mem_toFinset.1 hi)
    obtain ⟨b, hb, rfl⟩ := List.getElem_of_mem (List.mem_toFinset.1 hj)
    rw [← expect_onSet c hc J a b ha hb]
    simp only [hfun]
    rw [expect_independent c.length (fun a => f (c.getD a 0)) hf' a b ha hb]
    simp only [List.getD_eq_getElem _ _ ha, List.getD_eq_getElem _ _ hb, hc.getElem_inj_iff]
  · rw [← entropy_onSet c hc J]
    simp only [hfun]
    rw [entropy_independent c.length (fun a => f (c.getD a 0)) hf']

end Verif.Lemmas
