/-
The model with independent, disjoint pairs of spins.
-/
import Verif.Lemmas.Matching
import Verif.Lemmas.EnumerateObj2
import Verif.Lemmas.Cluster5
import Verif.Spec.Likelihood
import Verif.Spec.MaxEnt

namespace Verif.Lemmas
open Verif Verif.Model Verif.Spec

/-- The probabilities sum to 1, and any two spins take all values together. -/
structure PairPositive (n : ℕ) (p : List ℤ → ℝ) : Prop where
  sum : ((words [1, -1] n).map p).sum = 1
  pos : ∀ i < n, ∀ j < n, i ≠ j → ∀ a b : ℤ, a = 1 ∨ a = -1 → b = 1 ∨ b = -1 → 0 < pairProb n p i j a b

theorem pairProb_swap (n : ℕ) (p : List ℤ → ℝ) (i j : ℕ) (a b : ℤ) : pairProb n p j i b a = pairProb n p i j a b := by
  unfold pairProb
  simp only [and_comm]

theorem spinProb_split (n : ℕ) (p : List ℤ → ℝ) (i j : ℕ) (hj : j < n) (a : ℤ) :
    spinProb n p i a = pairProb n p i j a 1 + pairProb n p i j a (-1) := by
  unfold spinProb pairProb
  rw [← list_sum_add]
  refine list_sum_congr fun s hs => ?_
  rcases spin_pm hs hj with h | h <;> rw [h] <;> simp

theorem spinProb_split' (n : ℕ) (p : List ℤ → ℝ) (i j : ℕ) (hi : i < n) (b : ℤ) :
    spinProb n p j b = pairProb n p i j 1 b + pairProb n p i j (-1) b := by
  rw [spinProb_split n p j i hi b, pairProb_swap n p i j 1 b, pairProb_swap n p i j (-1) b]

theorem spinProb_sum {n : ℕ} {p : List ℤ → ℝ} (hp : PairPositive n p) (i : ℕ) (hi : i < n) :
    spinProb n p i 1 + spinProb n p i (-1) = 1 := by
  rw [← hp.sum]
  unfold spinProb
  rw [← list_sum_add]
  refine list_sum_congr fun s hs => ?_
  rcases spin_pm hs hi with h | h <;> rw [h] <;> simp

theorem spinProb_pos {n : ℕ} {p : List ℤ → ℝ} (hp : PairPositive n p) (hn : 2 ≤ n) (i : ℕ) (hi : i < n) (a : ℤ)
    (ha : a = 1 ∨ a = -1) : 0 < spinProb n p i a := by
  obtain ⟨j, hj, hij⟩ : ∃ j < n, i ≠ j := by
    by_cases h : i = 0
    · exact ⟨1, by omega, by omega⟩
    · exact ⟨0, by omega, h⟩
  rw [spinProb_split n p i j hj a]
  exact add_pos (hp.pos i hi j hj hij a 1 ha (by simp)) (hp.pos i hi j hj hij a (-1) ha (by simp))

/-- Joint probability of two spins relative to independent spins. -/
noncomputable def linkRatio (n : ℕ) (p : List ℤ → ℝ) (q : ℕ × ℕ) (a b : ℤ) : ℝ :=
  pairProb n p q.1 q.2 a b / (spinProb n p q.1 a * spinProb n p q.2 b)

theorem linkFactor {n : ℕ} {p : List ℤ → ℝ} (hp : PairPositive n p) (hn : 2 ≤ n) (q : ℕ × ℕ) (h1 : q.1 < n) (h2 : q.2 < n)
    (hq : q.1 ≠ q.2) : LinkFactor (spinProb n p) q (linkRatio n p q) := by
  refine ⟨hq, fun b hb => ?_, fun a ha => ?_⟩
  · have a1 := spinProb_pos hp hn q.1 h1 1 (by simp)
    have a2 := spinProb_pos hp hn q.1 h1 (-1) (by simp)
    have a3 := spinProb_pos hp hn q.2 h2 b hb
    rw [spinProb_sum hp q.1 h1]
    unfold linkRatio
    have := spinProb_split' n p q.1 q.2 h1 b
    field_simp
    linarith
  · have a1 := spinProb_pos hp hn q.2 h2 1 (by simp)
    have a2 := spinProb_pos hp hn q.2 h2 (-1) (by simp)
    have a3 := spinProb_pos hp hn q.1 h1 a ha
    rw [spinProb_sum hp q.2 h2]
    unfold linkRatio
    have := spinProb_split n p q.1 q.2 h2 a
    field_simp
    linarith

open scoped Classical in
/-- The pairs of `K`. -/
noncomputable def links (n : ℕ) (K : ℕ → ℕ → Prop) : List (ℕ × ℕ) := (upperPairs n).filter fun q => decide (K q.1 q.2)

theorem mem_links {n : ℕ} {K : ℕ → ℕ → Prop} {q : ℕ × ℕ} : q ∈ links n K ↔ q.1 < q.2 ∧ q.2 < n ∧ K q.1 q.2 := by
  unfold links
  rw [List.mem_filter, show q = (q.1, q.2) from rfl, mem_upperPairs]
  simp [and_assoc]

/-- `K` is a relation between different spins, and no spin has two partners. -/
structure Pairing (n : ℕ) (K : ℕ → ℕ → Prop) : Prop where
  symm : ∀ i j, K i j → K j i
  ne : ∀ i j, K i j → i ≠ j
  one : Disjointed n K

theorem links_disjoint {n : ℕ} {K : ℕ → ℕ → Prop} (hK : Pairing n K) :
    (links n K).Pairwise fun q r => q.1 ≠ r.1 ∧ q.1 ≠ r.2 ∧ q.2 ≠ r.1 ∧ q.2 ≠ r.2 := by
  have hnd : (links n K).Nodup := by
    unfold links
    exact (nodup_upperPairs n).filter _
  refine List.Pairwise.imp_of_mem (fun {q r} hq hr hne => ?_) hnd
  obtain ⟨a1, a2, a3⟩ := mem_links.1 hq
  obtain ⟨b1, b2, b3⟩ := mem_links.1 hr
  refine ⟨fun h => hne ?_, fun h => ?_, fun h => ?_, fun h => hne ?_⟩
  · have := hK.one q.1 (by omega) q.2 a2 r.2 b2 a3 (h ▸ b3)
    exact Prod.ext h this
  · have := hK.one q.1 (by omega) q.2 a2 r.1 (by omega) a3 (h ▸ hK.symm _ _ b3)
    omega
  · have := hK.one q.2 a2 q.1 (by omega) r.2 b2 (hK.symm _ _ a3) (h ▸ b3)
    omega
  · have := hK.one q.2 a2 q.1 (by omega) r.1 (by omega) (hK.symm _ _ a3) (h ▸ hK.symm _ _ b3)
    exact Prod.ext this h

/-- Probability of a state if the pairs of `K` are independent of each other and of the other spins. -/
noncomputable def pairedWeight (n : ℕ) (p : List ℤ → ℝ) (K : ℕ → ℕ → Prop) (s : List ℤ) : ℝ :=
  (∏ k ∈ Finset.range n, spinProb n p k (s.getD k 0)) *
    ((links n K).map fun q => linkRatio n p q (s.getD q.1 0) (s.getD q.2 0)).prod

section
variable {n : ℕ} {p : List ℤ → ℝ} {K : ℕ → ℕ → Prop} (hp : PairPositive n p) (hn : 2 ≤ n) (hK : Pairing n K)
include hp hn

theorem links_factor : ∀ q ∈ links n K, q.1 < n ∧ q.2 < n ∧ LinkFactor (spinProb n p) q (linkRatio n p q) := by
  intro q hq
  obtain ⟨a1, a2, -⟩ := mem_links.1 hq
  exact ⟨by omega, a2, linkFactor hp hn q (by omega) a2 (by omega)⟩

include hK

/-- Two spins of different pairs are independent. -/
theorem paired_unlinked (i j : ℕ) (hi : i < n) (hj : j < n) (hij : i ≠ j) (hno : ¬ K i j) (φ : ℤ → ℤ → ℝ) :
    ((words [1, -1] n).map fun s => pairedWeight n p K s * φ (s.getD i 0) (s.getD j 0)).sum =
      spinProb n p i 1 * spinProb n p j 1 * φ 1 1 + spinProb n p i 1 * spinProb n p j (-1) * φ 1 (-1) +
        spinProb n p i (-1) * spinProb n p j 1 * φ (-1) 1 + spinProb n p i (-1) * spinProb n p j (-1) * φ (-1) (-1) := by
  rw [← sum_two n (spinProb n p) (fun k hk => spinProb_sum hp k hk) i j hi hj hij φ,
    ← remove_links n (spinProb n p) (fun q => linkRatio n p q) (links n K) (links_factor hp hn) (links_disjoint hK)
      (fun s => φ (s.getD i 0) (s.getD j 0)) fun q hq => ?_]
  · refine list_sum_congr fun s _ => ?_
    rw [pairedWeight, mul_assoc]
  · obtain ⟨a1, a2, a3⟩ := mem_links.1 hq
    by_cases h : q.1 = i ∨ q.1 = j
    · right
      intro s _
      have h1 : i ≠ q.2 := by
        rintro rfl
        rcases h with h | h
        · omega
        · exact hno (h ▸ hK.symm _ _ a3)
      have h2 : j ≠ q.2 := by
        rintro rfl
        rcases h with h | h
        · exact hno (h ▸ a3)
        · omega
      rw [negAt_getD_ne _ _ _ h1, negAt_getD_ne _ _ _ h2]
    · left
      intro s _
      push Not at h
      rw [negAt_getD_ne _ _ _ h.1.symm, negAt_getD_ne _ _ _ h.2.symm]

/-- A pair of `K` has its joint probabilities. -/
theorem paired_linked (i j : ℕ) (hij : i < j) (hj : j < n) (hyes : K i j) (φ : ℤ → ℤ → ℝ) :
    ((words [1, -1] n).map fun s => pairedWeight n p K s * φ (s.getD i 0) (s.getD j 0)).sum =
      pairProb n p i j 1 1 * φ 1 1 + pairProb n p i j 1 (-1) * φ 1 (-1) +
        pairProb n p i j (-1) 1 * φ (-1) 1 + pairProb n p i j (-1) (-1) * φ (-1) (-1) := by
  have hmem : (i, j) ∈ links n K := mem_links.2 ⟨hij, hj, hyes⟩
  have hperm := List.perm_cons_erase hmem
  have hdis := links_disjoint hK
  have hdis' := (hperm.pairwise_iff (R := fun q r : ℕ × ℕ => q.1 ≠ r.1 ∧ q.1 ≠ r.2 ∧ q.2 ≠ r.1 ∧ q.2 ≠ r.2)
    (fun {x y} h => ⟨h.1.symm, h.2.2.1.symm, h.2.1.symm, h.2.2.2.symm⟩)).1 hdis
  obtain ⟨hd1, hd2⟩ := List.pairwise_cons.1 hdis'
  have hi : i < n := by omega
  have pos := fun k (hk : k < n) => spinProb_pos hp hn k hk
  have e : pairProb n p i j 1 1 * φ 1 1 + pairProb n p i j 1 (-1) * φ 1 (-1) + pairProb n p i j (-1) 1 * φ (-1) 1 +
      pairProb n p i j (-1) (-1) * φ (-1) (-1) =
      spinProb n p i 1 * spinProb n p j 1 * (fun a b => linkRatio n p (i, j) a b * φ a b) 1 1 +
      spinProb n p i 1 * spinProb n p j (-1) * (fun a b => linkRatio n p (i, j) a b * φ a b) 1 (-1) +
      spinProb n p i (-1) * spinProb n p j 1 * (fun a b => linkRatio n p (i, j) a b * φ a b) (-1) 1 +
      spinProb n p i (-1) * spinProb n p j (-1) * (fun a b => linkRatio n p (i, j) a b * φ a b) (-1) (-1) := by
    have a1 := pos i hi 1 (by simp)
    have a2 := pos i hi (-1) (by simp)
    have a3 := pos j hj 1 (by simp)
    have a4 := pos j hj (-1) (by simp)
    unfold linkRatio
    field_simp
  rw [e, ← sum_two n (spinProb n p) (fun k hk => spinProb_sum hp k hk) i j hi hj hij.ne
      (fun a b => linkRatio n p (i, j) a b * φ a b),
    ← remove_links n (spinProb n p) (fun q => linkRatio n p q) ((links n K).erase (i, j))
      (fun q hq => links_factor hp hn q (List.mem_of_mem_erase hq)) hd2
      (fun s => linkRatio n p (i, j) (s.getD i 0) (s.getD j 0) * φ (s.getD i 0) (s.getD j 0)) fun q hq => ?_]
  · refine list_sum_congr fun s _ => ?_
    rw [pairedWeight, (hperm.map fun q => linkRatio n p q (s.getD q.1 0) (s.getD q.2 0)).prod_eq, List.map_cons, List.prod_cons]
    ring
  · left
    intro s _
    obtain ⟨b1, b2, b3, b4⟩ := hd1 q hq
    dsimp only at b1 b2 b3 b4
    rw [negAt_getD_ne _ _ _ b1, negAt_getD_ne _ _ _ b3]

/-- Every spin has its probabilities. -/
theorem paired_one (i : ℕ) (hi : i < n) (φ : ℤ → ℝ) :
    ((words [1, -1] n).map fun s => pairedWeight n p K s * φ (s.getD i 0)).sum =
      spinProb n p i 1 * φ 1 + spinProb n p i (-1) * φ (-1) := by
  obtain ⟨j, hj, hij⟩ : ∃ j < n, i ≠ j := by
    by_cases h : i = 0
    · exact ⟨1, by omega, by omega⟩
    · exact ⟨0, by omega, h⟩
  by_cases hk : K i j
  · rcases lt_or_gt_of_ne hij with h | h
    · rw [paired_linked hp hn hK i j h hj hk fun a _ => φ a, spinProb_split n p i j hj, spinProb_split n p i j hj]
      ring
    · rw [paired_linked hp hn hK j i h hi (hK.symm _ _ hk) fun _ a => φ a, spinProb_split' n p j i hj, spinProb_split' n p j i hj]
      ring
  · rw [paired_unlinked hp hn hK i j hi hj hij hk fun a _ => φ a]
    have := spinProb_sum hp j hj
    linear_combination (spinProb n p i 1 * φ 1 + spinProb n p i (-1) * φ (-1)) * this

theorem paired_sum : ((words [1, -1] n).map (pairedWeight n p K)).sum = 1 := by
  have := paired_one hp hn hK 0 (by omega) fun _ => 1
  simp only [mul_one] at this
  rw [this, spinProb_sum hp 0 (by omega)]

theorem paired_pos (s : List ℤ) (hs : s ∈ words [1, -1] n) : 0 < pairedWeight n p K s := by
  refine mul_pos (Finset.prod_pos fun k hk => spinProb_pos hp hn k (Finset.mem_range.1 hk) _ (spin_pm hs (Finset.mem_range.1 hk)))
    (List.prod_pos fun x hx => ?_)
  obtain ⟨q, hq, rfl⟩ := List.mem_map.1 hx
  obtain ⟨a1, a2, -⟩ := mem_links.1 hq
  have h1 : q.1 < n := by omega
  exact div_pos (hp.pos q.1 h1 q.2 a2 (by omega) _ _ (spin_pm hs h1) (spin_pm hs a2))
    (mul_pos (spinProb_pos hp hn _ h1 _ (spin_pm hs h1)) (spinProb_pos hp hn _ a2 _ (spin_pm hs a2)))

end

end Verif.Lemmas
