/-
The adaptive cluster expansion on the entropies of the code, and the conversion of its couplings.
-/
import Verif.Lemmas.Cluster4
import Verif.Props.Matrix

namespace Verif.Lemmas
open Verif Verif.Model Verif.Spec Verif.Props

open scoped Classical in
/-- Entropy and couplings of the model with co-occurrences `C`, if there is one. -/
noncomputable def fitVal (n : ℕ) (C : ℕ → ℕ → ℝ) (A : Finset ℕ) : ℝ × (Fin n → Fin n → ℝ) :=
  if h : ∃ J, Fits A C J then (setEntropy A h.choose, fun i j => h.choose i j) else 0

theorem fitVal_eq {n : ℕ} {C J : ℕ → ℕ → ℝ} {A : Finset ℕ} (h : Fits A C J) :
    fitVal n C A = (setEntropy A J, fun i j : Fin n => J i j) := by
  have hex : ∃ J, Fits A C J := ⟨J, h⟩
  rw [fitVal, dif_pos hex, Fits.unique hex.choose_spec h]

theorem entJPy_S {lsq : (List ℝ → Py (List ℝ)) → List ℝ → Py (List ℝ)} (hlsq : ExactLsq lsq)
    {M : Mat ℝ} {n : ℕ} (hM : M.HasShape n n) (C : ℕ → ℕ → ℝ) (c : List ℕ) (hc : c.Nodup) (hne : c ≠ [])
    (hcn : ∀ i ∈ c, i < n)
    (hC : ∀ a b (ha : a < c.length) (hb : b < c.length), a ≤ b → M.at' c[a] c[b] = C c[a] c[b])
    (hfit : ∃ G, Fits c.toFinset C G) (logName : Option (ℝ → ℝ)) (ns : Option ℕ) :
    entJPy n (clusterS logName lsq M false 0 ns c) = .ok (fitVal n C c.toFinset) := by
  obtain ⟨J, h1, h2, h3⟩ := clusterS_exact hlsq hM C c hc hne hcn hC hfit logName ns
  rw [h1, fitVal_eq h3]
  rfl

theorem entJPy_ind {M : Mat ℝ} {n : ℕ} (hM : M.HasShape n n) (c : List ℕ) (hc : c.Nodup)
    (hne : c ≠ []) (hcn : ∀ i ∈ c, i < n) (hf : ∀ i ∈ c, 0 < M.at' i i ∧ M.at' i i < 1) :
    entJPy n (sIndependent M c) =
      .ok (fitVal n (fun i j => if i = j then M.at' i i else M.at' i i * M.at' j j) c.toFinset) := by
  obtain ⟨J, h1, h2, h3⟩ := sIndependent_ok hM c hc hne hcn hf
  rw [h1, fitVal_eq h3]
  rfl

/-- Everything kept: only clusters in increasing order and single spins are evaluated. -/
theorem aceSolve_all {V : Type*} [AddCommGroup V] {S S0 : List ℕ → Py V} {F : Finset ℕ → V}
    (keep : V → Bool) (hkeep : ∀ v, keep v = true) (c : List ℕ) (hc : c.Nodup) (hc2 : 2 ≤ c.length)
    (s0 : V) (hs0 : S0 c = .ok s0)
    (h : ∀ g : List ℕ, g.Nodup → g ≠ [] → g.toFinset ⊆ c.toFinset → g.Pairwise (· ≤ ·) →
      ∃ s s0, S g = .ok s ∧ S0 g = .ok s0 ∧ s - s0 = F g.toFinset) :
    ∃ levels d, aceSolve S S0 keep true false c [] = .ok (s0 + F c.toFinset, levels, d) ∧
      (∀ g ∈ levels.flatten, g.Nodup ∧ g ≠ [] ∧ g.toFinset ⊆ c.toFinset ∧ g.Pairwise (· ≤ ·)) ∧
      (levels.flatten.map List.toFinset).Nodup ∧
      ∀ A : Finset ℕ, A.Nonempty → A ⊆ c.toFinset → ∃ g ∈ levels.flatten, g.toFinset = A := by
  obtain ⟨D, hF⟩ := exists_telescopes F
  set K : Finset ℕ → Prop := fun A => keep (D A) = true with hK
  have hall : ∀ A, K A := fun A => hkeep _
  obtain ⟨levels, d, e, -, -, f1, f2, -, f4⟩ := aceSolve_ok (S := S) (S0 := S0) hF keep c hc hc2 s0 hs0
    (fun k d => ∀ g : List ℕ, g.Nodup → g.toFinset ⊆ c.toFinset → 2 ≤ g.length → g.length ≤ k →
      d.lookup (clusterID g) ≠ none)
    (fun g _ _ h1 h2 => by omega)
    (by
      intro k d hk hd hQ g g1 g2 g3 g4 _
      refine .fresh g (h g g1 (by rintro rfl; simp at g3) g4 g2) fun s s1 s2 s3 => ?_
      have hlt : s.length < g.length := by
        rw [← List.toFinset_card_of_nodup s1, ← List.toFinset_card_of_nodup g1]
        exact Finset.card_lt_card s3
      by_cases hs : 2 ≤ s.length
      · exact .memo s (hQ s s1 (s3.subset.trans g4) hs (by omega))
      · have hs1 : s.length = 1 := by
          have := List.length_pos_iff.2 s2
          omega
        obtain ⟨i, rfl⟩ := List.length_eq_one_iff.1 hs1
        refine .fresh _ (h _ s1 s2 (s3.subset.trans g4) (by simp)) fun t t1 t2 t3 => ?_
        exfalso
        have := Finset.card_lt_card t3
        rw [List.toFinset_card_of_nodup t1, List.toFinset_card_of_nodup s1] at this
        have := List.length_pos_iff.2 t2
        simp only [List.length_singleton] at *
        omega)
    (by
      intro k d d' hk hQ hx hp g g1 g2 g3 g4
      by_cases hgk : g.length ≤ k
      · exact hx.ne_none (hQ g g1 g2 g3 hgk)
      · have hgk' : g.toFinset.card = k + 1 := by rw [List.toFinset_card_of_nodup g1]; omega
        obtain ⟨⟨B, C, hB, hC, hU⟩, -, -⟩ := (Selected.succ hk).1
          ((selected_all K hall c.toFinset (k + 1) (by omega) g.toFinset).2 ⟨g2, hgk'⟩)
        exact hp B C hB hC (hU ▸ hgk') g g1 hU)
  have hmem : ∀ A : Finset ℕ, A.Nonempty → A ⊆ c.toFinset → ∃ g ∈ levels.flatten, g.toFinset = A := by
    intro A hA hAc
    exact (f4 A).2 ⟨A.card, (selected_all K hall c.toFinset A.card hA.card_pos A).2 ⟨hAc, rfl⟩⟩
  refine ⟨levels, d, ?_, f1, f2, hmem⟩
  rw [e]
  congr 2
  have hne : c.toFinset.Nonempty := by
    rw [← Finset.card_pos, List.toFinset_card_of_nodup hc]; omega
  have hset : (levels.flatten.map List.toFinset).toFinset = c.toFinset.powerset.erase ∅ := by
    ext A
    rw [List.mem_toFinset, List.mem_map, Finset.mem_erase, Finset.mem_powerset]
    constructor
    · rintro ⟨g, hg, rfl⟩
      obtain ⟨m1, m2, m3, -⟩ := f1 g hg
      exact ⟨by simpa using m2, m3⟩
    · rintro ⟨h1, h2⟩
      exact hmem A (Finset.nonempty_iff_ne_empty.2 h1) h2
  rw [← hF _ hne, ← hset, List.sum_toFinset _ f2, List.map_map]
  rfl

theorem couplingAt_upperPairs {K : Type*} [CommRing K] (n : ℕ) (f : ℕ × ℕ → K) (i j : ℕ) (hij : i < j)
    (hj : j < n) : couplingAt n ((upperPairs n).map f) i j = f (i, j) := by
  have hm : (i, j) ∈ upperPairs n := mem_upperPairs.2 ⟨hij, hj⟩
  have hl := List.idxOf_lt_length_of_mem hm
  rw [couplingAt, List.getD_eq_getElem _ _ (by simpa using hl), List.getElem_map, List.getElem_idxOf]

/-- The conversion of the coupling matrix. -/
theorem aceParams_ok {J : Mat ℝ} {n : ℕ} (hn : 1 ≤ n) (hJ : J.HasShape n n)
    (hsym : ∀ i < n, ∀ j < n, J.at' i j = J.at' j i) :
    ∃ x, aceParams J = .ok x ∧ x.length = n + n * (n - 1) / 2 ∧
      ∃ k, ∀ s : ℕ → ℝ, isingVecE n (x.take n) (x.drop n) s =
        quadE n (fun i j => J.at' i j) (fun i => (s i + 1) / 2) + k := by
  classical
  have hd : diagonal J = (List.range n).map fun i => J.at' i i := by
    unfold diagonal
    rw [hJ.1, Mat.ncols_eq hJ hn, min_self]
  have hz : zeroDiag J = .ok (Mat.build n n fun i j => if i = j then 0 else J.at' i j) := by
    unfold zeroDiag replaceDiag
    rw [if_neg (by simp [hJ.1, Mat.ncols_eq hJ hn]), hJ.1]
    dsimp only
    congr 1
    apply Mat.ext' (Mat.build_shape _ _ _) (Mat.build_shape _ _ _)
    intro i hi j hj
    rw [Mat.at_build _ hi hj, Mat.at_build _ hi hj]
    by_cases h : i = j
    · subst h; simp [hi]
    · simp [h]
  obtain ⟨Z, eZ⟩ : ∃ Z : Mat ℝ, Z = (Mat.build n n fun i j => if i = j then (0 : ℝ) else J.at' i j).map
    (fun r => r.map fun x => -x) := ⟨_, rfl⟩
  have hZ : Z = Mat.build n n fun i j => if i = j then (0 : ℝ) else -J.at' i j := by
    rw [eZ]
    unfold Mat.build
    rw [List.map_map]
    refine List.map_congr_left fun i _ => ?_
    simp only [Function.comp, List.map_map]
    refine List.map_congr_left fun j _ => ?_
    simp only [Function.comp]
    split_ifs <;> simp
  have hZs : Z.HasShape n n := hZ ▸ Mat.build_shape _ _ _
  have hZv : ∀ i < n, ∀ j < n, Z.at' i j = if i = j then (0 : ℝ) else -J.at' i j := fun i hi j hj => by
    rw [hZ, Mat.at_build _ hi hj]
  have hsq : squareformMat Z = .ok ((upperPairs n).map fun p => Z.at' p.1 p.2) := by
    unfold squareformMat
    simp only [hZs.1, Mat.ncols_eq hZs hn, ne_eq, not_true, if_false]
    rw [if_neg, if_neg]
    · rw [not_not]
      intro i hi
      have := List.mem_range.1 hi
      rw [hZv i this i this, if_pos rfl]
    · rw [not_not]
      intro i hi j hj
      have h1 := List.mem_range.1 hi
      have h2 := List.mem_range.1 hj
      rw [hZv i h1 j h2, hZv j h2 i h1]
      by_cases h : i = j
      · subst h; rfl
      · rw [if_neg h, if_neg (fun h' => h h'.symm), hsym i h1 j h2]
  obtain ⟨h', J', e1, e2, e3, k, e4⟩ := C11_to11_energy (K := ℝ) n hn
    ((diagonal J).map fun x => -x) (((upperPairs n).map fun p => Z.at' p.1 p.2).map fun x => x * 2)
    (by simp [hd]) (by simp [length_upperPairs])
  have hx : aceParams J = .ok (h' ++ J') := by
    unfold aceParams
    simp only [hz, ← eZ, hsq]
    rw [C12_concat, e1]
  refine ⟨h' ++ J', hx, by rw [List.length_append, e2, e3], k, fun s => ?_⟩
  rw [List.take_left' e2, List.drop_left' e2, e4 s]
  congr 1
  unfold isingVecE isingE quadE
  rw [List.map_map]
  have hc : ∀ i < n, ∀ j < n, i < j → couplingAt n (((upperPairs n).map
      ((fun x => x * 2) ∘ fun p : ℕ × ℕ => Z.at' p.1 p.2))) i j = -2 * J.at' i j := by
    intro i hi j hj hij
    rw [couplingAt_upperPairs n _ i j hij hj]
    simp only [Function.comp]
    rw [hZv i hi j hj, if_neg hij.ne]
    ring
  have e1 : ∑ i ∈ Finset.range n, ((diagonal J).map fun x => -x).getD i 0 * ((s i + 1) / 2) =
      -∑ i ∈ Finset.range n, J.at' i i * ((s i + 1) / 2) := by
    rw [← Finset.sum_neg_distrib, hd, List.map_map]
    refine Finset.sum_congr rfl fun i hi => ?_
    rw [getD_map_range n _ _ (Finset.mem_range.1 hi)]
    simp only [Function.comp]
    ring
  have e2 : ∑ i ∈ Finset.range n, ∑ j ∈ Finset.range n, (if i < j then couplingAt n ((upperPairs n).map
      ((fun x => x * 2) ∘ fun p : ℕ × ℕ => Z.at' p.1 p.2)) i j * ((s i + 1) / 2) * ((s j + 1) / 2)
      else 0) = -∑ i ∈ Finset.range n, ∑ j ∈ Finset.range n,
        (if i = j then 0 else J.at' i j * ((s i + 1) / 2) * ((s j + 1) / 2)) := by
    have h1 : ∀ i ∈ Finset.range n, ∀ j ∈ Finset.range n,
        (if i = j then 0 else J.at' i j * ((s i + 1) / 2) * ((s j + 1) / 2)) =
          (if i < j then J.at' i j * ((s i + 1) / 2) * ((s j + 1) / 2) else 0) +
          (if j < i then J.at' j i * ((s j + 1) / 2) * ((s i + 1) / 2) else 0) := by
      intro i hi j hj
      rw [hsym j (Finset.mem_range.1 hj) i (Finset.mem_range.1 hi)]
      rcases lt_trichotomy i j with h | h | h
      · rw [if_neg h.ne, if_pos h, if_neg (by omega), add_zero]
      · subst h; simp
      · rw [if_neg h.ne', if_neg (by omega), if_pos h, zero_add]; ring
    rw [Finset.sum_congr rfl fun i hi => Finset.sum_congr rfl (h1 i hi)]
    simp only [Finset.sum_add_distrib]
    rw [Finset.sum_comm (f := fun i j => if j < i then J.at' j i * ((s j + 1) / 2) * ((s i + 1) / 2) else 0),
      ← two_mul, ← neg_mul, Finset.mul_sum]
    refine Finset.sum_congr rfl fun i hi => ?_
    rw [Finset.mul_sum]
    refine Finset.sum_congr rfl fun j hj => ?_
    by_cases h : i < j
    · rw [if_pos h, if_pos h, hc i (Finset.mem_range.1 hi) j (Finset.mem_range.1 hj) h]; ring
    · rw [if_neg h, if_neg h, mul_zero]
  rw [e1, e2, neg_neg, sub_neg_eq_add]

end Verif.Lemmas
