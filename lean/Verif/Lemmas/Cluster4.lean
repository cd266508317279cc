/-
Entropy and couplings of one cluster: `S` and `Sindependent` as functions of the set of spins.
-/
import Verif.Lemmas.Cluster3
import Verif.Lemmas.SetModel
import Verif.Props.MeanField

namespace Verif.Lemmas
open Verif Verif.Model Verif.Spec Verif.Props

/-- The embedding of a symmetric cluster matrix. -/
theorem embed_fits {J : Mat ℝ} {c : List ℕ} {n : ℕ} (hc : c.Nodup) (hcn : ∀ i ∈ c, i < n)
    (hJs : J.HasShape c.length c.length)
    (hsym : ∀ i < c.length, ∀ j < c.length, J.at' i j = J.at' j i) :
    ∃ Jf, jfullFromCluster J c n = .ok Jf ∧ Jf.HasShape n n ∧
      (∀ a < c.length, ∀ b < c.length, Jf.at' (c.getD a 0) (c.getD b 0) = J.at' a b) ∧
      (∀ i j, Jf.at' i j = Jf.at' j i) ∧ (∀ i j, i ∉ c.toFinset ∨ j ∉ c.toFinset → Jf.at' i j = 0) := by
  obtain ⟨Jf, e1, e2, e3, e4⟩ := C64_embed J c n hJs hcn hc
  have hout : ∀ i j, ¬ (i < n ∧ j < n) → Jf.at' i j = 0 := by
    intro i j h
    unfold Mat.at'
    by_cases hi : i < n
    · have hj : n ≤ j := by omega
      have : (Jf.getD i []).length = n := by
        rw [List.getD_eq_getElem _ _ (e2.1.symm ▸ hi)]
        exact e2.2 _ (List.getElem_mem _)
      rw [List.getD_eq_default _ _ (by omega)]
    · rw [List.getD_eq_default Jf _ (by rw [e2.1]; omega)]
      simp
  have hsupp : ∀ i j, i ∉ c.toFinset ∨ j ∉ c.toFinset → Jf.at' i j = 0 := by
    intro i j h
    by_cases hij : i < n ∧ j < n
    · exact e4 i hij.1 j hij.2 (by simpa using h)
    · exact hout i j hij
  refine ⟨Jf, e1, e2, ?_, ?_, hsupp⟩
  · intro a ha b hb
    rw [List.getD_eq_getElem _ _ ha, List.getD_eq_getElem _ _ hb, e3 a b ha hb]
  · intro i j
    by_cases h : i ∈ c ∧ j ∈ c
    · obtain ⟨a, ha, rfl⟩ := List.getElem_of_mem h.1
      obtain ⟨b, hb, rfl⟩ := List.getElem_of_mem h.2
      rw [e3 a b ha hb, e3 b a hb ha, hsym a ha b hb]
    · rw [hsupp i j (by simp; tauto), hsupp j i (by simp; tauto)]

/-- If some couplings reproduce the co-occurrences `C` of the spins of a cluster, and `C` is what `S`
reads for this order of the spins, `S` returns those couplings and the entropy of their model. -/
theorem clusterS_exact {lsq : (List ℝ → Py (List ℝ)) → List ℝ → Py (List ℝ)} (hlsq : ExactLsq lsq)
    {M : Mat ℝ} {n : ℕ} (hM : M.HasShape n n) (C : ℕ → ℕ → ℝ) (c : List ℕ) (hc : c.Nodup) (hne : c ≠ [])
    (hcn : ∀ i ∈ c, i < n)
    (hC : ∀ a b (ha : a < c.length) (hb : b < c.length), a ≤ b → M.at' c[a] c[b] = C c[a] c[b])
    (hfit : ∃ G, Fits c.toFinset C G) (logName : Option (ℝ → ℝ)) (ns : Option ℕ) :
    ∃ J, clusterS logName lsq M false 0 ns c = .ok (setEntropy c.toFinset fun i j => J.at' i j, J) ∧
      J.HasShape n n ∧ Fits c.toFinset C fun i j => J.at' i j := by
  obtain ⟨G, hG⟩ := hfit
  have hlen : 1 ≤ c.length := List.length_pos_iff.2 hne
  obtain ⟨R, hR, hRs, hRv⟩ := C64_cluster M n hM c hcn
  obtain ⟨J, j1, j2, j3, j4⟩ := C78_exact lsq hlsq R c.length hRs hlen ns
    (fun a b => G (c.getD a 0) (c.getD b 0)) (fun a ha b hb hab => by
      rw [expect_onSet c hc G a b ha hb, hG.moments _ (by simp) _ (by simp), hRv a b ha hb,
        hC a b ha hb hab])
  obtain ⟨Jf, f1, f2, f3, f4, f5⟩ := embed_fits hc hcn j2 j3
  have hq : ∀ s : List ℤ, quadE c.length (fun i j => J.at' i j) (spins s) =
      quadE c.length (fun a b => Jf.at' (c.getD a 0) (c.getD b 0)) (spins s) := fun s =>
    quadE_congr _ _ _ _ _ (fun a ha b hb => (f3 a ha b hb).symm) fun _ _ => rfl
  have hmom : ∀ a b (ha : a < c.length) (hb : b < c.length), a ≤ b →
      setMoment c.toFinset (fun i j => Jf.at' i j) c[a] c[b] = C c[a] c[b] := by
    intro a b ha hb hab
    have := j4 a ha b hb hab
    simp only [hq] at this
    rw [expect_onSet c hc (fun i j => Jf.at' i j) a b ha hb] at this
    rw [this, hRv a b ha hb, hC a b ha hb hab]
  refine ⟨Jf, ?_, f2, f4, f5, ?_⟩
  · have hfitJ : clusterFit logName lsq M false 0 ns c = .ok J := by
      unfold clusterFit
      simp only [hR, j1]
      match c, hne with
      | [_], _ => simp
      | [_, _], _ => simp
      | _ :: _ :: _ :: _, _ => rfl
    have hent : analyticEntropy J = .ok (setEntropy c.toFinset fun i j => Jf.at' i j) := by
      rw [analyticEntropy_ok j2 hlen, ← entropy_onSet c hc]
      simp only [hq]
    rw [clusterS, hfitJ]
    simp only [hM.1, f1, hent]
  · intro i hi j hj
    obtain ⟨a, ha, rfl⟩ := List.getElem_of_mem (List.mem_toFinset.1 hi)
    obtain ⟨b, hb, rfl⟩ := List.getElem_of_mem (List.mem_toFinset.1 hj)
    rcases le_total a b with h | h
    · exact hmom a b ha hb h
    · rw [setMoment_comm, hmom b a hb ha h, ← hG.moments _ hj _ hi, setMoment_comm, hG.moments _ hi _ hj]

/-- `Sindependent` returns the independent model with the frequencies of the spins and its entropy. -/
theorem sIndependent_ok {M : Mat ℝ} {n : ℕ} (hM : M.HasShape n n) (c : List ℕ) (hc : c.Nodup)
    (hne : c ≠ []) (hcn : ∀ i ∈ c, i < n) (hf : ∀ i ∈ c, 0 < M.at' i i ∧ M.at' i i < 1) :
    ∃ J, sIndependent M c = .ok (setEntropy c.toFinset fun i j => J.at' i j, J) ∧ J.HasShape n n ∧
      Fits c.toFinset (fun i j => if i = j then M.at' i i else M.at' i i * M.at' j j)
        fun i j => J.at' i j := by
  have hlen : 1 ≤ c.length := List.length_pos_iff.2 hne
  obtain ⟨R, hR, hRs, hRv⟩ := C64_cluster M n hM c hcn
  obtain ⟨T, hT, hTs, -, hTv⟩ := C64_symmetrize R c.length hRs hlen
  have hfr : diagonalK T 0 = (List.range c.length).map fun a => T.at' a a := by
    rw [diagonalK_eq hTs]
    simp
  set f : ℕ → ℝ := fun a => T.at' a a with hfdef
  have hfv : ∀ a (ha : a < c.length), f a = M.at' c[a] c[a] := fun a ha => by
    rw [hfdef]; beta_reduce; rw [hTv a ha a ha (le_refl a), hRv a a ha ha]
  have hf01 : ∀ a < c.length, 0 < f a ∧ f a < 1 := fun a ha => by
    rw [hfv a ha]; exact hf _ (List.getElem_mem ha)
  obtain ⟨J, e⟩ : ∃ J, J = diagMat ((diagonalK T 0).map fun f => -Real.log (f / (1 - f))) 0 := ⟨_, rfl⟩
  have hJ : J = Mat.build c.length c.length fun a b => if a = b then logitField (f a) else 0 := by
    rw [e, hfr]
    unfold diagMat
    simp only [List.length_map, List.length_range, Nat.add_zero]
    apply Mat.ext' (Mat.build_shape _ _ _) (Mat.build_shape _ _ _)
    intro a ha b hb
    rw [Mat.at_build _ ha hb, Mat.at_build _ ha hb]
    by_cases h : a = b
    · subst h
      rw [if_pos rfl, if_pos rfl, List.getD_eq_getElem _ _ (by simpa using ha)]
      simp [logitField, hfdef]
    · rw [if_neg h, if_neg (fun h' => h h'.symm)]
  have hJs : J.HasShape c.length c.length := hJ ▸ Mat.build_shape _ _ _
  have hJv : ∀ a < c.length, ∀ b < c.length, J.at' a b = if a = b then logitField (f a) else 0 :=
    fun a ha b hb => by rw [hJ, Mat.at_build _ ha hb]
  obtain ⟨Jf, f1, f2, f3, f4, f5⟩ := embed_fits (J := J) hc hcn hJs (fun i hi j hj => by
    rw [hJv i hi j hj, hJv j hj i hi]
    by_cases h : i = j
    · subst h; rfl
    · rw [if_neg h, if_neg (fun h' => h h'.symm)])
  have hq : ∀ s : List ℤ, quadE c.length (fun i j => if i = j then logitField (f i) else 0) (spins s) =
      quadE c.length (fun a b => Jf.at' (c.getD a 0) (c.getD b 0)) (spins s) := fun s =>
    quadE_congr _ _ _ _ _ (fun a ha b hb => by rw [f3 a ha b hb, hJv a ha b hb]) fun _ _ => rfl
  refine ⟨Jf, ?_, f2, f4, f5, ?_⟩
  · rw [sIndependent, hR]
    simp only [hT, hM.1, ← e, f1]
    congr 2
    rw [← entropy_onSet c hc, hfr, List.map_map, sum_map_range]
    simp only [← hq]
    rw [entropy_independent c.length f hf01]
    rfl
  · intro i hi j hj
    obtain ⟨a, ha, rfl⟩ := List.getElem_of_mem (List.mem_toFinset.1 hi)
    obtain ⟨b, hb, rfl⟩ := List.getElem_of_mem (List.mem_toFinset.1 hj)
    rw [← expect_onSet c hc (fun i j => Jf.at' i j) a b ha hb]
    simp only [← hq]
    rw [expect_independent c.length f hf01 a b ha hb, hfv a ha, hfv b hb]
    by_cases h : a = b
    · subst h; simp
    · rw [if_neg h, if_neg (fun h' => h ((List.Nodup.getElem_inj_iff hc).1 h'))]

end Verif.Lemmas
