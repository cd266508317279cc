/-
C129: the clusters found by `spec_cluster` (coniii/samplers.py) from the eigenvectors of a graph Laplacian.
-/
import Verif.Lemmas.SpecCluster
import Mathlib.Combinatorics.SimpleGraph.Connectivity.Connected
import Mathlib.Combinatorics.SimpleGraph.Paths
import Mathlib.Analysis.Real.Sqrt

namespace Verif.Props
open Verif Verif.Model Verif.Lemmas

variable {n : ℕ} {L : Mat ℝ} {w : List ℝ} {v : Mat ℝ} {G : SimpleGraph (Fin n)} [DecidableRel G.Adj]

/-- The result of `spec_cluster` if the library returns the eigenvalues `w` and eigenvectors `v`. -/
noncomputable abbrev clustersOf (L : Mat ℝ) (w : List ℝ) (v : Mat ℝ) (exact : Bool) : List (List ℕ) :=
  specCluster (fun _ => (w, v)) L exact

/-- Entries of eigenvectors for the eigenvalue 0 are either 0 or larger than the tolerance of `np.isclose`. -/
def Sharp (n : ℕ) (w : List ℝ) (v : Mat ℝ) : Prop :=
  ∀ i < n, w.getD i 0 = 0 → ∀ x < n, v.at' x i = 0 ∨ 1 / 10 ^ 8 < |v.at' x i|

theorem isCloseZero_iff (x : ℝ) : (isCloseZero x == false) = true ↔ 1 / 10 ^ 8 < |x| := by
  unfold isCloseZero
  simp

theorem mem_zeroEigs (he : EigOf n L w v) (i : ℕ) : i ∈ zeroEigs true w ↔ i < n ∧ w.getD i 0 = 0 := by
  unfold zeroEigs
  rw [List.mem_filter, List.mem_range, he.len]
  simp

theorem mem_columnSupport (he : EigOf n L w v) (i x : ℕ) : x ∈ columnSupport v i ↔ x < n ∧ 1 / 10 ^ 8 < |v.at' x i| := by
  unfold columnSupport
  rw [List.mem_filter, List.mem_range, he.shape.1, isCloseZero_iff]

theorem mem_clusters (he : EigOf n L w v) (C : List ℕ) :
    C ∈ clustersOf L w v true ↔ ∃ i < n, w.getD i 0 = 0 ∧ columnSupport v i = C := by
  unfold clustersOf specCluster
  simp only [List.mem_map, mem_zeroEigs he, and_assoc]

open Classical in
/-- C129: as many clusters are returned as the graph has connected components. -/
theorem C129_count (he : EigOf n L w v) (hL : IsLaplacian G L) :
    (clustersOf L w v true).length = Fintype.card G.ConnectedComponent := by
  rw [← card_zero he hL, clustersOf, specCluster, List.length_map, Fintype.card_subtype]
  have hn : (zeroEigs true w).Nodup := List.nodup_range.filter _
  rw [← List.toFinset_card_of_nodup hn]
  refine (Finset.card_bij (fun (i : Fin n) _ => (i : ℕ)) (fun i hi => ?_) (fun i _ j _ h => Fin.ext h) fun b hb => ?_).symm
  · rw [List.mem_toFinset, mem_zeroEigs he]
    exact ⟨i.2, by simpa using hi⟩
  · rw [List.mem_toFinset, mem_zeroEigs he] at hb
    exact ⟨⟨b, hb.1⟩, by simpa using hb.2, rfl⟩

/-- C129: every cluster consists of whole components, and lists its sites in increasing order. -/
theorem C129_unions (he : EigOf n L w v) (hL : IsLaplacian G L) {C : List ℕ} (hC : C ∈ clustersOf L w v true) :
    (∀ x ∈ C, x < n) ∧ C.Pairwise (· < ·) ∧ ∀ x y : Fin n, G.Reachable x y → (↑x ∈ C ↔ ↑y ∈ C) := by
  obtain ⟨i, hi, h0, rfl⟩ := (mem_clusters he C).1 hC
  refine ⟨fun x hx => ((mem_columnSupport he i x).1 hx).1, List.Pairwise.filter _ List.pairwise_lt_range, fun x y h => ?_⟩
  rw [mem_columnSupport he, mem_columnSupport he, col_const he hL ⟨i, hi⟩ h0 h]
  simp

/-- A column has an entry of at least `1/sqrt n`. -/
theorem exists_large (he : EigOf n L w v) {i : ℕ} (hi : i < n) : ∃ x : Fin n, 1 / (n : ℝ) ≤ v.at' x i ^ 2 ∧
    ∀ y : Fin n, v.at' y i ^ 2 ≤ v.at' x i ^ 2 := by
  have hn : (Finset.univ : Finset (Fin n)).Nonempty := ⟨⟨i, hi⟩, Finset.mem_univ _⟩
  obtain ⟨x, -, hx⟩ := Finset.exists_max_image Finset.univ (fun x : Fin n => v.at' x i ^ 2) hn
  refine ⟨x, ?_, fun y => hx y (Finset.mem_univ _)⟩
  have h1 := he.unit i hi
  rw [Finset.sum_range] at h1
  have h2 : ∑ y : Fin n, v.at' y i ^ 2 ≤ ∑ _y : Fin n, v.at' x i ^ 2 := Finset.sum_le_sum fun y _ => hx y (Finset.mem_univ _)
  rw [h1, Finset.sum_const, Finset.card_univ, Fintype.card_fin, nsmul_eq_mul] at h2
  have hpos : (0 : ℝ) < n := by
    have : 0 < n := by omega
    exact_mod_cast this
  rw [div_le_iff₀ hpos]
  linarith

theorem large_of_sq {n : ℕ} (hn : n < 10 ^ 16) (h0 : 0 < n) {x : ℝ} (hx : 1 / (n : ℝ) ≤ x ^ 2) : 1 / 10 ^ 8 < |x| := by
  have hpos : (0 : ℝ) < n := by exact_mod_cast h0
  have hlt : (n : ℝ) < 10 ^ 16 := by exact_mod_cast hn
  have h1 : (1 / 10 ^ 8 : ℝ) ^ 2 < x ^ 2 := by
    refine lt_of_lt_of_le ?_ hx
    rw [lt_div_iff₀ hpos]
    norm_num
    linarith
  have := sq_lt_sq.1 h1
  rwa [abs_of_pos (by norm_num)] at this

/-- C129: with fewer than `10^16` sites, no cluster is empty. -/
theorem C129_nonempty (he : EigOf n L w v) (hn : n < 10 ^ 16) {C : List ℕ} (hC : C ∈ clustersOf L w v true) : C ≠ [] := by
  obtain ⟨i, hi, h0, rfl⟩ := (mem_clusters he C).1 hC
  obtain ⟨x, hx, -⟩ := exists_large he hi
  exact List.ne_nil_of_mem ((mem_columnSupport he i x).2 ⟨x.2, large_of_sq hn (by omega) hx⟩)

/-- C129: a connected graph is returned as a single cluster of all sites. -/
theorem C129_connected (he : EigOf n L w v) (hL : IsLaplacian G L) (hn : n < 10 ^ 16) (hG : G.Connected) :
    clustersOf L w v true = [List.range n] := by
  classical
  have hlen : (clustersOf L w v true).length = 1 := by
    rw [C129_count he hL]
    have := hG.nonempty
    have := hG.preconnected.subsingleton_connectedComponent
    exact Fintype.card_eq_one_iff.2 ⟨G.connectedComponentMk hG.nonempty.some, fun y => Subsingleton.elim _ _⟩
  obtain ⟨C, hC⟩ := List.length_eq_one_iff.1 hlen
  rw [hC]
  have hmem : C ∈ clustersOf L w v true := by rw [hC]; simp
  obtain ⟨i, hi, h0, rfl⟩ := (mem_clusters he C).1 hmem
  congr 1
  unfold columnSupport
  rw [he.shape.1, List.filter_eq_self]
  intro x hx
  rw [isCloseZero_iff]
  obtain ⟨y, hy, -⟩ := exists_large he hi
  have := col_const he hL ⟨i, hi⟩ h0 (hG.preconnected ⟨x, List.mem_range.1 hx⟩ y)
  exact large_of_sq hn (by omega) (by rw [this]; exact hy)

/-- C129: every site is in a cluster, if no entry of the eigenvectors is small but not 0. -/
theorem C129_cover (he : EigOf n L w v) (hL : IsLaplacian G L) (hs : Sharp n w v) (x : Fin n) :
    ∃ C ∈ clustersOf L w v true, ↑x ∈ C := by
  classical
  obtain ⟨c, hc0, hc⟩ := kernel_span he hL (fun y => if G.Reachable x y then 1 else 0)
    (G.lapMatrix_mulVec_eq_zero_iff_forall_reachable.2 fun y z hyz => by
      have : G.Reachable x y ↔ G.Reachable x z := ⟨fun h => h.trans hyz, fun h => h.trans hyz.symm⟩
      simp only [this])
  have h1 := congrFun hc x
  simp only [SimpleGraph.Reachable.refl, if_true, Finset.sum_apply, Pi.smul_apply, smul_eq_mul, col] at h1
  obtain ⟨i, -, hi⟩ := Finset.exists_ne_zero_of_sum_ne_zero (by rw [← h1]; exact one_ne_zero)
  have hw : w.getD i 0 = 0 := by
    by_contra h
    exact hi (by rw [hc0 i h, zero_mul])
  refine ⟨_, (mem_clusters he _).2 ⟨i, i.2, hw, rfl⟩, (mem_columnSupport he i x).2 ⟨x.2, ?_⟩⟩
  exact (hs i i.2 hw x x.2).resolve_left fun h => hi (by rw [h, mul_zero])

/-- C129, what holds (missing: nothing makes the library choose such eigenvectors, see `C129_wrong`): if no cluster
joins two components, then the clusters are the components, each once. -/
theorem C129_components_partial (he : EigOf n L w v) (hL : IsLaplacian G L) (hs : Sharp n w v) (hn : n < 10 ^ 16)
    (hone : ∀ C ∈ clustersOf L w v true, ∀ x y : Fin n, ↑x ∈ C → ↑y ∈ C → G.Reachable x y) :
    (clustersOf L w v true).Nodup ∧
      ∀ x : Fin n, ∃ C ∈ clustersOf L w v true, ∀ y : Fin n, ↑y ∈ C ↔ G.Reachable x y := by
  constructor
  · unfold clustersOf specCluster
    refine List.Nodup.map_on ?_ (List.nodup_range.filter _)
    intro i hi j hj hij
    obtain ⟨hi, hwi⟩ := (mem_zeroEigs he i).1 hi
    obtain ⟨hj, hwj⟩ := (mem_zeroEigs he j).1 hj
    by_contra hne
    obtain ⟨x, hx, -⟩ := exists_large he hi
    have hlarge := large_of_sq hn (by omega) hx
    have hxi : ↑x ∈ columnSupport v i := (mem_columnSupport he i x).2 ⟨x.2, hlarge⟩
    have hxj : ↑x ∈ columnSupport v j := hij ▸ hxi
    -- both columns are constant on the component of `x` and 0 elsewhere
    have key : ∀ k, k < n → w.getD k 0 = 0 → ↑x ∈ columnSupport v k → ∀ y : Fin n,
        v.at' y k = v.at' x k ∧ G.Reachable x y ∨ v.at' y k = 0 ∧ ¬G.Reachable x y := by
      intro k hk hwk hxk y
      by_cases hr : G.Reachable x y
      · exact .inl ⟨(col_const he hL ⟨k, hk⟩ hwk hr).symm, hr⟩
      · refine .inr ⟨?_, hr⟩
        by_contra h
        have h2 := (hs k hk hwk y y.2).resolve_left h
        exact hr (hone _ ((mem_clusters he _).2 ⟨k, hk, hwk, rfl⟩) x y hxk ((mem_columnSupport he k y).2 ⟨y.2, h2⟩))
    have := he.indep (fun k => if k = i then v.at' x j else if k = j then -v.at' x i else 0) (fun y hy => by
      have e : ∀ k ∈ Finset.range n, (if k = i then v.at' x j else if k = j then -v.at' x i else 0) * v.at' y k =
          (if k = i then v.at' x j * v.at' y i else 0) + (if k = j then -v.at' x i * v.at' y j else 0) := by
        intro k _
        by_cases h1 : k = i
        · subst h1; simp [hne]
        · by_cases h2 : k = j
          · subst h2; simp [h1]
          · simp [h1, h2]
      rw [Finset.sum_congr rfl e, Finset.sum_add_distrib, Finset.sum_ite_eq' (Finset.range n),
        Finset.sum_ite_eq' (Finset.range n), if_pos (Finset.mem_range.2 hi), if_pos (Finset.mem_range.2 hj)]
      rcases key i hi hwi hxi ⟨y, hy⟩ with ⟨h1, h2⟩ | ⟨h1, h2⟩ <;> rcases key j hj hwj hxj ⟨y, hy⟩ with ⟨h3, h4⟩ | ⟨h3, h4⟩
      · dsimp only at h1 h3; rw [h1, h3]; ring
      · exact absurd h2 h4
      · exact absurd h4 h2
      · dsimp only at h1 h3; rw [h1, h3]; ring) j hj
    rw [if_neg (Ne.symm hne), if_pos rfl] at this
    have hz : v.at' x i = 0 := by linarith
    rw [hz, abs_zero] at hlarge
    norm_num at hlarge
  · intro x
    obtain ⟨C, hC, hx⟩ := C129_cover he hL hs x
    refine ⟨C, hC, fun y => ⟨fun hy => hone C hC x y hx hy, fun h => ((C129_unions he hL hC).2.2 x y h).1 hx⟩⟩

/-! ### The tolerance for eigenvalues -/

omit [DecidableRel G.Adj] in
/-- Steps along a walk. -/
theorem walk_bound (u : Fin n → ℝ) (M : ℝ) (h : ∀ x y, G.Adj x y → |u x - u y| ≤ M) {x y : Fin n} (p : G.Walk x y) :
    |u x - u y| ≤ p.length * M := by
  induction p with
  | nil => simp
  | cons hadj p ih =>
    rename_i a b c
    have h1 := h _ _ hadj
    have h2 : |u a - u c| ≤ |u a - u b| + |u b - u c| := abs_sub_le _ _ _
    rw [SimpleGraph.Walk.length_cons]
    push_cast
    linarith

/-- An eigenvalue other than 0 is at least `1/(n*(n-1)^2)`. -/
theorem eigenvalue_gap (he : EigOf n L w v) (hL : IsLaplacian G L) {i : ℕ} (hi : i < n) (hw : w.getD i 0 ≠ 0) :
    1 ≤ (n : ℝ) * ((n : ℝ) - 1) ^ 2 * w.getD i 0 := by
  classical
  obtain ⟨lam, hlam⟩ : ∃ lam, lam = w.getD i 0 := ⟨_, rfl⟩
  rw [← hlam] at hw ⊢
  obtain ⟨u, hu⟩ : ∃ u : Fin n → ℝ, u = col v ⟨i, hi⟩ := ⟨_, rfl⟩
  have heig : (G.lapMatrix ℝ).mulVec u = lam • u := by rw [hu, hlam]; exact col_eigen he hL ⟨i, hi⟩
  have hunit : ∑ x, u x * u x = 1 := by
    have := he.unit i hi
    rw [Finset.sum_range] at this
    rw [← this, hu]
    exact Finset.sum_congr rfl fun x _ => by simp only [col]; ring
  -- the quadratic form
  have hform : lam = (∑ x, ∑ y, if G.Adj x y then (u x - u y) ^ 2 else 0) / 2 := by
    rw [← SimpleGraph.lapMatrix_toLinearMap₂' ℝ G u, Matrix.toLinearMap₂'_apply', heig]
    simp only [dotProduct, Pi.smul_apply, smul_eq_mul]
    rw [Finset.sum_congr rfl fun x _ => show u x * (lam * u x) = lam * (u x * u x) by ring, ← Finset.mul_sum, hunit, mul_one]
  have hnn : ∀ x y, 0 ≤ if G.Adj x y then (u x - u y) ^ 2 else 0 := fun x y => by split <;> positivity
  have hlam0 : 0 ≤ lam := by
    rw [hform]
    exact div_nonneg (Finset.sum_nonneg fun x _ => Finset.sum_nonneg fun y _ => hnn x y) (by norm_num)
  have hedge : ∀ x y, G.Adj x y → |u x - u y| ≤ Real.sqrt lam := by
    intro x y hxy
    rw [← Real.sqrt_sq_eq_abs]
    refine Real.sqrt_le_sqrt ?_
    have hne := hxy.ne
    have h1 : ∀ a, (if G.Adj a x then (u a - u x) ^ 2 else 0) ≤ ∑ b, if G.Adj a b then (u a - u b) ^ 2 else 0 := fun a =>
      Finset.single_le_sum (f := fun b => if G.Adj a b then (u a - u b) ^ 2 else 0) (fun b _ => hnn a b) (Finset.mem_univ x)
    have h2 : ∀ a, (if G.Adj a y then (u a - u y) ^ 2 else 0) ≤ ∑ b, if G.Adj a b then (u a - u b) ^ 2 else 0 := fun a =>
      Finset.single_le_sum (f := fun b => if G.Adj a b then (u a - u b) ^ 2 else 0) (fun b _ => hnn a b) (Finset.mem_univ y)
    have h3 : (∑ b, if G.Adj x b then (u x - u b) ^ 2 else 0) + (∑ b, if G.Adj y b then (u y - u b) ^ 2 else 0) ≤
        ∑ a, ∑ b, if G.Adj a b then (u a - u b) ^ 2 else 0 :=
      Finset.add_le_sum (fun a _ => Finset.sum_nonneg fun b _ => hnn a b) (Finset.mem_univ x) (Finset.mem_univ y) hne
    have e1 := h2 x
    have e2 := h1 y
    rw [if_pos hxy] at e1
    rw [if_pos hxy.symm] at e2
    have e3 : (u y - u x) ^ 2 = (u x - u y) ^ 2 := by ring
    rw [hform]
    linarith
  -- the sum over a component is 0
  obtain ⟨x, hx, -⟩ := exists_large he hi
  have hxu : 1 / (n : ℝ) ≤ u x ^ 2 := by rw [hu]; exact hx
  have hcomp : ∑ y, (if G.Reachable x y then 1 else 0) * u y = 0 := by
    have hk : (G.lapMatrix ℝ).mulVec (fun y => if G.Reachable x y then (1 : ℝ) else 0) = 0 :=
      G.lapMatrix_mulVec_eq_zero_iff_forall_reachable.2 fun y z hyz => by
        have : G.Reachable x y ↔ G.Reachable x z := ⟨fun h => h.trans hyz, fun h => h.trans hyz.symm⟩
        simp only [this]
    have h1 : (fun y => if G.Reachable x y then (1 : ℝ) else 0) ⬝ᵥ (G.lapMatrix ℝ).mulVec u = 0 := by
      rw [Matrix.dotProduct_mulVec, ← Matrix.mulVec_transpose, (G.isSymm_lapMatrix (R := ℝ)).eq, hk, zero_dotProduct]
    rw [heig] at h1
    simp only [dotProduct, Pi.smul_apply, smul_eq_mul] at h1
    rw [Finset.sum_congr rfl fun y _ => show (if G.Reachable x y then (1 : ℝ) else 0) * (lam * u y) =
      lam * ((if G.Reachable x y then 1 else 0) * u y) by ring, ← Finset.mul_sum] at h1
    exact (mul_eq_zero.1 h1).resolve_left hw
  obtain ⟨y, hxy, hsign⟩ : ∃ y, G.Reachable x y ∧ u x * u y ≤ 0 := by
    by_contra hcon
    push Not at hcon
    have h1 : ∑ y, (if G.Reachable x y then 1 else 0) * (u x * u y) = 0 := by
      rw [Finset.sum_congr rfl fun y _ => show (if G.Reachable x y then (1 : ℝ) else 0) * (u x * u y) =
        u x * ((if G.Reachable x y then 1 else 0) * u y) by ring, ← Finset.mul_sum, hcomp, mul_zero]
    have h2 := Finset.single_le_sum (f := fun y => (if G.Reachable x y then (1 : ℝ) else 0) * (u x * u y)) (fun y _ => by
      by_cases h : G.Reachable x y
      · rw [if_pos h, one_mul]; exact (hcon y h).le
      · rw [if_neg h, zero_mul]) (Finset.mem_univ x)
    rw [h1] at h2
    simp only [SimpleGraph.Reachable.refl, if_true, one_mul] at h2
    have := hcon x (SimpleGraph.Reachable.refl x)
    linarith
  obtain ⟨p, hp⟩ := hxy.exists_isPath
  have hlen := hp.length_lt
  rw [Fintype.card_fin] at hlen
  have h1 := walk_bound u (Real.sqrt lam) hedge p
  have hn1 : (p.length : ℝ) ≤ (n : ℝ) - 1 := by
    have : (p.length : ℝ) + 1 ≤ n := by exact_mod_cast hlen
    linarith
  have h2 : |u x| ≤ |u x - u y| := by
    refine sq_le_sq.1 ?_
    nlinarith [sq_nonneg (u y)]
  have h3 : |u x| ≤ ((n : ℝ) - 1) * Real.sqrt lam :=
    h2.trans (h1.trans (mul_le_mul_of_nonneg_right hn1 (Real.sqrt_nonneg _)))
  have h4 : u x ^ 2 ≤ ((n : ℝ) - 1) ^ 2 * lam := by
    have := mul_self_le_mul_self (abs_nonneg _) h3
    rw [abs_mul_abs_self] at this
    have hs := Real.mul_self_sqrt hlam0
    nlinarith
  have hpos : (0 : ℝ) < n := by
    have : 0 < n := by omega
    exact_mod_cast this
  rw [div_le_iff₀ hpos] at hxu
  nlinarith

/-- C129: for at most 464 sites the tolerance used for `exact=False` does not change the result. -/
theorem C129_tolerance (he : EigOf n L w v) (hL : IsLaplacian G L) (hn : n ≤ 464) :
    clustersOf L w v false = clustersOf L w v true := by
  unfold clustersOf specCluster
  congr 1
  unfold zeroEigs
  refine List.filter_congr fun i hi => ?_
  have hi : i < n := by rw [← he.len]; exact List.mem_range.1 hi
  simp only [Bool.false_eq_true, if_false, if_true]
  by_cases h : w.getD i 0 = 0
  · rw [h]; simp [isCloseZero]
  · have hgap := eigenvalue_gap he hL hi h
    have hn' : (n : ℝ) ≤ 464 := by exact_mod_cast hn
    have h1 : (1 : ℝ) ≤ n := by
      have : 1 ≤ n := by omega
      exact_mod_cast this
    have hb : (n : ℝ) * ((n : ℝ) - 1) ^ 2 ≤ 464 * 463 ^ 2 := by
      have : ((n : ℝ) - 1) ^ 2 ≤ 463 ^ 2 := pow_le_pow_left₀ (by linarith) (by linarith) 2
      exact mul_le_mul hn' this (sq_nonneg _) (by norm_num)
    have hb0 : 0 ≤ (n : ℝ) * ((n : ℝ) - 1) ^ 2 := by positivity
    have hlt : ¬|w.getD i 0 - 0| ≤ 1 / 10 ^ 8 + 1 / 10 ^ 5 * |(0 : ℝ)| := by
      intro hle
      rw [sub_zero, abs_zero, mul_zero, add_zero] at hle
      have := le_abs_self (w.getD i 0)
      nlinarith
    unfold isCloseZero
    rw [decide_eq_false hlt, decide_eq_false h]

/-! ### Wrong clusters -/

/-- C129 is false of the code: two sites without a bond form two components, but for the eigenvectors `(1,1)` and
`(1,-1)` (divided by the square root of 2), which a library may return as well, both clusters contain both sites. -/
theorem C129_wrong : ∃ (L : Mat ℝ) (w : List ℝ) (v : Mat ℝ), IsLaplacian (⊥ : SimpleGraph (Fin 2)) L ∧
    EigOf 2 L w v ∧ Sharp 2 w v ∧ clustersOf L w v true = [[0, 1], [0, 1]] := by
  obtain ⟨r, hr0, hr⟩ : ∃ r : ℝ, 0 < r ∧ r ^ 2 = 1 / 2 :=
    ⟨Real.sqrt (1 / 2), Real.sqrt_pos.2 (by norm_num), Real.sq_sqrt (by norm_num)⟩
  have hlarge : 1 / 10 ^ 8 < |r| := large_of_sq (n := 2) (by norm_num) (by norm_num) (by rw [hr]; norm_num)
  have he : EigOf 2 [[0, 0], [0, 0]] [0, 0] [[r, r], [r, -r]] := by
    refine ⟨rfl, ⟨rfl, by simp⟩, fun i hi x hx => ?_, fun c hc i hi => ?_, fun i hi => ?_⟩
    · interval_cases i <;> interval_cases x <;> simp [Mat.at', Finset.sum_range_succ]
    · have h0 := hc 0 (by norm_num)
      have h1 := hc 1 (by norm_num)
      simp only [Finset.sum_range_succ, Finset.sum_range_zero, Mat.at', List.getD_cons_zero, List.getD_cons_succ] at h0 h1
      have e0 : c 0 * r = 0 := by linarith
      have e1 : c 1 * r = 0 := by linarith
      interval_cases i
      · exact (mul_eq_zero.1 e0).resolve_right hr0.ne'
      · exact (mul_eq_zero.1 e1).resolve_right hr0.ne'
    · interval_cases i <;> simp [Mat.at', Finset.sum_range_succ, hr] <;> norm_num
  refine ⟨[[0, 0], [0, 0]], [0, 0], [[r, r], [r, -r]], ?_, he, ?_, ?_⟩
  · intro x y
    have : (⊥ : SimpleGraph (Fin 2)).lapMatrix ℝ = 0 := by
      ext a b
      simp [SimpleGraph.lapMatrix, SimpleGraph.degMatrix, SimpleGraph.adjMatrix]
    rw [this]
    fin_cases x <;> fin_cases y <;> simp [Mat.at']
  · intro i hi _ x hx
    right
    interval_cases i <;> interval_cases x <;> simpa [Mat.at'] using hlarge
  · have h1 : (isCloseZero r == false) = true := (isCloseZero_iff r).2 hlarge
    have h2 : (isCloseZero (-r) == false) = true := (isCloseZero_iff (-r)).2 (by rwa [abs_neg])
    unfold clustersOf specCluster zeroEigs columnSupport
    simp only [beq_false, Bool.not_eq_true'] at h1 h2
    simp [List.range_succ, Mat.at', h1, h2]

/-- A graph with its Laplacian and eigenvectors: two joined sites. -/
example : ∃ (w : List ℝ) (v : Mat ℝ), EigOf 2 [[1, -1], [-1, 1]] w v ∧
    IsLaplacian (⊤ : SimpleGraph (Fin 2)) [[1, -1], [-1, 1]] ∧ (⊤ : SimpleGraph (Fin 2)).Connected := by
  obtain ⟨r, hr0, hr⟩ : ∃ r : ℝ, 0 < r ∧ r ^ 2 = 1 / 2 :=
    ⟨Real.sqrt (1 / 2), Real.sqrt_pos.2 (by norm_num), Real.sq_sqrt (by norm_num)⟩
  refine ⟨[0, 2], [[r, r], [r, -r]], ⟨rfl, ⟨rfl, by simp⟩, fun i hi x hx => ?_, fun c hc i hi => ?_, fun i hi => ?_⟩,
    fun x y => ?_, SimpleGraph.connected_top⟩
  · interval_cases i <;> interval_cases x <;> simp [Mat.at', Finset.sum_range_succ] <;> ring
  · have h0 := hc 0 (by norm_num)
    have h1 := hc 1 (by norm_num)
    simp only [Finset.sum_range_succ, Finset.sum_range_zero, Mat.at', List.getD_cons_zero, List.getD_cons_succ] at h0 h1
    have e0 : c 0 * r = 0 := by linarith
    have e1 : c 1 * r = 0 := by linarith
    interval_cases i
    · exact (mul_eq_zero.1 e0).resolve_right hr0.ne'
    · exact (mul_eq_zero.1 e1).resolve_right hr0.ne'
  · interval_cases i <;> simp [Mat.at', Finset.sum_range_succ, hr] <;> norm_num
  · fin_cases x <;> fin_cases y <;>
      simp [Mat.at', SimpleGraph.lapMatrix, SimpleGraph.degMatrix, SimpleGraph.adjMatrix]

end Verif.Props
