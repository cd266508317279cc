/-
The eigenvectors of a graph Laplacian for the eigenvalue 0.
-/
import Verif.Model.SpecCluster
import Mathlib.Combinatorics.SimpleGraph.LapMatrix
import Mathlib.LinearAlgebra.FiniteDimensional.Lemmas

namespace Verif.Lemmas
open Verif Verif.Model

variable {n : ℕ}

/-- What a library returns that computes eigenvalues `w` and eigenvectors, the columns of `v`: `n` eigenvalues and
independent eigenvectors of length 1. -/
structure EigOf (n : ℕ) (L : Mat ℝ) (w : List ℝ) (v : Mat ℝ) : Prop where
  len : w.length = n
  shape : v.HasShape n n
  eigen : ∀ i < n, ∀ x < n, ∑ y ∈ Finset.range n, L.at' x y * v.at' y i = w.getD i 0 * v.at' x i
  indep : ∀ c : ℕ → ℝ, (∀ x < n, ∑ i ∈ Finset.range n, c i * v.at' x i = 0) → ∀ i < n, c i = 0
  unit : ∀ i < n, ∑ x ∈ Finset.range n, v.at' x i ^ 2 = 1

/-- `L` is the Laplacian of the graph `G`. -/
def IsLaplacian (G : SimpleGraph (Fin n)) [DecidableRel G.Adj] (L : Mat ℝ) : Prop :=
  ∀ x y : Fin n, L.at' x y = G.lapMatrix ℝ x y

/-- Column `i`. -/
def col (v : Mat ℝ) (i : Fin n) : Fin n → ℝ := fun x => v.at' x i

variable {L : Mat ℝ} {w : List ℝ} {v : Mat ℝ} {G : SimpleGraph (Fin n)} [DecidableRel G.Adj]

theorem col_eigen (he : EigOf n L w v) (hL : IsLaplacian G L) (i : Fin n) :
    (G.lapMatrix ℝ).mulVec (col v i) = w.getD i 0 • col v i := by
  funext x
  have := he.eigen i i.2 x x.2
  rw [Finset.sum_range] at this
  simp only [Matrix.mulVec, dotProduct, Pi.smul_apply, smul_eq_mul, col]
  rw [← this]
  exact Finset.sum_congr rfl fun y _ => by rw [hL]

theorem col_indep (he : EigOf n L w v) : LinearIndependent ℝ (fun i : Fin n => col v i) := by
  rw [Fintype.linearIndependent_iff]
  intro g hg i
  have := he.indep (fun k => if h : k < n then g ⟨k, h⟩ else 0) (fun x hx => by
    rw [Finset.sum_range]
    have h2 := congrFun hg ⟨x, hx⟩
    simp only [Finset.sum_apply, Pi.smul_apply, smul_eq_mul, col, Pi.zero_apply] at h2
    rw [← h2]
    exact Finset.sum_congr rfl fun k _ => by simp) i i.2
  simpa using this

/-- An eigenvector for the eigenvalue 0 is constant on components. -/
theorem col_const (he : EigOf n L w v) (hL : IsLaplacian G L) (i : Fin n) (hi : w.getD i 0 = 0) {x y : Fin n}
    (h : G.Reachable x y) : v.at' x i = v.at' y i := by
  have h0 : (G.lapMatrix ℝ).mulVec (col v i) = 0 := by rw [col_eigen he hL, hi, zero_smul]
  exact (G.lapMatrix_mulVec_eq_zero_iff_forall_reachable).1 h0 x y h

/-- The eigenvectors for the eigenvalue 0 span the kernel. -/
theorem kernel_span (he : EigOf n L w v) (hL : IsLaplacian G L) (u : Fin n → ℝ) (hu : (G.lapMatrix ℝ).mulVec u = 0) :
    ∃ c : Fin n → ℝ, (∀ i : Fin n, w.getD i 0 ≠ 0 → c i = 0) ∧ u = ∑ i, c i • col v i := by
  have hind := col_indep he
  have hspan : Submodule.span ℝ (Set.range fun i : Fin n => col v i) = ⊤ :=
    hind.span_eq_top_of_card_eq_finrank' (by simp)
  obtain ⟨c, hc⟩ := Submodule.mem_span_range_iff_exists_fun ℝ |>.1 (show u ∈ Submodule.span ℝ _ by rw [hspan]; trivial)
  refine ⟨c, fun i hi => ?_, hc.symm⟩
  have h1 : ∑ i, (c i * w.getD i 0) • col v i = 0 := by
    rw [← hu, ← hc, Matrix.mulVec_sum]
    refine Finset.sum_congr rfl fun i _ => ?_
    rw [Matrix.mulVec_smul, col_eigen he hL, smul_smul]
  have h2 := Fintype.linearIndependent_iff.1 hind _ h1 i
  exact (mul_eq_zero.1 h2).resolve_right hi

open Classical in
/-- As many eigenvalues are 0 as there are components. -/
theorem card_zero (he : EigOf n L w v) (hL : IsLaplacian G L) :
    Fintype.card {i : Fin n // w.getD i 0 = 0} = Fintype.card G.ConnectedComponent := by
  rw [G.card_connectedComponent_eq_finrank_ker_toLin'_lapMatrix]
  have hmem : ∀ i : {i : Fin n // w.getD i 0 = 0}, col v i.1 ∈ (G.lapMatrix ℝ).toLin'.ker := fun i => by
    rw [LinearMap.mem_ker, Matrix.toLin'_apply, col_eigen he hL, i.2, zero_smul]
  have hb : LinearIndependent ℝ (fun i : {i : Fin n // w.getD i 0 = 0} =>
      (⟨col v i.1, hmem i⟩ : (G.lapMatrix ℝ).toLin'.ker)) := by
    refine LinearIndependent.of_comp (Submodule.subtype _) ?_
    exact (col_indep he).comp (fun i : {i : Fin n // w.getD i 0 = 0} => i.1) Subtype.val_injective
  have hs : ⊤ ≤ Submodule.span ℝ (Set.range fun i : {i : Fin n // w.getD i 0 = 0} =>
      (⟨col v i.1, hmem i⟩ : (G.lapMatrix ℝ).toLin'.ker)) := by
    rintro ⟨u, hu⟩ -
    rw [LinearMap.mem_ker, Matrix.toLin'_apply] at hu
    obtain ⟨c, hc0, hc⟩ := kernel_span he hL u hu
    rw [Submodule.mem_span_range_iff_exists_fun]
    refine ⟨fun i => c i.1, Subtype.ext ?_⟩
    rw [AddSubmonoidClass.coe_finsetSum]
    simp only [SetLike.mk_smul_mk]
    rw [hc, ← Finset.sum_subset (Finset.subset_univ (Finset.univ.filter fun i : Fin n => w.getD i 0 = 0))
      fun i _ hi => by rw [hc0 i (by simpa using hi), zero_smul]]
    exact (Finset.sum_subtype (Finset.univ.filter fun i : Fin n => w.getD i 0 = 0) (by simp) fun i => c i • col v i).symm
  rw [Module.finrank_eq_card_basis (Module.Basis.mk hb hs)]

end Verif.Lemmas
