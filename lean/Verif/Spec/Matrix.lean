/-
Matrices as lists of rows: shape, entries. Shared by model and specification.
-/
import Mathlib.Data.List.Basic
import Mathlib.Data.List.GetD
import Mathlib.Algebra.Ring.Defs

namespace Verif

/-- A matrix is the list of its rows. -/
abbrev Mat (K : Type*) := List (List K)

namespace Mat
variable {K : Type*}

/-- Entry `(i, j)` (zero when out of range; shape hypotheses exclude that). -/
def at' [Zero K] (M : Mat K) (i j : ℕ) : K := (M.getD i []).getD j 0

/-- The `r × c` matrix with entries `f i j`. -/
def build (r c : ℕ) (f : ℕ → ℕ → K) : Mat K :=
  (List.range r).map fun i => (List.range c).map fun j => f i j

/-- `M` has `r` rows and `c` columns. -/
def HasShape (M : Mat K) (r c : ℕ) : Prop := M.length = r ∧ ∀ row ∈ M, row.length = c

/-- numpy `M.shape[1]`, read off the first row. -/
def ncols (M : Mat K) : ℕ := (M.headD []).length

theorem build_shape (r c : ℕ) (f : ℕ → ℕ → K) : HasShape (build r c f) r c := by
  constructor
  · simp [build]
  · intro row h
    obtain ⟨i, _, rfl⟩ := List.mem_map.1 h
    simp

theorem at_build [Zero K] {r c i j : ℕ} (f : ℕ → ℕ → K) (hi : i < r) (hj : j < c) :
    at' (build r c f) i j = f i j := by
  simp [at', build, hi, hj]

theorem ext' [Zero K] {M N : Mat K} {r c : ℕ} (hM : HasShape M r c) (hN : HasShape N r c)
    (h : ∀ i < r, ∀ j < c, M.at' i j = N.at' i j) : M = N := by
  apply List.ext_getElem (hM.1.trans hN.1.symm)
  intro i h1 h2
  have hi : i < r := hM.1 ▸ h1
  have l1 : M[i].length = c := hM.2 _ (List.getElem_mem h1)
  have l2 : N[i].length = c := hN.2 _ (List.getElem_mem h2)
  apply List.ext_getElem (l1.trans l2.symm)
  intro j h3 h4
  have := h i hi j (l1 ▸ h3)
  simp only [at'] at this
  rw [List.getD_eq_getElem _ _ h1, List.getD_eq_getElem _ _ h2, List.getD_eq_getElem _ _ h3,
    List.getD_eq_getElem _ _ h4] at this
  exact this

theorem eq_build [Zero K] {M : Mat K} {r c : ℕ} (hM : HasShape M r c) :
    M = build r c (fun i j => M.at' i j) :=
  ext' hM (build_shape _ _ _) fun _ hi _ hj => (at_build _ hi hj).symm

theorem ncols_eq {M : Mat K} {r c : ℕ} (hM : HasShape M r c) (hr : 0 < r) : M.ncols = c := by
  rcases M with _ | ⟨row, rest⟩
  · have := hM.1; simp at this; omega
  · exact hM.2 row (by simp)

end Mat
end Verif
