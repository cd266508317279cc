/-
Position of the first minimum of a list.
-/
import Verif.Model.RegMeanField

namespace Verif.Lemmas
open Verif Verif.Model

variable {K : Type*} [LinearOrder K]

theorem argminFrom_spec (l : List K) : ∀ (pre : List K) (v : K) (best : ℕ), pre[best]? = some v →
    (∀ (j : ℕ) (x : K), pre[j]? = some x → v ≤ x) → (∀ (j : ℕ) (x : K), j < best → pre[j]? = some x → v < x) →
    ∃ w, (pre ++ l)[argminFrom v best pre.length l]? = some w ∧
      (∀ (j : ℕ) (x : K), (pre ++ l)[j]? = some x → w ≤ x) ∧
      ∀ (j : ℕ) (x : K), j < argminFrom v best pre.length l → (pre ++ l)[j]? = some x → w < x := by
  induction l with
  | nil => intro pre v best h1 h2 h3; exact ⟨v, by simpa [argminFrom] using h1, by simpa using h2,
      by simpa [argminFrom] using h3⟩
  | cons a l ih =>
    intro pre v best h1 h2 h3
    have hb : best < pre.length := by
      by_contra h
      rw [List.getElem?_eq_none (by omega)] at h1
      simp at h1
    have happ : pre ++ a :: l = (pre ++ [a]) ++ l := by simp
    have hlen : (pre ++ [a]).length = pre.length + 1 := by simp
    have hget : ∀ (j : ℕ) (x : K), (pre ++ [a])[j]? = some x → pre[j]? = some x ∨ (j = pre.length ∧ x = a) := by
      intro j x hx
      rcases lt_trichotomy j pre.length with h | h | h
      · rw [List.getElem?_append_left h] at hx; exact .inl hx
      · subst h; rw [List.getElem?_append_right (le_refl _)] at hx; simp at hx; exact .inr ⟨rfl, hx.symm⟩
      · rw [List.getElem?_eq_none (by simp; omega)] at hx; simp at hx
    rw [happ]
    unfold argminFrom
    split_ifs with hlt
    · have := ih (pre ++ [a]) a pre.length (by simp) (fun j x hx => ?_) (fun j x hj hx => ?_)
      · rwa [hlen] at this
      · rcases hget j x hx with h | ⟨-, rfl⟩
        · exact (hlt.trans_le (h2 j x h)).le
        · exact le_refl _
      · rcases hget j x hx with h | ⟨h, -⟩
        · exact hlt.trans_le (h2 j x h)
        · omega
    · have := ih (pre ++ [a]) v best (by rw [List.getElem?_append_left hb]; exact h1) (fun j x hx => ?_)
        (fun j x hj hx => ?_)
      · rwa [hlen] at this
      · rcases hget j x hx with h | ⟨-, rfl⟩
        · exact h2 j x h
        · exact not_lt.1 hlt
      · rcases hget j x hx with h | ⟨h, -⟩
        · exact h3 j x hj h
        · omega

/-- `np.argmin` of a nonempty array: the first position of the minimum. -/
theorem npArgmin_ok {l : List K} (hl : l ≠ []) : ∃ i, ∃ hi : i < l.length, npArgmin l = .ok i ∧
    (∀ j (hj : j < l.length), l[i] ≤ l[j]) ∧ ∀ j (hj : j < i), l[i] < l[j] := by
  match l, hl with
  | a :: l, _ =>
    obtain ⟨w, h1, h2, h3⟩ := argminFrom_spec l [a] a 0 rfl
      (fun j x hx => by rcases j with _ | j <;> simp at hx; exact hx.le)
      (fun j x hj => by omega)
    have hi : argminFrom a 0 1 l < (a :: l).length := by
      by_contra h
      rw [List.getElem?_eq_none (by simpa using h)] at h1
      simp at h1
    have hw : (a :: l)[argminFrom a 0 1 l] = w := by
      have h1' : (a :: l)[argminFrom a 0 1 l]? = some w := h1
      rw [List.getElem?_eq_getElem hi] at h1'
      exact Option.some.inj h1'
    refine ⟨argminFrom a 0 1 l, hi, rfl, fun j hj => ?_, fun j hj => ?_⟩
    · rw [hw]; exact h2 j _ (List.getElem?_eq_getElem hj)
    · rw [hw]; exact h3 j _ hj (List.getElem?_eq_getElem (hj.trans hi))

end Verif.Lemmas
