import Verif.Model.Tempering
import Verif.Lemmas.Metropolis3

namespace Verif.Lemmas
open Verif Verif.Model Verif.Spec

section
variable {K : Type} [Field K]

/-- The loop from the last entry down. -/
theorem back_fold (d : ℕ → K) (k : ℕ) : ∀ nb0 : List K, k < nb0.length →
    let nb := ((List.range' 1 k).reverse).foldl (fun nb i => nb.set (i - 1) (nb.getD i 0 - d i)) nb0
    nb.length = nb0.length ∧ (∀ i, k ≤ i → nb.getD i 0 = nb0.getD i 0) ∧
      ∀ i, i < k → nb.getD i 0 = nb.getD (i + 1) 0 - d (i + 1) := by
  induction k with
  | zero => intro nb0 _; exact ⟨rfl, fun i _ => rfl, fun i h => absurd h (by omega)⟩
  | succ k ih =>
    intro nb0 hk
    have e : (List.range' 1 (k + 1)).reverse = (1 + k) :: (List.range' 1 k).reverse := by
      rw [List.range'_concat, List.reverse_append]; simp
    rw [e]
    dsimp only
    rw [List.foldl_cons, show 1 + k - 1 = k by omega, show 1 + k = k + 1 by omega]
    obtain ⟨h1, h2, h3⟩ := ih (nb0.set k (nb0.getD (k + 1) 0 - d (k + 1))) (by simp; omega)
    refine ⟨by rw [h1]; simp, fun i hi => ?_, fun i hi => ?_⟩
    · rw [h2 i (by omega), List.getD_eq_getElem?_getD, List.getElem?_set_ne (by omega), ← List.getD_eq_getElem?_getD]
    · rcases Nat.lt_succ_iff_lt_or_eq.1 hi with h | rfl
      · exact h3 i h
      · have hne : (nb0.set i (nb0.getD (i + 1) 0 - d (i + 1))).getD (i + 1) 0 = nb0.getD (i + 1) 0 := by
          rw [List.getD_eq_getElem?_getD, List.getElem?_set_ne (by omega), ← List.getD_eq_getElem?_getD]
        rw [h2 i (le_refl _), h2 (i + 1) (by omega), hne, List.getD_eq_getElem _ _ (by simp; omega),
          List.getElem_set_self]

variable [LinearOrder K]

theorem iterateBeta_spec (beta ratio nb : List K) (h : iterateBeta beta ratio = .ok (some nb)) (avg : K)
    (havg : avg = ratio.sum / (ratio.length : K)) :
    nb.length = beta.length ∧ nb.getD (beta.length - 1) 0 = beta.getD (beta.length - 1) 0 ∧
      ∀ i, i + 1 < beta.length →
        nb.getD (i + 1) 0 - nb.getD i 0 = (beta.getD (i + 1) 0 - beta.getD i 0) * ratio.getD i 0 / avg := by
  unfold iterateBeta at h
  split at h
  · cases h
  rename_i hl
  split at h
  · cases h
  dsimp only at h
  split at h
  · cases h
  rw [← havg] at h
  have hl' : ratio.length + 1 = beta.length := by omega
  simp only [Except.ok.injEq, Option.some.injEq] at h
  have := back_fold (fun i => (beta.getD i 0 - beta.getD (i - 1) 0) * ratio.getD (i - 1) 0 / avg) (beta.length - 1) beta
    (by omega)
  dsimp only at this
  rw [h] at this
  obtain ⟨h1, h2, h3⟩ := this
  refine ⟨h1, h2 _ (le_refl _), fun i hi => ?_⟩
  rw [h3 i (by omega)]
  simp only [Nat.add_sub_cancel]
  ring

variable [IsStrictOrderedRing K]

theorem sum_pos_of_pos (l : List K) (hl : l ≠ []) (h : ∀ r ∈ l, 0 < r) : 0 < l.sum := List.sum_pos l h hl

theorem iterateBeta_ok (beta ratio : List K) (hl : ratio.length + 1 = beta.length)
    (hr : ∀ r ∈ ratio, 0 < r ∧ r ≤ 1) : ∃ nb, iterateBeta beta ratio = .ok (some nb) := by
  unfold iterateBeta
  rw [if_neg (by omega), if_neg (not_not.2 fun r hr' => (hr r hr').2)]
  dsimp only
  rw [if_neg]
  · exact ⟨_, rfl⟩
  · rintro ⟨h, h1⟩
    have hne : ratio ≠ [] := by rintro rfl; simp at hl; omega
    have : 0 < ratio.sum / (ratio.length : K) :=
      div_pos (sum_pos_of_pos ratio hne fun r hr' => (hr r hr').1) (by
        have : 0 < ratio.length := List.length_pos_of_ne_nil hne
        exact_mod_cast this)
    exact this.ne' h

end
end Verif.Lemmas
