/-
Distributions over the states of `n` spins that are products of functions of single spins and of disjoint pairs of spins.
-/
import Verif.Spec.PairInfo
import Verif.Lemmas.Product
import Verif.Lemmas.Metropolis
import Verif.Lemmas.CppCond
import Verif.Lemmas.WolffErgodic

namespace Verif.Lemmas
open Verif Verif.Model Verif.Spec

theorem spin_pm {n : ℕ} {s : List ℤ} (hs : s ∈ words [1, -1] n) {i : ℕ} (hi : i < n) : s.getD i 0 = 1 ∨ s.getD i 0 = -1 := by
  obtain ⟨h1, h2⟩ := mem_words.1 hs
  have := h2 (s.getD i 0) (by rw [List.getD_eq_getElem _ _ (by omega)]; exact List.getElem_mem _)
  simpa using this

theorem negAt_self {n : ℕ} {s : List ℤ} (hs : s ∈ words [1, -1] n) {i : ℕ} (hi : i < n) :
    (negAt s i).getD i 0 = -s.getD i 0 := by
  have := (mem_words.1 hs).1
  rw [negAt_eq, List.getD_eq_getElem _ _ (by simpa [this] using hi), List.getElem_set_self]

/-- A factor that averages to 1 over the values of spin `e` can be left out, if nothing else depends on spin `e`. -/
theorem remove_factor (n : ℕ) (f : ℕ → ℤ → ℝ) (e : ℕ) (he : e < n) (G R : List ℤ → ℝ)
    (hG : ∀ s ∈ words [1, -1] n, f e (s.getD e 0) * G s + f e (-s.getD e 0) * G (negAt s e) =
      f e (s.getD e 0) + f e (-s.getD e 0))
    (hR : ∀ s ∈ words [1, -1] n, R (negAt s e) = R s) :
    ((words [1, -1] n).map fun s => (∏ k ∈ Finset.range n, f k (s.getD k 0)) * (G s * R s)).sum =
      ((words [1, -1] n).map fun s => (∏ k ∈ Finset.range n, f k (s.getD k 0)) * R s).sum := by
  obtain ⟨P, hP⟩ : ∃ P : List ℤ → ℝ, P = fun s => ∏ k ∈ (Finset.range n).erase e, f k (s.getD k 0) := ⟨_, rfl⟩
  have hprod : ∀ s : List ℤ, ∏ k ∈ Finset.range n, f k (s.getD k 0) = f e (s.getD e 0) * P s := fun s => by
    rw [hP, Finset.mul_prod_erase (Finset.range n) (fun k => f k (s.getD k 0)) (Finset.mem_range.2 he)]
  have hPn : ∀ s, P (negAt s e) = P s := fun s => by
    rw [hP]
    exact Finset.prod_congr rfl fun k hk => by rw [negAt_getD_ne _ _ _ (Finset.ne_of_mem_erase hk)]
  have hnd : (words ([1, -1] : List ℤ) n).Nodup := nodup_words (by decide) n
  have hinv := fun g : List ℤ → ℝ => sum_invol (words ([1, -1] : List ℤ) n) hnd (fun s => negAt s e) (fun s hs => negAt_mem hs e)
    (fun s _ => negAt_negAt s e) g
  have h1 := hinv fun s => (∏ k ∈ Finset.range n, f k (s.getD k 0)) * (G s * R s)
  have h2 := hinv fun s => (∏ k ∈ Finset.range n, f k (s.getD k 0)) * R s
  have key : ((words [1, -1] n).map fun s => (∏ k ∈ Finset.range n, f k (s.getD k 0)) * (G s * R s)).sum +
      ((words [1, -1] n).map fun s => (∏ k ∈ Finset.range n, f k ((negAt s e).getD k 0)) * (G (negAt s e) * R (negAt s e))).sum =
      ((words [1, -1] n).map fun s => (∏ k ∈ Finset.range n, f k (s.getD k 0)) * R s).sum +
      ((words [1, -1] n).map fun s => (∏ k ∈ Finset.range n, f k ((negAt s e).getD k 0)) * R (negAt s e)).sum := by
    rw [← list_sum_add, ← list_sum_add]
    refine list_sum_congr fun s hs => ?_
    rw [hprod, hprod, hPn, hR s hs, negAt_self hs he]
    have := hG s hs
    linear_combination P s * R s * this
  rw [h1, h2] at key
  linarith

/-- The factor of a pair has average 1 over each of the two spins, with the weights `f`. -/
structure LinkFactor (f : ℕ → ℤ → ℝ) (q : ℕ × ℕ) (g : ℤ → ℤ → ℝ) : Prop where
  ne : q.1 ≠ q.2
  left : ∀ b, b = 1 ∨ b = -1 → f q.1 1 * g 1 b + f q.1 (-1) * g (-1) b = f q.1 1 + f q.1 (-1)
  right : ∀ a, a = 1 ∨ a = -1 → f q.2 1 * g a 1 + f q.2 (-1) * g a (-1) = f q.2 1 + f q.2 (-1)

/-- The factors of disjoint pairs can be left out, if of each pair one spin does not matter otherwise. -/
theorem remove_links (n : ℕ) (f : ℕ → ℤ → ℝ) (g : ℕ × ℕ → ℤ → ℤ → ℝ) (L : List (ℕ × ℕ))
    (hL : ∀ q ∈ L, q.1 < n ∧ q.2 < n ∧ LinkFactor f q (g q))
    (hdis : L.Pairwise fun q r => q.1 ≠ r.1 ∧ q.1 ≠ r.2 ∧ q.2 ≠ r.1 ∧ q.2 ≠ r.2) (R : List ℤ → ℝ)
    (hR : ∀ q ∈ L, (∀ s ∈ words [1, -1] n, R (negAt s q.1) = R s) ∨ ∀ s ∈ words [1, -1] n, R (negAt s q.2) = R s) :
    ((words [1, -1] n).map fun s => (∏ k ∈ Finset.range n, f k (s.getD k 0)) *
      ((L.map fun q => g q (s.getD q.1 0) (s.getD q.2 0)).prod * R s)).sum =
      ((words [1, -1] n).map fun s => (∏ k ∈ Finset.range n, f k (s.getD k 0)) * R s).sum := by
  induction L with
  | nil => simp
  | cons q L ih =>
    obtain ⟨hd1, hd2⟩ := List.pairwise_cons.1 hdis
    rw [← ih (fun r hr => hL r (by simp [hr])) hd2 fun r hr => hR r (by simp [hr])]
    obtain ⟨q1, q2, hq⟩ := hL q (by simp)
    have hrest : ∀ e, (e = q.1 ∨ e = q.2) → ∀ s, (L.map fun r => g r ((negAt s e).getD r.1 0) ((negAt s e).getD r.2 0)).prod =
        (L.map fun r => g r (s.getD r.1 0) (s.getD r.2 0)).prod := by
      intro e he s
      congr 1
      refine List.map_congr_left fun r hr => ?_
      obtain ⟨a, b, c, d⟩ := hd1 r hr
      rcases he with rfl | rfl
      · rw [negAt_getD_ne _ _ _ a.symm, negAt_getD_ne _ _ _ b.symm]
      · rw [negAt_getD_ne _ _ _ c.symm, negAt_getD_ne _ _ _ d.symm]
    have hassoc : ∀ s : List ℤ, ((q :: L).map fun q => g q (s.getD q.1 0) (s.getD q.2 0)).prod * R s =
        g q (s.getD q.1 0) (s.getD q.2 0) * ((L.map fun q => g q (s.getD q.1 0) (s.getD q.2 0)).prod * R s) := fun s => by
      rw [List.map_cons, List.prod_cons, mul_assoc]
    simp only [hassoc]
    rcases hR q (by simp) with h | h
    · refine remove_factor n f q.1 q1 _ _ (fun s hs => ?_) fun s hs => by rw [hrest _ (Or.inl rfl), h s hs]
      rw [negAt_self hs q1, negAt_getD_ne _ _ _ hq.ne.symm]
      have := hq.left _ (spin_pm hs q2)
      rcases spin_pm hs q1 with h | h <;> rw [h] <;> first | simpa using this | (simp only [neg_neg]; linarith)
    · refine remove_factor n f q.2 q2 _ _ (fun s hs => ?_) fun s hs => by rw [hrest _ (Or.inr rfl), h s hs]
      rw [negAt_self hs q2, negAt_getD_ne _ _ _ hq.ne]
      have := hq.right _ (spin_pm hs q1)
      rcases spin_pm hs q2 with h | h <;> rw [h] <;> first | simpa using this | (simp only [neg_neg]; linarith)

/-- A function of two spins, averaged with the weights of independent spins. -/
theorem sum_two (n : ℕ) (f : ℕ → ℤ → ℝ) (hf : ∀ k < n, f k 1 + f k (-1) = 1) (i j : ℕ) (hi : i < n) (hj : j < n) (hij : i ≠ j)
    (φ : ℤ → ℤ → ℝ) :
    ((words [1, -1] n).map fun s => (∏ k ∈ Finset.range n, f k (s.getD k 0)) * φ (s.getD i 0) (s.getD j 0)).sum =
      f i 1 * f j 1 * φ 1 1 + f i 1 * f j (-1) * φ 1 (-1) + f i (-1) * f j 1 * φ (-1) 1 +
        f i (-1) * f j (-1) * φ (-1) (-1) := by
  have hone : ∀ a b : ℤ, a = 1 ∨ a = -1 → b = 1 ∨ b = -1 →
      ((words [1, -1] n).map fun s => (∏ k ∈ Finset.range n, f k (s.getD k 0)) *
        (if s.getD i 0 = a ∧ s.getD j 0 = b then 1 else 0)).sum = f i a * f j b := by
    intro a b ha hb
    obtain ⟨F, hF⟩ : ∃ F : ℕ → ℤ → ℝ, F = fun k v => f k v * ((if k = i then if v = a then (1 : ℝ) else 0 else 1) *
      (if k = j then if v = b then (1 : ℝ) else 0 else 1)) := ⟨_, rfl⟩
    have hpt : ∀ s : List ℤ, (∏ k ∈ Finset.range n, f k (s.getD k 0)) * (if s.getD i 0 = a ∧ s.getD j 0 = b then (1 : ℝ) else 0) =
        ∏ k ∈ Finset.range n, F k (s.getD k 0) := by
      intro s
      rw [hF]
      dsimp only
      rw [Finset.prod_mul_distrib, Finset.prod_mul_distrib, Finset.prod_ite_eq' (Finset.range n) i, if_pos (Finset.mem_range.2 hi),
        Finset.prod_ite_eq' (Finset.range n) j, if_pos (Finset.mem_range.2 hj)]
      by_cases h1 : s.getD i 0 = a <;> by_cases h2 : s.getD j 0 = b <;> simp only [h1, h2, and_self, and_true, and_false, if_true, if_false, mul_one,
        mul_zero]
    rw [list_sum_congr fun s _ => hpt s, sum_words_prod [1, -1] n F, hF]
    rw [Finset.prod_eq_mul i j hij]
    · rcases ha with rfl | rfl <;> rcases hb with rfl | rfl <;> simp [hij, hij.symm]
    · intro k hk h
      simp [h.1, h.2, hf k (Finset.mem_range.1 hk)]
    · intro h; exact absurd (Finset.mem_range.2 hi) h
    · intro h; exact absurd (Finset.mem_range.2 hj) h
  have hphi : ∀ s ∈ words ([1, -1] : List ℤ) n, (∏ k ∈ Finset.range n, f k (s.getD k 0)) * φ (s.getD i 0) (s.getD j 0) =
      (φ 1 1 * ((∏ k ∈ Finset.range n, f k (s.getD k 0)) * (if s.getD i 0 = 1 ∧ s.getD j 0 = 1 then 1 else 0)) +
       φ 1 (-1) * ((∏ k ∈ Finset.range n, f k (s.getD k 0)) * (if s.getD i 0 = 1 ∧ s.getD j 0 = -1 then 1 else 0))) +
      (φ (-1) 1 * ((∏ k ∈ Finset.range n, f k (s.getD k 0)) * (if s.getD i 0 = -1 ∧ s.getD j 0 = 1 then 1 else 0)) +
       φ (-1) (-1) * ((∏ k ∈ Finset.range n, f k (s.getD k 0)) * (if s.getD i 0 = -1 ∧ s.getD j 0 = -1 then 1 else 0))) := by
    intro s hs
    rcases spin_pm hs hi with h1 | h1 <;> rcases spin_pm hs hj with h2 | h2 <;> rw [h1, h2] <;> norm_num <;> ring
  rw [list_sum_congr hphi, list_sum_add, list_sum_add, list_sum_add, list_sum_mul_left, list_sum_mul_left, list_sum_mul_left,
    list_sum_mul_left, hone 1 1 (by simp) (by simp), hone 1 (-1) (by simp) (by simp), hone (-1) 1 (by simp) (by simp),
    hone (-1) (-1) (by simp) (by simp)]
  ring

end Verif.Lemmas
