/-
The wrappers `pairwise` and `triplet` and all orders.
-/
import Verif.Lemmas.EnumerateModule
import Verif.Lemmas.Pairs
import Verif.Lemmas.Helpers2

namespace Verif.Lemmas
open Verif Verif.Model Verif.Spec

theorem goodGroups_allOrders (n m : ℕ) : GoodGroups n (allOrders n m) := by
  intro g hg
  obtain ⟨k, -, rfl⟩ := List.mem_map.1 hg
  refine ⟨by simp, fun t ht => ?_⟩
  have := (isCombinations_tuples n (k + 1)).mem_iff t |>.1 ht
  exact ⟨this.1, this.2.2⟩

theorem paramsFit_allOrders (n : ℕ) (P : List (List ℝ)) (h : PolyShape n P) :
    ParamsFit (allOrders n P.length) P := by
  unfold ParamsFit allOrders
  apply List.ext_getElem
  · simp
  · intro i h1 h2
    simp at h1
    have := h i h1
    rw [List.getD_eq_getElem _ _ h1] at this
    simpa using this

theorem groupE_allOrders (n : ℕ) (P : List (List ℝ)) (x : ℕ → ℝ) :
    groupE (allOrders n P.length) P x = polyE n P x := by
  unfold groupE polyE
  congr 1
  rw [← sum_map_range]
  congr 1
  apply List.ext_getElem
  · simp [allOrders]
  · intro i h1 h2
    simp [allOrders] at h1 h2
    simp [allOrders, h2]

theorem allOrders_nonempty (n m : ℕ) (hn : 1 ≤ n) (hm : 1 ≤ m) : ∃ g ∈ allOrders n m, g.2 ≠ [] := by
  refine ⟨(1, tuples n 1), List.mem_map.2 ⟨0, by simp; omega, rfl⟩, ?_⟩
  simp [tuples_one]; omega

theorem pairwiseIx_eq (n : ℕ) : pairwiseIx n = (allOrders n 2).map subixOf := by
  unfold pairwiseIx allOrders subixOf
  simp [List.range_succ, tuples_one, tuples_two, Function.comp_def, upperPairs]

theorem zipStar_eq (k : ℕ) (L : List (List ℕ)) (h : L ≠ []) : zipStar k L = subixOf (k, L) := by
  simp [zipStar, subixOf, h]

theorem tripletIx_eq (n : ℕ) (hn : 3 ≤ n) : tripletIx n = (allOrders n 3).map subixOf := by
  have h2 : tuples n 2 ≠ [] := by
    intro h
    have := length_tuples n 2
    rw [h] at this
    have := Nat.choose_pos (n := n) (k := 2) (by omega)
    simp at *; omega
  have h3 : tuples n 3 ≠ [] := by
    intro h
    have := length_tuples n 3
    rw [h] at this
    have := Nat.choose_pos (n := n) (k := 3) (by omega)
    simp at *; omega
  unfold tripletIx allOrders
  rw [← tuples_eq, ← tuples_eq, zipStar_eq 2 _ h2, zipStar_eq 3 _ h3]
  simp [List.range_succ, subixOf, tuples_one, Function.comp_def]

theorem mono_abs_le (sym : Bool) (n : ℕ) (s : List ℤ) (hs : s ∈ words (spinValues sym) n) (t : List ℕ) :
    |mono (spins s : ℕ → ℝ) t| ≤ 1 := by
  have hsp : ∀ i, |(spins s i : ℝ)| ≤ 1 := by
    intro i
    unfold spins
    by_cases hi : i < s.length
    · rw [List.getD_eq_getElem _ _ hi]
      have := (mem_words.1 hs).2 _ (List.getElem_mem hi)
      cases sym
      · simp only [spinValues, Bool.false_eq_true, if_false, List.mem_cons, List.not_mem_nil, or_false] at this
        rcases this with h | h <;> rw [h] <;> simp
      · simp only [spinValues, if_true, List.mem_cons, List.not_mem_nil, or_false] at this
        rcases this with h | h <;> rw [h] <;> simp
    · rw [List.getD_eq_default _ _ (by omega)]; simp
  unfold mono
  induction t with
  | nil => simp
  | cons i t ih =>
    rw [List.map_cons, List.prod_cons, abs_mul]
    exact mul_le_one₀ (hsp i) (abs_nonneg _) ih

theorem pairwise_module (n : ℕ) (hn : 1 ≤ n) (sym : Bool) :
    ∃ e, writeEqns n sym (pairwiseIx n) = .ok e ∧
      ∀ h J : List ℝ, h.length = n → J.length = n * (n - 1) / 2 →
        moduleP e (h ++ J) = .ok ((words (spinValues sym) n).map
          (boltzmann (words (spinValues sym) n) fun s => isingVecE n h J (spins s))) ∧
        ∀ brk, moduleObservables brk e (h ++ J) = .ok
          ((List.range n).map (fun i => expect (words (spinValues sym) n)
              (fun s => isingVecE n h J (spins s)) fun s => spins s i) ++
            (upperPairs n).map fun q => expect (words (spinValues sym) n)
              (fun s => isingVecE n h J (spins s)) fun s => spins s q.1 * spins s q.2) := by
  obtain ⟨e, h1, h2⟩ := module_eq n hn sym (allOrders n 2) (goodGroups_allOrders n 2)
    (by simp [allOrders]) (allOrders_nonempty n 2 hn (by norm_num))
  refine ⟨e, by rw [pairwiseIx_eq]; exact h1, fun h J hh hJ => ?_⟩
  have hfit := paramsFit_allOrders n [h, J] (polyShape_two n h J hh hJ)
  obtain ⟨hp, ho⟩ := h2 [h, J] hfit
  have hE : (fun s : List ℤ => groupE (allOrders n 2) [h, J] (spins s)) =
      fun s => isingVecE n h J (spins s) := by
    funext s
    have := groupE_allOrders n [h, J] (spins s)
    rw [← polyE_two n h J hh hJ, ← this]; rfl
  rw [hE] at hp ho
  refine ⟨by simpa using hp, fun brk => ?_⟩
  have := ho brk
  have hfl : (allOrders n 2).flatMap (fun g => g.2) =
      (List.range n).map (fun i => [i]) ++ (upperPairs n).map fun p => [p.1, p.2] := by
    simp [allOrders, List.range_succ, tuples_one, tuples_two]
  rw [hfl, List.map_append, List.map_map, List.map_map] at this
  simpa [Function.comp_def, mono] using this

theorem isingVecE_congr {K : Type*} [CommRing K] (n : ℕ) (h J : List K) (x y : ℕ → K)
    (hxy : ∀ i < n, x i = y i) : isingVecE n h J x = isingVecE n h J y := by
  unfold isingVecE isingE
  congr 1
  · congr 1
    exact Finset.sum_congr rfl fun i hi => by rw [hxy i (Finset.mem_range.1 hi)]
  · refine Finset.sum_congr rfl fun i hi => Finset.sum_congr rfl fun j hj => ?_
    rw [hxy i (Finset.mem_range.1 hi), hxy j (Finset.mem_range.1 hj)]

theorem expect_map {α β : Type*} (g : α → β) (S : List α) (E f : β → ℝ) :
    expect (S.map g) E f = expect S (fun s => E (g s)) fun s => f (g s) := by
  unfold expect boltzmann partition
  simp only [List.map_map, Function.comp_def]

theorem boltzmann_map {α β : Type*} (g : α → β) (S : List α) (E : β → ℝ) (s : α) :
    boltzmann (S.map g) E (g s) = boltzmann S (fun s => E (g s)) s := by
  unfold boltzmann partition
  simp only [List.map_map, Function.comp_def]

theorem boltzmann_shift {α : Type*} (S : List α) (E E' : α → ℝ) (c : ℝ) (h : ∀ s ∈ S, E' s = E s + c) (s : α)
    (hs : s ∈ S) : boltzmann S E' s = boltzmann S E s := by
  unfold boltzmann partition
  have : (S.map fun s => Real.exp (-E' s)) = S.map fun s => Real.exp (-E s) * Real.exp (-c) :=
    List.map_congr_left fun t ht => by rw [h t ht, neg_add, Real.exp_add]
  rw [this, list_sum_mul_right, h s hs, neg_add, Real.exp_add]
  exact mul_div_mul_right _ _ (Real.exp_pos _).ne'

theorem words_sym (n : ℕ) : words (spinValues true) n =
    (words (spinValues false) n).map (List.map fun b => 2 * b - 1) := by
  rw [← words_map]; rfl

theorem spins_double (n : ℕ) (s : List ℤ) (hs : s.length = n) (i : ℕ) (hi : i < n) :
    (spins (s.map fun b => 2 * b - 1) i : ℝ) = 2 * spins s i - 1 := by
  unfold spins
  rw [List.getD_eq_getElem _ _ (by simpa [hs] using hi), List.getD_eq_getElem _ _ (by simpa [hs] using hi)]
  simp

theorem foldl_set_range {α : Type*} (F : ℕ → α) (d : α) (L : List α) (m : ℕ) (hm : m ≤ L.length) :
    ((List.range m).foldl (fun b i => b.set i (F i)) L).length = L.length ∧
    ∀ i, ((List.range m).foldl (fun b i => b.set i (F i)) L).getD i d = if i < m then F i else L.getD i d := by
  induction m with
  | zero => simp
  | succ m ih =>
    obtain ⟨h1, h2⟩ := ih (by omega)
    rw [List.range_succ, List.foldl_append]
    simp only [List.foldl_cons, List.foldl_nil]
    refine ⟨by rw [List.length_set, h1], fun i => ?_⟩
    by_cases hi : i = m
    · subst hi
      rw [if_pos (by omega), List.getD_eq_getElem _ _ (by rw [List.length_set, h1]; omega), List.getElem_set_self]
    · rw [List.getD_eq_getElem?_getD, List.getElem?_set_ne (by omega), ← List.getD_eq_getElem?_getD, h2 i]
      by_cases h : i < m
      · rw [if_pos h, if_pos (by omega)]
      · rw [if_neg h, if_neg (by omega)]

theorem getD_take {α : Type*} (l : List α) (d : α) (m i : ℕ) (hi : i < m) :
    (l.take m).getD i d = l.getD i d := by
  rw [List.getD_eq_getElem?_getD, List.getElem?_take_of_lt hi, ← List.getD_eq_getElem?_getD]

theorem getD_map' {α β : Type*} (f : α → β) (l : List α) (d : α) (e : β) (i : ℕ) (hi : i < l.length) :
    (l.map f).getD i e = f (l.getD i d) := by
  rw [List.getD_eq_getElem _ _ (by simpa using hi), List.getD_eq_getElem _ _ hi]; simp

end Verif.Lemmas
