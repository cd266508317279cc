/-
The objective of MPF in the two bases, and its minimiser.
-/
import Verif.Lemmas.Mpf
import Verif.Lemmas.Solvers
import Verif.Props.Helpers

namespace Verif.Lemmas
open Verif Verif.Model Verif.Spec

/-- What `split_concat_params` makes of the parameters of a pairwise model. -/
theorem split_pairwise (n : ℕ) (hn : 1 ≤ n) (θ : List ℝ) (hθ : θ.length = n + n * (n - 1) / 2) :
    ∃ h rest, h = θ.take n ∧ h.length = n ∧ PolyShape n (h :: rest) ∧ (h :: rest).flatten = θ ∧
      (h :: rest).length ≤ 2 ∧
      (∀ r, SplitConcatParams θ n r ↔ r = h :: rest) ∧
      ∀ P' : List (List ℝ), P'.length = (h :: rest).length → PolyShape n P' →
        P'.flatten.length = θ.length ∧
        (∀ r, SplitConcatParams P'.flatten n r ↔ r = P') ∧
        ∀ x : ℕ → ℝ, polyE n P' x = isingVecE n (P'.flatten.take n) (P'.flatten.drop n) x := by
  have htake : (θ.take n).length = n := by rw [List.length_take]; omega
  rcases Nat.lt_or_ge n 2 with h2 | h2
  · have hn1 : n = 1 := by omega
    subst hn1
    have hθ1 : θ.length = 1 := by simpa using hθ
    have ht : θ.take 1 = θ := List.take_of_length_le (by omega)
    have hshape : ∀ v : List ℝ, v.length = 1 → PolyShape 1 [v] := by
      intro v hv k hk
      have : k = 0 := by simpa using hk
      subst this
      simp [tuples_one, hv]
    have hs : ∀ v : List ℝ, v.length = 1 → ∀ r, SplitConcatParams v 1 r ↔ r = [v] := by
      intro v hv r
      have := split_flatten 1 [v] (hshape v hv) (by simp) r
      simpa using this
    refine ⟨θ.take 1, [], rfl, by simpa using htake, ?_, ?_, by simp, ?_, ?_⟩
    · rw [ht]; exact hshape θ hθ1
    · rw [ht]; simp
    · rw [ht]; exact hs θ hθ1
    · intro P' hl hP'
      obtain ⟨v, rfl⟩ := List.length_eq_one_iff.1 (by simpa using hl)
      have hv : v.length = 1 := by simpa [tuples_one] using hP' 0 (by simp)
      have hf : [v].flatten = v := by simp
      rw [hf]
      refine ⟨by rw [hv, hθ1], hs v hv, fun x => ?_⟩
      rw [List.take_of_length_le (by omega), List.drop_of_length_le (by omega),
        ← polyE_two 1 v [] hv (by simp)]
      unfold polyE
      simp [Finset.sum_range_succ, dot]
  · have hJ : (θ.drop n).length = n * (n - 1) / 2 := by rw [List.length_drop]; omega
    refine ⟨θ.take n, [θ.drop n], rfl, htake, polyShape_two n _ _ htake hJ, by simp, by simp, ?_, ?_⟩
    · intro r
      have := split_flatten n [θ.take n, θ.drop n] (polyShape_two n _ _ htake hJ) (by simpa using h2) r
      simpa using this
    · intro P' hl hP'
      obtain ⟨a, b, rfl⟩ := List.length_eq_two.1 (by simpa using hl)
      have ha : a.length = n := by simpa [tuples_one] using hP' 0 (by simp)
      have hb : b.length = n * (n - 1) / 2 := by
        simpa [tuples_two, length_upperPairs] using hP' 1 (by simp)
      have hf : [a, b].flatten = a ++ b := by simp
      refine ⟨by rw [hf, List.length_append, ha, hb, hθ], split_flatten n [a, b] hP' (by simpa using h2),
        fun x => ?_⟩
      rw [hf, List.take_left' ha, List.drop_left' ha, polyE_two n a b ha hb]

theorem adjacent_eq (U : Data) :
    listAdjacentStates U true = .ok (U.map (flips fun x => 1 - x)) := by
  unfold listAdjacentStates
  simp only [if_true]
  congr 1
  apply List.map_congr_left
  intro s _
  rw [flipScan_eq _ (by intro x; ring)]
  rfl

theorem isingCalcERow_vec (n : ℕ) (s : List ℤ) (hs : s.length = n) (θ : List ℝ)
    (hθ : θ.length = n + n * (n - 1) / 2) :
    isingCalcERow θ s = isingVecE n (θ.take n) (θ.drop n) (spins s) := by
  subst hs
  have := Props.C19_calc_e_is_energy s (θ.take s.length) (θ.drop s.length)
    (by rw [List.length_take]; omega) (by rw [List.length_drop]; omega)
  rwa [List.take_append_drop] at this

/-! ### Flow between neighbouring states -/

theorem list_perm_map_of_invol {α : Type*} [DecidableEq α] (S : List α) (hS : S.Nodup) (f : α → α)
    (hf : ∀ s ∈ S, f s ∈ S) (hff : ∀ s ∈ S, f (f s) = s) : (S.map f).Perm S := by
  rw [List.perm_ext_iff_of_nodup _ hS]
  · intro a
    constructor
    · intro h
      obtain ⟨s, hs, rfl⟩ := List.mem_map.1 h
      exact hf s hs
    · intro h
      exact List.mem_map.2 ⟨f a, hf a h, hff a h⟩
  · refine hS.map_on ?_
    intro x hx y hy e
    rw [← hff x hx, e, hff y hy]

theorem sum_invol {α : Type*} [DecidableEq α] (S : List α) (hS : S.Nodup) (f : α → α)
    (hf : ∀ s ∈ S, f s ∈ S) (hff : ∀ s ∈ S, f (f s) = s) (g : α → ℝ) :
    (S.map fun s => g (f s)).sum = (S.map g).sum := by
  have := ((list_perm_map_of_invol S hS f hf hff).map g).sum_eq
  rwa [List.map_map] at this

theorem exp_add_exp_neg (x : ℝ) : 0 ≤ Real.exp x + Real.exp (-x) - 2 ∧
    (Real.exp x + Real.exp (-x) - 2 = 0 → x = 0) := by
  have e : Real.exp x + Real.exp (-x) - 2 = (Real.exp (x / 2) - Real.exp (-(x / 2))) ^ 2 := by
    have h1 : Real.exp x = Real.exp (x / 2) ^ 2 := by rw [← Real.exp_nat_mul]; congr 1; push_cast; ring
    have h2 : Real.exp (-x) = Real.exp (-(x / 2)) ^ 2 := by
      rw [← Real.exp_nat_mul]; congr 1; push_cast; ring
    have h3 : Real.exp (x / 2) * Real.exp (-(x / 2)) = 1 := by rw [← Real.exp_add]; simp
    rw [h1, h2]
    linear_combination 2 * h3
  refine ⟨by rw [e]; positivity, fun h => ?_⟩
  rw [e] at h
  have h1 : Real.exp (x / 2) = Real.exp (-(x / 2)) := by
    have := pow_eq_zero_iff (two_ne_zero) |>.1 h
    linarith
  have := Real.exp_injective h1
  linarith

/-- Probability flow under an involution: the flow of a Boltzmann distribution is least for its own
energies, and only for those that change by the same amounts. -/
theorem flow_invol {α : Type*} [DecidableEq α] (S : List α) (hS : S.Nodup) (f : α → α)
    (hf : ∀ s ∈ S, f s ∈ S) (hff : ∀ s ∈ S, f (f s) = s) (E E' : α → ℝ) :
    (S.map fun s => boltzmann S E s * Real.exp ((E s - E (f s)) / 2)).sum ≤
      (S.map fun s => boltzmann S E s * Real.exp ((E' s - E' (f s)) / 2)).sum ∧
    ((S.map fun s => boltzmann S E s * Real.exp ((E' s - E' (f s)) / 2)).sum ≤
      (S.map fun s => boltzmann S E s * Real.exp ((E s - E (f s)) / 2)).sum →
      ∀ s ∈ S, E' (f s) - E (f s) = E' s - E s) := by
  rcases eq_or_ne S [] with rfl | hne
  · simp
  have hZ := partition_pos S E hne
  obtain ⟨w, hw⟩ : ∃ w : α → ℝ, w = fun s => Real.exp (-(E s + E (f s)) / 2) / partition S E := ⟨_, rfl⟩
  obtain ⟨x, hx⟩ : ∃ x : α → ℝ, x = fun s => ((E' s - E s) - (E' (f s) - E (f s))) / 2 := ⟨_, rfl⟩
  have hwpos : ∀ s, 0 < w s := fun s => by rw [hw]; exact div_pos (Real.exp_pos _) hZ
  have h1 : ∀ s, boltzmann S E s * Real.exp ((E s - E (f s)) / 2) = w s := by
    intro s
    rw [hw]
    unfold boltzmann
    rw [div_mul_eq_mul_div, ← Real.exp_add]
    congr 2
    ring
  have h2 : ∀ s, boltzmann S E s * Real.exp ((E' s - E' (f s)) / 2) = w s * Real.exp (x s) := by
    intro s
    rw [hw, hx]
    unfold boltzmann
    rw [div_mul_eq_mul_div, div_mul_eq_mul_div, ← Real.exp_add, ← Real.exp_add]
    congr 2
    ring
  have h3 : (S.map fun s => w s * Real.exp (x s)).sum = (S.map fun s => w s * Real.exp (-x s)).sum := by
    rw [← sum_invol S hS f hf hff fun s => w s * Real.exp (-x s)]
    apply list_sum_congr
    intro s hs
    have e1 : w (f s) = w s := by
      rw [hw]; simp only; rw [hff s hs, add_comm (E s)]
    have e2 : -x (f s) = x s := by
      rw [hx]; simp only; rw [hff s hs]; ring
    rw [e1, e2]
  simp only [h1, h2]
  have h4 : 2 * ((S.map fun s => w s * Real.exp (x s)).sum - (S.map fun s => w s).sum) =
      (S.map fun s => w s * (Real.exp (x s) + Real.exp (-x s) - 2)).sum := by
    have : (S.map fun s => w s * (Real.exp (x s) + Real.exp (-x s) - 2)) =
        S.map fun s => (w s * Real.exp (x s) + w s * Real.exp (-x s)) - 2 * w s :=
      List.map_congr_left fun s _ => by ring
    rw [this, list_sum_sub, list_sum_add, list_sum_mul_left, ← h3]
    ring
  have hterm : ∀ s ∈ S, 0 ≤ w s * (Real.exp (x s) + Real.exp (-x s) - 2) := fun s _ =>
    mul_nonneg (hwpos s).le (exp_add_exp_neg _).1
  have hnn : 0 ≤ (S.map fun s => w s * (Real.exp (x s) + Real.exp (-x s) - 2)).sum :=
    List.sum_nonneg (by
      intro v hv
      obtain ⟨s, hs, rfl⟩ := List.mem_map.1 hv
      exact hterm s hs)
  constructor
  · linarith
  · intro hle s hs
    have h5 := eq_of_sum_zero S _ hterm (by linarith) s hs
    rcases mul_eq_zero.1 h5 with h6 | h6
    · exact absurd h6 (hwpos s).ne'
    · have := (exp_add_exp_neg _).2 h6
      rw [hx] at this
      simp only at this
      linarith

theorem flip_mem_words (n i : ℕ) (s : List ℤ) (hs : s ∈ words [1, -1] n) :
    s.set i (-s.getD i 0) ∈ words [1, -1] n := by
  obtain ⟨h1, h2⟩ := mem_words.1 hs
  refine mem_words.2 ⟨by simpa using h1, ?_⟩
  intro x hx
  rcases Nat.lt_or_ge i s.length with hi | hi
  · rcases List.mem_or_eq_of_mem_set hx with h | h
    · exact h2 x h
    · have := h2 (s.getD i 0) (by rw [List.getD_eq_getElem _ _ hi]; exact List.getElem_mem hi)
      subst h
      simp only [List.mem_cons, List.not_mem_nil, or_false] at this ⊢
      omega
  · rw [List.set_eq_of_length_le hi] at hx
    exact h2 x hx

theorem flip_flip (i : ℕ) (s : List ℤ) :
    (s.set i (-s.getD i 0)).set i (-(s.set i (-s.getD i 0)).getD i 0) = s := by
  rcases Nat.lt_or_ge i s.length with hi | hi
  · have : (s.set i (-s.getD i 0)).getD i 0 = -s.getD i 0 := by simp [hi]
    rw [this, List.set_set, neg_neg, List.getD_eq_getElem _ _ hi, List.set_getElem_self]
  · rw [List.set_eq_of_length_le hi, List.set_eq_of_length_le hi]

/-- A function of the states of `n` spins that no single flip changes is constant. -/
theorem const_of_flips (n : ℕ) (D : List ℤ → ℝ)
    (h : ∀ s ∈ words [1, -1] n, ∀ i < n, D (s.set i (-s.getD i 0)) = D s) :
    ∀ s ∈ words [1, -1] n, D s = D (List.replicate n 1) := by
  have step : ∀ s ∈ words [1, -1] n, ∀ i < n,
      s.set i 1 ∈ words [1, -1] n ∧ D (s.set i 1) = D s := by
    intro s hs i hi
    obtain ⟨h1, h2⟩ := mem_words.1 hs
    have hil : i < s.length := by omega
    have hmem := h2 _ (List.getElem_mem hil)
    simp only [List.mem_cons, List.not_mem_nil, or_false] at hmem
    rcases hmem with he | he
    · have : s.set i 1 = s := by rw [← he, List.set_getElem_self]
      rw [this]; exact ⟨hs, rfl⟩
    · have e : -s.getD i 0 = 1 := by rw [List.getD_eq_getElem _ _ hil, he]; rfl
      have h3 := flip_mem_words n i s hs
      have h4 := h s hs i hi
      rw [e] at h3 h4
      exact ⟨h3, h4⟩
  have fold : ∀ L : List ℕ, (∀ i ∈ L, i < n) → ∀ s ∈ words [1, -1] n,
      L.foldl (fun s i => s.set i 1) s ∈ words [1, -1] n ∧
      D (L.foldl (fun s i => s.set i 1) s) = D s ∧
      ∀ j, (j ∈ L ∨ s[j]? = some 1) → j < n → (L.foldl (fun s i => s.set i 1) s)[j]? = some 1 := by
    intro L
    induction L with
    | nil => intro _ s hs; exact ⟨hs, rfl, fun j hj _ => by simpa using hj⟩
    | cons i L ih =>
      intro hL s hs
      obtain ⟨h1, h2⟩ := step s hs i (hL i (by simp))
      obtain ⟨h3, h4, h5⟩ := ih (fun j hj => hL j (List.mem_cons_of_mem _ hj)) _ h1
      refine ⟨h3, by rw [List.foldl_cons, h4, h2], ?_⟩
      intro j hj hjn
      rw [List.foldl_cons]
      apply h5 j _ hjn
      have hsl := (mem_words.1 hs).1
      rw [List.getElem?_set]
      by_cases hij : i = j
      · subst hij
        right
        simp [hsl, hjn]
      · rcases hj with hj | hj
        · rcases List.mem_cons.1 hj with rfl | hj
          · exact absurd rfl hij
          · exact Or.inl hj
        · right; rw [if_neg hij]; exact hj
  intro s hs
  obtain ⟨h1, h2, h3⟩ := fold (List.range n) (fun i hi => List.mem_range.1 hi) s hs
  rw [← h2]
  congr 1
  apply List.ext_getElem?
  intro j
  rcases Nat.lt_or_ge j n with hj | hj
  · rw [h3 j (Or.inl (List.mem_range.2 hj)) hj, List.getElem?_replicate, if_pos hj]
  · rw [List.getElem?_eq_none (by rw [(mem_words.1 h1).1]; exact hj),
      List.getElem?_eq_none (by simpa using hj)]

end Verif.Lemmas
