import Verif.Lemmas.Tempering3
import Verif.Lemmas.EnumerateWrap
import Verif.Lemmas.Helpers
import Verif.Spec.Tempering

namespace Verif.Lemmas
open Verif Verif.Model Verif.Spec Prog

section
variable {calcE : List ℤ → List ℝ → ℝ} {n k : ℕ} {theta beta : List ℝ}

theorem consistent_holding (hlin : ∀ s b, calcE s (theta.map (· * b)) = b * calcE s theta) {reps : List Replica}
    (hs : Sync theta beta reps) : ∀ c : List (List ℤ), c.length = reps.length →
    Consistent (calcE · theta) theta beta (List.zipWith (holding calcE) reps c) := by
  induction hs with
  | nil => intro c _; exact .nil
  | @cons r b reps beta h _ ih =>
    intro c hc
    match c, hc with
    | s :: c, hc =>
      refine .cons ⟨h, s, rfl, rfl, ?_⟩ (ih c (by simpa using hc))
      show [calcE s r.theta] = _
      rw [h, hlin]

theorem configs_holding (reps : List Replica) : ∀ c : List (List ℤ), c.length = reps.length →
    configs (List.zipWith (holding calcE) reps c) = c := by
  induction reps with
  | nil => intro c hc; simp at hc; simp [hc, configs]
  | cons r l ih =>
    intro c hc
    match c, hc with
    | s :: c, hc =>
      have := ih c (by simpa using hc)
      unfold configs at this ⊢
      simp only [List.zipWith_cons_cons, List.map_cons, this]
      rfl

theorem holding_of_consistent (hlin : ∀ s b, calcE s (theta.map (· * b)) = b * calcE s theta) {reps : List Replica}
    (h : Consistent (calcE · theta) theta beta reps) :
    Sync theta beta reps ∧ reps = List.zipWith (holding calcE) reps (configs reps) := by
  induction h with
  | nil => exact ⟨.nil, rfl⟩
  | @cons r b reps beta h _ ih =>
    obtain ⟨h1, s, h2, h3, h4⟩ := h
    refine ⟨.cons h1 ih.1, ?_⟩
    unfold configs at ih ⊢
    simp only [List.map_cons, List.zipWith_cons_cons]
    rw [← ih.2]
    congr 1
    obtain ⟨t, sa, ke, E, ix⟩ := r
    dsimp only at h1 h2 h3 h4
    subst h1 h2 h3 h4
    simp [holding, hlin]

theorem holding_labels (reps : List Replica) : ∀ c : List (List ℤ), c.length = reps.length →
    (List.zipWith (holding calcE) reps c).map (fun r => (r.index, r.sample)) =
      (labels reps c).map fun p => (p.1, [p.2]) := by
  induction reps with
  | nil => intro c _; rfl
  | cons r l ih =>
    intro c hc
    match c, hc with
    | s :: c, hc =>
      have := ih c (by simpa using hc)
      unfold labels at this ⊢
      simp only [List.zipWith_cons_cons, List.map_cons, this]
      rfl

theorem replicaE_eq (e : List ℤ → ℝ) (beta : List ℝ) : ∀ c : List (List ℤ), c.length = beta.length →
    replicaE e beta c = totalE e beta c := by
  unfold replicaE totalE
  induction beta with
  | nil => intro c _; simp
  | cons b beta ih =>
    intro c hc
    match c, hc with
    | s :: c, hc =>
      rw [List.length_cons, Finset.sum_range_succ', List.zipWith_cons_cons, List.sum_cons,
        ← ih c (by simpa using hc), add_comm]
      simp

/-- The distribution of one of several independent components. -/
theorem expect_marginal {α : Type*} (S : List α) (hS : S ≠ []) (Es : List (α → ℝ)) : ∀ (j : ℕ) (hj : j < Es.length)
    (f : α → ℝ) (d : α),
    expect (words S Es.length) (fun c => (List.zipWith (fun E s => E s) Es c).sum) (fun c => f (c.getD j d)) =
      expect S Es[j] f := by
  have hw : ∀ (Es : List (α → ℝ)) (g : List α → ℝ),
      expect (words S Es.length) (fun c => (List.zipWith (fun E s => E s) Es c).sum) g =
        ((words S Es.length).map fun c => (List.zipWith (fun E s => boltzmann S E s) Es c).prod * g c).sum := by
    intro Es g
    exact list_sum_congr fun c hc => by rw [boltzmann_product S Es c (mem_words.1 hc).1]
  have hone : ∀ Es : List (α → ℝ),
      ((words S Es.length).map fun c => (List.zipWith (fun E s => boltzmann S E s) Es c).prod).sum = 1 := by
    intro Es
    induction Es with
    | nil => simp [words]
    | cons E Es ih =>
      rw [List.length_cons, words, List.map_flatMap, sum_flatMap, ← sum_boltzmann S E hS]
      refine list_sum_congr fun s _ => ?_
      rw [List.map_map]
      simp only [Function.comp_def, List.zipWith_cons_cons, List.prod_cons]
      rw [list_sum_mul_left, ih, mul_one]
  intro j
  induction Es generalizing j with
  | nil => intro hj; simp at hj
  | cons E Es ih =>
    intro hj f d
    rw [hw, List.length_cons, words, List.map_flatMap, sum_flatMap]
    cases j with
    | zero =>
      unfold expect
      refine list_sum_congr fun s _ => ?_
      rw [List.map_map]
      simp only [Function.comp_def, List.zipWith_cons_cons, List.prod_cons, List.getD_cons_zero, List.getElem_cons_zero]
      rw [list_sum_mul_right, list_sum_mul_left, hone, mul_one]
    | succ j =>
      have h1 := ih j (by simpa using hj) f d
      rw [hw] at h1
      rw [List.getElem_cons_succ, ← h1]
      refine Eq.trans ?_ (one_mul _)
      rw [← sum_boltzmann S E hS, ← list_sum_mul_right]
      refine list_sum_congr fun s _ => ?_
      rw [List.map_map, ← list_sum_mul_left]
      refine list_sum_congr fun c _ => ?_
      simp only [Function.comp_def, List.zipWith_cons_cons, List.prod_cons, List.getD_cons_succ]
      ring

theorem expect_replica (e : List ℤ → ℝ) (beta : List ℝ) (S : List (List ℤ)) (hS : S ≠ []) (j : ℕ) (hj : j < beta.length)
    (f : List ℤ → ℝ) :
    expect (words S beta.length) (replicaE e beta) (fun c => f (c.getD j [])) =
      expect S (fun s => beta.getD j 0 * e s) f := by
  have := expect_marginal S hS (beta.map fun b s => b * e s) j (by simpa using hj) f []
  simp only [List.getElem_map, List.length_map] at this
  rw [List.getD_eq_getElem _ _ hj, ← this]
  refine expect_congr _ _ _ _ _ (fun c hc => ?_) fun _ _ => rfl
  rw [replicaE_eq e beta c (mem_words.1 hc).1, List.zipWith_map_left]
  rfl

end

end Verif.Lemmas
