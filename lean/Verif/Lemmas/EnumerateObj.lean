/-
When the equations of `Enumerate` have a solution.
-/
import Verif.Model.EnumerateObj
import Verif.Spec.Likelihood
import Verif.Lemmas.Exists2
import Verif.Lemmas.MchProg4
import Verif.Props.Solvers

namespace Verif.Lemmas
open Verif Verif.Model Verif.Spec Verif.Props

theorem split_params (groups : List Group) (θ : List ℝ) (h : θ.length = (groups.flatMap fun g => g.2).length) :
    ∃ P, ParamsFit groups P ∧ P.flatten = θ := by
  induction groups generalizing θ with
  | nil => exact ⟨[], rfl, by simpa [eq_comm] using h⟩
  | cons g gs ih =>
    rw [List.flatMap_cons, List.length_append] at h
    obtain ⟨P, h1, h2⟩ := ih (θ.drop g.2.length) (by rw [List.length_drop]; omega)
    refine ⟨θ.take g.2.length :: P, ?_, by rw [List.flatten_cons, h2, List.take_append_drop]⟩
    unfold ParamsFit at h1 ⊢
    rw [List.map_cons, List.map_cons, h1, List.length_take, min_eq_left (by omega)]

theorem dot_zeros (a b : List ℝ) (h : ∀ x ∈ a, x = 0) : dot a b = 0 := by
  unfold dot
  induction a generalizing b with
  | nil => simp
  | cons x a ih =>
    rcases b with _ | ⟨y, b⟩
    · simp
    · rw [List.zipWith_cons_cons, List.sum_cons, ih _ fun z hz => h z (List.mem_cons_of_mem _ hz), h x (by simp)]
      simp

/-- The observables of a model with all interactions up to some order are independent. -/
theorem orders_independent (n m : ℕ) (sym : Bool) (θ : List ℝ)
    (hθ : θ.length = ((allOrders n m).flatMap fun g => g.2).length)
    (hk : ∃ k, ∀ s ∈ words (spinValues sym) n,
      dot θ (((allOrders n m).flatMap fun g => g.2).map fun t => mono (spins s) t) = k) : ∀ x ∈ θ, x = 0 := by
  obtain ⟨k, hk⟩ := hk
  obtain ⟨P, hP, hf⟩ := split_params _ θ hθ
  have hQ : ParamsFit (allOrders n m) (P.map fun l => l.map fun _ => (0 : ℝ)) := by
    unfold ParamsFit at hP ⊢
    rw [← hP, List.map_map]
    simp [Function.comp_def]
  have hz : ∀ x ∈ (P.map fun l => l.map fun _ => (0 : ℝ)).flatten, x = 0 := by
    intro x hx
    obtain ⟨l, hl, hxl⟩ := List.mem_flatten.1 hx
    obtain ⟨l', -, rfl⟩ := List.mem_map.1 hl
    obtain ⟨y, -, rfl⟩ := List.mem_map.1 hxl
    rfl
  obtain ⟨lP, sP⟩ := polyShape_of_fit n m P hP
  obtain ⟨lQ, sQ⟩ := polyShape_of_fit n m _ hQ
  have := poly_unique_words n sym P _ (lP.trans lQ.symm) sP sQ (-k) fun s hs => by
    rw [← groupE_allOrders, ← groupE_allOrders, lP, lQ, groupE_flatten _ _ hP, groupE_flatten _ _ hQ, hf, dot_zeros _ _ hz]
    have := hk s hs
    simpa using this
  rw [← hf, this]
  exact hz

/-- The observables `c` are those of a module for all interactions up to order `m` with some parameters if and only if
every combination of the observables exceeds that of `c` at some state. -/
theorem module_exists_iff (n : ℕ) (hn : 1 ≤ n) (sym : Bool) (m : ℕ) (hm : 1 ≤ m) (hm' : m ≤ 23) :
    ∃ e, writeEqns n sym ((allOrders n m).map subixOf) = .ok e ∧
      ∀ (brk : ℕ → Bool) (c : List ℝ), c.length = ((allOrders n m).flatMap fun g => g.2).length →
        ((∃ θ : List ℝ, θ.length = c.length ∧ moduleObservables brk e θ = .ok c) ↔
          ∀ w : List ℝ, w.length = c.length → (∃ x ∈ w, x ≠ 0) → ∃ s ∈ words (spinValues sym) n,
            dot w c < dot w (((allOrders n m).flatMap fun g => g.2).map fun t => mono (spins s) t)) := by
  obtain ⟨e, h1, h2⟩ := module_eq n hn sym (allOrders n m) (goodGroups_allOrders n m)
    (by simpa [allOrders] using hm') (allOrders_nonempty n m hn hm)
  refine ⟨e, h1, fun brk c hc => ?_⟩
  have key := family_exists_iff (words (spinValues sym) n) (words_spinValues_ne sym n)
    ((allOrders n m).flatMap fun g => g.2) (fun t s => mono (spins s) t) c hc
    (fun θ hθ hk => orders_independent n m sym θ hθ hk)
  rw [← hc] at key
  rw [← key]
  refine exists_congr fun θ => and_congr_right fun hθ => ?_
  obtain ⟨P, hP, hf⟩ := split_params (allOrders n m) θ (hθ.trans hc)
  have := (h2 P hP).2 brk
  rw [hf] at this
  rw [this]
  have hE : (fun s : List ℤ => groupE (allOrders n m) P (spins s)) =
      fun s => -dot θ (((allOrders n m).flatMap fun g => g.2).map fun t => mono (spins s) t) := by
    funext s
    rw [groupE_flatten _ _ hP, hf]
  rw [hE]
  exact ⟨fun h => Except.ok.inj h, fun h => by rw [h]⟩

theorem orders_pairObs (n : ℕ) (x : ℕ → ℝ) :
    (((allOrders n 2).flatMap fun g => g.2).map fun t => mono x t) = pairObs n x := by
  have hfl : (allOrders n 2).flatMap (fun g => g.2) =
      (List.range n).map (fun i => [i]) ++ (upperPairs n).map fun p => [p.1, p.2] := by
    simp [allOrders, List.range_succ, tuples_one, tuples_two]
  rw [hfl, List.map_append, List.map_map, List.map_map]
  simp [Function.comp_def, mono, pairObs]

theorem pairE_dot (n : ℕ) (v : List ℝ) (hv : v.length = n + n * (n - 1) / 2) (s : List ℤ) :
    pairE n v s = -dot v (pairObs n (spins s)) := by
  have h1 : (v.take n).length = n := by rw [List.length_take]; omega
  have h2 : (v.drop n).length = n * (n - 1) / 2 := by rw [List.length_drop]; omega
  unfold pairE
  rw [← polyE_two n _ _ h1 h2, ← groupE_allOrders]
  rw [groupE_flatten _ _ (paramsFit_allOrders n _ (polyShape_two n _ _ h1 h2)), show
    ([v.take n, v.drop n] : List (List ℝ)).length = 2 from rfl, orders_pairObs]
  simp

/-- The moments of a sample. -/
noncomputable def moments (n : ℕ) (X : List (List ℤ)) : List ℝ :=
  (List.range n).map (fun j => avg X fun row => ((row.getD j 0 : ℤ) : ℝ)) ++
    (upperPairs n).map fun p => avg X fun row => ((row.getD p.1 0 : ℤ) : ℝ) * ((row.getD p.2 0 : ℤ) : ℝ)

theorem length_moments (n : ℕ) (X : List (List ℤ)) : (moments n X).length = n + n * (n - 1) / 2 := by
  simp [moments, length_upperPairs]

theorem avg_dot (X : List (List ℤ)) (w : List ℝ) (O : List (List ℤ → ℝ)) :
    dot w (O.map fun f => avg X f) = avg X fun r => dot w (O.map fun f => f r) := by
  induction w generalizing O with
  | nil => simp [dot, avg]
  | cons a w ih =>
    rcases O with _ | ⟨f, O⟩
    · simp [dot, avg]
    · have := ih O
      simp only [dot, List.map_cons, List.zipWith_cons_cons, List.sum_cons, avg] at this ⊢
      rw [this, list_sum_add, list_sum_mul_left]
      ring

/-- The observables as functions of the state. -/
def pairFns (n : ℕ) : List (List ℤ → ℝ) :=
  (List.range n).map (fun i s => spins s i) ++ (upperPairs n).map fun p s => spins s p.1 * spins s p.2

theorem pairFns_map (n : ℕ) (s : List ℤ) : ((pairFns n).map fun f => f s) = pairObs n (spins s) := by
  simp [pairFns, pairObs, Function.comp_def]

theorem pairFns_moments (n : ℕ) (X : List (List ℤ)) : ((pairFns n).map fun f => avg X f) = moments n X := by
  simp [pairFns, moments, Function.comp_def, spins]

theorem dot_moments (n : ℕ) (X : List (List ℤ)) (w : List ℝ) :
    dot w (moments n X) = avg X fun r => dot w (pairObs n (spins r)) := by
  rw [← pairFns_moments, avg_dot]
  simp only [pairFns_map]

/-- What the observables of the module being the moments of the sample means. -/
theorem reproduces_iff (n : ℕ) (v : List ℝ) (X : List (List ℤ)) :
    Reproduces n v X ↔ (pairFns n).map (fun f => expect (words [-1, 1] n) (pairE n v) f) = moments n X := by
  unfold Reproduces
  rw [← pairFns_moments]
  unfold pairFns
  rw [List.map_append, List.map_append, List.map_map, List.map_map, List.map_map, List.map_map]
  constructor
  · rintro ⟨h1, h2⟩
    congr 1
    · exact List.map_congr_left fun i hi => h1 i (List.mem_range.1 hi)
    · refine List.map_congr_left fun p hp => ?_
      obtain ⟨a, b⟩ := mem_upperPairs.1 (show (p.1, p.2) ∈ upperPairs n from hp)
      exact h2 _ _ a b
  · intro h
    obtain ⟨h1, h2⟩ := List.append_inj h (by simp)
    refine ⟨fun i hi => ?_, fun i j hij hj => ?_⟩
    · exact (List.map_inj_left.1 h1) i (List.mem_range.2 hi)
    · exact (List.map_inj_left.1 h2) (i, j) (mem_upperPairs.2 ⟨hij, hj⟩)

end Verif.Lemmas
