/-
Objects for models of class `Triplet`: constraints, equation module, value of the function minimised by `MPF`.
-/
import Verif.Lemmas.Orders2
import Verif.Model.TripletFit
import Verif.Lemmas.MchProg4

namespace Verif.Lemmas
open Verif Verif.Model Verif.Spec Verif.Props

theorem orderTuples_three (n : ℕ) : orderTuples n 3 = tuples n 1 ++ tuples n 2 ++ tuples n 3 := by
  simp [orderTuples, List.range_succ]

theorem triplet_means (n : ℕ) (X : Data) (hne : X ≠ []) (hX : ∀ s ∈ X, s.length = n) :
    ObsArg.means .triplet n X = .ok (orderMeans n 3 X) := by
  have hl : ¬ X.length = 0 := by simpa using hne
  unfold ObsArg.means
  dsimp only
  rw [mapM_ok (tripletObservables (K := ℝ)) (fun s => (orderTuples n 3).map (mono (spins s))) X
    fun s hs => by rw [tripletObservables_eq, hX s hs, orderTuples_three]]
  dsimp only
  rw [if_neg hl, ← length_orderTuples_three]
  congr 1
  unfold orderMeans
  refine List.ext_getElem (by simp) fun j h1 h2 => ?_
  simp only [List.length_map, List.length_range] at h1
  simp only [List.getElem_map, List.getElem_range, List.map_map]
  unfold avg
  congr 2
  refine List.map_congr_left fun s _ => ?_
  rw [Function.comp, List.getD_eq_getElem _ _ (by simpa using h1), List.getElem_map]

/-- The module with the three kinds of interactions. -/
theorem triplet_module (n : ℕ) (hn : 3 ≤ n) : ∃ e, writeEqns n true (tripletIx n) = .ok e ∧
    ∀ v : List ℝ, v.length = (orderTuples n 3).length →
      moduleP e v = .ok ((words [-1, 1] n).map (boltzmann (words [-1, 1] n) (orderE n 3 v))) ∧
      ∀ brk, moduleObservables brk e v = .ok ((orderTuples n 3).map fun t =>
        expect (words [-1, 1] n) (orderE n 3 v) fun s => mono (spins s) t) := by
  obtain ⟨e, h1, h2⟩ := module_eq n (by omega) true (allOrders n 3) (goodGroups_allOrders n 3)
    (by simp [allOrders]) (allOrders_nonempty n 3 (by omega) (by norm_num))
  rw [← tripletIx_eq n hn] at h1
  refine ⟨e, h1, fun v hv => ?_⟩
  have hv' := hv
  rw [orderTuples_eq] at hv'
  obtain ⟨P, hP, rfl⟩ := split_params _ v hv'
  have hE : (fun s : List ℤ => groupE (allOrders n 3) P (spins s)) = orderE n 3 P.flatten :=
    funext fun s => orderE_groupE n 3 P hP s
  have := h2 P hP
  rw [hE, ← orderTuples_eq] at this
  exact this

theorem triplet_energy (n : ℕ) (x : List ℝ) (hx : x.length = (orderTuples n 3).length) (s : List ℤ) (hs : s.length = n) :
    kindCalcERow .triplet x s = .ok (orderE n 3 x s) := by
  show tripletCalcERow s x = _
  unfold tripletCalcERow
  rw [tripletObservables_eq, hs, ← orderTuples_three]
  simp only [bind, Except.bind]
  unfold npDot
  rw [if_pos (by rw [List.length_map, hx])]
  simp only [pure, Except.pure]
  congr 2
  rw [dot_comm]
  rfl

end Verif.Lemmas
