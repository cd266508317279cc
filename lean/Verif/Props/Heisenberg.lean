/-
Heisenberg model and its samplers: coniii/samplers.py calc_e, grad_e, grad_e_theta, jit_sample,
Heisenberg3DSampler.grad_E, jit_sample_nearby_vector (C61, C86, C87, C88).
-/
import Verif.Lemmas.Heisenberg
import Verif.Lemmas.EnumerateWrap
import Mathlib.Analysis.Complex.ExponentialBounds

namespace Verif.Props
open Verif Verif.Model Verif.Spec Verif.Lemmas Real

/-! ### C61 -/

/-- C61: `calc_e` is the Heisenberg energy of the unit vectors with the given angles. -/
theorem C61_energy (theta x : List ℝ) (n : ℕ) (hx : x.length = 2 * n) (ht : theta.length = n * (n - 1) / 2) :
    heisCalcE theta x = heisenbergE n (couplingAt n theta) (fun i => x.getD (2 * i) 0) fun i => x.getD (2 * i + 1) 0 := by
  rw [heisCalcE_sum theta x n (by omega) ht]
  unfold heisenbergE
  simp only [heisTerm_eq]

/-- C61: `grad_e` is the gradient of `calc_e` in the angles. (An odd number of angles is allowed: the last one is
ignored by both.) -/
theorem C61_gradient (theta x : List ℝ) (n : ℕ) (hn : x.length / 2 = n) (ht : theta.length = n * (n - 1) / 2) :
    ∃ g, heisGradE theta x = .ok g ∧ g.length = x.length ∧
      ∀ k < x.length, HasDerivAt (fun t => heisCalcE theta (x.set k t)) (g.getD k 0) (x.getD k 0) := by
  refine ⟨_, heisGradE_eq theta x n hn, ?_, fun k hk => ?_⟩
  · rw [List.length_map, (foldl_incAt _ _).1, List.length_replicate]
  · refine (hasDerivAt_heisCalcE theta x n hn ht k hk).congr_deriv ?_
    obtain ⟨h1, h2⟩ := foldl_incAt ((List.range n).flatMap fun i => (List.range n).flatMap fun j =>
      gradUpdates theta x n i j) (List.replicate x.length 0)
    have hlen : ((((List.range n).flatMap fun i => (List.range n).flatMap fun j =>
      gradUpdates theta x n i j).foldl (fun g e => incAt g e.1 e.2) (List.replicate x.length 0))).length = x.length := by
      rw [h1, List.length_replicate]
    rw [getD_map' (fun v : ℝ => -v) _ 0 0 k (by rw [hlen]; exact hk)]
    have e := h2 k (by rw [List.length_replicate]; exact hk)
    rw [sum_gradUpdates] at e
    simp only [rd] at e
    rw [e]
    have : (List.replicate x.length (0 : ℝ)).getD k 0 = 0 := by
      rw [List.getD_eq_getElem _ _ (by simpa using hk)]; simp
    rw [this, zero_add]
    congr 1
    refine Finset.sum_congr rfl fun i _ => Finset.sum_congr rfl fun j _ => ?_
    by_cases hij : i = j
    · simp [hij]
    · rw [if_pos hij, if_pos hij]
      unfold dTerm
      rw [mul_add]
      congr 1 <;> split <;> simp

/-- C61: `grad_e_theta` is the gradient of `calc_e` in the couplings. -/
theorem C61_gradient_couplings (theta x : List ℝ) (n : ℕ) (hn : x.length / 2 = n)
    (ht : theta.length = n * (n - 1) / 2) :
    (heisGradTheta theta x).length = theta.length ∧
      ∀ k < theta.length, HasDerivAt (fun t => heisCalcE (theta.set k t) x) ((heisGradTheta theta x).getD k 0)
        (theta.getD k 0) := by
  rw [heisGradTheta_eq theta x n hn ht]
  refine ⟨by rw [List.length_map, length_upperPairs, ht], fun k hk => ?_⟩
  have hE : ∀ th : List ℝ, th.length = n * (n - 1) / 2 →
      heisCalcE th x = -dot th ((upperPairs n).map fun p => heisTerm x (2 * p.1) (2 * p.2)) := fun th h => by
    rw [heisCalcE_sum th x n hn h, dot_upperPairs n th h (fun i j => heisTerm x (2 * i) (2 * j))]
  have hk' : k < (upperPairs n).length := by rw [length_upperPairs, ← ht]; exact hk
  simp only [fun t : ℝ => hE (theta.set k t) (by rw [List.length_set, ht])]
  rw [List.getD_eq_getElem _ _ (by simpa using hk'), List.getElem_map]
  refine HasDerivAt.fun_neg ?_
  have hd : (fun t : ℝ => dot (theta.set k t) ((upperPairs n).map fun p => heisTerm x (2 * p.1) (2 * p.2))) =
      fun t => dot theta ((upperPairs n).map fun p => heisTerm x (2 * p.1) (2 * p.2)) + (t - theta.getD k 0) *
        heisTerm x (2 * (upperPairs n)[k].1) (2 * (upperPairs n)[k].2) := by
    funext t
    rw [dot_eq_sum _ _ (by simp [length_upperPairs, ht]), dot_eq_sum _ _ (by simp [length_upperPairs, ht]),
      List.length_set]
    have : ∀ i ∈ Finset.range theta.length, (theta.set k t).getD i 0 * ((upperPairs n).map fun p =>
        heisTerm x (2 * p.1) (2 * p.2)).getD i 0 = theta.getD i 0 * ((upperPairs n).map fun p =>
        heisTerm x (2 * p.1) (2 * p.2)).getD i 0 + if i = k then (t - theta.getD k 0) *
        heisTerm x (2 * (upperPairs n)[k].1) (2 * (upperPairs n)[k].2) else 0 := fun i hi => by
      have := rd_set theta k i t hk
      simp only [rd] at this
      rw [this]
      by_cases h : i = k
      · subst h
        rw [if_pos rfl, if_pos rfl]
        have e : ((upperPairs n).map fun p => heisTerm x (2 * p.1) (2 * p.2)).getD i 0 =
            heisTerm x (2 * (upperPairs n)[i].1) (2 * (upperPairs n)[i].2) := by
          rw [List.getD_eq_getElem _ _ (by simpa using hk'), List.getElem_map]
        rw [e]
        ring
      · rw [if_neg (Ne.symm h), if_neg h, add_zero]
    rw [Finset.sum_congr rfl this, Finset.sum_add_distrib, Finset.sum_ite_eq' (Finset.range theta.length) k,
      if_pos (Finset.mem_range.2 hk)]
  rw [hd]
  have := (((hasDerivAt_id (theta.getD k 0)).sub_const (theta.getD k 0)).mul_const
    (heisTerm x (2 * (upperPairs n)[k].1) (2 * (upperPairs n)[k].2))).const_add
    (dot theta ((upperPairs n).map fun p => heisTerm x (2 * p.1) (2 * p.2)))
  rw [one_mul] at this
  exact this

/-- The hypotheses are met: three spins, and two spins with an extra angle. -/
example : ([1, 2, 3, 4, 5, 6] : List ℝ).length / 2 = 3 ∧ ([1, -1, 2] : List ℝ).length = 3 * (3 - 1) / 2 ∧
    ([1, 2, 3, 4, 5] : List ℝ).length / 2 = 2 ∧ ([7] : List ℝ).length = 2 * (2 - 1) / 2 := by simp

/-! ### C87 -/

theorem dot3_unitVec (a b c d : ℝ) : dot3 (unitVec a b) (unitVec c d) = sin a * sin c * cos (b - d) + cos a * cos c := by
  unfold dot3 unitVec
  rw [Finset.sum_range_succ, Finset.sum_range_succ, Finset.sum_range_succ, Finset.sum_range_zero, cos_sub]
  simp only [if_true, one_ne_zero, if_false]
  norm_num
  ring

theorem heis3dGradE_row (J X : Mat ℝ) (i : ℕ) (hi : i < X.length) :
    (heis3dGradE J X).at' i 0 = -∑ j ∈ Finset.range X.length, (if i ≠ j then J.at' i j *
      (cos (X.at' i 0) * sin (X.at' j 0) * cos (X.at' i 1 - X.at' j 1) - sin (X.at' i 0) * cos (X.at' j 0)) else 0) ∧
    (heis3dGradE J X).at' i 1 = ∑ j ∈ Finset.range X.length, (if i ≠ j then J.at' i j * sin (X.at' j 0) *
      sin (X.at' i 1 - X.at' j 1) else 0) := by
  have key : ∀ (l : List ℕ) (a b : ℝ), l.foldl (fun (g : List ℝ) (j : ℕ) =>
      if i ≠ j then
        [rd g 0 + -(J.at' i j * (cos (X.at' i 0) * sin (X.at' j 0) * cos (X.at' i 1 - X.at' j 1) -
            sin (X.at' i 0) * cos (X.at' j 0))),
          rd g 1 + J.at' i j * sin (X.at' j 0) * sin (X.at' i 1 - X.at' j 1)]
      else g) [a, b] = [a - (l.map fun j => if i ≠ j then J.at' i j *
        (cos (X.at' i 0) * sin (X.at' j 0) * cos (X.at' i 1 - X.at' j 1) - sin (X.at' i 0) * cos (X.at' j 0)) else 0).sum,
        b + (l.map fun j => if i ≠ j then J.at' i j * sin (X.at' j 0) * sin (X.at' i 1 - X.at' j 1) else 0).sum] := by
    intro l
    induction l with
    | nil => intro a b; simp
    | cons j l ih =>
      intro a b
      rw [List.foldl_cons]
      by_cases h : i = j
      · rw [if_neg (by simpa using h), ih]; simp [h]
      · rw [if_pos h, ih, List.map_cons, List.sum_cons, if_pos h, List.map_cons, List.sum_cons, if_pos h]
        simp only [rd, List.getD_cons_zero, List.getD_cons_succ]
        congr 1
        · ring
        · congr 1; ring
  change ((heis3dGradE J X).getD i []).getD 0 0 = _ ∧ ((heis3dGradE J X).getD i []).getD 1 0 = _
  unfold heis3dGradE
  rw [getD_map_range _ _ _ hi, key, sum_map_range, sum_map_range]
  simp

theorem hasDerivAt_polar (n : ℕ) (J : ℕ → ℕ → ℝ) (hJ : ∀ i j, J i j = J j i) (th ph : ℕ → ℝ) (r : ℕ) (hr : r < n) :
    HasDerivAt (fun t => heisenbergE n J (Function.update th r t) ph)
      (-∑ j ∈ Finset.range n, if r ≠ j then J r j * (cos (th r) * sin (th j) * cos (ph r - ph j) -
        sin (th r) * cos (th j)) else 0) (th r) := by
  set D : ℕ → ℕ → ℝ := fun i j => if i = r ∧ i ≠ j then J i j * (cos (th i) * sin (th j) * cos (ph i - ph j) -
    sin (th i) * cos (th j)) else 0 with hD
  have h0 : (∑ j ∈ Finset.range n, if r ≠ j then J r j * (cos (th r) * sin (th j) * cos (ph r - ph j) -
      sin (th r) * cos (th j)) else 0) = ∑ i ∈ Finset.range n, ∑ j ∈ Finset.range n, D i j := by
    rw [Finset.sum_eq_single r (fun i _ hi => Finset.sum_eq_zero fun j _ => by simp [hD, hi])
      (fun h => absurd (Finset.mem_range.2 hr) h)]
    exact Finset.sum_congr rfl fun j _ => by simp [hD]
  rw [h0, sum_sum_upper n D (by simp [hD])]
  unfold heisenbergE
  refine (HasDerivAt.fun_sum fun i _ => HasDerivAt.fun_sum fun j _ => ?_).fun_neg
  by_cases hij : i < j
  · simp only [if_pos hij, dot3_unitVec]
    by_cases h1 : i = r
    · subst h1
      have e : (fun t : ℝ => J i j * (sin (Function.update th i t i) * sin (Function.update th i t j) * cos (ph i - ph j) +
          cos (Function.update th i t i) * cos (Function.update th i t j))) = fun t => J i j *
          (sin t * (sin (th j) * cos (ph i - ph j)) + cos t * cos (th j)) := by
        funext t
        rw [Function.update_self, Function.update_of_ne hij.ne']
        ring
      rw [e]
      refine ((((hasDerivAt_sin _).mul_const _).add ((hasDerivAt_cos _).mul_const _)).const_mul _).congr_deriv ?_
      simp only [hD, hij.ne, hij.ne', ne_eq, not_false_eq_true, and_true, if_true, if_false]
      ring
    · by_cases h2 : j = r
      · subst h2
        have e : (fun t : ℝ => J i j * (sin (Function.update th j t i) * sin (Function.update th j t j) *
            cos (ph i - ph j) + cos (Function.update th j t i) * cos (Function.update th j t j))) = fun t => J i j *
            (sin t * (sin (th i) * cos (ph i - ph j)) + cos t * cos (th i)) := by
          funext t
          rw [Function.update_self, Function.update_of_ne hij.ne]
          ring
        rw [e]
        refine ((((hasDerivAt_sin _).mul_const _).add ((hasDerivAt_cos _).mul_const _)).const_mul _).congr_deriv ?_
        simp only [hD, hij.ne, hij.ne', ne_eq, not_false_eq_true, and_true, if_true, if_false]
        rw [hJ j i, ← cos_neg (ph j - ph i), neg_sub]
        ring
      · have e : (fun t : ℝ => J i j * (sin (Function.update th r t i) * sin (Function.update th r t j) *
            cos (ph i - ph j) + cos (Function.update th r t i) * cos (Function.update th r t j))) = fun _ => J i j *
            (sin (th i) * sin (th j) * cos (ph i - ph j) + cos (th i) * cos (th j)) := by
          funext t
          rw [Function.update_of_ne h1, Function.update_of_ne h2]
        rw [e]
        simp only [hD, h1, h2, false_and, if_false, add_zero]
        exact hasDerivAt_const _ _
  · simp only [if_neg hij]
    exact hasDerivAt_const _ _

theorem hasDerivAt_azimuth (n : ℕ) (J : ℕ → ℕ → ℝ) (hJ : ∀ i j, J i j = J j i) (th ph : ℕ → ℝ) (r : ℕ) (hr : r < n) :
    HasDerivAt (fun t => heisenbergE n J th (Function.update ph r t))
      (-∑ j ∈ Finset.range n, if r ≠ j then -(J r j * sin (th r) * sin (th j) * sin (ph r - ph j)) else 0) (ph r) := by
  set D : ℕ → ℕ → ℝ := fun i j => if i = r ∧ i ≠ j then -(J i j * sin (th i) * sin (th j) * sin (ph i - ph j)) else 0 with hD
  have h0 : (∑ j ∈ Finset.range n, if r ≠ j then -(J r j * sin (th r) * sin (th j) * sin (ph r - ph j)) else 0) =
      ∑ i ∈ Finset.range n, ∑ j ∈ Finset.range n, D i j := by
    rw [Finset.sum_eq_single r (fun i _ hi => Finset.sum_eq_zero fun j _ => by simp [hD, hi])
      (fun h => absurd (Finset.mem_range.2 hr) h)]
    exact Finset.sum_congr rfl fun j _ => by simp [hD]
  rw [h0, sum_sum_upper n D (by simp [hD])]
  unfold heisenbergE
  refine (HasDerivAt.fun_sum fun i _ => HasDerivAt.fun_sum fun j _ => ?_).fun_neg
  by_cases hij : i < j
  · simp only [if_pos hij, dot3_unitVec]
    by_cases h1 : i = r
    · subst h1
      have e : (fun t : ℝ => J i j * (sin (th i) * sin (th j) * cos (Function.update ph i t i - Function.update ph i t j) +
          cos (th i) * cos (th j))) = fun t => J i j * ((sin (th i) * sin (th j)) * cos (t - ph j) +
          cos (th i) * cos (th j)) := by
        funext t
        rw [Function.update_self, Function.update_of_ne hij.ne']
      rw [e]
      refine (((((hasDerivAt_id (ph i)).sub_const (ph j)).cos.const_mul _).add_const _).const_mul _).congr_deriv ?_
      simp only [hD, hij.ne, hij.ne', ne_eq, not_false_eq_true, and_true, if_true, if_false, id]
      ring
    · by_cases h2 : j = r
      · subst h2
        have e : (fun t : ℝ => J i j * (sin (th i) * sin (th j) * cos (Function.update ph j t i - Function.update ph j t j) +
            cos (th i) * cos (th j))) = fun t => J i j * ((sin (th i) * sin (th j)) * cos (t - ph i) +
            cos (th i) * cos (th j)) := by
          funext t
          rw [Function.update_self, Function.update_of_ne hij.ne, ← cos_neg (ph i - t), neg_sub]
        rw [e]
        refine (((((hasDerivAt_id (ph j)).sub_const (ph i)).cos.const_mul _).add_const _).const_mul _).congr_deriv ?_
        simp only [hD, hij.ne, hij.ne', ne_eq, not_false_eq_true, and_true, if_true, if_false, id]
        rw [hJ j i]
        ring
      · have e : (fun t : ℝ => J i j * (sin (th i) * sin (th j) * cos (Function.update ph r t i - Function.update ph r t j) +
            cos (th i) * cos (th j))) = fun _ => J i j * (sin (th i) * sin (th j) * cos (ph i - ph j) +
            cos (th i) * cos (th j)) := by
          funext t
          rw [Function.update_of_ne h1, Function.update_of_ne h2]
        rw [e]
        simp only [hD, h1, h2, false_and, if_false, add_zero]
        exact hasDerivAt_const _ _
  · simp only [if_neg hij]
    exact hasDerivAt_const _ _

/-- C87 (part): the first column of `Heisenberg3DSampler.grad_E` is the derivative of the energy in the polar angles.
The second column, times the sine of the polar angle, is the derivative in the azimuths. Missing: the second column
itself is not the derivative, see `C87_azimuth_wrong`. -/
theorem C87_grad3d_partial (n : ℕ) (J X : Mat ℝ) (hJ : ∀ i j, J.at' i j = J.at' j i) (hX : X.length = n) (r : ℕ)
    (hr : r < n) :
    HasDerivAt (fun t => heisenbergE n J.at' (Function.update (fun i => X.at' i 0) r t) fun i => X.at' i 1)
      ((heis3dGradE J X).at' r 0) (X.at' r 0) ∧
    HasDerivAt (fun t => heisenbergE n J.at' (fun i => X.at' i 0) (Function.update (fun i => X.at' i 1) r t))
      (sin (X.at' r 0) * (heis3dGradE J X).at' r 1) (X.at' r 1) := by
  obtain ⟨h1, h2⟩ := heis3dGradE_row J X r (by rw [hX]; exact hr)
  rw [h1, h2, hX]
  refine ⟨hasDerivAt_polar n J.at' hJ _ _ r hr, (hasDerivAt_azimuth n J.at' hJ _ _ r hr).congr_deriv ?_⟩
  rw [← Finset.sum_neg_distrib, Finset.mul_sum]
  refine Finset.sum_congr rfl fun j _ => ?_
  split
  · ring
  · simp

/-- C87: the second column of `grad_E` lacks a factor: for a spin at the pole the energy does not depend on the
azimuth, but `grad_E` gives 1. -/
theorem C87_azimuth_wrong : ∃ J X : Mat ℝ, (∀ i j, J.at' i j = J.at' j i) ∧
    HasDerivAt (fun t => heisenbergE 2 J.at' (fun i => X.at' i 0) (Function.update (fun i => X.at' i 1) 0 t)) 0
      (X.at' 0 1) ∧ (heis3dGradE J X).at' 0 1 = 1 := by
  have hJ : ∀ i j, Mat.at' ([[0, 1], [1, 0]] : Mat ℝ) i j = Mat.at' ([[0, 1], [1, 0]] : Mat ℝ) j i := by
    intro i j
    rcases i with _ | _ | i <;> rcases j with _ | _ | j <;> simp [Mat.at']
  refine ⟨[[0, 1], [1, 0]], [[0, π / 2], [π / 2, 0]], hJ, ?_, ?_⟩
  · have := (C87_grad3d_partial 2 [[0, 1], [1, 0]] [[0, π / 2], [π / 2, 0]] hJ rfl 0 (by decide)).2
    refine this.congr_deriv ?_
    simp [Mat.at']
  · rw [(heis3dGradE_row _ _ 0 (by simp)).2]
    simp [Mat.at', Finset.sum_range_succ]

/-! ### C88 -/

/-- C88: leapfrog integration is reversible: from the end point with the momenta reversed it leads back to the start,
whatever the gradient function. -/
theorem C88_leapfrog_reversible (grad : List ℝ → List ℝ) (hg : ∀ x, (grad x).length = x.length) (dt : ℝ) (k : ℕ)
    (x p : List ℝ) (h : p.length = x.length) (x' p' g' : List ℝ)
    (hout : leapfrog grad dt k (x, p, grad x) = (x', p', g')) :
    g' = grad x' ∧ x'.length = x.length ∧ p'.length = x.length ∧
      leapfrog grad dt k (x', p'.map (fun v => -v), grad x') = (x, p.map (fun v => -v), grad x) := by
  rw [leapfrog_eq] at hout
  injection hout with h1 h2
  injection h2 with h2 h3
  obtain ⟨l1, l2⟩ := leapStep_iterate_length grad hg dt k x p h
  have hr := leapStep_iterate_reverse grad hg dt k x p h
  subst h1 h2 h3
  refine ⟨rfl, l1, l2, ?_⟩
  rw [leapfrog_eq, hr]

/-- C88: the change of the total energy of the reversed trajectory is minus that of the trajectory. -/
theorem C88_energy_change (energy : List ℝ → ℝ) (grad : List ℝ → List ℝ) (hg : ∀ x, (grad x).length = x.length)
    (dt : ℝ) (k : ℕ) (x p : List ℝ) (h : p.length = x.length) (x' p' g' x'' p'' g'' : List ℝ)
    (hout : leapfrog grad dt k (x, p, grad x) = (x', p', g'))
    (hback : leapfrog grad dt k (x', p'.map (fun v => -v), g') = (x'', p'', g'')) :
    kinetic p'' + energy x'' - (kinetic (p'.map fun v => -v) + energy x') =
      -(kinetic p' + energy x' - (kinetic p + energy x)) := by
  obtain ⟨h1, _, _, h4⟩ := C88_leapfrog_reversible grad hg dt k x p h x' p' g' hout
  rw [h1, h4] at hback
  injection hback with e1 e2
  injection e2 with e2 e3
  rw [← e1, ← e2, kinetic_neg, kinetic_neg]
  ring

/-- C88 (part): an accepted round of `jit_sample` leaves the proposal with its energy and gradient. Missing: a rejected
round should leave the state as it was, see `C88_rejected_kept`. -/
theorem C88_accepted_partial (energy : List ℝ → ℝ) (grad : List ℝ → List ℝ) (dt : ℝ) (N : ℕ) (r : List ℝ) (u : ℝ)
    (x x' p' g' : List ℝ) (hout : leapfrog grad dt N (x, r, grad x) = (x', p', g'))
    (hu : u < exp (-(kinetic p' + energy x' - (kinetic r + energy x)))) :
    jitRound energy grad dt N r u (x, energy x, grad x) = (x', energy x', grad x') := by
  have hg : g' = grad x' := by
    rw [leapfrog_eq] at hout
    injection hout with h1 h2
    injection h2 with h2 h3
    rw [← h3, h1]
  unfold jitRound
  dsimp only
  rw [hout]
  dsimp only
  rw [if_pos (Or.inr hu), hg]

/-- C88: `x`, `xnew` and `x0` are one array in `jit_sample`, so that after a round it holds the proposal whether it was
accepted or not: the result of a round does not depend on the number drawn to decide on acceptance. -/
theorem C88_decision_ignored (energy : List ℝ → ℝ) (grad : List ℝ → List ℝ) (dt : ℝ) (N : ℕ) (r : List ℝ) (u u' : ℝ)
    (x : List ℝ) : jitSample energy grad dt N [(r, u)] x = jitSample energy grad dt N [(r, u')] x := by
  have : ∀ u, jitSample energy grad dt N [(r, u)] x = (leapfrog grad dt N (x, r, grad x)).1 := fun u => by
    unfold jitSample jitRound
    simp only [List.foldl_cons, List.foldl_nil]
    split <;> rfl
  rw [this, this]

/-- C88: a rejected proposal is kept: two aligned spins, the first turned around by the proposal, which costs energy 2
and is rejected with the number 1/2, but the array holds the proposal afterwards. -/
theorem C88_rejected_kept : ∃ (dt : ℝ) (N : ℕ) (r : List ℝ) (u : ℝ) (theta x x' p' : List ℝ) (grad : List ℝ → List ℝ),
    (∀ x, x.length = 4 → heisGradE theta x = .ok (grad x)) ∧
    leapfrog grad dt N (x, r, grad x) = (x', p', grad x') ∧ x' ≠ x ∧
    ¬ (kinetic p' + heisCalcE theta x' - (kinetic r + heisCalcE theta x) < 0 ∨
      u < exp (-(kinetic p' + heisCalcE theta x' - (kinetic r + heisCalcE theta x)))) ∧
    jitSample (heisCalcE theta) grad dt N [(r, u)] x = x' := by
  have hgrad : ∀ a, sin a = 0 → heisGradE [1] [a, 0, 0, 0] = .ok [0, 0, 0, 0] := fun a ha => by
    simp [heisGradE, pyRange2, List.range_succ, heisGradBody, subToInd, incAt, rd, ha, pyRangeZ, Except.bind, bind, pure, Except.pure]
  have hE : ∀ a, heisCalcE [1] [a, 0, 0, 0] = -cos a := fun a => by
    simp [heisCalcE, heisPairs, pyRange2, heisTerm, rd]
  set grad : List ℝ → List ℝ := fun x => ((heisGradE [1] x).toOption).getD [] with hg
  have hleap : leapfrog grad 1 1 ([0, 0, 0, 0], [π, 0, 0, 0], grad [0, 0, 0, 0]) =
      ([π, 0, 0, 0], [π, 0, 0, 0], grad [π, 0, 0, 0]) := by
    have g0 : grad [0, 0, 0, 0] = [0, 0, 0, 0] := by rw [hg]; dsimp only; rw [hgrad 0 sin_zero]; rfl
    have g1 : grad [π, 0, 0, 0] = [0, 0, 0, 0] := by rw [hg]; dsimp only; rw [hgrad π sin_pi]; rfl
    rw [g0]
    unfold leapfrog leapfrog
    simp only [hmcKick, hmcDrift, List.zipWith_cons_cons, List.zipWith_nil_right, zero_div, sub_zero, one_mul, zero_add, add_zero]
    rw [g1]
    simp
  have hlt : exp (-2 : ℝ) < 1 / 2 := by
    have h1 : (2.7 : ℝ) < exp 1 := by have := exp_one_gt_d9; linarith
    have h2 : exp (-2 : ℝ) = (exp 1)⁻¹ * (exp 1)⁻¹ := by rw [← exp_neg, ← exp_add]; norm_num
    have h3 : (exp 1)⁻¹ < 1 / 2 := by
      rw [inv_lt_comm₀ (exp_pos 1) (by norm_num)]; norm_num; linarith
    have h4 : 0 < (exp 1)⁻¹ := inv_pos.2 (exp_pos 1)
    rw [h2]; nlinarith
  refine ⟨1, 1, [π, 0, 0, 0], 1 / 2, [1], [0, 0, 0, 0], [π, 0, 0, 0], [π, 0, 0, 0], grad, fun x hx => ?_, hleap, ?_, ?_, ?_⟩
  · obtain ⟨g, h, _⟩ := C61_gradient [1] x 2 (by omega) (by simp)
    rw [hg]; dsimp only; rw [h]; rfl
  · intro h
    injection h with h
    exact pi_ne_zero h
  · rw [hE, hE, cos_pi, cos_zero]
    rintro (h | h)
    · norm_num at h
    · have e : -(kinetic [π, 0, 0, 0] + - -1 - (kinetic [π, 0, 0, 0] + -1)) = (-2 : ℝ) := by ring
      rw [e] at h
      linarith
  · unfold jitSample jitRound
    simp only [List.foldl_cons, List.foldl_nil]
    rw [hleap]
    split <;> rfl

/-- The hypotheses are met: a gradient function that keeps the length, and a trajectory. -/
example : (∀ x : List ℝ, (x.map fun v => 2 * v).length = x.length) ∧
    leapfrog (fun x => x.map fun v => 2 * v) 1 1 ([1], [3], [2]) = ([3], [-1], [6]) := by
  refine ⟨by simp, ?_⟩
  simp [leapfrog, hmcKick, hmcDrift]
  norm_num

/-! ### C86 -/

/-- C86: the angles computed in `sample_nearby_vector` are the polar angles of the given vector. -/
theorem C86_angles (a b c : ℝ) (h : a ≠ 0 ∨ b ≠ 0) : ∃ th ph, polarAngles [a, b, c] = some (th, ph) ∧
    ∀ k, ([a, b, c] : List ℝ).getD k 0 = if k < 3 then sqrt (a ^ 2 + b ^ 2 + c ^ 2) * unitVec th ph k else 0 := by
  have hr : 0 < sqrt (a * a + b * b) := by
    refine sqrt_pos.2 ?_
    rcases h with h | h
    · linarith [mul_self_pos.2 h, mul_self_nonneg b]
    · linarith [mul_self_pos.2 h, mul_self_nonneg a]
  set r := sqrt (a * a + b * b) with hrdef
  have hr2 : r ^ 2 = a * a + b * b := sq_sqrt (by linarith [mul_self_nonneg a, mul_self_nonneg b])
  have hR : sqrt (a ^ 2 + b ^ 2 + c ^ 2) = r * sqrt (1 + (c / r) ^ 2) := by
    rw [← sqrt_sq hr.le, ← sqrt_mul (sq_nonneg r), sqrt_sq hr.le]
    congr 1
    field_simp
    linarith
  have hs : 0 < sqrt (1 + (c / r) ^ 2) := sqrt_pos.2 (by positivity)
  have hct : cos (π / 2 - arctan (c / r)) = c / r / sqrt (1 + (c / r) ^ 2) := by rw [cos_pi_div_two_sub, sin_arctan]
  have hst : sin (π / 2 - arctan (c / r)) = 1 / sqrt (1 + (c / r) ^ 2) := by rw [sin_pi_div_two_sub, cos_arctan]
  have hle : -1 ≤ a / r ∧ a / r ≤ 1 := by
    have : |a / r| ≤ 1 := by
      rw [abs_div, abs_of_pos hr, div_le_one hr]
      exact abs_le_of_sq_le_sq (by nlinarith [mul_self_nonneg b]) hr.le
    exact abs_le.1 this
  have hca : cos (arccos (a / r)) = a / r := cos_arccos hle.1 hle.2
  have hsa : sin (arccos (a / r)) = |b| / r := by
    rw [sin_arccos, ← sqrt_sq (by positivity : 0 ≤ |b| / r)]
    congr 1
    rw [div_pow a, div_pow |b|, sq_abs]
    field_simp
    linarith
  have hkey : ∀ ph : ℝ, cos ph = a / r → sin ph = b / r → ∀ k, ([a, b, c] : List ℝ).getD k 0 =
      if k < 3 then sqrt (a ^ 2 + b ^ 2 + c ^ 2) * unitVec (π / 2 - arctan (c / r)) ph k else 0 := by
    intro ph h1 h2 k
    rw [hR]
    unfold unitVec
    rw [hct, hst, h1, h2]
    rcases k with _ | _ | _ | k
    · simp; field_simp
    · simp; field_simp
    · simp; field_simp
    · simp
  unfold polarAngles
  simp only [rd, List.getD_cons_zero, List.getD_cons_succ]
  rw [← hrdef, if_neg hr.ne']
  by_cases hb : b ≥ 0
  · rw [if_pos hb]
    exact ⟨_, _, rfl, hkey _ hca (by rw [hsa, abs_of_nonneg hb])⟩
  · rw [if_neg hb]
    refine ⟨_, _, rfl, hkey _ ?_ ?_⟩
    · rw [cos_two_pi_sub, hca]
    · rw [sin_two_pi_sub, hsa, abs_of_neg (not_le.1 hb)]; ring

/-- C86: a vector along the z axis has no azimuth there (it is computed as 0/0). -/
theorem C86_pole (c : ℝ) : polarAngles [0, 0, c] = none := by simp [polarAngles]

/-- The rotation keeps the length, and the height above the xy plane becomes the height along the new axis. -/
theorem rotateTo_spec (otheta ophi x y z : ℝ) :
    dot3 (fun c => (rotateTo otheta ophi [x, y, z]).getD c 0) (fun c => (rotateTo otheta ophi [x, y, z]).getD c 0) =
      x ^ 2 + y ^ 2 + z ^ 2 ∧
    dot3 (fun c => (rotateTo otheta ophi [x, y, z]).getD c 0) (unitVec otheta ophi) = z := by
  have ho := sin_sq_add_cos_sq otheta
  have hf := sin_sq_add_cos_sq ophi
  unfold dot3 rotateTo cross3 unitVec
  rw [Finset.sum_range_succ, Finset.sum_range_succ, Finset.sum_range_succ, Finset.sum_range_zero,
    Finset.sum_range_succ, Finset.sum_range_succ, Finset.sum_range_succ, Finset.sum_range_zero]
  simp [List.range_succ]
  generalize sin otheta = so at *
  generalize cos otheta = co at *
  generalize sin ophi = S at *
  generalize cos ophi = C at *
  constructor
  · linear_combination (x ^ 2 + y ^ 2 + z ^ 2 - (-S * x + C * y) ^ 2) * ho +
      ((x ^ 2 + y ^ 2 + z ^ 2) * so ^ 2 + (-S * x + C * y) ^ 2 * (1 - co) ^ 2) * hf
  · linear_combination z * ho + so ^ 2 * z * hf

/-- C86: every vector returned is a unit vector at the drawn angle from the direction given by the angles. -/
theorem C86_nearby (normals uniforms : List ℝ) (m : ℕ) (otheta ophi sigma : ℝ) (hs : sigma ≠ 0) :
    ∃ vs, nearbyVectors normals uniforms m otheta ophi sigma = .ok vs ∧ vs.length = m ∧
      ∀ i < m, dot3 (fun c => (vs.getD i []).getD c 0) (fun c => (vs.getD i []).getD c 0) = 1 ∧
        dot3 (fun c => (vs.getD i []).getD c 0) (unitVec otheta ophi) = cos (normals.getD i 0 * sigma) := by
  refine ⟨_, by unfold nearbyVectors; simp only [if_neg hs]; rw [if_neg (by simp)], by simp, fun i hi => ?_⟩
  rw [getD_map_range _ _ _ hi]
  simp only [rd]
  rw [getD_map_range _ _ _ hi, getD_map_range _ _ _ hi]
  generalize normals.getD i 0 * sigma = th
  generalize uniforms.getD i 0 * 2 * π = ph
  obtain ⟨h1, h2⟩ := rotateTo_spec otheta ophi (sin th * cos ph) (sin th * sin ph) (cos th)
  unfold aboutZ
  rw [h1, h2]
  refine ⟨?_, rfl⟩
  linear_combination (sin th ^ 2) * sin_sq_add_cos_sq ph + sin_sq_add_cos_sq th

/-- The hypotheses are met: a vector with negative second component, and a width. -/
example : ((1 : ℝ) ≠ 0 ∨ (-2 : ℝ) ≠ 0) ∧ (3 / 10 : ℝ) ≠ 0 := by norm_num

/-- C86: with `sigma = 0` one vector is the given direction itself; more than one cannot be asked for. -/
theorem C86_sigma_zero (normals uniforms : List ℝ) (otheta ophi : ℝ) :
    (∃ v, nearbyVectors normals uniforms 1 otheta ophi 0 = .ok [v] ∧ v.length = 3 ∧
      ∀ c < 3, v.getD c 0 = unitVec otheta ophi c) ∧
    ∀ m, 2 ≤ m → nearbyVectors normals uniforms m otheta ophi 0 = .error .indexError := by
  constructor
  · refine ⟨_, by simp [nearbyVectors]; rfl, by simp [rotateTo], fun c hc => ?_⟩
    unfold rotateTo aboutZ cross3 unitVec
    interval_cases c <;> simp [List.range_succ]
    · ring
    · ring
  · intro m hm
    simp [nearbyVectors]
    omega

end Verif.Props
