import Verif.Model.Heisenberg
import Verif.Spec.Heisenberg
import Verif.Lemmas.SumUpper
import Verif.Lemmas.PseudoHelpers
import Verif.Lemmas.Helpers
import Mathlib.Analysis.SpecialFunctions.Trigonometric.Deriv
import Mathlib.Analysis.Calculus.Deriv.Add
import Mathlib.Analysis.Calculus.Deriv.Mul
import Mathlib.Tactic.Linarith

namespace Verif.Lemmas
open Verif Verif.Model Verif.Spec Real

theorem pyRange2_zero (n : ℕ) : pyRange2 0 (2 * n) = (List.range n).map (2 * ·) := by
  unfold pyRange2
  have : (2 * n - 0 + 1) / 2 = n := by omega
  rw [this]
  simp

theorem heisPairs_eq (n : ℕ) : heisPairs n = (upperPairs n).map fun p => (2 * p.1, 2 * p.2) := by
  rw [← loopPairs_eq_upperPairs]
  unfold heisPairs loopPairs
  rw [pyRange2_zero, List.flatMap_map, List.map_flatMap]
  have h0 : pyRange 0 (n - 1) = List.range (n - 1) := by simp [pyRange, List.range_eq_range']
  rw [h0]
  congr 1
  funext a
  rw [List.map_map]
  unfold pyRange2 pyRange
  have : (2 * n - (2 * a + 2) + 1) / 2 = n - (a + 1) := by omega
  rw [this, List.range'_eq_map_range, List.map_map, List.map_map]
  refine List.map_congr_left fun k _ => ?_
  simp only [Function.comp]
  congr 1
  ring

theorem heisTerm_eq (x : List ℝ) (i j : ℕ) :
    heisTerm x (2 * i) (2 * j) = dot3 (unitVec (rd x (2 * i)) (rd x (2 * i + 1))) (unitVec (rd x (2 * j)) (rd x (2 * j + 1))) := by
  unfold heisTerm dot3 unitVec
  rw [Finset.sum_range_succ, Finset.sum_range_succ, Finset.sum_range_succ, Finset.sum_range_zero]
  simp only [if_true, one_ne_zero, if_false]
  norm_num
  ring

theorem heisCalcE_sum (theta x : List ℝ) (n : ℕ) (hn : x.length / 2 = n) (ht : theta.length = n * (n - 1) / 2) :
    heisCalcE theta x = -∑ i ∈ Finset.range n, ∑ j ∈ Finset.range n,
      if i < j then couplingAt n theta i j * heisTerm x (2 * i) (2 * j) else 0 := by
  unfold heisCalcE
  rw [hn, foldl_counter (fun k (p : ℕ × ℕ) => rd theta k * heisTerm x p.1 p.2), heisPairs_eq,
    ← dot_upperPairs n theta ht]
  have := sum_zipIdx_getD (upperPairs n) theta (fun p : ℕ × ℕ => heisTerm x (2 * p.1) (2 * p.2)) 0
  simp only [zero_add]
  rw [List.drop_zero] at this
  unfold dot
  rw [← this, List.zipIdx_map, List.map_map]
  rfl

/-! ### Accumulating updates -/

theorem incAt_length (g : List ℝ) (i : ℕ) (v : ℝ) : (incAt g i v).length = g.length := by simp [incAt]

theorem rd_incAt (g : List ℝ) (i k : ℕ) (v : ℝ) (hk : k < g.length) :
    rd (incAt g i v) k = rd g k + if i = k then v else 0 := by
  unfold incAt
  by_cases h : i = k
  · subst h
    rw [if_pos rfl]
    simp only [rd]
    rw [List.getD_eq_getElem _ _ (by simpa using hk), List.getElem_set_self]
  · rw [if_neg h, add_zero]
    simp only [rd]
    rw [List.getD_eq_getElem _ _ (by simpa using hk), List.getElem_set_ne h, List.getD_eq_getElem _ _ hk]

theorem foldl_incAt (u : List (ℕ × ℝ)) : ∀ g : List ℝ,
    (u.foldl (fun g e => incAt g e.1 e.2) g).length = g.length ∧
      ∀ k < g.length, rd (u.foldl (fun g e => incAt g e.1 e.2) g) k =
        rd g k + (u.map fun e => if e.1 = k then e.2 else 0).sum := by
  induction u with
  | nil => intro g; simp
  | cons e u ih =>
    intro g
    obtain ⟨h1, h2⟩ := ih (incAt g e.1 e.2)
    rw [List.foldl_cons]
    refine ⟨by rw [h1, incAt_length], fun k hk => ?_⟩
    rw [h2 k (by rw [incAt_length]; exact hk), rd_incAt _ _ _ _ hk, List.map_cons, List.sum_cons]
    ring

theorem foldlM_ok {σ α : Type} (f : σ → α → Py σ) (g : σ → α → σ) (l : List α) :
    ∀ s, (∀ s, ∀ a ∈ l, f s a = .ok (g s a)) → l.foldlM f s = .ok (l.foldl g s) := by
  induction l with
  | nil => intro s _; rfl
  | cons a l ih =>
    intro s h
    rw [List.foldlM_cons, h s a (by simp), List.foldl_cons]
    exact ih _ fun s b hb => h s b (by simp [hb])

/-- Derivative of the product of two spins with respect to the polar angle of the first. -/
noncomputable def dPolar (x : List ℝ) (i j : ℕ) : ℝ :=
  cos (rd x i) * sin (rd x j) * (cos (rd x (i + 1)) * cos (rd x (j + 1)) + sin (rd x (i + 1)) * sin (rd x (j + 1))) -
    sin (rd x i) * cos (rd x j)

/-- Derivative of the product of two spins with respect to the azimuth of the first. -/
noncomputable def dAzimuth (x : List ℝ) (i j : ℕ) : ℝ :=
  sin (rd x i) * sin (rd x j) * (-sin (rd x (i + 1)) * cos (rd x (j + 1)) + cos (rd x (i + 1)) * sin (rd x (j + 1)))

/-- The updates that the double loop makes for two sites. -/
noncomputable def gradUpdates (theta x : List ℝ) (n i j : ℕ) : List (ℕ × ℝ) :=
  if i ≠ j then [(2 * i, couplingOf n theta i j * dPolar x (2 * i) (2 * j)),
    (2 * i + 1, couplingOf n theta i j * dAzimuth x (2 * i) (2 * j))] else []

theorem heisGradBody_eq (theta x : List ℝ) (n : ℕ) (g : List ℝ) (i j : ℕ) (hi : i < n) (hj : j < n) :
    heisGradBody theta x n g (2 * i) (2 * j) =
      .ok ((gradUpdates theta x n i j).foldl (fun g e => incAt g e.1 e.2) g) := by
  unfold heisGradBody gradUpdates
  by_cases h : i = j
  · subst h; simp
  · have hne : 2 * i ≠ 2 * j := by omega
    rw [if_pos hne, if_pos h]
    have e1 : 2 * i / 2 = i := by omega
    have e2 : 2 * j / 2 = j := by omega
    rw [e1, e2]
    have hk : subToInd n (i : ℤ) (j : ℤ) = .ok (pairPos n i j : ℤ) := by
      have := subToInd_pairPos hi hj h
      by_cases hlt : i < j
      · rwa [if_pos hlt] at this
      · rw [if_neg hlt] at this
        rw [subToInd_comm]; exact this
    rw [hk]
    simp only [List.foldl_cons, List.foldl_nil, Int.toNat_natCast]
    rw [couplingOf_eq]
    rfl

theorem heisGradE_eq (theta x : List ℝ) (n : ℕ) (hn : x.length / 2 = n) :
    heisGradE theta x = .ok ((((List.range n).flatMap fun i => (List.range n).flatMap fun j =>
      gradUpdates theta x n i j).foldl (fun g e => incAt g e.1 e.2) (List.replicate x.length 0)).map fun v => -v) := by
  unfold heisGradE
  rw [hn]
  dsimp only
  rw [pyRange2_zero]
  simp only [List.foldlM_map]
  rw [foldlM_ok _ (fun g i => ((List.range n).flatMap fun j => gradUpdates theta x n i j).foldl
    (fun g e => incAt g e.1 e.2) g)]
  · dsimp only
    rw [List.foldl_flatMap]
  · intro g i hi
    rw [foldlM_ok _ (fun g j => (gradUpdates theta x n i j).foldl (fun g e => incAt g e.1 e.2) g), List.foldl_flatMap]
    intro g j hj
    exact heisGradBody_eq theta x n g i j (List.mem_range.1 hi) (List.mem_range.1 hj)

theorem sum_gradUpdates (theta x : List ℝ) (n k : ℕ) :
    (((List.range n).flatMap fun i => (List.range n).flatMap fun j => gradUpdates theta x n i j).map
      fun e => if e.1 = k then e.2 else 0).sum =
    ∑ i ∈ Finset.range n, ∑ j ∈ Finset.range n, if i ≠ j then
      ((if 2 * i = k then couplingOf n theta i j * dPolar x (2 * i) (2 * j) else 0) +
        if 2 * i + 1 = k then couplingOf n theta i j * dAzimuth x (2 * i) (2 * j) else 0) else 0 := by
  rw [List.map_flatMap, sum_flatMap, sum_map_range]
  refine Finset.sum_congr rfl fun i _ => ?_
  rw [List.map_flatMap, sum_flatMap, sum_map_range]
  refine Finset.sum_congr rfl fun j _ => ?_
  unfold gradUpdates
  split <;> simp

/-! ### The derivative of the energy -/

theorem rd_set (x : List ℝ) (a b : ℕ) (t : ℝ) (ha : a < x.length) :
    rd (x.set a t) b = if a = b then t else rd x b := by
  simp only [rd]
  by_cases h : a = b
  · subst h; rw [if_pos rfl, List.getD_eq_getElem _ _ (by simpa using ha), List.getElem_set_self]
  · rw [if_neg h, List.getD_eq_getElem?_getD, List.getD_eq_getElem?_getD, List.getElem?_set_ne h]

theorem heisTerm_comm (x : List ℝ) (i j : ℕ) : heisTerm x i j = heisTerm x j i := by
  unfold heisTerm; ring

/-- The derivative of the product of two different spins with respect to any angle. -/
noncomputable def dTerm (x : List ℝ) (k i j : ℕ) : ℝ :=
  (if 2 * i = k then dPolar x (2 * i) (2 * j) else 0) + if 2 * i + 1 = k then dAzimuth x (2 * i) (2 * j) else 0

theorem hasDerivAt_first (x : List ℝ) (k i j : ℕ) (hk : k < x.length) (hij : i ≠ j) (hki : k = 2 * i ∨ k = 2 * i + 1) :
    HasDerivAt (fun t => heisTerm (x.set k t) (2 * i) (2 * j)) (dTerm x k i j) (rd x k) := by
  rcases hki with rfl | rfl
  · have e : (fun t => heisTerm (x.set (2 * i) t) (2 * i) (2 * j)) = fun t => sin t * (sin (rd x (2 * j)) *
        (cos (rd x (2 * i + 1)) * cos (rd x (2 * j + 1)) + sin (rd x (2 * i + 1)) * sin (rd x (2 * j + 1)))) +
        cos t * cos (rd x (2 * j)) := by
      funext t
      unfold heisTerm
      rw [rd_set _ _ _ _ hk, rd_set _ _ _ _ hk, rd_set _ _ _ _ hk, rd_set _ _ _ _ hk, if_pos rfl, if_neg (by omega),
        if_neg (by omega), if_neg (by omega)]
      ring
    rw [e]
    refine (((hasDerivAt_sin _).mul_const _).add ((hasDerivAt_cos _).mul_const _)).congr_deriv ?_
    unfold dTerm dPolar
    rw [if_pos rfl, if_neg (by omega)]
    ring
  · have e : (fun t => heisTerm (x.set (2 * i + 1) t) (2 * i) (2 * j)) = fun t => cos t * (sin (rd x (2 * i)) *
        sin (rd x (2 * j)) * cos (rd x (2 * j + 1))) + sin t * (sin (rd x (2 * i)) * sin (rd x (2 * j)) *
        sin (rd x (2 * j + 1))) + cos (rd x (2 * i)) * cos (rd x (2 * j)) := by
      funext t
      unfold heisTerm
      rw [rd_set _ _ _ _ hk, rd_set _ _ _ _ hk, rd_set _ _ _ _ hk, rd_set _ _ _ _ hk, if_pos rfl, if_neg (by omega),
        if_neg (by omega), if_neg (by omega)]
      ring
    rw [e]
    refine ((((hasDerivAt_cos _).mul_const _).add ((hasDerivAt_sin _).mul_const _)).add_const _).congr_deriv ?_
    unfold dTerm dAzimuth
    rw [if_pos rfl, if_neg (by omega)]
    ring

theorem hasDerivAt_term (x : List ℝ) (k i j : ℕ) (hk : k < x.length) (hij : i ≠ j) :
    HasDerivAt (fun t => heisTerm (x.set k t) (2 * i) (2 * j)) (dTerm x k i j + dTerm x k j i) (rd x k) := by
  have hz : ∀ i j, ¬ (k = 2 * i ∨ k = 2 * i + 1) → dTerm x k i j = 0 := fun i j h => by
    unfold dTerm
    rw [if_neg (by omega), if_neg (by omega), add_zero]
  by_cases h1 : k = 2 * i ∨ k = 2 * i + 1
  · rw [hz j i (by omega), add_zero]
    exact hasDerivAt_first x k i j hk hij h1
  · by_cases h2 : k = 2 * j ∨ k = 2 * j + 1
    · rw [hz i j h1, zero_add]
      simp only [fun t => heisTerm_comm (x.set k t) (2 * i) (2 * j)]
      exact hasDerivAt_first x k j i hk (Ne.symm hij) h2
    · rw [hz i j h1, hz j i h2, add_zero]
      have : (fun t => heisTerm (x.set k t) (2 * i) (2 * j)) = fun _ => heisTerm x (2 * i) (2 * j) := by
        funext t
        unfold heisTerm
        rw [rd_set _ _ _ _ hk, rd_set _ _ _ _ hk, rd_set _ _ _ _ hk, rd_set _ _ _ _ hk, if_neg (by omega),
          if_neg (by omega), if_neg (by omega), if_neg (by omega)]
      rw [this]
      exact hasDerivAt_const _ _

theorem hasDerivAt_heisCalcE (theta x : List ℝ) (n : ℕ) (hn : x.length / 2 = n) (ht : theta.length = n * (n - 1) / 2)
    (k : ℕ) (hk : k < x.length) :
    HasDerivAt (fun t => heisCalcE theta (x.set k t))
      (-∑ i ∈ Finset.range n, ∑ j ∈ Finset.range n, if i ≠ j then couplingOf n theta i j * dTerm x k i j else 0)
      (rd x k) := by
  simp only [fun t => heisCalcE_sum theta (x.set k t) n (by simpa using hn) ht]
  have h := sum_sum_upper n (fun i j => if i ≠ j then couplingOf n theta i j * dTerm x k i j else 0) (by simp)
  rw [h]
  refine (HasDerivAt.fun_sum fun i _ => HasDerivAt.fun_sum fun j _ => ?_).neg
  by_cases hij : i < j
  · simp only [if_pos hij, if_pos hij.ne, if_pos hij.ne']
    rw [couplingOf_comm n theta j i, ← mul_add]
    have hc : couplingOf n theta i j = couplingAt n theta i j := by
      unfold couplingOf; rw [min_eq_left hij.le, max_eq_right hij.le]
    rw [hc]
    exact (hasDerivAt_term x k i j hk hij.ne).const_mul _
  · simp only [if_neg hij]
    exact hasDerivAt_const _ _

theorem foldl_setFrom {α : Type*} (f : α → ℝ) (l : List α) : ∀ (g : List ℝ) (k : ℕ), k + l.length ≤ g.length →
    (l.foldl (fun (st : List ℝ × ℕ) p => (st.1.set st.2 (f p), st.2 + 1)) (g, k)).1 =
      g.take k ++ l.map f ++ g.drop (k + l.length) := by
  induction l with
  | nil => intro g k _; simp
  | cons a l ih =>
    intro g k h
    simp only [List.length_cons] at h
    rw [List.foldl_cons, ih _ _ (by simp; omega)]
    have h1 : (g.set k (f a)).take (k + 1) = g.take k ++ [f a] := by
      rw [List.take_add_one, List.take_set_of_le (Nat.le_refl k), List.getElem?_set_self (by omega)]
      rfl
    have h2 : (g.set k (f a)).drop (k + 1 + l.length) = g.drop (k + (l.length + 1)) := by
      rw [List.drop_set_of_lt (by omega)]
      congr 1
      omega
    rw [h1, h2]
    simp

theorem heisGradTheta_eq (theta x : List ℝ) (n : ℕ) (hn : x.length / 2 = n) (ht : theta.length = n * (n - 1) / 2) :
    heisGradTheta theta x = (upperPairs n).map fun p => -heisTerm x (2 * p.1) (2 * p.2) := by
  unfold heisGradTheta
  rw [hn, foldl_setFrom (fun p : ℕ × ℕ => heisTerm x p.1 p.2), heisPairs_eq]
  · rw [List.take_zero, List.nil_append, List.drop_eq_nil_of_le (by simp [length_upperPairs, ht]), List.append_nil,
      List.map_map, List.map_map]
    rfl
  · rw [heisPairs_eq]; simp [length_upperPairs, ht]

/-! ### Leapfrog -/

/-- One leapfrog step. -/
noncomputable def leapStep (grad : List ℝ → List ℝ) (dt : ℝ) (st : List ℝ × List ℝ) : List ℝ × List ℝ :=
  let p1 := hmcKick dt (grad st.1) st.2
  let x1 := hmcDrift dt p1 st.1
  (x1, hmcKick dt (grad x1) p1)

theorem leapfrog_eq (grad : List ℝ → List ℝ) (dt : ℝ) (k : ℕ) : ∀ x p : List ℝ,
    leapfrog grad dt k (x, p, grad x) =
      (((leapStep grad dt)^[k] (x, p)).1, ((leapStep grad dt)^[k] (x, p)).2, grad ((leapStep grad dt)^[k] (x, p)).1) := by
  induction k with
  | zero => intro x p; rfl
  | succ k ih =>
    intro x p
    rw [leapfrog, Function.iterate_succ_apply]
    rw [ih]
    rfl

theorem neg_neg_list (l : List ℝ) : (l.map fun v => -v).map (fun v => -v) = l := by
  rw [List.map_map]; simp

theorem hmcKick_length (dt : ℝ) (g p : List ℝ) (h : g.length = p.length) : (hmcKick dt g p).length = p.length := by
  simp [hmcKick, h]

theorem hmcDrift_length (dt : ℝ) (p x : List ℝ) (h : p.length = x.length) : (hmcDrift dt p x).length = x.length := by
  simp [hmcDrift, h]

theorem leapStep_length (grad : List ℝ → List ℝ) (hg : ∀ x, (grad x).length = x.length) (dt : ℝ) (x p : List ℝ)
    (h : p.length = x.length) :
    (leapStep grad dt (x, p)).1.length = x.length ∧ (leapStep grad dt (x, p)).2.length = x.length := by
  unfold leapStep
  dsimp only
  have h1 : (hmcKick dt (grad x) p).length = x.length := by rw [hmcKick_length _ _ _ (by rw [hg, h]), h]
  have h2 := hmcDrift_length dt _ x h1
  exact ⟨h2, by rw [hmcKick_length _ _ _ (by rw [hg, h2, h1]), h1]⟩

theorem leapStep_reverse (grad : List ℝ → List ℝ) (hg : ∀ x, (grad x).length = x.length) (dt : ℝ) (x p : List ℝ)
    (h : p.length = x.length) :
    leapStep grad dt ((leapStep grad dt (x, p)).1, (leapStep grad dt (x, p)).2.map fun v => -v) =
      (x, p.map fun v => -v) := by
  have h1 : (hmcKick dt (grad x) p).length = x.length := by rw [hmcKick_length _ _ _ (by rw [hg, h]), h]
  have h2 := hmcDrift_length dt _ x h1
  have hgx := hg x
  unfold leapStep
  dsimp only
  have hg1 := hg (hmcDrift dt (hmcKick dt (grad x) p) x)
  rw [h2] at hg1
  have e1 : hmcKick dt (grad (hmcDrift dt (hmcKick dt (grad x) p) x))
      ((hmcKick dt (grad (hmcDrift dt (hmcKick dt (grad x) p) x)) (hmcKick dt (grad x) p)).map fun v => -v) =
      (hmcKick dt (grad x) p).map fun v => -v := by
    generalize grad (hmcDrift dt (hmcKick dt (grad x) p) x) = g1 at hg1 ⊢
    generalize hmcKick dt (grad x) p = p1 at h1 ⊢
    unfold hmcKick
    refine List.ext_getElem (by simp [h1, hg1]) fun i hi hi' => ?_
    simp only [List.getElem_zipWith, List.getElem_map]
    ring
  rw [e1]
  have e2 : hmcDrift dt ((hmcKick dt (grad x) p).map fun v => -v) (hmcDrift dt (hmcKick dt (grad x) p) x) = x := by
    generalize hmcKick dt (grad x) p = p1 at h1 ⊢
    unfold hmcDrift
    refine List.ext_getElem (by simp [h1]) fun i hi hi' => ?_
    simp only [List.getElem_zipWith, List.getElem_map]
    ring
  rw [e2]
  congr 1
  unfold hmcKick
  refine List.ext_getElem (by simp [h, hgx]) fun i hi hi' => ?_
  simp only [List.getElem_zipWith, List.getElem_map]
  ring

theorem leapStep_iterate_length (grad : List ℝ → List ℝ) (hg : ∀ x, (grad x).length = x.length) (dt : ℝ) (k : ℕ) :
    ∀ x p : List ℝ, p.length = x.length →
    ((leapStep grad dt)^[k] (x, p)).1.length = x.length ∧ ((leapStep grad dt)^[k] (x, p)).2.length = x.length := by
  induction k with
  | zero => intro x p h; exact ⟨rfl, h⟩
  | succ k ih =>
    intro x p h
    rw [Function.iterate_succ_apply']
    obtain ⟨h1, h2⟩ := ih x p h
    obtain ⟨h3, h4⟩ := leapStep_length grad hg dt ((leapStep grad dt)^[k] (x, p)).1 ((leapStep grad dt)^[k] (x, p)).2
      (by rw [h1, h2])
    exact ⟨h3.trans h1, h4.trans h1⟩

theorem leapStep_iterate_reverse (grad : List ℝ → List ℝ) (hg : ∀ x, (grad x).length = x.length) (dt : ℝ) (k : ℕ) :
    ∀ x p : List ℝ, p.length = x.length →
    (leapStep grad dt)^[k] (((leapStep grad dt)^[k] (x, p)).1, ((leapStep grad dt)^[k] (x, p)).2.map fun v => -v) =
      (x, p.map fun v => -v) := by
  induction k with
  | zero => intro x p h; rfl
  | succ k ih =>
    intro x p h
    obtain ⟨h1, h2⟩ := leapStep_iterate_length grad hg dt k x p h
    have hr := leapStep_reverse grad hg dt ((leapStep grad dt)^[k] (x, p)).1 ((leapStep grad dt)^[k] (x, p)).2
      (by rw [h1, h2])
    rw [Function.iterate_succ_apply]
    have e : (leapStep grad dt)^[k + 1] (x, p) = leapStep grad dt ((leapStep grad dt)^[k] (x, p)) :=
      Function.iterate_succ_apply' _ _ _
    rw [e]
    rw [Prod.mk.eta] at hr
    rw [hr]
    exact ih x p h

theorem kinetic_neg (p : List ℝ) : kinetic (p.map fun v => -v) = kinetic p := by
  unfold kinetic
  rw [List.map_map]
  congr 2
  refine List.map_congr_left fun a _ => ?_
  simp

end Verif.Lemmas
