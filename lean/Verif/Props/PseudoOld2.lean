/-
C99: the deprecated pseudolikelihood solvers.
-/
import Verif.Props.PseudoOld
import Verif.Lemmas.Cluster5

namespace Verif.Props
open Verif Verif.Model Verif.Spec Verif.Lemmas Finset

/-! ### pseudo_inverse_ising.py -/

/-- A matrix that is symmetric and has a given row. -/
noncomputable def rowMat (r : ℕ) (y : List ℝ) (i j : ℕ) : ℝ :=
  if i = r then y.getD j 0 else if j = r then y.getD i 0 else 0

theorem rowMat_sym (r : ℕ) (y : List ℝ) (i j : ℕ) : rowMat r y i j = rowMat r y j i := by
  unfold rowMat
  by_cases h : i = r <;> by_cases h' : j = r <;> simp [h, h']

theorem rowMat_row {n : ℕ} (r : ℕ) (y : List ℝ) (hy : y.length = n) :
    (List.range n).map (rowMat r y r) = y := by
  apply List.ext_getElem (by simp [hy])
  intro i h1 h2
  simp [rowMat, h2]

/-- All spins 1 but `r` and `j`. -/
def twoOff (n r j : ℕ) : List ℤ := ((List.replicate n 1).set r 0).set j 0

theorem twoOff_mem (n r j : ℕ) : twoOff n r j ∈ words [0, 1] n := by
  refine set_mem_words (set_mem_words (mem_words.2 ⟨by simp, ?_⟩) (by simp)) (by simp)
  intro x hx
  rw [List.eq_of_mem_replicate hx]
  simp

theorem getD_twoOff {n r j i : ℕ} (hr : r < n) (hj : j < n) (hi : i < n) :
    (twoOff n r j).getD i 0 = if i = r ∨ i = j then 0 else 1 := by
  unfold twoOff
  rw [getD_set_eq _ _ _ _ (by simpa using hj), getD_set_eq _ _ _ _ (by simpa using hr)]
  by_cases h : i = j
  · simp [h]
  · by_cases h' : i = r
    · simp [h']
    · simp [h, h', hi]

theorem sum_twoOff {n r j : ℕ} (hr : r < n) (hj : j < n) :
    (twoOff n r j).sum = if j = r then (n : ℤ) - 1 else (n : ℤ) - 2 := by
  unfold twoOff
  rw [sum_set_eq _ _ _ (by simpa using hj), sum_set_eq _ _ _ (by simpa using hr),
    getD_set_eq _ _ _ _ (by simpa using hr)]
  by_cases h : j = r
  · simp [h, hr]
  · simp [h, hr, hj]; ring

/-- The conditional probabilities given the others determine the row. -/
theorem row_of_condOn {n r : ℕ} (hr : r < n) (m : ℤ) (hm : m + 2 ≤ n ∨ n = 1 ∧ m ≤ 0) (x y : List ℝ)
    (hx : x.length = n) (hy : y.length = n)
    (h : ∀ s ∈ bigStates n m, condOn (bigStates n m) (matE n (rowMat r x)) r s =
      condOn (bigStates n m) (matE n (rowMat r y)) r s) : x = y := by
  have hloc : ∀ s ∈ bigStates n m, s.getD r 0 = 0 →
      ∑ i ∈ range n, x.getD i 0 * (if i = r then 1 else 2 * ((s.getD i 0 : ℤ) : ℝ)) =
        ∑ i ∈ range n, y.getD i 0 * (if i = r then 1 else 2 * ((s.getD i 0 : ℤ) : ℝ)) := by
    intro s hs h0
    have e := congrArg Real.log (h s hs)
    have hl := (mem_words.1 (mem_bigStates.1 hs).1).1
    rw [log_condOn hr m _ (fun i _ j _ => rowMat_sym r x i j) x hx (fun i _ => by simp [rowMat]) s hs,
      log_condOn hr m _ (fun i _ j _ => rowMat_sym r y i j) y hy (fun i _ => by simp [rowMat]) s hs] at e
    have hf : oldFilter r m (castRow s) = 1 := by
      unfold oldFilter; rw [rd_castRow, h0]; simp
    rw [hf] at e
    have p1 := Real.exp_pos (oldEnergy r x (castRow s))
    have p2 := Real.exp_pos (oldEnergy r y (castRow s))
    have e2 := Real.log_injOn_pos (show (0 : ℝ) < 1 + Real.exp (oldEnergy r x (castRow s)) by positivity)
      (show (0 : ℝ) < 1 + Real.exp (oldEnergy r y (castRow s)) by positivity) (by linarith)
    have e3 : oldEnergy r x (castRow s) = oldEnergy r y (castRow s) := Real.exp_injective (by linarith)
    rw [oldEnergy_eq x _ hx (by simp [castRow, hl]), oldEnergy_eq y _ hy (by simp [castRow, hl])] at e3
    have hsg : oldSigma r (castRow s) = -1 := by
      unfold oldSigma; rw [rd_castRow, h0]; norm_num
    rw [hsg] at e3
    have e4 : oldLocal n r (fun i => x.getD i 0) (rd (castRow s)) =
      oldLocal n r (fun i => y.getD i 0) (rd (castRow s)) := by linarith
    unfold oldLocal at e4
    simpa only [rd_castRow] using e4
  have hmem : ∀ j < n, (j = r ∨ n ≠ 1) → twoOff n r j ∈ bigStates n m := by
    intro j hj hjr
    refine mem_bigStates.2 ⟨twoOff_mem n r j, ?_⟩
    rw [sum_twoOff hr hj]
    rcases hm with hm | ⟨h1, hm⟩
    · split_ifs <;> omega
    · rcases hjr with hjr | hjr
      · rw [if_pos hjr]; omega
      · exact absurd h1 hjr
  have hz : ∀ j < n, (twoOff n r j).getD r 0 = 0 := fun j hj => by
    rw [getD_twoOff hr hj hr]; simp
  have eA := hloc _ (hmem r hr (Or.inl rfl)) (hz r hr)
  have hoff : ∀ j < n, j ≠ r → x.getD j 0 = y.getD j 0 := by
    intro j hj hjr
    have eB := hloc _ (hmem j hj (Or.inr (by omega))) (hz j hj)
    have hd : ∀ z : List ℝ, (∑ i ∈ range n, z.getD i 0 * (if i = r then 1 else
          2 * (((twoOff n r r).getD i 0 : ℤ) : ℝ))) -
        (∑ i ∈ range n, z.getD i 0 * (if i = r then 1 else 2 * (((twoOff n r j).getD i 0 : ℤ) : ℝ))) =
          2 * z.getD j 0 := by
      intro z
      rw [← Finset.sum_sub_distrib, Finset.sum_eq_single j]
      · rw [if_neg hjr, if_neg hjr, getD_twoOff hr hr hj, getD_twoOff hr hj hj]
        simp [hjr]
        ring
      · intro i hi hij
        have hi' := Finset.mem_range.1 hi
        rw [getD_twoOff hr hr hi', getD_twoOff hr hj hi']
        by_cases hir : i = r
        · simp [hir]
        · simp [hir, hij]
      · intro hn
        exact absurd (Finset.mem_range.2 hj) hn
    have h1 := hd x
    have h2 := hd y
    linarith
  have hdiag : x.getD r 0 = y.getD r 0 := by
    have hm' : r ∈ range n := Finset.mem_range.2 hr
    rw [← Finset.add_sum_erase _ _ hm', ← Finset.add_sum_erase _ _ hm'] at eA
    have e : ∀ i ∈ (range n).erase r, x.getD i 0 * (if i = r then 1 else
        2 * (((twoOff n r r).getD i 0 : ℤ) : ℝ)) = y.getD i 0 * (if i = r then 1 else
        2 * (((twoOff n r r).getD i 0 : ℤ) : ℝ)) := by
      intro i hi
      obtain ⟨h1, h2⟩ := Finset.mem_erase.1 hi
      rw [hoff i (Finset.mem_range.1 h2) h1]
    rw [Finset.sum_congr rfl e] at eA
    simpa using eA
  apply List.ext_getElem (by rw [hx, hy])
  intro i h1 h2
  have : x.getD i 0 = y.getD i 0 := by
    by_cases hir : i = r
    · rw [hir]; exact hdiag
    · exact hoff i (by omega) hir
  simpa [h1, h2] using this

theorem condOn_row_eq {n r : ℕ} (hr : r < n) (m : ℤ) (J J' : ℕ → ℕ → ℝ)
    (hsym : ∀ i < n, ∀ j < n, J i j = J j i) (hsym' : ∀ i < n, ∀ j < n, J' i j = J' j i)
    (hrow : ∀ i < n, J r i = J' r i) (s : List ℤ) (hs : s ∈ bigStates n m) :
    condOn (bigStates n m) (matE n J) r s = condOn (bigStates n m) (matE n J') r s := by
  have h1 := log_condOn hr m J hsym ((List.range n).map (J r)) (by simp)
    (fun i hi => getD_map_range n _ 0 hi) s hs
  have h2 := log_condOn hr m J' hsym' ((List.range n).map (J r)) (by simp)
    (fun i hi => by rw [getD_map_range n _ 0 hi, hrow i hi]) s hs
  refine Real.log_injOn_pos ?_ ?_ (h1.trans h2.symm)
  · exact ctxProb_pos _ _ _ s hs
  · exact ctxProb_pos _ _ _ s hs

theorem filter_castRow (samples : List (List ℤ)) (m : ℤ) [DecidablePred fun f : List ℝ => (m : ℝ) ≤ f.sum] :
    ((samples.map castRow).filter fun f => (m : ℝ) ≤ f.sum) =
      (samples.filter fun s => m ≤ s.sum).map castRow := by
  rw [List.filter_map]
  congr 1
  apply List.filter_congr
  intro s _
  refine decide_eq_decide.2 ?_
  beta_reduce
  rw [sum_castRow]
  exact Int.cast_le

/-- C99 `pseudoInverseIsing` returns the symmetric matrix `J` when the samples with at least `minSize` ones
have the frequencies of the Boltzmann distribution of `J` on those states and the optimiser finds minima, if
there are states with two spins 0 that are large enough. -/
theorem C99_pseudo_inverse (fmin) (n : ℕ) (hn : 1 ≤ n) (m : ℤ) (hm : m + 2 ≤ n ∨ n = 1 ∧ m ≤ 0)
    (J : ℕ → ℕ → ℝ) (hsym : ∀ i < n, ∀ j < n, J i j = J j i) (samples : List (List ℤ))
    (X : List (List ℤ)) (hXdef : X = samples.filter fun s => m ≤ s.sum) (hne : X ≠ [])
    (hX : ∀ s ∈ X, s ∈ words [0, 1] n)
    (hdist : ∀ s ∈ bigStates n m, (X.count s : ℝ) / X.length = boltzmann (bigStates n m) (matE n J) s)
    (hfmin : ∀ r < n, FindsMin fmin (fun Jr => negOk (conditionalLogLikelihood r (X.map castRow) Jr m)) n) :
    pseudoInverseIsing fmin (samples.map castRow) m = .ok (Mat.build n n J) := by
  have hXb : ∀ s ∈ X, s ∈ bigStates n m := fun s hs => mem_bigStates.2 ⟨hX s hs, by
    rw [hXdef] at hs
    simpa using (List.mem_filter.1 hs).2⟩
  have hXl : ∀ row ∈ X.map castRow, row.length = n := by
    intro row hrow
    obtain ⟨s, hs, rfl⟩ := List.mem_map.1 hrow
    simp [castRow, (mem_words.1 (hX s hs)).1]
  have hne' : X.map castRow ≠ [] := by simpa using hne
  have hell : ((X.map castRow).getD 0 []).length = n :=
    (oldCheck_ok (r := 0) (by omega) (X.map castRow) hne' hXl (List.replicate n 0) (by simp)).2
  have hrow : ∀ r < n, ∀ x0 f' f'',
      fmin (fun Jr => negOk (conditionalLogLikelihood r (X.map castRow) Jr m)) x0 f' f'' =
        .ok ((List.range n).map (J r)) := by
    intro r hr x0 f' f''
    obtain ⟨x, ex, hxl, hmin⟩ := hfmin r hr x0 f' f''
    rw [ex]
    congr 1
    have v1 := C98_conditional n r hr m J hsym X hne hXb
    have v2 := C98_conditional n r hr m (rowMat r x) (fun i _ j _ => rowMat_sym r x i j) X hne hXb
    rw [rowMat_row r x hxl] at v2
    have hle := hmin _ _ _ (by simp) (congrArg negOk v2) (congrArg negOk v1)
    have hg := (ctx_gibbs (bigStates n m) (nodup_bigStates n m) (fun t => t.eraseIdx r) (matE n J)
      (matE n (rowMat r x)) X hne hXb (fun s hs => by convert hdist s hs)).2
      (neg_le_neg_iff.1 hle)
    refine row_of_condOn hr m hm x _ hxl (by simp) fun s hs => ?_
    rw [condOn_eq, hg s hs, ← condOn_eq]
    exact condOn_row_eq hr m _ _ hsym (fun i _ j _ => rowMat_sym r _ i j) (fun i hi => by
      simp [rowMat, hi]) s hs
  unfold pseudoInverseIsing
  rw [filter_castRow, ← hXdef]
  simp only [hell]
  rw [if_neg hne']
  have hP : ∀ r < n, ∃ P, pairCoocArr ((X.map castRow).map fun row => row.set r 1) = .ok P := by
    intro r _
    obtain ⟨P, _, e, _⟩ := dot3_ok (n := n) (X.map castRow) hne' (fun row => row.set r 1)
      (fun row h => by simp [hXl row h]) fun _ => 0
    exact ⟨P, e⟩
  rw [mapM_ok _ (fun r => (List.range n).map (J r)) _ fun r hr => by
    obtain ⟨P, e⟩ := hP r (List.mem_range.1 hr)
    rw [e]
    exact hrow r (List.mem_range.1 hr) _ _ _]
  refine congrArg Except.ok (Mat.ext' (Mat.build_shape ..) (Mat.build_shape ..) fun i hi j hj => ?_)
  rw [Mat.at_build _ hi hj, Mat.at_build _ hi hj]
  have e : ∀ i < n, ∀ j < n, Mat.at' ((List.range n).map fun r => (List.range n).map (J r)) i j = J i j :=
    fun i hi j hj => Mat.at_build J hi hj
  rw [e i hi j hj, e j hj i hi, hsym j hj i hi]
  ring

open scoped Classical in
/-- An optimiser that finds minima where there are any. -/
noncomputable def bestMin (n : ℕ) (f : List ℝ → Py ℝ) (_ : List (Option ℝ)) (_ : List ℝ → Py (List ℝ))
    (_ : List ℝ → Py (Mat ℝ)) : Py (List ℝ) :=
  if h : ∃ x : List ℝ, x.length = n ∧ ∀ y v w, y.length = n → f x = .ok v → f y = .ok w → v ≤ w
    then .ok h.choose else .error .exception

theorem bestMin_finds (n : ℕ) (f : List ℝ → Py ℝ) (x : List ℝ) (hx : x.length = n)
    (h : ∀ y v w, y.length = n → f x = .ok v → f y = .ok w → v ≤ w) : FindsMin (bestMin n) f n := by
  intro x0 f' f''
  have hex : ∃ x : List ℝ, x.length = n ∧ ∀ y v w, y.length = n → f x = .ok v → f y = .ok w → v ≤ w :=
    ⟨x, hx, h⟩
  exact ⟨hex.choose, dif_pos hex, hex.choose_spec⟩

/-- The objectives in `C99_pseudo_inverse` have minima. -/
theorem C99_pseudo_inverse_minimum (n r : ℕ) (hr : r < n) (m : ℤ) (J : ℕ → ℕ → ℝ)
    (hsym : ∀ i < n, ∀ j < n, J i j = J j i) (X : List (List ℤ)) (hne : X ≠ [])
    (hX : ∀ s ∈ X, s ∈ bigStates n m)
    (hdist : ∀ s ∈ bigStates n m, (X.count s : ℝ) / X.length = boltzmann (bigStates n m) (matE n J) s) :
    FindsMin (bestMin n) (fun Jr => negOk (conditionalLogLikelihood r (X.map castRow) Jr m)) n := by
  refine bestMin_finds n _ ((List.range n).map (J r)) (by simp) ?_
  intro y v w hy hv hw
  beta_reduce at hv hw
  have v1 := C98_conditional n r hr m J hsym X hne hX
  have v2 := C98_conditional n r hr m (rowMat r y) (fun i _ j _ => rowMat_sym r y i j) X hne hX
  rw [rowMat_row r y hy] at v2
  rw [v1] at hv
  rw [v2] at hw
  rw [← Except.ok.inj hv, ← Except.ok.inj hw]
  exact neg_le_neg (ctx_gibbs (bigStates n m) (nodup_bigStates n m) (fun t => t.eraseIdx r) (matE n J)
      (matE n (rowMat r y)) X hne hX (fun s hs => by convert hdist s hs)).1

example : pseudoInverseIsing (bestMin 2) ([[0, 0], [0, 1], [1, 0], [1, 1]].map castRow) 0 =
    .ok (Mat.build 2 2 fun _ _ => 0) := by
  have hE : ∀ s, matE 2 (fun _ _ => 0) s = 0 := fun s => by simp [matE]
  have hb : bigStates 2 0 = [[0, 0], [0, 1], [1, 0], [1, 1]] := rfl
  have hd : ∀ s ∈ bigStates 2 0, ((([[0, 0], [0, 1], [1, 0], [1, 1]] : List (List ℤ)).count s : ℕ) : ℝ) /
      (([[0, 0], [0, 1], [1, 0], [1, 1]] : List (List ℤ)).length : ℕ) =
        boltzmann (bigStates 2 0) (matE 2 fun _ _ => 0) s := by
    intro s hs
    have hc : ([[0, 0], [0, 1], [1, 0], [1, 1]] : List (List ℤ)).count s = 1 :=
      List.count_eq_one_of_mem (by decide) (hb ▸ hs)
    rw [hc]
    unfold boltzmann partition
    simp only [hE, hb]
    norm_num
  exact C99_pseudo_inverse _ 2 (by norm_num) 0 (Or.inl (by norm_num)) (fun _ _ => 0) (fun _ _ _ _ => rfl) _ _
    (by decide) (by decide) (by decide) hd fun r hr =>
      C99_pseudo_inverse_minimum 2 r hr 0 _ (fun _ _ _ _ => rfl) _ (by decide) (by decide) hd

/-- C99 without a sample that is large enough `pseudoInverseIsing` raises. -/
theorem C99_pseudo_inverse_empty (fmin) (samples : List (List ℝ)) (m : ℤ)
    (h : ∀ f ∈ samples, f.sum < m) : pseudoInverseIsing fmin samples m = .error .indexError := by
  unfold pseudoInverseIsing
  have : (samples.filter fun f => (m : ℝ) ≤ f.sum) = [] := by
    rw [List.filter_eq_nil_iff]
    intro f hf
    simpa using h f hf
  simp only [this]
  exact if_pos trivial

/-- C99 fails if only states with at most one spin 0 are large enough: for two spins and `minSize` 1 the
objective does not determine the row, whatever the data are. -/
theorem C99_minSize_wrong (X : List (List ℤ)) (hne : X ≠ []) (hX : ∀ s ∈ X, s ∈ bigStates 2 1) (a b t : ℝ) :
    conditionalLogLikelihood 0 (X.map castRow) [a + 2 * t, b - t] 1 =
      conditionalLogLikelihood 0 (X.map castRow) [a, b] 1 := by
  have hl : ∀ row ∈ X.map castRow, row.length = 2 := by
    intro row hrow
    obtain ⟨s, hs, rfl⟩ := List.mem_map.1 hrow
    simp [castRow, (mem_words.1 (mem_bigStates.1 (hX s hs)).1).1]
  have hne' : X.map castRow ≠ [] := by simpa using hne
  unfold conditionalLogLikelihood
  rw [(oldCheck_ok (n := 2) (by norm_num) _ hne' hl [a + 2 * t, b - t] rfl).1,
    (oldCheck_ok (n := 2) (by norm_num) _ hne' hl [a, b] rfl).1]
  refine congrArg Except.ok (list_sum_congr ?_)
  intro row hrow
  obtain ⟨s, hs, rfl⟩ := List.mem_map.1 hrow
  have hs' : s ∈ ([[0, 1], [1, 0], [1, 1]] : List (List ℤ)) := hX s hs
  have hE : ∀ u v x y : ℝ, oldEnergy 0 [u, v] [x, y] = (2 * x - 1) * (u + v * (2 * y)) := by
    intro u v x y
    simp [oldEnergy, oldSigma, oldRhat, rd]
  simp only [List.mem_cons, List.not_mem_nil, or_false] at hs'
  rcases hs' with rfl | rfl | rfl
  · simp only [castRow, List.map_cons, List.map_nil, hE]
    congr 4
    push_cast; ring
  · have : oldFilter 0 1 (castRow [1, 0]) = 0 := by simp [oldFilter, castRow, rd]
    rw [this]; simp
  · simp only [castRow, List.map_cons, List.map_nil, hE]
    congr 4
    push_cast; ring

/-! ### `Pseudo._solve_ising_deprecated` -/

/-- A row of spins -1 or 1 as the numbers 0 or 1. -/
noncomputable def halfRow (s : List ℤ) : List ℝ := s.map fun x : ℤ => ((x : ℝ) + 1) / 2

theorem rd_halfRow {s : List ℤ} {i : ℕ} (hi : i < s.length) :
    rd (halfRow s) i = ((s.getD i 0 : ℤ) + 1 : ℝ) / 2 := by
  unfold rd halfRow
  rw [List.getD_eq_getElem _ _ (by simpa using hi), List.getElem_map, List.getD_eq_getElem _ _ hi]

/-- The parameters of spin `r` in the other convention. -/
noncomputable def toSpinPar (n r : ℕ) (y : List ℝ) : List ℝ :=
  -(y.getD r 0 + ((otherSites n r).map fun i => y.getD i 0).sum) / 2 ::
    (otherSites n r).map fun i => -y.getD i 0 / 2

theorem oldEnergy_half {n r : ℕ} (hr : r < n) (y : List ℝ) (hy : y.length = n) (s : List ℤ)
    (hs : s.length = n) :
    oldEnergy r y (halfRow s) = 2 * -dot (spinObs n r s) (toSpinPar n r y) := by
  rw [oldEnergy_eq y _ hy (by simp [halfRow, hs])]
  unfold spinObs toSpinPar oldLocal oldSigma
  rw [dot_cons, dot_map_map, sum_otherSites, sum_otherSites, rd_halfRow (by omega)]
  have hm : r ∈ range n := Finset.mem_range.2 hr
  rw [← Finset.add_sum_erase _ _ hm, ← Finset.add_sum_erase (range n) (fun i => if i = r then 0 else y.getD i 0) hm,
    ← Finset.add_sum_erase (range n) (fun i => if i = r then 0 else
      (spins s i : ℝ) * spins s r * (-y.getD i 0 / 2)) hm]
  have e1 : ∀ i ∈ (range n).erase r, y.getD i 0 * (if i = r then 1 else 2 * rd (halfRow s) i) =
      y.getD i 0 + y.getD i 0 * (spins s i : ℝ) := by
    intro i hi
    obtain ⟨h1, h2⟩ := Finset.mem_erase.1 hi
    rw [if_neg h1, rd_halfRow (by rw [hs]; exact Finset.mem_range.1 h2)]
    unfold spins
    ring
  have e2 : ∀ i ∈ (range n).erase r, (if i = r then 0 else y.getD i 0) = y.getD i 0 := fun i hi =>
    if_neg (Finset.mem_erase.1 hi).1
  have e3 : ∀ i ∈ (range n).erase r, (if i = r then 0 else (spins s i : ℝ) * spins s r * (-y.getD i 0 / 2)) =
      (spins s r : ℝ) * (-1 / 2) * (y.getD i 0 * (spins s i : ℝ)) := fun i hi => by
    rw [if_neg (Finset.mem_erase.1 hi).1]; ring
  rw [Finset.sum_congr rfl e1, Finset.sum_congr rfl e2, Finset.sum_congr rfl e3, Finset.sum_add_distrib,
    ← Finset.mul_sum]
  simp only [if_true]
  have e4 : ((s.getD r 0 : ℤ) : ℝ) = (spins s r : ℝ) := rfl
  rw [e4]
  ring

theorem toSpinPar_inj {n r : ℕ} (x y : List ℝ) (hx : x.length = n) (hy : y.length = n)
    (h : toSpinPar n r x = toSpinPar n r y) : x = y := by
  unfold toSpinPar at h
  rw [List.cons.injEq] at h
  obtain ⟨h1, h2⟩ := h
  have hoff : ∀ i < n, i ≠ r → x.getD i 0 = y.getD i 0 := by
    intro i hi hir
    have := List.map_inj_left.1 h2 i (mem_otherSites.2 ⟨hi, hir⟩)
    linarith
  have e : (otherSites n r).map (fun i => x.getD i 0) = (otherSites n r).map (fun i => y.getD i 0) :=
    List.map_congr_left fun i hi => hoff i (mem_otherSites.1 hi).1 (mem_otherSites.1 hi).2
  rw [e] at h1
  have hd : x.getD r 0 = y.getD r 0 := by linarith
  apply List.ext_getElem (by rw [hx, hy])
  intro i hi1 hi2
  have : x.getD i 0 = y.getD i 0 := by
    by_cases hir : i = r
    · rw [hir]; exact hd
    · exact hoff i (by omega) hir
  simpa [hi1, hi2] using this

/-- The row that the conditional likelihood has its maximum at. -/
noncomputable def oldRow (n : ℕ) (h J : List ℝ) (r : ℕ) : List ℝ :=
  (List.range n).map fun i => if i = r then -2 * h.getD r 0 + 2 * ∑ j ∈ range n, symJ n J r j
    else -2 * couplingOf n J i r

theorem symJ_eq_couplingOf (n : ℕ) (J : List ℝ) (i j : ℕ) :
    symJ n J i j = if i = j then 0 else couplingOf n J i j := rfl

theorem toSpinPar_oldRow {n r : ℕ} (hr : r < n) (h J : List ℝ) :
    toSpinPar n r (oldRow n h J r) = h.getD r 0 :: (otherSites n r).map fun i => couplingOf n J i r := by
  have hg : ∀ i < n, i ≠ r → (oldRow n h J r).getD i 0 = -2 * couplingOf n J i r := by
    intro i hi hir
    unfold oldRow
    rw [getD_map_range n _ 0 hi, if_neg hir]
  unfold toSpinPar
  congr 1
  · have e : ((otherSites n r).map fun i => (oldRow n h J r).getD i 0).sum =
        -2 * ∑ j ∈ range n, symJ n J r j := by
      rw [sum_otherSites, Finset.mul_sum]
      apply Finset.sum_congr rfl
      intro i hi
      rw [symJ_eq_couplingOf]
      by_cases hir : i = r
      · simp [hir]
      · rw [if_neg hir, if_neg (Ne.symm hir), hg i (Finset.mem_range.1 hi) hir, couplingOf_comm]
    rw [e]
    have : (oldRow n h J r).getD r 0 = -2 * h.getD r 0 + 2 * ∑ j ∈ range n, symJ n J r j := by
      unfold oldRow
      rw [getD_map_range n _ 0 hr, if_pos rfl]
    rw [this]
    ring
  · apply List.map_congr_left
    intro i hi
    rw [hg i (mem_otherSites.1 hi).1 (mem_otherSites.1 hi).2]
    ring

/-- The objective of the deprecated solver is a conditional likelihood of a pairwise model. -/
theorem deprecated_value {n r : ℕ} (hr : r < n) (X : Data) (hne : X ≠ []) (hX : ∀ s ∈ X, s ∈ words [1, -1] n)
    (y : List ℝ) (hy : y.length = n) (θ' : List ℝ) (hsel : sel θ' (spinIx n r) = toSpinPar n r y) :
    negOk (condLogLikelihood r (X.map halfRow) y) = .ok (negCondLogLik (vecE n θ') [1, -1] X r) := by
  have hXl : ∀ s ∈ X, s.length = n := fun s hs => (mem_words.1 (hX s hs)).1
  have hYl : ∀ row ∈ X.map halfRow, row.length = n := by
    intro row hrow
    obtain ⟨s, hs, rfl⟩ := List.mem_map.1 hrow
    simp [halfRow, hXl s hs]
  unfold condLogLikelihood
  rw [(oldCheck_ok hr _ (by simpa using hne) hYl y hy).1]
  simp only [negOk, neg_neg]
  rw [negCond_ising hr θ' X fun s hs => ⟨hXl s hs, by simpa using getD_mem_of_words hr (hX s hs)⟩, hsel,
    List.map_map]
  refine congrArg Except.ok (list_sum_congr ?_)
  intro s hs
  simp only [Function.comp]
  rw [oldEnergy_half hr y hy s (hXl s hs)]

theorem sel_oldRow {n r : ℕ} (hr : r < n) (h J : List ℝ) (hh : h.length = n)
    (hJ : J.length = n * (n - 1) / 2) : sel (h ++ J) (spinIx n r) = toSpinPar n r (oldRow n h J r) := by
  have h1 := getMultipliersR_sel hr (h ++ J) (by simp [hh, hJ])
  rw [getMultipliersR_eq n r hr h J hh hJ] at h1
  simp only [Except.ok.injEq, Prod.mk.injEq] at h1
  rw [toSpinPar_oldRow hr, ← h1.1]

/-- C99 the deprecated solver returns the parameters `h`, `J` when the data have the frequencies of their
Boltzmann distribution and the optimiser finds minima. -/
theorem C99_deprecated (fmin) (n : ℕ) (hn : 1 ≤ n) (h J : List ℝ) (hh : h.length = n)
    (hJ : J.length = n * (n - 1) / 2) (X : Data) (hne : X ≠ []) (hX : ∀ s ∈ X, s ∈ words [1, -1] n)
    (hdist : ∀ s ∈ words [1, -1] n, (X.count s : ℝ) / X.length =
      boltzmann (words [1, -1] n) (vecE n (h ++ J)) s)
    (hfmin : ∀ r < n, FindsMin fmin (fun Jr => negOk (condLogLikelihood r
      (X.map fun row => row.map fun x : ℤ => ((x : ℝ) + 1) / 2) Jr)) n) :
    solveIsingDeprecated fmin n X = .ok (h ++ J) := by
  obtain ⟨θ, hθdef⟩ : ∃ θ, θ = h ++ J := ⟨_, rfl⟩
  have hθ : θ.length = n + n * (n - 1) / 2 := by rw [hθdef]; simp [hh, hJ]
  have hXl : ∀ s ∈ X, s.length = n := fun s hs => (mem_words.1 (hX s hs)).1
  obtain ⟨Y, hY⟩ : ∃ Y, Y = X.map halfRow := ⟨_, rfl⟩
  have hY' : (X.map fun row => row.map fun x : ℤ => ((x : ℝ) + 1) / 2) = Y := hY.symm
  have hYl : ∀ row ∈ Y, row.length = n := by
    intro row hrow
    rw [hY] at hrow
    obtain ⟨s, hs, rfl⟩ := List.mem_map.1 hrow
    simp [halfRow, hXl s hs]
  have hYne : Y ≠ [] := by rw [hY]; simpa using hne
  rw [hY'] at hfmin
  have hval : ∀ r < n, ∀ y : List ℝ, y.length = n → ∀ θ' : List ℝ, θ'.length = n + n * (n - 1) / 2 →
      sel θ' (spinIx n r) = toSpinPar n r y →
      negOk (condLogLikelihood r Y y) = .ok (negCondLogLik (vecE n θ') [1, -1] X r) :=
    fun r hr y hy θ' _ hsel => hY ▸ deprecated_value hr X hne hX y hy θ' hsel
  have hselθ : ∀ r < n, sel θ (spinIx n r) = toSpinPar n r (oldRow n h J r) := fun r hr =>
    hθdef ▸ sel_oldRow hr h J hh hJ
  have hrow : ∀ r < n, ∀ x0 f' f'', fmin (fun Jr => negOk (condLogLikelihood r Y Jr)) x0 f' f'' =
      .ok (oldRow n h J r) := by
    intro r hr x0 f' f''
    obtain ⟨x, ex, hxl, hmin⟩ := hfmin r hr x0 f' f''
    rw [ex]
    congr 1
    obtain ⟨θ', ix', hl', hm'⟩ := C40_every_argument n r hr (toSpinPar n r x) (by
      simp [toSpinPar, length_otherSites hr]; omega)
    have hs' := getMultipliersR_sel hr θ' hl'
    rw [hm'] at hs'
    simp only [Except.ok.injEq, Prod.mk.injEq] at hs'
    have hle := hmin _ _ _ (by simp [oldRow]) (hval r hr x hxl θ' hl' hs'.1.symm)
      (hval r hr (oldRow n h J r) (by simp [oldRow]) θ hθ (hselθ r hr))
    have := (C77_conditional n r hr θ θ' hθ hl' X hne hX (hθdef ▸ hdist)).2 hle
    rw [hm', getMultipliersR_sel hr θ hθ, hselθ r hr] at this
    simp only [Except.ok.injEq, Prod.mk.injEq] at this
    exact toSpinPar_inj x _ hxl (by simp [oldRow]) this.1
  have hrows : deprecatedRows fmin n Y = .ok ((List.range n).map (oldRow n h J)) := by
    unfold deprecatedRows
    refine mapM_ok _ (oldRow n h J) _ fun r hr => ?_
    obtain ⟨P, _, e, _⟩ := dot3_ok (n := n) Y hYne (fun row => row.set r 1)
      (fun row h => by simp [hYl row h]) fun _ => 0
    dsimp only
    rw [e]
    exact hrow r (List.mem_range.1 hr) _ _ _
  have hat : ∀ i < n, ∀ j < n, Mat.at' ((List.range n).map (oldRow n h J)) i j =
      if j = i then -2 * h.getD i 0 + 2 * ∑ j ∈ range n, symJ n J i j else -2 * couplingOf n J j i := by
    intro i hi j hj
    unfold Mat.at'
    rw [getD_map_range n _ [] hi]
    exact getD_map_range n _ 0 hj
  unfold solveIsingDeprecated
  simp only [hY', hrows]
  obtain ⟨S, hS⟩ : ∃ S, S = Mat.build n n fun i j => -(1 / 2) *
    (Mat.at' ((List.range n).map (oldRow n h J)) i j + Mat.at' ((List.range n).map (oldRow n h J)) j i) :=
    ⟨_, rfl⟩
  have hSat : ∀ i < n, ∀ j < n, S.at' i j =
      if i = j then 2 * h.getD i 0 - 2 * ∑ j ∈ range n, symJ n J i j else 2 * couplingOf n J i j := by
    intro i hi j hj
    rw [hS, Mat.at_build _ hi hj, hat i hi j hj, hat j hj i hi]
    by_cases hij : i = j
    · subst hij; simp; ring
    · rw [if_neg hij, if_neg hij, if_neg (Ne.symm hij), couplingOf_comm n J j i]; ring
  rw [← hS]
  have hsq : squareformMat (Mat.build n n fun i j => if i = j then 0 else S.at' i j) =
      .ok ((upperPairs n).map fun p => 2 * couplingAt n J p.1 p.2) := by
    obtain ⟨Z, hZ⟩ : ∃ Z, Z = Mat.build n n fun i j => if i = j then 0 else S.at' i j := ⟨_, rfl⟩
    have hZs : Z.HasShape n n := hZ ▸ Mat.build_shape ..
    have hZat : ∀ i < n, ∀ j < n, Z.at' i j = if i = j then 0 else 2 * couplingOf n J i j := by
      intro i hi j hj
      rw [hZ, Mat.at_build _ hi hj, hSat i hi j hj]
      by_cases hij : i = j <;> simp [hij]
    rw [← hZ]
    unfold squareformMat
    simp only [hZs.1]
    rw [if_neg (by simpa using Mat.ncols_eq hZs (by omega))]
    rw [if_neg (by
      simp only [not_not, List.mem_range]
      intro i hi j hj
      rw [hZat i hi j hj, hZat j hj i hi, couplingOf_comm]
      simp only [eq_comm]), if_neg (by
      simp only [not_not, List.mem_range]
      intro i hi
      rw [hZat i hi i hi, if_pos rfl])]
    refine congrArg Except.ok (List.map_congr_left fun p hp => ?_)
    obtain ⟨h1, h2⟩ := mem_upperPairs.1 (show (p.1, p.2) ∈ upperPairs n from hp)
    rw [hZat p.1 (by omega) p.2 h2, if_neg (by omega)]
    unfold couplingOf
    rw [min_eq_left h1.le, max_eq_right h1.le]
  rw [hsq]
  dsimp only
  have h4 : ((upperPairs n).map fun p => 2 * couplingAt n J p.1 p.2).map (fun x => x * 2) =
      J.map fun x => 4 * x := by
    rw [List.map_map]
    have := congrArg (List.map fun x : ℝ => 4 * x) (upperPairs_map_coupling n J hJ)
    rw [List.map_map] at this
    rw [← this]
    apply List.map_congr_left
    intro p _
    simp only [Function.comp]
    unfold couplingAt
    ring
  rw [h4]
  unfold convertParamsConcat
  rw [convertParams_vec_b11 n hn _ _ (by simp) (by simp [hJ])]
  simp only [bind, Except.bind, pure, Except.pure]
  refine congrArg Except.ok ?_
  congr 1
  · apply List.ext_getElem (by simp [hh])
    intro i h1 h2
    have hi : i < n := by simpa using h1
    rw [List.getElem_map, List.getElem_range, getD_map_range n _ 0 hi, hSat i hi i hi, if_pos rfl]
    have e : ∀ j ∈ range n, symJ n (J.map fun x => 4 * x) i j = 4 * symJ n J i j := by
      intro j _
      unfold symJ
      rw [couplingAt_map n J (fun x => 4 * x) (by simp)]
      by_cases hij : i = j <;> simp [hij]
    rw [Finset.sum_congr rfl e, ← Finset.mul_sum, List.getD_eq_getElem _ _ h2]
    ring
  · rw [List.map_map]
    conv_rhs => rw [← List.map_id J]
    apply List.map_congr_left
    intro x _
    simp only [Function.comp, id]
    ring

/-- The objectives in `C99_deprecated` have minima. -/
theorem C99_deprecated_minimum (n r : ℕ) (hr : r < n) (h J : List ℝ) (hh : h.length = n)
    (hJ : J.length = n * (n - 1) / 2) (X : Data) (hne : X ≠ []) (hX : ∀ s ∈ X, s ∈ words [1, -1] n)
    (hdist : ∀ s ∈ words [1, -1] n, (X.count s : ℝ) / X.length =
      boltzmann (words [1, -1] n) (vecE n (h ++ J)) s) :
    FindsMin (bestMin n) (fun Jr => negOk (condLogLikelihood r
      (X.map fun row => row.map fun x : ℤ => ((x : ℝ) + 1) / 2) Jr)) n := by
  refine bestMin_finds n _ (oldRow n h J r) (by simp [oldRow]) ?_
  intro y v w hy hv hw
  obtain ⟨θ', ix', hl', hm'⟩ := C40_every_argument n r hr (toSpinPar n r y) (by
    simp [toSpinPar, length_otherSites hr]; omega)
  have hs' := getMultipliersR_sel hr θ' hl'
  rw [hm'] at hs'
  simp only [Except.ok.injEq, Prod.mk.injEq] at hs'
  have v1 := deprecated_value hr X hne hX (oldRow n h J r) (by simp [oldRow]) (h ++ J) (sel_oldRow hr h J hh hJ)
  have v2 := deprecated_value hr X hne hX y hy θ' hs'.1.symm
  rw [← Except.ok.inj (v1.symm.trans hv), ← Except.ok.inj (v2.symm.trans hw)]
  exact (C77_conditional n r hr (h ++ J) θ' (by simp [hh, hJ]) hl' X hne hX hdist).1

example : solveIsingDeprecated (bestMin 2) 2 [[1, 1], [1, -1], [-1, 1], [-1, -1]] = .ok [0, 0, 0] := by
  have hw : (words [1, -1] 2 : List (List ℤ)) = [[1, 1], [1, -1], [-1, 1], [-1, -1]] := rfl
  have hE : ∀ s ∈ (words [1, -1] 2 : List (List ℤ)), vecE 2 ([0, 0] ++ [0]) s = 0 := by
    intro s hs
    rw [hw] at hs
    simp only [List.mem_cons, List.not_mem_nil, or_false] at hs
    rcases hs with rfl | rfl | rfl | rfl <;>
      simp [vecE, isingVecE, isingE, Finset.sum_range_succ, couplingAt]
  have hd : ∀ s ∈ (words [1, -1] 2 : List (List ℤ)),
      ((([[1, 1], [1, -1], [-1, 1], [-1, -1]] : Data).count s : ℕ) : ℝ) /
      (([[1, 1], [1, -1], [-1, 1], [-1, -1]] : Data).length : ℕ) =
        boltzmann (words [1, -1] 2) (vecE 2 ([0, 0] ++ [0])) s := by
    intro s hs
    have hc : ([[1, 1], [1, -1], [-1, 1], [-1, -1]] : Data).count s = 1 :=
      List.count_eq_one_of_mem (by decide) (hw ▸ hs)
    rw [hc]
    unfold boltzmann partition
    rw [hE s hs, list_sum_congr (g := fun _ => Real.exp (-0)) fun t ht => by rw [hE t ht], hw]
    norm_num
  exact C99_deprecated _ 2 (by norm_num) [0, 0] [0] rfl rfl _ (by decide) (by decide) hd fun r hr =>
    C99_deprecated_minimum 2 r hr [0, 0] [0] rfl rfl _ (by decide) (by decide) hd

/-- C99 without data the deprecated solver raises. -/
theorem C99_deprecated_empty (fmin) (n : ℕ) (hn : 1 ≤ n) :
    solveIsingDeprecated fmin n [] = .error .valueError := by
  unfold solveIsingDeprecated deprecatedRows
  obtain ⟨k, rfl⟩ : ∃ k, n = k + 1 := ⟨n - 1, by omega⟩
  simp [List.range_succ_eq_map, pairCoocArr, bind, Except.bind]

end Verif.Props
