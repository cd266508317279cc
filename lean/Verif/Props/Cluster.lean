/-
C46-C49, C80-C83: the adaptive cluster expansion.
-/
import Verif.Lemmas.Cluster7

namespace Verif.Props
open Verif Verif.Model Verif.Spec Verif.Lemmas

/-! ### C46 -/

/-- C46: for a list of distinct spins and a size of at least one, `subsets` lists every subset of that
size exactly once and nothing else. -/
theorem C46_subsets (l : List ℕ) (hl : l.Nodup) (k : ℕ) (hk : 1 ≤ k) :
    ∃ L, subsets l k = .ok L ∧ L.length = l.length.choose k ∧
      (∀ s ∈ L, s.Nodup ∧ s.length = k ∧ ∀ x ∈ s, x ∈ l) ∧ (L.map List.toFinset).Nodup ∧
      ∀ A : Finset ℕ, (∃ s ∈ L, s.toFinset = A) ↔ A ⊆ l.toFinset ∧ A.card = k := by
  obtain ⟨L, h1, h2, h3, h4⟩ := subsets_ok l hl k hk
  refine ⟨L, h1, ?_, h2, h3, fun A => ⟨?_, fun h => h4 A h.1 h.2⟩⟩
  · have := subsets_sum l k L h2 h3 h4 (fun _ => (1 : ℤ))
    simp only [List.map_const', List.sum_replicate, Finset.sum_const, Finset.card_powersetCard,
      List.toFinset_card_of_nodup hl, nsmul_eq_mul, mul_one] at this
    exact_mod_cast this
  · rintro ⟨s, hs, rfl⟩
    obtain ⟨q1, q2, q3⟩ := h2 s hs
    refine ⟨fun x hx => ?_, by rw [List.toFinset_card_of_nodup q1, q2]⟩
    rw [List.mem_toFinset] at hx ⊢
    exact q3 x hx

/-- C46: repeated spins raise, sizes that are too big or (except for the empty list) not positive give
nothing. -/
theorem C46_other (l : List ℕ) (k : ℤ) :
    (¬ l.Nodup → subsets l k = .error .exception) ∧
    (l.Nodup → k > l.length → subsets l k = .ok []) ∧
    (l.Nodup → l ≠ [] → k ≤ 0 → subsets l k = .ok []) := by
  refine ⟨fun h => ?_, fun h hk => ?_, fun h hne hk => ?_⟩
  · unfold subsets
    rw [if_pos]
    intro hcon
    exact h (List.dedup_eq_self.1 ((List.dedup_sublist l).eq_of_length hcon.symm))
  · unfold subsets
    rw [if_neg (by rw [List.dedup_eq_self.2 h]; simp), if_neg (by omega), if_pos hk]
  · have hlen : 0 < l.length := List.length_pos_iff.2 hne
    unfold subsets
    rw [if_neg (by rw [List.dedup_eq_self.2 h]; simp), if_neg (by omega), if_neg (by omega), if_pos hk]

/-- C46: with `sort=True` the same subsets are listed, each of them in increasing order, if the size lies
strictly between one and the number of spins. -/
theorem C46_sorted (l : List ℕ) (hl : l.Nodup) (k : ℕ) (hk : 2 ≤ k) (hkl : k < l.length) :
    ∃ L L', subsets l k = .ok L ∧ subsetsSorted l k = .ok L' ∧ L'.length = L.length ∧
      ∀ i (h : i < L.length) (h' : i < L'.length), L'[i].Pairwise (· ≤ ·) ∧ L'[i].Perm L[i] := by
  obtain ⟨L, h1, -⟩ := subsets_ok l hl k (by omega)
  refine ⟨L, L.map sortSpins, h1, ?_, by simp, fun i h h' => ?_⟩
  · unfold subsetsSorted
    rw [h1]
    simp only
    rw [if_neg (by push Not; omega)]
  · rw [List.getElem_map]
    exact ⟨sortSpins_sorted _, sortSpins_perm _⟩

/-- With `sort=True` the whole list is returned as it is. -/
theorem C46_whole_unsorted : subsetsSorted [2, 1] 2 = .ok [[2, 1]] := by decide

example : subsets [0, 1, 2, 3] 2 = .ok [[2, 3], [2, 1], [3, 1], [1, 0], [2, 0], [3, 0]] := by decide

/-! ### C47 -/

section
variable {V : Type*} [AddCommGroup V]

/-- C47: if the entropy `S` and the reference `S0` of a cluster depend only on its set of spins, there
are contributions `D` of sets of spins that add up to `S-S0` over all nonempty subsets; and any sequence
of calls of `deltaS` with common dictionaries returns these contributions, whatever clusters were
evaluated before and in whatever order their spins are listed. Missing for C47: the entropy used by the
code does depend on the order of the spins (see C48_order_matters). -/
theorem C47_telescopes_partial (S S0 : List ℕ → Py V) (G G0 : Finset ℕ → V) (U : Finset ℕ)
    (h : ∀ c : List ℕ, c.Nodup → c ≠ [] → c.toFinset ⊆ U →
      S c = .ok (G c.toFinset) ∧ S0 c = .ok (G0 c.toFinset)) :
    ∃ D : Finset ℕ → V,
      (∀ A : Finset ℕ, A.Nonempty → ∑ B ∈ A.powerset.erase ∅, D B = G A - G0 A) ∧
      ∀ cs : List (List ℕ), (∀ c ∈ cs, c.Nodup ∧ c ≠ [] ∧ c.toFinset ⊆ U) →
        ∃ d, deltaSMany S S0 cs [] = .ok (cs.map fun c => D c.toFinset, d) := by
  obtain ⟨D, hD⟩ := exists_telescopes fun A => G A - G0 A
  refine ⟨D, hD, fun cs hcs => ?_⟩
  obtain ⟨d, hd, -⟩ := deltaSMany_ok (S := S) (S0 := S0) hD U
    (fun c h1 h2 h3 => ⟨_, _, (h c h1 h2 h3).1, (h c h1 h2 h3).2, rfl⟩) cs hcs [] (dictInv_nil D)
  exact ⟨d, hd⟩

/-- C47: the contributions are determined by that. -/
theorem C47_unique {F D D' : Finset ℕ → V} (h : Telescopes F D) (h' : Telescopes F D') (A : Finset ℕ)
    (hA : A.Nonempty) : D A = D' A :=
  telescopes_unique h h' A hA

/-- C47: the choice of the reference: with both or neither `deltaS` raises; the mean-field reference is
not available (`SmeanField` is not a name of solvers.py). -/
theorem C47_reference (S Sind : List ℕ → Py V) (c : List ℕ) :
    (∀ d, deltaSRef S Sind true true c d = .error .exception) ∧
    (∀ d, deltaSRef S Sind false false c d = .error .exception) ∧
    (∀ d, deltaSRef S Sind true false c d = deltaSRun S Sind c d) ∧
    (∀ v, S c = .ok v → deltaSRef S Sind false true c [] = .error .nameError) := by
  refine ⟨fun d => rfl, fun d => rfl, fun d => rfl, fun v hv => ?_⟩
  simp [deltaSRef, deltaSRun, deltaS, hv]

end

/-- C47 fails for an entropy that depends on the order of the spins: the value of the cluster (1,0)
depends on what was evaluated before. -/
theorem C47_history_matters :
    ∃ S : List ℕ → Py ℤ, (∃ d, deltaSMany S (fun _ => .ok 0) [[1, 0]] [] = .ok ([1], d)) ∧
      ∃ d, deltaSMany S (fun _ => .ok 0) [[0, 1], [1, 0]] [] = .ok ([0, 0], d) :=
  ⟨fun c => .ok (if c = [1, 0] then 1 else 0), ⟨[([0, 1], 1), ([0], 0), ([1], 0)], by decide⟩,
    ⟨[([0, 1], 0), ([1], 0), ([0], 0)], by decide⟩⟩

example : ∃ d, deltaSMany (fun c => .ok (c.toFinset.sum (fun i => (2 : ℤ) ^ i) ^ 2)) (fun _ => .ok 0)
    [[1, 0], [0], [0, 1]] [] = .ok ([4, 1, 4], d) :=
  ⟨[([0, 1], 4), ([0], 1), ([1], 4)], by decide +kernel⟩

/-! ### C48 -/

/-- C48: for a symmetric co-occurrence matrix, spins listed in another order give the same entropy and
the same couplings; `lsq` finds zero residuals whenever there are any, and some couplings have the given
co-occurrences (C83 shows when; the matrix is then symmetric on the cluster). Missing for C48: the matrices that the code uses are not symmetric (see
C48_order_matters). -/
theorem C48_order_partial (lsq : (List ℝ → Py (List ℝ)) → List ℝ → Py (List ℝ)) (hlsq : ExactLsq lsq)
    (M : Mat ℝ) (n : ℕ) (hM : M.HasShape n n) (c c' : List ℕ) (hc : c.Nodup) (hne : c ≠ []) (hcn : ∀ i ∈ c, i < n) (hp : c.Perm c')
    (hfit : ∃ G, Fits c.toFinset (fun i j => M.at' i j) G) (ns : Option ℕ) :
    ∃ J, clusterS none lsq M false 0 ns c = .ok (setEntropy c.toFinset fun i j => J.at' i j, J) ∧
      clusterS none lsq M false 0 ns c' = clusterS none lsq M false 0 ns c ∧
      Fits c.toFinset (fun i j => M.at' i j) fun i j => J.at' i j := by
  have hset : c'.toFinset = c.toFinset := (List.toFinset_eq_of_perm _ _ hp).symm
  obtain ⟨J, h1, h2, h3⟩ := clusterS_exact hlsq hM (fun i j => M.at' i j) c hc hne hcn
    (fun _ _ _ _ _ => rfl) hfit none ns
  obtain ⟨J', h1', h2', h3'⟩ := clusterS_exact hlsq hM (fun i j => M.at' i j) c' (hp.nodup_iff.1 hc)
    (by rintro rfl; exact hne hp.eq_nil) (fun i hi => hcn i (hp.mem_iff.2 hi))
    (fun _ _ _ _ _ => rfl) (by rw [hset]; exact hfit) none ns
  rw [hset] at h1' h3'
  have he := Fits.unique h3 h3'
  have hJ : J = J' := Mat.ext' h2 h2' fun i hi j hj => congrFun (congrFun he i) j
  refine ⟨J, h1, ?_, h3⟩
  rw [h1, h1', ← he, hJ]

/-- C48, what the code does when it is given the upper triangular matrix of `cooccurrence_matrix`: for
spins in increasing order `S` returns the model that has the co-occurrences of the data. -/
theorem C48_increasing (lsq : (List ℝ → Py (List ℝ)) → List ℝ → Py (List ℝ)) (hlsq : ExactLsq lsq)
    (M : Mat ℝ) (n : ℕ) (hM : M.HasShape n n) (c : List ℕ) (hc : c.Pairwise (· < ·)) (hne : c ≠ [])
    (hcn : ∀ i ∈ c, i < n)
    (hfit : ∃ G, Fits c.toFinset (fun i j => M.at' (min i j) (max i j)) G) (ns : Option ℕ) :
    ∃ J, clusterS none lsq M false 0 ns c = .ok (setEntropy c.toFinset fun i j => J.at' i j, J) ∧
      Fits c.toFinset (fun i j => M.at' (min i j) (max i j)) fun i j => J.at' i j := by
  obtain ⟨J, h1, -, h3⟩ := clusterS_exact hlsq hM (fun i j => M.at' (min i j) (max i j)) c
    (hc.imp fun h => ne_of_lt h) hne hcn (fun a b ha hb hab => by
      rcases Nat.eq_or_lt_of_le hab with rfl | hlt
      · simp
      · have := List.pairwise_iff_getElem.1 hc a b ha hb hlt
        rw [min_eq_left this.le, max_eq_right this.le]) hfit none ns
  exact ⟨J, h1, h3⟩

open scoped Classical in
/-- A least-squares routine that raises if there is no point with zero residuals. -/
noncomputable def rootOrRaise (f : List ℝ → Py (List ℝ)) (x0 : List ℝ) : Py (List ℝ) :=
  if h : ∃ x, x.length = x0.length ∧ RootAt f x then .ok h.choose else .error .exception

theorem rootOrRaise_exact : ExactLsq rootOrRaise := by
  intro f x0 h
  exact ⟨h.choose, by rw [rootOrRaise, dif_pos h], h.choose_spec⟩

/-- C48 fails for the upper triangular co-occurrence matrices that the code uses, here that of the sample
with each of the four states of two spins once: listed as (0,1) the spins are fitted, listed as (1,0) the
zero below the diagonal is taken for the frequency of the pair and there is nothing to be found. -/
theorem C48_order_matters :
    ∃ lsq M, ExactLsq lsq ∧ aceCooc 2 [[1, 1], [1, -1], [-1, 1], [-1, -1]] = some M ∧
      (∃ r, clusterS none lsq M false 0 none [0, 1] = .ok r) ∧
      clusterS none lsq M false 0 none [1, 0] = .error .exception := by
  obtain ⟨M, hM, hs, hv⟩ := aceCooc_ok 2 [[1, 1], [1, -1], [-1, 1], [-1, -1]] (by simp) (by simp)
  refine ⟨rootOrRaise, M, rootOrRaise_exact, hM, ?_, ?_⟩
  · have hfit := sample_fits [[1, 1], [1, -1], [-1, 1], [-1, -1]] {0, 1}
      (by decide) (by decide)
    obtain ⟨J, h1, -⟩ := clusterS_exact rootOrRaise_exact hs (fun i j => avg [[1, 1], [1, -1], [-1, 1], [-1, -1]]
      fun r => ((r.getD i 0 : ℤ) + 1 : ℝ) / 2 * (((r.getD j 0 : ℤ) + 1) / 2)) [0, 1] (by decide) (by simp)
      (by decide) (fun a b ha hb hab => by
        rw [hv _ (by simp at ha; interval_cases a <;> simp) _ (by simp at hb; interval_cases b <;> simp),
          if_pos (by
            simp at ha hb
            interval_cases a <;> interval_cases b <;> simp_all)])
      (by simpa using hfit) none none
    exact ⟨_, h1⟩
  · obtain ⟨R, hR, hRs, hRv⟩ := C64_cluster M 2 hs [1, 0] (by decide)
    have h01 : R.at' 0 1 = 0 := by
      rw [hRv 0 1 (by simp) (by simp)]
      simpa using hv 1 (by simp) 0 (by simp)
    obtain ⟨x0, hx0, hx0l, -⟩ := C62_position (jinit R) 2 (by
      unfold jinit diagMat
      rw [diagonalK_eq hRs]
      simp only [List.length_map, List.length_range, Nat.sub_zero, Nat.add_zero]
      exact Mat.build_shape _ _ _) (by omega)
    have hno : ¬ ∃ x, x.length = x0.length ∧ RootAt (deltaCooc R 0 0) x := by
      rintro ⟨x, hx, r, hr, hz⟩
      obtain ⟨U, r', -, hr', -, hent⟩ := C78_residual R 2 hRs (by omega) x (by rw [hx, hx0l])
      rw [hr, Except.ok.injEq] at hr'
      subst hr'
      obtain ⟨p, -, hp⟩ := hent 0 1 (by omega) (by omega)
      have h0 := hz _ (List.mem_of_getElem? hp)
      rw [h01, sub_zero] at h0
      have hwords : words [(0 : ℤ), 1] 2 = [[0, 0], [0, 1], [1, 0], [1, 1]] := by decide
      have hpos := boltzmann_pos (words [(0 : ℤ), 1] 2) (fun s => quadE 2 (fun i j => U.at' i j) (spins s))
        (by rw [hwords]; simp) [1, 1]
      rw [expect] at h0
      nth_rewrite 2 [hwords] at h0
      simp [spins] at h0
      linarith
    have hfit : clusterFit none rootOrRaise M false 0 none [1, 0] = .error .exception := by
      unfold clusterFit
      simp only [hR, Bool.false_eq_true, if_false]
      unfold findJmatrix
      simp only [if_true, Bool.false_eq_true, if_false, hx0]
      rw [rootOrRaise, dif_neg hno]
    rw [clusterS, hfit]

/-! ### C49 -/

/-- C49 fails in the code as it stands: the name `log` is neither defined nor imported in solvers.py, so
clusters of one and two spins raise `NameError` with `useAnalyticResults=True`. -/
theorem C49_undefined_log (lsq : (List ℝ → Py (List ℝ)) → List ℝ → Py (List ℝ)) (M : Mat ℝ) (n : ℕ)
    (hM : M.HasShape n n) (lam : ℝ) (ns : Option ℕ) :
    (∀ i < n, clusterS none lsq M true lam ns [i] = .error .nameError) ∧
    ∀ i < n, ∀ j < n, clusterS none lsq M true lam ns [i, j] = .error .nameError := by
  refine ⟨fun i hi => ?_, fun i hi j hj => ?_⟩
  · simp [clusterS, clusterFit, getCell_ok hM hi hi]
  · have h1 : min i j < n := by omega
    have h2 : max i j < n := by omega
    simp only [clusterS, clusterFit, getCell_ok hM h1 h1, getCell_ok hM h2 h2, getCell_ok hM h1 h2, if_true]

/-- C49: if `log` were the natural logarithm, the analytic result for one spin would be exact. Missing for
C49: `log` is undefined (C49_undefined_log). -/
theorem C49_one_partial (lsq : (List ℝ → Py (List ℝ)) → List ℝ → Py (List ℝ)) (M : Mat ℝ) (n : ℕ)
    (hM : M.HasShape n n) (lam : ℝ) (ns : Option ℕ) (i : ℕ) (hi : i < n)
    (h0 : 0 < M.at' i i) (h1 : M.at' i i < 1) :
    ∃ J, clusterS (some Real.log) lsq M true lam ns [i] =
        .ok (setEntropy {i} fun i j => J.at' i j, J) ∧
      Fits {i} (fun _ _ => M.at' i i) fun i j => J.at' i j := by
  have hfit : clusterFit (some Real.log) lsq M true lam ns [i] = .ok (analyticOne Real.log (M.at' i i)) := by
    simp [clusterFit, getCell_ok hM hi hi]
  obtain ⟨J, e1, -, e3⟩ := clusterS_of_fit (lsq := lsq) hM (fun _ _ => M.at' i i) (fun _ _ => rfl) [i]
    (by simp) (by simp) (by simpa using hi) (some Real.log) true lam ns _ hfit
    (by constructor <;> simp [analyticOne])
    (fun a ha b hb => by simp at ha hb; subst ha; subst hb; rfl)
    (fun a b ha hb _ => by
      simp only [List.length_cons, List.length_nil, zero_add, Nat.lt_one_iff] at ha hb
      subst ha; subst hb
      have := expect_independent 1 (fun _ => M.at' i i) (fun _ _ => ⟨h0, h1⟩) 0 0 (by simp) (by simp)
      rw [if_pos rfl] at this
      show expect (words [(0 : ℤ), 1] 1) (fun s => quadE 1 (fun i j => _) (spins s)) _ = M.at' i i
      refine Eq.trans (expect_congr _ _ _ _ _ (fun s _ => quadE_congr 1 _ _ _ _ (fun a ha b hb => ?_)
        fun _ _ => rfl) fun _ _ => rfl) this
      obtain rfl : a = 0 := by omega
      obtain rfl : b = 0 := by omega
      simp [analyticOne, Mat.at', logitField])
  exact ⟨J, by simpa using e1, by simpa using e3⟩

/-- C49: if `log` were the natural logarithm, the analytic result for two spins listed in increasing order
would be exact, for all frequencies with which the four states have positive probabilities. -/
theorem C49_two_partial (lsq : (List ℝ → Py (List ℝ)) → List ℝ → Py (List ℝ)) (M : Mat ℝ) (n : ℕ)
    (hM : M.HasShape n n) (lam : ℝ) (ns : Option ℕ) (i j : ℕ) (hij : i < j) (hj : j < n)
    (h1 : 0 < M.at' i j) (h2 : 0 < M.at' i i - M.at' i j) (h3 : 0 < M.at' j j - M.at' i j)
    (h4 : 0 < 1 - M.at' i i - M.at' j j + M.at' i j) :
    ∃ J, clusterS (some Real.log) lsq M true lam ns [i, j] =
        .ok (setEntropy {i, j} fun i j => J.at' i j, J) ∧
      Fits {i, j} (fun a b => M.at' (min a b) (max a b)) fun i j => J.at' i j := by
  have hi : i < n := by omega
  have hfit : clusterFit (some Real.log) lsq M true lam ns [i, j] =
      .ok (analyticTwo Real.log (M.at' i i) (M.at' j j) (M.at' i j)) := by
    simp [clusterFit, min_eq_left hij.le, max_eq_right hij.le, getCell_ok hM hi hi, getCell_ok hM hj hj,
      getCell_ok hM hi hj]
  obtain ⟨J, e1, -, e3⟩ := clusterS_of_fit (lsq := lsq) hM (fun a b => M.at' (min a b) (max a b))
    (fun a b => by rw [min_comm, max_comm]) [i, j]
    (by simp [hij.ne]) (by simp) (by simp [hi, hj]) (some Real.log) true lam ns _ hfit
    (analyticTwo_shape _ _ _ _)
    (fun a ha b hb => by
      simp only [List.length_cons, List.length_nil] at ha hb
      interval_cases a <;> interval_cases b <;> rfl)
    (fun a b ha hb hab => by
      show expect (words [(0 : ℤ), 1] 2) _ _ = _
      simp only [List.length_cons, List.length_nil] at ha hb
      rw [show (fun s : List ℤ => quadE [i, j].length (fun a b =>
        (analyticTwo Real.log (M.at' i i) (M.at' j j) (M.at' i j)).at' a b) (spins s)) = fun s => quadE 2
          (fun a b => (analyticTwo Real.log (M.at' i i) (M.at' j j) (M.at' i j)).at' a b) (spins s) from rfl,
        analyticTwo_expect _ _ _ h1 h2 h3 h4 a b (by omega) (by omega) hab]
      interval_cases a <;> interval_cases b <;> simp_all [hij.le])
  exact ⟨J, by simpa using e1, by simpa using e3⟩

/-- C49: listed in decreasing order the two spins would exchange their frequencies, so the result would be
wrong unless these are equal. -/
theorem C49_two_decreasing (lsq : (List ℝ → Py (List ℝ)) → List ℝ → Py (List ℝ)) (M : Mat ℝ) (n : ℕ)
    (hM : M.HasShape n n) (lam : ℝ) (ns : Option ℕ) (i j : ℕ) (hij : i < j) (hj : j < n)
    (h1 : 0 < M.at' i j) (h2 : 0 < M.at' i i - M.at' i j) (h3 : 0 < M.at' j j - M.at' i j)
    (h4 : 0 < 1 - M.at' i i - M.at' j j + M.at' i j) :
    ∃ J e, clusterS (some Real.log) lsq M true lam ns [j, i] = .ok (e, J) ∧
      setMoment {i, j} (fun i j => J.at' i j) i i = M.at' j j ∧
      setMoment {i, j} (fun i j => J.at' i j) j j = M.at' i i := by
  have hi : i < n := by omega
  have hfit : clusterFit (some Real.log) lsq M true lam ns [j, i] =
      .ok (analyticTwo Real.log (M.at' i i) (M.at' j j) (M.at' i j)) := by
    simp [clusterFit, min_eq_right hij.le, max_eq_left hij.le, getCell_ok hM hi hi, getCell_ok hM hj hj,
      getCell_ok hM hi hj]
  obtain ⟨J, e1, -, e3⟩ := clusterS_of_fit (lsq := lsq) hM
    (fun a b => if a = b then (if a = i then M.at' j j else M.at' i i) else M.at' i j)
    (fun a b => by
      by_cases h : a = b
      · subst h; rfl
      · rw [if_neg h, if_neg (fun h' => h h'.symm)]) [j, i]
    (by simp [hij.ne']) (by simp) (by simp [hi, hj]) (some Real.log) true lam ns _ hfit
    (analyticTwo_shape _ _ _ _)
    (fun a ha b hb => by
      simp only [List.length_cons, List.length_nil] at ha hb
      interval_cases a <;> interval_cases b <;> rfl)
    (fun a b ha hb hab => by
      show expect (words [(0 : ℤ), 1] 2) _ _ = _
      simp only [List.length_cons, List.length_nil] at ha hb
      rw [show (fun s : List ℤ => quadE [j, i].length (fun a b =>
        (analyticTwo Real.log (M.at' i i) (M.at' j j) (M.at' i j)).at' a b) (spins s)) = fun s => quadE 2
          (fun a b => (analyticTwo Real.log (M.at' i i) (M.at' j j) (M.at' i j)).at' a b) (spins s) from rfl,
        analyticTwo_expect _ _ _ h1 h2 h3 h4 a b (by omega) (by omega) hab]
      interval_cases a <;> interval_cases b <;> simp_all [hij.ne'])
  have hset : [j, i].toFinset = {i, j} := by ext x; simp [or_comm]
  rw [hset] at e3
  refine ⟨J, _, e1, ?_, ?_⟩
  · rw [e3.moments i (by simp) i (by simp)]; simp
  · rw [e3.moments j (by simp) j (by simp)]; simp [hij.ne']

/-- Non-vacuity of C49. -/
example : ∃ M : Mat ℝ, M.HasShape 2 2 ∧ 0 < M.at' 0 1 ∧ 0 < M.at' 0 0 - M.at' 0 1 ∧
    0 < M.at' 1 1 - M.at' 0 1 ∧ 0 < 1 - M.at' 0 0 - M.at' 1 1 + M.at' 0 1 ∧ M.at' 0 0 ≠ M.at' 1 1 := by
  refine ⟨[[1/2, 1/8], [0, 1/4]], by constructor <;> simp, ?_⟩
  norm_num [Mat.at']

/-! ### C80 -/

/-- C80: `Sindependent` returns the entropy of independent spins with the given frequencies, and the
couplings of that model (zero outside the cluster); the order of the spins does not matter, and the pair
frequencies are not used. -/
theorem C80_independent (M : Mat ℝ) (n : ℕ) (hM : M.HasShape n n) (c : List ℕ) (hc : c.Nodup)
    (hne : c ≠ []) (hcn : ∀ i ∈ c, i < n) (hf : ∀ i ∈ c, 0 < M.at' i i ∧ M.at' i i < 1) :
    ∃ J, sIndependent M c = .ok (setEntropy c.toFinset fun i j => J.at' i j, J) ∧ J.HasShape n n ∧
      Fits c.toFinset (fun i j => if i = j then M.at' i i else M.at' i i * M.at' j j)
        (fun i j => J.at' i j) ∧
      ∀ c' : List ℕ, c.Perm c' → sIndependent M c' = sIndependent M c := by
  obtain ⟨J, h1, h2, h3⟩ := sIndependent_ok hM c hc hne hcn hf
  refine ⟨J, h1, h2, h3, fun c' hp => ?_⟩
  have hset : c'.toFinset = c.toFinset := (List.toFinset_eq_of_perm _ _ hp).symm
  obtain ⟨J', h1', h2', h3'⟩ := sIndependent_ok hM c' (hp.nodup_iff.1 hc)
    (by rintro rfl; exact hne hp.eq_nil) (fun i hi => hcn i (hp.mem_iff.2 hi))
    fun i hi => hf i (hp.mem_iff.2 hi)
  rw [hset] at h1' h3'
  have he := Fits.unique h3 h3'
  have hJ : J = J' := Mat.ext' h2 h2' fun i hi j hj => congrFun (congrFun he i) j
  rw [h1, h1', ← he, hJ]

/-- C80: the entropy in closed form. -/
theorem C80_entropy (M : Mat ℝ) (n : ℕ) (hM : M.HasShape n n) (c : List ℕ) (hc : c.Nodup)
    (hne : c ≠ []) (hcn : ∀ i ∈ c, i < n) (hf : ∀ i ∈ c, 0 < M.at' i i ∧ M.at' i i < 1) :
    ∃ J, sIndependent M c = .ok (∑ i ∈ c.toFinset,
      (-(M.at' i i) * Real.log (M.at' i i) - (1 - M.at' i i) * Real.log (1 - M.at' i i)), J) := by
  obtain ⟨J, h1, h2, h3⟩ := sIndependent_ok hM c hc hne hcn hf
  refine ⟨J, ?_⟩
  have hlen : 1 ≤ c.length := List.length_pos_iff.2 hne
  obtain ⟨R, hR, hRs, hRv⟩ := C64_cluster M n hM c hcn
  obtain ⟨T, hT, hTs, -, hTv⟩ := C64_symmetrize R c.length hRs hlen
  rw [h1]
  unfold sIndependent at h1
  simp only [hR, hT] at h1
  split at h1
  · cases h1
  rename_i Jf _
  rw [Except.ok.injEq, Prod.mk.injEq] at h1
  rw [← h1.1, diagonalK_eq hTs, List.map_map, List.sum_toFinset _ hc]
  congr 3
  apply List.ext_getElem
  · simp
  · intro k hk hk'
    have hkc : k < c.length := by simpa using hk'
    simp only [List.getElem_map, List.getElem_range, Function.comp, Nat.add_zero]
    rw [hTv k hkc k hkc (le_refl k), hRv k k hkc hkc]

/-! ### C81 -/

section
variable {V : Type*} [AddCommGroup V]

/-- C81: `solve` for at least two spins when entropy and reference depend only on the set of spins: the
lists of clusters are, size by size, exactly the sets selected by the rule (all single spins; then unions
of two selected clusters that are one spin larger and whose contribution exceeds the threshold), each
once and in increasing order, and the value is the reference of the whole cluster plus the contributions
of all selected clusters. In particular the loop ends. -/
theorem C81_selection (S S0 : List ℕ → Py V) (G G0 : Finset ℕ → V) (keep : V → Bool) (c : List ℕ)
    (hc : c.Nodup) (hc2 : 2 ≤ c.length)
    (h : ∀ g : List ℕ, g.Nodup → g ≠ [] → g.toFinset ⊆ c.toFinset →
      S g = .ok (G g.toFinset) ∧ S0 g = .ok (G0 g.toFinset)) :
    ∃ D : Finset ℕ → V,
      (∀ A : Finset ℕ, A.Nonempty → ∑ B ∈ A.powerset.erase ∅, D B = G A - G0 A) ∧
      ∃ levels d, aceSolve S S0 keep true false c [] =
          .ok (G0 c.toFinset + (levels.flatten.map fun g => D g.toFinset).sum, levels, d) ∧
        (∀ g ∈ levels.flatten, g.Nodup ∧ g.Pairwise (· ≤ ·)) ∧
        (levels.flatten.map List.toFinset).Nodup ∧
        (∀ i (h : i < levels.length), ∀ A, (∃ g ∈ levels[i], g.toFinset = A) ↔
          Selected (fun A => keep (D A) = true) c.toFinset (i + 1) A) ∧
        ∀ A, (∃ g ∈ levels.flatten, g.toFinset = A) ↔
          ∃ k, Selected (fun A => keep (D A) = true) c.toFinset k A := by
  obtain ⟨D, hD⟩ := exists_telescopes fun A => G A - G0 A
  have hne : c ≠ [] := by rintro rfl; simp at hc2
  obtain ⟨levels, d, e, -, -, f1, f2, f3, f4⟩ := aceSolve_ok (S := S) (S0 := S0) hD keep c hc hc2 _
    (h c hc hne subset_rfl).2 (fun _ _ => True) trivial
    (fun k d _ _ _ g g1 _ g3 g4 _ => evaluable_all d c.toFinset
      (fun c h1 h2 h3 => ⟨_, _, (h c h1 h2 h3).1, (h c h1 h2 h3).2, rfl⟩) g g1
      (by rintro rfl; simp at g3) g4)
    (fun _ _ _ _ _ _ _ => trivial)
  exact ⟨D, hD, levels, d, e, fun g hg => ⟨(f1 g hg).1, (f1 g hg).2.2.2⟩, f2, f3, f4⟩

/-- C81: if every contribution is kept (a negative threshold), the value is the entropy of the whole
cluster. Here entropy and reference need to be functions of the set only for spins in increasing order:
no other clusters of more than one spin are evaluated. -/
theorem C81_exact (S S0 : List ℕ → Py V) (G G0 : Finset ℕ → V) (keep : V → Bool)
    (hkeep : ∀ v, keep v = true) (c : List ℕ) (hc : c.Nodup) (hc2 : 2 ≤ c.length)
    (h0 : S0 c = .ok (G0 c.toFinset))
    (h : ∀ g : List ℕ, g.Nodup → g ≠ [] → g.toFinset ⊆ c.toFinset → g.Pairwise (· ≤ ·) →
      S g = .ok (G g.toFinset) ∧ S0 g = .ok (G0 g.toFinset)) :
    ∃ levels d, aceSolve S S0 keep true false c [] = .ok (G c.toFinset, levels, d) := by
  obtain ⟨levels, d, e, -⟩ := aceSolve_all (S := S) (S0 := S0) (F := fun A => G A - G0 A) keep hkeep c hc hc2 _ h0
    fun g h1 h2 h3 h4 => ⟨_, _, (h g h1 h2 h3 h4).1, (h g h1 h2 h3 h4).2, rfl⟩
  exact ⟨levels, d, by rw [e]; simp⟩

/-- C81: for a single spin `solve` raises `KeyError`: its contribution is never computed. -/
theorem C81_single_raises (S S0 : List ℕ → Py V) (keep : V → Bool) (i : ℕ) (v : V) (hv : S0 [i] = .ok v) :
    aceSolve S S0 keep true false [i] [] = .error .keyError := by
  have h1 : aceLoop (deltaSRef S S0 true false) keep 3 1 [[i]] [] = .ok ([[[i]], []], []) := by
    simp [aceLoop, pairsOf, pure, Except.pure]
  simp [aceSolve, h1, hv, aceAdd, bind, Except.bind]

/-- C81: the other references: both raise, the mean-field reference does not exist. -/
theorem C81_reference (S S0 : List ℕ → Py V) (keep : V → Bool) (c : List ℕ) :
    aceSolve S S0 keep true true c [] = .error .exception := by
  simp [aceSolve]

end

/-- An entropy of four spins whose contributions are large for the clusters of two and three spins that
contain the last spin. It raises for spins that are not listed in increasing order. -/
def starEntropy (c : List ℕ) : Py ℤ :=
  if c.Pairwise (· < ·) then
    .ok (if 3 ∈ c then (c.length - 1 : ℤ) + (c.length - 1) * (c.length - 2) / 2 else 0)
  else .error .valueError

/-- C81: with a threshold of zero or more the expansion may evaluate clusters in which the spins are not
in increasing order (here the spins 2, 1, 0 when the cluster of all four spins is evaluated); with the
upper triangular co-occurrence matrix these have wrong pair frequencies (C48_order_matters). -/
theorem C81_unsorted : aceSolve starEntropy (fun _ => .ok 0) (fun v => decide (|v| > 0)) true false
    [0, 1, 2, 3] [] = .error .valueError := by decide +kernel

/-- Non-vacuity of C81: the pair (0,1) and the triple are dropped. -/
example : (aceSolve (fun c => .ok (c.toFinset.sum (fun i => (2 : ℤ) ^ i) ^ 2)) (fun _ => .ok 0)
    (fun v => decide (|v| > 4)) true false [0, 1, 2] []).map (fun r => (r.1, r.2.1)) =
      .ok (45, [[[0], [1], [2]], [[0, 2], [1, 2]], []]) := by decide +kernel

/-! ### C83 -/

/-- C83: every distribution that gives all states of the spins `A` positive probability has the same spin
and pair frequencies as exactly one pairwise model on `A`. -/
theorem C83_pairwise_model (A : Finset ℕ) (p : Finset ℕ → ℝ) (hpos : ∀ X ∈ A.powerset, 0 < p X)
    (hsum : ∑ X ∈ A.powerset, p X = 1) :
    ∃! J, Fits A (fun i j => ∑ X ∈ A.powerset with i ∈ X ∧ j ∈ X, p X) J := by
  obtain ⟨J, hJ⟩ := exists_fits A p hpos hsum
  exact ⟨J, hJ, fun J' hJ' => Fits.unique hJ' hJ⟩

/-- C83 for a sample of ±1 states in which every state of the spins `A` occurs. -/
theorem C83_sample (sample : List (List ℤ)) (A : Finset ℕ)
    (hpm : ∀ r ∈ sample, ∀ i ∈ A, r.getD i 0 = 1 ∨ r.getD i 0 = -1)
    (hall : ∀ X ⊆ A, ∃ r ∈ sample, ∀ i ∈ A, r.getD i 0 = 1 ↔ i ∈ X) :
    ∃! J, Fits A (fun i j => avg sample
      fun r => ((r.getD i 0 : ℤ) + 1 : ℝ) / 2 * (((r.getD j 0 : ℤ) + 1) / 2)) J := by
  obtain ⟨J, hJ⟩ := sample_fits sample A hpm fun X hX => by
    obtain ⟨r, hr, h⟩ := hall X hX
    refine ⟨r, hr, ?_⟩
    ext i
    unfold upSpins
    rw [Finset.mem_filter]
    exact ⟨fun hi => (h i hi.1).1 hi.2, fun hi => ⟨hX hi, (h i (hX hi)).2 hi⟩⟩
  exact ⟨J, hJ, fun J' hJ' => Fits.unique hJ' hJ⟩

/-! ### C82 -/

/-- C82: the conversion at the end of `solve` from a symmetric coupling matrix to the parameters of the
±1 model: the energies agree up to a constant. -/
theorem C82_parameters (J : Mat ℝ) (n : ℕ) (hn : 1 ≤ n) (hJ : J.HasShape n n)
    (hsym : ∀ i < n, ∀ j < n, J.at' i j = J.at' j i) :
    ∃ x, aceParams J = .ok x ∧ x.length = n + n * (n - 1) / 2 ∧
      ∃ k, ∀ s : ℕ → ℝ, isingVecE n (x.take n) (x.drop n) s =
        quadE n (fun i j => J.at' i j) (fun i => (s i + 1) / 2) + k :=
  aceParams_ok hn hJ hsym

/-- C82: the whole solver with a negative threshold. For a sample of ±1 states of `n ≥ 2` spins in which
every state occurs, and a least-squares routine that finds zero residuals whenever there are any,
`ClusterExpansion.solve` returns the parameters of the pairwise ±1 model that has the magnetisations and
pair correlations of the sample, and the entropy of that model. -/
theorem C82_solve (lsq : (List ℝ → Py (List ℝ)) → List ℝ → Py (List ℝ)) (hlsq : ExactLsq lsq) (n : ℕ)
    (hn : 2 ≤ n) (sample : List (List ℤ)) (hw : ∀ r ∈ sample, r ∈ words [(-1 : ℤ), 1] n)
    (hall : ∀ r ∈ words [(-1 : ℤ), 1] n, r ∈ sample) (T : ℝ) (hT : T < 0) (ns : Option ℕ) :
    ∃ M x ent levels, aceCooc n sample = some M ∧
      clusterExpansionSolve lsq n M T none 0 ns false true = .ok (x, ent, levels) ∧
      x.length = n + n * (n - 1) / 2 ∧
      (∀ i < n, expect (words [(-1 : ℤ), 1] n) (fun s => isingVecE n (x.take n) (x.drop n) (spins s))
        (fun s => spins s i) = avg sample fun r => (spins r i : ℝ)) ∧
      (∀ i < n, ∀ j < n, expect (words [(-1 : ℤ), 1] n)
        (fun s => isingVecE n (x.take n) (x.drop n) (spins s))
        (fun s => spins s i * spins s j) = avg sample fun r => (spins r i * spins r j : ℝ)) ∧
      ent = entropy (words [(-1 : ℤ), 1] n)
        (boltzmann (words [(-1 : ℤ), 1] n) fun s => isingVecE n (x.take n) (x.drop n) (spins s)) := by
  classical
  have hne : sample ≠ [] := by
    have : List.replicate n (1 : ℤ) ∈ sample := hall _ (mem_words.2 ⟨by simp, by simp⟩)
    exact List.ne_nil_of_mem this
  have hlen : ∀ r ∈ sample, r.length = n := fun r hr => (mem_words.1 (hw r hr)).1
  have hpm : ∀ r ∈ sample, ∀ i < n, r.getD i 0 = 1 ∨ r.getD i 0 = -1 := by
    intro r hr i hi
    have hm := (mem_words.1 (hw r hr)).2
    have := hm (r.getD i 0) (by
      rw [List.getD_eq_getElem _ _ (by rw [hlen r hr]; exact hi)]; exact List.getElem_mem _)
    simp at this
    tauto
  obtain ⟨M, hM, hMs, hMv⟩ := aceCooc_ok n sample hne hlen
  obtain ⟨C, hC⟩ : ∃ C : ℕ → ℕ → ℝ, C = fun i j => avg sample
      fun r => ((r.getD i 0 : ℤ) + 1 : ℝ) / 2 * (((r.getD j 0 : ℤ) + 1) / 2) := ⟨_, rfl⟩
  have hMv' : ∀ i < n, ∀ j < n, i ≤ j → M.at' i j = C i j := fun i hi j hj hij => by
    rw [hMv i hi j hj, if_pos hij, hC]
  -- every cluster has a fit
  have hfit : ∀ A : Finset ℕ, A ⊆ Finset.range n → ∃ J, Fits A C J := by
    intro A hA
    rw [hC]
    refine (C83_sample sample A (fun r hr i hi => hpm r hr i (Finset.mem_range.1 (hA hi)))
      fun X hX => ⟨(List.range n).map fun i => if i ∈ X then 1 else -1, hall _ (mem_words.2 ⟨by simp, ?_⟩),
        ?_⟩).exists
    · intro x hx
      obtain ⟨i, -, rfl⟩ := List.mem_map.1 hx
      by_cases h : i ∈ X <;> simp [h]
    · intro i hi
      rw [getD_map_range _ _ _ (Finset.mem_range.1 (hA hi))]
      by_cases h : i ∈ X <;> simp [h]
  have hf : ∀ i < n, 0 < M.at' i i ∧ M.at' i i < 1 := by
    intro i hi
    obtain ⟨J, hJ⟩ := hfit {i} (by simpa using hi)
    rw [hMv' i hi i hi (le_refl i), ← hJ.moments i (by simp) i (by simp)]
    have h1 : setMoment {i} J i i = Real.exp (-J i i) / (1 + Real.exp (-J i i)) := by
      have hp : ({i} : Finset ℕ).powerset = {∅, {i}} := by
        ext X; simp [Finset.subset_singleton_iff]
      have hd : (∅ : Finset ℕ) ≠ {i} := by simp [Finset.ext_iff]
      unfold setMoment setProb
      rw [hp, Finset.sum_filter, Finset.sum_pair hd, Finset.sum_pair hd]
      simp [setE]
    have hpos := Real.exp_pos (-J i i)
    rw [h1]
    exact ⟨by positivity, by rw [div_lt_one (by positivity)]; linarith⟩
  -- the expansion
  have hrange : (List.range n).toFinset = Finset.range n := by ext; simp
  obtain ⟨levels, d, hsolve⟩ := C81_exact
    (fun c => entJPy n (clusterS none lsq M false 0 ns c)) (fun c => entJPy n (sIndependent M c))
    (fitVal n C) (fitVal n (fun i j => if i = j then M.at' i i else M.at' i i * M.at' j j))
    (fun v => decide (|v.1| > T))
    (fun v => by simpa using lt_of_lt_of_le hT (abs_nonneg v.1)) (List.range n) List.nodup_range
    (by simpa using hn)
    (entJPy_ind hMs _ List.nodup_range (by simp; omega) (by simp) fun i hi => hf i (by simpa using hi))
    (fun g g1 g2 g3 g4 => by
      have hgn : ∀ i ∈ g, i < n := fun i hi => by
        have := g3 (List.mem_toFinset.2 hi); simpa using this
      refine ⟨entJPy_S hlsq hMs C g g1 g2 hgn (fun a b ha hb hab => ?_) (hfit _ (by rw [← hrange]; exact g3)) _ _,
        entJPy_ind hMs g g1 g2 hgn fun i hi => hf i (hgn i hi)⟩
      refine hMv' _ (hgn _ (List.getElem_mem _)) _ (hgn _ (List.getElem_mem _)) ?_
      rcases Nat.eq_or_lt_of_le hab with rfl | hlt
      · exact le_refl _
      · exact List.pairwise_iff_getElem.1 g4 a b ha hb hlt)
  obtain ⟨J, hJ⟩ := hfit (Finset.range n) subset_rfl
  rw [hrange, fitVal_eq hJ] at hsolve
  obtain ⟨Jm, e⟩ : ∃ Jm : Mat ℝ, Jm = Mat.build n n fun i j =>
      if h : i < n ∧ j < n then (fun i j : Fin n => J i j) ⟨i, h.1⟩ ⟨j, h.2⟩ else 0 := ⟨_, rfl⟩
  have hJm : Jm.HasShape n n := e ▸ Mat.build_shape _ _ _
  have hJv : ∀ i < n, ∀ j < n, Jm.at' i j = J i j := fun i hi j hj => by
    rw [e, Mat.at_build _ hi hj, dif_pos ⟨hi, hj⟩]
  obtain ⟨x, hx, hxl, k, hE⟩ := aceParams_ok (n := n) (by omega) hJm fun i hi j hj => by
    rw [hJv i hi j hj, hJv j hj i hi, hJ.symm]
  refine ⟨M, x, setEntropy (Finset.range n) J, levels, hM, ?_, hxl, ?_⟩
  · unfold clusterExpansionSolve
    rw [Option.getD_none]
    simp only [gt_iff_lt] at hsolve ⊢
    rw [hsolve]
    dsimp only
    rw [← e, hx]
  -- from {-1,1} to {0,1}
  have hwords : words [(-1 : ℤ), 1] n = (words [(0 : ℤ), 1] n).map (List.map fun b => 2 * b - 1) := by
    rw [← words_map]; rfl
  obtain ⟨W, hW⟩ : ∃ W, W = words [(0 : ℤ), 1] n := ⟨_, rfl⟩
  have hWlen : ∀ s ∈ W, s.length = n := fun s hs => (mem_words.1 (hW ▸ hs)).1
  have hshift : ∀ s ∈ W, isingVecE n (x.take n) (x.drop n) (spins (s.map fun b => 2 * b - 1)) =
      quadE n J (spins s) + k := by
    intro s hs
    rw [hE]
    congr 1
    refine quadE_congr n _ _ _ _ (fun i hi j hj => hJv i hi j hj) fun i hi => ?_
    rw [spins_double n s (hWlen s hs) i hi]
    ring
  have hb := boltzmann_shift W (fun s => quadE n J (spins s))
    (fun s => isingVecE n (x.take n) (x.drop n) (spins (s.map fun b => 2 * b - 1))) k hshift
  have hexp : ∀ f : List ℤ → ℝ, expect (words [(-1 : ℤ), 1] n)
      (fun s => isingVecE n (x.take n) (x.drop n) (spins s)) f =
        expect W (fun s => quadE n J (spins s)) fun s => f (s.map fun b => 2 * b - 1) := by
    intro f
    rw [hwords, ← hW, expect_map]
    unfold expect
    congr 1
    exact List.map_congr_left fun s hs => by rw [hb s hs]
  have hquad : ∀ s : List ℤ, quadE n J (spins s) = quadE (List.range n).length
      (fun a b => J ((List.range n).getD a 0) ((List.range n).getD b 0)) (spins s) := by
    intro s
    rw [List.length_range]
    refine quadE_congr n _ _ _ _ (fun i hi j hj => ?_) fun _ _ => rfl
    rw [List.getD_eq_getElem _ _ (by simpa using hi), List.getD_eq_getElem _ _ (by simpa using hj)]
    simp
  have hmom : ∀ i < n, ∀ j < n, expect W (fun s => quadE n J (spins s))
      (fun s => spins s i * spins s j) = C i j := by
    intro i hi j hj
    have h1 := expect_onSet (List.range n) List.nodup_range J i j (by simpa using hi) (by simpa using hj)
    simp only [← hquad] at h1
    simp only [List.length_range, List.getElem_range, ← hW, hrange] at h1
    rw [h1, hJ.moments _ (by simpa using hi) _ (by simpa using hj)]
  have hbit : ∀ s ∈ W, ∀ i < n, (spins s i : ℝ) = spins s i * spins s i := by
    intro s hs i hi
    have hm := (mem_words.1 (hW ▸ hs)).2 (s.getD i 0) (by
      rw [List.getD_eq_getElem _ _ (by rw [hWlen s hs]; exact hi)]; exact List.getElem_mem _)
    unfold spins
    simp at hm
    rcases hm with h | h <;> simp [h]
  have hone : ∀ i < n, expect W (fun s => quadE n J (spins s)) (fun s => spins s i) = C i i := by
    intro i hi
    rw [← hmom i hi i hi]
    exact expect_congr _ _ _ _ _ (fun _ _ => rfl) fun s hs => hbit s hs i hi
  have hWne : W ≠ [] := by
    rw [hW]
    exact List.ne_nil_of_mem (mem_words.2 ⟨List.length_replicate, by simp⟩ : List.replicate n (1 : ℤ) ∈ _)
  have hN : (sample.length : ℝ) ≠ 0 := by exact_mod_cast fun h => hne (List.length_eq_zero_iff.1 h)
  have hsum1 := sum_boltzmann W (fun s => quadE n J (spins s)) hWne
  have lin : ∀ a b c d : ℝ, ∀ f g h : List ℤ → ℝ, expect W (fun s => quadE n J (spins s))
      (fun s => a * f s + b * g s + c * h s + d) =
        a * expect W (fun s => quadE n J (spins s)) f + b * expect W (fun s => quadE n J (spins s)) g +
          c * expect W (fun s => quadE n J (spins s)) h + d := by
    intro a b c d f g h
    have hd : d = d * (W.map fun s => boltzmann W (fun s => quadE n J (spins s)) s).sum := by
      rw [hsum1, mul_one]
    conv_rhs => rw [hd]
    unfold expect
    rw [← list_sum_mul_left, ← list_sum_mul_left, ← list_sum_mul_left, ← list_sum_mul_left,
      ← list_sum_add, ← list_sum_add, ← list_sum_add]
    exact list_sum_congr fun s _ => by ring
  have linS : ∀ a b c d : ℝ, ∀ f g h : List ℤ → ℝ, avg sample (fun s => a * f s + b * g s + c * h s + d) =
        a * avg sample f + b * avg sample g + c * avg sample h + d := by
    intro a b c d f g h
    have hd : d = (sample.map fun _ => d).sum / (sample.length : ℝ) := by
      rw [List.map_const', List.sum_replicate, nsmul_eq_mul]
      field_simp
    conv_rhs => rw [hd]
    unfold avg
    rw [← mul_div_assoc, ← mul_div_assoc, ← mul_div_assoc, ← add_div, ← add_div, ← add_div,
      ← list_sum_mul_left, ← list_sum_mul_left, ← list_sum_mul_left,
      ← list_sum_add, ← list_sum_add, ← list_sum_add]
  have hS2 : ∀ i < n, ∀ j < n, avg sample (fun r => (spins r i * spins r j : ℝ)) =
      4 * C i j + -2 * C i i + -2 * C j j + 1 := by
    intro i hi j hj
    rw [hC, ← linS]
    unfold avg
    congr 1
    refine list_sum_congr fun r hr => ?_
    unfold spins
    rcases hpm r hr i hi with h | h <;> rcases hpm r hr j hj with h' | h' <;> simp only [h, h'] <;> norm_num
  have hS1 : ∀ i < n, avg sample (fun r => (spins r i : ℝ)) = 2 * C i i + -1 := by
    intro i hi
    have := linS 2 0 0 (-1) (fun r => ((r.getD i 0 : ℤ) + 1 : ℝ) / 2 * (((r.getD i 0 : ℤ) + 1) / 2))
      (fun _ => 0) (fun _ => 0)
    simp only [zero_mul, add_zero] at this
    rw [hC]
    dsimp only
    rw [← this]
    unfold avg
    congr 1
    refine list_sum_congr fun r hr => ?_
    unfold spins
    rcases hpm r hr i hi with h | h <;> simp only [h] <;> norm_num
  refine ⟨?_, ?_, ?_⟩
  · intro i hi
    rw [hexp, hS1 i hi, ← hone i hi]
    have := lin 2 0 0 (-1) (fun s => spins s i) (fun _ => 0) (fun _ => 0)
    simp only [zero_mul, add_zero] at this
    rw [← this]
    refine expect_congr _ _ _ _ _ (fun _ _ => rfl) fun s hs => ?_
    rw [spins_double n s (hWlen s hs) i hi]
    ring
  · intro i hi j hj
    rw [hexp, hS2 i hi j hj, ← hone i hi, ← hone j hj, ← hmom i hi j hj, ← lin]
    refine expect_congr _ _ _ _ _ (fun _ _ => rfl) fun s hs => ?_
    rw [spins_double n s (hWlen s hs) i hi, spins_double n s (hWlen s hs) j hj]
    ring
  · rw [hwords, ← hW, ← hrange, ← entropy_onSet (List.range n) List.nodup_range J]
    simp only [← hquad]
    rw [List.length_range, ← hW]
    unfold entropy
    rw [List.map_map]
    congr 1
    refine list_sum_congr fun s hs => ?_
    simp only [Function.comp]
    rw [boltzmann_map, hb s hs]

/-- Non-vacuity of C82: the sample with every state once, and a least-squares routine as required. -/
example : ∃ lsq, ExactLsq lsq ∧ ∃ sample : List (List ℤ), (∀ r ∈ sample, r ∈ words [(-1 : ℤ), 1] 3) ∧
    ∀ r ∈ words [(-1 : ℤ), 1] 3, r ∈ sample :=
  ⟨rootOrRaise, rootOrRaise_exact, words [(-1 : ℤ), 1] 3, fun _ h => h, fun _ h => h⟩

end Verif.Props
