/-
C27, C28, C29, C30, C32: the equation generator of coniii/enumerate.py and the modules it writes.
-/
import Verif.Lemmas.EnumerateWrap
import Verif.Props.HighOrder
import Verif.Props.Corr
import Mathlib.Tactic.NormNum

namespace Verif.Props
open Verif Verif.Model Verif.Spec Verif.Lemmas

/-! ### C27 -/

/-- C27. `fast_logsumexp(X, coeffs)`: `sgn·exp(m)` is the sum of `c_i exp(X_i)`, the value is `-inf`
exactly when the sum is zero, and the sign tells whether the sum is negative. -/
theorem C27_signed (X c : List ℝ) (hX : X ≠ []) (hc : c.length = X.length) :
    ∃ m sgn, fastLogSumExp X (some c) = .ok (m, sgn) ∧
      (∀ v, m = some v → sgn * Real.exp v = (List.zipWith (fun x c => c * Real.exp x) X c).sum) ∧
      (m = none ↔ (List.zipWith (fun x c => c * Real.exp x) X c).sum = 0) ∧
      (sgn = -1 ↔ (List.zipWith (fun x c => c * Real.exp x) X c).sum < 0) ∧
      (sgn = 1 ↔ 0 ≤ (List.zipWith (fun x c => c * Real.exp x) X c).sum) :=
  fastLogSumExp_coeffs X c hX hc

/-- C27. Without coefficients: the logarithm of the sum of exponentials, sign `+1`. -/
theorem C27_plain (X : List ℝ) (hX : X ≠ []) :
    fastLogSumExp X none = .ok (some (Real.log (X.map Real.exp).sum), 1) :=
  fastLogSumExp_none X hX

/-- C27. Coefficients one are the same as no coefficients. -/
theorem C27_unit_coeffs (X : List ℝ) (hX : X ≠ []) :
    fastLogSumExp X (some (X.map fun _ => 1)) = fastLogSumExp X none := by
  obtain ⟨m, sgn, h1, h2, h3, -, h5⟩ := fastLogSumExp_coeffs X (X.map fun _ => 1) hX (by simp)
  have hs : (List.zipWith (fun x c => c * Real.exp x) X (X.map fun _ => 1)).sum = (X.map Real.exp).sum := by
    congr 1
    rw [List.zipWith_map_right, List.zipWith_self]
    exact List.map_congr_left fun x _ => one_mul _
  have hpos : 0 < (X.map Real.exp).sum := by
    apply List.sum_pos
    · intro y hy
      obtain ⟨z, -, rfl⟩ := List.mem_map.1 hy
      exact Real.exp_pos z
    · simpa using hX
  rw [hs] at h2 h3 h5
  have hsgn : sgn = 1 := h5.2 hpos.le
  rw [h1, fastLogSumExp_none X hX, hsgn]
  rcases m with _ | v
  · exact absurd (h3.1 rfl) hpos.ne'
  · have := h2 v rfl
    rw [hsgn, one_mul] at this
    rw [← this, Real.log_exp]

/-- C27. Adding a constant to all exponents adds it to the result: the shift by the maximum cannot
be seen. -/
theorem C27_shift (X : List ℝ) (hX : X ≠ []) (a : ℝ) :
    ∃ m, fastLogSumExp X none = .ok (some m, 1) ∧
      fastLogSumExp (X.map (· + a)) none = .ok (some (m + a), 1) := by
  refine ⟨_, fastLogSumExp_none X hX, ?_⟩
  rw [fastLogSumExp_none _ (by simpa using hX)]
  have hpos : 0 < (X.map Real.exp).sum := by
    apply List.sum_pos
    · intro y hy
      obtain ⟨z, -, rfl⟩ := List.mem_map.1 hy
      exact Real.exp_pos z
    · simpa using hX
  congr 3
  rw [List.map_map]
  have : (X.map (Real.exp ∘ (· + a))).sum = (X.map Real.exp).sum * Real.exp a := by
    rw [← list_sum_mul_right]
    congr 1
    exact List.map_congr_left fun x _ => Real.exp_add _ _
  rw [this, Real.log_mul hpos.ne' (Real.exp_pos _).ne', Real.log_exp]

/-- C27. No terms, or coefficients of another length, raise. -/
theorem C27_raises (X c : List ℝ) (co : Option (List ℝ)) :
    fastLogSumExp [] co = .error .valueError ∧
      (c.length ≠ X.length → fastLogSumExp X (some c) = .error .valueError) := by
  refine ⟨rfl, fun h => ?_⟩
  cases X with
  | nil => rfl
  | cons x xs => unfold fastLogSumExp; simp only [h, if_false]

/-- Non-vacuity of C27: two terms whose weighted sum is negative, and two that cancel. -/
example : (∃ v, fastLogSumExp [0, Real.log 3] (some [2, -1]) = .ok (some v, -1) ∧ Real.exp v = 1) ∧
    fastLogSumExp [0, 0] (some [1, -1]) = .ok (none, 1) := by
  constructor
  · obtain ⟨m, sgn, h1, h2, h3, h4, -⟩ := C27_signed [0, Real.log 3] [2, -1] (by simp) rfl
    have hs : (List.zipWith (fun x c => c * Real.exp x) [0, Real.log 3] [2, -1]).sum = -1 := by
      simp [Real.exp_log (by norm_num : (0 : ℝ) < 3)]; norm_num
    rw [hs] at h2 h3 h4
    have hsgn : sgn = -1 := h4.2 (by norm_num)
    rcases m with _ | v
    · have := h3.1 rfl; norm_num at this
    · refine ⟨v, by rw [h1, hsgn], ?_⟩
      have := h2 v rfl
      rw [hsgn] at this; linarith
  · obtain ⟨m, sgn, h1, -, h3, -, h5⟩ := C27_signed [0, 0] [1, -1] (by simp) rfl
    have hs : (List.zipWith (fun x c => c * Real.exp x) [(0 : ℝ), 0] [1, -1]).sum = 0 := by simp
    rw [hs] at h3 h5
    rw [h1, h3.2 rfl, h5.2 le_rfl]

/-! ### C28 -/

/-- C28. Any groups of products of spins (at most 23 groups, as many as there are letters; sites may
repeat): the module that is written returns from `p(params)` the Boltzmann distribution over all
states in increasing binary order, whatever the parameters. -/
theorem C28_any_constraints (n : ℕ) (hn : 1 ≤ n) (sym : Bool) (groups : List Group)
    (hg : GoodGroups n groups) (hl : groups.length ≤ 23) (hne : ∃ g ∈ groups, g.2 ≠ []) :
    ∃ e, writeEqns n sym (groups.map subixOf) = .ok e ∧
      ∀ P : List (List ℝ), ParamsFit groups P →
        moduleP e P.flatten = .ok ((words (spinValues sym) n).map
          (boltzmann (words (spinValues sym) n) fun s => groupE groups P (spins s))) := by
  obtain ⟨e, h1, h2⟩ := module_eq n hn sym groups hg hl hne
  exact ⟨e, h1, fun P hP => (h2 P hP).1⟩

/-- C28. The pairwise modules (`pairwise(n, sym)`): entry `i` of `p(params)` belongs to row `i` of
`bin_states(n, sym)` and is its Boltzmann weight for the fields and couplings in `params`, divided
by the sum of all weights. -/
theorem C28_pairwise (n : ℕ) (hn : 1 ≤ n) (h30 : n ≤ 30) (sym : Bool) :
    ∃ e rows, writeEqns n sym (pairwiseIx n) = .ok e ∧ binStates n sym = .ok rows ∧
      ∀ h J : List ℝ, h.length = n → J.length = n * (n - 1) / 2 →
        moduleP e (h ++ J) = .ok (rows.map fun s => Real.exp (-isingVecE n h J (spins s)) /
          (rows.map fun s => Real.exp (-isingVecE n h J (spins s))).sum) := by
  obtain ⟨e, h1, h2⟩ := pairwise_module n hn sym
  exact ⟨e, _, h1, binStates_words n hn h30 sym, fun h J hh hJ => (h2 h J hh hJ).1⟩

/-- C28. The numbers returned are positive and add up to one. -/
theorem C28_normalised (n : ℕ) (hn : 1 ≤ n) (sym : Bool) :
    ∃ e, writeEqns n sym (pairwiseIx n) = .ok e ∧
      ∀ h J : List ℝ, h.length = n → J.length = n * (n - 1) / 2 →
        ∃ p, moduleP e (h ++ J) = .ok p ∧ p.length = 2 ^ n ∧ (∀ x ∈ p, 0 < x) ∧ p.sum = 1 := by
  obtain ⟨e, h1, h2⟩ := pairwise_module n hn sym
  refine ⟨e, h1, fun h J hh hJ => ⟨_, (h2 h J hh hJ).1, ?_, ?_, ?_⟩⟩
  · rw [List.length_map, length_words]; cases sym <;> rfl
  · intro x hx
    obtain ⟨s, -, rfl⟩ := List.mem_map.1 hx
    exact boltzmann_pos _ _ (words_spinValues_ne sym n) s
  · exact sum_boltzmann _ _ (words_spinValues_ne sym n)

/-- C28. The triplet modules, `n ≥ 3`, with interactions up to order three. -/
theorem C28_triplet (n : ℕ) (hn : 3 ≤ n) (sym : Bool) :
    ∃ e, writeEqns n sym (tripletIx n) = .ok e ∧
      ∀ h J T : List ℝ, PolyShape n [h, J, T] →
        moduleP e (h ++ J ++ T) = .ok ((words (spinValues sym) n).map
          (boltzmann (words (spinValues sym) n) fun s => polyE n [h, J, T] (spins s))) := by
  obtain ⟨e, h1, h2⟩ := module_eq n (by omega) sym (allOrders n 3) (goodGroups_allOrders n 3)
    (by simp [allOrders]) (allOrders_nonempty n 3 (by omega) (by norm_num))
  refine ⟨e, by rw [tripletIx_eq n hn]; exact h1, fun h J T hs => ?_⟩
  have := (h2 [h, J, T] (paramsFit_allOrders n _ hs)).1
  have hE : (fun s : List ℤ => groupE (allOrders n 3) [h, J, T] (spins s)) =
      fun s => polyE n [h, J, T] (spins s) := by
    funext s
    exact groupE_allOrders n [h, J, T] (spins s)
  rw [hE] at this
  simpa using this

/-- C28. `triplet(n)` with fewer than three spins cannot write a module. -/
theorem C28_triplet_small (n : ℕ) (hn : 1 ≤ n) (hn' : n < 3) (sym : Bool) :
    writeEqns n sym (tripletIx n) = .error .attributeError := by
  cases sym <;> interval_cases n <;> decide +kernel

/-- Non-vacuity of C28, and comparison with the files shipped in coniii/ising_eqn: the text between
`array([` and `])` of ising_eqn_3.py ... -/
example : ∃ e, writeEqns 3 false (pairwiseIx 3) = .ok e ∧
    e.expterms.flatten = ("+0, +H[2]+0, +H[1]+0, +H[1]+H[2]+J[2], +H[0]+0, +H[0]+H[2]+J[1], " ++
      "+H[0]+H[1]+J[0], +H[0]+H[1]+H[2]+J[0]+J[1]+J[2], ").toList ∧
    energyText e.expterms.flatten.length e.expterms.flatten =
      ("    +0, +H[2]+0, +H[1]+0, +H[1]+H[2]+J[2], +H[0]+0, +H[0]+H[2]+J[1], +H[0]+H[1]+J[0], " ++
        "+H[0]+H[1]+H[2]+J[0]+\n            J[1]+J[2],").toList ∧
    e.signs.flatten.map (signText (fun _ => false) false) =
      ["0,0,0,0,1,1,1,1".toList, "0,0,1,1,0,0,1,1".toList, "0,1,0,1,0,1,0,1".toList,
       "0,0,0,0,0,0,1,1".toList, "0,0,0,0,0,1,0,1".toList, "0,0,0,1,0,0,0,1".toList] :=
  ⟨_, rfl, by decide +kernel, by decide +kernel, by decide +kernel⟩

/-- ... and of ising_eqn_3_sym.py. -/
example : ∃ e, writeEqns 3 true (pairwiseIx 3) = .ok e ∧
    energyText e.expterms.flatten.length e.expterms.flatten =
      ("    +H[0]+H[1]+H[2]+J[0]+J[1]+J[2], +H[0]+H[1]-H[2]+J[0]-J[1]-J[2], " ++
       "+H[0]-H[1]+H[2]-J[0]+J[1]-J[2], +H[0]-H[1]-H[2]-J[0]-J[1]+\n    J[2], " ++
       "-H[0]+H[1]+H[2]-J[0]-J[1]+J[2], -H[0]+H[1]-H[2]-J[0]+J[1]-J[2], " ++
       "-H[0]-H[1]+H[2]+J[0]-J[1]-J[2], -H[0]-H[1]-H[2]+\n            J[0]+J[1]+J[2],").toList ∧
    e.signs.flatten.map (signText (fun _ => false) true) =
      [" 1, 1, 1, 1,-1,-1,-1,-1".toList, " 1, 1,-1,-1, 1, 1,-1,-1".toList,
       " 1,-1, 1,-1, 1,-1, 1,-1".toList, " 1, 1,-1,-1,-1,-1, 1, 1".toList,
       " 1,-1, 1,-1,-1, 1,-1, 1".toList, " 1,-1,-1, 1, 1,-1,-1, 1".toList] :=
  ⟨_, rfl, by decide +kernel, by decide +kernel⟩

/-! ### C29 -/

/-- C29. Any groups: `calc_observables(params)` lists the expectations of the products of spins, group
by group, under the same Boltzmann distribution, wherever numpy breaks the lines of the sign arrays. -/
theorem C29_any_constraints (n : ℕ) (hn : 1 ≤ n) (sym : Bool) (groups : List Group)
    (hg : GoodGroups n groups) (hl : groups.length ≤ 23) (hne : ∃ g ∈ groups, g.2 ≠ []) :
    ∃ e, writeEqns n sym (groups.map subixOf) = .ok e ∧
      ∀ P : List (List ℝ), ParamsFit groups P → ∀ brk,
        moduleObservables brk e P.flatten = .ok ((groups.flatMap fun g => g.2).map fun t =>
          expect (words (spinValues sym) n) (fun s => groupE groups P (spins s))
            fun s => mono (spins s) t) := by
  obtain ⟨e, h1, h2⟩ := module_eq n hn sym groups hg hl hne
  exact ⟨e, h1, fun P hP => (h2 P hP).2⟩

/-- C29. The observables of the pairwise modules are the moments of `p(params)` itself: they are what
`pair_corr(bin_states(n, sym), weights=p(params), concat=True)` returns, and lie in [-1, 1]. -/
theorem C29_pairwise (n : ℕ) (hn : 1 ≤ n) (h30 : n ≤ 30) (sym : Bool) :
    ∃ e rows, writeEqns n sym (pairwiseIx n) = .ok e ∧ binStates n sym = .ok rows ∧
      ∀ h J : List ℝ, h.length = n → J.length = n * (n - 1) / 2 → ∀ brk,
        ∃ p obs, moduleP e (h ++ J) = .ok p ∧ moduleObservables brk e (h ++ J) = .ok obs ∧
          pairCorrConcat n rows (.array p) false false false = .ok (obs.map some) ∧
          obs.length = n + n * (n - 1) / 2 ∧ ∀ x ∈ obs, |x| ≤ 1 := by
  obtain ⟨e, h1, h2⟩ := pairwise_module n hn sym
  refine ⟨e, _, h1, binStates_words n hn h30 sym, fun h J hh hJ brk => ?_⟩
  obtain ⟨hp, ho⟩ := h2 h J hh hJ
  obtain ⟨E, hE⟩ : ∃ E : List ℤ → ℝ, E = fun s => isingVecE n h J (spins s) := ⟨_, rfl⟩
  rw [← hE] at hp ho
  refine ⟨_, _, hp, ho brk, ?_, ?_, ?_⟩
  · have hX : ∀ row ∈ words (spinValues sym) n, ∀ x ∈ row, x = -1 ∨ x = 0 ∨ x = 1 := by
      intro row hr x hx
      have := (mem_words.1 hr).2 x hx
      cases sym
      · simp [spinValues] at this; omega
      · simp [spinValues] at this; omega
    rw [C07_concat n _ _ _ _ _ _ _ (C07_array_weights n _ hX _ (by simp))]
    have hw : ∀ f : List ℤ → ℝ, wsum (words (spinValues sym) n)
        ((words (spinValues sym) n).map (boltzmann (words (spinValues sym) n) E)) f =
        expect (words (spinValues sym) n) E f := by
      intro f
      unfold wsum expect
      rw [List.map_zip_eq_zipWith, List.zipWith_map_right, List.zipWith_self]
      rfl
    simp only [hw]
    rw [List.map_append, List.map_map, List.map_map]
    rfl
  · simp [length_upperPairs]
  · intro x hx
    have hne := words_spinValues_ne sym n
    have hb : ∀ t : List ℕ, |expect (words (spinValues sym) n) E fun s => mono (spins s) t| ≤ 1 := fun t => by
      rw [abs_le]
      exact ⟨le_expect _ _ _ hne _ fun s hs => (abs_le.1 (mono_abs_le sym n s hs t)).1,
        expect_le _ _ _ hne _ fun s hs => (abs_le.1 (mono_abs_le sym n s hs t)).2⟩
    rcases List.mem_append.1 hx with h | h
    · obtain ⟨i, -, rfl⟩ := List.mem_map.1 h
      simpa [mono] using hb [i]
    · obtain ⟨q, -, rfl⟩ := List.mem_map.1 h
      simpa [mono] using hb [q.1, q.2]

/-- C29. The triplet modules: the expectations of all products of one, two and three spins. -/
theorem C29_triplet (n : ℕ) (hn : 3 ≤ n) (sym : Bool) :
    ∃ e, writeEqns n sym (tripletIx n) = .ok e ∧
      ∀ h J T : List ℝ, PolyShape n [h, J, T] → ∀ brk,
        moduleObservables brk e (h ++ J ++ T) =
          .ok ((tuples n 1 ++ tuples n 2 ++ tuples n 3).map fun t =>
            expect (words (spinValues sym) n) (fun s => polyE n [h, J, T] (spins s))
              fun s => mono (spins s) t) := by
  obtain ⟨e, h1, h2⟩ := module_eq n (by omega) sym (allOrders n 3) (goodGroups_allOrders n 3)
    (by simp [allOrders]) (allOrders_nonempty n 3 (by omega) (by norm_num))
  refine ⟨e, by rw [tripletIx_eq n hn]; exact h1, fun h J T hs brk => ?_⟩
  have := (h2 [h, J, T] (paramsFit_allOrders n _ hs)).2 brk
  have hE : (fun s : List ℤ => groupE (allOrders n 3) [h, J, T] (spins s)) =
      fun s => polyE n [h, J, T] (spins s) := by
    funext s
    exact groupE_allOrders n [h, J, T] (spins s)
  rw [hE] at this
  have hf : (allOrders n 3).flatMap (fun g => g.2) = tuples n 1 ++ tuples n 2 ++ tuples n 3 := by
    simp [allOrders, List.range_succ]
  rw [hf] at this
  simpa using this

/-- Non-vacuity of C28 and C29: parameters of three spins with a triplet term. -/
example : PolyShape 3 ([[1, -2, 1/2], [3, -1, 2], [5]] : List (List ℝ)) := by
  intro k hk
  simp only [List.length_cons, List.length_nil] at hk
  interval_cases k <;> simp [length_tuples]

/-! ### C30 -/

/-- C30. Parameters of the {-1,1} model converted to {0,1} and put into the {0,1} module give the same
probabilities, entry by entry, and the observables that `convert_corr` makes of the {-1,1} ones. -/
theorem C30_bases_agree (n : ℕ) (hn : 1 ≤ n) :
    ∃ e11 e01, writeEqns n true (pairwiseIx n) = .ok e11 ∧ writeEqns n false (pairwiseIx n) = .ok e01 ∧
      ∀ h J : List ℝ, h.length = n → J.length = n * (n - 1) / 2 →
        ∃ h' J' p si sisj, convertParams h (.vec J) .b01 = .ok (h', J') ∧
          moduleP e11 (h ++ J) = .ok p ∧ moduleP e01 (h' ++ J') = .ok p ∧
          si.length = n ∧
          ∀ brk, moduleObservables brk e11 (h ++ J) = .ok (si ++ sisj) ∧
            ∃ r, convertCorrConcat si sisj .b01 .none = .ok r ∧
              moduleObservables brk e01 (h' ++ J') = .ok r := by
  obtain ⟨e11, h1, h2⟩ := pairwise_module n hn true
  obtain ⟨e01, h3, h4⟩ := pairwise_module n hn false
  refine ⟨e11, e01, h1, h3, fun h J hh hJ => ?_⟩
  obtain ⟨h', J', hc, hh', hJ', c, hE⟩ := C11_to01_energy n hn h J hh hJ
  obtain ⟨hp, ho⟩ := h2 h J hh hJ
  obtain ⟨hp', ho'⟩ := h4 h' J' hh' hJ'
  obtain ⟨T, hT⟩ : ∃ T, T = words (spinValues false) n := ⟨_, rfl⟩
  have hlen : ∀ s ∈ T, s.length = n := fun s hs => (mem_words.1 (hT ▸ hs)).1
  rw [← hT] at hp' ho'
  rw [words_sym, ← hT] at hp ho
  have hTne : T ≠ [] := hT ▸ words_spinValues_ne false n
  have hshift : ∀ s ∈ T, isingVecE n h' J' (spins s) =
      isingVecE n h J (spins (s.map fun b => 2 * b - 1)) + c := by
    intro s hs
    rw [hE, isingVecE_congr n h J _ (spins (s.map fun b => 2 * b - 1))]
    intro i hi
    exact (spins_double n s (hlen s hs) i hi).symm
  have hb := boltzmann_shift T (fun s => isingVecE n h J (spins (s.map fun b => 2 * b - 1)))
    (fun s => isingVecE n h' J' (spins s)) c hshift
  refine ⟨h', J', _, _, _, hc, hp, ?_, ?_, fun brk => ⟨ho brk, ?_⟩⟩
  · rw [hp', List.map_map]
    congr 1
    apply List.map_congr_left
    intro s hs
    simp only [Function.comp]
    rw [boltzmann_map]
    exact hb s hs
  · simp
  · have hsum := sum_boltzmann T (fun s => isingVecE n h' J' (spins s)) hTne
    have key := C10_to01_moments (K := ℝ) n T (boltzmann T fun s => isingVecE n h' J' (spins s))
      (fun s => spins (s.map fun b => 2 * b - 1)) hsum
    have hex : ∀ f : List ℤ → ℝ, expect (T.map (List.map fun b => 2 * b - 1))
        (fun s => isingVecE n h J (spins s)) f =
        (T.map fun s => boltzmann T (fun s => isingVecE n h' J' (spins s)) s *
          f (s.map fun b => 2 * b - 1)).sum := by
      intro f
      rw [expect_map]
      unfold expect
      congr 1
      exact List.map_congr_left fun s hs => by rw [hb s hs]
    refine ⟨_, ?_, ho' brk⟩
    simp only [hex]
    rw [C10_concat _ _ _ _ _ _ key]
    congr 2
    · apply List.map_congr_left
      intro i hi
      unfold expect
      congr 1
      apply List.map_congr_left
      intro s hs
      rw [spins_double n s (hlen s hs) i (List.mem_range.1 hi)]
      ring
    · apply List.map_congr_left
      intro q hq
      obtain ⟨hq1, hq2⟩ := mem_upperPairs.1 hq
      unfold expect
      congr 1
      apply List.map_congr_left
      intro s hs
      rw [spins_double n s (hlen s hs) q.1 (by omega), spins_double n s (hlen s hs) q.2 (by omega)]
      ring

/-! ### C32 -/

/-- C32. `get_3idx(n)` is an `n × n × n` array whose entry `(i,j,k)` is set exactly when `i < j < k`. -/
theorem C32_get_3idx (n : ℕ) (hn : 1 ≤ n) :
    ∃ b, get3idx n = .ok b ∧ b.length = n ∧
      (∀ i < n, (b.getD i []).length = n ∧ ∀ j < n, ((b.getD i []).getD j []).length = n) ∧
      ∀ i < n, ∀ j < n, ∀ k < n, (((b.getD i []).getD j []).getD k false = true ↔ i < j ∧ j < k) := by
  unfold get3idx
  rw [if_neg (by omega)]
  refine ⟨_, rfl, ?_⟩
  obtain ⟨h1, h2⟩ := foldl_set_range (fun i =>
      let sub := if i = 0 then ((List.range (n - 1)).map fun a => (List.range (n - 1)).map fun b => decide (a < b))
        else ((((List.range (n - 1)).map fun a => (List.range (n - 1)).map fun b => decide (a < b))).take
          ((((List.range (n - 1)).map fun a => (List.range (n - 1)).map fun b => decide (a < b))).length - i)).map
            fun r => r.take (r.length - i)
      ((List.range n).map fun j => (List.range n).map fun k =>
        if 1 + i ≤ j ∧ 1 + i ≤ k then (sub.getD (j - (1 + i)) []).getD (k - (1 + i)) false else false))
    [] (List.replicate n (List.replicate n (List.replicate n false))) (n - 1) (by simp)
  simp only at h1 h2 ⊢
  refine ⟨by rw [h1]; simp, fun i hi => ?_, fun i hi j hj k hk => ?_⟩
  · rw [h2]
    by_cases hlt : i < n - 1
    · rw [if_pos hlt]
      refine ⟨by simp, fun j hj => ?_⟩
      rw [getD_map_range _ _ _ hj]; simp
    · rw [if_neg hlt, List.getD_replicate _ hi]
      refine ⟨by simp, fun j hj => ?_⟩
      rw [List.getD_replicate _ hj]; simp
  · rw [h2]
    split_ifs with hlt h0
    · subst h0
      rw [getD_map_range _ _ _ hj, getD_map_range _ _ _ hk]
      split_ifs with hjk
      · rw [getD_map_range _ _ _ (by omega), getD_map_range _ _ _ (by omega), decide_eq_true_iff]
        omega
      · constructor
        · intro h; cases h
        · intro h; exact absurd (by omega) hjk
    · rw [getD_map_range _ _ _ hj, getD_map_range _ _ _ hk]
      split_ifs with hjk
      · rw [getD_map' _ _ [] _ _ (by simp; omega), getD_take _ _ _ (j - (1 + i)) (by simp; omega),
          getD_map_range _ _ _ (show j - (1 + i) < n - 1 by omega), getD_take _ _ _ (k - (1 + i)) (by simp; omega),
          getD_map_range _ _ _ (by omega), decide_eq_true_iff]
        omega
      · constructor
        · intro h; cases h
        · intro h; exact absurd (by omega) hjk
    · rw [List.getD_replicate _ hi, List.getD_replicate _ hj, List.getD_replicate _ hk]
      constructor
      · intro h; cases h
      · omega

/-- C32. `get_3idx(0)` raises. -/
theorem C32_get_3idx_zero : get3idx 0 = .error .valueError := rfl

/-- C32. What remains true of `get_nidx(k, n)`: `k = n` gives the one word with `n` ones as a column.
Missing: the case `0 < k < n`, where the claim is false (next theorem). -/
theorem C32_get_nidx_partial (n : ℕ) : getNidx n n = .ok (some ((List.range n).map fun i => [i])) := by
  unfold getNidx; rw [if_pos rfl]

/-- C32. The claim about `get_nidx` fails: for `k < n` the call never returns, because `bin_states` is
not imported in enumerate.py; for `k > n` the result is `None`. -/
theorem C32_get_nidx_fails (k n : ℕ) :
    (k < n → getNidx k n = .error .nameError) ∧ (n < k → getNidx k n = .ok none) := by
  unfold getNidx
  constructor <;> intro h
  · rw [if_neg (by omega), if_pos h]
  · rw [if_neg (by omega), if_neg (by omega)]

/-- Non-vacuity of C32. -/
example : get3idx 3 = .ok
    [[[false, false, false], [false, false, true], [false, false, false]],
     [[false, false, false], [false, false, false], [false, false, false]],
     [[false, false, false], [false, false, false], [false, false, false]]] := by decide +kernel

end Verif.Props
