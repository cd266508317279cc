/-
C69, C90: the class `Ising` of coniii/ising/utils.py.
-/
import Verif.Model.IsingFront
import Verif.Spec.Basin
import Verif.Spec.Boltzmann
import Verif.Lemmas.Argmin
import Verif.Lemmas.IsingUpdate
import Verif.Lemmas.Mpf2
import Verif.Lemmas.EnumerateWrap
import Verif.Props.Matrix
import Verif.Props.Corr

namespace Verif.Props
open Verif Verif.Model Verif.Spec Verif.Lemmas

variable {K : Type*}

/-- The object made by the constructor of fields and couplings given as arrays. -/
theorem frontInit_ok [Field K] [DecidableEq K] (eqns : ℕ → Option (List K → List K)) (n : ℕ) (hn : 1 < n) (h J : List K)
    (hh : h.length = n) (hJ : J.length = n * (n - 1) / 2) (f : List K → List K) (hf : eqns n = some f) :
    ∃ h' J', convertParams h (.vec J) .b01 = .ok (h', J') ∧ h'.length = n ∧
      frontInit eqns n (.array h) (.array J) = .ok ⟨n, h ++ J, Mat.build n n fun i j =>
        if i = j then 0 else J.getD ((upperPairs n).idxOf (min i j, max i j)) 0, h' ++ J', f⟩ := by
  obtain ⟨h', J', e, hl, -⟩ := C11_to01_energy n hn.le h J hh hJ
  refine ⟨h', J', e, hl, ?_⟩
  unfold frontInit frontArg convertParamsConcat
  simp only [hn, not_true_eq_false, if_false, hh, hJ, if_true, squareformVec_eq n hn.le J hJ, e, bind, Except.bind, pure,
    Except.pure, hf, and_self]

/-- What the arguments of a successful constructor call are. -/
theorem frontInit_inv [Field K] [DecidableEq K] (eqns : ℕ → Option (List K → List K)) (n : ℕ) (h J : List K) (m : Front K)
    (hm : frontInit eqns n (.array h) (.array J) = .ok m) :
    ∃ f, 1 < n ∧ h.length = n ∧ J.length = n * (n - 1) / 2 ∧ eqns n = some f := by
  unfold frontInit frontArg at hm
  by_cases hn : 1 < n
  · by_cases hh : h.length = n
    · by_cases hJ : J.length = n * (n - 1) / 2
      · cases hf : eqns n with
        | none =>
          obtain ⟨h', J', e, hl, -⟩ := C11_to01_energy n hn.le h J hh hJ
          simp only [hn, not_true_eq_false, if_false, hh, hJ, if_true, squareformVec_eq n hn.le J hJ,
            convertParamsConcat, e, bind, Except.bind, pure, Except.pure, hf, and_self] at hm
          exact absurd hm (by simp)
        | some f => exact ⟨f, hn, hh, hJ, rfl⟩
      · simp [hn, hh, hJ] at hm
    · simp [hn, hh] at hm
  · simp [hn] at hm

section Basin
variable [Field K]

/-- The energy changes in terms of the couplings. -/
theorem neighborDE_ok (n : ℕ) (h J : List K) (hh : h.length = n)
    (m : Front K) (hm1 : m.n = n) (hm2 : m.hJ = h ++ J) (hm3 : m.Jmat = Mat.build n n fun i j =>
      if i = j then 0 else J.getD ((upperPairs n).idxOf (min i j, max i j)) 0) (s : List ℤ) (hs : s.length = n) :
    frontNeighborDE m s = .ok ((List.range n).map fun i =>
      isingVecE n h J (spins (flipped s i)) - isingVecE n h J (spins s)) := by
  unfold frontNeighborDE
  rw [if_pos (by rw [hs, hm1]), hm1, hm2, hm3]
  congr 1
  refine List.map_congr_left fun i hi => ?_
  have hi := List.mem_range.1 hi
  have e : (spins (flipped s i) : ℕ → K) = fun k => if k = i then ((-s.getD i 0 : ℤ) : K) else spins s k := by
    unfold flipped; rw [spins_set s i (by omega)]
  unfold isingVecE
  rw [e, isingE_update n i hi, sum_map_range]
  have hg : (h ++ J).getD i 0 = h.getD i 0 := List.getD_append _ _ _ _ (by omega)
  have hsum : ∑ j ∈ Finset.range n, ((s.getD j 0 : ℤ) : K) * (Mat.build n n fun i j : ℕ =>
      if i = j then 0 else J.getD ((upperPairs n).idxOf (min i j, max i j)) 0).at' i j =
      ∑ j ∈ Finset.range n, if j = i then 0 else couplingAt n J (min i j) (max i j) * spins s j := by
    refine Finset.sum_congr rfl fun j hj => ?_
    rw [Mat.at_build _ hi (Finset.mem_range.1 hj)]
    by_cases hij : i = j
    · rw [if_pos hij, if_pos hij.symm, mul_zero]
    · rw [if_neg hij, if_neg (Ne.symm hij)]
      unfold couplingAt spins
      ring
  rw [hg, hsum]
  unfold spins
  push_cast
  ring

variable [DecidableEq K]

/-- C69: `neighbor_dE(state)` is the list of the energy changes of the flips of the single spins. -/
theorem C69_neighbor_dE (eqns : ℕ → Option (List K → List K)) (n : ℕ) (h J : List K)
    (m : Front K) (hm : frontInit eqns n (.array h) (.array J) = .ok m) (s : List ℤ) (hs : s.length = n) :
    frontNeighborDE m s = .ok ((List.range n).map fun i =>
      isingVecE n h J (spins (flipped s i)) - isingVecE n h J (spins s)) := by
  obtain ⟨f, hn, hh, hJ, hf⟩ := frontInit_inv eqns n h J m hm
  obtain ⟨h', J', -, -, h2⟩ := frontInit_ok eqns n hn h J hh hJ f hf
  rw [hm] at h2
  rw [Except.ok.inj h2]
  exact neighborDE_ok n h J hh _ rfl rfl rfl s hs

end Basin

section Descend
variable [Field K] [LinearOrder K] [IsStrictOrderedRing K]

theorem countP_lt_of {α : Type*} {l : List α} {p q : α → Bool} (h : ∀ a ∈ l, p a = true → q a = true) {x : α}
    (hx : x ∈ l) (hp : ¬ p x = true) (hq : q x = true) : l.countP p < l.countP q := by
  induction l with
  | nil => simp at hx
  | cons a l ih =>
    have hle : l.countP p ≤ l.countP q := List.countP_mono_left fun b hb => h b (by simp [hb])
    rw [List.countP_cons, List.countP_cons]
    rcases List.mem_cons.1 hx with rfl | hx
    · rw [if_neg hp, if_pos hq]; omega
    · have := ih (fun b hb => h b (by simp [hb])) hx
      have h2 := h a (by simp)
      by_cases hpa : p a = true
      · rw [if_pos hpa, if_pos (h2 hpa)]; omega
      · rw [if_neg hpa]; omega

/-- The loop ends in a local minimum, within as many rounds as there are states of lower energy. -/
theorem descend_ok (m : Front K) (n : ℕ) (hn : 0 < n) (E : List ℤ → K)
    (hm : ∀ s, s.length = n → frontNeighborDE m s = .ok ((List.range n).map fun i => E (flipped s i) - E s)) :
    ∀ (fuel : ℕ) (s : List ℤ), s ∈ words [1, -1] n →
      ((words [1, -1] n).filter fun t => E t < E s).length < fuel →
      ∃ t ∈ words [1, -1] n, frontDescend m fuel s = .ok t ∧ Descent n E s t ∧ LocalMin n E t := by
  intro fuel
  induction fuel with
  | zero => intro s _ h; omega
  | succ fuel ih =>
    intro s hs hfuel
    have hl := (mem_words.1 hs).1
    unfold frontDescend
    simp only [hm s hl]
    by_cases hany : ((List.range n).map fun i => E (flipped s i) - E s).any (fun d => d < 0) = true
    · rw [if_pos hany]
      obtain ⟨i, hi, hok, hmin, -⟩ := npArgmin_ok (l := (List.range n).map fun i => E (flipped s i) - E s)
        (by intro h; simp at h; omega)
      have hi' : i < n := by simpa using hi
      rw [hok]
      have hmin' : ∀ j < n, E (flipped s i) ≤ E (flipped s j) := by
        intro j hj
        have := hmin j (by simpa using hj)
        simpa using this
      have hlt : E (flipped s i) < E s := by
        obtain ⟨d, hd, hd0⟩ := List.any_eq_true.1 hany
        obtain ⟨j, hj, rfl⟩ := List.mem_map.1 hd
        have h1 := hmin' j (List.mem_range.1 hj)
        have h2 : E (flipped s j) - E s < 0 := by simpa using hd0
        linarith
      have hset : s.set i (s.getD i 0 * -1) = flipped s i := by unfold flipped; rw [mul_neg_one]
      have hmem : flipped s i ∈ words [1, -1] n := flip_mem_words n i s hs
      have hlen : ((words [1, -1] n).filter fun t => E t < E (flipped s i)).length < fuel := by
        have : ((words [1, -1] n).filter fun t => E t < E (flipped s i)).length <
            ((words [1, -1] n).filter fun t => E t < E s).length := by
          rw [← List.countP_eq_length_filter, ← List.countP_eq_length_filter]
          refine countP_lt_of (fun t _ h => ?_) hmem (by simp) (by simpa using hlt)
          simp only [decide_eq_true_eq] at h ⊢
          exact h.trans hlt
        omega
      obtain ⟨t, ht, h1, h2, h3⟩ := ih (flipped s i) hmem hlen
      refine ⟨t, ht, ?_, .step s i t hi' hlt hmin' h2, h3⟩
      dsimp only
      rw [hset, h1]
    · rw [if_neg hany]
      refine ⟨s, hs, rfl, .refl s, fun i hi => ?_⟩
      by_contra hc
      refine hany (List.any_eq_true.2 ⟨E (flipped s i) - E s, List.mem_map.2 ⟨i, List.mem_range.2 hi, rfl⟩, ?_⟩)
      simpa using hc

omit [IsStrictOrderedRing K] in
/-- More rounds than needed do not matter. -/
theorem descend_more (m : Front K) : ∀ (fuel k : ℕ) (s t : List ℤ), frontDescend m fuel s = .ok t →
    frontDescend m (fuel + k) s = .ok t := by
  intro fuel
  induction fuel with
  | zero => intro k s t h; simp [frontDescend] at h
  | succ fuel ih =>
    intro k s t h
    rw [show fuel + 1 + k = fuel + k + 1 by omega]
    unfold frontDescend at h ⊢
    cases hE : frontNeighborDE m s with
    | error e => simp [hE] at h
    | ok dE =>
      simp only [hE] at h ⊢
      split_ifs at h ⊢ with hany
      · cases ha : npArgmin dE with
        | error e => simp [ha] at h
        | ok ix =>
          simp only [ha] at h ⊢
          exact ih k _ t h
      · exact h

/-- C69: for all fields and couplings and every state of 1 and -1, `find_basin` ends, whatever bound on the
number of rounds above `2^n` is put in: it descends by flips of single spins, each lowering the energy as much
as possible, to a state of 1 and -1 that no flip of a single spin improves. -/
theorem C69_find_basin (eqns : ℕ → Option (List K → List K)) (n : ℕ) (h J : List K)
    (m : Front K) (hm : frontInit eqns n (.array h) (.array J) = .ok m) (s : List ℤ) (hs : s ∈ words [1, -1] n) :
    ∃ t ∈ words [1, -1] n, frontFindBasin m s = .ok t ∧
      (∀ fuel, 2 ^ n < fuel → frontDescend m fuel s = .ok t) ∧
      Descent n (fun s => isingVecE n h J (spins s)) s t ∧
      LocalMin n (fun s => isingVecE n h J (spins s)) t := by
  obtain ⟨f, hn, hh, hJ, hf⟩ := frontInit_inv eqns n h J m hm
  obtain ⟨h', J', -, -, h2⟩ := frontInit_ok eqns n hn h J hh hJ f hf
  have hmn : m.n = n := by rw [hm] at h2; rw [Except.ok.inj h2]
  have hE := fun s hs => C69_neighbor_dE eqns n h J m hm s hs
  have hb : ((words [1, -1] n).filter fun t => isingVecE n h J (spins t) < isingVecE n h J (spins s)).length ≤
      2 ^ n := (List.length_filter_le _ _).trans (by rw [length_words]; rfl)
  have hd := fun fuel hf => descend_ok m n (by omega) (fun s => isingVecE n h J (spins s)) hE fuel s hs
    (lt_of_le_of_lt hb hf)
  obtain ⟨t, ht, h1, h3, h4⟩ := hd (2 ^ n + 1) (by omega)
  refine ⟨t, ht, ?_, fun fuel hf => ?_, h3, h4⟩
  · unfold frontFindBasin
    rw [if_pos (by rw [hmn, (mem_words.1 hs).1]), hmn, h1]
  · obtain ⟨k, rfl⟩ : ∃ k, fuel = 2 ^ n + 1 + k := ⟨fuel - (2 ^ n + 1), by omega⟩
    exact descend_more m _ k s t h1

/-- C69: a state that no flip improves is returned as it is. -/
theorem C69_at_minimum (eqns : ℕ → Option (List K → List K)) (n : ℕ) (h J : List K)
    (m : Front K) (hm : frontInit eqns n (.array h) (.array J) = .ok m) (s : List ℤ) (hs : s.length = n)
    (hmin : LocalMin n (fun s => isingVecE n h J (spins s)) s) : frontFindBasin m s = .ok s := by
  obtain ⟨f, hn, hh, hJ, hf⟩ := frontInit_inv eqns n h J m hm
  obtain ⟨h', J', -, -, h2⟩ := frontInit_ok eqns n hn h J hh hJ f hf
  have hmn : m.n = n := by rw [hm] at h2; rw [Except.ok.inj h2]
  unfold frontFindBasin
  rw [if_pos (by rw [hmn, hs]), frontDescend, C69_neighbor_dE eqns n h J m hm s hs]
  dsimp only
  rw [if_neg]
  rw [Bool.not_eq_true, List.any_eq_false]
  intro d hd
  obtain ⟨i, hi, rfl⟩ := List.mem_map.1 hd
  have := hmin i (List.mem_range.1 hi)
  simpa using this

omit [IsStrictOrderedRing K] in
/-- C69: a state with the wrong number of spins is refused. -/
theorem C69_wrong_size (m : Front K) (s : List ℤ) (hs : s.length ≠ m.n) : frontFindBasin m s = .error .assertion := by
  unfold frontFindBasin
  rw [if_neg hs]

end Descend

/-- An object over the rationals: the hypotheses of C69 can be met, and the descent is not trivial. -/
example : (frontInit (fun _ => some id) 3 (.array [(1 : ℚ), -1, 2]) (.array [3, 3, 3])).bind (fun m =>
    frontFindBasin m [-1, 1, -1]) = .ok [-1, -1, -1] := by decide +kernel

/-! ### C90 -/

theorem expect_shift {α : Type*} (S : List α) (E E' f : α → ℝ) (c : ℝ) (h : ∀ s ∈ S, E' s = E s + c) :
    expect S E' f = expect S E f := by
  rw [expect_congr S E' (fun s => E s + c) f f h fun _ _ => rfl, expect_eq_div, expect_eq_div]
  unfold partition
  simp only [neg_add, Real.exp_add]
  rw [list_sum_mul_right, list_sum_congr (g := fun s => Real.exp (-E s) * f s * Real.exp (-c)) fun s _ => by ring,
    list_sum_mul_right]
  exact mul_div_mul_right _ _ (Real.exp_pos _).ne'

/-- C90: `fields()` and `couplings()` are those given. -/
theorem C90_given [Field K] [DecidableEq K] (eqns : ℕ → Option (List K → List K)) (n : ℕ) (h J : List K) (m : Front K)
    (hm : frontInit eqns n (.array h) (.array J) = .ok m) :
    frontFields m true = h ∧ frontCouplings m true = J := by
  obtain ⟨f, hn, hh, hJ, hf⟩ := frontInit_inv eqns n h J m hm
  obtain ⟨h', J', -, -, h2⟩ := frontInit_ok eqns n hn h J hh hJ f hf
  rw [hm] at h2
  rw [Except.ok.inj h2]
  simp [frontFields, frontCouplings, ← hh]

/-- The energies in the two bases differ by a constant. -/
theorem front_energy (eqns : ℕ → Option (List ℝ → List ℝ)) (n : ℕ) (h J : List ℝ) (m : Front ℝ)
    (hm : frontInit eqns n (.array h) (.array J) = .ok m) :
    ∃ c, ∀ x ∈ words ([0, 1] : List ℤ) n, isingVecE n (frontFields m false) (frontCouplings m false) (spins x) =
      isingVecE n h J (spins (x.map fun v => 2 * v - 1)) + c := by
  obtain ⟨f, hn, hh, hJ, hf⟩ := frontInit_inv eqns n h J m hm
  obtain ⟨h', J', h1, hl, h2⟩ := frontInit_ok eqns n hn h J hh hJ f hf
  obtain ⟨h'', J'', h1', -, -, c, hc⟩ := C11_to01_energy n hn.le h J hh hJ
  rw [h1] at h1'
  obtain ⟨rfl, rfl⟩ := Prod.mk.inj (Except.ok.inj h1')
  rw [hm] at h2
  refine ⟨c, fun x hx => ?_⟩
  rw [Except.ok.inj h2]
  unfold frontFields frontCouplings
  simp only [Bool.false_eq_true, if_false]
  rw [← hl, List.take_left, List.drop_left, hl, hc]
  congr 1
  refine isingVecE_congr n h J _ _ fun i hi => ?_
  rw [spins_double n x (mem_words.1 hx).1 i hi]

/-- C90: the fields and couplings in the basis `'0'` describe the same distribution of states with spins 0 and 1:
the state `x` has the probability of the state `2x-1` under the fields and couplings given. -/
theorem C90_same_distribution (eqns : ℕ → Option (List ℝ → List ℝ)) (n : ℕ) (h J : List ℝ) (m : Front ℝ)
    (hm : frontInit eqns n (.array h) (.array J) = .ok m) (x : List ℤ) (hx : x ∈ words [0, 1] n) :
    boltzmann (words [0, 1] n) (fun x => isingVecE n (frontFields m false) (frontCouplings m false) (spins x)) x =
      boltzmann (words [-1, 1] n) (fun s => isingVecE n h J (spins s)) (x.map fun v => 2 * v - 1) := by
  obtain ⟨c, hc⟩ := front_energy eqns n h J m hm
  rw [show words [-1, 1] n = words (spinValues true) n from rfl, words_sym n, boltzmann_map (List.map fun b => 2 * b - 1) (words (spinValues false) n)]
  exact boltzmann_shift _ _ _ c (fun y hy => hc y hy) x hx

/-- C90: if the module of equations returns the means and pairwise correlations, `correlations('0')` returns
those of the distribution of 0 and 1 given by `fields('0')` and `couplings('0')`. -/
theorem C90_correlations (eqns : ℕ → Option (List ℝ → List ℝ)) (n : ℕ) (h J : List ℝ) (m : Front ℝ)
    (hm : frontInit eqns n (.array h) (.array J) = .ok m)
    (hobs : ∀ f, eqns n = some f → ∀ h J : List ℝ, h.length = n → J.length = n * (n - 1) / 2 → f (h ++ J) =
      ((List.range n).map fun i => expect (words [-1, 1] n) (fun s => isingVecE n h J (spins s)) fun s => spins s i) ++
      (upperPairs n).map fun p => expect (words [-1, 1] n) (fun s => isingVecE n h J (spins s)) fun s =>
        spins s p.1 * spins s p.2) :
    frontCorrelations m true = .ok (
      ((List.range n).map fun i => expect (words [-1, 1] n) (fun s => isingVecE n h J (spins s)) fun s => spins s i) ++
      (upperPairs n).map fun p => expect (words [-1, 1] n) (fun s => isingVecE n h J (spins s)) fun s =>
        spins s p.1 * spins s p.2) ∧
    frontCorrelations m false = .ok (
      ((List.range n).map fun i => expect (words [0, 1] n)
        (fun x => isingVecE n (frontFields m false) (frontCouplings m false) (spins x)) fun x => spins x i) ++
      (upperPairs n).map fun p => expect (words [0, 1] n)
        (fun x => isingVecE n (frontFields m false) (frontCouplings m false) (spins x)) fun x =>
          spins x p.1 * spins x p.2) := by
  obtain ⟨c, hc⟩ := front_energy eqns n h J m hm
  obtain ⟨f, hn, hh, hJ, hf⟩ := frontInit_inv eqns n h J m hm
  obtain ⟨h', J', h1, hl, h2⟩ := frontInit_ok eqns n hn h J hh hJ f hf
  have hmeq : m.n = n ∧ m.hJ = h ++ J ∧ m.observables = f := by
    rw [hm] at h2; rw [Except.ok.inj h2]; exact ⟨rfl, rfl, rfl⟩
  have hne : words ([-1, 1] : List ℤ) n ≠ [] := by
    intro h0
    have := length_words ([-1, 1] : List ℤ) n
    rw [h0] at this
    simp only [List.length_nil, List.length_cons] at this
    exact absurd this (by positivity)
  have h01 : ∀ g g' : List ℤ → ℝ, (∀ x ∈ words ([0, 1] : List ℤ) n, g (x.map fun v => 2 * v - 1) = g' x) →
      expect (words [-1, 1] n) (fun s => isingVecE n h J (spins s)) g = expect (words [0, 1] n)
        (fun x => isingVecE n (frontFields m false) (frontCouplings m false) (spins x)) g' := by
    intro g g' hg
    rw [show words [-1, 1] n = words (spinValues true) n from rfl, words_sym n, expect_map]
    refine Eq.trans ?_ (expect_shift _ _ _ g' c fun y hy => hc y hy).symm
    exact expect_congr _ _ _ _ _ (fun _ _ => rfl) fun x hx => hg x hx
  unfold frontCorrelations
  obtain ⟨e1, e2, e3⟩ := hmeq
  simp only [e1, e2, e3, hobs f hf h J hh hJ, if_true, Bool.false_eq_true, if_false, true_and]
  have hlen : ((List.range n).map fun i => expect (words [-1, 1] n) (fun s => isingVecE n h J (spins s))
      fun s => (spins s i : ℝ)).length = n := by simp
  rw [List.take_left' hlen, List.drop_left' hlen]
  unfold convertCorrConcat
  have key := C10_to01_moments n (words [-1, 1] n)
    (boltzmann (words [-1, 1] n) fun s => isingVecE n h J (spins s)) (fun s => (spins s : ℕ → ℝ))
    (sum_boltzmann _ _ hne)
  unfold expect at h01 ⊢
  rw [key]
  simp only [bind, Except.bind, pure, Except.pure]
  congr 2
  · refine List.map_congr_left fun i hi => ?_
    refine h01 (fun s => (spins s i + 1) / 2) (fun x => spins x i) fun x hx => ?_
    rw [spins_double n x (mem_words.1 hx).1 i (List.mem_range.1 hi)]
    ring
  · refine List.map_congr_left fun p hp => ?_
    obtain ⟨h1, h2⟩ := mem_upperPairs.1 hp
    refine h01 (fun s => (spins s p.1 + 1) / 2 * ((spins s p.2 + 1) / 2)) (fun x => spins x p.1 * spins x p.2)
      fun x hx => ?_
    rw [spins_double n x (mem_words.1 hx).1 p.1 (by omega), spins_double n x (mem_words.1 hx).1 p.2 h2]
    ring

/-- The hypothesis of `C90_correlations` is met by the function `calc_observables` of the module that
coniii/enumerate.py writes. -/
theorem C90_module (n : ℕ) (hn : 1 < n) (brk : ℕ → Bool) : ∃ (e : Eqns) (f : List ℝ → List ℝ),
    writeEqns n true (pairwiseIx n) = .ok e ∧ (∀ h J : List ℝ, h.length = n → J.length = n * (n - 1) / 2 →
      moduleObservables brk e (h ++ J) = .ok (f (h ++ J))) ∧
    ∀ h J : List ℝ, h.length = n → J.length = n * (n - 1) / 2 → f (h ++ J) =
      ((List.range n).map fun i => expect (words [-1, 1] n) (fun s => isingVecE n h J (spins s)) fun s => spins s i) ++
      (upperPairs n).map fun p => expect (words [-1, 1] n) (fun s => isingVecE n h J (spins s)) fun s =>
        spins s p.1 * spins s p.2 := by
  obtain ⟨e, h1, h2⟩ := pairwise_module n hn.le true
  refine ⟨e, fun θ => match moduleObservables brk e θ with | .ok r => r | .error _ => [], h1, fun h J hh hJ => ?_,
    fun h J hh hJ => ?_⟩
  · simp only [(h2 h J hh hJ).2 brk]
  · simp only [(h2 h J hh hJ).2 brk]
    rfl

/-- C90: None and a number stand for a constant array. -/
theorem C90_defaults [Field K] [DecidableEq K] (eqns : ℕ → Option (List K → List K)) (n : ℕ) (h J : FrontArg K) (x : K) :
    frontInit eqns n .none J = frontInit eqns n (.array (List.replicate n 0)) J ∧
    frontInit eqns n h .none = frontInit eqns n h (.array (List.replicate (n * (n - 1) / 2) 0)) ∧
    frontInit eqns n (.num x) J = frontInit eqns n (.array (List.replicate n x)) J ∧
    frontInit eqns n h (.num x) = frontInit eqns n h (.array (List.replicate (n * (n - 1) / 2) x)) := by
  simp [frontInit, frontArg]

/-- C90: fields or couplings given as Python lists (the docstring calls them "list-like") are never accepted. -/
theorem C90_lists_raise [Field K] [DecidableEq K] (eqns : ℕ → Option (List K → List K)) (n : ℕ) (l : List K)
    (h J : FrontArg K) (m : Front K) :
    frontInit eqns n (.list l) J ≠ .ok m ∧ frontInit eqns n h (.list l) ≠ .ok m := by
  unfold frontInit
  constructor
  · by_cases hn : 1 < n
    · by_cases hl : l.length = n
      · simp only [frontArg, hn, hl, not_true_eq_false, if_false, if_true, Bool.false_eq_true, false_and, not_false_iff]
        split <;> simp
      · simp [frontArg, hn, hl]
    · simp [hn]
  · by_cases hn : 1 < n
    · simp only [hn, not_true_eq_false, if_false]
      split
      · simp
      · by_cases hl : l.length = n * (n - 1) / 2
        · simp [frontArg, hl]
        · simp [frontArg, hl]
    · simp [hn]

/-- C90: at least two spins are needed, and arrays of the right sizes. -/
theorem C90_sizes [Field K] [DecidableEq K] (eqns : ℕ → Option (List K → List K)) (n : ℕ) (h J : List K)
    (hbad : ¬ (1 < n ∧ h.length = n ∧ J.length = n * (n - 1) / 2)) :
    frontInit eqns n (.array h) (.array J) = .error .assertion := by
  unfold frontInit frontArg
  by_cases hn : 1 < n
  · by_cases hh : h.length = n
    · by_cases hJ : J.length = n * (n - 1) / 2
      · exact absurd ⟨hn, hh, hJ⟩ hbad
      · simp [hn, hh, hJ]
    · simp [hn, hh]
  · simp [hn]

end Verif.Props
