/-
C23, C24, C25, C26: histogram reweighting, neighbours, parameter derivatives, coarse graining.
-/
import Verif.Lemmas.Neighbors
import Verif.Lemmas.Mch
import Mathlib.Analysis.Calculus.Deriv.Add
import Mathlib.Analysis.Calculus.Deriv.Mul

namespace Verif.Props
open Verif Verif.Model Verif.Spec Verif.Lemmas

variable {K : Type*}

/-- C23. Each entry is the mean over the sample with weights proportional to
`exp(dlamda . observables)`; in particular the range assertion does not fire. -/
theorem C23_reweighted_mean (N : ℕ) (X : Data) (hX : X ≠ [])
    (hok : ∀ row ∈ X, ∀ x ∈ row, x = -1 ∨ x = 0 ∨ x = 1) (hlen : ∀ row ∈ X, row.length = N)
    (h J : List ℝ) (hh : h.length = N) (hJ : J.length = N * (N - 1) / 2) :
    ∃ r, mchIsing N X (h ++ J) = .ok r ∧ r.length = N + N * (N - 1) / 2 ∧
      ∀ a < r.length, r.getD a none = some
        ((X.map fun s => Real.exp (dot (h ++ J) (pairObs N (spins s))) *
            (pairObs N (spins s)).getD a 0).sum /
          (X.map fun s => Real.exp (dot (h ++ J) (pairObs N (spins s)))).sum) := by
  refine ⟨_, mchIsing_eq N X hX hok (h ++ J), by simp [length_upperPairs], ?_⟩
  have hE : ∀ s ∈ X, isingCalcERow (h ++ J) s = -dot (h ++ J) (pairObs N (spins s)) := by
    intro s hs
    have := hlen s hs
    subst this
    exact isingCalcERow_eq h J s hh
  have hexp : ∀ f : List ℤ → ℝ, expect X (isingCalcERow (h ++ J)) f =
      (X.map fun s => Real.exp (dot (h ++ J) (pairObs N (spins s))) * f s).sum /
        (X.map fun s => Real.exp (dot (h ++ J) (pairObs N (spins s)))).sum := by
    intro f
    rw [expect_congr X _ (fun s => -dot (h ++ J) (pairObs N (spins s))) f f hE (fun _ _ => rfl),
      expect_eq_div]
    unfold partition
    simp only [neg_neg]
  intro a ha
  rw [List.length_append, List.length_map, List.length_map, List.length_range] at ha
  by_cases haN : a < N
  · rw [List.getD_append _ _ _ _ (by simpa using haN), List.getD_eq_getElem _ _ (by simpa using haN),
      List.getElem_map, List.getElem_range, hexp]
    simp only [pairObs_field _ _ _ haN]
  · rw [List.getD_append_right _ _ _ _ (by simpa using haN)]
    have hb : a - N < (upperPairs N).length := by omega
    obtain ⟨m, rfl⟩ : ∃ m, a = N + m := ⟨a - N, by omega⟩
    rw [Nat.add_sub_cancel_left] at hb
    have hp := List.getElem?_eq_getElem hb
    simp only [pairObs_pair _ _ _ _ hp]
    rw [List.length_map, List.length_range, Nat.add_sub_cancel_left,
      List.getD_eq_getElem _ _ (by simpa using hb), List.getElem_map, hexp]

/-- C23. Every entry of the result lies between -1 and 1. -/
theorem C23_range (N : ℕ) (X : Data) (hX : X ≠ [])
    (hok : ∀ row ∈ X, ∀ x ∈ row, x = -1 ∨ x = 0 ∨ x = 1) (dlamda : List ℝ) :
    ∃ r, mchIsing N X dlamda = .ok r ∧ ∀ v ∈ r, ∃ x : ℝ, v = some x ∧ -1 ≤ x ∧ x ≤ 1 := by
  refine ⟨_, mchIsing_eq N X hX hok dlamda, ?_⟩
  intro v hv
  rcases List.mem_append.1 hv with hv | hv
  · obtain ⟨j, _, rfl⟩ := List.mem_map.1 hv
    exact ⟨_, rfl, expect_abs_le X hX _ _ fun s hs => abs_entry_le X hok s hs j⟩
  · obtain ⟨p, _, rfl⟩ := List.mem_map.1 hv
    refine ⟨_, rfl, expect_abs_le X hX _ _ fun s hs => ?_⟩
    rw [abs_mul]
    exact mul_le_one₀ (abs_entry_le X hok s hs p.1) (abs_nonneg _) (abs_entry_le X hok s hs p.2)

/-- C23. With no parameter change the result is the plain sample mean, i.e. `pair_corr(samples)`. -/
theorem C23_zero_change (N : ℕ) (X : Data) (hX : X ≠ [])
    (hok : ∀ row ∈ X, ∀ x ∈ row, x = -1 ∨ x = 0 ∨ x = 1) (hlen : ∀ row ∈ X, row.length = N) :
    mchIsing N X (List.replicate (N + N * (N - 1) / 2) 0) =
      pairCorrConcat N X (.none : Weights ℝ) false false false := by
  rw [mchIsing_eq N X hX hok, C07_concat _ _ _ _ _ _ _ _ (C07_means N X hok)]
  have hE : ∀ s ∈ X, isingCalcERow (List.replicate (N + N * (N - 1) / 2) (0 : ℝ)) s = 0 := by
    intro s hs
    have := hlen s hs
    subst this
    rw [List.replicate_add, isingCalcERow_eq _ _ s (by simp)]
    unfold dot
    rw [neg_eq_zero]
    apply List.sum_eq_zero
    intro v hv
    obtain ⟨i, hi, rfl⟩ := List.mem_iff_getElem.1 hv
    rw [List.getElem_zipWith]
    have : (List.replicate s.length (0 : ℝ) ++ List.replicate (s.length * (s.length - 1) / 2) 0)[i]'(by
        rw [List.length_zipWith] at hi; omega) = 0 := by
      simp
    rw [this, zero_mul]
  have hexp : ∀ f : List ℤ → ℝ,
      expect X (isingCalcERow (List.replicate (N + N * (N - 1) / 2) (0 : ℝ))) f = avg X f := by
    intro f
    rw [expect_congr X _ (fun _ => 0) f f hE (fun _ _ => rfl), expect_eq_div]
    unfold partition avg
    simp
  simp only [hexp]
  rfl

/-- C23. If the sample is distributed exactly as the model with parameters `h`, `J` over a list `S`
of distinct states, the result is the vector of exact moments of the model with parameters
`h + h'`, `J + J'`. -/
theorem C23_exact (N : ℕ) (S X : Data) (hS : S.Nodup) (hX : X ≠ []) (hXS : ∀ s ∈ X, s ∈ S)
    (hok : ∀ row ∈ X, ∀ x ∈ row, x = -1 ∨ x = 0 ∨ x = 1) (hlen : ∀ row ∈ S, row.length = N)
    (h J h' J' : List ℝ) (hh : h.length = N) (hJ : J.length = N * (N - 1) / 2)
    (hh' : h'.length = N) (hJ' : J'.length = N * (N - 1) / 2)
    (hdist : ∀ s ∈ S, (X.count s : ℝ) / X.length =
      boltzmann S (fun s => isingVecE N h J (spins s)) s) :
    mchIsing N X (h' ++ J') = .ok
      (((List.range N).map fun j => some (expect S (fun s =>
          isingVecE N (List.zipWith (· + ·) h h') (List.zipWith (· + ·) J J') (spins s))
            fun s => spins s j)) ++
        (upperPairs N).map fun p => some (expect S (fun s =>
          isingVecE N (List.zipWith (· + ·) h h') (List.zipWith (· + ·) J J') (spins s))
            fun s => spins s p.1 * spins s p.2)) := by
  rw [mchIsing_eq N X hX hok]
  have hE : ∀ s ∈ X, isingCalcERow (h' ++ J') s = isingVecE N h' J' (spins s) := by
    intro s hs
    have := hlen s (hXS s hs)
    subst this
    rw [isingCalcERow_eq h' J' s hh', dot_pairObs _ h' J' hh' hJ']
  have hadd : ∀ s : List ℤ, isingVecE N (List.zipWith (· + ·) h h') (List.zipWith (· + ·) J J') (spins s) =
      isingVecE N h J (spins s) + isingVecE N h' J' (spins s) := by
    intro s
    rw [← dot_pairObs _ h J hh hJ, ← dot_pairObs _ h' J' hh' hJ',
      ← dot_pairObs _ _ _ (by simp [hh, hh']) (by simp [hJ, hJ'])]
    have key : ∀ a b c : List ℝ, a.length = b.length →
        dot (List.zipWith (· + ·) a b) c = dot a c + dot b c := by
      intro a
      induction a with
      | nil => intro b c hb; have := List.length_eq_zero_iff.1 hb.symm; subst this; simp [dot]
      | cons x a ih =>
        intro b c hb
        rcases b with _ | ⟨y, b⟩
        · simp at hb
        rcases c with _ | ⟨z, c⟩
        · simp [dot]
        · rw [List.zipWith_cons_cons, dot_cons, dot_cons, dot_cons, ih b c (by simpa using hb)]
          ring
    rw [← List.zipWith_append (by rw [hh, hh']), key _ _ _ (by simp [hh, hh', hJ, hJ'])]
    ring
  have hexp : ∀ f : List ℤ → ℝ, expect X (isingCalcERow (h' ++ J')) f = expect S (fun s =>
      isingVecE N (List.zipWith (· + ·) h h') (List.zipWith (· + ·) J J') (spins s)) f := by
    intro f
    rw [expect_congr X _ (fun s => isingVecE N h' J' (spins s)) f f hE (fun _ _ => rfl),
      reweight S X hS hXS hX (fun s => isingVecE N h J (spins s)) _ f hdist]
    exact expect_congr _ _ _ _ _ (fun s _ => (hadd s).symm) (fun _ _ => rfl)
  simp only [hexp]

/-- C23. An empty sample raises. -/
theorem C23_empty_raises (N : ℕ) (dlamda : List ℝ) :
    mchIsing N [] dlamda = .error .valueError := by
  unfold mchIsing isingCalcE
  simp

/-- C23. Spins other than -1, 0 and 1 raise. -/
theorem C23_bad_entries_raise (N : ℕ) (X : Data)
    (hok : ¬ ∀ row ∈ X, ∀ x ∈ row, x = -1 ∨ x = 0 ∨ x = 1) (dlamda : List ℝ) :
    mchIsing N X dlamda = .error .assertion := by
  have hX : X ≠ [] := by rintro rfl; simp at hok
  have h1 : entriesOk X = false := by
    rw [Bool.eq_false_iff]
    intro h
    apply hok
    simpa [entriesOk] using h
  unfold mchIsing
  simp only
  rw [if_neg (by simpa [isingCalcE] using hX)]
  unfold pairCorrConcat pairCorr
  rw [h1]
  rfl

/-- C23. The Potts version: every entry is the reweighted mean of the observable, so the range
assertion never fires. -/
theorem C23_potts (k N : ℕ) (X : Data) (hX : X ≠ []) (hlen : ∀ s ∈ X, s.length = N)
    (h J : List ℝ) (hh : h.length = k * N) (hJ : J.length = N * (N - 1) / 2) :
    ∃ r, mchPotts k N X (h ++ J) = .ok r ∧ r.length = N * k + N * (N - 1) / 2 ∧
      (∀ a < k, ∀ i < N, r.getD (a * N + i) 0 =
        expect X (fun s => pottsVecE N k h J fun i => s.getD i 0)
          fun s => if s.getD i 0 = (a : ℤ) then 1 else 0) ∧
      ∀ m p, (upperPairs N)[m]? = some p → r.getD (k * N + m) 0 =
        expect X (fun s => pottsVecE N k h J fun i => s.getD i 0)
          fun s => if s.getD p.1 0 = s.getD p.2 0 then 1 else 0 := by
  refine ⟨_, mchPotts_eq k N X hX hlen h J hh hJ, by simp, ?_, ?_⟩
  · intro a ha i hi
    have hlt : a * N + i < N * k + N * (N - 1) / 2 := by
      have : a * N + i < k * N := by
        calc a * N + i < a * N + N := by omega
          _ = (a + 1) * N := by ring
          _ ≤ k * N := Nat.mul_le_mul_right _ ha
      rw [Nat.mul_comm N k]; omega
    rw [List.getD_eq_getElem _ _ (by simpa using hlt), List.getElem_map, List.getElem_range]
    apply expect_congr
    · intro _ _; rfl
    · intro s _
      exact pottsObs_field N k _ a i ha hi
  · intro m p hm
    have hlt : k * N + m < N * k + N * (N - 1) / 2 := by
      have := (List.getElem?_eq_some_iff.1 hm).1
      rw [length_upperPairs] at this
      rw [Nat.mul_comm N k]; omega
    rw [List.getD_eq_getElem _ _ (by simpa using hlt), List.getElem_map, List.getElem_range]
    apply expect_congr
    · intro _ _; rfl
    · intro s _
      unfold pottsObs
      rw [List.getD_append_right _ _ _ _ (by simp)]
      simp [hm]

/-- Non-vacuity of C23: a sample that meets all hypotheses of `C23_exact` for the model with zero
parameters. -/
example : ∀ s ∈ ([[1, 1], [1, -1], [-1, 1], [-1, -1]] : Data),
    (([[1, 1], [1, -1], [-1, 1], [-1, -1]] : Data).count s : ℝ) /
        ([[1, 1], [1, -1], [-1, 1], [-1, -1]] : Data).length =
      boltzmann [[1, 1], [1, -1], [-1, 1], [-1, -1]]
        (fun s : List ℤ => isingVecE 2 [0, 0] [0] (spins s)) s := by
  have hz : ∀ s : List ℤ, isingVecE 2 [(0 : ℝ), 0] [0] (spins s) = 0 := by
    intro s
    rw [← dot_pairObs 2 [0, 0] [0] rfl rfl]
    have hp : upperPairs 2 = [(0, 1)] := by decide
    simp [dot, pairObs, hp, List.range_succ]
  have hc : ∀ s ∈ ([[1, 1], [1, -1], [-1, 1], [-1, -1]] : Data),
      ([[1, 1], [1, -1], [-1, 1], [-1, -1]] : Data).count s = 1 := by decide
  intro s hs
  rw [hc s hs]
  simp [boltzmann, partition, hz]
  norm_num

/-- C24. `adj` lists the `n` single-flip neighbours of a {0,1} state, in order, and leaves the state
as it was. -/
theorem C24_adj [Field K] [LinearOrder K] (s : List ℤ) (m : ℕ) (draws : List (List K)) (nb s') 
    (h : adj s m draws = some (nb, s')) :
    s' = s ∧ nb.length = s.length + m ∧ ∀ i < s.length,
      (nb.getD i []).length = s.length ∧ (nb.getD i []).getD i 0 = 1 - s.getD i 0 ∧
        ∀ j, j ≠ i → (nb.getD i []).getD j 0 = s.getD j 0 := by
  unfold adj adjGen at h
  rw [flipScan_eq _ (by intro x; ring)] at h
  obtain ⟨r, hr, e⟩ := Option.map_eq_some_iff.1 h
  cases e
  obtain ⟨h1, -⟩ := drawNeighbors_some _ _ _ _ hr
  refine ⟨rfl, by simp [h1], ?_⟩
  intro i hi
  rw [List.getD_append _ _ _ _ (by simpa using hi), List.getD_eq_getElem _ _ (by simpa using hi),
    List.getElem_map, List.getElem_range]
  refine ⟨by simp, by simp [hi], ?_⟩
  intro j hj
  simp [List.getElem?_set_ne (Ne.symm hj)]

/-- C24. `adj_sym` the same for {-1,1}. -/
theorem C24_adj_sym [Field K] [LinearOrder K] (s : List ℤ) (m : ℕ) (draws : List (List K)) (nb s') 
    (h : adjSym s m draws = some (nb, s')) :
    s' = s ∧ nb.length = s.length + m ∧ ∀ i < s.length,
      (nb.getD i []).length = s.length ∧ (nb.getD i []).getD i 0 = -s.getD i 0 ∧
        ∀ j, j ≠ i → (nb.getD i []).getD j 0 = s.getD j 0 := by
  unfold adjSym adjGen at h
  rw [flipScan_eq _ (by intro x; ring)] at h
  obtain ⟨r, hr, e⟩ := Option.map_eq_some_iff.1 h
  cases e
  obtain ⟨h1, -⟩ := drawNeighbors_some _ _ _ _ hr
  refine ⟨rfl, by simp [h1], ?_⟩
  intro i hi
  rw [List.getD_append _ _ _ _ (by simpa using hi), List.getD_eq_getElem _ _ (by simpa using hi),
    List.getElem_map, List.getElem_range]
  refine ⟨by simp, by simp [hi], ?_⟩
  intro j hj
  simp [List.getElem?_set_ne (Ne.symm hj)]

/-- C24. On a valid state every one-flip neighbour is a valid state different from it. -/
theorem C24_flips_valid (s : List ℤ) (i : ℕ) (hi : i < s.length) :
    ((∀ x ∈ s, x = 0 ∨ x = 1) → s.set i (1 - s.getD i 0) ≠ s ∧
      ∀ x ∈ s.set i (1 - s.getD i 0), x = 0 ∨ x = 1) ∧
    ((∀ x ∈ s, x = -1 ∨ x = 1) → s.set i (-s.getD i 0) ≠ s ∧
      ∀ x ∈ s.set i (-s.getD i 0), x = -1 ∨ x = 1) := by
  have key : ∀ v : ℤ, v ≠ s.getD i 0 → s.set i v ≠ s := by
    intro v hv e
    apply hv
    have : (s.set i v).getD i 0 = s.getD i 0 := by rw [e]
    rw [← this]; simp [hi]
  have hmem : s.getD i 0 ∈ s := by rw [List.getD_eq_getElem _ _ hi]; exact List.getElem_mem hi
  constructor
  · intro hs
    refine ⟨key _ (by rcases hs _ hmem with h | h <;> rw [h] <;> decide), ?_⟩
    intro x hx
    rcases List.mem_or_eq_of_mem_set hx with h | rfl
    · exact hs x h
    · rcases hs _ hmem with h | h <;> rw [h] <;> decide
  · intro hs
    refine ⟨key _ (by rcases hs _ hmem with h | h <;> rw [h] <;> decide), ?_⟩
    intro x hx
    rcases List.mem_or_eq_of_mem_set hx with h | rfl
    · exact hs x h
    · rcases hs _ hmem with h | h <;> rw [h] <;> decide

/-- C24. The random neighbours are valid states of the right length and different from `s`, for every
random stream. -/
theorem C24_random [Field K] [LinearOrder K] (s : List ℤ) (m : ℕ) (draws : List (List K))
    (hd : ∀ u ∈ draws, u.length = s.length) (nb s') :
    (adj s m draws = some (nb, s') → ∀ c ∈ nb.drop s.length,
      c ≠ s ∧ c.length = s.length ∧ ∀ x ∈ c, x = 0 ∨ x = 1) ∧
    (adjSym s m draws = some (nb, s') → ∀ c ∈ nb.drop s.length,
      c ≠ s ∧ c.length = s.length ∧ ∀ x ∈ c, x = -1 ∨ x = 1) := by
  have key : ∀ (flip : ℤ → ℤ) (lo hi : ℤ), (∀ x, flip (flip x) = x) →
      adjGen flip lo hi s m draws = some (nb, s') → ∀ c ∈ nb.drop s.length,
      c ≠ s ∧ c.length = s.length ∧ ∀ x ∈ c, x = lo ∨ x = hi := by
    intro flip lo hi hf h c hc
    unfold adjGen at h
    rw [flipScan_eq _ hf] at h
    obtain ⟨r, hr, e⟩ := Option.map_eq_some_iff.1 h
    cases e
    rw [List.drop_left' (by simp)] at hc
    obtain ⟨-, h2⟩ := drawNeighbors_some _ _ _ _ hr
    obtain ⟨h3, h4⟩ := h2 c hc
    obtain ⟨u, hu, rfl⟩ := List.mem_map.1 h4
    refine ⟨h3, by simp [candidate, hd u hu], ?_⟩
    intro x hx
    obtain ⟨y, _, rfl⟩ := List.mem_map.1 hx
    split
    · exact Or.inr rfl
    · exact Or.inl rfl
  exact ⟨key _ 0 1 (by intro x; ring), key _ (-1) 1 (by intro x; ring)⟩

/-- C24. The call ends exactly when the stream has enough draws different from `s`; so for `n ≥ 1` it
ends on every stream that has them, and without random neighbours always. -/
theorem C24_ends [Field K] [LinearOrder K] (s : List ℤ) (m : ℕ) (draws : List (List K)) :
    (∃ r, adj s m draws = some r) ↔
      m ≤ ((draws.map (candidate 0 1)).filter (· ≠ s)).length := by
  unfold adj adjGen
  rw [flipScan_eq _ (by intro x; ring), ← drawNeighbors_isSome]
  simp only [Option.map_eq_some_iff]
  exact ⟨fun ⟨_, nb, h, _⟩ => ⟨nb, h⟩, fun ⟨nb, h⟩ => ⟨_, nb, h, rfl⟩⟩

/-- Finding next to C24: for a state without spins no stream is enough (the loop never ends). -/
theorem C24_no_spins_diverges [Field K] [LinearOrder K] (m : ℕ) (draws : List (List K))
    (hd : ∀ u ∈ draws, u.length = 0) : adj [] (m + 1) draws = none := by
  rw [Option.eq_none_iff_forall_ne_some]
  intro r h
  have h1 := (C24_ends [] (m + 1) draws).1 ⟨r, h⟩
  have : (draws.map (candidate 0 1)).filter (· ≠ []) = [] := by
    rw [List.filter_eq_nil_iff]
    intro c hc
    obtain ⟨u, hu, rfl⟩ := List.mem_map.1 hc
    have := List.length_eq_zero_iff.1 (hd u hu)
    subst this
    simp [candidate]
  rw [this] at h1
  simp at h1

/-- Non-vacuity of C24. -/
example : adj [0, 1] 1 ([[7/10, 1/10], [1/10, 1/5]] : List (List ℚ)) =
    some ([[1, 1], [0, 0], [1, 1]], [0, 1]) ∧
    adjSym [1, -1] 0 ([] : List (List ℚ)) = some ([[-1, -1], [1, 1]], [1, -1]) := by
  decide +kernel

/-- C25. For every parameter `i` and every row, changing that parameter by `ε` changes the energy by
`ε` times `calc_de`. -/
theorem C25_difference [CommRing K] (n : ℕ) (X : Data) (hX : ∀ s ∈ X, s.length = n) (θ : List K)
    (hθ : θ.length = n + n * (n - 1) / 2) (i : ℕ) (hi : i < θ.length) (ε : K) :
    ∃ d, calcDe n X i = .ok d ∧ isingCalcE X (θ.set i (θ.getD i 0 + ε)) =
      List.zipWith (fun e d => e + ε * d) (isingCalcE X θ) d := by
  have hE : ∀ η : List K, η.length = n + n * (n - 1) / 2 → ∀ s ∈ X,
      isingCalcERow η s = -dot η (pairObs n (spins s)) := by
    intro η hη s hs
    have := hX s hs
    subst this
    have h1 := isingCalcERow_eq (η.take s.length) (η.drop s.length) s (by simp; omega)
    rwa [List.take_append_drop] at h1
  have hobs : calcDe n X i = .ok (X.map fun s => -(pairObs n (spins s)).getD i (0 : K)) := by
    unfold calcDe
    by_cases h : i < n
    · rw [if_pos h]
      congr 1
      apply List.map_congr_left
      intro s _
      unfold pairObs
      rw [List.getD_append _ _ _ _ (by simpa using h), List.getD_eq_getElem _ _ (by simpa using h),
        List.getElem_map, List.getElem_range]
      rfl
    · have hb : i - n < (upperPairs n).length := by rw [length_upperPairs]; omega
      rw [if_neg h, indToSub_eq, List.getElem?_eq_getElem hb]
      simp only
      congr 1
      apply List.map_congr_left
      intro s _
      unfold pairObs
      rw [List.getD_append_right _ _ _ _ (by simpa using h), List.length_map, List.length_range,
        List.getD_eq_getElem _ _ (by simpa using hb), List.getElem_map, neg_mul]
      rfl
  refine ⟨_, hobs, ?_⟩
  unfold isingCalcE
  rw [List.zipWith_map, List.zipWith_self]
  apply List.map_congr_left
  intro s hs
  rw [hE _ (by simpa using hθ) s hs, hE θ hθ s hs, dot_set_add θ _ i ε hi (by
    unfold pairObs; simp [length_upperPairs]; omega)]
  ring

/-- C25. What it is: `-s_i` for a field, `-s_a s_b` for the coupling of the pair `(a, b)` at that
position of the row-major order. -/
theorem C25_values [CommRing K] (n : ℕ) (X : Data) :
    (∀ i < n, calcDe n X i = .ok (X.map fun s => -((s.getD i 0 : ℤ) : K))) ∧
    (∀ m a b, (upperPairs n)[m]? = some (a, b) → calcDe n X (n + m) =
      .ok (X.map fun s => -((s.getD a 0 : ℤ) : K) * ((s.getD b 0 : ℤ) : K))) ∧
    ∀ i, n + n * (n - 1) / 2 ≤ i → calcDe (K := K) n X i = .error .typeError := by
  refine ⟨?_, ?_, ?_⟩
  · intro i hi
    unfold calcDe
    rw [if_pos hi]; rfl
  · intro m a b h
    unfold calcDe
    rw [if_neg (by omega), Nat.add_sub_cancel_left, indToSub_eq, h]; rfl
  · intro i hi
    unfold calcDe
    rw [if_neg (by omega), C02_out_of_range n (i - n) (by omega)]

/-- C25. Over the reals it is the partial derivative of `calc_e`. -/
theorem C25_derivative (n : ℕ) (s : List ℤ) (hs : s.length = n) (θ : List ℝ)
    (hθ : θ.length = n + n * (n - 1) / 2) (i : ℕ) (hi : i < θ.length) :
    ∃ d, calcDe n [s] i = .ok [d] ∧
      HasDerivAt (fun x => isingCalcERow (θ.set i x) s) d (θ.getD i 0) := by
  obtain ⟨dl, h1, h2⟩ := C25_difference n [s] (by simpa using hs) θ hθ i hi 1
  have hlen : dl.length = 1 := by
    have := congrArg List.length h2
    simp [isingCalcE] at this
    unfold calcDe at h1
    split at h1
    · cases h1; simp
    · split at h1
      · cases h1
      · cases h1; simp
  obtain ⟨d, rfl⟩ := List.length_eq_one_iff.1 hlen
  refine ⟨d, h1, ?_⟩
  have hfun : (fun x => isingCalcERow (θ.set i x) s) =
      fun x => isingCalcERow θ s + (x - θ.getD i 0) * d := by
    funext x
    obtain ⟨d', h3, h4⟩ := C25_difference n [s] (by simpa using hs) θ hθ i hi (x - θ.getD i 0)
    rw [h1] at h3
    cases h3
    simpa [isingCalcE] using h4
  rw [hfun]
  have h5 := (((hasDerivAt_id (θ.getD i 0)).sub_const (θ.getD i 0)).mul_const d).const_add
    (isingCalcERow θ s)
  simpa using h5

/-- Non-vacuity of C25. -/
example : calcDe (K := ℚ) 3 [[1, -1, 1], [1, 1, 1]] 4 = .ok [-1, -1] ∧
    calcDe (K := ℚ) 3 [[1, -1, 1], [1, 1, 1]] 5 = .ok [1, -1] ∧
    calcDe (K := ℚ) 3 [[1, -1, 1]] 6 = .error .typeError := by decide +kernel

/-- C26 as stated asks this for every similarity function; it holds when all similarities are
positive (`PosSim`), and `C26_negative_fails` shows that it does not hold without. The bins
partition the columns: every column index is in exactly one bin, once; no bin is empty; there are
`⌈n / 2^n_times⌉` bins, one per column of the coarse data. -/
theorem C26_bins_partition_partial {γ : Type*} [Inhabited γ] [Zero K] [LinearOrder K]
    (cols : List γ) (nTimes : ℕ) (hn : 2 ^ nTimes < cols.length) (sim : List γ → List K)
    (hsim : ∀ L : List γ, (sim L).length = L.length * (L.length - 1) / 2 ∧ ∀ x ∈ sim L, 0 < x)
    (coarse : List γ → γ) :
    ∃ cols' bins, coarseGrain cols nTimes sim coarse = .ok (cols', bins) ∧
      bins.flatten.Perm (List.range cols.length) ∧
      (∀ i < cols.length, ∃! k, k < bins.length ∧ i ∈ bins.getD k []) ∧
      bins.length = (cols.length + 2 ^ nTimes - 1) / 2 ^ nTimes ∧
      cols'.length = bins.length ∧ ∀ b ∈ bins, b ≠ [] := by
  obtain ⟨cols', bins, e, hp, hl, hc, hne, -⟩ := cgRounds_good sim coarse hsim (fun _ _ => True)
    (fun _ _ _ => trivial) nTimes cols ((pyRange 0 cols.length).map fun i => [i]) hn
    (by simp [pyRange]) (by simp) (fun _ _ => trivial)
  have hflat : ((pyRange 0 cols.length).map fun i => [i]).flatten = List.range cols.length := by
    rw [show pyRange 0 cols.length = List.range cols.length by simp [pyRange, List.range_eq_range']]
    induction (List.range cols.length) with
    | nil => rfl
    | cons a l ih => simp [ih]
  rw [hflat] at hp
  have hnd : bins.flatten.Nodup := hp.nodup_iff.2 List.nodup_range
  refine ⟨cols', bins, ?_, hp, ?_, hl, hc, hne⟩
  · unfold coarseGrain
    rw [if_neg (by simpa using hn)]; exact e
  · intro i hi
    have hmem : i ∈ bins.flatten := hp.mem_iff.2 (List.mem_range.2 hi)
    obtain ⟨b, hb, hib⟩ := List.mem_flatten.1 hmem
    obtain ⟨k, hk, rfl⟩ := List.mem_iff_getElem.1 hb
    refine ⟨k, ⟨hk, by rwa [List.getD_eq_getElem _ _ hk]⟩, ?_⟩
    rintro k' ⟨hk', hik'⟩
    rw [List.getD_eq_getElem _ _ hk'] at hik'
    have hdis := (List.nodup_flatten.1 hnd).2
    rw [List.pairwise_iff_getElem] at hdis
    rcases Nat.lt_trichotomy k k' with h | h | h
    · exact absurd hik' (hdis k k' hk hk' h hib)
    · exact h.symm
    · exact absurd hib (hdis k' k hk' hk h hik')

/-- C26. The data go with the bins: if the coarse-graining function adds the columns up, then each
coarse column is the sum of the original columns in its bin. -/
theorem C26_columns_follow_bins {γ : Type*} [Inhabited γ] [AddCommMonoid γ] [Zero K] [LinearOrder K]
    (cols : List γ) (nTimes : ℕ) (hn : 2 ^ nTimes < cols.length) (sim : List γ → List K)
    (hsim : ∀ L : List γ, (sim L).length = L.length * (L.length - 1) / 2 ∧ ∀ x ∈ sim L, 0 < x) :
    ∃ cols' bins, coarseGrain cols nTimes sim List.sum = .ok (cols', bins) ∧
      ∀ k < cols'.length, cols'.getD k default =
        ((bins.getD k []).map fun i => cols.getD i default).sum := by
  obtain ⟨cols', bins, e, -, -, -, -, h⟩ := cgRounds_good sim List.sum hsim
    (fun c b => c = (b.map fun i => cols.getD i default).sum)
    (by
      intro L hL hq
      clear hL
      induction L with
      | nil => rfl
      | cons q L ih =>
        simp only [List.map_cons, List.sum_cons, List.flatten_cons, List.map_append, List.sum_append]
        rw [ih fun x hx => hq x (List.mem_cons_of_mem _ hx), hq q (by simp)])
    nTimes cols ((pyRange 0 cols.length).map fun i => [i]) hn
    (by simp [pyRange]) (by simp) (by
      intro i hi
      rw [show pyRange 0 cols.length = List.range cols.length by simp [pyRange, List.range_eq_range']]
      rw [List.getD_eq_getElem ((List.range cols.length).map fun i => [i]) _ (by simpa using hi)]
      simp)
  refine ⟨cols', bins, ?_, h⟩
  unfold coarseGrain
  rw [if_neg (by simpa using hn)]; exact e

/-- C26. The first pair merged in a round is one with the largest similarity. -/
theorem C26_merges_most_similar [Zero K] [LinearOrder K] (n : ℕ) (hn : 2 ≤ n) (v : List K)
    (hv : v.length = n * (n - 1) / 2) (hpos : ∀ x ∈ v, 0 < x) :
    ∃ a b rest, cgClusters n v = .ok ([a, b] :: rest) ∧ a < b ∧ b < n ∧
      ∀ x ∈ v, x ≤ v.getD ((upperPairs n).idxOf (a, b)) 0 :=
  cgClusters_first n hn v hv hpos

/-- C26. Too many rounds raise. -/
theorem C26_too_many_rounds_raise {γ : Type*} [Inhabited γ] [Zero K] [LinearOrder K]
    (cols : List γ) (nTimes : ℕ) (hn : cols.length ≤ 2 ^ nTimes) (sim : List γ → List K)
    (coarse : List γ → γ) : coarseGrain cols nTimes sim coarse = .error .assertion := by
  unfold coarseGrain
  rw [if_pos (by omega)]

/-- Finding: with negative similarities (anticorrelated columns) the maximum sits on the zero
diagonal. Column 0 is merged with itself and column 2 is in no bin. -/
theorem C26_negative_fails :
    coarseGrain ([10, 20, 30] : List ℚ) 1 (fun _ => ([-1, -1, -1] : List ℚ)) List.sum =
      .ok ([20, 20], [[0, 0], [1]]) := by decide +kernel

/-- Non-vacuity of C26. -/
example : coarseGrain ([1, 2, 3, 4, 5] : List ℚ) 2
    (fun L => (loopPairs L.length).map fun p => L.getD p.1 0 + L.getD p.2 0) List.sum =
      .ok ([14, 1], [[3, 4, 1, 2], [0]]) := by decide +kernel

end Verif.Props
