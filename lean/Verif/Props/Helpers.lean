/-
C19, C20, C21, C22: energies, observables and the terms of one spin.
-/
import Verif.Lemmas.PottsHelpers

namespace Verif.Props
open Verif Verif.Model Verif.Spec Verif.Lemmas

variable {K : Type*}

/-- C19. `calc_e` of a row is the Ising energy of that row. -/
theorem C19_calc_e_is_energy [CommRing K] (s : List ℤ) (h J : List K) (hh : h.length = s.length)
    (hJ : J.length = s.length * (s.length - 1) / 2) :
    isingCalcERow (h ++ J) s = isingVecE s.length h J (spins s) := by
  rw [isingCalcERow_eq h J s hh, dot_pairObs _ h J hh hJ]

/-- C19. `calc_observables` of a row never writes out of range and gives the spins followed by the
products of all pairs. -/
theorem C19_calc_observables [CommRing K] (s : List ℤ) :
    isingObservables (K := K) s = .ok ((s.map fun x : ℤ => (x : K)) ++
      (upperPairs s.length).map fun p =>
        ((s.getD p.1 0 : ℤ) : K) * ((s.getD p.2 0 : ℤ) : K)) := by
  rw [isingObservables_eq, pairObs, map_spins_range]; rfl

/-- C19. `calc_e` is minus the dot product of the observables with the parameters. -/
theorem C19_calc_e_eq_neg_dot [CommRing K] (s : List ℤ) (θ : List K) (hθ : s.length ≤ θ.length) :
    ∃ obs, isingObservables (K := K) s = .ok obs ∧
      isingCalcERow θ s = -dot θ obs := by
  refine ⟨_, isingObservables_eq s, ?_⟩
  have := isingCalcERow_eq (θ.take s.length) (θ.drop s.length) s (by simpa using hθ)
  rwa [List.take_append_drop] at this

/-- C19. A whole sample is handled row by row. -/
theorem C19_rows [CommRing K] (X : Data) (n : ℕ) (hX : ∀ s ∈ X, s.length = n) (h J : List K)
    (hh : h.length = n) (hJ : J.length = n * (n - 1) / 2) :
    isingCalcE X (h ++ J) = X.map fun s => isingVecE n h J (spins s) := by
  unfold isingCalcE
  apply List.map_congr_left
  intro s hs
  have := hX s hs
  subst this
  exact C19_calc_e_is_energy s h J hh hJ

/-- C19. The model without fields is the Ising model with zero fields. -/
theorem C19_sym [CommRing K] (s : List ℤ) (J : List K)
    (hJ : J.length = s.length * (s.length - 1) / 2) :
    symCalcERow J s = isingVecE s.length (List.replicate s.length 0) J (spins s) ∧
    symObservables (K := K) s = .ok ((upperPairs s.length).map fun p =>
      ((s.getD p.1 0 : ℤ) : K) * ((s.getD p.2 0 : ℤ) : K)) := by
  constructor
  · rw [← C19_calc_e_is_energy s _ J (by simp) hJ]
    unfold symCalcERow isingCalcERow
    rw [List.take_left' (by simp), List.drop_left' (by simp)]
    have : (List.zipWith (fun (x : ℤ) p => (x : K) * p) s (List.replicate s.length (0 : K))).sum = 0 := by
      apply List.sum_eq_zero
      intro v hv
      obtain ⟨i, hi, rfl⟩ := List.mem_iff_getElem.1 hv
      simp
    rw [this, sub_zero]
  · unfold symObservables
    have h2 : ((pyRange 0 s.length).flatMap fun i => (pyRange (i + 1) s.length).map fun j => (i, j)) =
        upperPairs s.length := by
      rw [← loopPairs_eq_upperPairs]
      unfold loopPairs
      apply flatMap_pyRange_trim _ _ _ (by omega)
      intro i h1 h2
      rw [pyRange_nil (by omega)]; rfl
    simp only
    rw [h2, enumWrite_tail _ (fun p : ℕ × ℕ => (ent s p.1 * ent s p.2 : K)) _ _ _
      (fun _ _ _ => rfl) (by simp [length_upperPairs])]
    rfl

/-- Non-vacuity of C19. -/
example : isingCalcE [[1, -1, 1], [0, 1, 1]] ([1, 2, 3, 4, 5, 6] : List ℚ) = [3, -11] ∧
    isingObservables (K := ℚ) [1, -1, 1] = .ok [1, -1, 1, -1, 1, -1] := by decide +kernel

/-- C20. Triplet observables: all spins, all pair products, all triple products, each group
in lexicographic order. -/
theorem C20_triplet_observables [CommRing K] (s : List ℤ) (L1 L2 L3 : List (List ℕ))
    (h1 : IsCombinations s.length 1 L1) (h2 : IsCombinations s.length 2 L2)
    (h3 : IsCombinations s.length 3 L3) :
    tripletObservables (K := K) s = .ok ((L1 ++ L2 ++ L3).map fun t =>
      (t.map fun i => ((s.getD i 0 : ℤ) : K)).prod) := by
  rw [tripletObservables_eq, h1.unique (isCombinations_tuples _ _),
    h2.unique (isCombinations_tuples _ _), h3.unique (isCombinations_tuples _ _)]
  rfl

/-- C20. Triplet energy: minus the fields, couplings and triple couplings times their products. -/
theorem C20_triplet_energy [CommRing K] (s : List ℤ) (h J T : List K) (hh : h.length = s.length)
    (hJ : J.length = s.length * (s.length - 1) / 2)
    (hT : T.length = s.length * (s.length - 1) * (s.length - 2) / 6) :
    tripletCalcERow s (h ++ J ++ T) = .ok (polyE s.length [h, J, T] (spins s)) :=
  tripletCalcERow_eq s h J T hh hJ hT

/-- C20. Potts observables: the state indicators, state by state, then the pair indicators. -/
theorem C20_potts_observables [CommRing K] (k : ℕ) (s : List ℤ) :
    ∃ obs, pottsObservables (K := K) k s = .ok obs ∧
      obs.length = k * s.length + s.length * (s.length - 1) / 2 ∧
      (∀ a < k, ∀ i < s.length, obs.getD (a * s.length + i) 0 =
        if s.getD i 0 = (a : ℤ) then 1 else 0) ∧
      ∀ m p, (upperPairs s.length)[m]? = some p →
        obs.getD (k * s.length + m) 0 = if s.getD p.1 0 = s.getD p.2 0 then 1 else 0 := by
  refine ⟨_, pottsObservables_eq k s, length_pottsObs _ _ _, ?_, ?_⟩
  · intro a ha i hi
    exact pottsObs_field s.length k _ a i ha hi
  · intro m p hm
    unfold pottsObs
    rw [List.getD_append_right _ _ _ _ (by simp)]
    simp [hm]

/-- C20. Potts energy. -/
theorem C20_potts_energy [CommRing K] (k : ℕ) (s : List ℤ) (h J : List K)
    (hh : h.length = k * s.length) (hJ : J.length = s.length * (s.length - 1) / 2) :
    pottsCalcERow k s (h ++ J) = .ok (pottsVecE s.length k h J fun i => s.getD i 0) :=
  pottsCalcERow_eq k s h J hh hJ

/-- C20. A parameter vector of the wrong length raises in both models. -/
theorem C20_wrong_length_raises [CommRing K] (k : ℕ) (s : List ℤ) (θ : List K) :
    (θ.length ≠ k * s.length + s.length * (s.length - 1) / 2 →
      pottsCalcERow k s θ = .error .valueError) ∧
    (θ.length ≠ s.length + s.length * (s.length - 1) / 2 +
        s.length * (s.length - 1) * (s.length - 2) / 6 →
      tripletCalcERow s θ = .error .valueError) := by
  constructor
  · intro h
    unfold pottsCalcERow
    rw [pottsObservables_eq]
    simp only [bind, Except.bind, npDot]
    rw [if_neg (by rw [length_pottsObs]; exact fun e => h e.symm)]
  · intro h
    unfold tripletCalcERow
    rw [tripletObservables_eq]
    simp only [bind, Except.bind, npDot]
    rw [if_neg]
    intro e
    apply h
    rw [← e]
    simp only [List.length_map, List.length_append, length_tuples, choose_three,
      Nat.choose_two_right, Nat.choose_one_right]

/-- Finding next to C20: `define_ternary_helper_functions().calc_observables` reads column `n` of an
`n`-column state, whatever the state (unless it is empty). -/
theorem C20_ternary_out_of_range [CommRing K] (s : List ℤ) (hs : s ≠ []) :
    ternaryObservables (K := K) s = .error .indexError := ternary_error s hs

/-- Non-vacuity of C20. -/
example : tripletCalcERow [1, -1, 1] ([1, 2, 3, 4, 5, 6, 7] : List ℚ) = .ok 10 ∧
    pottsCalcERow 3 [2, 0, 2] ([1, 2, 3, 4, 5, 6, 7, 8, 9, 10, 20, 30] : List ℚ) = .ok (-38) := by
  decide +kernel

/-- C21. For every site the observables of that site times its parameters are `s_r` times the field
acting on it. -/
theorem C21_local_term [CommRing K] (n r : ℕ) (hr : r < n) (s : List ℤ) (h J : List K)
    (hh : h.length = n) (hJ : J.length = n * (n - 1) / 2) :
    ∃ obs m ix, calcObservablesR (K := K) n r s = .ok obs ∧
      getMultipliersR n r (h ++ J) = .ok (m, ix) ∧
      dot obs m = spins s r * localField n h J (spins s) r :=
  ⟨_, _, _, calcObservablesR_eq n r hr s, getMultipliersR_eq n r hr h J hh hJ,
    dot_obs_mult n r h J (spins s)⟩

/-- C21. Flipping spin `r` raises `calc_e` by exactly twice that number. -/
theorem C21_flip [CommRing K] (r : ℕ) (s : List ℤ) (hr : r < s.length) (h J : List K)
    (hh : h.length = s.length) (hJ : J.length = s.length * (s.length - 1) / 2) :
    ∃ obs m ix, calcObservablesR (K := K) s.length r s = .ok obs ∧
      getMultipliersR s.length r (h ++ J) = .ok (m, ix) ∧
      isingCalcERow (h ++ J) (s.set r (-s.getD r 0)) =
        isingCalcERow (h ++ J) s + 2 * dot obs m := by
  refine ⟨_, _, _, calcObservablesR_eq _ r hr s, getMultipliersR_eq _ r hr h J hh hJ, ?_⟩
  rw [C19_calc_e_is_energy s h J hh hJ,
    C19_calc_e_is_energy (s.set r (-s.getD r 0)) h J (by simpa using hh) (by simpa using hJ),
    spins_set s r hr, dot_obs_mult, List.length_set, isingVecE_update _ r hr]
  simp only [spins]
  push_cast
  ring

/-- C21. The returned positions are distinct, inside the parameter vector, and hold the returned
parameters; there are `n` of them. -/
theorem C21_positions [CommRing K] (n r : ℕ) (hr : r < n) (h J : List K)
    (hh : h.length = n) (hJ : J.length = n * (n - 1) / 2) :
    ∃ m ix, getMultipliersR n r (h ++ J) = .ok (m, ix) ∧ ix.Nodup ∧ ix.length = n ∧
      m = ix.map (fun p => (h ++ J).getD p 0) ∧ (∀ p ∈ ix, p < (h ++ J).length) ∧
      ∀ p, p ∈ ix ↔ p = r ∨ ∃ a b, (upperPairs n)[p - n]? = some (a, b) ∧ n ≤ p ∧ (a = r ∨ b = r) := by
  refine ⟨_, _, getMultipliersR_eq n r hr h J hh hJ, ?_, ?_, ?_, ?_, ?_⟩
  · rw [List.nodup_cons]
    refine ⟨?_, ?_⟩
    · intro hm
      obtain ⟨i, -, e⟩ := List.mem_map.1 hm
      omega
    · refine (nodup_otherSites n r).map_on ?_
      intro i hi j hj e
      obtain ⟨h1, h2⟩ := mem_otherSites.1 hi
      obtain ⟨h3, h4⟩ := mem_otherSites.1 hj
      exact pairPos_inj h1 hr h2 h4 (by omega)
  · simp [length_otherSites hr]; omega
  · rw [List.map_cons, List.map_map, List.getD_append _ _ _ _ (by omega)]
    congr 1
    apply List.map_congr_left
    intro i _
    simp only [Function.comp_apply]
    rw [List.getD_append_right _ _ _ _ (by omega), couplingOf_eq, hh, Nat.add_sub_cancel]
  · intro p hp
    rcases List.mem_cons.1 hp with rfl | hp
    · simp; omega
    · obtain ⟨i, hi, rfl⟩ := List.mem_map.1 hp
      obtain ⟨h1, h2⟩ := mem_otherSites.1 hi
      have := pairPos_lt h1 hr h2
      simp; omega
  · intro p
    rw [List.mem_cons]
    constructor
    · rintro (rfl | hp)
      · exact Or.inl rfl
      · obtain ⟨i, hi, rfl⟩ := List.mem_map.1 hp
        obtain ⟨h1, h2⟩ := mem_otherSites.1 hi
        refine Or.inr ⟨min i r, max i r, ?_, by omega, by omega⟩
        rw [Nat.add_sub_cancel]
        unfold pairPos
        have hm : (min i r, max i r) ∈ upperPairs n := mem_upperPairs.2 (by omega)
        rw [List.getElem?_eq_getElem (List.idxOf_lt_length_of_mem hm), List.getElem_idxOf]
    · rintro (rfl | ⟨a, b, e, hp, hab⟩)
      · exact Or.inl rfl
      · right
        obtain ⟨hlt, e'⟩ := List.getElem?_eq_some_iff.1 e
        have hm : (a, b) ∈ upperPairs n := e' ▸ List.getElem_mem hlt
        have hm' := mem_upperPairs.1 hm
        rw [List.mem_map]
        have hpos : (upperPairs n).idxOf (a, b) = p - n := by
          rw [← e', (nodup_upperPairs n).idxOf_getElem]
        rcases hab with rfl | rfl
        · refine ⟨b, mem_otherSites.2 (by omega), ?_⟩
          unfold pairPos
          rw [min_eq_right hm'.1.le, max_eq_left hm'.1.le, hpos]; omega
        · refine ⟨a, mem_otherSites.2 (by omega), ?_⟩
          unfold pairPos
          rw [min_eq_left hm'.1.le, max_eq_right hm'.1.le, hpos]; omega

/-- Non-vacuity of C21. -/
example : calcObservablesR (K := ℚ) 3 1 [1, -1, -1] = .ok [-1, -1, 1] ∧
    getMultipliersR 3 1 ([1, 2, 3, 4, 5, 6] : List ℚ) = .ok ([2, 4, 6], [1, 3, 5]) := by
  decide +kernel

/-- C22. The alternative states are exactly the other states of spin `r`, in increasing order, and
for each of them the difference of the two dot products is the energy difference of the two full
configurations. -/
theorem C22_energy_differences [CommRing K] (k r x : ℕ) (s : List ℤ) (hr : r < s.length)
    (hx : x < k) (hs : s.getD r 0 = (x : ℤ)) (h J : List K)
    (hh : h.length = k * s.length) (hJ : J.length = s.length * (s.length - 1) / 2) :
    ∃ obs others states m ix, pottsObservablesR (K := K) s.length k r s = .ok (obs, others, states) ∧
      pottsMultipliersR s.length k r (h ++ J) = .ok (m, ix) ∧
      states = (List.range k).filter (fun b => b ≠ x) ∧ others.length = states.length ∧
      ∀ t, (ht : t < states.length) → ∃ E E',
        pottsCalcERow k s (h ++ J) = .ok E ∧
        pottsCalcERow k (s.set r (states[t] : ℤ)) (h ++ J) = .ok E' ∧
        dot (others.getD t []) m - dot obs m = E - E' := by
  refine ⟨_, _, _, _, _, pottsObservablesR_eq _ k r hr s x hx hs,
    pottsMultipliersR_eq _ k r hr (by omega) h J hh hJ, rfl, by simp, ?_⟩
  intro t ht
  refine ⟨_, _, pottsCalcERow_eq k s h J hh hJ,
    pottsCalcERow_eq k _ h J (by simpa using hh) (by simpa using hJ), ?_⟩
  set b := (otherSites k x)[t] with hb
  obtain ⟨hb1, hb2⟩ := mem_otherSites.1 (List.getElem_mem ht)
  rw [List.getD_eq_getElem _ _ (by simpa using ht), List.getElem_map, ← hb,
    dot_pottsSpinObs _ k h J _ r b hb1, dot_pottsSpinObs _ k h J _ r x hx, List.length_set]
  have key := pottsVecE_update s.length k r hr h J (fun i => s.getD i 0) b x hb1 hx
  have e1 : (fun i => if i = r then (x : ℤ) else s.getD i 0) = fun i => s.getD i 0 := by
    funext i
    by_cases hi : i = r
    · subst hi; rw [if_pos rfl, hs]
    · rw [if_neg hi]
  have e2 : (fun i => if i = r then (b : ℤ) else s.getD i 0) = fun i => (s.set r (b : ℤ)).getD i 0 := by
    funext i
    by_cases hi : i = r
    · subst hi; simp [hr]
    · simp [hi, List.getElem?_set_ne (Ne.symm hi)]
  rw [e1, e2] at key
  linear_combination key

/-- C22. The positions returned with the parameters hold these parameters. -/
theorem C22_positions [CommRing K] (n k r : ℕ) (hr : r < n) (hk : 1 ≤ k) (h J : List K)
    (hh : h.length = k * n) (hJ : J.length = n * (n - 1) / 2) :
    ∃ m ix, pottsMultipliersR n k r (h ++ J) = .ok (m, ix) ∧ ix.Nodup ∧
      ix.length = k + (n - 1) ∧ m = ix.map (fun p => (h ++ J).getD p 0) ∧
      ∀ p ∈ ix, p < (h ++ J).length := by
  have hlt : ∀ a < k, a * n + r < k * n := by
    intro a ha
    calc a * n + r < a * n + n := by omega
      _ = (a + 1) * n := by ring
      _ ≤ k * n := Nat.mul_le_mul_right _ ha
  refine ⟨_, _, pottsMultipliersR_eq n k r hr hk h J hh hJ, ?_, ?_, ?_, ?_⟩
  · rw [List.nodup_append]
    refine ⟨?_, ?_, ?_⟩
    · refine (List.nodup_range).map_on ?_
      intro a _ b _ e
      exact Nat.eq_of_mul_eq_mul_right (by omega : 0 < n) (by omega)
    · refine (nodup_otherSites n r).map_on ?_
      intro i hi j hj e
      obtain ⟨h1, h2⟩ := mem_otherSites.1 hi
      obtain ⟨h3, h4⟩ := mem_otherSites.1 hj
      exact pairPos_inj h1 hr h2 h4 (by omega)
    · intro p hp q hq e
      obtain ⟨a, ha, rfl⟩ := List.mem_map.1 hp
      obtain ⟨i, hi, rfl⟩ := List.mem_map.1 hq
      have := hlt a (List.mem_range.1 ha)
      omega
  · simp [length_otherSites hr]
  · rw [List.map_append, List.map_map, List.map_map]
    congr 1
    · apply List.map_congr_left
      intro a ha
      simp only [Function.comp_apply]
      rw [List.getD_append _ _ _ _ (by rw [hh]; exact hlt a (List.mem_range.1 ha))]
    · apply List.map_congr_left
      intro i _
      simp only [Function.comp_apply]
      rw [List.getD_append_right _ _ _ _ (by omega), couplingOf_eq, hh, Nat.add_sub_cancel]
  · intro p hp
    rcases List.mem_append.1 hp with hp | hp
    · obtain ⟨a, ha, rfl⟩ := List.mem_map.1 hp
      have := hlt a (List.mem_range.1 ha)
      simp; omega
    · obtain ⟨i, hi, rfl⟩ := List.mem_map.1 hp
      obtain ⟨h1, h2⟩ := mem_otherSites.1 hi
      have := pairPos_lt h1 hr h2
      simp; omega

/-- C22. A spin outside the range of states raises. -/
theorem C22_bad_state_raises [CommRing K] (n k r : ℕ) (hr : r < n) (hk : 1 ≤ k) (s : List ℤ)
    (hs : ∀ a < k, s.getD r 0 ≠ (a : ℤ)) (res) :
    pottsObservablesR (K := K) n k r s ≠ .ok res := potts_bad_state n k r hr hk s hs res

/-- Non-vacuity of C22. -/
example : pottsObservablesR (K := ℚ) 3 3 1 [2, 0, 2] =
    .ok ([1, 0, 0, 0, 0], [[0, 1, 0, 0, 0], [0, 0, 1, 1, 1]], [1, 2]) ∧
    pottsMultipliersR 3 3 1 ([1, 2, 3, 4, 5, 6, 7, 8, 9, 10, 20, 30] : List ℚ) =
      .ok ([2, 5, 8, 10, 30], [1, 4, 7, 9, 11]) := by decide +kernel

end Verif.Props
