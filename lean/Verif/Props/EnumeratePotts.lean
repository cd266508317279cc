/-
C31: the Potts equation writer of coniii/enumerate_potts.py and the modules it writes.
-/
import Verif.Lemmas.PottsModule
import Verif.Lemmas.PottsHelpers
import Mathlib.Tactic.NormNum

namespace Verif.Props
open Verif Verif.Model Verif.Spec Verif.Lemmas

/-- C31. Up to ten states: `p(params)` of the module is the Boltzmann distribution over all words, in
the order of `xpotts_states`. (Missing from the full claim: more than ten states, see
`C31_more_states_fail`.) -/
theorem C31_probabilities_partial (est : ℕ → ℕ → ℕ) (n k : ℕ) (hn : 2 < n) (hk : 2 ≤ k) (hk' : k ≤ 10)
    (hest : ∀ i, i ≠ 0 → GoodEst (est i k) i k) :
    ∃ e, writePotts est n k = .ok e ∧
      xpottsStates est n k = .ok ((words ((List.range k).map fun a : ℕ => (a : ℤ)) n).map
        (List.map fun d => Char.ofNat (48 + d.toNat))) ∧
      ∀ h J : List ℝ, h.length = n * k → J.length = n * (n - 1) / 2 →
        pottsModuleP e (h ++ J) = .ok ((words ((List.range k).map fun a : ℕ => (a : ℤ)) n).map
          (boltzmann (words ((List.range k).map fun a : ℕ => (a : ℤ)) n)
            fun s => pottsVecE n k h J fun i => s.getD i 0)) := by
  obtain ⟨e, h1, -, -, h2⟩ := potts_module est n k hn hk hk' hest
  refine ⟨e, h1, ?_, fun h J hh hJ => (h2 h J hh hJ).1⟩
  rw [xpotts_digits est n k (by omega) hk hk' hest]
  congr 1
  rw [words_map, List.map_map]
  apply List.map_congr_left
  intro d _
  simp [Function.comp_def, digitCh]

/-- C31. The numbers are positive and add up to one. -/
theorem C31_normalised_partial (est : ℕ → ℕ → ℕ) (n k : ℕ) (hn : 2 < n) (hk : 2 ≤ k) (hk' : k ≤ 10)
    (hest : ∀ i, i ≠ 0 → GoodEst (est i k) i k) :
    ∃ e, writePotts est n k = .ok e ∧
      ∀ h J : List ℝ, h.length = n * k → J.length = n * (n - 1) / 2 →
        ∃ p, pottsModuleP e (h ++ J) = .ok p ∧ p.length = k ^ n ∧ (∀ x ∈ p, 0 < x) ∧ p.sum = 1 := by
  obtain ⟨e, h1, -, -, h2⟩ := potts_module est n k hn hk hk' hest
  refine ⟨e, h1, fun h J hh hJ => ⟨_, (h2 h J hh hJ).1, ?_, ?_, ?_⟩⟩
  · rw [List.length_map, length_words]; simp
  · intro x hx
    obtain ⟨s, -, rfl⟩ := List.mem_map.1 hx
    exact boltzmann_pos _ _ (pottsWords_ne n k hk) s
  · exact sum_boltzmann _ _ (pottsWords_ne n k hk)

/-- C31. `calc_observables(params)`: first the probabilities of spin `i` being in state `a`, state by
state, then the probabilities that two spins agree, pair by pair. -/
theorem C31_observables_partial (est : ℕ → ℕ → ℕ) (n k : ℕ) (hn : 2 < n) (hk : 2 ≤ k) (hk' : k ≤ 10)
    (hest : ∀ i, i ≠ 0 → GoodEst (est i k) i k) :
    ∃ e, writePotts est n k = .ok e ∧
      ∀ h J : List ℝ, h.length = n * k → J.length = n * (n - 1) / 2 →
        ∃ obs, pottsModuleObs e (h ++ J) = .ok obs ∧ obs.length = n * k + n * (n - 1) / 2 ∧
          (∀ a < k, ∀ i < n, obs.getD (a * n + i) 0 =
            expect (words ((List.range k).map fun a : ℕ => (a : ℤ)) n)
              (fun s => pottsVecE n k h J fun i => s.getD i 0)
              fun s => if s.getD i 0 = (a : ℤ) then 1 else 0) ∧
          ∀ m p, (upperPairs n)[m]? = some p → obs.getD (n * k + m) 0 =
            expect (words ((List.range k).map fun a : ℕ => (a : ℤ)) n)
              (fun s => pottsVecE n k h J fun i => s.getD i 0)
              fun s => if s.getD p.1 0 = s.getD p.2 0 then 1 else 0 := by
  obtain ⟨e, h1, -, -, h2⟩ := potts_module est n k hn hk hk' hest
  refine ⟨e, h1, fun h J hh hJ => ⟨_, (h2 h J hh hJ).2, ?_, ?_, ?_⟩⟩
  · simp [length_upperPairs, mul_comm]
  · intro a ha i hi
    rw [List.getD_append, getD_flatMap_range n k (fun (a i : ℕ) => expect (pottsWords n k)
      (fun s => pottsVecE n k h J fun i => s.getD i 0) fun s => if s.getD i 0 = (a : ℤ) then 1 else 0) a i ha hi]
    simp only [List.length_flatMap, List.length_map, List.length_range, List.map_const', List.sum_replicate, smul_eq_mul]
    nlinarith
  · intro m p hm
    rw [List.getD_append_right _ _ _ _ (by simp [mul_comm])]
    simp [hm, mul_comm]

/-- C31. The observables are probabilities. -/
theorem C31_observables_range_partial (est : ℕ → ℕ → ℕ) (n k : ℕ) (hn : 2 < n) (hk : 2 ≤ k) (hk' : k ≤ 10)
    (hest : ∀ i, i ≠ 0 → GoodEst (est i k) i k) :
    ∃ e, writePotts est n k = .ok e ∧
      ∀ h J : List ℝ, h.length = n * k → J.length = n * (n - 1) / 2 →
        ∃ obs, pottsModuleObs e (h ++ J) = .ok obs ∧ ∀ x ∈ obs, 0 ≤ x ∧ x ≤ 1 := by
  obtain ⟨e, h1, -, -, h2⟩ := potts_module est n k hn hk hk' hest
  refine ⟨e, h1, fun h J hh hJ => ⟨_, (h2 h J hh hJ).2, ?_⟩⟩
  intro x hx
  have hne := pottsWords_ne n k hk
  have key : ∀ (E : List ℤ → ℝ) (P : List ℤ → Prop) [DecidablePred P],
      0 ≤ expect (pottsWords n k) E (fun s => if P s then 1 else 0) ∧
      expect (pottsWords n k) E (fun s => if P s then 1 else 0) ≤ 1 := by
    intro E P _
    exact ⟨le_expect _ _ _ hne _ fun s _ => by split_ifs <;> simp,
      expect_le _ _ _ hne _ fun s _ => by split_ifs <;> simp⟩
  rcases List.mem_append.1 hx with hx | hx
  · obtain ⟨a, -, hx⟩ := List.mem_flatMap.1 hx
    obtain ⟨i, -, rfl⟩ := List.mem_map.1 hx
    exact key _ _
  · obtain ⟨p, -, rfl⟩ := List.mem_map.1 hx
    exact key _ _

/-- C31. Parameter vectors of another length are rejected by both functions of the module. -/
theorem C31_wrong_length_raises (e : PottsEqns) (params : List ℝ)
    (h : params.length ≠ e.n * e.k + e.n * (e.n - 1) / 2) :
    pottsModuleP e params = .error .assertion ∧ pottsModuleObs e params = .error .assertion := by
  have : pottsZ e params = .error .assertion := by unfold pottsZ; rw [if_pos h]
  unfold pottsModuleP pottsModuleObs
  rw [this]
  exact ⟨rfl, rfl⟩

/-- C31. Sizes for which no module is written. -/
theorem C31_size_raises (est : ℕ → ℕ → ℕ) (n k : ℕ) (h : n ≤ 2 ∨ k < 2) :
    writePotts est n k = .error .assertion := by
  unfold writePotts
  by_cases h1 : n > 2
  · rw [if_neg (by omega), if_pos (by omega)]
  · rw [if_pos h1]

/-- C31. The claim fails for eleven to 36 states: `int` is applied to a letter and raises. -/
theorem C31_more_states_fail (est : ℕ → ℕ → ℕ) (n k : ℕ) (hn : 2 < n) (hk : 11 ≤ k) (hk' : k ≤ 36)
    (hest : ∀ i, i ≠ 0 → GoodEst (est i k) i k) :
    writePotts est n k = .error .valueError := by
  obtain ⟨v, h1, -, -, -, h2⟩ := C06_xpotts_states est n k (by omega) (by omega) hk' hest
  have hA : 'A' ∈ alphanum.take k :=
    List.mem_of_mem_take (i := 11) (by rw [List.take_take, min_eq_left hk]; decide)
  have hterm : ∀ s ∈ v, (∃ t, pottsTerm n s = .ok t) ∨ pottsTerm n s = .error .valueError := by
    intro s hs
    have hlen := ((h2 s).1 hs).1
    unfold pottsTerm
    rcases mapM_ok_or (List.range n) _ _ (pottsField_ok_or n s hlen) with ⟨y, hy⟩ | hy
    · rw [hy]; exact Or.inl ⟨_, rfl⟩
    · rw [hy]; exact Or.inr rfl
  have hbad : pottsTerm n (List.replicate n 'A') = .error .valueError := by
    unfold pottsTerm
    rw [mapM_error_of (List.range n) _ _ (pottsField_ok_or n _ (by simp)) ⟨0, by simp; omega, ?_⟩]
    unfold pottsField
    have : (List.replicate n 'A')[0]? = some 'A' := by rw [List.getElem?_replicate, if_pos (by omega)]
    rw [this]
    rfl
  unfold writePotts
  rw [if_neg (by omega), if_neg (by omega), h1]
  simp only
  rw [mapM_error_of v _ _ hterm ⟨_, (h2 _).2 ⟨by simp, fun c hc => ?_⟩, hbad⟩]
  rw [(List.mem_replicate.1 hc).2]; exact hA

/-- Non-vacuity of C31: exact logarithms are good estimates; a module for three spins with two
states is written, with this text for the energies and the first coefficients. -/
example : (∀ i, i ≠ 0 → GoodEst (Nat.log 2 i) i 2) ∧
    ∃ e, writePotts (fun i b => Nat.log b i) 3 2 = .ok e ∧
      e.energies = ("\t\th[0]+h[1]+h[2]+J[0]+J[1]+J[2],\n\t\th[0]+h[1]+h[5]+J[0],\n" ++
        "\t\th[0]+h[4]+h[2]+J[1],\n\t\th[0]+h[4]+h[5]+J[2],\n\t\th[3]+h[1]+h[2]+J[2],\n" ++
        "\t\th[3]+h[1]+h[5]+J[1],\n\t\th[3]+h[4]+h[2]+J[0],\n\t\th[3]+h[4]+h[5]+J[0]+J[1]+J[2],\n\t\t").toList ∧
      e.coeffs.take 2 = ["1,1,1,1,0,0,0,0".toList, "1,1,0,0,1,1,0,0".toList] :=
  ⟨fun _ _ => Or.inl rfl, _, rfl, by decide +kernel, by decide +kernel⟩

end Verif.Props
