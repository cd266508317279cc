/-
C104: the text of the Potts equation modules that coniii/enumerate_potts.py writes, and what Python
computes when it runs that text.
-/
import Verif.Lemmas.PottsFileRun
import Verif.Props.EnumeratePotts

namespace Verif.Props
open Verif Verif.Model Verif.Spec Verif.Lemmas

/-- A file with the equations of the Potts model with `n` spins and `k` states: importing it and calling its
functions gives, for all fields and couplings, the Boltzmann distribution over all words, the
probabilities that spin `i` is in state `a`, and the probabilities that two spins agree. -/
def PottsFileFor (n k : ℕ) (text : List Char) : Prop :=
  ∀ h J : List ℝ, h.length = n * k → J.length = n * (n - 1) / 2 →
    runPottsP text (h ++ J) = .ok (some ((words ((List.range k).map fun a : ℕ => (a : ℤ)) n).map
      (boltzmann (words ((List.range k).map fun a : ℕ => (a : ℤ)) n)
        fun s => pottsVecE n k h J fun i => s.getD i 0))) ∧
    runPottsObs text (h ++ J) = .ok (some
      (((List.range k).flatMap fun a : ℕ => (List.range n).map fun i =>
          expect (words ((List.range k).map fun a : ℕ => (a : ℤ)) n)
            (fun s => pottsVecE n k h J fun i => s.getD i 0) fun s => if s.getD i 0 = (a : ℤ) then 1 else 0) ++
        (upperPairs n).map fun p =>
          expect (words ((List.range k).map fun a : ℕ => (a : ℤ)) n)
            (fun s => pottsVecE n k h J fun i => s.getD i 0) fun s => if s.getD p.1 0 = s.getD p.2 0 then 1 else 0))

/-- What the written text gives for `h ++ J` of the right lengths, and for other parameters. -/
theorem potts_text (est : ℕ → ℕ → ℕ) (n k : ℕ) (hn : 2 < n) (hk : 2 ≤ k) (hk' : k ≤ 10)
    (hest : ∀ i, i ≠ 0 → GoodEst (est i k) i k) (licence : Option (List (List Char))) (date : List Char)
    (hl : PlainLicence licence date) :
    ∃ text, pottsWrite est n k licence date = (some text, .ok ()) ∧ PottsFileFor n k text ∧
      ∀ params : List ℝ, params.length ≠ n * k + n * (n - 1) / 2 →
        runPottsP text params = .error .assertion ∧ runPottsObs text params = .error .assertion := by
  obtain ⟨e, h1, h2, h3, h4, h5⟩ := potts_module_full est n k hn hk hk' hest
  have hread : ptReadModule (pottsHead n k licence date ++ joinLines (pottsLines e)) =
      some (ptObsStmts e, ptPStmts e) := by
    obtain ⟨-, -, ho⟩ := h5 (List.replicate (n * k) 0) (List.replicate (n * (n - 1) / 2) 0) (by simp) (by simp)
    obtain ⟨r1, r2⟩ := pt_readable e _ _ ho
    have := ptReadModule_file e licence date hl r1 r2
    rwa [h2, h3] at this
  have hsize : pottsSize e.n e.k = n * k + n * (n - 1) / 2 := by rw [h2, h3]; rfl
  refine ⟨_, pottsWrite_ok est n k licence date e h1, fun h J hh hJ => ?_, fun params hp => ?_⟩
  · obtain ⟨hz, hp, ho⟩ := h5 h J hh hJ
    unfold runPottsP runPottsObs
    rw [hread]
    refine ⟨exec_ptP e _ _ _ _ hz ?_ hp, exec_ptObs e _ _ (by rw [h4, hsize]) ho⟩
    rw [List.length_map, length_words, h2, h3]; simp
  · unfold runPottsP runPottsObs
    rw [hread]
    have := exec_pt_length e params (by rw [hsize]; exact hp)
    exact ⟨this.2, this.1⟩

/-- C104. Two to ten states, any number of spins from three on: writing succeeds, whatever LICENSE.txt
contains, and the file computes the Potts model. -/
theorem C104_text_partial (est : ℕ → ℕ → ℕ) (n k : ℕ) (hn : 2 < n) (hk : 2 ≤ k) (hk' : k ≤ 10)
    (hest : ∀ i, i ≠ 0 → GoodEst (est i k) i k) (licence : Option (List (List Char))) (date : List Char)
    (hl : PlainLicence licence date) :
    ∃ text, pottsWrite est n k licence date = (some text, .ok ()) ∧ PottsFileFor n k text := by
  obtain ⟨t, h1, h2, -⟩ := potts_text est n k hn hk hk' hest licence date hl
  exact ⟨t, h1, h2⟩

/-- C104. Both functions of the file refuse parameter vectors of any other length. -/
theorem C104_wrong_length (est : ℕ → ℕ → ℕ) (n k : ℕ) (hn : 2 < n) (hk : 2 ≤ k) (hk' : k ≤ 10)
    (hest : ∀ i, i ≠ 0 → GoodEst (est i k) i k) (licence : Option (List (List Char))) (date : List Char)
    (hl : PlainLicence licence date) (params : List ℝ) (hp : params.length ≠ n * k + n * (n - 1) / 2) :
    ∃ text, pottsWrite est n k licence date = (some text, .ok ()) ∧
      runPottsP text params = .error .assertion ∧ runPottsObs text params = .error .assertion := by
  obtain ⟨t, h1, -, h2⟩ := potts_text est n k hn hk hk' hest licence date hl
  exact ⟨t, h1, h2 params hp⟩

/-- C104. Sizes that are refused before the file is opened. -/
theorem C104_size_raises (est : ℕ → ℕ → ℕ) (n k : ℕ) (h : n ≤ 2 ∨ k < 2) (licence : Option (List (List Char)))
    (date : List Char) : pottsWrite est n k licence date = (none, .error .assertion) := by
  unfold pottsWrite
  by_cases h1 : n > 2
  · rw [if_neg (by omega), if_pos (by omega)]
  · rw [if_pos h1]

theorem pottsWriteTerms_error (est : ℕ → ℕ → ℕ) (n k : ℕ) (err : PyErr) (is : List ℕ)
    (h : ∀ i ∈ is, (∃ s t, baseRepr est i k = .ok s ∧ pottsTerm n (List.replicate (n - s.length) '0' ++ s) = .ok t) ∨
      baseRepr est i k = .error err ∨
      ∃ s, baseRepr est i k = .ok s ∧ pottsTerm n (List.replicate (n - s.length) '0' ++ s) = .error err)
    (hb : ∃ i ∈ is, baseRepr est i k = .error err ∨
      ∃ s, baseRepr est i k = .ok s ∧ pottsTerm n (List.replicate (n - s.length) '0' ++ s) = .error err) :
    (pottsWriteTerms est n k is).2 = .error err := by
  induction is with
  | nil => obtain ⟨i, hi, -⟩ := hb; simp at hi
  | cons i is ih =>
    rcases h i (by simp) with ⟨s, t, h1, h2⟩ | h1 | ⟨s, h1, h2⟩
    · simp only [pottsWriteTerms, h1, h2]
      apply ih fun j hj => h j (by simp [hj])
      obtain ⟨j, hj, hb⟩ := hb
      rcases List.mem_cons.1 hj with rfl | hj
      · rcases hb with hb | ⟨s', hb, hb'⟩
        · rw [h1] at hb; cases hb
        · rw [h1] at hb; cases hb; rw [h2] at hb'; cases hb'
      · exact ⟨j, hj, hb⟩
    · simp only [pottsWriteTerms, h1]
    · simp only [pottsWriteTerms, h1, h2]

/-- C104. The claim fails for every number of states above ten: writing raises (`ValueError` up to 36
states, `AssertionError` beyond), and what it leaves in the file cannot be imported. -/
theorem C104_more_states_fail (est : ℕ → ℕ → ℕ) (n k : ℕ) (hn : 2 < n) (hk : 11 ≤ k)
    (hest : ∀ i, i ≠ 0 → GoodEst (est i k) i k) (licence : Option (List (List Char))) (date : List Char)
    (hl : PlainLicence licence date) :
    ∃ text, pottsWrite est n k licence date =
        (some text, .error (if k ≤ 36 then .valueError else .assertion)) ∧
      ptReadModule text = none ∧ ∀ params, runPottsP text params = .error .exception ∧
        runPottsObs text params = .error .exception := by
  have hpow : k ≤ k ^ n := Nat.le_self_pow (by omega) k
  have herr : (pottsWriteTerms est n k (List.range (k ^ n))).2 =
      .error (if k ≤ 36 then .valueError else .assertion) := by
    split_ifs with hk'
    · apply pottsWriteTerms_error
      · intro i hi
        have hb := baseRepr_eq est i k (by omega) hk' (hest i)
        have hlog : Nat.log k i + 1 ≤ n := by
          by_cases h0 : i = 0
          · subst h0; simp; omega
          · exact Nat.log_lt_of_lt_pow h0 (List.mem_range.1 hi)
        have hlen : (List.replicate (n - ((positional k i).map fun d => (alphabetOf k).getD d '0').length) '0' ++
            (positional k i).map fun d => (alphabetOf k).getD d '0').length = n := by
          simp [positional, length_fixedDigits]; omega
        rcases mapM_ok_or (List.range n) _ _ (pottsField_ok_or n _ hlen) with ⟨y, hy⟩ | hy
        · exact Or.inl ⟨_, _, hb, by unfold pottsTerm; rw [hy]⟩
        · exact Or.inr (Or.inr ⟨_, hb, by unfold pottsTerm; rw [hy]⟩)
      · refine ⟨10, by simp; omega, Or.inr ⟨['A'], ?_, ?_⟩⟩
        · rw [baseRepr_eq est 10 k (by omega) hk' (hest 10), positional, Nat.log_of_lt (by omega)]
          simp only [fixedDigits, alphabetOf, if_neg (show ¬ k ≤ 10 by omega)]
          have : 10 % k = 10 := Nat.mod_eq_of_lt (by omega)
          simp [this]
          rfl
        · have hlen : (List.replicate (n - ['A'].length) '0' ++ ['A']).length = n := by simp; omega
          unfold pottsTerm
          rw [mapM_error_of (List.range n) _ _ (pottsField_ok_or n _ hlen) ⟨n - 1, by simp; omega, ?_⟩]
          unfold pottsField
          have : (List.replicate (n - ['A'].length) '0' ++ ['A'])[n - 1]? = some 'A' := by
            rw [List.getElem?_append_right (by simp)]; simp
          rw [this]
          rfl
    · obtain ⟨m, hm⟩ : ∃ m, k ^ n = m + 1 + 1 := ⟨k ^ n - 2, by omega⟩
      rw [hm, List.range_succ_eq_map, List.range_succ_eq_map]
      have b0 : baseRepr est 0 k = .ok ['0'] := by
        unfold baseRepr; rw [if_neg (by omega), if_pos rfl]
      have b1 : baseRepr est 1 k = .error .assertion := by
        unfold baseRepr; rw [if_neg (by omega), if_neg (by omega), if_neg (by omega), if_pos hk']
      have hrep : List.replicate (n - ['0'].length) '0' ++ ['0'] = (List.replicate n 0).map digitCh := by
        rw [show n = n - 1 + 1 by omega, List.replicate_succ', List.map_append, List.map_replicate]
        rfl
      have t0 := pottsTerm_eq n (by omega) (List.replicate n 0) (by simp) (by simp)
      rw [← hrep] at t0
      simp only [List.map_cons, pottsWriteTerms, b0, t0, b1]
  rcases hw : pottsWriteTerms est n k (List.range (k ^ n)) with ⟨t, r⟩
  rw [hw] at herr
  simp only at herr
  subst herr
  have hbr := pottsWrite_broken est n k licence date hl (List.range (k ^ n))
  rw [hw] at hbr
  refine ⟨_, ?_, hbr, fun params => ?_⟩
  · unfold pottsWrite
    rw [if_neg (by omega), if_neg (by omega), hw]
  · unfold runPottsP runPottsObs
    rw [hbr]
    exact ⟨rfl, rfl⟩

/-- Non-vacuity of C104: three spins with two states, the licence as `readlines` gives it with a last line
that is not ended, and a date. -/
example : PlainLicence (some [chars! "MIT License\n", chars! "\n", chars! "as is"]) (chars! "2026-11-17 00:10:00.5") ∧
    (pottsWrite (fun i b => Nat.log b i) 3 2 (some [chars! "MIT License\n", chars! "\n", chars! "as is"])
      (chars! "2026-11-17")).2 = .ok () :=
  ⟨⟨fun ls h l hl => by cases h; revert l; decide, by decide⟩, by decide +kernel⟩

/-- The first statements read from the file for three spins with two states, and the file left behind for
twelve states: the line of the energies is not ended. -/
example : (((pottsWrite (fun i b => Nat.log b i) 3 2 none (chars! "2026-11-17")).1.bind ptReadModule).map
      fun m => (m.1.take 4, m.2.length)) =
      some ([.size 9, .takeH 6, .dropJ 6, .zerosO 9], 15) := by decide +kernel

end Verif.Props
