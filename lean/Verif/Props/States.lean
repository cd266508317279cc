/-
C04, C05, C06: enumeration of states (coniii/utils.py).
-/
import Verif.Lemmas.States

namespace Verif.Props
open Verif Verif.Model Verif.Spec Verif.Lemmas

/-- C04. `bin_states(n)`, `1 ≤ n ≤ 30`: `2^n` rows, row `i` is the binary expansion of `i`,
no row occurs twice, and the rows are exactly the 0/1 vectors of length `n`. -/
theorem C04_bin_states (n : ℕ) (h1 : 1 ≤ n) (h30 : n ≤ 30) :
    ∃ v, binStates n false = .ok v ∧ v.length = 2 ^ n ∧
      (∀ i < 2 ^ n, v[i]? = some ((fixedDigits 2 n i).map (fun x : ℕ => (x : ℤ)))) ∧
      v.Nodup ∧ ∀ w, w ∈ v ↔ w.length = n ∧ ∀ x ∈ w, x = 0 ∨ x = 1 := by
  have hrows := binRows_eq n (by omega)
  refine ⟨words [0, 1] n, ?_, ?_, ?_, nodup_words (by decide) n, ?_⟩
  · unfold binStates
    rw [if_neg (by omega), if_neg (by omega)]
    simp only [Int.toNat_natCast, hrows, if_true]
  · rw [length_words]; rfl
  · intro i hi
    rw [← hrows, List.getElem?_map, List.getElem?_range hi]
    simp [binaryRepr_eq n i (by omega) hi]
  · intro w; rw [mem_words]; simp

/-- C04. `bin_states(n, True)` has the same rows mapped by `x ↦ 2x-1`, hence exactly the ±1
vectors of length `n`, each once. -/
theorem C04_bin_states_sym (n : ℕ) (h1 : 1 ≤ n) (h30 : n ≤ 30) :
    ∃ v, binStates n false = .ok v ∧
      binStates n true = .ok (v.map fun row => row.map fun x => 2 * x - 1) ∧
      (v.map fun row => row.map fun x => 2 * x - 1).Nodup ∧
      ∀ w, w ∈ (v.map fun row => row.map fun x => 2 * x - 1) ↔
        w.length = n ∧ ∀ x ∈ w, x = -1 ∨ x = 1 := by
  have hrows := binRows_eq n (by omega)
  have hmap : (words [(0 : ℤ), 1] n).map (fun row => row.map fun x => 2 * x - 1) =
      words [-1, 1] n := by
    rw [← words_map]; rfl
  refine ⟨words [0, 1] n, ?_, ?_, ?_, ?_⟩
  · unfold binStates
    rw [if_neg (by omega), if_neg (by omega)]
    simp only [Int.toNat_natCast, hrows, if_true]
  · unfold binStates
    rw [if_neg (by omega), if_neg (by omega)]
    simp only [Int.toNat_natCast, hrows]
    simp only [mul_comm]
    rfl
  · rw [hmap]; exact nodup_words (by decide) n
  · intro w; rw [hmap, mem_words]; simp

/-- C04. `xbin_states` yields the rows of `bin_states` in the same order. -/
theorem C04_xbin_states (n : ℕ) (sym : Bool) (h1 : 1 ≤ n) (h30 : n ≤ 30) :
    xbinStates n sym = binStates n sym := by
  unfold xbinStates binStates
  rw [if_neg (by omega), if_neg (by omega), if_neg (by omega)]
  cases sym
  · simp
  · simp [List.map_map, Function.comp_def]

/-- C04. `xbin_states` has no upper limit on `n`. -/
theorem C04_xbin_states_all (n : ℕ) (h1 : 1 ≤ n) :
    ∃ v, xbinStates n false = .ok v ∧ v.length = 2 ^ n ∧ v.Nodup ∧
      ∀ w, w ∈ v ↔ w.length = n ∧ ∀ x ∈ w, x = 0 ∨ x = 1 := by
  have hrows := binRows_eq n (by omega)
  refine ⟨words [0, 1] n, ?_, ?_, nodup_words (by decide) n, ?_⟩
  · unfold xbinStates
    rw [if_neg (by omega)]
    simp only [Int.toNat_natCast, hrows, if_true]
  · rw [length_words]; rfl
  · intro w; rw [mem_words]; simp

/-- C04. Sizes out of range raise. -/
theorem C04_errors (n : ℤ) (sym : Bool) :
    (n < 0 ∨ n > 30 → binStates n sym = .error .exception) ∧
    (n ≤ 0 → xbinStates n sym = .error .assertion) := by
  constructor
  · rintro (h | h)
    · simp [binStates, h]
    · unfold binStates
      rw [if_neg (by omega), if_pos h]
  · intro h
    unfold xbinStates
    rw [if_pos (by omega)]

/-- C04, edge case: `bin_states(0)` has one row with one column rather than no column. -/
theorem C04_zero_spins : binStates 0 false = .ok [[0]] := by decide

example : binStates 2 true = .ok [[-1, -1], [-1, 1], [1, -1], [1, 1]] := by decide

/-- C05, part that holds: for every base up to 18, `base_repr` is conventional positional
notation, for every admissible rounding of the logarithm. Missing: bases 19 to 36, where it is
false (`C05_wrong_letters`). -/
theorem C05_base_repr_partial (est : ℕ → ℕ → ℕ) (i b : ℕ) (hb : 2 ≤ b) (hb' : b ≤ 18)
    (h : i ≠ 0 → GoodEst (est i b) i b) :
    baseRepr est i b = .ok ((positional b i).map stdDigit) := by
  rw [baseRepr_eq est i b hb (by omega) h]
  congr 1
  apply List.map_congr_left
  intro d hd
  have hd : d < b := fixedDigits_lt (by omega) hd
  unfold alphabetOf
  split_ifs with h10
  · have : d < 10 := by omega
    interval_cases d <;> rfl
  · have : d < 18 := by omega
    interval_cases d <;> rfl

/-- C05. The conventional notation has no superfluous leading zero and determines the number. -/
theorem C05_positional_leading (b i : ℕ) (hb : 2 ≤ b) (hi : i ≠ 0) :
    (positional b i).headD 0 ≠ 0 ∧
      (positional b i).foldl (fun acc d => acc * b + d) 0 = i := by
  have hfold : ∀ n i, i < b ^ n → (fixedDigits b n i).foldl (fun acc d => acc * b + d) 0 = i := by
    intro n
    induction n with
    | zero => intro i hi; have : i = 0 := by simpa using hi
              subst this; rfl
    | succ n ih =>
      intro i hi
      rw [fixedDigits_snoc, List.foldl_append, ih (i / b)
        (Nat.div_lt_of_lt_mul (by rw [pow_succ] at hi; linarith))]
      simp only [List.foldl_cons, List.foldl_nil]
      exact Nat.div_add_mod' i b
  refine ⟨?_, hfold _ _ (Nat.lt_pow_succ_log_self (by omega) i)⟩
  rw [positional, fixedDigits_cons]
  have hle : b ^ Nat.log b i ≤ i := Nat.pow_log_le_self b hi
  have hlt : i < b ^ (Nat.log b i + 1) := Nat.lt_pow_succ_log_self (by omega) i
  have hd : i / b ^ Nat.log b i < b := Nat.div_lt_of_lt_mul (by rw [pow_succ] at hlt; linarith)
  have hp : 0 < i / b ^ Nat.log b i := Nat.div_pos hle (Nat.pow_pos (by omega))
  simp only [List.headD_cons]
  rw [Nat.mod_eq_of_lt hd]
  omega

/-- C05 is false in general: in base 20 the number 18 is written `J` instead of `I` (the letters
I and J are exchanged in the alphabet), with the exact exponent. -/
theorem C05_wrong_letters :
    baseRepr (fun i b => Nat.log b i) 18 20 = .ok ['J'] ∧ (positional 20 18).map stdDigit = ['I'] := by
  decide

/-- C05. For every base in 19..36 some number is written differently from the convention. -/
theorem C05_wrong_for_all_large_bases (b : ℕ) (hb : 19 ≤ b) (hb' : b ≤ 36) :
    baseRepr (fun i b => Nat.log b i) 18 b ≠ .ok ((positional b 18).map stdDigit) := by
  interval_cases b <;> decide

/-- C05. All bases up to 36: the digits are right, only the letters are permuted; the alphabet has
no repeated letter, so different numbers are still written differently. -/
theorem C05_digits_all_bases (est : ℕ → ℕ → ℕ) (i b : ℕ) (hb : 2 ≤ b) (hb' : b ≤ 36)
    (h : i ≠ 0 → GoodEst (est i b) i b) :
    baseRepr est i b = .ok ((positional b i).map fun d =>
      if d = 18 then 'J' else if d = 19 then 'I' else stdDigit d) := by
  rw [baseRepr_eq est i b hb hb' h]
  congr 1
  apply List.map_congr_left
  intro d hd
  have hd : d < b := fixedDigits_lt (by omega) hd
  unfold alphabetOf
  by_cases h10 : b ≤ 10
  · rw [if_pos h10, if_neg (by omega), if_neg (by omega)]
    have : d < 10 := by omega
    interval_cases d <;> rfl
  · rw [if_neg h10]
    have : d < 36 := by omega
    interval_cases d <;> rfl

/-- C05. Bases below 2 and above 36 are rejected (zero is written before the upper limit is
checked). -/
theorem C05_bad_base (est : ℕ → ℕ → ℕ) (i b : ℕ) :
    (b < 2 → baseRepr est i b = .error .assertion) ∧
    (b > 36 → i ≠ 0 → baseRepr est i b = .error .assertion) := by
  constructor
  · intro h; unfold baseRepr; rw [if_pos (by omega)]
  · intro h hi; unfold baseRepr
    rw [if_neg (by omega), if_neg hi, if_neg (by omega), if_pos (by omega)]

/-- C05. A too large estimate of the exponent (never produced by exact logarithms) would yield a
leading zero: the guard in the code covers only estimates that are too small. -/
theorem C05_overestimate_leading_zero : baseRepr (fun _ _ => 3) 7 2 = .ok ['0', '1', '1', '1'] := by
  decide

example : GoodEst 2 125 5 ∧ GoodEst 3 125 5 ∧
    baseRepr (fun _ _ => 2) 125 5 = .ok ['1', '0', '0', '0'] := by
  unfold GoodEst; decide

/-- C06. `xpotts_states(n, k)`, `n > 0`, `2 ≤ k ≤ 36`: `k^n` words of length `n` in counting order,
all different, and every word over the first `k` digits occurs. -/
theorem C06_xpotts_states (est : ℕ → ℕ → ℕ) (n k : ℕ) (hn : 0 < n) (hk : 2 ≤ k) (hk' : k ≤ 36)
    (h : ∀ i, i ≠ 0 → GoodEst (est i k) i k) :
    ∃ v, xpottsStates est n k = .ok v ∧ v.length = k ^ n ∧ v.Nodup ∧
      v = words (alphanum.take k) n ∧
      ∀ w, w ∈ v ↔ w.length = n ∧ ∀ c ∈ w, c ∈ alphanum.take k := by
  have hlen : (alphanum.take k).length = k := by
    have : alphanum.length = 36 := by decide
    rw [List.length_take]; omega
  refine ⟨words (alphanum.take k) n, ?_, ?_, ?_, rfl, fun w => mem_words⟩
  · unfold xpottsStates
    rw [if_neg (by omega), if_neg (by omega)]
    rw [words_eq_map (alphanum.take k) k hlen (by omega) n '0']
    apply mapM_ok
    intro i hi
    have hi := List.mem_range.1 hi
    rw [baseRepr_eq est i k hk hk' (h i)]
    simp only [bind, Except.bind, pure, Except.pure]
    congr 1
    rw [List.length_map, ← pad_positional k n i hk hn hi, List.map_append, List.map_replicate]
    congr 1
    · congr 1
      interval_cases k <;> decide
    · apply List.map_congr_left
      intro d hd
      have hd : d < k := fixedDigits_lt (by omega) hd
      have hd' : d < alphanum.length := by
        have : alphanum.length = 36 := by decide
        omega
      rw [List.getD_eq_getElem (alphanum.take k) _ (by omega), List.getElem_take]
      unfold alphabetOf
      split_ifs with h10
      · have : d < 10 := by omega
        interval_cases d <;> rfl
      · rw [List.getD_eq_getElem _ _ hd']
  · rw [length_words, hlen]
  · apply nodup_words
    exact (List.Nodup.sublist (List.take_sublist _ _) (by decide : alphanum.Nodup))

/-- C06. Sizes out of range are rejected. -/
theorem C06_errors (est : ℕ → ℕ → ℕ) (n k : ℕ) (h : n = 0 ∨ k < 2) :
    xpottsStates est n k = .error .assertion := by
  unfold xpottsStates
  split_ifs <;> first | rfl | omega

example : xpottsStates (fun i b => Nat.log b i) 2 3 =
    .ok [['0','0'], ['0','1'], ['0','2'], ['1','0'], ['1','1'], ['1','2'], ['2','0'], ['2','1'],
      ['2','2']] := by decide

end Verif.Props
