/-
C127: the counting functions of coniii/utils.py.
-/
import Verif.Lemmas.Counting

namespace Verif.Props
open Verif Verif.Model Verif.Spec Verif.Lemmas

/-- The words of length `N` in which the letter number `i` occurs as often as `as` says. -/
def wordsWith (N : ℕ) (as : List ℕ) : List (List ℕ) :=
  (words (List.range as.length) N).filter fun w => decide (∀ i < as.length, w.count i = as.getD i 0)

theorem wordsWith_length (N : ℕ) (as : List ℕ) : (wordsWith N as).length = numWords as.length N fun i => as.getD i 0 :=
  List.countP_eq_length_filter.symm

/-- C127. In exact arithmetic `multinomial(N, a1, ..., ak)` is the number of words of length `N` over `k` letters with these
numbers of letters; the numbers must add up to `N`. -/
theorem C127_multinomial (args : List ℕ) :
    multinomial multinomialReal args = match args with
      | [] => .error .indexError
      | N :: as => if as.sum = N then .ok ((wordsWith N as).length : ℤ) else .error .assertion := by
  cases args with
  | nil => rfl
  | cons N as =>
    rw [multinomial]
    by_cases h : as.sum = N
    · rw [if_pos h]
      dsimp only
      rw [if_pos h, multinomialReal_eq N as h, if_pos (Nat.cast_nonneg _), wordsWith_length]
      simp
    · rw [if_neg h]
      dsimp only
      rw [if_neg h]

/-- C127 (missing: that the result is right on a computer). Whatever arithmetic is used, as long as the value before cutting off
is less than one away from the right number: the result is that number or one less. It is one less exactly if the computed
value is below the right number, however little. -/
theorem C127_rounding_partial (value : ℕ → List ℕ → ℝ) (N : ℕ) (as : List ℕ) (h : as.sum = N)
    (hv : |value N as - multinomialReal N as| < 1) :
    multinomial value (N :: as) =
      .ok (if value N as < (wordsWith N as).length then ((wordsWith N as).length : ℤ) - 1 else (wordsWith N as).length) := by
  have hM : multinomialReal N as = ((wordsWith N as).length : ℝ) := by rw [multinomialReal_eq N as h, wordsWith_length]
  have hpos : 1 ≤ (wordsWith N as).length := by
    have h1 := multinomialReal_eq N as h
    have h2 : 0 < multinomialReal N as := Real.exp_pos _
    rw [hM] at h2
    exact_mod_cast h2
  rw [hM] at hv
  have hv' := abs_lt.1 hv
  have hpos' : (1 : ℝ) ≤ ((wordsWith N as).length : ℝ) := by exact_mod_cast hpos
  rw [multinomial, if_pos h, if_pos (by linarith)]
  congr 1
  split_ifs with hlt
  · rw [Int.floor_eq_iff]
    push_cast
    constructor <;> linarith
  · rw [Int.floor_eq_iff]
    push_cast
    constructor <;> linarith

/-- The error of a computer may be downwards: with a value that is too small by a part in 2^53, `multinomial(3, 1, 1, 1)` is 5
instead of 6. -/
example : multinomial (fun N as => multinomialReal N as * (1 - 2⁻¹ ^ 53)) [3, 1, 1, 1] = .ok 5 ∧
    multinomial multinomialReal [3, 1, 1, 1] = .ok 6 := by
  have h6 : (wordsWith 3 [1, 1, 1]).length = 6 := by decide +kernel
  have hM : multinomialReal 3 [1, 1, 1] = 6 := by
    have := multinomialReal_eq 3 [1, 1, 1] rfl
    rw [← wordsWith_length, h6] at this
    exact_mod_cast this
  constructor
  · have := C127_rounding_partial (fun N as => multinomialReal N as * (1 - 2⁻¹ ^ 53)) 3 [1, 1, 1] rfl
      (by rw [hM]; norm_num [abs_lt])
    rw [this, hM, h6]
    norm_num
  · rw [C127_multinomial]
    simp [h6]

open MvPolynomial in
/-- C127. `_expand_binomial(a, b, n)`: the coefficients of the product of the `n` binomials `a*x_i + b`, first the monomial with
all variables, then those with one variable less, and so on; no other monomial has a coefficient. -/
theorem C127_expand_binomial (a b : ℝ) (n : ℕ) :
    (expandBinomial a b n = (List.range (n + 1)).flatMap fun i =>
      ((Finset.univ : Finset (Fin n)).powersetCard (n - i)).toList.map fun S =>
        coeff (∑ j ∈ S, Finsupp.single j 1) (∏ j : Fin n, (C a * X j + C b : MvPolynomial (Fin n) ℝ))) ∧
    (∀ m : Fin n →₀ ℕ, (¬ ∃ S : Finset (Fin n), m = ∑ j ∈ S, Finsupp.single j 1) →
      coeff m (∏ j : Fin n, (C a * X j + C b : MvPolynomial (Fin n) ℝ)) = 0) ∧
    (expandBinomial a b n).length = 2 ^ n ∧ (expandBinomial a b n).sum = (a + b) ^ n := by
  classical
  have happ : ∀ (S : Finset (Fin n)) (j : Fin n), (∑ i ∈ S, Finsupp.single i 1 : Fin n →₀ ℕ) j = if j ∈ S then 1 else 0 := by
    intro S j
    rw [Finsupp.finsetSum_apply]
    simp [Finsupp.single_apply]
  refine ⟨?_, ?_, expandBinomial_length a b n, expandBinomial_sum a b n⟩
  · unfold expandBinomial
    refine List.flatMap_congr fun i hi => ?_
    have hi' : i ≤ n := Nat.lt_succ_iff.1 (List.mem_range.1 hi)
    symm
    rw [List.eq_replicate_iff]
    constructor
    · rw [List.length_map, Finset.length_toList, Finset.card_powersetCard, Finset.card_univ, Fintype.card_fin, Nat.choose_symm hi']
    · intro x hx
      obtain ⟨S, hS, rfl⟩ := List.mem_map.1 hx
      have hc := (Finset.mem_powersetCard.1 (Finset.mem_toList.1 hS)).2
      rw [coeff_binomials, if_pos (fun i => by rw [happ]; split_ifs <;> omega)]
      have : ∑ j, (∑ i ∈ S, Finsupp.single i 1 : Fin n →₀ ℕ) j = n - i := by
        simp only [happ]
        simp [hc]
      rw [this, Nat.sub_sub_self hi']
  · intro m hm
    rw [coeff_binomials, if_neg]
    intro h
    refine hm ⟨Finset.univ.filter fun i => m i = 1, ?_⟩
    ext j
    rw [happ]
    have := h j
    by_cases hj : m j = 1
    · simp [hj]
    · simp [hj]; omega

/-- The test of the repository: two factors give `a^2, a*b, a*b, b^2`. -/
example (a b : ℝ) : expandBinomial a b 2 = [a ^ 2, a * b, a * b, b ^ 2] := by
  simp [expandBinomial, List.range_succ, List.replicate_succ]

end Verif.Props
