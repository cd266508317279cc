/-
C13, C14, C15: conversion of parameters of every interaction order, and splitting.
-/
import Verif.Lemmas.Split
import Verif.Props.Matrix
import Mathlib.Data.Nat.Choose.Sum
import Mathlib.Tactic.NormNum
import Mathlib.Tactic.FieldSimp

namespace Verif.Props
open Verif Verif.Model Verif.Spec Verif.Lemmas

variable {K : Type*}

/-- C13. `ising_convert_params(params, '01')`: for parameter arrays of any number of interaction orders
the call succeeds and the {0,1} state `x` has the energy of the {-1,1} state `2x-1` up to a constant. -/
theorem C13_to01_energy [Field K] (n : ℕ) (h : List K) (rest : List (List K)) (hh : h.length = n)
    (ho : PolyShape n (h :: rest)) :
    ∃ P, isingConvertParams (h :: rest) .b01 = .ok P ∧ P.length = (h :: rest).length ∧
      PolyShape n P ∧
      ∃ c, ∀ x : ℕ → K, polyE n P x = polyE n (h :: rest) (fun i => 2 * x i - 1) + c := by
  obtain ⟨P, h1, h2, h3, c, h4⟩ := icp_energy (K := K) (fun order => 2 ^ order)
    (fun order suborder => 2 ^ suborder * (-1) ^ (order - suborder)) 2 (-1) (fun _ _ => rfl)
    (fun _ _ _ _ => rfl) n _ (h :: rest) rfl ho
  refine ⟨P.reverse, ?_, h2, h3, c, fun x => ?_⟩
  · unfold isingConvertParams
    simp only [getLast?_reverse', List.head?_cons, hh]
    rw [h1]; rfl
  · simpa only [sub_eq_add_neg] using h4 x

/-- C13. `ising_convert_params(params, '11')`: the {-1,1} state `s` has the energy of the {0,1} state
`(s+1)/2` up to a constant. -/
theorem C13_to11_energy [Field K] [CharZero K] (n : ℕ) (h : List K) (rest : List (List K))
    (hh : h.length = n) (ho : PolyShape n (h :: rest)) :
    ∃ P, isingConvertParams (h :: rest) .b11 = .ok P ∧ P.length = (h :: rest).length ∧
      PolyShape n P ∧
      ∃ c, ∀ s : ℕ → K, polyE n P s = polyE n (h :: rest) (fun i => (s i + 1) / 2) + c := by
  obtain ⟨P, h1, h2, h3, c, h4⟩ := icp_energy (K := K) (fun order => (2 ^ order)⁻¹)
    (fun order _ => (2 ^ order)⁻¹) (2⁻¹) (2⁻¹) (fun k _ => by rw [inv_pow])
    (fun l k _ hkl => by rw [← pow_add, inv_pow]; congr 3; omega) n _ (h :: rest) rfl ho
  refine ⟨P.reverse, ?_, h2, h3, c, fun x => ?_⟩
  · unfold isingConvertParams
    simp only [getLast?_reverse', List.head?_cons, hh]
    rw [h1]; rfl
  · rw [h4 x]
    congr 2
    funext i
    rw [add_div, div_eq_inv_mul, one_div]

/-- C13. The probabilities of corresponding states agree: `states` are the {0,1} states over which the
distribution is normalised. -/
theorem C13_probabilities (n : ℕ) (h : List ℝ) (rest : List (List ℝ)) (hh : h.length = n)
    (ho : PolyShape n (h :: rest)) (states : List (ℕ → ℝ)) :
    ∃ P, isingConvertParams (h :: rest) .b01 = .ok P ∧ ∀ x : ℕ → ℝ,
      Real.exp (-polyE n P x) / (states.map fun y => Real.exp (-polyE n P y)).sum =
      Real.exp (-polyE n (h :: rest) (fun i => 2 * x i - 1)) /
        (states.map fun y => Real.exp (-polyE n (h :: rest) (fun i => 2 * y i - 1))).sum := by
  obtain ⟨P, e, -, -, c, hc⟩ := C13_to01_energy n h rest hh ho
  refine ⟨P, e, fun x => ?_⟩
  simp only [hc, neg_add, Real.exp_add]
  rw [list_sum_mul_right, mul_div_mul_right _ _ (Real.exp_pos _).ne']

/-- C13. Any other target basis raises. -/
theorem C13_other_raises [Field K] (o : List (List K)) (r) :
    isingConvertParams o .other ≠ .ok r := by
  unfold isingConvertParams
  simp only
  cases o.reverse.getLast? <;> simp

/-- C13. No arrays at all raises. -/
theorem C13_empty_raises [Field K] (b : Basis) :
    isingConvertParams ([] : List (List K)) b = .error .indexError := rfl

/-- Non-vacuity of C13: three spins with interactions up to order three, all parameters non-zero. -/
example : PolyShape 3 ([[1, -2, 1/2], [3, -1, 2], [5]] : List (List ℚ)) ∧
    isingConvertParams ([[1, -2, 1/2], [3, -1, 2], [5]] : List (List ℚ)) .b01 =
      .ok [[8, -4, 9], [-8, -24, -12], [40]] := by
  constructor
  · intro k hk
    simp only [List.length_cons, List.length_nil] at hk
    interval_cases k <;> decide
  · decide +kernel

/-- C14. The energies of the {0,1} states, known up to a constant, determine all parameters. -/
theorem C14_coefficients_unique [CommRing K] (n : ℕ) (P Q : List (List K))
    (hl : P.length = Q.length) (hP : PolyShape n P) (hQ : PolyShape n Q) (c : K)
    (h : ∀ x : ℕ → K, (∀ i, x i = 0 ∨ x i = 1) → polyE n P x = polyE n Q x + c) : P = Q :=
  poly_unique n P Q hl hP hQ c h

/-- C14. To {0,1} and back returns the original arrays, whatever the number of orders. -/
theorem C14_01_then_11 [Field K] [CharZero K] (n : ℕ) (h : List K) (rest : List (List K))
    (hh : h.length = n) (ho : PolyShape n (h :: rest)) :
    ∃ P, isingConvertParams (h :: rest) .b01 = .ok P ∧
      isingConvertParams P .b11 = .ok (h :: rest) := by
  obtain ⟨P, e, hl, hs, c, hc⟩ := C13_to01_energy n h rest hh ho
  refine ⟨P, e, ?_⟩
  rcases P with _ | ⟨h', rest'⟩
  · simp at hl
  have hh' : h'.length = n := by
    have := hs 0 (by simp)
    simpa [tuples_one] using this
  obtain ⟨Q, e', hl', hs', c', hc'⟩ := C13_to11_energy n h' rest' hh' hs
  rw [e']
  congr 1
  refine poly_unique n Q (h :: rest) (hl'.trans hl) hs' ho (c + c') fun x _ => ?_
  rw [hc', hc, add_assoc]
  congr 2
  funext i
  field_simp
  ring

/-- C14. To {-1,1} and back returns the original arrays. -/
theorem C14_11_then_01 [Field K] [CharZero K] (n : ℕ) (h : List K) (rest : List (List K))
    (hh : h.length = n) (ho : PolyShape n (h :: rest)) :
    ∃ P, isingConvertParams (h :: rest) .b11 = .ok P ∧
      isingConvertParams P .b01 = .ok (h :: rest) := by
  obtain ⟨P, e, hl, hs, c, hc⟩ := C13_to11_energy n h rest hh ho
  refine ⟨P, e, ?_⟩
  rcases P with _ | ⟨h', rest'⟩
  · simp at hl
  have hh' : h'.length = n := by
    have := hs 0 (by simp)
    simpa [tuples_one] using this
  obtain ⟨Q, e', hl', hs', c', hc'⟩ := C13_to01_energy n h' rest' hh' hs
  rw [e']
  congr 1
  refine poly_unique n Q (h :: rest) (hl'.trans hl) hs' ho (c + c') fun x _ => ?_
  rw [hc', hc, add_assoc]
  congr 2
  funext i
  field_simp
  ring

/-- C14. For fields and pairwise couplings `ising_convert_params` and `convert_params` agree, in both
directions. -/
theorem C14_agrees_with_convert_params [Field K] [CharZero K] [DecidableEq K] (n : ℕ) (hn : 1 ≤ n)
    (h J : List K) (hh : h.length = n) (hJ : J.length = n * (n - 1) / 2) (b : Basis)
    (hb : b = .b01 ∨ b = .b11) :
    ∃ h' J', convertParams h (.vec J) b = .ok (h', J') ∧
      isingConvertParams [h, J] b = .ok [h', J'] := by
  have ho := polyShape_two n h J hh hJ
  rcases hb with rfl | rfl
  · obtain ⟨P, e, hl, hs, c, hc⟩ := C13_to01_energy n h [J] hh ho
    obtain ⟨h', J', e2, l1, l2, c2, hc2⟩ := C11_to01_energy n hn h J hh hJ
    refine ⟨h', J', e2, ?_⟩
    rw [e]
    congr 1
    refine poly_unique n P _ (by simpa using hl) hs (polyShape_two n _ _ l1 l2) (c - c2)
      fun x _ => ?_
    rw [hc, polyE_two n _ _ hh hJ, polyE_two n _ _ l1 l2, hc2]
    ring
  · obtain ⟨P, e, hl, hs, c, hc⟩ := C13_to11_energy n h [J] hh ho
    obtain ⟨h', J', e2, l1, l2, c2, hc2⟩ := C11_to11_energy n hn h J hh hJ
    refine ⟨h', J', e2, ?_⟩
    rw [e]
    congr 1
    refine poly_unique n P _ (by simpa using hl) hs (polyShape_two n _ _ l1 l2) (c - c2)
      fun x _ => ?_
    rw [hc, polyE_two n _ _ hh hJ, polyE_two n _ _ l1 l2, hc2]
    ring

/-- Non-vacuity of C14. -/
example : isingConvertParams ([[8, -4, 9], [-8, -24, -12], [40]] : List (List ℚ)) .b11 =
    .ok [[1, -2, 1/2], [3, -1, 2], [5]] := by decide +kernel

/-- C15. The concatenation of the arrays of any number `≤ n` of orders is split into exactly these
arrays, and the call has no other result. -/
theorem C15_undoes_concat [CommRing K] (n : ℕ) (P : List (List K)) (hP : PolyShape n P)
    (hn : P.length ≤ n) (r : List (List K)) : SplitConcatParams P.flatten n r ↔ r = P :=
  split_flatten n P hP hn r

/-- C15. With `concat=True`, splitting the converted vector gives the converted arrays. -/
theorem C15_of_converted [Field K] (n : ℕ) (h : List K) (rest : List (List K)) (hh : h.length = n)
    (ho : PolyShape n (h :: rest)) (hn : (h :: rest).length ≤ n) :
    ∃ v P, isingConvertParamsConcat (h :: rest) .b01 = .ok v ∧
      isingConvertParams (h :: rest) .b01 = .ok P ∧ SplitConcatParams v n P := by
  obtain ⟨P, e, hl, hs, -⟩ := C13_to01_energy n h rest hh ho
  refine ⟨P.flatten, P, ?_, e, (split_flatten n P hs (by omega) P).2 rfl⟩
  unfold isingConvertParamsConcat
  rw [e]; rfl

/-- C15 (partial). The call terminates exactly for the inputs of at most `2^n - 1` entries. The
property asks for termination on every input; what is missing is false, see `C15_diverges`. -/
theorem C15_terminates_partial (p : List K) (n : ℕ) :
    (∃ r, SplitConcatParams p n r) ↔ p.length ≤ 2 ^ n - 1 := split_terminates p n

/-- C15. A vector with more than `2^n - 1` entries makes the loop run for ever. -/
theorem C15_diverges (p : List K) (n : ℕ) (h : 2 ^ n - 1 < p.length) (fuel : ℕ) :
    splitLoop p n fuel 0 1 [] = none := by
  by_contra hne
  obtain ⟨r, hr⟩ := Option.ne_none_iff_exists'.1 hne
  have := (C15_terminates_partial p n).1 ⟨r, fuel, hr⟩
  omega

/-- C15. Whenever it terminates, nothing is lost or reordered. -/
theorem C15_keeps_entries (p : List K) (n : ℕ) (r : List (List K)) (h : SplitConcatParams p n r) :
    r.flatten = p := split_keeps p n r h

/-- Non-vacuity of C15, and a diverging call. -/
example : SplitConcatParams [1, 2, 3, 4, 5, 6, 7] 3 [[1, 2, 3], [4, 5, 6], [7]] := ⟨3, by decide⟩
example : ∀ fuel, splitLoop [1, 2, 3, 4, 5, 6, 7, 8] 3 fuel 0 1 [] = none :=
  C15_diverges _ _ (by decide)

end Verif.Props
