/-
Lemmas about `MPF` as an object: conversion of parameters as a program, the flow in {0,1} variables, convexity.
-/
import Verif.Model.MpfObj
import Verif.Spec.Box
import Verif.Props.Attain
import Mathlib.Analysis.Convex.SpecificFunctions.Basic

namespace Verif.Lemmas
open Verif Verif.Model Verif.Spec Verif.Props

theorem splitConcat_iff {K : Type*} (p : List K) (n : ℕ) (r : List (List K)) :
    splitConcat p n = .ok r ↔ SplitConcatParams p n r := by
  unfold splitConcat
  constructor
  · intro h
    refine ⟨n, ?_⟩
    revert h
    cases splitLoop p n n 0 1 [] with
    | none => simp
    | some v => intro h; rw [Except.ok.inj h]
  · intro h
    obtain ⟨m, h1, h2, h3⟩ := (split_iff p n r).1 h
    have hm : m ≤ n := by
      by_contra hc
      have := h2 n (by omega)
      rw [ordersLen_self] at this
      have := h1.trans (ordersLen_le n m)
      omega
    have h0 : ordersLen n 0 = 0 := rfl
    have := (splitLoop_some p n n 0 [] r).2 ⟨m, hm, by simpa using h1, fun k hk => by simpa using h2 k hk, by simpa using h3⟩
    rw [h0] at this
    rw [this]

theorem splitConcat_long {K : Type*} (p : List K) (n : ℕ) (h : 2 ^ n ≤ p.length) :
    splitConcat p n = .error .diverge := by
  have hno : ∀ r, splitConcat p n ≠ .ok r := fun r hr => by
    have := (split_terminates p n).1 ⟨r, (splitConcat_iff p n r).1 hr⟩
    have := Nat.one_le_two_pow (n := n)
    omega
  unfold splitConcat at hno ⊢
  revert hno
  cases splitLoop p n n 0 1 [] with
  | none => exact fun _ => rfl
  | some v => exact fun h => absurd rfl (h v)

theorem mpfConvert_iff (n : ℕ) (tgt : Basis) (x r : List ℝ) :
    mpfConvert n tgt x = .ok r ↔ MpfConverted n tgt x r := by
  unfold mpfConvert MpfConverted
  constructor
  · cases h : splitConcat x n with
    | error e => simp
    | ok P => exact fun h' => ⟨P, (splitConcat_iff x n P).1 h, h'⟩
  · rintro ⟨P, h1, h2⟩
    rw [(splitConcat_iff x n P).2 h1]
    exact h2

theorem symJ_pairCoupling (n : ℕ) (r : List ℝ) (i j : ℕ) : symJ n (r.drop n) i j = pairCoupling n r i j := by
  unfold symJ pairCoupling
  rcases lt_trichotomy i j with h | h | h
  · rw [if_neg h.ne, if_pos h, min_eq_left h.le, max_eq_right h.le]
  · subst h
    simp
  · rw [if_neg h.ne', if_neg (by omega), if_pos h, min_eq_right h.le, max_eq_left h.le]

theorem length_bitParams (n : ℕ) (r : List ℝ) (hr : r.length = n + n * (n - 1) / 2) :
    (bitParams n r).length = n + n * (n - 1) / 2 := by
  unfold bitParams
  rw [List.length_append, List.length_map, List.length_range, List.length_map, List.length_drop]
  omega

/-- The conversion to {0,1} parameters is `bitParams`. -/
theorem converted_bitParams (n : ℕ) (hn : 1 ≤ n) (r : List ℝ) (hr : r.length = n + n * (n - 1) / 2) :
    MpfConverted n .b01 r (bitParams n r) := by
  classical
  have l1 : (r.take n).length = n := by rw [List.length_take]; omega
  have l2 : (r.drop n).length = n * (n - 1) / 2 := by rw [List.length_drop]; omega
  obtain ⟨h, rest, rfl, hh, hshape, hflat, -, hsplit, hP'⟩ := split_pairwise n hn r hr
  obtain ⟨P, e, hl, hPs, c, hc⟩ := C13_to01_energy n _ rest hh hshape
  obtain ⟨hlen, -, hE⟩ := hP' P hl hPs
  obtain ⟨-, -, hE0⟩ := hP' _ rfl hshape
  obtain ⟨h', J', e2, m1, m2, c2, hc2⟩ := C11_to01_energy n hn (r.take n) (r.drop n) l1 l2
  rw [convertParams_vec_b01 n hn _ _ l1 l2] at e2
  have e3 := Except.ok.inj e2
  have k1 : (P.flatten.take n).length = n := by rw [List.length_take]; omega
  have k2 : (P.flatten.drop n).length = n * (n - 1) / 2 := by rw [List.length_drop]; omega
  have hu := C14_coefficients_unique n [P.flatten.take n, P.flatten.drop n] [h', J'] rfl
    (polyShape_two n _ _ k1 k2) (polyShape_two n _ _ m1 m2) (c - c2) (by
      intro x _
      rw [polyE_two n _ _ k1 k2, polyE_two n _ _ m1 m2, ← hE, hc, hE0, hflat, hc2]
      ring)
  have hb : bitParams n r = P.flatten := by
    rw [← List.take_append_drop n P.flatten]
    simp only [List.cons.injEq, and_true] at hu
    rw [hu.1, hu.2]
    simp only [Prod.mk.injEq] at e3
    rw [← e3.1, ← e3.2]
    unfold bitParams
    congr 1
    · refine List.map_congr_left fun i hi => ?_
      have hi := List.mem_range.1 hi
      have : (r.take n).getD i 0 = r.getD i 0 := by
        rw [List.getD_eq_getElem _ _ (by omega), List.getD_eq_getElem _ _ (by omega), List.getElem_take]
      rw [this]
      simp only [symJ_pairCoupling]
    · exact List.map_congr_left fun c _ => mul_comm _ _
  rw [hb]
  refine ⟨_, (hsplit _).2 rfl, ?_⟩
  unfold isingConvertParamsConcat
  rw [e]
  rfl

theorem converted_back (n : ℕ) (hn : 1 ≤ n) (r : List ℝ) (hr : r.length = n + n * (n - 1) / 2) :
    MpfConverted n .b11 (bitParams n r) r := by
  obtain ⟨x0, h1, -, h3⟩ := C74_start n hn r hr
  rw [(h1 _).1 (converted_bitParams n hn r hr)]
  exact h3

/-- A vector of {0,1} parameters converts to exactly one vector, of which it is the {0,1} form. -/
theorem converted_ex (n : ℕ) (hn : 1 ≤ n) (x : List ℝ) (hx : x.length = n + n * (n - 1) / 2) :
    ∃ r, r.length = n + n * (n - 1) / 2 ∧ mpfConvert n .b11 x = .ok r ∧ bitParams n r = x := by
  obtain ⟨h, rest, -, hh, hshape, hflat, -, hsplit, hP'⟩ := split_pairwise n hn x hx
  obtain ⟨P, e, hl, hPs, -⟩ := C13_to11_energy n h rest hh hshape
  obtain ⟨hlen, -, -⟩ := hP' P hl hPs
  have hc : MpfConverted n .b11 x P.flatten := by
    refine ⟨_, (hsplit _).2 rfl, ?_⟩
    unfold isingConvertParamsConcat
    rw [e]
    rfl
  have hr : P.flatten.length = n + n * (n - 1) / 2 := hlen.trans hx
  exact ⟨P.flatten, hr, (mpfConvert_iff _ _ _ _).2 hc,
    converted_inj n hn _ _ _ (length_bitParams n _ hr) hx (converted_back n hn _ hr) hc⟩

/-- The flow is convex in the parameters. -/
theorem flow_convex (n : ℕ) (X : List (List ℤ)) (nb : List ℤ → List (List ℤ)) (v w : Fin (n + n * (n - 1) / 2) → ℝ) (t : ℝ)
    (h0 : 0 ≤ t) (h1 : t ≤ 1) :
    probFlow X nb (pairE n (List.ofFn (v + t • (w - v)))) ≤
      (1 - t) * probFlow X nb (pairE n (List.ofFn v)) + t * probFlow X nb (pairE n (List.ofFn w)) := by
  have key : ∀ s u : List ℤ, Real.exp ((pairE n (List.ofFn (v + t • (w - v))) s -
      pairE n (List.ofFn (v + t • (w - v))) u) / 2) ≤
      (1 - t) * Real.exp ((pairE n (List.ofFn v) s - pairE n (List.ofFn v) u) / 2) +
        t * Real.exp ((pairE n (List.ofFn w) s - pairE n (List.ofFn w) u) / 2) := by
    intro s u
    have := convexOn_exp.2 (Set.mem_univ ((pairE n (List.ofFn v) s - pairE n (List.ofFn v) u) / 2))
      (Set.mem_univ ((pairE n (List.ofFn w) s - pairE n (List.ofFn w) u) / 2)) (by linarith : (0 : ℝ) ≤ 1 - t) h0 (by ring)
    simp only [smul_eq_mul] at this
    refine le_trans (le_of_eq ?_) this
    congr 1
    simp only [← pairLin_apply, map_add, map_smul, map_sub, Pi.add_apply, Pi.smul_apply, Pi.sub_apply, smul_eq_mul]
    ring
  unfold probFlow
  rw [mul_div_assoc', mul_div_assoc', ← add_div]
  refine div_le_div_of_nonneg_right ?_ (Nat.cast_nonneg _)
  rw [← list_sum_mul_left, ← list_sum_mul_left, ← list_sum_add]
  refine list_sum_le _ _ _ fun s _ => ?_
  rw [← list_sum_mul_left, ← list_sum_mul_left, ← list_sum_add]
  exact list_sum_le _ _ _ fun u _ => key s u

/-- Inside the bounds: a convex function has no smaller value outside. -/
theorem flow_interior (n : ℕ) (X : List (List ℤ)) (nb : List ℤ → List (List ℤ)) (L : ℝ)
    (v : Fin (n + n * (n - 1) / 2) → ℝ) (hv : ∀ i, |v i| < L)
    (hmin : ∀ w : Fin (n + n * (n - 1) / 2) → ℝ, (∀ i, |w i| ≤ L) →
      probFlow X nb (pairE n (List.ofFn v)) ≤ probFlow X nb (pairE n (List.ofFn w)))
    (w : Fin (n + n * (n - 1) / 2) → ℝ) :
    probFlow X nb (pairE n (List.ofFn v)) ≤ probFlow X nb (pairE n (List.ofFn w)) := by
  by_contra hc
  push Not at hc
  -- a step that stays inside
  have hstep : ∃ t : ℝ, 0 < t ∧ t ≤ 1 ∧ ∀ i, |v i + t * (w i - v i)| ≤ L := by
    have h1 : ∀ i, ∃ t : ℝ, 0 < t ∧ ∀ u, 0 ≤ u → u ≤ t → |v i + u * (w i - v i)| ≤ L := by
      intro i
      refine ⟨(L - |v i|) / (|w i - v i| + 1), div_pos (by linarith [hv i]) (by positivity), fun u hu0 hu => ?_⟩
      have hp : (0 : ℝ) < |w i - v i| + 1 := by positivity
      rw [le_div_iff₀ hp] at hu
      calc |v i + u * (w i - v i)| ≤ |v i| + |u * (w i - v i)| := abs_add_le _ _
        _ = |v i| + u * |w i - v i| := by rw [abs_mul, abs_of_nonneg hu0]
        _ ≤ L := by nlinarith
    choose t ht0 ht using h1
    obtain ⟨m, hm⟩ : ∃ m : ℝ, m = (Finset.univ.toList.map t).foldr min 1 := ⟨_, rfl⟩
    have hm0 : ∀ l : List (Fin (n + n * (n - 1) / 2)), 0 < (l.map t).foldr min 1 ∧ (l.map t).foldr min 1 ≤ 1 ∧
        ∀ i ∈ l, (l.map t).foldr min 1 ≤ t i := by
      intro l
      induction l with
      | nil => simp
      | cons a l ih =>
        obtain ⟨a1, a2, a3⟩ := ih
        simp only [List.map_cons, List.foldr_cons]
        refine ⟨lt_min (ht0 a) a1, (min_le_right _ _).trans a2, fun i hi => ?_⟩
        rcases List.mem_cons.1 hi with rfl | hi
        · exact min_le_left _ _
        · exact (min_le_right _ _).trans (a3 i hi)
    obtain ⟨b1, b2, b3⟩ := hm0 Finset.univ.toList
    exact ⟨_, b1, b2, fun i => ht i _ b1.le (b3 i (Finset.mem_toList.2 (Finset.mem_univ i)))⟩
  obtain ⟨t, t0, t1, hin⟩ := hstep
  have h1 := hmin (v + t • (w - v)) fun i => by
    simpa only [Pi.add_apply, Pi.smul_apply, Pi.sub_apply, smul_eq_mul] using hin i
  have h2 := flow_convex n X nb v w t t0.le t1
  nlinarith

/-- Within bounds there is always a minimum. -/
theorem flow_box_exists (n : ℕ) (X : List (List ℤ)) (nb : List ℤ → List (List ℤ)) (hne : nbrPairs X nb ≠ []) (L : ℝ)
    (hL : 0 ≤ L) : ∃ v : Fin (n + n * (n - 1) / 2) → ℝ, (∀ i, |v i| ≤ L) ∧
      ∀ w : Fin (n + n * (n - 1) / 2) → ℝ, (∀ i, |w i| ≤ L) →
        probFlow X nb (pairE n (List.ofFn v)) ≤ probFlow X nb (pairE n (List.ofFn w)) := by
  have hbox : ∀ w : Fin (n + n * (n - 1) / 2) → ℝ, (∀ i, |w i| ≤ L) ↔ w ∈ Set.Icc (fun _ => -L) (fun _ => L) := by
    intro w
    simp only [Set.mem_Icc, Pi.le_def, abs_le, ← forall_and]
  obtain ⟨v, hv, hmin⟩ := (isCompact_Icc (a := fun _ : Fin (n + n * (n - 1) / 2) => -L) (b := fun _ => L)).exists_isMinOn
    ⟨0, by rw [← hbox]; simpa using fun _ => hL⟩
    (continuous_crossLin (nbrPairs X nb) hne (diffLin n (1 / 2)) 0).continuousOn
  exact ⟨v, (hbox v).2 hv, fun w hw => (flow_le_iff n X nb hne v w).1 (hmin ((hbox w).1 hw))⟩

end Verif.Lemmas
