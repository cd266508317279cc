/-
Averages over the rows of several chains.
-/
import Verif.Lemmas.ChainRows

namespace Verif.Lemmas
open Verif Verif.Model Verif.Spec Prog Filter

variable {α β ι : Type}

theorem expectation_visits_take {S : List α} {step : α → Prog α} (hfin : ∀ s ∈ S, FinDist (step s) (· ∈ S))
    (F : List α → ℝ) (l : List ι) (j : ℕ) (s : α) (hs : s ∈ S) :
    expectation (fun tr => F (tr.take j)) (visits (fun _ : ι => step) l s) =
      expectation F (visits (fun _ : ι => step) (l.take j) s) := by
  induction l generalizing j s F with
  | nil => simp [visits]
  | cons i l ih =>
    cases j with
    | zero =>
      simp only [List.take_zero]
      rw [(finDist_visits hfin (i :: l) s hs).const]
      rfl
    | succ j =>
      rw [List.take_succ_cons, visits, visits, expectation_bind, expectation_bind]
      refine (hfin s hs).congr fun t ht => ?_
      rw [expectation_bind, expectation_bind]
      simp only [expectation_ret, List.take_succ_cons]
      exact ih (fun tr => F (t :: tr)) j t ht

theorem expectation_chainRows_take {S : List α} {step : α → Prog α} (hfin : ∀ s ∈ S, FinDist (step s) (· ∈ S))
    (F : List α → ℝ) (burn k m j : ℕ) (hj : j ≤ m) (s : α) (hs : s ∈ S) :
    expectation (fun tr => F (tr.take j)) (chainRows step burn k m s) =
      expectation F (chainRows step burn k j s) := by
  have hb : ∀ q, ∀ st ∈ S, FinDist (forEach (fun _ : ℕ => step) (List.range q) st) (· ∈ S) := fun q =>
    finDist_forEach (I := (· ∈ S)) _ fun _ _ => hfin
  unfold chainRows
  rw [expectation_bind, expectation_bind]
  refine (hb burn s hs).congr fun t ht => ?_
  rw [expectation_visits_take (hb k) F (List.range m) j t ht, List.take_range, min_eq_left hj]

/-- The first `j` rows. -/
theorem Ergodic.isRows_lln_take [DecidableEq α] {S : List α} {w : α → ℝ} {step : α → Prog α} (he : Ergodic S w step)
    (g : α → β) (f : β → ℝ) :
    ∃ K, 0 ≤ K ∧ ∀ (p : Prog (List β)) (init : Prog α) (burn k m j : ℕ),
      FinDist init (· ∈ S) → IsRows p init g step burn k m → 0 < k → j ≤ m →
      expectation (fun rows => (((rows.take j).map f).sum - j * (S.map fun s => w s * f (g s)).sum) ^ 2) p ≤ j * K := by
  obtain ⟨K, h0, hK⟩ := he.rows_lln fun s => f (g s)
  refine ⟨K, h0, fun p init burn k m j hi hp hk hj => ?_⟩
  rw [hp]
  refine hi.le_of fun s hs => ?_
  have := hK burn k j hk s hs
  rw [← expectation_chainRows_take he.fin _ burn k m j hj s hs] at this
  simpa only [← List.map_take, List.map_map, Function.comp_def] using this

/-- The rows of several independent runs put together and cut. -/
theorem parallel_lln {σ : Type} {one : σ → Prog β} {rows : β → List α} {f : α → ℝ} {q : ℕ} {μ K : ℝ}
    (l : List σ) (h1 : ∀ c ∈ l, FinDist (one c) fun r => (rows r).length = q)
    (h2 : ∀ c ∈ l, ∀ j ≤ q, expectation (fun r => ((((rows r).take j).map f).sum - j * μ) ^ 2) (one c) ≤ j * K)
    (M : ℕ) (hM : M ≤ l.length * q) :
    expectation (fun rs => ((((rs.flatMap rows).take M).map f).sum - M * μ) ^ 2) (mapEach one l) ≤
      l.length * (M * K) := by
  induction l generalizing M with
  | nil =>
    have : M = 0 := by simpa using hM
    subst this
    simp [mapEach]
  | cons c l ih =>
    obtain ⟨M1, hM1⟩ : ∃ M1, M1 = min M q := ⟨_, rfl⟩
    obtain ⟨M2, hM2⟩ : ∃ M2, M2 = M - q := ⟨_, rfl⟩
    have hM12 : M = M1 + M2 := by omega
    have hM2' : M2 ≤ l.length * q := by
      rw [List.length_cons, Nat.succ_mul] at hM
      omega
    have hl := finDist_mapEach (f := one) (Q := fun _ r => (rows r).length = q) l fun c hc => h1 c (by simp [hc])
    have hc := h1 c (by simp)
    have ih' := ih (fun c hc => h1 c (by simp [hc])) (fun c hc => h2 c (by simp [hc])) M2 hM2'
    have hc' := h2 c (by simp) M1 (by omega)
    obtain ⟨A, hA⟩ : ∃ A : β → ℝ, A = fun r => (((rows r).take M1).map f).sum - M1 * μ := ⟨_, rfl⟩
    obtain ⟨B, hB⟩ : ∃ B : List β → ℝ, B = fun rs => (((rs.flatMap rows).take M2).map f).sum - M2 * μ := ⟨_, rfl⟩
    have eA : expectation (fun r => A r ^ 2) (one c) ≤ M1 * K := by rw [hA]; exact hc'
    have eB : expectation (fun rs => B rs ^ 2) (mapEach one l) ≤ l.length * (M2 * K) := by rw [hB]; exact ih'
    have key : ∀ r : β, (rows r).length = q → ∀ rs : List β,
        (((((r :: rs).flatMap rows).take M).map f).sum - M * μ) = A r + B rs := by
      intro r hr rs
      rw [List.flatMap_cons, List.take_append, hr, ← hM2, List.map_append, List.sum_append, hA, hB]
      have : (rows r).take M = (rows r).take M1 := by
        rw [hM1]
        rcases le_total M q with h | h
        · rw [min_eq_left h]
        · rw [min_eq_right h, List.take_of_length_le (by omega), List.take_of_length_le (by omega)]
      rw [this, hM12]
      push_cast
      ring
    rw [mapEach, expectation_bind]
    simp only [expectation_bind, expectation_ret]
    have hlen : ((c :: l).length : ℝ) = l.length + 1 := by push_cast [List.length_cons]; ring
    rw [hlen]
    rcases Nat.eq_zero_or_pos l.length with hz | hz
    · have : l = [] := List.length_eq_zero_iff.1 hz
      subst this
      have hM20 : M2 = 0 := by simpa using hM2'
      have hB0 : B [] = 0 := by rw [hB, hM20]; simp
      rw [hc.congr (g := fun r => A r ^ 2) fun r hr => ?_]
      · refine eA.trans ?_
        have : M = M1 := by omega
        rw [this]
        simp
      · simp only [mapEach, expectation_ret]
        rw [key r hr, hB0, add_zero]
    · have hN : (0 : ℝ) < l.length := by exact_mod_cast hz
      obtain ⟨N, hN'⟩ : ∃ N : ℝ, N = l.length := ⟨_, rfl⟩
      rw [← hN'] at eB hN ⊢
      have step1 : ∀ r, (rows r).length = q → expectation (fun rs =>
          (((((r :: rs).flatMap rows).take M).map f).sum - M * μ) ^ 2) (mapEach one l) ≤
          (1 + N⁻¹) * (N * (M2 * K)) + (1 + N) * A r ^ 2 := by
        intro r hr
        simp only [key r hr]
        have h3 : expectation (fun rs => (A r + B rs) ^ 2) (mapEach one l) ≤
            expectation (fun rs => (1 + N) * A r ^ 2 + (1 + N⁻¹) * B rs ^ 2) (mapEach one l) := by
          refine hl.mono fun rs _ => ?_
          have : (1 + N) * A r ^ 2 + (1 + N⁻¹) * B rs ^ 2 - (A r + B rs) ^ 2 = (N * A r - B rs) ^ 2 / N := by
            field_simp
            ring
          have h4 : 0 ≤ (N * A r - B rs) ^ 2 / N := by positivity
          linarith
        rw [hl.affine] at h3
        have h5 : (1 + N⁻¹) * expectation (fun rs => B rs ^ 2) (mapEach one l) ≤ (1 + N⁻¹) * (N * (M2 * K)) :=
          mul_le_mul_of_nonneg_left eB (by positivity)
        linarith
      have step2 := hc.mono step1
      rw [hc.affine] at step2
      have h6 : (1 + N) * expectation (fun r => A r ^ 2) (one c) ≤ (1 + N) * (M1 * K) :=
        mul_le_mul_of_nonneg_left eA (by positivity)
      have h7 : (1 + N⁻¹) * (N * (M2 * K)) + (1 + N) * (M1 * K) = (N + 1) * (M * K) := by
        rw [hM12]
        push_cast
        field_simp
        ring
      linarith

end Verif.Lemmas
