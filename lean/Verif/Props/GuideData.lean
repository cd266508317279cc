/-
C120: the data set of the usage guide, and fits to it.
-/
import Verif.Lemmas.GuideData
import Verif.Props.Consistent

namespace Verif.Props
open Verif Verif.Model Verif.Spec Verif.Lemmas Prog

/-- `e` is the equation module of the pairwise model of `n` spins in {-1,1}. -/
def PairModule (n : ℕ) (e : Eqns) : Prop := writeEqns n true (pairwiseIx n) = .ok e

theorem pairModule_p (n : ℕ) (hn : 1 ≤ n) (e : Eqns) (he : PairModule n e) (θ : List ℝ)
    (hθ : θ.length = n + n * (n - 1) / 2) :
    moduleP e θ = .ok ((words [-1, 1] n).map (boltzmann (words [-1, 1] n) (pairE n θ))) := by
  obtain ⟨e', h1, h2⟩ := pairwise_vec n hn true
  obtain rfl : e' = e := Except.ok.inj (h1.symm.trans he)
  rw [(h2 θ hθ).1]
  have hE : (fun s : List ℤ => groupE (allOrders n 2) [θ.take n, θ.drop n] (spins s)) = pairE n θ := by
    have l1 : (θ.take n).length = n := by rw [List.length_take]; omega
    have l2 : (θ.drop n).length = n * (n - 1) / 2 := by rw [List.length_drop]; omega
    funext s
    have := groupE_flatten _ _ (paramsFit_allOrders n _ (polyShape_two n _ _ l1 l2)) (spins s)
    rw [show ([θ.take n, θ.drop n] : List (List ℝ)).length = 2 from rfl] at this
    rw [this, pairE_dot n θ hθ, orders_pairObs]
    simp
  rw [hE]
  rfl

theorem guideData_eq (n : ℕ) (hn : 1 ≤ n) (e : Eqns) (he : PairModule n e) (θ : List ℝ)
    (hθ : θ.length = n + n * (n - 1) / 2) (size : ℕ) :
    guideData e n size θ = guideSample n size ((words [-1, 1] n).map (boltzmann (words [-1, 1] n) (pairE n θ))) := by
  unfold guideData
  rw [pairModule_p n hn e he θ hθ, ofPy, Prog.bind]

/-- C120: for all random numbers, the recipe returns as many rows as asked for, all of them states of `n` spins. -/
theorem C120_returns (n : ℕ) (hn : 1 ≤ n) (h30 : n ≤ 30) (e : Eqns) (he : PairModule n e) (θ : List ℝ)
    (hθ : θ.length = n + n * (n - 1) / 2) (size : ℕ) :
    Returns (guideData e n size θ) fun X => X.length = size ∧ ∀ s ∈ X, s ∈ words [-1, 1] n := by
  rw [guideData_eq n hn e he θ hθ]
  exact returns_guideSample n hn h30 _ (boltz_nonneg n _) (boltz_sum n _) size

/-- C120: the rows are independent, and every row is distributed as the Ising model with the parameters `θ`: the probability
of an array is the product of the probabilities of its rows. -/
theorem C120_independent (n : ℕ) (hn : 1 ≤ n) (h30 : n ≤ 30) (e : Eqns) (he : PairModule n e) (θ : List ℝ)
    (hθ : θ.length = n + n * (n - 1) / 2) (size : ℕ) (X : List (List ℤ)) (hl : X.length = size)
    (hX : ∀ s ∈ X, s ∈ words [-1, 1] n) :
    prob (guideData e n size θ) (· = X) = (X.map (boltzmann (words [-1, 1] n) (pairE n θ))).prod := by
  rw [guideData_eq n hn e he θ hθ, prob_guideSample n hn h30 _ (boltz_nonneg n _) (boltz_sum n _) size X hl hX,
    sum_boltzmann _ _ (words_pm_ne n)]
  simp

/-- C120: any probabilities `p`, one for each state, none of them negative and with a sum that numpy takes for 1: the rows are
independent, and a row is a given state with the probability in `p` divided by the sum. -/
theorem C120_choice (n : ℕ) (hn : 1 ≤ n) (h30 : n ≤ 30) (p : List ℤ → ℝ) (hp : ∀ s ∈ words [-1, 1] n, 0 ≤ p s)
    (hsum : |((words [-1, 1] n).map p).sum - 1| ≤ (1 / 2) ^ 26) (size : ℕ) (X : List (List ℤ)) (hl : X.length = size)
    (hX : ∀ s ∈ X, s ∈ words [-1, 1] n) :
    prob (guideSample n size ((words [-1, 1] n).map p)) (· = X) =
      (X.map fun s => p s / ((words [-1, 1] n).map p).sum).prod :=
  prob_guideSample n hn h30 p hp hsum size X hl hX

/-- C120: the average of any quantity over the rows has the expectation of the quantity in the model as its expectation, and
its variance is that of the quantity in the model divided by the number of rows. -/
theorem C120_averages (n : ℕ) (hn : 1 ≤ n) (h30 : n ≤ 30) (e : Eqns) (he : PairModule n e) (θ : List ℝ)
    (hθ : θ.length = n + n * (n - 1) / 2) (size : ℕ) (hs : 0 < size) (f : List ℤ → ℝ) :
    expectation (fun X => (X.map f).sum / X.length) (guideData e n size θ) = expect (words [-1, 1] n) (pairE n θ) f ∧
    expectation (fun X => ((X.map f).sum / X.length - expect (words [-1, 1] n) (pairE n θ) f) ^ 2) (guideData e n size θ) =
      (expect (words [-1, 1] n) (pairE n θ) fun s => (f s - expect (words [-1, 1] n) (pairE n θ) f) ^ 2) / size := by
  rw [guideData_eq n hn e he θ hθ]
  obtain ⟨a, v⟩ := variance_guide n hn h30 (pairE n θ) size f
  have hfin := finDist_guideSample n hn h30 _ (boltz_nonneg n (pairE n θ)) (boltz_sum n (pairE n θ)) size
  have hs' : (size : ℝ) ≠ 0 := by exact_mod_cast hs.ne'
  constructor
  · rw [hfin.congr (g := fun X => 0 + (size : ℝ)⁻¹ * (X.map f).sum) fun X hX => by rw [hX.1]; field_simp; ring, hfin.affine, a]
    field_simp
    ring
  · rw [hfin.congr (g := fun X => 0 + ((size : ℝ) ^ 2)⁻¹ * ((X.map f).sum - size * expect (words [-1, 1] n) (pairE n θ) f) ^ 2)
      fun X hX => by rw [hX.1]; field_simp; ring, hfin.affine, v]
    field_simp
    ring

open scoped Classical in
/-- C120: the probability that the frequency of some state in the sample is off by `δ` or more is at most
`1 / (size * δ^2)`. -/
theorem C120_frequencies (n : ℕ) (hn : 1 ≤ n) (h30 : n ≤ 30) (e : Eqns) (he : PairModule n e) (θ : List ℝ)
    (hθ : θ.length = n + n * (n - 1) / 2) (size : ℕ) (hs : 0 < size) (δ : ℝ) (hδ : 0 < δ) :
    prob (guideData e n size θ) (fun X => ¬ CloseFreq n θ δ X) ≤ 1 / (size * δ ^ 2) := by
  rw [guideData_eq n hn e he θ hθ]
  exact close_guide n hn h30 (pairE n θ) size δ hδ hs

open scoped Classical in
/-- C120: the guide's experiment. Draw a sample by the recipe and fit an Ising model to it with `Enumerate`, `Pseudo` or `MPF`: the
probability that one of the fits raises or returns a parameter that is off by `ε` or more is at most `K` divided by the number
of rows, for all parameters (all zero included). The searches are assumed to find what they look for, if it exists. -/
theorem C120_fit (n : ℕ) (hn : 1 ≤ n) (h30 : n ≤ 30) (θ : List ℝ) (hθ : θ.length = n + n * (n - 1) / 2) (L : ℝ)
    (hL : 0 < L) (hin : InLimit L (bitParams n θ)) (ε : ℝ) (hε : 0 < ε) :
    ∃ K, ∀ e, PairModule n e → ∀ size : ℕ, 0 < size →
      prob (guideData e n size θ) (fun X => ¬ (EnumerateFinds n θ ε X ∧ PseudoFinds n θ ε X ∧ MpfFinds n θ ε L X)) ≤
        K / size := by
  obtain ⟨δ₁, hδ₁, h₁⟩ := C119_enumerate n hn θ hθ ε hε
  obtain ⟨δ₂, hδ₂, h₂⟩ := C119_pseudo n hn θ hθ ε hε
  obtain ⟨δ₃, hδ₃, h₃⟩ := C119_mpf n hn θ hθ L hL hin ε hε
  have hδ : 0 < min δ₁ (min δ₂ δ₃) := lt_min hδ₁ (lt_min hδ₂ hδ₃)
  refine ⟨1 / (min δ₁ (min δ₂ δ₃)) ^ 2, fun e he size hs => ?_⟩
  have hs' : (size : ℝ) ≠ 0 := by exact_mod_cast hs.ne'
  have hK := C120_frequencies n hn h30 e he θ hθ size hs _ hδ
  rw [div_div, mul_comm ((min δ₁ (min δ₂ δ₃)) ^ 2)]
  refine le_trans ?_ hK
  rw [guideData_eq n hn e he θ hθ]
  refine (finDist_guideSample n hn h30 _ (boltz_nonneg n (pairE n θ)) (boltz_sum n (pairE n θ)) size).mono fun X _ => ?_
  by_cases hX : CloseFreq n θ (min δ₁ (min δ₂ δ₃)) X
  · rw [if_neg (not_not.2 ⟨h₁ X (hX.mono (min_le_left _ _)),
      h₂ X (hX.mono ((min_le_right _ _).trans (min_le_left _ _))),
      h₃ X (hX.mono ((min_le_right _ _).trans (min_le_right _ _)))⟩)]
    split_ifs <;> norm_num
  · rw [if_pos hX]
    split_ifs <;> norm_num

/-! ### Errors -/

/-- C120: a module for another number of spins than the states are made for,
probabilities that are negative or do not sum to 1, and more than 30 spins raise. -/
theorem C120_raises (n : ℕ) (hn : 1 ≤ n) (size : ℕ) :
    (∀ m, 1 ≤ m → m ≠ n → n ≤ 30 → ∀ e, PairModule m e → ∀ θ : List ℝ, θ.length = m + m * (m - 1) / 2 →
      guideData e n size θ = .fail .valueError) ∧
    (∀ p : List ℝ, n ≤ 30 → (p.length ≠ 2 ^ n ∨ (∃ x ∈ p, x < 0) ∨ |p.sum - 1| > (1 / 2) ^ 26) →
      guideSample n size p = .fail .valueError) ∧
    (∀ p : List ℝ, 30 < n → ∃ err, guideSample n size p = .fail err) := by
  have hbad : ∀ p : List ℝ, n ≤ 30 → (p.length ≠ 2 ^ n ∨ (∃ x ∈ p, x < 0) ∨ |p.sum - 1| > (1 / 2) ^ 26) →
      guideSample n size p = .fail .valueError := by
    intro p h30 h
    unfold guideSample npChoice
    rw [binStates_words n hn h30 true, ofPy, Prog.bind, if_neg (fun h => absurd h.1 (by positivity))]
    by_cases h1 : p.length ≠ 2 ^ n
    · rw [if_pos h1]; rfl
    rw [if_neg h1]
    by_cases h2 : ∃ x ∈ p, x < 0
    · rw [if_pos h2]; rfl
    rw [if_neg h2]
    rcases h with h | h | h
    · exact absurd h h1
    · exact absurd h h2
    · rw [if_pos h]; rfl
  refine ⟨fun m hm hmn h30 e he θ hθ => ?_, hbad, fun p h30 => ?_⟩
  · unfold guideData
    rw [pairModule_p m hm e he θ hθ, ofPy, Prog.bind]
    refine hbad _ h30 (Or.inl ?_)
    rw [List.length_map, length_words]
    intro h
    exact hmn (Nat.pow_right_injective (le_refl 2) h)
  · have : ∃ err, binStates (n : ℤ) true = .error err := by
      unfold binStates
      rw [if_neg (by omega), if_pos (by omega)]
      exact ⟨_, rfl⟩
    obtain ⟨err, h⟩ := this
    exact ⟨err, by unfold guideSample; rw [h]; rfl⟩

/-- The hypotheses can be met: a module, the parameters 0, and probabilities that numpy accepts although they sum to a little
less than 1. -/
example : (∃ e, PairModule 2 e) ∧ InLimit 10 (bitParams 2 ([0, 0, 0] : List ℝ)) ∧
    (([1, -1] : List ℤ) ∈ words [-1, 1] 2) ∧
    |((words ([-1, 1] : List ℤ) 1).map fun s => if s = [1] then (1 / 2 : ℝ) else 1 / 2 - (1 / 2) ^ 30).sum - 1| ≤ (1 / 2) ^ 26 := by
  refine ⟨?_, ?_, by decide, ?_⟩
  · obtain ⟨e, h, -⟩ := pairwise_vec 2 (by norm_num) true
    exact ⟨e, h⟩
  · intro c hc
    simp [bitParams, pairCoupling, couplingAt, List.range_succ] at hc
    simp [hc]
  · have : words ([-1, 1] : List ℤ) 1 = [[-1], [1]] := by decide
    rw [this]
    norm_num [abs_le]

end Verif.Props
