/-
The Metropolis chain of an Ising model: bounds that hold for all parameters in a range.
-/
import Verif.Lemmas.UniformLln
import Mathlib.Topology.MetricSpace.ProperSpace.Real
import Mathlib.Topology.Order.Compact

namespace Verif.Lemmas
open Verif Verif.Model Verif.Spec Prog Filter

/-- Words are reached from each other by changing at most `n` letters, one at a time. -/
theorem words_connect_count (A : List ℤ) (n : ℕ) (P : ℕ → List ℤ → List ℤ → Prop) (s : List ℤ) (hs : s ∈ words A n)
    (hrefl : P 0 s s)
    (hstep : ∀ d, ∀ u ∈ words A n, P d s u → ∀ i < n, ∀ v ∈ A, P d s (u.set i v) ∨ P (d + 1) s (u.set i v)) :
    ∀ t ∈ words A n, ∃ d ≤ n, P d s t := by
  intro t ht
  obtain ⟨hs1, hs2⟩ := mem_words.1 hs
  obtain ⟨ht1, ht2⟩ := mem_words.1 ht
  have hmem : ∀ k, t.take k ++ s.drop k ∈ words A n := fun k => by
    refine mem_words.2 ⟨by simp [hs1, ht1]; omega, fun x hx => ?_⟩
    rcases List.mem_append.1 hx with hx | hx
    · exact ht2 x (List.mem_of_mem_take hx)
    · exact hs2 x (List.mem_of_mem_drop hx)
  have key : ∀ k ≤ n, ∃ d ≤ k, P d s (t.take k ++ s.drop k) := by
    intro k
    induction k with
    | zero => intro _; exact ⟨0, le_rfl, by simpa using hrefl⟩
    | succ k ih =>
      intro hk
      have hkt : k < t.length := by omega
      have hks : k < s.length := by omega
      have e : (t.take k ++ s.drop k).set k t[k] = t.take (k + 1) ++ s.drop (k + 1) := by
        rw [List.set_append_right _ _ (by simp [min_eq_left hkt.le]), List.length_take, min_eq_left hkt.le, Nat.sub_self,
          List.drop_eq_getElem_cons hks, List.set_cons_zero, List.take_succ_eq_append_getElem hkt, List.append_assoc]
        rfl
      obtain ⟨d, hd, hP⟩ := ih (by omega)
      rw [← e]
      rcases hstep d _ (hmem k) hP k (by omega) _ (ht2 _ (List.getElem_mem hkt)) with h | h
      · exact ⟨d, by omega, h⟩
      · exact ⟨d + 1, by omega, h⟩
  obtain ⟨d, hd, h⟩ := key n le_rfl
  exact ⟨d, hd, by rwa [List.take_of_length_le ht1.le, List.drop_eq_nil_of_le hs1.le, List.append_nil] at h⟩

section
variable (n : ℕ) (hn : 0 < n) (calcE : List ℤ → ℝ)

theorem finDist_metroIter (hn : 0 < n) : ∀ st ∈ withE calcE (words [1, -1] n),
    FinDist (metroIter (sampleMetropolis calcE) n false 0 st) (· ∈ withE calcE (words [1, -1] n)) := by
  intro st hst
  obtain ⟨s, e⟩ := st
  obtain ⟨h1, h2⟩ := mem_withE.1 hst
  dsimp only at h1 h2
  subst h2
  rw [metroIter_random (goodMove_metropolis n calcE) 0 s h1]
  exact finDist_randint n hn _ fun i hi => finDist_bind (finDist_metropolis n calcE i hi s h1) fun r hr =>
    finDist_ret (mem_withE.2 hr)

theorem flip_le (D : ℝ) (hD0 : 0 ≤ D) (s : List ℤ) (hs : s ∈ words [1, -1] n) (i : ℕ) (hi : i < n)
    (hD : calcE (negAt s i) - calcE s ≤ D) :
    Real.exp (-D) / n ≤ expectation (pointFn (negAt s i, calcE (negAt s i)))
      (metroIter (sampleMetropolis calcE) n false 0 (s, calcE s)) := by
  have hn : 0 < n := by omega
  rw [expectation_metroIter n hn calcE _ s hs]
  refine div_le_div_of_nonneg_right ?_ (Nat.cast_nonneg n)
  refine le_trans ?_ (Finset.single_le_sum (fun j _ => ?_) (Finset.mem_range.2 hi))
  · rw [pointFn_self, mul_one]
    refine le_add_of_le_of_nonneg (le_min ?_ ?_) (mul_nonneg (reject_nonneg _) (pointFn_nonneg _ _))
    · rw [Real.exp_le_one_iff]; linarith
    · rw [Real.exp_le_exp]; linarith
  · exact add_nonneg (mul_nonneg (accept_pos _).le (pointFn_nonneg _ _)) (mul_nonneg (reject_nonneg _) (pointFn_nonneg _ _))

theorem stay_le (γ : ℝ) (s : List ℤ) (hs : s ∈ words [1, -1] n) (i : ℕ) (hi : i < n)
    (h : γ ≤ calcE (negAt s i) - calcE s) :
    (1 - Real.exp (-γ)) / n ≤ expectation (pointFn (s, calcE s))
      (metroIter (sampleMetropolis calcE) n false 0 (s, calcE s)) := by
  have hn : 0 < n := by omega
  rw [expectation_metroIter n hn calcE _ s hs]
  refine div_le_div_of_nonneg_right ?_ (Nat.cast_nonneg n)
  refine le_trans ?_ (Finset.single_le_sum (fun j _ => ?_) (Finset.mem_range.2 hi))
  · rw [pointFn_self, mul_one]
    refine le_add_of_nonneg_of_le (mul_nonneg (accept_pos _).le (pointFn_nonneg _ _)) ?_
    have h1 : Real.exp (-(calcE (negAt s i) - calcE s)) ≤ Real.exp (-γ) := by rw [Real.exp_le_exp]; linarith
    have := min_le_right 1 (Real.exp (-(calcE (negAt s i) - calcE s)))
    linarith
  · exact add_nonneg (mul_nonneg (accept_pos _).le (pointFn_nonneg _ _)) (mul_nonneg (reject_nonneg _) (pointFn_nonneg _ _))

/-- If single flips raise the energy by at most `D`, and one of them by at least `γ`, then `2 n` updates lead from every
state to every state with a probability that depends on `n`, `D` and `γ` only. -/
theorem reach_metro (hn : 0 < n) (D γ : ℝ) (hD0 : 0 ≤ D) (hγ0 : 0 < γ)
    (hD : ∀ s ∈ words [1, -1] n, ∀ i < n, calcE (negAt s i) - calcE s ≤ D)
    (hγ : ∃ a ∈ words [1, -1] n, ∃ i < n, γ ≤ calcE (negAt a i) - calcE a) :
    ∀ st ∈ withE calcE (words [1, -1] n), ∀ st' ∈ withE calcE (words [1, -1] n),
      (min (Real.exp (-D)) (1 - Real.exp (-γ)) / n) ^ (2 * n) ≤
        (fun f st => expectation f (metroIter (sampleMetropolis calcE) n false 0 st))^[2 * n] (pointFn st') st := by
  obtain ⟨p, hp⟩ : ∃ p, p = min (Real.exp (-D)) (1 - Real.exp (-γ)) / n := ⟨_, rfl⟩
  have hT := markov_step (finDist_metroIter n calcE hn)
  have hex : Real.exp (-γ) < 1 := by rw [Real.exp_lt_one_iff]; linarith
  have hp0 : 0 ≤ p := by
    rw [hp]
    exact div_nonneg (le_min (Real.exp_pos _).le (by linarith)) (Nat.cast_nonneg n)
  have hp1 : p ≤ Real.exp (-D) / n := by
    rw [hp]; exact div_le_div_of_nonneg_right (min_le_left _ _) (Nat.cast_nonneg n)
  have hp2 : p ≤ (1 - Real.exp (-γ)) / n := by
    rw [hp]; exact div_le_div_of_nonneg_right (min_le_right _ _) (Nat.cast_nonneg n)
  rw [← hp]
  have hconn : ∀ s ∈ words [1, -1] n, ∀ t ∈ words [1, -1] n, ∃ d ≤ n, p ^ d ≤
      (fun f st => expectation f (metroIter (sampleMetropolis calcE) n false 0 st))^[d] (pointFn (t, calcE t))
        (s, calcE s) := by
    intro s hs
    refine words_connect_count [1, -1] n (fun d s t => p ^ d ≤
      (fun f st => expectation f (metroIter (sampleMetropolis calcE) n false 0 st))^[d] (pointFn (t, calcE t))
        (s, calcE s)) s hs (by simp [pointFn]) fun d u hu hP i hi v hv => ?_
    have ho := getD_mem_of_words hi hu
    by_cases hne : v = u.getD i 0
    · left; rw [hne, set_getD_self]; exact hP
    · have e : u.set i v = negAt u i := by
        rw [negAt_eq]
        congr 1
        simp only [List.mem_cons, List.not_mem_nil, or_false] at ho hv
        omega
      right
      rw [e, pow_succ]
      exact reach_trans_le hT (l := 1) (mem_withE.2 ⟨hs, rfl⟩) (pow_nonneg hp0 d) hp0 hP
        (hp1.trans (flip_le n calcE D hD0 u hu i hi (hD u hu i hi)))
  obtain ⟨a, ha, i, hi, hai⟩ := hγ
  rintro ⟨s, e⟩ hst ⟨t, e'⟩ hst'
  obtain ⟨hs, h2⟩ := mem_withE.1 hst
  obtain ⟨ht, h2'⟩ := mem_withE.1 hst'
  dsimp only at hs h2 ht h2'
  subst h2 h2'
  obtain ⟨d1, hd1, r1⟩ := hconn s hs a ha
  obtain ⟨d2, hd2, r2⟩ := hconn a ha t ht
  have hh := hold_le hT (mem_withE.2 ⟨ha, rfl⟩) hp0 (hp2.trans (stay_le n calcE γ a ha i hi hai)) (2 * n - d1 - d2)
  have h3 := reach_trans_le hT hst (pow_nonneg hp0 _) (mul_nonneg (pow_nonneg hp0 _) (pow_nonneg hp0 _))
    r1 (reach_trans_le hT (mem_withE.2 ⟨ha, rfl⟩) (pow_nonneg hp0 _) (pow_nonneg hp0 _) hh r2)
  rw [← pow_add, ← pow_add, show d1 + (2 * n - d1 - d2 + d2) = 2 * n by omega] at h3
  exact h3

end

/-! ### Ising models -/

/-- The energy with the parameters in a function. -/
noncomputable def energyFn (n : ℕ) (s : List ℤ) (x : Fin (n + n * (n - 1) / 2) → ℝ) : ℝ :=
  isingVecE n ((List.ofFn x).take n) ((List.ofFn x).drop n) (spins s)

theorem continuous_energyFn (n : ℕ) (s : List ℤ) : Continuous (energyFn n s) := by
  have h1 : ∀ i, Continuous fun x : Fin (n + n * (n - 1) / 2) → ℝ => (List.ofFn x).getD i 0 := by
    intro i
    by_cases hi : i < n + n * (n - 1) / 2
    · have : (fun x : Fin (n + n * (n - 1) / 2) → ℝ => (List.ofFn x).getD i 0) = fun x => x ⟨i, hi⟩ := by
        funext x
        rw [List.getD_eq_getElem _ _ (by simpa using hi), List.getElem_ofFn]
      rw [this]
      exact continuous_apply _
    · have : (fun x : Fin (n + n * (n - 1) / 2) → ℝ => (List.ofFn x).getD i 0) = fun _ => 0 := by
        funext x
        rw [List.getD_eq_default _ _ (by simpa using hi)]
      rw [this]
      exact continuous_const
  have h2 : ∀ i, Continuous fun x : Fin (n + n * (n - 1) / 2) → ℝ => ((List.ofFn x).take n).getD i 0 := by
    intro i
    by_cases hi : i < n
    · have : (fun x : Fin (n + n * (n - 1) / 2) → ℝ => ((List.ofFn x).take n).getD i 0) =
          fun x => (List.ofFn x).getD i 0 := by
        funext x
        exact getD_take _ _ _ _ hi
      rw [this]
      exact h1 i
    · have : (fun x : Fin (n + n * (n - 1) / 2) → ℝ => ((List.ofFn x).take n).getD i 0) = fun _ => 0 := by
        funext x
        rw [List.getD_eq_default _ _ (by simp; omega)]
      rw [this]
      exact continuous_const
  have h3 : ∀ i, Continuous fun x : Fin (n + n * (n - 1) / 2) → ℝ => ((List.ofFn x).drop n).getD i 0 := by
    intro i
    have : (fun x : Fin (n + n * (n - 1) / 2) → ℝ => ((List.ofFn x).drop n).getD i 0) =
        fun x => (List.ofFn x).getD (n + i) 0 := by
      funext x
      simp only [List.getD_eq_getElem?_getD, List.getElem?_drop]
    rw [this]
    exact h1 _
  unfold energyFn isingVecE isingE couplingAt
  refine (continuous_finset_sum _ fun i _ => (h2 i).mul continuous_const).neg.sub
    (continuous_finset_sum _ fun i _ => continuous_finset_sum _ fun j _ => ?_)
  split
  · exact ((h3 _).mul continuous_const).mul continuous_const
  · exact continuous_const

/-- Parameters that are at most `B` and not all smaller than `ρ`: single flips raise the energy by at most `D`, and one of
them by at least `γ`. -/
theorem uniform_gap (n : ℕ) (B ρ : ℝ) (hρ : 0 < ρ) :
    ∃ D γ : ℝ, 0 ≤ D ∧ 0 < γ ∧ ∀ theta : List ℝ, theta.length = n + n * (n - 1) / 2 → (∀ x ∈ theta, |x| ≤ B) →
      (∃ x ∈ theta, ρ ≤ |x|) → ∀ E : List ℤ → ℝ,
      (∀ s ∈ words [1, -1] n, E s = isingVecE n (theta.take n) (theta.drop n) (spins s)) →
      (∀ s ∈ words [1, -1] n, ∀ i < n, E (negAt s i) - E s ≤ D) ∧
      ∃ a ∈ words [1, -1] n, ∃ i < n, γ ≤ E (negAt a i) - E a := by
  obtain ⟨P, hP⟩ : ∃ P, P = words [1, -1] n ×ˢ List.range n := ⟨_, rfl⟩
  obtain ⟨d, hd⟩ : ∃ d : List ℤ × ℕ → (Fin (n + n * (n - 1) / 2) → ℝ) → ℝ,
    d = fun p x => energyFn n (negAt p.1 p.2) x - energyFn n p.1 x := ⟨_, rfl⟩
  have hdc : ∀ p, Continuous (d p) := fun p => by
    rw [hd]
    exact (continuous_energyFn n _).sub (continuous_energyFn n _)
  obtain ⟨C, hC⟩ : ∃ C : Set (Fin (n + n * (n - 1) / 2) → ℝ),
    C = (Set.univ.pi fun _ => Set.Icc (-B) B) ∩ ⋃ i, {x | ρ ≤ |x i|} := ⟨_, rfl⟩
  have hcomp : IsCompact C := by
    rw [hC]
    refine (isCompact_univ_pi fun _ => isCompact_Icc).inter_right (isClosed_iUnion_of_finite fun i => ?_)
    exact isClosed_le continuous_const (continuous_abs.comp (continuous_apply i))
  -- the sums of the changes
  have hF : Continuous fun x => (P.map fun p => max 0 (d p x)).sum :=
    continuous_list_sum P fun p _ => continuous_const.max (hdc p)
  have hG : Continuous fun x => (P.map fun p => |d p x|).sum :=
    continuous_list_sum P fun p _ => continuous_abs.comp (hdc p)
  -- from parameters to functions
  have hfn : ∀ theta : List ℝ, theta.length = n + n * (n - 1) / 2 → (∀ x ∈ theta, |x| ≤ B) →
      (∃ x ∈ theta, ρ ≤ |x|) → ∃ x ∈ C, List.ofFn x = theta := by
    intro theta hl h1 h2
    have e : List.ofFn (fun i : Fin (n + n * (n - 1) / 2) => theta.getD i 0) = theta := by
      refine List.ext_getElem (by simp [hl]) fun i hi hi' => ?_
      rw [List.getElem_ofFn, List.getD_eq_getElem _ _ hi']
    refine ⟨_, ?_, e⟩
    rw [hC]
    refine ⟨fun i _ => ?_, ?_⟩
    · have hi : i.1 < theta.length := by rw [hl]; exact i.2
      have := h1 _ (List.getElem_mem hi)
      dsimp only
      rw [List.getD_eq_getElem _ _ hi]
      exact abs_le.1 this
    · obtain ⟨x, hx, hx2⟩ := h2
      obtain ⟨i, hi, rfl⟩ := List.getElem_of_mem hx
      refine Set.mem_iUnion.2 ⟨⟨i, by rw [← hl]; exact hi⟩, ?_⟩
      change ρ ≤ |theta.getD i 0|
      rw [List.getD_eq_getElem _ _ hi]
      exact hx2
  have hfn' : ∀ x ∈ C, ∃ y ∈ List.ofFn x, y ≠ 0 := by
    intro x hx
    rw [hC] at hx
    obtain ⟨i, hi⟩ := Set.mem_iUnion.1 hx.2
    refine ⟨x i, by simp, fun h0 => ?_⟩
    replace hi : ρ ≤ |x i| := hi
    rw [h0, abs_zero] at hi
    linarith
  rcases C.eq_empty_or_nonempty with hemp | hne
  · refine ⟨0, 1, le_rfl, one_pos, fun theta hl h1 h2 => ?_⟩
    obtain ⟨x, hx, -⟩ := hfn theta hl h1 h2
    rw [hemp] at hx
    exact absurd hx (by simp)
  obtain ⟨x0, hx0, hmin⟩ := hcomp.exists_isMinOn hne hF.continuousOn
  obtain ⟨x1, hx1, hmax⟩ := hcomp.exists_isMaxOn hne hG.continuousOn
  have hneg : ∀ s ∈ words [1, -1] n, ∀ i < n, negAt s i ∈ words [1, -1] n := fun s hs i _ => by
    rw [negAt_eq]; exact flip_mem_words n i s hs
  have hc0 : 0 < (P.map fun p => max 0 (d p x0)).sum := by
    have hnn : ∀ y ∈ P.map fun p => max 0 (d p x0), 0 ≤ y := by
      intro y hy
      obtain ⟨p, -, rfl⟩ := List.mem_map.1 hy
      exact le_max_left _ _
    obtain ⟨a, ha, i, hi, hlt⟩ : ∃ a ∈ words [1, -1] n, ∃ i < n, energyFn n a x0 < energyFn n (negAt a i) x0 := by
      by_contra hcon
      push Not at hcon
      obtain ⟨s, hs, t, ht, hst⟩ := ising_not_constant n (List.ofFn x0) (by simp) (hfn' x0 hx0)
      exact hst (energy_const n (fun s => energyFn n s x0) hcon s hs t ht)
    have hmem : max 0 (d (a, i) x0) ∈ P.map fun p => max 0 (d p x0) :=
      List.mem_map.2 ⟨(a, i), by rw [hP]; exact List.mem_product.2 ⟨ha, List.mem_range.2 hi⟩, rfl⟩
    refine lt_of_lt_of_le ?_ (List.single_le_sum hnn _ hmem)
    refine lt_max_of_lt_right ?_
    rw [hd]
    exact sub_pos.2 hlt
  obtain ⟨c, hc⟩ : ∃ c, c = (P.map fun p => max 0 (d p x0)).sum := ⟨_, rfl⟩
  rw [← hc] at hc0
  have hL : (0 : ℝ) < P.length + 1 := by positivity
  refine ⟨(P.map fun p => |d p x1|).sum, c / (P.length + 1), ?_, div_pos hc0 hL, fun theta hl h1 h2 E hE => ?_⟩
  · refine List.sum_nonneg fun y hy => ?_
    obtain ⟨p, -, rfl⟩ := List.mem_map.1 hy
    exact abs_nonneg _
  obtain ⟨x, hx, hxt⟩ := hfn theta hl h1 h2
  have hdE : ∀ s ∈ words [1, -1] n, ∀ i < n, E (negAt s i) - E s = d (s, i) x := by
    intro s hs i hi
    rw [hE _ (hneg s hs i hi), hE s hs, hd]
    unfold energyFn
    dsimp only
    rw [hxt]
  constructor
  · intro s hs i hi
    rw [hdE s hs i hi]
    refine (le_abs_self _).trans (le_trans ?_ (hmax hx))
    refine List.single_le_sum (fun y hy => ?_) _ (List.mem_map.2 ⟨(s, i), ?_, rfl⟩)
    · obtain ⟨p, -, rfl⟩ := List.mem_map.1 hy
      exact abs_nonneg _
    · rw [hP]; exact List.mem_product.2 ⟨hs, List.mem_range.2 hi⟩
  · by_contra hcon
    push Not at hcon
    have hle : (P.map fun p => max 0 (d p x)).sum ≤ P.length * (c / (P.length + 1)) := by
      have : ∀ y ∈ P.map fun p => max 0 (d p x), y ≤ c / (P.length + 1) := by
        intro y hy
        obtain ⟨p, hp, rfl⟩ := List.mem_map.1 hy
        rw [hP] at hp
        obtain ⟨s, i⟩ := p
        have := List.mem_product.1 hp
        refine max_le (div_pos hc0 hL).le ?_
        rw [← hdE s this.1 i (List.mem_range.1 this.2)]
        exact (hcon s this.1 i (List.mem_range.1 this.2)).le
      have h3 := List.sum_le_card_nsmul _ _ this
      rwa [List.length_map, nsmul_eq_mul] at h3
    have h4 : c ≤ (P.map fun p => max 0 (d p x)).sum := by rw [hc]; exact hmin hx
    have h5 : (P.length : ℝ) * (c / (P.length + 1)) < c := by
      rw [mul_div_assoc', div_lt_iff₀ hL]
      nlinarith
    linarith

/-- Averages over the chain of an Ising model, with one bound for all parameters in a range and all functions of a given
size. -/
theorem uniform_lln (n : ℕ) (hn : 0 < n) (B ρ c : ℝ) (hρ : 0 < ρ) (hc : 0 ≤ c) :
    ∃ K, 0 ≤ K ∧ ∀ theta : List ℝ, theta.length = n + n * (n - 1) / 2 → (∀ x ∈ theta, |x| ≤ B) →
      (∃ x ∈ theta, ρ ≤ |x|) → ∀ E : List ℤ → ℝ,
      (∀ s ∈ words [1, -1] n, E s = isingVecE n (theta.take n) (theta.drop n) (spins s)) →
      ∀ f : List ℤ → ℝ, (∀ s ∈ words [1, -1] n, |f s| ≤ c) →
      LlnK (withE E (words [1, -1] n)) (fun st => boltzmann (words [1, -1] n) E st.1)
        (metroIter (sampleMetropolis E) n false 0) (fun st => f st.1) K := by
  obtain ⟨D, γ, hD0, hγ0, h⟩ := uniform_gap n B ρ hρ
  obtain ⟨ε, hε⟩ : ∃ ε, ε = (min (Real.exp (-D)) (1 - Real.exp (-γ)) / n) ^ (2 * n) := ⟨_, rfl⟩
  have hex : Real.exp (-γ) < 1 := by rw [Real.exp_lt_one_iff]; linarith
  have hn' : (1 : ℝ) ≤ n := by exact_mod_cast hn
  have hp0 : 0 < min (Real.exp (-D)) (1 - Real.exp (-γ)) / n :=
    div_pos (lt_min (Real.exp_pos _) (by linarith)) (by linarith)
  have hp1 : min (Real.exp (-D)) (1 - Real.exp (-γ)) / n ≤ 1 := by
    rw [div_le_one (by linarith)]
    refine (min_le_left _ _).trans (le_trans ?_ hn')
    rw [Real.exp_le_one_iff]; linarith
  have hε0 : 0 < ε := by rw [hε]; exact pow_pos hp0 _
  have hε1 : ε ≤ 1 := by rw [hε]; exact pow_le_one₀ hp0.le hp1
  refine ⟨(2 * c) ^ 2 + 2 * (2 * c) * (2 * c * ((2 * n : ℕ) / ε)), by positivity, fun theta hl h1 h2 E hE f hf => ?_⟩
  obtain ⟨hD, hγ⟩ := h theta hl h1 h2 E hE
  have hne := words_ne_nil [1, -1] 1 (by simp) n
  refine llnK_of_reach (finDist_metroIter n E hn) (fun st _ => (boltzmann_pos _ _ hne st.1).le) ?_ (fun f => ?_) (2 * n)
    (by omega) hε0 hε1 ?_ _ c hc fun st hst => hf _ (mem_withE.1 hst).1
  · rw [sum_withE]; exact sum_boltzmann _ _ hne
  · rw [sum_withE, sum_withE]
    exact keeps_metroIter (goodMove_metropolis n E) hn false 0 f
  · rw [hε]
    exact reach_metro n E hn D γ hD0 hγ0 hD hγ

end Verif.Lemmas
