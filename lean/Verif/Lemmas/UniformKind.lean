/-
The Metropolis chains of all classes of models: bounds that hold for all parameters in a range.
-/
import Verif.Lemmas.SampleUniform
import Verif.Lemmas.ModelSample
import Verif.Props.Guide
import Verif.Spec.MchUser

namespace Verif.Lemmas
open Verif Verif.Model Verif.Spec Verif.Props Prog Filter

/-! ### spins -1 and 1 -/

/-- The energy with the parameters in a function. -/
noncomputable def linFn (φ : List ℤ → List ℝ) {N : ℕ} (s : List ℤ) (x : Fin N → ℝ) : ℝ :=
  -∑ i : Fin N, x i * (φ s).getD i 0

theorem linFn_eq (φ : List ℤ → List ℝ) {N : ℕ} (s : List ℤ) (x : Fin N → ℝ) (h : (φ s).length = N) :
    linFn φ s x = -dot (List.ofFn x) (φ s) := by
  unfold linFn
  rw [dot_eq_sum _ _ (by simp [h]), List.length_ofFn, ← Fin.sum_univ_eq_sum_range (fun i => (List.ofFn x).getD i 0 * (φ s).getD i 0) N]
  congr 1
  refine Finset.sum_congr rfl fun i _ => ?_
  rw [List.getD_eq_getElem (List.ofFn x) _ (by simp), List.getElem_ofFn]

theorem continuous_linFn (φ : List ℤ → List ℝ) {N : ℕ} (s : List ℤ) : Continuous (linFn (N := N) φ s) := by
  unfold linFn
  exact (continuous_finset_sum _ fun i _ => (continuous_apply i).mul continuous_const).neg

/-- Parameters that are at most `B` and not all smaller than `ρ`: single flips raise the energy by at most `D`, and one of
them by at least `γ`. -/
theorem uniform_gap_lin (n N : ℕ) (φ : List ℤ → List ℝ) (hφ : ∀ s ∈ words [1, -1] n, (φ s).length = N)
    (hnc : ∀ theta : List ℝ, theta.length = N → (∃ x ∈ theta, x ≠ 0) →
      ∃ s ∈ words [1, -1] n, ∃ t ∈ words [1, -1] n, -dot theta (φ s) ≠ -dot theta (φ t)) (B ρ : ℝ) (hρ : 0 < ρ) :
    ∃ D γ : ℝ, 0 ≤ D ∧ 0 < γ ∧ ∀ theta : List ℝ, theta.length = N → (∀ x ∈ theta, |x| ≤ B) →
      (∃ x ∈ theta, ρ ≤ |x|) → ∀ E : List ℤ → ℝ,
      (∀ s ∈ words [1, -1] n, E s = -dot theta (φ s)) →
      (∀ s ∈ words [1, -1] n, ∀ i < n, E (negAt s i) - E s ≤ D) ∧
      ∃ a ∈ words [1, -1] n, ∃ i < n, γ ≤ E (negAt a i) - E a := by
  obtain ⟨P, hP⟩ : ∃ P, P = words [1, -1] n ×ˢ List.range n := ⟨_, rfl⟩
  obtain ⟨d, hd⟩ : ∃ d : List ℤ × ℕ → (Fin (N) → ℝ) → ℝ,
    d = fun p x => linFn φ (negAt p.1 p.2) x - linFn φ p.1 x := ⟨_, rfl⟩
  have hdc : ∀ p, Continuous (d p) := fun p => by
    rw [hd]
    exact (continuous_linFn φ _).sub (continuous_linFn φ _)
  obtain ⟨C, hC⟩ : ∃ C : Set (Fin (N) → ℝ),
    C = (Set.univ.pi fun _ => Set.Icc (-B) B) ∩ ⋃ i, {x | ρ ≤ |x i|} := ⟨_, rfl⟩
  have hcomp : IsCompact C := by
    rw [hC]
    refine (isCompact_univ_pi fun _ => isCompact_Icc).inter_right (isClosed_iUnion_of_finite fun i => ?_)
    exact isClosed_le continuous_const (continuous_abs.comp (continuous_apply i))
  -- the sums of the changes
  have hF : Continuous fun x => (P.map fun p => max 0 (d p x)).sum :=
    continuous_list_sum P fun p _ => continuous_const.max (hdc p)
  have hG : Continuous fun x => (P.map fun p => |d p x|).sum :=
    continuous_list_sum P fun p _ => continuous_abs.comp (hdc p)
  -- from parameters to functions
  have hfn : ∀ theta : List ℝ, theta.length = N → (∀ x ∈ theta, |x| ≤ B) →
      (∃ x ∈ theta, ρ ≤ |x|) → ∃ x ∈ C, List.ofFn x = theta := by
    intro theta hl h1 h2
    have e : List.ofFn (fun i : Fin (N) => theta.getD i 0) = theta := by
      refine List.ext_getElem (by simp [hl]) fun i hi hi' => ?_
      rw [List.getElem_ofFn, List.getD_eq_getElem _ _ hi']
    refine ⟨_, ?_, e⟩
    rw [hC]
    refine ⟨fun i _ => ?_, ?_⟩
    · have hi : i.1 < theta.length := by rw [hl]; exact i.2
      have := h1 _ (List.getElem_mem hi)
      dsimp only
      rw [List.getD_eq_getElem _ _ hi]
      exact abs_le.1 this
    · obtain ⟨x, hx, hx2⟩ := h2
      obtain ⟨i, hi, rfl⟩ := List.getElem_of_mem hx
      refine Set.mem_iUnion.2 ⟨⟨i, by rw [← hl]; exact hi⟩, ?_⟩
      change ρ ≤ |theta.getD i 0|
      rw [List.getD_eq_getElem _ _ hi]
      exact hx2
  have hfn' : ∀ x ∈ C, ∃ y ∈ List.ofFn x, y ≠ 0 := by
    intro x hx
    rw [hC] at hx
    obtain ⟨i, hi⟩ := Set.mem_iUnion.1 hx.2
    refine ⟨x i, by simp, fun h0 => ?_⟩
    replace hi : ρ ≤ |x i| := hi
    rw [h0, abs_zero] at hi
    linarith
  rcases C.eq_empty_or_nonempty with hemp | hne
  · refine ⟨0, 1, le_rfl, one_pos, fun theta hl h1 h2 => ?_⟩
    obtain ⟨x, hx, -⟩ := hfn theta hl h1 h2
    rw [hemp] at hx
    exact absurd hx (by simp)
  obtain ⟨x0, hx0, hmin⟩ := hcomp.exists_isMinOn hne hF.continuousOn
  obtain ⟨x1, hx1, hmax⟩ := hcomp.exists_isMaxOn hne hG.continuousOn
  have hneg : ∀ s ∈ words [1, -1] n, ∀ i < n, negAt s i ∈ words [1, -1] n := fun s hs i _ => by
    rw [negAt_eq]; exact flip_mem_words n i s hs
  have hc0 : 0 < (P.map fun p => max 0 (d p x0)).sum := by
    have hnn : ∀ y ∈ P.map fun p => max 0 (d p x0), 0 ≤ y := by
      intro y hy
      obtain ⟨p, -, rfl⟩ := List.mem_map.1 hy
      exact le_max_left _ _
    obtain ⟨a, ha, i, hi, hlt⟩ : ∃ a ∈ words [1, -1] n, ∃ i < n, linFn φ a x0 < linFn φ (negAt a i) x0 := by
      by_contra hcon
      push Not at hcon
      obtain ⟨s, hs, t, ht, hst⟩ := hnc (List.ofFn x0) (by simp) (hfn' x0 hx0)
      rw [← linFn_eq φ s x0 (hφ s hs), ← linFn_eq φ t x0 (hφ t ht)] at hst
      exact hst (energy_const n (fun s => linFn φ s x0) hcon s hs t ht)
    have hmem : max 0 (d (a, i) x0) ∈ P.map fun p => max 0 (d p x0) :=
      List.mem_map.2 ⟨(a, i), by rw [hP]; exact List.mem_product.2 ⟨ha, List.mem_range.2 hi⟩, rfl⟩
    refine lt_of_lt_of_le ?_ (List.single_le_sum hnn _ hmem)
    refine lt_max_of_lt_right ?_
    rw [hd]
    exact sub_pos.2 hlt
  obtain ⟨c, hc⟩ : ∃ c, c = (P.map fun p => max 0 (d p x0)).sum := ⟨_, rfl⟩
  rw [← hc] at hc0
  have hL : (0 : ℝ) < P.length + 1 := by positivity
  refine ⟨(P.map fun p => |d p x1|).sum, c / (P.length + 1), ?_, div_pos hc0 hL, fun theta hl h1 h2 E hE => ?_⟩
  · refine List.sum_nonneg fun y hy => ?_
    obtain ⟨p, -, rfl⟩ := List.mem_map.1 hy
    exact abs_nonneg _
  obtain ⟨x, hx, hxt⟩ := hfn theta hl h1 h2
  have hdE : ∀ s ∈ words [1, -1] n, ∀ i < n, E (negAt s i) - E s = d (s, i) x := by
    intro s hs i hi
    rw [hE _ (hneg s hs i hi), hE s hs, hd]
    dsimp only
    rw [linFn_eq φ s x (hφ s hs), linFn_eq φ _ x (hφ _ (hneg s hs i hi)), hxt]
  constructor
  · intro s hs i hi
    rw [hdE s hs i hi]
    refine (le_abs_self _).trans (le_trans ?_ (hmax hx))
    refine List.single_le_sum (fun y hy => ?_) _ (List.mem_map.2 ⟨(s, i), ?_, rfl⟩)
    · obtain ⟨p, -, rfl⟩ := List.mem_map.1 hy
      exact abs_nonneg _
    · rw [hP]; exact List.mem_product.2 ⟨hs, List.mem_range.2 hi⟩
  · by_contra hcon
    push Not at hcon
    have hle : (P.map fun p => max 0 (d p x)).sum ≤ P.length * (c / (P.length + 1)) := by
      have : ∀ y ∈ P.map fun p => max 0 (d p x), y ≤ c / (P.length + 1) := by
        intro y hy
        obtain ⟨p, hp, rfl⟩ := List.mem_map.1 hy
        rw [hP] at hp
        obtain ⟨s, i⟩ := p
        have := List.mem_product.1 hp
        refine max_le (div_pos hc0 hL).le ?_
        rw [← hdE s this.1 i (List.mem_range.1 this.2)]
        exact (hcon s this.1 i (List.mem_range.1 this.2)).le
      have h3 := List.sum_le_card_nsmul _ _ this
      rwa [List.length_map, nsmul_eq_mul] at h3
    have h4 : c ≤ (P.map fun p => max 0 (d p x)).sum := by rw [hc]; exact hmin hx
    have h5 : (P.length : ℝ) * (c / (P.length + 1)) < c := by
      rw [mul_div_assoc', div_lt_iff₀ hL]
      nlinarith
    linarith

/-- Averages over the chain of a model of spins -1 and 1 whose energy is linear in the parameters. -/
theorem uniform_lln_lin (n : ℕ) (hn : 0 < n) (N : ℕ) (φ : List ℤ → List ℝ) (hφ : ∀ s ∈ words [1, -1] n, (φ s).length = N)
    (hnc : ∀ theta : List ℝ, theta.length = N → (∃ x ∈ theta, x ≠ 0) →
      ∃ s ∈ words [1, -1] n, ∃ t ∈ words [1, -1] n, -dot theta (φ s) ≠ -dot theta (φ t)) (B ρ c : ℝ) (hρ : 0 < ρ)
    (hc : 0 ≤ c) :
    ∃ K, 0 ≤ K ∧ ∀ theta : List ℝ, theta.length = N → (∀ x ∈ theta, |x| ≤ B) →
      (∃ x ∈ theta, ρ ≤ |x|) → ∀ E : List ℤ → ℝ,
      (∀ s ∈ words [1, -1] n, E s = -dot theta (φ s)) →
      ∀ f : List ℤ → ℝ, (∀ s ∈ words [1, -1] n, |f s| ≤ c) →
      LlnK (withE E (words [1, -1] n)) (fun st => boltzmann (words [1, -1] n) E st.1)
        (metroIter (sampleMetropolis E) n false 0) (fun st => f st.1) K := by
  obtain ⟨D, γ, hD0, hγ0, h⟩ := uniform_gap_lin n N φ hφ hnc B ρ hρ
  obtain ⟨ε, hε⟩ : ∃ ε, ε = (min (Real.exp (-D)) (1 - Real.exp (-γ)) / n) ^ (2 * n) := ⟨_, rfl⟩
  have hex : Real.exp (-γ) < 1 := by rw [Real.exp_lt_one_iff]; linarith
  have hn' : (1 : ℝ) ≤ n := by exact_mod_cast hn
  have hp0 : 0 < min (Real.exp (-D)) (1 - Real.exp (-γ)) / n :=
    div_pos (lt_min (Real.exp_pos _) (by linarith)) (by linarith)
  have hp1 : min (Real.exp (-D)) (1 - Real.exp (-γ)) / n ≤ 1 := by
    rw [div_le_one (by linarith)]
    refine (min_le_left _ _).trans (le_trans ?_ hn')
    rw [Real.exp_le_one_iff]; linarith
  have hε0 : 0 < ε := by rw [hε]; exact pow_pos hp0 _
  have hε1 : ε ≤ 1 := by rw [hε]; exact pow_le_one₀ hp0.le hp1
  refine ⟨(2 * c) ^ 2 + 2 * (2 * c) * (2 * c * ((2 * n : ℕ) / ε)), by positivity, fun theta hl h1 h2 E hE f hf => ?_⟩
  obtain ⟨hD, hγ⟩ := h theta hl h1 h2 E hE
  have hne := words_ne_nil [1, -1] 1 (by simp) n
  refine llnK_of_reach (finDist_metroIter n E hn) (fun st _ => (boltzmann_pos _ _ hne st.1).le) ?_ (fun f => ?_) (2 * n)
    (by omega) hε0 hε1 ?_ _ c hc fun st hst => hf _ (mem_withE.1 hst).1
  · rw [sum_withE]; exact sum_boltzmann _ _ hne
  · rw [sum_withE, sum_withE]
    exact keeps_metroIter (goodMove_metropolis n E) hn false 0 f
  · rw [hε]
    exact reach_metro n E hn D γ hD0 hγ0 hD hγ


/-! ### three values -/

section
variable (n : ℕ) (hn : 0 < n) (calcE : List ℤ → ℝ)

theorem finDist_metroIterPotts (hn : 0 < n) : ∀ st ∈ withE calcE (words [0, 1, 2] n),
    FinDist (metroIter (sampleMetropolisPotts3 calcE) n false 0 st) (· ∈ withE calcE (words [0, 1, 2] n)) := by
  intro st hst
  obtain ⟨s, e⟩ := st
  obtain ⟨h1, h2⟩ := mem_withE.1 hst
  dsimp only at h1 h2
  subst h2
  rw [metroIter_random (goodMove_potts3 n calcE) 0 s h1]
  exact finDist_randint n hn _ fun i hi => finDist_bind (finDist_potts3 n calcE i hi s h1) fun r hr =>
    finDist_ret (mem_withE.2 hr)

theorem pottsMove_le (D : ℝ) (hD0 : 0 ≤ D) (s : List ℤ) (hs : s ∈ words [0, 1, 2] n) (i : ℕ) (hi : i < n) (v : ℤ)
    (hv : v ∈ ([0, 1, 2] : List ℤ)) (hne : v ≠ s.getD i 0) (hD : calcE (s.set i v) - calcE s ≤ D) :
    Real.exp (-D) / 2 / n ≤ expectation (pointFn (s.set i v, calcE (s.set i v)))
      (metroIter (sampleMetropolisPotts3 calcE) n false 0 (s, calcE s)) := by
  have hn : 0 < n := by omega
  rw [expectation_metroIterPotts3 n hn calcE _ s hs]
  refine div_le_div_of_nonneg_right ?_ (Nat.cast_nonneg n)
  have hnn : ∀ j (r : ℕ), 0 ≤ min 1 (Real.exp (-(calcE (s.set j ((s.getD j 0 + (1 + r)) % 3)) - calcE s))) *
      pointFn (s.set i v, calcE (s.set i v)) (s.set j ((s.getD j 0 + (1 + r)) % 3),
        calcE (s.set j ((s.getD j 0 + (1 + r)) % 3))) +
      (1 - min 1 (Real.exp (-(calcE (s.set j ((s.getD j 0 + (1 + r)) % 3)) - calcE s)))) *
        pointFn (s.set i v, calcE (s.set i v)) (s, calcE s) := fun j r =>
    add_nonneg (mul_nonneg (accept_pos _).le (pointFn_nonneg _ _)) (mul_nonneg (reject_nonneg _) (pointFn_nonneg _ _))
  refine le_trans ?_ (Finset.single_le_sum (fun j _ => div_nonneg (Finset.sum_nonneg fun r _ => hnn j r) (by norm_num))
    (Finset.mem_range.2 hi))
  refine div_le_div_of_nonneg_right ?_ (by norm_num)
  have ho := getD_mem_of_words hi hs
  obtain ⟨o, ho'⟩ : ∃ o, o = s.getD i 0 := ⟨_, rfl⟩
  have : ∃ r ∈ Finset.range 2, (s.getD i 0 + (1 + (r : ℤ))) % 3 = v := by
    rw [← ho'] at ho hne ⊢
    simp only [List.mem_cons, List.not_mem_nil, or_false] at ho hv
    rcases ho with rfl | rfl | rfl <;> rcases hv with rfl | rfl | rfl <;> first | exact absurd rfl hne | decide
  obtain ⟨r, hr, e⟩ := this
  refine le_trans ?_ (Finset.single_le_sum (fun r _ => hnn i r) hr)
  rw [e, pointFn_self, mul_one]
  refine le_add_of_le_of_nonneg (le_min ?_ ?_) (mul_nonneg (reject_nonneg _) (pointFn_nonneg _ _))
  · rw [Real.exp_le_one_iff]; linarith
  · rw [Real.exp_le_exp]; linarith

/-- If energies differ by at most `D`, then `2 n` updates lead from every state to every state with a probability that depends
on `n` and `D` only: two updates for every spin. -/
theorem reach_potts (hn : 0 < n) (D : ℝ) (hD0 : 0 ≤ D)
    (hD : ∀ s ∈ words [0, 1, 2] n, ∀ t ∈ words [0, 1, 2] n, calcE t - calcE s ≤ D) :
    ∀ st ∈ withE calcE (words [0, 1, 2] n), ∀ st' ∈ withE calcE (words [0, 1, 2] n),
      (Real.exp (-D) / 2 / n) ^ (2 * n) ≤
        (fun f st => expectation f (metroIter (sampleMetropolisPotts3 calcE) n false 0 st))^[2 * n] (pointFn st') st := by
  obtain ⟨p, hp⟩ : ∃ p, p = Real.exp (-D) / 2 / n := ⟨_, rfl⟩
  have hT := markov_step (finDist_metroIterPotts n calcE hn)
  have hp0 : 0 ≤ p := by
    rw [hp]
    exact div_nonneg (div_nonneg (Real.exp_pos _).le (by norm_num)) (Nat.cast_nonneg n)
  rw [← hp]
  rintro ⟨s, e⟩ hst ⟨t, e'⟩ hst'
  obtain ⟨hs, h2⟩ := mem_withE.1 hst
  obtain ⟨ht, h2'⟩ := mem_withE.1 hst'
  dsimp only at hs h2 ht h2'
  subst h2 h2'
  obtain ⟨hs1, hs2⟩ := mem_words.1 hs
  obtain ⟨ht1, ht2⟩ := mem_words.1 ht
  have hmem : ∀ k, t.take k ++ s.drop k ∈ words [0, 1, 2] n := fun k => by
    refine mem_words.2 ⟨by simp [hs1, ht1]; omega, fun x hx => ?_⟩
    rcases List.mem_append.1 hx with hx | hx
    · exact ht2 x (List.mem_of_mem_take hx)
    · exact hs2 x (List.mem_of_mem_drop hx)
  have key : ∀ k ≤ n, p ^ (2 * k) ≤
      (fun f st => expectation f (metroIter (sampleMetropolisPotts3 calcE) n false 0 st))^[2 * k]
        (pointFn (t.take k ++ s.drop k, calcE (t.take k ++ s.drop k))) (s, calcE s) := by
    intro k
    induction k with
    | zero => intro _; simp [pointFn]
    | succ k ih =>
      intro hk
      have hkt : k < t.length := by omega
      have hks : k < s.length := by omega
      obtain ⟨u, hu⟩ : ∃ u, u = t.take k ++ s.drop k := ⟨_, rfl⟩
      have e : u.set k t[k] = t.take (k + 1) ++ s.drop (k + 1) := by
        rw [hu, List.set_append_right _ _ (by simp [min_eq_left hkt.le]), List.length_take, min_eq_left hkt.le, Nat.sub_self,
          List.drop_eq_getElem_cons hks, List.set_cons_zero, List.take_succ_eq_append_getElem hkt, List.append_assoc]
        rfl
      have hum : u ∈ words [0, 1, 2] n := hu ▸ hmem k
      have hv := ht2 _ (List.getElem_mem hkt)
      have ho := getD_mem_of_words (show k < n by omega) hum
      obtain ⟨w, hw, hw1, hw2⟩ : ∃ w ∈ ([0, 1, 2] : List ℤ), w ≠ u.getD k 0 ∧ w ≠ t[k] := by
        obtain ⟨a, ha⟩ : ∃ a, a = u.getD k 0 := ⟨_, rfl⟩
        obtain ⟨b, hb⟩ : ∃ b, b = t[k] := ⟨_, rfl⟩
        rw [← ha] at ho ⊢
        rw [← hb] at hv ⊢
        simp only [List.mem_cons, List.not_mem_nil, or_false] at ho hv
        rcases ho with rfl | rfl | rfl <;> rcases hv with rfl | rfl | rfl <;> decide
      have hwm : u.set k w ∈ words [0, 1, 2] n := set_mem_words hum hw
      have hul : k < u.length := by rw [(mem_words.1 hum).1]; omega
      have m1 := pottsMove_le n calcE D hD0 u hum k (by omega) w hw hw1 (hD _ hum _ hwm)
      have m2 := pottsMove_le n calcE D hD0 (u.set k w) hwm k (by omega) t[k] hv (by
        rw [List.getD_eq_getElem _ _ (by simpa using hul), List.getElem_set_self]
        exact hw2.symm) (hD _ hwm _ (set_mem_words hwm hv))
      rw [List.set_set] at m2
      rw [e] at m2
      rw [← hp] at m1 m2
      have r1 := ih (by omega)
      rw [← hu] at r1
      have := reach_trans_le hT (mem_withE.2 ⟨hs, rfl⟩) (pow_nonneg hp0 _) (mul_nonneg hp0 hp0) r1
        (reach_trans_le hT (k := 1) (l := 1) (mem_withE.2 ⟨hum, rfl⟩) hp0 hp0 m1 m2)
      rw [show 2 * (k + 1) = 2 * k + (1 + 1) by ring, pow_add, show p ^ (1 + 1) = p * p by ring]
      exact this
  have := key n le_rfl
  rwa [List.take_of_length_le ht1.le, List.drop_eq_nil_of_le hs1.le, List.append_nil] at this

/-- Averages over the chain of a Potts model, with one bound for all energies that differ by at most `D`. -/
theorem uniform_lln_potts (hn : 0 < n) (D c : ℝ) (hD0 : 0 ≤ D) (hc : 0 ≤ c) :
    ∃ K, 0 ≤ K ∧ ∀ E : List ℤ → ℝ, (∀ s ∈ words [0, 1, 2] n, ∀ t ∈ words [0, 1, 2] n, E t - E s ≤ D) →
      ∀ f : List ℤ → ℝ, (∀ s ∈ words [0, 1, 2] n, |f s| ≤ c) →
      LlnK (withE E (words [0, 1, 2] n)) (fun st => boltzmann (words [0, 1, 2] n) E st.1)
        (metroIter (sampleMetropolisPotts3 E) n false 0) (fun st => f st.1) K := by
  obtain ⟨ε, hε⟩ : ∃ ε, ε = (Real.exp (-D) / 2 / n) ^ (2 * n) := ⟨_, rfl⟩
  have hn' : (1 : ℝ) ≤ n := by exact_mod_cast hn
  have hp0 : 0 < Real.exp (-D) / 2 / n := div_pos (div_pos (Real.exp_pos _) (by norm_num)) (by linarith)
  have hp1 : Real.exp (-D) / 2 / n ≤ 1 := by
    rw [div_le_one (by linarith)]
    have : Real.exp (-D) ≤ 1 := by rw [Real.exp_le_one_iff]; linarith
    linarith
  have hε0 : 0 < ε := by rw [hε]; exact pow_pos hp0 _
  have hε1 : ε ≤ 1 := by rw [hε]; exact pow_le_one₀ hp0.le hp1
  refine ⟨(2 * c) ^ 2 + 2 * (2 * c) * (2 * c * ((2 * n : ℕ) / ε)), by positivity, fun E hE f hf => ?_⟩
  have hne := words_ne_nil [0, 1, 2] 0 (by simp) n
  refine llnK_of_reach (finDist_metroIterPotts n E hn) (fun st _ => (boltzmann_pos _ _ hne st.1).le) ?_ (fun f => ?_) (2 * n)
    (by omega) hε0 hε1 ?_ _ c hc fun st hst => hf _ (mem_withE.1 hst).1
  · rw [sum_withE]; exact sum_boltzmann _ _ hne
  · rw [sum_withE, sum_withE]
    exact keeps_metroIter (goodMove_potts3 n E) hn false 0 f
  · rw [hε]
    exact reach_potts n E hn D hD0 hE

end

/-! ### observables of the three classes -/

theorem kindObs_potts (n : ℕ) (s : List ℤ) : kindObs .potts3 n s = pottsObs n 3 fun i => s.getD i 0 := rfl

theorem kindObs_length (k : ModelKind) (n : ℕ) (s : List ℤ) : (kindObs k n s).length = paramCount k n := by
  cases k
  · exact length_pairObs n _
  · rw [tripletCount]
    exact tripletObs_length n s
  · rw [kindObs_potts, length_pottsObs]
    rfl

theorem kindObs_abs (k : ModelKind) {n : ℕ} {s : List ℤ} (hs : s ∈ words (alphabet k) n) (i : ℕ) :
    |(kindObs k n s).getD i 0| ≤ 1 := by
  cases k
  · exact abs_pairObs_le hs i
  · exact abs_tripletObs_le hs i
  · obtain ⟨h1, h2⟩ := pottsObs_range n 3 (fun i => s.getD i 0) i
    rw [kindObs_potts, abs_of_nonneg h1]
    exact h2

/-- The energy is linear in the parameters. -/
theorem modelEnergy_lin (k : ModelKind) (n : ℕ) (theta : List ℝ) (ht : theta.length = paramCount k n) (s : List ℤ)
    (hs : s.length = n) : modelEnergy k n theta s = -dot theta (kindObs k n s) := by
  cases k
  · replace ht : theta.length = n + n * (n - 1) / 2 := ht
    have := dot_pairObs n (theta.take n) (theta.drop n) (by simp; omega) (by simp; omega) (spins s)
    rw [List.take_append_drop] at this
    exact this.symm
  · exact modelEnergy_triplet n theta ht s hs
  · replace ht : theta.length = 3 * n + n * (n - 1) / 2 := ht
    have := dot_pottsObs n 3 (theta.take (3 * n)) (theta.drop (3 * n)) (by simp; omega) (by simp; omega) fun i => s.getD i 0
    rw [List.take_append_drop] at this
    exact this.symm

theorem abs_dot_le (theta v : List ℝ) (N : ℕ) (B : ℝ) (hB : 0 ≤ B) (ht : theta.length = N) (hv : v.length = N)
    (h1 : ∀ x ∈ theta, |x| ≤ B) (h2 : ∀ i, |v.getD i 0| ≤ 1) : |dot theta v| ≤ N * B := by
  rw [dot_eq_sum _ _ (by rw [ht, hv]), ht]
  refine (Finset.abs_sum_le_sum_abs _ _).trans ?_
  refine (Finset.sum_le_card_nsmul _ _ B fun i hi => ?_).trans (by rw [Finset.card_range, nsmul_eq_mul])
  have hi : i < theta.length := by rw [ht]; exact Finset.mem_range.1 hi
  rw [abs_mul, List.getD_eq_getElem _ _ hi]
  calc |theta[i]| * |v.getD i 0| ≤ B * 1 := mul_le_mul (h1 _ (List.getElem_mem hi)) (h2 i) (abs_nonneg _) hB
    _ = B := mul_one B

/-! ### samplers -/

theorem finDist_sampler_kind (mc : Machine) (k : ModelKind) (n : ℕ) (hn : 0 < n) (o : SamplerObj) (h : SamplerFits k n o)
    (size nIters : ℕ) (burnIn : Option ℕ) (hp : o.compiled = true → k = .potts3 → 2 ≤ o.nCpus ∧ o.nCpus < size) :
    FinDist (o.generate mc true size nIters burnIn) fun _ => True := by
  have hfin : ∀ st ∈ withE (kindEnergy k o.theta) (words (alphabet k) n),
      FinDist (metroIter (kindMove k o.theta) n false 0 st)
        (· ∈ withE (kindEnergy k o.theta) (words (alphabet k) n)) := by
    cases k
    · exact finDist_metroIter n _ hn
    · exact finDist_metroIter n _ hn
    · exact finDist_metroIterPotts n _ hn
  unfold SamplerObj.generate
  rw [h.kind, h.n_eq]
  by_cases hcomp : o.compiled = true
  · rw [if_pos hcomp, if_neg (by simp)]
    refine finDist_bind (Q := fun _ => True) ?_ fun _ _ => finDist_ret trivial
    cases k
    · have hl := h.compiled hcomp (by simp)
      exact finDist_boostParallel (finDist_metroIter n _ hn) _ _ _ _ _ _ (finDist_withE (finDist_cppIsingInit n))
        fun q => boost_rows mc.ndebug n hn o.theta hl _ rfl q nIters burnIn
    · have hl := h.compiled hcomp (by simp)
      exact finDist_boostParallel (finDist_metroIter n _ hn) _ _ _ _ _ _ (finDist_withE (finDist_cppIsingInit n))
        fun q => boost_rows mc.ndebug n hn o.theta hl _ rfl q nIters burnIn
    · obtain ⟨h2, h3⟩ := hp hcomp rfl
      dsimp only
      unfold generateSampleParallelBoostPotts3
      rw [if_neg (by omega)]
      exact finDist_boostParallel (finDist_metroIterPotts n _ hn) _ _ _ _ _ _ (finDist_withE (finDist_cppPottsInit n))
        fun q => boost_rows_potts mc.ndebug n hn o.theta h.length _ rfl q nIters burnIn
  · rw [if_neg hcomp, h.check, ofPy, Prog.bind, if_neg (by simp)]
    refine finDist_bind (Q := fun _ => True) ?_ fun _ _ => finDist_ret trivial
    have hst := goodStart_parallel h.kept (c := mc.cpus)
    rw [h.kind, h.n_eq] at hst
    exact finDist_parallel (goodMove_kind k n o.theta) hfin mc.cpus size nIters burnIn o.replicas none
      (finDist_kindRandom k n mc.cpus) hst

/-- Means over the sample, with one bound for all parameters in a range: triplet models. -/
theorem sampler_uniform_triplet (n : ℕ) (hn : 0 < n) (B ρ c : ℝ) (hρ : 0 < ρ) (hc : 0 ≤ c) :
    ∃ K, 0 ≤ K ∧ ∀ (mc : Machine), 0 < mc.cpus → ∀ o : SamplerObj, SamplerFits .triplet n o → (∀ x ∈ o.theta, |x| ≤ B) →
      (∃ x ∈ o.theta, ρ ≤ |x|) → ∀ f : List ℤ → ℝ, (∀ s ∈ words [1, -1] n, |f s| ≤ c) →
      ∀ (size nIters : ℕ) (burnIn : Option ℕ), 0 < size → 0 < nIters →
      expectation (fun o' : SamplerObj => (((o'.sample.getD []).map f).sum / size -
        expect (words [1, -1] n) (modelEnergy .triplet n o.theta) f) ^ 2) (o.generate mc true size nIters burnIn) ≤
          mc.cpus * K / size := by
  obtain ⟨K, hK, h⟩ := uniform_lln_lin n hn (paramCount .triplet n) (kindObs .triplet n)
    (fun s _ => kindObs_length .triplet n s) (fun theta ht hx => by
      obtain ⟨s, hs, t, ht', hne⟩ := modelEnergy_not_constant .triplet n theta ht hx (by simp)
      exact ⟨s, hs, t, ht', by
        rwa [← modelEnergy_lin .triplet n theta ht s (mem_words.1 hs).1,
          ← modelEnergy_lin .triplet n theta ht t (mem_words.1 ht').1]⟩) B ρ c hρ hc
  refine ⟨K, hK, fun mc hcpu o ho hB hx f hf size nIters burnIn hsize hk => ?_⟩
  have ht : o.theta.length = paramCount .triplet n := ho.length
  unfold SamplerObj.generate
  rw [ho.kind, ho.n_eq]
  by_cases hcomp : o.compiled = true
  · rw [if_pos hcomp, if_neg (by simp), expectation_bind]
    have hE : modelEnergy .triplet n o.theta = fun s => isingVecE n (o.theta.take n) (o.theta.drop n) (spins s) :=
      funext fun s => ho.ising hcomp (by simp) s
    have hl := h o.theta ht hB hx (fun s => isingVecE n (o.theta.take n) (o.theta.drop n) (spins s)) (fun s hs => by
      rw [← modelEnergy_lin .triplet n o.theta ht s (mem_words.1 hs).1, hE]) f hf
    have := hl.boostParallel _ _ _ _ mc.cpus size (finDist_withE (finDist_cppIsingInit n))
      (fun q => boost_rows mc.ndebug n hn o.theta (ho.compiled hcomp (by simp)) _ rfl q nIters burnIn) hk hcpu hsize
    rw [sum_withE] at this
    rw [hE]
    exact this
  · rw [if_neg hcomp, ho.check, ofPy, Prog.bind, if_neg (by simp), expectation_bind]
    have hst := goodStart_parallel ho.kept (c := mc.cpus)
    rw [ho.kind, ho.n_eq] at hst
    have hl := h o.theta ht hB hx (kindEnergy .triplet o.theta)
      (fun s hs => by
        rw [kindEnergy_eq .triplet n o.theta ht s (mem_words.1 hs).1, modelEnergy_lin .triplet n o.theta ht s (mem_words.1 hs).1])
      f hf
    have e := expect_kind .triplet n o.theta ht f
    unfold alphabet at e
    rw [← e]
    exact hl.parallel (goodMove_kind .triplet n o.theta) mc.cpus size nIters burnIn o.replicas none
      (finDist_kindRandom .triplet n mc.cpus) hst hcpu hsize hk

/-- Means over the sample, with one bound for all parameters in a range: Potts models. -/
theorem sampler_uniform_potts (n : ℕ) (hn : 0 < n) (B c : ℝ) (hc : 0 ≤ c) :
    ∃ K, 0 ≤ K ∧ ∀ (mc : Machine), 0 < mc.cpus → ∀ o : SamplerObj, SamplerFits .potts3 n o → (∀ x ∈ o.theta, |x| ≤ B) →
      ∀ f : List ℤ → ℝ, (∀ s ∈ words [0, 1, 2] n, |f s| ≤ c) →
      ∀ (size nIters : ℕ) (burnIn : Option ℕ), 0 < size → 0 < nIters →
      (o.compiled = true → 2 ≤ o.nCpus ∧ o.nCpus < size ∧ o.nCpus ≤ mc.cpus) →
      expectation (fun o' : SamplerObj => (((o'.sample.getD []).map f).sum / size -
        expect (words [0, 1, 2] n) (modelEnergy .potts3 n o.theta) f) ^ 2) (o.generate mc true size nIters burnIn) ≤
          mc.cpus * K / size := by
  obtain ⟨K, hK, h⟩ := uniform_lln_potts n hn (2 * (paramCount .potts3 n * |B|)) c (by positivity) hc
  refine ⟨K, hK, fun mc hcpu o ho hB f hf size nIters burnIn hsize hk hpo => ?_⟩
  have ht : o.theta.length = paramCount .potts3 n := ho.length
  have hD : ∀ s ∈ words [0, 1, 2] n, ∀ t ∈ words [0, 1, 2] n,
      modelEnergy .potts3 n o.theta t - modelEnergy .potts3 n o.theta s ≤ 2 * (paramCount .potts3 n * |B|) := by
    have : ∀ s ∈ words [0, 1, 2] n, |modelEnergy .potts3 n o.theta s| ≤ paramCount .potts3 n * |B| := fun s hs => by
      rw [modelEnergy_lin .potts3 n o.theta ht s (mem_words.1 hs).1, abs_neg]
      exact abs_dot_le _ _ _ _ (abs_nonneg B) ht (kindObs_length .potts3 n s) (fun x hx => (hB x hx).trans (le_abs_self B))
        (kindObs_abs .potts3 hs)
    intro s hs t ht'
    have h1 := abs_le.1 (this s hs)
    have h2 := abs_le.1 (this t ht')
    linarith [h1.1, h2.2]
  unfold SamplerObj.generate
  rw [ho.kind, ho.n_eq]
  by_cases hcomp : o.compiled = true
  · rw [if_pos hcomp, if_neg (by simp), expectation_bind]
    obtain ⟨h2, h3, h4⟩ := hpo hcomp
    have hl := h (modelEnergy .potts3 n o.theta) hD f hf
    have := hl.boostParallel _ _ _ _ o.nCpus size (finDist_withE (finDist_cppPottsInit n))
      (fun q => boost_rows_potts mc.ndebug n hn o.theta ht (modelEnergy .potts3 n o.theta) rfl q nIters burnIn) hk (by omega)
      hsize
    rw [sum_withE] at this
    dsimp only
    unfold generateSampleParallelBoostPotts3
    rw [if_neg (by omega)]
    have h5 : (o.nCpus : ℝ) * K / size ≤ mc.cpus * K / size := by
      have : (o.nCpus : ℝ) ≤ mc.cpus := by exact_mod_cast h4
      gcongr
    exact le_trans this h5
  · rw [if_neg hcomp, ho.check, ofPy, Prog.bind, if_neg (by simp), expectation_bind]
    have hst := goodStart_parallel ho.kept (c := mc.cpus)
    rw [ho.kind, ho.n_eq] at hst
    have hl := h (kindEnergy .potts3 o.theta) (fun s hs t ht' => by
      rw [kindEnergy_eq .potts3 n o.theta ht s (mem_words.1 hs).1, kindEnergy_eq .potts3 n o.theta ht t (mem_words.1 ht').1]
      exact hD s hs t ht') f hf
    have e := expect_kind .potts3 n o.theta ht f
    unfold alphabet at e
    rw [← e]
    exact hl.parallel (goodMove_kind .potts3 n o.theta) mc.cpus size nIters burnIn o.replicas none
      (finDist_kindRandom .potts3 n mc.cpus) hst hcpu hsize hk

/-- Means over the sample, with one bound for all parameters in a range. -/
theorem sampler_uniform_kind (k : ModelKind) (n : ℕ) (hn : 0 < n) (B ρ c : ℝ) (hρ : 0 < ρ) (hc : 0 ≤ c) :
    ∃ K, 0 ≤ K ∧ ∀ (mc : Machine), 0 < mc.cpus → ∀ o : SamplerObj, SamplerFits k n o → (∀ x ∈ o.theta, |x| ≤ B) →
      (k ≠ .potts3 → ∃ x ∈ o.theta, ρ ≤ |x|) → ∀ f : List ℤ → ℝ, (∀ s ∈ words (alphabet k) n, |f s| ≤ c) →
      ∀ (size nIters : ℕ) (burnIn : Option ℕ), 0 < size → 0 < nIters →
      (o.compiled = true → k = .potts3 → 2 ≤ o.nCpus ∧ o.nCpus < size ∧ o.nCpus ≤ mc.cpus) →
      expectation (fun o' : SamplerObj => (((o'.sample.getD []).map f).sum / size -
        expect (words (alphabet k) n) (modelEnergy k n o.theta) f) ^ 2) (o.generate mc true size nIters burnIn) ≤
          mc.cpus * K / size := by
  cases k
  · obtain ⟨K, hK, h⟩ := sampler_uniform n hn B ρ c hρ hc
    exact ⟨K, hK, fun mc hcpu o ho hB hx f hf size nIters burnIn hsize hk _ =>
      h mc hcpu o ho hB (hx (by simp)) f hf size nIters burnIn hsize hk⟩
  · obtain ⟨K, hK, h⟩ := sampler_uniform_triplet n hn B ρ c hρ hc
    exact ⟨K, hK, fun mc hcpu o ho hB hx f hf size nIters burnIn hsize hk _ =>
      h mc hcpu o ho hB (hx (by simp)) f hf size nIters burnIn hsize hk⟩
  · obtain ⟨K, hK, h⟩ := sampler_uniform_potts n hn B c hc
    exact ⟨K, hK, fun mc hcpu o ho hB _ f hf size nIters burnIn hsize hk hp =>
      h mc hcpu o ho hB f hf size nIters burnIn hsize hk fun hcm => hp hcm rfl⟩

end Verif.Lemmas
