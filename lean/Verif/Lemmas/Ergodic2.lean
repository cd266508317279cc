import Verif.Lemmas.Ergodic

namespace Verif.Lemmas
open Verif Verif.Model Verif.Spec Prog Filter

theorem finDist_accept {α : Type} {Q : α → Prop} (de : ℝ) (x y : α) (hx : Q x) (hy : Q y) :
    FinDist (if de > 0 then .rand fun u => if u > Real.exp (-de) then .ret x else .ret y else .ret y) Q := by
  split
  · exact finDist_rand _ measurableSet_Ioi (finDist_ret hx) (finDist_ret hy)
  · exact finDist_ret hy

theorem finDist_metropolis (n : ℕ) (calcE : List ℤ → ℝ) (i : ℕ) (hi : i < n) (s : List ℤ) (hs : s ∈ words [1, -1] n) :
    FinDist (sampleMetropolis calcE (some i) s (calcE s)) fun r => r.1 ∈ words [1, -1] n ∧ calcE s + r.2 = calcE r.1 := by
  have hl : i < s.length := by rw [(mem_words.1 hs).1]; exact hi
  unfold sampleMetropolis chooseSite
  simp only [Prog.bind, if_pos hl, negAt_negAt]
  refine finDist_accept _ _ _ ⟨hs, by simp⟩ ⟨?_, by simp⟩
  rw [negAt_eq]; exact flip_mem_words n i s hs

theorem finDist_potts3 (n : ℕ) (calcE : List ℤ → ℝ) (i : ℕ) (hi : i < n) (s : List ℤ) (hs : s ∈ words [0, 1, 2] n) :
    FinDist (sampleMetropolisPotts3 calcE (some i) s (calcE s))
      fun r => r.1 ∈ words [0, 1, 2] n ∧ calcE s + r.2 = calcE r.1 := by
  have hl : i < s.length := by rw [(mem_words.1 hs).1]; exact hi
  unfold sampleMetropolisPotts3 chooseSite
  rw [Prog.bind, if_pos hl]
  refine finDist_randint 2 (by norm_num) _ fun k hk => ?_
  dsimp only
  refine finDist_accept _ _ _ ⟨?_, ?_⟩ ⟨?_, by simp⟩
  · rw [List.set_set, set_getD_self]; exact hs
  · rw [List.set_set, set_getD_self]; simp
  · refine set_mem_words hs ?_
    have := Int.emod_nonneg (s.getD i 0 + (1 + (k : ℤ))) (by norm_num : (3 : ℤ) ≠ 0)
    have := Int.emod_lt_of_pos (s.getD i 0 + (1 + (k : ℤ))) (by norm_num : (0 : ℤ) < 3)
    simp only [List.mem_cons, List.not_mem_nil, or_false]
    omega

/-- One update at a random site. -/
theorem expectation_metroIter (n : ℕ) (hn : 0 < n) (calcE : List ℤ → ℝ) (f : List ℤ × ℝ → ℝ) (s : List ℤ)
    (hs : s ∈ words [1, -1] n) :
    expectation f (metroIter (sampleMetropolis calcE) n false 0 (s, calcE s)) =
      (∑ i ∈ Finset.range n, (min 1 (Real.exp (-(calcE (negAt s i) - calcE s))) * f (negAt s i, calcE (negAt s i)) +
        (1 - min 1 (Real.exp (-(calcE (negAt s i) - calcE s)))) * f (s, calcE s))) / n := by
  rw [metroIter_random (goodMove_metropolis n calcE) 0 s hs, expectation_randint _ n hn]
  congr 1
  refine Finset.sum_congr rfl fun i hi => ?_
  rw [expectation_bind, expectation_metropolis calcE _ i s _ (by rw [(mem_words.1 hs).1]; exact Finset.mem_range.1 hi)]
  simp only [expectation_ret, add_zero, add_sub_cancel]

theorem expectation_metroIterPotts3 (n : ℕ) (hn : 0 < n) (calcE : List ℤ → ℝ) (f : List ℤ × ℝ → ℝ) (s : List ℤ)
    (hs : s ∈ words [0, 1, 2] n) :
    expectation f (metroIter (sampleMetropolisPotts3 calcE) n false 0 (s, calcE s)) =
      (∑ i ∈ Finset.range n, (∑ r ∈ Finset.range 2,
        (min 1 (Real.exp (-(calcE (s.set i ((s.getD i 0 + (1 + r)) % 3)) - calcE s))) *
          f (s.set i ((s.getD i 0 + (1 + r)) % 3), calcE (s.set i ((s.getD i 0 + (1 + r)) % 3))) +
        (1 - min 1 (Real.exp (-(calcE (s.set i ((s.getD i 0 + (1 + r)) % 3)) - calcE s)))) * f (s, calcE s))) / 2) / n := by
  rw [metroIter_random (goodMove_potts3 n calcE) 0 s hs, expectation_randint _ n hn]
  congr 1
  refine Finset.sum_congr rfl fun i hi => ?_
  rw [expectation_bind, expectation_potts3 calcE _ i s _ (by rw [(mem_words.1 hs).1]; exact Finset.mem_range.1 hi)]
  simp only [expectation_ret, add_zero, add_sub_cancel]

theorem accept_pos (d : ℝ) : 0 < min 1 (Real.exp (-d)) := lt_min one_pos (Real.exp_pos _)
theorem reject_nonneg (d : ℝ) : 0 ≤ 1 - min 1 (Real.exp (-d)) := sub_nonneg.2 (min_le_left _ _)
theorem reject_pos {d : ℝ} (hd : 0 < d) : 0 < 1 - min 1 (Real.exp (-d)) := by
  have : Real.exp (-d) < 1 := by rw [Real.exp_lt_one_iff]; linarith
  exact sub_pos.2 ((min_le_right _ _).trans_lt this)

theorem pointFn_nonneg {α : Type} [DecidableEq α] (t u : α) : 0 ≤ pointFn t u := by unfold pointFn; split <;> norm_num
theorem pointFn_self {α : Type} [DecidableEq α] (t : α) : pointFn t t = 1 := if_pos rfl

theorem flip_pos (n : ℕ) (calcE : List ℤ → ℝ) (s : List ℤ) (hs : s ∈ words [1, -1] n) (i : ℕ) (hi : i < n) :
    0 < (fun f st => expectation f (metroIter (sampleMetropolis calcE) n false 0 st))^[1]
      (pointFn (negAt s i, calcE (negAt s i))) (s, calcE s) := by
  have hn : 0 < n := by omega
  rw [Function.iterate_one, expectation_metroIter n hn calcE _ s hs]
  refine div_pos (Finset.sum_pos' (fun j _ => ?_) ⟨i, Finset.mem_range.2 hi, ?_⟩) (by exact_mod_cast hn)
  · exact add_nonneg (mul_nonneg (accept_pos _).le (pointFn_nonneg _ _)) (mul_nonneg (reject_nonneg _) (pointFn_nonneg _ _))
  · rw [pointFn_self, mul_one]
    exact add_pos_of_pos_of_nonneg (accept_pos _) (mul_nonneg (reject_nonneg _) (pointFn_nonneg _ _))

theorem stay_pos (n : ℕ) (calcE : List ℤ → ℝ) (s : List ℤ) (hs : s ∈ words [1, -1] n) (i : ℕ) (hi : i < n)
    (h : calcE s < calcE (negAt s i)) :
    0 < expectation (pointFn (s, calcE s)) (metroIter (sampleMetropolis calcE) n false 0 (s, calcE s)) := by
  have hn : 0 < n := by omega
  rw [expectation_metroIter n hn calcE _ s hs]
  refine div_pos (Finset.sum_pos' (fun j _ => ?_) ⟨i, Finset.mem_range.2 hi, ?_⟩) (by exact_mod_cast hn)
  · exact add_nonneg (mul_nonneg (accept_pos _).le (pointFn_nonneg _ _)) (mul_nonneg (reject_nonneg _) (pointFn_nonneg _ _))
  · rw [pointFn_self, mul_one]
    exact add_pos_of_nonneg_of_pos (mul_nonneg (accept_pos _).le (pointFn_nonneg _ _)) (reject_pos (by linarith))

theorem pottsMove_pos (n : ℕ) (calcE : List ℤ → ℝ) (s : List ℤ) (hs : s ∈ words [0, 1, 2] n) (i : ℕ) (hi : i < n) (v : ℤ)
    (hv : v ∈ ([0, 1, 2] : List ℤ)) (hne : v ≠ s.getD i 0) :
    0 < (fun f st => expectation f (metroIter (sampleMetropolisPotts3 calcE) n false 0 st))^[1]
      (pointFn (s.set i v, calcE (s.set i v))) (s, calcE s) := by
  have hn : 0 < n := by omega
  rw [Function.iterate_one, expectation_metroIterPotts3 n hn calcE _ s hs]
  refine div_pos (Finset.sum_pos' (fun j _ => div_nonneg (Finset.sum_nonneg fun r _ => ?_) (by norm_num))
    ⟨i, Finset.mem_range.2 hi, div_pos (Finset.sum_pos' (fun r _ => ?_) ?_) (by norm_num)⟩) (by exact_mod_cast hn)
  · exact add_nonneg (mul_nonneg (accept_pos _).le (pointFn_nonneg _ _)) (mul_nonneg (reject_nonneg _) (pointFn_nonneg _ _))
  · exact add_nonneg (mul_nonneg (accept_pos _).le (pointFn_nonneg _ _)) (mul_nonneg (reject_nonneg _) (pointFn_nonneg _ _))
  · have ho := getD_mem_of_words hi hs
    obtain ⟨o, ho'⟩ : ∃ o, o = s.getD i 0 := ⟨_, rfl⟩
    rw [← ho'] at ho hne ⊢
    have : ∃ r ∈ Finset.range 2, (o + (1 + (r : ℤ))) % 3 = v := by
      simp only [List.mem_cons, List.not_mem_nil, or_false] at ho hv
      rcases ho with rfl | rfl | rfl <;> rcases hv with rfl | rfl | rfl <;> first | exact absurd rfl hne | decide
    obtain ⟨r, hr, e⟩ := this
    refine ⟨r, hr, ?_⟩
    rw [e, pointFn_self, mul_one]
    exact add_pos_of_pos_of_nonneg (accept_pos _) (mul_nonneg (reject_nonneg _) (pointFn_nonneg _ _))

theorem words_ne_nil (A : List ℤ) (a : ℤ) (ha : a ∈ A) (n : ℕ) : words A n ≠ [] := by
  have : List.replicate n a ∈ words A n := mem_words.2 ⟨by simp, fun x hx => by rw [List.eq_of_mem_replicate hx]; exact ha⟩
  exact List.ne_nil_of_mem this

/-- If no single flip raises the energy, the energy is constant. -/
theorem energy_const (n : ℕ) (calcE : List ℤ → ℝ) (h : ∀ s ∈ words [1, -1] n, ∀ i < n, calcE (negAt s i) ≤ calcE s) :
    ∀ s ∈ words [1, -1] n, ∀ t ∈ words [1, -1] n, calcE s = calcE t := by
  refine words_connect [1, -1] n (fun s t => calcE s = calcE t) (fun _ _ => rfl) (fun _ _ _ _ _ _ => Eq.trans)
    fun s hs i hi v hv => ?_
  have ho := getD_mem_of_words hi hs
  by_cases hne : v = s.getD i 0
  · rw [hne, set_getD_self]
  · have e : s.set i v = negAt s i := by
      rw [negAt_eq]
      congr 1
      simp only [List.mem_cons, List.not_mem_nil, or_false] at ho hv
      omega
    rw [e]
    have h1 := h s hs i hi
    have h2 := h (negAt s i) (by rw [negAt_eq]; exact flip_mem_words n i s hs) i hi
    rw [negAt_negAt] at h2
    exact le_antisymm h2 h1

theorem ergodic_metropolis (n : ℕ) (hn : 0 < n) (calcE : List ℤ → ℝ)
    (hE : ∃ s ∈ words [1, -1] n, ∃ t ∈ words [1, -1] n, calcE s ≠ calcE t) :
    Ergodic (withE calcE (words [1, -1] n)) (fun st => boltzmann (words [1, -1] n) calcE st.1)
      (metroIter (sampleMetropolis calcE) n false 0) := by
  have hne := words_ne_nil [1, -1] 1 (by simp) n
  have hm := goodMove_metropolis n calcE
  have hfin := finDist_metropolis n calcE
  have hT : Markov (withE calcE (words [1, -1] n))
      fun f st => expectation f (metroIter (sampleMetropolis calcE) n false 0 st) := markov_step fun st hst => by
    obtain ⟨s, e⟩ := st
    obtain ⟨h1, h2⟩ := mem_withE.1 hst
    dsimp only at h1 h2
    subst h2
    rw [metroIter_random hm 0 s h1]
    exact finDist_randint n hn _ fun i hi => finDist_bind (hfin i hi s h1) fun r hr => finDist_ret (mem_withE.2 hr)
  refine metro_ergodic hm hn (fun s _ => (boltzmann_pos _ _ hne s).le) (sum_boltzmann _ _ hne) hfin ?_ ?_
  · refine words_connect [1, -1] n _ (fun s hs => ⟨0, reach_refl⟩) (fun s hs u hu t ht h1 h2 => ?_) fun s hs i hi v hv => ?_
    · obtain ⟨d1, h1⟩ := h1
      obtain ⟨d2, h2⟩ := h2
      exact ⟨d1 + d2, reach_trans hT (mem_withE.2 ⟨hs, rfl⟩) h1 h2⟩
    · have ho := getD_mem_of_words hi hs
      by_cases hne : v = s.getD i 0
      · rw [hne, set_getD_self]; exact ⟨0, reach_refl⟩
      · have e : s.set i v = negAt s i := by
          rw [negAt_eq]
          congr 1
          simp only [List.mem_cons, List.not_mem_nil, or_false] at ho hv
          omega
        rw [e]
        exact ⟨1, flip_pos n calcE s hs i hi⟩
  · obtain ⟨a, ha, i, hi, hlt⟩ : ∃ a ∈ words [1, -1] n, ∃ i < n, calcE a < calcE (negAt a i) := by
      by_contra hcon
      push Not at hcon
      obtain ⟨s, hs, t, ht, hst⟩ := hE
      exact hst (energy_const n calcE hcon s hs t ht)
    exact ⟨a, ha, 0, fun k _ => hold_one hT (mem_withE.2 ⟨ha, rfl⟩) (stay_pos n calcE a ha i hi hlt) k⟩

theorem ergodic_potts3 (n : ℕ) (hn : 0 < n) (calcE : List ℤ → ℝ) :
    Ergodic (withE calcE (words [0, 1, 2] n)) (fun st => boltzmann (words [0, 1, 2] n) calcE st.1)
      (metroIter (sampleMetropolisPotts3 calcE) n false 0) := by
  have hne := words_ne_nil [0, 1, 2] 0 (by simp) n
  have hm := goodMove_potts3 n calcE
  have hfin := finDist_potts3 n calcE
  have hT : Markov (withE calcE (words [0, 1, 2] n))
      fun f st => expectation f (metroIter (sampleMetropolisPotts3 calcE) n false 0 st) := markov_step fun st hst => by
    obtain ⟨s, e⟩ := st
    obtain ⟨h1, h2⟩ := mem_withE.1 hst
    dsimp only at h1 h2
    subst h2
    rw [metroIter_random hm 0 s h1]
    exact finDist_randint n hn _ fun i hi => finDist_bind (hfin i hi s h1) fun r hr => finDist_ret (mem_withE.2 hr)
  refine metro_ergodic hm hn (fun s _ => (boltzmann_pos _ _ hne s).le) (sum_boltzmann _ _ hne) hfin ?_ ?_
  · refine words_connect [0, 1, 2] n _ (fun s hs => ⟨0, reach_refl⟩) (fun s hs u hu t ht h1 h2 => ?_) fun s hs i hi v hv => ?_
    · obtain ⟨d1, h1⟩ := h1
      obtain ⟨d2, h2⟩ := h2
      exact ⟨d1 + d2, reach_trans hT (mem_withE.2 ⟨hs, rfl⟩) h1 h2⟩
    · by_cases hne : v = s.getD i 0
      · rw [hne, set_getD_self]; exact ⟨0, reach_refl⟩
      · exact ⟨1, pottsMove_pos n calcE s hs i hi v hv hne⟩
  · obtain ⟨m, rfl⟩ := Nat.exists_eq_succ_of_ne_zero hn.ne'
    have h0 : ∀ v ∈ ([0, 1, 2] : List ℤ), v :: List.replicate m 0 ∈ words [0, 1, 2] (m + 1) := fun v hv =>
      mem_words.2 ⟨by simp, fun x hx => by
        rcases List.mem_cons.1 hx with rfl | hx
        · exact hv
        · rw [List.eq_of_mem_replicate hx]; simp⟩
    have hs : ∀ u ∈ ([0, 1, 2] : List ℤ), ∀ v ∈ ([0, 1, 2] : List ℤ), v ≠ u → _ := fun u hu v hv huv =>
      pottsMove_pos (m + 1) calcE (u :: List.replicate m 0) (h0 u hu) 0 (by omega) v hv (by simpa using huv)
    simp only [List.set_cons_zero] at hs
    have hmem : ∀ v ∈ ([0, 1, 2] : List ℤ), (v :: List.replicate m 0, calcE (v :: List.replicate m 0)) ∈
      withE calcE (words [0, 1, 2] (m + 1)) := fun v hv => mem_withE.2 ⟨h0 v hv, rfl⟩
    refine ⟨0 :: List.replicate m 0, h0 0 (by simp), 2, hold_two_three hT (hmem 0 (by simp)) ?_ ?_⟩
    · exact reach_trans hT (k := 1) (l := 1) (hmem 0 (by simp)) (hs 0 (by simp) 1 (by simp) (by simp))
        (hs 1 (by simp) 0 (by simp) (by simp))
    · exact reach_trans hT (k := 1) (l := 2) (hmem 0 (by simp)) (hs 0 (by simp) 1 (by simp) (by simp))
        (reach_trans hT (k := 1) (l := 1) (hmem 1 (by simp)) (hs 1 (by simp) 2 (by simp) (by simp))
          (hs 2 (by simp) 0 (by simp) (by simp)))

end Verif.Lemmas
