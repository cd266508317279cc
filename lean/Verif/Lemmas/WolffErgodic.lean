/-
Convergence of the cluster sampler.
-/
import Verif.Lemmas.Ergodic4
import Verif.Props.Wolff

namespace Verif.Lemmas
open Verif Verif.Model Verif.Spec Verif.Props Prog Filter

/-! ### Probabilities of a step -/

section
variable (n : ℕ) (J : Mat ℝ) (h : List ℝ)

theorem stay_pos' (s : List ℤ) (a b : ℕ) : 0 < stay J s a b ∧ stay J s a b ≤ 1 := by
  rw [stay_eq]; exact ⟨lt_min one_pos (Real.exp_pos _), min_le_left _ _⟩

theorem historyWeight_nonneg (s : List ℤ) (o : List (ℕ × List ℕ × List ℕ)) : 0 ≤ historyWeight (stay J s) o := by
  refine List.prod_nonneg fun x hx => ?_
  obtain ⟨y, _, rfl⟩ := List.mem_map.1 hx
  refine List.prod_nonneg fun z hz => ?_
  obtain ⟨j, _, rfl⟩ := List.mem_map.1 hz
  have := stay_pos' J s y.1 j
  split <;> linarith

theorem accept_field (s : List ℤ) (L : List ℕ) :
    0 < min 1 (Real.exp (-2 * fieldTerm h s L)) ∧ min 1 (Real.exp (-2 * fieldTerm h s L)) ≤ 1 :=
  ⟨lt_min one_pos (Real.exp_pos _), min_le_left _ _⟩

/-- A step from one site has finitely many results. -/
theorem finDist_wolffFrom (s : List ℤ) (hs : s ∈ words [1, -1] n) (i : ℕ) (hi : i < n) :
    FinDist (wolffFrom n J h s i) (· ∈ words [1, -1] n) := by
  refine ⟨(histories n (n + 1) [i] [i]).flatMap fun o =>
    [(historyWeight (stay J s) o.1 * min 1 (Real.exp (-2 * fieldTerm h s o.2)), flipCluster s o.2),
      (historyWeight (stay J s) o.1 * (1 - min 1 (Real.exp (-2 * fieldTerm h s o.2))), s)], ?_, ?_, fun f => ?_⟩
  · intro x hx
    obtain ⟨o, _, hx⟩ := List.mem_flatMap.1 hx
    have ha := accept_field h s o.2
    have hw := historyWeight_nonneg J s o.1
    simp only [List.mem_cons, List.not_mem_nil, or_false] at hx
    rcases hx with rfl | rfl
    · exact ⟨mul_nonneg hw ha.1.le, flipCluster_mem n s o.2 hs⟩
    · exact ⟨mul_nonneg hw (by linarith), hs⟩
  · rw [List.map_flatMap, sum_flatMap]
    refine Eq.trans ?_ (sum_historyWeight n J s i hi)
    refine list_sum_congr fun o _ => ?_
    simp only [List.map_cons, List.map_nil, List.sum_cons, List.sum_nil]
    ring
  · rw [expectation_wolffFrom n J h s i hi, List.map_flatMap, sum_flatMap]
    refine list_sum_congr fun o _ => ?_
    simp only [List.map_cons, List.map_nil, List.sum_cons, List.sum_nil]
    ring

/-- A possible history leads to the flipped cluster, and, if the field of the cluster may refuse it, back to the state. -/
theorem wolffFrom_pos (s : List ℤ) (i : ℕ) (hi : i < n) (o : List (ℕ × List ℕ × List ℕ) × List ℕ)
    (ho : o ∈ histories n (n + 1) [i] [i]) (hw : 0 < historyWeight (stay J s) o.1) (t : List ℤ)
    (ht : t = flipCluster s o.2 ∨ t = s ∧ 0 < fieldTerm h s o.2) :
    0 < expectation (pointFn t) (wolffFrom n J h s i) := by
  rw [expectation_wolffFrom n J h s i hi]
  have hterm : ∀ o : List (ℕ × List ℕ × List ℕ) × List ℕ, 0 ≤ historyWeight (stay J s) o.1 *
      (min 1 (Real.exp (-2 * fieldTerm h s o.2)) * pointFn t (flipCluster s o.2) +
        (1 - min 1 (Real.exp (-2 * fieldTerm h s o.2))) * pointFn t s) := fun o => by
    have := accept_field h s o.2
    exact mul_nonneg (historyWeight_nonneg J s _) (add_nonneg (mul_nonneg this.1.le (pointFn_nonneg _ _))
      (mul_nonneg (by linarith) (pointFn_nonneg _ _)))
  have hle := List.single_le_sum (l := (histories n (n + 1) [i] [i]).map fun o => historyWeight (stay J s) o.1 *
      (min 1 (Real.exp (-2 * fieldTerm h s o.2)) * pointFn t (flipCluster s o.2) +
        (1 - min 1 (Real.exp (-2 * fieldTerm h s o.2))) * pointFn t s))
    (fun x hx => by obtain ⟨o, _, rfl⟩ := List.mem_map.1 hx; exact hterm o) _ (List.mem_map.2 ⟨_, ho, rfl⟩)
  refine lt_of_lt_of_le (mul_pos hw ?_) hle
  have ha := accept_field h s o.2
  rcases ht with ht | ⟨ht, hf⟩
  · rw [← ht, pointFn_self, mul_one]
    exact add_pos_of_pos_of_nonneg ha.1 (mul_nonneg (by linarith) (pointFn_nonneg _ _))
  · rw [ht, pointFn_self, mul_one]
    refine add_pos_of_nonneg_of_pos (mul_nonneg ha.1.le (pointFn_nonneg _ _)) ?_
    have := reject_pos (d := 2 * fieldTerm h s o.2) (by linarith)
    rwa [← neg_mul] at this

theorem nil_mem_choices (c : List ℕ) : ([] : List ℕ) ∈ choices c := by
  induction c with
  | nil => simp [choices]
  | cons a c ih => exact List.mem_append_right _ ih

theorem single_mem_choices (c : List ℕ) (j : ℕ) (hj : j ∈ c) : [j] ∈ choices c := by
  induction c with
  | nil => simp at hj
  | cons a c ih =>
    rcases List.mem_cons.1 hj with rfl | hj
    · exact List.mem_append_left _ (List.mem_map.2 ⟨[], nil_mem_choices c, rfl⟩)
    · exact List.mem_append_right _ (ih hj)

/-- The cluster of one site. -/
theorem history_single (s : List ℤ) (i : ℕ) (hi : i < n) :
    ([(i, candidates n [i] i, [])], [i]) ∈ histories n (n + 1) [i] [i] ∧
      0 < historyWeight (stay J s) [(i, candidates n [i] i, [])] := by
  constructor
  · obtain ⟨m, rfl⟩ := Nat.exists_eq_add_of_lt (by omega : 0 < n)
    exact List.mem_flatMap.2 ⟨[], nil_mem_choices _, by simp [histories]⟩
  · unfold historyWeight choiceWeight
    simp only [List.map_cons, List.map_nil, List.prod_cons, List.prod_nil, mul_one, List.not_mem_nil, if_false]
    exact prod_pos' _ _ fun j _ => (stay_pos' J s i j).1

/-- The cluster of two coupled sites. -/
theorem history_pair (s : List ℤ) (i j : ℕ) (hi : i < n) (hj : j < n) (hij : j ≠ i)
    (hJ : 0 < spins s j * J.at' j i * spins s i) :
    ([(i, candidates n [i] i, [j]), (j, candidates n [i, j] j, [])], [i, j]) ∈ histories n (n + 1) [i] [i] ∧
      0 < historyWeight (stay J s) [(i, candidates n [i] i, [j]), (j, candidates n [i, j] j, [])] := by
  constructor
  · obtain ⟨m, rfl⟩ : ∃ m, n = m + 2 := ⟨n - 2, by omega⟩
    refine List.mem_flatMap.2 ⟨[j], single_mem_choices _ _ (mem_candidates.2 ⟨hj, by simpa using hij, hij⟩), ?_⟩
    refine List.mem_map.2 ⟨([(j, candidates (m + 2) [i, j] j, [])], [i, j]), ?_, rfl⟩
    exact List.mem_flatMap.2 ⟨[], nil_mem_choices _, by simp [histories]⟩
  · unfold historyWeight choiceWeight
    simp only [List.map_cons, List.map_nil, List.prod_cons, List.prod_nil, mul_one, List.not_mem_nil, if_false]
    refine mul_pos (prod_pos' _ _ fun k _ => ?_) (prod_pos' _ _ fun k _ => (stay_pos' J s j k).1)
    by_cases hk : k ∈ [j]
    · rw [if_pos hk, List.mem_singleton.1 hk, stay_eq]
      exact reject_pos (by linarith)
    · rw [if_neg hk]
      exact (stay_pos' J s i k).1

theorem flipCluster_single (s : List ℤ) (i : ℕ) : flipCluster s [i] = negAt s i := by
  rw [negAt_eq]
  refine List.ext_getElem (by simp [flipCluster_length]) fun k hk hk' => ?_
  rw [← List.getD_eq_getElem _ 0 hk, flipCluster_getD, List.getElem_set]
  rw [flipCluster_length] at hk
  by_cases hki : k = i
  · subst hki; simp
  · rw [if_neg (by simpa using hki), if_neg (Ne.symm hki), List.getD_eq_getElem _ _ hk]

theorem flipCluster_pair (s : List ℤ) (i j : ℕ) (hij : j ≠ i) : flipCluster s [i, j] = negAt (negAt s i) j := by
  rw [← flipCluster_single, ← flipCluster_single]
  refine List.ext_getElem (by simp [flipCluster_length]) fun k hk hk' => ?_
  rw [← List.getD_eq_getElem _ 0 hk, ← List.getD_eq_getElem _ 0 hk', flipCluster_getD, flipCluster_getD, flipCluster_getD]
  by_cases h1 : k = i
  · subst h1
    simp [Ne.symm hij]
  · by_cases h2 : k = j
    · subst h2; simp [h1]
    · simp [h1, h2]

theorem wolffFrom_flip (s : List ℤ) (i : ℕ) (hi : i < n) : 0 < expectation (pointFn (negAt s i)) (wolffFrom n J h s i) :=
  wolffFrom_pos n J h s i hi _ (history_single n J s i hi).1 (history_single n J s i hi).2 _
    (.inl (flipCluster_single s i).symm)

theorem wolffFrom_pair (s : List ℤ) (i j : ℕ) (hi : i < n) (hj : j < n) (hij : j ≠ i)
    (hJ : 0 < spins s j * J.at' j i * spins s i) :
    0 < expectation (pointFn (negAt (negAt s i) j)) (wolffFrom n J h s i) :=
  wolffFrom_pos n J h s i hi _ (history_pair n J s i j hi hj hij hJ).1 (history_pair n J s i j hi hj hij hJ).2 _
    (.inl (flipCluster_pair s i j hij).symm)

theorem wolffFrom_stay (s : List ℤ) (i : ℕ) (hi : i < n) (hf : 0 < h.getD i 0 * spins s i) :
    0 < expectation (pointFn s) (wolffFrom n J h s i) :=
  wolffFrom_pos n J h s i hi _ (history_single n J s i hi).1 (history_single n J s i hi).2 _
    (.inr ⟨rfl, by simpa [fieldTerm, spins] using hf⟩)

/-! ### A random first site -/

theorem finDist_wolffStep (hn : 0 < n) (s : List ℤ) (hs : s ∈ words [1, -1] n) :
    FinDist (wolffStep n J h none s) (· ∈ words [1, -1] n) := by
  rw [wolffStep_eq]
  exact finDist_randint n hn _ fun i hi => finDist_wolffFrom n J h s hs i hi

theorem wolffStep_pos (s : List ℤ) (hs : s ∈ words [1, -1] n) (i : ℕ) (hi : i < n) (t : List ℤ)
    (hp : 0 < expectation (pointFn t) (wolffFrom n J h s i)) : 0 < expectation (pointFn t) (wolffStep n J h none s) := by
  have hn : 0 < n := by omega
  rw [wolffStep_eq]
  change 0 < expectation _ ((Prog.randint n).bind _)
  rw [expectation_randint _ n hn]
  refine div_pos (Finset.sum_pos' (fun k hk => ?_) ⟨i, Finset.mem_range.2 hi, hp⟩) (by exact_mod_cast hn)
  exact (finDist_wolffFrom n J h s hs k (Finset.mem_range.1 hk)).nonneg fun u _ => pointFn_nonneg t u

theorem negAt_mem {n : ℕ} {s : List ℤ} (hs : s ∈ words [1, -1] n) (i : ℕ) : negAt s i ∈ words [1, -1] n := by
  rw [← flipCluster_single]; exact flipCluster_mem n s [i] hs

/-- The energy is not constant: a field or a coupling is not 0. -/
theorem wolff_parameter {n : ℕ} {J : Mat ℝ} {h : List ℝ}
    (hE : ∃ s ∈ words [1, -1] n, ∃ t ∈ words [1, -1] n,
      isingE n (fun i => h.getD i 0) J.at' (spins s) ≠ isingE n (fun i => h.getD i 0) J.at' (spins t)) :
    (∃ i < n, h.getD i 0 ≠ 0) ∨ ∃ i < n, ∃ j < n, i < j ∧ J.at' i j ≠ 0 := by
  by_contra hcon
  push Not at hcon
  obtain ⟨h1, h2⟩ := hcon
  obtain ⟨s, hs, t, ht, hst⟩ := hE
  have key : ∀ s : ℕ → ℝ, isingE n (fun i => h.getD i 0) J.at' s = 0 := fun s => by
    unfold isingE
    rw [Finset.sum_eq_zero fun i hi => by dsimp only; rw [h1 i (Finset.mem_range.1 hi), zero_mul],
      Finset.sum_eq_zero fun i hi => Finset.sum_eq_zero fun j hj => ?_]
    · simp
    · split
      · next hlt => rw [h2 i (Finset.mem_range.1 hi) j (Finset.mem_range.1 hj) hlt]; ring
      · rfl
  exact hst (by rw [key, key])

/-- A state in which the spin `j` has a given sign and the others are 1. -/
theorem exists_spin (n j : ℕ) (hj : j < n) (x : ℝ) (hx : x ≠ 0) :
    ∃ s ∈ words [1, -1] n, 0 < x * spins s j ∧ ∀ k < n, k ≠ j → (spins s k : ℝ) = 1 := by
  have key : ∀ v : ℤ, (v = 1 ∨ v = -1) → 0 < x * (v : ℝ) →
      ∃ s ∈ words [1, -1] n, 0 < x * spins s j ∧ ∀ k < n, k ≠ j → (spins s k : ℝ) = 1 := by
    intro v hv hx
    refine ⟨(List.replicate n 1).set j v, mem_words.2 ⟨by simp, fun y hy => ?_⟩, ?_, fun k hk hkj => ?_⟩
    · rcases List.mem_or_eq_of_mem_set hy with hy | hy
      · rw [List.eq_of_mem_replicate hy]; simp
      · rw [hy]; simpa using hv
    · unfold spins
      rw [List.getD_eq_getElem _ _ (by simpa using hj), List.getElem_set_self]
      exact hx
    · unfold spins
      rw [List.getD_eq_getElem _ _ (by simpa using hk), List.getElem_set_ne (Ne.symm hkj)]
      simp
  rcases lt_or_gt_of_ne hx with h | h
  · exact key (-1) (.inr rfl) (by push_cast; linarith)
  · exact key 1 (.inl rfl) (by push_cast; linarith)

theorem ergodic_wolff (hn : 0 < n) (hJ : ∀ i < n, ∀ j < n, J.at' i j = J.at' j i) (E : List ℤ → ℝ)
    (hE : ∀ s, E s = isingE n (fun i => h.getD i 0) J.at' (spins s))
    (hx : ∃ s ∈ words [1, -1] n, ∃ t ∈ words [1, -1] n, E s ≠ E t) :
    Ergodic (words [1, -1] n) (boltzmann (words [1, -1] n) E) (wolffStep n J h none) := by
  have hne := words_ne_nil [1, -1] 1 (by simp) n
  have hfin := fun s hs => finDist_wolffStep n J h hn s hs
  have hT := markov_step hfin
  have hflip : ∀ s ∈ words ([1, -1] : List ℤ) n, ∀ i < n,
      0 < (fun f s => expectation f (wolffStep n J h none s))^[1] (pointFn (negAt s i)) s := fun s hs i hi =>
    wolffStep_pos n J h s hs i hi _ (wolffFrom_flip n J h s i hi)
  refine ⟨hfin, fun s _ => (boltzmann_pos _ _ hne s).le, sum_boltzmann _ _ hne,
    fun f => keeps_step n hn J hJ h none (by simp) E hE f, ?_⟩
  have hirr : ∀ s ∈ words ([1, -1] : List ℤ) n, ∀ t ∈ words ([1, -1] : List ℤ) n, ∃ d,
      0 < (fun f s => expectation f (wolffStep n J h none s))^[d] (pointFn t) s := by
    refine words_connect [1, -1] n _ (fun s hs => ⟨0, reach_refl⟩) (fun s hs u hu t ht h1 h2 => ?_) fun s hs i hi v hv => ?_
    · obtain ⟨d1, h1⟩ := h1
      obtain ⟨d2, h2⟩ := h2
      exact ⟨d1 + d2, reach_trans hT hs h1 h2⟩
    · have ho := getD_mem_of_words hi hs
      by_cases hne : v = s.getD i 0
      · rw [hne, set_getD_self]; exact ⟨0, reach_refl⟩
      · have e : s.set i v = negAt s i := by
          rw [negAt_eq]
          congr 1
          simp only [List.mem_cons, List.not_mem_nil, or_false] at ho hv
          omega
        rw [e]
        exact ⟨1, hflip s hs i hi⟩
  have hx' : ∃ s ∈ words [1, -1] n, ∃ t ∈ words [1, -1] n,
      isingE n (fun i => h.getD i 0) J.at' (spins s) ≠ isingE n (fun i => h.getD i 0) J.at' (spins t) := by
    simpa only [hE] using hx
  rcases wolff_parameter hx' with ⟨i, hi, hi0⟩ | ⟨i, hi, j, hj, hij, hij0⟩
  · obtain ⟨a, ha, hf, -⟩ := exists_spin n i hi _ hi0
    exact reach_all hT hirr a ha 0 fun k _ =>
      hold_one hT ha (wolffStep_pos n J h a ha i hi a (wolffFrom_stay n J h a i hi hf)) k
  · obtain ⟨a, ha, hf, h1⟩ := exists_spin n j hj _ hij0
    have hij' : j ≠ i := by omega
    have hpair : 0 < (fun f s => expectation f (wolffStep n J h none s))^[1] (pointFn (negAt (negAt a i) j)) a :=
      wolffStep_pos n J h a ha i hi _ (wolffFrom_pair n J h a i j hi hj hij' (by
        rw [h1 i hi (Ne.symm hij'), hJ j hj i hi]; linarith))
    have h2 : 0 < (fun f s => expectation f (wolffStep n J h none s))^[2] (pointFn a) a := by
      have := hflip (negAt a i) (negAt_mem ha i) i hi
      rw [negAt_negAt] at this
      exact reach_trans hT (k := 1) (l := 1) ha (hflip a ha i hi) this
    have h3 : 0 < (fun f s => expectation f (wolffStep n J h none s))^[3] (pointFn a) a := by
      have e1 := hflip (negAt (negAt a i) j) (negAt_mem (negAt_mem ha i) j) j hj
      rw [negAt_negAt] at e1
      have e2 := hflip (negAt a i) (negAt_mem ha i) i hi
      rw [negAt_negAt] at e2
      exact reach_trans hT (k := 2) (l := 1) ha (reach_trans hT (k := 1) (l := 1) ha hpair e1) e2
    exact reach_all hT hirr a ha 2 fun k hk => hold_two_three hT ha h2 h3 k hk

end

/-! ### Independent rows -/

/-- The sum of the deviations of independent rows. -/
theorem independent_sum {ι α : Type} (p : ι → Prog α) (Q : α → Prop) (X : α → ℝ) (ε K : ℝ) (hε : 0 ≤ ε) (l : List ι)
    (hp : ∀ i ∈ l, FinDist (p i) Q) (h1 : ∀ i ∈ l, |expectation X (p i)| ≤ ε)
    (h2 : ∀ i ∈ l, expectation (fun a => X a ^ 2) (p i) ≤ K) :
    |expectation (fun as => (as.map X).sum) (mapEach p l)| ≤ l.length * ε ∧
      expectation (fun as => (as.map X).sum ^ 2) (mapEach p l) ≤ l.length * K + (l.length * ε) ^ 2 := by
  induction l with
  | nil => simp [mapEach]
  | cons i l ih =>
    obtain ⟨e1, e2⟩ := ih (fun j hj => hp j (by simp [hj])) (fun j hj => h1 j (by simp [hj]))
      (fun j hj => h2 j (by simp [hj]))
    have hl := finDist_mapEach (Q := fun _ => Q) l fun j hj => hp j (by simp [hj])
    have hi := hp i (by simp)
    obtain ⟨A, hA⟩ : ∃ A, A = expectation (fun as => (as.map X).sum) (mapEach p l) := ⟨_, rfl⟩
    obtain ⟨B, hB⟩ : ∃ B, B = expectation (fun as => (as.map X).sum ^ 2) (mapEach p l) := ⟨_, rfl⟩
    have g1 : expectation (fun as => (as.map X).sum) (mapEach p (i :: l)) = expectation X (p i) + A := by
      rw [mapEach, expectation_bind]
      simp only [expectation_bind, expectation_ret, List.map_cons, List.sum_cons]
      have : ∀ a, expectation (fun as => X a + (as.map X).sum) (mapEach p l) = A + 1 * X a := fun a => by
        have := hl.affine (X a) 1 fun as => (as.map X).sum
        simp only [one_mul] at this
        rw [this, ← hA]; ring
      simp only [this]
      rw [hi.affine]; ring
    have g2 : expectation (fun as => (as.map X).sum ^ 2) (mapEach p (i :: l)) =
        expectation (fun a => X a ^ 2) (p i) + 2 * A * expectation X (p i) + B := by
      rw [mapEach, expectation_bind]
      simp only [expectation_bind, expectation_ret, List.map_cons, List.sum_cons]
      have : ∀ a, expectation (fun as => (X a + (as.map X).sum) ^ 2) (mapEach p l) = B + (X a ^ 2 + 2 * A * X a) := by
        intro a
        have h := hl.sum [0, 1, 2] (fun k as => if k = 0 then X a ^ 2 else if k = 1 then 2 * X a * (as.map X).sum
          else (as.map X).sum ^ 2)
        simp only [List.map_cons, List.map_nil, List.sum_cons, List.sum_nil, if_true, one_ne_zero, if_false,
          OfNat.ofNat_ne_zero, OfNat.ofNat_ne_one] at h
        rw [hl.const, ← hB] at h
        have h' := hl.affine 0 (2 * X a) fun as => (as.map X).sum
        simp only [zero_add, ← hA] at h'
        rw [h'] at h
        rw [show (fun as : List α => (X a + (as.map X).sum) ^ 2) =
          fun as => X a ^ 2 + (2 * X a * (as.map X).sum + ((as.map X).sum ^ 2 + 0)) from funext fun as => by ring, h]
        ring
      simp only [this]
      have h := hi.sum [0, 1, 2] (fun k a => if k = 0 then B else if k = 1 then X a ^ 2 else 2 * A * X a)
      simp only [List.map_cons, List.map_nil, List.sum_cons, List.sum_nil, if_true, one_ne_zero, if_false,
        OfNat.ofNat_ne_zero, OfNat.ofNat_ne_one] at h
      rw [hi.const] at h
      have h' := hi.affine 0 (2 * A) X
      simp only [zero_add] at h'
      rw [h'] at h
      rw [show (fun a => B + (X a ^ 2 + 2 * A * X a)) = fun a => B + (X a ^ 2 + (2 * A * X a + 0)) from
        funext fun a => by ring, h]
      ring
    rw [← hA] at e1
    rw [← hB] at e2
    have h1i := h1 i (by simp)
    have h2i := h2 i (by simp)
    rw [g1, g2, List.length_cons]
    push_cast
    constructor
    · calc |expectation X (p i) + A| ≤ |expectation X (p i)| + |A| := abs_add_le _ _
        _ ≤ _ := by linarith
    · have : A * expectation X (p i) ≤ (l.length * ε) * ε :=
        (le_abs_self _).trans (by
          rw [abs_mul]
          exact mul_le_mul e1 h1i (abs_nonneg _) (by positivity))
      nlinarith [sq_nonneg ε]

end Verif.Lemmas
