import Verif.Lemmas.Wolff
import Verif.Lemmas.Mpf2
import Verif.Spec.Energy
import Verif.Lemmas.SumUpper
import Mathlib.Algebra.BigOperators.Group.Finset.Piecewise

namespace Verif.Lemmas
open Verif Verif.Model Verif.Spec Prog

theorem choices_sublist {cand : List ℕ} : ∀ {N : List ℕ}, N ∈ choices cand → N.Sublist cand := by
  induction cand with
  | nil => intro N hN; simp only [choices, List.mem_singleton] at hN; rw [hN]
  | cons k l ih =>
    intro N hN
    rcases List.mem_append.1 hN with hN | hN
    · obtain ⟨M, hM, rfl⟩ := List.mem_map.1 hN
      exact (ih hM).cons_cons k
    · exact (ih hN).cons k

theorem histories_nodup (n : ℕ) : ∀ (fuel : ℕ) (newSites marked : List ℕ), marked.Nodup → (∀ x ∈ marked, x < n) →
    ∀ o ∈ histories n fuel newSites marked, o.2.Nodup ∧ ∀ x ∈ o.2, x < n := by
  intro fuel
  induction fuel with
  | zero => intro _ _ _ _ o ho; simp [histories] at ho
  | succ fuel ih =>
    intro newSites marked h1 h2 o ho
    match newSites with
    | [] =>
      simp only [histories, List.mem_singleton] at ho
      subst ho
      exact ⟨h1, h2⟩
    | site :: rest =>
      unfold histories at ho
      dsimp only at ho
      obtain ⟨N, hN, ho⟩ := List.mem_flatMap.1 ho
      obtain ⟨o', ho', rfl⟩ := List.mem_map.1 ho
      refine ih (rest ++ N) (marked ++ N) ?_ ?_ o' ho'
      · refine List.nodup_append'.2 ⟨h1, (choices_sublist hN).nodup (List.nodup_range.filter _), fun y hy hy' => ?_⟩
        exact (mem_candidates.1 (mem_choices hN y hy')).2.1 hy
      · intro y hy
        rcases List.mem_append.1 hy with hy | hy
        · exact h2 y hy
        · exact (mem_candidates.1 (mem_choices hN y hy)).1

theorem prod_split (l L : List ℕ) (f : ℕ → ℝ) :
    (l.map f).prod = ((l.filter fun j => j ∈ L).map f).prod * ((l.filter fun j => j ∉ L).map f).prod := by
  induction l with
  | nil => simp
  | cons j l ih =>
    rw [List.map_cons, List.prod_cons, ih]
    by_cases h : j ∈ L
    · rw [List.filter_cons_of_pos (by simpa using h), List.filter_cons_of_neg (by simpa using h), List.map_cons,
        List.prod_cons]
      ring
    · rw [List.filter_cons_of_neg (by simpa using h), List.filter_cons_of_pos (by simpa using h), List.map_cons,
        List.prod_cons]
      ring

/-- The sites outside of a cluster. -/
def outside (n : ℕ) (L : List ℕ) : List ℕ := (List.range n).filter fun j => j ∉ L

theorem candidates_outside (n : ℕ) (m L : List ℕ) (site : ℕ) (hm : ∀ y ∈ m, y ∈ L) (hs : site ∈ L) :
    ((candidates n m site).filter fun j => j ∉ L) = outside n L := by
  unfold candidates outside
  rw [List.filter_filter]
  refine List.filter_congr fun j _ => ?_
  by_cases h : j ∈ L
  · simp [h]
  · have h1 : j ∉ m := fun hj => h (hm j hj)
    have h2 : j ≠ site := by rintro rfl; exact h hs
    simp [h, h1, h2]

theorem choiceWeight_balance (n : ℕ) (m L N : List ℕ) (site : ℕ) (q q' : ℕ → ℝ) (hm : ∀ y ∈ m, y ∈ L) (hs : site ∈ L)
    (hN : ∀ y ∈ N, y ∈ L) (hq : ∀ j ∈ L, q j = q' j) :
    choiceWeight q (candidates n m site) N * ((outside n L).map q').prod =
      choiceWeight q' (candidates n m site) N * ((outside n L).map q).prod := by
  have h : ∀ p : ℕ → ℝ, choiceWeight p (candidates n m site) N =
      (((candidates n m site).filter fun j => j ∈ L).map fun j => if j ∈ N then 1 - p j else p j).prod *
        ((outside n L).map p).prod := fun p => by
    unfold choiceWeight
    rw [prod_split _ L, candidates_outside n m L site hm hs]
    congr 2
    refine List.map_congr_left fun j hj => if_neg fun h => ?_
    have := (List.mem_filter.1 hj).2
    rw [decide_eq_true_eq] at this
    exact this (hN j h)
  rw [h q, h q']
  have : ((candidates n m site).filter fun j => j ∈ L).map (fun j => if j ∈ N then 1 - q j else q j) =
      ((candidates n m site).filter fun j => j ∈ L).map fun j => if j ∈ N then 1 - q' j else q' j := by
    refine List.map_congr_left fun j hj => ?_
    rw [hq j (by simpa using (List.mem_filter.1 hj).2)]
  rw [this]
  ring

theorem historyWeight_balance (n : ℕ) (L : List ℕ) (q q' : ℕ → ℕ → ℝ) (hq : ∀ i ∈ L, ∀ j ∈ L, q i j = q' i j)
    (o : List (ℕ × List ℕ × List ℕ))
    (ho : ∀ x ∈ o, ∃ m, x.2.1 = candidates n m x.1 ∧ (∀ y ∈ m, y ∈ L) ∧ (∀ y ∈ x.2.2, y ∈ L) ∧ x.1 ∈ L) :
    historyWeight q o * ((o.map Prod.fst).map fun i => ((outside n L).map (q' i)).prod).prod =
      historyWeight q' o * ((o.map Prod.fst).map fun i => ((outside n L).map (q i)).prod).prod := by
  induction o with
  | nil => rfl
  | cons x o ih =>
    obtain ⟨m, h1, h2, h3, h4⟩ := ho x (by simp)
    have h := choiceWeight_balance n m L x.2.2 x.1 (q x.1) (q' x.1) h2 h4 h3 (hq x.1 h4)
    have ih := ih fun y hy => ho y (by simp [hy])
    unfold historyWeight at ih ⊢
    simp only [List.map_cons, List.prod_cons]
    rw [h1]
    generalize (o.map fun x => choiceWeight (q x.1) x.2.1 x.2.2).prod = A at ih ⊢
    generalize (o.map fun x => choiceWeight (q' x.1) x.2.1 x.2.2).prod = A' at ih ⊢
    linear_combination (A * ((o.map Prod.fst).map fun i => ((outside n L).map (q' i)).prod).prod) * h +
      (choiceWeight (q' x.1) (candidates n m x.1) x.2.2 * ((outside n L).map (q x.1)).prod) * ih

/-! ### Flipping a cluster -/

theorem flipCluster_length (s : List ℤ) (c : List ℕ) : (flipCluster s c).length = s.length := by simp [flipCluster]

theorem flipCluster_getD (s : List ℤ) (c : List ℕ) (i : ℕ) :
    (flipCluster s c).getD i 0 = if i ∈ c then -s.getD i 0 else s.getD i 0 := by
  unfold flipCluster
  by_cases hi : i < s.length
  · rw [getD_map_range _ _ _ hi]; simp only [mul_neg, mul_one]
  · rw [List.getD_eq_default _ _ (by simpa using hi), List.getD_eq_default _ _ (by simpa using hi)]; simp

theorem flipCluster_flipCluster (s : List ℤ) (c : List ℕ) : flipCluster (flipCluster s c) c = s := by
  refine List.ext_getElem (by simp [flipCluster_length]) fun i hi hi' => ?_
  rw [← List.getD_eq_getElem _ 0 hi, ← List.getD_eq_getElem _ 0 hi', flipCluster_getD, flipCluster_getD]
  by_cases h : i ∈ c <;> simp [h]

theorem flipCluster_mem (n : ℕ) (s : List ℤ) (c : List ℕ) (hs : s ∈ words [1, -1] n) :
    flipCluster s c ∈ words [1, -1] n := by
  obtain ⟨h1, h2⟩ := mem_words.1 hs
  refine mem_words.2 ⟨by rw [flipCluster_length, h1], fun x hx => ?_⟩
  obtain ⟨i, hi, rfl⟩ := List.mem_iff_getElem.1 hx
  rw [← List.getD_eq_getElem _ 0 hi, flipCluster_getD]
  rw [flipCluster_length] at hi
  have := h2 _ (List.getElem_mem hi)
  rw [List.getD_eq_getElem _ 0 hi]
  simp only [List.mem_cons, List.not_mem_nil, or_false] at this
  rcases this with h | h <;> rw [h] <;> split <;> simp

/-! ### The energy -/

theorem sum_cluster (n : ℕ) (L : List ℕ) (hL : L.Nodup) (hn : ∀ x ∈ L, x < n) (f : ℕ → ℝ) :
    (L.map f).sum = ∑ i ∈ Finset.range n, if i ∈ L then f i else 0 := by
  rw [← List.sum_toFinset f hL, ← Finset.sum_filter]
  refine Finset.sum_congr ?_ fun _ _ => rfl
  ext i
  simp only [List.mem_toFinset, Finset.mem_filter, Finset.mem_range]
  exact ⟨fun h => ⟨hn i h, h⟩, fun h => h.2⟩

theorem sum_outside (n : ℕ) (L : List ℕ) (f : ℕ → ℝ) :
    ((outside n L).map f).sum = ∑ j ∈ Finset.range n, if j ∉ L then f j else 0 := by
  unfold outside
  rw [sum_cluster n _ (List.nodup_range.filter _) fun x hx => List.mem_range.1 (List.mem_filter.1 hx).1]
  refine Finset.sum_congr rfl fun j hj => ?_
  by_cases h : j ∈ L <;> simp [h, Finset.mem_range.1 hj]

/-- Twice the sum of the interactions across the boundary of the cluster. -/
noncomputable def boundary (n : ℕ) (J : Mat ℝ) (s : List ℤ) (L : List ℕ) : ℝ :=
  (L.map fun i => ((outside n L).map fun j => 2 * (spins s j * J.at' j i * spins s i)).sum).sum

/-- The field term. -/
noncomputable def fieldTerm (h : List ℝ) (s : List ℤ) (L : List ℕ) : ℝ :=
  (L.map fun i => h.getD i 0 * ((s.getD i 0 : ℤ) : ℝ)).sum

theorem spins_flip (s : List ℤ) (L : List ℕ) (i : ℕ) :
    (spins (flipCluster s L) i : ℝ) = if i ∈ L then -spins s i else spins s i := by
  unfold spins
  rw [flipCluster_getD]
  split <;> push_cast <;> rfl

theorem energy_flip (n : ℕ) (h : List ℝ) (J : Mat ℝ) (hJ : ∀ i < n, ∀ j < n, J.at' i j = J.at' j i) (s : List ℤ)
    (L : List ℕ) (hL : L.Nodup) (hn : ∀ x ∈ L, x < n) :
    isingE n (fun i => h.getD i 0) J.at' (spins (flipCluster s L)) =
      isingE n (fun i => h.getD i 0) J.at' (spins s) + 2 * fieldTerm h s L + boundary n J s L := by
  unfold isingE fieldTerm boundary
  rw [sum_cluster n L hL hn, sum_cluster n L hL hn]
  have e1 : ∀ i, (if i ∈ L then ((outside n L).map fun j => 2 * (spins s j * J.at' j i * spins s i)).sum else 0) =
      ∑ j ∈ Finset.range n, if i ∈ L ∧ j ∉ L then 2 * (spins s j * J.at' j i * spins s i) else 0 := fun i => by
    by_cases hi : i ∈ L
    · rw [if_pos hi, sum_outside]; simp [hi]
    · simp [hi]
  rw [Finset.sum_congr rfl fun i _ => e1 i, sum_sum_upper n
    (fun i j => if i ∈ L ∧ j ∉ L then 2 * (spins s j * J.at' j i * spins s i) else 0) fun i => by simp]
  have e2 : ∀ i ∈ Finset.range n, ∀ j ∈ Finset.range n, (if i < j then J.at' i j * spins (flipCluster s L) i *
      spins (flipCluster s L) j else 0) = (if i < j then J.at' i j * spins s i * spins s j else 0) -
      if i < j then ((if i ∈ L ∧ j ∉ L then 2 * (spins s j * J.at' j i * spins s i) else 0) +
        if j ∈ L ∧ i ∉ L then 2 * (spins s i * J.at' i j * spins s j) else 0) else 0 := by
    intro i hi j hj
    have hs := hJ i (Finset.mem_range.1 hi) j (Finset.mem_range.1 hj)
    by_cases hij : i < j
    · simp only [if_pos hij]
      rw [spins_flip, spins_flip]
      by_cases h1 : i ∈ L <;> by_cases h2 : j ∈ L <;> simp [h1, h2, hs] <;> ring
    · simp [hij]
  rw [Finset.sum_congr rfl fun i hi => Finset.sum_congr rfl fun j hj => e2 i hi j hj]
  simp only [Finset.sum_sub_distrib]
  have e3 : ∀ i ∈ Finset.range n, h.getD i 0 * (spins (flipCluster s L) i : ℝ) =
      h.getD i 0 * spins s i - 2 * if i ∈ L then h.getD i 0 * ((s.getD i 0 : ℤ) : ℝ) else 0 := by
    intro i _
    rw [spins_flip]
    by_cases h1 : i ∈ L
    · rw [if_pos h1, if_pos h1]; unfold spins; ring
    · rw [if_neg h1, if_neg h1]; ring
  rw [Finset.sum_congr rfl e3, Finset.sum_sub_distrib, ← Finset.mul_sum]
  ring

/-! ### Balance of the cluster probabilities -/

theorem min_one_exp (x : ℝ) : min 1 (Real.exp (-x)) = Real.exp (-x) * min 1 (Real.exp x) := by
  rw [mul_min_of_nonneg _ _ (Real.exp_pos _).le, ← Real.exp_add]
  simp [min_comm]

theorem stay_eq (J : Mat ℝ) (s : List ℤ) (i j : ℕ) :
    stay J s i j = min 1 (Real.exp (-(2 * (spins s j * J.at' j i * spins s i)))) := by
  unfold stay expdJ spins
  congr 2
  ring

theorem stay_inside (J : Mat ℝ) (s : List ℤ) (L : List ℕ) (i j : ℕ) (hi : i ∈ L) (hj : j ∈ L) :
    stay J s i j = stay J (flipCluster s L) i j := by
  rw [stay_eq, stay_eq, spins_flip, spins_flip, if_pos hi, if_pos hj]
  congr 3
  ring

theorem stay_boundary (J : Mat ℝ) (s : List ℤ) (L : List ℕ) (i j : ℕ) (hi : i ∈ L) (hj : j ∉ L) :
    stay J s i j = Real.exp (-(2 * (spins s j * J.at' j i * spins s i))) * stay J (flipCluster s L) i j := by
  rw [stay_eq, stay_eq, spins_flip, spins_flip, if_pos hi, if_neg hj, min_one_exp]
  congr 3
  ring

theorem prod_exp_mul {α : Type*} (l : List α) (f g k : α → ℝ) (h : ∀ a ∈ l, f a = Real.exp (-g a) * k a) :
    (l.map f).prod = Real.exp (-(l.map g).sum) * (l.map k).prod := by
  induction l with
  | nil => simp
  | cons a l ih =>
    simp only [List.map_cons, List.prod_cons, List.sum_cons]
    rw [ih fun b hb => h b (by simp [hb]), h a (by simp), neg_add, Real.exp_add]
    ring

theorem prod_pos' {α : Type*} (l : List α) (f : α → ℝ) (h : ∀ a ∈ l, 0 < f a) : 0 < (l.map f).prod := by
  induction l with
  | nil => simp
  | cons a l ih =>
    rw [List.map_cons, List.prod_cons]
    exact mul_pos (h a (by simp)) (ih fun b hb => h b (by simp [hb]))

theorem historyWeight_flip (n : ℕ) (J : Mat ℝ) (s : List ℤ) (fuel site : ℕ)
    (o : List (ℕ × List ℕ × List ℕ) × List ℕ) (ho : o ∈ histories n fuel [site] [site]) :
    historyWeight (stay J s) o.1 =
      Real.exp (-boundary n J s o.2) * historyWeight (stay J (flipCluster s o.2)) o.1 := by
  obtain ⟨ext, h1, h2, h3⟩ := histories_spec n fuel [site] [site] (fun x hx => hx) o ho
  have hm : o.1.map Prod.fst = o.2 := by rw [h1, h2]
  have hb := historyWeight_balance n o.2 (stay J s) (stay J (flipCluster s o.2))
    (fun i hi j hj => stay_inside J s o.2 i j hi hj) o.1 h3
  rw [hm] at hb
  have hout : ∀ j ∈ outside n o.2, j ∉ o.2 := fun j hj => by simpa using (List.mem_filter.1 hj).2
  have hp : (o.2.map fun i => ((outside n o.2).map (stay J s i)).prod).prod = Real.exp (-boundary n J s o.2) *
      (o.2.map fun i => ((outside n o.2).map (stay J (flipCluster s o.2) i)).prod).prod := by
    unfold boundary
    refine prod_exp_mul _ _ _ _ fun i hi => ?_
    exact prod_exp_mul _ _ _ _ fun j hj => stay_boundary J s o.2 i j hi (hout j hj)
  have hpos : 0 < (o.2.map fun i => ((outside n o.2).map (stay J (flipCluster s o.2) i)).prod).prod :=
    prod_pos' _ _ fun i _ => prod_pos' _ _ fun j _ => by
      rw [stay_eq]; exact lt_min one_pos (Real.exp_pos _)
  rw [hp] at hb
  refine mul_right_cancel₀ hpos.ne' (hb.trans ?_)
  ring

/-! ### Reversibility -/

/-- Detailed balance, stated with test functions. -/
def ReversibleG {α : Type} (S : List α) (w : α → ℝ) (step : α → Prog α) : Prop :=
  ∀ f g : α → ℝ, (S.map fun s => w s * (g s * expectation f (step s))).sum =
    (S.map fun s => w s * (f s * expectation g (step s))).sum

/-- One step from a given first site. -/
noncomputable def wolffFrom (n : ℕ) (J : Mat ℝ) (h : List ℝ) (s : List ℤ) (i : ℕ) : Prog (List ℤ) :=
  (buildCluster n J s i).bind fun c =>
    .rand fun u =>
      if u < Real.exp (-2 * (c.map fun i => h.getD i 0 * ((s.getD i 0 : ℤ) : ℝ)).sum) then .ret (flipCluster s c)
      else .ret s

theorem wolffStep_eq (n : ℕ) (J : Mat ℝ) (h : List ℝ) (site : Option ℕ) (s : List ℤ) :
    wolffStep n J h site s = (wolffSite n site).bind (wolffFrom n J h s) := rfl

theorem expectation_wolffFrom (n : ℕ) (J : Mat ℝ) (h : List ℝ) (s : List ℤ) (i : ℕ) (hi : i < n) (f : List ℤ → ℝ) :
    expectation f (wolffFrom n J h s i) = ((histories n (n + 1) [i] [i]).map fun o =>
      historyWeight (stay J s) o.1 * (min 1 (Real.exp (-2 * fieldTerm h s o.2)) * f (flipCluster s o.2) +
        (1 - min 1 (Real.exp (-2 * fieldTerm h s o.2))) * f s)).sum := by
  unfold wolffFrom buildCluster
  rw [expectation_bind, expectation_growCluster n J s _ _ _ _ (by simpa using hi), growSum_histories]
  refine list_sum_congr fun o _ => ?_
  rw [expectation_rand_lt _ _ _ _ (Real.exp_pos _).le, expectation_ret, expectation_ret]
  rfl

theorem sum_historyWeight (n : ℕ) (J : Mat ℝ) (s : List ℤ) (i : ℕ) (hi : i < n) :
    ((histories n (n + 1) [i] [i]).map fun o => historyWeight (stay J s) o.1).sum = 1 := by
  have h := expectation_const 1 _ (returns_buildCluster n J s i hi)
  unfold buildCluster at h
  rw [expectation_growCluster n J s _ _ _ _ (by simpa using hi), growSum_histories] at h
  simpa using h

theorem reversible_wolffFrom (n : ℕ) (J : Mat ℝ) (hJ : ∀ i < n, ∀ j < n, J.at' i j = J.at' j i) (h : List ℝ) (i : ℕ)
    (hi : i < n) : ReversibleG (words [1, -1] n)
      (fun s => Real.exp (-isingE n (fun i => h.getD i 0) J.at' (spins s))) fun s => wolffFrom n J h s i := by
  intro f g
  set w : List ℤ → ℝ := fun s => Real.exp (-isingE n (fun i => h.getD i 0) J.at' (spins s)) with hw
  set a : List ℕ → List ℤ → ℝ := fun L s => min 1 (Real.exp (-2 * fieldTerm h s L)) with ha
  have key : ∀ f g : List ℤ → ℝ, ((words [1, -1] n).map fun s => w s * (g s * expectation f (wolffFrom n J h s i))).sum =
      ((histories n (n + 1) [i] [i]).map fun o => ((words [1, -1] n).map fun s => w s * historyWeight (stay J s) o.1 *
          a o.2 s * (g s * f (flipCluster s o.2))).sum + ((words [1, -1] n).map fun s => w s * historyWeight (stay J s) o.1 *
          (1 - a o.2 s) * (g s * f s)).sum).sum := fun f g => by
    rw [list_sum_congr (g := fun s => ((histories n (n + 1) [i] [i]).map fun o => w s * historyWeight (stay J s) o.1 *
        a o.2 s * (g s * f (flipCluster s o.2)) + w s * historyWeight (stay J s) o.1 * (1 - a o.2 s) * (g s * f s)).sum)
      fun s _ => ?_, list_sum_comm]
    · exact list_sum_congr fun o _ => list_sum_add _ _ _
    · rw [expectation_wolffFrom n J h s i hi, ← mul_assoc, ← list_sum_mul_left]
      exact list_sum_congr fun o _ => by ring
  rw [key f g, key g f]
  refine list_sum_congr fun o ho => ?_
  obtain ⟨h1, h2⟩ := histories_nodup n _ _ _ (by simp) (by simpa using hi) o ho
  congr 1
  · refine Eq.trans ?_ (sum_invol (words [1, -1] n) (nodup_words (by decide) n) (flipCluster · o.2)
      (fun s hs => flipCluster_mem n s o.2 hs) (fun s _ => flipCluster_flipCluster s o.2) _)
    refine list_sum_congr fun s hs => ?_
    rw [flipCluster_flipCluster, historyWeight_flip n J s _ i o ho]
    have e := energy_flip n h J hJ s o.2 h1 h2
    have ef : fieldTerm h (flipCluster s o.2) o.2 = -fieldTerm h s o.2 := by
      unfold fieldTerm
      rw [← list_sum_neg]
      refine list_sum_congr fun k hk => ?_
      rw [flipCluster_getD, if_pos hk]
      push_cast
      ring
    have e1 : w (flipCluster s o.2) = w s * Real.exp (-boundary n J s o.2) * Real.exp (-(2 * fieldTerm h s o.2)) := by
      simp only [hw]
      rw [e, ← Real.exp_add, ← Real.exp_add]
      congr 1; ring
    have e2 : a o.2 s = Real.exp (-(2 * fieldTerm h s o.2)) * a o.2 (flipCluster s o.2) := by
      simp only [ha]
      rw [ef, neg_mul, min_one_exp, mul_neg, neg_mul, neg_neg]
    rw [e1, e2]
    ring
  · exact list_sum_congr fun s _ => by ring

theorem reversible_average {α : Type} {S : List α} {w : α → ℝ} (n : ℕ) (hn : 0 < n) {step : ℕ → α → Prog α}
    (h : ∀ i < n, ReversibleG S w (step i)) : ReversibleG S w fun s => (Prog.randint n).bind fun i => step i s := by
  intro f g
  simp only [expectation_randint _ n hn, Finset.sum_div, Finset.mul_sum, list_sum_finset_comm]
  refine Finset.sum_congr rfl fun i hi => ?_
  have := h i (Finset.mem_range.1 hi) f g
  have e : ∀ f g : α → ℝ, (S.map fun s => w s * (g s * (expectation f (step i s) / n))).sum =
      (S.map fun s => w s * (g s * expectation f (step i s))).sum / n := fun f g => by
    rw [← list_sum_div]; exact list_sum_congr fun s _ => by ring
  rw [e, e, this]

theorem ReversibleG.keeps {α : Type} {S : List α} {w : α → ℝ} {step : α → Prog α} (h : ReversibleG S w step)
    {Q : α → Prop} (hr : ∀ s ∈ S, Returns (step s) Q) : KeepsG S w step := by
  intro f
  have := h f fun _ => 1
  simp only [one_mul] at this
  rw [this]
  exact list_sum_congr fun s hs => by rw [expectation_const 1 _ (hr s hs), mul_one]

theorem KeepsG.smul {α : Type} {S : List α} {w w' : α → ℝ} {step : α → Prog α} (c : ℝ) (hw : ∀ s, w' s = c * w s)
    (h : KeepsG S w step) : KeepsG S w' step := by
  intro f
  have := congrArg (c * ·) (h f)
  rw [← list_sum_mul_left, ← list_sum_mul_left] at this
  refine Eq.trans (list_sum_congr fun s _ => ?_) (this.trans (list_sum_congr fun s _ => ?_))
  · rw [hw]; ring
  · rw [hw]; ring

end Verif.Lemmas
