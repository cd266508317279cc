import Verif.Model.Wolff
import Verif.Lemmas.KeepsG
import Verif.Lemmas.IterCluster
import Verif.Lemmas.Matrix
import Mathlib.Data.List.Lattice

namespace Verif.Lemmas
open Verif Verif.Model Verif.Spec Prog

/-- The sites that may be added when `site` is explored. -/
def candidates (n : ℕ) (marked : List ℕ) (site : ℕ) : List ℕ :=
  (List.range n).filter fun j => ¬ (j ∈ marked ∨ j = site)

theorem mem_candidates {n : ℕ} {marked : List ℕ} {site j : ℕ} :
    j ∈ candidates n marked site ↔ j < n ∧ j ∉ marked ∧ j ≠ site := by
  unfold candidates
  rw [List.mem_filter, List.mem_range, decide_eq_true_eq]
  tauto

theorem foldl_filter (P : ℕ → Prop) [DecidablePred P] (l : List ℕ) : ∀ acc : List ℕ,
    l.foldl (fun nb i => if P i then nb ++ [i] else nb) acc = acc ++ l.filter fun i => P i := by
  induction l with
  | nil => intro acc; simp
  | cons i l ih =>
    intro acc
    rw [List.foldl_cons, ih]
    by_cases h : P i
    · rw [if_pos h, List.filter_cons_of_pos (by simpa using h)]; simp
    · rw [if_neg h, List.filter_cons_of_neg (by simpa using h)]

theorem iterateNeighbors_eq (n : ℕ) (marked : List ℕ) (site : ℕ) (e : ℕ → ℝ) (r : List ℝ) :
    iterateNeighbors n (fun i => decide (i ∈ marked ∨ i = site)) e r =
      (candidates n marked site).filter fun i => r.getD i 0 < 1 - e i := by
  unfold iterateNeighbors candidates
  rw [foldl_filter, List.nil_append, List.filter_filter]
  refine List.filter_congr fun i _ => ?_
  by_cases h1 : i ∈ marked ∨ i = site <;> simp [h1]

/-! ### Returns -/

theorem returns_findNeighbors (n : ℕ) (J : Mat ℝ) (s : List ℤ) (site : ℕ) (hs : site < n) (marked : List ℕ) :
    Returns (findNeighbors n J s site marked) fun nb => nb.Nodup ∧ ∀ j ∈ nb,
      (j < n ∧ j ∉ marked ∧ j ≠ site) ∧
        0 < ((s.getD j 0 : ℤ) : ℝ) * J.at' j site * ((s.getD site 0 : ℤ) : ℝ) := by
  unfold findNeighbors
  rw [if_pos hs]
  have h1 : Returns (mapEach (fun _ : ℕ => rand01) (List.range n)) fun r => List.Forall₂ (fun _ u => 0 ≤ u) (List.range n) r := by
    refine returns_mapEach _ fun i _ => ?_
    intro u hu _
    exact ⟨u, rfl, hu⟩
  refine returns_bind h1 fun r hr => returns_ret ?_
  rw [iterateNeighbors_eq]
  refine ⟨(List.nodup_range.filter _).filter _, fun j hj => ?_⟩
  rw [List.mem_filter, decide_eq_true_eq] at hj
  have hc := mem_candidates.1 hj.1
  refine ⟨hc, ?_⟩
  have hl : r.length = n := by have := hr.length_eq; simpa using this.symm
  have h0 : 0 ≤ r.getD j 0 := by
    rw [List.getD_eq_getElem _ _ (by rw [hl]; exact hc.1)]
    exact (List.forall₂_iff_get.1 hr).2 j (by simpa using hc.1) (by rw [hl]; exact hc.1)
  have h2 : expdJ J s j site < 1 := by linarith [hj.2]
  unfold expdJ at h2
  rw [Real.exp_lt_one_iff] at h2
  linarith

/-- What the growth of a cluster returns. -/
theorem returns_growCluster (n : ℕ) (J : Mat ℝ) (s : List ℤ) (site : ℕ) : ∀ (fuel : ℕ) (done newSites : List ℕ),
    (done ++ newSites).Nodup → (∀ x ∈ done ++ newSites, x < n) →
    (∀ x ∈ done ++ newSites, Relation.ReflTransGen (fun a b => b < n ∧
      0 < ((s.getD b 0 : ℤ) : ℝ) * J.at' b a * ((s.getD a 0 : ℤ) : ℝ)) site x) →
    n + 1 - done.length ≤ fuel →
    Returns (growCluster n J s fuel newSites (done ++ newSites)) fun c =>
      (∃ ext, c = done ++ newSites ++ ext) ∧ c.Nodup ∧ (∀ x ∈ c, x < n) ∧
      ∀ x ∈ c, Relation.ReflTransGen (fun a b => b < n ∧
        0 < ((s.getD b 0 : ℤ) : ℝ) * J.at' b a * ((s.getD a 0 : ℤ) : ℝ)) site x := by
  intro fuel
  induction fuel with
  | zero =>
    intro done newSites h1 h2 _ h4
    have := nodup_le h1 h2
    simp only [List.length_append] at this
    omega
  | succ fuel ih =>
    intro done newSites h1 h2 h3 h4
    match newSites with
    | [] => exact returns_ret ⟨⟨[], by simp⟩, h1, h2, h3⟩
    | x :: rest =>
      have hx : x < n := h2 x (by simp)
      unfold growCluster
      dsimp only
      refine returns_bind (returns_findNeighbors n J s x hx _) fun nb hnb => ?_
      have e : done ++ x :: rest ++ nb = (done ++ [x]) ++ (rest ++ nb) := by simp
      rw [e]
      refine returns_mono ?_ (ih (done ++ [x]) (rest ++ nb) ?_ ?_ ?_ ?_)
      · rintro c ⟨⟨ext, rfl⟩, h⟩
        exact ⟨⟨nb ++ ext, by simp⟩, h⟩
      · rw [← e]
        exact List.nodup_append'.2 ⟨h1, hnb.1, fun y hy hy' => (hnb.2 y hy').1.2.1 hy⟩
      · intro y hy
        rw [← e] at hy
        rcases List.mem_append.1 hy with hy | hy
        · exact h2 y hy
        · exact (hnb.2 y hy).1.1
      · intro y hy
        rw [← e] at hy
        rcases List.mem_append.1 hy with hy | hy
        · exact h3 y hy
        · exact (h3 x (by simp)).tail ⟨(hnb.2 y hy).1.1, (hnb.2 y hy).2⟩
      · simp only [List.length_append, List.length_cons, List.length_nil]
        omega

theorem returns_buildCluster (n : ℕ) (J : Mat ℝ) (s : List ℤ) (site : ℕ) (hs : site < n) :
    Returns (buildCluster n J s site) fun c => site ∈ c ∧ c.Nodup ∧ (∀ x ∈ c, x < n) ∧
      ∀ x ∈ c, Relation.ReflTransGen (fun a b => b < n ∧
        0 < ((s.getD b 0 : ℤ) : ℝ) * J.at' b a * ((s.getD a 0 : ℤ) : ℝ)) site x := by
  refine returns_mono ?_ (returns_growCluster n J s site (n + 1) [] [site] (by simp) (by simpa using hs) (by
    intro x hx; simp only [List.nil_append, List.mem_singleton] at hx; rw [hx]) (by simp))
  rintro c ⟨⟨ext, rfl⟩, h⟩
  exact ⟨by simp, h⟩

/-! ### Expectations -/

/-- Expectation over independent decisions to include each of `cand`, where `j` stays out with probability `q j`. -/
def nbSum (q : ℕ → ℝ) : List ℕ → (List ℕ → ℝ) → ℝ
  | [], F => F []
  | j :: l, F => (1 - q j) * nbSum q l (fun N => F (j :: N)) + q j * nbSum q l F

theorem integral_below (e A B : ℝ) (he : 0 < e) :
    (∫ u in (0 : ℝ)..1, if u < 1 - e then A else B) = (1 - min 1 e) * A + min 1 e * B := by
  have h := expectation_rand_lt (fun x : ℝ => x) (.ret A) (.ret B) (max 0 (1 - e)) (le_max_left _ _)
  rw [expectation_rand, expectation_ret, expectation_ret] at h
  have hm : min 1 (max 0 (1 - e)) = 1 - min 1 e := by
    rcases le_total e 1 with h1 | h1
    · rw [min_eq_right h1, max_eq_right (by linarith), min_eq_right (by linarith)]
    · rw [min_eq_left h1, max_eq_left (by linarith)]; simp
  rw [hm, sub_sub_cancel] at h
  rw [← h]
  refine intervalIntegral.integral_congr fun u hu => ?_
  rw [Set.uIcc_of_le zero_le_one] at hu
  have : u < max 0 (1 - e) ↔ u < 1 - e := by
    rw [lt_max_iff]
    exact ⟨fun h => h.resolve_left (not_lt.2 hu.1), .inr⟩
  by_cases hlt : u < 1 - e
  · rw [if_pos hlt, if_pos (this.2 hlt), expectation_ret]
  · rw [if_neg hlt, if_neg (fun h => hlt (this.1 h)), expectation_ret]

theorem expectation_draws (P : ℕ → Prop) [DecidablePred P] (e : ℕ → ℝ) (he : ∀ j, 0 < e j) (l : List ℕ) :
    ∀ F : List ℕ → ℝ,
    expectation (fun r : List ℝ => F (((l.zip r).filter fun x => P x.1 ∧ x.2 < 1 - e x.1).map Prod.fst))
        (mapEach (fun _ => rand01) l) =
      nbSum (fun j => min 1 (e j)) (l.filter fun j => P j) F := by
  induction l with
  | nil => intro F; simp [mapEach, nbSum]
  | cons j l ih =>
    intro F
    unfold mapEach rand01
    rw [expectation_bind, expectation_rand]
    simp only [expectation_ret, expectation_bind]
    by_cases hP : P j
    · rw [List.filter_cons_of_pos (by simpa using hP)]
      unfold nbSum
      rw [← ih, ← ih, ← integral_below _ _ _ (he j)]
      refine intervalIntegral.integral_congr fun u _ => ?_
      by_cases hu : u < 1 - e j
      · rw [if_pos hu]
        unfold rand01
        congr 1
        funext r
        rw [List.zip_cons_cons, List.filter_cons_of_pos (by simpa using ⟨hP, hu⟩), List.map_cons]
      · rw [if_neg hu]
        unfold rand01
        congr 1
        funext r
        rw [List.zip_cons_cons, List.filter_cons_of_neg (by simp [hu])]
    · rw [List.filter_cons_of_neg (by simpa using hP), ← ih]
      refine Eq.trans (intervalIntegral.integral_congr (g := fun _ => expectation (fun r : List ℝ =>
        F (((l.zip r).filter fun x => P x.1 ∧ x.2 < 1 - e x.1).map Prod.fst)) (mapEach (fun _ => rand01) l))
        fun u _ => ?_) (by simp)
      dsimp only
      unfold rand01
      congr 1
      funext r
      rw [List.zip_cons_cons, List.filter_cons_of_neg (by simp [hP])]

theorem filter_zip (n : ℕ) (P : ℕ → ℝ → Prop) [∀ i u, Decidable (P i u)] (r : List ℝ) (hr : r.length = n) :
    ((List.range n).filter fun i => P i (r.getD i 0)) = (((List.range n).zip r).filter fun x => P x.1 x.2).map Prod.fst := by
  have h1 : (List.range n).zip r = (List.range n).map fun i => (i, r.getD i 0) := by
    refine List.ext_getElem (by simp [hr]) fun i hi hi' => ?_
    rw [List.getElem_zip, List.getElem_map, List.getElem_range]
    simp only [List.length_zip, List.length_range] at hi
    rw [List.getD_eq_getElem _ _ (by omega)]
  rw [h1, List.filter_map, List.map_map]
  have : (Prod.fst ∘ fun i => (i, r.getD i 0)) = (id : ℕ → ℕ) := rfl
  rw [this, List.map_id]
  rfl

/-- The probability that the bond from `i` to `j` is not formed. -/
noncomputable def stay (J : Mat ℝ) (s : List ℤ) (i j : ℕ) : ℝ := min 1 (expdJ J s j i)

theorem expectation_findNeighbors (n : ℕ) (J : Mat ℝ) (s : List ℤ) (site : ℕ) (hs : site < n) (marked : List ℕ)
    (F : List ℕ → ℝ) :
    expectation F (findNeighbors n J s site marked) = nbSum (stay J s site) (candidates n marked site) F := by
  unfold findNeighbors
  rw [if_pos hs, expectation_bind]
  simp only [expectation_ret]
  have h := expectation_draws (fun j => ¬ (j ∈ marked ∨ j = site)) (fun j => expdJ J s j site)
    (fun j => Real.exp_pos _) (List.range n) F
  refine Eq.trans ?_ h
  have hr : Returns (mapEach (fun _ : ℕ => rand01) (List.range n)) fun r => List.Forall₂ (fun _ _ => True) (List.range n) r := by
    refine returns_mapEach _ fun i _ => ?_
    intro u hu _
    exact ⟨u, rfl, trivial⟩
  refine expectation_congr _ hr fun r hr => ?_
  have hl : r.length = n := by have := hr.length_eq; simpa using this.symm
  rw [iterateNeighbors_eq]
  congr 1
  rw [← filter_zip n (fun i u => ¬ (i ∈ marked ∨ i = site) ∧ u < 1 - expdJ J s i site) r hl]
  unfold candidates
  rw [List.filter_filter]
  refine List.filter_congr fun i _ => ?_
  by_cases h1 : i ∈ marked ∨ i = site <;> simp [h1]

/-- Expectation of a function of the final cluster, from the probabilities of bonds. -/
def growSum (n : ℕ) (q : ℕ → ℕ → ℝ) : ℕ → List ℕ → List ℕ → (List ℕ → ℝ) → ℝ
  | 0, _, _, _ => 0
  | fuel + 1, newSites, marked, F =>
    match newSites with
    | [] => F marked
    | site :: rest => nbSum (q site) (candidates n marked site) fun N => growSum n q fuel (rest ++ N) (marked ++ N) F

theorem nbSum_congr (q : ℕ → ℝ) (cand : List ℕ) : ∀ F G : List ℕ → ℝ, (∀ N, (∀ j ∈ N, j ∈ cand) → F N = G N) →
    nbSum q cand F = nbSum q cand G := by
  induction cand with
  | nil => intro F G h; exact h [] (by simp)
  | cons j l ih =>
    intro F G h
    unfold nbSum
    rw [ih (fun N => F (j :: N)) (fun N => G (j :: N)) fun N hN => h _ fun k hk => ?_,
      ih F G fun N hN => h N fun k hk => List.mem_cons_of_mem _ (hN k hk)]
    rcases List.mem_cons.1 hk with rfl | hk
    · simp
    · exact List.mem_cons_of_mem _ (hN k hk)

theorem expectation_growCluster (n : ℕ) (J : Mat ℝ) (s : List ℤ) (F : List ℕ → ℝ) : ∀ (fuel : ℕ) (newSites marked : List ℕ),
    (∀ x ∈ newSites, x < n) →
    expectation F (growCluster n J s fuel newSites marked) = growSum n (stay J s) fuel newSites marked F := by
  intro fuel
  induction fuel with
  | zero => intro _ _ _; rfl
  | succ fuel ih =>
    intro newSites marked h
    match newSites with
    | [] => rfl
    | site :: rest =>
      unfold growCluster growSum
      dsimp only
      rw [expectation_bind, expectation_findNeighbors n J s site (h site (by simp))]
      refine nbSum_congr _ _ _ _ fun N hN => ih _ _ fun x hx => ?_
      rcases List.mem_append.1 hx with hx | hx
      · exact h x (by simp [hx])
      · exact (mem_candidates.1 (hN x hx)).1

/-! ### The possible histories of the growth -/

/-- All choices from `cand`. -/
def choices : List ℕ → List (List ℕ)
  | [] => [[]]
  | j :: l => (choices l).map (j :: ·) ++ choices l

/-- The probability of a choice. -/
def choiceWeight (q : ℕ → ℝ) (cand N : List ℕ) : ℝ := (cand.map fun j => if j ∈ N then 1 - q j else q j).prod

theorem mem_choices {cand : List ℕ} : ∀ {N : List ℕ}, N ∈ choices cand → ∀ j ∈ N, j ∈ cand := by
  induction cand with
  | nil => intro N hN j hj; simp only [choices, List.mem_singleton] at hN; rw [hN] at hj; exact hj
  | cons k l ih =>
    intro N hN j hj
    rcases List.mem_append.1 hN with hN | hN
    · obtain ⟨M, hM, rfl⟩ := List.mem_map.1 hN
      rcases List.mem_cons.1 hj with rfl | hj
      · simp
      · exact List.mem_cons_of_mem _ (ih hM j hj)
    · exact List.mem_cons_of_mem _ (ih hN j hj)

theorem nbSum_choices (q : ℕ → ℝ) (cand : List ℕ) (hc : cand.Nodup) : ∀ F : List ℕ → ℝ,
    nbSum q cand F = ((choices cand).map fun N => choiceWeight q cand N * F N).sum := by
  induction cand with
  | nil => intro F; simp [nbSum, choices, choiceWeight]
  | cons j l ih =>
    intro F
    obtain ⟨hj, hl⟩ := List.nodup_cons.1 hc
    unfold nbSum choices
    rw [ih hl, ih hl, List.map_append, List.sum_append, List.map_map, ← list_sum_mul_left, ← list_sum_mul_left]
    congr 1
    · refine list_sum_congr fun N hN => ?_
      dsimp only [Function.comp]
      rw [← mul_assoc]
      congr 1
      unfold choiceWeight
      rw [List.map_cons, List.prod_cons, if_pos (by simp)]
      congr 2
      refine List.map_congr_left fun k hk => ?_
      have : k ≠ j := by rintro rfl; exact hj hk
      simp [this]
    · refine list_sum_congr fun N hN => ?_
      rw [← mul_assoc]
      congr 1
      unfold choiceWeight
      rw [List.map_cons, List.prod_cons, if_neg fun h => hj (mem_choices hN j h)]

/-- The histories: the explored sites with the candidates and the choice made, and the final cluster. -/
def histories (n : ℕ) : ℕ → List ℕ → List ℕ → List (List (ℕ × List ℕ × List ℕ) × List ℕ)
  | 0, _, _ => []
  | fuel + 1, newSites, marked =>
    match newSites with
    | [] => [([], marked)]
    | site :: rest => (choices (candidates n marked site)).flatMap fun N =>
        (histories n fuel (rest ++ N) (marked ++ N)).map fun o => ((site, candidates n marked site, N) :: o.1, o.2)

/-- The probability of a history. -/
def historyWeight (q : ℕ → ℕ → ℝ) (o : List (ℕ × List ℕ × List ℕ)) : ℝ :=
  (o.map fun x => choiceWeight (q x.1) x.2.1 x.2.2).prod

theorem growSum_histories (n : ℕ) (q : ℕ → ℕ → ℝ) (F : List ℕ → ℝ) : ∀ (fuel : ℕ) (newSites marked : List ℕ),
    growSum n q fuel newSites marked F =
      ((histories n fuel newSites marked).map fun o => historyWeight q o.1 * F o.2).sum := by
  intro fuel
  induction fuel with
  | zero => intro _ _; rfl
  | succ fuel ih =>
    intro newSites marked
    match newSites with
    | [] => simp [growSum, histories, historyWeight]
    | site :: rest =>
      unfold growSum histories
      dsimp only
      rw [nbSum_choices _ (candidates n marked site) (List.nodup_range.filter _), List.map_flatMap, sum_flatMap]
      refine list_sum_congr fun N _ => ?_
      rw [ih, List.map_map, ← list_sum_mul_left]
      refine list_sum_congr fun o _ => ?_
      dsimp only [Function.comp]
      unfold historyWeight
      rw [List.map_cons, List.prod_cons]
      ring

theorem histories_spec (n : ℕ) : ∀ (fuel : ℕ) (newSites marked : List ℕ), (∀ x ∈ newSites, x ∈ marked) →
    ∀ o ∈ histories n fuel newSites marked, ∃ ext, o.2 = marked ++ ext ∧ o.1.map Prod.fst = newSites ++ ext ∧
      ∀ x ∈ o.1, ∃ m, x.2.1 = candidates n m x.1 ∧ (∀ y ∈ m, y ∈ o.2) ∧ (∀ y ∈ x.2.2, y ∈ o.2) ∧ x.1 ∈ o.2 := by
  intro fuel
  induction fuel with
  | zero => intro _ _ _ o ho; simp [histories] at ho
  | succ fuel ih =>
    intro newSites marked hsub o ho
    match newSites with
    | [] =>
      simp only [histories, List.mem_singleton] at ho
      subst ho
      exact ⟨[], by simp⟩
    | site :: rest =>
      unfold histories at ho
      dsimp only at ho
      obtain ⟨N, hN, ho⟩ := List.mem_flatMap.1 ho
      obtain ⟨o', ho', rfl⟩ := List.mem_map.1 ho
      obtain ⟨ext, h1, h2, h3⟩ := ih (rest ++ N) (marked ++ N) (fun x hx => by
        rcases List.mem_append.1 hx with hx | hx
        · exact List.mem_append_left _ (hsub x (by simp [hx]))
        · exact List.mem_append_right _ hx) o' ho'
      refine ⟨N ++ ext, by rw [h1]; simp, by rw [List.map_cons, h2]; simp, fun x hx => ?_⟩
      rcases List.mem_cons.1 hx with rfl | hx
      · refine ⟨marked, rfl, fun y hy => ?_, fun y hy => ?_, ?_⟩
        · dsimp only; rw [h1]; simp [hy]
        · dsimp only at hy ⊢; rw [h1]; simp [hy]
        · dsimp only; rw [h1]; simp [hsub site (by simp)]
      · exact h3 x hx

end Verif.Lemmas
