/-
The Swendsen-Wang step: reversibility and convergence.
-/
import Verif.Lemmas.SwendsenWang

namespace Verif.Lemmas
open Verif Verif.Model Verif.Spec Verif.Props Prog

/-! ### Reversible steps -/

theorem reversible_accept {α : Type} [DecidableEq α] {S : List α} (hS : S.Nodup) {w a : α → ℝ} (g : α → α)
    (hg : ∀ s ∈ S, g s ∈ S) (hgg : ∀ s ∈ S, g (g s) = s) (hb : ∀ s ∈ S, w s * a s = w (g s) * a (g s)) {step : α → Prog α}
    (hstep : ∀ s ∈ S, ∀ f : α → ℝ, expectation f (step s) = a s * f (g s) + (1 - a s) * f s) :
    ReversibleG S w step := by
  intro f k
  have key : ∀ f k : α → ℝ, (S.map fun s => w s * (k s * expectation f (step s))).sum =
      (S.map fun s => w s * a s * (k s * f (g s))).sum + (S.map fun s => w s * (1 - a s) * (k s * f s)).sum := by
    intro f k
    rw [← list_sum_add]
    exact list_sum_congr fun s hs => by rw [hstep s hs]; ring
  rw [key f k, key k f]
  congr 1
  · rw [← sum_invol S hS g hg hgg]
    refine list_sum_congr fun s hs => ?_
    rw [hgg s hs, ← hb s hs]
    ring
  · exact list_sum_congr fun s _ => by ring

/-- Two steps that can be exchanged. -/
def Commute' {α : Type} (p q : α → Prog α) : Prop :=
  ∀ (f : α → ℝ) (s : α), expectation (fun t => expectation f (q t)) (p s) = expectation (fun t => expectation f (p t)) (q s)

theorem commute_forEach {α ι : Type} {body : ι → α → Prog α} (p : α → Prog α) (l : List ι)
    (h : ∀ i ∈ l, Commute' p (body i)) : Commute' p (forEach body l) := by
  induction l with
  | nil => intro f s; rfl
  | cons i l ih =>
    intro f s
    have e : ∀ (f : α → ℝ) t, expectation f (forEach body (i :: l) t) =
        expectation (fun u => expectation f (forEach body l u)) (body i t) := fun f t => by
      rw [forEach, expectation_bind]
    simp only [e]
    rw [h i (by simp) (fun u => expectation f (forEach body l u)) s]
    congr 1
    funext t
    exact ih (fun j hj => h j (by simp [hj])) f t

theorem reversible_forEach {α ι : Type} {S : List α} {w : α → ℝ} {body : ι → α → Prog α} (l : List ι)
    (h : ∀ i ∈ l, ReversibleG S w (body i)) (hc : l.Pairwise fun i j => Commute' (body i) (body j)) :
    ReversibleG S w (forEach body l) := by
  induction l with
  | nil =>
    intro f g
    exact list_sum_congr fun s _ => by simp only [forEach, expectation_ret]; ring
  | cons i l ih =>
    intro f g
    rw [List.pairwise_cons] at hc
    have e : ∀ (f : α → ℝ) t, expectation f (forEach body (i :: l) t) =
        expectation (fun u => expectation f (forEach body l u)) (body i t) := fun f t => by
      rw [forEach, expectation_bind]
    simp only [e]
    rw [h i (by simp) (fun u => expectation f (forEach body l u)) g]
    have e2 : (S.map fun s => w s * (expectation f (forEach body l s) * expectation g (body i s))).sum =
        (S.map fun s => w s * (expectation g (body i s) * expectation f (forEach body l s))).sum :=
      list_sum_congr fun s _ => by ring
    rw [e2, ih (fun j hj => h j (by simp [hj])) hc.2 f fun s => expectation g (body i s)]
    refine list_sum_congr fun s _ => ?_
    rw [commute_forEach (body i) l hc.1 g s]

/-! ### Weights -/

/-- The weight of a pair with and without a bond. -/
noncomputable def pairWeight (y : ℝ) (b : Bool) : ℝ := Real.exp y * bondWeight y b

theorem pairWeight_neg (y : ℝ) : pairWeight (-y) false = pairWeight y false := by
  have key : ∀ y : ℝ, 0 < y → pairWeight (-y) false = pairWeight y false := fun y hy => by
    unfold pairWeight bondWeight bondProb
    simp only [Bool.false_eq_true, if_false]
    rw [if_neg (by linarith), if_pos hy, sub_zero, mul_one, sub_sub_cancel, ← Real.exp_add]
    congr 1; ring
  rcases lt_trichotomy y 0 with h | h | h
  · have := key (-y) (by linarith)
    rw [neg_neg] at this
    exact this.symm
  · rw [h, neg_zero]
  · exact key y h

theorem exp_sum_bondWeight {ι : Type} (y : ι → ℝ) (l : List ι) (B : List Bool) (hB : B.length = l.length) :
    Real.exp (l.map y).sum * (List.zipWith (fun k b => bondWeight (y k) b) l B).prod =
      (List.zipWith (fun k b => pairWeight (y k) b) l B).prod := by
  induction l generalizing B with
  | nil => simp
  | cons k l ih =>
    match B, hB with
    | b :: B, hB =>
      simp only [List.map_cons, List.sum_cons, List.zipWith_cons_cons, List.prod_cons]
      rw [← ih B (by simpa using hB), Real.exp_add]
      unfold pairWeight
      ring

variable {n : ℕ} {J : List ℝ} {pick : List ℕ → ℕ} {order : List ℕ → List ℕ}

/-- The weight of the fields. -/
noncomputable def fieldWeight (n : ℕ) (h : List ℝ) (s : List ℤ) : ℝ :=
  Real.exp (∑ i ∈ Finset.range n, h.getD i 0 * spins s i)

/-- The weight of a state and bonds without the fields. -/
noncomputable def graphWeight (n : ℕ) (J : List ℝ) (s : List ℤ) (B : List Bool) : ℝ :=
  (List.zipWith (fun k b => pairWeight (bondTerm n J s k) b) (List.range J.length) B).prod

theorem joint_weight (hJ : J.length = n * (n - 1) / 2) (h : List ℝ) (s : List ℤ) (B : List Bool) (hB : B.length = J.length) :
    Real.exp (-isingVecE n h J (spins s)) *
        (List.zipWith (fun k b => bondWeight (bondTerm n J s k) b) (List.range J.length) B).prod =
      fieldWeight n h s * graphWeight n J s B := by
  have e : ((List.range J.length).map (bondTerm n J s)).sum =
      ∑ i ∈ Finset.range n, ∑ j ∈ Finset.range n, if i < j then couplingAt n J i j * (spins s i * spins s j) else 0 := by
    rw [← dot_upperPairs n J hJ fun i j => spins s i * spins s j]
    unfold dot
    congr 1
    have hup : (upperPairs n).length = J.length := by rw [length_upperPairs, hJ]
    refine List.ext_getElem (by simp [hup]) fun k hk hk' => ?_
    have hkJ : k < J.length := by simpa using hk
    rw [List.getElem_map, List.getElem_range, List.getElem_zipWith, List.getElem_map]
    unfold bondTerm
    rw [List.getD_eq_getElem _ _ hkJ, List.getD_eq_getElem _ _ (by rw [hup]; exact hkJ)]
  unfold graphWeight
  rw [← exp_sum_bondWeight _ _ _ (by simpa using hB), ← mul_assoc]
  congr 1
  unfold fieldWeight
  rw [← Real.exp_add]
  congr 1
  rw [e]
  unfold isingVecE isingE
  have : ∀ i j, couplingAt n J i j * (spins s i : ℝ) * spins s j = couplingAt n J i j * (spins s i * spins s j) :=
    fun i j => by ring
  simp only [this]
  ring

/-- Flipping a cluster keeps the weight of the pairs. -/
theorem graphWeight_flip (hJ : J.length = n * (n - 1) / 2) (s : List ℤ) (B : List Bool) (c : List ℕ)
    (hc : ∀ a b, bonded n B a b → (a ∈ c ↔ b ∈ c)) : graphWeight n J (flipCluster s c) B = graphWeight n J s B := by
  unfold graphWeight
  congr 1
  refine List.ext_getElem (by simp) fun k hk hk' => ?_
  simp only [List.length_zipWith, List.length_range, lt_min_iff] at hk
  rw [List.getElem_zipWith, List.getElem_zipWith, List.getElem_range]
  have hup : k < (upperPairs n).length := by rw [length_upperPairs, ← hJ]; exact hk.1
  obtain ⟨i, j, hij⟩ : ∃ i j, (upperPairs n)[k] = (i, j) := ⟨_, _, rfl⟩
  have hm : (i, j) ∈ upperPairs n := hij ▸ List.getElem_mem hup
  have hlt := mem_upperPairs.1 hm
  have hidx : (upperPairs n).idxOf (i, j) = k := by
    rw [← hij]; exact (nodup_upperPairs n).idxOf_getElem k hup
  have hterm : ∀ s : List ℤ, bondTerm n J s k = J.getD k 0 * (spins s i * spins s j) := fun s => by
    unfold bondTerm
    rw [List.getD_eq_getElem _ _ hup, hij]
  rw [hterm, hterm, spins_flip, spins_flip]
  by_cases hb : B[k] = true
  · have : bonded n B i j := by
      refine ⟨by omega, hlt.2, by omega, ?_⟩
      rw [min_eq_left (by omega), max_eq_right (by omega), hidx, List.getD_eq_getElem _ _ hk.2]
      exact hb
    have := hc i j this
    by_cases hi : i ∈ c
    · rw [if_pos hi, if_pos (this.1 hi), neg_mul_neg]
    · rw [if_neg hi, if_neg fun h => hi (this.2 h)]
  · rw [Bool.not_eq_true] at hb
    rw [hb]
    by_cases hi : i ∈ c <;> by_cases hj : j ∈ c
    · rw [if_pos hi, if_pos hj, neg_mul_neg]
    · rw [if_pos hi, if_neg hj, neg_mul, mul_neg, pairWeight_neg]
    · rw [if_neg hi, if_pos hj, mul_neg, mul_neg, pairWeight_neg]
    · rw [if_neg hi, if_neg hj]

theorem fieldWeight_flip (h : List ℝ) (s : List ℤ) (c : List ℕ) (hc : c.Nodup) (hcn : ∀ x ∈ c, x < n) :
    fieldWeight n h (flipCluster s c) = Real.exp (-2 * fieldTerm h s c) * fieldWeight n h s := by
  unfold fieldWeight fieldTerm
  rw [← Real.exp_add, sum_cluster n c hc hcn, Finset.mul_sum, ← Finset.sum_add_distrib]
  congr 1
  refine Finset.sum_congr rfl fun i _ => ?_
  rw [spins_flip]
  change _ = -2 * (if i ∈ c then h.getD i 0 * spins s i else 0) + _
  split <;> ring

/-- The probability that a cluster is flipped. -/
noncomputable def flipProb (h : List ℝ) (c : List ℕ) (s : List ℤ) : ℝ := 1 - 1 / (1 + Real.exp (-2 * fieldTerm h s c))

theorem flipProb_pos (h : List ℝ) (c : List ℕ) (s : List ℤ) : 0 < flipProb h c s ∧ flipProb h c s < 1 := by
  unfold flipProb
  have := Real.exp_pos (-2 * fieldTerm h s c)
  have h1 : 1 / (1 + Real.exp (-2 * fieldTerm h s c)) < 1 := by rw [div_lt_one (by linarith)]; linarith
  have h2 : 0 < 1 / (1 + Real.exp (-2 * fieldTerm h s c)) := by positivity
  exact ⟨by linarith, by linarith⟩

theorem expectation_swFlip (h : List ℝ) (c : List ℕ) (s : List ℤ) (f : List ℤ → ℝ) :
    expectation f (swFlip h c s) = flipProb h c s * f (flipCluster s c) + (1 - flipProb h c s) * f s := by
  have hp := flipProb_pos h c s
  unfold flipProb at hp
  unfold swFlip
  rw [expectation_rand_gt _ _ _ _ (by unfold fieldTerm at hp; linarith [hp.2]) (by unfold fieldTerm at hp; linarith [hp.1]),
    expectation_ret, expectation_ret]
  unfold flipProb fieldTerm
  ring

theorem fieldTerm_flip_self (h : List ℝ) (s : List ℤ) (c : List ℕ) : fieldTerm h (flipCluster s c) c = -fieldTerm h s c := by
  unfold fieldTerm
  rw [← list_sum_neg]
  refine list_sum_congr fun k hk => ?_
  rw [flipCluster_getD, if_pos hk]
  push_cast
  ring

theorem fieldTerm_flip_other (h : List ℝ) (s : List ℤ) (c d : List ℕ) (hcd : c.Disjoint d) :
    fieldTerm h (flipCluster s d) c = fieldTerm h s c := by
  unfold fieldTerm
  refine list_sum_congr fun k hk => ?_
  rw [flipCluster_getD, if_neg fun hd => hcd hk hd]

theorem flipCluster_comm (s : List ℤ) (c d : List ℕ) :
    flipCluster (flipCluster s c) d = flipCluster (flipCluster s d) c := by
  refine List.ext_getElem (by simp [flipCluster_length]) fun k hk hk' => ?_
  rw [← List.getD_eq_getElem _ 0 hk, ← List.getD_eq_getElem _ 0 hk', flipCluster_getD, flipCluster_getD, flipCluster_getD,
    flipCluster_getD]
  by_cases h1 : k ∈ c <;> by_cases h2 : k ∈ d <;> simp [h1, h2]

theorem commute_swFlip (h : List ℝ) (c d : List ℕ) (hcd : c.Disjoint d) : Commute' (swFlip h c) (swFlip h d) := by
  intro f s
  simp only [expectation_swFlip]
  have e1 : flipProb h d (flipCluster s c) = flipProb h d s := by
    unfold flipProb; rw [fieldTerm_flip_other h s d c hcd.symm]
  have e2 : flipProb h c (flipCluster s d) = flipProb h c s := by
    unfold flipProb; rw [fieldTerm_flip_other h s c d hcd]
  rw [e1, e2, flipCluster_comm s c d]
  ring

theorem reversible_swFlip (hJ : J.length = n * (n - 1) / 2) (h : List ℝ) (B : List Bool) (c : List ℕ) (hc : c.Nodup)
    (hcn : ∀ x ∈ c, x < n) (hb : ∀ a b, bonded n B a b → (a ∈ c ↔ b ∈ c)) :
    ReversibleG (words [1, -1] n) (fun s => fieldWeight n h s * graphWeight n J s B) (swFlip h c) := by
  refine reversible_accept (nodup_words (by decide) n) (a := flipProb h c) (fun s => flipCluster s c)
    (fun s hs => flipCluster_mem n s c hs) (fun s _ => flipCluster_flipCluster s c) (fun s _ => ?_)
    fun s _ f => expectation_swFlip h c s f
  rw [graphWeight_flip hJ s B c hb, fieldWeight_flip h s c hc hcn]
  have : flipProb h c s = Real.exp (-2 * fieldTerm h s c) * flipProb h c (flipCluster s c) := by
    unfold flipProb
    rw [fieldTerm_flip_self, mul_neg]
    have e := Real.exp_pos (-2 * fieldTerm h s c)
    rw [Real.exp_neg]
    field_simp
    ring
  rw [this]
  ring

/-! ### The step -/

/-- The clusters of the bonds (they always exist). -/
noncomputable def clusterList (pick : List ℕ → ℕ) (order : List ℕ → List ℕ) (B : List Bool) : List (List ℕ) :=
  match clustersOf pick order B with
  | .error _ => []
  | .ok cs => cs

theorem clusterList_spec (hn : 1 ≤ n) (hp : ∀ l ≠ [], pick l ∈ l) (ho : ∀ l, (order l).Perm l) (B : List Bool)
    (hB : B.length = n * (n - 1) / 2) :
    clustersOf pick order B = .ok (clusterList pick order B) ∧ (clusterList pick order B).flatten.Perm (List.range n) ∧
      ∀ c ∈ clusterList pick order B, c ≠ [] ∧ ∀ i ∈ c, ∀ j, j ∈ c ↔ Relation.ReflTransGen (bonded n B) i j := by
  obtain ⟨cs, h1, h2, h3⟩ := clustersOf_spec hn hp ho B hB
  unfold clusterList
  rw [h1]
  exact ⟨rfl, h2, h3⟩

theorem cluster_facts (hn : 1 ≤ n) (hp : ∀ l ≠ [], pick l ∈ l) (ho : ∀ l, (order l).Perm l) (B : List Bool)
    (hB : B.length = n * (n - 1) / 2) :
    (clusterList pick order B).Pairwise List.Disjoint ∧ ∀ c ∈ clusterList pick order B, c.Nodup ∧ (∀ x ∈ c, x < n) ∧
      ∀ a b, bonded n B a b → (a ∈ c ↔ b ∈ c) := by
  obtain ⟨-, h2, h3⟩ := clusterList_spec hn hp ho B hB
  have hnd := List.nodup_flatten.1 (h2.nodup_iff.2 List.nodup_range)
  refine ⟨hnd.2, fun c hc => ⟨hnd.1 c hc, fun x hx => ?_, fun a b hab => ⟨fun ha => ?_, fun hb => ?_⟩⟩⟩
  · exact List.mem_range.1 (h2.mem_iff.1 (List.mem_flatten.2 ⟨c, hc, hx⟩))
  · exact ((h3 c hc).2 a ha b).2 (.single hab)
  · refine ((h3 c hc).2 b hb a).2 (.single ⟨hab.2.1, hab.1, Ne.symm hab.2.2.1, ?_⟩)
    rw [min_comm, max_comm]
    exact hab.2.2.2

variable (hn : 1 ≤ n) (hJ : J.length = n * (n - 1) / 2) (hp : ∀ l ≠ [], pick l ∈ l) (ho : ∀ l, (order l).Perm l)
  (h : List ℝ)
include hn hJ hp ho

theorem expectation_swStep (s : List ℤ) (hs : s ∈ words [1, -1] n) (f : List ℤ → ℝ) :
    expectation f (swStep h J pick order s) = ((words [true, false] J.length).map fun B =>
      (List.zipWith (fun k b => bondWeight (bondTerm n J s k) b) (List.range J.length) B).prod *
        expectation f (forEach (swFlip h) (clusterList pick order B) s)).sum := by
  rw [swStep_eq h s (mem_words.1 hs).1 hJ, expectation_bind, expectation_bits, List.length_range]
  refine list_sum_congr fun B hB => ?_
  rw [(clusterList_spec hn hp ho B (by rw [(mem_words.1 hB).1, hJ])).1]
  rfl

theorem reversible_swStep :
    ReversibleG (words [1, -1] n) (fun s => Real.exp (-isingVecE n h J (spins s))) (swStep h J pick order) := by
  intro f g
  have key : ∀ f g : List ℤ → ℝ, ((words [1, -1] n).map fun s => Real.exp (-isingVecE n h J (spins s)) *
      (g s * expectation f (swStep h J pick order s))).sum =
      ((words [true, false] J.length).map fun B => ((words [1, -1] n).map fun s =>
        fieldWeight n h s * graphWeight n J s B *
          (g s * expectation f (forEach (swFlip h) (clusterList pick order B) s))).sum).sum := by
    intro f g
    rw [list_sum_comm]
    refine list_sum_congr fun s hs => ?_
    rw [expectation_swStep hn hJ hp ho h s hs, ← list_sum_mul_left, ← list_sum_mul_left]
    refine list_sum_congr fun B hB => ?_
    rw [← joint_weight hJ h s B (mem_words.1 hB).1]
    ring
  rw [key f g, key g f]
  refine list_sum_congr fun B hB => ?_
  obtain ⟨h1, h2⟩ := cluster_facts hn hp ho B (by rw [(mem_words.1 hB).1, hJ])
  exact reversible_forEach (clusterList pick order B) (fun c hc => reversible_swFlip hJ h B c (h2 c hc).1 (h2 c hc).2.1
    (h2 c hc).2.2) (h1.imp fun hcd => commute_swFlip h _ _ hcd) f g

omit hn hJ hp ho in
theorem finDist_swFlip (c : List ℕ) (s : List ℤ) (hs : s ∈ words [1, -1] n) :
    FinDist (swFlip h c s) (· ∈ words [1, -1] n) :=
  finDist_rand (fun u => u > _) measurableSet_Ioi (finDist_ret (flipCluster_mem n s c hs)) (finDist_ret hs)

theorem finDist_swStep (s : List ℤ) (hs : s ∈ words [1, -1] n) :
    FinDist (swStep h J pick order s) (· ∈ words [1, -1] n) := by
  rw [swStep_eq h s (mem_words.1 hs).1 hJ]
  refine finDist_bind (finDist_bits _ _) fun B hB => ?_
  have hl : B.length = n * (n - 1) / 2 := by rw [← hB.length_eq, List.length_range, hJ]
  rw [(clusterList_spec hn hp ho B hl).1]
  exact finDist_forEach (I := (· ∈ words [1, -1] n)) _ (fun c _ t ht => finDist_swFlip h c t ht) s hs

omit hn hJ hp ho in
theorem pos_flips (t : List ℤ) (ht : t ∈ words [1, -1] n) (cs : List (List ℕ)) (hcs : ∀ c ∈ cs, ∃ i < n, c = [i]) :
    ∀ s ∈ words [1, -1] n, (∀ i < n, [i] ∉ cs → s.getD i 0 = t.getD i 0) →
      0 < expectation (pointFn t) (forEach (swFlip h) cs s) := by
  induction cs with
  | nil =>
    intro s hs hst
    have : s = t := by
      refine List.ext_getElem (by rw [(mem_words.1 hs).1, (mem_words.1 ht).1]) fun i h1 h2 => ?_
      have := hst i (by rwa [(mem_words.1 hs).1] at h1) (by simp)
      rwa [List.getD_eq_getElem _ _ h1, List.getD_eq_getElem _ _ h2] at this
    subst this
    rw [forEach, expectation_ret, pointFn_self]
    exact one_pos
  | cons c cs ih =>
    intro s hs hst
    obtain ⟨i, hi, rfl⟩ := hcs c (by simp)
    rw [forEach, expectation_bind, expectation_swFlip]
    have hp := flipProb_pos h [i] s
    have hf := flipCluster_mem n s [i] hs
    have hnn : ∀ u ∈ words ([1, -1] : List ℤ) n, 0 ≤ expectation (pointFn t) (forEach (swFlip h) cs u) := fun u hu =>
      (finDist_forEach (I := (· ∈ words [1, -1] n)) _ (fun c _ t ht => finDist_swFlip h c t ht) u hu).nonneg
        fun a _ => pointFn_nonneg _ _
    by_cases he : s.getD i 0 = t.getD i 0
    · refine add_pos_of_nonneg_of_pos (mul_nonneg hp.1.le (hnn _ hf)) (mul_pos (by linarith [hp.2])
        (ih (fun c hc => hcs c (by simp [hc])) s hs fun j hj hjc => ?_))
      by_cases hji : j = i
      · rw [hji]; exact he
      · exact hst j hj (by simp [hji, hjc])
    · refine add_pos_of_pos_of_nonneg (mul_pos hp.1 (ih (fun c hc => hcs c (by simp [hc])) _ hf fun j hj hjc => ?_))
        (mul_nonneg (by linarith [hp.2]) (hnn _ hs))
      rw [flipCluster_getD]
      by_cases hji : j = i
      · rw [if_pos (by simp [hji]), hji]
        have hv : ∀ u ∈ words ([1, -1] : List ℤ) n, u.getD i 0 = 1 ∨ u.getD i 0 = -1 := fun u hu => by
          have := (mem_words.1 hu).2 (u.getD i 0) (by
            rw [List.getD_eq_getElem _ _ (by rw [(mem_words.1 hu).1]; exact hi)]; exact List.getElem_mem _)
          simpa using this
        have a := hv s hs
        have b := hv t ht
        omega
      · rw [if_neg (by simp [hji])]
        exact hst j hj (by simp [hji, hjc])

theorem swStep_pos (s t : List ℤ) (hs : s ∈ words [1, -1] n) (ht : t ∈ words [1, -1] n) :
    0 < expectation (pointFn t) (swStep h J pick order s) := by
  rw [expectation_swStep hn hJ hp ho h s hs]
  have hmem : List.replicate J.length false ∈ words [true, false] J.length :=
    mem_words.2 ⟨by simp, fun x hx => by rw [List.eq_of_mem_replicate hx]; simp⟩
  have hnn : ∀ B : List Bool, 0 ≤ (List.zipWith (fun k b => bondWeight (bondTerm n J s k) b) (List.range J.length) B).prod *
      expectation (pointFn t) (forEach (swFlip h) (clusterList pick order B) s) := fun B => by
    refine mul_nonneg (List.prod_nonneg fun x hx => ?_) ?_
    · obtain ⟨k, hk, rfl⟩ := List.mem_iff_getElem.1 hx
      rw [List.getElem_zipWith, List.getElem_range]
      unfold bondWeight
      split
      · exact bondProb_nonneg _
      · linarith [bondProb_lt (bondTerm n J s k)]
    · exact (finDist_forEach (I := (· ∈ words [1, -1] n)) _ (fun c _ t ht => finDist_swFlip h c t ht) s hs).nonneg
        fun a _ => pointFn_nonneg _ _
  have hle := List.single_le_sum (l := (words [true, false] J.length).map fun B =>
      (List.zipWith (fun k b => bondWeight (bondTerm n J s k) b) (List.range J.length) B).prod *
        expectation (pointFn t) (forEach (swFlip h) (clusterList pick order B) s))
    (fun x hx => by obtain ⟨B, _, rfl⟩ := List.mem_map.1 hx; exact hnn B) _ (List.mem_map.2 ⟨_, hmem, rfl⟩)
  refine lt_of_lt_of_le (mul_pos (List.prod_pos fun x hx => ?_) ?_) hle
  · obtain ⟨k, hk, rfl⟩ := List.mem_iff_getElem.1 hx
    rw [List.getElem_zipWith, List.getElem_range, List.getElem_replicate]
    unfold bondWeight
    simp only [Bool.false_eq_true, if_false]
    linarith [bondProb_lt (bondTerm n J s k)]
  · obtain ⟨-, h2, h3⟩ := clusterList_spec (pick := pick) (order := order) hn hp ho (List.replicate J.length false)
      (by rw [List.length_replicate, hJ])
    have hno : ∀ a b, ¬ bonded n (List.replicate J.length false) a b := fun a b hab => by
      have := hab.2.2.2
      rw [List.getD_eq_getElem?_getD, List.getElem?_replicate] at this
      split at this <;> simp at this
    have hreach : ∀ i j, Relation.ReflTransGen (bonded n (List.replicate J.length false)) i j → j = i := fun i j hr => by
      rcases Relation.ReflTransGen.cases_tail hr with hr | ⟨_, _, hr⟩
      · exact hr
      · exact absurd hr (hno _ _)
    have hnd := List.nodup_flatten.1 (h2.nodup_iff.2 List.nodup_range)
    have hsing : ∀ c ∈ clusterList pick order (List.replicate J.length false), ∀ i ∈ c, c = [i] := fun c hc i hi => by
      have h4 : ∀ x ∈ c, x = i := fun x hx => hreach i x (((h3 c hc).2 i hi x).1 hx)
      have h5 := hnd.1 c hc
      match c, hi, h4, h5 with
      | [a], _, h4, _ => rw [h4 a (by simp)]
      | a :: b :: c, _, h4, h5 =>
        rw [h4 a (by simp), h4 b (by simp)] at h5
        simp at h5
    refine pos_flips h t ht _ (fun c hc => ?_) s hs fun i hi hic => ?_
    · obtain ⟨i, hi⟩ := List.exists_mem_of_ne_nil c (h3 c hc).1
      exact ⟨i, List.mem_range.1 (h2.mem_iff.1 (List.mem_flatten.2 ⟨c, hc, hi⟩)), hsing c hc i hi⟩
    · obtain ⟨c, hc, hi'⟩ := List.mem_flatten.1 (h2.mem_iff.2 (List.mem_range.2 hi))
      rw [hsing c hc i hi'] at hc
      exact absurd hc hic

end Verif.Lemmas
