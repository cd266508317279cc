/-
The Swendsen-Wang step: bonds, clusters and weights.
-/
import Verif.Model.SwendsenWang
import Verif.Props.IterCluster
import Verif.Lemmas.WolffErgodic
import Verif.Lemmas.KeepsG
import Verif.Lemmas.Pairs

namespace Verif.Lemmas
open Verif Verif.Model Verif.Spec Prog

/-! ### The bonds -/

theorem mapEach_rand01 {β ι : Type} (l : List ι) (g : ι → ℝ → Bool) (k : List ℝ → Prog β) (k' : List Bool → Prog β)
    (h : ∀ r : List ℝ, r.length = l.length → k r = k' (List.zipWith g l r)) :
    (mapEach (fun _ => rand01) l).bind k =
      (mapEach (fun i => .rand fun u => if g i u then .ret true else .ret false) l).bind k' := by
  induction l generalizing k k' with
  | nil => exact h [] rfl
  | cons i l ih =>
    unfold mapEach
    rw [bind_assoc, bind_assoc]
    unfold rand01
    simp only [Prog.bind]
    congr 1
    funext u
    rw [bind_assoc]
    have e : (if g i u = true then Prog.ret true else Prog.ret false) = Prog.ret (g i u) := by
      cases g i u <;> rfl
    rw [e]
    simp only [Prog.bind]
    rw [bind_assoc]
    exact ih (fun r => (Prog.ret (u :: r)).bind k) (fun B => (Prog.ret (g i u :: B)).bind k')
      fun r hr => h (u :: r) (by simp [hr])

/-- The probability of a bond on a pair whose term in the exponent of the distribution is `y`. -/
noncomputable def bondProb (y : ℝ) : ℝ := if 0 < y then 1 - Real.exp (-2 * y) else 0

theorem bondProb_nonneg (y : ℝ) : 0 ≤ bondProb y := by
  unfold bondProb
  split
  · have : Real.exp (-2 * y) ≤ 1 := Real.exp_le_one_iff.2 (by linarith)
    linarith
  · exact le_rfl

theorem bondProb_lt (y : ℝ) : bondProb y < 1 := by
  unfold bondProb
  split
  · linarith [Real.exp_pos (-2 * y)]
  · exact one_pos

noncomputable def bondWeight (y : ℝ) (b : Bool) : ℝ := if b then bondProb y else 1 - bondProb y

open Classical in
/-- Whether there is a bond. -/
noncomputable def bondBit (y u : ℝ) : Bool := decide (0 < y ∧ u < 1 - Real.exp (-2 * y))

theorem expectation_bit {α : Type} (y : ℝ) (F : α → ℝ) (p q : Prog α) :
    expectation F (.rand fun u => if bondBit y u then p else q) =
      bondProb y * expectation F p + (1 - bondProb y) * expectation F q := by
  have := expectation_rand_lt F p q (bondProb y) (bondProb_nonneg y)
  rw [min_eq_right (bondProb_lt y).le] at this
  rw [← this, expectation_rand, expectation_rand]
  refine intervalIntegral.integral_congr fun u hu => ?_
  rw [Set.uIcc_of_le zero_le_one] at hu
  have h : bondBit y u = true ↔ u < bondProb y := by
    unfold bondBit bondProb
    rw [decide_eq_true_iff]
    split
    · rename_i h; simp [h]
    · rename_i h; simp [h, hu.1]
  by_cases hb : bondBit y u
  · rw [if_pos hb, if_pos (h.1 hb)]
  · rw [if_neg hb, if_neg fun e => hb (h.2 e)]

/-- Expectations over independent bits. -/
theorem expectation_bits {ι : Type} (y : ι → ℝ) (l : List ι) (F : List Bool → ℝ) :
    expectation F (mapEach (fun i => .rand fun u => if bondBit (y i) u then .ret true else .ret false) l) =
      ((words [true, false] l.length).map fun B => (List.zipWith (fun i b => bondWeight (y i) b) l B).prod * F B).sum := by
  induction l generalizing F with
  | nil => simp [mapEach, words]
  | cons i l ih =>
    rw [mapEach, expectation_bind, expectation_bit]
    simp only [expectation_ret, expectation_bind]
    rw [ih, ih, List.length_cons, words]
    simp only [List.flatMap_cons, List.flatMap_nil, List.append_nil, List.map_append, List.map_map, List.sum_append,
      ← list_sum_mul_left]
    congr 1
    · refine list_sum_congr fun B _ => ?_
      simp [bondWeight]; ring
    · refine list_sum_congr fun B _ => ?_
      simp [bondWeight]; ring

theorem finDist_bits {ι : Type} (y : ι → ℝ) (l : List ι) :
    FinDist (mapEach (fun i => .rand fun u => if bondBit (y i) u then .ret true else .ret false) l)
      fun B => List.Forall₂ (fun i b => b = true → 0 < y i) l B := by
  refine finDist_mapEach (Q := fun i b => b = true → 0 < y i) l fun i _ => ?_
  by_cases hy : 0 < y i
  · have e : (fun u : ℝ => if bondBit (y i) u then Prog.ret true else .ret false) =
        fun u => if u < 1 - Real.exp (-2 * y i) then Prog.ret true else .ret false := by
      funext u
      unfold bondBit
      simp [hy]
    rw [e]
    exact finDist_rand (fun u => u < _) measurableSet_Iio (finDist_ret fun _ => hy) (finDist_ret fun h => by simp at h)
  · have e : (fun u : ℝ => if bondBit (y i) u then Prog.ret true else .ret false) =
        fun u => if u < 0 ∧ 0 < u then Prog.ret true else .ret false := by
      funext u
      have : ¬ (u < 0 ∧ 0 < u) := fun h => by linarith [h.1, h.2]
      unfold bondBit
      simp [hy, this]
    have e2 : (fun u : ℝ => if u < 0 ∧ 0 < u then Prog.ret true else .ret false) =
        fun u => if u < 0 ∧ 0 < u then Prog.ret false else Prog.ret false := by
      funext u
      have : ¬ (u < 0 ∧ 0 < u) := fun h => by linarith [h.1, h.2]
      simp [this]
    rw [e, e2]
    exact finDist_rand (fun u => u < 0 ∧ 0 < u) (measurableSet_Iio.inter measurableSet_Ioi) (finDist_ret fun h => by simp at h)
      (finDist_ret fun h => by simp at h)


/-! ### The clusters -/

/-- The term of pair `k` in the exponent of the distribution. -/
noncomputable def bondTerm (n : ℕ) (J : List ℝ) (s : List ℤ) (k : ℕ) : ℝ :=
  J.getD k 0 * (spins s ((upperPairs n).getD k (0, 0)).1 * spins s ((upperPairs n).getD k (0, 0)).2)

/-- The clusters of the graph of the bonds. -/
noncomputable def clustersOf (pick : List ℕ → ℕ) (order : List ℕ → List ℕ) (B : List Bool) : Py (List (List ℕ)) :=
  match squareformVec (B.map fun b => if b then (1 : ℝ) else 0) with
  | .error e => .error e
  | .ok adj => iterCluster adj pick order

/-- Two sites joined by a bond. -/
def bonded (n : ℕ) (B : List Bool) (a b : ℕ) : Prop :=
  a < n ∧ b < n ∧ a ≠ b ∧ B.getD ((upperPairs n).idxOf (min a b, max a b)) false = true

variable {n : ℕ} {J : List ℝ} {pick : List ℕ → ℕ} {order : List ℕ → List ℕ}

theorem clustersOf_spec (hn : 1 ≤ n) (hp : ∀ l ≠ [], pick l ∈ l) (ho : ∀ l, (order l).Perm l) (B : List Bool)
    (hB : B.length = n * (n - 1) / 2) :
    ∃ cs, clustersOf pick order B = .ok cs ∧ cs.flatten.Perm (List.range n) ∧
      ∀ c ∈ cs, c ≠ [] ∧ ∀ i ∈ c, ∀ j, j ∈ c ↔ Relation.ReflTransGen (bonded n B) i j := by
  have hsq := squareformVec_eq n hn (B.map fun b => if b then (1 : ℝ) else 0) (by simpa using hB)
  set A : Mat ℝ := Mat.build n n fun i j =>
    if i = j then 0 else (B.map fun b => if b then (1 : ℝ) else 0).getD ((upperPairs n).idxOf (min i j, max i j)) 0 with hA
  have hbond : ∀ a b, (a < n ∧ b < n ∧ A.at' a b ≠ 0) ↔ bonded n B a b := by
    intro a b
    unfold bonded
    constructor
    · rintro ⟨ha, hb, h⟩
      rw [hA, Mat.at_build _ ha hb] at h
      by_cases hab : a = b
      · rw [if_pos hab] at h; exact absurd rfl h
      · rw [if_neg hab] at h
        refine ⟨ha, hb, hab, ?_⟩
        rw [List.getD_eq_getElem?_getD, List.getElem?_map] at h
        rw [List.getD_eq_getElem?_getD]
        generalize B[(upperPairs n).idxOf (min a b, max a b)]? = o at h ⊢
        rcases o with _ | _ | _ <;> simp at h ⊢
    · rintro ⟨ha, hb, hab, h⟩
      refine ⟨ha, hb, ?_⟩
      rw [hA, Mat.at_build _ ha hb, if_neg hab]
      rw [List.getD_eq_getElem?_getD] at h
      rw [List.getD_eq_getElem?_getD, List.getElem?_map]
      generalize B[(upperPairs n).idxOf (min a b, max a b)]? = o at h ⊢
      rcases o with _ | _ | _ <;> simp at h ⊢
  have hrel : (fun a b => a < n ∧ b < n ∧ A.at' a b ≠ 0) = bonded n B := by
    funext a b; exact propext (hbond a b)
  obtain ⟨cs, h1, h2, h3⟩ := Props.C59_components A n (Mat.build_shape _ _ _) (fun i hi j hj h => by
    have := (hbond i j).1 ⟨hi, hj, h⟩
    refine ((hbond j i).2 ⟨hj, hi, Ne.symm this.2.2.1, ?_⟩).2.2
    rw [min_comm, max_comm]
    exact this.2.2.2) pick hp order ho
  rw [hrel] at h3
  refine ⟨cs, ?_, h2, h3⟩
  unfold clustersOf
  rw [hsq]
  exact h1

theorem sampleBonds_eq (s : List ℤ) (hs : s.length = n) (hJ : J.length = n * (n - 1) / 2) (r : List ℝ)
    (hr : r.length = J.length) :
    sampleBonds (List.zipWith (fun J x => 1 - Real.exp (-2 * J * x)) J (pairwiseProd (s.map (Int.cast : ℤ → ℝ)))) r
        (s.map (Int.cast : ℤ → ℝ)) J =
      (List.zipWith (fun k u => bondBit (bondTerm n J s k) u) (List.range J.length) r).map
        fun b => if b then (1 : ℝ) else 0 := by
  have hlen : (s.map (Int.cast : ℤ → ℝ)).length = n := by simpa using hs
  obtain ⟨h1, h2⟩ := Props.C59_sample_bonds (List.zipWith (fun J x => 1 - Real.exp (-2 * J * x)) J
    (pairwiseProd (s.map (Int.cast : ℤ → ℝ)))) r (s.map (Int.cast : ℤ → ℝ)) J (by rw [hlen, hJ])
  have hup : (upperPairs n).length = J.length := by rw [length_upperPairs, hJ]
  refine List.ext_getElem (by rw [h1]; simp [hr]) fun k hk hk' => ?_
  have hkJ : k < J.length := by rwa [h1] at hk
  have hku : k < (upperPairs (s.map (Int.cast : ℤ → ℝ)).length).length := by rw [hlen, hup]; exact hkJ
  have e := h2 k hku
  rw [List.getD_eq_getElem _ _ hk] at e
  rw [e, List.getElem_map, List.getElem_zipWith, List.getElem_range]
  have hg : ∀ i, (s.map (Int.cast : ℤ → ℝ)).getD i 0 = spins s i := fun i => by
    unfold spins
    rw [List.getD_eq_getElem?_getD, List.getD_eq_getElem?_getD, List.getElem?_map]
    cases s[i]? <;> simp
  have hpp : (upperPairs n).getD k (0, 0) = (upperPairs (s.map (Int.cast : ℤ → ℝ)).length)[k] := by
    rw [List.getD_eq_getElem _ _ (by rw [hup]; exact hkJ)]
    simp only [hlen]
  have ey : J.getD k 0 * ((s.map (Int.cast : ℤ → ℝ)).getD ((upperPairs (s.map (Int.cast : ℤ → ℝ)).length)[k]).1 0 *
      (s.map (Int.cast : ℤ → ℝ)).getD ((upperPairs (s.map (Int.cast : ℤ → ℝ)).length)[k]).2 0) = bondTerm n J s k := by
    unfold bondTerm
    rw [hg, hg, hpp]
  have ep : (List.zipWith (fun J x => 1 - Real.exp (-2 * J * x)) J (pairwiseProd (s.map (Int.cast : ℤ → ℝ)))).getD k 0 =
      1 - Real.exp (-2 * bondTerm n J s k) := by
    rw [Props.C59_pairwise_prod, List.getD_eq_getElem _ _ (by
      rw [List.length_zipWith, List.length_map, hlen, hup, min_self]; exact hkJ), List.getElem_zipWith, List.getElem_map,
      ← ey, List.getD_eq_getElem _ _ hkJ, mul_assoc]
  rw [ey, ep, List.getD_eq_getElem _ _ (by omega)]
  unfold bondBit
  by_cases hb : 0 < bondTerm n J s k ∧ r[k] < 1 - Real.exp (-2 * bondTerm n J s k) <;> simp [hb]

/-- A step with the bonds drawn one by one. -/
theorem swStep_eq (h : List ℝ) (s : List ℤ) (hs : s.length = n) (hJ : J.length = n * (n - 1) / 2) :
    swStep h J pick order s = (mapEach (fun k => .rand fun u => if bondBit (bondTerm n J s k) u then .ret true
        else .ret false) (List.range J.length)).bind fun B =>
      (ofPy (clustersOf pick order B)).bind fun cs => forEach (swFlip h) cs s := by
  unfold swStep swClusters
  dsimp only
  rw [bind_assoc]
  refine mapEach_rand01 (List.range J.length) (fun k u => bondBit (bondTerm n J s k) u) _ _ fun r hr => ?_
  rw [sampleBonds_eq s hs hJ r (by simpa using hr)]
  rfl

end Verif.Lemmas
