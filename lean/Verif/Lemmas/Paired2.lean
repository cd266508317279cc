/-
Parameters and entropy of the model with independent, disjoint pairs of spins.
-/
import Verif.Lemmas.Paired
import Verif.Lemmas.MaxEnt
import Verif.Lemmas.Stable2

namespace Verif.Lemmas
open Verif Verif.Model Verif.Spec

theorem sum_offdiag (n : ℕ) (F : ℕ → ℕ → ℝ) (h0 : ∀ i, F i i = 0) :
    ∑ i ∈ Finset.range n, ∑ j ∈ Finset.range n, (if i < j then F i j + F j i else 0) =
      ∑ i ∈ Finset.range n, ∑ j ∈ Finset.range n, F i j := by
  have h1 : ∀ i j, F i j = (if i < j then F i j else 0) + if j < i then F i j else 0 := by
    intro i j
    rcases lt_trichotomy i j with h | h | h
    · rw [if_pos h, if_neg (by omega), add_zero]
    · subst h; simp [h0]
    · rw [if_neg (by omega), if_pos h, zero_add]
  have h2 : ∀ i j, (if i < j then F i j + F j i else 0) = (if i < j then F i j else 0) + if i < j then F j i else 0 := by
    intro i j
    split_ifs <;> simp
  simp only [h2, Finset.sum_add_distrib]
  rw [Finset.sum_comm (f := fun i j => if i < j then F j i else 0), ← Finset.sum_add_distrib]
  refine Finset.sum_congr rfl fun i _ => ?_
  rw [← Finset.sum_add_distrib]
  exact Finset.sum_congr rfl fun j _ => (h1 i j).symm

open scoped Classical in
theorem sum_links (n : ℕ) (K : ℕ → ℕ → Prop) (f : ℕ → ℕ → ℝ) :
    ((links n K).map fun q => f q.1 q.2).sum =
      ∑ i ∈ Finset.range n, ∑ j ∈ Finset.range n, if i < j then (if K i j then f i j else 0) else 0 := by
  rw [← sum_upperPairs n fun i j => if K i j then f i j else 0]
  unfold links
  generalize upperPairs n = l
  induction l with
  | nil => rfl
  | cons q l ih =>
    by_cases h : K q.1 q.2
    · simp [h, ih]
    · simp [h, ih]

theorem log_spin {n : ℕ} {p : List ℤ → ℝ} (i : ℕ) (a : ℤ) (ha : a = 1 ∨ a = -1) :
    Real.log (spinProb n p i a) =
      (Real.log (spinProb n p i 1) + Real.log (spinProb n p i (-1))) / 2 + soloField n p i * a := by
  unfold soloField
  rcases ha with rfl | rfl <;> push_cast <;> ring

theorem log_pair {n : ℕ} {p : List ℤ → ℝ} (i j : ℕ) (a b : ℤ) (ha : a = 1 ∨ a = -1) (hb : b = 1 ∨ b = -1) :
    Real.log (pairProb n p i j a b) =
      (Real.log (pairProb n p i j 1 1) + Real.log (pairProb n p i j 1 (-1)) + Real.log (pairProb n p i j (-1) 1) +
        Real.log (pairProb n p i j (-1) (-1))) / 4 + duoField n p i j * a + duoField n p j i * b +
        duoCoupling n p i j * a * b := by
  unfold duoField duoCoupling
  rw [pairProb_swap n p i j 1 1, pairProb_swap n p i j (-1) 1, pairProb_swap n p i j 1 (-1), pairProb_swap n p i j (-1) (-1)]
  rcases ha with rfl | rfl <;> rcases hb with rfl | rfl <;> push_cast <;> ring

section
variable {n : ℕ} {p : List ℤ → ℝ} {K : ℕ → ℕ → Prop}

theorem length_pairedParams (n : ℕ) (p : List ℤ → ℝ) (K : ℕ → ℕ → Prop) :
    (pairedParams n p K).length = n + n * (n - 1) / 2 := by
  unfold pairedParams
  simp [length_upperPairs]

open scoped Classical in
theorem pairE_paired (n : ℕ) (p : List ℤ → ℝ) (K : ℕ → ℕ → Prop) (s : List ℤ) :
    pairE n (pairedParams n p K) s =
      -(∑ i ∈ Finset.range n, (soloField n p i +
        ∑ j ∈ Finset.range n, if K i j then duoField n p i j - soloField n p i else 0) * spins s i) -
      ∑ i ∈ Finset.range n, ∑ j ∈ Finset.range n,
        if i < j then (if K i j then duoCoupling n p i j else 0) * spins s i * spins s j else 0 := by
  unfold pairE isingVecE isingE pairedParams
  rw [List.take_left' (by simp), List.drop_left' (by simp)]
  congr 1
  · congr 1
    refine Finset.sum_congr rfl fun i hi => ?_
    beta_reduce
    rw [getD_map_range n _ _ (Finset.mem_range.1 hi)]
  · refine Finset.sum_congr rfl fun i hi => Finset.sum_congr rfl fun j hj => ?_
    by_cases h : i < j
    · rw [if_pos h, if_pos h, couplingAt_upperPairs n _ i j h (Finset.mem_range.1 hj)]
    · rw [if_neg h, if_neg h]

theorem log_weight (hp : PairPositive n p) (hn : 2 ≤ n) (s : List ℤ) (hs : s ∈ words [1, -1] n) :
    Real.log (pairedWeight n p K s) = ∑ k ∈ Finset.range n, Real.log (spinProb n p k (s.getD k 0)) +
      ((links n K).map fun q => Real.log (linkRatio n p q (s.getD q.1 0) (s.getD q.2 0))).sum := by
  have hpos : ∀ q ∈ links n K, linkRatio n p q (s.getD q.1 0) (s.getD q.2 0) ≠ 0 := by
    intro q hq
    obtain ⟨a1, a2, -⟩ := mem_links.1 hq
    have h1 : q.1 < n := by omega
    exact (div_pos (hp.pos q.1 h1 q.2 a2 (by omega) _ _ (spin_pm hs h1) (spin_pm hs a2))
      (mul_pos (spinProb_pos hp hn _ h1 _ (spin_pm hs h1)) (spinProb_pos hp hn _ a2 _ (spin_pm hs a2)))).ne'
  have hne1 : ∏ k ∈ Finset.range n, spinProb n p k (s.getD k 0) ≠ 0 :=
    Finset.prod_ne_zero_iff.2 fun k hk =>
      (spinProb_pos hp hn k (Finset.mem_range.1 hk) _ (spin_pm hs (Finset.mem_range.1 hk))).ne'
  have hne2 : ((links n K).map fun q => linkRatio n p q (s.getD q.1 0) (s.getD q.2 0)).prod ≠ 0 := by
    rw [Ne, List.prod_eq_zero_iff]
    intro h
    obtain ⟨q, hq, h0⟩ := List.mem_map.1 h
    exact hpos q hq h0
  rw [pairedWeight, Real.log_mul hne1 hne2, Real.log_prod fun k hk =>
      (spinProb_pos hp hn k (Finset.mem_range.1 hk) _ (spin_pm hs (Finset.mem_range.1 hk))).ne']
  congr 1
  clear hne2
  generalize links n K = l at hpos
  induction l with
  | nil => simp
  | cons q l ih =>
    have hl : (l.map fun q => linkRatio n p q (s.getD q.1 0) (s.getD q.2 0)).prod ≠ 0 := by
      rw [Ne, List.prod_eq_zero_iff]
      intro h
      obtain ⟨r, hr, h0⟩ := List.mem_map.1 h
      exact hpos r (by simp [hr]) h0
    rw [List.map_cons, List.prod_cons, Real.log_mul (hpos q (by simp)) hl, List.map_cons, List.sum_cons,
      ih fun r hr => hpos r (by simp [hr])]

/-- The energies of the parameters are those of the model of independent pairs. -/
theorem paired_energy (hp : PairPositive n p) (hn : 2 ≤ n) (hK : Pairing n K) :
    ∃ c, ∀ s ∈ words [1, -1] n, pairE n (pairedParams n p K) s = -Real.log (pairedWeight n p K s) + c := by
  classical
  obtain ⟨c, hc⟩ : ∃ c : ℕ → ℝ, c = fun i => (Real.log (spinProb n p i 1) + Real.log (spinProb n p i (-1))) / 2 := ⟨_, rfl⟩
  obtain ⟨d, hd⟩ : ∃ d : ℕ → ℕ → ℝ, d = fun i j => (Real.log (pairProb n p i j 1 1) + Real.log (pairProb n p i j 1 (-1)) +
    Real.log (pairProb n p i j (-1) 1) + Real.log (pairProb n p i j (-1) (-1))) / 4 - c i - c j := ⟨_, rfl⟩
  refine ⟨∑ k ∈ Finset.range n, c k +
    ∑ i ∈ Finset.range n, ∑ j ∈ Finset.range n, if i < j then (if K i j then d i j else 0) else 0, fun s hs => ?_⟩
  have h1 : ∑ k ∈ Finset.range n, Real.log (spinProb n p k (s.getD k 0)) =
      ∑ k ∈ Finset.range n, c k + ∑ k ∈ Finset.range n, soloField n p k * spins s k := by
    rw [← Finset.sum_add_distrib]
    refine Finset.sum_congr rfl fun k hk => ?_
    rw [log_spin k _ (spin_pm hs (Finset.mem_range.1 hk)), hc]
    rfl
  have h2 : ∀ i < n, ∀ j < n, i ≠ j → Real.log (linkRatio n p (i, j) (s.getD i 0) (s.getD j 0)) =
      d i j + (duoField n p i j - soloField n p i) * spins s i + (duoField n p j i - soloField n p j) * spins s j +
        duoCoupling n p i j * spins s i * spins s j := by
    intro i hi j hj hij
    have pi := spinProb_pos hp hn i hi _ (spin_pm hs hi)
    have pj := spinProb_pos hp hn j hj _ (spin_pm hs hj)
    rw [linkRatio, Real.log_div (hp.pos i hi j hj hij _ _ (spin_pm hs hi) (spin_pm hs hj)).ne' (mul_pos pi pj).ne',
      Real.log_mul pi.ne' pj.ne', log_spin i _ (spin_pm hs hi), log_spin j _ (spin_pm hs hj),
      log_pair i j _ _ (spin_pm hs hi) (spin_pm hs hj), hd, hc]
    unfold spins
    ring
  rw [pairE_paired, log_weight hp hn s hs, h1,
    sum_links n K fun i j => Real.log (linkRatio n p (i, j) (s.getD i 0) (s.getD j 0))]
  have h3 : ∀ i ∈ Finset.range n, ∀ j ∈ Finset.range n,
      (if i < j then (if K i j then Real.log (linkRatio n p (i, j) (s.getD i 0) (s.getD j 0)) else 0) else 0) =
      (if i < j then (if K i j then d i j else 0) else 0) +
      (if i < j then (if K i j then (duoField n p i j - soloField n p i) else 0) * spins s i +
        (if K j i then (duoField n p j i - soloField n p j) else 0) * spins s j else 0) +
      (if i < j then (if K i j then duoCoupling n p i j else 0) * spins s i * spins s j else 0) := by
    intro i hi j hj
    have hs' : K i j ↔ K j i := ⟨hK.symm _ _, hK.symm _ _⟩
    by_cases h : i < j
    · by_cases hk : K i j
      · have hk' := hs'.1 hk
        simp only [h, hk, hk', if_true]
        rw [h2 i (Finset.mem_range.1 hi) j (Finset.mem_range.1 hj) h.ne]
        ring
      · have hk' : ¬ K j i := fun h => hk (hs'.2 h)
        simp [h, hk, hk']
    · simp [h]
  rw [Finset.sum_congr rfl fun i hi => Finset.sum_congr rfl (h3 i hi)]
  simp only [Finset.sum_add_distrib]
  rw [sum_offdiag n (fun i j => (if K i j then (duoField n p i j - soloField n p i) else 0) * spins s i) fun i => by
    rw [if_neg (fun h => hK.ne _ _ h rfl), zero_mul]]
  simp only [add_mul, Finset.sum_add_distrib, Finset.sum_mul]
  ring

theorem boltzmann_paired (hp : PairPositive n p) (hn : 2 ≤ n) (hK : Pairing n K) (s : List ℤ) (hs : s ∈ words [1, -1] n) :
    boltzmann (words [1, -1] n) (pairE n (pairedParams n p K)) s = pairedWeight n p K s := by
  obtain ⟨c, hc⟩ := paired_energy hp hn hK
  rw [boltzmann_shift _ (fun s => -Real.log (pairedWeight n p K s)) _ c hc s hs]
  unfold boltzmann partition
  have : ((words ([1, -1] : List ℤ) n).map fun s => Real.exp (- -Real.log (pairedWeight n p K s))) =
      (words [1, -1] n).map (pairedWeight n p K) :=
    List.map_congr_left fun t ht => by rw [neg_neg, Real.exp_log (paired_pos hp hn hK t ht)]
  rw [this, paired_sum hp hn hK, neg_neg, Real.exp_log (paired_pos hp hn hK s hs), div_one]

theorem mutualInfo_eq (n : ℕ) (p : List ℤ → ℝ) (i j : ℕ) : mutualInfo n p i j =
    pairProb n p i j 1 1 * Real.log (linkRatio n p (i, j) 1 1) + pairProb n p i j 1 (-1) * Real.log (linkRatio n p (i, j) 1 (-1)) +
    pairProb n p i j (-1) 1 * Real.log (linkRatio n p (i, j) (-1) 1) +
    pairProb n p i j (-1) (-1) * Real.log (linkRatio n p (i, j) (-1) (-1)) := by
  unfold mutualInfo linkRatio
  simp
  ring

open scoped Classical in
/-- The entropy of the model of independent pairs. -/
theorem entropy_paired (hp : PairPositive n p) (hn : 2 ≤ n) (hK : Pairing n K) :
    entropy (words [1, -1] n) (boltzmann (words [1, -1] n) (pairE n (pairedParams n p K))) =
      ∑ i ∈ Finset.range n, siteEntropy n p i -
        ∑ i ∈ Finset.range n, ∑ j ∈ Finset.range n, if i < j then (if K i j then mutualInfo n p i j else 0) else 0 := by
  unfold entropy
  have h1 : ∀ s ∈ words ([1, -1] : List ℤ) n, boltzmann (words [1, -1] n) (pairE n (pairedParams n p K)) s *
      Real.log (boltzmann (words [1, -1] n) (pairE n (pairedParams n p K)) s) =
      ((List.range n).map fun k => pairedWeight n p K s * Real.log (spinProb n p k (s.getD k 0))).sum +
      ((links n K).map fun q => pairedWeight n p K s * Real.log (linkRatio n p q (s.getD q.1 0) (s.getD q.2 0))).sum := by
    intro s hs
    rw [boltzmann_paired hp hn hK s hs, log_weight hp hn s hs, mul_add, list_sum_mul_left, list_sum_mul_left, sum_map_range]
  rw [list_sum_congr h1, list_sum_add, list_sum_comm (words [1, -1] n) (List.range n), list_sum_comm (words [1, -1] n) (links n K)]
  have h2 : ∀ k ∈ List.range n, ((words [1, -1] n).map fun s => pairedWeight n p K s * Real.log (spinProb n p k (s.getD k 0))).sum =
      -siteEntropy n p k := by
    intro k hk
    rw [paired_one hp hn hK k (List.mem_range.1 hk) fun a => Real.log (spinProb n p k a), siteEntropy, neg_neg]
  have h3 : ∀ q ∈ links n K, ((words [1, -1] n).map fun s => pairedWeight n p K s *
      Real.log (linkRatio n p q (s.getD q.1 0) (s.getD q.2 0))).sum = mutualInfo n p q.1 q.2 := by
    intro q hq
    obtain ⟨a1, a2, a3⟩ := mem_links.1 hq
    rw [paired_linked hp hn hK q.1 q.2 a1 a2 a3 fun a b => Real.log (linkRatio n p q a b), mutualInfo_eq]
  rw [list_sum_congr h2, list_sum_congr h3, sum_links n K fun i j => mutualInfo n p i j, sum_map_range, Finset.sum_neg_distrib]
  ring

end

end Verif.Lemmas
