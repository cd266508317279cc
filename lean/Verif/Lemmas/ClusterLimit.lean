/-
The fits of disjoint pairs to samples with nearly the probabilities of a model.
-/
import Verif.Lemmas.ClusterPairs3
import Mathlib.Order.Filter.Bases.Basic
import Mathlib.Topology.Algebra.Monoid
import Mathlib.Analysis.SpecialFunctions.Log.Basic

namespace Verif.Lemmas
open Verif Verif.Model Verif.Spec Verif.Props

/-- Probabilities of a pairwise model. -/
noncomputable def pairP (n : ℕ) (θ : List ℝ) : List ℤ → ℝ := boltzmann (words [1, -1] n) (pairE n θ)

theorem pairP_pos (n : ℕ) (θ : List ℝ) (s : List ℤ) : 0 < pairP n θ s :=
  div_pos (Real.exp_pos _) (partition_pos _ _ (words_mp_ne n))

theorem pairP_positive (n : ℕ) (θ : List ℝ) : PairPositive n (pairP n θ) := by
  refine ⟨sum_boltzmann _ _ (words_mp_ne n), fun i hi j hj hij a b ha hb => ?_⟩
  unfold pairProb
  obtain ⟨r, hr⟩ : ∃ r : List ℤ, r = (List.range n).map fun k => if k = i then a else b := ⟨_, rfl⟩
  have hrw : r ∈ words [1, -1] n := by
    refine mem_words.2 ⟨by simp [hr], fun x hx => ?_⟩
    rw [hr] at hx
    obtain ⟨k, -, rfl⟩ := List.mem_map.1 hx
    rcases ha with rfl | rfl <;> rcases hb with rfl | rfl <;> split_ifs <;> simp
  have hri : r.getD i 0 = a ∧ r.getD j 0 = b := by
    rw [hr, List.getD_eq_getElem _ _ (by simpa using hi), List.getD_eq_getElem _ _ (by simpa using hj)]
    simp [hij.symm]
  refine lt_of_lt_of_le (pairP_pos n θ r) ?_
  refine List.single_le_sum (l := (words ([1, -1] : List ℤ) n).map fun s =>
    if s.getD i 0 = a ∧ s.getD j 0 = b then pairP n θ s else 0) (fun y hy => ?_) (pairP n θ r)
    (List.mem_map.2 ⟨r, hrw, by rw [if_pos hri]⟩)
  obtain ⟨s, -, rfl⟩ := List.mem_map.1 hy
  split_ifs
  · exact (pairP_pos n θ s).le
  · exact le_refl _

theorem pairP_flip (n : ℕ) (θ : List ℝ) (r : ℕ) (hr : r < n) (s : List ℤ) (hs : s ∈ words [1, -1] n) :
    pairP n θ (negAt s r) =
      pairP n θ s * Real.exp (-(2 * spins s r * localField n (θ.take n) (θ.drop n) (spins s) r)) := by
  have hl := (mem_words.1 hs).1
  have hE : pairE n θ (negAt s r) = pairE n θ s + 2 * spins s r * localField n (θ.take n) (θ.drop n) (spins s) r := by
    unfold pairE
    rw [negAt_eq, spins_set s r (by rw [hl]; exact hr), isingVecE_update n r hr]
    have : ((-s.getD r 0 : ℤ) : ℝ) = -spins s r := by unfold spins; push_cast; rfl
    rw [this]
    ring
  unfold pairP boltzmann
  rw [hE, neg_add, Real.exp_add]
  ring

theorem flip_ratio (n : ℕ) (θ : List ℝ) (r : ℕ) (hr : r < n) (Q : List ℤ → Prop) [DecidablePred Q]
    (hQ : ∀ s, Q (negAt s r) ↔ Q s) (c : ℝ)
    (hc : ∀ s ∈ words [1, -1] n, Q s → localField n (θ.take n) (θ.drop n) (spins s) r = c) :
    ((words [1, -1] n).map fun s => if s.getD r 0 = -1 ∧ Q s then pairP n θ s else 0).sum =
      Real.exp (-(2 * c)) * ((words [1, -1] n).map fun s => if s.getD r 0 = 1 ∧ Q s then pairP n θ s else 0).sum := by
  rw [← sum_invol (words [1, -1] n) (nodup_words (by decide) n) (fun s => negAt s r)
    (fun s hs => by rw [negAt_eq]; exact flip_mem_words n r s hs) (fun s _ => negAt_negAt s r), ← list_sum_mul_left]
  refine list_sum_congr fun s hs => ?_
  rw [negAt_self hs hr, pairP_flip n θ r hr s hs]
  by_cases hq : Q s
  · have hq' := (hQ s).2 hq
    rcases spin_pm hs hr with h | h
    · rw [h, if_pos ⟨rfl, hq'⟩, if_pos ⟨rfl, hq⟩, hc s hs hq]
      have : (spins s r : ℝ) = 1 := by unfold spins; rw [h]; norm_num
      rw [this]
      ring_nf
    · rw [h, if_neg (by norm_num), if_neg (by norm_num), mul_zero]
  · rw [if_neg (fun h => hq ((hQ s).1 h.2)), if_neg (fun h => hq h.2), mul_zero]

section
variable {n : ℕ} {θ : List ℝ} {K : ℕ → ℕ → Prop}

/-- The couplings of `θ` are between the pairs of `K`. -/
def CoupledIn (n : ℕ) (θ : List ℝ) (K : ℕ → ℕ → Prop) : Prop :=
  ∀ i < n, ∀ j < n, i ≠ j → ¬ K i j → couplingOf n (θ.drop n) i j = 0

theorem localField_duo (hK : Pairing n K) (hθ : CoupledIn n θ K) (i j : ℕ) (hi : i < n) (hj : j < n) (h : K i j) (s : ℕ → ℝ) :
    localField n (θ.take n) (θ.drop n) s i = (θ.take n).getD i 0 + couplingOf n (θ.drop n) i j * s j := by
  unfold localField
  congr 1
  rw [Finset.sum_eq_single_of_mem j (Finset.mem_range.2 hj), if_neg (hK.ne _ _ h).symm]
  intro k hk hkj
  by_cases hki : k = i
  · rw [if_pos hki]
  · rw [if_neg hki, hθ i hi k (Finset.mem_range.1 hk) (Ne.symm hki) fun h' =>
      hkj (hK.one i hi k (Finset.mem_range.1 hk) j hj h' h), zero_mul]

theorem localField_solo (hθ : CoupledIn n θ K) (i : ℕ) (hi : i < n) (h : ∀ j < n, ¬ K i j) (s : ℕ → ℝ) :
    localField n (θ.take n) (θ.drop n) s i = (θ.take n).getD i 0 := by
  unfold localField
  rw [Finset.sum_eq_zero, add_zero]
  intro k hk
  by_cases hki : k = i
  · rw [if_pos hki]
  · rw [if_neg hki, hθ i hi k (Finset.mem_range.1 hk) (Ne.symm hki) (h k (Finset.mem_range.1 hk)), zero_mul]

theorem log_ratio_duo (hK : Pairing n K) (hθ : CoupledIn n θ K) (i j : ℕ) (hi : i < n) (hj : j < n) (h : K i j) (b : ℤ)
    (hb : b = 1 ∨ b = -1) : Real.log (pairProb n (pairP n θ) i j 1 b) - Real.log (pairProb n (pairP n θ) i j (-1) b) =
      2 * ((θ.take n).getD i 0 + couplingOf n (θ.drop n) i j * b) := by
  have hij := hK.ne _ _ h
  have hr := flip_ratio n θ i hi (fun s => s.getD j 0 = b) (fun s => by rw [negAt_getD_ne _ _ _ hij.symm])
    ((θ.take n).getD i 0 + couplingOf n (θ.drop n) i j * b) (fun s hs hq => by
      rw [localField_duo hK hθ i j hi hj h]
      unfold spins
      rw [hq])
  have hp := (pairP_positive n θ).pos i hi j hj hij 1 b (by simp) hb
  unfold pairProb at hp ⊢
  rw [hr, Real.log_mul (Real.exp_pos _).ne' hp.ne', Real.log_exp]
  ring

theorem log_ratio_solo (hn : 2 ≤ n) (hθ : CoupledIn n θ K) (i : ℕ) (hi : i < n) (h : ∀ j < n, ¬ K i j) :
    Real.log (spinProb n (pairP n θ) i 1) - Real.log (spinProb n (pairP n θ) i (-1)) = 2 * (θ.take n).getD i 0 := by
  have hr := flip_ratio n θ i hi (fun _ => True) (fun s => by simp) ((θ.take n).getD i 0) (fun s hs _ =>
    localField_solo hθ i hi h _)
  have hp := spinProb_pos (pairP_positive n θ) hn i hi 1 (by simp)
  simp only [and_true] at hr
  unfold spinProb at hp ⊢
  rw [hr, Real.log_mul (Real.exp_pos _).ne' hp.ne', Real.log_exp]
  ring

/-- The model of a pairing has its parameters. -/
theorem paired_recovers (hn : 2 ≤ n) (hθl : θ.length = n + n * (n - 1) / 2) (hK : Pairing n K) (hθ : CoupledIn n θ K) :
    pairedParams n (pairP n θ) K = θ := by
  classical
  refine pair_unique n _ _ (length_pairedParams n _ K) hθl 0 fun s hs => ?_
  rw [add_zero, pairE_paired]
  unfold pairE isingVecE isingE
  have duoF : ∀ i < n, ∀ j < n, K i j → duoField n (pairP n θ) i j = (θ.take n).getD i 0 := by
    intro i hi j hj h
    have a := log_ratio_duo hK hθ i j hi hj h 1 (by simp)
    have b := log_ratio_duo hK hθ i j hi hj h (-1) (by simp)
    push_cast at a b
    unfold duoField
    linarith
  have duoC : ∀ i < n, ∀ j < n, K i j → duoCoupling n (pairP n θ) i j = couplingOf n (θ.drop n) i j := by
    intro i hi j hj h
    have a := log_ratio_duo hK hθ i j hi hj h 1 (by simp)
    have b := log_ratio_duo hK hθ i j hi hj h (-1) (by simp)
    push_cast at a b
    unfold duoCoupling
    linarith
  congr 1
  · congr 1
    refine Finset.sum_congr rfl fun i hi => ?_
    congr 1
    have hi' := Finset.mem_range.1 hi
    by_cases h : ∃ j < n, K i j
    · obtain ⟨j, hj, hij⟩ := h
      rw [Finset.sum_eq_single_of_mem j (Finset.mem_range.2 hj), if_pos hij, duoF i hi' j hj hij]
      · ring
      · intro k hk hkj
        rw [if_neg fun h' => hkj (hK.one i hi' k (Finset.mem_range.1 hk) j hj h' hij)]
    · push Not at h
      rw [Finset.sum_eq_zero fun k hk => if_neg (h k (Finset.mem_range.1 hk)), add_zero, soloField,
        log_ratio_solo hn hθ i hi' h]
      ring
  · refine Finset.sum_congr rfl fun i hi => Finset.sum_congr rfl fun j hj => ?_
    by_cases hij : i < j
    · rw [if_pos hij, if_pos hij]
      have e : couplingAt n (θ.drop n) i j = couplingOf n (θ.drop n) i j := by
        unfold couplingOf
        rw [min_eq_left hij.le, max_eq_right hij.le]
      congr 2
      rw [e]
      by_cases h : K i j
      · rw [if_pos h, duoC i (Finset.mem_range.1 hi) j (Finset.mem_range.1 hj) h]
      · rw [if_neg h, hθ i (Finset.mem_range.1 hi) j (Finset.mem_range.1 hj) hij.ne h]
    · rw [if_neg hij, if_neg hij]

/-- Spins that are not a pair of the pairing are independent. -/
theorem mutualInfo_uncoupled (hn : 2 ≤ n) (hθl : θ.length = n + n * (n - 1) / 2) (hK : Pairing n K) (hθ : CoupledIn n θ K)
    (i j : ℕ) (hi : i < n) (hj : j < n) (hij : i ≠ j) (h : ¬ K i j) : mutualInfo n (pairP n θ) i j = 0 := by
  have hp := pairP_positive n θ
  have hw : ∀ s ∈ words [1, -1] n, pairP n θ s = pairedWeight n (pairP n θ) K s := by
    intro s hs
    rw [← boltzmann_paired hp hn hK s hs, paired_recovers hn hθl hK hθ]
    rfl
  have hind : ∀ a b : ℤ, a = 1 ∨ a = -1 → b = 1 ∨ b = -1 →
      pairProb n (pairP n θ) i j a b = spinProb n (pairP n θ) i a * spinProb n (pairP n θ) j b := by
    intro a b ha hb
    have := paired_unlinked hp hn hK i j hi hj hij h fun x y => if x = a ∧ y = b then 1 else 0
    rw [show pairProb n (pairP n θ) i j a b = ((words [1, -1] n).map fun s => pairedWeight n (pairP n θ) K s *
        if s.getD i 0 = a ∧ s.getD j 0 = b then 1 else 0).sum from list_sum_congr fun s hs => by
      rw [hw s hs]; split_ifs <;> simp, this]
    rcases ha with rfl | rfl <;> rcases hb with rfl | rfl <;> simp
  have hz : ∀ a b : ℤ, a = 1 ∨ a = -1 → b = 1 ∨ b = -1 → Real.log (linkRatio n (pairP n θ) (i, j) a b) = 0 := by
    intro a b ha hb
    rw [linkRatio, hind a b ha hb, div_self, Real.log_one]
    exact (mul_pos (spinProb_pos hp hn i hi a ha) (spinProb_pos hp hn j hj b hb)).ne'
  rw [mutualInfo_eq, hz 1 1 (by simp) (by simp), hz 1 (-1) (by simp) (by simp), hz (-1) 1 (by simp) (by simp),
    hz (-1) (-1) (by simp) (by simp)]
  ring

end

/-- Spins that are not independent have a positive mutual information. -/
theorem mutualInfo_pos {n : ℕ} {p : List ℤ → ℝ} (hp : PairPositive n p) (hn : 2 ≤ n) (i j : ℕ) (hi : i < n) (hj : j < n)
    (hij : i ≠ j) (hdep : ¬ ∀ a b : ℤ, a = 1 ∨ a = -1 → b = 1 ∨ b = -1 → pairProb n p i j a b = spinProb n p i a * spinProb n p j b) :
    0 < mutualInfo n p i j := by
  have pos := hp.pos i hi j hj hij
  have ps : ∀ a b : ℤ, a = 1 ∨ a = -1 → b = 1 ∨ b = -1 → 0 < spinProb n p i a * spinProb n p j b := fun a b ha hb =>
    mul_pos (spinProb_pos hp hn i hi a ha) (spinProb_pos hp hn j hj b hb)
  have key : ∀ x y : ℝ, 0 < x → 0 < y → x - y ≤ x * Real.log (x / y) ∧ (x ≠ y → x - y < x * Real.log (x / y)) := by
    intro x y hx hy
    have e : Real.log (x / y) = -Real.log (y / x) := by rw [← Real.log_inv, inv_div]
    have e2 : x * (y / x - 1) = y - x := by field_simp
    rw [e]
    refine ⟨?_, fun h => ?_⟩
    · have h := mul_le_mul_of_nonneg_left (Real.log_le_sub_one_of_pos (div_pos hy hx)) hx.le
      linarith
    · have h := mul_lt_mul_of_pos_left (Real.log_lt_sub_one_of_pos (div_pos hy hx) fun h' => h ((div_eq_one_iff_eq hx.ne').1 h').symm) hx
      linarith
  rw [mutualInfo_eq]
  unfold linkRatio
  dsimp only
  have hs : pairProb n p i j 1 1 + pairProb n p i j 1 (-1) + pairProb n p i j (-1) 1 + pairProb n p i j (-1) (-1) =
      spinProb n p i 1 * spinProb n p j 1 + spinProb n p i 1 * spinProb n p j (-1) + spinProb n p i (-1) * spinProb n p j 1 +
        spinProb n p i (-1) * spinProb n p j (-1) := by
    have a := spinProb_sum hp i hi
    have b := spinProb_sum hp j hj
    have c := spinProb_split n p i j hj 1
    have d := spinProb_split n p i j hj (-1)
    have : spinProb n p i 1 * spinProb n p j 1 + spinProb n p i 1 * spinProb n p j (-1) + spinProb n p i (-1) * spinProb n p j 1 +
        spinProb n p i (-1) * spinProb n p j (-1) = (spinProb n p i 1 + spinProb n p i (-1)) * (spinProb n p j 1 + spinProb n p j (-1)) := by
      ring
    rw [this, a, b]
    linarith
  have k := fun a b ha hb => key (pairProb n p i j a b) (spinProb n p i a * spinProb n p j b) (pos a b ha hb) (ps a b ha hb)
  have k1 := k 1 1 (by simp) (by simp)
  have k2 := k 1 (-1) (by simp) (by simp)
  have k3 := k (-1) 1 (by simp) (by simp)
  have k4 := k (-1) (-1) (by simp) (by simp)
  push Not at hdep
  obtain ⟨a, b, ha, hb, hne⟩ := hdep
  have h := (k a b ha hb).2 hne
  rcases ha with rfl | rfl <;> rcases hb with rfl | rfl <;> linarith [k1.1, k2.1, k3.1, k4.1]

/-! ### Limits -/

open Filter Topology

/-- The samples with nearly the probabilities of the model. -/
def closeFilter (n : ℕ) (θ : List ℝ) : Filter (List (List ℤ)) :=
  ⨅ δ ∈ Set.Ioi (0 : ℝ), 𝓟 {X | CloseFreq n θ δ X}

theorem closeFilter_basis (n : ℕ) (θ : List ℝ) :
    (closeFilter n θ).HasBasis (fun δ : ℝ => δ ∈ Set.Ioi (0 : ℝ)) fun δ => {X | CloseFreq n θ δ X} := by
  refine hasBasis_biInf_principal ?_ ⟨1, by simp⟩
  intro a ha b hb
  refine ⟨min a b, Set.mem_Ioi.2 (lt_min (Set.mem_Ioi.1 ha) (Set.mem_Ioi.1 hb)), fun X hX => CloseFreq.mono hX (min_le_left _ _), fun X hX => CloseFreq.mono hX (min_le_right _ _)⟩

theorem eventually_close {n : ℕ} {θ : List ℝ} {P : List (List ℤ) → Prop} :
    (∀ᶠ X in closeFilter n θ, P X) ↔ ∃ δ, 0 < δ ∧ ∀ X, CloseFreq n θ δ X → P X := by
  rw [(closeFilter_basis n θ).eventually_iff]
  simp

section
variable {n : ℕ} {θ : List ℝ}

theorem tendsto_freq (s : List ℤ) (hs : s ∈ words [1, -1] n) :
    Tendsto (fun X => stateFreq X s) (closeFilter n θ) (𝓝 (pairP n θ s)) := by
  rw [Metric.tendsto_nhds]
  intro ε hε
  rw [eventually_close]
  refine ⟨ε, hε, fun X hX => ?_⟩
  rw [Real.dist_eq]
  exact hX.2.2 s hs

theorem tendsto_words (f : (List ℤ → ℝ) → List ℤ → ℝ)
    (hf : ∀ s ∈ words [1, -1] n, Tendsto (fun X => f (stateFreq X) s) (closeFilter n θ) (𝓝 (f (pairP n θ) s))) :
    Tendsto (fun X => ((words [1, -1] n).map (f (stateFreq X))).sum) (closeFilter n θ)
      (𝓝 ((words [1, -1] n).map (f (pairP n θ))).sum) := by
  generalize words ([1, -1] : List ℤ) n = l at hf
  induction l with
  | nil => simpa using tendsto_const_nhds
  | cons a l ih =>
    simp only [List.map_cons, List.sum_cons]
    exact (hf a (by simp)).add (ih fun s hs => hf s (by simp [hs]))

theorem tendsto_spin (i : ℕ) (a : ℤ) :
    Tendsto (fun X => spinProb n (stateFreq X) i a) (closeFilter n θ) (𝓝 (spinProb n (pairP n θ) i a)) := by
  refine tendsto_words (fun p s => if s.getD i 0 = a then p s else 0) fun s hs => ?_
  by_cases h : s.getD i 0 = a
  · simp only [if_pos h]; exact tendsto_freq s hs
  · simp only [if_neg h]; exact tendsto_const_nhds

theorem tendsto_pair (i j : ℕ) (a b : ℤ) :
    Tendsto (fun X => pairProb n (stateFreq X) i j a b) (closeFilter n θ) (𝓝 (pairProb n (pairP n θ) i j a b)) := by
  refine tendsto_words (fun p s => if s.getD i 0 = a ∧ s.getD j 0 = b then p s else 0) fun s hs => ?_
  by_cases h : s.getD i 0 = a ∧ s.getD j 0 = b
  · simp only [if_pos h]; exact tendsto_freq s hs
  · simp only [if_neg h]; exact tendsto_const_nhds

theorem tendsto_log_spin (hn : 2 ≤ n) (i : ℕ) (hi : i < n) (a : ℤ) (ha : a = 1 ∨ a = -1) :
    Tendsto (fun X => Real.log (spinProb n (stateFreq X) i a)) (closeFilter n θ) (𝓝 (Real.log (spinProb n (pairP n θ) i a))) :=
  (tendsto_spin i a).log (spinProb_pos (pairP_positive n θ) hn i hi a ha).ne'

theorem tendsto_log_pair (i j : ℕ) (hi : i < n) (hj : j < n) (hij : i ≠ j) (a b : ℤ) (ha : a = 1 ∨ a = -1)
    (hb : b = 1 ∨ b = -1) : Tendsto (fun X => Real.log (pairProb n (stateFreq X) i j a b)) (closeFilter n θ)
      (𝓝 (Real.log (pairProb n (pairP n θ) i j a b))) :=
  (tendsto_pair i j a b).log ((pairP_positive n θ).pos i hi j hj hij a b ha hb).ne'

theorem tendsto_solo (hn : 2 ≤ n) (i : ℕ) (hi : i < n) :
    Tendsto (fun X => soloField n (stateFreq X) i) (closeFilter n θ) (𝓝 (soloField n (pairP n θ) i)) :=
  ((tendsto_log_spin hn i hi 1 (by simp)).sub (tendsto_log_spin hn i hi (-1) (by simp))).div_const 2

theorem tendsto_duoField (i j : ℕ) (hi : i < n) (hj : j < n) (hij : i ≠ j) :
    Tendsto (fun X => duoField n (stateFreq X) i j) (closeFilter n θ) (𝓝 (duoField n (pairP n θ) i j)) :=
  ((((tendsto_log_pair i j hi hj hij 1 1 (by simp) (by simp)).add (tendsto_log_pair i j hi hj hij 1 (-1) (by simp) (by simp))).sub
    (tendsto_log_pair i j hi hj hij (-1) 1 (by simp) (by simp))).sub
      (tendsto_log_pair i j hi hj hij (-1) (-1) (by simp) (by simp))).div_const 4

theorem tendsto_duoCoupling (i j : ℕ) (hi : i < n) (hj : j < n) (hij : i ≠ j) :
    Tendsto (fun X => duoCoupling n (stateFreq X) i j) (closeFilter n θ) (𝓝 (duoCoupling n (pairP n θ) i j)) :=
  ((((tendsto_log_pair i j hi hj hij 1 1 (by simp) (by simp)).sub (tendsto_log_pair i j hi hj hij 1 (-1) (by simp) (by simp))).sub
    (tendsto_log_pair i j hi hj hij (-1) 1 (by simp) (by simp))).add
      (tendsto_log_pair i j hi hj hij (-1) (-1) (by simp) (by simp))).div_const 4

theorem tendsto_siteEntropy (hn : 2 ≤ n) (i : ℕ) (hi : i < n) :
    Tendsto (fun X => siteEntropy n (stateFreq X) i) (closeFilter n θ) (𝓝 (siteEntropy n (pairP n θ) i)) :=
  (((tendsto_spin i 1).mul (tendsto_log_spin hn i hi 1 (by simp))).add
    ((tendsto_spin i (-1)).mul (tendsto_log_spin hn i hi (-1) (by simp)))).neg

theorem tendsto_mutualInfo (hn : 2 ≤ n) (i j : ℕ) (hi : i < n) (hj : j < n) (hij : i ≠ j) :
    Tendsto (fun X => mutualInfo n (stateFreq X) i j) (closeFilter n θ) (𝓝 (mutualInfo n (pairP n θ) i j)) := by
  have hp := pairP_positive n θ
  have h : ∀ a b : ℤ, a = 1 ∨ a = -1 → b = 1 ∨ b = -1 → Tendsto (fun X => pairProb n (stateFreq X) i j a b *
      Real.log (pairProb n (stateFreq X) i j a b / (spinProb n (stateFreq X) i a * spinProb n (stateFreq X) j b)))
      (closeFilter n θ) (𝓝 (pairProb n (pairP n θ) i j a b *
        Real.log (pairProb n (pairP n θ) i j a b / (spinProb n (pairP n θ) i a * spinProb n (pairP n θ) j b)))) := by
    intro a b ha hb
    have h1 := mul_pos (spinProb_pos hp hn i hi a ha) (spinProb_pos hp hn j hj b hb)
    exact (tendsto_pair i j a b).mul (((tendsto_pair i j a b).div ((tendsto_spin i a).mul (tendsto_spin j b)) h1.ne').log
      (div_pos (hp.pos i hi j hj hij a b ha hb) h1).ne')
  simp only [mutualInfo_eq]
  exact (((h 1 1 (by simp) (by simp)).add (h 1 (-1) (by simp) (by simp))).add (h (-1) 1 (by simp) (by simp))).add
    (h (-1) (-1) (by simp) (by simp))

theorem eventually_rows : ∀ᶠ X in closeFilter n θ, X ≠ [] ∧ ∀ s ∈ X, s ∈ words [1, -1] n :=
  eventually_close.2 ⟨1, one_pos, fun _ hX => ⟨hX.1, hX.2.1⟩⟩

theorem eventually_all (m : ℕ) {P : ℕ → List (List ℤ) → Prop} (h : ∀ i < m, ∀ᶠ X in closeFilter n θ, P i X) :
    ∀ᶠ X in closeFilter n θ, ∀ i < m, P i X := by
  have := (Filter.eventually_all_finset (Finset.range m)).2 fun i hi => h i (Finset.mem_range.1 hi)
  exact this.mono fun X hX i hi => hX i (Finset.mem_range.2 hi)

theorem eventually_positive : ∀ᶠ X in closeFilter n θ, PairPositive n (stateFreq X) := by
  have h : ∀ᶠ X in closeFilter n θ, ∀ i < n, ∀ j < n, i ≠ j →
      0 < pairProb n (stateFreq X) i j 1 1 ∧ 0 < pairProb n (stateFreq X) i j 1 (-1) ∧
      0 < pairProb n (stateFreq X) i j (-1) 1 ∧ 0 < pairProb n (stateFreq X) i j (-1) (-1) := by
    refine eventually_all n fun i hi => eventually_all n fun j hj => ?_
    by_cases hij : i = j
    · exact Filter.Eventually.of_forall fun X h => absurd hij h
    · have pos := (pairP_positive n θ).pos i hi j hj hij
      filter_upwards [(tendsto_pair i j 1 1).eventually (lt_mem_nhds (pos 1 1 (by simp) (by simp))),
        (tendsto_pair i j 1 (-1)).eventually (lt_mem_nhds (pos 1 (-1) (by simp) (by simp))),
        (tendsto_pair i j (-1) 1).eventually (lt_mem_nhds (pos (-1) 1 (by simp) (by simp))),
        (tendsto_pair i j (-1) (-1)).eventually (lt_mem_nhds (pos (-1) (-1) (by simp) (by simp)))] with X h1 h2 h3 h4 _
      exact ⟨h1, h2, h3, h4⟩
  filter_upwards [h, eventually_rows] with X hX hr
  refine ⟨stateFreq_sum hr.1 hr.2, fun i hi j hj hij a b ha hb => ?_⟩
  obtain ⟨h1, h2, h3, h4⟩ := hX i hi j hj hij
  rcases ha with rfl | rfl <;> rcases hb with rfl | rfl <;> assumption

/-- The pairs above the threshold are those of the model. -/
theorem eventually_linked (hn : 2 ≤ n) (T : ℝ) (hT : ∀ i < n, ∀ j < n, i ≠ j → mutualInfo n (pairP n θ) i j ≠ T) :
    ∀ᶠ X in closeFilter n θ, ∀ i < n, ∀ j < n, (Linked n (stateFreq X) T i j ↔ Linked n (pairP n θ) T i j) := by
  refine eventually_all n fun i hi => eventually_all n fun j hj => ?_
  by_cases hij : i = j
  · exact Filter.Eventually.of_forall fun X => ⟨fun h => absurd hij h.1, fun h => absurd hij h.1⟩
  · rcases lt_or_gt_of_ne (hT i hi j hj hij) with h | h
    · filter_upwards [(tendsto_mutualInfo hn i j hi hj hij).eventually (gt_mem_nhds h)] with X hX
      exact ⟨fun h' => absurd h'.2 (not_lt.2 hX.le), fun h' => absurd h'.2 (not_lt.2 h.le)⟩
    · filter_upwards [(tendsto_mutualInfo hn i j hi hj hij).eventually (lt_mem_nhds h)] with X hX
      exact ⟨fun _ => ⟨hij, h⟩, fun _ => ⟨hij, hX⟩⟩

open scoped Classical in
theorem pairedParams_congr (n : ℕ) (p : List ℤ → ℝ) {K K' : ℕ → ℕ → Prop} (h : ∀ i < n, ∀ j < n, (K i j ↔ K' i j)) :
    pairedParams n p K = pairedParams n p K' := by
  unfold pairedParams
  congr 1
  · refine List.map_congr_left fun i hi => ?_
    congr 1
    refine Finset.sum_congr rfl fun j hj => ?_
    simp only [h i (List.mem_range.1 hi) j (Finset.mem_range.1 hj)]
  · refine List.map_congr_left fun q hq => ?_
    obtain ⟨h1, h2⟩ := mem_upperPairs.1 (show (q.1, q.2) ∈ upperPairs n from hq)
    simp only [h q.1 (by omega) q.2 h2]

theorem tendsto_params (hn : 2 ≤ n) {K : ℕ → ℕ → Prop} (hK : ∀ i j, K i j → i ≠ j) (k : ℕ) :
    Tendsto (fun X => (pairedParams n (stateFreq X) K).getD k 0) (closeFilter n θ)
      (𝓝 ((pairedParams n (pairP n θ) K).getD k 0)) := by
  classical
  have e : ∀ p, (pairedParams n p K).getD k 0 = if k < n then soloField n p k +
      ∑ j ∈ Finset.range n, (if K k j then duoField n p k j - soloField n p k else 0) else
      if h : k - n < (upperPairs n).length then (if K (upperPairs n)[k - n].1 (upperPairs n)[k - n].2 then
        duoCoupling n p (upperPairs n)[k - n].1 (upperPairs n)[k - n].2 else 0) else 0 := by
    intro p
    unfold pairedParams
    by_cases h : k < n
    · rw [if_pos h, List.getD_append _ _ _ _ (by simpa using h), List.getD_eq_getElem _ _ (by simpa using h)]
      simp
    · rw [if_neg h, List.getD_append_right _ _ _ _ (by simpa using h), List.length_map, List.length_range]
      by_cases h' : k - n < (upperPairs n).length
      · rw [dif_pos h', List.getD_eq_getElem _ _ (by simpa using h'), List.getElem_map]
      · rw [dif_neg h', List.getD_eq_default _ _ (by simpa using h')]
  simp only [e]
  by_cases h : k < n
  · simp only [if_pos h]
    refine (tendsto_solo hn k h).add (tendsto_finsetSum _ fun j hj => ?_)
    by_cases hk : K k j
    · simp only [if_pos hk]
      exact (tendsto_duoField k j h (Finset.mem_range.1 hj) (hK _ _ hk)).sub (tendsto_solo hn k h)
    · simp only [if_neg hk]
      exact tendsto_const_nhds
  · simp only [if_neg h]
    by_cases h' : k - n < (upperPairs n).length
    · simp only [dif_pos h']
      by_cases hk : K (upperPairs n)[k - n].1 (upperPairs n)[k - n].2
      · simp only [if_pos hk]
        obtain ⟨a1, a2⟩ := mem_upperPairs.1 (show ((upperPairs n)[k - n].1, (upperPairs n)[k - n].2) ∈ upperPairs n from
          List.getElem_mem h')
        exact tendsto_duoCoupling _ _ (by omega) a2 (by omega)
      · simp only [if_neg hk]
        exact tendsto_const_nhds
    · simp only [dif_neg h']
      exact tendsto_const_nhds

end

end Verif.Lemmas
