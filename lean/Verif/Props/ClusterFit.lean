/-
C125: what `ClusterExpansion` returns with a threshold that keeps disjoint pairs, and how its fits behave as the sample grows.
-/
import Verif.Lemmas.ClusterLimit
import Verif.Lemmas.GuideSummary
import Verif.Props.GuideData
import Verif.Props.PseudoObj
import Mathlib.Analysis.Complex.ExponentialBounds

namespace Verif.Props
open Verif Verif.Model Verif.Spec Verif.Lemmas Prog Filter Topology

/-- Every two spins take all four pairs of values in the sample. -/
def PairsMet (n : ℕ) (X : Data) : Prop :=
  ∀ i < n, ∀ j < n, i ≠ j → ∀ a b : ℤ, a = 1 ∨ a = -1 → b = 1 ∨ b = -1 → ∃ r ∈ X, r.getD i 0 = a ∧ r.getD j 0 = b

/-- The probabilities of the model with parameters `x`. -/
noncomputable def modelProb (n : ℕ) (x : List ℝ) : List ℤ → ℝ := boltzmann (words [1, -1] n) (pairE n x)

theorem cluster_object (mc : Machine) (lsq : (List ℝ → Py (List ℝ)) → List ℝ → Py (List ℝ)) (n : ℕ) (X : Data) (hne : X ≠ [])
    (T : ℝ) (ns : Option ℕ) (size rng : ℕ) (M : Mat ℝ) (hM : aceCooc n X = some M) :
    ∃ o, clusterInit mc (.data n X) none .ising size rng = .ok o ∧
      clusterObjSolve lsq o T none 0 ns false true = clusterExpansionSolve lsq n M T none 0 ns false true := by
  obtain ⟨⟨o, e, h3, h4, -⟩, -, -⟩ := C113_sampled mc n X hne .ising size rng
  refine ⟨o, e, ?_⟩
  unfold clusterObjSolve
  rw [h3, h4]
  dsimp only
  rw [hM]

/-- C125: for every sample of two or more spins in which every two spins take all four pairs of values, and every threshold for
which no spin is in two pairs with a larger mutual information, `ClusterExpansion.solve` (without a mean field, with the exact
small problems solved) returns in closed form: the fields and couplings of the model of these pairs, the entropies of the spins
less the mutual informations of the pairs, and as clusters the single spins and these pairs, each once. -/
theorem C125_result (mc : Machine) (lsq : (List ℝ → Py (List ℝ)) → List ℝ → Py (List ℝ)) (hlsq : ExactLsq lsq) (n : ℕ)
    (hn : 2 ≤ n) (X : Data) (hX : ∀ r ∈ X, r ∈ words [1, -1] n) (hall : PairsMet n X) (T : ℝ)
    (hdis : Disjointed n (Linked n (stateFreq X) T)) (ns : Option ℕ) (size rng : ℕ) :
    ∃ o x ent levels, clusterInit mc (.data n X) none .ising size rng = .ok o ∧
      clusterObjSolve lsq o T none 0 ns false true = .ok (x, ent, levels) ∧
      x.length = n + n * (n - 1) / 2 ∧
      (∀ i < n, (∀ j < n, ¬ Linked n (stateFreq X) T i j) → x.getD i 0 = soloField n (stateFreq X) i) ∧
      (∀ i < n, ∀ j < n, Linked n (stateFreq X) T i j → x.getD i 0 = duoField n (stateFreq X) i j ∧
        couplingOf n (x.drop n) i j = duoCoupling n (stateFreq X) i j) ∧
      (∀ i < n, ∀ j < n, i ≠ j → ¬ Linked n (stateFreq X) T i j → couplingOf n (x.drop n) i j = 0) ∧
      (∀ g ∈ levels.flatten, g.Pairwise (· < ·)) ∧ levels.flatten.Nodup ∧
      (∀ A : Finset ℕ, (∃ g ∈ levels.flatten, g.toFinset = A) ↔ (∃ i < n, A = {i}) ∨
        ∃ i < n, ∃ j < n, Linked n (stateFreq X) T i j ∧ A = {i, j}) ∧
      (∀ i < n, ∀ a : ℤ, a = 1 ∨ a = -1 → spinProb n (modelProb n x) i a = spinProb n (stateFreq X) i a) ∧
      (∀ i < n, ∀ j < n, Linked n (stateFreq X) T i j → ∀ a b : ℤ, a = 1 ∨ a = -1 → b = 1 ∨ b = -1 →
        pairProb n (modelProb n x) i j a b = pairProb n (stateFreq X) i j a b) ∧
      (∀ i < n, ∀ j < n, i ≠ j → ¬ Linked n (stateFreq X) T i j → ∀ a b : ℤ, a = 1 ∨ a = -1 → b = 1 ∨ b = -1 →
        pairProb n (modelProb n x) i j a b = spinProb n (stateFreq X) i a * spinProb n (stateFreq X) j b) ∧
      ent = entropy (words [1, -1] n) (modelProb n x) := by
  classical
  have hne : X ≠ [] := by
    obtain ⟨r, hr, -⟩ := hall 0 (by omega) 1 (by omega) (by norm_num) 1 1 (by simp) (by simp)
    exact List.ne_nil_of_mem hr
  have hp := stateFreq_positive hne hX hall
  have hK := linked_pairing hdis
  obtain ⟨M, levels, hM, hs, l1, l2, l3⟩ := cluster_pairs lsq hlsq n hn X hne hX hp T hdis ns
  obtain ⟨o, ho, hos⟩ := cluster_object mc lsq n X hne T ns size rng M hM
  have hent := entropy_paired hp hn hK
  have hb := boltzmann_paired hp hn hK
  generalize hKe : Linked n (stateFreq X) T = K at *
  generalize hpe : stateFreq X = p at *
  refine ⟨o, _, _, levels, ho, hos.trans hs, length_pairedParams n p K, ?_, ?_, ?_, l1, l2, l3, ?_, ?_, ?_, ?_⟩
  · intro i hi hno
    unfold pairedParams
    rw [List.getD_append _ _ _ _ (by simpa using hi), List.getD_eq_getElem _ _ (by simpa using hi)]
    simp only [List.getElem_map, List.getElem_range]
    rw [Finset.sum_eq_zero fun j hj => if_neg (hno j (Finset.mem_range.1 hj)), add_zero]
  · intro i hi j hj hij
    refine ⟨?_, ?_⟩
    · unfold pairedParams
      rw [List.getD_append _ _ _ _ (by simpa using hi), List.getD_eq_getElem _ _ (by simpa using hi)]
      simp only [List.getElem_map, List.getElem_range]
      rw [Finset.sum_eq_single_of_mem j (Finset.mem_range.2 hj), if_pos hij]
      · ring
      · intro k hk hkj
        rw [if_neg fun h' => hkj (hK.one i hi k (Finset.mem_range.1 hk) j hj h' hij)]
    · have hne' := hK.ne _ _ hij
      unfold pairedParams couplingOf
      rw [List.drop_left' (by simp)]
      rcases lt_or_gt_of_ne hne' with h | h
      · rw [min_eq_left h.le, max_eq_right h.le, couplingAt_upperPairs n _ i j h hj, if_pos hij]
      · rw [min_eq_right h.le, max_eq_left h.le, couplingAt_upperPairs n _ j i h hi, if_pos (hK.symm _ _ hij)]
        unfold duoCoupling
        rw [pairProb_swap n p i j 1 1, pairProb_swap n p i j 1 (-1), pairProb_swap n p i j (-1) 1, pairProb_swap n p i j (-1) (-1)]
        ring
  · intro i hi j hj hij hno
    unfold pairedParams couplingOf
    rw [List.drop_left' (by simp)]
    rcases lt_or_gt_of_ne hij with h | h
    · rw [min_eq_left h.le, max_eq_right h.le, couplingAt_upperPairs n _ i j h hj, if_neg hno]
    · rw [min_eq_right h.le, max_eq_left h.le, couplingAt_upperPairs n _ j i h hi, if_neg fun h' => hno (hK.symm _ _ h')]
  · intro i hi a ha
    have := paired_one hp hn hK i hi fun x => if x = a then 1 else 0
    unfold modelProb
    rw [show spinProb n (boltzmann (words [1, -1] n) (pairE n (pairedParams n p K))) i a = ((words [1, -1] n).map fun s =>
      pairedWeight n p K s * if s.getD i 0 = a then 1 else 0).sum from list_sum_congr fun s hs => by
        rw [hb s hs]; split_ifs <;> simp, this]
    rcases ha with rfl | rfl <;> simp
  · have key : ∀ i j, i < j → j < n → K i j → ∀ a b : ℤ, a = 1 ∨ a = -1 → b = 1 ∨ b = -1 →
        pairProb n (modelProb n (pairedParams n p K)) i j a b = pairProb n p i j a b := by
      intro i j hij hj hk a b ha hb'
      have := paired_linked hp hn hK i j hij hj hk fun x y => if x = a ∧ y = b then 1 else 0
      unfold modelProb
      rw [show pairProb n (boltzmann (words [1, -1] n) (pairE n (pairedParams n p K))) i j a b = ((words [1, -1] n).map fun s =>
        pairedWeight n p K s * if s.getD i 0 = a ∧ s.getD j 0 = b then 1 else 0).sum from list_sum_congr fun s hs => by
          rw [hb s hs]; split_ifs <;> simp, this]
      rcases ha with rfl | rfl <;> rcases hb' with rfl | rfl <;> simp
    intro i hi j hj hij a b ha hb'
    rcases lt_or_gt_of_ne (hK.ne _ _ hij) with h | h
    · exact key i j h hj hij a b ha hb'
    · rw [pairProb_swap, key j i h hi (hK.symm _ _ hij) b a hb' ha, pairProb_swap]
  · intro i hi j hj hij hno a b ha hb'
    have := paired_unlinked hp hn hK i j hi hj hij hno fun x y => if x = a ∧ y = b then 1 else 0
    unfold modelProb
    rw [show pairProb n (boltzmann (words [1, -1] n) (pairE n (pairedParams n p K))) i j a b = ((words [1, -1] n).map fun s =>
      pairedWeight n p K s * if s.getD i 0 = a ∧ s.getD j 0 = b then 1 else 0).sum from list_sum_congr fun s hs => by
        rw [hb s hs]; split_ifs <;> simp, this]
    rcases ha with rfl | rfl <;> rcases hb' with rfl | rfl <;> simp
  · exact hent.symm

/-! ### Growing samples -/

/-- The cluster expansion of the sample `X` with threshold `T` returns parameters within `ε` of `θ` and an entropy within `ε` of
`S`. -/
def ClusterFinds (n : ℕ) (θ : List ℝ) (S T ε : ℝ) (X : Data) : Prop :=
  ∀ (mc : Machine) (lsq : (List ℝ → Py (List ℝ)) → List ℝ → Py (List ℝ)), ExactLsq lsq → ∀ (ns : Option ℕ) (size rng : ℕ),
    ∃ o x ent levels, clusterInit mc (.data n X) none .ising size rng = .ok o ∧
      clusterObjSolve lsq o T none 0 ns false true = .ok (x, ent, levels) ∧ Near ε x θ ∧ |ent - S| < ε

theorem entropy_near (n : ℕ) (θ : List ℝ) (hθ : θ.length = n + n * (n - 1) / 2) (ε : ℝ) (hε : 0 < ε) :
    ∃ η, 0 < η ∧ ∀ v, Near η v θ → |entropy (words [-1, 1] n) (boltzmann (words [-1, 1] n) (pairE n v)) -
      entropy (words [-1, 1] n) (boltzmann (words [-1, 1] n) (pairE n θ))| < ε := by
  have hθ' : θ.length = (orderTuples n 2).length := hθ.trans (length_orders_two n).symm
  have hc : Continuous fun u : Fin (orderTuples n 2).length → ℝ =>
      entropy (words [-1, 1] n) (boltzmann (words [-1, 1] n) (orderLin n 2 u)) := by
    have hE : ∀ s, Continuous fun u => Real.exp (-orderLin n 2 u s) := fun s =>
      Real.continuous_exp.comp (continuous_energy (orderLin n 2) s).neg
    have hb : ∀ s, Continuous fun u => boltzmann (words [-1, 1] n) (orderLin n 2 u) s := by
      intro s
      unfold boltzmann partition
      exact Continuous.div (hE s) (continuous_list_sum _ fun s _ => hE s) fun u =>
        (partition_pos _ (orderLin n 2 u) (words_pm_ne n)).ne'
    unfold entropy
    refine (continuous_list_sum _ fun s _ => (hb s).mul ((hb s).log fun u => ?_)).neg
    exact (div_pos (Real.exp_pos _) (partition_pos _ (orderLin n 2 u) (words_pm_ne n))).ne'
  obtain ⟨η, hη, h⟩ := Metric.continuous_iff.1 hc (fun i => θ.getD i 0) ε hε
  refine ⟨η, hη, fun v hv => ?_⟩
  have hvl := hv.1.trans hθ
  have := h (fun i => v.getD i 0) (by
    rw [dist_pi_lt_iff hη]
    intro i
    rw [Real.dist_eq]
    exact hv.2 i (by rw [hθ']; exact i.2))
  rw [Real.dist_eq, ← orderLin_apply, ← orderLin_apply, ofFn_getD v (hv.1.trans hθ'), ofFn_getD θ hθ'] at this
  rw [pairE_order n v hvl, pairE_order n θ hθ]
  exact this

theorem entropy_pm (n : ℕ) (E : List ℤ → ℝ) : entropy (words [-1, 1] n) (boltzmann (words [-1, 1] n) E) =
    entropy (words [1, -1] n) (boltzmann (words [1, -1] n) E) := by
  have : boltzmann (words ([-1, 1] : List ℤ) n) E = boltzmann (words [1, -1] n) E := by
    exact (boltzmann_pm n E).symm
  unfold entropy
  rw [this]
  exact congrArg _ ((words_pm_perm n).symm.map _).sum_eq

/-- C125: with a negative threshold nothing is dropped, and the cluster expansion finds the parameters and the entropy of every
pairwise model from samples that are close to it. -/
theorem C125_consistency (n : ℕ) (hn : 2 ≤ n) (θ : List ℝ) (hθ : θ.length = n + n * (n - 1) / 2) (T : ℝ) (hT : T < 0) (ε : ℝ)
    (hε : 0 < ε) : ∃ δ, 0 < δ ∧ ∀ X, CloseFreq n θ δ X →
      ClusterFinds n θ (entropy (words [1, -1] n) (modelProb n θ)) T ε X := by
  obtain ⟨η, hη, h₀⟩ := entropy_near n θ hθ ε hε
  obtain ⟨δ₁, hδ₁, h₁⟩ := C119_likelihood n (by omega) θ hθ (min ε η) (lt_min hε hη)
  obtain ⟨δ₂, hδ₂, h₂⟩ := CloseFreq.full n θ
  refine ⟨min δ₁ δ₂, lt_min hδ₁ hδ₂, fun X hX mc lsq hlsq ns size rng => ?_⟩
  obtain ⟨v, hv, hu⟩ := h₁ X (hX.mono (min_le_left _ _))
  have hfull := h₂ X (hX.mono (min_le_right _ _))
  obtain ⟨M, x, ent, levels, a1, a2, a3, a4, a5, a6⟩ := C82_solve lsq hlsq n hn X (fun r hr => mem_words_pm.1 (hX.2.1 r hr))
    hfull T hT ns
  obtain ⟨o, ho, hos⟩ := cluster_object mc lsq n X hX.1 T ns size rng M a1
  have hx : x = v := (hu x a3).1 ⟨a4, fun i j hij hj => a5 i (by omega) j hj⟩
  refine ⟨o, x, ent, levels, ho, hos.trans a2, hx ▸ ⟨hv.1, fun i hi => (hv.2 i hi).trans_le (min_le_left _ _)⟩, ?_⟩
  have := h₀ x (hx ▸ ⟨hv.1, fun i hi => (hv.2 i hi).trans_le (min_le_right _ _)⟩)
  rw [a6]
  unfold modelProb
  rw [← entropy_pm n (pairE n θ)]
  exact this

/-- C125: for every model and every threshold that keeps disjoint pairs of the model and is not the mutual information of two of
its spins, the fits approach the model of the pairs that are kept, not the model itself. For samples close to the model the same
pairs are kept, and the couplings of the others are exactly 0. -/
theorem C125_limit (n : ℕ) (hn : 2 ≤ n) (θ : List ℝ) (T : ℝ) (hT : ∀ i < n, ∀ j < n, i ≠ j → mutualInfo n (modelProb n θ) i j ≠ T)
    (hdis : Disjointed n (Linked n (modelProb n θ) T)) (ε : ℝ) (hε : 0 < ε) :
    ∃ δ, 0 < δ ∧ ∀ X, CloseFreq n θ δ X →
      ClusterFinds n (pairedParams n (modelProb n θ) (Linked n (modelProb n θ) T))
        (entropy (words [1, -1] n) (modelProb n (pairedParams n (modelProb n θ) (Linked n (modelProb n θ) T)))) T ε X := by
  classical
  rw [← eventually_close]
  have hmp : modelProb n θ = pairP n θ := rfl
  rw [hmp] at hT hdis ⊢
  have hK := linked_pairing hdis
  obtain ⟨K, hKe⟩ : ∃ K, K = Linked n (pairP n θ) T := ⟨_, rfl⟩
  rw [← hKe] at hK hdis ⊢
  have hpar : ∀ᶠ X in closeFilter n θ, ∀ k < (pairedParams n (pairP n θ) K).length,
      |(pairedParams n (stateFreq X) K).getD k 0 - (pairedParams n (pairP n θ) K).getD k 0| < ε := by
    refine eventually_all _ fun k _ => ?_
    have := (Metric.tendsto_nhds.1 (tendsto_params (θ := θ) hn hK.ne k)) ε hε
    filter_upwards [this] with X hX
    rwa [Real.dist_eq] at hX
  have hent : ∀ᶠ X in closeFilter n θ, |(∑ i ∈ Finset.range n, siteEntropy n (stateFreq X) i -
      ∑ i ∈ Finset.range n, ∑ j ∈ Finset.range n, (if i < j then (if K i j then mutualInfo n (stateFreq X) i j else 0) else 0)) -
      entropy (words [1, -1] n) (modelProb n (pairedParams n (pairP n θ) K))| < ε := by
    have : Tendsto (fun X => ∑ i ∈ Finset.range n, siteEntropy n (stateFreq X) i -
      ∑ i ∈ Finset.range n, ∑ j ∈ Finset.range n, (if i < j then (if K i j then mutualInfo n (stateFreq X) i j else 0) else 0))
      (closeFilter n θ) (𝓝 (entropy (words [1, -1] n) (modelProb n (pairedParams n (pairP n θ) K)))) := by
      unfold modelProb
      rw [entropy_paired (pairP_positive n θ) hn hK]
      refine (tendsto_finsetSum _ fun i hi => tendsto_siteEntropy hn i (Finset.mem_range.1 hi)).sub
        (tendsto_finsetSum _ fun i hi => tendsto_finsetSum _ fun j hj => ?_)
      by_cases h : i < j
      · simp only [if_pos h]
        by_cases hk : K i j
        · simp only [if_pos hk]
          exact tendsto_mutualInfo hn i j (Finset.mem_range.1 hi) (Finset.mem_range.1 hj) h.ne
        · simp only [if_neg hk]
          exact tendsto_const_nhds
      · simp only [if_neg h]
        exact tendsto_const_nhds
    have := (Metric.tendsto_nhds.1 this) ε hε
    filter_upwards [this] with X hX
    rwa [Real.dist_eq] at hX
  filter_upwards [hpar, hent, eventually_rows, eventually_positive, eventually_linked hn T hT] with X h1 h2 h3 hp h5
  intro mc lsq hlsq ns size rng
  rw [← hKe] at h5
  have hdX : Disjointed n (Linked n (stateFreq X) T) := fun i hi j hj k hk a b =>
    hdis i hi j hj k hk ((h5 i hi j hj).1 a) ((h5 i hi k hk).1 b)
  obtain ⟨M, levels, hM, hs, -⟩ := cluster_pairs lsq hlsq n hn X h3.1 h3.2 hp T hdX ns
  obtain ⟨o, ho, hos⟩ := cluster_object mc lsq n X h3.1 T ns size rng M hM
  refine ⟨o, _, _, levels, ho, hos.trans hs, ?_, ?_⟩
  · rw [pairedParams_congr n (stateFreq X) h5]
    exact ⟨(length_pairedParams n _ K).trans (length_pairedParams n _ K).symm, h1⟩
  · refine lt_of_eq_of_lt ?_ h2
    congr 2
    congr 1
    refine Finset.sum_congr rfl fun i hi => Finset.sum_congr rfl fun j hj => ?_
    simp only [h5 i (Finset.mem_range.1 hi) j (Finset.mem_range.1 hj)]

/-! ### Models with disjoint couplings -/

/-- The coupled pairs of a model. -/
def Coupled (n : ℕ) (θ : List ℝ) (i j : ℕ) : Prop := i ≠ j ∧ couplingOf n (θ.drop n) i j ≠ 0

/-- The threshold is negative, or it is positive, no spin of the model is coupled with two others, and the coupled pairs have
larger mutual informations than the threshold. -/
def Recoverable (n : ℕ) (θ : List ℝ) (T : ℝ) : Prop :=
  T < 0 ∨ (0 < T ∧ Disjointed n (Coupled n θ) ∧
    ∀ i < n, ∀ j < n, Coupled n θ i j → T < mutualInfo n (modelProb n θ) i j)

theorem coupled_pairing {n : ℕ} {θ : List ℝ} (h : Disjointed n (Coupled n θ)) : Pairing n (Coupled n θ) :=
  ⟨fun i j hij => ⟨hij.1.symm, by unfold couplingOf; rw [min_comm, max_comm]; exact hij.2⟩, fun i j hij => hij.1, h⟩

theorem coupledIn_coupled (n : ℕ) (θ : List ℝ) : CoupledIn n θ (Coupled n θ) := fun i _ j _ hij h => by
  by_contra h'
  exact h ⟨hij, h'⟩

/-- C125: the fits find the parameters and the entropy of the model if the threshold is below its mutual informations. -/
theorem C125_recovers (n : ℕ) (hn : 2 ≤ n) (θ : List ℝ) (hθ : θ.length = n + n * (n - 1) / 2) (T : ℝ) (hT : Recoverable n θ T)
    (ε : ℝ) (hε : 0 < ε) : ∃ δ, 0 < δ ∧ ∀ X, CloseFreq n θ δ X →
      ClusterFinds n θ (entropy (words [1, -1] n) (modelProb n θ)) T ε X := by
  rcases hT with hT | ⟨h0, hdis, hI⟩
  · exact C125_consistency n hn θ hθ T hT ε hε
  · have hK := coupled_pairing hdis
    have hin := coupledIn_coupled n θ
    have hun : ∀ i < n, ∀ j < n, i ≠ j → ¬ Coupled n θ i j → mutualInfo n (modelProb n θ) i j = 0 := fun i hi j hj hij h =>
      mutualInfo_uncoupled hn hθ hK hin i j hi hj hij h
    have hiff : ∀ i < n, ∀ j < n, (Linked n (modelProb n θ) T i j ↔ Coupled n θ i j) := by
      intro i hi j hj
      refine ⟨fun h => ?_, fun h => ⟨h.1, hI i hi j hj h⟩⟩
      by_contra h'
      have := h.2
      rw [hun i hi j hj h.1 h'] at this
      linarith
    have hne : ∀ i < n, ∀ j < n, i ≠ j → mutualInfo n (modelProb n θ) i j ≠ T := by
      intro i hi j hj hij
      by_cases h : Coupled n θ i j
      · exact (hI i hi j hj h).ne'
      · rw [hun i hi j hj hij h]
        exact h0.ne
    have hlim := C125_limit n hn θ T hne (fun i hi j hj k hk a b => hdis i hi j hj k hk ((hiff i hi j hj).1 a)
      ((hiff i hi k hk).1 b)) ε hε
    have hrec : pairedParams n (modelProb n θ) (Linked n (modelProb n θ) T) = θ := by
      rw [pairedParams_congr n (modelProb n θ) hiff]
      exact paired_recovers hn hθ hK hin
    rwa [hrec] at hlim

/-- C125: there is such a threshold for every model in which no spin is coupled with two others. -/
theorem C125_threshold (n : ℕ) (hn : 2 ≤ n) (θ : List ℝ)
    (hdis : Disjointed n (Coupled n θ)) : ∃ T₀, 0 < T₀ ∧ ∀ T, 0 < T → T < T₀ → Recoverable n θ T := by
  have hpos : ∀ i < n, ∀ j < n, Coupled n θ i j → 0 < mutualInfo n (modelProb n θ) i j := by
    intro i hi j hj hij
    refine mutualInfo_pos (pairP_positive n θ) hn i j hi hj hij.1 fun h => hij.2 ?_
    have hK := coupled_pairing hdis
    have hin := coupledIn_coupled n θ
    have a := log_ratio_duo hK hin i j hi hj hij 1 (by simp)
    have b := log_ratio_duo hK hin i j hi hj hij (-1) (by simp)
    have hp := pairP_positive n θ
    have lg : ∀ x y : ℤ, x = 1 ∨ x = -1 → y = 1 ∨ y = -1 → Real.log (pairProb n (pairP n θ) i j x y) =
        Real.log (spinProb n (pairP n θ) i x) + Real.log (spinProb n (pairP n θ) j y) := fun x y hx hy => by
      rw [h x y hx hy, Real.log_mul (spinProb_pos hp hn i hi x hx).ne' (spinProb_pos hp hn j hj y hy).ne']
    rw [lg 1 1 (by simp) (by simp), lg (-1) 1 (by simp) (by simp)] at a
    rw [lg 1 (-1) (by simp) (by simp), lg (-1) (-1) (by simp) (by simp)] at b
    push_cast at a b
    linarith
  obtain ⟨T₀, hT₀, h⟩ : ∃ T₀, 0 < T₀ ∧ ∀ i < n, ∀ j < n, Coupled n θ i j → T₀ ≤ mutualInfo n (modelProb n θ) i j := by
    classical
    obtain ⟨S, hS⟩ : ∃ S : Finset (ℕ × ℕ), S = (Finset.range n ×ˢ Finset.range n).filter fun q => Coupled n θ q.1 q.2 := ⟨_, rfl⟩
    have hmem : ∀ q ∈ S, 0 < mutualInfo n (modelProb n θ) q.1 q.2 := by
      intro q hq
      rw [hS, Finset.mem_filter, Finset.mem_product, Finset.mem_range, Finset.mem_range] at hq
      exact hpos q.1 hq.1.1 q.2 hq.1.2 hq.2
    rcases S.eq_empty_or_nonempty with h0 | hne
    · refine ⟨1, one_pos, fun i hi j hj hij => ?_⟩
      have : (i, j) ∈ S := by
        rw [hS, Finset.mem_filter, Finset.mem_product, Finset.mem_range, Finset.mem_range]
        exact ⟨⟨hi, hj⟩, hij⟩
      rw [h0] at this
      exact absurd this (Finset.notMem_empty _)
    · obtain ⟨q, hq, hmin⟩ := S.exists_min_image (fun q => mutualInfo n (modelProb n θ) q.1 q.2) hne
      refine ⟨_, hmem q hq, fun i hi j hj hij => hmin (i, j) ?_⟩
      rw [hS, Finset.mem_filter, Finset.mem_product, Finset.mem_range, Finset.mem_range]
      exact ⟨⟨hi, hj⟩, hij⟩
  exact ⟨T₀, hT₀, fun T h0 hT => Or.inr ⟨h0, hdis, fun i hi j hj hij => hT.trans_le (h i hi j hj hij)⟩⟩

/-- C125: if the threshold keeps disjoint pairs of the model and two spins have a smaller mutual information, then their coupling
in the fits is exactly 0 for all samples close to the model, whatever it is in the model. -/
theorem C125_cut (n : ℕ) (hn : 2 ≤ n) (θ : List ℝ) (T : ℝ) (hT : ∀ i < n, ∀ j < n, i ≠ j → mutualInfo n (modelProb n θ) i j ≠ T)
    (hdis : Disjointed n (Linked n (modelProb n θ) T)) : ∃ δ, 0 < δ ∧ ∀ X, CloseFreq n θ δ X →
      ∀ (mc : Machine) (lsq : (List ℝ → Py (List ℝ)) → List ℝ → Py (List ℝ)), ExactLsq lsq → ∀ (ns : Option ℕ) (size rng : ℕ),
      ∃ o x ent levels, clusterInit mc (.data n X) none .ising size rng = .ok o ∧
        clusterObjSolve lsq o T none 0 ns false true = .ok (x, ent, levels) ∧
        ∀ i < n, ∀ j < n, i ≠ j → mutualInfo n (modelProb n θ) i j < T → couplingOf n (x.drop n) i j = 0 := by
  rw [← eventually_close]
  filter_upwards [eventually_rows, eventually_positive, eventually_linked hn T hT] with X h3 hp h5
  intro mc lsq hlsq ns size rng
  have hdX : Disjointed n (Linked n (stateFreq X) T) := fun i hi j hj k hk a b =>
    hdis i hi j hj k hk ((h5 i hi j hj).1 a) ((h5 i hi k hk).1 b)
  have hmet : PairsMet n X := by
    intro i hi j hj hij a b ha hb
    by_contra hno
    push Not at hno
    refine (hp.pos i hi j hj hij a b ha hb).ne' ?_
    unfold pairProb
    refine List.sum_eq_zero fun y hy => ?_
    obtain ⟨s, -, rfl⟩ := List.mem_map.1 hy
    split_ifs with h
    · unfold stateFreq
      rw [List.count_eq_zero.2 fun hs => hno s hs h.1 h.2]
      simp
    · rfl
  obtain ⟨o, x, ent, levels, a1, a2, -, -, -, a6, -⟩ := C125_result mc lsq hlsq n hn X h3.2 hmet T hdX ns size rng
  exact ⟨o, x, ent, levels, a1, a2, fun i hi j hj hij h => a6 i hi j hj hij fun h' =>
    absurd ((h5 i hi j hj).1 h').2 (not_lt.2 h.le)⟩

/-! ### Random samples -/

open scoped Classical in
/-- C125: the guide's experiment with a cluster expansion. Draw a sample by the guide's recipe and fit it: the probability that the
fit raises, or returns a parameter or an entropy that is off by `ε` or more, is at most `K` divided by the number of rows. -/
theorem C125_guide (n : ℕ) (hn : 2 ≤ n) (h30 : n ≤ 30) (θ : List ℝ) (hθ : θ.length = n + n * (n - 1) / 2) (T : ℝ)
    (hT : Recoverable n θ T) (ε : ℝ) (hε : 0 < ε) :
    ∃ K, ∀ e, PairModule n e → ∀ size : ℕ, 0 < size →
      prob (guideData e n size θ) (fun X => ¬ ClusterFinds n θ (entropy (words [1, -1] n) (modelProb n θ)) T ε X) ≤ K / size := by
  obtain ⟨δ, hδ, h⟩ := C125_recovers n hn θ hθ T hT ε hε
  refine ⟨1 / δ ^ 2, fun e he size hs => ?_⟩
  have hK := C120_frequencies n (by omega) h30 e he θ hθ size hs _ hδ
  rw [div_div, mul_comm (δ ^ 2)]
  refine le_trans ?_ hK
  rw [guideData_eq n (by omega) e he θ hθ]
  refine (finDist_guideSample n (by omega) h30 _ (boltz_nonneg n (pairE n θ)) (boltz_sum n (pairE n θ)) size).mono fun X _ => ?_
  by_cases hX : CloseFreq n θ δ X
  · rw [if_neg (not_not.2 (h X hX))]
    split_ifs <;> norm_num
  · rw [if_pos hX]
    split_ifs <;> norm_num

open scoped Classical in
/-- C125: the same for samples drawn by `sample_ising`, for every number of iterations between samples but 0 and every burn-in,
if not all parameters are zero. -/
theorem C125_sample (n : ℕ) (hn : 2 ≤ n) (θ : List ℝ) (hθ : θ.length = n + n * (n - 1) / 2) (hx : ∃ x ∈ θ, x ≠ 0) (T : ℝ)
    (hT : Recoverable n θ T) (ε : ℝ) (hε : 0 < ε) :
    ∃ K, ∀ (mc : Machine), 0 < mc.cpus → ∀ a : IsingArg ℝ,
      (a = .vec θ ∨ ∃ h J, a = .parts [h, J] ∧ h ++ J = θ) → ∀ (size : ℕ) (parallel : Bool) (nIters : ℕ)
      (burnIn : Option ℕ), 0 < size → 0 < nIters →
      prob (sampleIsing mc a size parallel nIters burnIn)
        (fun X => ¬ ClusterFinds n θ (entropy (words [1, -1] n) (modelProb n θ)) T ε X) ≤
          (if parallel then (mc.cpus : ℝ) else 1) * K / size := by
  obtain ⟨δ, hδ, h⟩ := C125_recovers n hn θ hθ T hT ε hε
  obtain ⟨K, hK⟩ := sample_close n (by omega) θ hθ hx δ hδ
  refine ⟨K, fun mc hc a ha size parallel nIters burnIn hs hk => ?_⟩
  refine le_trans ?_ (hK mc hc a ha size parallel nIters burnIn hs hk)
  refine (finDist_sampleIsing mc hc n (by omega) θ hθ hx a ha size hs parallel nIters burnIn).mono fun X _ => ?_
  by_cases hX : CloseFreq n θ δ X
  · rw [if_neg (not_not.2 (h X hX))]
    split_ifs <;> norm_num
  · rw [if_pos hX]
    split_ifs <;> norm_num

/-! ### The hypotheses can be met -/

/-- Two spins that agree more often than not: their mutual information is positive, so that the threshold 0 keeps the pair. -/
example : (∀ r ∈ ([[1, 1], [1, 1], [-1, -1], [1, -1], [-1, 1]] : Data), r ∈ words [1, -1] 2) ∧
    PairsMet 2 [[1, 1], [1, 1], [-1, -1], [1, -1], [-1, 1]] ∧
    Disjointed 2 (Linked 2 (stateFreq [[1, 1], [1, 1], [-1, -1], [1, -1], [-1, 1]]) 0) ∧
    Linked 2 (stateFreq [[1, 1], [1, 1], [-1, -1], [1, -1], [-1, 1]]) 0 0 1 := by
  have hX : ∀ r ∈ ([[1, 1], [1, 1], [-1, -1], [1, -1], [-1, 1]] : Data), r ∈ words [1, -1] 2 := by decide
  have hm : PairsMet 2 [[1, 1], [1, 1], [-1, -1], [1, -1], [-1, 1]] := by
    intro i hi j hj hij a b ha hb
    interval_cases i <;> interval_cases j <;> rcases ha with rfl | rfl <;> rcases hb with rfl | rfl <;> simp_all
  refine ⟨hX, hm, ?_, by norm_num, ?_⟩
  · intro i hi j hj k hk a b
    have := a.1
    have := b.1
    omega
  · refine mutualInfo_pos (stateFreq_positive (by simp) hX hm) (by norm_num) 0 1 (by norm_num) (by norm_num) (by norm_num)
      fun h => ?_
    have h11 := h 1 1 (by simp) (by simp)
    simp [pairProb, spinProb, stateFreq, words] at h11
    norm_num at h11

/-- Four spins, two coupled pairs: there is a positive threshold for which the fits find the model. -/
example : ∃ T, 0 < T ∧ Recoverable 4 [0, 1, 0, 0, 2, 0, 0, 0, 0, -1] T := by
  have hc : ∀ i < 4, ∀ j < 4, Coupled 4 [0, 1, 0, 0, 2, 0, 0, 0, 0, -1] i j → j = if i < 2 then 1 - i else 5 - i := by
    intro i hi j hj h
    obtain ⟨h1, h2⟩ := h
    interval_cases i <;> interval_cases j <;> simp_all [couplingOf, couplingAt]
    all_goals
      revert h2
      first
      | rw [show List.idxOf (0, 2) (upperPairs 4) = 1 from by decide]
      | rw [show List.idxOf (0, 3) (upperPairs 4) = 2 from by decide]
      | rw [show List.idxOf (1, 2) (upperPairs 4) = 3 from by decide]
      | rw [show List.idxOf (1, 3) (upperPairs 4) = 4 from by decide]
      simp
  obtain ⟨T₀, h0, h⟩ := C125_threshold 4 (by norm_num) [0, 1, 0, 0, 2, 0, 0, 0, 0, -1] (by
    intro i hi j hj k hk a b
    rw [hc i hi j hj a, hc i hi k hk b])
  exact ⟨T₀ / 2, by linarith, h _ (by linarith) (by linarith)⟩

/-- Two coupled spins and a threshold above their mutual information. -/
example : ∃ T, (∀ i < 2, ∀ j < 2, i ≠ j → mutualInfo 2 (modelProb 2 [0, 0, 1]) i j ≠ T) ∧
    Disjointed 2 (Linked 2 (modelProb 2 [0, 0, 1]) T) ∧ mutualInfo 2 (modelProb 2 [0, 0, 1]) 0 1 < T := by
  have hc : ∀ i < 2, ∀ j < 2, i ≠ j → mutualInfo 2 (modelProb 2 [0, 0, 1]) i j = mutualInfo 2 (modelProb 2 [0, 0, 1]) 0 1 := by
    intro i hi j hj hij
    interval_cases i <;> interval_cases j
    · exact absurd rfl hij
    · rfl
    · exact mutualInfo_comm _ _ _ _
    · exact absurd rfl hij
  refine ⟨mutualInfo 2 (modelProb 2 [0, 0, 1]) 0 1 + 1, fun i hi j hj hij => ?_, fun i hi j hj k hk a b => ?_, by linarith⟩
  · rw [hc i hi j hj hij]
    linarith
  · have := a.1
    have := b.1
    omega

example : ∃ lsq, ExactLsq lsq := ⟨_, rootOrRaise_exact⟩

end Verif.Props
