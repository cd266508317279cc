/-
Property C107: convergence of replica exchange (coniii/samplers.py ParallelTempering).
-/
import Verif.Lemmas.TemperErgodic2
import Verif.Lemmas.Mpf2
import Verif.Props.Sweep
import Verif.Props.Tempering

namespace Verif.Props
open Verif Verif.Model Verif.Spec Verif.Lemmas Filter

theorem visits_units {σ : Type} (step : σ → Prog σ) : ∀ (l : List Unit) (l' : List ℕ), l.length = l'.length → ∀ s,
    visits (fun _ : Unit => step) l s = visits (fun _ : ℕ => step) l' s := by
  intro l
  induction l with
  | nil => intro l' h s; cases l' with
    | nil => rfl
    | cons => simp at h
  | cons u l ih =>
    intro l' h s
    cases l' with
    | nil => simp at h
    | cons i l' =>
      simp only [visits]
      congr 1
      funext t
      rw [ih l' (by simpa using h)]

section
variable (calcE : List ℤ → List ℝ → ℝ) (theta beta : List ℝ)
  (hlin : ∀ s b, calcE s (theta.map (· * b)) = b * calcE s theta) (hb : ∀ b ∈ beta, b ≠ 0) (hR : 0 < beta.length)
  (n : ℕ) (hn : 0 < n) (nIters : ℕ)
include hlin hb hn

/-- The sample of the replicas is determined by the chain of their configurations. -/
theorem tempering_chain (G : List (List (List ℤ)) → ℝ) (m : ℕ) (reps : List Replica)
    (h : Consistent (calcE · theta) theta beta reps) (hw : ∀ s ∈ configs reps, s ∈ words [1, -1] n) :
    expectation (fun out => G out.1.1) (temperingSample calcE n nIters beta beta.length m reps) =
      expectation (fun tr => G (columns beta.length tr)) (visits (fun _ : ℕ => cfgFull calcE n nIters theta beta)
        (List.range m) (configs reps)) := by
  rw [expectation_tempering hlin hb hn G m reps h hw, visits_units _ _ (List.range m) (by simp)]

omit hlin hb hn in
theorem columns_row (R : ℕ) (tr : List (List (List ℤ))) (j : ℕ) (hj : j < R) :
    (columns R tr).getD j [] = tr.map fun c => c.getD j [] := by
  unfold columns
  rw [getD_map_range _ _ _ hj]

omit hlin hb hn in
theorem configs_mem (reps : List Replica) (h : Consistent (calcE · theta) theta beta reps)
    (hw : ∀ s ∈ configs reps, s ∈ words [1, -1] n) : configs reps ∈ words (words [1, -1] n) beta.length :=
  mem_words.2 ⟨by rw [configs, List.length_map, h.length_eq], hw⟩

include hR

/-- C107: late rows of the sample of each replica have approximately the Boltzmann distribution of its inverse
temperature, from all first configurations, if systematic sweeps connect any two states. -/
theorem C107_sample (hc : SweepsConnect (calcE · theta) n nIters) (j : ℕ) (hj : j < beta.length) (f : List ℤ → ℝ)
    (δ : ℝ) (hδ : 0 < δ) :
    ∃ M : ℕ, ∀ (m b : ℕ) (reps : List Replica), Consistent (calcE · theta) theta beta reps →
      (∀ s ∈ configs reps, s ∈ words [1, -1] n) → b < m → M ≤ b →
      |expectation (fun out => f ((out.1.1.getD j []).getD b []))
        (temperingSample calcE n nIters beta beta.length m reps) -
          expect (words [1, -1] n) (fun s => beta.getD j 0 * calcE s theta) f| < δ := by
  obtain ⟨r, h1, h2⟩ := (ergodic_cfgFull hlin hb hn hR hc).visits_rate fun c => f (c.getD j [])
  obtain ⟨M, hM⟩ := eventually_atTop.1 (h1.eventually (gt_mem_nhds hδ))
  refine ⟨M, fun m b reps h hw hbm hle => ?_⟩
  have hmem := configs_mem calcE theta beta n reps h hw
  have key := h2 m b [] hbm (configs reps) hmem
  have e1 := tempering_chain calcE theta beta hlin hb n hn nIters (fun rows => f ((rows.getD j []).getD b [])) m reps h hw
  have e2 : ((words (words ([1, -1] : List ℤ) n) beta.length).map fun c =>
      boltzmann (words (words [1, -1] n) beta.length) (totalE (calcE · theta) beta) c * f (c.getD j [])).sum =
      expect (words [1, -1] n) (fun s => beta.getD j 0 * calcE s theta) f := by
    rw [← expect_replica (calcE · theta) beta _ (words_ne_nil [1, -1] 1 (by simp) n) j hj f]
    exact expect_congr _ (totalE _ _) (replicaE _ _) _ _ (fun c hc => (replicaE_eq _ beta c (mem_words.1 hc).1).symm) fun _ _ => rfl
  rw [e1, ← e2]
  refine lt_of_le_of_lt ?_ (hM (b + 1) (by omega))
  refine le_of_eq_of_le ?_ key
  congr 2
  refine congrArg₂ expectation (funext fun tr => ?_) rfl
  rw [columns_row _ _ _ hj]
  congr 1
  exact List.getD_map tr [] (fun c => c.getD j [])

/-- C107: the average of a function over the rows of a replica approaches its Boltzmann mean at that inverse
temperature. -/
theorem C107_average (hc : SweepsConnect (calcE · theta) n nIters) (j : ℕ) (hj : j < beta.length) (f : List ℤ → ℝ) :
    ∃ K, ∀ (m : ℕ) (reps : List Replica), Consistent (calcE · theta) theta beta reps →
      (∀ s ∈ configs reps, s ∈ words [1, -1] n) → 0 < m →
      expectation (fun out => (((out.1.1.getD j []).map f).sum / m -
          expect (words [1, -1] n) (fun s => beta.getD j 0 * calcE s theta) f) ^ 2)
        (temperingSample calcE n nIters beta beta.length m reps) ≤ K / m := by
  have he := ergodic_cfgFull hlin hb hn hR hc
  obtain ⟨K, -, hK⟩ := he.visits_lln fun c => f (c.getD j [])
  refine ⟨K, fun m reps h hw hm => ?_⟩
  have hmem := configs_mem calcE theta beta n reps h hw
  have e2 : ((words (words ([1, -1] : List ℤ) n) beta.length).map fun c =>
      boltzmann (words (words [1, -1] n) beta.length) (totalE (calcE · theta) beta) c * f (c.getD j [])).sum =
      expect (words [1, -1] n) (fun s => beta.getD j 0 * calcE s theta) f := by
    rw [← expect_replica (calcE · theta) beta _ (words_ne_nil [1, -1] 1 (by simp) n) j hj f]
    exact expect_congr _ (totalE _ _) (replicaE _ _) _ _ (fun c hc => (replicaE_eq _ beta c (mem_words.1 hc).1).symm) fun _ _ => rfl
  have e1 := tempering_chain calcE theta beta hlin hb n hn nIters (fun rows => (((rows.getD j []).map f).sum / m -
          expect (words [1, -1] n) (fun s => beta.getD j 0 * calcE s theta) f) ^ 2) m reps h hw
  rw [e1]
  simp only [columns_row _ _ _ hj, List.map_map]
  have := hK m (configs reps) hmem
  rw [e2] at this
  exact average_of_sum (finDist_visits (ι := ℕ) he.fin (List.range m) (configs reps) hmem)
    (fun tr => (tr.map (f ∘ fun c => c.getD j [])).sum) _ K m hm this

/-- C107: hence the probability of a deviation of `δ` or more is at most `K` divided by the number of rows and `δ²`. -/
theorem C107_probability (hc : SweepsConnect (calcE · theta) n nIters) (j : ℕ) (hj : j < beta.length) (f : List ℤ → ℝ) :
    ∃ K, ∀ (δ : ℝ) (m : ℕ) (reps : List Replica), Consistent (calcE · theta) theta beta reps →
      (∀ s ∈ configs reps, s ∈ words [1, -1] n) → 0 < δ → 0 < m →
      prob (temperingSample calcE n nIters beta beta.length m reps) (fun out => δ ≤ |((out.1.1.getD j []).map f).sum / m -
          expect (words [1, -1] n) (fun s => beta.getD j 0 * calcE s theta) f|) ≤ K / m / δ ^ 2 := by
  obtain ⟨K, hK⟩ := C107_average calcE theta beta hlin hb hR n hn nIters hc j hj f
  refine ⟨K, fun δ m reps h hw hδ hm => ?_⟩
  have hmem := configs_mem calcE theta beta n reps h hw
  have he := ergodic_cfgFull hlin hb hn hR hc
  have h1 := hK m reps h hw hm
  rw [tempering_chain calcE theta beta hlin hb n hn nIters (fun rows => (((rows.getD j []).map f).sum / m -
          expect (words [1, -1] n) (fun s => beta.getD j 0 * calcE s theta) f) ^ 2) m reps h hw] at h1
  unfold prob
  rw [tempering_chain calcE theta beta hlin hb n hn nIters (fun rows => if δ ≤ |((rows.getD j []).map f).sum / m -
          expect (words [1, -1] n) (fun s => beta.getD j 0 * calcE s theta) f| then 1 else 0) m reps h hw]
  exact (finDist_visits (ι := ℕ) he.fin (List.range m) (configs reps) hmem).chebyshev
    (fun tr => (((columns beta.length tr).getD j []).map f).sum / m -
          expect (words [1, -1] n) (fun s => beta.getD j 0 * calcE s theta) f) δ _ hδ h1

omit hR

/-- C107: for all random numbers, the rows drawn at one time are, in some order, connected with the first
configurations. -/
theorem C107_trapped (m : ℕ) (reps : List Replica) (h : Consistent (calcE · theta) theta beta reps)
    (hw : ∀ s ∈ configs reps, s ∈ words [1, -1] n) :
    Returns (temperingSample calcE n nIters beta beta.length m reps) fun out => ∀ b < m, ∃ p, p.Perm (configs reps) ∧
      List.Forall₂ (Relation.ReflTransGen (SweepBond (calcE · theta) n nIters)) p
        (out.1.1.map fun rows => rows.getD b []) := by
  rw [temperingSample_visits]
  have inv := returns_visits (I := fun reps' => (Consistent (calcE · theta) theta beta reps' ∧
      ∀ s ∈ configs reps', s ∈ words [1, -1] n) ∧ ∃ p, p.Perm (configs reps) ∧
        List.Forall₂ (SweepClass (calcE · theta) n nIters) p (configs reps'))
    (fun _ : Unit => burnAndExchange calcE n nIters beta beta.length) ((List.range m).flatMap fun _ => [()])
    (fun _ _ s hs => returns_round_trap hlin hb hn (configs reps) s hs) reps
    ⟨⟨h, hw⟩, configs reps, .refl _, List.forall₂_same.2 fun _ _ => Relation.ReflTransGen.refl⟩
  refine returns_bind inv fun tr htr => returns_ret fun b hbm => ?_
  have hlen : tr.length = m := by rw [htr.1]; simp
  dsimp only
  rw [columns_tempering m reps tr hlen fun r hr => (htr.2 r hr).1.1.length_eq]
  have hm : tr[b]'(by omega) ∈ tr := List.getElem_mem _
  obtain ⟨⟨h1, -⟩, p, h2, h3⟩ := htr.2 _ hm
  refine ⟨p, h2, ?_⟩
  have e : ((columns beta.length (tr.map configs)).map fun rows => rows.getD b []) = configs (tr[b]'(by omega)) := by
    unfold columns
    rw [List.map_map]
    refine List.ext_getElem (by simp [configs, h1.length_eq]) fun j hj hj' => ?_
    rw [List.getElem_map, List.getElem_range, Function.comp, List.map_map, List.getD_eq_getElem _ _ (by
      rw [List.length_map]; omega), List.getElem_map, Function.comp, List.getD_eq_getElem _ _ hj']
  rw [e]
  exact h3

end

/-- Replicas that all hold the state `s`. -/
theorem replicas_at (calcE : List ℤ → List ℝ → ℝ) (theta beta : List ℝ)
    (hlin : ∀ s b, calcE s (theta.map (· * b)) = b * calcE s theta) (s : List ℤ) :
    ∃ reps, Consistent (calcE · theta) theta beta reps ∧ configs reps = List.replicate beta.length s := by
  have hl : (List.replicate beta.length s).length =
      (beta.map fun b => (⟨theta.map (· * b), [], none, [], 0⟩ : Replica)).length := by simp
  exact ⟨_, consistent_holding (calcE := calcE) hlin (beta := beta) (reps := beta.map fun b =>
    (⟨theta.map (· * b), [], none, [], 0⟩ : Replica)) (sync_iff.2 (by simp)) _ hl, configs_holding _ _ hl⟩

theorem eq_of_forall_replicate {r : List ℤ → List ℤ → Prop} {R : ℕ} {s : List ℤ} {p c : List (List ℤ)}
    (hp : p.Perm (List.replicate R s)) (h : List.Forall₂ r p c) : c.length = R ∧ ∀ t ∈ c, r s t := by
  rw [List.perm_replicate] at hp
  subst hp
  refine ⟨by rw [← h.length_eq, List.length_replicate], fun t ht => ?_⟩
  obtain ⟨j, hj, rfl⟩ := List.getElem_of_mem ht
  have := (List.forall₂_iff_get.1 h).2 j (by rw [h.length_eq]; exact hj) hj
  simpa using this

/-- C107: the condition is necessary as well: the rows of all replicas converge from all first configurations if and
only if systematic sweeps connect any two states. Exchanges of configurations do not help. -/
theorem C107_iff (calcE : List ℤ → List ℝ → ℝ) (theta beta : List ℝ)
    (hlin : ∀ s b, calcE s (theta.map (· * b)) = b * calcE s theta) (hb : ∀ b ∈ beta, b ≠ 0) (hR : 0 < beta.length)
    (n : ℕ) (hn : 0 < n) (nIters : ℕ) :
    (∀ j < beta.length, ∀ f : List ℤ → ℝ, ∀ δ > 0, ∃ M : ℕ, ∀ (m b : ℕ) (reps : List Replica),
      Consistent (calcE · theta) theta beta reps → (∀ s ∈ configs reps, s ∈ words [1, -1] n) → b < m → M ≤ b →
      |expectation (fun out => f ((out.1.1.getD j []).getD b []))
        (temperingSample calcE n nIters beta beta.length m reps) -
          expect (words [1, -1] n) (fun s => beta.getD j 0 * calcE s theta) f| < δ) ↔
    SweepsConnect (calcE · theta) n nIters := by
  refine ⟨fun hall s hs t ht => ?_, fun hc j hj f δ hδ =>
    C107_sample calcE theta beta hlin hb hR n hn nIters hc j hj f δ hδ⟩
  by_contra hcon
  obtain ⟨E0, hE0⟩ : ∃ E0 : List ℤ → ℝ, E0 = fun s => beta.getD 0 0 * calcE s theta := ⟨_, rfl⟩
  have h4 : 0 < expect (words [1, -1] n) E0 fun x => if x = t then 1 else 0 := by
    have hpos := boltzmann_pos (words [1, -1] n) E0 (List.ne_nil_of_mem ht)
    unfold expect
    have h0 : ∀ y ∈ (words ([1, -1] : List ℤ) n).map (fun x => boltzmann (words [1, -1] n) E0 x * if x = t then 1 else 0),
        0 ≤ y := by
      intro y hy
      obtain ⟨x, hx, rfl⟩ := List.mem_map.1 hy
      have := (hpos x).le
      split
      · rw [mul_one]; exact this
      · rw [mul_zero]
    have := List.single_le_sum h0 _ (List.mem_map.2 ⟨t, ht, rfl⟩)
    rw [if_pos rfl, mul_one] at this
    exact (hpos t).trans_le this
  obtain ⟨M, hM⟩ := hall 0 hR (fun x => if x = t then 1 else 0) _ h4
  obtain ⟨reps, h1, h2⟩ := replicas_at calcE theta beta hlin s
  have hw : ∀ x ∈ configs reps, x ∈ words ([1, -1] : List ℤ) n := by
    rw [h2]
    intro x hx
    rw [List.eq_of_mem_replicate hx]
    exact hs
  have h3 := hM (M + 1) M reps h1 hw (by omega) le_rfl
  have h5 : expectation (fun out : (List (List (List ℤ)) × List (List ℕ)) × List Replica =>
      if (out.1.1.getD 0 []).getD M [] = t then (1 : ℝ) else 0)
      (temperingSample calcE n nIters beta beta.length (M + 1) reps) = 0 := by
    refine expectation_certain _ (returns_mono (fun out h => ?_)
      (C107_trapped calcE theta beta hlin hb n hn nIters (M + 1) reps h1 hw))
    obtain ⟨p, hp, hf⟩ := h M (by omega)
    rw [h2] at hp
    obtain ⟨hlen, hall⟩ := eq_of_forall_replicate hp hf
    rw [List.length_map] at hlen
    refine if_neg fun e => hcon (hall t ?_)
    rw [← e]
    exact List.mem_map.2 ⟨_, by
      rw [List.getD_eq_getElem _ _ (by omega)]; exact List.getElem_mem _, rfl⟩
  rw [h5, zero_sub, abs_neg, hE0] at h3
  rw [hE0] at h4
  rw [abs_of_pos h4] at h3
  exact lt_irrefl _ h3

/-- Fields 0 and equal couplings. -/
noncomputable def equalTheta (n : ℕ) (J : ℝ) : List ℝ := List.replicate n 0 ++ List.replicate (n * (n - 1) / 2) J

theorem equalTheta_energy (n : ℕ) (J : ℝ) (s : List ℤ) (hs : s.length = n) :
    isingCalcERow (equalTheta n J) s = equalE n J s := by
  rw [isingCalcERow_vec n s hs _ (by simp [equalTheta])]
  unfold isingVecE equalE equalTheta
  rw [List.take_left' (by simp), List.drop_left' (by simp)]
  unfold isingE
  congr 1
  · congr 1
    refine Finset.sum_congr rfl fun i hi => ?_
    congr 1
    show (List.replicate n (0 : ℝ)).getD i 0 = 0
    rw [List.getD_eq_getElem _ _ (by simpa using Finset.mem_range.1 hi), List.getElem_replicate]
  · refine Finset.sum_congr rfl fun i _ => Finset.sum_congr rfl fun j hj => ?_
    split
    · rename_i hij
      have : couplingAt n (List.replicate (n * (n - 1) / 2) J) i j = J := by
        unfold couplingAt
        have hm := List.idxOf_lt_length_of_mem (mem_upperPairs.2 ⟨hij, Finset.mem_range.1 hj⟩)
        rw [length_upperPairs] at hm
        rw [List.getD_eq_getElem _ _ (by simpa using hm), List.getElem_replicate]
      rw [this]
      rfl
    · rfl

/-- C107: for an odd number of spins with equal couplings and no fields, and the default numbers of iterations (whole
sweeps), replicas that hold the state 1, -1, 1, ... keep it: for all random numbers all rows of all replicas are this
state. -/
theorem C107_equal_couplings_wrong (n : ℕ) (hodd : Odd n) (J : ℝ) (beta : List ℝ) (hb : ∀ b ∈ beta, b ≠ 0)
    (sweeps m : ℕ) (reps : List Replica) (h : Consistent (isingCalcERow (equalTheta n J)) (equalTheta n J) beta reps)
    (hw : ∀ s ∈ configs reps, s = altState n) :
    Returns (temperingSample (fun s th => isingCalcERow th s) n (n * sweeps) beta beta.length m reps) fun out =>
      out.1.1.length = beta.length ∧ ∀ rows ∈ out.1.1, rows = List.replicate m (altState n) := by
  have hlin : ∀ (s : List ℤ) (b : ℝ), isingCalcERow ((equalTheta n J).map (· * b)) s = b * isingCalcERow (equalTheta n J) s :=
    fun s b => C57_ising_linear (equalTheta n J) s b
  have hst : altState n ∈ words [1, -1] n := alternating_mem n
  have hcfg : configs reps = List.replicate beta.length (altState n) :=
    List.eq_replicate_iff.2 ⟨by rw [configs, List.length_map, h.length_eq], hw⟩
  have hw' : ∀ s ∈ configs reps, s ∈ words ([1, -1] : List ℤ) n := fun s hs => by rw [hw s hs]; exact hst
  refine returns_mono (fun out ho => ?_) (returns_and
    (C107_trapped (fun s th => isingCalcERow th s) (equalTheta n J) beta hlin hb n hodd.pos (n * sweeps) m reps h hw')
    (C57_sample_rows (fun s th => isingCalcERow th s) (equalTheta n J) beta hlin hb n hodd.pos (n * sweeps) m reps h hw'))
  obtain ⟨h1, h2, h3, -⟩ := ho
  refine ⟨h2, fun rows hrows => List.eq_replicate_iff.2 ⟨(h3 rows hrows).1, fun s hs => ?_⟩⟩
  obtain ⟨b, hbl, rfl⟩ := List.getElem_of_mem hs
  rw [(h3 rows hrows).1] at hbl
  obtain ⟨p, hp, hf⟩ := h1 b hbl
  rw [hcfg] at hp
  have := (eq_of_forall_replicate hp hf).2 rows[b] (List.mem_map.2 ⟨rows, hrows, List.getD_eq_getElem _ _ _⟩)
  refine alternating_isolated (q := sweeps) hodd (fun s => isingCalcERow (equalTheta n J) s) (fun s hs t ht hst => ?_) _ this
  rw [equalTheta_energy n J s (mem_words.1 hs).1, equalTheta_energy n J t (mem_words.1 ht).1]
  exact equalE_abs n J s hs t ht (by rw [hst, abs_neg])

example : ∃ reps, Consistent (isingCalcERow (equalTheta 3 1)) (equalTheta 3 1) [1 / 2, 1] reps ∧
    ∀ s ∈ configs reps, s = altState 3 := by
  obtain ⟨reps, h1, h2⟩ := replicas_at (fun s th => isingCalcERow th s) (equalTheta 3 1) [1 / 2, 1]
    (fun s b => C57_ising_linear _ s b) (altState 3)
  exact ⟨reps, h1, fun s hs => by rw [h2] at hs; exact List.eq_of_mem_replicate hs⟩

end Verif.Props
