/-
The objects that RegularizedMeanField makes from data, and the statistics of the data.
-/
import Verif.Lemmas.RmfHistory
import Verif.Props.PseudoObj

namespace Verif.Lemmas
open Verif Verif.Model Verif.Spec Verif.Props Prog

/-- The model that the constructor makes. -/
def rmfModel (mc : Machine) (n size rng : ℕ) : ModelObj :=
  ⟨.ising, n, List.replicate (n + n * (n - 1) / 2) 0, mc.eqns .ising n, List.replicate (n + n * (n - 1) / 2) 0, rng,
    some ⟨.ising, n, List.replicate (n + n * (n - 1) / 2) 0, rng, mc.ext, mc.cpus, none, none⟩, chars! "metropolis", size, none⟩

theorem rmf_made (mc : Machine) (n : ℕ) (X : Data) (hne : X ≠ []) (obs : ObsArg) (size rng : ℕ) (hs : 0 < size) :
    rmfInit mc (.data n X) none obs size rng = .ok ⟨some n, some X, rmfModel mc n size rng⟩ := by
  obtain ⟨c, hc⟩ := obsMeans_ok obs n X hne
  have hm : solverModel mc n none rng = .ok ⟨.ising, n, List.replicate (n + n * (n - 1) / 2) 0, mc.eqns .ising n,
      List.replicate (n + n * (n - 1) / 2) 0, rng, none, [], 0, none⟩ := by
    unfold solverModel modelInit
    dsimp only
    rw [zeros_init]
  have e : clusterInit mc (.data n X) none obs size rng = .ok ⟨some n, some X, rmfModel mc n size rng⟩ := by
    unfold clusterInit basicSetupObs
    dsimp only
    rw [hm]
    dsimp only
    rw [hc]
    dsimp only
    unfold ModelObj.setupSampler samplerInit
    rw [if_pos rfl]
    dsimp only
    unfold rmfModel
    simp [SolverArg.rows, Nat.add_comm]
  unfold rmfInit
  rw [if_neg (by omega), e]

theorem rmfModel_ready (mc : Machine) (n size rng : ℕ) : IsingReady mc n (rmfModel mc n size rng) := by
  have hm : modelInit mc .ising (.vec (List.replicate ((n * n + n) / 2) (0 : ℝ))) rng = .ok ⟨.ising, n,
      List.replicate (n + n * (n - 1) / 2) 0, mc.eqns .ising n, List.replicate (n + n * (n - 1) / 2) 0, rng, none, [], 0,
      none⟩ := by
    unfold modelInit
    dsimp only
    rw [zeros_init]
  refine ready_setup (size := size) (boost := true) (modelInv_init hm) (by simp) ?_
  unfold ModelObj.setupSampler samplerInit rmfModel
  rw [if_pos rfl]
  dsimp only
  simp [Nat.add_comm]

theorem varied_cooc {n : ℕ} (hn : 1 ≤ n) {X : List (List ℤ)} (hX : Varied n X) :
    ∃ M stdevs, aceCooc n X = some M ∧ M.HasShape n n ∧ coocStdevsFlat M X.length = .ok stdevs ∧
      (∀ i < n, ∀ j < n, M.at' i j = if i ≤ j then
        avg X fun r => ((r.getD i 0 : ℤ) + 1 : ℝ) / 2 * (((r.getD j 0 : ℤ) + 1) / 2) else 0) ∧
      (∀ i < n, 0 < M.at' i i ∧ M.at' i i < 1) ∧ ∀ i < n, ∀ j < n, 0 ≤ M.at' i j ∧ M.at' i j ≤ 1 := by
  obtain ⟨h1, h2, h3⟩ := hX
  obtain ⟨M, e, hs, hv⟩ := aceCooc_ok n X h2 fun r hr => (h1 r hr).1
  have hl : (0 : ℝ) < X.length := by
    have := List.length_pos_iff.2 h2
    exact_mod_cast this
  have hval : ∀ r ∈ X, ∀ i < n, ((r.getD i 0 : ℤ) + 1 : ℝ) / 2 = 0 ∨ ((r.getD i 0 : ℤ) + 1 : ℝ) / 2 = 1 := by
    intro r hr i hi
    obtain ⟨a, b⟩ := h1 r hr
    have hm : r.getD i 0 ∈ r := by
      rw [List.getD_eq_getElem _ _ (by omega)]; exact List.getElem_mem _
    rcases b _ hm with h | h <;> rw [h] <;> norm_num
  have hb : ∀ i < n, ∀ j < n, ∀ r ∈ X, 0 ≤ ((r.getD i 0 : ℤ) + 1 : ℝ) / 2 * (((r.getD j 0 : ℤ) + 1) / 2) ∧
      ((r.getD i 0 : ℤ) + 1 : ℝ) / 2 * (((r.getD j 0 : ℤ) + 1) / 2) ≤ 1 := by
    intro i hi j hj r hr
    rcases hval r hr i hi with a | a <;> rcases hval r hr j hj with b | b <;> rw [a, b] <;> norm_num
  have hsum : ∀ (f : List ℤ → ℝ) (Y : List (List ℤ)), (∀ r ∈ Y, 0 ≤ f r ∧ f r ≤ 1) →
      (0 ≤ (Y.map f).sum ∧ (Y.map f).sum ≤ Y.length) ∧ ((∃ r ∈ Y, f r = 1) → 0 < (Y.map f).sum) ∧
        ((∃ r ∈ Y, f r = 0) → (Y.map f).sum < Y.length) := by
    intro f Y
    induction Y with
    | nil => simp
    | cons y Y ih =>
      intro h
      obtain ⟨⟨i1, i2⟩, i3, i4⟩ := ih fun r hr => h r (List.mem_cons_of_mem _ hr)
      obtain ⟨y1, y2⟩ := h y List.mem_cons_self
      simp only [List.map_cons, List.sum_cons, List.length_cons, Nat.cast_add, Nat.cast_one]
      refine ⟨⟨by linarith, by linarith⟩, ?_, ?_⟩
      · rintro ⟨r, hr, e⟩
        rcases List.mem_cons.1 hr with rfl | hr
        · rw [e]; linarith
        · linarith [i3 ⟨r, hr, e⟩]
      · rintro ⟨r, hr, e⟩
        rcases List.mem_cons.1 hr with rfl | hr
        · rw [e]; linarith
        · linarith [i4 ⟨r, hr, e⟩]
  refine ⟨M, _, e, hs, coocStdevsFlat_eq hs hn (by simpa using h2), hv, fun i hi => ?_, fun i hi j hj => ?_⟩
  · rw [hv i hi i hi, if_pos le_rfl]
    obtain ⟨-, g1, g2⟩ := hsum _ X (hb i hi i hi)
    obtain ⟨⟨r, hr, er⟩, ⟨r', hr', er'⟩⟩ := h3 i hi
    unfold avg
    refine ⟨div_pos (g1 ⟨r, hr, by rw [er]; norm_num⟩) hl, ?_⟩
    rw [div_lt_one hl]
    exact g2 ⟨r', hr', by rw [er']; norm_num⟩
  · rw [hv i hi j hj]
    split_ifs
    · obtain ⟨⟨g1, g2⟩, -, -⟩ := hsum _ X (hb i hi j hj)
      exact ⟨div_nonneg g1 hl.le, by unfold avg; rwa [div_le_one hl]⟩
    · norm_num

end Verif.Lemmas
