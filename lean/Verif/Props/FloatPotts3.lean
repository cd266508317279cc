/-
Property C138 for the three-state Potts model: the tracked energy of the Metropolis sampler in floating point.
-/
import Verif.Lemmas.FloatPotts3
import Verif.Props.FloatMetropolis

namespace Verif.Props
open Verif Verif.Model Verif.Spec Verif.Lemmas FlArith

/-- C138 for the three-state Potts model: after any number of iterations the state is one of the model and the tracked energy differs
from the energy computed for the state by at most `ε (3 m + 4)`, where `m` bounds the energies. -/
theorem C138_potts3_energy (A : FlArith) (ε : ℝ) (h : Ieee A) (ha : Accurate A ε) (n : ℕ) (hn : 0 < n) (m : ℝ)
    (calcE : List ℤ → Fl) (hc : ∀ s ∈ words [0, 1, 2] n, ∃ e, calcE s = .num e ∧ A.rd e = e ∧ |e| ≤ m) (hm : m ≤ A.big / 8)
    (hε : ε * (3 * m + 4) ≤ 1) (systematic : Bool) (k : ℕ) (s : List ℤ) (hs : s ∈ words [0, 1, 2] n) :
    Returns (metroRunPotts3Fl A calcE n systematic k (s, calcE s)) fun r =>
      r.1 ∈ words [0, 1, 2] n ∧ ∃ x e, r.2 = .num x ∧ calcE r.1 = .num e ∧ |x - e| ≤ ε * (3 * m + 4) := by
  have hc' : CalcOk A calcE (words [0, 1, 2] n) m := by
    intro t ht
    obtain ⟨e, e1, e2, e3⟩ := hc t ht
    rw [e1]
    exact ⟨rfl, e2, e3⟩
  have hm0 : 0 ≤ m := (abs_nonneg _).trans (hc' s hs).2.2
  have hε0 := ha.nonneg
  have hstart : Tracks A ε m calcE (words [0, 1, 2] n) (s, calcE s) := by
    refine ⟨hs, _, (hc' s hs).1, (hc' s hs).2.1, ?_⟩
    rw [sub_self, abs_zero]
    positivity
  refine returns_mono (fun r hr => ?_) (returns_metroRunPotts3Fl h ha n hn hc' hm hε systematic k _ hstart)
  obtain ⟨r1, x, r2, -, r3⟩ := hr
  exact ⟨r1, x, _, r2, (hc' _ r1).1, r3⟩

/-- C138 for the three-state Potts model: there is a rate `r`, which depends only on the energy and the average, such that after at
least `K` iterations with updates at random sites averages are those of the Boltzmann distribution up to `r K` and the rounding errors
of `K` iterations only, however long the run. -/
theorem C138_potts3_rate (n : ℕ) (hn : 0 < n) (E : List ℤ → ℝ) (f : List ℤ → ℝ) (hf : ∀ s ∈ words [0, 1, 2] n, |f s| ≤ 1) :
    ∃ r : ℕ → ℝ, Filter.Tendsto r Filter.atTop (nhds 0) ∧ ∀ (A : FlArith) (ε m κ : ℝ) (calcE : List ℤ → Fl), Ieee A → Accurate A ε →
      (∀ s ∈ words [0, 1, 2] n, ∃ e, calcE s = .num e ∧ A.rd e = e ∧ |e| ≤ m ∧ |e - E s| ≤ κ) → m ≤ A.big / 8 →
      ε * (3 * m + 4) ≤ 1 → ∀ K k, K ≤ k → ∀ s ∈ words [0, 1, 2] n,
        |expectation (fun r => f r.1) (metroRunPotts3Fl A calcE n false k (s, calcE s)) - expect (words [0, 1, 2] n) E f| ≤
          r K + K * (2 * (ε * (5 * m + 8) + 2 * κ)) := by
  obtain ⟨r, -, h2, -, h4, -⟩ := (ergodic_potts3 n hn E).rate fun st => f st.1
  rw [sum_withE] at h4
  refine ⟨r, h2, ?_⟩
  intro A ε m κ calcE h ha hc hm hε K k hk s hs
  have hc' : CalcOk A calcE (words [0, 1, 2] n) m ∧ ∀ t ∈ words [0, 1, 2] n, |flNum (calcE t) - E t| ≤ κ := by
    refine ⟨fun t ht => ?_, fun t ht => ?_⟩ <;> obtain ⟨e, e1, e2, e3, e4⟩ := hc t ht <;> rw [e1]
    · exact ⟨rfl, e2, e3⟩
    · exact e4
  have hm0 : 0 ≤ m := (abs_nonneg _).trans (hc'.1 s hs).2.2
  have hε0 := ha.nonneg
  have hstart : Tracks A ε m calcE (words [0, 1, 2] n) (s, calcE s) := by
    refine ⟨hs, _, (hc'.1 s hs).1, (hc'.1 s hs).2.1, ?_⟩
    rw [sub_self, abs_zero]
    positivity
  obtain ⟨k', rfl⟩ := Nat.exists_eq_add_of_le hk
  have hrange : List.range (K + k') = List.range k' ++ (List.range K).map (k' + ·) := by
    rw [add_comm, List.range_add]
  unfold metroRunPotts3Fl
  rw [hrange]
  refine run_longer3 h ha n hn hc'.1 hm hε f _ _ _ (fun st hst => ?_) _ _ hstart
  have h5 := (run_law3 h ha E n hn hc'.1 hc'.2 hm hε f hf ((List.range K).map (k' + ·)) st hst).1
  have h6 := h4 ((List.range K).map (k' + ·)) (st.1, E st.1) (mem_withE.2 ⟨hst.1, rfl⟩)
  rw [List.length_map, List.length_range] at h5 h6
  refine (abs_sub_le _ (expectation (fun r => f r.1) (Prog.forEach (metroIter (sampleMetropolisPotts3 E) n false)
    ((List.range K).map (k' + ·)) (st.1, E st.1))) _).trans ?_
  have h11 : |expectation (fun r => f r.1) (Prog.forEach (metroIter (sampleMetropolisPotts3 E) n false)
    ((List.range K).map (k' + ·)) (st.1, E st.1)) - expect (words [0, 1, 2] n) E f| ≤ r K := h6
  linarith

/-- Non-vacuity of C138_potts3_energy: one spin, whose state is its energy. -/
example (k : ℕ) : Returns (metroRunPotts3Fl finestArith (fun s => .num ((s.getD 0 0 : ℤ) : ℝ)) 1 true k ([2], .num ((2 : ℤ) : ℝ)))
    fun r => r.1 ∈ words [0, 1, 2] 1 ∧ ∃ x, r.2 = .num x ∧ |x - ((r.1.getD 0 0 : ℤ) : ℝ)| ≤ 1 / 1000000000 := by
  have hw : ∀ s ∈ words [(0 : ℤ), 1, 2] 1, s.getD 0 0 = 0 ∨ s.getD 0 0 = 1 ∨ s.getD 0 0 = 2 := by decide
  have hrd : ∀ m : ℕ, finestArith.rd m = m := finest_nat
  refine returns_mono (fun r hr => ?_) (C138_potts3_energy finestArith (1 / 2 ^ 60) finestArith_ieee finestArith_accurate 1 one_pos 2
    (fun s => .num ((s.getD 0 0 : ℤ) : ℝ)) (fun s hs => ⟨_, rfl, ?_, ?_⟩) ?_ (by norm_num) true k [2] (by decide))
  · obtain ⟨h1, x, e, h2, h3, h4⟩ := hr
    refine ⟨h1, x, h2, ?_⟩
    injection h3 with h3
    rw [h3]
    exact h4.trans (by norm_num)
  · rcases hw s hs with e | e | e <;> rw [e]
    · exact_mod_cast hrd 0
    · exact_mod_cast hrd 1
    · exact_mod_cast hrd 2
  · rcases hw s hs with e | e | e <;> rw [e] <;> norm_num
  · show (2 : ℝ) ≤ 2 ^ 53 / 8
    norm_num

/-- Non-vacuity of C138_potts3_rate: the same spin, and the probability of state 0. -/
example : ∃ r : ℕ → ℝ, Filter.Tendsto r Filter.atTop (nhds 0) ∧ ∀ K k, K ≤ k →
    |expectation (fun r => if r.1 = [0] then 1 else 0) (metroRunPotts3Fl finestArith (fun s => .num ((s.getD 0 0 : ℤ) : ℝ)) 1 false k
      ([2], .num ((2 : ℤ) : ℝ))) - expect (words [0, 1, 2] 1) (fun s => ((s.getD 0 0 : ℤ) : ℝ)) (fun s => if s = [0] then 1 else 0)| ≤
      r K + K * (1 / 10000000000000000) := by
  have hw : ∀ s ∈ words [(0 : ℤ), 1, 2] 1, s.getD 0 0 = 0 ∨ s.getD 0 0 = 1 ∨ s.getD 0 0 = 2 := by decide
  have hrd : ∀ m : ℕ, finestArith.rd m = m := finest_nat
  obtain ⟨r, h1, h2⟩ := C138_potts3_rate 1 one_pos (fun s => ((s.getD 0 0 : ℤ) : ℝ)) (fun s => if s = [0] then 1 else 0)
    (fun s _ => by split <;> norm_num)
  refine ⟨r, h1, fun K k hk => ?_⟩
  refine (h2 finestArith (1 / 2 ^ 60) 2 0 (fun s => .num ((s.getD 0 0 : ℤ) : ℝ)) finestArith_ieee finestArith_accurate
    (fun s hs => ⟨_, rfl, ?_, ?_, by simp⟩) ?_ (by norm_num) K k hk [2] (by decide)).trans ?_
  · rcases hw s hs with e | e | e <;> rw [e]
    · exact_mod_cast hrd 0
    · exact_mod_cast hrd 1
    · exact_mod_cast hrd 2
  · rcases hw s hs with e | e | e <;> rw [e] <;> norm_num
  · show (2 : ℝ) ≤ 2 ^ 53 / 8
    norm_num
  · exact add_le_add le_rfl (mul_le_mul_of_nonneg_left (by norm_num) (Nat.cast_nonneg K))

end Verif.Props
