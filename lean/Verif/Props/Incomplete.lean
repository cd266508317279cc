/-
C112: `MCHIncompleteData`: `solve` cannot return; what its learning step computes.
-/
import Verif.Lemmas.Incomplete

namespace Verif.Props
open Verif Verif.Model Verif.Spec Verif.Lemmas

/-- C112. `solve` raises for all arguments; for usable ones it is the missing attribute `self.sampler`. -/
theorem C112_never_returns (o : IncObj) (X : Option Data) (constraints guess : Option (List ℝ)) (cs ci : CondArg) :
    (∃ e, incSolve o X constraints guess cs ci = .error e) ∧
      ∀ Y c, X = some Y → constraints = some c → (∀ g, guess = some g → g.length = c.length) → cs.fn ≠ none → ci.fn ≠ none →
        incSolve o X constraints guess cs ci = .error .attributeError := by
  constructor
  · unfold incSolve
    rcases X with _ | Y
    · exact ⟨_, rfl⟩
    rcases constraints with _ | c
    · exact ⟨_, rfl⟩
    dsimp only
    split_ifs
    · exact ⟨_, rfl⟩
    · rcases cs.fn with _ | f
      · exact ⟨_, rfl⟩
      rcases ci.fn with _ | g
      · exact ⟨_, rfl⟩
      exact ⟨_, rfl⟩
  · rintro Y c rfl rfl hg h1 h2
    obtain ⟨f, hf⟩ := Option.ne_none_iff_exists'.1 h1
    obtain ⟨g, hg'⟩ := Option.ne_none_iff_exists'.1 h2
    unfold incSolve
    dsimp only
    rw [if_neg (by rintro ⟨g, h, hne⟩; exact hne (hg g h)), hf, hg']
    rfl

/-- C112. The object that the constructor makes has no samples, so `learn_parameters_mch` called on it raises if some row of
the data is complete, and else predicts zero for all observables whatever the change of the parameters. -/
theorem C112_fresh_object (mc : Machine) (a : SolverArg) (model : Option ModelObj) (size : ℕ) (boost : Bool) (rng : ℕ)
    (o : IncObj) (h : incInit mc a model size boost rng = .ok o) (n : ℕ) (X : Data) (hX : X ≠ []) (counts : List ℕ)
    (d : List ℝ) :
    ((∃ r ∈ X, 0 ∉ r) → incApprox n o (fullFraction X) counts d = .error .attributeError) ∧
    ((∀ r ∈ X, 0 ∈ r) → incApprox n o (fullFraction X) counts d = .ok (d.map fun _ => 0)) := by
  have ho : o.samples = none ∧ o.condSamples = [] := by
    unfold incInit at h
    rcases hm : mchInit mc a model size boost rng with e | m
    · rw [hm] at h
      cases h
    · rw [hm] at h
      rw [← Except.ok.inj h]
      exact ⟨rfl, rfl⟩
  have hl : (0 : ℝ) < X.length := by exact_mod_cast List.length_pos_of_ne_nil hX
  constructor
  · rintro ⟨r, hr, h0⟩
    have hlt : (incompleteRows X).length < X.length := by
      unfold incompleteRows
      exact List.length_filter_lt_length_iff_exists.2 ⟨r, hr, by simpa using h0⟩
    have hpos : fullFraction X > 0 := by
      unfold fullFraction
      refine div_pos ?_ hl
      have : ((incompleteRows X).length : ℝ) < X.length := by exact_mod_cast hlt
      linarith
    unfold incApprox incStart
    rw [if_pos hpos, ho.1]
  · intro hall
    have heq : incompleteRows X = X := by
      unfold incompleteRows
      exact List.filter_eq_self.2 fun r hr => by simpa using hall r hr
    have hz : fullFraction X = 0 := by
      unfold fullFraction
      rw [heq, sub_self, zero_div]
    unfold incApprox incStart
    rw [hz, if_neg (by simp), ho.2]
    rfl

/-- C112. With samples that fit the data (one of the whole model, and one for each distinct incomplete row, in the order of
the rows), the prediction after a change `d` is the mean over the rows of the data of the predictions for the rows: each made
by reweighting the sample of the whole model for complete rows and the conditional sample of the row for incomplete ones. -/
theorem C112_prediction {N : ℕ} {uniq : Data → Data} {X samples : Data} {o : IncObj} (h : IncFits N uniq X samples o)
    (d : List ℝ) (hd : d.length = N + N * (N - 1) / 2) :
    ∃ r, incApprox N o (fullFraction X) (incCounts uniq X) d = .ok r ∧ r.length = N + N * (N - 1) / 2 ∧
      ∀ a < N + N * (N - 1) / 2,
        r.getD a 0 = avg X (fun row => reweighted N
          (if 0 ∈ row then o.condSamples.getD ((incStates uniq X).idxOf row) [] else samples) d a) ∧ |r.getD a 0| ≤ 1 := by
  refine ⟨_, incApprox_eq h d hd, by simp, fun a ha => ?_⟩
  have hval : ((List.range (N + N * (N - 1) / 2)).map fun a =>
      avg X fun row => reweighted N (sampleFor uniq X samples o.condSamples row) d a).getD a 0 =
      avg X fun row => reweighted N (sampleFor uniq X samples o.condSamples row) d a := by
    rw [List.getD_eq_getElem _ _ (by simpa using ha), List.getElem_map, List.getElem_range]
  rw [hval]
  refine ⟨rfl, abs_avg_le h.data fun row hrow => reweighted_abs_le ?_ d hd a ha⟩
  unfold sampleFor
  split_ifs with h0
  · obtain ⟨-, -, c3, -⟩ := incCounts_eq h.distinct X
    have hm : row ∈ incStates uniq X := (c3 row).2 (by
      unfold incompleteRows
      exact List.mem_filter.2 ⟨hrow, by simpa using h0⟩)
    have hi : (incStates uniq X).idxOf row < o.condSamples.length := by
      rw [h.number]
      exact List.idxOf_lt_length_iff.2 hm
    rw [List.getD_eq_getElem _ _ hi]
    exact h.rows _ (List.getElem_mem hi)
  · exact (h.full ⟨row, hrow, h0⟩).2

/-- C112. The distinct incomplete rows of the data are listed once each, with the number of their occurrences. -/
theorem C112_states {uniq : Data → Data} (hu : UniqSpec uniq) (X : Data) :
    (incStates uniq X).Nodup ∧ (∀ u, u ∈ incStates uniq X ↔ u ∈ X ∧ 0 ∈ u) ∧
      (incCounts uniq X).length = (incStates uniq X).length ∧
      ∀ i (hi : i < (incStates uniq X).length), (incCounts uniq X).getD i 0 = (X.filter fun r => decide (r = (incStates uniq X)[i])).length := by
  obtain ⟨c1, c2, c3, -⟩ := incCounts_eq hu X
  have hm : ∀ u, u ∈ incStates uniq X ↔ u ∈ X ∧ 0 ∈ u := by
    intro u
    rw [c3]
    unfold incompleteRows
    rw [List.mem_filter]
    simp
  refine ⟨c2, hm, by rw [c1]; simp, fun i hi => ?_⟩
  rw [c1, List.getD_eq_getElem _ _ (by simpa using hi), List.getElem_map]
  have h0 := ((hm _).1 (List.getElem_mem hi)).2
  exact times_filter X _ _ (by simpa using h0)

/-- C112. One call of `learn_parameters_mch` with fitting samples returns, and moves no parameter by more than `maxdlamda`
plus one step. -/
theorem C112_learn {N : ℕ} {uniq : Data → Data} {X samples : Data} {o : IncObj} (h : IncFits N uniq X samples o)
    (est c mult : List ℝ) (a : LearnArgs) (hc : c.length = N + N * (N - 1) / 2) (hest : est.length = N + N * (N - 1) / 2)
    (hm : mult.length = N + N * (N - 1) / 2) (hpos : 0 ≤ a.maxdlamda) (hc1 : ∀ x ∈ c, |x| ≤ 1) (he1 : ∀ x ∈ est, |x| ≤ 1) :
    ∃ r, incLearn N o est (fullFraction X) (incCounts uniq X) c a mult = .ok r ∧
      ∀ i < N + N * (N - 1) / 2, |r.getD i 0 - mult.getD i 0| ≤ a.maxdlamda + |a.eta| * 2 := by
  have key := fun d hd => C112_prediction h d hd
  choose! g hg using key
  have get1 : ∀ l : List ℝ, l.length = N + N * (N - 1) / 2 → (∀ x ∈ l, |x| ≤ 1) → ∀ i < N + N * (N - 1) / 2, |l.getD i 0| ≤ 1 := by
    intro l hl hb i hi
    rw [List.getD_eq_getElem _ _ (by omega)]
    exact hb _ (List.getElem_mem _)
  have two : ∀ a b : ℝ, |a| ≤ 1 → |b| ≤ 1 → |a - b| ≤ 2 := fun a b ha hb => by
    have := abs_sub a b
    linarith
  exact C43_bounded_change _ g _ (fun d hd => ⟨(hg d hd).1, (hg d hd).2.1⟩) est c mult a hc hest hm hpos 2
    (fun i hi => two _ _ (get1 c hc hc1 i hi) (get1 est hest he1 i hi))
    fun d hd i hi => two _ _ (get1 c hc hc1 i hi) ((hg d hd).2.2 i hi).2

/-- The hypotheses are met: two spins, one complete row, one row with a missing spin that occurs twice. -/
example (m : MchObj) : IncFits 2 (fun v => v.dedup) [[1, 1], [1, 0], [1, 0]] [[1, 1], [-1, 1]] ⟨m, some [[1, 1], [-1, 1]], [[[1, 1], [1, -1]]]⟩ := by
  refine ⟨fun v => ⟨List.nodup_dedup v, fun x => List.mem_dedup⟩, by simp, fun _ => ⟨rfl, by simp, by decide⟩, ?_, ?_⟩
  · show 1 = _
    decide
  intro Y hY
  simp only [List.mem_singleton] at hY
  subst hY
  exact ⟨by simp, by decide⟩

end Verif.Props
