import Verif.Lemmas.Sweep
import Verif.Lemmas.ChainRows

namespace Verif.Lemmas
open Verif Verif.Model Verif.Spec Prog Filter

/-! ### Rows taken after rounds of a step -/

section
variable {α : Type} [DecidableEq α] {S : List α} {w : α → ℝ} {step : α → Prog α}

omit [DecidableEq α] in
theorem chainRows_one (step : α → Prog α) (m : ℕ) (s : α) :
    chainRows step 0 1 m s = visits (fun _ : ℕ => step) (List.range m) s := by
  unfold chainRows
  simp only [List.range_zero, List.range_one, forEach, Prog.bind, bind_ret]

theorem Ergodic.visits_rate (he : Ergodic S w step) (f : α → ℝ) :
    ∃ r : ℕ → ℝ, Tendsto r atTop (nhds 0) ∧ ∀ (m b : ℕ) (d : α), b < m → ∀ s ∈ S,
      |expectation (fun tr => f (tr.getD b d)) (visits (fun _ : ℕ => step) (List.range m) s) -
        (S.map fun s => w s * f s).sum| ≤ r (b + 1) := by
  obtain ⟨r, h1, h2⟩ := he.rows_rate f
  refine ⟨r, h1, fun m b d hb s hs => ?_⟩
  have := h2 0 1 m b d hb s hs
  rwa [chainRows_one, zero_add, mul_one] at this

theorem Ergodic.visits_lln (he : Ergodic S w step) (f : α → ℝ) :
    ∃ K, 0 ≤ K ∧ ∀ m : ℕ, ∀ s ∈ S,
      expectation (fun tr => ((tr.map f).sum - m * (S.map fun s => w s * f s).sum) ^ 2)
        (visits (fun _ : ℕ => step) (List.range m) s) ≤ m * K := by
  obtain ⟨K, h0, hK⟩ := he.rows_lln f
  refine ⟨K, h0, fun m s hs => ?_⟩
  have := hK 0 1 m one_pos s hs
  rwa [chainRows_one] at this

end

section
variable {n : ℕ} (hn : 0 < n) (E : List ℤ → ℝ)
include hn

theorem finDist_generate_sweeps {sampleSize nIters : ℕ} {burnIn : Option ℕ} {saveHistory : Bool}
    {prev initial : Option (List (List ℤ))} (hst : GoodStart (words [1, -1] n) 1 sampleSize prev initial) :
    FinDist (generateSamplePy (sampleMetropolis E) (randomSample n) E n prev sampleSize nIters burnIn true saveHistory
      initial) fun out => out.sample.length = sampleSize := by
  have hm := goodMove_metropolis n E
  unfold generateSamplePy
  refine finDist_bind (finDist_startStates hm.length (finDist_randomSample n 1) hst) fun x hx => ?_
  match x, hx with
  | [s], hx =>
    dsimp only
    refine finDist_bind (finDist_sites hn E _ (s, E s) (mem_withE.2 ⟨hx.2 s (by simp), rfl⟩)) fun st hst => ?_
    have hv : ∀ l : List ℕ, ∀ st ∈ withE E (words [1, -1] n),
        FinDist (visits (metroIter (sampleMetropolis E) n true) l st) fun _ => True := by
      intro l
      induction l with
      | nil => exact fun st _ => finDist_ret trivial
      | cons j l ih =>
        intro st hst
        exact finDist_bind (finDist_site hn E j st hst) fun t ht => finDist_bind (ih t ht) fun _ _ => finDist_ret trivial
    split
    · rw [metroRecordHistory_eq, bind_assoc]
      exact finDist_bind (hv _ st hst) fun tr htr => finDist_ret (by simp)
    · rw [metroRecord_eq, bind_assoc]
      exact finDist_bind (hv _ st hst) fun tr htr => finDist_ret (by simp)

/-- The rows approach the Boltzmann distribution. -/
theorem sweeps_rate {k : ℕ} (hc : SweepsConnect E n k) (f : List ℤ → ℝ) :
    ∃ r : ℕ → ℝ, Tendsto r atTop (nhds 0) ∧ ∀ (sampleSize : ℕ) (burnIn : Option ℕ) (saveHistory : Bool)
      (prev initial : Option (List (List ℤ))) (b : ℕ), GoodStart (words [1, -1] n) 1 sampleSize prev initial →
      b < sampleSize →
      |expectation (fun out : SampleOut => f (out.sample.getD b []))
        (generateSamplePy (sampleMetropolis E) (randomSample n) E n prev sampleSize k burnIn true saveHistory initial) -
          expect (words [1, -1] n) E f| ≤ r (b + 1) := by
  have hm := goodMove_metropolis n E
  obtain ⟨r, h1, h2⟩ := (ergodic_sweeps hn E k hc).visits_rate fun st => f st.1
  rw [sum_withE] at h2
  refine ⟨r, h1, fun sampleSize burnIn saveHistory prev initial b hst hb => ?_⟩
  change |_ - ((words [1, -1] n).map fun s => boltzmann (words [1, -1] n) E s * f s).sum| ≤ _
  obtain ⟨μ, hμ⟩ : ∃ μ, μ = ((words [1, -1] n).map fun s => boltzmann (words [1, -1] n) E s * f s).sum := ⟨_, rfl⟩
  rw [← hμ] at h2 ⊢
  rw [abs_sub_le_iff]
  have := expectation_generate hm (randomSample n) sampleSize k burnIn true saveHistory prev initial
    (fun x => f (x.getD b [])) (μ - r (b + 1)) (μ + r (b + 1)) (finDist_randomSample n 1) hst fun s hs => ?_
  · constructor <;> linarith [this.1, this.2]
  have hb' := finDist_sites hn E (List.range (burnOr burnIn k)) (s, E s) (mem_withE.2 ⟨hs, rfl⟩)
  have key := hb'.bound (f := fun st => expectation (fun tr => f ((tr.map Prod.fst).getD b []))
        (visits (fun _ : ℕ => metroRun (sampleMetropolis E) n true k) (List.range sampleSize) st)) (μ := μ) (r := r (b + 1))
    fun st hst => by
      have := h2 sampleSize b ([], 0) hb st hst
      refine le_of_eq_of_le ?_ this
      congr 2
      refine congrArg₂ expectation (funext fun tr => ?_) rfl
      congr 1
      exact List.getD_map tr ([], 0) Prod.fst
  rw [abs_sub_le_iff] at key
  change _ ≤ expectation _ (forEach _ _ _) ∧ expectation _ (forEach _ _ _) ≤ _
  constructor <;> linarith [key.1, key.2]

/-- So do the averages over the rows. -/
theorem sweeps_lln {k : ℕ} (hc : SweepsConnect E n k) (f : List ℤ → ℝ) :
    ∃ K, 0 ≤ K ∧ ∀ (sampleSize : ℕ) (burnIn : Option ℕ) (saveHistory : Bool)
      (prev initial : Option (List (List ℤ))), GoodStart (words [1, -1] n) 1 sampleSize prev initial →
      expectation (fun out : SampleOut => ((out.sample.map f).sum - sampleSize * expect (words [1, -1] n) E f) ^ 2)
        (generateSamplePy (sampleMetropolis E) (randomSample n) E n prev sampleSize k burnIn true saveHistory initial) ≤
          sampleSize * K := by
  have hm := goodMove_metropolis n E
  obtain ⟨K, h0, hK⟩ := (ergodic_sweeps hn E k hc).visits_lln fun st => f st.1
  rw [sum_withE] at hK
  refine ⟨K, h0, fun sampleSize burnIn saveHistory prev initial hst => ?_⟩
  refine (expectation_generate hm (randomSample n) sampleSize k burnIn true saveHistory prev initial
    (fun x => ((x.map f).sum - sampleSize * expect (words [1, -1] n) E f) ^ 2) 0 (sampleSize * K)
    (finDist_randomSample n 1) hst fun s hs => ?_).2
  have hb' := finDist_sites hn E (List.range (burnOr burnIn k)) (s, E s) (mem_withE.2 ⟨hs, rfl⟩)
  have hfin : ∀ st ∈ withE E (words [1, -1] n), FinDist (metroRun (sampleMetropolis E) n true k st)
      (· ∈ withE E (words [1, -1] n)) := finDist_sites hn E (List.range k)
  have hin : ∀ st ∈ withE E (words [1, -1] n), 0 ≤ expectation (fun tr => (((tr.map Prod.fst).map f).sum -
      sampleSize * expect (words [1, -1] n) E f) ^ 2)
        (visits (fun _ : ℕ => metroRun (sampleMetropolis E) n true k) (List.range sampleSize) st) ∧
      expectation (fun tr => (((tr.map Prod.fst).map f).sum - sampleSize * expect (words [1, -1] n) E f) ^ 2)
        (visits (fun _ : ℕ => metroRun (sampleMetropolis E) n true k) (List.range sampleSize) st) ≤ sampleSize * K := by
    intro st hst
    refine ⟨(finDist_visits (ι := ℕ) hfin _ st hst).nonneg fun tr _ => sq_nonneg _, ?_⟩
    simp only [List.map_map]
    exact hK sampleSize st hst
  constructor
  · exact hb'.nonneg fun st hst => (hin st hst).1
  · exact hb'.le_of fun st hst => (hin st hst).2

/-! ### States that are never left -/

theorem returns_site (j : ℕ) (s : List ℤ) (hs : s ∈ words [1, -1] n) :
    Returns (metroIter (sampleMetropolis E) n true j (s, E s)) fun r =>
      r = (turn (j % n) s, E (turn (j % n) s)) ∨ (r = (s, E s) ∧ E s < E (turn (j % n) s)) := by
  rw [metroIter_site hn]
  unfold sampleMetropolis chooseSite
  simp only [Prog.bind, if_pos (show j % n < s.length by rw [(mem_words.1 hs).1]; exact Nat.mod_lt _ hn), negAt_turn,
    turn_turn]
  split
  · rename_i hd
    intro u _ _
    dsimp only
    split
    · exact returns_ret (.inr ⟨by rw [add_zero], by linarith⟩)
    · exact returns_ret (.inl (by rw [add_sub_cancel]))
  · exact returns_ret (.inl (by rw [add_sub_cancel]))

/-- The states connected with `x`. -/
def SweepClass (E : List ℤ → ℝ) (n k : ℕ) (x y : List ℤ) : Prop := Relation.ReflTransGen (SweepBond E n k) x y

theorem returns_trap {k : ℕ} (x : List ℤ) (rest : List ℕ) : ∀ (before after : List ℕ) (y : List ℤ),
    List.range k ++ List.range k = before ++ rest ++ after → y ∈ words [1, -1] n → SweepClass E n k x y →
    Returns (forEach (metroIter (sampleMetropolis E) n true) rest
      (turns (before.map (· % n)) y, E (turns (before.map (· % n)) y))) fun r =>
        ∃ y' ∈ words [1, -1] n, SweepClass E n k x y' ∧
          r = (turns ((before ++ rest).map (· % n)) y', E (turns ((before ++ rest).map (· % n)) y')) := by
  induction rest with
  | nil =>
    intro before after y h hy hc
    exact returns_ret ⟨y, hy, hc, by rw [List.append_nil]⟩
  | cons j rest ih =>
    intro before after y h hy hc
    rw [forEach]
    have ih' := ih (before ++ [j]) after
    have e2 : before ++ [j] ++ rest = before ++ j :: rest := by simp
    rw [e2] at ih'
    refine returns_bind (returns_site hn E j _ (turns_mem _ hy)) fun r hr => ?_
    rcases hr with rfl | ⟨rfl, hlt⟩
    · have := ih' y h hy hc
      rw [List.map_append, turns_append] at this
      exact this
    · have hb : SweepBond E n k y (turn (j % n) y) := by
        refine ⟨before.map (· % n), j % n, (rest ++ after).map (· % n), ?_, rfl, hlt.ne'⟩
        unfold sweepSites
        rw [← List.map_append, h]
        simp
      have := ih' (turn (j % n) y) h (turn_mem _ hy) (hc.tail hb)
      rw [List.map_append, turns_append, List.map_singleton, turns_cons, turns_nil, turns_turn, turn_turn] at this
      exact this

theorem returns_trap_first {k : ℕ} (x y : List ℤ) (hy : y ∈ words [1, -1] n) (hc : SweepClass E n k x y) :
    Returns (metroRun (sampleMetropolis E) n true k (y, E y)) fun r =>
      ∃ y' ∈ words [1, -1] n, SweepClass E n k x y' ∧ r = (turns (sweepSites n k) y', E (turns (sweepSites n k) y')) :=
  returns_trap hn E x (List.range k) [] (List.range k) y rfl hy hc

theorem returns_trap_second {k : ℕ} (x y : List ℤ) (hy : y ∈ words [1, -1] n) (hc : SweepClass E n k x y) :
    Returns (metroRun (sampleMetropolis E) n true k (turns (sweepSites n k) y, E (turns (sweepSites n k) y))) fun r =>
      ∃ y' ∈ words [1, -1] n, SweepClass E n k x y' ∧ r = (y', E y') := by
  refine returns_mono ?_ (returns_trap hn E x (List.range k) (List.range k) [] y (by simp) hy hc)
  rintro r ⟨y', h1, h2, rfl⟩
  exact ⟨y', h1, h2, by rw [turns_double]⟩

/-- After `m` rounds the state is one of those connected with the first, up to the reversals of `m` rounds. -/
theorem returns_trap_rounds {k : ℕ} (x : List ℤ) (hx : x ∈ words [1, -1] n) (m : ℕ) :
    Returns (forEach (fun _ : ℕ => metroRun (sampleMetropolis E) n true k) (List.range m) (x, E x)) fun r =>
      ∃ y ∈ words [1, -1] n, SweepClass E n k x y ∧
        r = ((turns (sweepSites n k))^[m] y, E ((turns (sweepSites n k))^[m] y)) := by
  induction m with
  | zero => exact returns_ret ⟨x, hx, .refl, rfl⟩
  | succ m ih =>
    rw [List.range_succ, forEach_append]
    refine returns_bind ih ?_
    rintro r ⟨y, h1, h2, rfl⟩
    simp only [forEach, bind_ret]
    have hper' : (∀ z, (turns (sweepSites n k))^[m] z = z ∧ (turns (sweepSites n k))^[m + 1] z =
        turns (sweepSites n k) z) ∨ (∀ z, (turns (sweepSites n k))^[m] z = turns (sweepSites n k) z ∧
          (turns (sweepSites n k))^[m + 1] z = z) := by
      have hpar : ∀ z : List ℤ, ∀ q, (turns (sweepSites n k))^[2 * q] z = z := by
        intro z q
        induction q with
        | zero => rfl
        | succ q ih =>
          rw [show 2 * (q + 1) = 2 + 2 * q by ring, Function.iterate_add_apply, ih]
          exact turns_turns _ z
      rcases Nat.even_or_odd' m with ⟨q, hq | hq⟩
      · exact .inl fun z => ⟨by rw [hq]; exact hpar z q, by rw [hq, Function.iterate_succ_apply', hpar]⟩
      · refine .inr fun z => ⟨by rw [hq, Function.iterate_succ_apply', hpar], ?_⟩
        rw [hq, show 2 * q + 1 + 1 = 2 * (q + 1) by ring, hpar]
    rcases hper' with h | h
    · rw [(h y).1]
      refine returns_mono ?_ (returns_trap_first hn E x y h1 h2)
      rintro r ⟨y', a, b, rfl⟩
      exact ⟨y', a, b, by rw [(h y').2]⟩
    · rw [(h y).1]
      refine returns_mono ?_ (returns_trap_second hn E x y h1 h2)
      rintro r ⟨y', a, b, rfl⟩
      exact ⟨y', a, b, by rw [(h y').2]⟩

end

end Verif.Lemmas
