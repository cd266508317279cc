/-
Property C105: `MCH` with its model and its sampler.
-/
import Verif.Lemmas.MchProg4
import Verif.Lemmas.MchOneSpin

namespace Verif.Props
open Verif Verif.Model Verif.Spec Verif.Lemmas Prog Filter

/-! ### construction -/

/-- C105: what the constructor makes from data. -/
theorem C105_constructor (mc : Machine) (n : ℕ) (X : Data) (hX : X ≠ []) (hl : ∀ s ∈ X, s.length = n)
    (hv : ∀ s ∈ X, ∀ x ∈ s, x = -1 ∨ x = 0 ∨ x = 1) (size : ℕ) (hsize : 0 < size) (boost : Bool) (rng : ℕ) :
    ∃ m, mchInit mc (.data n X) none size boost rng = .ok m ∧ m.n = some n ∧
      m.model.n = n ∧ m.model.kind = .ising ∧ m.model.multipliers = List.replicate (paramCount .ising n) 0 ∧
      m.model.sampleSize = size ∧ m.model.sample = none ∧
      ∃ c, m.constraints = some c ∧ c.length = paramCount .ising n ∧
        ∀ i < paramCount .ising n, c.getD i 0 = avg X fun s => (pairObs n (spins s)).getD i 0 := by
  obtain ⟨c, h1, h2, h3⟩ := obs_avg n X hX hl hv
  have hi := zeros_init n
  have hm : solverModel mc n none rng = .ok ⟨.ising, n, List.replicate (n + n * (n - 1) / 2) 0, mc.eqns .ising n,
      List.replicate (n + n * (n - 1) / 2) 0, rng, none, [], 0, none⟩ := by
    unfold solverModel modelInit
    dsimp only
    rw [hi]
  unfold mchInit basicSetup
  rw [if_neg (by simp; omega)]
  dsimp only
  rw [hm]
  dsimp only
  rw [h1]
  dsimp only
  unfold ModelObj.setupSampler
  rw [if_pos rfl]
  exact ⟨_, rfl, rfl, rfl, rfl, rfl, rfl, rfl, c, rfl, h2, h3⟩

/-- C105: what the constructor and `solve` refuse. Without data and without number of spins there is no model to set up, or,
with a model, `solve` multiplies `None`; with only the number of spins there are no constraints. -/
theorem C105_refuses (mc : Machine) (model : Option ModelObj) (size : ℕ) (boost : Bool) (rng : ℕ) :
    (∀ arg, mchInit mc arg model 0 boost rng = .error .assertion) ∧
    (0 < size → mchInit mc .nothing none size boost rng = .error .attributeError) ∧
    (0 < size → ∀ n ≤ 1, mchInit mc (.size n) model size boost rng = .error .assertion) ∧
    (∀ n m, mchInit mc (.size n) model size boost rng = .ok m → ∀ a : MchArgs, a.constraints = none →
      mchSolveP mc m a = .fail .typeError) ∧
    (∀ m, mchInit mc .nothing model size boost rng = .ok m → ∀ a : MchArgs, mchSolveP mc m a = .fail .typeError) ∧
    ∀ m a c, m.n ≠ none → a.constraints.or m.constraints = some c → ∀ x, a.guess = some x → x.length ≠ c.length →
      mchSolveP mc m a = .fail .assertion := by
  refine ⟨fun arg => rfl, fun h => ?_, fun h n hn => ?_, fun n m h a ha => ?_, fun m h a => ?_, fun m a c hm hc x hx hl => ?_⟩
  · unfold mchInit
    rw [if_neg (by simp; omega)]
    rfl
  · unfold mchInit basicSetup
    rw [if_neg (by simp; omega)]
    dsimp only
    rw [if_pos (by omega)]
  · have hc : m.constraints = none := by
      unfold mchInit basicSetup at h
      split at h
      · cases h
      · dsimp only at h
        split_ifs at h
        cases hm : solverModel mc n.toNat model rng with
        | error e => rw [hm] at h; cases h
        | ok o =>
          rw [hm] at h
          dsimp only at h
          split at h
          · cases h
          · injection h with h
            rw [← h]
    unfold mchSolveP
    rw [ha, hc]
    cases m.n <;> rfl
  · have hn : m.n = none := by
      unfold mchInit basicSetup at h
      split at h
      · cases h
      · dsimp only at h
        split at h
        · cases h
        · split at h
          · cases h
          · injection h with h
            rw [← h]
    unfold mchSolveP
    rw [hn]
  · unfold mchSolveP
    obtain ⟨k, hk⟩ := Option.ne_none_iff_exists'.1 hm
    rw [hk, hc]
    dsimp only
    rw [hx, Option.getD_some, if_pos hl]

/-! ### what `solve` returns -/

/-- The limit that counts: the one given, if it is given and not zero. -/
def LimitIs (given : Option ℝ) (default limit : ℝ) : Prop :=
  given = some limit ∧ limit ≠ 0 ∨ (given = none ∨ given = some 0) ∧ limit = default

theorem orDefault_of {given : Option ℝ} {default limit : ℝ} (h : LimitIs given default limit) :
    orDefault given default = limit := by
  unfold orDefault
  rcases h with ⟨h1, h2⟩ | ⟨h1 | h1, h2⟩
  · rw [h1]; exact if_neg h2
  · rw [h1, h2]
  · rw [h1, h2]; exact if_pos rfl

/-- `solve` as a run and a draw. -/
theorem solve_eq {mc : Machine} {n s0 : ℕ} {B Δ H : ℝ} (hB : 0 ≤ B) {m : MchObj} {a : MchArgs} {c : List ℝ}
    (hn : m.n = some n) (hc : a.constraints.or m.constraints = some c) (hfit : MchFits n s0 B Δ H a c) {tol tolNorm : ℝ}
    (ht : LimitIs a.tol (1 / Real.sqrt m.model.sampleSize) tol)
    (htn : LimitIs a.tolNorm (Real.sqrt (1 / m.model.sampleSize) * paramCount .ising n) tolNorm) :
    mchSolveP mc m a = (mchRunP mc a.nIters a.burnIn c (startOf a c) (convF a.kw a.custom) tol tolNorm a.maxiter
      m.model).bind fun r => (mchDraw mc a.nIters a.burnIn r.1.size r.1.mult r.1.sample).bind fun o =>
        .ret ⟨r.1.mult, r.2, r.1.errors, r.1.mult, o⟩ := by
  have hl := (startOf_spec hfit hB).1
  unfold mchSolveP
  rw [hn, hc]
  dsimp only
  change (if (startOf a c).length ≠ c.length then _ else _) = _
  rw [if_neg (by rw [hl]; exact fun h => h hfit.length.symm)]
  change Prog.bind (mchRunP mc a.nIters a.burnIn c (startOf a c) (convF a.kw a.custom) _
    (orDefault a.tolNorm (Real.sqrt (1 / m.model.sampleSize) * (startOf a c).length)) a.maxiter m.model) _ = _
  rw [orDefault_of ht, hl]
  change Prog.bind (mchRunP mc a.nIters a.burnIn c (startOf a c) (convF a.kw a.custom) _
    (orDefault a.tolNorm (Real.sqrt (1 / m.model.sampleSize) * paramCount .ising n)) a.maxiter m.model) _ = _
  rw [orDefault_of htn]

/-- C105: `solve` returns, whatever random numbers are drawn. Its parameters have the right number; the history has one entry
for the start and one for every round, at most `maxiter + 2` rounds (one if `maxiter` is negative); the error flag is 0
exactly if the last errors are within the limits. The model then holds a sample of spins; the parameters of the model object
are those it had before. -/
theorem C105_returns (mc : Machine) (hcpu : 0 < mc.cpus) (n : ℕ) (hn : 1 ≤ n) (s0 : ℕ) (hs0 : 0 < s0) (B Δ H : ℝ)
    (hB : 0 ≤ B) (m : MchObj) (hm : MchReached mc n m) (a : MchArgs) (c : List ℝ)
    (hc : a.constraints.or m.constraints = some c) (hfit : MchFits n s0 B Δ H a c) (hsize : s0 ≤ m.model.sampleSize)
    (tol tolNorm : ℝ) (ht : LimitIs a.tol (1 / Real.sqrt m.model.sampleSize) tol)
    (htn : LimitIs a.tolNorm (Real.sqrt (1 / m.model.sampleSize) * paramCount .ising n) tolNorm) :
    Returns (mchSolveP mc m a) fun r =>
      r.returned.length = paramCount .ising n ∧ r.multipliers = r.returned ∧
      (∀ e ∈ r.errors, e.length = paramCount .ising n) ∧
      2 ≤ r.errors.length ∧ (r.errors.length : ℤ) ≤ max 2 (a.maxiter + 3) ∧
      (∀ x ∈ r.returned, |x| ≤ B + (r.errors.length - 1) * (Δ + 2 * H)) ∧
      (r.errflag = 0 ∨ r.errflag = 1 ∧ a.maxiter + 1 < r.errors.length) ∧
      (r.errflag = 0 ↔ (∀ x ∈ r.errors.getLastD [], |x| < tol) ∧
        Real.sqrt ((r.errors.getLastD []).map fun x => x * x).sum < tolNorm) ∧
      r.sample.multipliers = m.model.multipliers ∧
      ∃ X, r.sample.sample = some X ∧ s0 ≤ X.length ∧ ∀ s ∈ X, s ∈ words [1, -1] n := by
  obtain ⟨hr, hmn⟩ := ready_of_reached hm
  rw [solve_eq hB hmn hc hfit ht htn]
  refine (both_bind (both_run hcpu hn hs0 hB hfit hr hsize tol tolNorm) fun r hr' => ?_).1
  obtain ⟨h1, h2, h3, h4⟩ := hr'
  refine both_bind (both_draw hcpu hn h1.ready a.nIters a.burnIn r.1.size (lt_of_lt_of_le hs0 h1.size) r.1.mult h1.mult_length)
    fun o ho => both_ret ?_
  obtain ⟨d1, d2, d3, X, d4, d5, d6⟩ := ho
  have hcount := h1.count
  refine ⟨h1.mult_length, rfl, h1.each, by dsimp only; omega, ?_, fun x hx => ?_, ?_, ?_, d2.trans h1.model, X, d4,
    by rw [d5]; exact h1.size, d6⟩
  · dsimp only
    rw [hcount]
    push_cast
    omega
  · have := h1.mult x hx
    rw [hcount]
    push_cast
    linarith
  · dsimp only
    rw [hcount]
    rcases h4 with h4 | h4
    · exact Or.inl h4.1
    · exact Or.inr ⟨h4.1, by push_cast; omega⟩
  · dsimp only
    rcases h4 with h4 | h4
    · exact iff_of_true h4.1 ⟨h4.2.2, h4.2.1⟩
    · refine iff_of_false (by omega) fun h => h4.2.1 ⟨h.2, h.1⟩

open scoped Classical in
/-- C105: the last entry of the error history is close to the true deviation of the model with the returned parameters from
the constraints, with high probability: the probability that it is off by `ε` or more in some observable is at most
`K cpus / (size ε²)`, unless all returned parameters are smaller than `ρ`. `K` depends on the number of spins, on `ρ`, on the
bounds on starting point and changes and on the number of rounds only. -/
theorem C105_last_error (n : ℕ) (hn : 1 ≤ n) (ρ : ℝ) (hρ : 0 < ρ) (B Δ H : ℝ) (hB : 0 ≤ B) (hΔ : 0 ≤ Δ) (hH : 0 ≤ H)
    (maxiter : ℤ) :
    ∃ K, 0 ≤ K ∧ ∀ (mc : Machine), 0 < mc.cpus → ∀ (s0 : ℕ), 0 < s0 → ∀ (m : MchObj), MchReached mc n m →
      s0 ≤ m.model.sampleSize → ∀ (a : MchArgs) (c : List ℝ), a.constraints.or m.constraints = some c →
      a.maxiter = maxiter → 0 < a.nIters → MchFits n s0 B Δ H a c → ∀ ε : ℝ, 0 < ε →
      prob (mchSolveP mc m a) (fun r => (∃ x ∈ r.returned, ρ ≤ |x|) ∧ ∃ i < paramCount .ising n,
        ε ≤ |(r.errors.getLastD []).getD i 0 - (modelMean n r.returned i - c.getD i 0)|) ≤
          mc.cpus * K / s0 / ε ^ 2 := by
  obtain ⟨K, hK, h⟩ := prob_run n hn ρ hρ B Δ H hB hΔ hH maxiter
  refine ⟨K, hK, fun mc hcpu s0 hs0 m hm hsize a c hc hmax hk hfit ε hε => ?_⟩
  obtain ⟨hr, hmn⟩ := ready_of_reached hm
  have lim : ∀ (g : Option ℝ) (d : ℝ), ∃ t, LimitIs g d t := by
    intro g d
    by_cases hg : g = none ∨ g = some 0
    · exact ⟨d, Or.inr ⟨hg, rfl⟩⟩
    · cases g with
      | none => simp at hg
      | some t => exact ⟨t, Or.inl ⟨rfl, by simpa using hg⟩⟩
  obtain ⟨tol, ht⟩ := lim a.tol (1 / Real.sqrt m.model.sampleSize)
  obtain ⟨tolNorm, htn⟩ := lim a.tolNorm (Real.sqrt (1 / m.model.sampleSize) * paramCount .ising n)
  rw [solve_eq hB hmn hc hfit ht htn]
  refine le_trans (le_of_eq ?_) (h mc hcpu s0 hs0 a c hmax hk hfit m.model hr hsize tol tolNorm ε hε)
  unfold prob
  rw [expectation_bind]
  refine (both_run hcpu hn hs0 hB hfit hr hsize tol tolNorm).fin.congr fun r hr' => ?_
  have h1 := hr'.1
  have hd := (both_draw hcpu hn h1.ready a.nIters a.burnIn r.1.size (lt_of_lt_of_le hs0 h1.size) r.1.mult
    h1.mult_length).fin
  rw [expectation_bind]
  simp only [expectation_ret]
  refine (hd.congr (g := fun _ => if Far n ρ ε r.1 then 1 else 0) fun o _ => if_congr ?_ rfl rfl).trans (hd.const _)
  unfold Far
  refine and_congr_right fun _ => exists_congr fun i => and_congr_right fun hi => ?_
  have hi' : i < n + n * (n - 1) / 2 := hi
  rw [h1.last, List.getD_eq_getElem _ _ (by
    rw [List.length_zipWith, h1.cur_length, hfit.length]
    exact lt_min hi hi), List.getElem_zipWith, List.getD_eq_getElem c _ (by rw [hfit.length]; exact hi),
    List.getD_eq_getElem r.1.cur _ (by rw [h1.cur_length]; exact hi)]
  ring_nf

open scoped Classical in
/-- C105: if the error flag is 0, the model with the returned parameters has the wanted means within `tol + ε`, with a
probability that is close to 1 for large samples. -/
theorem C105_converged (n : ℕ) (hn : 1 ≤ n) (ρ : ℝ) (hρ : 0 < ρ) (B Δ H : ℝ) (hB : 0 ≤ B) (hΔ : 0 ≤ Δ) (hH : 0 ≤ H)
    (maxiter : ℤ) :
    ∃ K, 0 ≤ K ∧ ∀ (mc : Machine), 0 < mc.cpus → ∀ (s0 : ℕ), 0 < s0 → ∀ (m : MchObj), MchReached mc n m →
      s0 ≤ m.model.sampleSize → ∀ (a : MchArgs) (c : List ℝ), a.constraints.or m.constraints = some c →
      a.maxiter = maxiter → 0 < a.nIters → MchFits n s0 B Δ H a c → ∀ tol,
      LimitIs a.tol (1 / Real.sqrt m.model.sampleSize) tol → ∀ ε : ℝ, 0 < ε →
      prob (mchSolveP mc m a) (fun r => r.errflag = 0 ∧ (∃ x ∈ r.returned, ρ ≤ |x|) ∧ ∃ i < paramCount .ising n,
        tol + ε ≤ |modelMean n r.returned i - c.getD i 0|) ≤ mc.cpus * K / s0 / ε ^ 2 := by
  obtain ⟨K, hK, h⟩ := C105_last_error n hn ρ hρ B Δ H hB hΔ hH maxiter
  refine ⟨K, hK, fun mc hcpu s0 hs0 m hm hsize a c hc hmax hk hfit tol ht ε hε => ?_⟩
  refine le_trans ?_ (h mc hcpu s0 hs0 m hm hsize a c hc hmax hk hfit ε hε)
  obtain ⟨tolNorm, htn⟩ : ∃ t, LimitIs a.tolNorm (Real.sqrt (1 / m.model.sampleSize) * paramCount .ising n) t := by
    by_cases hg : a.tolNorm = none ∨ a.tolNorm = some 0
    · exact ⟨_, Or.inr ⟨hg, rfl⟩⟩
    · cases hg' : a.tolNorm with
      | none => simp [hg'] at hg
      | some t => exact ⟨t, Or.inl ⟨rfl, by simpa [hg'] using hg⟩⟩
  have hret := C105_returns mc hcpu n hn s0 hs0 B Δ H hB m hm a c hc hfit hsize tol tolNorm ht htn
  obtain ⟨hr, hmn⟩ := ready_of_reached hm
  have hfin : FinDist (mchSolveP mc m a) fun _ => True := by
    rw [solve_eq hB hmn hc hfit ht htn]
    exact finDist_bind (both_run hcpu hn hs0 hB hfit hr hsize tol tolNorm).fin fun r hr' =>
      finDist_bind (both_draw hcpu hn hr'.1.ready a.nIters a.burnIn r.1.size (lt_of_lt_of_le hs0 hr'.1.size) r.1.mult
        hr'.1.mult_length).2 fun _ _ => finDist_ret trivial
  unfold prob
  refine (finDist_of_returns hfin hret).mono fun r hr' => ?_
  obtain ⟨-, -, -, heach, hlen, -, -, -, hflag, -⟩ := hr'
  split
  · rename_i hb
    obtain ⟨h0, hx, i, hi, hge⟩ := hb
    have hlast := (hflag.1 h0).1
    have hmem : r.errors.getLastD [] ∈ r.errors := by
      cases he : r.errors with
      | nil => rw [he] at hlen; simp at hlen
      | cons x l =>
        rw [List.getLastD_cons]
        exact List.getLastD_mem_cons
    have hli : i < (r.errors.getLastD []).length := by rw [heach _ hmem]; exact hi
    have h1 : |(r.errors.getLastD []).getD i 0| < tol := by
      rw [List.getD_eq_getElem _ _ hli]
      exact hlast _ (List.getElem_mem hli)
    have h2 := abs_sub_abs_le_abs_sub (modelMean n r.returned i - c.getD i 0) ((r.errors.getLastD []).getD i 0)
    rw [if_pos ⟨hx, i, hi, by rw [abs_sub_comm]; linarith⟩]
  · split <;> norm_num

open scoped Classical in
/-- C105: the probability of a wrong report of convergence goes to zero when the samples become large. -/
theorem C105_limit (n : ℕ) (hn : 1 ≤ n) (ρ : ℝ) (hρ : 0 < ρ) (B Δ H : ℝ) (hB : 0 ≤ B) (hΔ : 0 ≤ Δ) (hH : 0 ≤ H)
    (maxiter : ℤ) (cpus : ℕ) (hcpu : 0 < cpus) (ε : ℝ) (hε : 0 < ε) (δ : ℝ) (hδ : 0 < δ) :
    ∃ s0 : ℕ, 0 < s0 ∧ ∀ (mc : Machine), mc.cpus = cpus → ∀ (m : MchObj), MchReached mc n m →
      s0 ≤ m.model.sampleSize → ∀ (a : MchArgs) (c : List ℝ), a.constraints.or m.constraints = some c →
      a.maxiter = maxiter → 0 < a.nIters → MchFits n s0 B Δ H a c → ∀ tol,
      LimitIs a.tol (1 / Real.sqrt m.model.sampleSize) tol →
      prob (mchSolveP mc m a) (fun r => r.errflag = 0 ∧ (∃ x ∈ r.returned, ρ ≤ |x|) ∧ ∃ i < paramCount .ising n,
        tol + ε ≤ |modelMean n r.returned i - c.getD i 0|) < δ := by
  obtain ⟨K, hK, h⟩ := C105_converged n hn ρ hρ B Δ H hB hΔ hH maxiter
  obtain ⟨s0, hs0⟩ := exists_nat_gt (cpus * K / ε ^ 2 / δ)
  refine ⟨s0 + 1, by omega, fun mc hmc m hm hsize a c hc hmax hk hfit tol ht => ?_⟩
  refine lt_of_le_of_lt (h mc (by omega) (s0 + 1) (by omega) m hm hsize a c hc hmax hk hfit tol ht ε hε) ?_
  rw [hmc, div_right_comm, div_lt_iff₀ (by positivity)]
  rw [div_lt_iff₀ hδ] at hs0
  push_cast
  linarith

/-! ### the usual call `MCH(sample, sample_size=size).solve()` -/

/-- The arguments of `solve` when none is given (solvers.py:787-801). -/
def usualArgs : MchArgs := ⟨none, none, none, none, 30, 30, 10, ⟨some 1, none, none, some 1⟩, none⟩

/-- The constructor, given rows of spins -1 and 1, makes an object that `solve` without arguments can work with. -/
theorem C105_usual_fits (mc : Machine) (n : ℕ) (X : Data) (hX : X ≠ []) (hw : ∀ s ∈ X, s ∈ words [1, -1] n) (size : ℕ)
    (hsize : 0 < size) (boost : Bool) (rng : ℕ) :
    ∃ m c, mchInit mc (.data n X) none size boost rng = .ok m ∧ MchReached mc n m ∧ m.model.sampleSize = size ∧
      usualArgs.constraints.or m.constraints = some c ∧ MchFits n size 0 1 1 usualArgs c ∧
      ∀ i < paramCount .ising n, c.getD i 0 = avg X fun s => (pairObs n (spins s)).getD i 0 := by
  obtain ⟨m, h1, -, -, -, -, h2, -, c, h3, h4, h5⟩ := C105_constructor mc n X hX (fun s hs => (mem_words.1 (hw s hs)).1)
    (fun s hs => word_entry (hw s hs)) size hsize boost rng
  refine ⟨m, c, h1, .made _ _ _ _ _ _ rfl (fun o ho => by cases ho) h1, h2, by rw [h3]; rfl, ?_, h5⟩
  refine ⟨h4, fun x hx => ?_, fun x hx => (by cases hx), fun x hx => (by cases hx), by simp [usualArgs, MchArgs.round],
    Or.inl fun _ => rfl, fun _ => by simp [usualArgs, MchArgs.round], fun _ => by simp [usualArgs, MchArgs.round]⟩
  obtain ⟨i, hi, rfl⟩ := List.getElem_of_mem hx
  rw [← List.getD_eq_getElem _ 0 hi, h5 i (by rw [← h4]; exact hi)]
  exact abs_avg_le hX fun s hs => abs_pairObs_le (hw s hs) i

open scoped Classical in
/-- C105: `MCH(sample, sample_size=size).solve()` returns; if it reports success, the model with the returned parameters has
the means of the data within `1/sqrt(size) + ε`, with a probability close to 1 if `size` is large (unless all returned
parameters are smaller than `ρ`). -/
theorem C105_usual (n : ℕ) (hn : 1 ≤ n) (ρ : ℝ) (hρ : 0 < ρ) (cpus : ℕ) (hcpu : 0 < cpus) (ε : ℝ) (hε : 0 < ε) (δ : ℝ)
    (hδ : 0 < δ) :
    ∃ s0 : ℕ, 0 < s0 ∧ ∀ (mc : Machine), mc.cpus = cpus → ∀ X : Data, X ≠ [] → (∀ s ∈ X, s ∈ words [1, -1] n) →
      ∀ size, s0 ≤ size → ∀ boost rng, ∃ m, mchInit mc (.data n X) none size boost rng = .ok m ∧
      Returns (mchSolveP mc m usualArgs) (fun r => r.returned.length = paramCount .ising n) ∧
      prob (mchSolveP mc m usualArgs) (fun r => r.errflag = 0 ∧ (∃ x ∈ r.returned, ρ ≤ |x|) ∧ ∃ i < paramCount .ising n,
        1 / Real.sqrt size + ε ≤ |modelMean n r.returned i - avg X fun s => (pairObs n (spins s)).getD i 0|) < δ := by
  obtain ⟨s0, h0, h⟩ := C105_limit n hn ρ hρ 0 1 1 le_rfl zero_le_one zero_le_one 10 cpus hcpu ε hε δ hδ
  refine ⟨s0, h0, fun mc hmc X hX hw size hsize boost rng => ?_⟩
  obtain ⟨m, c, h1, h2, h3, h4, h5, h6⟩ := C105_usual_fits mc n X hX hw size (by omega) boost rng
  have h5' : MchFits n s0 0 1 1 usualArgs c :=
    ⟨h5.length, h5.range, h5.guess_length, h5.guess, h5.eta, Or.inl fun _ => rfl, h5.change, h5.factor⟩
  refine ⟨m, h1, returns_mono (fun r hr => hr.1) (C105_returns mc (by omega) n hn s0 h0 0 1 1 le_rfl m h2 usualArgs c h4 h5'
    (by omega) _ _ (Or.inr ⟨Or.inl rfl, rfl⟩) (Or.inr ⟨Or.inl rfl, rfl⟩)), ?_⟩
  have := h mc hmc m h2 (by omega) usualArgs c h4 rfl (by norm_num [usualArgs]) h5' _ (Or.inr ⟨Or.inl rfl, rfl⟩)
  refine lt_of_eq_of_lt ?_ this
  congr 1
  funext r
  rw [h3]
  refine propext (and_congr_right fun _ => and_congr_right fun _ => exists_congr fun i => and_congr_right fun hi => ?_)
  rw [h6 i hi]

open scoped Classical in
/-- C105: the restriction to parameters that are not all small is needed. For one spin with data that are all 1, one process
and the sampler in Python, `MCH(sample).solve()` reports success with probability at least 1/2, however large the samples
are, and returns the parameter 0, whose model has mean 0 and not 1. -/
theorem C105_one_spin_wrong (mc : Machine) (hcpu : mc.cpus = 1) (size : ℕ) (hsize : 0 < size) (rng : ℕ) :
    ∃ m, mchInit mc (.data 1 [[1]]) none size false rng = .ok m ∧
      1 / 2 ≤ prob (mchSolveP mc m usualArgs) (fun r => r.errflag = 0 ∧ r.returned = [0]) ∧
      modelMean 1 [0] 0 = 0 ∧ (avg [[1]] fun s => (pairObs 1 (spins s)).getD 0 0) = (1 : ℝ) := by
  obtain ⟨m, c, h1, h2, h3, h4, h5, h6⟩ := C105_usual_fits mc 1 [[1]] (by simp) (by decide) size hsize false rng
  have hone : (avg [[1]] fun s => (pairObs 1 (spins s)).getD 0 0) = (1 : ℝ) := by simp [avg, pairObs, spins]
  have hc : c = [1] := by
    have hl := h5.length
    have hv := h6 0 (by decide)
    match c, hl with
    | [x], _ =>
      rw [hone] at hv
      simpa using hv
  subst hc
  refine ⟨m, h1, ?_, oneSpin_mean, hone⟩
  obtain ⟨hr, hmn⟩ := ready_of_reached h2
  have hs : ∃ s, m.model.sampler = some s ∧ s.compiled = false ∧ s.replicas = none := by
    obtain ⟨c, e1, -, -⟩ := obs_avg 1 [[1]] (by simp) (by simp) (by simp)
    unfold mchInit basicSetup solverModel modelInit at h1
    rw [if_neg (by simp; omega)] at h1
    dsimp only at h1
    rw [zeros_init 1] at h1
    dsimp only at h1
    rw [e1] at h1
    dsimp only at h1
    unfold ModelObj.setupSampler at h1
    rw [if_pos rfl] at h1
    injection h1 with h1
    subst h1
    exact ⟨_, rfl, rfl, rfl⟩
  obtain ⟨s, s1, s2, s3⟩ := hs
  have hsq : 0 < Real.sqrt size := Real.sqrt_pos.2 (by exact_mod_cast hsize)
  rw [solve_eq (tol := 1 / Real.sqrt m.model.sampleSize)
    (tolNorm := Real.sqrt (1 / m.model.sampleSize) * paramCount .ising 1) le_rfl hmn h4 h5 (Or.inr ⟨Or.inl rfl, rfl⟩)
    (Or.inr ⟨Or.inl rfl, rfl⟩)]
  unfold mchRunP
  rw [if_neg (by simp [usualArgs, convF]), bind_assoc]
  refine le_trans (oneSpin_first hcpu hr s1 s2 m.model.sampleSize 30 30 (by decide) (by decide) s3) ?_
  refine prob_bind_ge (both_first (by omega) one_pos hsize le_rfl h5 hr (by omega)).fin fun o ho hq => ?_
  obtain ⟨cur, err, e1, e2, e3⟩ := ho
  have ho : IsingReady mc 1 o := e3.ready
  rw [h3] at hq ⊢
  rw [oneSpin_obs ho size hsize hq.1, ofPy_ok_bind]
  refine returns_bind (oneSpin_loop hcpu hsize (by decide) (by decide) _ (by positivity) ?_ _ _ _ ho hq rfl rfl rfl) fun r hr' => ?_
  · have : (0 : ℝ) < paramCount .ising 1 := by norm_num [paramCount]
    have : (0 : ℝ) < size := by exact_mod_cast hsize
    positivity
  · obtain ⟨r1, r2, r3, r4, r5⟩ := hr'
    refine returns_bind (both_draw (by omega) one_pos r2 30 30 r.1.size (by omega) r.1.mult (by rw [r4]; rfl)).1 fun o' _ =>
      returns_ret ⟨r1, r4⟩

example (mc : Machine) : ∃ m c, MchReached mc 2 m ∧ 1000 ≤ m.model.sampleSize ∧
    usualArgs.constraints.or m.constraints = some c ∧ MchFits 2 1000 0 1 1 usualArgs c := by
  obtain ⟨m, c, -, h1, h2, h3, h4, -⟩ := C105_usual_fits mc 2 [[1, 1], [1, -1], [-1, 1]] (by simp) (by decide) 1000
    (by norm_num) true 0
  exact ⟨m, c, h1, h2.ge, h3, h4⟩

end Verif.Props
