/-
Property C130: `MCH` with models of any class and functions that the user supplies.
-/
import Verif.Lemmas.MchUser
import Verif.Props.MchProg
import Verif.Props.Guide

namespace Verif.Props
open Verif Verif.Model Verif.Spec Verif.Lemmas Prog Filter

/-! ### construction -/

theorem mchRoundU_default (mc : Machine) (nIters burnIn : ℕ) (c : List ℝ) (f : ℕ → LearnKw × Option ℕ) :
    mchRoundU mc .ising none nIters burnIn c f = mchRoundP mc nIters burnIn c f := rfl

theorem mchLoopU_default (mc : Machine) (nIters burnIn : ℕ) (c : List ℝ) (f : ℕ → LearnKw × Option ℕ) (tol tolNorm : ℝ)
    (maxiter : ℤ) (fuel : ℕ) :
    mchLoopU mc .ising none nIters burnIn c f tol tolNorm maxiter fuel = mchLoopP mc nIters burnIn c f tol tolNorm maxiter fuel := by
  induction fuel with
  | zero => rfl
  | succ fuel ih =>
    funext st
    unfold mchLoopU mchLoopP
    rw [ih]
    rfl

/-- C130: without `calc_observables` and `mch_approximation` the constructor and `solve` are those of C105. -/
theorem C130_default (mc : Machine) :
    (∀ arg model size boost rng, mchInitUser mc arg model .ising size none boost rng =
      match mchInit mc arg model size boost rng with
      | .error e => .error e
      | .ok m => .ok ⟨m.n, m.model, m.constraints, .ising, none⟩) ∧
    ∀ (n : Option ℕ) (model : ModelObj) (c : Option (List ℝ)) (a : MchArgs),
      mchSolveU mc ⟨n, model, c, .ising, none⟩ a = mchSolveP mc ⟨n, model, c⟩ a := by
  refine ⟨fun arg model size boost rng => ?_, fun n model c a => ?_⟩
  · unfold mchInitUser mchInit
    rw [basicSetupObs_ising]
    split
    · rfl
    · cases basicSetup mc arg model rng with
      | error e => rfl
      | ok s =>
        dsimp only
        cases s.model with
        | none => rfl
        | some o =>
          dsimp only
          cases o.setupSampler mc (chars! "metropolis") size boost <;> rfl
  · unfold mchSolveU mchSolveP mchRunU mchRunP
    simp only [mchLoopU_default]
    rfl

/-- C130: what the constructor makes from data and a model: the constraints are the means of the observables that belong to the
class of the model, in the order of the parameters. -/
theorem C130_constructor (mc : Machine) (k : ModelKind) (n : ℕ) (X : Data) (hX : X ≠ []) (hw : ∀ s ∈ X, s ∈ words (alphabet k) n)
    (x : IsingArg ℝ) (o : ModelObj) (ho : Reached mc k x o) (hn : o.n = n) (hl : o.multipliers.length = paramCount k n)
    (approx : ApproxArg) (size : ℕ) (hsize : 0 < size) (boost : Bool) (rng : ℕ) :
    ∃ m c, mchInitUser mc (.data n X) (some o) (kindObsArg k) size approx boost rng = .ok m ∧ UserReached mc k n m ∧
      m.approx = approx ∧ m.model.sampleSize = size ∧ m.model.multipliers = o.multipliers ∧ m.constraints = some c ∧
      c.length = paramCount k n ∧ (∀ v ∈ c, |v| ≤ 1) ∧
      ∀ i < paramCount k n, c.getD i 0 = avg X fun s => (kindObs k n s).getD i 0 := by
  obtain ⟨c, h1, h2, h3⟩ := Kind.obs_eq k n X hX hw
  obtain ⟨rng', o₀, -, hi⟩ := reached_inv ho
  have hs : ∃ s, samplerInit mc o.kind o.n o.multipliers o.rng boost = .ok s := by
    rw [hi.kind]
    cases k with
    | ising => exact ⟨_, rfl⟩
    | triplet => exact ⟨_, rfl⟩
    | potts3 =>
      unfold samplerInit
      dsimp only
      rw [if_neg (by rw [hl, hn]; simp [paramCount, Nat.mul_comm])]
      exact ⟨_, rfl⟩
  obtain ⟨s, hs⟩ := hs
  have hinit : mchInitUser mc (.data n X) (some o) (kindObsArg k) size approx boost rng =
      .ok ⟨some n, { o with sampleSize := size, sampleMethod := chars! "metropolis", sampler := some s, sample := none },
        some c, kindObsArg k, approx⟩ := by
    unfold mchInitUser basicSetupObs solverModel
    rw [if_neg (by simp; omega)]
    dsimp only
    rw [h1]
    dsimp only
    unfold ModelObj.setupSampler
    rw [if_pos rfl, hs]
  refine ⟨_, c, hinit, .made _ _ _ _ _ _ _ rfl (fun o' ho' => ?_) (fun h => by cases h) hinit, rfl, rfl, rfl, rfl, h2,
    fun v hv => ?_, fun i hi => (h3 i hi).1⟩
  · injection ho' with ho'
    subst ho'
    exact ⟨x, ho, hn, hl⟩
  · obtain ⟨i, hi, rfl⟩ := List.getElem_of_mem hv
    rw [← List.getD_eq_getElem _ 0 hi]
    exact (h3 i (by rw [← h2]; exact hi)).2

/-- C130: the approximation that the usage guide defines for triplets, and the one of the Potts helpers, return as many numbers
as there are parameters, none larger than 1. -/
theorem C130_approximations (n : ℕ) : ApproxFits .triplet n (some (guideApprox n)) ∧
    ApproxFits .potts3 n (some (mchPotts 3 n)) ∧ ApproxFits .ising n none := by
  refine ⟨fun X hX hw d hd => ?_, fun X hX hw d hd => ?_, rfl⟩
  · rw [tripletCount] at hd ⊢
    refine ⟨_, guideApprox_eq n X hX hw d hd, by simp, fun x hx => ?_⟩
    obtain ⟨i, -, rfl⟩ := List.mem_map.1 hx
    have h1 := le_expect X (fun s => dot d ((tuples n 1 ++ tuples n 2 ++ tuples n 3).map (mono (spins s))))
      (fun s => ((tuples n 1 ++ tuples n 2 ++ tuples n 3).map (mono (spins s))).getD i 0) hX (-1)
      fun s hs => (abs_le.1 (abs_tripletObs_le (hw s hs) i)).1
    have h2 := expect_le X (fun s => dot d ((tuples n 1 ++ tuples n 2 ++ tuples n 3).map (mono (spins s))))
      (fun s => ((tuples n 1 ++ tuples n 2 ++ tuples n 3).map (mono (spins s))).getD i 0) hX 1
      fun s hs => (abs_le.1 (abs_tripletObs_le (hw s hs) i)).2
    exact abs_le.2 ⟨h1, h2⟩
  · replace hd : d.length = 3 * n + n * (n - 1) / 2 := hd
    have h := mchPotts_eq 3 n X hX (fun s hs => (mem_words.1 (hw s hs)).1) (d.take (3 * n)) (d.drop (3 * n)) (by simp; omega)
      (by simp; omega)
    rw [List.take_append_drop] at h
    refine ⟨_, h, by simp [paramCount, Nat.mul_comm], fun x hx => ?_⟩
    obtain ⟨i, -, rfl⟩ := List.mem_map.1 hx
    have h1 := le_expect X (fun s => pottsVecE n 3 (d.take (3 * n)) (d.drop (3 * n)) fun i => s.getD i 0)
      (fun s => (pottsObs n 3 fun i => s.getD i 0).getD i 0) hX 0 fun s _ => (pottsObs_range n 3 _ i).1
    have h2 := expect_le X (fun s => pottsVecE n 3 (d.take (3 * n)) (d.drop (3 * n)) fun i => s.getD i 0)
      (fun s => (pottsObs n 3 fun i => s.getD i 0).getD i 0) hX 1 fun s _ => (pottsObs_range n 3 _ i).2
    rw [abs_of_nonneg h1]
    exact h2

/-! ### what `solve` returns -/

/-- `solve` as a run and a draw. -/
theorem solve_user_eq {mc : Machine} {k : ModelKind} {n s0 : ℕ} {B Δ H : ℝ} (hB : 0 ≤ B) {m : MchUser} {a : MchArgs} {c : List ℝ}
    (hn : m.n = some n) (hobs : m.obs = kindObsArg k) (hc : a.constraints.or m.constraints = some c) (hfit : UserFits k n s0 B Δ H a c) {tol tolNorm : ℝ}
    (ht : LimitIs a.tol (1 / Real.sqrt m.model.sampleSize) tol)
    (htn : LimitIs a.tolNorm (Real.sqrt (1 / m.model.sampleSize) * paramCount k n) tolNorm) :
    mchSolveU mc m a = (mchRunU mc (kindObsArg k) m.approx a.nIters a.burnIn c (startOf a c) (convF a.kw a.custom) tol tolNorm a.maxiter
      m.model).bind fun r => (mchDraw mc a.nIters a.burnIn r.1.size r.1.mult r.1.sample).bind fun o =>
        .ret ⟨r.1.mult, r.2, r.1.errors, r.1.mult, o⟩ := by
  have hl := (Kind.startOf_spec hfit hB).1
  unfold mchSolveU
  rw [hn, hc, hobs]
  dsimp only
  change (if (startOf a c).length ≠ c.length then _ else _) = _
  rw [if_neg (by rw [hl]; exact fun h => h hfit.length.symm)]
  change Prog.bind (mchRunU mc (kindObsArg k) m.approx a.nIters a.burnIn c (startOf a c) (convF a.kw a.custom) _
    (orDefault a.tolNorm (Real.sqrt (1 / m.model.sampleSize) * (startOf a c).length)) a.maxiter m.model) _ = _
  rw [orDefault_of ht, hl]
  change Prog.bind (mchRunU mc (kindObsArg k) m.approx a.nIters a.burnIn c (startOf a c) (convF a.kw a.custom) _
    (orDefault a.tolNorm (Real.sqrt (1 / m.model.sampleSize) * paramCount k n)) a.maxiter m.model) _ = _
  rw [orDefault_of htn]

/-- C130: `solve` returns, whatever random numbers are drawn. Its parameters have the right number; the history has one entry
for the start and one for every round, at most `maxiter + 2` rounds (one if `maxiter` is negative); the error flag is 0
exactly if the last errors are within the limits. The model then holds a sample of states; the parameters of the model object
are those it had before. -/
theorem C130_returns (mc : Machine) (hcpu : 0 < mc.cpus) (k : ModelKind) (n : ℕ) (hn : 1 ≤ n) (s0 : ℕ) (hs0 : 0 < s0)
    (hwk : WorkersFit mc k s0) (B Δ H : ℝ)
    (hB : 0 ≤ B) (m : MchUser) (hm : UserReached mc k n m)
    (hap : ApproxFits k n m.approx) (a : MchArgs) (c : List ℝ)
    (hc : a.constraints.or m.constraints = some c) (hfit : UserFits k n s0 B Δ H a c) (hsize : s0 ≤ m.model.sampleSize)
    (tol tolNorm : ℝ) (ht : LimitIs a.tol (1 / Real.sqrt m.model.sampleSize) tol)
    (htn : LimitIs a.tolNorm (Real.sqrt (1 / m.model.sampleSize) * paramCount k n) tolNorm) :
    Returns (mchSolveU mc m a) fun r =>
      r.returned.length = paramCount k n ∧ r.multipliers = r.returned ∧
      (∀ e ∈ r.errors, e.length = paramCount k n) ∧
      2 ≤ r.errors.length ∧ (r.errors.length : ℤ) ≤ max 2 (a.maxiter + 3) ∧
      (∀ x ∈ r.returned, |x| ≤ B + (r.errors.length - 1) * (Δ + 2 * H)) ∧
      (r.errflag = 0 ∨ r.errflag = 1 ∧ a.maxiter + 1 < r.errors.length) ∧
      (r.errflag = 0 ↔ (∀ x ∈ r.errors.getLastD [], |x| < tol) ∧
        Real.sqrt ((r.errors.getLastD []).map fun x => x * x).sum < tolNorm) ∧
      r.sample.multipliers = m.model.multipliers ∧
      ∃ X, r.sample.sample = some X ∧ s0 ≤ X.length ∧ ∀ s ∈ X, s ∈ words (alphabet k) n := by
  obtain ⟨hr, hmn, hobs⟩ := Kind.ready_of_reached hm
  rw [solve_user_eq hB hmn hobs hc hfit ht htn]
  refine (both_bind (Kind.both_run hcpu hn hap hs0 hwk hB hfit hr hsize tol tolNorm) fun r hr' => ?_).1
  obtain ⟨h1, h2, h3, h4⟩ := hr'
  refine both_bind (Kind.both_draw hcpu hn h1.ready a.nIters a.burnIn r.1.size (lt_of_lt_of_le hs0 h1.size)
    (Kind.workersFit_mono hwk h1.size) r.1.mult h1.mult_length)
    fun o ho => both_ret ?_
  obtain ⟨d1, d2, d3, X, d4, d5, d6⟩ := ho
  have hcount := h1.count
  refine ⟨h1.mult_length, rfl, h1.each, by dsimp only; omega, ?_, fun x hx => ?_, ?_, ?_, d2.trans h1.model, X, d4,
    by rw [d5]; exact h1.size, d6⟩
  · dsimp only
    rw [hcount]
    push_cast
    omega
  · have := h1.mult x hx
    rw [hcount]
    push_cast
    linarith
  · dsimp only
    rw [hcount]
    rcases h4 with h4 | h4
    · exact Or.inl h4.1
    · exact Or.inr ⟨h4.1, by push_cast; omega⟩
  · dsimp only
    rcases h4 with h4 | h4
    · exact iff_of_true h4.1 ⟨h4.2.2, h4.2.1⟩
    · refine iff_of_false (by omega) fun h => h4.2.1 ⟨h.2, h.1⟩

open scoped Classical in
/-- C130: the last entry of the error history is close to the true deviation of the model with the returned parameters from
the constraints, with high probability: the probability that it is off by `ε` or more in some observable is at most
`K cpus / (size ε²)`, unless all returned parameters are smaller than `ρ` (for the Potts model without this exception). `K` depends on the number of spins, on `ρ`, on the
bounds on starting point and changes and on the number of rounds only. -/
theorem C130_last_error (k : ModelKind) (n : ℕ) (hn : 1 ≤ n) (ρ : ℝ) (hρ : 0 < ρ) (B Δ H : ℝ) (hB : 0 ≤ B) (hΔ : 0 ≤ Δ) (hH : 0 ≤ H)
    (maxiter : ℤ) :
    ∃ K, 0 ≤ K ∧ ∀ (mc : Machine), 0 < mc.cpus → ∀ (s0 : ℕ), 0 < s0 → WorkersFit mc k s0 → ∀ (m : MchUser),
      UserReached mc k n m → ApproxFits k n m.approx →
      s0 ≤ m.model.sampleSize → ∀ (a : MchArgs) (c : List ℝ), a.constraints.or m.constraints = some c →
      a.maxiter = maxiter → 0 < a.nIters → UserFits k n s0 B Δ H a c → ∀ ε : ℝ, 0 < ε →
      prob (mchSolveU mc m a) (fun r => (k ≠ .potts3 → ∃ x ∈ r.returned, ρ ≤ |x|) ∧ ∃ i < paramCount k n,
        ε ≤ |(r.errors.getLastD []).getD i 0 - (kindMean k n r.returned i - c.getD i 0)|) ≤
          mc.cpus * K / s0 / ε ^ 2 := by
  obtain ⟨K, hK, h⟩ := Kind.prob_run k n hn ρ hρ B Δ H hB hΔ hH maxiter
  refine ⟨K, hK, fun mc hcpu s0 hs0 hwk m hm hap hsize a c hc hmax hk hfit ε hε => ?_⟩
  obtain ⟨hr, hmn, hobs⟩ := Kind.ready_of_reached hm
  have lim : ∀ (g : Option ℝ) (d : ℝ), ∃ t, LimitIs g d t := by
    intro g d
    by_cases hg : g = none ∨ g = some 0
    · exact ⟨d, Or.inr ⟨hg, rfl⟩⟩
    · cases g with
      | none => simp at hg
      | some t => exact ⟨t, Or.inl ⟨rfl, by simpa using hg⟩⟩
  obtain ⟨tol, ht⟩ := lim a.tol (1 / Real.sqrt m.model.sampleSize)
  obtain ⟨tolNorm, htn⟩ := lim a.tolNorm (Real.sqrt (1 / m.model.sampleSize) * paramCount k n)
  rw [solve_user_eq hB hmn hobs hc hfit ht htn]
  refine le_trans (le_of_eq ?_) (h mc hcpu m.approx hap s0 hs0 hwk a c hmax hk hfit m.model hr hsize tol tolNorm ε hε)
  unfold prob
  rw [expectation_bind]
  refine (Kind.both_run hcpu hn hap hs0 hwk hB hfit hr hsize tol tolNorm).fin.congr fun r hr' => ?_
  have h1 := hr'.1
  have hd := (Kind.both_draw hcpu hn h1.ready a.nIters a.burnIn r.1.size (lt_of_lt_of_le hs0 h1.size)
    (Kind.workersFit_mono hwk h1.size) r.1.mult
    h1.mult_length).fin
  rw [expectation_bind]
  simp only [expectation_ret]
  refine (hd.congr (g := fun _ => if Kind.Far k n ρ ε r.1 then 1 else 0) fun o _ => if_congr ?_ rfl rfl).trans (hd.const _)
  unfold Kind.Far
  refine and_congr_right fun _ => exists_congr fun i => and_congr_right fun hi => ?_
  have hi' : i < paramCount k n := hi
  rw [h1.last, List.getD_eq_getElem _ _ (by
    rw [List.length_zipWith, h1.cur_length, hfit.length]
    exact lt_min hi hi), List.getElem_zipWith, List.getD_eq_getElem c _ (by rw [hfit.length]; exact hi),
    List.getD_eq_getElem r.1.cur _ (by rw [h1.cur_length]; exact hi)]
  ring_nf

open scoped Classical in
/-- C130: if the error flag is 0, the model with the returned parameters has the wanted means within `tol + ε`, with a
probability that is close to 1 for large samples. -/
theorem C130_converged (k : ModelKind) (n : ℕ) (hn : 1 ≤ n) (ρ : ℝ) (hρ : 0 < ρ) (B Δ H : ℝ) (hB : 0 ≤ B) (hΔ : 0 ≤ Δ) (hH : 0 ≤ H)
    (maxiter : ℤ) :
    ∃ K, 0 ≤ K ∧ ∀ (mc : Machine), 0 < mc.cpus → ∀ (s0 : ℕ), 0 < s0 → WorkersFit mc k s0 → ∀ (m : MchUser),
      UserReached mc k n m → ApproxFits k n m.approx →
      s0 ≤ m.model.sampleSize → ∀ (a : MchArgs) (c : List ℝ), a.constraints.or m.constraints = some c →
      a.maxiter = maxiter → 0 < a.nIters → UserFits k n s0 B Δ H a c → ∀ tol,
      LimitIs a.tol (1 / Real.sqrt m.model.sampleSize) tol → ∀ ε : ℝ, 0 < ε →
      prob (mchSolveU mc m a) (fun r => r.errflag = 0 ∧ (k ≠ .potts3 → ∃ x ∈ r.returned, ρ ≤ |x|) ∧ ∃ i < paramCount k n,
        tol + ε ≤ |kindMean k n r.returned i - c.getD i 0|) ≤ mc.cpus * K / s0 / ε ^ 2 := by
  obtain ⟨K, hK, h⟩ := C130_last_error k n hn ρ hρ B Δ H hB hΔ hH maxiter
  refine ⟨K, hK, fun mc hcpu s0 hs0 hwk m hm hap hsize a c hc hmax hk hfit tol ht ε hε => ?_⟩
  refine le_trans ?_ (h mc hcpu s0 hs0 hwk m hm hap hsize a c hc hmax hk hfit ε hε)
  obtain ⟨tolNorm, htn⟩ : ∃ t, LimitIs a.tolNorm (Real.sqrt (1 / m.model.sampleSize) * paramCount k n) t := by
    by_cases hg : a.tolNorm = none ∨ a.tolNorm = some 0
    · exact ⟨_, Or.inr ⟨hg, rfl⟩⟩
    · cases hg' : a.tolNorm with
      | none => simp [hg'] at hg
      | some t => exact ⟨t, Or.inl ⟨rfl, by simpa [hg'] using hg⟩⟩
  have hret := C130_returns mc hcpu k n hn s0 hs0 hwk B Δ H hB m hm hap a c hc hfit hsize tol tolNorm ht htn
  obtain ⟨hr, hmn, hobs⟩ := Kind.ready_of_reached hm
  have hfin : FinDist (mchSolveU mc m a) fun _ => True := by
    rw [solve_user_eq hB hmn hobs hc hfit ht htn]
    exact finDist_bind (Kind.both_run hcpu hn hap hs0 hwk hB hfit hr hsize tol tolNorm).fin fun r hr' =>
      finDist_bind (Kind.both_draw hcpu hn hr'.1.ready a.nIters a.burnIn r.1.size (lt_of_lt_of_le hs0 hr'.1.size)
        (Kind.workersFit_mono hwk hr'.1.size) r.1.mult
        hr'.1.mult_length).2 fun _ _ => finDist_ret trivial
  unfold prob
  refine (finDist_of_returns hfin hret).mono fun r hr' => ?_
  obtain ⟨-, -, -, heach, hlen, -, -, -, hflag, -⟩ := hr'
  split
  · rename_i hb
    obtain ⟨h0, hx, i, hi, hge⟩ := hb
    have hlast := (hflag.1 h0).1
    have hmem : r.errors.getLastD [] ∈ r.errors := by
      cases he : r.errors with
      | nil => rw [he] at hlen; simp at hlen
      | cons x l =>
        rw [List.getLastD_cons]
        exact List.getLastD_mem_cons
    have hli : i < (r.errors.getLastD []).length := by rw [heach _ hmem]; exact hi
    have h1 : |(r.errors.getLastD []).getD i 0| < tol := by
      rw [List.getD_eq_getElem _ _ hli]
      exact hlast _ (List.getElem_mem hli)
    have h2 := abs_sub_abs_le_abs_sub (kindMean k n r.returned i - c.getD i 0) ((r.errors.getLastD []).getD i 0)
    rw [if_pos ⟨hx, i, hi, by rw [abs_sub_comm]; linarith⟩]
  · split <;> norm_num

open scoped Classical in
/-- C130: the probability of a wrong report of convergence goes to zero when the samples become large. -/
theorem C130_limit (k : ModelKind) (n : ℕ) (hn : 1 ≤ n) (ρ : ℝ) (hρ : 0 < ρ) (B Δ H : ℝ) (hB : 0 ≤ B) (hΔ : 0 ≤ Δ) (hH : 0 ≤ H)
    (maxiter : ℤ) (cpus : ℕ) (hcpu : 0 < cpus) (ε : ℝ) (hε : 0 < ε) (δ : ℝ) (hδ : 0 < δ) :
    ∃ s0 : ℕ, 0 < s0 ∧ ∀ (mc : Machine), mc.cpus = cpus → (k = .potts3 → mc.ext = true → 3 ≤ cpus) → ∀ (m : MchUser),
      UserReached mc k n m → ApproxFits k n m.approx →
      s0 ≤ m.model.sampleSize → ∀ (a : MchArgs) (c : List ℝ), a.constraints.or m.constraints = some c →
      a.maxiter = maxiter → 0 < a.nIters → UserFits k n s0 B Δ H a c → ∀ tol,
      LimitIs a.tol (1 / Real.sqrt m.model.sampleSize) tol →
      prob (mchSolveU mc m a) (fun r => r.errflag = 0 ∧ (k ≠ .potts3 → ∃ x ∈ r.returned, ρ ≤ |x|) ∧ ∃ i < paramCount k n,
        tol + ε ≤ |kindMean k n r.returned i - c.getD i 0|) < δ := by
  obtain ⟨K, hK, h⟩ := C130_converged k n hn ρ hρ B Δ H hB hΔ hH maxiter
  obtain ⟨s0, hs0⟩ := exists_nat_gt (cpus * K / ε ^ 2 / δ)
  refine ⟨s0 + cpus, by omega, fun mc hmc hwk m hm hap hsize a c hc hmax hk hfit tol ht => ?_⟩
  have hwk' : WorkersFit mc k (s0 + cpus) := fun a b => ⟨hmc ▸ hwk a b, by omega⟩
  refine lt_of_le_of_lt (h mc (by omega) (s0 + cpus) (by omega) hwk' m hm hap hsize a c hc hmax hk hfit tol ht ε hε) ?_
  rw [hmc, div_right_comm, div_lt_iff₀ (by positivity)]
  rw [div_lt_iff₀ hδ] at hs0
  push_cast
  have : 0 < (cpus : ℝ) * δ := by positivity
  linarith

/-! ### the calls of the usage guide -/

/-- ipynb/usage_guide.py:446-449 the arguments of `solve` for triplets. -/
noncomputable def guideTripletArgs : MchArgs :=
  ⟨none, none, none, none, 30, 100, 50, ⟨some 1, none, none, some 1⟩, some (guideSettings 1)⟩

/-- ipynb/usage_guide.py:557-561 the arguments of `solve` for the Potts model; `guess` are the parameters of the model. -/
noncomputable def guidePottsArgs (guess : List ℝ) : MchArgs :=
  ⟨some guess, none, none, none, 500, 1000, 30, ⟨some 1, none, none, some 1⟩, some (guideSettings (1 / 2))⟩

theorem guide_fits (k : ModelKind) (n s0 : ℕ) (B scale : ℝ) (hs : 0 ≤ scale) (a : MchArgs) (ha : a.custom = some (guideSettings scale))
    (c : List ℝ) (hl : c.length = paramCount k n) (hc : ∀ x ∈ c, |x| ≤ 1)
    (hg : ∀ x, a.guess = some x → x.length = paramCount k n ∧ ∀ v ∈ x, |v| ≤ B) : UserFits k n s0 B scale scale a c := by
  have hround : ∀ i, MchArgs.round a i = guideSettings scale i := fun i => by unfold MchArgs.round; rw [ha]
  have hle : ∀ i : ℕ, Real.exp (-i / 5) * scale ≤ scale := fun i =>
    mul_le_of_le_one_left hs (Real.exp_le_one_iff.2 (by
      have : (0 : ℝ) ≤ i := Nat.cast_nonneg i
      linarith))
  refine ⟨hl, hc, fun x hx => (hg x hx).1, fun x hx => (hg x hx).2, by rw [hround]; simp [guideSettings],
    Or.inl fun i => by rw [hround]; rfl, fun i => ?_, fun i => ?_⟩
  · rw [hround]
    exact ⟨by simp only [guideSettings, Option.getD_some]; positivity, by
      simp only [guideSettings, Option.getD_some]; exact hle i⟩
  · rw [hround]
    simp only [guideSettings, Option.getD_some]
    rw [abs_of_nonneg (by positivity)]
    exact hle i

open scoped Classical in
/-- C130: the triplet section of the usage guide. `solve` returns, whatever random numbers are drawn. If it reports success, the
model with the returned parameters has the means, correlations and triplet correlations of the data within `1/sqrt(size) + ε`,
with a probability close to 1 if `size` is large (unless all returned parameters are smaller than `ρ`) - although the
approximation of the guide changes the means in the wrong direction (C118). -/
theorem C130_guide_triplet (n : ℕ) (hn : 1 ≤ n) (ρ : ℝ) (hρ : 0 < ρ) (cpus : ℕ) (hcpu : 0 < cpus) (ε : ℝ) (hε : 0 < ε) (δ : ℝ)
    (hδ : 0 < δ) :
    ∃ s0 : ℕ, 0 < s0 ∧ ∀ (mc : Machine), mc.cpus = cpus → ∀ X : Data, X ≠ [] → (∀ s ∈ X, s ∈ words [1, -1] n) →
      ∀ (x : IsingArg ℝ) (o : ModelObj), Reached mc .triplet x o → o.n = n → o.multipliers.length = paramCount .triplet n →
      ∀ size, s0 ≤ size → ∀ boost rng, ∃ m,
      mchInitUser mc (.data n X) (some o) .triplet size (some (guideApprox n)) boost rng = .ok m ∧
      Returns (mchSolveU mc m guideTripletArgs) (fun r => r.returned.length = paramCount .triplet n) ∧
      prob (mchSolveU mc m guideTripletArgs) (fun r => r.errflag = 0 ∧ (∃ x ∈ r.returned, ρ ≤ |x|) ∧
        ∃ i < paramCount .triplet n, 1 / Real.sqrt size + ε ≤
          |kindMean .triplet n r.returned i - avg X fun s => (kindObs .triplet n s).getD i 0|) < δ := by
  obtain ⟨s0, h0, h⟩ := C130_limit .triplet n hn ρ hρ 0 1 1 le_rfl zero_le_one zero_le_one 50 cpus hcpu ε hε δ hδ
  refine ⟨s0, h0, fun mc hmc X hX hw x o ho hon hl size hsize boost rng => ?_⟩
  obtain ⟨m, c, h1, h2, h3, h4, -, h5, h6, h7, h8⟩ := C130_constructor mc .triplet n X hX hw x o ho hon hl (some (guideApprox n)) size
    (by omega) boost rng
  have hap : ApproxFits .triplet n m.approx := h3 ▸ (C130_approximations n).1
  have hc : guideTripletArgs.constraints.or m.constraints = some c := by rw [h5]; rfl
  have hfit : UserFits .triplet n s0 0 1 1 guideTripletArgs c := guide_fits _ _ _ _ 1 zero_le_one _ rfl c h6 h7 fun x hx => by
    cases hx
  refine ⟨m, h1, returns_mono (fun r hr => hr.1) (C130_returns mc (by omega) .triplet n hn s0 h0 (fun h => by cases h) 0 1 1 le_rfl m h2
    hap guideTripletArgs c hc hfit (by omega) _ _ (Or.inr ⟨Or.inl rfl, rfl⟩) (Or.inr ⟨Or.inl rfl, rfl⟩)), ?_⟩
  have := h mc hmc (fun h => by cases h) m h2 hap (by omega) guideTripletArgs c hc rfl (by norm_num [guideTripletArgs]) hfit _
    (Or.inr ⟨Or.inl rfl, rfl⟩)
  refine lt_of_eq_of_lt ?_ this
  congr 1
  funext r
  rw [h4]
  refine propext (and_congr_right fun _ => and_congr ⟨fun h _ => h, fun h => h (by simp)⟩
    (exists_congr fun i => and_congr_right fun hi => ?_))
  rw [h8 i hi]

open scoped Classical in
/-- C130: the Potts section of the usage guide, with the parameters of the model (none larger than `B`) as starting point. Here
nothing is asked of the returned parameters. With the compiled extension there must be at least three processors. -/
theorem C130_guide_potts (n : ℕ) (hn : 1 ≤ n) (B : ℝ) (hB : 0 ≤ B) (cpus : ℕ) (hcpu : 0 < cpus) (ε : ℝ) (hε : 0 < ε) (δ : ℝ)
    (hδ : 0 < δ) :
    ∃ s0 : ℕ, 0 < s0 ∧ ∀ (mc : Machine), mc.cpus = cpus → (mc.ext = true → 3 ≤ cpus) → ∀ X : Data, X ≠ [] →
      (∀ s ∈ X, s ∈ words [0, 1, 2] n) →
      ∀ (x : IsingArg ℝ) (o : ModelObj), Reached mc .potts3 x o → o.n = n → o.multipliers.length = paramCount .potts3 n →
      (∀ v ∈ o.multipliers, |v| ≤ B) → ∀ size, s0 ≤ size → ∀ boost rng, ∃ m,
      mchInitUser mc (.data n X) (some o) (.potts 3) size (some (mchPotts 3 n)) boost rng = .ok m ∧
      Returns (mchSolveU mc m (guidePottsArgs o.multipliers)) (fun r => r.returned.length = paramCount .potts3 n) ∧
      prob (mchSolveU mc m (guidePottsArgs o.multipliers)) (fun r => r.errflag = 0 ∧
        ∃ i < paramCount .potts3 n, 1 / Real.sqrt size + ε ≤
          |kindMean .potts3 n r.returned i - avg X fun s => (kindObs .potts3 n s).getD i 0|) < δ := by
  obtain ⟨s1, h0, h⟩ := C130_limit .potts3 n hn 1 one_pos B (1 / 2) (1 / 2) hB (by norm_num) (by norm_num) 30 cpus hcpu ε hε δ hδ
  refine ⟨s1 + cpus, by omega, fun mc hmc hext X hX hw x o ho hon hl hb size hsize boost rng => ?_⟩
  obtain ⟨m, c, h1, h2, h3, h4, -, h5, h6, h7, h8⟩ := C130_constructor mc .potts3 n X hX hw x o ho hon hl (some (mchPotts 3 n)) size
    (by omega) boost rng
  have hap : ApproxFits .potts3 n m.approx := h3 ▸ (C130_approximations n).2.1
  have hc : (guidePottsArgs o.multipliers).constraints.or m.constraints = some c := by rw [h5]; rfl
  have hfit : ∀ s, UserFits .potts3 n s B (1 / 2) (1 / 2) (guidePottsArgs o.multipliers) c := fun s =>
    guide_fits _ _ _ _ (1 / 2) (by norm_num) _ rfl c h6 h7 fun x hx => by
      injection hx with hx
      subst hx
      exact ⟨hl, hb⟩
  refine ⟨m, h1, returns_mono (fun r hr => hr.1) (C130_returns mc (by omega) .potts3 n hn (s1 + cpus) (by omega)
    (fun _ hx => ⟨hmc ▸ hext hx, by omega⟩) B (1 / 2) (1 / 2) hB m h2 hap (guidePottsArgs o.multipliers) c hc (hfit _) (by omega)
    _ _ (Or.inr ⟨Or.inl rfl, rfl⟩) (Or.inr ⟨Or.inl rfl, rfl⟩)), ?_⟩
  have := h mc hmc (fun _ => hext) m h2 hap (by omega) (guidePottsArgs o.multipliers) c hc rfl (by norm_num [guidePottsArgs])
    (hfit _) _ (Or.inr ⟨Or.inl rfl, rfl⟩)
  refine lt_of_eq_of_lt ?_ this
  congr 1
  funext r
  rw [h4]
  refine propext (and_congr_right fun _ => ⟨fun h => ⟨fun h => absurd rfl h, ?_⟩, fun h => ?_⟩)
  · obtain ⟨i, hi, h⟩ := h
    exact ⟨i, hi, by rwa [h8 i hi]⟩
  · obtain ⟨-, i, hi, h⟩ := h
    exact ⟨i, hi, by rwa [h8 i hi] at h⟩

/-- Models as in the guide: a triplet model of three spins with all parameters zero, a Potts model of two spins. -/
example : (∃ x o, Reached bareMachine .triplet x o ∧ o.n = 3 ∧ o.multipliers.length = paramCount .triplet 3) ∧
    ∃ x o, Reached ⟨true, false, 4, fun _ _ => none⟩ .potts3 x o ∧ o.n = 2 ∧ o.multipliers.length = paramCount .potts3 2 ∧
      ∀ v ∈ o.multipliers, |v| ≤ 2 :=
  ⟨⟨.parts [[0, 0, 0], [0, 0, 0], [0]], _, ⟨7, [], _, listGen, [], listGen_valid, rfl⟩, rfl, rfl⟩,
    ⟨.parts [[1, 0, 2, 0, 1, 0], [2]], _, ⟨7, [], _, listGen, [], listGen_valid, rfl⟩, rfl, rfl, by
      intro v hv
      replace hv : v ∈ ([1, 0, 2, 0, 1, 0] ++ [2] : List ℝ) := hv
      simp only [List.cons_append, List.nil_append, List.mem_cons, List.not_mem_nil, or_false] at hv
      rcases hv with h | h | h | h | h | h | h <;> rw [h] <;> norm_num⟩⟩

/-- An object and arguments that C130_returns applies to. -/
example (mc : Machine) : ∃ m c, UserReached mc .potts3 2 m ∧ ApproxFits .potts3 2 m.approx ∧ 10000 ≤ m.model.sampleSize ∧
    (guidePottsArgs [1, 0, 2, 0, 1, 0, 2]).constraints.or m.constraints = some c ∧
    UserFits .potts3 2 10000 2 (1 / 2) (1 / 2) (guidePottsArgs [1, 0, 2, 0, 1, 0, 2]) c := by
  obtain ⟨m, c, -, h2, h3, h4, -, h5, h6, h7, -⟩ := C130_constructor mc .potts3 2 [[0, 1], [2, 2], [1, 1]] (by simp) (by decide)
    (.parts [[1, 0, 2, 0, 1, 0], [2]]) _ ⟨7, [], _, listGen, [], listGen_valid, rfl⟩ rfl rfl (some (mchPotts 3 2)) 10000
    (by norm_num) true 0
  refine ⟨m, c, h2, h3 ▸ (C130_approximations 2).2.1, h4.ge, by rw [h5]; rfl,
    guide_fits _ _ _ _ (1 / 2) (by norm_num) _ rfl c h6 h7 fun x hx => ?_⟩
  injection hx with hx
  subst hx
  refine ⟨rfl, fun v hv => ?_⟩
  simp only [List.mem_cons, List.not_mem_nil, or_false] at hv
  rcases hv with h | h | h | h | h | h | h <;> rw [h] <;> norm_num

end Verif.Props
