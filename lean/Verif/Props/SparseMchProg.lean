/-
Property C114: `SparseMCH` with its model and its sampler.
-/
import Verif.Lemmas.SparseMchProg
import Verif.Props.MchProg
import Verif.Props.SparseObj

namespace Verif.Props
open Verif Verif.Model Verif.Spec Verif.Lemmas Prog Filter

/-! ### construction -/

/-- The constructor of `SparseMCH` is that of `MCH` followed by the check of the positions. -/
theorem sparseMchInit_eq (mc : Machine) (a : SolverArg) (model : Option ModelObj) (pix : Option (List ℕ)) (size : ℕ)
    (boost : Bool) (rng : ℕ) :
    sparseMchInit mc a model pix size boost rng = match mchInit mc a model size boost rng with
      | .error e => .error e
      | .ok m => match pix with
        | none => .error .assertion
        | some l => match insertionIx m.model.multipliers.length (uniqueIx l) with
          | .error e => .error e
          | .ok _ => .ok ⟨m.n, m.model, m.constraints, uniqueIx l, m.model.multipliers.length⟩ := by
  unfold sparseMchInit mchInit
  split
  · rfl
  · cases basicSetup mc a model rng with
    | error e => rfl
    | ok s =>
      dsimp only
      cases s.model with
      | none => rfl
      | some o =>
        dsimp only
        cases o.setupSampler mc (chars! "metropolis") size boost <;> rfl

/-- What a user's object knows. -/
theorem sparse_ready {mc : Machine} {n : ℕ} {pix : List ℕ} {m : SparseMchObj} (h : SparseReached mc n pix m) :
    IsingReady mc n m.model ∧ m.n = some n ∧ m.ix = uniqueIx pix ∧ m.nParams = n + n * (n - 1) / 2 := by
  induction h with
  | made arg model size boost rng m harg hmodel h =>
    rw [sparseMchInit_eq] at h
    cases hm : mchInit mc arg model size boost rng with
    | error e => rw [hm] at h; cases h
    | ok m' =>
      rw [hm] at h
      dsimp only at h
      obtain ⟨h1, h2⟩ := ready_of_reached (.made arg model size boost rng m' harg hmodel hm)
      have h3 : m'.model.multipliers.length = n + n * (n - 1) / 2 := by
        have key : ∀ o, solverModel mc n model rng = .ok o → o.multipliers.length = n + n * (n - 1) / 2 := by
          intro o ho
          unfold solverModel at ho
          cases hmo : model with
          | some o1 =>
            rw [hmo] at ho
            injection ho with ho
            subst ho
            obtain ⟨x, -, -, e⟩ := hmodel o1 hmo
            exact e
          | none =>
            rw [hmo] at ho
            dsimp only at ho
            unfold modelInit at ho
            dsimp only at ho
            rw [zeros_init n] at ho
            injection ho with ho
            subst ho
            simp
        unfold mchInit at hm
        split at hm
        · cases hm
        · cases hb : basicSetup mc arg model rng with
          | error e => rw [hb] at hm; cases hm
          | ok s =>
            rw [hb] at hm
            dsimp only at hm
            cases hso : s.model with
            | none => rw [hso] at hm; cases hm
            | some o =>
              rw [hso] at hm
              dsimp only at hm
              have ho : solverModel mc n model rng = .ok o := by
                cases arg with
                | nothing => cases harg
                | size z =>
                  injection harg with harg
                  unfold basicSetup at hb
                  dsimp only at hb
                  split_ifs at hb
                  rw [harg] at hb
                  cases hsm : solverModel mc n model rng with
                  | error e => rw [hsm] at hb; cases hb
                  | ok o' =>
                    rw [hsm] at hb
                    injection hb with hb
                    rw [← hb] at hso
                    injection hso with hso
                    rw [hso]
                | data k X =>
                  injection harg with harg
                  subst harg
                  unfold basicSetup at hb
                  dsimp only at hb
                  cases hsm : solverModel mc k model rng with
                  | error e => rw [hsm] at hb; cases hb
                  | ok o' =>
                    rw [hsm] at hb
                    dsimp only at hb
                    split at hb
                    · cases hb
                    · injection hb with hb
                      rw [← hb] at hso
                      injection hso with hso
                      rw [hso]
              split at hm
              · cases hm
              · rename_i o' ho'
                injection hm with hm
                subst hm
                obtain ⟨-, -, -, hmul, -⟩ := (C102_setup mc o (chars! "metropolis") size boost).1 o' ho'
                rw [← key o ho]
                exact congrArg List.length hmul
      cases hi : insertionIx m'.model.multipliers.length (uniqueIx pix) with
      | error e => rw [hi] at h; cases h
      | ok ins =>
        rw [hi] at h
        injection h with h
        subst h
        exact ⟨h1, h2, rfl, h3⟩
  | solved m hm a σ g seed r hg h ih => exact ⟨sound_run (sound_sparseSolve m ih.1 a) g hg seed r h, ih.2⟩

theorem good_ix {n : ℕ} {pix : List ℕ} (h : GoodPositions n pix) : GoodIx (n + n * (n - 1) / 2) (uniqueIx pix) :=
  ⟨(good_unique h).1, (good_unique h).2.1, (good_unique h).2.2⟩

/-- C114: what the constructor makes from data of spins, and which positions it refuses. -/
theorem C114_constructor (mc : Machine) (n : ℕ) (X : Data) (hX : X ≠ []) (hw : ∀ s ∈ X, s ∈ words [1, -1] n) (size : ℕ)
    (hsize : 0 < size) (boost : Bool) (rng : ℕ) :
    sparseMchInit mc (.data n X) none none size boost rng = .error .assertion ∧
    (∀ pix, sparseMchInit mc (.data n X) none pix 0 boost rng = .error .assertion) ∧
    sparseMchInit mc (.data n X) none (some []) size boost rng = .error .indexError ∧
    (∀ l p, p + 1 < paramCount .ising n → l ≠ [] → (∀ q ∈ l, q = p) →
      sparseMchInit mc (.data n X) none (some l) size boost rng = .error .unboundLocal) ∧
    ∀ l, l ≠ [] → (∀ p, p + 1 < paramCount .ising n → ∃ q ∈ l, q ≠ p) →
      ∃ m c, sparseMchInit mc (.data n X) none (some l) size boost rng = .ok m ∧ SparseReached mc n l m ∧
        m.ix.Pairwise (· < ·) ∧ (∀ q, q ∈ m.ix ↔ q ∈ l) ∧ m.model.sampleSize = size ∧ m.constraints = some c ∧
        c.length = paramCount .ising n ∧ ∀ i < paramCount .ising n, c.getD i 0 = avg X fun s => (pairObs n (spins s)).getD i 0 := by
  have hX' : SpinData n X := ⟨hX, fun r hr => by
    have := mem_words.1 (hw r hr)
    refine mem_words.2 ⟨this.1, fun x hx => ?_⟩
    have := this.2 x hx
    simp only [List.mem_cons, List.not_mem_nil, or_false] at this ⊢
    tauto⟩
  obtain ⟨m0, h1, h2, -, -, h3, h4, -, c, h5, h6, h7⟩ := C105_constructor mc n X hX (fun s hs => (mem_words.1 (hw s hs)).1)
    (fun s hs => word_entry (hw s hs)) size hsize boost rng
  obtain ⟨o, hb, -, -, hl⟩ := sparse_data mc n X hX' rng
  have hl0 : m0.model.multipliers.length = n + n * (n - 1) / 2 := by rw [h3, List.length_replicate]; rfl
  obtain ⟨c1, c2, c3, c4⟩ := C111_constructor mc n X hX' rng
  have key : ∀ l, sparseMchInit mc (.data n X) none (some l) size boost rng =
      match sparseInit mc (.data n X) none (some l) rng with
      | .error e => .error e
      | .ok o => .ok ⟨m0.n, m0.model, m0.constraints, o.ix, n + n * (n - 1) / 2⟩ := by
    intro l
    rw [sparseMchInit_eq, h1]
    dsimp only
    unfold sparseInit
    rw [hb]
    dsimp only
    rw [hl0, hl]
    cases insertionIx (n + n * (n - 1) / 2) (uniqueIx l) <;> rfl
  refine ⟨by rw [sparseMchInit_eq, h1], fun pix => rfl, by rw [key, c2], fun l p hp hl' hall => by rw [key, c3 l p hp hl' hall],
    fun l hl' hall => ?_⟩
  obtain ⟨o, e1, e2, e3⟩ := c4 l hl' hall
  have hi : sparseMchInit mc (.data n X) none (some l) size boost rng =
      .ok ⟨m0.n, m0.model, m0.constraints, o.ix, n + n * (n - 1) / 2⟩ := by rw [key, e1]
  exact ⟨_, c, hi, .made _ _ _ _ _ _ rfl (fun o ho => by cases ho) hi, e2, e3, h4, h5, h6, h7⟩

theorem sparse_lt {n : ℕ} {l : List ℕ} (hl : GoodPositions n l) (q : ℕ) (hq : q < n + n * (n - 1) / 2) (hql : q ∉ l) :
    (uniqueIx l).length < n + n * (n - 1) / 2 := by
  obtain ⟨g1, g2, -⟩ := good_unique hl
  have hnd : (uniqueIx l).Nodup := g1.imp fun h => ne_of_lt h
  have hnd' : (q :: uniqueIx l).Nodup := List.nodup_cons.2 ⟨fun h => hql (mem_uniqueIx.1 h), hnd⟩
  have hsub : (q :: uniqueIx l) ⊆ List.range (n + n * (n - 1) / 2) := by
    intro p hp
    rw [List.mem_range]
    rcases List.mem_cons.1 hp with rfl | hp
    · exact hq
    · exact g2 p hp
  have := (hnd'.subperm hsub).length_le
  simp at this
  omega

/-- C114: without the argument `constraints`, `solve` raises, unless all parameters were selected: it compares the means of
all observables with the number of positions. -/
theorem C114_default_raises (mc : Machine) (n : ℕ) (X : Data) (hX : X ≠ []) (hw : ∀ s ∈ X, s ∈ words [1, -1] n) (size : ℕ)
    (hsize : 0 < size) (boost : Bool) (rng : ℕ) (l : List ℕ) (hl : GoodPositions n l) (q : ℕ) (hq : q < paramCount .ising n)
    (hql : q ∉ l) :
    ∃ m, sparseMchInit mc (.data n X) none (some l) size boost rng = .ok m ∧
      ∀ a : MchArgs, a.constraints = none → sparseMchSolveP mc m a = .fail .assertion := by
  have hne : l ≠ [] := by
    rcases hl.2 with ⟨p, hp, -⟩ | ⟨h, -⟩
    · exact List.ne_nil_of_mem hp
    · exact h
  obtain ⟨-, -, -, -, h⟩ := C114_constructor mc n X hX hw size hsize boost rng
  obtain ⟨m, c, h1, h2, -, -, -, h3, h4, -⟩ := h l hne fun p hp => by
    rcases hl.2 with ⟨x, hx, y, hy, hxy⟩ | ⟨_, hall⟩
    · by_cases e : x = p
      · exact ⟨y, hy, fun e' => hxy (e.trans e'.symm)⟩
      · exact ⟨x, hx, e⟩
    · obtain ⟨x, hx⟩ := List.exists_mem_of_ne_nil _ hne
      refine ⟨x, hx, ?_⟩
      have := hall x hx
      have hp' : p + 1 < n + n * (n - 1) / 2 := hp
      omega
  obtain ⟨-, e1, e2, -⟩ := sparse_ready h2
  refine ⟨m, h1, fun a ha => ?_⟩
  have hlt := sparse_lt hl q hq hql
  have h4' : c.length = n + n * (n - 1) / 2 := h4
  unfold sparseMchSolveP sparseMchSetup
  rw [e1, ha, h3, e2]
  dsimp only
  split
  · rename_i hs
    split_ifs at hs
    · cases hs; rfl
    · cases hs; rfl
  · rename_i hs
    split_ifs at hs
    omega

theorem sparseMchSetup_ok {ix : List ℕ} {self guess constraints : Option (List ℝ)} {x0 c : List ℝ}
    (h : sparseMchSetup ix self guess constraints = .ok (x0, c)) : x0.length = ix.length ∧ c.length = ix.length := by
  unfold sparseMchSetup at h
  dsimp only at h
  split_ifs at h with h1
  split at h
  · split_ifs at h with h2
    injection h with h
    injection h with e1 e2
    subst e1
    subst e2
    omega
  · split at h
    · cases h
    · split_ifs at h with h2
      injection h with h
      injection h with e1 e2
      subst e1
      subst e2
      omega

/-- Positions beyond the end make the filled vector longer. -/
theorem fillIn_beyond {N p : ℕ} {ix : List ℕ} (hs : ix.Pairwise (· < ·)) (hp : p ∈ ix) (hN : N ≤ p) (x : List ℝ)
    (hx : x.length = ix.length) : ∃ M, p < M ∧
      fillIn N ix x 0 = .ok ((List.range M).map fun q => if q ∈ ix then x.getD (ix.idxOf q) 0 else 0) := by
  have hne : ix ≠ [] := List.ne_nil_of_mem hp
  obtain ⟨init, k, rfl⟩ : ∃ init k, ix = init ++ [k] := ⟨ix.dropLast, ix.getLast hne, (List.dropLast_append_getLast hne).symm⟩
  have hmax : ∀ q ∈ init ++ [k], q ≤ k := by
    intro q hq
    rcases List.mem_append.1 hq with h | h
    · exact le_of_lt ((List.pairwise_append.1 hs).2.2 q h k (by simp))
    · exact le_of_eq (List.mem_singleton.1 h)
  have hpk := hmax p hp
  have hins : insertionIx N (init ++ [k]) = insertionIx (k + 1) (init ++ [k]) := by
    cases init with
    | nil =>
      unfold insertionIx
      simp only [List.nil_append, List.getLastD_nil]
      rw [if_neg (by omega), if_neg (by omega)]
    | cons a t =>
      unfold insertionIx
      simp only [List.cons_append, List.getLastD_concat]
      rw [if_neg (by omega), if_neg (by omega)]
  refine ⟨k + 1, by omega, ?_⟩
  rw [← fillIn_eq (k + 1) (init ++ [k]) hs (fun q hq => Nat.lt_succ_of_le (hmax q hq)) ?_ x hx 0]
  · unfold fillIn
    rw [hins]
  · cases init with
    | nil => right; simp
    | cons a t => left; simp

/-- C114: positions that are not those of parameters are accepted by the constructor, but `solve` then always raises. -/
theorem C114_out_of_range (mc : Machine) (n : ℕ) (pix : List ℕ) (p : ℕ) (hp : p ∈ pix) (hpn : paramCount .ising n ≤ p)
    (m : SparseMchObj) (hm : SparseReached mc n pix m) (a : MchArgs) : ∃ e, sparseMchSolveP mc m a = .fail e := by
  obtain ⟨hr, hmn, hix, hN⟩ := sparse_ready hm
  have hpn' : n + n * (n - 1) / 2 ≤ p := hpn
  have hs := uniqueIx_sorted pix
  have hmem : p ∈ m.ix := by rw [hix]; exact mem_uniqueIx.2 hp
  rw [← hix] at hs
  unfold sparseMchSolveP
  rw [hmn]
  dsimp only
  split
  · exact ⟨_, rfl⟩
  · rename_i x0 c hset
    have hx0 := (sparseMchSetup_ok hset).1
    split
    · exact ⟨_, rfl⟩
    · rename_i full hfull
      have hlen : n + n * (n - 1) / 2 < full.length := by
        obtain ⟨M, hM, e1⟩ := fillIn_beyond hs hmem hpn' x0 hx0
        rw [hN] at hfull
        rw [e1] at hfull
        injection hfull with hfull
        rw [← hfull]
        simpa using by omega
      obtain ⟨s, hs1, hs2⟩ := hr.sampler
      unfold sparseRunP
      split
      · exact ⟨_, rfl⟩
      · unfold mchDraw ModelObj.generateSample
        dsimp only
        rw [hs1]
        dsimp only
        split
        · unfold SamplerObj.updateParameters
          rw [Option.getD_some, if_pos (by rw [hs2]; omega)]
          exact ⟨_, rfl⟩
        · exact ⟨_, rfl⟩

/-! ### what `solve` returns -/

/-- The first parameters. -/
def sparseStart (a : MchArgs) (k : ℕ) : List ℝ := a.guess.getD (List.replicate k 0)

theorem sparseStart_spec {k s0 : ℕ} {B Δ H : ℝ} {a : MchArgs} {c : List ℝ} (h : SparseFits k s0 B Δ H a c) (hB : 0 ≤ B) :
    (sparseStart a k).length = k ∧ ∀ x ∈ sparseStart a k, |x| ≤ B := by
  unfold sparseStart
  cases hg : a.guess with
  | none =>
    refine ⟨by rw [Option.getD_none, List.length_replicate], fun x hx => ?_⟩
    rw [Option.getD_none] at hx
    rw [(List.mem_replicate.1 hx).2, abs_zero]
    exact hB
  | some x => exact ⟨h.guess_length x hg, h.guess x hg⟩

theorem sparse_settings {k s0 : ℕ} {B Δ H : ℝ} {a : MchArgs} {c : List ℝ} (h : SparseFits k s0 B Δ H a c) :
    GoodSettings s0 (Δ + H * 2) (convF a.kw a.custom) := by
  rw [convF_eq]
  exact ⟨h.sizes, fun i => (h.change i).1, fun i => add_le_add (h.change i).2
    (mul_le_mul_of_nonneg_right (h.factor i) (by norm_num))⟩

section
variable {mc : Machine} (hcpu : 0 < mc.cpus) {n : ℕ} (hn : 0 < n) {ix : List ℕ} (hix : GoodIx (n + n * (n - 1) / 2) ix)
  {s0 : ℕ} (hs0 : 0 < s0) {B Δ H : ℝ} (hB : 0 ≤ B)
  {a : MchArgs} {c : List ℝ} (hfit : SparseFits ix.length s0 B Δ H a c) {o : ModelObj} (ho : IsingReady mc n o)
  (hsize : s0 ≤ o.sampleSize)
include hcpu hn hix hs0 hB hfit ho hsize

/-- The state before the first round. -/
theorem both_sparseFirst : Both (mchDraw mc a.nIters a.burnIn o.sampleSize (spread (n + n * (n - 1) / 2) ix
    (sparseStart a ix.length)) o) fun o' => ∃ cur err,
    sparseObs ix o' = .ok cur ∧ broadcast2 (· - ·) cur c = .ok err ∧
    SparseInv mc n ix s0 c o.multipliers (fun i => B + i * (Δ + H * 2))
      ⟨spread (n + n * (n - 1) / 2) ix (sparseStart a ix.length), o', cur, o.sampleSize, 0, [err]⟩ := by
  obtain ⟨h1, h2⟩ := sparseStart_spec hfit hB
  refine both_mono ?_ (both_draw hcpu hn ho a.nIters a.burnIn o.sampleSize (by omega) _ (spread_length _ ix _))
  intro o' ho'
  obtain ⟨cur, c1, c2, c3⟩ := sparse_obs_drawn (by omega) ho' hix
  obtain ⟨d1, d2, d3, X, d4, d5, d6⟩ := ho'
  have hl : cur.length = c.length := by rw [c2]; exact hfit.length.symm
  refine ⟨cur, _, c1, broadcast_sub hl, d1, ⟨X, d4, by omega, d6⟩, spread_length _ _ _, fun x hx => ?_, fun q hq => ?_, c2,
    fun i hi => (c3 i hi).2.1, fun i hi => (c3 i hi).2.2, hsize, rfl, rfl, fun e he => ?_, d2⟩
  · have : |x| ≤ B := by
      unfold spread at hx
      obtain ⟨q, -, rfl⟩ := List.mem_map.1 hx
      split
      · rename_i hq
        rw [List.getD_eq_getElem _ _ (by rw [h1]; exact List.idxOf_lt_length_iff.2 hq)]
        exact h2 _ (List.getElem_mem _)
      · rw [abs_zero]; exact hB
    simpa using this
  · by_cases hlt : q < n + n * (n - 1) / 2
    · exact (spread_getD _ _ _ _ hlt).trans (if_neg hq)
    · exact List.getD_eq_default _ _ (by rw [spread_length]; omega)
  · rw [List.mem_singleton.1 he]
    simp only [List.length_zipWith]
    rw [← hl, min_self, c2]

theorem both_sparseRun (tol tolNorm : ℝ) :
    Both (sparseRunP mc (n + n * (n - 1) / 2) ix a.nIters a.burnIn c
      (spread (n + n * (n - 1) / 2) ix (sparseStart a ix.length)) (convF a.kw a.custom) tol tolNorm a.maxiter o) fun r =>
      SparseInv mc n ix s0 c o.multipliers (fun i => B + i * (Δ + H * 2)) r.1 ∧ 0 < r.1.counter ∧
      r.1.counter ≤ (a.maxiter + 1).toNat + 1 ∧ (r.2 = 0 ∧ mchDone tol tolNorm r.1 ∨
        r.2 = 1 ∧ ¬ mchDone tol tolNorm r.1 ∧ a.maxiter < r.1.counter) := by
  unfold sparseRunP
  rw [if_neg (by rw [convF_eq]; exact hfit.eta)]
  refine both_bind (both_sparseFirst hcpu hn hix hs0 hB hfit ho hsize) fun o' ho' => ?_
  obtain ⟨cur, err, h1, h2, h3⟩ := ho'
  rw [h1, ofPy_ok_bind, h2, ofPy_ok_bind]
  refine both_mono ?_ (both_sparseLoop hcpu hn hix hs0 hfit.length hfit.range a.nIters a.burnIn (sparse_settings hfit) tol
    tolNorm a.maxiter _ _ h3 (by dsimp only; push_cast; omega))
  rintro r ⟨r1, r2, r3, r4⟩
  exact ⟨r1, r2, by simpa using r3, r4⟩

end

/-- `solve` as a run. -/
theorem sparse_solve_eq {mc : Machine} {n s0 : ℕ} {B Δ H : ℝ} (hB : 0 ≤ B) {m : SparseMchObj} {a : MchArgs} {c : List ℝ}
    (hn : m.n = some n) (hN : m.nParams = n + n * (n - 1) / 2) (hix : GoodIx (n + n * (n - 1) / 2) m.ix)
    (hc : a.constraints.or m.constraints = some c) (hfit : SparseFits m.ix.length s0 B Δ H a c) {tol tolNorm : ℝ}
    (ht : LimitIs a.tol (1 / Real.sqrt m.model.sampleSize) tol)
    (htn : LimitIs a.tolNorm (Real.sqrt (1 / m.model.sampleSize) * paramCount .ising n) tolNorm) :
    sparseMchSolveP mc m a = (sparseRunP mc (n + n * (n - 1) / 2) m.ix a.nIters a.burnIn c
      (spread (n + n * (n - 1) / 2) m.ix (sparseStart a m.ix.length)) (convF a.kw a.custom) tol tolNorm a.maxiter
      m.model).bind fun r => (Prog.ofPy (takeIx r.1.mult m.ix)).bind fun ret =>
        .ret ⟨ret, r.2, r.1.errors, r.1.mult, r.1.sample⟩ := by
  have hl := (sparseStart_spec hfit hB).1
  have hset : sparseMchSetup m.ix m.constraints a.guess a.constraints = .ok (sparseStart a m.ix.length, c) := by
    unfold sparseMchSetup
    change (if (sparseStart a m.ix.length).length ≠ m.ix.length then _ else _) = _
    rw [if_neg (by rw [hl]; exact fun h => h rfl)]
    cases h1 : a.constraints with
    | some c' =>
      rw [h1] at hc
      injection hc with hc
      subst hc
      change (if (sparseStart a m.ix.length).length ≠ c'.length then _ else _) = _
      rw [if_neg (by rw [hl, hfit.length]; exact fun h => h rfl)]
      rfl
    | none =>
      rw [h1] at hc
      change m.constraints = some c at hc
      rw [hc]
      dsimp only
      rw [if_pos hfit.length]
      rfl
  unfold sparseMchSolveP
  rw [hn]
  dsimp only
  rw [hset]
  dsimp only
  rw [hN, hix.fill _ hl]
  dsimp only
  rw [orDefault_of ht, spread_length]
  change Prog.bind (sparseRunP mc (n + n * (n - 1) / 2) m.ix a.nIters a.burnIn c _ (convF a.kw a.custom) _
    (orDefault a.tolNorm (Real.sqrt (1 / m.model.sampleSize) * paramCount .ising n)) a.maxiter m.model) _ = _
  rw [orDefault_of htn]

/-- C114: for usable positions and as many constraints, `solve` returns, whatever random numbers are drawn. The full vector
of parameters is zero outside the positions and has the returned ones at the positions; the history has one entry for the
start and one for every round, at most `maxiter + 2` rounds (one if `maxiter` is negative); the error flag is 0 exactly if the
last errors are within the limits. The model then holds a sample of spins; the parameters of the model object are those it
had before. -/
theorem C114_returns (mc : Machine) (hcpu : 0 < mc.cpus) (n : ℕ) (hn : 1 ≤ n) (pix : List ℕ) (hpix : GoodPositions n pix)
    (s0 : ℕ) (hs0 : 0 < s0) (B Δ H : ℝ) (hB : 0 ≤ B) (m : SparseMchObj) (hm : SparseReached mc n pix m) (a : MchArgs)
    (c : List ℝ) (hc : a.constraints.or m.constraints = some c) (hfit : SparseFits m.ix.length s0 B Δ H a c)
    (hsize : s0 ≤ m.model.sampleSize) (tol tolNorm : ℝ) (ht : LimitIs a.tol (1 / Real.sqrt m.model.sampleSize) tol)
    (htn : LimitIs a.tolNorm (Real.sqrt (1 / m.model.sampleSize) * paramCount .ising n) tolNorm) :
    Returns (sparseMchSolveP mc m a) fun r =>
      r.returned.length = m.ix.length ∧ FillsIn (paramCount .ising n) m.ix r.returned r.multipliers ∧
      (∀ e ∈ r.errors, e.length = m.ix.length) ∧
      2 ≤ r.errors.length ∧ (r.errors.length : ℤ) ≤ max 2 (a.maxiter + 3) ∧
      (∀ x ∈ r.multipliers, |x| ≤ B + (r.errors.length - 1) * (Δ + 2 * H)) ∧
      (r.errflag = 0 ∨ r.errflag = 1 ∧ a.maxiter + 1 < r.errors.length) ∧
      (r.errflag = 0 ↔ (∀ x ∈ r.errors.getLastD [], |x| < tol) ∧
        Real.sqrt ((r.errors.getLastD []).map fun x => x * x).sum < tolNorm) ∧
      r.sample.multipliers = m.model.multipliers ∧
      ∃ X, r.sample.sample = some X ∧ s0 ≤ X.length ∧ (∀ s ∈ X, s ∈ words [1, -1] n) ∧
        ∀ j < m.ix.length, (r.errors.getLastD []).getD j 0 = avg X (paramObs n (m.ix.getD j 0)) - c.getD j 0 := by
  obtain ⟨hr, hmn, hmi, hN⟩ := sparse_ready hm
  have hix : GoodIx (n + n * (n - 1) / 2) m.ix := by rw [hmi]; exact good_ix hpix
  rw [sparse_solve_eq hB hmn hN hix hc hfit ht htn]
  refine (both_bind (both_sparseRun hcpu hn hix hs0 hB hfit hr hsize tol tolNorm) fun r hr' => ?_).1
  obtain ⟨h1, h2, h3, h4⟩ := hr'
  rw [takeIx_ok _ _ fun p hp => by rw [h1.mult_length]; exact hix.range p hp, ofPy_ok_bind]
  obtain ⟨X, d4, d5, d6⟩ := h1.rows
  have hcount := h1.count
  refine both_ret ⟨by simp, ⟨⟨h1.mult_length, h1.zero⟩, fun j hj => ?_⟩, h1.each, by dsimp only; omega, ?_, fun x hx => ?_, ?_,
    ?_, h1.model, X, d4, d5, d6, fun j hj => ?_⟩
  · dsimp only
    rw [List.getD_eq_getElem (m.ix.map _) 0 (n := j) (by rw [List.length_map]; exact hj), List.getElem_map,
      List.getD_eq_getElem m.ix 0 hj]
  · dsimp only
    rw [hcount]
    push_cast
    omega
  · have := h1.mult x hx
    rw [hcount]
    push_cast
    linarith
  · dsimp only
    rw [hcount]
    rcases h4 with h4 | h4
    · exact Or.inl h4.1
    · exact Or.inr ⟨h4.1, by push_cast; omega⟩
  · dsimp only
    rcases h4 with h4 | h4
    · exact iff_of_true h4.1 ⟨h4.2.2, h4.2.1⟩
    · refine iff_of_false (by omega) fun h => h4.2.1 ⟨h.2, h.1⟩
  · have := h1.mean j hj
    rw [d4, Option.getD_some] at this
    dsimp only
    rw [h1.last, ← this, getD_zipWith_sub _ _ (by rw [h1.cur_length, hfit.length])]

open scoped Classical in
/-- C114: the last entry of the error history is close to the true deviation of the model with the returned parameters from
the constraints, with high probability: the probability that it is off by `ε` or more in some selected observable is at most
`K cpus / (size ε²)`, unless all returned parameters are smaller than `ρ`. `K` depends on the number of spins, on `ρ`, on the
bounds on starting point and changes and on the number of rounds only. -/
theorem C114_last_error (n : ℕ) (hn : 1 ≤ n) (ρ : ℝ) (hρ : 0 < ρ) (B Δ H : ℝ) (hB : 0 ≤ B) (hΔ : 0 ≤ Δ) (hH : 0 ≤ H)
    (maxiter : ℤ) :
    ∃ K, 0 ≤ K ∧ ∀ (mc : Machine), 0 < mc.cpus → ∀ (pix : List ℕ), GoodPositions n pix → ∀ (s0 : ℕ), 0 < s0 →
      ∀ (m : SparseMchObj), SparseReached mc n pix m → s0 ≤ m.model.sampleSize →
      ∀ (a : MchArgs) (c : List ℝ), a.constraints.or m.constraints = some c →
      a.maxiter = maxiter → 0 < a.nIters → SparseFits m.ix.length s0 B Δ H a c → ∀ ε : ℝ, 0 < ε →
      prob (sparseMchSolveP mc m a) (fun r => (∃ x ∈ r.returned, ρ ≤ |x|) ∧ ∃ j < m.ix.length,
        ε ≤ |(r.errors.getLastD []).getD j 0 - (modelMean n r.multipliers (m.ix.getD j 0) - c.getD j 0)|) ≤
          mc.cpus * K / s0 / ε ^ 2 := by
  obtain ⟨K, hK, h⟩ := prob_sparseLoop n hn ρ hρ B (Δ + H * 2) (by positivity) ((maxiter + 1).toNat + 1)
  refine ⟨((maxiter + 1).toNat + 1 : ℕ) * ((n + n * (n - 1) / 2 : ℕ) * K), by positivity,
    fun mc hcpu pix hpix s0 hs0 m hm hsize a c hc hmax hk hfit ε hε => ?_⟩
  obtain ⟨hr, hmn, hmi, hN⟩ := sparse_ready hm
  have hix : GoodIx (n + n * (n - 1) / 2) m.ix := by rw [hmi]; exact good_ix hpix
  have lim : ∀ (g : Option ℝ) (d : ℝ), ∃ t, LimitIs g d t := by
    intro g d
    by_cases hg : g = none ∨ g = some 0
    · exact ⟨d, Or.inr ⟨hg, rfl⟩⟩
    · cases g with
      | none => simp at hg
      | some t => exact ⟨t, Or.inl ⟨rfl, by simpa using hg⟩⟩
  obtain ⟨tol, ht⟩ := lim a.tol (1 / Real.sqrt m.model.sampleSize)
  obtain ⟨tolNorm, htn⟩ := lim a.tolNorm (Real.sqrt (1 / m.model.sampleSize) * paramCount .ising n)
  rw [sparse_solve_eq hB hmn hN hix hc hfit ht htn]
  -- the event in terms of the state at the end of the run
  have hle : prob ((sparseRunP mc (n + n * (n - 1) / 2) m.ix a.nIters a.burnIn c
      (spread (n + n * (n - 1) / 2) m.ix (sparseStart a m.ix.length)) (convF a.kw a.custom) tol tolNorm a.maxiter
      m.model).bind fun r => (Prog.ofPy (takeIx r.1.mult m.ix)).bind fun ret =>
        .ret (⟨ret, r.2, r.1.errors, r.1.mult, r.1.sample⟩ : MchResult ModelObj))
      (fun r => (∃ x ∈ r.returned, ρ ≤ |x|) ∧ ∃ j < m.ix.length,
        ε ≤ |(r.errors.getLastD []).getD j 0 - (modelMean n r.multipliers (m.ix.getD j 0) - c.getD j 0)|) ≤
      prob (sparseRunP mc (n + n * (n - 1) / 2) m.ix a.nIters a.burnIn c
      (spread (n + n * (n - 1) / 2) m.ix (sparseStart a m.ix.length)) (convF a.kw a.custom) tol tolNorm a.maxiter
      m.model) (fun r => FarAt n m.ix ρ ε r.1) := by
    unfold prob
    rw [expectation_bind]
    refine (both_sparseRun hcpu hn hix hs0 hB hfit hr hsize tol tolNorm).fin.mono fun r hr' => ?_
    have h1 := hr'.1
    rw [takeIx_ok _ _ fun p hp => by rw [h1.mult_length]; exact hix.range p hp, ofPy_ok_bind]
    simp only [expectation_ret]
    split
    · rename_i hb
      obtain ⟨⟨x, hx, hxρ⟩, j, hj, hje⟩ := hb
      rw [if_pos]
      refine ⟨?_, j, hj, ?_⟩
      · obtain ⟨p, hp, rfl⟩ := List.mem_map.1 hx
        refine ⟨_, ?_, hxρ⟩
        rw [List.getD_eq_getElem _ _ (by rw [h1.mult_length]; exact hix.range p hp)]
        exact List.getElem_mem _
      · rw [h1.last, getD_zipWith_sub _ _ (by rw [h1.cur_length, hfit.length])] at hje
        rwa [sub_sub_sub_cancel_right] at hje
    · split <;> norm_num
  refine hle.trans ?_
  unfold sparseRunP prob
  rw [if_neg (by rw [convF_eq]; exact hfit.eta), expectation_bind]
  refine (both_sparseFirst hcpu hn hix hs0 hB hfit hr hsize).fin.le_of fun o' ho' => ?_
  obtain ⟨cur, err, h1, h2, h3⟩ := ho'
  rw [h1, ofPy_ok_bind, h2, ofPy_ok_bind, hmax]
  have := h mc hcpu m.ix hix s0 hs0 c m.model.multipliers hfit.length hfit.range a.nIters a.burnIn hk _ (sparse_settings hfit)
    tol tolNorm maxiter ε hε ((maxiter + 1).toNat + 1) _ h3 (by dsimp only; omega)
  unfold prob at this
  refine this.trans ?_
  have hlen : m.ix.length ≤ n + n * (n - 1) / 2 := by
    have hnd : m.ix.Nodup := hix.sorted.imp fun h => ne_of_lt h
    have hsub : m.ix ⊆ List.range (n + n * (n - 1) / 2) := fun p hp => List.mem_range.2 (hix.range p hp)
    simpa using (hnd.subperm hsub).length_le
  have hs0' : (0 : ℝ) < s0 := by exact_mod_cast hs0
  have hlen' : (m.ix.length : ℝ) ≤ (n + n * (n - 1) / 2 : ℕ) := by exact_mod_cast hlen
  have hV : 0 ≤ (mc.cpus * K / s0 / ε ^ 2 : ℝ) := by positivity
  calc (((maxiter + 1).toNat + 1 : ℕ) : ℝ) * (m.ix.length * (mc.cpus * K / s0 / ε ^ 2))
      ≤ (((maxiter + 1).toNat + 1 : ℕ) : ℝ) * ((n + n * (n - 1) / 2 : ℕ) * (mc.cpus * K / s0 / ε ^ 2)) :=
        mul_le_mul_of_nonneg_left (mul_le_mul_of_nonneg_right hlen' hV) (by positivity)
    _ = _ := by ring

open scoped Classical in
/-- C114: if the error flag is 0, the model with the returned parameters (and zeros elsewhere) has the wanted means of the
selected observables within `tol + ε`, with a probability that is close to 1 for large samples. -/
theorem C114_converged (n : ℕ) (hn : 1 ≤ n) (ρ : ℝ) (hρ : 0 < ρ) (B Δ H : ℝ) (hB : 0 ≤ B) (hΔ : 0 ≤ Δ) (hH : 0 ≤ H)
    (maxiter : ℤ) :
    ∃ K, 0 ≤ K ∧ ∀ (mc : Machine), 0 < mc.cpus → ∀ (pix : List ℕ), GoodPositions n pix → ∀ (s0 : ℕ), 0 < s0 →
      ∀ (m : SparseMchObj), SparseReached mc n pix m → s0 ≤ m.model.sampleSize →
      ∀ (a : MchArgs) (c : List ℝ), a.constraints.or m.constraints = some c →
      a.maxiter = maxiter → 0 < a.nIters → SparseFits m.ix.length s0 B Δ H a c → ∀ tol,
      LimitIs a.tol (1 / Real.sqrt m.model.sampleSize) tol → ∀ ε : ℝ, 0 < ε →
      prob (sparseMchSolveP mc m a) (fun r => r.errflag = 0 ∧ (∃ x ∈ r.returned, ρ ≤ |x|) ∧ ∃ j < m.ix.length,
        tol + ε ≤ |modelMean n r.multipliers (m.ix.getD j 0) - c.getD j 0|) ≤ mc.cpus * K / s0 / ε ^ 2 := by
  obtain ⟨K, hK, h⟩ := C114_last_error n hn ρ hρ B Δ H hB hΔ hH maxiter
  refine ⟨K, hK, fun mc hcpu pix hpix s0 hs0 m hm hsize a c hc hmax hk hfit tol ht ε hε => ?_⟩
  refine le_trans ?_ (h mc hcpu pix hpix s0 hs0 m hm hsize a c hc hmax hk hfit ε hε)
  obtain ⟨tolNorm, htn⟩ : ∃ t, LimitIs a.tolNorm (Real.sqrt (1 / m.model.sampleSize) * paramCount .ising n) t := by
    by_cases hg : a.tolNorm = none ∨ a.tolNorm = some 0
    · exact ⟨_, Or.inr ⟨hg, rfl⟩⟩
    · cases hg' : a.tolNorm with
      | none => simp [hg'] at hg
      | some t => exact ⟨t, Or.inl ⟨rfl, by simpa [hg'] using hg⟩⟩
  have hret := C114_returns mc hcpu n hn pix hpix s0 hs0 B Δ H hB m hm a c hc hfit hsize tol tolNorm ht htn
  obtain ⟨hr, hmn, hmi, hN⟩ := sparse_ready hm
  have hix : GoodIx (n + n * (n - 1) / 2) m.ix := by rw [hmi]; exact good_ix hpix
  have hfin : FinDist (sparseMchSolveP mc m a) fun _ => True := by
    rw [sparse_solve_eq hB hmn hN hix hc hfit ht htn]
    refine finDist_bind (both_sparseRun hcpu hn hix hs0 hB hfit hr hsize tol tolNorm).fin fun r hr' => ?_
    rw [takeIx_ok _ _ fun p hp => by rw [hr'.1.mult_length]; exact hix.range p hp, ofPy_ok_bind]
    exact finDist_ret trivial
  unfold prob
  refine (finDist_of_returns hfin hret).mono fun r hr' => ?_
  obtain ⟨-, -, -, heach, hlen, -, -, -, hflag, -⟩ := hr'
  split
  · rename_i hb
    obtain ⟨h0, hx, i, hi, hge⟩ := hb
    have hlast := (hflag.1 h0).1
    have hmem : r.errors.getLastD [] ∈ r.errors := by
      cases he : r.errors with
      | nil => rw [he] at hlen; simp at hlen
      | cons x l =>
        rw [List.getLastD_cons]
        exact List.getLastD_mem_cons
    have hli : i < (r.errors.getLastD []).length := by rw [heach _ hmem]; exact hi
    have h1 : |(r.errors.getLastD []).getD i 0| < tol := by
      rw [List.getD_eq_getElem _ _ hli]
      exact hlast _ (List.getElem_mem hli)
    have h2 := abs_sub_abs_le_abs_sub (modelMean n r.multipliers (m.ix.getD i 0) - c.getD i 0)
      ((r.errors.getLastD []).getD i 0)
    rw [if_pos ⟨hx, i, hi, by rw [abs_sub_comm]; linarith⟩]
  · split <;> norm_num

/-! ### the usual call -/

/-- The arguments of `solve(constraints=c)`. -/
def sparseArgs (c : List ℝ) : MchArgs := { usualArgs with constraints := some c }

open scoped Classical in
/-- C114: `SparseMCH(sample, sample_size=size, parameter_ix=l).solve(constraints=c)`, with `c` the means in the sample of the
selected observables, returns one parameter for each position; if it reports success, the model with these parameters and
zeros elsewhere has the means of the data for the selected observables within `1/sqrt(size) + ε`, with a probability close to 1
if `size` is large (unless all returned parameters are smaller than `ρ`). -/
theorem C114_usual (n : ℕ) (hn : 1 ≤ n) (ρ : ℝ) (hρ : 0 < ρ) (cpus : ℕ) (hcpu : 0 < cpus) (ε : ℝ) (hε : 0 < ε) (δ : ℝ)
    (hδ : 0 < δ) :
    ∃ s0 : ℕ, 0 < s0 ∧ ∀ (mc : Machine), mc.cpus = cpus → ∀ X : Data, X ≠ [] → (∀ s ∈ X, s ∈ words [1, -1] n) →
      ∀ l, GoodPositions n l → ∀ size, s0 ≤ size → ∀ boost rng, ∃ m,
      sparseMchInit mc (.data n X) none (some l) size boost rng = .ok m ∧ (∀ q, q ∈ m.ix ↔ q ∈ l) ∧
      Returns (sparseMchSolveP mc m (sparseArgs (momentsAt n m.ix X))) (fun r =>
        FillsIn (paramCount .ising n) m.ix r.returned r.multipliers ∧ r.returned.length = m.ix.length) ∧
      prob (sparseMchSolveP mc m (sparseArgs (momentsAt n m.ix X))) (fun r => r.errflag = 0 ∧ (∃ x ∈ r.returned, ρ ≤ |x|) ∧
        ∃ j < m.ix.length, 1 / Real.sqrt size + ε ≤
          |modelMean n r.multipliers (m.ix.getD j 0) - avg X (paramObs n (m.ix.getD j 0))|) < δ := by
  obtain ⟨K, hK, h⟩ := C114_converged n hn ρ hρ 0 1 1 le_rfl zero_le_one zero_le_one 10
  obtain ⟨s0, hs0⟩ := exists_nat_gt (cpus * K / ε ^ 2 / δ)
  refine ⟨s0 + 1, by omega, fun mc hmc X hX hw l hl size hsize boost rng => ?_⟩
  have hne : l ≠ [] := by
    rcases hl.2 with ⟨p, hp, -⟩ | ⟨h, -⟩
    · exact List.ne_nil_of_mem hp
    · exact h
  obtain ⟨-, -, -, -, hcon⟩ := C114_constructor mc n X hX hw size (by omega) boost rng
  obtain ⟨m, c0, h1, h2, -, h4, h5, -⟩ := hcon l hne fun p hp => by
    rcases hl.2 with ⟨x, hx, y, hy, hxy⟩ | ⟨_, hall⟩
    · by_cases e : x = p
      · exact ⟨y, hy, fun e' => hxy (e.trans e'.symm)⟩
      · exact ⟨x, hx, e⟩
    · obtain ⟨x, hx⟩ := List.exists_mem_of_ne_nil _ hne
      refine ⟨x, hx, ?_⟩
      have := hall x hx
      have hp' : p + 1 < n + n * (n - 1) / 2 := hp
      omega
  have hfit : SparseFits m.ix.length (s0 + 1) 0 1 1 (sparseArgs (momentsAt n m.ix X)) (momentsAt n m.ix X) := by
    refine ⟨length_momentsAt _ _ _, fun x hx => ?_, fun x hx => (by cases hx), fun x hx => (by cases hx),
      by simp [sparseArgs, usualArgs, MchArgs.round], Or.inl fun _ => rfl,
      fun _ => by simp [sparseArgs, usualArgs, MchArgs.round], fun _ => by simp [sparseArgs, usualArgs, MchArgs.round]⟩
    obtain ⟨q, -, rfl⟩ := List.mem_map.1 hx
    exact abs_avg_le hX fun s hs => abs_pairObs_le (hw s hs) q
  have hc : (sparseArgs (momentsAt n m.ix X)).constraints.or m.constraints = some (momentsAt n m.ix X) := rfl
  refine ⟨m, h1, h4, returns_mono (fun r hr => ⟨hr.2.1, hr.1⟩) (C114_returns mc (by omega) n hn l hl (s0 + 1) (by omega) 0 1 1
    le_rfl m h2 _ _ hc hfit (by omega) _ _ (Or.inr ⟨Or.inl rfl, rfl⟩) (Or.inr ⟨Or.inl rfl, rfl⟩)), ?_⟩
  have := h mc (by omega) l hl (s0 + 1) (by omega) m h2 (by omega) _ _ hc rfl (by norm_num [sparseArgs, usualArgs]) hfit _
    (Or.inr ⟨Or.inl rfl, rfl⟩) ε hε
  refine lt_of_eq_of_lt ?_ (lt_of_le_of_lt this ?_)
  · congr 1
    funext r
    rw [h5]
    refine propext (and_congr_right fun _ => and_congr_right fun _ => exists_congr fun j => and_congr_right fun hj => ?_)
    have : (momentsAt n m.ix X).getD j 0 = avg X (paramObs n (m.ix.getD j 0)) := by
      unfold momentsAt
      rw [List.getD_eq_getElem _ _ (by simpa using hj), List.getElem_map, List.getD_eq_getElem _ _ hj]
    rw [this]
  · rw [hmc, div_right_comm, div_lt_iff₀ (by positivity)]
    rw [div_lt_iff₀ hδ] at hs0
    push_cast
    linarith

example : GoodPositions 3 [0, 4, 4, 3] :=
  ⟨by decide, Or.inl ⟨0, by decide, 4, by decide, by decide⟩⟩

example (mc : Machine) : ∃ m, SparseReached mc 2 [2, 0] m ∧ 1000 ≤ m.model.sampleSize ∧ m.ix = [0, 2] ∧
    SparseFits m.ix.length 1000 0 1 1 (sparseArgs [1 / 3, -1 / 3]) [1 / 3, -1 / 3] := by
  obtain ⟨-, -, -, -, h⟩ := C114_constructor mc 2 [[1, 1], [1, -1], [-1, 1]] (by simp) (by decide) 1000 (by norm_num) true 0
  obtain ⟨m, c, -, h2, -, -, h5, -⟩ := h [2, 0] (by simp) fun p hp => by
    by_cases e : p = 0
    · exact ⟨2, by simp, by omega⟩
    · exact ⟨0, by simp, fun h => e h.symm⟩
  have hix : m.ix = [0, 2] := by
    rw [(sparse_ready h2).2.2.1]
    simp [uniqueIx, List.mergeSort, List.MergeSort.Internal.splitInTwo]
  refine ⟨m, h2, h5.ge, hix, ?_⟩
  rw [hix]
  refine ⟨rfl, fun x hx => ?_, fun x hx => (by cases hx), fun x hx => (by cases hx),
    by simp [sparseArgs, usualArgs, MchArgs.round], Or.inl fun _ => rfl,
    fun _ => by simp [sparseArgs, usualArgs, MchArgs.round], fun _ => by simp [sparseArgs, usualArgs, MchArgs.round]⟩
  simp only [List.mem_cons, List.not_mem_nil, or_false] at hx
  rcases hx with rfl | rfl <;> norm_num [abs_le]

end Verif.Props
