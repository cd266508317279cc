/-
C35, C36, C37, C72, C73: the base class of the solvers, Enumerate and SparseEnumerate.
-/
import Verif.Lemmas.Solvers
import Verif.Lemmas.PottsModule
import Verif.Props.Helpers
import Verif.Props.Corr

namespace Verif.Props
open Verif Verif.Model Verif.Spec Verif.Lemmas

variable {K : Type*}

/-! ### C35 -/

/-- C35. `fill_in(x)` is the full vector with `x` at the parameter positions and the fill value
elsewhere. Partial: a single position that is not the last one raises, see
`C35_single_parameter_fails`. -/
theorem C35_fill_in_partial [Zero K] (nParams : ℕ) (ix : List ℕ) (hs : ix.Pairwise (· < ·))
    (hN : ∀ p ∈ ix, p < nParams) (h2 : 2 ≤ ix.length ∨ ix = [nParams - 1]) (x : List K)
    (hx : x.length = ix.length) (v : K) :
    ∃ full, fillIn nParams ix x v = .ok full ∧ full.length = nParams ∧
      (∀ j (hj : j < ix.length), full[ix[j]]? = some (x[j]'(hx ▸ hj))) ∧
      ∀ q < nParams, q ∉ ix → full[q]? = some v := by
  refine ⟨_, fillIn_eq nParams ix hs hN h2 x hx v, by simp, ?_, ?_⟩
  · intro j hj
    have hq : ix[j] < nParams := hN _ (List.getElem_mem hj)
    have hidx : ix.idxOf ix[j] = j := List.Nodup.idxOf_getElem hs.nodup j hj
    rw [List.getElem?_map, List.getElem?_range hq, Option.map_some, if_pos (List.getElem_mem hj), hidx,
      List.getD_eq_getElem _ _ (hx ▸ hj)]
  · intro q hq hn
    rw [List.getElem?_map, List.getElem?_range hq, Option.map_some, if_neg hn]

/-- C35 is false for a single position other than the last: the loop that should set `i` has no
rounds, so computing the insertion indices raises `UnboundLocalError`. -/
theorem C35_single_parameter_fails (nParams p : ℕ) (hp : p + 1 < nParams) (x : List K) (v : K) :
    fillIn nParams [p] x v = .error .unboundLocal := by
  simp [fillIn, insertionIx, hp]

/-- Non-vacuity of C35. -/
example : fillIn 6 [1, 2, 4] ([7, 8, 9] : List ℤ) 0 = .ok [0, 7, 8, 0, 9, 0] ∧
    fillIn 6 [0, 5] ([7, 8] : List ℤ) (-1) = .ok [7, -1, -1, -1, -1, 8] ∧
    fillIn 3 [2] ([7] : List ℤ) 0 = .ok [0, 0, 7] ∧
    fillIn 3 [1] ([7] : List ℤ) 0 = .error .unboundLocal := by
  refine ⟨by decide +kernel, by decide +kernel, by decide +kernel, by decide +kernel⟩

/-! ### C36 -/

/-- C36. For every number of spins and in both bases, parameter vectors whose generated
`calc_observables` agree are equal. -/
theorem C36_unique (n : ℕ) (hn : 1 ≤ n) (sym : Bool) :
    ∃ e, writeEqns n sym (pairwiseIx n) = .ok e ∧
      ∀ v w : List ℝ, v.length = n + n * (n - 1) / 2 → w.length = n + n * (n - 1) / 2 →
        ∀ brk, moduleObservables brk e v = moduleObservables brk e w → v = w := by
  obtain ⟨e, h1, h2⟩ := pairwise_vec n hn sym
  refine ⟨e, h1, fun v w hv hw brk heq => pairwise_unique n sym v w hv hw fun i hi => Or.inr ?_⟩
  rw [(h2 v hv).2, (h2 w hw).2] at heq
  have := congrArg (fun l => l[i]?) (Except.ok.inj heq)
  simpa [List.getElem?_eq_getElem hi] using this

/-- C36. The same for interactions of all orders up to `m`, e.g. the triplet models. -/
theorem C36_unique_all_orders (n : ℕ) (hn : 1 ≤ n) (sym : Bool) (m : ℕ) (hm : 1 ≤ m) (hm' : m ≤ 23) :
    ∃ e, writeEqns n sym ((allOrders n m).map subixOf) = .ok e ∧
      ∀ P Q : List (List ℝ), P.length = m → Q.length = m → PolyShape n P → PolyShape n Q →
        ∀ brk, moduleObservables brk e P.flatten = moduleObservables brk e Q.flatten → P = Q := by
  obtain ⟨e, h1, h2⟩ := module_eq n hn sym (allOrders n m) (goodGroups_allOrders n m)
    (by simpa [allOrders] using hm') (allOrders_nonempty n m hn hm)
  refine ⟨e, h1, fun P Q lP lQ sP sQ brk heq => ?_⟩
  have fP : ParamsFit (allOrders n m) P := lP ▸ paramsFit_allOrders n P sP
  have fQ : ParamsFit (allOrders n m) Q := lQ ▸ paramsFit_allOrders n Q sQ
  refine params_unique n m sym P Q fP fQ fun i hi => Or.inr ?_
  rw [(h2 P fP).2, (h2 Q fQ).2] at heq
  have := congrArg (fun l => l[i]?) (Except.ok.inj heq)
  simpa [List.getElem?_eq_getElem hi] using this

/-- A zero of the function built by `Enumerate.solve` for constraints `c`: the bound is respected, the
observables are `c`, and no other vector has these observables. -/
theorem enumF_zero (n : ℕ) (hn : 1 ≤ n) (sym : Bool) (brk : ℕ → Bool) :
    ∃ e, writeEqns n sym (pairwiseIx n) = .ok e ∧
      ∀ maxParam x c,
        x.length = n + n * (n - 1) / 2 → c.length = n + n * (n - 1) / 2 →
        enumF (moduleObservables brk e) c maxParam x = .ok (List.replicate c.length 0) →
        (∀ m, maxParam = some m → ∀ p ∈ x, |p| ≤ m) ∧ moduleObservables brk e x = .ok c ∧
          ∀ y : List ℝ, y.length = n + n * (n - 1) / 2 → moduleObservables brk e y = .ok c → y = x := by
  obtain ⟨e, h1, h2⟩ := C36_unique n hn sym
  obtain ⟨e', h1', h2'⟩ := pairwise_vec n hn sym
  have : e' = e := by rw [h1] at h1'; exact (Except.ok.inj h1').symm
  subst this
  refine ⟨e', h1, fun maxParam x c hx hc hz => ?_⟩
  have hobs : ∀ v : List ℝ, v.length = n + n * (n - 1) / 2 →
      ∃ o, moduleObservables brk e' v = .ok o ∧ o.length = c.length := by
    intro v hv
    exact ⟨_, (h2' v hv).2 brk, by rw [List.length_map, length_pairTuples, hc]⟩
  obtain ⟨o, ho, hol⟩ := hobs x hx
  have hne : ∀ m, maxParam = some m → ¬ ∃ p ∈ x, |p| > m := by
    intro m hm hex
    simp only [enumF, hm] at hz
    rw [if_pos hex] at hz
    rcases c with _ | ⟨a, c⟩
    · simp at hc; omega
    · simp only [List.map_cons, List.length_cons, List.replicate_succ] at hz
      have := (List.cons.inj (Except.ok.inj hz)).1
      norm_num at this
  have hoc : o = c := by
    rcases maxParam with _ | m
    · simp only [enumF, obsDiff, ho] at hz
      exact broadcast2_sub_zero o c hol hz
    · simp only [enumF, obsDiff, ho] at hz
      rw [if_neg (hne m rfl)] at hz
      exact broadcast2_sub_zero o c hol hz
  subst hoc
  refine ⟨fun m hm p hp => ?_, ho, fun y hy hyo => h2 y x hy hx brk (by rw [hyo, ho])⟩
  by_contra hlt
  exact hne m hm ⟨p, hp, not_le.1 hlt⟩

/-- C36. With `use_root=False`: a zero of the norm is a zero of the vector function. -/
theorem C36_norm_zero (obs : List ℝ → Py (List ℝ)) (c : List ℝ) (m : Option ℝ) (x : List ℝ)
    (hlen : ∀ o, obs x = .ok o → o.length = c.length) (h : enumNorm obs c m x = .ok 0) :
    enumF obs c m x = .ok (List.replicate c.length 0) := by
  have key : obsDiffNorm obs c x = .ok 0 → obsDiff obs c x = .ok (List.replicate c.length 0) := by
    intro hk
    unfold obsDiffNorm at hk
    unfold obsDiff at hk ⊢
    cases ho : obs x with
    | error e => rw [ho] at hk; simp at hk
    | ok o =>
      rw [ho] at hk
      have hl := hlen o ho
      simp only [broadcast2, if_pos hl] at hk ⊢
      have hsq := (Except.ok.inj hk)
      rw [Real.sqrt_eq_zero (List.sum_nonneg (by
        intro y hy
        obtain ⟨z, -, rfl⟩ := List.mem_map.1 hy
        exact mul_self_nonneg z))] at hsq
      have hz := eq_of_sum_zero _ (fun y : ℝ => y * y) (fun y _ => mul_self_nonneg y) hsq
      congr 1
      refine List.eq_replicate_iff.2 ⟨by simp [hl], fun y hy => ?_⟩
      exact mul_self_eq_zero.1 (hz y hy)
  rcases m with _ | m
  · exact key h
  · simp only [enumNorm] at h
    simp only [enumF]
    split_ifs at h with hc
    · norm_num at h
    · rw [if_neg hc]; exact key h

/-- C36. `Enumerate.solve` with the user's constraints, or the sample's if there are none: when the
vector it returns is a zero of the function that was given to the library's root finder (or minimiser),
it respects the bound, its observables are these constraints, and no other vector has them. -/
theorem C36_solve (n : ℕ) (hn : 1 ≤ n) (sym : Bool) (brk : ℕ → Bool) :
    ∃ e, writeEqns n sym (pairwiseIx n) = .ok e ∧
      ∀ root minimize sc guess constraints maxParam useRoot x c,
        enumSolve root minimize (moduleObservables brk e) (some sc) guess constraints maxParam useRoot =
          .ok x →
        (constraints = some c ∨ constraints = none ∧ c = sc) →
        x.length = n + n * (n - 1) / 2 → c.length = n + n * (n - 1) / 2 →
        (∀ f z, root f z = x → f x = .ok (List.replicate c.length 0)) →
        (∀ f z, minimize f z = x → f x = .ok 0) →
        (∀ m, maxParam = some m → ∀ p ∈ x, |p| ≤ m) ∧ moduleObservables brk e x = .ok c ∧
          ∀ y : List ℝ, y.length = n + n * (n - 1) / 2 → moduleObservables brk e y = .ok c → y = x := by
  obtain ⟨e, h1, h2⟩ := enumF_zero n hn sym brk
  obtain ⟨e', h1', h2'⟩ := pairwise_vec n hn sym
  have : e' = e := by rw [h1] at h1'; exact (Except.ok.inj h1').symm
  subst this
  refine ⟨e', h1, fun root minimize sc guess constraints maxParam useRoot x c h hcs hx hc hr hm => ?_⟩
  have hget : constraints.getD sc = c := by
    rcases hcs with rfl | ⟨rfl, rfl⟩ <;> rfl
  apply h2 maxParam x c hx hc
  simp only [enumSolve, enumSetup, hget] at h
  split at h
  · exact absurd h (by simp)
  · rename_i x0 c' hcc
    split_ifs at hcc with hg
    obtain ⟨rfl, rfl⟩ := Prod.mk.inj (Except.ok.inj hcc)
    rcases useRoot with _ | _
    · simp only [Bool.false_eq_true, if_false] at h
      apply C36_norm_zero
      · intro o ho
        rw [(h2' x hx).2 brk] at ho
        rw [← Except.ok.inj ho, List.length_map, length_pairTuples, hc]
      · exact hm _ _ (Except.ok.inj h)
    · simp only [if_true] at h
      exact hr _ _ (Except.ok.inj h)

/-- C36. The search starts at the user's guess, or at zeros; a guess of the wrong length raises. -/
theorem C36_start (obs : List ℝ → Py (List ℝ)) (sc : List ℝ) (guess constraints : Option (List ℝ))
    (maxParam : Option ℝ) (useRoot : Bool) :
    enumSolve (fun _ z => z) (fun _ z => z) obs (some sc) guess constraints maxParam useRoot =
      match guess with
      | none => .ok (List.replicate sc.length 0)
      | some g => if g.length = sc.length then .ok g else .error .assertion := by
  rcases guess with _ | g
  · simp [enumSolve, enumSetup]
  · by_cases h : g.length = sc.length <;> simp [enumSolve, enumSetup, h]

/-- C36. `SparseEnumerate`: a zero of its objective is the only choice of the selected parameters
(the others being zero) that reproduces the constraints. -/
theorem C36_sparse (n : ℕ) (hn : 1 ≤ n) (sym : Bool) (brk : ℕ → Bool) (ix : List ℕ)
    (hs : ix.Pairwise (· < ·)) (hN : ∀ p ∈ ix, p < n + n * (n - 1) / 2)
    (hix : 2 ≤ ix.length ∨ ix = [n + n * (n - 1) / 2 - 1]) (c : List ℝ) (hc : c.length = ix.length) :
    ∃ e, writeEqns n sym (pairwiseIx n) = .ok e ∧
      ∀ m x, x.length = ix.length →
        sparseF (moduleObservables brk e) (n + n * (n - 1) / 2) ix c (some m) x =
          .ok (List.replicate c.length 0) →
        (0 ≤ m → ∀ p ∈ x, |p| ≤ m) ∧
          ∀ m' y, y.length = ix.length →
            sparseF (moduleObservables brk e) (n + n * (n - 1) / 2) ix c m' y =
              .ok (List.replicate c.length 0) → y = x := by
  obtain ⟨e, h1, h2⟩ := pairwise_vec n hn sym
  refine ⟨e, h1, ?_⟩
  obtain ⟨N, hNd⟩ : ∃ N, N = n + n * (n - 1) / 2 := ⟨_, rfl⟩
  rw [← hNd] at hN hix h2 ⊢
  have hpos : 0 < ix.length := by
    rcases hix with h | h
    · omega
    · rw [h]; simp
  -- what a zero of the objective says
  have key : ∀ (mo : Option ℝ) (x : List ℝ), x.length = ix.length →
      sparseF (moduleObservables brk e) N ix c mo x = .ok (List.replicate c.length 0) →
      ∃ full : List ℝ, fillIn N ix x 0 = .ok full ∧ full.length = N ∧
        (∀ m, mo = some m → ∀ p ∈ full, |p| ≤ m) ∧
        ∀ q ∈ ix, ∀ hq : q < ((allOrders n 2).flatMap fun g => g.2).length,
          expect (words (spinValues sym) n)
            (fun s => groupE (allOrders n 2) [full.take n, full.drop n] (spins s))
            (fun s => mono (spins s) ((allOrders n 2).flatMap fun g => g.2)[q]) =
          c.getD (ix.idxOf q) 0 := by
    intro mo x hx hz
    obtain ⟨full, hf, hfl, -, -⟩ := C35_fill_in_partial N ix hs hN hix x hx 0
    refine ⟨full, hf, hfl, ?_⟩
    have ho := (h2 full hfl).2 brk
    obtain ⟨o, hod⟩ : ∃ o, o = (((allOrders n 2).flatMap fun g => g.2).map fun t =>
          expect (words (spinValues sym) n)
            (fun s => groupE (allOrders n 2) [full.take n, full.drop n] (spins s))
              fun s => mono (spins s) t) := ⟨_, rfl⟩
    have hol : o.length = N := by rw [hod, List.length_map, length_pairTuples, hNd]
    have ht : takeIx o ix = .ok (ix.map fun q => o.getD q 0) := by
      unfold takeIx
      apply mapM_ok
      intro q hq
      have hlt : q < o.length := by rw [hol]; exact hN q hq
      unfold getAt
      rw [List.getElem?_eq_getElem hlt, List.getD_eq_getElem _ _ hlt]
    have hne : ∀ m, mo = some m → ¬ ∃ p ∈ full, |p| > m := by
      intro m hm hex
      simp only [sparseF, hf, hm] at hz
      rw [if_pos hex] at hz
      rcases c with _ | ⟨a, c⟩
      · simp at hc; omega
      · simp only [List.map_cons, List.length_cons, List.replicate_succ] at hz
        have := (List.cons.inj (Except.ok.inj hz)).1
        norm_num at this
    have hoc : (ix.map fun q => o.getD q 0) = c := by
      rw [← hod] at ho
      apply broadcast2_sub_zero _ c (by rw [List.length_map, hc])
      rcases mo with _ | m
      · simpa only [sparseF, hf, ho, ht] using hz
      · simp only [sparseF, hf, ho, ht] at hz
        rwa [if_neg (hne m rfl)] at hz
    refine ⟨fun m hm p hp => ?_, fun q hq hqlt => ?_⟩
    · by_contra hlt
      exact hne m hm ⟨p, hp, not_le.1 hlt⟩
    · have hlt := List.idxOf_lt_length_of_mem hq
      rw [← hoc, List.getD_eq_getElem _ _ (by simpa using hlt), List.getElem_map,
        List.getElem_idxOf hlt, hod, List.getD_eq_getElem _ _ (by simpa using hqlt), List.getElem_map]
  intro m x hx hz
  obtain ⟨full, hf, hfl, hb, hfo⟩ := key (some m) x hx hz
  obtain ⟨full1, hf1, -, hat, hoff⟩ := C35_fill_in_partial N ix hs hN hix x hx 0
  have : full1 = full := by rw [hf] at hf1; exact (Except.ok.inj hf1).symm
  subst this
  constructor
  · intro _ p hp
    obtain ⟨j, hj, rfl⟩ := List.mem_iff_getElem.1 hp
    have h3 := hat j (hx ▸ hj)
    exact hb m rfl _ (List.mem_of_getElem? h3)
  · intro m' y hy hzy
    obtain ⟨fy, hfy, hfyl, -, hfyo⟩ := key m' y hy hzy
    obtain ⟨fy1, hfy1, -, haty, hoffy⟩ := C35_fill_in_partial N ix hs hN hix y hy 0
    have : fy1 = fy := by rw [hfy] at hfy1; exact (Except.ok.inj hfy1).symm
    subst this
    have heq : full1 = fy1 := by
      refine pairwise_unique n sym full1 fy1 (hfl.trans hNd) (hfyl.trans hNd) fun i hi => ?_
      by_cases hmem : i ∈ ix
      · exact Or.inr (by rw [hfo i hmem hi, hfyo i hmem hi])
      · left
        have hiN : i < N := by rw [hNd, ← length_pairTuples]; exact hi
        rw [List.getD_eq_getElem?_getD, List.getD_eq_getElem?_getD, hoff i hiN hmem, hoffy i hiN hmem]
    apply List.ext_getElem (hy.trans hx.symm)
    intro j h3 h4
    have a1 := hat j (hx ▸ h4)
    have a2 := haty j (hy ▸ h3)
    rw [heq, a2] at a1
    exact Option.some.inj a1

/-- C36. `SparseEnumerate.solve`: when the vector returned is a zero of the function given to the
library, the parameters it stands for (zero where not selected) have the wanted values of the selected
observables and respect the bound, and no other choice of the selected parameters does the same. -/
theorem C36_sparse_solve (n : ℕ) (hn : 1 ≤ n) (sym : Bool) (brk : ℕ → Bool) (ix : List ℕ)
    (hs : ix.Pairwise (· < ·)) (hN : ∀ p ∈ ix, p < n + n * (n - 1) / 2)
    (hix : 2 ≤ ix.length ∨ ix = [n + n * (n - 1) / 2 - 1]) :
    ∃ e, writeEqns n sym (pairwiseIx n) = .ok e ∧
      ∀ root minimize self guess constraints maxParam useRoot x c,
        sparseSolve root minimize (moduleObservables brk e) (n + n * (n - 1) / 2) ix self guess
          constraints maxParam useRoot = .ok x →
        (constraints = some c ∨ constraints = none ∧ self = some c) →
        x.length = ix.length → c.length = ix.length →
        (∀ f z, root f z = x → f x = .ok (List.replicate c.length 0)) →
        (∀ f z, minimize f z = x → f x = .ok 0) →
        ∃ full o : List ℝ, full.length = n + n * (n - 1) / 2 ∧
          (∀ j (h : j < ix.length), full[ix[j]]? = x[j]?) ∧
          (∀ q < n + n * (n - 1) / 2, q ∉ ix → full[q]? = some 0) ∧
          (∀ m, maxParam = some m → ∀ p ∈ full, |p| ≤ m) ∧
          moduleObservables brk e full = .ok o ∧
          (∀ j (h : j < ix.length), o[ix[j]]? = c[j]?) ∧
          ∀ full' o' : List ℝ, full'.length = n + n * (n - 1) / 2 →
            (∀ q < n + n * (n - 1) / 2, q ∉ ix → full'[q]? = some 0) →
            moduleObservables brk e full' = .ok o' →
            (∀ j (h : j < ix.length), o'[ix[j]]? = c[j]?) → full' = full := by
  obtain ⟨e, h1, h2⟩ := pairwise_vec n hn sym
  refine ⟨e, h1, fun root minimize self guess constraints maxParam useRoot x c h hcs hx hc hr hm => ?_⟩
  obtain ⟨N, hNd⟩ : ∃ N, N = n + n * (n - 1) / 2 := ⟨_, rfl⟩
  rw [← hNd] at hN hix h2 h ⊢
  obtain ⟨full, hf, hfl, hat, hoff⟩ := C35_fill_in_partial N ix hs hN hix x hx 0
  have ho := (h2 full hfl).2 brk
  set o := (((allOrders n 2).flatMap fun g => g.2).map fun t =>
      expect (words (spinValues sym) n)
        (fun s => groupE (allOrders n 2) [full.take n, full.drop n] (spins s))
          fun s => mono (spins s) t) with hod
  have hol : o.length = N := by rw [hod, List.length_map, length_pairTuples, hNd]
  have ht : takeIx o ix = .ok (ix.map fun q => o.getD q 0) := by
    unfold takeIx
    apply mapM_ok
    intro q hq
    have hlt : q < o.length := by rw [hol]; exact hN q hq
    unfold getAt
    rw [List.getElem?_eq_getElem hlt, List.getD_eq_getElem _ _ hlt]
  have hpos : 0 < ix.length := by
    rcases hix with h | h
    · omega
    · rw [h]; simp
  -- the objective vanishes
  have hz : (sparseF (moduleObservables brk e) N ix c maxParam x = .ok (List.replicate c.length 0)) ∨
      sparseNorm (moduleObservables brk e) N ix c maxParam x = .ok 0 := by
    have hset : ∃ x0, sparseSetup self ix guess constraints = .ok (x0, c) := by
      rcases hcs with rfl | ⟨rfl, rfl⟩
      · simp only [sparseSolve, sparseSetup] at h ⊢
        split_ifs at h ⊢ with hg
        all_goals exact ⟨_, rfl⟩
      · simp only [sparseSolve, sparseSetup, hc] at h ⊢
        split_ifs at h ⊢ with hg
        all_goals exact ⟨_, rfl⟩
    obtain ⟨x0, hx0⟩ := hset
    simp only [sparseSolve, hx0] at h
    rcases useRoot with _ | _
    · right
      simp only [Bool.false_eq_true, if_false] at h
      exact hm _ _ (Except.ok.inj h)
    · left
      simp only [if_true] at h
      exact hr _ _ (Except.ok.inj h)
  have hlen : (ix.map fun q => o.getD q 0).length = c.length := by rw [List.length_map, hc]
  have hne : ∀ m, maxParam = some m → ¬ ∃ p ∈ full, |p| > m := by
    intro m hmm hex
    rcases hz with hz | hz
    · simp only [sparseF, hf, hmm] at hz
      rw [if_pos hex] at hz
      rcases c with _ | ⟨a, c⟩
      · simp at hc; omega
      · simp only [List.map_cons, List.length_cons, List.replicate_succ] at hz
        have := (List.cons.inj (Except.ok.inj hz)).1
        norm_num at this
    · simp only [sparseNorm, hf, hmm] at hz
      rw [if_pos hex] at hz
      norm_num at hz
  have hoc : (ix.map fun q => o.getD q 0) = c := by
    rcases hz with hz | hz
    · apply broadcast2_sub_zero _ c hlen
      rcases maxParam with _ | m
      · simpa only [sparseF, hf, ho, ht] using hz
      · simp only [sparseF, hf, ho, ht] at hz
        rwa [if_neg (hne m rfl)] at hz
    · have hd : broadcast2 (· - ·) (ix.map fun q => o.getD q 0) c =
          .ok (List.zipWith (· - ·) (ix.map fun q => o.getD q 0) c) := by
        simp only [broadcast2, if_pos hlen]
      have hz' : (.ok (Real.sqrt (((List.zipWith (· - ·) (ix.map fun q => o.getD q 0) c).map
          fun y => y * y).sum)) : Py ℝ) = .ok 0 := by
        rcases maxParam with _ | m
        · simpa only [sparseNorm, hf, ho, ht, hd] using hz
        · simp only [sparseNorm, hf, ho, ht, hd] at hz
          rwa [if_neg (hne m rfl)] at hz
      apply broadcast2_sub_zero _ c hlen
      rw [hd]
      have hsq := (Except.ok.inj hz')
      rw [Real.sqrt_eq_zero (List.sum_nonneg (by
        intro y hy
        obtain ⟨z, -, rfl⟩ := List.mem_map.1 hy
        exact mul_self_nonneg z))] at hsq
      have hz2 := eq_of_sum_zero _ (fun y : ℝ => y * y) (fun y _ => mul_self_nonneg y) hsq
      congr 1
      refine List.eq_replicate_iff.2 ⟨by simp [hc], fun y hy => ?_⟩
      exact mul_self_eq_zero.1 (hz2 y hy)
  have hoix : ∀ j (h : j < ix.length), o[ix[j]]? = c[j]? := by
    intro j hj
    have hlt : ix[j] < o.length := by rw [hol]; exact hN _ (List.getElem_mem hj)
    have h3 : (ix.map fun q => o.getD q 0)[j]? = some o[ix[j]] := by
      rw [List.getElem?_map, List.getElem?_eq_getElem hj, Option.map_some, List.getD_eq_getElem _ _ hlt]
    rw [← hoc, h3, List.getElem?_eq_getElem hlt]
  refine ⟨full, o, hfl, ?_, hoff, fun m hmm p hp => ?_, ho, hoix, ?_⟩
  · intro j hj
    have := hat j hj
    rw [this, List.getElem?_eq_getElem]
  · by_contra hlt
    exact hne m hmm ⟨p, hp, not_le.1 hlt⟩
  · intro full' o' hfl' hoff' ho' hoix'
    have ho2 := (h2 full' hfl').2 brk
    rw [ho'] at ho2
    have ho2 := Except.ok.inj ho2
    refine (pairwise_unique n sym full full' (hfl.trans hNd) (hfl'.trans hNd) fun i hi => ?_).symm
    by_cases hmem : i ∈ ix
    · right
      obtain ⟨j, hj, rfl⟩ := List.mem_iff_getElem.1 hmem
      have e1 := (hoix j hj).trans (hoix' j hj).symm
      rw [hod, ho2, List.getElem?_map, List.getElem?_map, List.getElem?_eq_getElem hi] at e1
      exact Option.some.inj e1
    · left
      have hiN : i < N := by rw [hNd, ← length_pairTuples]; exact hi
      rw [List.getD_eq_getElem?_getD, List.getD_eq_getElem?_getD, hoff i hiN hmem, hoff' i hiN hmem]

/-- C36. When only the system size was given, there are no constraints, and `Enumerate.solve` raises
even if constraints are passed to it. -/
theorem C36_size_only_raises (root) (minimize) (obs) (guess constraints : Option (List ℝ)) (m) (u) :
    enumSolve root minimize obs none guess constraints m u = .error .attributeError := rfl

/-- C36. Without explicit constraints `SparseEnumerate.solve` of a sample raises unless all parameters
are selected. -/
theorem C36_sparse_default_raises [Zero K] (sc : List K) (ix : List ℕ) (guess : Option (List K))
    (h : sc.length ≠ ix.length) : sparseSetup (some sc) ix guess none = .error .assertion := by
  simp only [sparseSetup]
  split_ifs <;> rfl

/-- Potts model: the observables, one function of the state each. -/
def pottsObsFns (n k : ℕ) : List (List ℤ → ℝ) :=
  ((List.range k).flatMap fun a : ℕ => (List.range n).map fun i => fun s : List ℤ =>
      if s.getD i 0 = (a : ℤ) then (1 : ℝ) else 0) ++
    (upperPairs n).map fun p => fun s : List ℤ => if s.getD p.1 0 = s.getD p.2 0 then (1 : ℝ) else 0

theorem pottsObsFns_map (n k : ℕ) (s : List ℤ) :
    (pottsObsFns n k).map (fun f => f s) = pottsObs n k fun i => s.getD i 0 := by
  simp [pottsObsFns, pottsObs, List.map_flatMap, Function.comp_def]

/-- C36. Potts models: equal observables mean equal probabilities of all states (the parameters
themselves are not determined, since adding a constant to the fields of a spin changes nothing). -/
theorem C36_potts_distribution (est : ℕ → ℕ → ℕ) (n k : ℕ) (hn : 2 < n) (hk : 2 ≤ k) (hk' : k ≤ 10)
    (hest : ∀ i, i ≠ 0 → GoodEst (est i k) i k) :
    ∃ e, writePotts est n k = .ok e ∧
      ∀ h J h' J' : List ℝ, h.length = n * k → J.length = n * (n - 1) / 2 →
        h'.length = n * k → J'.length = n * (n - 1) / 2 →
        pottsModuleObs e (h ++ J) = pottsModuleObs e (h' ++ J') →
        pottsModuleP e (h ++ J) = pottsModuleP e (h' ++ J') := by
  obtain ⟨e, h1, -, -, h2⟩ := potts_module est n k hn hk hk' hest
  refine ⟨e, h1, fun h J h' J' hh hJ hh' hJ' heq => ?_⟩
  have hl : (pottsObsFns n k).length = k * n + n * (n - 1) / 2 := by
    have := congrArg List.length (pottsObsFns_map n k [])
    rw [List.length_map, length_pottsObs] at this
    exact this
  have hobs : ∀ a b : List ℝ, a.length = n * k → b.length = n * (n - 1) / 2 →
      pottsModuleObs e (a ++ b) = .ok ((pottsObsFns n k).map fun f =>
        expect (pottsWords n k) (fun s => pottsVecE n k a b fun i => s.getD i 0) f) := by
    intro a b ha hb
    rw [(h2 a b ha hb).2]
    simp [pottsObsFns, List.map_flatMap, Function.comp_def]
  rw [hobs h J hh hJ, hobs h' J' hh' hJ'] at heq
  have hE : ∀ a b : List ℝ, a.length = n * k → b.length = n * (n - 1) / 2 → ∀ s : List ℤ,
      (pottsVecE n k a b fun i => s.getD i 0) =
        -dot (a ++ b) ((pottsObsFns n k).map fun f => f s) := by
    intro a b ha hb s
    rw [pottsObsFns_map, dot_pottsObs n k a b (by rw [ha, mul_comm]) hb]
  have key := family_unique (pottsWords n k) (pottsWords_ne n k hk) (pottsObsFns n k) (fun f s => f s)
    (h ++ J) (h' ++ J') (by rw [hl, List.length_append, hh, hJ, mul_comm])
    (by rw [hl, List.length_append, hh', hJ', mul_comm])
    (fun s => pottsVecE n k h J fun i => s.getD i 0) (fun s => pottsVecE n k h' J' fun i => s.getD i 0)
    (fun s _ => hE h J hh hJ s) (fun s _ => hE h' J' hh' hJ' s) (by
      intro i hi
      right
      have := congrArg (fun l => l[i]?) (Except.ok.inj heq)
      simpa [List.getElem?_eq_getElem hi] using this)
  rw [(h2 h J hh hJ).1, (h2 h' J' hh' hJ').1, List.map_congr_left key.1]

/-- Non-vacuity of C36: for two spins without couplings and any fields there are constraints that
meet the hypotheses, and the objective vanishes at these parameters. -/
example : ∃ e, writeEqns 2 true (pairwiseIx 2) = .ok e ∧ ∀ v : List ℝ, v.length = 3 → (∀ p ∈ v, |p| ≤ 50) →
    ∀ brk, ∃ c, c.length = 3 ∧
      enumF (moduleObservables brk e) c (some 50) v = .ok (List.replicate c.length 0) := by
  obtain ⟨e, h1, h2⟩ := pairwise_vec 2 (by norm_num) true
  refine ⟨e, h1, fun v hv hb brk => ?_⟩
  have ho := (h2 v hv).2 brk
  refine ⟨((allOrders 2 2).flatMap fun g => g.2).map fun t => expect (words (spinValues true) 2)
      (fun s => groupE (allOrders 2 2) [v.take 2, v.drop 2] (spins s)) fun s => mono (spins s) t, ?_, ?_⟩
  · rw [List.length_map, length_pairTuples]
  · simp only [enumF, obsDiff, ho]
    rw [if_neg (by rintro ⟨p, hp, h⟩; exact absurd (hb p hp) (not_le.2 h))]
    unfold broadcast2
    rw [if_pos rfl]
    congr 1
    refine List.eq_replicate_iff.2 ⟨by simp, fun y hy => ?_⟩
    obtain ⟨i, hi, rfl⟩ := List.mem_iff_getElem.1 hy
    simp

/-! ### C37 -/

/-- C37. For any set of constrained products of spins, in both bases: among all distributions over the
states with the moments returned by `calc_observables(params)`, the distribution `p(params)` has the
largest entropy, and it is the only one with that entropy. -/
theorem C37_max_entropy (n : ℕ) (hn : 1 ≤ n) (sym : Bool) (groups : List Group)
    (hg : GoodGroups n groups) (hl : groups.length ≤ 23) (hne : ∃ g ∈ groups, g.2 ≠ []) :
    ∃ e, writeEqns n sym (groups.map subixOf) = .ok e ∧
      ∀ P : List (List ℝ), ParamsFit groups P →
        ∃ p : List ℤ → ℝ, moduleP e P.flatten = .ok ((words (spinValues sym) n).map p) ∧
          IsDist (words (spinValues sym) n) p ∧
          ∀ q, IsDist (words (spinValues sym) n) q → ∀ brk,
            moduleObservables brk e P.flatten = .ok ((groups.flatMap fun g => g.2).map fun t =>
              mean (words (spinValues sym) n) q fun s => mono (spins s) t) →
            entropy (words (spinValues sym) n) q ≤ entropy (words (spinValues sym) n) p ∧
              (entropy (words (spinValues sym) n) q = entropy (words (spinValues sym) n) p →
                ∀ s ∈ words (spinValues sym) n, q s = p s) := by
  obtain ⟨e, h1, h2⟩ := module_eq n hn sym groups hg hl hne
  refine ⟨e, h1, fun P hP => ⟨_, (h2 P hP).1, isDist_boltzmann _ _ (words_spinValues_ne sym n), ?_⟩⟩
  intro q hq brk hm
  rw [(h2 P hP).2 brk] at hm
  have hm := Except.ok.inj hm
  refine gibbs _ _ q (words_spinValues_ne sym n) hq ?_
  have hE : (fun s : List ℤ => groupE groups P (spins s)) =
      fun s => -dot P.flatten ((groups.flatMap fun g => g.2).map fun t => mono (spins s) t) := by
    funext s; exact groupE_flatten groups P hP (spins s)
  have key : ∀ r : List ℤ → ℝ, mean (words (spinValues sym) n) r (fun s => groupE groups P (spins s)) =
      -dot P.flatten ((groups.flatMap fun g => g.2).map fun t =>
        mean (words (spinValues sym) n) r fun s => mono (spins s) t) := by
    intro r
    rw [hE, mean_neg, mean_dot (f := fun t s => mono (spins s) t)]
  rw [expect_eq_mean, key, key, ← hm]
  rfl

/-- C37. Pairwise models. -/
theorem C37_pairwise (n : ℕ) (hn : 1 ≤ n) (sym : Bool) :
    ∃ e, writeEqns n sym (pairwiseIx n) = .ok e ∧
      ∀ h J : List ℝ, h.length = n → J.length = n * (n - 1) / 2 →
        ∃ p : List ℤ → ℝ, moduleP e (h ++ J) = .ok ((words (spinValues sym) n).map p) ∧
          IsDist (words (spinValues sym) n) p ∧
          ∀ q, IsDist (words (spinValues sym) n) q → ∀ brk,
            moduleObservables brk e (h ++ J) = .ok
              ((List.range n).map (fun i => mean (words (spinValues sym) n) q fun s => spins s i) ++
                (upperPairs n).map fun t =>
                  mean (words (spinValues sym) n) q fun s => spins s t.1 * spins s t.2) →
            entropy (words (spinValues sym) n) q ≤ entropy (words (spinValues sym) n) p ∧
              (entropy (words (spinValues sym) n) q = entropy (words (spinValues sym) n) p →
                ∀ s ∈ words (spinValues sym) n, q s = p s) := by
  obtain ⟨e, h1, h2⟩ := C37_max_entropy n hn sym (allOrders n 2) (goodGroups_allOrders n 2)
    (by simp [allOrders]) (allOrders_nonempty n 2 hn (by norm_num))
  refine ⟨e, by rw [pairwiseIx_eq]; exact h1, fun h J hh hJ => ?_⟩
  obtain ⟨p, hp, hd, hq⟩ := h2 [h, J] (paramsFit_allOrders n [h, J] (polyShape_two n h J hh hJ))
  have hf : ([h, J] : List (List ℝ)).flatten = h ++ J := by simp
  rw [hf] at hp hq
  refine ⟨p, hp, hd, fun q hqd brk hm => hq q hqd brk ?_⟩
  rw [hm]
  simp [allOrders, List.range_succ, tuples_one, tuples_two, mono, Function.comp_def]

/-- C37. The entropy of the distribution itself is its mean energy plus the logarithm of the partition
function. -/
theorem C37_entropy_value (n : ℕ) (sym : Bool) (h J : List ℝ) :
    entropy (words (spinValues sym) n)
        (boltzmann (words (spinValues sym) n) fun s => isingVecE n h J (spins s)) =
      expect (words (spinValues sym) n) (fun s => isingVecE n h J (spins s))
        (fun s => isingVecE n h J (spins s)) +
      Real.log (partition (words (spinValues sym) n) fun s => isingVecE n h J (spins s)) :=
  entropy_boltzmann _ _ (words_spinValues_ne sym n)

/-- Non-vacuity of C37: with zero parameters the uniform distribution has the right moments. -/
example : IsDist (words (spinValues true) 2) (fun _ => (1 / 4 : ℝ)) ∧
    mean (words (spinValues true) 2) (fun _ => (1 / 4 : ℝ)) (fun s => spins s 0 * spins s 1) = 0 := by
  have hw : words (spinValues true) 2 = [[-1, -1], [-1, 1], [1, -1], [1, 1]] := by decide
  rw [hw]
  refine ⟨⟨fun s _ => by norm_num, by norm_num⟩, ?_⟩
  simp [mean, spins]

/-! ### C72 -/

/-- C72. `logp(sample)`: for each row the logarithm of the fraction of the model's sample that agrees
with the row wherever the row is not zero; `-inf` if there is none. -/
theorem C72_logp (runChecks : Bool) (n : ℕ) (sample ms : Data)
    (hv : ∀ s ∈ sample, ∀ x ∈ s, x = -1 ∨ x = 0 ∨ x = 1)
    (hs : ∀ s ∈ sample, s.length = n) (hm : ∀ m ∈ ms, m.length = n) (hne : ms ≠ []) :
    ∃ out, logp runChecks sample ms = .ok out ∧ out.length = sample.length ∧
      ∀ j (hj : j < sample.length), ∀ c : ℕ,
        c = (ms.filter fun m => ∀ i < n, sample[j].getD i 0 ≠ 0 → m.getD i 0 = sample[j].getD i 0).length →
        (c = 0 → out[j]? = some none) ∧ (c ≠ 0 → out[j]? = some (some (Real.log (c / ms.length)))) := by
  have hcond : ¬ (runChecks ∧ ¬ ∀ s ∈ sample, ∀ x ∈ s, x = -1 ∨ x = 0 ∨ x = 1) := fun h => h.2 hv
  have hcond2 : ¬ ∃ s ∈ sample, ∃ m ∈ ms, s.length ≠ m.length := by
    rintro ⟨s, h1, m, h2, h3⟩
    exact h3 ((hs s h1).trans (hm m h2).symm)
  unfold logp
  rw [if_neg hcond, if_neg hcond2]
  refine ⟨_, rfl, ?_, ?_⟩
  · rw [List.length_map, logpLoop_length, List.length_replicate]
  · intro j hj c hc
    have hl := logpLoop_get sample.dedup sample ms (List.replicate sample.length 0) (by simp) j hj
      (List.mem_dedup.2 (List.getElem_mem hj))
    rw [List.getElem?_map, hl, Option.map_some, hs _ (List.getElem_mem hj)]
    have hcount : (ms.filter fun m => ((List.range n).filter fun i => sample[j].getD i 0 ≠ 0).all
        fun i => sample[j].getD i 0 == m.getD i 0).length = c := by
      rw [hc]
      congr 1
      apply List.filter_congr
      intro m _
      rw [Bool.eq_iff_iff]
      simp only [List.all_eq_true, List.mem_filter, List.mem_range, beq_iff_eq, decide_eq_true_eq]
      constructor
      · intro h i hi h0
        exact (h i ⟨hi, h0⟩).symm
      · rintro h i ⟨hi, h0⟩
        exact (h i hi h0).symm
    rw [hcount]
    have hlen : (ms.length : ℝ) ≠ 0 := by
      rw [Nat.cast_ne_zero]; exact (List.length_pos_iff.2 hne).ne'
    constructor
    · intro h0; rw [h0]; simp
    · intro h0
      have h0' : (c : ℝ) ≠ 0 := Nat.cast_ne_zero.2 h0
      rw [if_neg (div_ne_zero h0' hlen)]

/-- C72. Values other than -1, 0, 1 are rejected when checks are on. -/
theorem C72_bad_values_raise (sample ms : Data) (s : List ℤ) (hs : s ∈ sample) (x : ℤ) (hx : x ∈ s)
    (h1 : x ≠ -1) (h2 : x ≠ 0) (h3 : x ≠ 1) : logp true sample ms = .error .assertion := by
  unfold logp
  rw [if_pos]
  refine ⟨rfl, fun h => ?_⟩
  rcases h s hs x hx with h | h | h <;> contradiction

/-- C72. A single state given as a one-dimensional array never works: it is rejected by the checks if it has values other than -1, 0, 1,
and otherwise raises `UnboundLocalError`. -/
theorem C72_one_dimensional_fails (runChecks : Bool) (s : List ℤ) :
    logp1d runChecks s = .error .assertion ∧ runChecks = true ∧ (∃ x ∈ s, x ∉ [(-1 : ℤ), 0, 1]) ∨
      logp1d runChecks s = .error .unboundLocal ∧ (runChecks = true → ∀ x ∈ s, x ∈ [(-1 : ℤ), 0, 1]) := by
  unfold logp1d
  by_cases h : runChecks = true ∧ ¬ ∀ x ∈ s, x = -1 ∨ x = 0 ∨ x = 1
  · rw [if_pos h]
    refine Or.inl ⟨rfl, h.1, ?_⟩
    simpa using h.2
  · rw [if_neg h]
    refine Or.inr ⟨rfl, fun hr => ?_⟩
    intro x hx
    have := not_not.1 (fun h1 => h ⟨hr, h1⟩) x hx
    simpa using this

/-- Non-vacuity of C72. -/
example : (∀ s ∈ ([[1, 0], [-1, -1]] : Data), s.length = 2) ∧
    (∀ s ∈ ([[1, 0], [-1, -1]] : Data), ∀ x ∈ s, x = -1 ∨ x = 0 ∨ x = 1) ∧
    ∀ m ∈ ([[1, 1], [1, -1], [-1, 1]] : Data), m.length = 2 := by
  refine ⟨by decide, by decide, by decide⟩

/-! ### C73 -/

/-- C73. The constraints computed from a sample are its mean spins and mean pair products, i.e. what
`pair_corr(sample, concat=True)` returns. -/
theorem C73_sample_constraints [Field K] (n : ℕ) (X : Data) (hX : X ≠ [])
    (hl : ∀ s ∈ X, s.length = n) (hv : ∀ s ∈ X, ∀ x ∈ s, x = -1 ∨ x = 0 ∨ x = 1) :
    ∃ c : List K, sampleConstraints n X = .ok c ∧
      pairCorrConcat n X (.none : Weights K) false false false = .ok (c.map some) ∧
      c = (List.range n).map (fun j => avg X fun row => ((row.getD j 0 : ℤ) : K)) ++
        (upperPairs n).map fun p =>
          avg X fun row => ((row.getD p.1 0 : ℤ) : K) * ((row.getD p.2 0 : ℤ) : K) := by
  refine ⟨_, ?_, ?_, rfl⟩
  · unfold sampleConstraints
    rw [mapM_ok _ (fun s : List ℤ => (s.map fun x : ℤ => (x : K)) ++ (upperPairs s.length).map fun p =>
        ((s.getD p.1 0 : ℤ) : K) * ((s.getD p.2 0 : ℤ) : K)) X fun s _ => C19_calc_observables s]
    simp only
    rw [if_neg (by rw [List.length_eq_zero_iff]; exact hX)]
    congr 1
    rw [List.range_add, List.map_append, List.map_map]
    congr 1
    · apply List.map_congr_left
      intro j hj
      unfold avg
      congr 2
      rw [List.map_map]
      apply List.map_congr_left
      intro s hs
      have hj' : j < s.length := by rw [hl s hs]; exact List.mem_range.1 hj
      simp only [Function.comp]
      rw [List.getD_append _ _ _ _ (by simpa using hj'), List.getD_eq_getElem _ _ (by simpa using hj'),
        List.getElem_map, List.getD_eq_getElem _ _ hj']
    · rw [← length_upperPairs n]
      apply List.ext_getElem
      · simp
      · intro k h1 h2
        have hk : k < (upperPairs n).length := by simpa using h2
        simp only [List.getElem_map, List.getElem_range, Function.comp, List.map_map]
        unfold avg
        congr 2
        apply List.map_congr_left
        intro s hs
        simp only [Function.comp]
        rw [List.getD_append_right _ _ _ _ (by simp [hl s hs])]
        simp only [List.length_map, hl s hs, Nat.add_sub_cancel_left]
        rw [List.getD_eq_getElem _ _ (by simpa using hk), List.getElem_map]
  · rw [C07_concat n X _ _ _ _ _ _ (C07_means n X hv)]
    rw [List.map_append, List.map_map, List.map_map]; rfl

/-- Non-vacuity of C73. -/
example : sampleConstraints 2 ([[1, 1], [1, -1], [-1, -1]] : Data) = .ok [(1 / 3 : ℚ), -1 / 3, 1 / 3] := by
  decide +kernel

end Verif.Props
