/-
C108: when `Enumerate` can find parameters at all, and what these are.
-/
import Verif.Lemmas.EnumerateObj2

namespace Verif.Props
open Verif Verif.Model Verif.Spec Verif.Lemmas

/-- The machine has the equation module for the pairwise model of `n` spins that `enumerate.write_eqns` writes. -/
def HasPairModule (mc : Machine) (n : ℕ) : Prop :=
  ∃ e, writeEqns n true (pairwiseIx n) = .ok e ∧ mc.eqns .ising n = some e

/-- The sample is a nonempty array of ±1 with `n` columns. -/
def SpinData (n : ℕ) (X : Data) : Prop := X ≠ [] ∧ ∀ r ∈ X, r ∈ words [-1, 1] n

theorem init_data (mc : Machine) (n : ℕ) (X : Data) (hX : SpinData n X) (rng : ℕ) :
    ∃ o, enumerateInit mc (.data n X) none rng = .ok ⟨some n, some o, some (moments n X)⟩ ∧
      o.kind = .ising ∧ o.eqns = mc.eqns .ising n := by
  have hm : ∃ o, solverModel mc n none rng = .ok o ∧ o.n = n := by
    unfold solverModel modelInit
    dsimp only
    rw [zeros_init]
    exact ⟨_, rfl, rfl⟩
  obtain ⟨o, ho, hn⟩ := hm
  have inv := modelInv_init (k := .ising) ho
  obtain ⟨c, h1, -, h3⟩ := C73_sample_constraints (K := ℝ) n X hX.1
    (fun s hs => (mem_words.1 (hX.2 s hs)).1) fun s hs x hx => by
      have := (mem_words.1 (hX.2 s hs)).2 x hx
      simp at this
      tauto
  refine ⟨o, ?_, inv.kind, by rw [inv.eqns, hn]⟩
  unfold enumerateInit basicSetup
  dsimp only
  rw [ho]
  dsimp only
  rw [h1, h3]
  rfl

theorem calc_module {mc : Machine} {n : ℕ} {o : ModelObj} (he : o.eqns = mc.eqns .ising n) {e : Eqns}
    (h : mc.eqns .ising n = some e) (brk : ℕ → Bool) (x : List ℝ) :
    o.calcObservables brk (some x) = moduleObservables brk e x := by
  unfold ModelObj.calcObservables
  rw [he, h]
  rfl

/-- The function given to the root finder has the value zero at `x` exactly if `x` respects the bound and the model
reproduces the sample. -/
theorem zero_iff {mc : Machine} {n : ℕ} (hn : 1 ≤ n) (hmod : HasPairModule mc n) {o : ModelObj}
    (he : o.eqns = mc.eqns .ising n) (brk : ℕ → Bool) (X : Data) (maxParam : Option ℝ) (x : List ℝ)
    (hx : x.length = n + n * (n - 1) / 2) :
    (enumF (fun x => o.calcObservables brk (some x)) (moments n X) maxParam x =
        .ok (List.replicate (n + n * (n - 1) / 2) 0) ↔
      (∀ m, maxParam = some m → ∀ p ∈ x, |p| ≤ m) ∧ Reproduces n x X) ∧
    (enumNorm (fun x => o.calcObservables brk (some x)) (moments n X) maxParam x = .ok 0 ↔
      (∀ m, maxParam = some m → ∀ p ∈ x, |p| ≤ m) ∧ Reproduces n x X) := by
  obtain ⟨e, h1, h2⟩ := hmod
  obtain ⟨e', h1', h2'⟩ := module_pairE n hn
  obtain rfl : e' = e := by rw [h1] at h1'; exact (Except.ok.inj h1').symm
  obtain ⟨e'', g1, g2⟩ := enumF_zero n hn true brk
  obtain rfl : e'' = e' := by rw [h1] at g1; exact (Except.ok.inj g1).symm
  have hfun : (fun x => o.calcObservables brk (some x)) = moduleObservables brk e'' :=
    funext fun x => calc_module he h2 brk x
  rw [hfun]
  have fwd : enumF (moduleObservables brk e'') (moments n X) maxParam x =
        .ok (List.replicate (n + n * (n - 1) / 2) 0) →
      (∀ m, maxParam = some m → ∀ p ∈ x, |p| ≤ m) ∧ Reproduces n x X := by
    intro h
    rw [← length_moments n X] at h
    obtain ⟨a, b, -⟩ := g2 maxParam x (moments n X) hx (length_moments n X) h
    exact ⟨a, (module_moments_iff n (h2' x hx brk)).1 b⟩
  have diff : Reproduces n x X → obsDiff (moduleObservables brk e'') (moments n X) x =
      .ok (List.replicate (n + n * (n - 1) / 2) 0) := by
    intro h
    unfold Model.obsDiff
    rw [(module_moments_iff n (h2' x hx brk)).2 h]
    simp only [broadcast2, if_true]
    congr 1
    rw [List.zipWith_self]
    simp [length_moments]
  refine ⟨⟨fwd, fun ⟨hb, h⟩ => ?_⟩, fun h => fwd ?_, fun ⟨hb, h⟩ => ?_⟩
  · unfold enumF
    rcases maxParam with _ | m
    · exact diff h
    · dsimp only
      rw [if_neg, diff h]
      rintro ⟨p, hp, hlt⟩
      exact absurd (hb m rfl p hp) (not_le.2 hlt)
  · rw [← length_moments n X]
    refine C36_norm_zero _ _ _ _ (fun o ho => ?_) h
    rw [h2' x hx] at ho
    rw [← Except.ok.inj ho, List.length_map, length_pairFns, length_moments]
  · have hN : obsDiffNorm (moduleObservables brk e'') (moments n X) x = .ok 0 := by
      unfold obsDiffNorm
      rw [diff h]
      simp
    unfold enumNorm
    rcases maxParam with _ | m
    · exact hN
    · dsimp only
      rw [if_neg, hN]
      rintro ⟨p, hp, hlt⟩
      exact absurd (hb m rfl p hp) (not_le.2 hlt)

/-- C108. `Enumerate(X)` followed by `solve` for a sample of spins with the equation module present: both return, whatever
the sample, with the vector that the library found. -/
theorem C108_returns (mc : Machine) (n : ℕ) (hn : 1 ≤ n) (hmod : HasPairModule mc n) (X : Data) (hX : SpinData n X)
    (rng : ℕ) : ∃ o, enumerateInit mc (.data n X) none rng = .ok o ∧
      ∀ brk root minimize (guess : Option (List ℝ)) (maxParam : Option ℝ) (useRoot : Bool),
        (∀ g, guess = some g → g.length = n + n * (n - 1) / 2) →
        ∃ f g, enumerateSolve brk root minimize o guess none maxParam useRoot =
          .ok (if useRoot then root f (guess.getD (List.replicate (n + n * (n - 1) / 2) 0))
            else minimize g (guess.getD (List.replicate (n + n * (n - 1) / 2) 0))) ∧
          ∀ x : List ℝ, x.length = n + n * (n - 1) / 2 →
            (f x = .ok (List.replicate (n + n * (n - 1) / 2) 0) ↔
              (∀ m, maxParam = some m → ∀ p ∈ x, |p| ≤ m) ∧ Reproduces n x X) ∧
            (g x = .ok 0 ↔ (∀ m, maxParam = some m → ∀ p ∈ x, |p| ≤ m) ∧ Reproduces n x X) := by
  obtain ⟨o, h1, h2, h3⟩ := init_data mc n X hX rng
  refine ⟨_, h1, fun brk root minimize guess maxParam useRoot hg => ?_⟩
  refine ⟨enumF (fun x => o.calcObservables brk (some x)) (moments n X) maxParam,
    enumNorm (fun x => o.calcObservables brk (some x)) (moments n X) maxParam, ?_,
    fun x hx => zero_iff hn hmod h3 brk X maxParam x hx⟩
  obtain ⟨x0, hx0⟩ : ∃ x0, x0 = guess.getD (List.replicate (n + n * (n - 1) / 2) (0 : ℝ)) := ⟨_, rfl⟩
  have hlen : x0.length = n + n * (n - 1) / 2 := by
    rw [hx0]
    cases hgu : guess with
    | none => simp
    | some g => exact hg g hgu
  rw [← hx0]
  have hset : enumSetup (some (moments n X)) guess none = .ok (x0, moments n X) := by
    unfold enumSetup
    dsimp only
    rw [length_moments, ← hx0, if_neg (by simpa using hlen)]
    rfl
  obtain ⟨e, m1, m2⟩ := hmod
  obtain ⟨e', h1', h2'⟩ := module_pairE n hn
  obtain rfl : e' = e := by rw [m1] at h1'; exact (Except.ok.inj h1').symm
  have hfun : (fun x => o.calcObservables brk (some x)) = moduleObservables brk e' :=
    funext fun x => calc_module h3 m2 brk x
  have hd : ∃ d, obsDiff (moduleObservables brk e') (moments n X) x0 = .ok d := by
    unfold Model.obsDiff
    rw [h2' x0 hlen]
    simp only [broadcast2]
    rw [if_pos (by rw [List.length_map, length_pairFns, length_moments])]
    exact ⟨_, rfl⟩
  have hf : ∃ d, enumF (moduleObservables brk e') (moments n X) maxParam x0 = .ok d := by
    unfold enumF
    rcases maxParam with _ | m
    · exact hd
    · dsimp only
      split_ifs
      · exact ⟨_, rfl⟩
      · exact hd
  have hN : ∃ d, obsDiffNorm (moduleObservables brk e') (moments n X) x0 = .ok d := by
    obtain ⟨d, hd⟩ := hd
    unfold obsDiffNorm
    rw [hd]
    exact ⟨_, rfl⟩
  have hg' : ∃ d, enumNorm (moduleObservables brk e') (moments n X) maxParam x0 = .ok d := by
    unfold enumNorm
    rcases maxParam with _ | m
    · exact hN
    · dsimp only
      split_ifs
      · exact ⟨_, rfl⟩
      · exact hN
  unfold enumerateSolve
  dsimp only
  rw [hset]
  dsimp only
  rw [hfun]
  obtain ⟨d, hd⟩ := hf
  obtain ⟨d', hd'⟩ := hg'
  cases useRoot with
  | true => simp [optimCall, hd]
  | false => simp [optimCall, hd']

/-- C108. What a zero of the function is: parameters for which the model reproduces the sample are those of the greatest
likelihood, and there is no other vector with that likelihood. -/
theorem C108_maximum_likelihood (n : ℕ) (hn : 1 ≤ n) (X : Data) (hX : SpinData n X) (v : List ℝ)
    (hv : v.length = n + n * (n - 1) / 2) :
    Reproduces n v X ↔ ∀ w : List ℝ, w.length = n + n * (n - 1) / 2 → w ≠ v → logLik n w X < logLik n v X := by
  refine ⟨fun h w hw hne => logLik_strict n hn X hX.1 v hv h w hw hne, fun h => ?_⟩
  refine reproduces_of_max n X hX.1 v hv fun w hw => ?_
  by_cases hne : w = v
  · rw [hne]
  · exact (h w hw hne).le

/-- C108. Such parameters exist exactly if no nonzero choice of fields and couplings makes all rows of the sample ground
states. -/
theorem C108_exists_iff (n : ℕ) (hn : 1 ≤ n) (X : Data) (hX : SpinData n X) :
    (∃ v : List ℝ, v.length = n + n * (n - 1) / 2 ∧ Reproduces n v X) ↔
      ¬ ∃ w : List ℝ, w.length = n + n * (n - 1) / 2 ∧ (∃ x ∈ w, x ≠ 0) ∧
        ∀ r ∈ X, ∀ s ∈ words [-1, 1] n, pairE n w r ≤ pairE n w s := by
  rw [reproduces_exists_iff n hn X hX.1 hX.2]
  constructor
  · rintro h ⟨w, hw, h0, hg⟩
    obtain ⟨s, hs, r, hr, hlt⟩ := h w hw h0
    exact absurd (hg r hr s hs) (not_le.2 hlt)
  · intro h w hw h0
    by_contra hc
    push Not at hc
    exact h ⟨w, hw, h0, fun r hr s hs => hc s hs r hr⟩

/-- C108. For constraints of any origin and modules with all interactions up to order `m` (fields, pairs, triplets, …) in
either basis: the constraints can be met exactly if every nonzero combination of the observables exceeds, at some state, the
same combination of the constraints. -/
theorem C108_exists_iff_all_orders (n : ℕ) (hn : 1 ≤ n) (sym : Bool) (m : ℕ) (hm : 1 ≤ m) (hm' : m ≤ 23) :
    ∃ e, writeEqns n sym ((allOrders n m).map subixOf) = .ok e ∧
      ∀ (brk : ℕ → Bool) (c : List ℝ), c.length = ((allOrders n m).flatMap fun g => g.2).length →
        ((∃ θ : List ℝ, θ.length = c.length ∧ moduleObservables brk e θ = .ok c) ↔
          ∀ w : List ℝ, w.length = c.length → (∃ x ∈ w, x ≠ 0) → ∃ s ∈ words (spinValues sym) n,
            dot w c < dot w (((allOrders n m).flatMap fun g => g.2).map fun t => mono (spins s) t)) :=
  module_exists_iff n hn sym m hm hm'

/-- C108. If two spins never take one of the four pairs of values in the sample, there are no parameters. -/
theorem C108_pair_missing (n : ℕ) (hn : 1 ≤ n) (X : Data) (hX : SpinData n X) (i j : ℕ) (hij : i < j) (hj : j < n)
    (a b : ℤ) (ha : a = 1 ∨ a = -1) (hb : b = 1 ∨ b = -1) (h : ∀ r ∈ X, ¬ (r.getD i 0 = a ∧ r.getD j 0 = b)) :
    ¬ ∃ v : List ℝ, v.length = n + n * (n - 1) / 2 ∧ Reproduces n v X := by
  rw [C108_exists_iff n hn X hX, not_not]
  have hab : ((a * b : ℤ) : ℝ) ≠ 0 := by
    rcases ha with rfl | rfl <;> rcases hb with rfl | rfl <;> norm_num
  obtain ⟨w, w1, w2, w3⟩ := pair_vector n i j hij hj (a : ℝ) (b : ℝ) ((a * b : ℤ) : ℝ)
  refine ⟨w, w1, w2 hab, fun r hr s hs => ?_⟩
  rw [w3, w3]
  have hval : ∀ t ∈ words ([-1, 1] : List ℤ) n, ∀ k < n, t.getD k 0 = 1 ∨ t.getD k 0 = -1 := by
    intro t ht k hk
    obtain ⟨h1, h2⟩ := mem_words.1 ht
    rw [List.getD_eq_getElem _ _ (h1 ▸ hk)]
    have := h2 _ (List.getElem_mem (h1 ▸ hk))
    simp at this
    tauto
  have hr' := h r hr
  have e : ∀ (t : List ℤ) k, (spins t k : ℝ) = ((t.getD k 0 : ℤ) : ℝ) := fun _ _ => rfl
  rw [e, e, e, e]
  rcases ha with rfl | rfl <;> rcases hb with rfl | rfl <;>
    rcases hval r (hX.2 r hr) i (by omega) with r1 | r1 <;> rcases hval r (hX.2 r hr) j hj with r2 | r2 <;>
    rcases hval s hs i (by omega) with s1 | s1 <;> rcases hval s hs j hj with s2 | s2 <;>
    rw [r1, r2] at hr' <;> rw [r1, r2, s1, s2] <;> first | exact absurd ⟨rfl, rfl⟩ hr' | norm_num

/-- C108. If every state occurs in the sample, there are parameters. -/
theorem C108_full_support (n : ℕ) (hn : 1 ≤ n) (X : Data) (hX : SpinData n X)
    (h : ∀ s ∈ words [-1, 1] n, s ∈ X) : ∃ v : List ℝ, v.length = n + n * (n - 1) / 2 ∧ Reproduces n v X := by
  rw [C108_exists_iff n hn X hX]
  rintro ⟨w, hw, ⟨x, hx, hx0⟩, hg⟩
  obtain ⟨s0, hs0⟩ := List.exists_mem_of_ne_nil _ (words_pm_ne n)
  refine hx0 (orders_independent n 2 true w (by rw [hw]; exact (length_pairTuples n).symm)
    ⟨-pairE n w s0, fun s hs => ?_⟩ x hx)
  rw [orders_pairObs]
  have h1 := pairE_dot n w hw s
  have h2 := hg s (h s hs) s0 hs0
  have h3 := hg s0 (h s0 hs0) s hs
  linarith

/-- C108. Two spins: there are parameters exactly if all four states occur in the sample. -/
theorem C108_two_spins (X : Data) (hX : SpinData 2 X) :
    (∃ v : List ℝ, v.length = 3 ∧ Reproduces 2 v X) ↔ ∀ a b : ℤ, (a = 1 ∨ a = -1) → (b = 1 ∨ b = -1) → [a, b] ∈ X := by
  constructor
  · intro hv a b ha hb
    by_contra hc
    refine C108_pair_missing 2 (by norm_num) X hX 0 1 (by norm_num) (by norm_num) a b ha hb (fun r hr ⟨h1, h2⟩ => hc ?_) hv
    obtain ⟨hl, -⟩ := mem_words.1 (hX.2 r hr)
    obtain ⟨x, y, rfl⟩ := List.length_eq_two.1 hl
    simp only [List.getD_cons_zero, List.getD_cons_succ] at h1 h2
    rw [← h1, ← h2]
    exact hr
  · intro h
    refine C108_full_support 2 (by norm_num) X hX fun s hs => ?_
    obtain ⟨hl, hm⟩ := mem_words.1 hs
    obtain ⟨x, y, rfl⟩ := List.length_eq_two.1 hl
    refine h x y ?_ ?_
    · have := hm x (by simp)
      simp at this
      tauto
    · have := hm y (by simp)
      simp at this
      tauto

/-- C108. Where there are no parameters, the likelihood has no maximum: every vector is beaten by another. -/
theorem C108_no_maximum (n : ℕ) (X : Data) (hX : SpinData n X)
    (h : ¬ ∃ v : List ℝ, v.length = n + n * (n - 1) / 2 ∧ Reproduces n v X) (v : List ℝ)
    (hv : v.length = n + n * (n - 1) / 2) :
    ∃ w : List ℝ, w.length = n + n * (n - 1) / 2 ∧ logLik n v X < logLik n w X := by
  by_contra hc
  push Not at hc
  exact h ⟨v, hv, reproduces_of_max n X hX.1 v hv hc⟩

/-- C108. The check of the constructor does not recognise such samples, and `solve` does not look at the success flag of
the library: for this sample no mean and no correlation is larger than 1/3 in magnitude, `solve` returns, and whatever
vector the library found, the model does not reproduce the sample. -/
theorem C108_silent_wrong (mc : Machine) (hmod : HasPairModule mc 2) (rng : ℕ) :
    ∃ o c, enumerateInit mc (.data 2 [[1, 1], [1, -1], [-1, 1]]) none rng = .ok o ∧ o.constraints = some c ∧
      (∀ x ∈ c, |x| = 1 / 3) ∧
      ∀ brk root minimize maxParam useRoot, ∃ x, enumerateSolve brk root minimize o none none maxParam useRoot = .ok x ∧
        (x.length = 3 → ¬ Reproduces 2 x [[1, 1], [1, -1], [-1, 1]]) := by
  have hX : SpinData 2 [[1, 1], [1, -1], [-1, 1]] := ⟨by simp, by decide⟩
  obtain ⟨o, h1, h2⟩ := C108_returns mc 2 (by norm_num) hmod _ hX rng
  obtain ⟨m, k1, -, -⟩ := init_data mc 2 _ hX rng
  obtain rfl := Except.ok.inj (h1.symm.trans k1)
  refine ⟨_, _, h1, rfl, ?_, fun brk root minimize maxParam useRoot => ?_⟩
  · have hu : upperPairs 2 = [(0, 1)] := by decide
    intro x hx
    simp [moments, hu, avg, List.range_succ] at hx
    rcases hx with rfl | rfl | rfl <;> norm_num [abs_of_neg]
  · obtain ⟨f, g, hs, -⟩ := h2 brk root minimize none maxParam useRoot (by simp)
    refine ⟨_, hs, fun hl hr => ?_⟩
    have := (C108_two_spins _ hX).1 ⟨_, hl, hr⟩ (-1) (-1) (by simp) (by simp)
    simp at this

/-- C108. With `max_param_value=m` the function has a zero exactly if there are parameters and none of them exceeds `m`. -/
theorem C108_bound (n : ℕ) (hn : 1 ≤ n) (X : Data) (hX : SpinData n X) (m : ℝ) (v : List ℝ)
    (hv : v.length = n + n * (n - 1) / 2) (h : Reproduces n v X) :
    (∃ x : List ℝ, x.length = n + n * (n - 1) / 2 ∧ (∀ p ∈ x, |p| ≤ m) ∧ Reproduces n x X) ↔ ∀ p ∈ v, |p| ≤ m := by
  constructor
  · rintro ⟨x, hx, hb, hr⟩
    by_cases hne : x = v
    · rwa [hne] at hb
    · have h1 := logLik_strict n hn X hX.1 v hv h x hx hne
      have h2 := logLik_strict n hn X hX.1 x hx hr v hv (Ne.symm hne)
      exact absurd h1 (not_lt.2 h2.le)
  · intro hb
    exact ⟨v, hv, hb, h⟩

/-- C108. Without equation module `solve` raises. -/
theorem C108_no_equations (mc : Machine) (n : ℕ) (h : mc.eqns .ising n = none) (X : Data) (hX : SpinData n X) (rng : ℕ) :
    ∃ o, enumerateInit mc (.data n X) none rng = .ok o ∧
      ∀ brk root minimize useRoot, enumerateSolve brk root minimize o none none none useRoot = .error .attributeError := by
  obtain ⟨o, h1, h2, h3⟩ := init_data mc n X hX rng
  refine ⟨_, h1, fun brk root minimize useRoot => ?_⟩
  have hc : ∀ x, o.calcObservables brk (some x) = .error .attributeError := by
    intro x
    unfold ModelObj.calcObservables
    rw [h3, h, h2]
  unfold enumerateSolve enumSetup
  cases useRoot <;> simp [optimCall, enumF, enumNorm, obsDiffNorm, Model.obsDiff, hc]

/-- Non-vacuity of C108: a machine with the module for two spins, and samples with and without solution. -/
example : ∃ mc : Machine, HasPairModule mc 2 := by
  obtain ⟨e, he, -⟩ := module_pairE 2 (by norm_num)
  exact ⟨⟨true, false, 4, fun _ _ => some e⟩, e, he, rfl⟩

example : SpinData 3 [[1, 1, -1], [-1, 1, 1]] := ⟨by simp, by decide⟩

example : ∃ v : List ℝ, v.length = 3 ∧ Reproduces 2 v [[1, 1], [1, -1], [-1, 1], [-1, -1], [1, 1]] :=
  (C108_two_spins _ ⟨by simp, by decide⟩).2 (by rintro a b (rfl | rfl) (rfl | rfl) <;> decide)

end Verif.Props
