/-
C111: `SparseEnumerate` as an object: which positions it accepts, and when it can find parameters.
-/
import Verif.Lemmas.SparseObj

namespace Verif.Props
open Verif Verif.Model Verif.Spec Verif.Lemmas

/-- The positions that the constructor and `solve` can work with: in range, and not a single one unless it is the last. -/
def GoodPositions (n : ℕ) (ix : List ℕ) : Prop :=
  (∀ p ∈ ix, p < n + n * (n - 1) / 2) ∧
    ((∃ p ∈ ix, ∃ q ∈ ix, p ≠ q) ∨ ix ≠ [] ∧ ∀ p ∈ ix, p = n + n * (n - 1) / 2 - 1)

theorem good_unique {n : ℕ} {l : List ℕ} (h : GoodPositions n l) :
    (uniqueIx l).Pairwise (· < ·) ∧ (∀ p ∈ uniqueIx l, p < n + n * (n - 1) / 2) ∧
      (2 ≤ (uniqueIx l).length ∨ uniqueIx l = [n + n * (n - 1) / 2 - 1]) := by
  refine ⟨uniqueIx_sorted l, fun p hp => h.1 p (mem_uniqueIx.1 hp), ?_⟩
  rcases h.2 with ⟨p, hp, q, hq, hne⟩ | ⟨hne, hall⟩
  · left
    rcases hu : uniqueIx l with _ | ⟨a, _ | ⟨b, t⟩⟩
    · have := mem_uniqueIx.2 hp
      rw [hu] at this
      simp at this
    · have h1 := mem_uniqueIx.2 hp
      have h2 := mem_uniqueIx.2 hq
      rw [hu, List.mem_singleton] at h1 h2
      exact absurd (h1.trans h2.symm) hne
    · simp
  · right
    have hs := uniqueIx_sorted l
    have hm : ∀ p ∈ uniqueIx l, p = n + n * (n - 1) / 2 - 1 := fun p hp => hall p (mem_uniqueIx.1 hp)
    rcases hu : uniqueIx l with _ | ⟨a, _ | ⟨b, t⟩⟩
    · obtain ⟨p, hp⟩ := List.exists_mem_of_ne_nil _ hne
      have := mem_uniqueIx.2 hp
      rw [hu] at this
      simp at this
    · rw [hu] at hm
      rw [hm a (by simp)]
    · rw [hu] at hm hs
      have h1 := hm a (by simp)
      have h2 := hm b (by simp)
      simp only [List.pairwise_cons] at hs
      have := hs.1 b (by simp)
      omega

theorem sparse_data (mc : Machine) (n : ℕ) (X : Data) (hX : SpinData n X) (rng : ℕ) :
    ∃ o, basicSetup mc (.data n X) none rng = .ok ⟨some n, some o, some (moments n X)⟩ ∧
      o.kind = .ising ∧ o.eqns = mc.eqns .ising n ∧ o.multipliers.length = n + n * (n - 1) / 2 := by
  obtain ⟨o, h1, h2, h3⟩ := init_data mc n X hX rng
  refine ⟨o, h1, h2, h3, ?_⟩
  have hm : ∃ o', solverModel mc n none rng = .ok o' ∧ o'.multipliers.length = n + n * (n - 1) / 2 := by
    unfold solverModel modelInit
    dsimp only
    rw [zeros_init]
    exact ⟨_, rfl, by simp⟩
  obtain ⟨o', ho, hl⟩ := hm
  unfold enumerateInit basicSetup at h1
  dsimp only at h1
  rw [ho] at h1
  dsimp only at h1
  rcases hc : sampleConstraints (K := ℝ) n X with e | c
  · rw [hc] at h1
    cases h1
  · rw [hc] at h1
    obtain rfl : o' = o := by
      have := Except.ok.inj h1
      simp only [SolverObj.mk.injEq, Option.some.injEq] at this
      exact this.2.1
    exact hl

/-- C111. The constructor for a sample of spins. Without positions it raises; an empty array of positions and a single one
that is not the last raise; all others are accepted, sorted and with repetitions removed. -/
theorem C111_constructor (mc : Machine) (n : ℕ) (X : Data) (hX : SpinData n X) (rng : ℕ) :
    sparseInit mc (.data n X) none none rng = .error .assertion ∧
    sparseInit mc (.data n X) none (some []) rng = .error .indexError ∧
    (∀ l p, p + 1 < n + n * (n - 1) / 2 → l ≠ [] → (∀ q ∈ l, q = p) →
      sparseInit mc (.data n X) none (some l) rng = .error .unboundLocal) ∧
    ∀ l, l ≠ [] → (∀ p, p + 1 < n + n * (n - 1) / 2 → ∃ q ∈ l, q ≠ p) →
      ∃ o, sparseInit mc (.data n X) none (some l) rng = .ok o ∧ o.ix.Pairwise (· < ·) ∧ ∀ q, q ∈ o.ix ↔ q ∈ l := by
  obtain ⟨o, h1, -, -, hl⟩ := sparse_data mc n X hX rng
  have hne : ∀ l : List ℕ, l ≠ [] → uniqueIx l ≠ [] := by
    intro l hl h
    obtain ⟨p, hp⟩ := List.exists_mem_of_ne_nil _ hl
    have := mem_uniqueIx.2 hp
    rw [h] at this
    simp at this
  refine ⟨?_, ?_, fun l p hp hl' hall => ?_, fun l hl' hall => ?_⟩
  · unfold sparseInit
    rw [h1]
  · unfold sparseInit
    rw [h1]
    simp [uniqueIx, insertionIx]
  · have hu : uniqueIx l = [p] := by
      have hs := uniqueIx_sorted l
      have hm : ∀ q ∈ uniqueIx l, q = p := fun q hq => hall q (mem_uniqueIx.1 hq)
      rcases hu : uniqueIx l with _ | ⟨a, _ | ⟨b, t⟩⟩
      · exact absurd hu (hne l hl')
      · rw [hu] at hm
        rw [hm a (by simp)]
      · rw [hu] at hm hs
        have e1 := hm a (by simp)
        have e2 := hm b (by simp)
        simp only [List.pairwise_cons] at hs
        have := hs.1 b (by simp)
        omega
    unfold sparseInit
    rw [h1]
    dsimp only
    rw [hu, hl]
    simp [insertionIx, hp]
  · have hi : ∃ r, insertionIx (n + n * (n - 1) / 2) (uniqueIx l) = .ok r := by
      rcases hu : uniqueIx l with _ | ⟨a, t⟩
      · exact absurd hu (hne l hl')
      · refine ⟨_, insertionIx_eq _ _ ?_⟩
        cases t with
        | nil =>
          right
          refine ⟨a, rfl, ?_⟩
          by_contra hc
          obtain ⟨q, hq, hqa⟩ := hall a (by omega)
          have := mem_uniqueIx.2 hq
          rw [hu, List.mem_singleton] at this
          exact hqa this
        | cons b t => left; simp
    obtain ⟨r, hr⟩ := hi
    refine ⟨⟨⟨some n, some o, some (moments n X)⟩, uniqueIx l, n + n * (n - 1) / 2⟩, ?_, uniqueIx_sorted l,
      fun q => mem_uniqueIx⟩
    unfold sparseInit
    rw [h1]
    dsimp only
    rw [hl, hr]

theorem sparse_good (mc : Machine) (n : ℕ) (X : Data) (hX : SpinData n X) (l : List ℕ) (hl : GoodPositions n l) (rng : ℕ) :
    ∃ m : ModelObj, sparseInit mc (.data n X) none (some l) rng =
        .ok ⟨⟨some n, some m, some (moments n X)⟩, uniqueIx l, n + n * (n - 1) / 2⟩ ∧
      m.eqns = mc.eqns .ising n := by
  obtain ⟨o, h1, -, h3, hlen⟩ := sparse_data mc n X hX rng
  refine ⟨o, ?_, h3⟩
  obtain ⟨-, g2, g3⟩ := good_unique hl
  unfold sparseInit
  rw [h1]
  dsimp only
  rw [hlen, insertionIx_eq _ _ (g3.imp_right fun h => ⟨_, h, by omega⟩)]

/-- C111. Without `constraints` the object takes those of the whole sample and refuses them, unless all parameters were
selected. -/
theorem C111_default_raises (mc : Machine) (n : ℕ) (X : Data) (hX : SpinData n X) (l : List ℕ) (hl : GoodPositions n l)
    (q : ℕ) (hq : q < n + n * (n - 1) / 2) (hql : q ∉ l) (rng : ℕ) :
    ∃ o, sparseInit mc (.data n X) none (some l) rng = .ok o ∧
      ∀ brk root minimize guess maxParam useRoot,
        sparseObjSolve brk root minimize o guess none maxParam useRoot = .error .assertion := by
  obtain ⟨m, h1, -⟩ := sparse_good mc n X hX l hl rng
  refine ⟨_, h1, fun brk root minimize guess maxParam useRoot => ?_⟩
  obtain ⟨g1, g2, -⟩ := good_unique hl
  have hlt : (uniqueIx l).length < n + n * (n - 1) / 2 := by
    have hnd : (uniqueIx l).Nodup := g1.imp fun h => ne_of_lt h
    have hnd' : (q :: uniqueIx l).Nodup := List.nodup_cons.2 ⟨fun h => hql (mem_uniqueIx.1 h), hnd⟩
    have hsub : (q :: uniqueIx l) ⊆ List.range (n + n * (n - 1) / 2) := by
      intro p hp
      rw [List.mem_range]
      rcases List.mem_cons.1 hp with rfl | hp
      · exact hq
      · exact g2 p hp
    have := (hnd'.subperm hsub).length_le
    simp at this
    omega
  unfold sparseObjSolve
  dsimp only
  rw [C36_sparse_default_raises _ _ _ (by rw [length_moments]; omega)]

section
variable {mc : Machine} {n : ℕ} (hn : 1 ≤ n) (hmod : HasPairModule mc n) {m : ModelObj} (he : m.eqns = mc.eqns .ising n)
  (brk : ℕ → Bool) {ix : List ℕ} (hs : ix.Pairwise (· < ·)) (hN : ∀ p ∈ ix, p < n + n * (n - 1) / 2)
  (hix : 2 ≤ ix.length ∨ ix = [n + n * (n - 1) / 2 - 1])
include hn hmod he hs hN hix

/-- The observables of the full vector at the selected positions. -/
theorem sparse_obs (x : List ℝ) (hx : x.length = ix.length) :
    fillIn (n + n * (n - 1) / 2) ix x 0 = .ok (fillVec (n + n * (n - 1) / 2) ix x) ∧
    ∃ o, m.calcObservables brk (some (fillVec (n + n * (n - 1) / 2) ix x)) = .ok o ∧
      takeIx o ix = .ok (ix.map fun q =>
        expect (words [-1, 1] n) (pairE n (fillVec (n + n * (n - 1) / 2) ix x)) (paramObs n q)) := by
  obtain ⟨e, m1, m2⟩ := hmod
  obtain ⟨e', h1', h2'⟩ := module_pairE n hn
  obtain rfl : e' = e := by rw [m1] at h1'; exact (Except.ok.inj h1').symm
  refine ⟨fillIn_eq _ ix hs hN hix x hx 0, _, (calc_module he m2 brk _).trans (h2' _ (length_fillVec _ _ _) brk), ?_⟩
  unfold takeIx
  apply mapM_ok
  intro q hq
  have hlt : q < (pairFns n).length := by rw [length_pairFns]; exact hN q hq
  unfold getAt
  rw [List.getElem?_eq_getElem (by simpa using hlt), List.getElem_map]
  dsimp only
  congr 2
  funext s
  unfold paramObs
  rw [← pairFns_map, List.getD_eq_getElem _ _ (by simpa using hlt), List.getElem_map]

theorem sparse_zero_iff (c : List ℝ) (hc : c.length = ix.length) (maxParam : Option ℝ)
    (hb : ∀ b, maxParam = some b → 0 ≤ b) (x : List ℝ) (hx : x.length = ix.length) :
    (∃ d, sparseF (fun x => m.calcObservables brk (some x)) (n + n * (n - 1) / 2) ix c maxParam x = .ok d) ∧
    (∃ d, sparseNorm (fun x => m.calcObservables brk (some x)) (n + n * (n - 1) / 2) ix c maxParam x = .ok d) ∧
    (sparseF (fun x => m.calcObservables brk (some x)) (n + n * (n - 1) / 2) ix c maxParam x =
        .ok (List.replicate ix.length 0) ↔
      (∀ b, maxParam = some b → ∀ p ∈ x, |p| ≤ b) ∧ MeetsAt n ix (fillVec (n + n * (n - 1) / 2) ix x) c) ∧
    (sparseNorm (fun x => m.calcObservables brk (some x)) (n + n * (n - 1) / 2) ix c maxParam x = .ok 0 ↔
      (∀ b, maxParam = some b → ∀ p ∈ x, |p| ≤ b) ∧ MeetsAt n ix (fillVec (n + n * (n - 1) / 2) ix x) c) := by
  obtain ⟨k1, o, k2, k3⟩ := sparse_obs hn hmod he brk hs hN hix x hx
  obtain ⟨v, hv⟩ : ∃ v, v = ix.map fun q =>
    expect (words [-1, 1] n) (pairE n (fillVec (n + n * (n - 1) / 2) ix x)) (paramObs n q) := ⟨_, rfl⟩
  have hvl : v.length = ix.length := by rw [hv, List.length_map]
  have hb2 : broadcast2 (· - ·) v c = .ok (List.zipWith (· - ·) v c) := by
    unfold broadcast2
    rw [if_pos (by rw [hvl, hc])]
  have hpos : 0 < ix.length := by
    rcases hix with h | h
    · omega
    · rw [h]; simp
  have hsub : List.zipWith (· - ·) v c = List.replicate ix.length 0 ↔ v = c := by
    constructor
    · intro h
      refine List.ext_getElem (by rw [hvl, hc]) fun j h1 h2 => ?_
      have := congrArg (fun l : List ℝ => l.getD j 0) h
      beta_reduce at this
      rw [List.getD_eq_getElem _ _ (by simp [hvl, hc]; omega), List.getElem_zipWith,
        List.getD_eq_getElem _ _ (by simp; omega)] at this
      simp at this
      linarith
    · rintro rfl
      rw [List.zipWith_self]
      simp [hvl]
  have hnorm : Real.sqrt ((List.zipWith (· - ·) v c).map fun y => y * y).sum = 0 ↔ v = c := by
    rw [← hsub]
    constructor
    · intro h
      rw [Real.sqrt_eq_zero'] at h
      have hnn : ∀ y ∈ (List.zipWith (· - ·) v c).map (fun y => y * y), 0 ≤ y := by
        intro y hy
        obtain ⟨z, -, rfl⟩ := List.mem_map.1 hy
        exact mul_self_nonneg z
      have h0 := le_antisymm h (List.sum_nonneg hnn)
      refine List.eq_replicate_iff.2 ⟨by simp [hvl, hc], fun z hz => ?_⟩
      have := (List.all_zero_of_le_zero_le_of_sum_eq_zero hnn h0) (List.mem_map.2 ⟨z, hz, rfl⟩)
      exact mul_self_eq_zero.1 this
    · intro h
      rw [h]
      simp
  have hm : MeetsAt n ix (fillVec (n + n * (n - 1) / 2) ix x) c ↔ v = c := by
    rw [meetsAt_iff n ix _ c hc, hv]
  have hbd : ∀ b, 0 ≤ b → ((∃ p ∈ fillVec (n + n * (n - 1) / 2) ix x, |p| > b) ↔ ¬ ∀ p ∈ x, |p| ≤ b) := by
    intro b hb
    constructor
    · rintro ⟨p, hp, hlt⟩ hall
      obtain ⟨q, -, rfl⟩ := List.mem_map.1 hp
      split_ifs at hlt with h
      · have hi : ix.idxOf q < x.length := by rw [hx]; exact List.idxOf_lt_length_iff.2 h
        rw [List.getD_eq_getElem _ _ hi] at hlt
        exact absurd (hall _ (List.getElem_mem hi)) (not_le.2 hlt)
      · rw [abs_zero] at hlt
        linarith
    · intro h
      push Not at h
      obtain ⟨p, hp, hlt⟩ := h
      obtain ⟨j, hj, rfl⟩ := List.getElem_of_mem hp
      have hf := (fillVec_fills _ ix hs hN x).2 j (hx ▸ hj)
      have hq : ix.getD j 0 < (fillVec (n + n * (n - 1) / 2) ix x).length := by
        rw [length_fillVec, List.getD_eq_getElem _ _ (hx ▸ hj : j < ix.length)]
        exact hN _ (List.getElem_mem _)
      rw [List.getD_eq_getElem _ _ hj, List.getD_eq_getElem _ _ hq] at hf
      exact ⟨_, List.getElem_mem hq, by rw [hf]; exact hlt⟩
  rw [hm]
  unfold sparseF sparseNorm
  rw [k1]
  dsimp only
  rw [k2]
  dsimp only
  rw [k3]
  dsimp only
  rw [← hv, hb2]
  dsimp only
  rcases maxParam with _ | b
  · simp only [Except.ok.injEq, exists_eq', hsub, hnorm, reduceCtorEq, false_implies, implies_true, true_and, and_self]
  · dsimp only
    simp only [hbd b (hb b rfl)]
    by_cases h : ∀ p ∈ x, |p| ≤ b
    · rw [if_neg (not_not.2 h), if_neg (not_not.2 h)]
      simp only [Except.ok.injEq, exists_eq', hsub, hnorm, Option.some.injEq, forall_eq', true_and]
      exact ⟨⟨fun e => ⟨h, e⟩, fun e => e.2⟩, fun e => ⟨h, e⟩, fun e => e.2⟩
    · rw [if_pos h, if_pos h]
      refine ⟨⟨_, rfl⟩, ⟨_, rfl⟩, ⟨fun e => ?_, fun e => absurd (e.1 b rfl) h⟩, fun e => ?_, fun e => absurd (e.1 b rfl) h⟩
      · exfalso
        have := congrArg (fun l : List ℝ => l.getD 0 0) (Except.ok.inj e)
        beta_reduce at this
        rw [List.getD_eq_getElem _ _ (by simp; omega), List.getD_eq_getElem _ _ (by simp; omega)] at this
        simp at this
      · exfalso
        have := Except.ok.inj e
        norm_num at this

end

/-- C111. With constraints for the selected observables the object returns the vector that the library found. The function
given to the root finder (or, as the norm, to the minimizer) is zero at `x` exactly if `x` respects the bound and the model
with the parameters `x` at the selected positions and zero elsewhere has these expectations. -/
theorem C111_returns (mc : Machine) (n : ℕ) (hn : 1 ≤ n) (hmod : HasPairModule mc n) (X : Data) (hX : SpinData n X)
    (l : List ℕ) (hl : GoodPositions n l) (rng : ℕ) :
    ∃ o, sparseInit mc (.data n X) none (some l) rng = .ok o ∧ o.ix.Pairwise (· < ·) ∧ (∀ q, q ∈ o.ix ↔ q ∈ l) ∧
      ∀ brk root minimize (guess : Option (List ℝ)) (c : List ℝ) (maxParam : Option ℝ) (useRoot : Bool),
        c.length = o.ix.length → (∀ g, guess = some g → g.length = o.ix.length) →
        (∀ b, maxParam = some b → 0 ≤ b) →
        ∃ f g, sparseObjSolve brk root minimize o guess (some c) maxParam useRoot =
          .ok (if useRoot then root f (guess.getD (List.replicate o.ix.length 0))
            else minimize g (guess.getD (List.replicate o.ix.length 0))) ∧
          ∀ x w : List ℝ, x.length = o.ix.length → FillsIn (n + n * (n - 1) / 2) o.ix x w →
            (f x = .ok (List.replicate o.ix.length 0) ↔
              (∀ b, maxParam = some b → ∀ p ∈ x, |p| ≤ b) ∧ MeetsAt n o.ix w c) ∧
            (g x = .ok 0 ↔ (∀ b, maxParam = some b → ∀ p ∈ x, |p| ≤ b) ∧ MeetsAt n o.ix w c) := by
  obtain ⟨m, h1, h2⟩ := sparse_good mc n X hX l hl rng
  obtain ⟨g1, g2, g3⟩ := good_unique hl
  refine ⟨_, h1, g1, fun q => mem_uniqueIx, ?_⟩
  dsimp only
  intro brk root minimize guess c maxParam useRoot hc hg hb
  have key := sparse_zero_iff hn hmod h2 brk g1 g2 g3 c hc maxParam hb
  refine ⟨sparseF (fun x => m.calcObservables brk (some x)) (n + n * (n - 1) / 2) (uniqueIx l) c maxParam,
    sparseNorm (fun x => m.calcObservables brk (some x)) (n + n * (n - 1) / 2) (uniqueIx l) c maxParam, ?_,
    fun x w hx hw => ?_⟩
  · obtain ⟨x0, hx0⟩ : ∃ x0, x0 = guess.getD (List.replicate (uniqueIx l).length (0 : ℝ)) := ⟨_, rfl⟩
    have hlen : x0.length = (uniqueIx l).length := by
      rw [hx0]
      cases hgu : guess with
      | none => simp
      | some g => exact hg g hgu
    obtain ⟨⟨d, hd⟩, ⟨d', hd'⟩, -⟩ := key x0 hlen
    rw [← hx0]
    unfold sparseObjSolve sparseSetup
    dsimp only
    rw [← hx0, if_neg (by simpa using hlen)]
    cases useRoot with
    | true => simp [optimCall, hd]
    | false => simp [optimCall, hd']
  · rw [fills_eq hx hw]
    exact (key x hx).2.2

/-- C111. If all positions are selected, `solve` without `constraints` uses the moments of the sample, and a zero of the
function is a vector of parameters for which the model reproduces the sample. -/
theorem C111_all_positions (mc : Machine) (n : ℕ) (hn : 1 ≤ n) (hmod : HasPairModule mc n) (X : Data) (hX : SpinData n X)
    (l : List ℕ) (hl : ∀ q, q ∈ l ↔ q < n + n * (n - 1) / 2) (rng : ℕ) :
    ∃ o, sparseInit mc (.data n X) none (some l) rng = .ok o ∧
      ∀ brk root minimize (guess : Option (List ℝ)) (useRoot : Bool),
        (∀ g, guess = some g → g.length = n + n * (n - 1) / 2) →
        ∃ f g, sparseObjSolve brk root minimize o guess none none useRoot =
          .ok (if useRoot then root f (guess.getD (List.replicate (n + n * (n - 1) / 2) 0))
            else minimize g (guess.getD (List.replicate (n + n * (n - 1) / 2) 0))) ∧
          ∀ x : List ℝ, x.length = n + n * (n - 1) / 2 →
            (f x = .ok (List.replicate (n + n * (n - 1) / 2) 0) ↔ Reproduces n x X) ∧
            (g x = .ok 0 ↔ Reproduces n x X) := by
  have hpos : 0 < n + n * (n - 1) / 2 := by omega
  have hgood : GoodPositions n l := by
    refine ⟨fun p hp => (hl p).1 hp, ?_⟩
    by_cases h1 : n + n * (n - 1) / 2 = 1
    · exact Or.inr ⟨List.ne_nil_of_mem ((hl 0).2 hpos), fun p hp => by have := (hl p).1 hp; omega⟩
    · exact Or.inl ⟨0, (hl 0).2 hpos, 1, (hl 1).2 (by omega), by norm_num⟩
  have hix : uniqueIx l = List.range (n + n * (n - 1) / 2) := by
    refine List.Perm.eq_of_pairwise (le := (· < ·)) (fun a b _ _ h1 h2 => absurd h1 (lt_asymm h2)) (uniqueIx_sorted l)
      List.pairwise_lt_range ?_
    refine (List.perm_ext_iff_of_nodup ((uniqueIx_sorted l).imp fun h => ne_of_lt h) List.nodup_range).2 fun q => ?_
    rw [mem_uniqueIx, hl, List.mem_range]
  obtain ⟨m, h1, h2⟩ := sparse_good mc n X hX l hgood rng
  obtain ⟨g1, g2, g3⟩ := good_unique hgood
  refine ⟨_, h1, fun brk root minimize guess useRoot hg => ?_⟩
  have hlen : (uniqueIx l).length = n + n * (n - 1) / 2 := by rw [hix, List.length_range]
  have key := sparse_zero_iff hn hmod h2 brk g1 g2 g3 (moments n X) (by rw [length_moments, hlen]) none (by simp)
  rw [hlen] at key
  refine ⟨sparseF (fun x => m.calcObservables brk (some x)) (n + n * (n - 1) / 2) (uniqueIx l) (moments n X) none,
    sparseNorm (fun x => m.calcObservables brk (some x)) (n + n * (n - 1) / 2) (uniqueIx l) (moments n X) none, ?_,
    fun x hx => ?_⟩
  · obtain ⟨x0, hx0⟩ : ∃ x0, x0 = guess.getD (List.replicate (n + n * (n - 1) / 2) (0 : ℝ)) := ⟨_, rfl⟩
    have hlen0 : x0.length = n + n * (n - 1) / 2 := by
      rw [hx0]
      cases hgu : guess with
      | none => simp
      | some g => exact hg g hgu
    obtain ⟨⟨d, hd⟩, ⟨d', hd'⟩, -⟩ := key x0 hlen0
    rw [← hx0]
    unfold sparseObjSolve sparseSetup
    dsimp only
    rw [hlen, ← hx0, if_neg (by simpa using hlen0)]
    rw [if_pos (length_moments n X)]
    cases useRoot with
    | true => simp [optimCall, hd]
    | false => simp [optimCall, hd']
  · have hfill : fillVec (n + n * (n - 1) / 2) (uniqueIx l) x = x := by
      have := zeroOff_eq (n + n * (n - 1) / 2) (uniqueIx l) x ⟨hx, fun q hq => by
        rw [hix, List.mem_range] at hq
        rw [List.getD_eq_default _ _ (by omega)]⟩
      rw [hix] at this ⊢
      have hmap : ((List.range (n + n * (n - 1) / 2)).map fun q => x.getD q 0) = x := by
        refine List.ext_getElem (by simp [hx]) fun i h1 h2 => ?_
        simp [List.getD_eq_getElem?_getD, h2]
      rw [hmap] at this
      exact this.symm
    have hk := (key x hx).2.2
    rw [hfill] at hk
    have hM : MeetsAt n (uniqueIx l) x (moments n X) ↔ Reproduces n x X := by
      rw [meetsAt_iff n _ x _ (by rw [length_moments, hlen]), reproduces_iff, hix]
      have : ((List.range (n + n * (n - 1) / 2)).map fun q => expect (words [-1, 1] n) (pairE n x) (paramObs n q)) =
          (pairFns n).map fun f => expect (words [-1, 1] n) (pairE n x) f := by
        refine List.ext_getElem (by simp [length_pairFns]) fun q h1 h2 => ?_
        rw [List.getElem_map, List.getElem_map, List.getElem_range]
        congr 1
        funext s
        have hq : q < (pairFns n).length := by simpa using h2
        unfold paramObs
        rw [← pairFns_map, List.getD_eq_getElem _ _ (by simpa using hq), List.getElem_map]
      rw [this]
    rw [hM] at hk
    simpa using hk

/-- C111. Parameters with given expectations of the selected observables exist exactly if every nonzero choice of the
selected parameters makes the combination of observables exceed, at some state, that of the constraints. -/
theorem C111_exists_iff (n : ℕ) (ix : List ℕ) (hs : ix.Pairwise (· < ·)) (hN : ∀ p ∈ ix, p < n + n * (n - 1) / 2)
    (c : List ℝ) (hc : c.length = ix.length) :
    (∃ w, ZeroOff (n + n * (n - 1) / 2) ix w ∧ MeetsAt n ix w c) ↔
      ∀ u : List ℝ, ZeroOff (n + n * (n - 1) / 2) ix u → (∃ p ∈ u, p ≠ 0) →
        ∃ s ∈ words [-1, 1] n, pairE n u s < -dot (ix.map fun q => u.getD q 0) c := by
  have key := family_exists_iff (words [-1, 1] n) (words_pm_ne n) ix (paramObs n) c hc
    (param_independent n ix hs hN)
  have hl : (∃ w, ZeroOff (n + n * (n - 1) / 2) ix w ∧ MeetsAt n ix w c) ↔ ∃ θ : List ℝ, θ.length = ix.length ∧
      (ix.map fun t => expect (words [-1, 1] n) (fun s => -dot θ (ix.map fun t => paramObs n t s)) (paramObs n t)) = c := by
    constructor
    · rintro ⟨w, h1, h2⟩
      refine ⟨ix.map fun q => w.getD q 0, by simp, ?_⟩
      rw [← pairE_fill n ix hs hN _ (by simp), ← zeroOff_eq _ ix w h1]
      exact (meetsAt_iff n ix w c hc).1 h2
    · rintro ⟨θ, h1, h2⟩
      refine ⟨fillVec _ ix θ, (fillVec_fills _ ix hs hN θ).1, (meetsAt_iff n ix _ c hc).2 ?_⟩
      rw [pairE_fill n ix hs hN θ h1]
      exact h2
  rw [hl, key]
  constructor
  · intro h u hu h0
    obtain ⟨p, hp, hp0⟩ := h0
    obtain ⟨q, hq, rfl⟩ := List.getElem_of_mem hp
    have hqi : q ∈ ix := by
      by_contra hc
      have := hu.2 q hc
      rw [List.getD_eq_getElem _ _ hq] at this
      exact hp0 this
    obtain ⟨s, hs', hlt⟩ := h (ix.map fun q => u.getD q 0) (by simp)
      ⟨_, List.mem_map.2 ⟨q, hqi, rfl⟩, by rw [List.getD_eq_getElem _ _ hq]; exact hp0⟩
    refine ⟨s, hs', ?_⟩
    rw [zeroOff_eq _ ix u hu, pairE_fill n ix hs hN _ (by simp), ← zeroOff_eq _ ix u hu]
    linarith
  · intro h θ hθ h0
    have hz := fillVec_fills _ ix hs hN θ
    have hback : (ix.map fun q => (fillVec (n + n * (n - 1) / 2) ix θ).getD q 0) = θ := by
      refine List.ext_getElem (by simp [hθ]) fun j h1 h2 => ?_
      have := hz.2 j (hθ ▸ h2)
      rw [List.getD_eq_getElem _ _ (hθ ▸ h2 : j < ix.length), List.getD_eq_getElem _ _ h2] at this
      rw [List.getElem_map, this]
    obtain ⟨p, hp, hp0⟩ := h0
    obtain ⟨j, hj, rfl⟩ := List.getElem_of_mem hp
    have hq : ix.getD j 0 < (fillVec (n + n * (n - 1) / 2) ix θ).length := by
      rw [length_fillVec, List.getD_eq_getElem _ _ (hθ ▸ hj : j < ix.length)]
      exact hN _ (List.getElem_mem _)
    have hf := hz.2 j (hθ ▸ hj)
    rw [List.getD_eq_getElem _ _ hj, List.getD_eq_getElem _ _ hq] at hf
    obtain ⟨s, hs', hlt⟩ := h _ hz.1 ⟨_, List.getElem_mem hq, by rw [hf]; exact hp0⟩
    refine ⟨s, hs', ?_⟩
    rw [hback, pairE_fill n ix hs hN θ hθ] at hlt
    linarith

/-- C111. For constraints computed from a sample: such parameters exist exactly if no nonzero choice of the selected
parameters makes all rows of the sample ground states. -/
theorem C111_exists_iff_sample (n : ℕ) (ix : List ℕ) (hs : ix.Pairwise (· < ·)) (hN : ∀ p ∈ ix, p < n + n * (n - 1) / 2)
    (X : Data) (hX : SpinData n X) :
    (∃ w, ZeroOff (n + n * (n - 1) / 2) ix w ∧ MeetsAt n ix w (momentsAt n ix X)) ↔
      ¬ ∃ u : List ℝ, ZeroOff (n + n * (n - 1) / 2) ix u ∧ (∃ p ∈ u, p ≠ 0) ∧
        ∀ r ∈ X, ∀ s ∈ words [-1, 1] n, pairE n u r ≤ pairE n u s := by
  rw [C111_exists_iff n ix hs hN _ (length_momentsAt n ix X)]
  have hE : ∀ u, ZeroOff (n + n * (n - 1) / 2) ix u → ∀ s, pairE n u s =
      -dot (ix.map fun q => u.getD q 0) (ix.map fun q => paramObs n q s) := by
    intro u hu s
    conv_lhs => rw [zeroOff_eq _ ix u hu]
    rw [pairE_fill n ix hs hN _ (by simp)]
  constructor
  · rintro h ⟨u, hu, h0, hg⟩
    obtain ⟨s, hs', hlt⟩ := h u hu h0
    rw [dot_momentsAt, lt_neg] at hlt
    obtain ⟨r, hr, hlt⟩ := exists_lt_of_avg hX.1 hlt
    have := hg r hr s hs'
    rw [hE u hu r] at this
    linarith
  · intro h u hu h0
    by_contra hc
    push Not at hc
    refine h ⟨u, hu, h0, fun r hr s hs' => ?_⟩
    by_contra hlt
    push Not at hlt
    obtain ⟨t, ht, hmax⟩ := (words ([-1, 1] : List ℤ) n).toFinset.exists_min_image
      (fun s => pairE n u s) ⟨s, List.mem_toFinset.2 hs'⟩
    have h1 := hc t (List.mem_toFinset.1 ht)
    rw [dot_momentsAt] at h1
    have h2 : avg X (fun r => dot (ix.map fun q => u.getD q 0) (ix.map fun q => paramObs n q r)) < -pairE n u t := by
      refine avg_lt_of_lt (fun r' hr' => ?_) hr ?_
      · have := hmax r' (List.mem_toFinset.2 (hX.2 r' hr'))
        rw [hE u hu r'] at this
        linarith
      · have := hmax s (List.mem_toFinset.2 hs')
        have e := hE u hu r
        linarith
    linarith

/-- C111. What a zero of the function is, for constraints computed from the sample: the parameters of the greatest
likelihood among all that are zero at the positions left out, and there are no others with that likelihood. -/
theorem C111_maximum_likelihood (n : ℕ) (ix : List ℕ) (hs : ix.Pairwise (· < ·)) (hN : ∀ p ∈ ix, p < n + n * (n - 1) / 2)
    (X : Data) (hX : SpinData n X) (w : List ℝ) (hw : ZeroOff (n + n * (n - 1) / 2) ix w) :
    MeetsAt n ix w (momentsAt n ix X) ↔
      ∀ u, ZeroOff (n + n * (n - 1) / 2) ix u → u ≠ w → logLik n u X < logLik n w X := by
  have hl : (0 : ℝ) < X.length := by exact_mod_cast List.length_pos_of_ne_nil hX.1
  have hL : ∀ u, ZeroOff (n + n * (n - 1) / 2) ix u → logLik n u X = X.length *
      (dot (ix.map fun q => u.getD q 0) (momentsAt n ix X) - Real.log (partition (words [-1, 1] n) fun s =>
        -dot (ix.map fun q => u.getD q 0) (ix.map fun q => paramObs n q s))) := by
    intro u hu
    conv_lhs => rw [zeroOff_eq _ ix u hu]
    rw [logLik_fill n ix hs hN _ (by simp) X hX.1]
  have hM : MeetsAt n ix w (momentsAt n ix X) ↔ (ix.map fun t => expect (words [-1, 1] n)
      (fun s => -dot (ix.map fun q => w.getD q 0) (ix.map fun t => paramObs n t s)) (paramObs n t)) = momentsAt n ix X := by
    rw [meetsAt_iff n ix w _ (length_momentsAt n ix X), ← pairE_fill n ix hs hN _ (by simp), ← zeroOff_eq _ ix w hw]
  rw [hM]
  constructor
  · intro h u hu hne
    rw [hL u hu, hL w hw]
    refine mul_lt_mul_of_pos_left ?_ hl
    refine family_strict _ (words_pm_ne n) ix (paramObs n) _ (param_independent n ix hs hN) _ (by simp) h _ (by simp) ?_
    intro hc
    apply hne
    rw [zeroOff_eq _ ix u hu, hc, ← zeroOff_eq _ ix w hw]
  · intro h
    refine family_of_max _ (words_pm_ne n) ix (paramObs n) _ (length_momentsAt n ix X) _ (by simp) fun θ hθ => ?_
    have hz := fillVec_fills _ ix hs hN θ
    have hle : logLik n (fillVec (n + n * (n - 1) / 2) ix θ) X ≤ logLik n w X := by
      by_cases hne : fillVec (n + n * (n - 1) / 2) ix θ = w
      · rw [hne]
      · exact (h _ hz.1 hne).le
    rw [logLik_fill n ix hs hN θ hθ X hX.1, hL w hw, mul_le_mul_iff_right₀ hl] at hle
    exact hle

/-- C111. Selecting more parameters cannot make a fit that exists disappear for the smaller selection: if the sample can be
fitted with the positions `ix'` it can be fitted with any part of them. -/
theorem C111_monotone (n : ℕ) (ix ix' : List ℕ) (hs : ix.Pairwise (· < ·)) (hs' : ix'.Pairwise (· < ·))
    (hsub : ∀ p ∈ ix, p ∈ ix') (hN : ∀ p ∈ ix', p < n + n * (n - 1) / 2) (X : Data) (hX : SpinData n X)
    (h : ∃ w, ZeroOff (n + n * (n - 1) / 2) ix' w ∧ MeetsAt n ix' w (momentsAt n ix' X)) :
    ∃ w, ZeroOff (n + n * (n - 1) / 2) ix w ∧ MeetsAt n ix w (momentsAt n ix X) := by
  rw [C111_exists_iff_sample n ix' hs' hN X hX] at h
  rw [C111_exists_iff_sample n ix hs (fun p hp => hN p (hsub p hp)) X hX]
  rintro ⟨u, hu, h0, hg⟩
  exact h ⟨u, ⟨hu.1, fun q hq => hu.2 q fun hc => hq (hsub q hc)⟩, h0, hg⟩

/-- The hypotheses are met: two spins, field of the first and the coupling, all four states in the sample. -/
example : GoodPositions 2 [2, 0, 2] ∧ SpinData 2 [[1, 1], [1, -1], [-1, 1], [-1, -1]] ∧
    ∃ w, ZeroOff 3 [0, 2] w ∧ MeetsAt 2 [0, 2] w (momentsAt 2 [0, 2] [[1, 1], [1, -1], [-1, 1], [-1, -1]]) := by
  have hX : SpinData 2 [[1, 1], [1, -1], [-1, 1], [-1, -1]] := ⟨by simp, by decide⟩
  refine ⟨⟨by decide, Or.inl ⟨2, by simp, 0, by simp, by norm_num⟩⟩, hX, ?_⟩
  refine (C111_exists_iff_sample 2 [0, 2] (by decide) (by decide) _ hX).2 ?_
  rintro ⟨u, hu, ⟨p, hp, hp0⟩, hg⟩
  apply hp0
  refine orders_independent 2 2 true u (by rw [hu.1]; exact (length_pairTuples 2).symm)
    ⟨-pairE 2 u [1, 1], fun s hs => ?_⟩ p hp
  rw [orders_pairObs]
  have h1 := pairE_dot 2 u hu.1 s
  have hall : ∀ s ∈ words (spinValues true) 2, s ∈ ([[1, 1], [1, -1], [-1, 1], [-1, -1]] : List (List ℤ)) := by decide
  have h2 := hg s (hall s hs) [1, 1] (by decide)
  have h3 := hg [1, 1] (by decide) s hs
  linarith

end Verif.Props
