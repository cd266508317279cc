/-
C124: the two numbers that the usage guide prints after each fit.
-/
import Verif.Lemmas.GuideSummary
import Verif.Props.TripletFit
import Verif.Props.Corr

namespace Verif.Props
open Verif Verif.Model Verif.Spec Verif.Lemmas Prog

/-- A model of class `Ising` for `n` spins, whatever its parameters. -/
def IsIsing (mc : Machine) (n : ℕ) (m : ModelObj) : Prop := ∃ a rng, modelInit mc .ising a rng = .ok m ∧ m.n = n

theorem _root_.Verif.Props.IsIsing.eqns {mc : Machine} {n : ℕ} {m : ModelObj} (h : IsIsing mc n m) :
    m.eqns = mc.eqns .ising n := by
  obtain ⟨a, rng, h1, rfl⟩ := h
  exact (modelInv_init h1).eqns

theorem pairSisj (n : ℕ) (X : Data) (hX : SpinData n X) :
    ∃ l, pairCorrConcat n X (.none : Weights ℝ) false false false = .ok l ∧
      noNan l = .ok ((orderTuples n 2).map fun t => avg X fun s => mono (spins s) t) := by
  have hv : ∀ row ∈ X, ∀ x ∈ row, x = -1 ∨ x = 0 ∨ x = 1 := fun r hr x hx => by
    have := (mem_words.1 (hX.2 r hr)).2 x hx
    simp at this
    tauto
  refine ⟨_, C07_concat n X _ _ _ _ _ _ (C07_means n X hv), ?_⟩
  have hmap : ∀ l : List ℝ, (l.map some).mapM id = some l := by
    intro l
    induction l with
    | nil => rfl
    | cons a l ih => simp [ih]
  have : ((List.range n).map fun j => some (avg X fun row => ((row.getD j 0 : ℤ) : ℝ))) ++ ((upperPairs n).map fun p =>
      some (avg X fun row => ((row.getD p.1 0 : ℤ) : ℝ) * ((row.getD p.2 0 : ℤ) : ℝ))) =
      ((orderTuples n 2).map fun t => avg X fun s => (mono (spins s) t : ℝ)).map some := by
    rw [orderTuples_two, List.map_append, List.map_append, List.map_map, List.map_map, List.map_map, List.map_map]
    congr 1
    · exact List.map_congr_left fun i _ => by simp [mono, spins]
    · exact List.map_congr_left fun i _ => by simp [mono, spins]
  unfold noNan
  rw [this, hmap]

/-- C124, pairwise models: with the equation module present the summary returns, and prints the Euclidean distance between the
means and pair means of the sample and of the model with the solver's parameters, and that between the true and the solver's
parameters. -/
theorem C124_pairwise (mc : Machine) (n : ℕ) (hn : 1 ≤ n) (hmod : HasPairModule mc n) (X : Data) (hX : SpinData n X)
    (m : ModelObj) (hm : IsIsing mc n m) (brk : ℕ → Bool) (θ v : List ℝ) (hθ : θ.length = n + n * (n - 1) / 2)
    (hv : v.length = n + n * (n - 1) / 2) :
    pairSummary brk n X m θ v = .ok (meansDistance n (orderTuples n 2) (pairE n v) X, paramDistance θ v) := by
  obtain ⟨l, h1, h2⟩ := pairSisj n X hX
  obtain ⟨e, he, hmc⟩ := hmod
  obtain ⟨e', he', hobs⟩ := module_pairE n hn
  obtain rfl : e' = e := Except.ok.inj (he'.symm.trans he)
  unfold pairSummary summarize
  rw [h1]
  dsimp only
  rw [h2]
  dsimp only
  rw [calc_module hm.eqns hmc, hobs v hv, pairFns_orders, List.map_map]
  dsimp only [Function.comp_def]
  rw [errorNorm_means]
  dsimp only
  rw [errorNorm_params θ v (hv.trans hθ.symm)]

theorem reproduces_orders (n : ℕ) (v : List ℝ) (hv : v.length = n + n * (n - 1) / 2) (X : Data) :
    Reproduces n v X ↔ ReproducesOrders n 2 v X := by
  rw [reproduces_iff, reproducesOrders_iff, ← pairE_order n v hv, pairFns_orders, List.map_map, ← pairFns_moments, pairFns_orders,
    List.map_map]
  rfl

/-- C124: what it means if a number is zero. The first is zero exactly if the model has the means and pair means of the sample,
the second exactly if the solver returned the true parameters. -/
theorem C124_zero (n : ℕ) (θ v : List ℝ) (hθ : θ.length = n + n * (n - 1) / 2) (hv : v.length = n + n * (n - 1) / 2)
    (X : Data) :
    (meansDistance n (orderTuples n 2) (pairE n v) X = 0 ↔ Reproduces n v X) ∧ (paramDistance θ v = 0 ↔ v = θ) := by
  rw [reproduces_orders n v hv, pairE_order n v hv]
  exact ⟨meansDistance_zero n 2 v X, paramDistance_zero θ v (hv.trans hθ.symm)⟩

/-- C124, triplet models. -/
theorem C124_triplet (mc : Machine) (n : ℕ) (hn : 3 ≤ n) (hmod : HasTripletModule mc n) (X : Data) (hX : SpinData n X)
    (m : ModelObj) (hm : IsTriplet mc n m) (brk : ℕ → Bool) (θ v : List ℝ) (hθ : θ.length = (orderTuples n 3).length)
    (hv : v.length = (orderTuples n 3).length) :
    tripletSummary brk n X m θ v = .ok (meansDistance n (orderTuples n 3) (orderE n 3 v) X, paramDistance θ v) ∧
    (meansDistance n (orderTuples n 3) (orderE n 3 v) X = 0 ↔ ReproducesOrders n 3 v X) ∧ (paramDistance θ v = 0 ↔ v = θ) := by
  refine ⟨?_, meansDistance_zero n 3 v X, paramDistance_zero θ v (hv.trans hθ.symm)⟩
  obtain ⟨e, he, hmc⟩ := hmod
  obtain ⟨e', he', hobs⟩ := triplet_module n hn
  obtain rfl : e' = e := Except.ok.inj (he'.symm.trans he)
  have hcalc : m.calcObservables brk (some v) = moduleObservables brk e' v := by
    unfold ModelObj.calcObservables
    rw [hm.eqns, hmc]
    rfl
  unfold tripletSummary summarize
  rw [triplet_means n X hX.1 fun s hs => (mem_words.1 (hX.2 s hs)).1]
  dsimp only
  rw [hcalc, (hobs v hv).2 brk]
  dsimp only
  unfold orderMeans
  rw [errorNorm_means]
  dsimp only
  rw [errorNorm_params θ v (hv.trans hθ.symm)]

/-! ### The guide's fits -/

/-- `m` is the model of the solver and `v` the parameters after `solve`, for `Enumerate(X)`, `MPF(X)` and `Pseudo(X)` (with the
limit `L` for `MPF`). The searches find what they look for, if it exists. -/
inductive GuideFit (mc : Machine) (n : ℕ) (X : Data) (L : ℝ) : ModelObj → List ℝ → Prop
  | enumerate (rng o brk root minimize guess useRoot m v) : enumerateInit mc (.data n X) none rng = .ok o → o.model = some m →
      FindsZero root → FindsNull minimize → GuessFor n guess →
      enumerateSolve brk root minimize o guess none none useRoot = .ok v → GuideFit mc n X L m v
  | mpf (rng o uniq lib guess uselog m v) : mpfObjInit mc (.data n X) none .ising false false rng = .ok o → o.model = some m →
      UniqSpec uniq → FindsBoxMin (n + n * (n - 1) / 2) lib → GuessFor n guess →
      mpfObjSolve uniq lib o ⟨guess, true, L, uselog⟩ = .ok v → GuideFit mc n X L m v
  | pseudo (rng o lib force guess m v) : pseudoInit mc (.data n X) none .ising false 2 rng = .ok o → o.model = some m →
      FindsMin lib → GuessFor n guess → pseudoSolve lib o ⟨force, guess, none, none⟩ = .ok v → GuideFit mc n X L m v

theorem solverModel_ising (mc : Machine) (n rng : ℕ) (m : ModelObj) (h : solverModel mc n none rng = .ok m) :
    IsIsing mc n m := by
  refine ⟨_, rng, h, ?_⟩
  have h1 : ∃ o, solverModel mc n none rng = .ok o ∧ o.n = n := by
    unfold solverModel modelInit
    dsimp only
    rw [zeros_init]
    exact ⟨_, rfl, rfl⟩
  obtain ⟨o, h2, h3⟩ := h1
  rw [h] at h2
  rw [Except.ok.inj h2, h3]

theorem setup_ising (mc : Machine) (n rng : ℕ) (X : Data) (obs : ObsArg) (s : SolverObj) (m : ModelObj)
    (h : basicSetupObs mc (.data n X) none obs rng = .ok s) (hm : s.model = some m) : IsIsing mc n m := by
  unfold basicSetupObs at h
  dsimp only at h
  split at h
  · simp at h
  · rename_i o ho
    split at h
    · simp at h
    · obtain rfl := Except.ok.inj h
      obtain rfl := Option.some.inj hm
      exact solverModel_ising mc n rng _ ho

theorem guideFit_model {mc : Machine} {n : ℕ} {X : Data} {L : ℝ} {m : ModelObj} {v : List ℝ} (h : GuideFit mc n X L m v) :
    IsIsing mc n m := by
  cases h with
  | enumerate rng o brk root minimize guess useRoot m v h1 h2 =>
    unfold enumerateInit basicSetup at h1
    dsimp only at h1
    split at h1
    · simp at h1
    · rename_i o' ho
      split at h1
      · simp at h1
      · obtain rfl := Except.ok.inj h1
        obtain rfl := Option.some.inj h2
        exact solverModel_ising mc n rng _ ho
  | mpf rng o uniq lib guess uselog m v h1 h2 =>
    unfold mpfObjInit at h1
    split at h1
    · simp at h1
    · rename_i s hs
      obtain rfl := Except.ok.inj h1
      exact setup_ising mc n rng X _ s m hs h2
  | pseudo rng o lib force guess m v h1 h2 =>
    unfold pseudoInit at h1
    split at h1
    · simp at h1
    · rename_i s hs
      obtain rfl := Except.ok.inj h1
      exact setup_ising mc n rng X _ s m hs h2

theorem guideFit_near {mc : Machine} {n : ℕ} {X : Data} {L : ℝ} {m : ModelObj} {v : List ℝ} (h : GuideFit mc n X L m v)
    (hmod : HasPairModule mc n) (θ : List ℝ) (ε : ℝ) (hE : EnumerateFinds n θ ε X) (hP : PseudoFinds n θ ε X)
    (hM : MpfFinds n θ ε L X) : Near ε v θ := by
  cases h with
  | enumerate rng o brk root minimize guess useRoot m v h1 h2 hr hm hg hs =>
    obtain ⟨o', a, b⟩ := hE mc rng hmod
    obtain rfl := Except.ok.inj (a.symm.trans h1)
    obtain ⟨v', c, d⟩ := b brk root minimize guess useRoot hr hm hg
    obtain rfl := Except.ok.inj (c.symm.trans hs)
    exact d
  | mpf rng o uniq lib guess uselog m v h1 h2 hu hl hg hs =>
    obtain ⟨o', a, b⟩ := hM mc rng
    obtain rfl := Except.ok.inj (a.symm.trans h1)
    obtain ⟨v', c, d⟩ := b uniq lib guess uselog hu hl hg
    obtain rfl := Except.ok.inj (c.symm.trans hs)
    exact d
  | pseudo rng o lib force guess m v h1 h2 hl hg hs =>
    obtain ⟨o', a, b⟩ := hP mc rng
    obtain rfl := Except.ok.inj (a.symm.trans h1)
    obtain ⟨v', c, d⟩ := b lib force guess hl hg
    obtain rfl := Except.ok.inj (c.symm.trans hs)
    exact d

/-- C124, `Enumerate`: if some parameters have the means and pair means of the sample, the first number is exactly 0. -/
theorem C124_enumerate (mc : Machine) (n : ℕ) (hn : 1 ≤ n) (hmod : HasPairModule mc n) (X : Data) (hX : SpinData n X)
    (hex : ∃ w : List ℝ, w.length = n + n * (n - 1) / 2 ∧ Reproduces n w X) (rng : ℕ) (o : SolverObj)
    (ho : enumerateInit mc (.data n X) none rng = .ok o) (m : ModelObj) (hm : o.model = some m) (brk root minimize guess useRoot)
    (hroot : FindsZero root) (hmin : FindsNull minimize) (hg : GuessFor n guess) (v : List ℝ)
    (hv : enumerateSolve brk root minimize o guess none none useRoot = .ok v) (θ : List ℝ)
    (hθ : θ.length = n + n * (n - 1) / 2) (brk' : ℕ → Bool) :
    pairSummary brk' n X m θ v = .ok (0, paramDistance θ v) := by
  obtain ⟨w, hw, hrep⟩ := hex
  obtain ⟨o', h1, h2⟩ := C108_returns mc n hn hmod X hX rng
  obtain rfl := Except.ok.inj (h1.symm.trans ho)
  obtain ⟨f, g, e, hz⟩ := h2 brk root minimize guess none useRoot hg
  have hx0 : (guess.getD (List.replicate (n + n * (n - 1) / 2) 0)).length = n + n * (n - 1) / 2 := by
    cases guess with
    | none => simp
    | some g => exact hg g rfl
  have hfit : v.length = n + n * (n - 1) / 2 ∧ Reproduces n v X := by
    obtain rfl := Except.ok.inj (e.symm.trans hv)
    cases useRoot
    · obtain ⟨a, b⟩ := hmin g _ ⟨w, hw.trans hx0.symm, (hz w hw).2.2 ⟨by simp, hrep⟩⟩
      exact ⟨a.trans hx0, ((hz _ (a.trans hx0)).2.1 b).2⟩
    · obtain ⟨a, b⟩ := hroot f _ ⟨w, hw.trans hx0.symm, by rw [hx0]; exact (hz w hw).1.2 ⟨by simp, hrep⟩⟩
      rw [hx0] at b
      exact ⟨a.trans hx0, ((hz _ (a.trans hx0)).1.1 b).2⟩
  have hI := guideFit_model (GuideFit.enumerate (L := 1) rng o' brk root minimize guess useRoot m v ho hm hroot hmin hg hv)
  rw [C124_pairwise mc n hn hmod X hX m hI brk' θ v hθ hfit.1, ((C124_zero n θ v hθ hfit.1 X).1.2 hfit.2)]

/-- The summary of a fit returns, and both numbers are smaller than `ε`. -/
def SummaryBelow (n : ℕ) (θ : List ℝ) (ε : ℝ) (X : Data) (m : ModelObj) (v : List ℝ) : Prop :=
  ∀ brk, ∃ a b, pairSummary brk n X m θ v = .ok (a, b) ∧ 0 ≤ a ∧ a < ε ∧ 0 ≤ b ∧ b < ε

theorem near_mono {η η' : ℝ} {v θ : List ℝ} (h : Near η v θ) (hle : η ≤ η') : Near η' v θ :=
  ⟨h.1, fun i hi => (h.2 i hi).trans_le hle⟩

open scoped Classical in
/-- C124: the guide's experiment. Draw a sample by the recipe, fit an Ising model to it with `Enumerate`, `MPF` or `Pseudo`, and
print the summary: the probability that a fit raises, or a summary raises or prints a number of `ε` or more is at most `K`
divided by the number of rows. -/
theorem C124_guide (n : ℕ) (hn : 1 ≤ n) (h30 : n ≤ 30) (θ : List ℝ) (hθ : θ.length = n + n * (n - 1) / 2) (L : ℝ)
    (hL : 0 < L) (hin : InLimit L (bitParams n θ)) (ε : ℝ) (hε : 0 < ε) :
    ∃ K, ∀ e, PairModule n e → ∀ size : ℕ, 0 < size →
      prob (guideData e n size θ) (fun X => ¬ ((EnumerateFinds n θ ε X ∧ PseudoFinds n θ ε X ∧ MpfFinds n θ ε L X) ∧
        ∀ mc m v, HasPairModule mc n → GuideFit mc n X L m v → SummaryBelow n θ ε X m v)) ≤ K / size := by
  obtain ⟨η, hη, δ₀, hδ₀, h₀⟩ := meansDistance_small n 2 θ (hθ.trans (length_orders_two n).symm) ε hε
  obtain ⟨η', hη'⟩ : ∃ η', η' = min (min η ε) (ε / (θ.length + 1)) := ⟨_, rfl⟩
  have hpos : 0 < η' := by
    rw [hη']
    exact lt_min (lt_min hη hε) (by positivity)
  obtain ⟨δ₁, hδ₁, h₁⟩ := C119_enumerate n hn θ hθ η' hpos
  obtain ⟨δ₂, hδ₂, h₂⟩ := C119_pseudo n hn θ hθ η' hpos
  obtain ⟨δ₃, hδ₃, h₃⟩ := C119_mpf n hn θ hθ L hL hin η' hpos
  obtain ⟨δ, hδe⟩ : ∃ δ, δ = min (min δ₀ δ₁) (min δ₂ δ₃) := ⟨_, rfl⟩
  have hδ : 0 < δ := hδe ▸ lt_min (lt_min hδ₀ hδ₁) (lt_min hδ₂ hδ₃)
  refine ⟨1 / δ ^ 2, fun e he size hs => ?_⟩
  have hK := C120_frequencies n hn h30 e he θ hθ size hs _ hδ
  rw [div_div, mul_comm (δ ^ 2)]
  refine le_trans ?_ hK
  rw [guideData_eq n hn e he θ hθ]
  refine (finDist_guideSample n hn h30 _ (boltz_nonneg n (pairE n θ)) (boltz_sum n (pairE n θ)) size).mono fun X _ => ?_
  by_cases hX : CloseFreq n θ δ X
  · have l0 : δ ≤ δ₀ := hδe ▸ (min_le_left _ _).trans (min_le_left _ _)
    have l1 : δ ≤ δ₁ := hδe ▸ (min_le_left _ _).trans (min_le_right _ _)
    have l2 : δ ≤ δ₂ := hδe ▸ (min_le_right _ _).trans (min_le_left _ _)
    have l3 : δ ≤ δ₃ := hδe ▸ (min_le_right _ _).trans (min_le_right _ _)
    have f1 := h₁ X (hX.mono l1)
    have f2 := h₂ X (hX.mono l2)
    have f3 := h₃ X (hX.mono l3)
    have le : η' ≤ ε := hη' ▸ (min_le_left _ _).trans (min_le_right _ _)
    have hgood : (EnumerateFinds n θ ε X ∧ PseudoFinds n θ ε X ∧ MpfFinds n θ ε L X) ∧
        ∀ mc m v, HasPairModule mc n → GuideFit mc n X L m v → SummaryBelow n θ ε X m v := by
      refine ⟨⟨fun mc rng hmod => ?_, fun mc rng => ?_, fun mc rng => ?_⟩, fun mc m v hmod hfit brk => ?_⟩
      · obtain ⟨o, a, b⟩ := f1 mc rng hmod
        refine ⟨o, a, fun brk root minimize guess useRoot h1 h2 h3 => ?_⟩
        obtain ⟨v, c, d⟩ := b brk root minimize guess useRoot h1 h2 h3
        exact ⟨v, c, near_mono d le⟩
      · obtain ⟨o, a, b⟩ := f2 mc rng
        refine ⟨o, a, fun lib force guess h1 h2 => ?_⟩
        obtain ⟨v, c, d⟩ := b lib force guess h1 h2
        exact ⟨v, c, near_mono d le⟩
      · obtain ⟨o, a, b⟩ := f3 mc rng
        refine ⟨o, a, fun uniq lib guess uselog h1 h2 h3 => ?_⟩
        obtain ⟨v, c, d⟩ := b uniq lib guess uselog h1 h2 h3
        exact ⟨v, c, near_mono d le⟩
      · have hnear := guideFit_near hfit hmod θ η' f1 f2 f3
        have hvl := hnear.1.trans hθ
        refine ⟨_, _, C124_pairwise mc n hn hmod X hX.data m (guideFit_model hfit) brk θ v hθ hvl, Real.sqrt_nonneg _, ?_,
          Real.sqrt_nonneg _, paramDistance_small θ v ε hε (near_mono hnear (hη' ▸ min_le_right _ _))⟩
        rw [pairE_order n v hvl]
        refine h₀ X v ?_ (near_mono hnear (hη' ▸ (min_le_left _ _).trans (min_le_left _ _)))
        rw [← pairE_order n θ hθ]
        exact hX.mono l0
    rw [if_neg (not_not.2 hgood)]
    split_ifs <;> norm_num
  · rw [if_pos hX]
    split_ifs <;> norm_num

/-! ### Triplets -/

/-- The guide's fit of triplets, `MPF(X, model=m, calc_observables=...)`, and the same with `Enumerate`. -/
inductive GuideTripletFit (mc : Machine) (n : ℕ) (X : Data) (L : ℝ) (m : ModelObj) : List ℝ → Prop
  | enumerate (rng o brk root minimize) (guess : Option (List ℝ)) (useRoot v) :
      enumerateInitObs mc (.data n X) (some m) .triplet rng = .ok o → FindsZero root → FindsNull minimize →
      (∀ g, guess = some g → g.length = (orderTuples n 3).length) →
      enumerateSolve brk root minimize o guess none none useRoot = .ok v → GuideTripletFit mc n X L m v
  | mpf (rng o uniq lib) (guess : Option (List ℝ)) (uselog v) :
      mpfObjInit mc (.data n X) (some m) .triplet false false rng = .ok o → UniqSpec uniq →
      FindsBoxMin (orderTuples n 3).length lib → (∀ g, guess = some g → g.length = (orderTuples n 3).length) →
      mpfObjSolve uniq lib o ⟨guess, true, L, uselog⟩ = .ok v → GuideTripletFit mc n X L m v

open scoped Classical in
/-- C124: the guide's experiment with triplets. -/
theorem C124_triplet_guide (n : ℕ) (hn : 3 ≤ n) (h30 : n ≤ 30) (θ x : List ℝ) (hθ : θ.length = (orderTuples n 3).length)
    (L : ℝ) (hL : 0 < L) (hx : BitForm n 3 θ x) (hin : InLimit L x) (ε : ℝ) (hε : 0 < ε) :
    ∃ K, ∀ e, TripletModule n e → ∀ size : ℕ, 0 < size →
      prob (guideData e n size θ) (fun X => ¬ ((TripletEnumerateFinds n θ ε X ∧ TripletMpfFinds n θ ε L X) ∧
        ∀ mc m v, HasTripletModule mc n → IsTriplet mc n m → GuideTripletFit mc n X L m v →
          ∀ brk, ∃ a b, tripletSummary brk n X m θ v = .ok (a, b) ∧ 0 ≤ a ∧ a < ε ∧ 0 ≤ b ∧ b < ε)) ≤ K / size := by
  obtain ⟨η, hη, δ₀, hδ₀, h₀⟩ := meansDistance_small n 3 θ hθ ε hε
  obtain ⟨η', hη'⟩ : ∃ η', η' = min (min η ε) (ε / (θ.length + 1)) := ⟨_, rfl⟩
  have hpos : 0 < η' := by
    rw [hη']
    exact lt_min (lt_min hη hε) (by positivity)
  obtain ⟨δ₁, hδ₁, h₁⟩ := C121_enumerate_finds n hn θ hθ η' hpos
  obtain ⟨δ₂, hδ₂, h₂⟩ := C121_mpf_finds n hn θ x hθ L hL hx hin η' hpos
  obtain ⟨δ, hδe⟩ : ∃ δ, δ = min δ₀ (min δ₁ δ₂) := ⟨_, rfl⟩
  have hδ : 0 < δ := hδe ▸ lt_min hδ₀ (lt_min hδ₁ hδ₂)
  refine ⟨1 / δ ^ 2, fun e he size hs => ?_⟩
  rw [tripletData_eq n hn e he θ hθ]
  have hK := close_guide n (by omega) h30 (orderE n 3 θ) size _ hδ hs
  rw [div_div, mul_comm (δ ^ 2)]
  refine le_trans ?_ hK
  refine (finDist_guideSample n (by omega) h30 _ (boltz_nonneg n (orderE n 3 θ)) (boltz_sum n (orderE n 3 θ)) size).mono
    fun X _ => ?_
  by_cases hX : CloseTo n (orderE n 3 θ) δ X
  · have f1 := h₁ X (closeTo_mono hX (hδe ▸ (min_le_right _ _).trans (min_le_left _ _)))
    have f2 := h₂ X (closeTo_mono hX (hδe ▸ (min_le_right _ _).trans (min_le_right _ _)))
    have le : η' ≤ ε := hη' ▸ (min_le_left _ _).trans (min_le_right _ _)
    have hgood : (TripletEnumerateFinds n θ ε X ∧ TripletMpfFinds n θ ε L X) ∧
        ∀ mc m v, HasTripletModule mc n → IsTriplet mc n m → GuideTripletFit mc n X L m v →
          ∀ brk, ∃ a b, tripletSummary brk n X m θ v = .ok (a, b) ∧ 0 ≤ a ∧ a < ε ∧ 0 ≤ b ∧ b < ε := by
      refine ⟨⟨fun mc rng m hmod hm => ?_, fun mc rng m hm => ?_⟩, fun mc m v hmod hm hfit brk => ?_⟩
      · obtain ⟨o, a, b⟩ := f1 mc rng m hmod hm
        refine ⟨o, a, fun brk root minimize guess useRoot h1 h2 h3 => ?_⟩
        obtain ⟨v, c, d⟩ := b brk root minimize guess useRoot h1 h2 h3
        exact ⟨v, c, near_mono d le⟩
      · obtain ⟨o, a, b⟩ := f2 mc rng m hm
        refine ⟨o, a, fun uniq lib guess uselog h1 h2 h3 => ?_⟩
        obtain ⟨v, c, d⟩ := b uniq lib guess uselog h1 h2 h3
        exact ⟨v, c, near_mono d le⟩
      · have hnear : Near η' v θ := by
          cases hfit with
          | enumerate rng o brk root minimize guess useRoot v h1 hr hmi hg hs =>
            obtain ⟨o', a, b⟩ := f1 mc rng m hmod hm
            obtain rfl := Except.ok.inj (a.symm.trans h1)
            obtain ⟨v', c, d⟩ := b brk root minimize guess useRoot hr hmi hg
            obtain rfl := Except.ok.inj (c.symm.trans hs)
            exact d
          | mpf rng o uniq lib guess uselog v h1 hu hl hg hs =>
            obtain ⟨o', a, b⟩ := f2 mc rng m hm
            obtain rfl := Except.ok.inj (a.symm.trans h1)
            obtain ⟨v', c, d⟩ := b uniq lib guess uselog hu hl hg
            obtain rfl := Except.ok.inj (c.symm.trans hs)
            exact d
        have hvl := hnear.1.trans hθ
        refine ⟨_, _, (C124_triplet mc n hn hmod X (closeTo_data hX) m hm brk θ v hθ hvl).1, Real.sqrt_nonneg _, ?_,
          Real.sqrt_nonneg _, paramDistance_small θ v ε hε (near_mono hnear (hη' ▸ min_le_right _ _))⟩
        exact h₀ X v (closeTo_mono hX (hδe ▸ min_le_left _ _))
          (near_mono hnear (hη' ▸ (min_le_left _ _).trans (min_le_left _ _)))
    rw [if_neg (not_not.2 hgood)]
    split_ifs <;> norm_num
  · rw [if_pos hX]
    split_ifs <;> norm_num

/-! ### Errors -/

/-- C124: without an equation module for the number of spins the summary raises, for every fit. -/
theorem C124_no_module (mc : Machine) (n : ℕ) (X : Data) (hX : SpinData n X) (brk : ℕ → Bool) (θ v : List ℝ) :
    (mc.eqns .ising n = none → ∀ m, IsIsing mc n m → pairSummary brk n X m θ v = .error .attributeError) ∧
    (mc.eqns .triplet n = none → ∀ m, IsTriplet mc n m → tripletSummary brk n X m θ v = .error .typeError) := by
  constructor
  · intro h m hm
    obtain ⟨l, h1, h2⟩ := pairSisj n X hX
    have hk : m.kind = .ising := by
      obtain ⟨a, rng, h1, -⟩ := hm
      exact (modelInv_init h1).kind
    unfold pairSummary summarize ModelObj.calcObservables
    rw [h1]
    dsimp only
    rw [h2]
    dsimp only
    rw [hm.eqns, h, hk]
  · intro h m hm
    unfold tripletSummary summarize ModelObj.calcObservables
    rw [triplet_means n X hX.1 fun s hs => (mem_words.1 (hX.2 s hs)).1]
    dsimp only
    rw [hm.eqns, h, hm.kind]

/-- Non-vacuity of C124: a machine with the module for two spins, a fit of the guide on it to data that contain every state, and
searches that find what they look for. -/
example : ∃ mc m v, HasPairModule mc 2 ∧ SpinData 2 (words [-1, 1] 2) ∧ GuideFit mc 2 (words [-1, 1] 2) 10 m v := by
  classical
  obtain ⟨e, he, -⟩ := pairwise_vec 2 (by norm_num) true
  obtain ⟨mc, hmc⟩ : ∃ mc : Machine, mc.eqns .ising 2 = some e := ⟨⟨true, false, 4, fun _ _ => some e⟩, rfl⟩
  have hX : SpinData 2 (words [-1, 1] 2) := ⟨by decide, fun r h => h⟩
  obtain ⟨m, h1, -⟩ := init_data mc 2 _ hX 0
  obtain ⟨o, h2, h3⟩ := C108_returns mc 2 (by norm_num) ⟨e, he, hmc⟩ _ hX 0
  have h4 : o.model = some m := by rw [Except.ok.inj (h2.symm.trans h1)]
  let root : (List ℝ → Py (List ℝ)) → List ℝ → List ℝ := fun f x0 =>
    if h : ∃ x, x.length = x0.length ∧ f x = .ok (List.replicate x0.length 0) then h.choose else x0
  let minimize : (List ℝ → Py ℝ) → List ℝ → List ℝ := fun f x0 =>
    if h : ∃ x, x.length = x0.length ∧ f x = .ok 0 then h.choose else x0
  have hr : FindsZero root := fun f x0 h => by
    have : root f x0 = h.choose := dif_pos h
    rw [this]
    exact h.choose_spec
  have hm : FindsNull minimize := fun f x0 h => by
    have : minimize f x0 = h.choose := dif_pos h
    rw [this]
    exact h.choose_spec
  obtain ⟨f, g, h5, -⟩ := h3 (fun _ => false) root minimize none none true (by simp)
  exact ⟨mc, m, _, ⟨e, he, hmc⟩, hX, .enumerate 0 o _ root minimize none true m _ h2 h4 hr hm (by simp [GuessFor]) h5⟩

/-- Two spins, all states once, the model with all parameters 0 and true parameters 3, 4, 0: the numbers are 0 and 5. -/
example : meansDistance 2 (orderTuples 2 2) (pairE 2 [0, 0, 0]) (words [-1, 1] 2) = 0 ∧
    paramDistance [3, 4, 0] [0, 0, 0] = 5 := by
  have hz : pairE 2 [0, 0, 0] = fun _ => 0 := by
    funext s
    simp [pairE, isingVecE, isingE, Finset.sum_range_succ, couplingAt, upperPairs]
  constructor
  · unfold meansDistance
    rw [Real.sqrt_eq_zero (sum_sq_nonneg _ _), sum_sq_zero]
    intro t _
    unfold avg expect boltzmann partition
    rw [hz]
    simp only [neg_zero, Real.exp_zero]
    rw [show words ([-1, 1] : List ℤ) 2 = [[-1, -1], [-1, 1], [1, -1], [1, 1]] by decide]
    simp
    ring
  · unfold paramDistance
    simp only [Finset.sum_range_succ, List.length_cons, List.length_nil]
    norm_num
    rw [show (25 : ℝ) = 5 ^ 2 by norm_num]
    exact Real.sqrt_sq (by norm_num)

end Verif.Props
