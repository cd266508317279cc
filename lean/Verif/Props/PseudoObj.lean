/-
C113: `Pseudo`, `ClusterExpansion` and `RegularizedMeanField` from the constructor to the result of `solve`.
-/
import Verif.Lemmas.PseudoObj
import Verif.Props.Attain
import Verif.Props.Cluster

namespace Verif.Props
open Verif Verif.Model Verif.Spec Verif.Lemmas

/-- The library routine finds a smallest point of a function whenever there is one. -/
def FindsMin (lib : (List ℝ → Py (ℝ × List ℝ)) → List ℝ → List ℝ) : Prop :=
  ∀ f x0, (∃ x, IsMinimizer f x0.length x) → IsMinimizer f x0.length (lib f x0)

/-- There is such a routine. -/
theorem findsMin_exists : ∃ lib, FindsMin lib := by
  classical
  refine ⟨fun f x0 => if h : ∃ x, IsMinimizer f x0.length x then h.choose else x0, fun f x0 h => ?_⟩
  dsimp only
  rw [dif_pos h]
  exact h.choose_spec

/-! ### The constructor -/

/-- C113, `Pseudo(X, model)` without helper functions and with any observables: an object, with the Ising helpers, that
holds the sample and the given model or, if there is none, an Ising model. -/
theorem C113_constructor (mc : Machine) (n : ℕ) (X : Data) (hne : X ≠ []) (model : Option ModelObj) (obs : ObsArg) (k rng : ℕ) :
    ∃ m, pseudoInit mc (.data n X) model obs false k rng = .ok ⟨some n, some X, some m, obs, none⟩ ∧
      (∀ m', model = some m' → m = m') ∧ (model = none → m.kind = .ising) := by
  obtain ⟨m, c, h1, h2, h3⟩ := basicSetupObs_data mc n X hne model obs rng
  refine ⟨m, ?_, h2, h3⟩
  unfold pseudoInit
  rw [h1]
  rfl

/-- C113, with helper functions for a Potts model of `k` states: an object exactly if no entry of the sample is larger than
`k-1`. -/
theorem C113_constructor_helpers (mc : Machine) (n : ℕ) (hn : 1 ≤ n) (X : Data) (hne : X ≠ []) (model : Option ModelObj)
    (obs : ObsArg) (k rng : ℕ) :
    ((∀ s ∈ X, ∀ x ∈ s, x ≤ (k : ℤ) - 1) → ∃ m, pseudoInit mc (.data n X) model obs true k rng =
        .ok ⟨some n, some X, some m, obs, some k⟩ ∧ (∀ m', model = some m' → m = m') ∧ (model = none → m.kind = .ising)) ∧
    ((∃ s ∈ X, ∃ x ∈ s, (k : ℤ) - 1 < x) → pseudoInit mc (.data n X) model obs true k rng = .error .assertion) := by
  obtain ⟨m, c, h1, h2, h3⟩ := basicSetupObs_data mc n X hne model obs rng
  have hd : ¬ (n = 0 ∨ X = []) := by
    rintro (h | h)
    · omega
    · exact hne h
  constructor
  · intro h
    refine ⟨m, ?_, h2, h3⟩
    unfold pseudoInit
    rw [h1]
    simp only [if_true, if_neg hd, if_pos h]
    rfl
  · rintro ⟨s, hs, x, hx, hlt⟩
    unfold pseudoInit
    rw [h1]
    simp only [if_true, if_neg hd]
    rw [if_neg]
    intro h
    exact absurd (h s hs x hx) (not_le.2 hlt)

/-- C113, without data: helper functions make the constructor raise, and no object that it makes can be solved. -/
theorem C113_no_data (mc : Machine) (a : SolverArg) (ha : a.rows = none) (model : Option ModelObj) (obs : ObsArg) (k rng : ℕ) :
    (∃ e, pseudoInit mc a model obs true k rng = .error e) ∧
    ∀ o, pseudoInit mc a model obs false k rng = .ok o → ∀ lib args, ∃ e, pseudoSolve lib o args = .error e := by
  have hs : ∀ o, pseudoInit mc a model obs false k rng = .ok o → o.sample = none := by
    intro o ho
    unfold pseudoInit at ho
    rcases h : basicSetupObs mc a model obs rng with e | s
    · rw [h] at ho; cases ho
    · rw [h] at ho
      rw [← Except.ok.inj ho]
      exact ha
  constructor
  · unfold pseudoInit
    rcases h : basicSetupObs mc a model obs rng with e | s
    · exact ⟨e, rfl⟩
    · cases a with
      | data n rows => cases ha
      | nothing => exact ⟨_, rfl⟩
      | size n => exact ⟨_, rfl⟩
  · intro o ho lib args
    have ho := hs o ho
    unfold pseudoSolve
    split_ifs
    · unfold pseudoIsing
      split_ifs
      · exact ⟨_, rfl⟩
      · rcases pseudoGuess o args.guess with e | g
        · exact ⟨e, rfl⟩
        · simp only [ho]; exact ⟨_, rfl⟩
    · unfold pseudoPotts
      rcases pseudoGuess o args.guess with e | g
      · exact ⟨e, rfl⟩
      · simp only [ho]; exact ⟨_, rfl⟩
    · unfold pseudoGeneral
      split_ifs
      · exact ⟨_, rfl⟩
      · rcases pseudoGuess o args.guess with e | g
        · exact ⟨e, rfl⟩
        · simp only [ho]; exact ⟨_, rfl⟩

/-! ### The Ising model -/

/-- The object for a sample, with the Ising helpers and observables, and a model of any class but Potts. -/
def PairObject (n : ℕ) (X : Data) (o : PseudoObj) : Prop :=
  o.n = some n ∧ o.sample = some X ∧ o.obs = .ising ∧ o.k = none ∧ o.kind ≠ some .potts3

theorem guess_ok {n : ℕ} {X : Data} (hX : SpinData n X) {o : PseudoObj} (ho : PairObject n X o) (guess : Option (List ℝ))
    (hg : ∀ g, guess = some g → g.length = n + n * (n - 1) / 2) :
    ∃ g, pseudoGuess o guess = .ok g ∧ g.length = n + n * (n - 1) / 2 ∧ guess.getD (List.replicate (n + n * (n - 1) / 2) 0) = g := by
  cases guess with
  | some g => exact ⟨g, rfl, hg g rfl, rfl⟩
  | none =>
    obtain ⟨s, X', rfl⟩ := List.exists_cons_of_ne_nil hX.1
    have hs := (mem_words.1 (hX.2 s (by simp))).1
    refine ⟨List.replicate (n + n * (n - 1) / 2) 0, ?_, by simp, rfl⟩
    unfold pseudoGuess
    dsimp only
    rw [ho.2.1]
    dsimp only
    rw [ho.2.2.1]
    unfold ObsArg.row
    dsimp only
    rw [isingObservables_eq]
    dsimp only
    rw [pairObs]
    simp [hs, length_upperPairs]

/-- What `solve` does for such an object. -/
theorem solve_pair {n : ℕ} {X : Data} (hX : SpinData n X) {o : PseudoObj} (ho : PairObject n X o)
    (lib : (List ℝ → Py (ℝ × List ℝ)) → List ℝ → List ℝ) (force : Bool) (guess : Option (List ℝ))
    (hg : ∀ g, guess = some g → g.length = n + n * (n - 1) / 2) :
    ∃ g, g.length = n + n * (n - 1) / 2 ∧ pseudoSolve lib o ⟨force, guess, none, none⟩ =
      if o.kind = some .ising ∧ force = false then isingPseudoSolve (optimCall lib) n X g
      else optimCall lib (generalPseudoF n X) g := by
  obtain ⟨g, h1, h2, -⟩ := guess_ok hX ho guess hg
  obtain ⟨a1, a2, a3, a4, a5⟩ := ho
  refine ⟨g, h2, ?_⟩
  unfold pseudoSolve
  dsimp only
  split_ifs
  · unfold pseudoIsing
    simp only [Option.isSome_none, Bool.false_eq_true, or_self, if_false, h1, a1, a2, a4]
  · unfold pseudoGeneral
    simp only [Option.isSome_none, Bool.false_eq_true, or_self, if_false, h1, a1, a2, a4]

theorem optimCall_ok {β : Type*} (lib : (List ℝ → Py β) → List ℝ → List ℝ) (f : List ℝ → Py β) (x0 : List ℝ)
    (h : ∃ v, f x0 = .ok v) : optimCall lib f x0 = .ok (lib f x0) := by
  obtain ⟨v, hv⟩ := h
  unfold optimCall
  rw [hv]

/-- C113. `Pseudo(X).solve()` returns the true parameters: if the sample has the frequencies of the pairwise model with
parameters `θ`, then for a library routine that finds minima, with or without `force_general`, from the default or any other
starting point, and for any model object that is not of class `Potts3`, the result is `θ`. -/
theorem C113_recovers (mc : Machine) (n : ℕ) (hn : 1 ≤ n) (θ : List ℝ) (hθ : θ.length = n + n * (n - 1) / 2) (X : Data)
    (hX : SpinData n X)
    (hdist : ∀ s ∈ words [1, -1] n, (X.count s : ℝ) / X.length = boltzmann (words [1, -1] n) (vecE n θ) s)
    (model : Option ModelObj) (hmodel : ∀ m, model = some m → m.kind ≠ .potts3) (k rng : ℕ) :
    ∃ o, pseudoInit mc (.data n X) model .ising false k rng = .ok o ∧
      ∀ lib, FindsMin lib → ∀ force guess, (∀ g, guess = some g → g.length = n + n * (n - 1) / 2) →
        pseudoSolve lib o ⟨force, guess, none, none⟩ = .ok θ := by
  obtain ⟨m, h1, h2, h3⟩ := C113_constructor mc n X hX.1 model .ising k rng
  refine ⟨_, h1, fun lib hlib force guess hg => ?_⟩
  have hkind : m.kind ≠ .potts3 := by
    cases model with
    | none => rw [h3 rfl]; decide
    | some m' => rw [h2 m' rfl]; exact hmodel m' rfl
  have ho : PairObject n X ⟨some n, some X, some m, .ising, none⟩ :=
    ⟨rfl, rfl, rfl, rfl, by simpa [PseudoObj.kind] using hkind⟩
  obtain ⟨g, hgl, e⟩ := solve_pair hX ho lib force guess hg
  rw [e]
  have hX' : ∀ s ∈ X, s ∈ words [1, -1] n := fun s hs => by
    obtain ⟨a, b⟩ := mem_words.1 (hX.2 s hs)
    exact mem_words.2 ⟨a, fun x hx => by have := b x hx; simp at this ⊢; tauto⟩
  have hpm := spinData_pm hX
  split_ifs
  · refine C77_solve_recovers n hn θ g hθ hgl X hX.1 hX' hdist (optimCall lib) fun r hr x0 hx0 => ?_
    have hXr : ∀ s ∈ X, s.length = n ∧ (s.getD r 0 = 1 ∨ s.getD r 0 = -1) := fun s hs => ⟨(hpm s hs).1, (hpm s hs).2 r hr⟩
    have hmin : IsMinimizer (isingPseudoF n r X g) n (sel θ (spinIx n r)) := by
      refine ⟨by simp [sel, length_spinIx hr], fun y v g1 w g2 hy hv hw => ?_⟩
      obtain ⟨θ', ix', hl', hm'⟩ := C40_every_argument n r hr y hy
      obtain ⟨g', e', -⟩ := C40_conditional_objective n r hr X hXr θ' g hl' hgl y ix' hm'
      obtain ⟨g'', e'', -⟩ := C40_conditional_objective n r hr X hXr θ g hθ hgl _ _ (getMultipliersR_sel hr θ hθ)
      rw [hv] at e''
      rw [hw] at e'
      have a1 := congrArg Prod.fst (Except.ok.inj e'')
      have a2 := congrArg Prod.fst (Except.ok.inj e')
      dsimp only at a1 a2
      rw [a1, a2]
      exact (C77_conditional n r hr θ θ' hθ hl' X hX.1 hX' hdist).1
    have := hlib (isingPseudoF n r X g) x0 ⟨_, by rw [hx0]; exact hmin⟩
    rw [hx0] at this
    refine ⟨_, optimCall_ok lib _ _ ?_, this⟩
    obtain ⟨θ', ix', hl', hm'⟩ := C40_every_argument n r hr x0 hx0
    obtain ⟨g', e', -⟩ := C40_conditional_objective n r hr X hXr θ' g hl' hgl x0 ix' hm'
    exact ⟨_, e'⟩
  · obtain ⟨g1, e1, -⟩ := C40_total_objective n X hpm g hgl
    rw [optimCall_ok lib _ _ ⟨_, e1⟩]
    congr 1
    have hmin : IsMinimizer (generalPseudoF n X) g.length θ := by
      refine ⟨by omega, fun y v g1 w g2 hy hv hw => ?_⟩
      exact (C77_general n θ y hθ (by omega) X hX.1 hX' hdist v w g1 g2 hv hw).1
    obtain ⟨b1, b2⟩ := hlib (generalPseudoF n X) g ⟨θ, hmin⟩
    obtain ⟨g2, e2, -⟩ := C40_total_objective n X hpm θ hθ
    obtain ⟨g3, e3, -⟩ := C40_total_objective n X hpm (lib (generalPseudoF n X) g) (b1.trans hgl)
    exact (C77_general n θ _ hθ (b1.trans hgl) X hX.1 hX' hdist _ _ _ _ e2 e3).2 (b2 θ _ _ _ _ (by omega) e3 e2)

/-- C113, `force_general`: if the pseudolikelihood of the sample has a maximum (see C110), the result is a maximum of it; and
this is also so for a model of class `Triplet`, whose triplet terms are not used. -/
theorem C113_general (n : ℕ) (X : Data) (hX : SpinData n X) (o : PseudoObj) (ho : PairObject n X o) (force : Bool)
    (hk : force = true ∨ o.kind ≠ some .ising)
    (hex : ∀ w : List ℝ, w.length = n + n * (n - 1) / 2 → ¬ StableData n X w)
    (lib : (List ℝ → Py (ℝ × List ℝ)) → List ℝ → List ℝ) (hlib : FindsMin lib) (guess : Option (List ℝ))
    (hg : ∀ g, guess = some g → g.length = n + n * (n - 1) / 2) :
    ∃ x, pseudoSolve lib o ⟨force, guess, none, none⟩ = .ok x ∧ x.length = n + n * (n - 1) / 2 ∧
      ∀ θ : List ℝ, θ.length = n + n * (n - 1) / 2 →
        ((List.range n).map fun r => negCondLogLik (vecE n x) [1, -1] X r).sum ≤
          ((List.range n).map fun r => negCondLogLik (vecE n θ) [1, -1] X r).sum := by
  obtain ⟨g, hgl, e⟩ := solve_pair hX ho lib force guess hg
  have hpm := spinData_pm hX
  rw [e, if_neg (by rintro ⟨a, b⟩; rcases hk with h | h; · rw [b] at h; cases h
                    · exact h a)]
  obtain ⟨g1, e1, -⟩ := C40_total_objective n X hpm g hgl
  rw [optimCall_ok lib _ _ ⟨_, e1⟩]
  obtain ⟨θ0, hθ0⟩ := (C110_pseudo_general n X hX).2 hex
  obtain ⟨b1, b2⟩ := hlib (generalPseudoF n X) g ⟨θ0, by rw [hgl]; exact hθ0⟩
  refine ⟨_, rfl, b1.trans hgl, fun θ hθ => ?_⟩
  obtain ⟨g2, e2, -⟩ := C40_total_objective n X hpm θ hθ
  obtain ⟨g3, e3, -⟩ := C40_total_objective n X hpm (lib (generalPseudoF n X) g) (b1.trans hgl)
  exact b2 θ _ _ _ _ (by omega) e3 e2

/-- C113, the default algorithm for the Ising model: if the conditional likelihood of every spin has a maximum (see C110),
the result has the fields `h_i` of a maximum of the conditional likelihood of spin `i` and as couplings the averages of
those in the maxima for the two spins. -/
theorem C113_spin_by_spin (n : ℕ) (hn : 1 ≤ n) (X : Data) (hX : SpinData n X) (o : PseudoObj) (ho : PairObject n X o)
    (hk : o.kind = some .ising)
    (hex : ∀ r < n, ¬ ∃ w : List ℝ, w.length = n + n * (n - 1) / 2 ∧
      (∀ s ∈ X, pairE n w s ≤ pairE n w (s.set r (-s.getD r 0))) ∧ ∃ s ∈ X, pairE n w s < pairE n w (s.set r (-s.getD r 0)))
    (lib : (List ℝ → Py (ℝ × List ℝ)) → List ℝ → List ℝ) (hlib : FindsMin lib) (guess : Option (List ℝ))
    (hg : ∀ g, guess = some g → g.length = n + n * (n - 1) / 2) :
    ∃ h J : ℕ → List ℝ, (∀ r < n, (h r).length = n ∧ (J r).length = n * (n - 1) / 2 ∧
        ∀ θ : List ℝ, θ.length = n + n * (n - 1) / 2 →
          negCondLogLik (vecE n (h r ++ J r)) [1, -1] X r ≤ negCondLogLik (vecE n θ) [1, -1] X r) ∧
      pseudoSolve lib o ⟨false, guess, none, none⟩ = .ok ((List.range n).map (fun i => (h i).getD i 0) ++
        (upperPairs n).map fun p => (couplingAt n (J p.1) p.1 p.2 + couplingAt n (J p.2) p.1 p.2) / 2) := by
  classical
  obtain ⟨g, hgl, e⟩ := solve_pair hX ho lib false guess hg
  rw [e, if_pos ⟨hk, rfl⟩]
  have hpm := spinData_pm hX
  have hlt : (g.take n).length = n := by simp; omega
  have hld : (g.drop n).length = n * (n - 1) / 2 := by simp; omega
  obtain ⟨M, eM, hMl, hM⟩ := startMat_row n hn (g.take n) (g.drop n) hlt hld
  rw [List.take_append_drop] at eM
  have hXr : ∀ r < n, ∀ s ∈ X, s.length = n ∧ (s.getD r 0 = 1 ∨ s.getD r 0 = -1) := fun r hr s hs =>
    ⟨(hpm s hs).1, (hpm s hs).2 r hr⟩
  have key : ∀ r < n, ∃ θ ix, θ.length = n + n * (n - 1) / 2 ∧
      getMultipliersR n r θ = .ok (lib (isingPseudoF n r X g) (M.getD r []), ix) ∧
      optimCall lib (isingPseudoF n r X g) (M.getD r []) = .ok (lib (isingPseudoF n r X g) (M.getD r [])) ∧
      ∀ θ' : List ℝ, θ'.length = n + n * (n - 1) / 2 →
        negCondLogLik (vecE n θ) [1, -1] X r ≤ negCondLogLik (vecE n θ') [1, -1] X r := by
    intro r hr
    have hl : (M.getD r []).length = n := by rw [hM r hr]; simp
    obtain ⟨m0, hm0⟩ := (C110_pseudo_spin n r hr X hX g hgl).2 (hex r hr)
    obtain ⟨b1, b2⟩ := hlib (isingPseudoF n r X g) (M.getD r []) ⟨m0, by rw [hl]; exact hm0⟩
    rw [hl] at b1 b2
    obtain ⟨θ, ix, c1, c2⟩ := C40_every_argument n r hr _ b1
    refine ⟨θ, ix, c1, c2, optimCall_ok lib _ _ ?_, fun θ' hθ' => ?_⟩
    · obtain ⟨θ1, ix1, d1, d2⟩ := C40_every_argument n r hr _ hl
      obtain ⟨g', e', -⟩ := C40_conditional_objective n r hr X (hXr r hr) θ1 g d1 hgl _ ix1 d2
      exact ⟨_, e'⟩
    · obtain ⟨g', e', -⟩ := C40_conditional_objective n r hr X (hXr r hr) θ g c1 hgl _ ix c2
      obtain ⟨g'', e'', -⟩ := C40_conditional_objective n r hr X (hXr r hr) θ' g hθ' hgl _ _ (getMultipliersR_sel hr θ' hθ')
      exact b2 _ _ _ _ _ (by simp [sel, length_spinIx hr]) e' e''
  choose! T IX h1 h2 h3 h4 using key
  refine ⟨fun r => (T r).take n, fun r => (T r).drop n, fun r hr => ⟨?_, ?_, ?_⟩, ?_⟩
  · rw [List.length_take, h1 r hr]; omega
  · rw [List.length_drop, h1 r hr]; omega
  · rw [List.take_append_drop]; exact h4 r hr
  · unfold isingPseudoSolve
    rw [eM]
    simp only
    rw [mapM_ok _ (fun r => lib (isingPseudoF n r X g) (M.getD r [])) _ fun r hr => h3 r (List.mem_range.1 hr)]
    simp only
    refine Eq.trans ?_ (C76_assembled (K := ℝ) two_ne_zero n hn (fun r => (T r).take n) (fun r => (T r).drop n)
      (fun r hr => by rw [List.length_take, h1 r hr]; omega) (fun r hr => by rw [List.length_drop, h1 r hr]; omega)
      ((List.range n).map fun r => lib (isingPseudoF n r X g) (M.getD r [])) IX fun r hr => ?_)
    · congr!
    · rw [List.take_append_drop, h2 r hr, getD_map_range n _ [] hr]

/-! ### The Potts model -/

/-- C113, a model of class `Potts3` with the helpers for `k` states, for a sample of states `0..k-1`: `solve` hands the library
minus the log-pseudolikelihood plus the cost with its gradient, from the default starting point or any other of the right
length, and returns what it finds; `force_general` does not matter. -/
theorem C113_potts (mc : Machine) (n k : ℕ) (hn : 1 ≤ n) (hk : 2 ≤ k) (X : Data) (hne : X ≠ [])
    (hX : ∀ s ∈ X, s ∈ words (pottsVals k) n) (m : ModelObj) (hm : m.kind = .potts3) (rng : ℕ) :
    ∃ o, pseudoInit mc (.data n X) (some m) (.potts k) true k rng = .ok o ∧
      ∀ lib force guess (cost : List ℝ → ℝ) (costJac : List ℝ → List ℝ),
        (∀ g, guess = some g → g.length = k * n + n * (n - 1) / 2) →
        (∀ θ : List ℝ, θ.length = k * n + n * (n - 1) / 2 → (costJac θ).length = θ.length ∧ ∀ p < θ.length,
          HasDerivAt (fun x => cost (θ.set p x)) ((costJac θ).getD p 0) (θ.getD p 0)) →
        ∃ f : List ℝ → Py (ℝ × List ℝ), pseudoSolve lib o ⟨force, guess, some cost, some costJac⟩ =
            .ok (lib f (guess.getD (List.replicate (k * n + n * (n - 1) / 2) 0))) ∧
          ∀ θ : List ℝ, θ.length = k * n + n * (n - 1) / 2 → ∃ g, f θ =
              .ok (((List.range n).map fun r => negCondLogLik (vecPottsE n k θ) (pottsVals k) X r).sum + cost θ, g) ∧
            g.length = θ.length ∧ ∀ p < θ.length, HasDerivAt (fun x => ((List.range n).map fun r =>
              negCondLogLik (vecPottsE n k (θ.set p x)) (pottsVals k) X r).sum + cost (θ.set p x)) (g.getD p 0) (θ.getD p 0) := by
  have hle : ∀ s ∈ X, ∀ x ∈ s, x ≤ (k : ℤ) - 1 := by
    intro s hs x hx
    have := (mem_words.1 (hX s hs)).2 x hx
    unfold pottsVals at this
    obtain ⟨a, ha, rfl⟩ := List.mem_map.1 this
    have := List.mem_range.1 ha
    omega
  obtain ⟨m', h1, h2, -⟩ := (C113_constructor_helpers mc n hn X hne (some m) (.potts k) k rng).1 hle
  obtain rfl := h2 m rfl
  refine ⟨_, h1, fun lib force guess cost costJac hg hc => ?_⟩
  have hXr : ∀ s ∈ X, s.length = n ∧ ∀ r < n, s.getD r 0 ∈ pottsVals k := fun s hs =>
    ⟨(mem_words.1 (hX s hs)).1, fun r hr => getD_mem_of_words hr (hX s hs)⟩
  have hf : ∀ θ : List ℝ, θ.length = k * n + n * (n - 1) / 2 → ∃ g, pottsPseudoF n k X cost costJac θ =
              .ok (((List.range n).map fun r => negCondLogLik (vecPottsE n k θ) (pottsVals k) X r).sum + cost θ, g) ∧
            g.length = θ.length ∧ ∀ p < θ.length, HasDerivAt (fun x => ((List.range n).map fun r =>
              negCondLogLik (vecPottsE n k (θ.set p x)) (pottsVals k) X r).sum + cost (θ.set p x)) (g.getD p 0) (θ.getD p 0) :=
    fun θ hθ => C41_objective n k hk X hXr θ hθ cost costJac (hc θ hθ).1 (hc θ hθ).2
  refine ⟨pottsPseudoF n k X cost costJac, ?_, hf⟩
  have hguess : pseudoGuess ⟨some n, some X, some m', .potts k, some k⟩ guess =
      .ok (guess.getD (List.replicate (k * n + n * (n - 1) / 2) 0)) := by
    cases guess with
    | some g => rfl
    | none =>
      obtain ⟨s, X', rfl⟩ := List.exists_cons_of_ne_nil hne
      have hs := (mem_words.1 (hX s (by simp))).1
      unfold pseudoGuess ObsArg.row
      dsimp only
      rw [pottsObservables_eq]
      dsimp only
      rw [pottsObs]
      simp [hs, length_upperPairs]
  have hgl : (guess.getD (List.replicate (k * n + n * (n - 1) / 2) 0)).length = k * n + n * (n - 1) / 2 := by
    cases guess with
    | some g => exact hg g rfl
    | none => simp
  unfold pseudoSolve
  rw [if_neg (by simp [PseudoObj.kind, hm]), if_pos (by simp [PseudoObj.kind, hm])]
  unfold pseudoPotts
  rw [hguess]
  dsimp only [pseudoCost]
  obtain ⟨g, e, -⟩ := hf _ hgl
  exact optimCall_ok lib _ _ ⟨_, e⟩

/-- C113, the Potts model is recovered: if the sample has the frequencies of the Potts model with parameters `θ` and the
library routine finds minima, the result of `solve` without cost has the same distribution as `θ`. -/
theorem C113_potts_recovers (mc : Machine) (n k : ℕ) (hn : 1 ≤ n) (hk : 2 ≤ k) (X : Data) (hne : X ≠ [])
    (hX : ∀ s ∈ X, s ∈ words (pottsVals k) n) (m : ModelObj) (hm : m.kind = .potts3) (rng : ℕ) (θ : List ℝ)
    (hθ : θ.length = k * n + n * (n - 1) / 2)
    (hdist : ∀ s ∈ words (pottsVals k) n, (X.count s : ℝ) / X.length =
      boltzmann (words (pottsVals k) n) (vecPottsE n k θ) s) :
    ∃ o, pseudoInit mc (.data n X) (some m) (.potts k) true k rng = .ok o ∧
      ∀ lib, FindsMin lib → ∀ force guess, (∀ g, guess = some g → g.length = k * n + n * (n - 1) / 2) →
        ∃ x, pseudoSolve lib o ⟨force, guess, none, none⟩ = .ok x ∧ x.length = k * n + n * (n - 1) / 2 ∧
          ∀ s ∈ words (pottsVals k) n, boltzmann (words (pottsVals k) n) (vecPottsE n k x) s =
            boltzmann (words (pottsVals k) n) (vecPottsE n k θ) s := by
  have hle : ∀ s ∈ X, ∀ x ∈ s, x ≤ (k : ℤ) - 1 := by
    intro s hs x hx
    have := (mem_words.1 (hX s hs)).2 x hx
    unfold pottsVals at this
    obtain ⟨a, ha, rfl⟩ := List.mem_map.1 this
    have := List.mem_range.1 ha
    omega
  obtain ⟨m', h1, h2, -⟩ := (C113_constructor_helpers mc n hn X hne (some m) (.potts k) k rng).1 hle
  obtain rfl := h2 m rfl
  refine ⟨_, h1, fun lib hlib force guess hg => ?_⟩
  have hXr : ∀ s ∈ X, s.length = n ∧ ∀ r < n, s.getD r 0 ∈ pottsVals k := fun s hs =>
    ⟨(mem_words.1 (hX s hs)).1, fun r hr => getD_mem_of_words hr (hX s hs)⟩
  have hf := fun θ hθ => C41_no_cost n k hk X hXr θ hθ
  have hguess : ∃ g, pseudoGuess ⟨some n, some X, some m', .potts k, some k⟩ guess = .ok g ∧
      g.length = k * n + n * (n - 1) / 2 := by
    cases guess with
    | some g => exact ⟨g, rfl, hg g rfl⟩
    | none =>
      obtain ⟨s, X', rfl⟩ := List.exists_cons_of_ne_nil hne
      have hs := (mem_words.1 (hX s (by simp))).1
      unfold pseudoGuess ObsArg.row
      dsimp only
      rw [pottsObservables_eq]
      refine ⟨_, rfl, ?_⟩
      rw [pottsObs]
      simp [hs, length_upperPairs]
  obtain ⟨g, hg1, hg2⟩ := hguess
  obtain ⟨gr, e, -⟩ := hf g hg2
  have hs : pseudoSolve lib ⟨some n, some X, some m', .potts k, some k⟩ ⟨force, guess, none, none⟩ =
      .ok (lib (pottsPseudoF n k X (fun _ => 0) fun _ => [0]) g) := by
    unfold pseudoSolve
    rw [if_neg (by simp [PseudoObj.kind, hm]), if_pos (by simp [PseudoObj.kind, hm])]
    unfold pseudoPotts
    rw [hg1]
    dsimp only [pseudoCost]
    exact optimCall_ok lib _ _ ⟨_, e⟩
  have hmin : IsMinimizer (pottsPseudoF n k X (fun _ => 0) fun _ => [0]) g.length θ :=
    ⟨by omega, fun y v g1 w g2 hy hv hw =>
      (C77_potts n k hk θ y hθ (by omega) X hne hX hdist v w g1 g2 hv hw).1⟩
  obtain ⟨b1, b2⟩ := hlib _ g ⟨θ, hmin⟩
  refine ⟨_, hs, b1.trans hg2, ?_⟩
  obtain ⟨g2, e2, -⟩ := hf θ hθ
  obtain ⟨g3, e3, -⟩ := hf _ (b1.trans hg2)
  exact (C77_potts n k hk θ _ hθ (b1.trans hg2) X hne hX hdist _ _ _ _ e2 e3).2 (b2 θ _ _ _ _ (by omega) e3 e2)

/-- C113, `Potts3` objects need more than the model: without the helper functions `solve` raises whatever the arguments, and
with them but with the default `calc_observables` it raises unless a starting point is given. -/
theorem C113_potts_raises (mc : Machine) (n k : ℕ) (hn : 1 ≤ n) (hk : 2 ≤ k) (X : Data) (hne : X ≠ [])
    (hX : ∀ s ∈ X, s ∈ words (pottsVals k) n) (m : ModelObj) (hm : m.kind = .potts3) (rng : ℕ) :
    (∀ obs, ∃ o, pseudoInit mc (.data n X) (some m) obs false k rng = .ok o ∧
      ∀ lib args, ∃ e, pseudoSolve lib o args = .error e) ∧
    ∃ o, pseudoInit mc (.data n X) (some m) .ising true k rng = .ok o ∧
      ∀ lib force cost costJac, ∃ e, pseudoSolve lib o ⟨force, none, cost, costJac⟩ = .error e := by
  constructor
  · intro obs
    obtain ⟨m', h1, h2, -⟩ := C113_constructor mc n X hne (some m) obs k rng
    obtain rfl := h2 m rfl
    refine ⟨_, h1, fun lib args => ?_⟩
    unfold pseudoSolve
    rw [if_neg (by simp [PseudoObj.kind, hm]), if_pos (by simp [PseudoObj.kind, hm])]
    unfold pseudoPotts
    rcases pseudoGuess ⟨some n, some X, some m', obs, none⟩ args.guess with e | g
    · exact ⟨e, rfl⟩
    · exact ⟨_, rfl⟩
  · have hle : ∀ s ∈ X, ∀ x ∈ s, x ≤ (k : ℤ) - 1 := by
      intro s hs x hx
      have := (mem_words.1 (hX s hs)).2 x hx
      unfold pottsVals at this
      obtain ⟨a, ha, rfl⟩ := List.mem_map.1 this
      have := List.mem_range.1 ha
      omega
    obtain ⟨m', h1, h2, -⟩ := (C113_constructor_helpers mc n hn X hne (some m) .ising k rng).1 hle
    obtain rfl := h2 m rfl
    refine ⟨_, h1, fun lib force cost costJac => ?_⟩
    unfold pseudoSolve
    rw [if_neg (by simp [PseudoObj.kind, hm]), if_pos (by simp [PseudoObj.kind, hm])]
    unfold pseudoPotts
    have hguess : pseudoGuess ⟨some n, some X, some m', .ising, some k⟩ none =
        .ok (List.replicate (n + n * (n - 1) / 2) 0) := by
      obtain ⟨s, X', rfl⟩ := List.exists_cons_of_ne_nil hne
      have hs := (mem_words.1 (hX s (by simp))).1
      unfold pseudoGuess ObsArg.row
      dsimp only
      rw [isingObservables_eq]
      dsimp only
      rw [pairObs]
      simp [hs, length_upperPairs]
    dsimp only
    rw [hguess]
    dsimp only
    rcases pseudoCost ⟨force, none, cost, costJac⟩ with e | ⟨c, j⟩
    · exact ⟨e, rfl⟩
    · dsimp only
      obtain ⟨e, he⟩ := pottsPseudoF_short hn (by omega : 1 ≤ k) X c j (List.replicate (n + n * (n - 1) / 2) 0) (by
        rw [List.length_replicate]
        have : 2 * n ≤ k * n := Nat.mul_le_mul_right _ hk
        omega)
      exact ⟨e, by unfold optimCall; rw [he]⟩

/-- C113, the cost: without its derivative every object raises; objects whose model is not of class `Potts3` accept neither. -/
theorem C113_cost (lib : (List ℝ → Py (ℝ × List ℝ)) → List ℝ → List ℝ) (o : PseudoObj) (a : PseudoArgs) :
    (a.cost.isSome = true → a.costJac = none → ∃ e, pseudoSolve lib o a = .error e) ∧
    (o.kind ≠ some .potts3 → a.cost.isSome = true ∨ a.costJac.isSome = true → pseudoSolve lib o a = .error .typeError) := by
  have h2 : o.kind ≠ some .potts3 → a.cost.isSome = true ∨ a.costJac.isSome = true → pseudoSolve lib o a = .error .typeError := by
    intro h hc
    unfold pseudoSolve pseudoIsing pseudoGeneral
    rw [if_neg h, if_pos hc]
    split <;> rfl
  refine ⟨fun hc hj => ?_, h2⟩
  by_cases h : o.kind = some .potts3
  · unfold pseudoSolve
    rw [if_neg (by rw [h]; rintro ⟨h', -⟩; cases h'), if_pos h]
    unfold pseudoPotts
    rcases pseudoGuess o a.guess with e | g
    · exact ⟨e, rfl⟩
    · dsimp only
      split
      · split
        · exact ⟨_, rfl⟩
        · have : pseudoCost a = .error .assertion := by
            unfold pseudoCost
            obtain ⟨c, hc⟩ := Option.isSome_iff_exists.1 hc
            rw [hc, hj]
          rw [this]
          exact ⟨_, rfl⟩
      · exact ⟨_, rfl⟩
  · exact ⟨_, h2 h (.inl hc)⟩

/-! ### The other solvers -/

/-- C113, the constructors of `ClusterExpansion` and `RegularizedMeanField` on a sample: an object with a model that has a
sampler, for any size of samples (the second wants one sample at least); without sample and model they raise. -/
theorem C113_sampled (mc : Machine) (n : ℕ) (X : Data) (hne : X ≠ []) (obs : ObsArg) (size rng : ℕ) :
    (∃ o, clusterInit mc (.data n X) none obs size rng = .ok o ∧ o.n = some n ∧ o.sample = some X ∧
      o.model.kind = .ising ∧ o.model.n = n ∧ o.model.sampleSize = size ∧ o.model.sampler.isSome = true ∧
      (0 < size → rmfInit mc (.data n X) none obs size rng = .ok o)) ∧
    rmfInit mc (.data n X) none obs 0 rng = .error .assertion ∧
    clusterInit mc .nothing none obs size rng = .error .attributeError := by
  obtain ⟨m, c, h1, -⟩ := basicSetupObs_data mc n X hne none obs rng
  have hm : solverModel mc n none rng = .ok m := by
    unfold basicSetupObs at h1
    dsimp only at h1
    rcases h : solverModel mc n none rng with e | m'
    · rw [h] at h1; cases h1
    · rw [h] at h1
      dsimp only at h1
      rcases hc : obs.means n X with e | c'
      · rw [hc] at h1; cases h1
      · rw [hc] at h1
        have := Except.ok.inj h1
        simp only [SolverObj.mk.injEq, Option.some.injEq] at this
        rw [this.2.1]
  have hmm : m = ⟨.ising, n, List.replicate (n + n * (n - 1) / 2) 0, mc.eqns .ising n,
      List.replicate (n + n * (n - 1) / 2) 0, rng, none, [], 0, none⟩ := by
    unfold solverModel modelInit at hm
    dsimp only at hm
    rw [zeros_init] at hm
    exact (Except.ok.inj hm).symm
  have h2 : ∃ o, clusterInit mc (.data n X) none obs size rng = .ok o ∧ o.n = some n ∧ o.sample = some X ∧
      o.model.kind = .ising ∧ o.model.n = n ∧ o.model.sampleSize = size ∧ o.model.sampler.isSome = true := by
    unfold clusterInit
    rw [h1, hmm]
    exact ⟨_, rfl, rfl, rfl, rfl, rfl, rfl, rfl⟩
  obtain ⟨o, e, h3, h4, h5, h6, h7, h8⟩ := h2
  refine ⟨⟨o, e, h3, h4, h5, h6, h7, h8, fun hs => ?_⟩, ?_, rfl⟩
  · unfold rmfInit
    rw [if_neg (by omega), e]
  · unfold rmfInit
    rw [if_pos (by omega)]

/-- C113, `ClusterExpansion(X).solve(threshold)` with a negative threshold, from the data to the result: for a sample of
spins in which every state occurs, and a least-squares routine that finds zero residuals, the result reproduces the
magnetisations and correlations of the sample. -/
theorem C113_cluster (mc : Machine) (lsq : (List ℝ → Py (List ℝ)) → List ℝ → Py (List ℝ)) (hlsq : ExactLsq lsq) (n : ℕ)
    (hn : 2 ≤ n) (X : Data) (hw : ∀ r ∈ X, r ∈ words [(-1 : ℤ), 1] n) (hall : ∀ r ∈ words [(-1 : ℤ), 1] n, r ∈ X) (T : ℝ)
    (hT : T < 0) (ns : Option ℕ) (size rng : ℕ) :
    ∃ o x ent levels, clusterInit mc (.data n X) none .ising size rng = .ok o ∧
      clusterObjSolve lsq o T none 0 ns false true = .ok (x, ent, levels) ∧ x.length = n + n * (n - 1) / 2 ∧
      (∀ i < n, expect (words [(-1 : ℤ), 1] n) (vecE n x) (fun s => spins s i) = avg X fun r => (spins r i : ℝ)) ∧
      ∀ i < n, ∀ j < n, expect (words [(-1 : ℤ), 1] n) (vecE n x) (fun s => spins s i * spins s j) =
        avg X fun r => (spins r i * spins r j : ℝ) := by
  have hne : X ≠ [] := by
    have : List.replicate n (1 : ℤ) ∈ X := hall _ (mem_words.2 ⟨by simp, by simp⟩)
    exact List.ne_nil_of_mem this
  obtain ⟨⟨o, e, h3, h4, -⟩, -, -⟩ := C113_sampled mc n X hne .ising size rng
  obtain ⟨M, x, ent, levels, a1, a2, a3, a4, a5, -⟩ := C82_solve lsq hlsq n hn X hw hall T hT ns
  refine ⟨o, x, ent, levels, e, ?_, a3, a4, a5⟩
  unfold clusterObjSolve
  rw [h3, h4]
  dsimp only
  rw [a1]
  exact a2

/-- The hypotheses of C113 can be met: all four states of two spins once, and a model without fields and couplings. -/
example : SpinData 2 (words [-1, 1] 2) ∧ (∀ s ∈ words [1, -1] 2, ((words [-1, 1] 2).count s : ℝ) / (words [-1, 1] 2).length =
    boltzmann (words [1, -1] 2) (vecE 2 [0, 0, 0]) s) ∧ ∃ lib, FindsMin lib := by
  have hE : ∀ s, vecE 2 [0, 0, 0] s = 0 := by
    intro s
    have : couplingAt 2 ([0] : List ℝ) = fun _ _ => 0 := by
      funext i j
      unfold couplingAt
      rcases (upperPairs 2).idxOf (i, j) with _ | m <;> simp
    simp [vecE, isingVecE, isingE, this, Finset.sum_range_succ]
  refine ⟨⟨by decide, fun r hr => hr⟩, fun s hs => ?_, findsMin_exists⟩
  have hc : (words [-1, 1] 2).count s = 1 := by
    revert s; decide
  unfold boltzmann partition
  simp only [hE, hc]
  simp [words]
  norm_num

end Verif.Props
