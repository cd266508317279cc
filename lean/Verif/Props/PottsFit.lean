/-
C122: fits of Potts models by pseudolikelihood. C123: sample a model, fit a model of the same class.
-/
import Verif.Lemmas.PottsFit
import Verif.Lemmas.ModelSample
import Verif.Props.TripletFit

namespace Verif.Props
open Verif Verif.Model Verif.Spec Verif.Lemmas Prog

/-! ### Which parameters are the same model -/

/-- C122. Two vectors of parameters give the same distribution exactly if the couplings and the differences between the fields of
each spin are the same. -/
theorem C122_same_iff (n k : ℕ) (hk : 2 ≤ k) (v w : List ℝ) :
    (∀ s ∈ words (pottsVals k) n, boltzmann (words (pottsVals k) n) (vecPottsE n k v) s =
      boltzmann (words (pottsVals k) n) (vecPottsE n k w) s) ↔ PottsSame n k v w := by
  constructor
  · intro h
    have hc := const_of_boltzmann _ (words_potts_ne n k (by omega)) _ _ h
    refine same_of_diff hk fun s hs r hr a ha => ?_
    rw [hc s hs, hc _ (set_mem_words hs ha)]
  · intro h
    exact boltzmann_of_const _ _ _ (const_of_sets (vals := pottsVals k) (n := n)
      (fun s => vecPottsE n k v s - vecPottsE n k w s) fun r hr s hs a ha => diff_of_same h s hs r hr a ha)

/-- Add `c` to all fields of spin `i`. -/
def addFields (n k i : ℕ) (c : ℝ) (v : List ℝ) : List ℝ :=
  (List.range v.length).map fun p => if p < k * n ∧ p % n = i then v.getD p 0 + c else v.getD p 0

theorem addFields_same (n k i : ℕ) (c : ℝ) (v : List ℝ) (hv : v.length = k * n + n * (n - 1) / 2) :
    PottsSame n k (addFields n k i c v) v := by
  have hget : ∀ p < v.length, (addFields n k i c v).getD p 0 =
      if p < k * n ∧ p % n = i then v.getD p 0 + c else v.getD p 0 := fun p hp => getD_map_range _ _ 0 hp
  constructor
  · intro j hj a ha b hb
    have h1 := field_index_lt ha hj
    have h2 := field_index_lt hb hj
    rw [hget _ (by omega), hget _ (by omega)]
    simp only [h1, h2, true_and, Nat.mul_add_mod_self_right, Nat.mod_eq_of_lt hj]
    split_ifs <;> ring
  · intro p hp
    rw [hget _ (by omega), if_neg (by omega)]

/-- C122. The pseudolikelihood never has exactly one maximum: a constant added to all fields of a spin does not change it (and,
by `C122_same_iff`, does not change the distribution). -/
theorem C122_not_unique (n k i : ℕ) (hk : 1 ≤ k) (hi : i < n) (c : ℝ) (hc : c ≠ 0) (X : Data)
    (hX : ∀ s ∈ X, s ∈ words (pottsVals k) n) (v : List ℝ) (hv : v.length = k * n + n * (n - 1) / 2) :
    (addFields n k i c v).length = k * n + n * (n - 1) / 2 ∧ addFields n k i c v ≠ v ∧
      PottsSame n k (addFields n k i c v) v ∧ pottsNegPL n k X (addFields n k i c v) = pottsNegPL n k X v := by
  have hs := addFields_same n k i c v hv
  refine ⟨by simp [addFields, hv], fun h => ?_, hs, pottsNegPL_same hX hs⟩
  have h1 := field_index_lt hk hi
  have e : (addFields n k i c v).getD (0 * n + i) 0 = v.getD (0 * n + i) 0 + c := by
    unfold addFields
    rw [getD_map_range _ _ 0 (by omega), if_pos ⟨h1, by simp [Nat.mod_eq_of_lt hi]⟩]
  rw [h] at e
  exact hc (by linarith)

/-! ### When there is a maximum -/

/-- C122. The pseudolikelihood has a maximum exactly if there are no parameters for which no change of one spin lowers the
energy of a state of the sample and some change raises it. -/
theorem C122_exists_iff (n k : ℕ) (X : Data) (hX : ∀ s ∈ X, s ∈ words (pottsVals k) n) :
    (∃ v : List ℝ, v.length = k * n + n * (n - 1) / 2 ∧ ∀ w : List ℝ, w.length = k * n + n * (n - 1) / 2 →
      pottsNegPL n k X v ≤ pottsNegPL n k X w) ↔
    ∀ w : List ℝ, w.length = k * n + n * (n - 1) / 2 → ¬ PottsStable n k X w :=
  potts_attained_iff n k hX

/-- C122. If all states are in the sample, there is a maximum, and all maxima are the same model. -/
theorem C122_full_support (n k : ℕ) (hk : 2 ≤ k) (X : Data) (hX : ∀ s ∈ X, s ∈ words (pottsVals k) n)
    (hfull : ∀ s ∈ words (pottsVals k) n, s ∈ X) :
    (∀ w : List ℝ, ¬ PottsStable n k X w) ∧
    ∀ v w : List ℝ, v.length = k * n + n * (n - 1) / 2 → w.length = k * n + n * (n - 1) / 2 →
      (∀ u : List ℝ, u.length = k * n + n * (n - 1) / 2 → pottsNegPL n k X v ≤ pottsNegPL n k X u) →
      (pottsNegPL n k X w ≤ pottsNegPL n k X v ↔ PottsSame n k w v) := by
  constructor
  · rintro w ⟨h1, s, hs, r, hr, a, ha, hlt⟩
    have hw := hX s hs
    have h2 := h1 _ (hfull _ (set_mem_words (r := r) hw ha)) r hr _ (getD_mem_of_words hr hw)
    rw [List.set_set, set_self s r] at h2
    exact absurd hlt (not_lt.2 h2)
  · intro v w hv hw hmin
    constructor
    · intro h
      have := (potts_minima n k hX v w hv hw hmin).1 h
      exact same_of_diff hk fun s hs r hr a ha => this s (hfull s hs) r hr a ha
    · intro h
      rw [pottsNegPL_same hX h]

/-- C122. A spin that never takes one of the values: no maximum. -/
theorem C122_missing_value (n k r a : ℕ) (hr : r < n) (ha : a < k) (X : Data) (hne : X ≠ [])
    (hX : ∀ s ∈ X, s ∈ words (pottsVals k) n) (hmiss : ∀ s ∈ X, s.getD r 0 ≠ (a : ℤ)) :
    ¬ ∃ v : List ℝ, v.length = k * n + n * (n - 1) / 2 ∧ ∀ w : List ℝ, w.length = k * n + n * (n - 1) / 2 →
      pottsNegPL n k X v ≤ pottsNegPL n k X w := by
  rw [C122_exists_iff n k X hX]
  intro h
  have hidx := field_index_lt ha hr
  obtain ⟨w, hw⟩ : ∃ w, w = (List.replicate (k * n + n * (n - 1) / 2) (0 : ℝ)).set (a * n + r) (-1) := ⟨_, rfl⟩
  have hwl : w.length = k * n + n * (n - 1) / 2 := by simp [hw]
  have hwg : ∀ p, w.getD p 0 = if p = a * n + r then -1 else 0 := by
    intro p
    rw [hw]
    by_cases hp : p = a * n + r
    · rw [if_pos hp, hp]
      rw [List.getD_eq_getElem _ _ (by simp; omega)]
      simp
    · rw [if_neg hp]
      by_cases hl : p < k * n + n * (n - 1) / 2
      · rw [List.getD_eq_getElem _ _ (by simpa using hl)]
        simp [Ne.symm hp]
      · rw [List.getD_eq_default _ _ (by simpa using hl)]
  have hcoup : ∀ i j, i ≠ j → i < n → j < n → couplingOf n (w.drop (k * n)) i j = 0 := by
    intro i j hij hi hj
    unfold couplingOf
    have m1 : min i j < max i j := by omega
    have m2 : max i j < n := by omega
    obtain ⟨p, hp, e, -⟩ := getD_coupling (k := k) m1 m2 w
    rw [e, hwg, if_neg (by omega)]
  have hdiff : ∀ s ∈ X, ∀ i < n, ∀ x < k, ∀ b < k, s.getD i 0 = (x : ℤ) →
      vecPottsE n k w (s.set i (b : ℤ)) - vecPottsE n k w s = -(w.getD (b * n + i) 0 - w.getD (x * n + i) 0) := by
    intro s hs i hi x hx b hb hsx
    have e := potts_diff hi w s (mem_words.1 (hX s hs)).1 x b hx hb hsx
    rw [Finset.sum_eq_zero fun j hj => ?_, add_zero] at e
    · linarith
    · by_cases hji : j = i
      · rw [if_pos hji]
      · rw [if_neg hji, hcoup i j (Ne.symm hji) hi (Finset.mem_range.1 hj)]
        simp
  refine h w hwl ⟨fun s hs i hi b hbv => ?_, ?_⟩
  · obtain ⟨b, hb, rfl⟩ := mem_pottsVals.1 hbv
    obtain ⟨x, hx, hsx⟩ := mem_pottsVals.1 (getD_mem_of_words hi (hX s hs))
    have e := hdiff s hs i hi x hx b hb hsx
    have h1 : w.getD (x * n + i) 0 = 0 := by
      rw [hwg, if_neg]
      intro heq
      have e1 := congrArg (· % n) heq
      simp only [Nat.mul_add_mod_self_right, Nat.mod_eq_of_lt hi, Nat.mod_eq_of_lt hr] at e1
      subst e1
      have hn : 0 < n := by omega
      have : x = a := Nat.eq_of_mul_eq_mul_right hn (by omega)
      exact hmiss s hs (by rw [hsx, this])
    have h2 : w.getD (b * n + i) 0 ≤ 0 := by
      rw [hwg]
      split_ifs <;> norm_num
    linarith
  · obtain ⟨s, hs⟩ := List.exists_mem_of_ne_nil X hne
    obtain ⟨x, hx, hsx⟩ := mem_pottsVals.1 (getD_mem_of_words hr (hX s hs))
    refine ⟨s, hs, r, hr, a, mem_pottsVals.2 ⟨a, ha, rfl⟩, ?_⟩
    have e := hdiff s hs r hr x hx a ha hsx
    have h1 : w.getD (x * n + r) 0 = 0 := by
      rw [hwg, if_neg]
      intro heq
      have hn : 0 < n := by omega
      have : x = a := Nat.eq_of_mul_eq_mul_right hn (by omega)
      exact hmiss s hs (by rw [hsx, this])
    have h2 : w.getD (a * n + r) 0 = -1 := by rw [hwg, if_pos rfl]
    rw [h1, h2] at e
    linarith

/-! ### `Pseudo` -/

theorem potts_solve (mc : Machine) (n k : ℕ) (hn : 1 ≤ n) (hk : 2 ≤ k) (X : Data) (hne : X ≠ [])
    (hX : ∀ s ∈ X, s ∈ words (pottsVals k) n) (m : ModelObj) (hm : m.kind = .potts3) (rng : ℕ) :
    ∃ o, pseudoInit mc (.data n X) (some m) (.potts k) true k rng = .ok o ∧
      ∀ lib force guess, (∀ g, guess = some g → g.length = k * n + n * (n - 1) / 2) →
        ∃ f : List ℝ → Py (ℝ × List ℝ), pseudoSolve lib o ⟨force, guess, none, none⟩ =
            .ok (lib f (guess.getD (List.replicate (k * n + n * (n - 1) / 2) 0))) ∧
          ∀ θ : List ℝ, θ.length = k * n + n * (n - 1) / 2 → ∃ g, f θ = .ok (pottsNegPL n k X θ, g) := by
  have hle : ∀ s ∈ X, ∀ x ∈ s, x ≤ (k : ℤ) - 1 := by
    intro s hs x hx
    obtain ⟨a, ha, rfl⟩ := mem_pottsVals.1 ((mem_words.1 (hX s hs)).2 x hx)
    omega
  obtain ⟨m', h1, h2, -⟩ := (C113_constructor_helpers mc n hn X hne (some m) (.potts k) k rng).1 hle
  obtain rfl := h2 m rfl
  refine ⟨_, h1, fun lib force guess hg => ?_⟩
  have hXr : ∀ s ∈ X, s.length = n ∧ ∀ r < n, s.getD r 0 ∈ pottsVals k := fun s hs =>
    ⟨(mem_words.1 (hX s hs)).1, fun r hr => getD_mem_of_words hr (hX s hs)⟩
  have hf : ∀ θ : List ℝ, θ.length = k * n + n * (n - 1) / 2 →
      ∃ g, pottsPseudoF n k X (fun _ => 0) (fun _ => [0]) θ = .ok (pottsNegPL n k X θ, g) := fun θ hθ => by
    obtain ⟨g, e, -⟩ := C41_no_cost n k hk X hXr θ hθ
    exact ⟨g, e⟩
  refine ⟨pottsPseudoF n k X (fun _ => 0) fun _ => [0], ?_, hf⟩
  have hguess : pseudoGuess ⟨some n, some X, some m', .potts k, some k⟩ guess =
      .ok (guess.getD (List.replicate (k * n + n * (n - 1) / 2) 0)) := by
    cases guess with
    | some g => rfl
    | none =>
      obtain ⟨s, X', rfl⟩ := List.exists_cons_of_ne_nil hne
      have hs := (mem_words.1 (hX s (by simp))).1
      unfold pseudoGuess ObsArg.row
      dsimp only
      rw [pottsObservables_eq]
      dsimp only
      rw [pottsObs]
      simp [hs, length_upperPairs]
  have hgl : (guess.getD (List.replicate (k * n + n * (n - 1) / 2) 0)).length = k * n + n * (n - 1) / 2 := by
    cases guess with
    | some g => exact hg g rfl
    | none => simp
  unfold pseudoSolve
  rw [if_neg (by simp [PseudoObj.kind, hm]), if_pos (by simp [PseudoObj.kind, hm])]
  unfold pseudoPotts
  rw [hguess]
  dsimp only [pseudoCost]
  obtain ⟨g, e⟩ := hf _ hgl
  exact optimCall_ok lib _ _ ⟨_, e⟩

/-- C122. `Pseudo` with a model of class `Potts3` and the helper functions for `k` states: if the pseudolikelihood of the sample
has a maximum (`C122_exists_iff`), `solve` without cost returns a maximum of it. -/
theorem C122_pseudo (mc : Machine) (n k : ℕ) (hn : 1 ≤ n) (hk : 2 ≤ k) (X : Data) (hne : X ≠ [])
    (hX : ∀ s ∈ X, s ∈ words (pottsVals k) n) (hex : ∀ w : List ℝ, w.length = k * n + n * (n - 1) / 2 → ¬ PottsStable n k X w)
    (m : ModelObj) (hm : m.kind = .potts3) (rng : ℕ) :
    ∃ o, pseudoInit mc (.data n X) (some m) (.potts k) true k rng = .ok o ∧
      ∀ lib, FindsMin lib → ∀ force guess, (∀ g, guess = some g → g.length = k * n + n * (n - 1) / 2) →
        ∃ v, pseudoSolve lib o ⟨force, guess, none, none⟩ = .ok v ∧ v.length = k * n + n * (n - 1) / 2 ∧
          ∀ w : List ℝ, w.length = k * n + n * (n - 1) / 2 → pottsNegPL n k X v ≤ pottsNegPL n k X w := by
  obtain ⟨o, h1, h2⟩ := potts_solve mc n k hn hk X hne hX m hm rng
  refine ⟨o, h1, fun lib hlib force guess hg => ?_⟩
  obtain ⟨f, e, hf⟩ := h2 lib force guess hg
  have hgl : (guess.getD (List.replicate (k * n + n * (n - 1) / 2) 0)).length = k * n + n * (n - 1) / 2 := by
    cases guess with
    | some g => exact hg g rfl
    | none => simp
  obtain ⟨v0, hv0, hmin0⟩ := (C122_exists_iff n k X hX).2 hex
  have hm0 : IsMinimizer f (guess.getD (List.replicate (k * n + n * (n - 1) / 2) 0)).length v0 := by
    refine ⟨hv0.trans hgl.symm, fun y a g1 b g2 hy ha hb => ?_⟩
    obtain ⟨g3, e3⟩ := hf v0 hv0
    obtain ⟨g4, e4⟩ := hf y (hy.trans hgl)
    rw [ha] at e3
    rw [hb] at e4
    have a1 := congrArg Prod.fst (Except.ok.inj e3)
    have a2 := congrArg Prod.fst (Except.ok.inj e4)
    dsimp only at a1 a2
    rw [a1, a2]
    exact hmin0 y (hy.trans hgl)
  obtain ⟨b1, b2⟩ := hlib f _ ⟨v0, hm0⟩
  refine ⟨_, e, b1.trans hgl, fun w hw => ?_⟩
  obtain ⟨g3, e3⟩ := hf _ (b1.trans hgl)
  obtain ⟨g4, e4⟩ := hf w hw
  exact b2 w _ _ _ _ (hw.trans hgl.symm) e3 e4

/-! ### Samples with nearly the right frequencies -/

theorem pottsCloseTo_mono {n k : ℕ} {θ : List ℝ} {δ δ' : ℝ} {X : Data} (h : PottsCloseTo n k θ δ X) (hd : δ ≤ δ') :
    PottsCloseTo n k θ δ' X :=
  ⟨h.1, h.2.1, fun s hs => (h.2.2 s hs).trans_le hd⟩

theorem potts_full (n k : ℕ) (hk : 1 ≤ k) (θ : List ℝ) :
    ∃ δ, 0 < δ ∧ ∀ X, PottsCloseTo n k θ δ X → ∀ s ∈ words (pottsVals k) n, s ∈ X := by
  obtain ⟨S, hS⟩ : ∃ S, S = words (pottsVals k) n := ⟨_, rfl⟩
  have hSn : S ≠ [] := hS ▸ words_potts_ne n k hk
  unfold PottsCloseTo
  rw [← hS]
  obtain ⟨s0, hs0⟩ := List.exists_mem_of_ne_nil _ hSn
  obtain ⟨m, hm, hmin⟩ := S.toFinset.exists_min_image (boltzmann S (vecPottsE n k θ)) ⟨s0, List.mem_toFinset.2 hs0⟩
  refine ⟨boltzmann S (vecPottsE n k θ) m, boltzmann_pos S _ hSn m, fun X h s hs => ?_⟩
  by_contra hc
  have := h.2.2 s hs
  rw [List.count_eq_zero_of_not_mem hc, Nat.cast_zero, zero_div, zero_sub, abs_neg,
    abs_of_pos (boltzmann_pos S _ hSn s)] at this
  exact absurd (hmin s (List.mem_toFinset.2 hs)) (not_le.2 this)

/-- C122. If the frequencies of the states in a sample are close enough to their probabilities in the Potts model with parameters
`θ`, the pseudolikelihood has a maximum, and for every maximum the couplings and the differences between the fields of a spin
are within `ε` of those of `θ`. -/
theorem C122_pseudolikelihood (n k : ℕ) (hk : 2 ≤ k) (θ : List ℝ) (hθ : θ.length = k * n + n * (n - 1) / 2) (ε : ℝ) (hε : 0 < ε) :
    ∃ δ, 0 < δ ∧ ∀ X, PottsCloseTo n k θ δ X → (∀ w : List ℝ, ¬ PottsStable n k X w) ∧
      ∀ v : List ℝ, v.length = k * n + n * (n - 1) / 2 → (∀ w : List ℝ, w.length = k * n + n * (n - 1) / 2 →
        pottsNegPL n k X v ≤ pottsNegPL n k X w) → PottsNear n k ε v θ := by
  obtain ⟨δ₁, hδ₁, h₁⟩ := potts_full n k (by omega) θ
  obtain ⟨δ₂, hδ₂, h₂⟩ := potts_stable n k hk θ hθ ε hε
  refine ⟨min δ₁ δ₂, lt_min hδ₁ hδ₂, fun X hX => ⟨?_, fun v hv hmin => ?_⟩⟩
  · exact (C122_full_support n k hk X hX.2.1 (h₁ X (pottsCloseTo_mono hX (min_le_left _ _)))).1
  · exact h₂ X (pottsCloseTo_mono hX (min_le_right _ _)) v hv (hmin θ hθ)

/-- `Pseudo(X, model=Potts3(...), calc_observables=..., get_multipliers_r=..., calc_observables_r=..., k=k).solve(...)`, with the
functions of `define_potts_helper_functions(k)`, returns parameters whose couplings and field differences are within `ε` of those of `θ`. -/
def PottsPseudoFinds (n k : ℕ) (θ : List ℝ) (ε : ℝ) (X : List (List ℤ)) : Prop :=
  ∀ mc rng m, m.kind = .potts3 → ∃ o, pseudoInit mc (.data n X) (some m) (.potts k) true k rng = .ok o ∧
    ∀ lib force guess, FindsMin lib → (∀ g, guess = some g → g.length = k * n + n * (n - 1) / 2) →
      ∃ v, pseudoSolve lib o ⟨force, guess, none, none⟩ = .ok v ∧ PottsNear n k ε v θ

/-- C122, `Pseudo` for such samples. -/
theorem C122_pseudo_finds (n k : ℕ) (hn : 1 ≤ n) (hk : 2 ≤ k) (θ : List ℝ) (hθ : θ.length = k * n + n * (n - 1) / 2) (ε : ℝ)
    (hε : 0 < ε) : ∃ δ, 0 < δ ∧ ∀ X, PottsCloseTo n k θ δ X → PottsPseudoFinds n k θ ε X := by
  obtain ⟨δ, hδ, h⟩ := C122_pseudolikelihood n k hk θ hθ ε hε
  refine ⟨δ, hδ, fun X hX mc rng m hm => ?_⟩
  obtain ⟨h1, h2⟩ := h X hX
  obtain ⟨o, e, ho⟩ := C122_pseudo mc n k hn hk X hX.1 hX.2.1 (fun w _ => h1 w) m hm rng
  refine ⟨o, e, fun lib force guess hlib hg => ?_⟩
  obtain ⟨v, ev, hv, hmin⟩ := ho lib hlib force guess hg
  exact ⟨v, ev, h2 v hv hmin⟩

/-! ### Sample a model, fit a model of the same class -/

/-- The model object `o` of class `k` with `n` spins has a sampler that can be used for parameters `θ` and `m` samples: as many
parameters as when the sampler was made; for the compiled sampler of `Potts3`, parallel sampling with at least three processors
and at least as many samples as processors; for sequential sampling, no states kept from an earlier call. -/
def CanSample (mc : Machine) (k : ModelKind) (n : ℕ) (θ : List ℝ) (m : ℕ) (parallel : Bool) (o : ModelObj) : Prop :=
  (∃ a, Reached mc k a o) ∧ o.n = n ∧ ∃ s, o.sampler = some s ∧ s.theta.length = θ.length ∧
    (s.compiled = true → k = .potts3 → parallel = true ∧ 3 ≤ mc.cpus ∧ mc.cpus ≤ m) ∧ (parallel = false → s.replicas = none)

open scoped Classical in
theorem fit_sample (k : ModelKind) (n : ℕ) (hn : 0 < n) (θ : List ℝ) (ht : θ.length = paramCount k n)
    (hx : k ≠ .potts3 → ∃ x ∈ θ, x ≠ 0) (δ : ℝ) (hδ : 0 < δ) (P : List (List ℤ) → Prop)
    (hP : ∀ X, X ≠ [] → (∀ r ∈ X, r ∈ words (alphabet k) n) → (∀ t ∈ words (alphabet k) n, |(X.count t : ℝ) / X.length -
      boltzmann (words (alphabet k) n) (modelEnergy k n θ) t| < δ) → P X) :
    ∃ K, ∀ (mc : Machine), 0 < mc.cpus → ∀ (o : ModelObj) (multipliers : Option (List ℝ)) (size : Option ℕ) (nIters : ℕ)
      (burnIn : Option ℕ) (parallel : Bool) (m : ℕ), CanSample mc k n θ m parallel o → multipliers.getD o.multipliers = θ →
      m = wantedSize size o.sampleSize → 0 < m → 0 < nIters →
      prob (o.generateSample mc nIters burnIn multipliers size none parallel) (fun o' => ¬ P (o'.sample.getD [])) ≤
        (if parallel then (mc.cpus : ℝ) else 1) * K / m := by
  obtain ⟨K, hK⟩ := model_close k n hn θ ht hx δ hδ
  refine ⟨K, fun mc hc o multipliers size nIters burnIn parallel m hcan hmul hm hm0 hk => ?_⟩
  obtain ⟨⟨a, ha⟩, hon, s, hs, hl, hpo, hkept⟩ := hcan
  obtain ⟨hfin, hle⟩ := hK mc hc a o s ha hon hs hl multipliers size nIters burnIn parallel m hmul hm hm0 hk hpo hkept
  refine le_trans ?_ hle
  refine hfin.mono fun o' _ => ?_
  split_ifs with h1 h2
  · norm_num
  · exact absurd (hP _ (not_not.1 h2).1 (not_not.1 h2).2.1 (not_not.1 h2).2.2) h1
  · norm_num
  · norm_num

open scoped Classical in
/-- C122. Draw a sample from a `Potts3` model with parameters `θ` by `generate_sample`, and fit a `Potts3` model to it with `Pseudo`:
the probability that the fit raises, or that a coupling or field difference is off by `ε` or more, is at most `K` divided by the
number of samples (times the number of processors, if the sampling is parallel), for every number of iterations between
samples but 0 and every burn-in. The search is assumed to find a smallest point, if there is one. -/
theorem C122_sample_and_fit (n : ℕ) (hn : 1 ≤ n) (θ : List ℝ) (hθ : θ.length = 3 * n + n * (n - 1) / 2) (ε : ℝ) (hε : 0 < ε) :
    ∃ K, ∀ (mc : Machine), 0 < mc.cpus → ∀ (o : ModelObj) (multipliers : Option (List ℝ)) (size : Option ℕ) (nIters : ℕ)
      (burnIn : Option ℕ) (parallel : Bool) (m : ℕ), CanSample mc .potts3 n θ m parallel o → multipliers.getD o.multipliers = θ →
      m = wantedSize size o.sampleSize → 0 < m → 0 < nIters →
      prob (o.generateSample mc nIters burnIn multipliers size none parallel)
        (fun o' => ¬ PottsPseudoFinds n 3 θ ε (o'.sample.getD [])) ≤ (if parallel then (mc.cpus : ℝ) else 1) * K / m := by
  obtain ⟨δ, hδ, h⟩ := C122_pseudo_finds n 3 hn (by norm_num) θ hθ ε hε
  exact fit_sample .potts3 n hn θ hθ (by simp) δ hδ _ fun X h1 h2 h3 => h X ⟨h1, h2, h3⟩

open scoped Classical in
/-- C123. The same for an `Ising` model with parameters `θ`, not all zero, and fits with `Enumerate`, `Pseudo` and `MPF`. -/
theorem C123_ising (n : ℕ) (hn : 1 ≤ n) (θ : List ℝ) (hθ : θ.length = n + n * (n - 1) / 2)
    (hx : ∃ x ∈ θ, x ≠ 0) (L : ℝ) (hL : 0 < L) (hin : InLimit L (bitParams n θ)) (ε : ℝ) (hε : 0 < ε) :
    ∃ K, ∀ (mc : Machine), 0 < mc.cpus → ∀ (o : ModelObj) (multipliers : Option (List ℝ)) (size : Option ℕ) (nIters : ℕ)
      (burnIn : Option ℕ) (parallel : Bool) (m : ℕ), CanSample mc .ising n θ m parallel o → multipliers.getD o.multipliers = θ →
      m = wantedSize size o.sampleSize → 0 < m → 0 < nIters →
      prob (o.generateSample mc nIters burnIn multipliers size none parallel) (fun o' =>
        ¬ (EnumerateFinds n θ ε (o'.sample.getD []) ∧ PseudoFinds n θ ε (o'.sample.getD []) ∧
          MpfFinds n θ ε L (o'.sample.getD []))) ≤ (if parallel then (mc.cpus : ℝ) else 1) * K / m := by
  obtain ⟨δ₁, hδ₁, h₁⟩ := C119_enumerate n hn θ hθ ε hε
  obtain ⟨δ₂, hδ₂, h₂⟩ := C119_pseudo n hn θ hθ ε hε
  obtain ⟨δ₃, hδ₃, h₃⟩ := C119_mpf n hn θ hθ L hL hin ε hε
  obtain ⟨K, hK⟩ := fit_sample .ising n hn θ hθ (fun _ => hx) (min δ₁ (min δ₂ δ₃)) (lt_min hδ₁ (lt_min hδ₂ hδ₃))
    (fun X => EnumerateFinds n θ ε X ∧ PseudoFinds n θ ε X ∧ MpfFinds n θ ε L X) fun X a b c => by
    have hX : CloseFreq n θ (min δ₁ (min δ₂ δ₃)) X := ⟨a, b, c⟩
    exact ⟨h₁ X (hX.mono (min_le_left _ _)), h₂ X (hX.mono ((min_le_right _ _).trans (min_le_left _ _))),
      h₃ X (hX.mono ((min_le_right _ _).trans (min_le_right _ _)))⟩
  refine ⟨K, fun mc hc o multipliers size nIters burnIn parallel m h1 h2 h3 h4 h5 => ?_⟩
  convert hK mc hc o multipliers size nIters burnIn parallel m h1 h2 h3 h4 h5

theorem triplet_modelEnergy (n : ℕ) (θ : List ℝ) (hθ : θ.length = paramCount .triplet n) :
    modelEnergy .triplet n θ = orderE n 3 θ := by
  replace hθ : θ.length = n + n * (n - 1) / 2 + n.choose 3 := hθ
  funext s
  have hfl : [θ.take n, (θ.drop n).take (n * (n - 1) / 2), θ.drop (n + n * (n - 1) / 2)].flatten = θ := by
    simp only [List.flatten_cons, List.flatten_nil, List.append_nil]
    rw [← List.drop_drop, List.take_append_drop, List.take_append_drop]
  have hfit : ParamsFit (allOrders n 3) [θ.take n, (θ.drop n).take (n * (n - 1) / 2), θ.drop (n + n * (n - 1) / 2)] := by
    have := paramsFit_allOrders n [θ.take n, (θ.drop n).take (n * (n - 1) / 2), θ.drop (n + n * (n - 1) / 2)] (by
      intro i hi
      simp only [List.length_cons, List.length_nil] at hi
      rw [length_tuples]
      interval_cases i <;> simp [hθ, Nat.choose_two_right] <;> omega)
    exact this
  have h := orderE_groupE n 3 _ hfit s
  rw [hfl] at h
  rw [← h]
  exact (groupE_allOrders n [θ.take n, (θ.drop n).take (n * (n - 1) / 2), θ.drop (n + n * (n - 1) / 2)] (spins s)).symm

open scoped Classical in
/-- C123. The same for a `Triplet` model, fitted with `Enumerate` and `MPF`. -/
theorem C123_triplet (n : ℕ) (hn : 3 ≤ n) (θ x : List ℝ) (hθ : θ.length = (orderTuples n 3).length)
    (hx : ∃ x ∈ θ, x ≠ 0) (L : ℝ) (hL : 0 < L) (hbit : BitForm n 3 θ x) (hin : InLimit L x) (ε : ℝ) (hε : 0 < ε) :
    ∃ K, ∀ (mc : Machine), 0 < mc.cpus → ∀ (o : ModelObj) (multipliers : Option (List ℝ)) (size : Option ℕ) (nIters : ℕ)
      (burnIn : Option ℕ) (parallel : Bool) (m : ℕ), CanSample mc .triplet n θ m parallel o → multipliers.getD o.multipliers = θ →
      m = wantedSize size o.sampleSize → 0 < m → 0 < nIters →
      prob (o.generateSample mc nIters burnIn multipliers size none parallel) (fun o' =>
        ¬ (TripletEnumerateFinds n θ ε (o'.sample.getD []) ∧ TripletMpfFinds n θ ε L (o'.sample.getD []))) ≤
          (if parallel then (mc.cpus : ℝ) else 1) * K / m := by
  obtain ⟨δ₁, hδ₁, h₁⟩ := C121_enumerate_finds n hn θ hθ ε hε
  obtain ⟨δ₂, hδ₂, h₂⟩ := C121_mpf_finds n hn θ x hθ L hL hbit hin ε hε
  have hp : θ.length = paramCount .triplet n := by
    rw [hθ, length_orderTuples_three, ← choose_three]
    rfl
  obtain ⟨K, hK⟩ := fit_sample .triplet n (by omega) θ hp (fun _ => hx) (min δ₁ δ₂) (lt_min hδ₁ hδ₂)
    (fun X => TripletEnumerateFinds n θ ε X ∧ TripletMpfFinds n θ ε L X) fun X a b c => by
    have hX : CloseTo n (orderE n 3 θ) (min δ₁ δ₂) X := by
      rw [← triplet_modelEnergy n θ hp]
      exact ⟨a, b, c⟩
    exact ⟨h₁ X (closeTo_mono hX (min_le_left _ _)), h₂ X (closeTo_mono hX (min_le_right _ _))⟩
  refine ⟨K, fun mc hc o multipliers size nIters burnIn parallel m h1 h2 h3 h4 h5 => ?_⟩
  convert hK mc hc o multipliers size nIters burnIn parallel m h1 h2 h3 h4 h5

/-! ### The hypotheses can be met -/

/-- Non-vacuity of C122: two spins with three states. The sample of all nine states has exactly the frequencies of the model with
all parameters 0, and a sample of one state has no maximum. -/
example : (∀ δ > 0, PottsCloseTo 2 3 (List.replicate 7 0) δ (words (pottsVals 3) 2)) ∧
    (∀ w : List ℝ, ¬ PottsStable 2 3 (words (pottsVals 3) 2) w) ∧
    ∃ w : List ℝ, w.length = 3 * 2 + 2 * (2 - 1) / 2 ∧ PottsStable 2 3 [[0, 0]] w := by
  refine ⟨fun δ hδ => ⟨words_potts_ne 2 3 (by norm_num), fun s hs => hs, fun s hs => ?_⟩,
    (C122_full_support 2 3 (by norm_num) _ (fun s hs => hs) fun s hs => hs).1, ?_⟩
  · have hz : ∀ s, vecPottsE 2 3 (List.replicate 7 0) s = 0 := by
      intro s
      simp [vecPottsE, pottsVecE, pottsE, couplingAt, upperPairs, Finset.sum_range_succ]
    unfold boltzmann partition
    simp only [hz, neg_zero, Real.exp_zero]
    rw [List.count_eq_one_of_mem (nodup_words (nodup_pottsVals 3) 2) hs]
    simp [length_words, pottsVals]
    norm_num [hδ]
  · by_contra h
    push Not at h
    exact C122_missing_value 2 3 0 1 (by norm_num) (by norm_num) [[0, 0]] (by simp) (by decide) (by decide)
      ((C122_exists_iff 2 3 [[0, 0]] (by decide)).2 h)

/-- Non-vacuity of the sampling: model objects of the three classes, in Python, sequential and parallel, and a compiled `Potts3`. -/
example : (∃ o, CanSample bareMachine .potts3 2 [1, 0, 2, 0, 1, 0, 2] 10 false o ∧ o.multipliers = [1, 0, 2, 0, 1, 0, 2] ∧
      10 = wantedSize none o.sampleSize) ∧
    (∃ o, CanSample bareMachine .ising 2 [1, 0, 2] 10 false o ∧ o.multipliers = [1, 0, 2] ∧ 10 = wantedSize none o.sampleSize) ∧
    (∃ o, CanSample bareMachine .triplet 3 [1, 0, 2, 0, 1, 0, 2] 10 true o ∧ o.multipliers = [1, 0, 2, 0, 1, 0, 2] ∧
      10 = wantedSize none o.sampleSize) ∧
    ∃ o, CanSample ⟨true, false, 4, fun _ _ => none⟩ .potts3 2 [1, 0, 2, 0, 1, 0, 2] 10 true o ∧
      10 = wantedSize none o.sampleSize := by
  refine ⟨⟨_, ⟨⟨.parts [[1, 0, 2, 0, 1, 0], [2]], ⟨7, [.setup (chars! "metropolis") 10 true], _, listGen, [], listGen_valid, rfl⟩⟩,
      rfl, _, rfl, rfl, by simp [bareMachine], fun _ => rfl⟩, rfl, rfl⟩,
    ⟨_, ⟨⟨.parts [[1, 0], [2]], ⟨7, [.setup (chars! "metropolis") 10 true], _, listGen, [], listGen_valid, rfl⟩⟩,
      rfl, _, rfl, rfl, by simp, fun _ => rfl⟩, rfl, rfl⟩,
    ⟨_, ⟨⟨.parts [[1, 0, 2], [0, 1, 0], [2]], ⟨7, [.setup (chars! "metropolis") 10 true], _, listGen, [], listGen_valid, rfl⟩⟩,
      rfl, _, rfl, rfl, by simp, fun _ => rfl⟩, rfl, rfl⟩,
    ⟨_, ⟨⟨.parts [[1, 0, 2, 0, 1, 0], [2]], ⟨7, [.setup (chars! "metropolis") 10 true], _, listGen, [], listGen_valid, rfl⟩⟩,
      rfl, _, rfl, rfl, by simp, fun _ => rfl⟩, rfl⟩⟩

end Verif.Props
