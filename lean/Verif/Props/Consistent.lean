/-
C119: fits to samples of a model find the parameters of the model.
-/
import Verif.Lemmas.SampleFreq
import Verif.Props.PseudoObj
import Verif.Props.MpfObj
import Verif.Spec.Optim
import Verif.Props.Mixing

namespace Verif.Props
open Verif Verif.Model Verif.Spec Verif.Lemmas Prog

/-! ### Samples with nearly the right frequencies -/

theorem _root_.Verif.Spec.CloseFreq.data {n : ℕ} {θ : List ℝ} {δ : ℝ} {X : List (List ℤ)} (h : CloseFreq n θ δ X) : SpinData n X :=
  ⟨h.1, fun s hs => mem_words_pm.1 (h.2.1 s hs)⟩

theorem _root_.Verif.Spec.CloseFreq.mono {n : ℕ} {θ : List ℝ} {δ δ' : ℝ} {X : List (List ℤ)} (h : CloseFreq n θ δ X) (hle : δ ≤ δ') :
    CloseFreq n θ δ' X :=
  ⟨h.1, h.2.1, fun s hs => (h.2.2 s hs).trans_le hle⟩

theorem _root_.Verif.Spec.CloseFreq.full (n : ℕ) (θ : List ℝ) : ∃ δ, 0 < δ ∧ ∀ X, CloseFreq n θ δ X → ∀ s ∈ words [-1, 1] n, s ∈ X := by
  obtain ⟨δ, hδ, h⟩ := full_of_close n (pairE n θ)
  exact ⟨δ, hδ, fun X hX s hs => h X hX.2.2 s (mem_words_pm.2 hs)⟩

/-- C119, likelihood: if the frequencies of the states in a sample are close enough to those of the model with parameters
`θ`, there is exactly one model that has the means and pair means of the sample, and its parameters are within `ε` of
`θ`. -/
theorem C119_likelihood (n : ℕ) (hn : 1 ≤ n) (θ : List ℝ) (hθ : θ.length = n + n * (n - 1) / 2) (ε : ℝ) (hε : 0 < ε) :
    ∃ δ, 0 < δ ∧ ∀ X, CloseFreq n θ δ X → ∃ v, Near ε v θ ∧
      ∀ w : List ℝ, w.length = n + n * (n - 1) / 2 → (Reproduces n w X ↔ w = v) := by
  obtain ⟨δ₁, hδ₁, h₁⟩ := CloseFreq.full n θ
  obtain ⟨δ₂, hδ₂, h₂⟩ := stable_likelihood n θ hθ ε hε
  refine ⟨min δ₁ δ₂, lt_min hδ₁ hδ₂, fun X hX => ?_⟩
  have hd := hX.data
  obtain ⟨v, hv, hr⟩ := C108_full_support n hn X hd (h₁ X (hX.mono (min_le_left _ _)))
  have hmax := (C108_maximum_likelihood n hn X hd v hv).1 hr
  refine ⟨v, ⟨hv.trans hθ.symm, ?_⟩, fun w hw => ⟨fun h => ?_, fun h => h ▸ hr⟩⟩
  · rw [hθ]
    have hX2 := hX.mono (min_le_right _ _)
    refine h₂ X hX.1 hX.2.1 hX2.2.2 v hv fun w hw => ?_
    by_cases e : w = v
    · rw [e]
    · exact (hmax w hw e).le
  · by_contra hne
    have h1 := (C108_maximum_likelihood n hn X hd w hw).1 h v hv (Ne.symm hne)
    exact absurd (hmax w hw hne) (not_lt.2 h1.le)

/-- C119, pseudolikelihood of all spins together: it has a maximum, and every maximum is within `ε` of `θ`. -/
theorem C119_pseudolikelihood (n : ℕ) (θ : List ℝ) (hθ : θ.length = n + n * (n - 1) / 2) (ε : ℝ) (hε : 0 < ε) :
    ∃ δ, 0 < δ ∧ ∀ X, CloseFreq n θ δ X →
      (∀ w : List ℝ, w.length = n + n * (n - 1) / 2 → ¬ StableData n X w) ∧
      ∀ v : List ℝ, v.length = n + n * (n - 1) / 2 → (∀ w : List ℝ, w.length = n + n * (n - 1) / 2 →
        ((List.range n).map fun r => negCondLogLik (vecE n v) [1, -1] X r).sum ≤
          ((List.range n).map fun r => negCondLogLik (vecE n w) [1, -1] X r).sum) → Near ε v θ := by
  obtain ⟨δ₁, hδ₁, h₁⟩ := CloseFreq.full n θ
  obtain ⟨δ₂, hδ₂, h₂⟩ := stable_pseudo n θ hθ ε hε
  refine ⟨min δ₁ δ₂, lt_min hδ₁ hδ₂, fun X hX => ⟨?_, fun v hv hmin => ⟨hv.trans hθ.symm, ?_⟩⟩⟩
  · rintro w hw ⟨h1, s, hs, r, hr, hlt⟩
    have hfl : s.set r (-s.getD r 0) ∈ X := h₁ X (hX.mono (min_le_left _ _)) _
      (mem_words_pm.1 (flip_mem_words n r s (hX.2.1 s hs)))
    have := h1 _ hfl r hr
    rw [Lemmas.flip_flip] at this
    exact absurd hlt (not_lt.2 this)
  · rw [hθ]
    exact h₂ X hX.1 hX.2.1 (hX.mono (min_le_right _ _)).2.2 v hv hmin

/-- C119, conditional likelihood of one spin: it has a maximum, and in every maximum the field of the spin and its couplings
are within `ε` of those in `θ`. -/
theorem C119_conditional (n r : ℕ) (hr : r < n) (θ : List ℝ) (hθ : θ.length = n + n * (n - 1) / 2) (ε : ℝ) (hε : 0 < ε) :
    ∃ δ, 0 < δ ∧ ∀ X, CloseFreq n θ δ X →
      (¬ ∃ w : List ℝ, w.length = n + n * (n - 1) / 2 ∧ (∀ s ∈ X, pairE n w s ≤ pairE n w (s.set r (-s.getD r 0))) ∧
        ∃ s ∈ X, pairE n w s < pairE n w (s.set r (-s.getD r 0))) ∧
      ∀ v : List ℝ, v.length = n + n * (n - 1) / 2 → (∀ w : List ℝ, w.length = n + n * (n - 1) / 2 →
        negCondLogLik (vecE n v) [1, -1] X r ≤ negCondLogLik (vecE n w) [1, -1] X r) →
        |v.getD r 0 - θ.getD r 0| < ε ∧ ∀ i < n, i ≠ r →
          |couplingAt n (v.drop n) (min i r) (max i r) - couplingAt n (θ.drop n) (min i r) (max i r)| < ε := by
  obtain ⟨δ₁, hδ₁, h₁⟩ := CloseFreq.full n θ
  obtain ⟨δ₂, hδ₂, h₂⟩ := stable_spin n r hr θ hθ ε hε
  refine ⟨min δ₁ δ₂, lt_min hδ₁ hδ₂, fun X hX => ⟨?_, fun v hv hmin => ?_⟩⟩
  · rintro ⟨w, hw, h1, s, hs, hlt⟩
    have hfl : s.set r (-s.getD r 0) ∈ X := h₁ X (hX.mono (min_le_left _ _)) _
      (mem_words_pm.1 (flip_mem_words n r s (hX.2.1 s hs)))
    have := h1 _ hfl
    rw [Lemmas.flip_flip] at this
    exact absurd hlt (not_lt.2 this)
  · have h := h₂ X hX.1 hX.2.1 (hX.mono (min_le_right _ _)).2.2 v hv hmin
    refine ⟨h r (by simp [spinIx]), fun i hi hir => ?_⟩
    have := h (pairPos n i r + n) (List.mem_cons_of_mem _ (List.mem_map.2 ⟨i, mem_otherSites.2 ⟨hi, hir⟩, rfl⟩))
    unfold couplingAt
    have hg : ∀ x : List ℝ, (x.drop n).getD ((upperPairs n).idxOf (min i r, max i r)) 0 = x.getD (pairPos n i r + n) 0 := by
      intro x
      rw [List.getD_eq_getElem?_getD, List.getElem?_drop, ← List.getD_eq_getElem?_getD, add_comm]
      rfl
    rw [hg, hg]
    exact this

/-- C119, probability flow: it has a smallest value, and all parameters whose flow is no larger than that of `θ` are within `ε`
of `θ`. -/
theorem C119_flow (n : ℕ) (hn : 1 ≤ n) (θ : List ℝ) (hθ : θ.length = n + n * (n - 1) / 2) (ε : ℝ) (hε : 0 < ε) :
    ∃ δ, 0 < δ ∧ ∀ X, CloseFreq n θ δ X →
      (∃ v : List ℝ, v.length = n + n * (n - 1) / 2 ∧
        ∀ w : List ℝ, w.length = n + n * (n - 1) / 2 → pairFlow n X v ≤ pairFlow n X w) ∧
      ∀ v : List ℝ, v.length = n + n * (n - 1) / 2 →
        pairFlow n X v ≤ pairFlow n X θ → Near ε v θ := by
  obtain ⟨δ₁, hδ₁, h₁⟩ := C119_pseudolikelihood n θ hθ ε hε
  obtain ⟨δ₂, hδ₂, h₂⟩ := stable_flow n θ hθ ε hε
  refine ⟨min δ₁ δ₂, lt_min hδ₁ hδ₂, fun X hX => ⟨?_, fun v hv hmin => ⟨hv.trans hθ.symm, ?_⟩⟩⟩
  · exact (flow_iff n hn X hX.data).2 (h₁ X (hX.mono (min_le_left _ _))).1
  · rw [hθ]
    exact h₂ X hX.1 hX.2.1 (hX.mono (min_le_right _ _)).2.2 v hv hmin

/-! ### The solvers -/

/-- The routine finds a zero of a function whenever there is one of the length of the first point. -/
def FindsZero (root : (List ℝ → Py (List ℝ)) → List ℝ → List ℝ) : Prop :=
  ∀ f x0, (∃ x, x.length = x0.length ∧ f x = .ok (List.replicate x0.length 0)) →
    (root f x0).length = x0.length ∧ f (root f x0) = .ok (List.replicate x0.length 0)

/-- The routine finds a point where a function is 0 whenever there is one of the length of the first point. -/
def FindsNull (minimize : (List ℝ → Py ℝ) → List ℝ → List ℝ) : Prop :=
  ∀ f x0, (∃ x, x.length = x0.length ∧ f x = .ok 0) → (minimize f x0).length = x0.length ∧ f (minimize f x0) = .ok 0

/-- The routine finds a smallest point with `m` entries within bounds whenever there is one. -/
def FindsBoxMin (m : ℕ) (lib : (List ℝ → Py (Option ℝ)) → List ℝ → ℝ → List ℝ) : Prop :=
  ∀ L f x0, (∃ x, BoxMinimum m L f x) → BoxMinimum m L f (lib f x0 L)

/-- A first guess of the right length, if one is given. -/
def GuessFor (n : ℕ) (guess : Option (List ℝ)) : Prop := ∀ g, guess = some g → g.length = n + n * (n - 1) / 2

/-- `Enumerate(X).solve(...)` returns parameters within `ε` of `θ`, whatever the first guess and whether zeros or smallest
points are looked for. -/
def EnumerateFinds (n : ℕ) (θ : List ℝ) (ε : ℝ) (X : List (List ℤ)) : Prop :=
  ∀ mc rng, HasPairModule mc n → ∃ o, enumerateInit mc (.data n X) none rng = .ok o ∧
    ∀ brk root minimize guess useRoot, FindsZero root → FindsNull minimize → GuessFor n guess →
      ∃ v, enumerateSolve brk root minimize o guess none none useRoot = .ok v ∧ Near ε v θ

/-- `Pseudo(X).solve(...)` returns parameters within `ε` of `θ`, spin by spin or for all spins together. -/
def PseudoFinds (n : ℕ) (θ : List ℝ) (ε : ℝ) (X : List (List ℤ)) : Prop :=
  ∀ mc rng, ∃ o, pseudoInit mc (.data n X) none .ising false 2 rng = .ok o ∧
    ∀ lib force guess, FindsMin lib → GuessFor n guess →
      ∃ v, pseudoSolve lib o ⟨force, guess, none, none⟩ = .ok v ∧ Near ε v θ

/-- `MPF(X).solve(parameter_limits=L, ...)` returns parameters within `ε` of `θ`, with and without logarithm. -/
def MpfFinds (n : ℕ) (θ : List ℝ) (ε L : ℝ) (X : List (List ℤ)) : Prop :=
  ∀ mc rng, ∃ o, mpfObjInit mc (.data n X) none .ising false false rng = .ok o ∧
    ∀ uniq lib guess uselog, UniqSpec uniq → FindsBoxMin (n + n * (n - 1) / 2) lib → GuessFor n guess →
      ∃ v, mpfObjSolve uniq lib o ⟨guess, true, L, uselog⟩ = .ok v ∧ Near ε v θ

/-- C119, `Enumerate`. -/
theorem C119_enumerate (n : ℕ) (hn : 1 ≤ n) (θ : List ℝ) (hθ : θ.length = n + n * (n - 1) / 2) (ε : ℝ) (hε : 0 < ε) :
    ∃ δ, 0 < δ ∧ ∀ X, CloseFreq n θ δ X → EnumerateFinds n θ ε X := by
  obtain ⟨δ, hδ, h⟩ := C119_likelihood n hn θ hθ ε hε
  refine ⟨δ, hδ, fun X hX mc rng hmod => ?_⟩
  obtain ⟨v, hv, huniq⟩ := h X hX
  have hvl := hv.1.trans hθ
  obtain ⟨o, h1, h2⟩ := C108_returns mc n hn hmod X hX.data rng
  refine ⟨o, h1, fun brk root minimize guess useRoot hroot hmin hg => ?_⟩
  obtain ⟨f, g, e, hz⟩ := h2 brk root minimize guess none useRoot hg
  have hx0 : (guess.getD (List.replicate (n + n * (n - 1) / 2) 0)).length = n + n * (n - 1) / 2 := by
    cases guess with
    | none => simp
    | some g => exact hg g rfl
  refine ⟨_, e, ?_⟩
  have key : ∀ x : List ℝ, x.length = n + n * (n - 1) / 2 → Reproduces n x X → Near ε x θ := fun x hx hr => by
    rw [(huniq x hx).1 hr]
    exact hv
  have hrep := (huniq v hvl).2 rfl
  cases useRoot
  · obtain ⟨a, b⟩ := hmin g _ ⟨v, hvl.trans hx0.symm, (hz v hvl).2.2 ⟨by simp, hrep⟩⟩
    exact key _ (a.trans hx0) ((hz _ (a.trans hx0)).2.1 b).2
  · obtain ⟨a, b⟩ := hroot f _ ⟨v, hvl.trans hx0.symm, by rw [hx0]; exact (hz v hvl).1.2 ⟨by simp, hrep⟩⟩
    rw [hx0] at b
    exact key _ (a.trans hx0) ((hz _ (a.trans hx0)).1.1 b).2

theorem couplingAt_sub (n : ℕ) (x : List ℝ) (p : ℕ × ℕ) (k : ℕ) (hk : (upperPairs n)[k]? = some p) (h : List ℝ)
    (hh : h.length = n) : (h ++ x).getD (n + k) 0 = couplingAt n x p.1 p.2 := by
  have : (upperPairs n).idxOf p = k := by
    obtain ⟨hk', e⟩ := List.getElem?_eq_some_iff.1 hk
    rw [← e]
    exact (nodup_upperPairs n).idxOf_getElem k hk'
  unfold couplingAt
  rw [this, List.getD_append_right _ _ _ _ (by omega)]
  congr 1
  omega

/-- C119, `Pseudo`: the default algorithm and `force_general`. -/
theorem C119_pseudo (n : ℕ) (hn : 1 ≤ n) (θ : List ℝ) (hθ : θ.length = n + n * (n - 1) / 2) (ε : ℝ) (hε : 0 < ε) :
    ∃ δ, 0 < δ ∧ ∀ X, CloseFreq n θ δ X → PseudoFinds n θ ε X := by
  obtain ⟨δ₀, hδ₀, h₀⟩ := C119_pseudolikelihood n θ hθ ε hε
  choose d hd0 hd using fun r : Fin n => C119_conditional n r.1 r.2 θ hθ ε hε
  obtain ⟨δ₁, hδ₁, hle⟩ : ∃ δ₁, 0 < δ₁ ∧ ∀ r : Fin n, δ₁ ≤ d r := by
    have hne : (Finset.univ : Finset (Fin n)).Nonempty := ⟨⟨0, hn⟩, Finset.mem_univ _⟩
    refine ⟨Finset.univ.inf' hne d, (Finset.lt_inf'_iff hne).2 fun r _ => hd0 r, fun r => Finset.inf'_le _ (Finset.mem_univ r)⟩
  refine ⟨min δ₀ δ₁, lt_min hδ₀ hδ₁, fun X hX mc rng => ?_⟩
  have hdat := hX.data
  obtain ⟨m, e, -, hk⟩ := C113_constructor mc n X hdat.1 none .ising 2 rng
  have hkind := hk rfl
  have ho : PairObject n X ⟨some n, some X, some m, .ising, none⟩ :=
    ⟨rfl, rfl, rfl, rfl, by simp [PseudoObj.kind, hkind]⟩
  refine ⟨_, e, fun lib force guess hlib hg => ?_⟩
  cases force
  · have hc := fun (r : ℕ) (hr : r < n) => hd ⟨r, hr⟩ X (hX.mono ((min_le_right _ _).trans (hle ⟨r, hr⟩)))
    obtain ⟨h, J, hJ, hs⟩ := C113_spin_by_spin n hn X hdat _ ho (by simp [PseudoObj.kind, hkind]) (fun r hr => (hc r hr).1) lib
      hlib guess hg
    refine ⟨_, hs, ?_⟩
    have hlen : ((List.range n).map (fun i => (h i).getD i 0) ++
        (upperPairs n).map fun p => (couplingAt n (J p.1) p.1 p.2 + couplingAt n (J p.2) p.1 p.2) / 2).length =
          θ.length := by
      rw [List.length_append, List.length_map, List.length_range, List.length_map, length_upperPairs, hθ]
    refine ⟨hlen, fun i hi => ?_⟩
    have hnear := fun (r : ℕ) (hr : r < n) => (hc r hr).2 (h r ++ J r) (by
      rw [List.length_append, (hJ r hr).1, (hJ r hr).2.1]) (hJ r hr).2.2
    have hdrop : ∀ r < n, (h r ++ J r).drop n = J r := fun r hr => by
      rw [List.drop_append, (hJ r hr).1, Nat.sub_self, List.drop_zero, List.drop_of_length_le (by rw [(hJ r hr).1]),
        List.nil_append]
    by_cases hin : i < n
    · rw [List.getD_append _ _ _ _ (by simpa using hin), List.getD_eq_getElem _ _ (by simpa using hin), List.getElem_map,
        List.getElem_range]
      have := (hnear i hin).1
      rwa [List.getD_append _ _ _ _ (by rw [(hJ i hin).1]; exact hin)] at this
    · obtain ⟨k, rfl⟩ : ∃ k, i = n + k := ⟨i - n, by omega⟩
      have hk : k < (upperPairs n).length := by rw [length_upperPairs]; omega
      obtain ⟨p, hp⟩ : ∃ p, (upperPairs n)[k]? = some p := ⟨_, List.getElem?_eq_getElem hk⟩
      obtain ⟨hk', ep⟩ := List.getElem?_eq_some_iff.1 hp
      obtain ⟨p1, p2⟩ := p
      obtain ⟨h1, h2⟩ := mem_upperPairs.1 (ep ▸ List.getElem_mem hk')
      have eθ : θ.getD (n + k) 0 = couplingAt n (θ.drop n) p1 p2 := by
        conv_lhs => rw [← List.take_append_drop n θ]
        exact couplingAt_sub n _ (p1, p2) k hp _ (by simp; omega)
      rw [List.getD_append_right _ _ _ _ (by simp), List.length_map, List.length_range, Nat.add_sub_cancel_left,
        List.getD_eq_getElem _ _ (by simpa using hk), List.getElem_map, ep, eθ]
      have a := (hnear p1 (by omega)).2 p2 h2 (Nat.ne_of_gt h1)
      have b := (hnear p2 h2).2 p1 (by omega) (Nat.ne_of_lt h1)
      rw [hdrop p1 (by omega), min_eq_right h1.le, max_eq_left h1.le] at a
      rw [hdrop p2 h2, min_eq_left h1.le, max_eq_right h1.le] at b
      rw [abs_lt] at a b ⊢
      constructor <;> linarith [a.1, a.2, b.1, b.2]
  · obtain ⟨x, hx, hxl, hmin⟩ := C113_general n X hdat _ ho true (Or.inl rfl) (h₀ X (hX.mono (min_le_left _ _))).1 lib hlib
      guess hg
    exact ⟨x, hx, (h₀ X (hX.mono (min_le_left _ _))).2 x hxl hmin⟩

/-- C119, `MPF`, if the {0,1} form of `θ` is within the limit. -/
theorem C119_mpf (n : ℕ) (hn : 1 ≤ n) (θ : List ℝ) (hθ : θ.length = n + n * (n - 1) / 2) (L : ℝ) (hL : 0 < L)
    (hin : InLimit L (bitParams n θ)) (ε : ℝ) (hε : 0 < ε) :
    ∃ δ, 0 < δ ∧ ∀ X, CloseFreq n θ δ X → MpfFinds n θ ε L X := by
  obtain ⟨δ, hδ, h⟩ := C119_flow n hn θ hθ ε hε
  refine ⟨δ, hδ, fun X hX mc rng => ?_⟩
  obtain ⟨o, h1, h2⟩ := C116_result mc n hn X hX.data none (by simp) rng
  refine ⟨o, h1, fun uniq lib guess uselog hu hlib hg => ?_⟩
  obtain ⟨v, e, hv⟩ := h2 uniq lib guess L uselog hu hL (fun f x0 => hlib L f x0) hg
  exact ⟨v, e, (h X hX).2 v hv.1 (hv.2.2 θ hθ hin)⟩

/-! ### From `sample_ising` to the fits -/

open scoped Classical in
/-- C119: draw a sample from the Ising model with parameters `θ` (not all zero) by `sample_ising`, and fit an Ising model to it
with `Enumerate`, `Pseudo` or `MPF`. The probability that one of these fits raises or returns a parameter that is off by
`ε` or more is at most `K` divided by the number of samples (times the number of processes, if the sampling is parallel),
for every number of iterations between samples but 0 and every burn-in. The searches are assumed to find what they look
for, if it exists. -/
theorem C119_sample_and_fit (n : ℕ) (hn : 1 ≤ n) (θ : List ℝ) (hθ : θ.length = n + n * (n - 1) / 2)
    (hx : ∃ x ∈ θ, x ≠ 0) (L : ℝ) (hL : 0 < L) (hin : InLimit L (bitParams n θ)) (ε : ℝ) (hε : 0 < ε) :
    ∃ K, ∀ (mc : Machine), 0 < mc.cpus → ∀ a : IsingArg ℝ,
      (a = .vec θ ∨ ∃ h J, a = .parts [h, J] ∧ h ++ J = θ) → ∀ (size : ℕ) (parallel : Bool) (nIters : ℕ)
      (burnIn : Option ℕ), 0 < size → 0 < nIters →
      prob (sampleIsing mc a size parallel nIters burnIn)
        (fun X => ¬ (EnumerateFinds n θ ε X ∧ PseudoFinds n θ ε X ∧ MpfFinds n θ ε L X)) ≤
          (if parallel then (mc.cpus : ℝ) else 1) * K / size := by
  obtain ⟨δ₁, hδ₁, h₁⟩ := C119_enumerate n hn θ hθ ε hε
  obtain ⟨δ₂, hδ₂, h₂⟩ := C119_pseudo n hn θ hθ ε hε
  obtain ⟨δ₃, hδ₃, h₃⟩ := C119_mpf n hn θ hθ L hL hin ε hε
  obtain ⟨K, hK⟩ := sample_close n hn θ hθ hx (min δ₁ (min δ₂ δ₃)) (lt_min hδ₁ (lt_min hδ₂ hδ₃))
  refine ⟨K, fun mc hc a ha size parallel nIters burnIn hs hk => ?_⟩
  refine le_trans ?_ (hK mc hc a ha size parallel nIters burnIn hs hk)
  refine (finDist_sampleIsing mc hc n hn θ hθ hx a ha size hs parallel nIters burnIn).mono fun X _ => ?_
  by_cases hX : CloseFreq n θ (min δ₁ (min δ₂ δ₃)) X
  · rw [if_neg (not_not.2 ⟨h₁ X (hX.mono (min_le_left _ _)),
      h₂ X (hX.mono ((min_le_right _ _).trans (min_le_left _ _))),
      h₃ X (hX.mono ((min_le_right _ _).trans (min_le_right _ _)))⟩)]
    split_ifs <;> norm_num
  · rw [if_pos hX]
    split_ifs <;> norm_num

/-! ### All parameters zero -/

theorem kindEnergy_zero (s : List ℤ) (hs : s ∈ words [1, -1] 2) : kindEnergy .ising [0, 0, 0] s = 0 := by
  rw [kindEnergy_eq .ising 2 [0, 0, 0] rfl s (mem_words.1 hs).1]
  simp [modelEnergy, isingVecE, isingE, Finset.sum_range_succ, couplingAt, upperPairs]

/-- C119: the claim does not hold if all parameters are zero. Two spins, sequential sampling with an even number of iterations
(the default is 1000) and the burn-in that follows from it, sampler in Python: for all random numbers and every sample size,
one of the four states is missing from the sample of the model with all parameters 0. So no parameters have the means and pair
means of the sample, and neither the pseudolikelihood nor the probability flow has an optimum. -/
theorem C119_zero_wrong (mc : Machine) (hc : 0 < mc.cpus) (hext : mc.ext = false) (size nIters : ℕ) (hs : 0 < size)
    (hq : Even nIters) :
    Returns (sampleIsing mc (.vec [0, 0, 0]) size false nIters none) fun X => SpinData 2 X ∧
      (¬ ∃ v : List ℝ, v.length = 3 ∧ Reproduces 2 v X) ∧ (¬ ∃ v, IsMinimizer (generalPseudoF 2 X) 3 v) ∧
      ∀ uniq, UniqSpec uniq → ∀ uselog, ¬ ∃ y, MpfMinimum uniq 2 X uselog y := by
  obtain ⟨o, ho, hth, hr, hcomp, e⟩ := sampleIsing_eq mc 2 [0, 0, 0] rfl _ (Or.inl rfl) size false nIters none
  rw [hext] at hcomp
  rw [e]
  have h1 := returns_generate mc hc .ising 2 (by norm_num) o ho false size nIters none hs (by simp) (by simp [hr])
  have h2 : Returns (o.generate mc false size nIters none) fun o' => ∃ z : ℤ, ∀ r ∈ o'.sample.getD [], r.prod = z := by
    unfold SamplerObj.generate
    rw [ho.kind, ho.n_eq, hth, if_neg (by simp [hcomp]), ho.check, ofPy, Prog.bind, if_pos (by simp), hr]
    refine returns_bind (Q := fun out : SampleOut => ∃ z : ℤ, ∀ r ∈ out.sample, r.prod = z) ?_ fun out hout => returns_ret hout
    unfold generateSamplePy startStates
    dsimp only [kindRandom]
    refine returns_bind (returns_randomSample 2 1) fun states hst => ?_
    obtain ⟨s, rfl⟩ := List.length_eq_one_iff.1 hst.1
    have h := C91_constant_energy_rows 2 (by norm_num) (kindEnergy .ising [0, 0, 0]) (fun a ha b hb => by
      rw [kindEnergy_zero a ha, kindEnergy_zero b hb]) false size nIters hq none s (hst.2 s (by simp))
    unfold generateSamplePy startStates at h
    dsimp only at h
    rw [if_pos ⟨rfl, by simp [(mem_words.1 (hst.2 s (by simp))).1]⟩, Prog.bind] at h
    exact returns_mono (fun out hout => ⟨_, hout⟩) h
  refine returns_bind (returns_and h1 h2) fun o' ho' => returns_ret ?_
  obtain ⟨⟨rows, e1, hl, hrow⟩, z, hz⟩ := ho'
  rw [e1, Option.getD_some] at hz ⊢
  have hX : SpinData 2 rows := ⟨by rintro rfl; simp at hl; omega, fun r h => mem_words_pm.1 (hrow r h)⟩
  obtain ⟨b, hb, hmiss⟩ : ∃ b : ℤ, (b = 1 ∨ b = -1) ∧ ∀ r ∈ rows, ¬ (r.getD 0 0 = 1 ∧ r.getD 1 0 = b) := by
    refine ⟨if z = 1 then -1 else 1, by split_ifs <;> simp, fun r hr hc => ?_⟩
    have h3 := hz r hr
    obtain ⟨hlen, -⟩ := mem_words.1 (hrow r hr)
    obtain ⟨x, y, rfl⟩ := List.length_eq_two.1 hlen
    simp at hc h3
    rw [hc.1, one_mul] at h3
    rw [h3] at hc
    by_cases hz1 : z = 1
    · rw [if_pos hz1] at hc; omega
    · rw [if_neg hz1] at hc; exact hz1 hc.2
  have h3 := fun uniq hu => C110_pair_missing uniq hu 2 0 1 (by norm_num) (by norm_num) (by norm_num) rows hX 1 b (Or.inl rfl) hb
    hmiss
  exact ⟨hX, C108_pair_missing 2 (by norm_num) rows hX 0 1 (by norm_num) (by norm_num) 1 b (Or.inl rfl) hb hmiss,
    (h3 List.dedup fun X => ⟨X.nodup_dedup, fun x => List.mem_dedup⟩).2, fun uniq hu => (h3 uniq hu).1⟩

/-- The hypotheses of the theorems can be met: a sample whose frequencies are exact, parameters inside the limit, a machine,
and searches that find what they look for. -/
example : (∀ δ > 0, CloseFreq 1 [0] δ [[1], [-1]]) ∧ (∃ x ∈ ([1] : List ℝ), x ≠ 0) ∧
    InLimit 10 (bitParams 1 ([1] : List ℝ)) ∧ 0 < bareMachine.cpus ∧ bareMachine.ext = false ∧
    (∃ root, FindsZero root) ∧ (∃ minimize, FindsNull minimize) ∧ ∀ m, ∃ lib, FindsBoxMin m lib := by
  refine ⟨fun δ hδ => ⟨by simp, by decide, fun s hs => ?_⟩, ⟨1, by simp⟩, ?_, by decide, rfl, ?_, ?_, ?_⟩
  · have hw : words [1, -1] 1 = [[1], [-1]] := by decide
    have hE : ∀ s : List ℤ, isingVecE 1 (([0] : List ℝ).take 1) (([0] : List ℝ).drop 1) (spins s) = 0 := fun s => by
      simp [isingVecE, isingE, couplingAt]
    simp only [boltzmann, partition, hE]
    rw [hw] at hs ⊢
    rcases List.mem_pair.1 hs with rfl | rfl <;> norm_num <;> exact hδ
  · norm_num [bitParams, pairCoupling, InLimit]
  · classical
    refine ⟨fun f x0 => if h : ∃ x, x.length = x0.length ∧ f x = .ok (List.replicate x0.length 0) then h.choose else [],
      fun f x0 h => ?_⟩
    dsimp only
    rw [dif_pos h]
    exact h.choose_spec
  · classical
    refine ⟨fun f x0 => if h : ∃ x, x.length = x0.length ∧ f x = .ok 0 then h.choose else [], fun f x0 h => ?_⟩
    dsimp only
    rw [dif_pos h]
    exact h.choose_spec
  · classical
    refine fun m => ⟨fun f x0 L => if h : ∃ x, BoxMinimum m L f x then h.choose else [], fun L f x0 h => ?_⟩
    dsimp only
    rw [dif_pos h]
    exact h.choose_spec

end Verif.Props
