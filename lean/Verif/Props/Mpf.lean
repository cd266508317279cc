/-
C38, C39, C74, C75: minimum probability flow.
-/
import Verif.Lemmas.Mpf2
import Verif.Props.Neighbors

namespace Verif.Props
open Verif Verif.Model Verif.Spec Verif.Lemmas

/-- C38. `K` for the distinct states of a sample with their counts is the probability flow of the
sample: the average over the data of `Σ exp((E(s)-E(t))/2)` over the neighbours `t`. Any energy
function, any neighbours. -/
theorem C38_K (uniq : Data → Data) (hu : UniqSpec uniq) (X : Data) (hX : X ≠ [])
    (nb : List ℤ → Data) (calcE : RowEnergy) (θ : List ℝ) :
    mpfK calcE none (uniq X) ((uniq X).map fun s => X.count s) ((uniq X).map nb) θ =
      .ok (probFlow X nb (calcE θ), none) := by
  obtain ⟨hnd, hmem⟩ := hu X
  have hsum := sum_counts (uniq X) X hnd fun x hx => (hmem x).2 hx
  have hlen : X.length ≠ 0 := by simpa using hX
  unfold mpfK
  rw [mpfItems_eq]
  simp only
  rw [mpfKLoop_none]
  simp only
  rw [hsum, if_neg hlen]
  simp only [zero_add, Option.map_none]
  rw [probFlow_items (uniq X) X hnd fun x hx => (hmem x).2 hx]

/-- C38. The gradient returned with `K` is the derivative of `K` with respect to each parameter, for
any energy function with derivative `calc_de`. -/
theorem C38_K_gradient (uniq : Data → Data) (hu : UniqSpec uniq) (X : Data) (hX : X ≠ [])
    (nb : List ℤ → Data) (calcE : RowEnergy) (de : RowGradient) (θ : List ℝ)
    (h1 : ∀ s ∈ X, ∀ j < θ.length, ∃ d, de s j = .ok d ∧
      HasDerivAt (fun x => calcE (θ.set j x) s) d (θ.getD j 0))
    (h2 : ∀ s ∈ X, ∀ t ∈ nb s, ∀ j < θ.length, ∃ d, de t j = .ok d ∧
      HasDerivAt (fun x => calcE (θ.set j x) t) d (θ.getD j 0)) :
    ∃ g, mpfK calcE (some de) (uniq X) ((uniq X).map fun s => X.count s) ((uniq X).map nb) θ =
        .ok (probFlow X nb (calcE θ), some g) ∧ g.length = θ.length ∧
      ∀ j < θ.length, HasDerivAt (fun x => probFlow X nb (calcE (θ.set j x))) (g.getD j 0)
        (θ.getD j 0) := by
  obtain ⟨hnd, hmem⟩ := hu X
  have hin : ∀ x ∈ X, x ∈ uniq X := fun x hx => (hmem x).2 hx
  have hsum := sum_counts (uniq X) X hnd hin
  have hlen : X.length ≠ 0 := by simpa using hX
  obtain ⟨d, hd⟩ : ∃ d : List ℤ → ℕ → ℝ, ∀ s j v, de s j = .ok v → d s j = v :=
    ⟨fun s j => match de s j with
      | .ok v => v
      | .error _ => 0, fun s j v h => by simp only [h]⟩
  have e1 : ∀ s ∈ X, ∀ j < θ.length, de s j = .ok (d s j) ∧
      HasDerivAt (fun x => calcE (θ.set j x) s) (d s j) (θ.getD j 0) := by
    intro s hs j hj
    obtain ⟨v, hv, hv'⟩ := h1 s hs j hj
    rw [hd s j v hv]; exact ⟨hv, hv'⟩
  have e2 : ∀ s ∈ X, ∀ t ∈ nb s, ∀ j < θ.length, de t j = .ok (d t j) ∧
      HasDerivAt (fun x => calcE (θ.set j x) t) (d t j) (θ.getD j 0) := by
    intro s hs t ht j hj
    obtain ⟨v, hv, hv'⟩ := h2 s hs t ht j hj
    rw [hd t j v hv]; exact ⟨hv, hv'⟩
  refine ⟨(List.range θ.length).map fun j =>
    (X.map fun s => ((nb s).map fun t => Real.exp (1 / 2 * (calcE θ s - calcE θ t)) *
        (1 / 2 * (d s j - d t j))).sum).sum / (X.length : ℝ), ?_, by simp, ?_⟩
  · unfold mpfK
    rw [mpfItems_eq]
    simp only
    have hz : List.replicate θ.length (0 : ℝ) = (List.range θ.length).map fun _ => 0 := by simp
    rw [hz, mpfKLoop_some calcE de d θ]
    · simp only
      rw [hsum, if_neg hlen]
      simp only [zero_add, Option.map_some]
      rw [probFlow_items (uniq X) X hnd hin, List.map_map]
      congr 4
      funext j
      simp only [Function.comp]
      rw [gradTerm_items (uniq X) X hnd hin]
    · intro it hit j hj
      obtain ⟨s, hs, rfl⟩ := List.mem_map.1 hit
      exact (e1 s ((hmem s).1 hs) j hj).1
    · intro it hit t ht j hj
      obtain ⟨s, hs, rfl⟩ := List.mem_map.1 hit
      exact (e2 s ((hmem s).1 hs) t ht j hj).1
  · intro j hj
    rw [getD_map_range _ _ _ hj]
    exact hasDerivAt_probFlow X nb calcE d θ j (fun s hs => (e1 s hs j hj).2)
      (fun s hs t ht => (e2 s hs t ht j hj).2) hj

theorem isingDe_ok (n : ℕ) (s : List ℤ) (hs : s.length = n) (θ : List ℝ)
    (hθ : θ.length = n + n * (n - 1) / 2) (j : ℕ) (hj : j < θ.length) :
    ∃ d, isingDe s j = .ok d ∧ HasDerivAt (fun x => isingCalcERow (θ.set j x) s) d (θ.getD j 0) := by
  obtain ⟨d, h1, h2⟩ := C25_derivative n s hs θ hθ j hj
  refine ⟨d, ?_, h2⟩
  unfold isingDe
  rw [hs, h1]
  rfl

/-- C38. The same for the Ising energy and `calc_de` of utils.py with single flips. -/
theorem C38_ising_gradient (uniq : Data → Data) (hu : UniqSpec uniq) (n : ℕ) (X : Data) (hX : X ≠ [])
    (hlen : ∀ s ∈ X, s.length = n) (θ : List ℝ) (hθ : θ.length = n + n * (n - 1) / 2) :
    ∃ adjs g, listAdjacentStates (uniq X) true = .ok adjs ∧
      mpfK isingCalcERow (some isingDe) (uniq X) ((uniq X).map fun s => X.count s) adjs θ =
        .ok (probFlow X (flips fun x => 1 - x) (isingCalcERow θ), some g) ∧ g.length = θ.length ∧
      ∀ j < θ.length, HasDerivAt
        (fun x => probFlow X (flips fun x => 1 - x) (isingCalcERow (θ.set j x))) (g.getD j 0)
        (θ.getD j 0) := by
  obtain ⟨g, h1, h2, h3⟩ := C38_K_gradient uniq hu X hX (flips fun x => 1 - x) isingCalcERow isingDe θ
    (fun s hs j hj => isingDe_ok n s (hlen s hs) θ hθ j hj) (by
      intro s hs t ht j hj
      refine isingDe_ok n t ?_ θ hθ j hj
      obtain ⟨i, -, rfl⟩ := List.mem_map.1 ht
      simpa using hlen s hs)
  exact ⟨_, g, adjacent_eq _, h1, h2, h3⟩

/-- C38. `logK` is the logarithm of `K` when every state has the same number `m ≥ 1` of neighbours. -/
theorem C38_logK (uniq : Data → Data) (hu : UniqSpec uniq) (X : Data) (hX : X ≠ [])
    (nb : List ℤ → Data) (m : ℕ) (hm : 1 ≤ m) (hnb : ∀ s ∈ X, (nb s).length = m)
    (calcE : RowEnergy) (θ : List ℝ) :
    mpfLogK calcE none (uniq X) ((uniq X).map fun s => X.count s) ((uniq X).map nb) θ =
      .ok (some (Real.log (probFlow X nb (calcE θ))), none) ∧
    0 < probFlow X nb (calcE θ) := by
  obtain ⟨hnd, hmem⟩ := hu X
  have hin : ∀ x ∈ X, x ∈ uniq X := fun x hx => (hmem x).2 hx
  have hsum := sum_counts (uniq X) X hnd hin
  have hU : uniq X ≠ [] := by
    obtain ⟨x, hx⟩ := List.exists_mem_of_ne_nil X hX
    exact List.ne_nil_of_mem (hin x hx)
  have hne : ∀ s ∈ X, nb s ≠ [] := fun s hs h => by
    have := hnb s hs
    rw [h] at this; simp at this; omega
  refine ⟨?_, probFlow_pos X hX nb hne _⟩
  have hhead : ((uniq X).map nb).head? = some (nb ((uniq X).head hU)) := by
    rw [List.head?_map, List.head?_eq_some_head hU]; rfl
  unfold mpfLogK
  rw [hhead]
  simp only
  rw [mpfItems_eq]
  simp only
  rw [hnb _ ((hmem _).1 (List.head_mem hU)), powerRows calcE θ _ _ nb m fun s hs => hnb s ((hmem s).1 hs)]
  simp only
  rw [if_neg (by simp), logsumexp_eq calcE θ (uniq X) _ nb
    (fun s hs => List.count_pos_iff.2 ((hmem s).1 hs)) hU (fun s hs => hne s ((hmem s).1 hs)), hsum,
    probFlow_items (uniq X) X hnd hin]

/-- C39, in part: with a derivative function and at least two parameters, `logK` returns the gradient
of its objective minus `log` of the number of data points, in every component. The property claims the
gradient itself. -/
theorem C39_logK_gradient_partial (uniq : Data → Data) (hu : UniqSpec uniq) (X : Data) (hX : X ≠ [])
    (nb : List ℤ → Data) (m : ℕ) (hm : 1 ≤ m) (hnb : ∀ s ∈ X, (nb s).length = m)
    (calcE : RowEnergy) (de : RowGradient) (θ : List ℝ) (hθ : θ.length ≠ 1)
    (h1 : ∀ s ∈ X, ∀ j < θ.length, ∃ d, de s j = .ok d ∧
      HasDerivAt (fun x => calcE (θ.set j x) s) d (θ.getD j 0))
    (h2 : ∀ s ∈ X, ∀ t ∈ nb s, ∀ j < θ.length, ∃ d, de t j = .ok d ∧
      HasDerivAt (fun x => calcE (θ.set j x) t) d (θ.getD j 0)) :
    ∃ g, mpfLogK calcE (some de) (uniq X) ((uniq X).map fun s => X.count s) ((uniq X).map nb) θ =
        .ok (some (Real.log (probFlow X nb (calcE θ))), some g) ∧ g.length = θ.length ∧
      ∀ j < θ.length, HasDerivAt (fun x => Real.log (probFlow X nb (calcE (θ.set j x))))
        (g.getD j 0 + Real.log X.length) (θ.getD j 0) := by
  obtain ⟨hnd, hmem⟩ := hu X
  have hin : ∀ x ∈ X, x ∈ uniq X := fun x hx => (hmem x).2 hx
  have hsum := sum_counts (uniq X) X hnd hin
  have hlen : (X.length : ℝ) ≠ 0 := by
    have : X.length ≠ 0 := by simpa using hX
    exact_mod_cast this
  have hU : uniq X ≠ [] := by
    obtain ⟨x, hx⟩ := List.exists_mem_of_ne_nil X hX
    exact List.ne_nil_of_mem (hin x hx)
  have hne : ∀ s ∈ X, nb s ≠ [] := fun s hs h => by
    have := hnb s hs
    rw [h] at this; simp at this; omega
  obtain ⟨d, hd⟩ : ∃ d : List ℤ → ℕ → ℝ, ∀ s j v, de s j = .ok v → d s j = v :=
    ⟨fun s j => match de s j with
      | .ok v => v
      | .error _ => 0, fun s j v h => by simp only [h]⟩
  have e1 : ∀ s ∈ X, ∀ j < θ.length, de s j = .ok (d s j) ∧
      HasDerivAt (fun x => calcE (θ.set j x) s) (d s j) (θ.getD j 0) := by
    intro s hs j hj
    obtain ⟨v, hv, hv'⟩ := h1 s hs j hj
    rw [hd s j v hv]; exact ⟨hv, hv'⟩
  have e2 : ∀ s ∈ X, ∀ t ∈ nb s, ∀ j < θ.length, de t j = .ok (d t j) ∧
      HasDerivAt (fun x => calcE (θ.set j x) t) (d t j) (θ.getD j 0) := by
    intro s hs t ht j hj
    obtain ⟨v, hv, hv'⟩ := h2 s hs t ht j hj
    rw [hd t j v hv]; exact ⟨hv, hv'⟩
  obtain ⟨G, hG⟩ : ∃ G : ℕ → ℝ, G = fun j => (X.map fun s => ((nb s).map fun t =>
      Real.exp (1 / 2 * (calcE θ s - calcE θ t)) * (1 / 2 * (d s j - d t j))).sum).sum := ⟨_, rfl⟩
  refine ⟨(List.range θ.length).map fun j =>
    G j / X.length / probFlow X nb (calcE θ) - Real.log X.length, ?_, by simp, ?_⟩
  · have hhead : ((uniq X).map nb).head? = some (nb ((uniq X).head hU)) := by
      rw [List.head?_map, List.head?_eq_some_head hU]; rfl
    unfold mpfLogK
    rw [hhead]
    simp only
    rw [mpfItems_eq]
    simp only
    rw [hnb _ ((hmem _).1 (List.head_mem hU)),
      powerRows calcE θ _ _ nb m fun s hs => hnb s ((hmem s).1 hs)]
    simp only
    have hp : powerOf calcE θ (uniq X) nb =
        (uniq X).map fun s => (nb s).map fun t => 1 / 2 * (calcE θ s - calcE θ t) - 0 := by
      simp [powerOf]
    rw [if_neg (by simp), logsumexp_eq calcE θ (uniq X) _ nb
      (fun s hs => List.count_pos_iff.2 ((hmem s).1 hs)) hU (fun s hs => hne s ((hmem s).1 hs)), hsum,
      probFlow_items (uniq X) X hnd hin, hp,
      mpfLogGradLoop_eq calcE de d θ (uniq X) _ nb m (fun s hs => hnb s ((hmem s).1 hs)) hU
        (fun s hs => hne s ((hmem s).1 hs)) (List.range θ.length)
        (fun s hs j hj => (e1 s ((hmem s).1 hs) j (List.mem_range.1 hj)).1)
        (fun s hs t ht j hj => (e2 s ((hmem s).1 hs) t ht j (List.mem_range.1 hj)).1)]
    simp only
    rw [if_neg (by simpa using hθ)]
    congr 3
    rw [List.nil_append, List.map_map]
    apply List.map_congr_left
    intro j _
    simp only [Function.comp]
    rw [gradTerm_items (uniq X) X hnd hin, hG, ← probFlow_items (uniq X) X hnd hin nb calcE θ,
      div_div_div_cancel_right₀ hlen]
  · intro j hj
    rw [getD_map_range _ _ _ hj, sub_add_cancel]
    have hθj : θ.set j (θ.getD j 0) = θ := by
      rw [List.getD_eq_getElem _ _ hj, List.set_getElem_self]
    have h3 := hasDerivAt_probFlow X nb calcE d θ j (fun s hs => (e1 s hs j hj).2)
      (fun s hs t ht => (e2 s hs t ht j hj).2) hj
    have h4 := h3.log (by rw [hθj]; exact (probFlow_pos X hX nb hne _).ne')
    rw [hθj] at h4
    rw [hG]
    exact h4

/-- C39 fails: as soon as there are two data points, no component of the returned gradient is the
derivative of the returned objective. -/
theorem C39_gradient_wrong (uniq : Data → Data) (hu : UniqSpec uniq) (X : Data) (hX : 2 ≤ X.length)
    (nb : List ℤ → Data) (m : ℕ) (hm : 1 ≤ m) (hnb : ∀ s ∈ X, (nb s).length = m)
    (calcE : RowEnergy) (de : RowGradient) (θ : List ℝ)
    (h1 : ∀ s ∈ X, ∀ j < θ.length, ∃ d, de s j = .ok d ∧
      HasDerivAt (fun x => calcE (θ.set j x) s) d (θ.getD j 0))
    (h2 : ∀ s ∈ X, ∀ t ∈ nb s, ∀ j < θ.length, ∃ d, de t j = .ok d ∧
      HasDerivAt (fun x => calcE (θ.set j x) t) d (θ.getD j 0)) (v g)
    (hok : mpfLogK calcE (some de) (uniq X) ((uniq X).map fun s => X.count s) ((uniq X).map nb) θ =
      .ok (v, some g)) (hθ : θ.length ≠ 1) (j : ℕ) (hj : j < θ.length) :
    ¬ HasDerivAt (fun x => Real.log (probFlow X nb (calcE (θ.set j x)))) (g.getD j 0)
      (θ.getD j 0) := by
  have hne : X ≠ [] := by rintro rfl; simp at hX
  obtain ⟨g', e, -, h3⟩ := C39_logK_gradient_partial uniq hu X hne nb m hm hnb calcE de θ hθ h1 h2
  rw [hok] at e
  have hg : g = g' := by
    have := Except.ok.inj e
    simpa using congrArg Prod.snd this
  subst hg
  intro h
  have := h.unique (h3 j hj)
  have hlog : 0 < Real.log X.length := Real.log_pos (by exact_mod_cast hX)
  linarith

/-- C39. With a single parameter `logK` raises instead of returning a gradient. -/
theorem C39_one_parameter_raises (calcE : RowEnergy) (de : RowGradient) (U : Data) (c : List ℕ)
    (adjs : List Data) (θ : List ℝ) (hθ : θ.length = 1) (r) :
    mpfLogK calcE (some de) U c adjs θ ≠ .ok r := by
  have hlen : ∀ (its : List MpfItem) (m : ℕ) (js : List ℕ) (pw : List (List ℝ)) (acc g : List ℝ),
      mpfLogGradLoop de its m c js pw acc = .ok g → g.length = acc.length + js.length := by
    intro its m js
    induction js with
    | nil => intro pw acc g h; rw [mpfLogGradLoop] at h; cases h; rfl
    | cons j js ih =>
      intro pw acc g h
      rw [mpfLogGradLoop] at h
      split at h
      · exact absurd h (by simp)
      · split_ifs at h
        rw [ih _ _ _ h]
        simp; omega
  intro h
  unfold mpfLogK at h
  split at h
  · exact absurd h (by simp)
  · split at h
    · exact absurd h (by simp)
    · split at h
      · exact absurd h (by simp)
      · split_ifs at h
        simp only at h
        split at h
        · exact absurd h (by simp)
        · rename_i g hg
          have := hlen _ _ _ _ _ _ hg
          rw [if_pos (by simp [this, hθ])] at h
          exact absurd h (by simp)

/-- C38, C39. The constructor: by default there is no derivative function, so `solve` runs without
gradient; a `calc_de` or `adj` that is passed in is not stored and `solve` fails on the missing
attribute. -/
theorem C39_constructor {A D : Type*} (utilsAdj : A) (adjArg : Option A) (deArg : Option D) :
    ((mpfInit utilsAdj adjArg deArg).calcDe = some none ↔ deArg = none) ∧
    ((mpfInit utilsAdj adjArg deArg).calcDe = none ↔ deArg ≠ none) ∧
    ((mpfInit utilsAdj adjArg deArg).adj = some utilsAdj ↔ adjArg = none) ∧
    ((mpfInit utilsAdj adjArg deArg).adj = none ↔ adjArg ≠ none) := by
  unfold mpfInit
  cases adjArg <;> cases deArg <;> simp

/-- Non-vacuity of C38 and C39: a sample with a repeated state. -/
example : UniqSpec (List.dedup (α := List ℤ)) ∧ ([[0, 1], [1, 1], [0, 1]] : Data) ≠ [] ∧
    (∀ s ∈ ([[0, 1], [1, 1], [0, 1]] : Data), (flips (fun x => 1 - x) s).length = 2) ∧
    flips (fun x => 1 - x) [0, 1] = [[1, 1], [0, 0]] ∧
    ([1, 2, 3] : List ℝ).length = 2 + 2 * (2 - 1) / 2 := by
  refine ⟨fun v => ⟨List.nodup_dedup v, fun x => List.mem_dedup⟩, by simp, by decide, by decide, by simp⟩

/-- C74. Non-data neighbours: `all_connected=False` fails on the undefined name for any data. -/
theorem C74_not_all_connected_fails (calcE : RowEnergy) (uniq : Data → Data) (hu : UniqSpec uniq)
    (sample : Data) (hs : sample ≠ []) (uselog : Bool) (θ : List ℝ) :
    mpfF calcE uniq sample false uselog θ = .error .nameError := by
  have hne : uniq (toBits sample) ≠ [] := by
    obtain ⟨x, hx⟩ := List.exists_mem_of_ne_nil sample hs
    exact List.ne_nil_of_mem (((hu _).2 _).2 (List.mem_map_of_mem hx))
  unfold mpfF listAdjacentStates
  simp [hne]

theorem bits_flow (n : ℕ) (sample : Data) (hs : ∀ s ∈ sample, s.length = n ∧ ∀ x ∈ s, x = -1 ∨ x = 1)
    (E01 E11 : List ℤ → ℝ) (c : ℝ)
    (h : ∀ s : List ℤ, s.length = n → (∀ x ∈ s, x = -1 ∨ x = 1) →
      E11 s = E01 (s.map fun x => (x + 1) / 2) + c) :
    probFlow (toBits sample) (flips fun x => 1 - x) E01 = probFlow sample (flips fun x => -x) E11 := by
  unfold probFlow toBits
  rw [List.length_map, List.map_map]
  congr 1
  apply list_sum_congr
  intro s hsm
  obtain ⟨hl, hpm⟩ := hs s hsm
  simp only [Function.comp, flips, List.map_map, List.length_map]
  apply list_sum_congr
  intro i hi
  have hil : i < s.length := List.mem_range.1 hi
  simp only [Function.comp]
  have hval : s.getD i 0 = -1 ∨ s.getD i 0 = 1 := by
    rw [List.getD_eq_getElem _ _ hil]; exact hpm _ (List.getElem_mem hil)
  have e1 : (s.map fun x => (x + 1) / 2).set i (1 - (s.map fun x => (x + 1) / 2).getD i 0) =
      (s.set i (-s.getD i 0)).map fun x => (x + 1) / 2 := by
    rw [List.map_set]
    congr 1
    rw [List.getD_eq_getElem _ _ (by simpa using hil), List.getElem_map,
      ← List.getD_eq_getElem s 0 hil]
    rcases hval with hv | hv <;> rw [hv] <;> rfl
  rw [e1, h s hl hpm, h (s.set i (-s.getD i 0)) (by simpa using hl) (by
    intro x hx
    rcases List.mem_or_eq_of_mem_set hx with hx | rfl
    · exact hpm x hx
    · omega)]
  congr 2
  ring

theorem pm_bits (n : ℕ) (s : List ℤ) (hl : s.length = n) (hpm : ∀ x ∈ s, x = -1 ∨ x = 1) (i : ℕ)
    (hi : i < n) : ((spins s i : ℝ) + 1) / 2 = spins (s.map fun x => (x + 1) / 2) i := by
  unfold spins
  have hil : i < s.length := by omega
  rw [List.getD_eq_getElem _ _ hil, List.getD_eq_getElem _ _ (by simpa using hil), List.getElem_map]
  rcases hpm _ (List.getElem_mem hil) with h | h <;> rw [h] <;> norm_num

/-- C74. The function that `MPF.solve` minimises over {0,1} parameters `θ` is the (log) probability
flow of the original ±1 sample under the ±1 model with the parameters that `solve` would return for
`θ`. -/
theorem C74_objective (uniq : Data → Data) (hu : UniqSpec uniq) (n : ℕ) (hn : 1 ≤ n) (sample : Data)
    (hne : sample ≠ []) (hs : ∀ s ∈ sample, s.length = n ∧ ∀ x ∈ s, x = -1 ∨ x = 1) (θ : List ℝ)
    (hθ : θ.length = n + n * (n - 1) / 2) :
    ∃ r, (∀ r', MpfConverted n .b11 θ r' ↔ r' = r) ∧ r.length = θ.length ∧
      mpfF isingCalcERow uniq sample true false θ = .ok (some (probFlow sample (flips fun x => -x)
        fun s => isingVecE n (r.take n) (r.drop n) (spins s))) ∧
      mpfF isingCalcERow uniq sample true true θ =
        .ok (some (Real.log (probFlow sample (flips fun x => -x)
          fun s => isingVecE n (r.take n) (r.drop n) (spins s)))) := by
  obtain ⟨h, rest, -, hh, hshape, hflat, -, hsplit, hP'⟩ := split_pairwise n hn θ hθ
  obtain ⟨P, e, hl, hPs, c, hc⟩ := C13_to11_energy n h rest hh hshape
  obtain ⟨hlen, -, hE⟩ := hP' P hl hPs
  obtain ⟨-, -, hE0⟩ := hP' (h :: rest) rfl hshape
  have hflow := bits_flow n sample hs (isingCalcERow θ)
    (fun s => isingVecE n (P.flatten.take n) (P.flatten.drop n) (spins s)) c (by
      intro s hsl hpm
      rw [← hE, hc, isingCalcERow_vec n _ (by simpa using hsl) θ hθ, hE0, hflat]
      congr 1
      exact isingVecE_congr n _ _ _ _ fun i hi => pm_bits n s hsl hpm i hi)
  have hX : toBits sample ≠ [] := by simpa [toBits] using hne
  refine ⟨P.flatten, ?_, hlen, ?_, ?_⟩
  · intro r'
    unfold MpfConverted
    constructor
    · rintro ⟨Q, h1, h2⟩
      rw [(hsplit Q).1 h1] at h2
      unfold isingConvertParamsConcat at h2
      rw [e] at h2
      exact (Except.ok.inj h2).symm
    · rintro rfl
      refine ⟨_, (hsplit _).2 rfl, ?_⟩
      unfold isingConvertParamsConcat
      rw [e]; rfl
  · unfold mpfF
    simp only
    rw [adjacent_eq]
    simp only [Bool.false_eq_true, if_false]
    rw [C38_K uniq hu (toBits sample) hX, hflow]
  · unfold mpfF
    simp only
    rw [adjacent_eq]
    simp only [if_true]
    rw [(C38_logK uniq hu (toBits sample) hX _ n hn (by
      intro s hsm
      obtain ⟨t, ht, rfl⟩ := List.mem_map.1 hsm
      simp [flips, (hs t ht).1]) isingCalcERow θ).1, hflow]

/-- C74. A starting point given in ±1 parameters is converted to {0,1} parameters that convert back to
it: the search starts at the model the user asked for. -/
theorem C74_start (n : ℕ) (hn : 1 ≤ n) (g : List ℝ) (hg : g.length = n + n * (n - 1) / 2) :
    ∃ x0, (∀ x, MpfConverted n .b01 g x ↔ x = x0) ∧ x0.length = g.length ∧
      MpfConverted n .b11 x0 g := by
  obtain ⟨h, rest, -, hh, hshape, hflat, -, hsplit, hP'⟩ := split_pairwise n hn g hg
  obtain ⟨P, e, e2⟩ := C14_01_then_11 n h rest hh hshape
  obtain ⟨P2, e3, hl, hPs, -⟩ := C13_to01_energy n h rest hh hshape
  rw [e] at e3
  cases e3
  obtain ⟨hlen, hs2, -⟩ := hP' P hl hPs
  refine ⟨P.flatten, ?_, hlen, P, (hs2 P).2 rfl, ?_⟩
  · intro x
    unfold MpfConverted
    constructor
    · rintro ⟨Q, h1, h2⟩
      rw [(hsplit Q).1 h1] at h2
      unfold isingConvertParamsConcat at h2
      rw [e] at h2
      exact (Except.ok.inj h2).symm
    · rintro rfl
      refine ⟨_, (hsplit _).2 rfl, ?_⟩
      unfold isingConvertParamsConcat
      rw [e]; rfl
  · unfold isingConvertParamsConcat
    rw [e2]
    simp only [bind, Except.bind, pure, Except.pure, hflat]

/-- Non-vacuity of C74. -/
example : isingConvertParamsConcat ([[2, 4], [8]] : List (List ℚ)) .b11 = .ok [3, 4, 2] ∧
    toBits [[1, -1], [-1, -1]] = [[1, 0], [0, 0]] := by decide +kernel

/-- C75. Consistency: if the states occur in the sample with the frequencies of the Boltzmann
distribution of a pairwise model, the probability flow is smallest at that model's parameters and
nowhere else. -/
theorem C75_consistent (n : ℕ) (θ : List ℝ) (hθ : θ.length = n + n * (n - 1) / 2) (sample : Data)
    (hne : sample ≠ []) (hs : ∀ s ∈ sample, s ∈ words [1, -1] n)
    (hdist : ∀ s ∈ words [1, -1] n, (sample.count s : ℝ) / sample.length =
      boltzmann (words [1, -1] n) (fun s => isingVecE n (θ.take n) (θ.drop n) (spins s)) s)
    (θ' : List ℝ) (hθ' : θ'.length = n + n * (n - 1) / 2) :
    probFlow sample (flips fun x => -x) (fun s => isingVecE n (θ.take n) (θ.drop n) (spins s)) ≤
      probFlow sample (flips fun x => -x)
        (fun s => isingVecE n (θ'.take n) (θ'.drop n) (spins s)) ∧
    (probFlow sample (flips fun x => -x)
        (fun s => isingVecE n (θ'.take n) (θ'.drop n) (spins s)) ≤
      probFlow sample (flips fun x => -x)
        (fun s => isingVecE n (θ.take n) (θ.drop n) (spins s)) → θ' = θ) := by
  obtain ⟨S, hS⟩ : ∃ S : Data, S = words [1, -1] n := ⟨_, rfl⟩
  obtain ⟨E, hE⟩ : ∃ E : List ℤ → ℝ, E = fun s => isingVecE n (θ.take n) (θ.drop n) (spins s) := ⟨_, rfl⟩
  obtain ⟨E', hE'⟩ : ∃ E : List ℤ → ℝ, E = fun s => isingVecE n (θ'.take n) (θ'.drop n) (spins s) :=
    ⟨_, rfl⟩
  have hnd : S.Nodup := by rw [hS]; exact nodup_words (by decide) n
  have hlen : (sample.length : ℝ) ≠ 0 := by
    have : sample.length ≠ 0 := by simpa using hne
    exact_mod_cast this
  have hflow : ∀ F : List ℤ → ℝ, probFlow sample (flips fun x => -x) F =
      ((List.range n).map fun i => (S.map fun s =>
        boltzmann S E s * Real.exp ((F s - F (s.set i (-s.getD i 0))) / 2)).sum).sum := by
    intro F
    unfold probFlow
    rw [sum_by_count S sample hnd (by rw [hS]; exact hs), ← list_sum_div, ← list_sum_comm]
    apply list_sum_congr
    intro s hsm
    have h1 := hdist s (hS ▸ hsm)
    rw [← hS, ← hE] at h1
    have hl : s.length = n := (mem_words.1 (hS ▸ hsm)).1
    rw [list_sum_mul_left, ← h1]
    simp only [flips, List.map_map, hl, Function.comp_def]
    ring
  rw [← hE, ← hE', hflow, hflow]
  have key := fun i => flow_invol S hnd (fun s => s.set i (-s.getD i 0))
    (fun s hsm => by rw [hS] at hsm ⊢; exact flip_mem_words n i s hsm) (fun s _ => flip_flip i s) E E'
  refine ⟨list_sum_le _ _ _ fun i _ => (key i).1, fun hle => ?_⟩
  have hz : ∀ i ∈ List.range n, (S.map fun s =>
      boltzmann S E s * Real.exp ((E' s - E' (s.set i (-s.getD i 0))) / 2)).sum -
      (S.map fun s => boltzmann S E s * Real.exp ((E s - E (s.set i (-s.getD i 0))) / 2)).sum = 0 := by
    apply eq_of_sum_zero
    · intro i _
      have := (key i).1
      linarith
    · apply le_antisymm
      · rw [list_sum_sub]; linarith
      · apply List.sum_nonneg
        intro v hv
        obtain ⟨i, -, rfl⟩ := List.mem_map.1 hv
        have := (key i).1
        linarith
  have hconst := const_of_flips n (fun s => E' s - E s) (by
    intro s hsm i hi
    have h1 := hz i (List.mem_range.2 hi)
    exact (key i).2 (by linarith) s (hS ▸ hsm))
  have htake : ∀ v : List ℝ, v.length = n + n * (n - 1) / 2 → (v.take n).length = n ∧
      (v.drop n).length = n * (n - 1) / 2 := by
    intro v hv
    rw [List.length_take, List.length_drop]
    omega
  obtain ⟨a1, a2⟩ := htake θ hθ
  obtain ⟨b1, b2⟩ := htake θ' hθ'
  have := poly_unique_words n true [θ'.take n, θ'.drop n] [θ.take n, θ.drop n] rfl
    (polyShape_two n _ _ b1 b2) (polyShape_two n _ _ a1 a2)
    (E' (List.replicate n 1) - E (List.replicate n 1)) (by
      intro s hsm
      have h1 : s ∈ words [1, -1] n := by
        obtain ⟨h1, h2⟩ := mem_words.1 hsm
        refine mem_words.2 ⟨h1, fun x hx => ?_⟩
        have := h2 x hx
        simp only [spinValues, if_true, List.mem_cons, List.not_mem_nil, or_false] at this ⊢
        tauto
      have h2 := hconst s h1
      rw [polyE_two n _ _ b1 b2, polyE_two n _ _ a1 a2]
      rw [hE, hE'] at h2 ⊢
      simp only at h2 ⊢
      linarith)
  simp only [List.cons.injEq, and_true] at this
  rw [← List.take_append_drop n θ', this.1, this.2, List.take_append_drop]

/-- C75. The same for `MPF.solve` itself: with a sample at the Boltzmann frequencies of `θ`, a parameter
vector minimises the function handed to the library (with or without the logarithm) exactly when `solve`
converts it to `θ`. -/
theorem C75_solve (uniq : Data → Data) (hu : UniqSpec uniq) (n : ℕ) (hn : 1 ≤ n) (θ : List ℝ)
    (hθ : θ.length = n + n * (n - 1) / 2) (sample : Data) (hne : sample ≠ [])
    (hs : ∀ s ∈ sample, s ∈ words [1, -1] n)
    (hdist : ∀ s ∈ words [1, -1] n, (sample.count s : ℝ) / sample.length =
      boltzmann (words [1, -1] n) (fun s => isingVecE n (θ.take n) (θ.drop n) (spins s)) s)
    (uselog : Bool) (y : List ℝ) (hy : y.length = n + n * (n - 1) / 2) :
    (∀ z a b, z.length = n + n * (n - 1) / 2 →
      mpfF isingCalcERow uniq sample true uselog y = .ok (some a) →
      mpfF isingCalcERow uniq sample true uselog z = .ok (some b) → a ≤ b) ↔
    MpfConverted n .b11 y θ := by
  have hpm : ∀ s ∈ sample, s.length = n ∧ ∀ x ∈ s, x = -1 ∨ x = 1 := by
    intro s hsm
    obtain ⟨h1, h2⟩ := mem_words.1 (hs s hsm)
    refine ⟨h1, fun x hx => ?_⟩
    have := h2 x hx
    simp only [List.mem_cons, List.not_mem_nil, or_false] at this
    tauto
  obtain ⟨r, hr, hrl, hK, hL⟩ := C74_objective uniq hu n hn sample hne hpm y hy
  have hpos : ∀ E : List ℤ → ℝ, 0 < probFlow sample (flips fun x => -x) E := fun E =>
    probFlow_pos _ hne _ (fun s hsm => by
      have := (hpm s hsm).1
      intro h
      have h' := congrArg List.length h
      simp [flips] at h'
      simp [h'] at this
      omega) E
  have hmono : ∀ E F : List ℤ → ℝ, Real.log (probFlow sample (flips fun x => -x) E) ≤
      Real.log (probFlow sample (flips fun x => -x) F) ↔
      probFlow sample (flips fun x => -x) E ≤ probFlow sample (flips fun x => -x) F :=
    fun E F => Real.log_le_log_iff (hpos E) (hpos F)
  rw [hr]
  constructor
  · intro hmin
    obtain ⟨z, hz, hzl, hzc⟩ := C74_start n hn θ hθ
    obtain ⟨r', hr', -, hK', hL'⟩ := C74_objective uniq hu n hn sample hne hpm z (hzl.trans hθ)
    have : r' = θ := ((hr' θ).1 hzc).symm
    subst this
    have hle := C75_consistent n r' hθ sample hne hs hdist r (hrl.trans hy)
    symm
    apply hle.2
    rcases uselog with _ | _
    · exact hmin z _ _ (hzl.trans hθ) hK hK'
    · exact (hmono _ _).1 (hmin z _ _ (hzl.trans hθ) hL hL')
  · rintro rfl z a b hz h1 h2
    obtain ⟨r', -, hrl', hK', hL'⟩ := C74_objective uniq hu n hn sample hne hpm z hz
    have hle := (C75_consistent n θ hθ sample hne hs hdist r' (hrl'.trans hz)).1
    rcases uselog with _ | _
    · rw [hK] at h1
      rw [hK'] at h2
      rw [← Option.some.inj (Except.ok.inj h1), ← Option.some.inj (Except.ok.inj h2)]
      exact hle
    · rw [hL] at h1
      rw [hL'] at h2
      rw [← Option.some.inj (Except.ok.inj h1), ← Option.some.inj (Except.ok.inj h2)]
      exact (hmono _ _).2 hle

/-- Non-vacuity of C75: two free spins, each state once. -/
example : (∀ s ∈ words ([1, -1] : List ℤ) 2, (words ([1, -1] : List ℤ) 2).count s = 1) ∧
    ∀ s ∈ words ([1, -1] : List ℤ) 2, ((words ([1, -1] : List ℤ) 2).count s : ℝ) /
      (words ([1, -1] : List ℤ) 2).length =
      boltzmann (words ([1, -1] : List ℤ) 2)
        (fun s => isingVecE 2 ([0, 0, 0].take 2) ([0, 0, 0].drop 2) (spins s)) s := by
  have h0 : ∀ x : ℕ → ℝ, isingVecE 2 ([0, 0, 0].take 2) ([0, 0, 0].drop 2) x = 0 := by
    intro x
    simp [isingVecE, isingE, couplingAt, Finset.sum_range_succ]
  refine ⟨by decide, fun s hs => ?_⟩
  have : (words ([1, -1] : List ℤ) 2).count s = 1 := by revert s; decide
  rw [this]
  have hl : (words ([1, -1] : List ℤ) 2).length = 4 := by decide
  unfold boltzmann partition
  simp only [h0, neg_zero, Real.exp_zero, List.map_const', List.sum_replicate, hl]
  norm_num

end Verif.Props
