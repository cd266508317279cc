/-
C110: when minimum probability flow and pseudolikelihood have an optimum to find.
-/
import Verif.Lemmas.Attain2
import Verif.Props.Mpf
import Verif.Props.Pseudo
import Verif.Props.EnumerateObj

namespace Verif.Props
open Verif Verif.Model Verif.Spec Verif.Lemmas

/-- Under the energy of the parameters `w` no row of the data has less energy after one spin is flipped, and after some
flip of some row there is more. -/
def StableData (n : ℕ) (X : Data) (w : List ℝ) : Prop :=
  (∀ s ∈ X, ∀ r < n, pairE n w s ≤ pairE n w (s.set r (-s.getD r 0))) ∧
    ∃ s ∈ X, ∃ r < n, pairE n w s < pairE n w (s.set r (-s.getD r 0))

theorem spinData_pm {n : ℕ} {X : Data} (hX : SpinData n X) :
    ∀ s ∈ X, s.length = n ∧ ∀ r < n, s.getD r 0 = 1 ∨ s.getD r 0 = -1 := by
  intro s hs
  obtain ⟨h1, h2⟩ := mem_words.1 (hX.2 s hs)
  refine ⟨h1, fun r hr => ?_⟩
  have := h2 _ (List.getElem_mem (h1 ▸ hr : r < s.length))
  rw [List.getD_eq_getElem _ _ (h1 ▸ hr)]
  simp at this
  tauto

theorem stable_iff (n : ℕ) (X : Data) :
    (∀ w : List ℝ, w.length = n + n * (n - 1) / 2 → ¬ StableData n X w) ↔
    ∀ w : List ℝ, w.length = n + n * (n - 1) / 2 →
      (∀ s ∈ X, ∀ r ∈ List.range n, pairE n w s ≤ pairE n w (s.set r (-s.getD r 0))) →
      ∀ s ∈ X, ∀ r ∈ List.range n, pairE n w s = pairE n w (s.set r (-s.getD r 0)) := by
  refine forall_congr' fun w => imp_congr_right fun _ => ?_
  unfold StableData
  simp only [List.mem_range]
  constructor
  · intro h h1 s hs r hr
    by_contra hne
    exact h ⟨h1, s, hs, r, hr, lt_of_le_of_ne (h1 s hs r hr) hne⟩
  · rintro h ⟨h1, s, hs, r, hr, hlt⟩
    exact absurd (h h1 s hs r hr) hlt.ne

/-- The flow of the data has a smallest value. -/
def FlowAttained (n : ℕ) (X : Data) : Prop :=
  ∃ θ : List ℝ, θ.length = n + n * (n - 1) / 2 ∧ ∀ θ' : List ℝ, θ'.length = n + n * (n - 1) / 2 →
    probFlow X (flips fun x => -x) (pairE n θ) ≤ probFlow X (flips fun x => -x) (pairE n θ')

theorem mem_flips {n : ℕ} {s t : List ℤ} (hs : s.length = n) :
    t ∈ flips (fun x => -x) s ↔ ∃ r < n, t = s.set r (-s.getD r 0) := by
  unfold flips
  rw [List.mem_map, hs]
  simp only [List.mem_range]
  exact exists_congr fun r => and_congr_right fun _ => eq_comm

theorem flips_pairs_ne {n : ℕ} (hn : 1 ≤ n) {X : Data} (hX : SpinData n X) : nbrPairs X (flips fun x => -x) ≠ [] := by
  obtain ⟨s, hs⟩ := List.exists_mem_of_ne_nil _ hX.1
  have : (s, s.set 0 (-s.getD 0 0)) ∈ nbrPairs X (flips fun x => -x) :=
    mem_nbrPairs.2 ⟨hs, (mem_flips (spinData_pm hX s hs).1).2 ⟨0, hn, rfl⟩⟩
  exact List.ne_nil_of_mem this

theorem flow_iff (n : ℕ) (hn : 1 ≤ n) (X : Data) (hX : SpinData n X) :
    FlowAttained n X ↔ ∀ w : List ℝ, w.length = n + n * (n - 1) / 2 → ¬ StableData n X w := by
  unfold FlowAttained
  rw [flow_attained_iff n X _ (flips_pairs_ne hn hX), stable_iff]
  refine forall_congr' fun w => imp_congr_right fun _ => ?_
  simp only [List.mem_range]
  refine imp_congr ⟨fun h s hs r hr => ?_, fun h s hs t ht => ?_⟩ ⟨fun h s hs r hr => ?_, fun h s hs t ht => ?_⟩
  · exact h s hs _ ((mem_flips (spinData_pm hX s hs).1).2 ⟨r, hr, rfl⟩)
  · obtain ⟨r, hr, rfl⟩ := (mem_flips (spinData_pm hX s hs).1).1 ht
    exact h s hs r hr
  · exact h s hs _ ((mem_flips (spinData_pm hX s hs).1).2 ⟨r, hr, rfl⟩)
  · obtain ⟨r, hr, rfl⟩ := (mem_flips (spinData_pm hX s hs).1).1 ht
    exact h s hs r hr

/-- `y` is a smallest point of the function that `MPF.solve` hands to the library. -/
def MpfMinimum (uniq : Data → Data) (n : ℕ) (X : Data) (uselog : Bool) (y : List ℝ) : Prop :=
  y.length = n + n * (n - 1) / 2 ∧ ∀ z a b, z.length = n + n * (n - 1) / 2 →
    mpfF isingCalcERow uniq X true uselog y = .ok (some a) →
    mpfF isingCalcERow uniq X true uselog z = .ok (some b) → a ≤ b

theorem mpf_minimum_iff (uniq : Data → Data) (hu : UniqSpec uniq) (n : ℕ) (hn : 1 ≤ n) (X : Data) (hX : SpinData n X)
    (uselog : Bool) (y r : List ℝ) (hr : MpfConverted n .b11 y r) (hy : y.length = n + n * (n - 1) / 2) :
    MpfMinimum uniq n X uselog y ↔ ∀ θ' : List ℝ, θ'.length = n + n * (n - 1) / 2 →
      probFlow X (flips fun x => -x) (pairE n r) ≤ probFlow X (flips fun x => -x) (pairE n θ') := by
  have hpm : ∀ s ∈ X, s.length = n ∧ ∀ x ∈ s, x = -1 ∨ x = 1 := by
    intro s hsm
    obtain ⟨h1, h2⟩ := mem_words.1 (hX.2 s hsm)
    exact ⟨h1, fun x hx => by simpa using h2 x hx⟩
  have hpos : ∀ E : List ℤ → ℝ, 0 < probFlow X (flips fun x => -x) E := fun E =>
    probFlow_pos _ hX.1 _ (fun s hsm => by
      have := (hpm s hsm).1
      intro h
      have h' := congrArg List.length h
      simp [flips] at h'
      simp [h'] at this
      omega) E
  obtain ⟨r0, e0, -, hK, hL⟩ := C74_objective uniq hu n hn X hX.1 hpm y hy
  obtain rfl := (e0 r).1 hr
  constructor
  · rintro ⟨-, h⟩ θ' hθ'
    obtain ⟨z, hz, hzl, hzc⟩ := C74_start n hn θ' hθ'
    obtain ⟨r', hr', -, hK', hL'⟩ := C74_objective uniq hu n hn X hX.1 hpm z (hzl.trans hθ')
    obtain rfl := (hr' θ').1 hzc
    rcases uselog with _ | _
    · exact h z _ _ (hzl.trans hθ') hK hK'
    · exact (Real.log_le_log_iff (hpos _) (hpos _)).1 (h z _ _ (hzl.trans hθ') hL hL')
  · intro h
    refine ⟨hy, fun z a b hz ha hb => ?_⟩
    obtain ⟨r', hr', hrl, hK', hL'⟩ := C74_objective uniq hu n hn X hX.1 hpm z hz
    have := h r' (hrl.trans hz)
    rcases uselog with _ | _
    · rw [hK] at ha
      rw [hK'] at hb
      rw [← Option.some.inj (Except.ok.inj ha), ← Option.some.inj (Except.ok.inj hb)]
      exact this
    · rw [hL] at ha
      rw [hL'] at hb
      rw [← Option.some.inj (Except.ok.inj ha), ← Option.some.inj (Except.ok.inj hb)]
      exact (Real.log_le_log_iff (hpos _) (hpos _)).2 this

/-- C110. Minimum probability flow: the function that `MPF.solve` minimises has a minimum exactly if under no pairwise
energy all rows of the data are stable against flips of single spins (except if no flip changes the energy). -/
theorem C110_mpf (uniq : Data → Data) (hu : UniqSpec uniq) (n : ℕ) (hn : 1 ≤ n) (X : Data) (hX : SpinData n X)
    (uselog : Bool) : (∃ y, MpfMinimum uniq n X uselog y) ↔
      ∀ w : List ℝ, w.length = n + n * (n - 1) / 2 → ¬ StableData n X w := by
  have hpm : ∀ s ∈ X, s.length = n ∧ ∀ x ∈ s, x = -1 ∨ x = 1 := by
    intro s hsm
    obtain ⟨h1, h2⟩ := mem_words.1 (hX.2 s hsm)
    exact ⟨h1, fun x hx => by simpa using h2 x hx⟩
  rw [← flow_iff n hn X hX]
  constructor
  · rintro ⟨y, h⟩
    obtain ⟨r0, e0, hl, -⟩ := C74_objective uniq hu n hn X hX.1 hpm y h.1
    exact ⟨r0, hl.trans h.1, (mpf_minimum_iff uniq hu n hn X hX uselog y r0 ((e0 r0).2 rfl) h.1).1 h⟩
  · rintro ⟨θ, hθ, h⟩
    obtain ⟨z, hz, hzl, hzc⟩ := C74_start n hn θ hθ
    exact ⟨z, (mpf_minimum_iff uniq hu n hn X hX uselog z θ hzc (hzl.trans hθ)).2 h⟩

/-- C110. Pseudolikelihood, all spins together (`_solve_general`): a minimum exists under the same condition on the
data. -/
theorem C110_pseudo_general (n : ℕ) (X : Data) (hX : SpinData n X) :
    (∃ θ, IsMinimizer (generalPseudoF n X) (n + n * (n - 1) / 2) θ) ↔
      ∀ w : List ℝ, w.length = n + n * (n - 1) / 2 → ¬ StableData n X w := by
  have hpm := spinData_pm hX
  have hE : vecE = pairE := rfl
  rw [stable_iff, ← pseudo_attained_iff n X (List.range n) fun r hr s hs =>
    ⟨by rw [(hpm s hs).1]; exact List.mem_range.1 hr, (hpm s hs).2 r (List.mem_range.1 hr)⟩]
  unfold IsMinimizer
  refine exists_congr fun θ => and_congr_right fun hθ => ?_
  obtain ⟨g, e, -⟩ := C40_total_objective n X hpm θ hθ
  constructor
  · intro h θ' hθ'
    obtain ⟨g', e', -⟩ := C40_total_objective n X hpm θ' hθ'
    exact h θ' _ _ _ _ hθ' e e'
  · intro h θ' v g1 w g2 hθ' hv hw
    obtain ⟨g', e', -⟩ := C40_total_objective n X hpm θ' hθ'
    rw [e] at hv
    rw [e'] at hw
    simp only [Except.ok.injEq, Prod.mk.injEq] at hv hw
    rw [← hv.1, ← hw.1]
    exact h θ' hθ'

/-- C110. Pseudolikelihood, spin by spin (`_solve_ising`): the function minimised for spin `r` has a minimum exactly if no
pairwise energy keeps spin `r` of every row in place, except if flipping it changes no energy. -/
theorem C110_pseudo_spin (n r : ℕ) (hr : r < n) (X : Data) (hX : SpinData n X) (G : List ℝ)
    (hG : G.length = n + n * (n - 1) / 2) :
    (∃ m, IsMinimizer (isingPseudoF n r X G) n m) ↔
      ¬ ∃ w : List ℝ, w.length = n + n * (n - 1) / 2 ∧
        (∀ s ∈ X, pairE n w s ≤ pairE n w (s.set r (-s.getD r 0))) ∧
          ∃ s ∈ X, pairE n w s < pairE n w (s.set r (-s.getD r 0)) := by
  have hpm := spinData_pm hX
  have hX1 : ∀ s ∈ X, s.length = n ∧ (s.getD r 0 = 1 ∨ s.getD r 0 = -1) := fun s hs => ⟨(hpm s hs).1, (hpm s hs).2 r hr⟩
  have h1 : (∃ m, IsMinimizer (isingPseudoF n r X G) n m) ↔
      ∃ θ : List ℝ, θ.length = n + n * (n - 1) / 2 ∧ ∀ θ' : List ℝ, θ'.length = n + n * (n - 1) / 2 →
        ([r].map fun r => negCondLogLik (pairE n θ) [1, -1] X r).sum ≤
          ([r].map fun r => negCondLogLik (pairE n θ') [1, -1] X r).sum := by
    simp only [List.map_cons, List.map_nil, List.sum_cons, List.sum_nil, add_zero]
    constructor
    · rintro ⟨m, hm, h⟩
      obtain ⟨θ, ix, hθ, hsel⟩ := C40_every_argument n r hr m hm
      obtain ⟨g, e, -⟩ := C40_conditional_objective n r hr X hX1 θ G hθ hG m ix hsel
      refine ⟨θ, hθ, fun θ' hθ' => ?_⟩
      have hsel' := getMultipliersR_sel hr θ' hθ'
      obtain ⟨g', e', -⟩ := C40_conditional_objective n r hr X hX1 θ' G hθ' hG _ _ hsel'
      exact h _ _ _ _ _ (by simp [sel, length_spinIx hr]) e e'
    · rintro ⟨θ, hθ, h⟩
      have hsel := getMultipliersR_sel hr θ hθ
      obtain ⟨g, e, -⟩ := C40_conditional_objective n r hr X hX1 θ G hθ hG _ _ hsel
      refine ⟨sel θ (spinIx n r), by simp [sel, length_spinIx hr], fun m' v g1 w g2 hm' hv hw => ?_⟩
      obtain ⟨θ', ix, hθ', hsel'⟩ := C40_every_argument n r hr m' hm'
      obtain ⟨g', e', -⟩ := C40_conditional_objective n r hr X hX1 θ' G hθ' hG m' ix hsel'
      rw [e] at hv
      rw [e'] at hw
      simp only [Except.ok.injEq, Prod.mk.injEq] at hv hw
      rw [← hv.1, ← hw.1]
      exact h θ' hθ'
  rw [h1, pseudo_attained_iff n X [r] fun r' hr' s hs => by
    obtain rfl := List.mem_singleton.1 hr'
    exact ⟨by rw [(hX1 s hs).1]; exact hr, (hX1 s hs).2⟩]
  simp only [List.mem_singleton, forall_eq]
  constructor
  · rintro h ⟨w, hw, h2, s, hs, hlt⟩
    exact absurd (h w hw h2 s hs) hlt.ne
  · intro h w hw h2 s hs
    by_contra hne
    exact h ⟨w, hw, h2, s, hs, lt_of_le_of_ne (h2 s hs) hne⟩

/-! ### A pair of spins that never shows one of its four patterns -/

theorem spins_set {s : List ℤ} {r : ℕ} (hr : r < s.length) (x : ℤ) (k : ℕ) :
    (spins (s.set r x) k : ℝ) = if k = r then (x : ℝ) else spins s k := by
  unfold spins
  by_cases h : k = r
  · subst h
    rw [if_pos rfl, List.getD_eq_getElem _ _ (by simpa using hr), List.getElem_set_self]
  · rw [if_neg h, List.getD_eq_getElem?_getD, List.getElem?_set_ne (fun e => h e.symm), ← List.getD_eq_getElem?_getD]

/-- Energy that one pattern of one pair has and the others do not. -/
theorem pattern_vector (n i j : ℕ) (hij : i ≠ j) (hi : i < n) (hj : j < n) (a b : ℝ) : ∃ w : List ℝ,
    w.length = n + n * (n - 1) / 2 ∧
      ∀ s, pairE n w s = a * spins s i + b * spins s j + a * b * (spins s i * spins s j) := by
  rcases Nat.lt_or_gt_of_ne hij with h | h
  · obtain ⟨w, h1, -, h2⟩ := pair_vector n i j h hj a b (a * b)
    exact ⟨w, h1, h2⟩
  · obtain ⟨w, h1, -, h2⟩ := pair_vector n j i h hi b a (a * b)
    exact ⟨w, h1, fun s => by rw [h2]; ring⟩

theorem pm_cast {x : ℤ} (h : x = 1 ∨ x = -1) : ((x : ℝ)) = 1 ∨ (x : ℝ) = -1 := by
  rcases h with h | h <;> rw [h] <;> simp

/-- C110. If spin `i` has the same value in all rows with `s_j = b`, and there are such rows, the function minimised for
spin `i` has no minimum: whatever vector the library returns, there is a better one. -/
theorem C110_spin_missing (n i j : ℕ) (hij : i ≠ j) (hi : i < n) (hj : j < n) (X : Data) (hX : SpinData n X) (a b : ℤ)
    (ha : a = 1 ∨ a = -1) (hb : b = 1 ∨ b = -1) (hex : ∃ s ∈ X, s.getD j 0 = b)
    (hmiss : ∀ s ∈ X, ¬ (s.getD i 0 = a ∧ s.getD j 0 = b)) (G : List ℝ) (hG : G.length = n + n * (n - 1) / 2) :
    ¬ ∃ m, IsMinimizer (isingPseudoF n i X G) n m := by
  rw [C110_pseudo_spin n i hi X hX G hG, not_not]
  have hpm := spinData_pm hX
  obtain ⟨w, hw, hE⟩ := pattern_vector n i j hij hi hj a b
  have key : ∀ s ∈ X, (s.getD j 0 = b → pairE n w s < pairE n w (s.set i (-s.getD i 0))) ∧
      (s.getD j 0 ≠ b → pairE n w s = pairE n w (s.set i (-s.getD i 0))) := by
    intro s hs
    have hl := (hpm s hs).1
    have h1 := (hpm s hs).2 i hi
    have h2 := (hpm s hs).2 j hj
    have h3 := hmiss s hs
    have e1 : (spins s i : ℝ) = (s.getD i 0 : ℤ) := rfl
    have e2 : (spins s j : ℝ) = (s.getD j 0 : ℤ) := rfl
    rw [hE, hE, spins_set (by omega), spins_set (by omega), if_pos rfl, if_neg (Ne.symm hij), e1, e2]
    generalize s.getD i 0 = x at *
    generalize s.getD j 0 = y at *
    rcases ha with rfl | rfl <;> rcases hb with rfl | rfl <;> rcases h1 with rfl | rfl <;> rcases h2 with rfl | rfl <;>
      first | exact absurd ⟨rfl, rfl⟩ h3 | norm_num
  refine ⟨w, hw, fun s hs => ?_, ?_⟩
  · by_cases h : s.getD j 0 = b
    · exact ((key s hs).1 h).le
    · exact ((key s hs).2 h).le
  · obtain ⟨s, hs, h⟩ := hex
    exact ⟨s, hs, (key s hs).1 h⟩

theorem stable_of_missing (n i j : ℕ) (hij : i ≠ j) (hi : i < n) (hj : j < n) (X : Data) (hX : SpinData n X) (a b : ℤ)
    (ha : a = 1 ∨ a = -1) (hb : b = 1 ∨ b = -1) (hmiss : ∀ s ∈ X, ¬ (s.getD i 0 = a ∧ s.getD j 0 = b)) :
    ∃ w : List ℝ, w.length = n + n * (n - 1) / 2 ∧ StableData n X w := by
  have hpm := spinData_pm hX
  by_cases hc : ∃ s ∈ X, s.getD i 0 = a ∨ s.getD j 0 = b
  · obtain ⟨w, hw, hE⟩ := pattern_vector n i j hij hi hj a b
    have key : ∀ s ∈ X, ∀ r < n, pairE n w s ≤ pairE n w (s.set r (-s.getD r 0)) ∧
        ((s.getD i 0 = a ∧ r = j ∨ s.getD j 0 = b ∧ r = i) → pairE n w s < pairE n w (s.set r (-s.getD r 0))) := by
      intro s hs r hr
      have hl := (hpm s hs).1
      have h1 := (hpm s hs).2 i hi
      have h2 := (hpm s hs).2 j hj
      have h3 := hmiss s hs
      have e1 : (spins s i : ℝ) = (s.getD i 0 : ℤ) := rfl
      have e2 : (spins s j : ℝ) = (s.getD j 0 : ℤ) := rfl
      rw [hE, hE, spins_set (by omega), spins_set (by omega), e1, e2]
      by_cases hri : r = i
      · subst hri
        rw [if_pos rfl, if_neg (Ne.symm hij)]
        generalize s.getD r 0 = x at *
        generalize s.getD j 0 = y at *
        rcases ha with rfl | rfl <;> rcases hb with rfl | rfl <;> rcases h1 with rfl | rfl <;> rcases h2 with rfl | rfl <;>
          simp [hij] at h3 ⊢ <;> norm_num
      · by_cases hrj : r = j
        · subst hrj
          rw [if_pos rfl, if_neg hij]
          generalize s.getD i 0 = x at *
          generalize s.getD r 0 = y at *
          rcases ha with rfl | rfl <;> rcases hb with rfl | rfl <;> rcases h1 with rfl | rfl <;> rcases h2 with rfl | rfl <;>
            simp [hri] at h3 ⊢ <;> norm_num
        · rw [if_neg fun h => hri h.symm, if_neg fun h => hrj h.symm]
          exact ⟨le_rfl, fun h => by rcases h with ⟨-, h⟩ | ⟨-, h⟩ <;> contradiction⟩
    refine ⟨w, hw, fun s hs r hr => (key s hs r hr).1, ?_⟩
    obtain ⟨s, hs, h | h⟩ := hc
    · exact ⟨s, hs, j, hj, (key s hs j hj).2 (Or.inl ⟨h, rfl⟩)⟩
    · exact ⟨s, hs, i, hi, (key s hs i hi).2 (Or.inr ⟨h, rfl⟩)⟩
  · push Not at hc
    obtain ⟨w, hw, hE⟩ : ∃ w : List ℝ, w.length = n + n * (n - 1) / 2 ∧ ∀ s, pairE n w s = a * spins s i := by
      rcases Nat.lt_or_gt_of_ne hij with h | h
      · obtain ⟨w, h1, -, h2⟩ := pair_vector n i j h hj a 0 0
        exact ⟨w, h1, fun s => by rw [h2]; ring⟩
      · obtain ⟨w, h1, -, h2⟩ := pair_vector n j i h hi 0 a 0
        exact ⟨w, h1, fun s => by rw [h2]; ring⟩
    have key : ∀ s ∈ X, ∀ r < n, pairE n w s ≤ pairE n w (s.set r (-s.getD r 0)) ∧
        (r = i → pairE n w s < pairE n w (s.set r (-s.getD r 0))) := by
      intro s hs r hr
      have hl := (hpm s hs).1
      have h1 := (hpm s hs).2 i hi
      have h3 := (hc s hs).1
      have e1 : (spins s i : ℝ) = (s.getD i 0 : ℤ) := rfl
      rw [hE, hE, spins_set (by omega), e1]
      by_cases hri : r = i
      · subst hri
        rw [if_pos rfl]
        generalize s.getD r 0 = x at *
        rcases ha with rfl | rfl <;> rcases h1 with rfl | rfl <;>
          first | exact absurd rfl h3 | norm_num
      · rw [if_neg fun h => hri h.symm]
        exact ⟨le_rfl, fun h => absurd h hri⟩
    obtain ⟨s, hs⟩ := List.exists_mem_of_ne_nil _ hX.1
    exact ⟨w, hw, fun s hs r hr => (key s hs r hr).1, s, hs, i, hi, (key s hs i hi).2 rfl⟩

/-- C110. If one of the four patterns of some pair of spins is not in the data, neither MPF nor the pseudolikelihood has
an optimum over all parameters; the library is called all the same. (The bounds given to it in `MPF.solve` are the subject of
C116.) -/
theorem C110_pair_missing (uniq : Data → Data) (hu : UniqSpec uniq) (n i j : ℕ) (hij : i ≠ j) (hi : i < n) (hj : j < n)
    (X : Data) (hX : SpinData n X) (a b : ℤ) (ha : a = 1 ∨ a = -1) (hb : b = 1 ∨ b = -1)
    (hmiss : ∀ s ∈ X, ¬ (s.getD i 0 = a ∧ s.getD j 0 = b)) :
    (∀ uselog, ¬ ∃ y, MpfMinimum uniq n X uselog y) ∧
      ¬ ∃ θ, IsMinimizer (generalPseudoF n X) (n + n * (n - 1) / 2) θ := by
  obtain ⟨w, hw, h⟩ := stable_of_missing n i j hij hi hj X hX a b ha hb hmiss
  refine ⟨fun uselog hc => ?_, fun hc => ?_⟩
  · exact (C110_mpf uniq hu n (by omega) X hX uselog).1 hc w hw h
  · exact (C110_pseudo_general n X hX).1 hc w hw h

/-! ### Uniqueness -/

theorem converted_inj (n : ℕ) (hn : 1 ≤ n) (y z r : List ℝ) (hy : y.length = n + n * (n - 1) / 2)
    (hz : z.length = n + n * (n - 1) / 2) (h1 : MpfConverted n .b11 y r) (h2 : MpfConverted n .b11 z r) : y = z := by
  have key : ∀ y : List ℝ, y.length = n + n * (n - 1) / 2 → MpfConverted n .b11 y r → ∃ P Q,
      SplitConcatParams r n P ∧ (∀ P', SplitConcatParams r n P' → P' = P) ∧ isingConvertParams P .b01 = .ok Q ∧
        Q.flatten = y := by
    rintro y hy ⟨P0, h1, h2⟩
    obtain ⟨h, rest, -, hh, hshape, hflat, -, hsplit, hP'⟩ := split_pairwise n hn y hy
    obtain ⟨P, e, hl, hPs, -⟩ := C13_to11_energy n h rest hh hshape
    obtain ⟨P2, e2, e3⟩ := C14_11_then_01 n h rest hh hshape
    rw [e] at e2
    obtain rfl := Except.ok.inj e2
    rw [(hsplit P0).1 h1] at h2
    unfold isingConvertParamsConcat at h2
    rw [e] at h2
    have h2 : P.flatten = r := Except.ok.inj h2
    obtain ⟨-, hs2, -⟩ := hP' P hl hPs
    rw [h2] at hs2
    exact ⟨P, h :: rest, (hs2 P).2 rfl, fun P' h => (hs2 P').1 h, e3, hflat⟩
  obtain ⟨P, Q, a1, a2, a3, a4⟩ := key y hy h1
  obtain ⟨P', Q', b1, b2, b3, b4⟩ := key z hz h2
  rw [a2 P' b1, a3] at b3
  rw [← a4, ← b4, Except.ok.inj b3]

/-- C110. If for all parameters but zero some row of the data has less energy after a flip, there is exactly one minimum
of the flow and exactly one of the pseudolikelihood. -/
theorem C110_unique (uniq : Data → Data) (hu : UniqSpec uniq) (n : ℕ) (hn : 1 ≤ n) (X : Data) (hX : SpinData n X)
    (h : ∀ w : List ℝ, w.length = n + n * (n - 1) / 2 → (∃ x ∈ w, x ≠ 0) →
      ∃ s ∈ X, ∃ r < n, pairE n w (s.set r (-s.getD r 0)) < pairE n w s) :
    (∀ uselog, ∃ y, ∀ y', MpfMinimum uniq n X uselog y' ↔ y' = y) ∧
      ∃ θ, ∀ θ', IsMinimizer (generalPseudoF n X) (n + n * (n - 1) / 2) θ' ↔ θ' = θ := by
  have hpm := spinData_pm hX
  have hzero : ∀ w : List ℝ, w.length = n + n * (n - 1) / 2 →
      (∀ s ∈ X, ∀ r < n, pairE n w s ≤ pairE n w (s.set r (-s.getD r 0))) → ∀ x ∈ w, x = 0 := by
    intro w hw hs
    by_contra hc
    push Not at hc
    obtain ⟨s, hs', r, hr, hlt⟩ := h w hw hc
    exact absurd (hs s hs' r hr) (not_le.2 hlt)
  have hno : ∀ w : List ℝ, w.length = n + n * (n - 1) / 2 → ¬ StableData n X w := by
    rintro w hw ⟨h1, s, hs, r, hr, hlt⟩
    have hz := hzero w hw h1
    rw [pairE_dot n w hw, pairE_dot n w hw, dot_zeros _ _ hz, dot_zeros _ _ hz] at hlt
    exact lt_irrefl _ hlt
  have heq : ∀ v w : List ℝ, v.length = n + n * (n - 1) / 2 → w.length = n + n * (n - 1) / 2 →
      (∀ s ∈ X, ∀ r < n, pairE n (List.ofFn ((fun i : Fin (n + n * (n - 1) / 2) => w.getD i.1 0) - fun i => v.getD i.1 0)) s =
        pairE n (List.ofFn ((fun i : Fin (n + n * (n - 1) / 2) => w.getD i.1 0) - fun i => v.getD i.1 0))
          (s.set r (-s.getD r 0))) → w = v := by
    intro v w hv hw hs
    have hz := hzero _ List.length_ofFn fun s h1 r hr => (hs s h1 r hr).le
    rw [← ofFn_getD w hw, ← ofFn_getD v hv]
    congr 1
    funext i
    have := hz _ (List.mem_ofFn.2 ⟨i, rfl⟩)
    exact sub_eq_zero.1 this
  constructor
  · intro uselog
    obtain ⟨θ, hθ, hmin⟩ := (flow_iff n hn X hX).2 hno
    have huniq : ∀ w : List ℝ, w.length = n + n * (n - 1) / 2 → (∀ θ' : List ℝ, θ'.length = n + n * (n - 1) / 2 →
        probFlow X (flips fun x => -x) (pairE n w) ≤ probFlow X (flips fun x => -x) (pairE n θ')) → w = θ := by
      intro w hw hwm
      refine heq θ w hθ hw fun s hs r hr => ?_
      refine flow_minima n X _ (flips_pairs_ne hn hX) _ _ (fun u => ?_) ?_ s hs _
        ((mem_flips (hpm s hs).1).2 ⟨r, hr, rfl⟩)
      · rw [ofFn_getD θ hθ]
        exact hmin _ List.length_ofFn
      · rw [ofFn_getD θ hθ, ofFn_getD w hw]
        exact hwm θ hθ
    obtain ⟨z, hz, hzl, hzc⟩ := C74_start n hn θ hθ
    refine ⟨z, fun y' => ⟨fun hy' => ?_, ?_⟩⟩
    · have hpm' : ∀ s ∈ X, s.length = n ∧ ∀ x ∈ s, x = -1 ∨ x = 1 := by
        intro s hsm
        obtain ⟨h1, h2⟩ := mem_words.1 (hX.2 s hsm)
        exact ⟨h1, fun x hx => by simpa using h2 x hx⟩
      obtain ⟨r0, e0, hl, -⟩ := C74_objective uniq hu n hn X hX.1 hpm' y' hy'.1
      have hr0 := (e0 r0).2 rfl
      have h1 := huniq r0 (hl.trans hy'.1) ((mpf_minimum_iff uniq hu n hn X hX uselog y' r0 hr0 hy'.1).1 hy')
      subst h1
      exact converted_inj n hn y' z r0 hy'.1 (hzl.trans hθ) hr0 hzc
    · rintro rfl
      exact (mpf_minimum_iff uniq hu n hn X hX uselog _ θ hzc (hzl.trans hθ)).2 hmin
  · obtain ⟨θ, hθm⟩ := (C110_pseudo_general n X hX).2 hno
    have hX2 : ∀ r ∈ List.range n, ∀ s ∈ X, r < s.length ∧ (s.getD r 0 = 1 ∨ s.getD r 0 = -1) := fun r hr s hs =>
      ⟨by rw [(hpm s hs).1]; exact List.mem_range.1 hr, (hpm s hs).2 r (List.mem_range.1 hr)⟩
    have hval : ∀ u : List ℝ, IsMinimizer (generalPseudoF n X) (n + n * (n - 1) / 2) u →
        ∀ u' : List ℝ, u'.length = n + n * (n - 1) / 2 →
        ((List.range n).map fun r => negCondLogLik (pairE n u) [1, -1] X r).sum ≤
          ((List.range n).map fun r => negCondLogLik (pairE n u') [1, -1] X r).sum := by
      intro u hu u' hu'
      obtain ⟨g, e, -⟩ := C40_total_objective n X hpm u hu.1
      obtain ⟨g', e', -⟩ := C40_total_objective n X hpm u' hu'
      exact hu.2 u' _ _ _ _ hu' e e'
    refine ⟨θ, fun θ' => ⟨fun h' => ?_, fun e => e ▸ hθm⟩⟩
    refine heq θ θ' hθm.1 h'.1 fun s hs r hr => ?_
    refine pseudo_minima n X (List.range n) hX2 _ _ (fun u => ?_) ?_ s hs r (List.mem_range.2 hr)
    · rw [ofFn_getD θ hθm.1]
      exact hval θ hθm _ List.length_ofFn
    · rw [ofFn_getD θ hθm.1, ofFn_getD θ' h'.1]
      exact hval θ' h' θ hθm.1

/-- C110. Under the same condition the equations of `Enumerate` have a solution too. -/
theorem C110_enumerate (n : ℕ) (hn : 1 ≤ n) (X : Data) (hX : SpinData n X)
    (h : ∀ w : List ℝ, w.length = n + n * (n - 1) / 2 → (∃ x ∈ w, x ≠ 0) →
      ∃ s ∈ X, ∃ r < n, pairE n w (s.set r (-s.getD r 0)) < pairE n w s) :
    ∃ v : List ℝ, v.length = n + n * (n - 1) / 2 ∧ Reproduces n v X := by
  refine (reproduces_exists_iff n hn X hX.1 hX.2).2 fun w hw hne => ?_
  obtain ⟨s, hs, r, hr, hlt⟩ := h w hw hne
  refine ⟨_, ?_, s, hs, hlt⟩
  obtain ⟨h1, h2⟩ := mem_words.1 (hX.2 s hs)
  refine mem_words.2 ⟨by simpa using h1, fun x hx => ?_⟩
  rcases List.mem_or_eq_of_mem_set hx with hx | hx
  · exact h2 x hx
  · have := (spinData_pm hX s hs).2 r hr
    rw [hx]
    rcases this with h | h <;> rw [h] <;> simp

/-- C110. Data with every state satisfy the condition. -/
theorem C110_full_support (n : ℕ) (X : Data) (hfull : ∀ s ∈ words [-1, 1] n, s ∈ X) (w : List ℝ)
    (hw : w.length = n + n * (n - 1) / 2) (hne : ∃ x ∈ w, x ≠ 0) :
    ∃ s ∈ X, ∃ r < n, pairE n w (s.set r (-s.getD r 0)) < pairE n w s := by
  by_contra hc
  push Not at hc
  obtain ⟨x, hx, hx0⟩ := hne
  refine hx0 (flat_zero n w hw (fun s hs r hr => ?_) x hx)
  obtain ⟨h1, h2⟩ := mem_words.1 hs
  have hrl : r < s.length := by omega
  have hval := h2 _ (List.getElem_mem hrl)
  have hget : s.getD r 0 = s[r] := List.getD_eq_getElem _ _ hrl
  have hmem : s.set r (-s.getD r 0) ∈ words [-1, 1] n := by
    refine mem_words.2 ⟨by simpa using h1, fun x hx => ?_⟩
    rcases List.mem_or_eq_of_mem_set hx with hx | hx
    · exact h2 x hx
    · rw [hx, hget]
      simp at hval
      rcases hval with h | h <;> rw [h] <;> simp
  have hback : (s.set r (-s.getD r 0)).set r (-(s.set r (-s.getD r 0)).getD r 0) = s := by
    rw [List.set_set, List.getD_eq_getElem _ _ (by simpa using hrl), List.getElem_set_self, neg_neg, hget]
    exact List.set_getElem_self hrl
  refine le_antisymm (hc s (hfull s hs) r hr) ?_
  have := hc _ (hfull _ hmem) r hr
  rwa [hback] at this

/-- Non-vacuity of C110: of two spins, the pattern (-1,-1) is missing. -/
example : SpinData 2 [[1, 1], [1, -1], [-1, 1]] ∧
    ∀ s ∈ ([[1, 1], [1, -1], [-1, 1]] : Data), ¬ (s.getD 0 0 = -1 ∧ s.getD 1 0 = -1) := by
  unfold SpinData
  decide

/-- Non-vacuity of C110: all four patterns. -/
example : SpinData 2 [[1, 1], [1, -1], [-1, 1], [-1, -1]] ∧
    ∀ s ∈ words [-1, 1] 2, s ∈ ([[1, 1], [1, -1], [-1, 1], [-1, -1]] : Data) := by
  unfold SpinData
  decide

end Verif.Props
