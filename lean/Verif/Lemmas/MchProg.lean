/-
Lemmas on `MCH.solve` with the sampler that it uses.
-/
import Verif.Spec.MchProg
import Verif.Lemmas.SampleUniform
import Verif.Props.MchSolve
import Verif.Props.Neighbors
import Verif.Props.Solvers

namespace Verif.Lemmas
open Verif Verif.Model Verif.Spec Verif.Props Prog

/-! ### observables of a sample -/

theorem word_entry {n : ℕ} {s : List ℤ} (hs : s ∈ words [1, -1] n) : ∀ x ∈ s, x = -1 ∨ x = 0 ∨ x = 1 := fun x hx => by
  have := (mem_words.1 hs).2 x hx
  simp only [List.mem_cons, List.not_mem_nil, or_false] at this
  tauto

theorem abs_word_spin_le {n : ℕ} {s : List ℤ} (hs : s ∈ words [1, -1] n) (j : ℕ) : |(spins s j : ℝ)| ≤ 1 := by
  unfold spins
  by_cases hj : j < s.length
  · rw [List.getD_eq_getElem _ _ hj]
    rcases word_entry hs _ (List.getElem_mem hj) with h | h | h <;> rw [h] <;> norm_num
  · rw [List.getD_eq_default _ _ (by omega)]
    norm_num

theorem length_pairObs (n : ℕ) (x : ℕ → ℝ) : (pairObs n x).length = n + n * (n - 1) / 2 := by
  unfold pairObs
  simp [length_upperPairs]

theorem abs_pairObs_le {n : ℕ} {s : List ℤ} (hs : s ∈ words [1, -1] n) (i : ℕ) :
    |(pairObs n (spins s)).getD i (0 : ℝ)| ≤ 1 := by
  by_cases hi : i < (pairObs n (spins s) : List ℝ).length
  · rw [List.getD_eq_getElem _ _ hi]
    have hm := List.getElem_mem hi
    unfold pairObs at hm
    rcases List.mem_append.1 hm with h | h
    · obtain ⟨j, -, e⟩ := List.mem_map.1 h
      unfold pairObs
      rw [← e]
      exact abs_word_spin_le hs j
    · obtain ⟨p, -, e⟩ := List.mem_map.1 h
      unfold pairObs
      rw [← e, abs_mul]
      exact mul_le_one₀ (abs_word_spin_le hs _) (abs_nonneg _) (abs_word_spin_le hs _)
  · rw [List.getD_eq_default _ _ (by omega)]
    norm_num

theorem abs_avg_le {X : List (List ℤ)} (hX : X ≠ []) {f : List ℤ → ℝ} (h : ∀ s ∈ X, |f s| ≤ 1) : |avg X f| ≤ 1 := by
  unfold avg
  have hl : (0 : ℝ) < X.length := by
    have := List.length_pos_of_ne_nil hX
    exact_mod_cast this
  rw [abs_div, abs_of_pos hl, div_le_one hl]
  clear hX hl
  induction X with
  | nil => simp
  | cons x X ih =>
    simp only [List.map_cons, List.sum_cons, List.length_cons]
    push_cast
    have h1 := h x (by simp)
    have h2 := ih fun s hs => h s (by simp [hs])
    have := abs_add_le (f x) (X.map f).sum
    linarith

/-- The means of the observables. -/
theorem obs_avg (n : ℕ) (X : Data) (hX : X ≠ []) (hl : ∀ s ∈ X, s.length = n)
    (hv : ∀ s ∈ X, ∀ x ∈ s, x = -1 ∨ x = 0 ∨ x = 1) :
    ∃ c : List ℝ, sampleConstraints n X = .ok c ∧ c.length = n + n * (n - 1) / 2 ∧
      ∀ i < n + n * (n - 1) / 2, c.getD i 0 = avg X fun s => (pairObs n (spins s)).getD i 0 := by
  obtain ⟨c, h1, -, h3⟩ := C73_sample_constraints (K := ℝ) n X hX hl hv
  refine ⟨c, h1, by rw [h3]; simp [length_upperPairs], fun i hi => ?_⟩
  rw [h3]
  by_cases h : i < n
  · rw [List.getD_append _ _ _ _ (by simpa using h), List.getD_eq_getElem _ _ (by simpa using h), List.getElem_map,
      List.getElem_range]
    unfold avg
    congr 3
    funext s
    rw [pairObs_field n _ i h]
    rfl
  · obtain ⟨k, rfl⟩ : ∃ k, i = n + k := ⟨i - n, by omega⟩
    have hk : k < (upperPairs n).length := by rw [length_upperPairs]; omega
    rw [List.getD_append_right _ _ _ _ (by simp)]
    simp only [List.length_map, List.length_range, Nat.add_sub_cancel_left]
    rw [List.getD_eq_getElem _ _ (by simpa using hk), List.getElem_map]
    unfold avg
    congr 3
    funext s
    rw [pairObs_pair n _ k _ (List.getElem?_eq_getElem hk)]
    rfl

/-- The means of the observables over a sample of spins. -/
theorem obs_eq (n : ℕ) (X : List (List ℤ)) (hX : X ≠ []) (hw : ∀ s ∈ X, s ∈ words [1, -1] n) :
    ∃ cur : List ℝ, sampleConstraints n X = .ok cur ∧ cur.length = n + n * (n - 1) / 2 ∧
      ∀ i < n + n * (n - 1) / 2, cur.getD i 0 = avg X (fun s => (pairObs n (spins s)).getD i 0) ∧ |cur.getD i 0| ≤ 1 := by
  obtain ⟨c, h1, h2, h3⟩ := obs_avg n X hX (fun s hs => (mem_words.1 (hw s hs)).1) fun s hs => word_entry (hw s hs)
  refine ⟨c, h1, h2, fun i hi => ⟨h3 i hi, ?_⟩⟩
  rw [h3 i hi]
  exact abs_avg_le hX fun s hs => abs_pairObs_le (hw s hs) i

theorem approx_eq (o : ModelObj) (X : List (List ℤ)) (hX : X ≠ []) (hs : o.sample = some X)
    (hw : ∀ s ∈ X, s ∈ words [1, -1] o.n) :
    ∃ g : List ℝ → List ℝ, ∀ d, mchApprox o d = .ok (g d) ∧ (g d).length = o.n + o.n * (o.n - 1) / 2 ∧
      ∀ i, |(g d).getD i 0| ≤ 1 := by
  have : ∀ d, ∃ r, mchApprox o d = .ok r ∧ r.length = o.n + o.n * (o.n - 1) / 2 ∧ ∀ i, |r.getD i 0| ≤ 1 := by
    intro d
    have hok : ∀ row ∈ X, ∀ x ∈ row, x = -1 ∨ x = 0 ∨ x = 1 := fun s h => word_entry (hw s h)
    obtain ⟨r, h1, h2⟩ := C23_range o.n X hX hok d
    have hl := mchIsing_eq o.n X hX hok d
    rw [h1] at hl
    injection hl with hl
    unfold mchApprox
    rw [hs, Option.getD_some, h1]
    refine ⟨_, rfl, by rw [hl]; simp [length_upperPairs], fun i => ?_⟩
    by_cases hi : i < r.length
    · rw [List.getD_eq_getElem _ _ (by simpa using hi), List.getElem_map]
      obtain ⟨x, hx, h3, h4⟩ := h2 _ (List.getElem_mem hi)
      rw [hx]
      exact abs_le.2 ⟨h3, h4⟩
    · rw [List.getD_eq_default _ _ (by simpa using hi)]
      norm_num
  choose g hg using this
  exact ⟨g, hg⟩

/-- One call of `learn_parameters_mch`. -/
theorem learn_eq (o : ModelObj) (X : List (List ℤ)) (hX : X ≠ []) (hs : o.sample = some X)
    (hw : ∀ s ∈ X, s ∈ words [1, -1] o.n) (est c mult : List ℝ) (a : LearnArgs)
    (hc : c.length = o.n + o.n * (o.n - 1) / 2) (hest : est.length = o.n + o.n * (o.n - 1) / 2)
    (hm : mult.length = o.n + o.n * (o.n - 1) / 2) (hpos : 0 ≤ a.maxdlamda) (hc1 : ∀ x ∈ c, |x| ≤ 1)
    (he1 : ∀ i < o.n + o.n * (o.n - 1) / 2, |est.getD i 0| ≤ 1) :
    ∃ r, learnMch (mchApprox o) (fun d => .ok d) est c a mult = .ok r ∧ r.length = o.n + o.n * (o.n - 1) / 2 ∧
      ∀ i < o.n + o.n * (o.n - 1) / 2, |r.getD i 0 - mult.getD i 0| ≤ a.maxdlamda + |a.eta| * 2 := by
  obtain ⟨g, hg⟩ := approx_eq o X hX hs hw
  have hc1' : ∀ i < o.n + o.n * (o.n - 1) / 2, |c.getD i 0| ≤ 1 := fun i hi => by
    rw [List.getD_eq_getElem _ _ (by omega)]
    exact hc1 _ (List.getElem_mem _)
  have two : ∀ a b : ℝ, |a| ≤ 1 → |b| ≤ 1 → |a - b| ≤ 2 := fun a b ha hb => by
    have := abs_sub a b
    linarith
  obtain ⟨r, h1, h2⟩ := C43_bounded_change (mchApprox o) g _ (fun d _ => ⟨(hg d).1, (hg d).2.1⟩) est c mult a hc hest hm hpos
    2 (fun i hi => two _ _ (hc1' i hi) (he1 i hi)) fun d _ i hi => two _ _ (hc1' i hi) ((hg d).2.2 i)
  obtain ⟨d, e, w, hp, -⟩ := C43_path g _ est c a.eta
  obtain ⟨T, -, -, -, -, r', hr', hl, -⟩ := C43_learn (mchApprox o) g _ (fun d _ => ⟨(hg d).1, (hg d).2.1⟩) est c mult a hc
    hest hm d e w hp
  rw [h1] at hr'
  injection hr' with hr'
  subst hr'
  exact ⟨r, h1, hl, h2⟩

/-! ### drawing a sample -/

/-- An Ising model of `n` spins with a sampler for the right number of parameters. -/
structure IsingReady (mc : Machine) (n : ℕ) (o : ModelObj) : Prop where
  inv : ModelInv mc .ising n o
  sampler : ∃ s, o.sampler = some s ∧ s.theta.length = n + n * (n - 1) / 2

theorem sound_draw {mc : Machine} {n : ℕ} {o : ModelObj} (h : IsingReady mc n o) (nIters burnIn size : ℕ) (mult : List ℝ) :
    Sound (mchDraw mc nIters burnIn size mult o) (IsingReady mc n) := by
  obtain ⟨s, hs, hl⟩ := h.sampler
  have hi : ModelInv mc .ising n { o with sampleSize := size } :=
    ⟨h.inv.kind, h.inv.n_eq, h.inv.bound, h.inv.eqns, h.inv.fresh, h.inv.sampler⟩
  unfold mchDraw
  refine sound_mono ?_ (hi.generate nIters (some burnIn) (some mult) none none true)
  rintro o' ⟨h1, s1, s2, rows, e1, e2, e3, -, -, e4, -⟩
  refine ⟨h1, s2, by rw [e4], ?_⟩
  replace e1 : o.sampler = some s1 := e1
  rw [hs] at e1
  injection e1 with e1
  rw [e2, ← e3, ← e1, hl]

theorem draw_eq {mc : Machine} {n : ℕ} {o : ModelObj} (h : IsingReady mc n o) {s : SamplerObj} (hs : o.sampler = some s)
    (hl : s.theta.length = n + n * (n - 1) / 2) (nIters burnIn size : ℕ) (mult : List ℝ)
    (hm : mult.length = n + n * (n - 1) / 2) :
    mchDraw mc nIters burnIn size mult o = ({ s with theta := mult }.generate mc true size nIters (some burnIn)).bind
      fun s' => .ret { o with sampleSize := size, sampler := some s', sample := s'.sample } := by
  obtain ⟨-, -, h3, -⟩ := h.inv.sampler s hs
  unfold mchDraw ModelObj.generateSample
  dsimp only
  rw [hs]
  dsimp only
  unfold methodOr
  dsimp only
  rw [if_pos h3]
  unfold SamplerObj.updateParameters
  rw [Option.getD_some, if_neg (by rw [hl, hm]; simp)]
  rfl

/-- The model after a draw: its sample has `size` rows. -/
def Drawn (mc : Machine) (n size : ℕ) (o o' : ModelObj) : Prop :=
  IsingReady mc n o' ∧ o'.multipliers = o.multipliers ∧ o'.sampleSize = size ∧
    ∃ X, o'.sample = some X ∧ X.length = size ∧ ∀ s ∈ X, s ∈ words [1, -1] n

theorem both_draw {mc : Machine} (hcpu : 0 < mc.cpus) {n : ℕ} (hn : 0 < n) {o : ModelObj} (h : IsingReady mc n o)
    (nIters burnIn size : ℕ) (hsize : 0 < size) (mult : List ℝ) (hm : mult.length = n + n * (n - 1) / 2) :
    Both (mchDraw mc nIters burnIn size mult o) (Drawn mc n size o) := by
  obtain ⟨s, hs, hl⟩ := h.sampler
  have hsi := (h.inv.sampler s hs).1
  have hfit : SamplerFits .ising n { s with theta := mult } :=
    ⟨hsi.kind, hsi.n_eq, hm, fun _ _ => hm, hsi.kept hn hcpu⟩
  have hready := sound_draw h nIters burnIn size mult
  have hr : Returns (mchDraw mc nIters burnIn size mult o) fun o' => o'.multipliers = o.multipliers ∧ o'.sampleSize = size ∧
      ∃ X, o'.sample = some X ∧ X.length = size ∧ ∀ s ∈ X, s ∈ words [1, -1] n := by
    rw [draw_eq h hs hl nIters burnIn size mult hm]
    refine returns_bind (returns_generate mc hcpu .ising n hn _ hfit true size nIters (some burnIn) hsize (by simp) (by simp))
      fun s' hs' => returns_ret ⟨rfl, rfl, hs'⟩
  refine ⟨returns_mono (fun o' h => ⟨h.1, h.2⟩) (returns_and (returns_of_sound hr hready) hr), ?_⟩
  rw [draw_eq h hs hl nIters burnIn size mult hm]
  exact finDist_bind (finDist_sampler mc n hn _ hfit size nIters (some burnIn)) fun _ _ => finDist_ret trivial

theorem draw_uniform (n : ℕ) (hn : 0 < n) (B ρ : ℝ) (hρ : 0 < ρ) :
    ∃ K, 0 ≤ K ∧ ∀ (mc : Machine), 0 < mc.cpus → ∀ o : ModelObj, IsingReady mc n o → ∀ mult : List ℝ,
      mult.length = n + n * (n - 1) / 2 → (∀ x ∈ mult, |x| ≤ B) → (∃ x ∈ mult, ρ ≤ |x|) →
      ∀ (size nIters burnIn i : ℕ), 0 < size → 0 < nIters →
      expectation (fun o' : ModelObj => (((o'.sample.getD []).map fun s => (pairObs n (spins s)).getD i 0).sum / size -
        modelMean n mult i) ^ 2) (mchDraw mc nIters burnIn size mult o) ≤ mc.cpus * K / size := by
  obtain ⟨K, hK, h⟩ := sampler_uniform n hn B ρ 1 hρ zero_le_one
  refine ⟨K, hK, fun mc hcpu o ho mult hm hB hx size nIters burnIn i hsize hk => ?_⟩
  obtain ⟨s, hs, hl⟩ := ho.sampler
  have hsi := (ho.inv.sampler s hs).1
  have hfit : SamplerFits .ising n { s with theta := mult } :=
    ⟨hsi.kind, hsi.n_eq, hm, fun _ _ => hm, hsi.kept hn hcpu⟩
  rw [draw_eq ho hs hl nIters burnIn size mult hm, expectation_bind]
  exact h mc hcpu _ hfit hB hx _ (fun s hs => abs_pairObs_le hs i) size nIters (some burnIn) hsize hk

end Verif.Lemmas
