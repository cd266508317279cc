/-
The learning path of the Monte Carlo histogram solvers when the observables are predicted by reweighting.
-/
import Verif.Lemmas.Tilt
import Verif.Spec.Tilt
import Verif.Spec.Learn
import Mathlib.Data.List.GetD

namespace Verif.Lemmas
open Verif.Spec Filter

variable (O : List (List ℝ)) (N : ℕ)

/-- The vectors as a function. -/
def rowFn (r : Fin O.length) (i : Fin N) : ℝ := O[r].getD i 0

/-- The entries of a list as a function. -/
def vecFn (d : List ℝ) (i : Fin N) : ℝ := d.getD i 0

variable {O N}

theorem sum_rows (f : List ℝ → ℝ) : (O.map f).sum = ∑ r : Fin O.length, f O[r] := by
  rw [← List.sum_ofFn]
  congr 1
  apply List.ext_getElem
  · simp
  · intro i h1 h2
    simp

theorem dot_rowFn (hl : ∀ o ∈ O, o.length = N) (d : List ℝ) (hd : d.length = N) (r : Fin O.length) :
    dot d O[r] = Tilt.lin (rowFn O N) (vecFn N d) r := by
  have h := hl O[r] (List.getElem_mem r.2)
  unfold dot Tilt.lin rowFn vecFn
  rw [← List.sum_ofFn]
  congr 1
  apply List.ext_getElem
  · simp only [List.length_zipWith, List.length_ofFn]
    rw [hd, h]
    exact min_self N
  · intro i h1 h2
    have hi : i < N := by simpa using h2
    rw [List.getElem_zipWith, List.getElem_ofFn]
    dsimp only
    rw [List.getD_eq_getElem _ _ (by rw [hd]; exact hi), List.getD_eq_getElem _ _ (by rw [h]; exact hi)]

theorem tiltedMean_eq (hl : ∀ o ∈ O, o.length = N) (d : List ℝ) (hd : d.length = N) (i : Fin N) :
    tiltedMean O d i = Tilt.G (rowFn O N) (vecFn N d) i := by
  unfold tiltedMean
  rw [sum_rows, sum_rows]
  simp only [dot_rowFn hl d hd]
  unfold Tilt.G Tilt.P Tilt.Z
  rw [Finset.sum_div]
  exact Finset.sum_congr rfl fun r _ => by unfold rowFn; ring

theorem euclidDist_eq (v c : List ℝ) :
    euclidDist N v c = √(Tilt.sq fun i => vecFn N v i - vecFn N c i) := by
  unfold euclidDist Tilt.sq vecFn
  rw [Finset.sum_range]

theorem euclidDist_nonneg (v c : List ℝ) : 0 ≤ euclidDist N v c := Real.sqrt_nonneg _

theorem euclidDist_sq (v c : List ℝ) :
    euclidDist N v c ^ 2 = Tilt.sq fun i => vecFn N v i - vecFn N c i := by
  rw [euclidDist_eq, Real.sq_sqrt (Tilt.sq_nonneg' _)]

theorem mixture_iff (c : List ℝ) : Mixture O N c ↔
    ∃ q : Fin O.length → ℝ, (∀ r, 0 ≤ q r) ∧ ∑ r, q r = 1 ∧ ∀ i, vecFn N c i = ∑ r, q r * rowFn O N r i := by
  constructor
  · rintro ⟨q, h1, h2, h3, h4⟩
    refine ⟨fun r => q[r]'(by rw [h1]; exact r.2), fun r => h2 _ (List.getElem_mem _), ?_, fun i => ?_⟩
    · rw [← h3, ← List.sum_ofFn]
      congr 1
      apply List.ext_getElem
      · simp [h1]
      · intro i a b; simp
    · unfold vecFn
      rw [h4 i i.2, ← List.sum_ofFn]
      congr 1
      apply List.ext_getElem
      · simp [h1]
      · intro i a b
        rw [List.getElem_zipWith, List.getElem_ofFn]
        rfl
  · rintro ⟨q, h1, h2, h3⟩
    refine ⟨List.ofFn q, by simp, fun x hx => ?_, by rw [List.sum_ofFn, h2], fun i hi => ?_⟩
    · obtain ⟨r, rfl⟩ := (List.mem_ofFn' _ _).1 hx
      exact h1 r
    · have := h3 ⟨i, hi⟩
      unfold vecFn at this
      dsimp only at this
      rw [this, ← List.sum_ofFn]
      congr 1
      apply List.ext_getElem
      · simp
      · intro j a b
        rw [List.getElem_zipWith, List.getElem_ofFn, List.getElem_ofFn]
        rfl

section path
variable {g : List ℝ → List ℝ} {est c : List ℝ} {eta : ℝ} {d e : ℕ → List ℝ} {w : ℕ → ℝ}

/-- The factor of a step. -/
theorem step_factor (hp : LearnPath g N est c eta d e w) (heta : 0 ≤ eta) (t : ℕ) :
    0 ≤ eta * min 1 (w t) ∧ eta * min 1 (w t) ≤ eta := by
  have hw : 0 ≤ w t := by
    cases t with
    | zero => rw [hp.start_w]; exact zero_le_one
    | succ t => rw [hp.dist]; exact euclidDist_nonneg _ _
  exact ⟨mul_nonneg heta (le_min zero_le_one hw), mul_le_of_le_one_right heta (min_le_left _ _)⟩

theorem vecFn_map (σ : ℝ) (v : List ℝ) : vecFn N (v.map (σ * ·)) = fun i => σ * vecFn N v i := by
  funext i
  unfold vecFn
  simp only [List.getD_eq_getElem?_getD, List.getElem?_map]
  cases v[(i : ℕ)]? <;> simp

section sign
variable (hp : LearnPath g N est c eta d e w) (hl : ∀ o ∈ O, o.length = N) (σ : ℝ)
  (hg : ∀ d : List ℝ, d.length = N → ∀ i < N, (g d).getD i 0 = tiltedMean O (d.map (σ * ·)) i)
  (hest : ∀ i < N, est.getD i 0 = tiltedMean O (List.replicate N 0) i)
include hp hl hg hest

theorem path_e (t : ℕ) (i : Fin N) :
    vecFn N (e t) i = Tilt.G (rowFn O N) (fun i => σ * vecFn N (d t) i) i := by
  cases t with
  | zero =>
    rw [hp.start_e, hp.start_d]
    unfold vecFn at *
    rw [hest i i.2, tiltedMean_eq hl _ (by simp)]
    congr 1
    funext j
    simp [vecFn, List.getD_eq_getElem?_getD]
  | succ t =>
    rw [hp.pred]
    have : vecFn N (g (d (t + 1))) i = tiltedMean O ((d (t + 1)).map (σ * ·)) i := hg _ (hp.len _) i i.2
    rw [this, tiltedMean_eq hl _ (by simp [hp.len])]
    congr 1
    exact vecFn_map σ _

theorem path_d (t : ℕ) (i : Fin N) : σ * vecFn N (d (t + 1)) i = σ * vecFn N (d t) i +
    σ * (eta * min 1 (w t)) * (vecFn N c i - Tilt.G (rowFn O N) (fun i => σ * vecFn N (d t) i) i) := by
  rw [← path_e hp hl σ hg hest]
  have := hp.step t i i.2
  unfold vecFn
  rw [this]
  ring

theorem path_dist (t : ℕ) : euclidDist N (e t) c ^ 2 =
    Tilt.sq fun i => Tilt.G (rowFn O N) (fun i => σ * vecFn N (d t) i) i - vecFn N c i := by
  rw [euclidDist_sq]
  congr 1
  funext i
  rw [path_e hp hl σ hg hest]

end sign

section right
variable (hO : O ≠ []) (hl : ∀ o ∈ O, o.length = N)
  (hg : ∀ d : List ℝ, d.length = N → ∀ i < N, (g d).getD i 0 = tiltedMean O d i)
  (hest : ∀ i < N, est.getD i 0 = tiltedMean O (List.replicate N 0) i)
  (hp : LearnPath g N est c eta d e w) {L : ℝ} (hL : ∀ o ∈ O, ∑ i ∈ Finset.range N, o.getD i 0 ^ 2 ≤ L)
include hO hl hg hest hp hL

/-- The error does not rise. -/
theorem learn_antitone (heta : 0 ≤ eta) (hetaL : eta * L ≤ 2) : Antitone fun t => euclidDist N (e t) c := by
  have : Nonempty (Fin O.length) := ⟨⟨0, List.length_pos_iff.2 hO⟩⟩
  have hg' : ∀ d : List ℝ, d.length = N → ∀ i < N, (g d).getD i 0 = tiltedMean O (d.map (1 * ·)) i := by
    simpa using hg
  have hL' : ∀ r, ∑ i, rowFn O N r i ^ 2 ≤ L := fun r => by
    have := hL O[r] (List.getElem_mem r.2)
    rwa [Finset.sum_range] at this
  have h := Tilt.path_anti (rowFn O N) hL' heta hetaL (vecFn N c) (fun t i => 1 * vecFn N (d t) i) (fun t => eta * min 1 (w t))
    (fun t => (step_factor hp heta t).1) (fun t => (step_factor hp heta t).2) fun t i => by
      rw [path_d hp hl 1 hg' hest t i]; ring
  intro a b hab
  have := h hab
  dsimp only at this ⊢
  rw [← path_dist hp hl 1 hg' hest, ← path_dist hp hl 1 hg' hest] at this
  exact (sq_le_sq₀ (euclidDist_nonneg _ _) (euclidDist_nonneg _ _)).1 this

/-- The error after `T` steps. -/
theorem learn_rate (heta : 0 ≤ eta) (hetaL : eta * L ≤ 2) (hmix : Mixture O N c) (T : ℕ) :
    T * (eta * min 1 (euclidDist N (e T) c) * (1 - eta * L / 2) * euclidDist N (e T) c ^ 2) ≤ Real.log O.length := by
  have : Nonempty (Fin O.length) := ⟨⟨0, List.length_pos_iff.2 hO⟩⟩
  have hg' : ∀ d : List ℝ, d.length = N → ∀ i < N, (g d).getD i 0 = tiltedMean O (d.map (1 * ·)) i := by
    simpa using hg
  have hL' : ∀ r, ∑ i, rowFn O N r i ^ 2 ≤ L := fun r => by
    have := hL O[r] (List.getElem_mem r.2)
    rwa [Finset.sum_range] at this
  obtain ⟨q, q1, q2, q3⟩ := (mixture_iff c).1 hmix
  have hanti := learn_antitone hO hl hg hest hp hL heta hetaL
  have h := Tilt.path_rate (rowFn O N) hL' heta hetaL (vecFn N c) (fun t i => 1 * vecFn N (d t) i) (fun t => eta * min 1 (w t))
    (fun t => (step_factor hp heta t).1) (fun t => (step_factor hp heta t).2) (fun t i => by
      rw [path_d hp hl 1 hg' hest t i]; ring) q q1 q2 q3 T (eta * min 1 (euclidDist N (e T) c))
    (mul_nonneg heta (le_min zero_le_one (euclidDist_nonneg _ _))) fun t ht => by
      refine mul_le_mul_of_nonneg_left ?_ heta
      cases t with
      | zero => rw [hp.start_w]; exact (min_le_left _ _).trans (by simp)
      | succ t => rw [hp.dist]; exact min_le_min_left 1 (hanti ht.le)
  rw [path_dist hp hl 1 hg' hest]
  refine h.trans (le_of_eq ?_)
  have h0 : (fun i => 1 * vecFn N (d 0) i) = fun _ : Fin N => (0 : ℝ) := by
    funext i
    rw [hp.start_d]
    simp [vecFn, List.getD_eq_getElem?_getD]
  rw [h0, Tilt.F_zero, Fintype.card_fin]

/-- The error goes to zero exactly for mixtures. -/
theorem learn_tendsto (heta : 0 < eta) (hetaL : eta * L < 2) :
    Tendsto (fun t => euclidDist N (e t) c) atTop (nhds 0) ↔ Mixture O N c := by
  have hne : Nonempty (Fin O.length) := ⟨⟨0, List.length_pos_iff.2 hO⟩⟩
  have hg' : ∀ d : List ℝ, d.length = N → ∀ i < N, (g d).getD i 0 = tiltedMean O (d.map (1 * ·)) i := by
    simpa using hg
  have hanti := learn_antitone hO hl hg hest hp hL heta.le hetaL.le
  constructor
  · intro h
    refine (mixture_iff c).2 (Tilt.mixture_of_tendsto (rowFn O N) (fun t i => 1 * vecFn N (d t) i) (vecFn N c) fun i => ?_)
    have h1 : ∀ t, |Tilt.G (rowFn O N) (fun i => 1 * vecFn N (d t) i) i - vecFn N c i| ≤ euclidDist N (e t) c := by
      intro t
      rw [euclidDist_eq, ← path_e hp hl 1 hg' hest]
      refine Real.abs_le_sqrt ?_
      exact Finset.single_le_sum (f := fun i => (vecFn N (e t) i - vecFn N c i) ^ 2) (fun _ _ => sq_nonneg _)
        (Finset.mem_univ i)
    have h2 := squeeze_zero_norm (fun t => (Real.norm_eq_abs _).trans_le (h1 t)) h
    simpa using h2.add_const (vecFn N c i)
  · intro hmix
    rw [Metric.tendsto_atTop]
    intro ε hε
    obtain ⟨κ, hκ⟩ : ∃ κ, κ = eta * min 1 ε * (1 - eta * L / 2) * ε ^ 2 := ⟨_, rfl⟩
    have hκ0 : 0 < κ := by
      rw [hκ]
      have : 0 < min 1 ε := lt_min one_pos hε
      have : 0 < 1 - eta * L / 2 := by linarith
      positivity
    obtain ⟨T, hT⟩ := exists_nat_gt (Real.log O.length / κ)
    refine ⟨T, fun t ht => ?_⟩
    rw [Real.dist_eq, sub_zero, abs_of_nonneg (euclidDist_nonneg _ _)]
    refine lt_of_le_of_lt (hanti ht) ?_
    by_contra hge
    have hge := not_lt.1 hge
    dsimp only at hge
    have hr := learn_rate hO hl hg hest hp hL heta.le hetaL.le hmix T
    have hk : κ ≤ eta * min 1 (euclidDist N (e T) c) * (1 - eta * L / 2) * euclidDist N (e T) c ^ 2 := by
      rw [hκ]
      have a0 : 0 ≤ 1 - eta * L / 2 := by linarith
      have a1 : 0 ≤ min 1 ε := (lt_min one_pos hε).le
      have a2 : min 1 ε ≤ min 1 (euclidDist N (e T) c) := min_le_min_left 1 hge
      have a3 : 0 ≤ min 1 (euclidDist N (e T) c) := a1.trans a2
      have a4 : eta * min 1 ε * (1 - eta * L / 2) ≤ eta * min 1 (euclidDist N (e T) c) * (1 - eta * L / 2) :=
        mul_le_mul_of_nonneg_right (mul_le_mul_of_nonneg_left a2 heta.le) a0
      exact mul_le_mul a4 (pow_le_pow_left₀ hε.le hge 2) (sq_nonneg ε) (mul_nonneg (mul_nonneg heta.le a3) a0)
    rw [div_lt_iff₀ hκ0] at hT
    have := mul_le_mul_of_nonneg_left hk (Nat.cast_nonneg (α := ℝ) T)
    linarith

end right

section wrong
variable (hO : O ≠ []) (hl : ∀ o ∈ O, o.length = N)
  (hg : ∀ d : List ℝ, d.length = N → ∀ i < N, (g d).getD i 0 = tiltedMean O (d.map (-1 * ·)) i)
  (hest : ∀ i < N, est.getD i 0 = tiltedMean O (List.replicate N 0) i)
  (hp : LearnPath g N est c eta d e w)
include hO hl hg hest hp

/-- With the opposite sign the error does not fall. -/
theorem learn_monotone (heta : 0 ≤ eta) : Monotone fun t => euclidDist N (e t) c := by
  have : Nonempty (Fin O.length) := ⟨⟨0, List.length_pos_iff.2 hO⟩⟩
  refine monotone_nat_of_le_succ fun t => ?_
  have h := Tilt.step_ge (rowFn O N) (step_factor hp heta t).1 (vecFn N c) (fun i => -1 * vecFn N (d t) i)
    (fun i => -1 * vecFn N (d (t + 1)) i) fun i => by
      rw [path_d hp hl (-1) hg hest t i]; ring
  rw [← path_dist hp hl (-1) hg hest, ← path_dist hp hl (-1) hg hest] at h
  exact (sq_le_sq₀ (euclidDist_nonneg _ _) (euclidDist_nonneg _ _)).1 h

/-- It rises unless the error makes no difference between the vectors. -/
theorem learn_rises (heta : 0 < eta) (t : ℕ) (o₁ o₂ : List ℝ) (h1 : o₁ ∈ O) (h2 : o₂ ∈ O)
    (hne : ∑ i ∈ Finset.range N, ((e t).getD i 0 - c.getD i 0) * o₁.getD i 0 ≠
      ∑ i ∈ Finset.range N, ((e t).getD i 0 - c.getD i 0) * o₂.getD i 0) :
    euclidDist N (e t) c < euclidDist N (e (t + 1)) c := by
  have : Nonempty (Fin O.length) := ⟨⟨0, List.length_pos_iff.2 hO⟩⟩
  obtain ⟨r₁, hr₁, rfl⟩ := List.getElem_of_mem h1
  obtain ⟨r₂, hr₂, rfl⟩ := List.getElem_of_mem h2
  have hlin : ∀ r : Fin O.length, ∑ i ∈ Finset.range N, ((e t).getD i 0 - c.getD i 0) * O[r].getD i 0 =
      Tilt.lin (rowFn O N) (fun i => Tilt.G (rowFn O N) (fun i => -1 * vecFn N (d t) i) i - vecFn N c i) r := by
    intro r
    rw [Finset.sum_range]
    unfold Tilt.lin
    refine Finset.sum_congr rfl fun i _ => ?_
    dsimp only
    rw [← path_e hp hl (-1) hg hest]
    rfl
  have e1 := hlin ⟨r₁, hr₁⟩
  have e2 := hlin ⟨r₂, hr₂⟩
  simp only [Fin.getElem_fin] at e1 e2
  rw [e1, e2] at hne
  have hw : 0 < w t := by
    cases t with
    | zero => rw [hp.start_w]; exact one_pos
    | succ t =>
      rw [hp.dist]
      rcases (euclidDist_nonneg (N := N) (e (t + 1)) c).eq_or_lt with h0 | h0
      · exfalso
        have hz := path_dist hp hl (-1) hg hest (t + 1)
        rw [← h0] at hz
        have hz' : ∀ i, Tilt.G (rowFn O N) (fun i => -1 * vecFn N (d (t + 1)) i) i - vecFn N c i = 0 := by
          intro i
          have := (Finset.sum_eq_zero_iff_of_nonneg (fun i _ => sq_nonneg _)).1
            (show Tilt.sq (fun i => Tilt.G (rowFn O N) (fun i => -1 * vecFn N (d (t + 1)) i) i - vecFn N c i) = 0 by
              rw [← hz]; norm_num) i (Finset.mem_univ i)
          exact pow_eq_zero_iff (two_ne_zero) |>.1 this
        refine hne ?_
        unfold Tilt.lin
        simp only [hz', zero_mul]
      · exact h0
  have h := Tilt.step_gt (rowFn O N) (mul_pos heta (lt_min one_pos hw)) (vecFn N c) (fun i => -1 * vecFn N (d t) i)
    (fun i => -1 * vecFn N (d (t + 1)) i) (fun i => by
      rw [path_d hp hl (-1) hg hest t i]; ring) _ _ hne
  rw [← path_dist hp hl (-1) hg hest, ← path_dist hp hl (-1) hg hest] at h
  exact (sq_lt_sq₀ (euclidDist_nonneg _ _) (euclidDist_nonneg _ _)).1 h

end wrong
end path
end Verif.Lemmas
