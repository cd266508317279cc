/-
Lemmas about drawing states from a list of probabilities.
-/
import Verif.Model.GuideData
import Verif.Lemmas.FinDist
import Verif.Lemmas.SampleFreq
import Verif.Lemmas.EnumerateModule
import Verif.Lemmas.Stable2

namespace Verif.Lemmas
open Verif Verif.Model Verif.Spec Prog

theorem length_cumSum (p : List ℝ) (a : ℝ) : (cumSum a p).length = p.length := by
  induction p generalizing a with
  | nil => rfl
  | cons x p ih => simp [cumSum, ih]

theorem cumSum_ge (p : List ℝ) (hp : ∀ x ∈ p, 0 ≤ x) (a : ℝ) : ∀ c ∈ cumSum a p, a ≤ c := by
  induction p generalizing a with
  | nil => simp [cumSum]
  | cons x p ih =>
    intro c hc
    have hx := hp x (by simp)
    rcases List.mem_cons.1 hc with rfl | hc
    · linarith
    · have := ih (fun y hy => hp y (by simp [hy])) (a + x) c hc
      linarith

theorem searchRight_lt (p : List ℝ) (hp : ∀ x ∈ p, 0 ≤ x) (a u : ℝ) (h : u < a + p.sum) (ha : a ≤ u) :
    searchRight (cumSum a p) u < p.length := by
  induction p generalizing a with
  | nil => simp at h; linarith
  | cons x p ih =>
    have hp' : ∀ y ∈ p, 0 ≤ y := fun y hy => hp y (by simp [hy])
    unfold searchRight at ih ⊢
    by_cases hu : a + x ≤ u
    · rw [cumSum, List.countP_cons_of_pos (by simpa using hu), List.length_cons]
      have := ih hp' (a + x) (by rw [List.sum_cons] at h; linarith) hu
      omega
    · rw [cumSum, List.countP_cons_of_neg (by simpa using hu), List.countP_eq_zero.2]
      · simp
      · intro c hc
        have := cumSum_ge p hp' _ c hc
        simp only [decide_eq_true_eq, not_le]
        linarith

/-- Drawing from the cumulative distribution. -/
theorem integral_search (F : ℕ → ℝ) (p : List ℝ) (hp : ∀ x ∈ p, 0 ≤ x) (a : ℝ) (k : ℕ) :
    IntervalIntegrable (fun u => F (k + searchRight (cumSum a p) u)) MeasureTheory.volume a (a + p.sum) ∧
    ∫ u in a..(a + p.sum), F (k + searchRight (cumSum a p) u) =
      (p.zipIdx.map fun x => x.1 * F (k + x.2)).sum := by
  induction p generalizing a k with
  | nil => simp
  | cons x p ih =>
    have hp' : ∀ y ∈ p, 0 ≤ y := fun y hy => hp y (by simp [hy])
    have hx := hp x (by simp)
    have hs : 0 ≤ p.sum := List.sum_nonneg hp'
    obtain ⟨i1, i2⟩ := ih hp' (a + x) (k + 1)
    have e0 : ∀ u, u < a + x → F (k + searchRight (cumSum a (x :: p)) u) = F k := by
      intro u hu
      unfold searchRight
      rw [List.countP_eq_zero.2, Nat.add_zero]
      intro c hc
      simp only [decide_eq_true_eq, not_le]
      rcases List.mem_cons.1 hc with rfl | hc
      · exact hu
      · exact hu.trans_le (cumSum_ge p hp' _ c hc)
    have e1 : ∀ u, a + x ≤ u → F (k + searchRight (cumSum a (x :: p)) u) = F (k + 1 + searchRight (cumSum (a + x) p) u) := by
      intro u hu
      unfold searchRight
      rw [cumSum, List.countP_cons_of_pos (by simpa using hu)]
      congr 1
      omega
    have c0 : ∀ᵐ u, u ∈ Set.uIoc a (a + x) → F k = F (k + searchRight (cumSum a (x :: p)) u) := by
      have hne : ∀ᵐ u : ℝ, u ≠ a + x := by
        rw [MeasureTheory.ae_iff]
        simp
      filter_upwards [hne] with u hu hmem
      rw [Set.uIoc_of_le (by linarith)] at hmem
      exact (e0 u (lt_of_le_of_ne hmem.2 hu)).symm
    have c1 : ∀ u ∈ Set.uIcc (a + x) (a + (x :: p).sum), F (k + 1 + searchRight (cumSum (a + x) p) u) =
        F (k + searchRight (cumSum a (x :: p)) u) := by
      intro u hu
      rw [List.sum_cons, Set.uIcc_of_le (by linarith)] at hu
      exact (e1 u hu.1).symm
    have hsum : a + (x :: p).sum = a + x + p.sum := by rw [List.sum_cons]; ring
    have j0 : IntervalIntegrable (fun u => F (k + searchRight (cumSum a (x :: p)) u)) MeasureTheory.volume a (a + x) :=
      (intervalIntegrable_const (c := F k)).congr_ae ((MeasureTheory.ae_restrict_iff' measurableSet_uIoc).2 c0)
    have j1 : IntervalIntegrable (fun u => F (k + searchRight (cumSum a (x :: p)) u)) MeasureTheory.volume (a + x)
        (a + (x :: p).sum) := by
      rw [hsum]
      refine i1.congr fun u hu => ?_
      refine c1 u ?_
      rw [hsum]
      exact Set.uIoc_subset_uIcc hu
    refine ⟨j0.trans j1, ?_⟩
    rw [← intervalIntegral.integral_add_adjacent_intervals j0 j1, ← intervalIntegral.integral_congr_ae c0,
      ← intervalIntegral.integral_congr c1, hsum, i2, intervalIntegral.integral_const, smul_eq_mul, List.zipIdx_cons,
      List.map_cons, List.sum_cons]
    congr 1
    · ring_nf
    · rw [zero_add, List.zipIdx_succ, List.map_map]
      refine list_sum_congr fun y _ => ?_
      simp only [Function.comp]
      congr 2
      omega

theorem cumSum_div (p : List ℝ) (a S : ℝ) : (cumSum a p).map (fun c => c / S) = cumSum (a / S) (p.map fun c => c / S) := by
  induction p generalizing a with
  | nil => rfl
  | cons x p ih => rw [cumSum, List.map_cons, List.map_cons, cumSum, ih, add_div]

theorem zipIdx_states {α : Type} (states : List α) (b f : α → ℝ) (d : α) :
    ((states.map b).zipIdx.map fun x => x.1 * f (states.getD x.2 d)).sum = (states.map fun s => b s * f s).sum := by
  rw [List.zipIdx_map, List.map_map]
  have : (states.zipIdx.map ((fun x : ℝ × ℕ => x.1 * f (states.getD x.2 d)) ∘ Prod.map b id)) =
      states.zipIdx.map ((fun s => b s * f s) ∘ Prod.fst) := by
    refine List.map_congr_left fun x hx => ?_
    have := List.mem_zipIdx_iff_getElem?.1 hx
    simp [List.getD_eq_getElem?_getD, this]
  rw [this, ← List.map_map, List.zipIdx_map_fst]

/-! ### Independent draws -/

section Independent
variable {α ι : Type}

theorem mapEach_map (D : Prog ℝ) (g : ℝ → α) (l : List ι) :
    (mapEach (fun _ => D) l).bind (fun us => .ret (us.map g)) = mapEach (fun _ => D.bind fun u => .ret (g u)) l := by
  induction l with
  | nil => rfl
  | cons i l ih =>
    rw [mapEach, mapEach, bind_assoc, bind_assoc]
    congr 1
    funext a
    rw [bind_assoc, ← ih, Prog.bind, bind_assoc]
    rfl

theorem expectation_mapEach_cons (f : List α → ℝ) (D : ι → Prog α) (i : ι) (l : List ι) :
    expectation f (mapEach D (i :: l)) =
      expectation (fun a => expectation (fun as => f (a :: as)) (mapEach D l)) (D i) := by
  rw [mapEach, expectation_bind]
  congr 1
  funext a
  rw [expectation_bind]
  rfl

variable {D : Prog α} {Q : α → Prop} (hD : FinDist D Q)

include hD in
theorem finDist_iid (l : List ι) : FinDist (mapEach (fun _ => D) l) fun as => as.length = l.length ∧ ∀ a ∈ as, Q a := by
  refine finDist_mono ?_ (finDist_mapEach (Q := fun _ => Q) l fun _ _ => hD)
  intro as h
  refine ⟨h.length_eq.symm, fun a ha => ?_⟩
  obtain ⟨k, hk, rfl⟩ := List.mem_iff_getElem.1 ha
  exact (List.forall₂_iff_get.1 h).2 k (h.length_eq ▸ hk) hk

include hD in
theorem prob_iid [DecidableEq α] (l : List ι) (X : List α) (h : X.length = l.length) :
    prob (mapEach (fun _ => D) l) (· = X) = (X.map fun a => prob D (· = a)).prod := by
  unfold prob
  induction l generalizing X with
  | nil =>
    obtain rfl : X = [] := List.length_eq_zero_iff.1 (by simpa using h)
    simp [mapEach]
  | cons i l ih =>
    cases X with
    | nil => simp at h
    | cons x X =>
      rw [expectation_mapEach_cons, List.map_cons, List.prod_cons, ← ih X (by simpa using h)]
      have : ∀ a, expectation (fun as => if a :: as = x :: X then (1 : ℝ) else 0) (mapEach (fun _ => D) l) =
          0 + expectation (fun as => if as = X then (1 : ℝ) else 0) (mapEach (fun _ => D) l) * if a = x then 1 else 0 := by
        intro a
        by_cases ha : a = x
        · simp [ha]
        · have := (finDist_iid hD l).const 0
          simpa [ha] using this
      simp only [this]
      rw [hD.affine, zero_add, mul_comm]

include hD in
theorem mean_iid (g : α → ℝ) (l : List ι) :
    expectation (fun as => (as.map g).sum) (mapEach (fun _ => D) l) = l.length * expectation g D := by
  induction l with
  | nil => simp [mapEach]
  | cons i l ih =>
    rw [expectation_mapEach_cons]
    have : ∀ a, expectation (fun as : List α => ((a :: as).map g).sum) (mapEach (fun _ => D) l) =
        l.length * expectation g D + 1 * g a := by
      intro a
      have := (finDist_iid hD l).affine (g a) 1 fun as => (as.map g).sum
      rw [ih] at this
      simp only [List.map_cons, List.sum_cons]
      simp only [one_mul] at this ⊢
      rw [this, add_comm]
    simp only [this]
    rw [hD.affine, List.length_cons]
    push_cast
    ring

include hD in
theorem variance_iid (g : α → ℝ) (l : List ι) :
    expectation (fun as => ((as.map g).sum - l.length * expectation g D) ^ 2) (mapEach (fun _ => D) l) =
      l.length * expectation (fun a => (g a - expectation g D) ^ 2) D := by
  obtain ⟨μ, hμ⟩ : ∃ μ, μ = expectation g D := ⟨_, rfl⟩
  rw [← hμ]
  induction l with
  | nil => simp [mapEach]
  | cons i l ih =>
    rw [expectation_mapEach_cons]
    have hF := finDist_iid hD l
    have hm : expectation (fun as : List α => (as.map g).sum - l.length * μ) (mapEach (fun _ => D) l) = 0 := by
      have := hF.affine (-(l.length * μ)) 1 fun as => (as.map g).sum
      rw [mean_iid hD g l, ← hμ] at this
      rw [show (fun as : List α => (as.map g).sum - l.length * μ) = fun as => -(l.length * μ) + 1 * (as.map g).sum from
        funext fun as => by ring, this]
      ring
    have : ∀ a, expectation (fun as : List α => (((a :: as).map g).sum - ((i :: l).length : ℕ) * μ) ^ 2)
        (mapEach (fun _ => D) l) = l.length * expectation (fun a => (g a - μ) ^ 2) D + 1 * (g a - μ) ^ 2 := by
      intro a
      rw [← ih]
      have h1 := hF.sum [0, 1] fun (k : ℕ) (as : List α) => if k = 0 then ((as.map g).sum - l.length * μ) ^ 2 else
        (g a - μ) ^ 2 + 2 * (g a - μ) * ((as.map g).sum - l.length * μ)
      simp only [List.map_cons, List.map_nil, List.sum_cons, List.sum_nil, one_ne_zero, if_true, if_false, add_zero] at h1
      rw [hF.affine, hm, mul_zero, add_zero] at h1
      rw [one_mul, ← h1]
      congr 1
      funext as
      simp only [List.map_cons, List.sum_cons, List.length_cons]
      push_cast
      ring
    simp only [this]
    rw [hD.affine, List.length_cons]
    push_cast
    ring

end Independent

/-! ### The sample -/

/-- One row of the sample. -/
noncomputable def rowOf (states : List (List ℤ)) (q : List ℝ) : Prog (List ℤ) :=
  rand01.bind fun u => .ret (states.getD (searchRight (cumSum 0 q) u) [])

theorem expectation_rowOf (states : List (List ℤ)) (c : List ℤ → ℝ) (hc : ∀ s ∈ states, 0 ≤ c s)
    (hsum : (states.map c).sum = 1) (f : List ℤ → ℝ) :
    expectation f (rowOf states (states.map c)) = (states.map fun s => c s * f s).sum := by
  have h := (integral_search (fun i => f (states.getD i [])) (states.map c) (by simpa using hc) 0 0).2
  simp only [zero_add, hsum] at h
  rw [← zipIdx_states states c f [], ← h]
  rfl

theorem finDist_rowOf (states : List (List ℤ)) (c : List ℤ → ℝ) (hc : ∀ s ∈ states, 0 ≤ c s)
    (hsum : (states.map c).sum = 1) : FinDist (rowOf states (states.map c)) (· ∈ states) := by
  refine ⟨states.map fun s => (c s, s), ?_, ?_, fun f => ?_⟩
  · intro x hx
    obtain ⟨s, hs, rfl⟩ := List.mem_map.1 hx
    exact ⟨hc s hs, hs⟩
  · rw [List.map_map]
    exact hsum
  · rw [expectation_rowOf states c hc hsum, List.map_map]
    rfl

theorem returns_uniforms (size : ℕ) : Returns (mapEach (fun _ => rand01) (List.range size))
    fun us => us.length = size ∧ ∀ u ∈ us, 0 ≤ u ∧ u < 1 := by
  refine returns_mono ?_ (returns_mapEach (Q := fun _ u => 0 ≤ u ∧ u < 1) _ fun _ _ => ?_)
  · intro us h
    refine ⟨by rw [← h.length_eq, List.length_range], fun a ha => ?_⟩
    obtain ⟨k, hk, rfl⟩ := List.mem_iff_getElem.1 ha
    exact (List.forall₂_iff_get.1 h).2 k (h.length_eq ▸ hk) hk
  · exact fun u h0 h1 => ⟨u, rfl, h0, h1⟩

section Sample
variable (n : ℕ) (h1 : 1 ≤ n) (h30 : n ≤ 30) (b : List ℤ → ℝ) (hb : ∀ s ∈ words [-1, 1] n, 0 ≤ b s)
  (hsum : |((words [-1, 1] n).map b).sum - 1| ≤ (1 / 2) ^ 26) (size : ℕ)

include h1 h30 hb hsum

theorem guideSample_unfold : guideSample n size ((words [-1, 1] n).map b) =
    (mapEach (fun _ => rand01) (List.range size)).bind fun us =>
      if ∀ i ∈ us.map (searchRight (cumSum 0 ((words [-1, 1] n).map fun s => b s / ((words [-1, 1] n).map b).sum))),
        i < (words ([-1, 1] : List ℤ) n).length then
        .ret (us.map fun u => (words ([-1, 1] : List ℤ) n).getD
          (searchRight (cumSum 0 ((words [-1, 1] n).map fun s => b s / ((words [-1, 1] n).map b).sum)) u) [])
      else .fail .indexError := by
  unfold guideSample npChoice
  have hw := binStates_words n h1 h30 true
  rw [hw, show spinValues true = [-1, 1] from rfl, ofPy, Prog.bind, if_neg (fun h => absurd h.1 (by positivity)), if_neg (by
    rw [List.length_map, length_words]; simp), if_neg (by
    rintro ⟨x, hx, hlt⟩
    obtain ⟨s, hs, rfl⟩ := List.mem_map.1 hx
    exact absurd (hb s hs) (not_le.2 hlt)), if_neg (not_lt.2 hsum), bind_assoc]
  congr 1
  funext us
  simp only [Prog.bind]
  rw [cumSum_div, zero_div, List.map_map, List.map_map]
  rfl

theorem guideSample_sum_pos : 0 < ((words [-1, 1] n).map b).sum := by
  have := (abs_le.1 hsum).1
  norm_num at this
  linarith

theorem normalised : (∀ s ∈ words [-1, 1] n, 0 ≤ b s / ((words [-1, 1] n).map b).sum) ∧
    ((words [-1, 1] n).map fun s => b s / ((words [-1, 1] n).map b).sum).sum = 1 := by
  have hp := guideSample_sum_pos n h1 h30 b hb hsum
  refine ⟨fun s hs => div_nonneg (hb s hs) hp.le, ?_⟩
  rw [list_sum_div]
  exact div_self hp.ne'

theorem search_in (us : List ℝ) (hus : ∀ u ∈ us, 0 ≤ u ∧ u < 1) :
    ∀ i ∈ us.map (searchRight (cumSum 0 ((words [-1, 1] n).map fun s => b s / ((words [-1, 1] n).map b).sum))),
        i < (words ([-1, 1] : List ℤ) n).length := by
  intro i hi
  obtain ⟨u, hu, rfl⟩ := List.mem_map.1 hi
  obtain ⟨h2, h3⟩ := normalised n h1 h30 b hb hsum
  have := searchRight_lt ((words [-1, 1] n).map fun s => b s / ((words [-1, 1] n).map b).sum) (by simpa using h2) 0 u
    (by rw [h3]; linarith [(hus u hu).2]) (hus u hu).1
  simpa using this

theorem returns_guideSample : Returns (guideSample n size ((words [-1, 1] n).map b)) fun X =>
    X.length = size ∧ ∀ s ∈ X, s ∈ words [-1, 1] n := by
  rw [guideSample_unfold n h1 h30 b hb hsum size]
  refine returns_bind (returns_uniforms size) fun us hus => ?_
  have hin := search_in n h1 h30 b hb hsum us hus.2
  rw [if_pos hin]
  refine returns_ret ⟨by simpa using hus.1, fun s hs => ?_⟩
  obtain ⟨u, hu, rfl⟩ := List.mem_map.1 hs
  have := hin _ (List.mem_map.2 ⟨u, hu, rfl⟩)
  rw [List.getD_eq_getElem _ _ this]
  exact List.getElem_mem _

theorem expectation_guideSample (f : List (List ℤ) → ℝ) :
    expectation f (guideSample n size ((words [-1, 1] n).map b)) = expectation f (mapEach (fun _ =>
      rowOf (words [-1, 1] n) ((words [-1, 1] n).map fun s => b s / ((words [-1, 1] n).map b).sum)) (List.range size)) := by
  rw [guideSample_unfold n h1 h30 b hb hsum size, expectation_bind]
  unfold rowOf
  rw [← mapEach_map, expectation_bind]
  refine expectation_congr _ (returns_uniforms size) fun us hus => ?_
  rw [if_pos (search_in n h1 h30 b hb hsum us hus.2)]

theorem finDist_guideSample : FinDist (guideSample n size ((words [-1, 1] n).map b)) fun X =>
    X.length = size ∧ ∀ s ∈ X, s ∈ words [-1, 1] n := by
  obtain ⟨h2, h3⟩ := normalised n h1 h30 b hb hsum
  obtain ⟨ws, w1, w2, w3⟩ := finDist_iid (finDist_rowOf _ _ h2 h3) (List.range size)
  refine ⟨ws, fun x hx => ⟨(w1 x hx).1, by simpa using (w1 x hx).2⟩, w2, fun f => ?_⟩
  rw [expectation_guideSample n h1 h30 b hb hsum, w3]

theorem prob_guideSample (X : List (List ℤ)) (hl : X.length = size) (hX : ∀ s ∈ X, s ∈ words [-1, 1] n) :
    prob (guideSample n size ((words [-1, 1] n).map b)) (· = X) =
      (X.map fun s => b s / ((words [-1, 1] n).map b).sum).prod := by
  obtain ⟨h2, h3⟩ := normalised n h1 h30 b hb hsum
  unfold prob
  rw [expectation_guideSample n h1 h30 b hb hsum]
  have := prob_iid (finDist_rowOf _ _ h2 h3) (List.range size) X (by simpa using hl)
  unfold prob at this
  rw [this]
  congr 1
  refine List.map_congr_left fun s hs => ?_
  rw [expectation_rowOf _ _ h2 h3]
  simp only [mul_ite, mul_one, mul_zero]
  exact list_sum_ite_eq _ (nodup_words (by decide) n) s (hX s hs) _

end Sample

section Boltz
variable (n : ℕ) (h1 : 1 ≤ n) (h30 : n ≤ 30) (E : List ℤ → ℝ) (size : ℕ)

theorem boltz_nonneg (n : ℕ) (E : List ℤ → ℝ) : ∀ s ∈ words [-1, 1] n, 0 ≤ boltzmann (words [-1, 1] n) E s :=
  fun s _ => (boltzmann_pos _ E (words_pm_ne n) s).le

theorem boltz_sum (n : ℕ) (E : List ℤ → ℝ) : |((words [-1, 1] n).map (boltzmann (words [-1, 1] n) E)).sum - 1| ≤ (1 / 2) ^ 26 := by
  rw [sum_boltzmann _ E (words_pm_ne n), sub_self, abs_zero]
  positivity

include h1 h30

theorem variance_guide (f : List ℤ → ℝ) :
    expectation (fun X => (X.map f).sum) (guideSample n size ((words [-1, 1] n).map (boltzmann (words [-1, 1] n) E))) =
      size * expect (words [-1, 1] n) E f ∧
    expectation (fun X => ((X.map f).sum - size * expect (words [-1, 1] n) E f) ^ 2)
      (guideSample n size ((words [-1, 1] n).map (boltzmann (words [-1, 1] n) E))) =
      size * expect (words [-1, 1] n) E fun s => (f s - expect (words [-1, 1] n) E f) ^ 2 := by
  have hb := boltz_nonneg n E
  have hs := boltz_sum n E
  obtain ⟨h2, h3⟩ := normalised n h1 h30 _ hb hs
  have hone := sum_boltzmann _ E (words_pm_ne n)
  rw [expectation_guideSample n h1 h30 _ hb hs, expectation_guideSample n h1 h30 _ hb hs]
  have hD := finDist_rowOf _ _ h2 h3
  have hE : ∀ g, expectation g (rowOf (words [-1, 1] n) ((words [-1, 1] n).map fun s => boltzmann (words [-1, 1] n) E s /
      ((words [-1, 1] n).map (boltzmann (words [-1, 1] n) E)).sum)) = expect (words [-1, 1] n) E g := by
    intro g
    rw [expectation_rowOf _ _ h2 h3]
    simp only [hone, div_one]
    rfl
  have a := mean_iid hD f (List.range size)
  have v := variance_iid hD f (List.range size)
  rw [hE, List.length_range] at a
  rw [hE, hE, List.length_range] at v
  exact ⟨a, v⟩

open scoped Classical in
theorem close_guide (δ : ℝ) (hδ : 0 < δ) (hs : 0 < size) :
    prob (guideSample n size ((words [-1, 1] n).map (boltzmann (words [-1, 1] n) E))) (fun X => ¬ CloseTo n E δ X) ≤
      1 / (size * δ ^ 2) := by
  obtain ⟨S, hS⟩ : ∃ S, S = words ([-1, 1] : List ℤ) n := ⟨_, rfl⟩
  have hnd : S.Nodup := by rw [hS]; exact nodup_words (by decide) n
  have hSne : S ≠ [] := hS ▸ words_pm_ne n
  have hs' : (0 : ℝ) < size := by exact_mod_cast hs
  obtain ⟨ind, hind⟩ : ∃ ind : List ℤ → List ℤ → ℝ, ind = fun s t => if t = s then 1 else 0 := ⟨_, rfl⟩
  have hvar := fun s => (variance_guide n h1 h30 E size (ind s)).2
  have hfin := finDist_guideSample n h1 h30 _ (boltz_nonneg n E) (boltz_sum n E) size
  rw [← hS] at hfin
  simp only [← hS] at hvar
  rw [← hS]
  unfold prob
  have hb := hfin.mono (f := fun X => if ¬ CloseTo n E δ X then (1 : ℝ) else 0)
    (g := fun X => 0 + ((size : ℝ) ^ 2 * δ ^ 2)⁻¹ * (S.map fun s => ((X.map (ind s)).sum -
      size * expect S E (ind s)) ^ 2).sum) (fun X h => by
      have hnn : 0 ≤ (S.map fun s => ((X.map (ind s)).sum - size * expect S E (ind s)) ^ 2).sum :=
        List.sum_nonneg fun y hy => by
          obtain ⟨s, -, rfl⟩ := List.mem_map.1 hy
          exact sq_nonneg _
      rw [zero_add]
      by_cases hcl : CloseTo n E δ X
      · rw [if_neg (not_not.2 hcl)]
        exact mul_nonneg (by positivity) hnn
      · rw [if_pos hcl]
        have hne : X ≠ [] := by
          rintro rfl
          simp at h
          omega
        have : ∃ s ∈ S, δ ≤ |(X.count s : ℝ) / X.length - boltzmann S E s| := by
          by_contra hno
          push Not at hno
          refine hcl ⟨hne, fun s hs => mem_words_pm.2 (hS ▸ h.2 s hs), fun s hs => ?_⟩
          rw [boltzmann_pm, ← hS]
          exact hno s (hS ▸ mem_words_pm.1 hs)
        obtain ⟨s, hsS, hle⟩ := this
        rw [inv_mul_eq_div, le_div_iff₀ (by positivity), one_mul]
        refine le_trans ?_ (List.single_le_sum (fun y hy => by
          obtain ⟨s, -, rfl⟩ := List.mem_map.1 hy
          exact sq_nonneg _) _ (List.mem_map.2 ⟨s, hsS, rfl⟩))
        rw [hind]
        dsimp only
        rw [sum_indicator, expect_indicator S hnd _ s hsS]
        rw [h.1] at hle
        have e : (X.count s : ℝ) - size * boltzmann S E s = size * ((X.count s : ℝ) / size - boltzmann S E s) := by
          field_simp
        rw [e, mul_pow, ← sq_abs (_ - _)]
        gcongr)
  refine hb.trans ?_
  rw [hfin.affine, zero_add, hfin.sum]
  simp only [hvar]
  rw [list_sum_mul_left]
  have htot : (S.map fun s => expect S E fun t => (ind s t - expect S E (ind s)) ^ 2).sum ≤ 1 := by
    refine le_trans (List.sum_le_sum (g := boltzmann S E) fun s hs => ?_) (sum_boltzmann S E hSne).le
    have e1 : expect S E (ind s) = boltzmann S E s := by rw [hind]; exact expect_indicator S hnd E s hs
    have e2 : (expect S E fun t => (ind s t - boltzmann S E s) ^ 2) =
        boltzmann S E s - boltzmann S E s ^ 2 := by
      have : (fun t => (ind s t - boltzmann S E s) ^ 2) = fun t => boltzmann S E s ^ 2 +
          (1 - 2 * boltzmann S E s) * ind s t := by
        funext t
        rw [hind]
        dsimp only
        split_ifs <;> ring
      rw [this]
      unfold expect at e1 ⊢
      simp only [mul_add]
      rw [List.sum_map_add, List.sum_map_mul_right, sum_boltzmann S E hSne]
      have : (fun t => boltzmann S E t * ((1 - 2 * boltzmann S E s) * ind s t)) =
          fun t => (1 - 2 * boltzmann S E s) * (boltzmann S E t * ind s t) := by funext t; ring
      rw [this, list_sum_mul_left, e1]
      ring
    rw [e1, e2]
    linarith [sq_nonneg (boltzmann S E s)]
  have hle := mul_le_mul_of_nonneg_left htot hs'.le
  refine (mul_le_mul_of_nonneg_left hle (by positivity)).trans (le_of_eq ?_)
  field_simp

end Boltz

end Verif.Lemmas
