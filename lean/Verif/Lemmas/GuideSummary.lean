/-
Distances of means and parameters.
-/
import Verif.Model.GuideSummary
import Verif.Spec.Summary
import Verif.Lemmas.TripletFit
import Verif.Props.Consistent

namespace Verif.Lemmas
open Verif Verif.Model Verif.Spec Verif.Props

theorem orderTuples_two (n : ℕ) : orderTuples n 2 = (List.range n).map (fun i => [i]) ++ (upperPairs n).map fun p => [p.1, p.2] := by
  simp [orderTuples, List.range_succ, tuples_one, tuples_two]

theorem pairFns_orders (n : ℕ) : pairFns n = (orderTuples n 2).map fun t s => mono (spins s) t := by
  rw [orderTuples_two, List.map_append, List.map_map, List.map_map]
  unfold pairFns
  congr 1
  · exact List.map_congr_left fun i _ => by funext s; simp [mono]
  · exact List.map_congr_left fun i _ => by funext s; simp [mono]

theorem length_orders_two (n : ℕ) : (orderTuples n 2).length = n + n * (n - 1) / 2 := by
  rw [← length_pairFns, pairFns_orders, List.length_map]

theorem pairE_order (n : ℕ) (v : List ℝ) (hv : v.length = n + n * (n - 1) / 2) : pairE n v = orderE n 2 v := by
  funext s
  rw [pairE_dot n v hv, ← pairFns_map, pairFns_orders, List.map_map]
  rfl

theorem sq_zip (a b : List ℝ) : ((List.zipWith (· - ·) a b).map fun x => x * x) = List.zipWith (fun x y => (x - y) ^ 2) a b := by
  rw [List.map_zipWith]
  congr 1
  funext x y
  ring

theorem errorNorm_means (n : ℕ) (T : List (List ℕ)) (E : List ℤ → ℝ) (X : Data) :
    errorNorm (T.map fun t => avg X fun s => mono (spins s) t)
      (T.map fun t => expect (words [-1, 1] n) E fun s => mono (spins s) t) = .ok (meansDistance n T E X) := by
  unfold errorNorm broadcast2
  rw [if_pos (by simp)]
  dsimp only
  rw [sq_zip, List.zipWith_map, List.zipWith_self]
  rfl

theorem errorNorm_params (θ v : List ℝ) (h : v.length = θ.length) : errorNorm θ v = .ok (paramDistance θ v) := by
  unfold errorNorm broadcast2
  rw [if_pos h.symm]
  dsimp only
  rw [sq_zip]
  unfold paramDistance
  congr 2
  rw [← sum_map_range]
  congr 1
  refine List.ext_getElem (by simp [h]) fun i h1 h2 => ?_
  simp only [List.length_zipWith, h, min_self] at h1
  rw [List.getElem_zipWith, List.getElem_map, List.getElem_range, List.getD_eq_getElem _ _ h1,
    List.getD_eq_getElem _ _ (by omega)]

/-! ### Zero -/

theorem sum_sq_zero {ι : Type*} (L : List ι) (f : ι → ℝ) : (L.map fun i => f i ^ 2).sum = 0 ↔ ∀ i ∈ L, f i = 0 := by
  induction L with
  | nil => simp
  | cons a L ih =>
    have : 0 ≤ (L.map fun i => f i ^ 2).sum := List.sum_nonneg (by
      intro x hx
      obtain ⟨i, -, rfl⟩ := List.mem_map.1 hx
      positivity)
    rw [List.map_cons, List.sum_cons, add_eq_zero_iff_of_nonneg (sq_nonneg _) this, ih]
    simp

theorem sum_sq_nonneg {ι : Type*} (L : List ι) (f : ι → ℝ) : 0 ≤ (L.map fun i => f i ^ 2).sum := List.sum_nonneg (by
  intro x hx
  obtain ⟨i, -, rfl⟩ := List.mem_map.1 hx
  positivity)

theorem meansDistance_zero (n m : ℕ) (v : List ℝ) (X : Data) :
    meansDistance n (orderTuples n m) (orderE n m v) X = 0 ↔ ReproducesOrders n m v X := by
  unfold meansDistance ReproducesOrders
  rw [Real.sqrt_eq_zero (sum_sq_nonneg _ _), sum_sq_zero]
  exact forall_congr' fun t => imp_congr_right fun _ => sub_eq_zero.trans eq_comm

theorem paramDistance_zero (θ v : List ℝ) (h : v.length = θ.length) : paramDistance θ v = 0 ↔ v = θ := by
  unfold paramDistance
  rw [Real.sqrt_eq_zero (Finset.sum_nonneg fun i _ => sq_nonneg _), Finset.sum_eq_zero_iff_of_nonneg fun i _ => sq_nonneg _]
  constructor
  · intro hz
    refine List.ext_getElem h fun i h1 h2 => ?_
    have := hz i (Finset.mem_range.2 h2)
    rw [List.getD_eq_getElem _ _ h1, List.getD_eq_getElem _ _ h2] at this
    exact (sub_eq_zero.1 (pow_eq_zero_iff (by norm_num) |>.1 this)).symm
  · rintro rfl i -
    ring

/-! ### Small -/

theorem sqrt_small {ι : Type*} (L : List ι) (f : ι → ℝ) (ε : ℝ) (hε : 0 < ε) (h : ∀ i ∈ L, |f i| < ε / (L.length + 1)) :
    Real.sqrt (L.map fun i => f i ^ 2).sum < ε := by
  rw [Real.sqrt_lt' hε]
  have hpos : (0 : ℝ) < L.length + 1 := by positivity
  have h1 : (L.map fun i => f i ^ 2).sum ≤ (L.map fun _ => (ε / (L.length + 1)) ^ 2).sum :=
    list_sum_le _ _ _ fun i hi => sq_le_sq' (by linarith [(abs_lt.1 (h i hi)).1]) (abs_lt.1 (h i hi)).2.le
  rw [List.map_const', List.sum_replicate, nsmul_eq_mul] at h1
  refine h1.trans_lt ?_
  rw [div_pow, mul_div_assoc', div_lt_iff₀ (by positivity), mul_comm]
  refine mul_lt_mul_of_pos_left ?_ (by positivity)
  nlinarith [Nat.cast_nonneg (α := ℝ) L.length]

theorem paramDistance_small (θ v : List ℝ) (ε : ℝ) (hε : 0 < ε) (h : Near (ε / (θ.length + 1)) v θ) : paramDistance θ v < ε := by
  have := sqrt_small (List.range θ.length) (fun i => θ.getD i 0 - v.getD i 0) ε hε fun i hi => by
    rw [List.length_range, abs_sub_comm]
    exact h.2 i (List.mem_range.1 hi)
  unfold paramDistance
  rwa [← sum_map_range]

/-- The mean of a quantity in the model is a continuous function of the parameters. -/
theorem expect_near (n m : ℕ) (θ : List ℝ) (hθ : θ.length = (orderTuples n m).length) (f : List ℤ → ℝ) (ε : ℝ) (hε : 0 < ε) :
    ∃ η, 0 < η ∧ ∀ v, Near η v θ →
      |expect (words [-1, 1] n) (orderE n m v) f - expect (words [-1, 1] n) (orderE n m θ) f| < ε := by
  have hc : Continuous fun u : Fin (orderTuples n m).length → ℝ => expect (words [-1, 1] n) (orderLin n m u) f := by
    have hE : ∀ s, Continuous fun u => Real.exp (-orderLin n m u s) := fun s =>
      Real.continuous_exp.comp (continuous_energy (orderLin n m) s).neg
    simp only [expect_eq_div]
    unfold partition
    refine Continuous.div (continuous_list_sum _ fun s _ => (hE s).mul continuous_const) (continuous_list_sum _ fun s _ => hE s)
      fun u => ?_
    exact (partition_pos _ (orderLin n m u) (words_pm_ne n)).ne'
  obtain ⟨η, hη, h⟩ := Metric.continuous_iff.1 hc (fun i => θ.getD i 0) ε hε
  refine ⟨η, hη, fun v hv => ?_⟩
  have hvl := hv.1.trans hθ
  have := h (fun i => v.getD i 0) (by
    rw [dist_pi_lt_iff hη]
    intro i
    rw [Real.dist_eq]
    exact hv.2 i (by rw [hθ]; exact i.2))
  rw [Real.dist_eq, ← orderLin_apply, ← orderLin_apply, ofFn_getD v hvl, ofFn_getD θ hθ] at this
  exact this

theorem avg_close (n : ℕ) (E : List ℤ → ℝ) (δ : ℝ) (X : Data) (hX : CloseTo n E δ X) (f : List ℤ → ℝ)
    (hf : ∀ s ∈ words [1, -1] n, |f s| ≤ 1) : |avg X f - expect (words [-1, 1] n) E f| ≤ 2 ^ n * δ := by
  obtain ⟨S, hS⟩ : ∃ S, S = words ([1, -1] : List ℤ) n := ⟨_, rfl⟩
  have hnd : S.Nodup := hS ▸ nodup_words (by decide) n
  have hl : (S.length : ℝ) = 2 ^ n := by
    rw [hS, length_words]
    norm_num
  have e1 : expect (words [-1, 1] n) E f = (S.map fun s => boltzmann S E s * f s).sum := by
    rw [← expect_perm (words_pm_perm n), ← hS]
    rfl
  have e2 : avg X f = (S.map fun s => (X.count s : ℝ) / X.length * f s).sum := by
    unfold avg
    rw [sum_by_count S X hnd (fun s hs => hS ▸ hX.2.1 s hs) f, ← list_sum_div]
    exact list_sum_congr fun s _ => by ring
  rw [e1, e2, ← list_sum_sub, ← hl, ← nsmul_eq_mul, ← List.sum_replicate, ← List.map_const']
  have h3 : ∀ s ∈ S, |(X.count s : ℝ) / X.length * f s - boltzmann S E s * f s| ≤ δ := by
    intro s hs
    rw [← sub_mul, abs_mul]
    have a := hX.2.2 s (hS ▸ hs)
    rw [← hS] at a
    have b := hf s (hS ▸ hs)
    nlinarith [abs_nonneg (f s), abs_nonneg ((X.count s : ℝ) / X.length - boltzmann S E s)]
  rw [abs_le]
  constructor
  · have := list_sum_le S (fun _ => -δ) _ fun s hs => (abs_le.1 (h3 s hs)).1
    rw [List.map_const', List.sum_replicate, nsmul_eq_mul] at this ⊢
    linarith
  · exact list_sum_le S _ (fun _ => δ) fun s hs => (abs_le.1 (h3 s hs)).2

theorem mono_abs (n : ℕ) (s : List ℤ) (hs : s ∈ words [1, -1] n) (t : List ℕ) : |(mono (spins s) t : ℝ)| ≤ 1 := by
  unfold mono
  induction t with
  | nil => simp
  | cons i t ih =>
    rw [List.map_cons, List.prod_cons, abs_mul]
    have : |(spins s i : ℝ)| ≤ 1 := by
      unfold spins
      obtain ⟨hl, hv⟩ := mem_words.1 hs
      by_cases hi : i < s.length
      · rw [List.getD_eq_getElem _ _ hi]
        have := hv _ (List.getElem_mem hi)
        simp only [List.mem_cons, List.not_mem_nil, or_false] at this
        rcases this with h | h <;> simp [h]
      · rw [List.getD_eq_default _ _ (by omega)]
        simp
    exact mul_le_one₀ this (abs_nonneg _) ih

/-- Frequencies close to those of `θ` and parameters close to `θ`: the means of the fit are close to those of the sample. -/
theorem meansDistance_small (n m : ℕ) (θ : List ℝ) (hθ : θ.length = (orderTuples n m).length) (ε : ℝ) (hε : 0 < ε) :
    ∃ η, 0 < η ∧ ∃ δ, 0 < δ ∧ ∀ X v, CloseTo n (orderE n m θ) δ X → Near η v θ →
      meansDistance n (orderTuples n m) (orderE n m v) X < ε := by
  obtain ⟨ε', hε'⟩ : ∃ ε', ε' = ε / ((orderTuples n m).length + 1) := ⟨_, rfl⟩
  have hpos : 0 < ε' := by rw [hε']; positivity
  have hall : ∀ T : List (List ℕ), ∃ η, 0 < η ∧ ∀ v, Near η v θ → ∀ t ∈ T,
      |expect (words [-1, 1] n) (orderE n m v) (fun s => mono (spins s) t) -
        expect (words [-1, 1] n) (orderE n m θ) (fun s => mono (spins s) t)| < ε' / 2 := by
    intro T
    induction T with
    | nil => exact ⟨1, one_pos, by simp⟩
    | cons t T ih =>
      obtain ⟨η₁, h1, k1⟩ := ih
      obtain ⟨η₂, h2, k2⟩ := expect_near n m θ hθ (fun s => mono (spins s) t) (ε' / 2) (half_pos hpos)
      refine ⟨min η₁ η₂, lt_min h1 h2, fun v hv t' ht' => ?_⟩
      rcases List.mem_cons.1 ht' with rfl | h
      · exact k2 v ⟨hv.1, fun i hi => (hv.2 i hi).trans_le (min_le_right _ _)⟩
      · exact k1 v ⟨hv.1, fun i hi => (hv.2 i hi).trans_le (min_le_left _ _)⟩ t' h
  obtain ⟨η, hη, hk⟩ := hall (orderTuples n m)
  refine ⟨η, hη, ε' / 2 / 2 ^ n, by positivity, fun X v hX hv => ?_⟩
  unfold meansDistance
  refine sqrt_small _ _ ε hε fun t ht => ?_
  rw [← hε']
  have a := avg_close n _ _ X hX (fun s => mono (spins s) t) fun s hs => mono_abs n s hs t
  rw [mul_div_cancel₀ _ (by positivity)] at a
  have b := hk v hv t ht
  rw [abs_le] at a
  rw [abs_lt] at b ⊢
  constructor <;> linarith [a.1, a.2, b.1, b.2]

end Verif.Lemmas
