/-
Lemmas about models with interactions of up to `m` spins: the {0,1} form, least flow within limits, greatest likelihood.
-/
import Verif.Lemmas.Orders
import Mathlib.Analysis.Convex.Extrema

namespace Verif.Lemmas
open Verif Verif.Model Verif.Spec Verif.Props

/-! ### Conversion between the bases -/

theorem order_split (n m : ℕ) (v : List ℝ) (hv : v.length = (orderTuples n m).length) :
    ∃ P : List (List ℝ), P.length = m ∧ PolyShape n P ∧ P.flatten = v ∧
      ∀ s : List ℤ, polyE n P (spins s) = orderE n m v s := by
  rw [orderTuples_eq] at hv
  obtain ⟨P, hP, rfl⟩ := split_params _ v hv
  obtain ⟨l, sh⟩ := polyShape_of_fit n m P hP
  exact ⟨P, l, sh, rfl, fun s => by rw [← orderE_groupE n m P hP, ← groupE_allOrders, l]⟩

theorem order_flatten (n m : ℕ) (P : List (List ℝ)) (hl : P.length = m) (hP : PolyShape n P) :
    P.flatten.length = (orderTuples n m).length ∧ ∀ s : List ℤ, polyE n P (spins s) = orderE n m P.flatten s := by
  subst hl
  have hfit := paramsFit_allOrders n P hP
  refine ⟨?_, fun s => by rw [← orderE_groupE n _ P hfit, ← groupE_allOrders]⟩
  rw [orderTuples_eq, List.length_flatten, List.length_flatMap]
  congr 1

theorem pm_word {n : ℕ} {s : List ℤ} : s ∈ words [-1, 1] n ↔ s.length = n ∧ ∀ x ∈ s, x = -1 ∨ x = 1 := by
  rw [mem_words]
  simp

theorem bits_div (s : List ℤ) (hpm : ∀ x ∈ s, x = -1 ∨ x = 1) :
    (s.map fun y => if y = 1 then (1 : ℤ) else 0) = s.map fun x => (x + 1) / 2 := by
  refine List.map_congr_left fun x hx => ?_
  rcases hpm x hx with rfl | rfl <;> rfl

/-- From ±1 to bits: the conversion gives the {0,1} form, and the conversion back returns the parameters. -/
theorem order_convert (n m : ℕ) (hm : 1 ≤ m) (hmn : m ≤ n) (r : List ℝ) (hr : r.length = (orderTuples n m).length) :
    ∃ x, BitForm n m r x ∧ mpfConvert n .b01 r = .ok x ∧ mpfConvert n .b11 x = .ok r := by
  obtain ⟨P, hl, hsh, hf, hE⟩ := order_split n m r hr
  rcases P with _ | ⟨h, rest⟩
  · simp at hl
    omega
  have hh : h.length = n := by
    have := hsh 0 (by simp)
    simpa [tuples_one] using this
  obtain ⟨Q, e1, e2⟩ := C14_01_then_11 n h rest hh hsh
  obtain ⟨Q', e1', ql, qs, c, hc⟩ := C13_to01_energy n h rest hh hsh
  obtain rfl : Q = Q' := by
    rw [e1] at e1'
    exact Except.ok.inj e1'
  have ql' := ql.trans hl
  obtain ⟨f1, f2⟩ := order_flatten n m Q ql' qs
  refine ⟨Q.flatten, ⟨f1, c, fun s hs => ?_⟩, ?_, ?_⟩
  · obtain ⟨sl, spm⟩ := pm_word.1 hs
    rw [bits_div s spm, ← f2, hc, ← hE, polyE_congr n _ _ _ fun i hi => pm_spin n s sl spm i hi]
  · refine (mpfConvert_iff _ _ _ _).2 ⟨h :: rest, ?_, ?_⟩
    · rw [← hf]
      exact (split_flatten n _ hsh (by omega) _).2 rfl
    · unfold isingConvertParamsConcat
      rw [e1]
      rfl
  · refine (mpfConvert_iff _ _ _ _).2 ⟨Q, ?_, ?_⟩
    · exact (split_flatten n _ qs (by omega) _).2 rfl
    · unfold isingConvertParamsConcat
      rw [e2, ← hf]
      rfl

/-- Every vector is the {0,1} form of some parameters. -/
theorem order_back (n m : ℕ) (hm : 1 ≤ m) (hmn : m ≤ n) (x : List ℝ) (hx : x.length = (orderTuples n m).length) :
    ∃ r, r.length = (orderTuples n m).length ∧ BitForm n m r x ∧ mpfConvert n .b11 x = .ok r := by
  obtain ⟨P, hl, hsh, hf, hE⟩ := order_split n m x hx
  rcases P with _ | ⟨h, rest⟩
  · simp at hl
    omega
  have hh : h.length = n := by
    have := hsh 0 (by simp)
    simpa [tuples_one] using this
  obtain ⟨Q, e1, ql, qs, c, hc⟩ := C13_to11_energy n h rest hh hsh
  have ql' := ql.trans hl
  obtain ⟨f1, f2⟩ := order_flatten n m Q ql' qs
  refine ⟨Q.flatten, f1, ⟨hx, -c, fun s hs => ?_⟩, ?_⟩
  · obtain ⟨sl, spm⟩ := pm_word.1 hs
    rw [bits_div s spm, ← f2, hc, ← hE, add_neg_cancel_right]
    refine polyE_congr n _ _ _ fun i hi => ?_
    have := pm_spin n s sl spm i hi
    linarith
  · refine (mpfConvert_iff _ _ _ _).2 ⟨h :: rest, ?_, ?_⟩
    · rw [← hf]
      exact (split_flatten n _ hsh (by omega) _).2 rfl
    · unfold isingConvertParamsConcat
      rw [e1]
      rfl

theorem bits_words {n : ℕ} {b : List ℤ} (hb : b ∈ words [0, 1] n) :
    ∃ s ∈ words ([-1, 1] : List ℤ) n, (s.map fun y => if y = 1 then (1 : ℤ) else 0) = b := by
  obtain ⟨hl, hv⟩ := mem_words.1 hb
  refine ⟨b.map fun y => if y = 1 then 1 else -1, mem_words.2 ⟨by simpa using hl, fun x hx => ?_⟩, ?_⟩
  · obtain ⟨y, -, rfl⟩ := List.mem_map.1 hx
    split_ifs <;> simp
  · rw [List.map_map]
    refine (List.map_congr_left fun y hy => ?_).trans (List.map_id _)
    have := hv y hy
    simp only [List.mem_cons, List.not_mem_nil, or_false] at this
    rcases this with rfl | rfl <;> rfl

theorem bitForm_unique {n m : ℕ} {r x y : List ℝ} (hx : BitForm n m r x) (hy : BitForm n m r y) : x = y := by
  obtain ⟨lx, c, hc⟩ := hx
  obtain ⟨ly, d, hd⟩ := hy
  refine order_unique n m false x y lx ly (c - d) fun b hb => ?_
  obtain ⟨s, hs, rfl⟩ := bits_words hb
  rw [hc s hs, hd s hs]
  ring

theorem bitForm_inj {n m : ℕ} {r q x : List ℝ} (hr : r.length = (orderTuples n m).length)
    (hq : q.length = (orderTuples n m).length) (h1 : BitForm n m r x) (h2 : BitForm n m q x) : r = q := by
  obtain ⟨-, c, hc⟩ := h1
  obtain ⟨-, d, hd⟩ := h2
  refine order_unique n m true r q hr hq (d - c) fun s hs => ?_
  have a := hc s hs
  have b := hd s hs
  linarith

/-! ### Flow of the bits -/

theorem bitForm_flow {n m : ℕ} {X : Data} (hX : SpinData n X) {r x : List ℝ} (h : BitForm n m r x) :
    probFlow (toBits X) (flips fun x => 1 - x) (orderE n m x) = orderFlow n m X r := by
  obtain ⟨-, c, hc⟩ := h
  refine bits_flow n X (spinData_rows hX) (orderE n m x) (orderE n m r) (-c) fun s sl spm => ?_
  have := hc s (pm_word.2 ⟨sl, spm⟩)
  rw [bits_div s spm] at this
  rw [this]
  ring

theorem flow_exp_lin {N : ℕ} (E : (Fin N → ℝ) →ₗ[ℝ] (List ℤ → ℝ)) (v : Fin N → ℝ) (s t : List ℤ) :
    Real.exp ((E v s - E v t) / 2) =
      Real.exp ((((1 / 2 : ℝ) • ((LinearMap.proj s).comp E - (LinearMap.proj t).comp E)) : (Fin N → ℝ) →ₗ[ℝ] ℝ) v) := by
  congr 1
  show _ = (1 / 2 : ℝ) * (E v s - E v t)
  ring

theorem continuous_flow {N : ℕ} (X : Data) (nb : List ℤ → List (List ℤ)) (E : (Fin N → ℝ) →ₗ[ℝ] (List ℤ → ℝ)) :
    Continuous fun v => probFlow X nb (E v) := by
  unfold probFlow
  refine Continuous.div_const (continuous_list_sum X fun s _ => continuous_list_sum _ fun t _ => ?_) _
  simp only [flow_exp_lin]
  exact Real.continuous_exp.comp (LinearMap.continuous_of_finiteDimensional _)

theorem convexOn_flow {N : ℕ} (X : Data) (nb : List ℤ → List (List ℤ)) (E : (Fin N → ℝ) →ₗ[ℝ] (List ℤ → ℝ)) :
    ConvexOn ℝ Set.univ fun v => probFlow X nb (E v) := by
  have h : ConvexOn ℝ Set.univ fun v => (1 / (X.length : ℝ)) • (X.map fun s => ((nb s).map fun t =>
      Real.exp ((E v s - E v t) / 2)).sum).sum := by
    refine ConvexOn.smul (by positivity) (convexOn_list_sum X _ fun s _ => convexOn_list_sum _ _ fun t _ => ?_)
    simp only [flow_exp_lin]
    exact convexOn_exp_lin _
  refine h.congr fun v _ => ?_
  unfold probFlow
  simp only [smul_eq_mul]
  ring

/-- Within bounds there is a smallest flow. -/
theorem order_box_exists (n m : ℕ) (X : Data) (nb : List ℤ → List (List ℤ)) (L : ℝ) (hL : 0 ≤ L) :
    ∃ x : List ℝ, x.length = (orderTuples n m).length ∧ InLimit L x ∧ ∀ y : List ℝ, y.length = (orderTuples n m).length →
      InLimit L y → probFlow X nb (orderE n m x) ≤ probFlow X nb (orderE n m y) := by
  have hbox : ∀ w : Fin (orderTuples n m).length → ℝ, InLimit L (List.ofFn w) ↔ w ∈ Set.Icc (fun _ => -L) (fun _ => L) := by
    intro w
    unfold InLimit
    simp only [List.forall_mem_ofFn_iff, Set.mem_Icc, Pi.le_def, abs_le, ← forall_and]
  obtain ⟨v, hv, hmin⟩ := (isCompact_Icc (a := fun _ : Fin (orderTuples n m).length => -L) (b := fun _ => L)).exists_isMinOn
    ⟨0, by simp only [Set.mem_Icc, Pi.le_def]; constructor <;> intro i <;> simp [hL]⟩
    (continuous_flow X nb (orderLin n m)).continuousOn
  refine ⟨List.ofFn v, List.length_ofFn, (hbox v).2 hv, fun y hy hyb => ?_⟩
  rw [← ofFn_getD y hy] at hyb ⊢
  have := hmin ((hbox _).1 hyb)
  dsimp only [Set.mem_ofPred_eq] at this
  rw [orderLin_apply, orderLin_apply]
  exact this

/-- Strictly inside the bounds: smallest of all. -/
theorem order_interior (n m : ℕ) (X : Data) (nb : List ℤ → List (List ℤ)) (L : ℝ) (x : List ℝ)
    (hx : x.length = (orderTuples n m).length) (hin : ∀ c ∈ x, |c| < L)
    (hmin : ∀ y : List ℝ, y.length = (orderTuples n m).length → InLimit L y →
      probFlow X nb (orderE n m x) ≤ probFlow X nb (orderE n m y)) (y : List ℝ) (hy : y.length = (orderTuples n m).length) :
    probFlow X nb (orderE n m x) ≤ probFlow X nb (orderE n m y) := by
  rw [← ofFn_getD x hx] at hin hmin ⊢
  rw [← ofFn_getD y hy]
  rw [orderLin_apply] at hmin ⊢
  rw [orderLin_apply]
  refine IsMinOn.of_isLocalMin_of_convex_univ (f := fun v => probFlow X nb (orderLin n m v)) ?_
    (convexOn_flow X nb (orderLin n m)) _
  have hopen : IsOpen {v : Fin (orderTuples n m).length → ℝ | ∀ i, |v i| < L} := by
    simp only [Set.ofPred_forall]
    exact isOpen_iInter_of_finite fun i => isOpen_lt (continuous_apply i).abs continuous_const
  refine Filter.eventually_of_mem (hopen.mem_nhds fun i => ?_) fun w hw => ?_
  · exact hin _ (List.mem_ofFn.2 ⟨i, rfl⟩)
  · have := hmin (List.ofFn w) List.length_ofFn fun c hc => by
      obtain ⟨i, rfl⟩ := List.mem_ofFn.1 hc
      exact (hw i).le
    rwa [orderLin_apply] at this

theorem orderFlow_pos (n m : ℕ) (hn : 1 ≤ n) (X : Data) (hX : SpinData n X) (r : List ℝ) : 0 < orderFlow n m X r :=
  probFlow_pos _ hX.1 _ (fun s hsm => by
    have := (spinData_rows hX s hsm).1
    intro h
    have h' := congrArg List.length h
    simp [flips] at h'
    simp [h'] at this
    omega) _

theorem least_exists (n m : ℕ) (hm : 1 ≤ m) (hmn : m ≤ n) (X : Data) (hX : SpinData n X) (L : ℝ) (hL : 0 ≤ L) :
    ∃ r, LeastOrderFlow n m L X r := by
  obtain ⟨x, hx, hb, hmin⟩ := order_box_exists n m (toBits X) (flips fun x => 1 - x) L hL
  obtain ⟨r, hr, hf, -⟩ := order_back n m hm hmn x hx
  refine ⟨r, hr, ⟨x, hf, hb⟩, fun r' x' _ hf' hb' => ?_⟩
  rw [← bitForm_flow hX hf, ← bitForm_flow hX hf']
  exact hmin x' hf'.1 hb'

theorem least_inside (n m : ℕ) (hm : 1 ≤ m) (hmn : m ≤ n) (X : Data) (hX : SpinData n X) (L : ℝ) (r x : List ℝ)
    (h : LeastOrderFlow n m L X r) (hx : BitForm n m r x) (hin : ∀ c ∈ x, |c| < L) (r' : List ℝ)
    (hr' : r'.length = (orderTuples n m).length) : orderFlow n m X r ≤ orderFlow n m X r' := by
  obtain ⟨x', hf', -, -⟩ := order_convert n m hm hmn r' hr'
  rw [← bitForm_flow hX hx, ← bitForm_flow hX hf']
  refine order_interior n m (toBits X) _ L x hx.1 hin (fun y hy hyb => ?_) x' hf'.1
  obtain ⟨q, hq, hqf, -⟩ := order_back n m hm hmn y hy
  rw [bitForm_flow hX hx, bitForm_flow hX hqf]
  exact h.2.2 q y hq hqf hyb

/-! ### Likelihood of a sample -/

/-- Mean products of a sample. -/
noncomputable def orderMeans (n m : ℕ) (X : Data) : List ℝ := (orderTuples n m).map fun t => avg X fun r => mono (spins r) t

theorem reproducesOrders_iff (n m : ℕ) (v : List ℝ) (X : Data) : ReproducesOrders n m v X ↔
    ((orderTuples n m).map fun t => expect (words [-1, 1] n) (orderE n m v) fun s => mono (spins s) t) = orderMeans n m X := by
  unfold ReproducesOrders orderMeans
  exact List.map_inj_left.symm

theorem dot_orderMeans (n m : ℕ) (v : List ℝ) (X : Data) : dot v (orderMeans n m X) = avg X fun r => -orderE n m v r := by
  unfold orderMeans orderE
  simp only [neg_neg]
  have := avg_dot X v ((orderTuples n m).map fun t r => mono (spins r) t)
  simpa only [List.map_map, Function.comp_def] using this

theorem orderLik_eq (n m : ℕ) (v : List ℝ) (X : Data) (hX : X ≠ []) :
    orderLik n m v X = X.length * (dot v (orderMeans n m X) - Real.log (partition (words [-1, 1] n) (orderE n m v))) := by
  unfold orderLik
  have h : (X.map fun r => Real.log (boltzmann (words [-1, 1] n) (orderE n m v) r)) =
      X.map fun r => -orderE n m v r - Real.log (partition (words [-1, 1] n) (orderE n m v)) := by
    refine List.map_congr_left fun r _ => ?_
    rw [log_boltzmann _ _ (words_pm_ne n)]
  have hl : (X.length : ℝ) ≠ 0 := by
    simpa using hX
  rw [h, dot_orderMeans, list_sum_sub]
  unfold avg
  rw [mul_sub, mul_div_cancel₀ _ hl]
  simp

theorem orderLik_strict (n m : ℕ) (X : Data) (hX : X ≠ []) (v : List ℝ) (hv : v.length = (orderTuples n m).length)
    (h : ReproducesOrders n m v X) (w : List ℝ) (hw : w.length = (orderTuples n m).length) (hne : w ≠ v) :
    orderLik n m w X < orderLik n m v X := by
  have hl : (0 : ℝ) < X.length := by exact_mod_cast List.length_pos_of_ne_nil hX
  obtain ⟨S, hS⟩ : ∃ S, S = words ([-1, 1] : List ℤ) n := ⟨_, rfl⟩
  have hSn : S ≠ [] := hS ▸ words_pm_ne n
  have hd := isDist_boltzmann S (orderE n m v) hSn
  have hm : orderMeans n m X = (orderTuples n m).map fun t =>
      mean S (boltzmann S (orderE n m v)) fun s => mono (spins s) t := by
    rw [← (reproducesOrders_iff n m v X).1 h, hS]
    rfl
  have key : ∀ u : List ℝ, orderLik n m u X =
      X.length * (S.map fun s => boltzmann S (orderE n m v) s * Real.log (boltzmann S (orderE n m u) s)).sum := by
    intro u
    have := cross_entropy S (orderE n m u) (boltzmann S (orderE n m v)) hSn hd.2
    have hmean : mean S (boltzmann S (orderE n m v)) (orderE n m u) = -dot u (orderMeans n m X) := by
      rw [show orderE n m u = fun s => -dot u ((orderTuples n m).map fun t => mono (spins s) t) from rfl, mean_neg,
        mean_dot S _ u (orderTuples n m) (fun t s => mono (spins s) t), hm]
    rw [orderLik_eq n m u X hX, ← hS]
    rw [hmean] at this
    congr 1
    linarith
  rw [key w, key v]
  refine mul_lt_mul_of_pos_left ?_ hl
  exact order_likelihood_lt n m v w hv hw hne S hSn fun s hs => hS ▸ hs

theorem reproducesOrders_of_max (n m : ℕ) (X : Data) (hX : X ≠ []) (v : List ℝ)
    (hv : v.length = (orderTuples n m).length)
    (h : ∀ w : List ℝ, w.length = (orderTuples n m).length → orderLik n m w X ≤ orderLik n m v X) :
    ReproducesOrders n m v X := by
  have hl : (0 : ℝ) < X.length := by exact_mod_cast List.length_pos_of_ne_nil hX
  rw [reproducesOrders_iff]
  refine family_of_max (words [-1, 1] n) (words_pm_ne n) (orderTuples n m) (fun t s => mono (spins s) t) (orderMeans n m X)
    (by simp [orderMeans]) v hv fun w hw => ?_
  have := h w hw
  rwa [orderLik_eq n m w X hX, orderLik_eq n m v X hX, mul_le_mul_iff_right₀ hl] at this

theorem order_ground_const (n m : ℕ) (w : List ℝ) (hw : w.length = (orderTuples n m).length)
    (h : ∃ k, ∀ s ∈ words ([-1, 1] : List ℤ) n, orderE n m w s = k) : ∀ x ∈ w, x = 0 := by
  obtain ⟨k, hk⟩ := h
  have hz : ∀ s, orderE n m (List.replicate (orderTuples n m).length 0) s = 0 := by
    intro s
    unfold orderE
    rw [dot_zeros _ _ fun x hx => List.eq_of_mem_replicate hx, neg_zero]
  have := order_unique n m true w _ hw List.length_replicate k fun s hs => by rw [hk s hs, hz, zero_add]
  rw [this]
  exact fun x hx => List.eq_of_mem_replicate hx

/-- Some parameters have the means of the sample if and only if for no energy all rows are ground states. -/
theorem reproducesOrders_exists_iff (n m : ℕ) (X : Data) (hX : SpinData n X) :
    (∃ v : List ℝ, v.length = (orderTuples n m).length ∧ ReproducesOrders n m v X) ↔
      ¬ ∃ w : List ℝ, w.length = (orderTuples n m).length ∧ (∃ x ∈ w, x ≠ 0) ∧
        ∀ r ∈ X, ∀ s ∈ words [-1, 1] n, orderE n m w r ≤ orderE n m w s := by
  have key := family_exists_iff (words ([-1, 1] : List ℤ) n) (words_pm_ne n) (orderTuples n m) (fun t s => mono (spins s) t)
    (orderMeans n m X) (by simp [orderMeans]) fun θ hθ ⟨k, hk⟩ => order_ground_const n m θ hθ ⟨-k, fun s hs => by
      rw [← hk s hs]
      rfl⟩
  have hl : (∃ v : List ℝ, v.length = (orderTuples n m).length ∧ ReproducesOrders n m v X) ↔ _ :=
    (exists_congr fun v => and_congr_right fun _ => reproducesOrders_iff n m v X).trans key
  rw [hl]
  have hE : ∀ w s, dot w ((orderTuples n m).map fun t => mono (spins s) t) = -orderE n m w s := by
    intro w s
    unfold orderE
    rw [neg_neg]
  simp only [hE, dot_orderMeans]
  constructor
  · rintro h ⟨w, hw, h0, hg⟩
    obtain ⟨s, hs, hlt⟩ := h w hw h0
    obtain ⟨r, hr, hlt⟩ := exists_lt_of_avg hX.1 hlt
    have := hg r hr s hs
    linarith
  · intro h w hw h0
    by_contra hc
    push Not at hc
    refine h ⟨w, hw, h0, fun r hr s hs => ?_⟩
    by_contra hlt
    push Not at hlt
    obtain ⟨t, ht, hmax⟩ := (words ([-1, 1] : List ℤ) n).toFinset.exists_max_image
      (fun s => -orderE n m w s) ⟨s, List.mem_toFinset.2 hs⟩
    refine absurd (hc t (List.mem_toFinset.1 ht)) (not_le.2 (avg_lt_of_lt
      (fun r hr => hmax r (List.mem_toFinset.2 (hX.2 r hr))) hr (lt_of_lt_of_le ?_ (hmax s (List.mem_toFinset.2 hs)))))
    linarith

end Verif.Lemmas
