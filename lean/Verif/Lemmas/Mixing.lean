/-
Convergence of finite Markov chains: if some number of steps leads from every state to every state with positive
probability, the chain forgets its first state.
-/
import Verif.Lemmas.Sums
import Mathlib.Analysis.SpecificLimits.Basic
import Mathlib.Data.Real.Basic

namespace Verif.Lemmas
open Filter

variable {α : Type}

/-- `T f s` is the mean of `f` after one step from `s`, for the states `S`. -/
structure Markov (S : List α) (T : (α → ℝ) → α → ℝ) : Prop where
  mono : ∀ {f g : α → ℝ}, (∀ t ∈ S, f t ≤ g t) → ∀ s ∈ S, T f s ≤ T g s
  affine : ∀ (a b : ℝ) (f : α → ℝ), ∀ s ∈ S, T (fun t => a + b * f t) s = a + b * T f s

variable {S : List α} {T U : (α → ℝ) → α → ℝ}

theorem Markov.congr (hT : Markov S T) {f g : α → ℝ} (h : ∀ t ∈ S, f t = g t) (s : α) (hs : s ∈ S) : T f s = T g s :=
  le_antisymm (hT.mono (fun t ht => (h t ht).le) s hs) (hT.mono (fun t ht => (h t ht).ge) s hs)

theorem Markov.const (hT : Markov S T) (c : ℝ) (s : α) (hs : s ∈ S) : T (fun _ => c) s = c := by
  have := hT.affine c 0 (fun _ => 0) s hs
  simpa using this

theorem Markov.smul (hT : Markov S T) (c : ℝ) (f : α → ℝ) (s : α) (hs : s ∈ S) : T (fun t => c * f t) s = c * T f s := by
  have := hT.affine 0 c f s hs
  simpa using this

theorem Markov.nonneg (hT : Markov S T) {f : α → ℝ} (h : ∀ t ∈ S, 0 ≤ f t) (s : α) (hs : s ∈ S) : 0 ≤ T f s := by
  have := hT.mono h s hs
  rwa [hT.const 0 s hs] at this

theorem Markov.id : Markov S fun f => f where
  mono h := h
  affine _ _ _ _ _ := rfl

theorem Markov.comp (hT : Markov S T) (hU : Markov S U) : Markov S fun f => T (U f) where
  mono h s hs := hT.mono (fun t ht => hU.mono h t ht) s hs
  affine a b f s hs := by
    rw [hT.congr (fun t ht => hU.affine a b f t ht) s hs, hT.affine a b _ s hs]

theorem Markov.iter (hT : Markov S T) (k : ℕ) : Markov S (T^[k]) := by
  induction k with
  | zero => exact Markov.id
  | succ k ih =>
    rw [Function.iterate_succ]
    exact ih.comp hT

section
variable [DecidableEq α]

/-- The indicator of a state. -/
def pointFn (t : α) : α → ℝ := fun u => if u = t then 1 else 0

omit [DecidableEq α] in
theorem list_max (f : α → ℝ) (hS : S ≠ []) : ∃ t ∈ S, ∀ s ∈ S, f s ≤ f t := by
  induction S with
  | nil => exact absurd rfl hS
  | cons a l ih =>
    by_cases hl : l = []
    · subst hl; exact ⟨a, by simp, by simp⟩
    · obtain ⟨t, ht, h⟩ := ih hl
      rcases le_total (f t) (f a) with h2 | h2
      · refine ⟨a, by simp, fun s hs => ?_⟩
        rcases List.mem_cons.1 hs with rfl | hs
        · exact le_rfl
        · exact (h s hs).trans h2
      · refine ⟨t, by simp [ht], fun s hs => ?_⟩
        rcases List.mem_cons.1 hs with rfl | hs
        · exact h2
        · exact h s hs

omit [DecidableEq α] in
theorem list_min (f : α → ℝ) (hS : S ≠ []) : ∃ t ∈ S, ∀ s ∈ S, f t ≤ f s := by
  obtain ⟨t, ht, h⟩ := list_max (fun s => -f s) hS
  exact ⟨t, ht, fun s hs => by have := h s hs; linarith⟩

omit [DecidableEq α] in
theorem list_pos {β : Type} (l : List β) (g : β → ℝ) (h : ∀ b ∈ l, 0 < g b) : ∃ ε, 0 < ε ∧ ε ≤ 1 ∧ ∀ b ∈ l, ε ≤ g b := by
  induction l with
  | nil => exact ⟨1, one_pos, le_rfl, by simp⟩
  | cons a l ih =>
    obtain ⟨ε, h0, h1, h2⟩ := ih fun b hb => h b (by simp [hb])
    refine ⟨min ε (g a), lt_min h0 (h a (by simp)), (min_le_left _ _).trans h1, fun b hb => ?_⟩
    rcases List.mem_cons.1 hb with rfl | hb
    · exact min_le_right _ _
    · exact (min_le_left _ _).trans (h2 b hb)

/-- One block of steps contracts the range of a function. -/
theorem contract (hT : Markov S T) {ε : ℝ} (hpos : ∀ s ∈ S, ∀ t ∈ S, ε ≤ T (pointFn t) s)
    (f : α → ℝ) (lo hi : ℝ) (hlo : ∀ s ∈ S, lo ≤ f s) (hhi : ∀ s ∈ S, f s ≤ hi) (t : α) (ht : t ∈ S) (hft : f t = hi) :
    ∀ s ∈ S, lo + ε * (hi - lo) ≤ T f s ∧ T f s ≤ hi := by
  intro s hs
  have hle : 0 ≤ hi - lo := by have := hlo t ht; linarith
  constructor
  · have h1 : T (fun u => lo + (hi - lo) * pointFn t u) s ≤ T f s := by
      refine hT.mono (fun u hu => ?_) s hs
      unfold pointFn
      split
      · rename_i h; rw [h, hft]; linarith
      · have := hlo u hu; linarith
    rw [hT.affine lo (hi - lo) _ s hs] at h1
    have := mul_le_mul_of_nonneg_left (hpos s hs t ht) hle
    linarith
  · have := hT.mono hhi s hs
    rwa [hT.const hi s hs] at this

/-- The mean of `f` after `m` steps tends to the mean over the distribution the chain keeps; the distance decreases
geometrically. -/
theorem mixing_rate (hT : Markov S T) (w : α → ℝ) (hw : ∀ s ∈ S, 0 ≤ w s) (hW : (S.map w).sum = 1)
    (hk : ∀ f : α → ℝ, (S.map fun s => w s * T f s).sum = (S.map fun s => w s * f s).sum) (N : ℕ) {ε : ℝ}
    (hpos : ∀ s ∈ S, ∀ t ∈ S, ε ≤ T^[N] (pointFn t) s) (hε1 : ε ≤ 1) (f : α → ℝ) :
    ∃ C, (∀ c, 0 ≤ c → (∀ s ∈ S, |f s| ≤ c) → |C| ≤ 2 * c) ∧
      ∀ k m, N * k ≤ m → ∀ s ∈ S, |T^[m] f s - (S.map fun s => w s * f s).sum| ≤ C * (1 - ε) ^ k := by
  by_cases hS : S = []
  · exact ⟨0, fun c hc _ => by rw [abs_zero]; linarith, by simp [hS]⟩
  -- the range after `k` blocks
  obtain ⟨a, ha, hamax⟩ := list_max f hS
  obtain ⟨b, hb, hbmin⟩ := list_min f hS
  have hrange : ∀ k, ∃ lo hi, hi - lo ≤ (f a - f b) * (1 - ε) ^ k ∧ ∀ s ∈ S, lo ≤ T^[N * k] f s ∧ T^[N * k] f s ≤ hi := by
    intro k
    induction k with
    | zero => exact ⟨f b, f a, by simp, fun s hs => ⟨hbmin s hs, hamax s hs⟩⟩
    | succ k ih =>
      obtain ⟨lo, hi, h1, h2⟩ := ih
      obtain ⟨t, ht, hmax⟩ := list_max (T^[N * k] f) hS
      have h3 := contract (hT.iter N) hpos (T^[N * k] f) lo (T^[N * k] f t) (fun s hs => (h2 s hs).1) hmax t ht rfl
      refine ⟨lo + ε * (T^[N * k] f t - lo), T^[N * k] f t, ?_, fun s hs => ?_⟩
      · have h4 : T^[N * k] f t - lo ≤ (f a - f b) * (1 - ε) ^ k := by have := (h2 t ht).2; linarith
        have := mul_le_mul_of_nonneg_left h4 (sub_nonneg.2 hε1)
        rw [pow_succ]
        linarith
      · rw [Nat.mul_succ, Nat.add_comm, Function.iterate_add_apply]
        exact h3 s hs
  have hkm : ∀ m, (S.map fun s => w s * T^[m] f s).sum = (S.map fun s => w s * f s).sum := by
    intro m
    induction m with
    | zero => rfl
    | succ m ih => rw [Function.iterate_succ_apply', hk, ih]
  refine ⟨f a - f b, fun c _ hc => ?_, fun k m hm s hs => ?_⟩
  · have := abs_le.1 (hc a ha)
    have := abs_le.1 (hc b hb)
    rw [abs_le]
    constructor <;> linarith
  obtain ⟨lo, hi, h1, h2⟩ := hrange k
  obtain ⟨d, rfl⟩ := Nat.exists_eq_add_of_le hm
  have h3 : ∀ s ∈ S, lo ≤ T^[N * k + d] f s ∧ T^[N * k + d] f s ≤ hi := by
    intro s hs
    rw [Nat.add_comm, Function.iterate_add_apply]
    have e1 := (hT.iter d).mono (fun t ht => (h2 t ht).1) s hs
    have e2 := (hT.iter d).mono (fun t ht => (h2 t ht).2) s hs
    rw [(hT.iter d).const _ s hs] at e1 e2
    exact ⟨e1, e2⟩
  have h4 : lo ≤ (S.map fun s => w s * f s).sum ∧ (S.map fun s => w s * f s).sum ≤ hi := by
    rw [← hkm (N * k + d)]
    have e : ∀ c : ℝ, (S.map fun s => w s * c).sum = c := fun c => by
      rw [List.sum_map_mul_right, hW, one_mul]
    constructor
    · rw [← e lo]
      exact List.sum_le_sum fun s hs => mul_le_mul_of_nonneg_left (h3 s hs).1 (hw s hs)
    · conv_rhs => rw [← e hi]
      exact List.sum_le_sum fun s hs => mul_le_mul_of_nonneg_left (h3 s hs).2 (hw s hs)
  refine le_trans ?_ h1
  rw [abs_le]
  have := h3 s hs
  constructor <;> linarith

theorem mixing (hT : Markov S T) (w : α → ℝ) (hw : ∀ s ∈ S, 0 ≤ w s) (hW : (S.map w).sum = 1)
    (hk : ∀ f : α → ℝ, (S.map fun s => w s * T f s).sum = (S.map fun s => w s * f s).sum) (N : ℕ)
    (hpos : ∀ s ∈ S, ∀ t ∈ S, 0 < T^[N] (pointFn t) s) (f : α → ℝ) (s : α) (hs : s ∈ S) :
    Tendsto (fun m => T^[m] f s) atTop (nhds (S.map fun s => w s * f s).sum) := by
  obtain ⟨ε, h0, h1, h2⟩ := list_pos (S ×ˢ S) (fun p => T^[N] (pointFn p.2) p.1) fun p hp => by
    obtain ⟨s, t⟩ := p
    have := List.mem_product.1 hp
    exact hpos _ this.1 _ this.2
  obtain ⟨C, -, hC⟩ := mixing_rate hT w hw hW hk N
    (fun s hs t ht => h2 (s, t) (List.mem_product.2 ⟨hs, ht⟩)) h1 f
  rw [Metric.tendsto_atTop]
  intro δ hδ
  have h3 : Tendsto (fun k : ℕ => C * (1 - ε) ^ k) atTop (nhds (C * 0)) :=
    (tendsto_pow_atTop_nhds_zero_of_lt_one (by linarith) (by linarith)).const_mul C
  rw [mul_zero] at h3
  obtain ⟨k, hk'⟩ := (h3.eventually (gt_mem_nhds hδ)).exists
  refine ⟨N * k, fun m hm => ?_⟩
  rw [Real.dist_eq]
  exact (hC k m hm s hs).trans_lt hk'

/-! ### Positive probability -/

/-- Steps can be put together. -/
theorem reach_trans (hT : Markov S T) {k l : ℕ} {s u t : α} (hs : s ∈ S) (h1 : 0 < T^[k] (pointFn u) s)
    (h2 : 0 < T^[l] (pointFn t) u) : 0 < T^[k + l] (pointFn t) s := by
  rw [Function.iterate_add_apply]
  have h3 : T^[k] (fun v => T^[l] (pointFn t) u * pointFn u v) s ≤ T^[k] (T^[l] (pointFn t)) s := by
    refine (hT.iter k).mono (fun v hv => ?_) s hs
    unfold pointFn
    by_cases h : v = u
    · rw [if_pos h, mul_one, h]
    · rw [if_neg h, mul_zero]
      refine (hT.iter l).nonneg (fun t' _ => ?_) v hv
      split <;> norm_num
  rw [(hT.iter k).smul _ _ s hs] at h3
  exact (mul_pos h2 h1).trans_le h3

theorem reach_refl {s : α} : 0 < T^[0] (pointFn s) s := by simp [pointFn]

omit [DecidableEq α] in
theorem list_bound (S : List α) (P : α → ℕ → Prop) (h : ∀ s ∈ S, ∃ d, P s d) : ∃ D, ∀ s ∈ S, ∃ d ≤ D, P s d := by
  induction S with
  | nil => exact ⟨0, by simp⟩
  | cons a l ih =>
    obtain ⟨D, hD⟩ := ih fun s hs => h s (by simp [hs])
    obtain ⟨d, hd⟩ := h a (by simp)
    refine ⟨max D d, fun s hs => ?_⟩
    rcases List.mem_cons.1 hs with rfl | hs
    · exact ⟨d, le_max_right _ _, hd⟩
    · obtain ⟨d', h1, h2⟩ := hD s hs
      exact ⟨d', h1.trans (le_max_left _ _), h2⟩

/-- If every state leads to every state and some state can be held for any (large) number of steps, then some number
of steps leads from every state to every state. -/
theorem reach_all (hT : Markov S T) (hirr : ∀ s ∈ S, ∀ t ∈ S, ∃ d, 0 < T^[d] (pointFn t) s) (a : α) (ha : a ∈ S) (K : ℕ)
    (hK : ∀ k, K ≤ k → 0 < T^[k] (pointFn a) a) : ∃ N, ∀ s ∈ S, ∀ t ∈ S, 0 < T^[N] (pointFn t) s := by
  obtain ⟨D1, h1⟩ := list_bound S (fun s d => 0 < T^[d] (pointFn a) s) fun s hs => hirr s hs a ha
  obtain ⟨D2, h2⟩ := list_bound S (fun t d => 0 < T^[d] (pointFn t) a) fun t ht => hirr a ha t ht
  refine ⟨D1 + K + D2, fun s hs t ht => ?_⟩
  obtain ⟨d1, hd1, r1⟩ := h1 s hs
  obtain ⟨d2, hd2, r2⟩ := h2 t ht
  have := reach_trans hT hs (reach_trans hT hs r1 (hK (D1 + K + D2 - d1 - d2) (by omega))) r2
  rwa [show d1 + (D1 + K + D2 - d1 - d2) + d2 = D1 + K + D2 by omega] at this

theorem hold_one (hT : Markov S T) {a : α} (ha : a ∈ S) (h : 0 < T (pointFn a) a) (k : ℕ) : 0 < T^[k] (pointFn a) a := by
  induction k with
  | zero => exact reach_refl
  | succ k ih => exact reach_trans hT (k := k) (l := 1) ha ih h

theorem hold_two_three (hT : Markov S T) {a : α} (ha : a ∈ S) (h2 : 0 < T^[2] (pointFn a) a)
    (h3 : 0 < T^[3] (pointFn a) a) (k : ℕ) (hk : 2 ≤ k) : 0 < T^[k] (pointFn a) a := by
  induction k using Nat.strong_induction_on with
  | _ k ih =>
    rcases Nat.lt_or_ge k 4 with h | h
    · rcases (by omega : k = 2 ∨ k = 3) with rfl | rfl
      · exact h2
      · exact h3
    · have := reach_trans hT ha (ih (k - 2) (by omega) (by omega)) h2
      rwa [Nat.sub_add_cancel (by omega)] at this

/-! ### Sums of distances -/

omit [DecidableEq α] in
theorem sum_pow_div (N : ℕ) (hN : 0 < N) {ρ : ℝ} (h0 : 0 ≤ ρ) (h1 : ρ < 1) (M : ℕ) :
    ∑ m ∈ Finset.range M, ρ ^ (m / N) ≤ N / (1 - ρ) := by
  have hblock : ∀ q, ∑ m ∈ Finset.range (N * q), ρ ^ (m / N) = N * ∑ j ∈ Finset.range q, ρ ^ j := by
    intro q
    induction q with
    | zero => simp
    | succ q ih =>
      rw [Nat.mul_succ, Finset.sum_range_add, ih, Finset.sum_range_succ, mul_add]
      congr 1
      rw [Finset.sum_congr rfl fun r hr => by
        rw [Nat.mul_add_div hN, Nat.div_eq_of_lt (Finset.mem_range.1 hr), add_zero], Finset.sum_const, Finset.card_range,
        nsmul_eq_mul]
  have h2 : ∑ m ∈ Finset.range M, ρ ^ (m / N) ≤ ∑ m ∈ Finset.range (N * M), ρ ^ (m / N) :=
    Finset.sum_le_sum_of_subset_of_nonneg (Finset.range_mono (Nat.le_mul_of_pos_left M hN)) fun i _ _ => pow_nonneg h0 _
  refine h2.trans ?_
  rw [hblock, div_eq_mul_inv]
  refine mul_le_mul_of_nonneg_left ?_ (Nat.cast_nonneg N)
  have h3 := geom_sum_eq (ne_of_lt h1) M
  rw [h3, ← neg_div_neg_eq, neg_sub, neg_sub, div_eq_mul_inv]
  refine (mul_le_mul_of_nonneg_right (sub_le_self 1 (pow_nonneg h0 M)) (inv_nonneg.2 (by linarith))).trans ?_
  rw [one_mul]

/-- The distances from the limit have a bounded sum, also when only every `q`-th step is looked at. -/
theorem mixing_sum (hT : Markov S T) (w : α → ℝ) (hw : ∀ s ∈ S, 0 ≤ w s) (hW : (S.map w).sum = 1)
    (hk : ∀ f : α → ℝ, (S.map fun s => w s * T f s).sum = (S.map fun s => w s * f s).sum) (N : ℕ)
    (hpos : ∀ s ∈ S, ∀ t ∈ S, 0 < T^[N] (pointFn t) s) (f : α → ℝ) :
    ∃ r : ℕ → ℝ, (∀ m, 0 ≤ r m) ∧ Tendsto r atTop (nhds 0) ∧ Antitone r ∧
      (∀ m, ∀ s ∈ S, |T^[m] f s - (S.map fun s => w s * f s).sum| ≤ r m) ∧
      ∃ B, ∀ M, ∑ m ∈ Finset.range M, r m ≤ B := by
  -- more steps still lead everywhere, so that at least one step may be assumed
  have hpos' : ∀ s ∈ S, ∀ t ∈ S, 0 < T^[N + 1] (pointFn t) s := by
    intro s hs t ht
    rw [Function.iterate_succ_apply']
    obtain ⟨ε, h0, -, h2⟩ := list_pos S (fun u => T^[N] (pointFn t) u) fun u hu => hpos u hu t ht
    have := hT.mono (f := fun _ => ε) h2 s hs
    rw [hT.const ε s hs] at this
    exact h0.trans_le this
  obtain ⟨ε, h0, h1, h2⟩ := list_pos (S ×ˢ S) (fun p => T^[N + 1] (pointFn p.2) p.1) fun p hp => by
    obtain ⟨s, t⟩ := p
    have := List.mem_product.1 hp
    exact hpos' _ this.1 _ this.2
  obtain ⟨C, -, hC⟩ := mixing_rate hT w hw hW hk (N + 1)
    (fun s hs t ht => h2 (s, t) (List.mem_product.2 ⟨hs, ht⟩)) h1 f
  have hρ0 : 0 ≤ 1 - ε := by linarith
  have hρ1 : 1 - ε < 1 := by linarith
  refine ⟨fun m => |C| * (1 - ε) ^ (m / (N + 1)), fun m => by positivity, ?_, ?_, fun m s hs => ?_,
    ⟨|C| * ((N + 1 : ℕ) / (1 - (1 - ε))), fun M => ?_⟩⟩
  · have h3 : Tendsto (fun k : ℕ => |C| * (1 - ε) ^ k) atTop (nhds (|C| * 0)) :=
      (tendsto_pow_atTop_nhds_zero_of_lt_one hρ0 hρ1).const_mul _
    rw [mul_zero] at h3
    exact h3.comp (Nat.tendsto_div_const_atTop (Nat.succ_ne_zero N))
  · intro a b hab
    exact mul_le_mul_of_nonneg_left (pow_le_pow_of_le_one hρ0 hρ1.le (Nat.div_le_div_right hab)) (abs_nonneg C)
  · refine (hC (m / (N + 1)) m (Nat.mul_div_le m (N + 1)) s hs).trans ?_
    exact mul_le_mul_of_nonneg_right (le_abs_self C) (pow_nonneg hρ0 _)
  · rw [← Finset.mul_sum]
    exact mul_le_mul_of_nonneg_left (sum_pow_div (N + 1) N.succ_pos hρ0 hρ1 M) (abs_nonneg C)

end

end Verif.Lemmas
