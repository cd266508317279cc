/-
C109: `MCH.estimate_jac` gives the covariances of the sample.
-/
import Verif.Lemmas.EstimateJac
import Verif.Lemmas.EnumerateObj2

namespace Verif.Props
open Verif Verif.Model Verif.Spec Verif.Lemmas

/-- Entry `a` of the observables of a state: the spins, then the products of pairs. -/
def obsEntry (n a : ℕ) (s : List ℤ) : ℝ := (pairObs n (spins s)).getD a 0

theorem obsEntry_pm {n : ℕ} {s : List ℤ} (hs : s ∈ words [-1, 1] n) (a : ℕ) (ha : a < n + n * (n - 1) / 2) :
    obsEntry n a s = 1 ∨ obsEntry n a s = -1 := by
  have hval : ∀ k < n, (spins s k : ℝ) = 1 ∨ (spins s k : ℝ) = -1 := by
    intro k hk
    obtain ⟨h1, h2⟩ := mem_words.1 hs
    have := h2 _ (List.getElem_mem (h1 ▸ hk))
    unfold spins
    rw [List.getD_eq_getElem _ _ (h1 ▸ hk)]
    simp at this
    rcases this with h | h <;> rw [h] <;> simp
  unfold obsEntry
  by_cases h : a < n
  · rw [pairObs_field n _ a h]
    exact hval a h
  · obtain ⟨k, rfl⟩ : ∃ k, a = n + k := ⟨a - n, by omega⟩
    have hk : k < (upperPairs n).length := by rw [length_upperPairs]; omega
    rw [pairObs_pair n _ k _ (List.getElem?_eq_getElem hk)]
    obtain ⟨h1, h2⟩ := mem_upperPairs.1 (show ((upperPairs n)[k].1, (upperPairs n)[k].2) ∈ upperPairs n from
      List.getElem_mem hk)
    rcases hval _ (h1.trans h2) with h3 | h3 <;> rcases hval _ h2 with h4 | h4 <;> rw [h3, h4] <;> norm_num

section
variable {o : ModelObj} {X : Data} (hX : X ≠ []) (hs : o.sample = some X) (hw : ∀ s ∈ X, s ∈ words [-1, 1] o.n)
include hX hs hw

theorem approx_single (a : ℕ) (ha : a < o.n + o.n * (o.n - 1) / 2) (x : ℝ) :
    mchApprox o ((List.replicate (o.n + o.n * (o.n - 1) / 2) 0).set a x) =
      .ok ((List.range (o.n + o.n * (o.n - 1) / 2)).map fun b =>
        (X.map fun s => Real.exp (x * obsEntry o.n a s) * obsEntry o.n b s).sum /
          (X.map fun s => Real.exp (x * obsEntry o.n a s)).sum) := by
  obtain ⟨d, hd⟩ : ∃ d, d = (List.replicate (o.n + o.n * (o.n - 1) / 2) (0 : ℝ)).set a x := ⟨_, rfl⟩
  have hdl : d.length = o.n + o.n * (o.n - 1) / 2 := by rw [hd]; simp
  obtain ⟨r, h1, h2, h3⟩ := C23_reweighted_mean o.n X hX (fun s h y hy => by
      have := (mem_words.1 (hw s h)).2 y hy
      simp at this
      tauto) (fun s h => (mem_words.1 (hw s h)).1) (d.take o.n) (d.drop o.n) (by rw [List.length_take]; omega)
    (by rw [List.length_drop]; omega)
  rw [List.take_append_drop] at h1 h3
  unfold mchApprox
  rw [← hd, hs, Option.getD_some, h1]
  dsimp only
  congr 1
  have hdot : ∀ s, dot d (pairObs o.n (spins s)) = x * obsEntry o.n a s := by
    intro s
    have hl : (pairObs o.n (spins s) : List ℝ).length = o.n + o.n * (o.n - 1) / 2 := by
      simp [pairObs, length_upperPairs]
    have key : ∀ (k : ℕ) (b : List ℝ), b.length = k → ∀ a < k, dot ((List.replicate k (0 : ℝ)).set a x) b = x * b.getD a 0 := by
      intro k
      induction k with
      | zero => intro b _ a ha; omega
      | succ k ih =>
        intro b hb a ha
        rcases b with _ | ⟨y, b⟩
        · simp at hb
        · rw [List.replicate_succ]
          rcases a with _ | a
          · have h0 : (List.zipWith (· * ·) (List.replicate k (0 : ℝ)) b).sum = 0 := by
              apply List.sum_eq_zero
              intro z hz
              obtain ⟨i, hi, rfl⟩ := List.getElem_of_mem hz
              rw [List.getElem_zipWith, List.getElem_replicate, zero_mul]
            simp [dot, h0]
          · have := ih b (by simpa using hb) a (by omega)
            simp only [dot] at this ⊢
            rw [List.set_cons_succ, List.zipWith_cons_cons, List.sum_cons, this, zero_mul, zero_add, List.getD_cons_succ]
    rw [hd, key _ _ hl a ha]
    rfl
  apply List.ext_getElem
  · simp [h2]
  · intro b hb1 hb2
    have hb : b < r.length := by simpa using hb1
    have := h3 b hb
    rw [List.getD_eq_getElem _ _ hb] at this
    rw [List.getElem_map, List.getElem_map, List.getElem_range, this, Option.getD_some]
    simp only [hdot]
    rfl

theorem jacRound_eq (ε : ℝ) (hε : ε ≠ 0) (a : ℕ) (ha : a < o.n + o.n * (o.n - 1) / 2) :
    jacRound (mchApprox o) (o.n + o.n * (o.n - 1) / 2) ε a (List.replicate (o.n + o.n * (o.n - 1) / 2) 0) =
      .ok ((List.range (o.n + o.n * (o.n - 1) / 2)).map fun b =>
          some (covar X (obsEntry o.n a) (obsEntry o.n b) * jacFactor ε (avg X (obsEntry o.n a))),
        List.replicate (o.n + o.n * (o.n - 1) / 2) 0) := by
  obtain ⟨N, hN⟩ : ∃ N, N = o.n + o.n * (o.n - 1) / 2 := ⟨_, rfl⟩
  have ap := approx_single hX hs hw a ha
  rw [← hN] at ha ap ⊢
  have e1 : (List.replicate N (0 : ℝ)).getD a 0 + ε = ε := by
    rw [List.getD_eq_getElem _ _ (by simpa using ha), List.getElem_replicate, zero_add]
  have e2 : ((List.replicate N (0 : ℝ)).set a ε).getD a 0 - 2 * ε = -ε := by
    rw [List.getD_eq_getElem _ _ (by simpa using ha), List.getElem_set_self]
    ring
  have e3 : ((List.replicate N (0 : ℝ)).set a (-ε)).getD a 0 + ε = 0 := by
    rw [List.getD_eq_getElem _ _ (by simpa using ha), List.getElem_set_self]
    ring
  unfold jacRound
  dsimp only
  rw [e1, ap ε]
  dsimp only
  rw [e2, List.set_set, ap (-ε)]
  dsimp only
  rw [e3, List.set_set]
  unfold broadcast2
  rw [if_pos (by simp)]
  dsimp only
  have hrow : List.zipWith (centralDiff ε) ((List.range N).map fun b =>
        (X.map fun s => Real.exp (ε * obsEntry o.n a s) * obsEntry o.n b s).sum /
          (X.map fun s => Real.exp (ε * obsEntry o.n a s)).sum) ((List.range N).map fun b =>
        (X.map fun s => Real.exp (-ε * obsEntry o.n a s) * obsEntry o.n b s).sum /
          (X.map fun s => Real.exp (-ε * obsEntry o.n a s)).sum) =
      (List.range N).map fun b =>
        some (covar X (obsEntry o.n a) (obsEntry o.n b) * jacFactor ε (avg X (obsEntry o.n a))) := by
    rw [List.zipWith_map, List.zipWith_self]
    refine List.map_congr_left fun b _ => ?_
    unfold centralDiff
    rw [if_neg hε, central_pm X hX ε hε _ _ fun s h => obsEntry_pm (hw s h) a (hN ▸ ha)]
  rw [hrow]
  unfold rowInto
  rw [if_pos (by simp)]
  dsimp only
  congr 2
  apply List.ext_getElem
  · simp
  · intro i h1 h2
    rw [List.getElem_set]
    split_ifs <;> simp

end

/-- C109. For a sample of ±1 spins, entry `(a, b)` of the matrix is the covariance of the observables `a` and `b` over the
sample times a factor that depends on the step and on the mean of observable `a` alone. -/
theorem C109_closed_form (o : ModelObj) (X : Data) (hX : X ≠ []) (hs : o.sample = some X)
    (hw : ∀ s ∈ X, s ∈ words [-1, 1] o.n) (v : List ℝ) (hv : v.length = o.n + o.n * (o.n - 1) / 2) (ε : ℝ) (hε : ε ≠ 0) :
    estimateJac o (some v) ε = .ok ((List.range v.length).map fun a => (List.range v.length).map fun b =>
      some (covar X (obsEntry o.n a) (obsEntry o.n b) *
        (Real.tanh ε / ε / (1 - avg X (obsEntry o.n a) ^ 2 * Real.tanh ε ^ 2)))) := by
  unfold estimateJac
  dsimp only
  have key : ∀ ix : List ℕ, (∀ a ∈ ix, a < v.length) →
      jacLoop (mchApprox o) v.length ε ix (List.replicate v.length 0) =
        .ok (ix.map fun a => (List.range v.length).map fun b => some (covar X (obsEntry o.n a) (obsEntry o.n b) *
          (Real.tanh ε / ε / (1 - avg X (obsEntry o.n a) ^ 2 * Real.tanh ε ^ 2)))) := by
    intro ix hix
    induction ix with
    | nil => rfl
    | cons a ix ih =>
      unfold jacLoop
      have := jacRound_eq hX hs hw ε hε a (hv ▸ hix a (by simp))
      rw [← hv] at this
      rw [this]
      dsimp only
      rw [ih fun b hb => hix b (by simp [hb])]
      rfl
  exact key _ fun a ha => List.mem_range.1 ha

/-- C109. The relative error against the covariance is at most the square of the step, for steps up to 1/2: one millionth for
the default 0.001. -/
theorem C109_error (o : ModelObj) (X : Data) (hX : X ≠ []) (hs : o.sample = some X)
    (hw : ∀ s ∈ X, s ∈ words [-1, 1] o.n) (v : List ℝ) (hv : v.length = o.n + o.n * (o.n - 1) / 2) (ε : ℝ) (hε : ε ≠ 0)
    (hε' : |ε| ≤ 1 / 2) : ∃ rows, estimateJac o (some v) ε = .ok rows ∧ rows.length = v.length ∧
      ∀ a < v.length, ∃ row, rows[a]? = some row ∧ row.length = v.length ∧ ∀ b < v.length, ∃ y, row[b]? = some (some y) ∧
        |y - covar X (obsEntry o.n a) (obsEntry o.n b)| ≤ ε ^ 2 * |covar X (obsEntry o.n a) (obsEntry o.n b)| := by
  refine ⟨_, C109_closed_form o X hX hs hw v hv ε hε, by simp, fun a ha => ⟨_, by
    rw [List.getElem?_map, List.getElem?_range ha]; rfl, by simp, fun b hb => ⟨_, by
    rw [List.getElem?_map, List.getElem?_range hb]; rfl, ?_⟩⟩⟩
  have := jacFactor_bound ε (avg X (obsEntry o.n a)) hε hε' (abs_avg_pm X _ (fun s h => obsEntry_pm (hw s h) a (hv ▸ ha)) hX)
  unfold jacFactor at this
  obtain ⟨c, hc⟩ : ∃ c, c = covar X (obsEntry o.n a) (obsEntry o.n b) := ⟨_, rfl⟩
  obtain ⟨F, hF⟩ : ∃ F, F = Real.tanh ε / ε / (1 - avg X (obsEntry o.n a) ^ 2 * Real.tanh ε ^ 2) := ⟨_, rfl⟩
  rw [← hF] at this
  rw [← hc, ← hF, show c * F - c = (F - 1) * c by ring, abs_mul]
  exact mul_le_mul_of_nonneg_right this (abs_nonneg c)

/-- C109. No step changes the sign: an entry is positive, negative or zero as the covariance is. -/
theorem C109_sign (o : ModelObj) (X : Data) (hX : X ≠ []) (hs : o.sample = some X)
    (hw : ∀ s ∈ X, s ∈ words [-1, 1] o.n) (v : List ℝ) (hv : v.length = o.n + o.n * (o.n - 1) / 2) (ε : ℝ) (hε : ε ≠ 0) :
    ∃ rows, estimateJac o (some v) ε = .ok rows ∧ ∀ a < v.length, ∀ b < v.length, ∃ row y, rows[a]? = some row ∧
      row[b]? = some (some y) ∧ (0 < y ↔ 0 < covar X (obsEntry o.n a) (obsEntry o.n b)) ∧
        (y < 0 ↔ covar X (obsEntry o.n a) (obsEntry o.n b) < 0) := by
  refine ⟨_, C109_closed_form o X hX hs hw v hv ε hε, fun a ha b hb => ⟨_, _, by
    rw [List.getElem?_map, List.getElem?_range ha]; rfl, by
    rw [List.getElem?_map, List.getElem?_range hb]; rfl, ?_⟩⟩
  have := jacFactor_pos ε (avg X (obsEntry o.n a)) hε
    (abs_avg_pm X _ (fun s h => obsEntry_pm (hw s h) a (hv ▸ ha)) hX)
  unfold jacFactor at this
  exact ⟨mul_pos_iff_of_pos_right this, by
    rw [mul_neg_iff]
    constructor
    · rintro (⟨_, h⟩ | ⟨h, _⟩)
      · linarith
      · exact h
    · exact fun h => Or.inr ⟨h, this⟩⟩

/-- C109. What the matrix stands for: the derivative of the mean of observable `b` in the model with respect to parameter `a`
is the covariance of the two observables in the model. If the frequencies of the sample are the probabilities of the model,
the covariance over the sample is this derivative. -/
theorem C109_derivative (n : ℕ) (h J : List ℝ) (X : Data) (hX : X ≠ []) (hw : ∀ s ∈ X, s ∈ words [-1, 1] n)
    (hdist : ∀ s ∈ words [-1, 1] n, (X.count s : ℝ) / X.length =
      boltzmann (words [-1, 1] n) (fun s => isingVecE n h J (spins s)) s) (a b : ℕ) :
    HasDerivAt (fun t : ℝ => expect (words [-1, 1] n) (fun s => isingVecE n h J (spins s) - t * obsEntry n a s) (obsEntry n b))
      (covar X (obsEntry n a) (obsEntry n b)) 0 := by
  have key : ∀ f : List ℤ → ℝ, avg X f = expect (words [-1, 1] n) (fun s => isingVecE n h J (spins s)) f := by
    intro f
    have hl : (X.length : ℝ) ≠ 0 := by simpa using hX
    have hnd : (words ([-1, 1] : List ℤ) n).Nodup := nodup_words (by decide) n
    unfold avg expect
    rw [sum_by_count (words [-1, 1] n) X hnd hw f, div_eq_mul_inv, ← list_sum_mul_right]
    congr 1
    refine List.map_congr_left fun s hs => ?_
    rw [← hdist s hs]
    ring
  have := hasDerivAt_expect (words [-1, 1] n) (words_spinValues_ne true n) (fun s => isingVecE n h J (spins s))
    (obsEntry n a) (obsEntry n b)
  unfold modelCov at this
  unfold covar
  rw [key, key, key]
  exact this

/-- C109. The energy `E - t*f_a` above is the energy with parameter `a` increased by `t`. -/
theorem C109_parameter (n : ℕ) (v : List ℝ) (hv : v.length = n + n * (n - 1) / 2) (a : ℕ) (ha : a < v.length) (t : ℝ)
    (s : List ℤ) : isingVecE n ((v.set a (v.getD a 0 + t)).take n) ((v.set a (v.getD a 0 + t)).drop n) (spins s) =
      isingVecE n (v.take n) (v.drop n) (spins s) - t * obsEntry n a s := by
  rw [show ∀ u : List ℝ, isingVecE n (u.take n) (u.drop n) (spins s) = pairE n u s from fun _ => rfl,
    show ∀ u : List ℝ, isingVecE n (u.take n) (u.drop n) (spins s) = pairE n u s from fun _ => rfl,
    pairE_dot n _ (by simpa using hv), pairE_dot n _ hv]
  have hl : (pairObs n (spins s) : List ℝ).length = v.length := by
    simp [pairObs, length_upperPairs, hv]
  have key : ∀ (v b : List ℝ), b.length = v.length → ∀ a < v.length,
      dot (v.set a (v.getD a 0 + t)) b = dot v b + t * b.getD a 0 := by
    intro v
    induction v with
    | nil => intro b _ a ha; simp at ha
    | cons x v ih =>
      intro b hb a ha
      rcases b with _ | ⟨y, b⟩
      · simp at hb
      · rcases a with _ | a
        · simp [dot]
          ring
        · have := ih b (by simpa using hb) a (by simpa using ha)
          simp only [dot, List.set_cons_succ, List.zipWith_cons_cons, List.sum_cons, List.getD_cons_succ] at this ⊢
          rw [this]
          ring
  rw [key v _ hl a ha]
  unfold obsEntry
  ring

/-- C109. Before `solve` there is no vector of parameters and the method raises. -/
theorem C109_before_solve (o : ModelObj) (ε : ℝ) : estimateJac o none ε = .error .attributeError := rfl

/-- Non-vacuity of C109: a sample with the frequencies of the model with all parameters zero. -/
example : (∀ s ∈ ([[1, 1], [1, -1], [-1, 1], [-1, -1]] : Data), s ∈ words [-1, 1] 2) ∧
    ∀ s ∈ words [-1, 1] 2, (([[1, 1], [1, -1], [-1, 1], [-1, -1]] : Data).count s : ℝ) / 4 =
      boltzmann (words [-1, 1] 2) (fun s => isingVecE 2 [0, 0] [0] (spins s)) s := by
  refine ⟨by decide, fun s hs => ?_⟩
  have h0 : ∀ s : List ℤ, isingVecE 2 [0, 0] [0] (spins s) = (0 : ℝ) := by
    intro s
    have := pairE_dot 2 [0, 0, 0] (by rfl) s
    have h : isingVecE 2 [0, 0] [0] (spins s) = pairE 2 [0, 0, 0] s := rfl
    rw [h, this, dot_zeros _ _ (by simp), neg_zero]
  have hc : ([[1, 1], [1, -1], [-1, 1], [-1, -1]] : Data).count s = 1 := by
    revert s
    decide
  have hlen : (words ([-1, 1] : List ℤ) 2).length = 4 := by decide
  unfold boltzmann partition
  simp only [h0, hc]
  simp [hlen]
  norm_num

end Verif.Props
