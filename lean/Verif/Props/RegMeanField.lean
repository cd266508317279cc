/-
C67, C68: the bracketing step, the returned parameters and the samples of RegularizedMeanField.
-/
import Verif.Lemmas.Argmin
import Verif.Lemmas.Cluster5
import Verif.Lemmas.Neighbors
import Verif.Lemmas.Boltzmann
import Verif.Props.MeanFieldEq
import Verif.Lemmas.Cluster7

namespace Verif.Props
open Verif Verif.Model Verif.Spec Verif.Lemmas

section
variable {K : Type*} [LinearOrder K]

/-! ### C67 -/

/-- C67: what `bracket1d` does on equally long nonempty lists, in terms of the position `i` of the first
minimum of the values: at an end it raises `Exception`; otherwise it returns the grid points at `a < i < c`
where `a` and `c` are the positions of the smallest values on the two sides. -/
theorem C67_positions {α : Type*} (xs : List α) (fs : List K) (hlen : xs.length = fs.length) (hne : fs ≠ []) :
    ∃ i, ∃ hi : i < fs.length, (∀ j (hj : j < fs.length), fs[i] ≤ fs[j]) ∧
      (∀ j (hj : j < i), fs[i] < fs[j]) ∧
      ((i = 0 ∨ i + 1 = fs.length) → bracket1d xs fs = .error .exception) ∧
      (¬ (i = 0 ∨ i + 1 = fs.length) → ∃ a c, ∃ (ha : a < i) (_ : i < c) (hc : c < fs.length),
        bracket1d xs fs = .ok (xs[a], xs[i], xs[c]) ∧
        (∀ j (hj : j < i), fs[a] ≤ fs[j]) ∧ ∀ j (_ : i < j) (hj : j < fs.length), fs[c] ≤ fs[j]) := by
  obtain ⟨i, hi, e, h1, h2⟩ := npArgmin_ok hne
  refine ⟨i, hi, h1, h2, fun h => ?_, fun h => ?_⟩
  · unfold bracket1d
    rw [e]
    dsimp only
    rw [getAt_ok xs i (by omega)]
    dsimp only
    rw [if_pos (by omega)]
  · have hl : fs.take i ≠ [] := by
      intro h'
      have := congrArg List.length h'
      rw [List.length_take, List.length_nil] at this
      omega
    have hr : fs.drop (i + 1) ≠ [] := by
      intro h'
      have := congrArg List.length h'
      rw [List.length_drop, List.length_nil] at this
      omega
    obtain ⟨a, ha, ea, a1, -⟩ := npArgmin_ok hl
    obtain ⟨c, hc, ec, c1, -⟩ := npArgmin_ok hr
    have ha' : a < i := by simp at ha; omega
    have hc' : i + 1 + c < fs.length := by simp at hc; omega
    refine ⟨a, i + 1 + c, ha', by omega, hc', ?_, fun j hj => ?_, fun j hij hj => ?_⟩
    · unfold bracket1d
      rw [e]
      dsimp only
      rw [getAt_ok xs i (by omega)]
      dsimp only
      rw [if_neg (by omega), ea]
      dsimp only
      rw [getAt_ok xs a (by omega)]
      dsimp only
      rw [ec]
      dsimp only
      rw [getAt_ok xs _ (by omega)]
    · have := a1 j (by simp; omega)
      simpa using this
    · have := c1 (j - (i + 1)) (by simp; omega)
      simp only [List.getElem_drop] at this
      have e : i + 1 + (j - (i + 1)) = j := by omega
      simpa only [e] using this

/-- C67 (partial: the documented strict `f(b) < f(c)` is only `≤`, see `C67_tie`). For a strictly
increasing grid, if `bracket1d` returns `(a, b, c)` then these are grid points with `a < b < c`, `f(b)` is
the smallest value, `f(b) < f(a)`, and `f(b) ≤ f(c)`. -/
theorem C67_bracket_partial (xs fs : List K) (hlen : xs.length = fs.length) (hs : xs.Pairwise (· < ·))
    (x y z : K) (h : bracket1d xs fs = .ok (x, y, z)) :
    x < y ∧ y < z ∧ ∃ a b c, ∃ (ha : a < fs.length) (hb : b < fs.length) (hc : c < fs.length),
      xs[a] = x ∧ xs[b] = y ∧ xs[c] = z ∧ fs[b] < fs[a] ∧ fs[b] ≤ fs[c] ∧
      ∀ j (hj : j < fs.length), fs[b] ≤ fs[j] := by
  have hne : fs ≠ [] := by
    rintro rfl
    simp [bracket1d, npArgmin] at h
  obtain ⟨i, hi, h1, h2, h3, h4⟩ := C67_positions xs fs hlen hne
  by_cases hb : i = 0 ∨ i + 1 = fs.length
  · rw [h3 hb] at h; simp at h
  · obtain ⟨a, c, ha, hic, hc, e, -, -⟩ := h4 hb
    rw [e] at h
    simp only [Except.ok.injEq, Prod.mk.injEq] at h
    obtain ⟨rfl, rfl, rfl⟩ := h
    rw [List.pairwise_iff_getElem] at hs
    exact ⟨hs a i (by omega) (by omega) ha, hs i c (by omega) (by omega) hic, a, i, c, by omega, hi, hc,
      rfl, rfl, rfl, h2 a ha, h1 c hc, h1⟩

/-- C67: if the smallest value occurs once, the bracket is strict on both sides as documented. -/
theorem C67_strict_unique (xs fs : List K) (hlen : xs.length = fs.length) (hs : xs.Pairwise (· < ·))
    (huniq : ∀ (j k : ℕ) (hj : j < fs.length) (hk : k < fs.length),
      (∀ l (hl : l < fs.length), fs[j] ≤ fs[l]) → (∀ l (hl : l < fs.length), fs[k] ≤ fs[l]) → j = k)
    (x y z : K) (h : bracket1d xs fs = .ok (x, y, z)) :
    x < y ∧ y < z ∧ ∃ a b c, ∃ (ha : a < fs.length) (hb : b < fs.length) (hc : c < fs.length),
      xs[a] = x ∧ xs[b] = y ∧ xs[c] = z ∧ fs[b] < fs[a] ∧ fs[b] < fs[c] := by
  obtain ⟨hxy, hyz, a, b, c, ha, hb, hc, e1, e2, e3, f1, f2, f3⟩ :=
    C67_bracket_partial xs fs hlen hs x y z h
  refine ⟨hxy, hyz, a, b, c, ha, hb, hc, e1, e2, e3, f1, lt_of_le_of_ne f2 fun heq => ?_⟩
  have : b = c := huniq b c hb hc f3 fun l hl => heq ▸ f3 l hl
  subst this
  exact absurd (e2.symm.trans e3) hyz.ne

/-- C67: a value tied with the minimum on its right: the returned bracket has `f(b) = f(c)`, so the
documented `f(b) < f(c)` fails. -/
theorem C67_tie : bracket1d [(0 : ℤ), 1, 2] [5, 3, 3] = .ok (0, 1, 2) := by decide

/-- C67: no values: `ValueError`. Otherwise an exception is raised exactly when the first minimum is at an
end; in particular when the first value is smallest or the last one is smaller than all others. -/
theorem C67_raises (xs fs : List K) (hlen : xs.length = fs.length) :
    (fs = [] → bracket1d xs fs = .error .valueError) ∧
    ((∃ h : 0 < fs.length, ∀ j (hj : j < fs.length), fs[0] ≤ fs[j]) →
      bracket1d xs fs = .error .exception) ∧
    ((∃ m, ∃ h : m < fs.length, m + 1 = fs.length ∧ ∀ j (hj : j < m), fs[m] < fs[j]) →
      bracket1d xs fs = .error .exception) ∧
    (∀ e, fs ≠ [] → bracket1d xs fs = .error e → e = .exception ∧
      ((∃ h : 0 < fs.length, ∀ j (hj : j < fs.length), fs[0] ≤ fs[j]) ∨
        ∃ m, ∃ h : m < fs.length, m + 1 = fs.length ∧ ∀ j (hj : j < m), fs[m] < fs[j])) := by
  refine ⟨fun h => by subst h; rfl, fun ⟨h0, hm⟩ => ?_, fun ⟨m, hm, hm1, hmin⟩ => ?_, fun e hne he => ?_⟩
  · obtain ⟨i, hi, h1, h2, h3, h4⟩ := C67_positions xs fs hlen (by rintro rfl; simp at h0)
    refine h3 (.inl ?_)
    by_contra hi0
    exact absurd (h2 0 (by omega)) (not_lt.2 (hm i hi))
  · obtain ⟨i, hi, h1, h2, h3, h4⟩ := C67_positions xs fs hlen (by rintro rfl; simp at hm)
    refine h3 (.inr ?_)
    by_contra hi0
    exact absurd (hmin i (by omega)) (not_lt.2 (h1 m hm))
  · obtain ⟨i, hi, h1, h2, h3, h4⟩ := C67_positions xs fs hlen hne
    by_cases hb : i = 0 ∨ i + 1 = fs.length
    · rw [h3 hb] at he
      simp only [Except.error.injEq] at he
      refine ⟨he.symm, ?_⟩
      rcases hb with rfl | hb
      · exact .inl ⟨hi, h1⟩
      · exact .inr ⟨i, hi, hb, h2⟩
    · obtain ⟨a, c, _, _, _, e', -, -⟩ := h4 hb
      rw [e'] at he; simp at he

example : bracket1d [(0 : ℤ), 1, 2, 3, 4] [5, 7, 3, 9, 6] = .ok (0, 2, 4) := by decide
example : bracket1d [(0 : ℤ), 1, 2] [1, 3, 3] = .error .exception := by decide
example : bracket1d [(0 : ℤ), 1, 2] [4, 3, 2] = .error .exception := by decide

end

/-! ### C68 -/

/-- Doubling the matrix energy. -/
theorem quadE_addTranspose (J : Mat ℝ) (n : ℕ) (hJ : J.HasShape n n) (x : ℕ → ℝ) :
    quadE n (fun i j => (addTranspose J).at' i j) x = 2 * quadE n (fun i j => J.at' i j) x := by
  have hv : ∀ i < n, ∀ j < n, (addTranspose J).at' i j = J.at' i j + J.at' j i := fun i hi j hj => by
    unfold addTranspose
    rw [hJ.1, Mat.at_build _ hi hj]
  unfold quadE
  have e1 : ∑ i ∈ Finset.range n, (addTranspose J).at' i i * x i =
      2 * ∑ i ∈ Finset.range n, J.at' i i * x i := by
    rw [Finset.mul_sum]
    refine Finset.sum_congr rfl fun i hi => ?_
    rw [hv i (Finset.mem_range.1 hi) i (Finset.mem_range.1 hi)]
    ring
  have e2 : ∑ i ∈ Finset.range n, ∑ j ∈ Finset.range n,
      (if i = j then 0 else (addTranspose J).at' i j * x i * x j) =
      (∑ i ∈ Finset.range n, ∑ j ∈ Finset.range n, if i = j then 0 else J.at' i j * x i * x j) +
      ∑ i ∈ Finset.range n, ∑ j ∈ Finset.range n, if i = j then 0 else J.at' j i * x i * x j := by
    rw [← Finset.sum_add_distrib]
    refine Finset.sum_congr rfl fun i hi => ?_
    rw [← Finset.sum_add_distrib]
    refine Finset.sum_congr rfl fun j hj => ?_
    rw [hv i (Finset.mem_range.1 hi) j (Finset.mem_range.1 hj)]
    split_ifs <;> ring
  have e3 : ∑ i ∈ Finset.range n, ∑ j ∈ Finset.range n, (if i = j then 0 else J.at' j i * x i * x j) =
      ∑ i ∈ Finset.range n, ∑ j ∈ Finset.range n, if i = j then 0 else J.at' i j * x i * x j := by
    rw [Finset.sum_comm]
    refine Finset.sum_congr rfl fun i _ => Finset.sum_congr rfl fun j _ => ?_
    by_cases h : i = j
    · subst h; simp
    · rw [if_neg h, if_neg (fun h' => h h'.symm)]; ring
  rw [e1, e2, e3]
  ring

/-- C68 (partial: the returned parameters describe the matrix with a factor of two, see
`C68_returned_wrong`). For every square matrix `J` with energy `Σ_i J_ii x_i + Σ_{i≠j} J_ij x_i x_j` on
`{0,1}^n`, the returned ±1 parameters have twice that energy, up to a constant. -/
theorem C68_returned_partial (J : Mat ℝ) (n : ℕ) (hn : 1 ≤ n) (hJ : J.HasShape n n) :
    ∃ p, rmfParams J = .ok p ∧ p.length = n + n * (n - 1) / 2 ∧
      ∃ k, ∀ s : ℕ → ℝ, isingVecE n (p.take n) (p.drop n) s =
        2 * quadE n (fun i j => J.at' i j) (fun i => (s i + 1) / 2) + k := by
  have hs : (addTranspose J).HasShape n n := by
    unfold addTranspose; rw [hJ.1]; exact Mat.build_shape _ _ _
  obtain ⟨p, h1, h2, k, h3⟩ := aceParams_ok hn hs fun i hi j hj => by
    unfold addTranspose
    rw [hJ.1, Mat.at_build _ hi hj, Mat.at_build _ hj hi, add_comm]
  exact ⟨p, h1, h2, k, fun s => by rw [h3 s, quadE_addTranspose J n hJ]⟩

/-- C68: the returned model is the model of `J` only if every state has the same energy: whenever two
states differ in energy, one of the two has another probability in the returned model. -/
theorem C68_returned_wrong (J : Mat ℝ) (n : ℕ) (hn : 1 ≤ n) (hJ : J.HasShape n n) :
    ∃ p, rmfParams J = .ok p ∧
      ((∀ s ∈ words [(-1 : ℤ), 1] n,
          boltzmann (words [(-1 : ℤ), 1] n) (fun s => isingVecE n (p.take n) (p.drop n) (spins s)) s =
          boltzmann (words [(-1 : ℤ), 1] n)
            (fun s => quadE n (fun i j => J.at' i j) (fun i => ((spins s i : ℝ) + 1) / 2)) s) ↔
        ∀ s ∈ words [(-1 : ℤ), 1] n, ∀ t ∈ words [(-1 : ℤ), 1] n,
          quadE n (fun i j => J.at' i j) (fun i => ((spins s i : ℝ) + 1) / 2) =
          quadE n (fun i j => J.at' i j) (fun i => ((spins t i : ℝ) + 1) / 2)) := by
  obtain ⟨p, h1, -, k, h3⟩ := C68_returned_partial J n hn hJ
  refine ⟨p, h1, ?_⟩
  set W := words [(-1 : ℤ), 1] n with hW
  set E : List ℤ → ℝ := fun s => quadE n (fun i j => J.at' i j) (fun i => ((spins s i : ℝ) + 1) / 2) with hE
  have hfun : (fun s : List ℤ => isingVecE n (p.take n) (p.drop n) (spins s)) = fun s => 2 * E s + k := by
    funext s; rw [h3]
  rw [hfun]
  have hne : W ≠ [] := by
    intro h
    have : List.replicate n (1 : ℤ) ∈ W := mem_words.2 ⟨by simp, by simp⟩
    rw [h] at this
    simp at this
  constructor
  · intro h s hs t ht
    have e1 := h s hs
    have e2 := h t ht
    unfold boltzmann at e1 e2
    have p1 := partition_pos W (fun s => 2 * E s + k) hne
    have p2 := partition_pos W E hne
    rw [div_eq_div_iff p1.ne' p2.ne'] at e1 e2
    have hq : Real.exp (-(2 * E s + k)) * Real.exp (-E t) = Real.exp (-E s) * Real.exp (-(2 * E t + k)) := by
      have := congrArg₂ (· * ·) e1 e2.symm
      simp only at this
      have hpp := mul_pos p1 p2
      have : (Real.exp (-(2 * E s + k)) * Real.exp (-E t)) *
          (partition W (fun s => 2 * E s + k) * partition W E) =
          (Real.exp (-E s) * Real.exp (-(2 * E t + k))) *
          (partition W (fun s => 2 * E s + k) * partition W E) := by linear_combination this
      exact mul_right_cancel₀ hpp.ne' this
    rw [← Real.exp_add, ← Real.exp_add] at hq
    have := Real.exp_injective hq
    linarith
  · intro h s hs
    unfold boltzmann
    have hp : ∀ F : List ℤ → ℝ, (∀ t ∈ W, F t = F s) → Real.exp (-F s) / partition W F =
        1 / (W.length : ℝ) := by
      intro F hF
      have : partition W F = (W.length : ℝ) * Real.exp (-F s) := by
        unfold partition
        rw [List.map_congr_left (g := fun _ => Real.exp (-F s)) fun t ht => by rw [hF t ht]]
        simp
      rw [this]
      have := Real.exp_pos (-F s)
      have hl : (W.length : ℝ) ≠ 0 := by
        rw [Nat.cast_ne_zero]; exact fun h0 => hne (List.length_eq_zero_iff.1 h0)
      field_simp
    have hEs : ∀ t ∈ W, E t = E s := fun t ht => h t ht s hs
    exact (hp (fun s => 2 * E s + k) fun t ht => by rw [hEs t ht]).trans (hp E hEs).symm

example : quadE 2 (fun i j => Mat.at' [[(1 : ℚ), 2], [2, 3]] i j) (fun _ => 1) = 8 := by decide +kernel

/-- C68: the energy of the parameters with which `samples(J)` draws ±1 states: fields `2 J_ii` and couplings
`-(J_ij + J_ji)` are used without a change of basis. -/
theorem C68_sample_energy (J : Mat ℝ) (n : ℕ) (hn : 1 ≤ n) (hJ : J.HasShape n n) :
    ∃ p, rmfSampleParams J = .ok p ∧ p.length = n + n * (n - 1) / 2 ∧
      ∀ s : ℕ → ℝ, isingVecE n (p.take n) (p.drop n) s =
        -(∑ i ∈ Finset.range n, 2 * J.at' i i * s i) +
          ∑ i ∈ Finset.range n, ∑ j ∈ Finset.range n,
            if i < j then (J.at' i j + J.at' j i) * s i * s j else 0 := by
  classical
  have hs : (addTranspose J).HasShape n n := by
    unfold addTranspose; rw [hJ.1]; exact Mat.build_shape _ _ _
  have hv : ∀ i < n, ∀ j < n, (addTranspose J).at' i j = J.at' i j + J.at' j i := fun i hi j hj => by
    unfold addTranspose
    rw [hJ.1, Mat.at_build _ hi hj]
  obtain ⟨T, eT⟩ : ∃ T : Mat ℝ, T = (addTranspose J).map (fun r => r.map fun x => -x) := ⟨_, rfl⟩
  have hT : T = Mat.build n n fun i j => -(addTranspose J).at' i j := by
    rw [eT]
    conv_lhs => rw [Mat.eq_build hs]
    unfold Mat.build
    rw [List.map_map]
    refine List.map_congr_left fun i _ => ?_
    simp [Function.comp_def]
  have hTs : T.HasShape n n := hT ▸ Mat.build_shape _ _ _
  obtain ⟨Z, eZ⟩ : ∃ Z : Mat ℝ, Z = Mat.build n n fun i j =>
      if i = j then (0 : ℝ) else -(addTranspose J).at' i j := ⟨_, rfl⟩
  have hz : zeroDiag T = .ok Z := by
    unfold zeroDiag replaceDiag
    rw [if_neg (by simp [hTs.1, Mat.ncols_eq hTs hn]), hTs.1]
    dsimp only
    congr 1
    rw [eZ]
    apply Mat.ext' (Mat.build_shape _ _ _) (Mat.build_shape _ _ _)
    intro i hi j hj
    rw [Mat.at_build _ hi hj, Mat.at_build _ hi hj, hT, Mat.at_build _ hi hj]
    by_cases h : i = j
    · subst h; simp [hi, Mat.at_build _ hi hi]
    · simp [h]
  have hZs : Z.HasShape n n := eZ ▸ Mat.build_shape _ _ _
  have hZv : ∀ i < n, ∀ j < n, Z.at' i j = if i = j then (0 : ℝ) else -(J.at' i j + J.at' j i) :=
    fun i hi j hj => by rw [eZ, Mat.at_build _ hi hj, hv i hi j hj]
  have hsq : squareformMat Z = .ok ((upperPairs n).map fun p => Z.at' p.1 p.2) := by
    unfold squareformMat
    simp only [hZs.1, Mat.ncols_eq hZs hn, ne_eq, not_true, if_false]
    rw [if_neg, if_neg]
    · rw [not_not]
      intro i hi
      have := List.mem_range.1 hi
      rw [hZv i this i this, if_pos rfl]
    · rw [not_not]
      intro i hi j hj
      have h1 := List.mem_range.1 hi
      have h2 := List.mem_range.1 hj
      rw [hZv i h1 j h2, hZv j h2 i h1]
      by_cases h : i = j
      · subst h; rfl
      · rw [if_neg h, if_neg (fun h' => h h'.symm), add_comm]
  have hd : diagonal (addTranspose J) = (List.range n).map fun i => 2 * J.at' i i := by
    unfold diagonal
    rw [hs.1, Mat.ncols_eq hs hn, min_self]
    refine List.map_congr_left fun i hi => ?_
    have := List.mem_range.1 hi
    rw [hv i this i this]; ring
  refine ⟨diagonal (addTranspose J) ++ (upperPairs n).map fun p => Z.at' p.1 p.2, ?_, ?_, fun s => ?_⟩
  · unfold rmfSampleParams
    simp only [← eT, hz, hsq]
  · rw [hd]; simp [length_upperPairs]
  · rw [List.take_left' (by simp [hd]), List.drop_left' (by simp [hd])]
    unfold isingVecE isingE
    have e1 : ∑ i ∈ Finset.range n, (diagonal (addTranspose J)).getD i 0 * s i =
        ∑ i ∈ Finset.range n, 2 * J.at' i i * s i := by
      refine Finset.sum_congr rfl fun i hi => ?_
      rw [hd, getD_map_range n _ _ (Finset.mem_range.1 hi)]
    have e2 : ∑ i ∈ Finset.range n, ∑ j ∈ Finset.range n,
        (if i < j then couplingAt n ((upperPairs n).map fun p => Z.at' p.1 p.2) i j * s i * s j else 0) =
        -∑ i ∈ Finset.range n, ∑ j ∈ Finset.range n,
            if i < j then (J.at' i j + J.at' j i) * s i * s j else 0 := by
      rw [← Finset.sum_neg_distrib]
      refine Finset.sum_congr rfl fun i hi => ?_
      rw [← Finset.sum_neg_distrib]
      refine Finset.sum_congr rfl fun j hj => ?_
      split_ifs with h
      · rw [couplingAt_upperPairs n _ i j h (Finset.mem_range.1 hj)]
        dsimp only
        rw [hZv i (Finset.mem_range.1 hi) j (Finset.mem_range.1 hj), if_neg h.ne]
        ring
      · simp
    rw [e1, e2]
    ring

/-- C68: the samples are not drawn from the candidate. For a single spin with any field, up
is the more likely state in the model sampled exactly when it is the less likely one in the candidate. -/
theorem C68_samples_inverted (a : ℝ) :
    ∃ p, rmfSampleParams [[a]] = .ok p ∧
      (1 / 2 < boltzmann (words [(-1 : ℤ), 1] 1)
          (fun s => isingVecE 1 (p.take 1) (p.drop 1) (spins s)) [1] ↔
        boltzmann (words [(0 : ℤ), 1] 1) (fun x => quadE 1 (fun i j => Mat.at' [[a]] i j) (spins x)) [1] <
          1 / 2) := by
  obtain ⟨p, h1, -, h3⟩ := C68_sample_energy [[a]] 1 (le_refl 1) (by constructor <;> simp)
  refine ⟨p, h1, ?_⟩
  have w1 : words [(-1 : ℤ), 1] 1 = [[-1], [1]] := by decide
  have w2 : words [(0 : ℤ), 1] 1 = [[0], [1]] := by decide
  have e1 := Real.exp_pos (2 * a)
  have e2 := Real.exp_pos (-(2 * a))
  have e3 := Real.exp_pos (-a)
  unfold boltzmann partition
  rw [w1, w2]
  simp only [h3]
  simp [quadE, spins, Mat.at']
  rw [lt_div_iff₀ (by positivity), div_lt_iff₀ (by positivity)]
  have l1 : Real.exp (-(2 * a)) < Real.exp (2 * a) ↔ 0 < a := by
    rw [Real.exp_lt_exp]; constructor <;> intro h <;> linarith
  have l2 : Real.exp (-a) < 1 ↔ 0 < a := by
    rw [Real.exp_lt_one_iff]; constructor <;> intro h <;> linarith
  constructor
  · intro h
    have := l2.2 (l1.1 (by linarith))
    linarith
  · intro h
    have := l1.2 (l2.1 (by linarith))
    linarith

/-- C68: the residuals of the frequencies do not depend on the samples: for ±1 samples every diagonal entry
of the co-occurrence matrix is one, so the residual of spin `i` is `1 - f_i` whatever was sampled. -/
theorem C68_residual_constant (n : ℕ) (hn : 1 ≤ n) (X : List (List ℤ)) (hX : ∀ r ∈ X, r ∈ words [(-1 : ℤ), 1] n)
    (hne : X ≠ []) (D : Mat ℝ) (i : ℕ) (hi : i < n) :
    ∃ d, isingDeltaCooc n (X.map fun r => r.map fun x : ℤ => (x : ℝ)) D = .ok (some d) ∧
      d.getD i 0 = 1 - D.at' i i := by
  obtain ⟨h1, h2⟩ := C66_cooccurrence n (X.map fun r => r.map fun x : ℤ => (x : ℝ)) true
  obtain ⟨C, eC⟩ : ∃ C : Mat (Option ℝ), C = cooccurrenceMatrix n
    (X.map fun r => r.map fun x : ℤ => (x : ℝ)) true := ⟨_, rfl⟩
  rw [← eC] at h1
  simp only [← eC] at h2
  have hat : ∀ a < n, ∀ b < n, Mat.at' (C.map fun row => row.map fun x : Option ℝ => x.getD 0) a b =
      ((C.getD a []).getD b none).getD 0 := by
    intro a ha b hb
    have hrow : a < C.length := by rw [h1.1]; exact ha
    have hcol := h1.2 _ (List.getElem_mem hrow)
    have hmap : (C.map fun row => row.map fun x : Option ℝ => x.getD 0).getD a [] =
        C[a].map fun x => x.getD 0 := by
      rw [List.getD_eq_getElem _ _ (by simpa using hrow), List.getElem_map]
    unfold Mat.at'
    rw [hmap, List.getD_eq_getElem _ _ (by simpa [hcol] using hb), List.getElem_map,
      List.getD_eq_getElem _ _ hrow, List.getD_eq_getElem _ _ (by rw [hcol]; exact hb)]
  have hlen : (X.map fun r => r.map fun x : ℤ => (x : ℝ)).length ≠ 0 := by simpa using hne
  refine ⟨diagList n fun a b => Mat.at' (Mat.build n n fun a b =>
    Mat.at' (C.map fun row => row.map fun x : Option ℝ => x.getD 0) a b - D.at' a b) a b, ?_, ?_⟩
  · unfold isingDeltaCooc
    rw [if_neg hlen, ← eC]
    dsimp only
    rw [aboveDiagFlat_eq (Mat.build_shape _ _ _) hn]
  · have hg := diagList_get n i 0 (by simpa using hi) fun a b =>
      Mat.at' (Mat.build n n fun a b => Mat.at' (C.map fun row => row.map fun x : Option ℝ => x.getD 0) a b -
        D.at' a b) a b
    simp only [diagOff, zero_add, Nat.add_zero] at hg
    rw [List.getD_eq_getElem?_getD, hg, Option.getD_some, Mat.at_build _ hi hi, hat i hi i hi, h2 i hi i hi,
      if_neg (by simpa using hne), if_pos (by simp), Option.getD_some]
    congr 1
    unfold avg
    rw [List.map_map, List.length_map]
    have : (X.map ((fun r : List ℝ => r.getD i 0 * r.getD i 0) ∘ fun r => r.map fun x : ℤ => (x : ℝ))) =
        X.map fun _ => (1 : ℝ) := by
      refine List.map_congr_left fun r hr => ?_
      obtain ⟨hl, hm⟩ := mem_words.1 (hX r hr)
      have hir : i < r.length := by rw [hl]; exact hi
      simp only [Function.comp]
      rw [List.getD_eq_getElem _ _ (by simpa using hir), List.getElem_map]
      have := hm _ (List.getElem_mem hir)
      simp at this
      rcases this with h | h <;> rw [h] <;> norm_num
    rw [this]
    have : (X.length : ℝ) ≠ 0 := by rw [Nat.cast_ne_zero]; simpa using hne
    simp [this]

/-- C68: the whole solver. With the default options, whenever the search returns a strength for which the
mean-field matrix `J` exists, the returned parameters have twice the energy of `J`, up to a constant; other
options raise (with `min_covariance` besides `min_independent` every evaluation of the objective raises). -/
theorem C68_solve (eig : Mat ℝ → List ℝ × Mat ℝ) (sampler : List ℝ → Samples ℝ)
    (search : (ℝ → Py (Option ℝ)) → Py ℝ) (n : ℕ) (hn : 1 ≤ n) (sample : List (List ℤ)) (hne : sample ≠ [])
    (hw : ∀ r ∈ sample, r.length = n) :
    (∀ l ≠ 0, ∀ mi mc, rmfSolve eig sampler search n sample l mi mc = .error .notImplemented) ∧
    rmfSolve eig sampler search n sample 0 false true = .error .exception ∧
    rmfSolve eig sampler search n sample 0 false false = .error .notImplemented ∧
    ∀ mc, ∃ M stdevs, aceCooc n sample = some M ∧ coocStdevsFlat M sample.length = .ok stdevs ∧
      (mc = true → ∀ g J, jmeanField eig M (rmfLambda M g) (some sample.length) = .ok J →
        rmfObjective eig sampler n M stdevs sample.length mc g = .error .nameError) ∧
      ∀ g J, search (rmfObjective eig sampler n M stdevs sample.length mc) = .ok g →
        jmeanField eig M (rmfLambda M g) (some sample.length) = .ok J → J.HasShape n n →
        ∃ p, rmfSolve eig sampler search n sample 0 true mc = .ok p ∧
          ∃ k, ∀ s : ℕ → ℝ, isingVecE n (p.take n) (p.drop n) s =
            2 * quadE n (fun i j => J.at' i j) (fun i => (s i + 1) / 2) + k := by
  obtain ⟨M, hM, hMs, -⟩ := aceCooc_ok n sample hne hw
  refine ⟨fun l hl mi mc => ?_, ?_, ?_, fun mc => ?_⟩
  · unfold rmfSolve
    simp only [hM, if_pos hl]
  · unfold rmfSolve
    simp [hM]
  · unfold rmfSolve
    simp [hM]
  · have hstd : ∃ v, coocStdevsFlat M sample.length = .ok v := by
      unfold coocStdevsFlat
      have hs : Mat.HasShape ((coocMatBayesianMean M sample.length).map fun row => row.map fun x => x * (1 - x)) n n := by
        unfold coocMatBayesianMean
        constructor
        · simp [hMs.1]
        · intro r hr
          simp only [List.map_map, List.mem_map] at hr
          obtain ⟨r', hr', rfl⟩ := hr
          simp [hMs.2 r' hr']
      simp only [aboveDiagFlat_eq hs hn]
      exact ⟨_, rfl⟩
    obtain ⟨stdevs, hstd⟩ := hstd
    refine ⟨M, stdevs, hM, hstd, fun hmc g J hJ => ?_, fun g J hg hJ hJs => ?_⟩
    · unfold rmfObjective
      rw [hJ]
      simp [hmc]
    obtain ⟨p, h1, -, h3⟩ := C68_returned_partial J n hn hJs
    refine ⟨p, ?_, h3⟩
    unfold rmfSolve
    simp [hM, hstd, hg, hJ, h1]

/-- C68: the factor of two is not harmless. For a sample of a single spin that is up with frequency `f`,
whatever nonnegative strength the search returns, the model with the returned parameters has the spin up with
probability `f² / (f² + (1-f)²)`, which differs from `f` unless `f = 1/2`. -/
theorem C68_single_spin (eig : Mat ℝ → List ℝ × Mat ℝ) (sampler : List ℝ → Samples ℝ)
    (hEig : ∀ n (R : Mat ℝ), R.HasShape n n → (toMatrix n R).IsHermitian → ExactEig eig n R)
    (g : ℝ) (hg : 0 ≤ g) (sample : List (List ℤ))
    (hw : ∀ r ∈ sample, r ∈ words [(-1 : ℤ), 1] 1) (hup : [1] ∈ sample) (hdown : [-1] ∈ sample) (f : ℝ)
    (hf : f = avg sample fun r => ((r.getD 0 0 : ℤ) + 1 : ℝ) / 2) :
    ∃ p, rmfSolve eig sampler (fun _ => .ok g) 1 sample 0 true false = .ok p ∧
      boltzmann (words [(-1 : ℤ), 1] 1) (fun s => isingVecE 1 (p.take 1) (p.drop 1) (spins s)) [1] =
        f ^ 2 / (f ^ 2 + (1 - f) ^ 2) ∧
      (f ^ 2 / (f ^ 2 + (1 - f) ^ 2) = f ↔ f = 1 / 2) := by
  have hne : sample ≠ [] := List.ne_nil_of_mem hup
  have hlen : ∀ r ∈ sample, r.length = 1 := fun r hr => (mem_words.1 (hw r hr)).1
  obtain ⟨M, hM, hMs, hMv⟩ := aceCooc_ok 1 sample hne hlen
  have h01 : ∀ r ∈ sample, (((r.getD 0 0 : ℤ) : ℝ) + 1) / 2 = 0 ∨ (((r.getD 0 0 : ℤ) : ℝ) + 1) / 2 = 1 := by
    intro r hr
    obtain ⟨hl, hm⟩ := mem_words.1 (hw r hr)
    have := hm (r.getD 0 0) (by rw [List.getD_eq_getElem _ _ (by omega)]; exact List.getElem_mem _)
    simp only [List.mem_cons, List.not_mem_nil, or_false] at this
    rcases this with h | h <;> rw [h] <;> norm_num
  have hM0 : M.at' 0 0 = f := by
    rw [hMv 0 (by omega) 0 (by omega), if_pos (le_refl 0), hf]
    unfold avg
    congr 2
    refine List.map_congr_left fun r hr => ?_
    rcases h01 r hr with h | h <;> rw [h] <;> norm_num
  have hlp : (0 : ℝ) < sample.length := by
    rw [Nat.cast_pos]; exact List.length_pos_iff.2 hne
  have hf01 : 0 < f ∧ f < 1 := by
    have h1 : (1 : ℝ) ≤ (sample.map fun r => ((r.getD 0 0 : ℤ) + 1 : ℝ) / 2).sum := by
      refine List.single_le_sum (fun x hx => ?_) 1 (List.mem_map.2 ⟨[1], hup, by norm_num⟩)
      obtain ⟨r, hr, rfl⟩ := List.mem_map.1 hx
      rcases h01 r hr with h | h <;> rw [h] <;> norm_num
    have h2 : (1 : ℝ) ≤ (sample.map fun r => 1 - ((r.getD 0 0 : ℤ) + 1 : ℝ) / 2).sum := by
      refine List.single_le_sum (fun x hx => ?_) 1 (List.mem_map.2 ⟨[-1], hdown, by norm_num⟩)
      obtain ⟨r, hr, rfl⟩ := List.mem_map.1 hx
      rcases h01 r hr with h | h <;> rw [h] <;> norm_num
    rw [list_sum_sub] at h2
    have h3 : (sample.map fun _ : List ℤ => (1 : ℝ)).sum = sample.length := by simp
    rw [h3] at h2
    rw [hf]
    unfold avg
    exact ⟨by positivity, by rw [div_lt_one hlp]; linarith⟩
  obtain ⟨J, j1, j2, j3, -⟩ := C89_independent eig id (fun _ => []) hEig M 1 hMs [0] (by simp) (by simp) (by simp)
    (fun a b => M.at' ([0].getD (min a b) 0) ([0].getD (max a b) 0)) (fun _ _ => rfl)
    (fun a ha => by
      have : a = 0 := by simpa using ha
      subst this
      simpa [hM0] using hf01)
    (fun a ha b hb hab => by simp at ha hb; omega)
    (rmfLambda M g) (by
      unfold rmfLambda
      positivity) sample.length (by simpa using hne)
  have hJ0 : J.at' 0 0 = -Real.log (f / (1 - f)) := by
    have := j3 ⟨0, by simp⟩
    simpa [hM0] using this
  have hjm : jmeanField eig M (rmfLambda M g) (some sample.length) = .ok J := by
    unfold jmeanField
    rw [hMs.1, show List.range 1 = [0] from rfl, j1]
  obtain ⟨M', stdevs, hM', -, -, h⟩ := (C68_solve eig sampler (fun _ => .ok g) 1 (le_refl 1) sample hne hlen).2.2.2 false
  have hMM : M' = M := by rw [hM] at hM'; exact (Option.some.inj hM').symm
  subst hMM
  obtain ⟨p, hp, k, hk⟩ := h g J rfl hjm j2
  refine ⟨p, hp, ?_, ?_⟩
  · have w1 : words [(-1 : ℤ), 1] 1 = [[-1], [1]] := by decide
    unfold boltzmann partition
    rw [w1]
    simp only [hk]
    have q1 : quadE 1 (fun i j => J.at' i j) (fun i => ((spins [(1 : ℤ)] i : ℝ) + 1) / 2) = J.at' 0 0 := by
      simp [quadE, spins]
    have q2 : quadE 1 (fun i j => J.at' i j) (fun i => ((spins [(-1 : ℤ)] i : ℝ) + 1) / 2) = 0 := by
      simp [quadE, spins]
    have hpos : 0 < f / (1 - f) := div_pos hf01.1 (by linarith [hf01.2])
    have e1 : Real.exp (-(2 * J.at' 0 0 + k)) = (f / (1 - f)) ^ 2 * Real.exp (-k) := by
      rw [hJ0, show -(2 * -Real.log (f / (1 - f)) + k) = Real.log (f / (1 - f)) + Real.log (f / (1 - f)) + -k by ring,
        Real.exp_add, Real.exp_add, Real.exp_log hpos]
      ring
    have e2 : Real.exp (-(2 * 0 + k)) = Real.exp (-k) := by simp
    simp only [List.map_cons, List.map_nil, List.sum_cons, List.sum_nil, q1, q2]
    rw [e1, e2]
    have h1 : (1 - f) ≠ 0 := by linarith [hf01.2]
    have h2 := (Real.exp_pos (-k)).ne'
    have h3 : f ^ 2 + (1 - f) ^ 2 ≠ 0 := by
      have := hf01.1
      positivity
    have h4 : (1 - f) ^ 2 + f ^ 2 ≠ 0 := by rwa [add_comm]
    field_simp
    ring_nf
  · have h3 : 0 < f ^ 2 + (1 - f) ^ 2 := by
      have := hf01.1
      positivity
    rw [div_eq_iff h3.ne']
    constructor
    · intro h
      have : f * (1 - f) * (2 * f - 1) = 0 := by linear_combination h
      rcases mul_eq_zero.1 this with h | h
      · rcases mul_eq_zero.1 h with h | h
        · exact absurd h hf01.1.ne'
        · linarith [hf01.2]
      · linarith
    · intro h
      rw [h]
      norm_num

example : [[(1 : ℤ)], [1], [-1]].length = 3 ∧ avg [[(1 : ℤ)], [1], [-1]] (fun r => ((r.getD 0 0 : ℤ) + 1 : ℚ) / 2) =
    2 / 3 := by decide +kernel

end Verif.Props
