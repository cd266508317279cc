/-
C93, C94: the functions for homogeneous systems.
-/
import Verif.Lemmas.Homogeneous

namespace Verif.Props
open Verif Verif.Model Verif.Spec Verif.Lemmas

/-- C93 the integral of `exp(-FHomogeneous)` over the auxiliary field is the sum over all `2^N` states:
the partition function of the homogeneous Ising model. -/
theorem C93_partition (quad : (ℝ → Py ℝ) → Py ℝ) (hq : QuadExact quad) (h J : ℝ) (hJ : 0 < J) (N : ℕ)
    (hN : 1 ≤ N) :
    quad (homInt h J N fun _ => 1) = .ok (partition (words [1, -1] N) (homE N h J)) :=
  quad_Z hq h hJ hN

/-- C93 `SHomogeneous` is the entropy of that model. -/
theorem C93_entropy (quad : (ℝ → Py ℝ) → Py ℝ) (hq : QuadExact quad) (h J : ℝ) (hJ : 0 < J) (N : ℕ)
    (hN : 1 ≤ N) :
    sHomogeneous quad h J N =
      .ok (entropy (words [1, -1] N) (boltzmann (words [1, -1] N) (homE N h J))) := by
  unfold sHomogeneous
  rw [quad_Z hq h hJ hN]
  simp only [ratio_dFdT hq h hJ hN]
  rw [entropy_boltzmann _ _ (words_ne_nil _ 1 (by simp) N)]
  congr 1
  have : expect (words [1, -1] N) (homE N h J) (fun s => -homE N h J s) =
      -expect (words [1, -1] N) (homE N h J) (homE N h J) := by
    unfold expect
    rw [← list_sum_neg]
    exact list_sum_congr fun s _ => by ring
  rw [this]
  ring

/-- C93 `avgmHomogeneous` and `avgxHomogeneous` both are the mean of every single spin. -/
theorem C93_means (quad : (ℝ → Py ℝ) → Py ℝ) (hq : QuadExact quad) (h J : ℝ) (hJ : 0 < J) (N : ℕ)
    (hN : 1 ≤ N) : ∃ x, avgmHomogeneous quad h J N = .ok x ∧ avgxHomogeneous quad h J N = .ok x ∧
      ∀ i < N, expect (words [1, -1] N) (homE N h J) (fun s => ((s.getD i 0 : ℤ) : ℝ)) = x := by
  have hx : ∀ i < N, avgxHomogeneous quad h J N =
      .ok (expect (words [1, -1] N) (homE N h J) fun s => ((s.getD i 0 : ℤ) : ℝ)) := by
    intro i hi
    unfold avgxHomogeneous
    rw [quad_Z hq h hJ hN]
    exact ratio_x hq h hJ hN i hi
  have hall : ∀ i < N, expect (words [1, -1] N) (homE N h J) (fun s => ((s.getD i 0 : ℤ) : ℝ)) =
      expect (words [1, -1] N) (homE N h J) (fun s => ((s.getD 0 0 : ℤ) : ℝ)) := by
    intro i hi
    have := (hx i hi).symm.trans (hx 0 hN)
    exact Except.ok.inj this
  refine ⟨_, ?_, hx 0 hN, hall⟩
  unfold avgmHomogeneous
  rw [quad_Z hq h hJ hN]
  refine (ratio_m hq h hJ hN).trans ?_
  congr 1
  have hN' : (N : ℝ) ≠ 0 := by exact_mod_cast (by omega : N ≠ 0)
  have : expect (words [1, -1] N) (homE N h J) (fun s => mag N s / N) =
      expect (words [1, -1] N) (homE N h J) (mag N) / N := by
    unfold expect
    rw [← list_sum_div]
    exact list_sum_congr fun s _ => by ring
  rw [this, expect_mag, Finset.sum_congr rfl fun i hi => hall i (Finset.mem_range.1 hi)]
  simp [hN']

/-- C93 without coupling the functions raise instead of returning the values of independent spins. -/
theorem C93_no_coupling (quad : (ℝ → Py ℝ) → Py ℝ) (hq : QuadExact quad) (h : ℝ) (N : ℕ) :
    sHomogeneous quad h 0 N = .error .zeroDivision ∧ avgmHomogeneous quad h 0 N = .error .zeroDivision ∧
      avgxHomogeneous quad h 0 N = .error .zeroDivision ∧
      multiInfoHomogeneous quad h 0 N = .error .zeroDivision := by
  have h0 : quad (homInt h 0 N fun _ => 1) = .error .zeroDivision := by
    refine hq.2 _ _ fun x => ?_
    simp [homInt, fHomogeneous]
  refine ⟨?_, ?_, ?_, ?_⟩
  · simp only [sHomogeneous, h0]
  · simp only [avgmHomogeneous, h0]
  · simp only [avgxHomogeneous, h0]
  · simp only [multiInfoHomogeneous, independentEntropyHomogeneous, avgxHomogeneous, h0]

/-- Exact integration exists. -/
theorem exists_quadExact : ∃ quad : (ℝ → Py ℝ) → Py ℝ, QuadExact quad := by
  classical
  refine ⟨fun f => match f 0 with
    | .error e => .error e
    | .ok _ => .ok (∫ x, match f x with | .ok v => v | .error _ => 0), ?_, ?_⟩
  · intro f g hf _
    simp only [hf]
  · intro f e hf
    simp only [hf]

example : ∃ quad, QuadExact quad ∧
    sHomogeneous quad 1 2 3 =
      .ok (entropy (words [1, -1] 3) (boltzmann (words [1, -1] 3) (homE 3 1 2))) := by
  obtain ⟨quad, hq⟩ := exists_quadExact
  exact ⟨quad, hq, C93_entropy quad hq 1 2 (by norm_num) 3 (by norm_num)⟩

/-! ### C94 -/

theorem binEntropy_tanh (y : ℝ) :
    spinEntropy ((1 + Real.tanh y) / 2) = Real.log 2 + Real.log (Real.cosh y) - Real.tanh y * y := by
  have hc := Real.cosh_pos y
  have e1 : (1 + Real.tanh y) / 2 = Real.exp y / (2 * Real.cosh y) := by
    rw [Real.tanh_eq_sinh_div_cosh, ← Real.cosh_add_sinh]
    field_simp
  have e2 : 1 - (1 + Real.tanh y) / 2 = Real.exp (-y) / (2 * Real.cosh y) := by
    rw [Real.tanh_eq_sinh_div_cosh, ← Real.cosh_sub_sinh]
    field_simp
    ring
  have e3 : Real.exp y / (2 * Real.cosh y) + Real.exp (-y) / (2 * Real.cosh y) = 1 := by
    rw [← e1, ← e2]; ring
  have e4 : Real.exp y / (2 * Real.cosh y) - Real.exp (-y) / (2 * Real.cosh y) = Real.tanh y := by
    rw [← e1, ← e2]; ring
  unfold spinEntropy
  rw [e2, e1, Real.log_div (Real.exp_pos _).ne' (by positivity),
    Real.log_div (Real.exp_pos _).ne' (by positivity), Real.log_exp, Real.log_exp,
    Real.log_mul (by norm_num) hc.ne']
  linear_combination (Real.log 2 + Real.log (Real.cosh y)) * e3 - y * e4

/-- C94 both independent-entropy functions are the sum of the entropies of the single spins. -/
theorem C94_independent (quad : (ℝ → Py ℝ) → Py ℝ) (hq : QuadExact quad) (h J : ℝ) (hJ : 0 < J) (N : ℕ)
    (hN : 1 ≤ N) :
    independentEntropyHomogeneous quad h J N = .ok (∑ i ∈ Finset.range N, spinEntropy
        ((1 + expect (words [1, -1] N) (homE N h J) fun s => ((s.getD i 0 : ℤ) : ℝ)) / 2)) ∧
      independentEntropyHomogeneous2 quad h J N = independentEntropyHomogeneous quad h J N := by
  obtain ⟨x, _, hx, hall⟩ := C93_means quad hq h J hJ N hN
  have hb := spin_mean_lt N (homE N h J) 0 hN
  rw [hall 0 hN] at hb
  have hs : ∑ i ∈ Finset.range N, spinEntropy
      ((1 + expect (words [1, -1] N) (homE N h J) fun s => ((s.getD i 0 : ℤ) : ℝ)) / 2) =
      N * spinEntropy ((1 + x) / 2) := by
    rw [Finset.sum_congr rfl fun i hi => by rw [hall i (Finset.mem_range.1 hi)]]
    simp
  have h1 : independentEntropyHomogeneous quad h J N = .ok (N * spinEntropy ((1 + x) / 2)) := by
    unfold independentEntropyHomogeneous
    rw [hx]
    have hg : ¬((1 + x) / 2 ≤ 0 ∨ (1 - x) / 2 ≤ 0) := by
      push Not
      constructor <;> linarith
    simp only [if_neg hg]
    congr 2
    unfold spinEntropy
    rw [show 1 - (1 + x) / 2 = (1 - x) / 2 by ring]
    ring
  rw [hs, h1]
  refine ⟨rfl, ?_⟩
  unfold independentEntropyHomogeneous2
  rw [hx]
  have hg : ¬(x ≤ -1 ∨ 1 ≤ x) := by
    push Not
    exact hb
  simp only [if_neg hg]
  congr 2
  have := binEntropy_tanh (Real.artanh x)
  rw [Real.tanh_artanh ⟨hb.1, hb.2⟩] at this
  exact this.symm

/-- Entropy of independent spins with mean `x`. -/
theorem independent_gibbs (N : ℕ) (y : ℝ) :
    entropy (words [1, -1] N) (boltzmann (words [1, -1] N) fun s => -(y * mag N s)) =
      N * spinEntropy ((1 + Real.tanh y) / 2) ∧
    expect (words [1, -1] N) (fun s => -(y * mag N s)) (fun s => -(y * mag N s)) =
      -(y * (N * Real.tanh y)) := by
  have hne := words_ne_nil [1, -1] 1 (by simp) N
  have hp : partition (words [1, -1] N) (fun s => -(y * mag N s)) = (2 * Real.cosh y) ^ N := by
    unfold partition
    simp only [neg_neg]
    exact sum_exp_mag N y
  have he : expect (words [1, -1] N) (fun s => -(y * mag N s)) (fun s => -(y * mag N s)) =
      -(y * (N * Real.tanh y)) := by
    rw [expect_eq_div, hp]
    simp only [neg_neg]
    have : ((words [1, -1] N).map fun s => Real.exp (y * mag N s) * -(y * mag N s)).sum =
        -y * ((words [1, -1] N).map fun s => Real.exp (y * mag N s) * mag N s).sum := by
      rw [← list_sum_mul_left]
      exact list_sum_congr fun s _ => by ring
    rw [this, sum_exp_mag_mul]
    have := (Real.cosh_pos y).ne'
    field_simp
  refine ⟨?_, he⟩
  rw [entropy_boltzmann _ _ hne, he, hp, Real.log_pow,
    Real.log_mul (by norm_num) (Real.cosh_pos y).ne', binEntropy_tanh]
  ring

theorem sum_getD_range (s : List ℤ) : ∑ i ∈ Finset.range s.length, ((s.getD i 0 : ℤ) : ℝ) = (s.sum : ℤ) := by
  induction s with
  | nil => simp
  | cons a s ih =>
    rw [List.length_cons, Finset.sum_range_succ']
    simp only [List.getD_cons_succ, List.getD_cons_zero, List.sum_cons]
    rw [ih]
    push_cast
    ring

theorem mag_flips (N k : ℕ) (hk : k ≤ N) :
    mag N (List.replicate k (-1) ++ List.replicate (N - k) 1) = N - 2 * k := by
  have hl : (List.replicate k (-1 : ℤ) ++ List.replicate (N - k) 1).length = N := by simp; omega
  have := sum_getD_range (List.replicate k (-1 : ℤ) ++ List.replicate (N - k) 1)
  rw [hl] at this
  unfold mag
  rw [this]
  simp only [List.sum_append, List.sum_replicate]
  simp
  rw [Nat.cast_sub hk]
  ring

/-- C94 `multiInfoHomogeneous` is the sum of the single-spin entropies minus the entropy of the system.
It is never negative, zero for one spin, and positive as soon as there is a pair. -/
theorem C94_multi_information (quad : (ℝ → Py ℝ) → Py ℝ) (hq : QuadExact quad) (h J : ℝ) (hJ : 0 < J)
    (N : ℕ) (hN : 1 ≤ N) :
    ∃ I, multiInfoHomogeneous quad h J N = .ok I ∧
      I = (∑ i ∈ Finset.range N, spinEntropy
        ((1 + expect (words [1, -1] N) (homE N h J) fun s => ((s.getD i 0 : ℤ) : ℝ)) / 2)) -
        entropy (words [1, -1] N) (boltzmann (words [1, -1] N) (homE N h J)) ∧
      0 ≤ I ∧ (I = 0 ↔ N = 1) := by
  obtain ⟨x, _, hx, hall⟩ := C93_means quad hq h J hJ N hN
  have hb := spin_mean_lt N (homE N h J) 0 hN
  rw [hall 0 hN] at hb
  have hne := words_ne_nil [1, -1] 1 (by simp) N
  obtain ⟨y, hy⟩ : ∃ y, Real.tanh y = x := ⟨_, Real.tanh_artanh ⟨hb.1, hb.2⟩⟩
  have hs : ∑ i ∈ Finset.range N, spinEntropy
      ((1 + expect (words [1, -1] N) (homE N h J) fun s => ((s.getD i 0 : ℤ) : ℝ)) / 2) =
      N * spinEntropy ((1 + x) / 2) := by
    rw [Finset.sum_congr rfl fun i hi => by rw [hall i (Finset.mem_range.1 hi)]]
    simp
  refine ⟨_, ?_, rfl, ?_⟩
  · unfold multiInfoHomogeneous
    rw [(C94_independent quad hq h J hJ N hN).1]
    simp only [C93_entropy quad hq h J hJ N hN]
  obtain ⟨g1, g2⟩ := independent_gibbs N y
  have hm : mean (words [1, -1] N) (boltzmann (words [1, -1] N) (homE N h J))
      (fun s => -(y * mag N s)) =
      expect (words [1, -1] N) (fun s => -(y * mag N s)) (fun s => -(y * mag N s)) := by
    rw [g2]
    have e : mean (words [1, -1] N) (boltzmann (words [1, -1] N) (homE N h J))
        (fun s => -(y * mag N s)) = -y * expect (words [1, -1] N) (homE N h J) (mag N) := by
      unfold mean expect
      rw [← list_sum_mul_left]
      exact list_sum_congr fun s _ => by ring
    rw [e, expect_mag, Finset.sum_congr rfl fun i hi => hall i (Finset.mem_range.1 hi), hy]
    simp
  obtain ⟨k1, k2⟩ := gibbs (words [1, -1] N) (fun s => -(y * mag N s)) _ hne
    (isDist_boltzmann _ (homE N h J) hne) hm
  rw [g1, hy] at k1 k2
  rw [hs]
  refine ⟨by linarith, fun h0 => ?_, fun h1 => ?_⟩
  · by_contra hN1
    have hN2 : 2 ≤ N := by omega
    have heq := k2 (by linarith)
    have hk : ∀ k ≤ N, h * (N - 2 * k) + J * (N - 2 * k : ℝ) ^ 2 -
        Real.log (partition (words [1, -1] N) (homE N h J)) = y * (N - 2 * k) -
        Real.log (partition (words [1, -1] N) fun s => -(y * mag N s)) := by
      intro k hk
      have hmem : List.replicate k (-1) ++ List.replicate (N - k) 1 ∈ words [1, -1] N := by
        refine mem_words.2 ⟨by simp; omega, fun a ha => ?_⟩
        rcases List.mem_append.1 ha with ha | ha <;> simp [List.eq_of_mem_replicate ha]
      have := congrArg Real.log (heq _ hmem)
      rw [log_boltzmann _ _ hne, log_boltzmann _ _ hne, homE_mag, mag_flips N k hk] at this
      linarith
    have a0 := hk 0 (by omega)
    have a1 := hk 1 (by omega)
    have a2 := hk 2 (by omega)
    push_cast at a0 a1 a2
    have : J * 8 = 0 := by linear_combination a0 - 2 * a1 + a2
    linarith
  · have hsame : ∀ s ∈ words [1, -1] N, homE N h J s = -(h * mag N s) + -J := by
      intro s hs
      rw [homE_mag]
      subst h1
      simp only [words, List.flatMap_cons, List.map_cons, List.map_nil, List.flatMap_nil] at hs
      simp at hs
      rcases hs with rfl | rfl <;> simp [mag] <;> ring
    have hbz := boltzmann_shift (words [1, -1] N) (fun s => -(h * mag N s)) (homE N h J) (-J) hsame
    have hent : entropy (words [1, -1] N) (boltzmann (words [1, -1] N) (homE N h J)) =
        N * spinEntropy ((1 + Real.tanh h) / 2) := by
      rw [← (independent_gibbs N h).1]
      unfold entropy
      congr 1
      exact list_sum_congr fun s hs => by rw [hbz s hs]
    have hxh : x = Real.tanh h := by
      rw [← hall 0 hN]
      subst h1
      have : expect (words [1, -1] 1) (homE 1 h J) (fun s => ((s.getD 0 0 : ℤ) : ℝ)) =
          expect (words [1, -1] 1) (fun s => -(h * mag 1 s)) (fun s => ((s.getD 0 0 : ℤ) : ℝ)) := by
        unfold expect
        exact list_sum_congr fun s hs => by rw [hbz s hs]
      rw [this, expect_eq_div]
      have hp : partition (words [1, -1] 1) (fun s => -(h * mag 1 s)) = (2 * Real.cosh h) ^ 1 := by
        unfold partition
        simp only [neg_neg]
        exact sum_exp_mag 1 h
      rw [hp]
      simp only [neg_neg]
      rw [sum_exp_spin 1 h 0 (by omega)]
      have := (Real.cosh_pos h).ne'
      field_simp
    rw [hent, hxh, sub_self]

example : ∃ quad, QuadExact quad ∧ ∃ I, multiInfoHomogeneous quad 1 2 3 = .ok I ∧ 0 < I := by
  obtain ⟨quad, hq⟩ := exists_quadExact
  obtain ⟨I, h1, _, h3, h4⟩ := C94_multi_information quad hq 1 2 (by norm_num) 3 (by norm_num)
  exact ⟨quad, hq, I, h1, lt_of_le_of_ne h3 fun h => absurd (h4.1 h.symm) (by norm_num)⟩

end Verif.Props
