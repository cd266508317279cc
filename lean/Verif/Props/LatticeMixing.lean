/-
C128: what simulations of the two-dimensional lattice (coniii/ising/automaton.py) approach in the long run.
-/
import Verif.Lemmas.LatErgodic
import Verif.Lemmas.RandWords

namespace Verif.Props
open Verif Verif.Model Verif.Spec Verif.Lemmas Filter

/-- In the long run, from every first lattice, the lattice after `iterate(n_iters)` has the Boltzmann distribution of
the energy `E`: means of all functions tend to those of that distribution. -/
def Approaches (d0 d1 : ℕ) (h : Mat ℝ) (J : ℝ) (systematic : Bool) (E : Mat ℤ → ℝ) : Prop :=
  ∀ f : Mat ℤ → ℝ, ∀ L ∈ lattices d0 d1,
    Tendsto (fun n => expectation f (latIterate d0 d1 (.grid h) J n systematic L)) atTop
      (nhds (expect (lattices d0 d1) E f))

/-- The energy of the documented model. -/
noncomputable def fieldE (d0 d1 : ℕ) (h : Mat ℝ) (J : ℝ) (L : Mat ℤ) : ℝ :=
  latticeE d0 d1 J (fun i j => h.at' i j) (fun i j => ((L.at' i j : ℤ) : ℝ))

/-- The energy with the fields reversed. -/
noncomputable def reversedE (d0 d1 : ℕ) (h : Mat ℝ) (J : ℝ) (L : Mat ℤ) : ℝ :=
  latticeE d0 d1 J (fun i j => -h.at' i j) (fun i j => ((L.at' i j : ℤ) : ℝ))

theorem reversedE_eq (d0 d1 : ℕ) (h : Mat ℝ) (J : ℝ) : reversedE d0 d1 h J = revE d0 d1 h J := rfl

/-! ### Convergence -/

theorem tendsto_rounds (N : ℕ) (hN : 0 < N) : Tendsto (fun n : ℕ => (n + (N - 1)) / N) atTop atTop :=
  (Nat.tendsto_div_const_atTop hN.ne').comp (tendsto_add_atTop_nat (N - 1))

theorem approaches_of {d0 d1 : ℕ} {h : Mat ℝ} {J : ℝ} {systematic : Bool} {step : Mat ℤ → Prog (Mat ℤ)}
    (he : Ergodic (lattices d0 d1) (boltzmann (lattices d0 d1) (revE d0 d1 h J)) step) (c : ℕ → ℕ)
    (hc : Tendsto c atTop atTop)
    (hl : ∀ n L, latIterate d0 d1 (.grid h) J n systematic L = Prog.forEach (fun (_ : ℕ) => step) (List.range (c n)) L) :
    Approaches d0 d1 h J systematic (reversedE d0 d1 h J) := by
  intro f L hL
  obtain ⟨r, -, h1, -, h2, -⟩ := he.rate f
  rw [tendsto_iff_dist_tendsto_zero]
  refine squeeze_zero (fun _ => dist_nonneg) (fun n => ?_) (h1.comp hc)
  rw [Real.dist_eq, hl]
  have := h2 (List.range (c n)) L hL
  rw [List.length_range] at this
  exact this

/-! ### No convergence -/

section
variable {d0 d1 : ℕ}

theorem iterate_neg {step : Mat ℤ → Prog (Mat ℤ)} (hfin : ∀ L ∈ lattices d0 d1, FinDist (step L) (· ∈ lattices d0 d1))
    (f : Mat ℤ → ℝ) (hf : ∀ L ∈ lattices d0 d1, expectation f (step L) = -f L) (m : ℕ) {L : Mat ℤ}
    (hL : L ∈ lattices d0 d1) :
    expectation f (Prog.forEach (fun (_ : ℕ) => step) (List.range m) L) = (-1) ^ m * f L := by
  rw [expectation_forEach_step, List.length_range]
  have hT := markov_step hfin
  induction m with
  | zero => simp
  | succ m ih =>
    rw [Function.iterate_succ_apply]
    rw [(hT.iter m).congr (g := fun s => -1 * f s) (fun s hs => by rw [hf s hs]; ring) L hL, (hT.iter m).smul _ _ L hL, ih]
    ring

theorem spin_latNeg {L : Mat ℤ} (hL : L ∈ lattices d0 d1) {i j : ℕ} (hi : i < d0) (hj : j < d1) (a b : ℕ) :
    latSpins (latNeg L i j) a b = if a = i ∧ b = j then -latSpins L a b else latSpins L a b := by
  unfold latSpins
  rw [latNeg_at (mem_lattices.1 hL).1 hi hj]
  split <;> simp

theorem latDE_zero (i j : ℕ) (L : Mat ℤ) : latDE i j 0 0 L = 0 := by
  unfold latDE latBond
  simp

/-- A sweep flips a site without coupling and field. -/
theorem sweep_free (h : Mat ℝ) {k : ℕ} (hh : h.at' (k / d1) (k % d1) = 0) (l : List ℕ) (hl : ∀ x ∈ l, x < d0 * d1)
    (hn : l.Nodup) : ∀ L ∈ lattices d0 d1, expectation (fun L => latSpins L (k / d1) (k % d1))
      (Prog.forEach (flipSite d1 h 0) l L) =
        if k ∈ l then -latSpins L (k / d1) (k % d1) else latSpins L (k / d1) (k % d1) := by
  induction l with
  | nil => intro L hL; simp [Prog.forEach]
  | cons x l ih =>
    intro L hL
    have hx := hl x (by simp)
    obtain ⟨hi, hj⟩ := site_ranges hx
    have ih := ih (fun y hy => hl y (by simp [hy])) (List.nodup_cons.1 hn).2
    have hM := latNeg_mem hL hi hj
    rw [Prog.forEach, expectation_bind]
    unfold flipSite
    rw [expectation_flip]
    by_cases hxk : x = k
    · subst hxk
      rw [hh, latDE_zero, neg_zero, Real.exp_zero, min_self, sub_self, zero_mul, one_mul, add_zero]
      refine (ih _ hM).trans ?_
      rw [if_neg (List.nodup_cons.1 hn).1, if_pos (by simp), spin_latNeg hL hi hj, if_pos ⟨rfl, rfl⟩]
    · have hne : ¬(k / d1 = x / d1 ∧ k % d1 = x % d1) := by
        rintro ⟨h1, h2⟩
        apply hxk
        rw [← Nat.div_add_mod x d1, ← Nat.div_add_mod k d1, h1, h2]
      have e1 := ih _ hM
      have e2 := ih _ hL
      rw [spin_latNeg hL hi hj, if_neg hne] at e1
      unfold flipSite at e1 e2
      rw [e1, e2]
      have : k ∈ x :: l ↔ k ∈ l := by simp [Ne.symm hxk]
      simp only [this]
      ring

theorem no_limit {N : ℕ} (hN : 0 < N) {g : ℕ → ℝ} {c : ℝ} (hc : c ≠ 0)
    (hg : ∀ n, g n = (-1) ^ ((n + (N - 1)) / N) * c) : ¬∃ a, Tendsto g atTop (nhds a) := by
  rintro ⟨a, ha⟩
  have h1 : Tendsto (fun m : ℕ => N * (2 * m)) atTop atTop :=
    tendsto_atTop_mono (fun m => by rw [id]; nlinarith) tendsto_id
  have h2 : Tendsto (fun m : ℕ => N * (2 * m + 1)) atTop atTop :=
    tendsto_atTop_mono (fun m => by rw [id]; nlinarith) tendsto_id
  have hdiv : ∀ m, (N * m + (N - 1)) / N = m := fun m => by
    rw [Nat.mul_add_div hN, Nat.div_eq_of_lt (by omega), add_zero]
  have e1 : Tendsto (fun _ : ℕ => c) atTop (nhds a) := by
    refine (ha.comp h1).congr fun m => ?_
    simp only [Function.comp, hg, hdiv, pow_mul]
    norm_num
  have e2 : Tendsto (fun _ : ℕ => -c) atTop (nhds a) := by
    refine (ha.comp h2).congr fun m => ?_
    simp only [Function.comp, hg, hdiv, pow_succ, pow_mul]
    norm_num
  have f1 := tendsto_nhds_unique e1 tendsto_const_nhds
  have f2 := tendsto_nhds_unique e2 tendsto_const_nhds
  exact hc (by linarith)

/-- C128: if the coupling is 0, sweeps flip a site without field every time, whatever numbers are drawn, so the
simulation approaches no distribution at all. -/
theorem C128_free_site (h0 : 2 ≤ d0) (h1 : 2 ≤ d1) (h : Mat ℝ) {i j : ℕ} (hi : i < d0) (hj : j < d1)
    (hh : h.at' i j = 0) {L : Mat ℤ} (hL : L ∈ lattices d0 d1) :
    (∀ n, expectation (fun L' => ((L'.at' i j : ℤ) : ℝ)) (latIterate d0 d1 (.grid h) 0 n true L) =
      (-1) ^ ((n + (d0 * d1 - 1)) / (d0 * d1)) * ((L.at' i j : ℤ) : ℝ)) ∧
    ¬∃ a, Tendsto (fun n => expectation (fun L' => ((L'.at' i j : ℤ) : ℝ)) (latIterate d0 d1 (.grid h) 0 n true L))
      atTop (nhds a) := by
  have hd : 0 < d0 * d1 := Nat.mul_pos (by omega) (by omega)
  have key : ∀ n, expectation (fun L' => ((L'.at' i j : ℤ) : ℝ)) (latIterate d0 d1 (.grid h) 0 n true L) =
      (-1) ^ ((n + (d0 * d1 - 1)) / (d0 * d1)) * ((L.at' i j : ℤ) : ℝ) := by
    intro n
    rw [C70_iterations d0 d1 hd]
    refine iterate_neg (fun L hL => finDist_sweep h 0 hL) (fun L => latSpins L i j) (fun L hL => ?_) _ hL
    unfold iterSystematic randPerm
    simp only [Prog.bind, expectation_unif]
    have e : ∀ m ∈ Finset.range ((d0 * d1).factorial - 1 + 1),
        expectation (fun L => latSpins L i j) (Prog.forEach (flipSite d1 h 0)
          (List.take (d0 * d1) ((List.range (d0 * d1)).permutations.getD m [])) L) = -latSpins L i j := by
      intro m hm
      have hperm := randPerm_perm (d0 * d1) m (by have := Finset.mem_range.1 hm; omega)
      rw [List.take_of_length_le (by rw [hperm.length_eq, List.length_range])]
      have := sweep_free (k := i * d1 + j) h (by rwa [site_div hj, site_mod hj]) _
        (fun x hx => List.mem_range.1 (hperm.subset hx)) (hperm.nodup_iff.2 List.nodup_range) L hL
      rw [site_div hj, site_mod hj, if_pos (hperm.symm.subset (List.mem_range.2 (site_lt hi hj)))] at this
      exact this
    rw [Finset.sum_congr rfl e, Finset.sum_const, Finset.card_range, nsmul_eq_mul]
    push_cast
    have : (((d0 * d1).factorial - 1 : ℕ) : ℝ) + 1 ≠ 0 := by positivity
    field_simp
  refine ⟨key, no_limit hd ?_ key⟩
  rcases lattice_at hL hi hj with h | h <;> rw [h] <;> norm_num

/-- The product of all spins. -/
noncomputable def spinProd (d0 d1 : ℕ) (L : Mat ℤ) : ℝ := ∏ i ∈ Finset.range d0, ∏ j ∈ Finset.range d1, ((L.at' i j : ℤ) : ℝ)

theorem spinProd_neg {L : Mat ℤ} (hL : L ∈ lattices d0 d1) {i j : ℕ} (hi : i < d0) (hj : j < d1) :
    spinProd d0 d1 (latNeg L i j) = -spinProd d0 d1 L := by
  unfold spinProd
  have e : ∀ a b, (((latNeg L i j).at' a b : ℤ) : ℝ) =
      (if a = i then (if b = j then -1 else 1) else 1) * ((L.at' a b : ℤ) : ℝ) := by
    intro a b
    have := spin_latNeg hL hi hj a b
    unfold latSpins at this
    rw [this]
    by_cases h1 : a = i <;> by_cases h2 : b = j <;> simp [h1, h2]
  simp only [e, Finset.prod_mul_distrib]
  have : ∀ a ∈ Finset.range d0, (∏ b ∈ Finset.range d1, (if a = i then (if b = j then (-1 : ℝ) else 1) else 1)) =
      if a = i then -1 else 1 := by
    intro a _
    by_cases h1 : a = i
    · simp [h1, hj]
    · simp [h1]
  rw [Finset.prod_congr rfl this, Finset.prod_ite_eq' (Finset.range d0) i, if_pos (Finset.mem_range.2 hi)]
  ring

theorem spinProd_ne {L : Mat ℤ} (hL : L ∈ lattices d0 d1) : spinProd d0 d1 L ≠ 0 := by
  refine Finset.prod_ne_zero_iff.2 fun i hi => Finset.prod_ne_zero_iff.2 fun j hj => ?_
  rcases lattice_at hL (Finset.mem_range.1 hi) (Finset.mem_range.1 hj) with h | h <;> rw [h] <;> norm_num

/-- C128: without coupling and fields all flips are accepted, so with random sites the product of all spins depends
only on the number of flips, and the simulation approaches no distribution. -/
theorem C128_free_lattice (h0 : 2 ≤ d0) (h1 : 2 ≤ d1) (h : Mat ℝ) (hh : ∀ i < d0, ∀ j < d1, h.at' i j = 0) {L : Mat ℤ}
    (hL : L ∈ lattices d0 d1) :
    (∀ n, expectation (spinProd d0 d1) (latIterate d0 d1 (.grid h) 0 n false L) =
      (-1) ^ ((n + (d0 * d1 - 1)) / (d0 * d1) * n) * spinProd d0 d1 L) ∧
    ¬∃ a, Tendsto (fun n => expectation (spinProd d0 d1) (latIterate d0 d1 (.grid h) 0 n false L)) atTop (nhds a) := by
  have hd : 0 < d0 * d1 := Nat.mul_pos (by omega) (by omega)
  have key : ∀ n, expectation (spinProd d0 d1) (latIterate d0 d1 (.grid h) 0 n false L) =
      (-1) ^ ((n + (d0 * d1 - 1)) / (d0 * d1) * n) * spinProd d0 d1 L := by
    intro n
    rw [C70_random_count d0 d1 hd]
    refine iterate_neg (step := randomFlip d0 d1 h 0) (fun L hL => finDist_randomFlip h 0 h0 h1 hL) (spinProd d0 d1)
      (fun L hL => ?_) _ hL
    unfold randomFlip
    have hd0 : (d0 : ℝ) ≠ 0 := by have : d0 ≠ 0 := by omega
                                  exact_mod_cast this
    have hd1 : (d1 : ℝ) ≠ 0 := by have : d1 ≠ 0 := by omega
                                  exact_mod_cast this
    have e1 : ∀ i ∈ Finset.range d0, expectation (spinProd d0 d1) ((Prog.randint d1).bind fun j =>
        flipMetropolis i j (h.at' i j) 0 L) = -spinProd d0 d1 L := by
      intro i hi
      have hi := Finset.mem_range.1 hi
      rw [expectation_randint _ d1 (by omega)]
      have e2 : ∀ j ∈ Finset.range d1, expectation (spinProd d0 d1) (flipMetropolis i j (h.at' i j) 0 L) =
          -spinProd d0 d1 L := by
        intro j hj
        have hj := Finset.mem_range.1 hj
        rw [expectation_flip, hh i hi j hj, latDE_zero, neg_zero, Real.exp_zero, min_self, spinProd_neg hL hi hj]
        ring
      rw [Finset.sum_congr rfl e2, Finset.sum_const, Finset.card_range, nsmul_eq_mul]
      field_simp
    rw [expectation_randint _ d0 (by omega), Finset.sum_congr rfl e1, Finset.sum_const, Finset.card_range, nsmul_eq_mul]
    field_simp
  refine ⟨key, ?_⟩
  rintro ⟨a, ha⟩
  obtain ⟨N, hN⟩ : ∃ N, N = d0 * d1 := ⟨_, rfl⟩
  rw [← hN] at key hd
  have g1 : Tendsto (fun m : ℕ => N * (2 * m)) atTop atTop := tendsto_atTop_mono (fun m => by rw [id]; nlinarith) tendsto_id
  have g2 : Tendsto (fun m : ℕ => N * (2 * m) + 1) atTop atTop := tendsto_atTop_mono (fun m => by rw [id]; nlinarith) tendsto_id
  have e1 : Tendsto (fun _ : ℕ => spinProd d0 d1 L) atTop (nhds a) := by
    refine (ha.comp g1).congr fun m => ?_
    simp only [Function.comp, key]
    rw [Nat.mul_add_div hd, Nat.div_eq_of_lt (by omega), add_zero, mul_assoc, pow_mul]
    norm_num
  have e2 : Tendsto (fun _ : ℕ => -spinProd d0 d1 L) atTop (nhds a) := by
    refine (ha.comp g2).congr fun m => ?_
    simp only [Function.comp, key]
    rw [show N * (2 * m) + 1 + (N - 1) = N * (2 * m) + N by omega, Nat.mul_add_div hd, Nat.div_self hd]
    have hodd : Odd ((2 * m + 1) * (N * (2 * m) + 1)) :=
      Odd.mul ⟨m, rfl⟩ ⟨N * m, by ring⟩
    rw [hodd.neg_one_pow]
    ring
  have f1 := tendsto_nhds_unique e1 tendsto_const_nhds
  have f2 := tendsto_nhds_unique e2 tendsto_const_nhds
  exact spinProd_ne hL (by linarith)

end

/-! ### When the simulation approaches a distribution -/

/-- C128, what holds of sweeps (missing: the sign of the field, see `C128_right_iff`): on a lattice with at least two
rows and columns, the simulation approaches the Boltzmann distribution of the model *with the fields reversed* from
every first lattice if the coupling is not 0 or no field is 0, and only then. -/
theorem C128_sweeps_partial (d0 d1 : ℕ) (h0 : 2 ≤ d0) (h1 : 2 ≤ d1) (h : Mat ℝ) (J : ℝ) :
    Approaches d0 d1 h J true (reversedE d0 d1 h J) ↔ (J ≠ 0 ∨ ∀ i < d0, ∀ j < d1, h.at' i j ≠ 0) := by
  have hd : 0 < d0 * d1 := Nat.mul_pos (by omega) (by omega)
  constructor
  · intro ha
    by_contra hcon
    push Not at hcon
    obtain ⟨rfl, i, hi, j, hj, hh⟩ := hcon
    obtain ⟨L, hL⟩ := List.exists_mem_of_ne_nil _ (lattices_ne_nil (d0 := d0) (d1 := d1))
    exact (C128_free_site h0 h1 h hi hj hh hL).2 ⟨_, ha _ L hL⟩
  · intro hp
    exact approaches_of (ergodic_sweep h J h0 h1 hp) _ (tendsto_rounds _ hd) fun n L => C70_iterations d0 d1 hd h J n L

/-- C128, what holds of flips at random sites (missing: the sign of the field): the simulation approaches the
Boltzmann distribution of the model *with the fields reversed* if the coupling or some field is not 0, and only
then. -/
theorem C128_random_partial (d0 d1 : ℕ) (h0 : 2 ≤ d0) (h1 : 2 ≤ d1) (h : Mat ℝ) (J : ℝ) :
    Approaches d0 d1 h J false (reversedE d0 d1 h J) ↔ (J ≠ 0 ∨ ∃ i < d0, ∃ j < d1, h.at' i j ≠ 0) := by
  have hd : 0 < d0 * d1 := Nat.mul_pos (by omega) (by omega)
  constructor
  · intro ha
    by_contra hcon
    push Not at hcon
    obtain ⟨rfl, hh⟩ := hcon
    obtain ⟨L, hL⟩ := List.exists_mem_of_ne_nil _ (lattices_ne_nil (d0 := d0) (d1 := d1))
    exact (C128_free_lattice h0 h1 h hh hL).2 ⟨_, ha _ L hL⟩
  · intro hp
    refine approaches_of (ergodic_randomFlip h J h0 h1 hp) _ ?_ fun n L => C70_random_count d0 d1 hd h J n L
    refine tendsto_atTop_mono (fun n => ?_) tendsto_id
    rcases Nat.eq_zero_or_pos n with rfl | hn
    · exact Nat.zero_le _
    · have : 1 ≤ (n + (d0 * d1 - 1)) / (d0 * d1) := by
        rw [Nat.le_div_iff_mul_le hd]; omega
      exact Nat.le_mul_of_pos_left n this

/-! ### The documented model -/

theorem expect_point {α : Type} [DecidableEq α] {S : List α} (hS : S.Nodup) (E : α → ℝ) {s : α} (hs : s ∈ S) :
    expect S E (pointFn s) = boltzmann S E s := by
  unfold expect
  have : ∀ l : List α, l.Nodup → (l.map fun t => boltzmann S E t * pointFn s t).sum = if s ∈ l then boltzmann S E s else 0 := by
    intro l hl
    induction l with
    | nil => simp
    | cons a l ih =>
      rw [List.map_cons, List.sum_cons, ih (List.nodup_cons.1 hl).2]
      by_cases h : a = s
      · subst h
        rw [pointFn_self, if_neg (List.nodup_cons.1 hl).1, if_pos (by simp)]
        ring
      · have e : pointFn s a = 0 := if_neg h
        rw [e]
        have : s ∈ a :: l ↔ s ∈ l := by simp [Ne.symm h]
        simp only [this]
        ring
  rw [this S hS, if_pos hs]

/-- If the fields may be reversed, they are 0. -/
theorem fields_zero (d0 d1 : ℕ) (h : Mat ℝ) (J : ℝ)
    (he : ∀ f : Mat ℤ → ℝ, expect (lattices d0 d1) (fieldE d0 d1 h J) f = expect (lattices d0 d1) (reversedE d0 d1 h J) f) :
    ∀ i < d0, ∀ j < d1, h.at' i j = 0 := by
  obtain ⟨F, hF⟩ : ∃ F : Mat ℤ → ℝ, F = fun L => ∑ i ∈ Finset.range d0, ∑ j ∈ Finset.range d1,
    h.at' i j * ((L.at' i j : ℤ) : ℝ) := ⟨_, rfl⟩
  have hdiff : ∀ L, reversedE d0 d1 h J L - fieldE d0 d1 h J L = 2 * F L := by
    intro L
    unfold reversedE fieldE latticeE
    rw [hF]
    simp only [neg_mul, Finset.sum_neg_distrib]
    ring
  have hconst : ∀ L ∈ lattices d0 d1, 2 * F L = Real.log (partition (lattices d0 d1) (fieldE d0 d1 h J)) -
      Real.log (partition (lattices d0 d1) (reversedE d0 d1 h J)) := by
    intro L hL
    have := he (pointFn L)
    rw [expect_point (nodup_lattices d0 d1) _ hL, expect_point (nodup_lattices d0 d1) _ hL] at this
    have hlog := congrArg Real.log this
    unfold boltzmann at hlog
    have z1 := partition_pos (lattices d0 d1) (fieldE d0 d1 h J) lattices_ne_nil
    have z2 := partition_pos (lattices d0 d1) (reversedE d0 d1 h J) lattices_ne_nil
    rw [Real.log_div (Real.exp_pos _).ne' z1.ne', Real.log_div (Real.exp_pos _).ne' z2.ne', Real.log_exp, Real.log_exp] at hlog
    have := hdiff L
    linarith
  obtain ⟨L, hLdef⟩ : ∃ L : Mat ℤ, L = open Classical in Mat.build d0 d1 fun i j => if 0 ≤ h.at' i j then 1 else -1 := ⟨_, rfl⟩
  have hL : L ∈ lattices d0 d1 := by
    refine mem_lattices.2 ⟨by rw [hLdef]; exact Mat.build_shape _ _ _, fun row hr x hx => ?_⟩
    rw [hLdef] at hr
    unfold Mat.build at hr
    obtain ⟨a, ha, rfl⟩ := List.mem_map.1 hr
    obtain ⟨b, hb, rfl⟩ := List.mem_map.1 hx
    dsimp only
    split <;> simp
  have hneg : F (negOn d0 d1 (fun _ => true) L) = -F L := by
    rw [hF]
    dsimp only
    rw [← Finset.sum_neg_distrib]
    refine Finset.sum_congr rfl fun i hi => ?_
    rw [← Finset.sum_neg_distrib]
    refine Finset.sum_congr rfl fun j hj => ?_
    rw [negOn_at _ _ (Finset.mem_range.1 hi) (Finset.mem_range.1 hj), if_pos rfl]
    push_cast
    ring
  have hzero : F L = 0 := by
    have e1 := hconst L hL
    have e2 := hconst _ (negOn_mem (fun _ => true) hL)
    rw [hneg] at e2
    linarith
  have habs : F L = ∑ i ∈ Finset.range d0, ∑ j ∈ Finset.range d1, |h.at' i j| := by
    rw [hF]
    refine Finset.sum_congr rfl fun i hi => Finset.sum_congr rfl fun j hj => ?_
    rw [hLdef, Mat.at_build _ (Finset.mem_range.1 hi) (Finset.mem_range.1 hj)]
    split
    · rename_i hp; rw [abs_of_nonneg hp]; simp
    · rename_i hp; rw [abs_of_neg (not_le.1 hp)]; simp
  rw [habs] at hzero
  intro i hi j hj
  have e1 := (Finset.sum_eq_zero_iff_of_nonneg fun i _ => Finset.sum_nonneg fun j _ => abs_nonneg _).1 hzero i
    (Finset.mem_range.2 hi)
  exact abs_eq_zero.1 ((Finset.sum_eq_zero_iff_of_nonneg fun j _ => abs_nonneg _).1 e1 j (Finset.mem_range.2 hj))

/-- C128: the simulation, with sweeps or with flips at random sites, approaches the Boltzmann distribution of the
documented model from every first lattice exactly if the coupling is not 0 and all fields are 0. -/
theorem C128_right_iff (d0 d1 : ℕ) (h0 : 2 ≤ d0) (h1 : 2 ≤ d1) (h : Mat ℝ) (J : ℝ) (systematic : Bool) :
    Approaches d0 d1 h J systematic (fieldE d0 d1 h J) ↔ (J ≠ 0 ∧ ∀ i < d0, ∀ j < d1, h.at' i j = 0) := by
  obtain ⟨L, hL⟩ := List.exists_mem_of_ne_nil _ (lattices_ne_nil (d0 := d0) (d1 := d1))
  constructor
  · intro ha
    have hrev : Approaches d0 d1 h J systematic (reversedE d0 d1 h J) := by
      cases systematic
      · rw [C128_random_partial d0 d1 h0 h1]
        by_contra hcon
        push Not at hcon
        obtain ⟨rfl, hh⟩ := hcon
        exact (C128_free_lattice h0 h1 h hh hL).2 ⟨_, ha _ L hL⟩
      · rw [C128_sweeps_partial d0 d1 h0 h1]
        by_contra hcon
        push Not at hcon
        obtain ⟨rfl, i, hi, j, hj, hh⟩ := hcon
        exact (C128_free_site h0 h1 h hi hj hh hL).2 ⟨_, ha _ L hL⟩
    have hz := fields_zero d0 d1 h J fun f => tendsto_nhds_unique (ha f L hL) (hrev f L hL)
    refine ⟨?_, hz⟩
    cases systematic
    · rcases (C128_random_partial d0 d1 h0 h1 h J).1 hrev with hJ | ⟨i, hi, j, hj, hne⟩
      · exact hJ
      · exact absurd (hz i hi j hj) hne
    · rcases (C128_sweeps_partial d0 d1 h0 h1 h J).1 hrev with hJ | hne
      · exact hJ
      · exact absurd (hz 0 (by omega) 0 (by omega)) (hne 0 (by omega) 0 (by omega))
  · rintro ⟨hJ, hz⟩
    have e : fieldE d0 d1 h J = reversedE d0 d1 h J := by
      funext L
      unfold fieldE reversedE latticeE
      congr 1
      refine Finset.sum_congr rfl fun i hi => Finset.sum_congr rfl fun j hj => ?_
      dsimp only
      rw [hz i (Finset.mem_range.1 hi) j (Finset.mem_range.1 hj), neg_zero]
    rw [e]
    cases systematic
    · exact (C128_random_partial d0 d1 h0 h1 h J).2 (.inl hJ)
    · exact (C128_sweeps_partial d0 d1 h0 h1 h J).2 (.inl hJ)

theorem finDist_latInit (d0 d1 : ℕ) : FinDist (latInit d0 d1) (· ∈ lattices d0 d1) := by
  refine finDist_mono (fun rows hr => ?_) (finDist_mapEach (Q := fun _ row => row ∈ words [1, -1] d1) _ fun _ _ =>
    finDist_mono (fun row hr => ?_) (finDist_mapEach (Q := fun _ x => x ∈ ([1, -1] : List ℤ)) _ fun _ _ => ?_))
  · refine mem_words.2 ⟨by simpa using hr.length_eq.symm, fun x hx => ?_⟩
    obtain ⟨i, hi, rfl⟩ := List.getElem_of_mem hx
    exact (List.forall₂_iff_get.1 hr).2 i (by rw [hr.length_eq]; exact hi) hi
  · refine mem_words.2 ⟨by simpa using hr.length_eq.symm, fun x hx => ?_⟩
    obtain ⟨i, hi, rfl⟩ := List.getElem_of_mem hx
    exact (List.forall₂_iff_get.1 hr).2 i (by rw [hr.length_eq]; exact hi) hi
  · have e : (Prog.rand fun u => .ret (if u < 1 / 2 then (1 : ℤ) else -1)) =
        Prog.rand fun u => if u < 1 / 2 then .ret 1 else .ret (-1) := by
      congr 1
      funext u
      split <;> rfl
    rw [e]
    exact finDist_rand _ measurableSet_Iio (finDist_ret (by simp)) (finDist_ret (by simp))

/-- C70: the lattice of a new object is drawn uniformly: every lattice of spins 1 and -1 is equally likely. -/
theorem C70_init_uniform (d0 d1 : ℕ) (f : Mat ℤ → ℝ) :
    expectation f (latInit d0 d1) = ((lattices d0 d1).map f).sum / (2 : ℝ) ^ (d0 * d1) := by
  have h1 : ∀ g : ℤ → ℝ, expectation g (Prog.rand fun u => .ret (if u < 1 / 2 then (1 : ℤ) else -1)) =
      (([1, -1] : List ℤ).map g).sum / (([1, -1] : List ℤ).length : ℝ) := by
    intro g
    have e : (Prog.rand fun u => .ret (if u < 1 / 2 then (1 : ℤ) else -1)) =
        Prog.rand fun u => if u < 1 / 2 then .ret 1 else .ret (-1) := by
      congr 1
      funext u
      split <;> rfl
    rw [e, expectation_rand_lt _ _ _ _ (by norm_num), min_eq_right (by norm_num), expectation_ret, expectation_ret]
    simp only [List.map_cons, List.map_nil, List.sum_cons, List.sum_nil, List.length_cons, List.length_nil]
    push_cast
    ring
  have h2 := fun g => expectation_words _ _ h1 (List.range d1) g
  have h3 := expectation_words (ι := ℕ) _ (words [1, -1] d1) (fun g => by
    rw [h2 g, length_words]
    simp) (List.range d0) f
  rw [latInit, h3, length_words, lattices]
  simp [← pow_mul, mul_comm]

example : (lattices 2 3).length = 2 ^ (2 * 3) := by decide

/-- C128: an object made by `Ising2D(dim, J)`, without fields and with a coupling other than 0, simulated for many
iterations, approaches the Boltzmann distribution of its model. -/
theorem C128_default (d0 d1 : ℕ) (h0 : 2 ≤ d0) (h1 : 2 ≤ d1) (J : ℝ) (hJ : J ≠ 0) (systematic : Bool)
    (f : Mat ℤ → ℝ) : ∃ h, latFieldInit d0 d1 (.int 0) = .ok h ∧
      Tendsto (fun n => expectation f ((latInit d0 d1).bind fun L => latIterate d0 d1 h J n systematic L)) atTop
        (nhds (expect (lattices d0 d1) (fun L : Mat ℤ => latticeE d0 d1 J (fun _ _ => 0) fun i j => ((L.at' i j : ℤ) : ℝ)) f)) := by
  refine ⟨_, (C70_constant_field d0 d1 0).2, ?_⟩
  obtain ⟨h, hh⟩ : ∃ h : Mat ℝ, h = Mat.build d0 d1 fun _ _ => 0 := ⟨_, rfl⟩
  have hz : ∀ i < d0, ∀ j < d1, h.at' i j = 0 := fun i hi j hj => by rw [hh, Mat.at_build _ hi hj]
  have ha := (C128_right_iff d0 d1 h0 h1 h J systematic).2 ⟨hJ, hz⟩
  have e : (fun L : Mat ℤ => latticeE d0 d1 J (fun _ _ => 0) fun i j => ((L.at' i j : ℤ) : ℝ)) = fieldE d0 d1 h J := by
    funext L
    unfold fieldE latticeE
    congr 1
    refine Finset.sum_congr rfl fun i hi => Finset.sum_congr rfl fun j hj => ?_
    dsimp only
    rw [hz i (Finset.mem_range.1 hi) j (Finset.mem_range.1 hj)]
  rw [← hh, e]
  obtain ⟨ws, w1, w2, w3⟩ := finDist_latInit d0 d1
  simp only [expectation_bind, w3]
  have : expect (lattices d0 d1) (fieldE d0 d1 h J) f =
      (ws.map fun x => x.1 * expect (lattices d0 d1) (fieldE d0 d1 h J) f).sum := by
    rw [List.sum_map_mul_right]
    change _ = (ws.map Prod.fst).sum * _
    rw [w2, one_mul]
  rw [this]
  exact tendsto_list_sum ws fun x hx => (ha f x.2 (w1 x hx).2).const_mul x.1

/-- A lattice, a coupling and fields for which the conditions hold, and some for which they do not. -/
example : Approaches 2 3 [[0, 0, 0], [0, 0, 0]] (-1) true (fieldE 2 3 [[0, 0, 0], [0, 0, 0]] (-1)) :=
  (C128_right_iff 2 3 (by norm_num) (by norm_num) _ _ _).2 ⟨by norm_num, by
    intro i hi j hj
    interval_cases i <;> interval_cases j <;> simp [Mat.at']⟩

example : ¬Approaches 2 2 [[1, 1], [1, 1]] 1 true (fieldE 2 2 [[1, 1], [1, 1]] 1) := fun h =>
  absurd (((C128_right_iff 2 2 le_rfl le_rfl _ _ _).1 h).2 0 (by norm_num) 0 (by norm_num)) (by simp [Mat.at'])

end Verif.Props
