/-
C70, C71: the lattice automaton of coniii/ising/automaton.py.
-/
import Verif.Lemmas.Lattice

namespace Verif.Props
open Verif Verif.Model Verif.Spec Verif.Lemmas Prog

/-! ### C70 -/

theorem expectation_flip (i j : ℕ) (h J : ℝ) (L : Mat ℤ) (f : Mat ℤ → ℝ) :
    expectation f (flipMetropolis i j h J L) = min 1 (Real.exp (-latDE i j h J L)) * f (latNeg L i j) +
      (1 - min 1 (Real.exp (-latDE i j h J L))) * f L := by
  unfold flipMetropolis
  split
  · rename_i hle
    have h1 : 1 ≤ Real.exp (-latDE i j h J L) := Real.one_le_exp (by linarith)
    rw [min_eq_left h1, expectation_ret]
    ring
  · rw [expectation_rand_lt _ _ _ _ (Real.exp_pos _).le]
    rfl

theorem returns_flip {d0 d1 : ℕ} {L : Mat ℤ} (hL : L ∈ lattices d0 d1) {i j : ℕ} (hi : i < d0) (hj : j < d1) (h J : ℝ) :
    Returns (flipMetropolis i j h J L) fun L' => L' ∈ lattices d0 d1 := by
  unfold flipMetropolis
  split
  · exact returns_ret (latNeg_mem hL hi hj)
  · intro u _ _
    dsimp only
    split
    · exact ⟨_, rfl, latNeg_mem hL hi hj⟩
    · exact ⟨_, rfl, hL⟩

theorem nodup_lattices (d0 d1 : ℕ) : (lattices d0 d1).Nodup := nodup_words (nodup_words (by decide) d1) d0

/-- C70, what holds of the energies (missing: the field has the opposite sign, see `C70_field_wrong`): on a lattice
with at least two rows and columns the flip of site `(i, j)` is accepted with probability `min(1, exp(-dE))` for the
energy of the periodic nearest-neighbour model *with the fields reversed*; otherwise the lattice stays as it is. -/
theorem C70_flip_partial (d0 d1 : ℕ) (h0 : 2 ≤ d0) (h1 : 2 ≤ d1) (L : Mat ℤ) (hL : L ∈ lattices d0 d1) (i j : ℕ)
    (hi : i < d0) (hj : j < d1) (h : ℕ → ℕ → ℝ) (J : ℝ) (L' : Mat ℤ) (hL' : L'.HasShape d0 d1)
    (hflip : ∀ a < d0, ∀ b < d1, L'.at' a b = if a = i ∧ b = j then -L.at' a b else L.at' a b) :
    prob (flipMetropolis i j (h i j) J L) (fun r => r = L') =
        min 1 (Real.exp (-(latticeE d0 d1 J (fun i j => -h i j) (latSpins L') -
          latticeE d0 d1 J (fun i j => -h i j) (latSpins L)))) ∧
      prob (flipMetropolis i j (h i j) J L) (fun r => r = L) =
        1 - min 1 (Real.exp (-(latticeE d0 d1 J (fun i j => -h i j) (latSpins L') -
          latticeE d0 d1 J (fun i j => -h i j) (latSpins L)))) := by
  have hs := (mem_lattices.1 hL).1
  have e : L' = latNeg L i j := Mat.ext' hL' (latNeg_shape hs hi j) fun a ha b hb => by
    rw [hflip a ha b hb, latNeg_at hs hi hj]
  subst e
  have hne : latNeg L i j ≠ L := by
    intro h
    have h2 := congrArg (fun M : Mat ℤ => M.at' i j) h
    simp only [latNeg_at hs hi hj, and_self, if_true] at h2
    rcases lattice_at hL hi hj with h3 | h3 <;> omega
  unfold prob
  rw [expectation_flip, expectation_flip, latDE_eq h0 h1 hL hi hj h J]
  dsimp only
  rw [if_pos rfl, if_neg (Ne.symm hne), if_neg hne, if_pos rfl]
  constructor <;> ring

/-- The distribution kept by the flips. -/
theorem keepsG_flip (d0 d1 : ℕ) (h0 : 2 ≤ d0) (h1 : 2 ≤ d1) (i j : ℕ) (hi : i < d0) (hj : j < d1) (h : ℕ → ℕ → ℝ) (J : ℝ) :
    KeepsG (lattices d0 d1) (boltzmann (lattices d0 d1) fun L => latticeE d0 d1 J (fun i j => -h i j) (latSpins L))
      (flipMetropolis i j (h i j) J) := by
  refine keepsG_accept (nodup_lattices d0 d1) (a := fun L => min 1 (Real.exp (-latDE i j (h i j) J L)))
    (fun L => latNeg L i j) (fun L hL => latNeg_mem hL hi hj)
    (fun L hL => latNeg_latNeg (mem_lattices.1 hL).1 hi hj) (fun L hL => ?_)
    fun L _ f => expectation_flip i j (h i j) J L f
  rw [latDE_eq h0 h1 hL hi hj, latDE_eq h0 h1 (latNeg_mem hL hi hj) hi hj,
    latNeg_latNeg (mem_lattices.1 hL).1 hi hj]
  exact boltzmann_balance _ (fun L => latticeE d0 d1 J (fun i j => -h i j) (latSpins L)) L (latNeg L i j)

theorem keepsG_unif {α : Type} {S : List α} {w : α → ℝ} (n : ℕ) {k : ℕ → α → Prog α} (h : ∀ i ≤ n, KeepsG S w (k i)) :
    KeepsG S w fun s => .unif n fun i => k i s := by
  intro f
  simp only [expectation_unif, ← mul_div_assoc, Finset.mul_sum]
  rw [list_sum_div, list_sum_finset_comm, Finset.sum_congr rfl fun i hi => h i (by
    have := Finset.mem_range.1 hi; omega) f, Finset.sum_const, Finset.card_range, nsmul_eq_mul]
  push_cast
  have : (n : ℝ) + 1 ≠ 0 := by positivity
  field_simp

theorem randPerm_perm (N k : ℕ) (hk : k ≤ N.factorial - 1) :
    ((List.range N).permutations.getD k []).Perm (List.range N) := by
  have hlen : (List.range N).permutations.length = N.factorial := by rw [List.length_permutations, List.length_range]
  have hpos := Nat.factorial_pos N
  rw [List.getD_eq_getElem _ _ (by omega)]
  exact List.mem_permutations.1 (List.getElem_mem _)

/-- The sites of a `d0 × d1` lattice. -/
def sites (d0 d1 : ℕ) : List (ℕ × ℕ) := (List.range d0).flatMap fun i => (List.range d1).map fun j => (i, j)

theorem sites_eq (d0 d1 : ℕ) : (List.range (d0 * d1)).map (fun k => (k / d1, k % d1)) = sites d0 d1 := by
  induction d0 with
  | zero => simp [sites]
  | succ d0 ih =>
    unfold sites at ih ⊢
    rw [List.range_succ, List.flatMap_append, ← ih, show (d0 + 1) * d1 = d0 * d1 + d1 by ring, List.range_add,
      List.map_append, List.map_map]
    congr 1
    simp only [List.flatMap_cons, List.flatMap_nil, List.append_nil]
    refine List.map_congr_left fun j hj => ?_
    have hj := List.mem_range.1 hj
    simp only [Function.comp]
    rw [show d0 * d1 + j = j + d1 * d0 by ring, Nat.add_mul_div_left _ _ (by omega), Nat.div_eq_of_lt hj,
      Nat.add_mul_mod_self_left, Nat.mod_eq_of_lt hj, zero_add]

theorem forEach_map {ι κ σ : Type} (g : κ → ι) (body : ι → σ → Prog σ) (l : List κ) (s : σ) :
    Prog.forEach body (l.map g) s = Prog.forEach (fun k => body (g k)) l s := by
  induction l generalizing s with
  | nil => rfl
  | cons a l ih =>
    simp only [List.map_cons, Prog.forEach]
    congr 1
    funext s'
    exact ih s'

/-- C70: one systematic iteration is a sequence of flips, one at every site, in random order. -/
theorem C70_sweep (d0 d1 : ℕ) (h : Mat ℝ) (J : ℝ) :
    ∃ order : Prog (List (ℕ × ℕ)), (Returns order fun l => l.Perm (sites d0 d1)) ∧ ∀ L,
      iterSystematic d0 d1 h J L = order.bind fun l =>
        Prog.forEach (fun p L => flipMetropolis p.1 p.2 (h.at' p.1 p.2) J L) l L := by
  refine ⟨(randPerm (d0 * d1)).bind fun ix => .ret (ix.map fun k => (k / d1, k % d1)), fun k hk => ?_, fun L => ?_⟩
  · refine ⟨_, rfl, ?_⟩
    rw [← sites_eq]
    exact (randPerm_perm _ k hk).map _
  · unfold iterSystematic randPerm
    simp only [Prog.bind, forEach_map]
    congr 1
    funext k
    congr 1
    rcases Nat.lt_or_ge k (d0 * d1).factorial with hk | hk
    · have := (randPerm_perm (d0 * d1) k (by omega)).length_eq
      rw [List.take_of_length_le (by rw [this, List.length_range])]
    · rw [List.getD_eq_default _ _ (by rw [List.length_permutations, List.length_range]; exact hk)]
      simp

/-- A loop whose body does not depend on the index. -/
theorem forEach_const {ι κ σ : Type} (step : σ → Prog σ) : ∀ (l : List ι) (l' : List κ) (s : σ), l.length = l'.length →
    Prog.forEach (fun _ => step) l s = Prog.forEach (fun _ => step) l' s := by
  intro l
  induction l with
  | nil => intro l' s h; match l', h with | [], _ => rfl
  | cons a l ih =>
    intro l' s h
    match l', h with
    | b :: l', h =>
      simp only [Prog.forEach]
      congr 1
      funext s'
      exact ih l' s' (by simpa using h)

theorem forEach_append' {ι σ : Type} (body : ι → σ → Prog σ) (l l' : List ι) (s : σ) :
    Prog.forEach body (l ++ l') s = (Prog.forEach body l s).bind (Prog.forEach body l') := by
  induction l generalizing s with
  | nil => rfl
  | cons a l ih =>
    simp only [List.cons_append, Prog.forEach, bind_assoc]
    congr 1
    funext s'
    exact ih s'

theorem forEach_mul {σ : Type} (step : σ → Prog σ) (m k : ℕ) (s : σ) :
    Prog.forEach (fun (_ : ℕ) => Prog.forEach (fun (_ : ℕ) => step) (List.range k)) (List.range m) s =
      Prog.forEach (fun (_ : ℕ) => step) (List.range (m * k)) s := by
  induction m generalizing s with
  | zero => simp [Prog.forEach]
  | succ m ih =>
    rw [List.range_succ, forEach_append', show (m + 1) * k = m * k + k by ring, List.range_add, forEach_append', ih]
    congr 1
    funext s'
    simp only [Prog.forEach]
    have e : ∀ p : Prog σ, p.bind .ret = p := by
      intro p
      induction p with
      | ret a => rfl
      | fail e => rfl
      | unif n k ih => simp only [Prog.bind, ih]
      | rand k ih => simp only [Prog.bind, ih]
    exact (e _).trans (forEach_const step _ _ _ (by simp))

/-- The while loop makes as many rounds as needed to reach `n_iters` in steps of the number of sites. -/
theorem iterLoop_eq (single : Mat ℤ → Prog (Mat ℤ)) (N nIters : ℕ) (hN : 0 < N) : ∀ (fuel counter : ℕ) (L : Mat ℤ),
    nIters ≤ counter + fuel → iterLoop single N nIters fuel counter L =
      Prog.forEach (fun (_ : ℕ) => single) (List.range ((nIters - counter + (N - 1)) / N)) L := by
  intro fuel
  induction fuel with
  | zero =>
    intro counter L h
    rw [iterLoop, if_neg (by omega), show nIters - counter + (N - 1) = N - 1 by omega, Nat.div_eq_of_lt (by omega)]
    rfl
  | succ fuel ih =>
    intro counter L h
    rw [iterLoop]
    split
    · rename_i hlt
      have e : (nIters - counter + (N - 1)) / N = (nIters - (counter + N) + (N - 1)) / N + 1 := by
        rcases Nat.lt_or_ge (counter + N) nIters with h1 | h1
        · rw [show nIters - counter + (N - 1) = nIters - (counter + N) + (N - 1) + N by omega,
            Nat.add_div_right _ hN]
        · rw [show nIters - (counter + N) + (N - 1) = N - 1 by omega, Nat.div_eq_of_lt (by omega : N - 1 < N)]
          have h2 : nIters - counter + (N - 1) = (nIters - counter - 1) + N := by omega
          rw [h2, Nat.add_div_right _ hN, Nat.div_eq_of_lt (by omega)]
      rw [e, List.range_succ_eq_map]
      simp only [Prog.forEach]
      congr 1
      funext L'
      rw [ih (counter + N) L' (by omega)]
      exact forEach_const single _ _ _ (by simp)
    · rw [show nIters - counter + (N - 1) = N - 1 by omega, Nat.div_eq_of_lt (by omega)]
      rfl

/-- C70: `iterate(n_iters)` makes `ceil(n_iters/N)` systematic iterations (`N` is the number of sites). -/
theorem C70_iterations (d0 d1 : ℕ) (hd : 0 < d0 * d1) (h : Mat ℝ) (J : ℝ) (nIters : ℕ) (L : Mat ℤ) :
    latIterate d0 d1 (.grid h) J nIters true L =
      Prog.forEach (fun (_ : ℕ) => iterSystematic d0 d1 h J) (List.range ((nIters + (d0 * d1 - 1)) / (d0 * d1))) L := by
  unfold latIterate
  simp only [if_true]
  rw [iterLoop_eq _ _ _ hd _ _ _ (by omega), Nat.sub_zero]

/-- C70: with `systematic=False` the number of flips is `n_iters * ceil(n_iters/N)`, not `n_iters`. -/
theorem C70_random_count (d0 d1 : ℕ) (hd : 0 < d0 * d1) (h : Mat ℝ) (J : ℝ) (nIters : ℕ) (L : Mat ℤ) :
    latIterate d0 d1 (.grid h) J nIters false L =
      Prog.forEach (fun (_ : ℕ) L => (Prog.randint d0).bind fun i => (Prog.randint d1).bind fun j =>
        flipMetropolis i j (h.at' i j) J L) (List.range ((nIters + (d0 * d1 - 1)) / (d0 * d1) * nIters)) L := by
  unfold latIterate
  simp only [Bool.false_eq_true, if_false]
  rw [iterLoop_eq _ _ _ hd _ _ _ (by omega), Nat.sub_zero]
  exact forEach_mul _ _ _ _

/-- C70: on a lattice without sites `iterate` does not end. -/
theorem C70_empty (d0 d1 : ℕ) (hd : d0 * d1 = 0) (h : Mat ℝ) (J : ℝ) (nIters : ℕ) (hn : 0 < nIters) (L : Mat ℤ) :
    Always (fun r => r = .error .diverge) (latIterate d0 d1 (.grid h) J nIters true L) := by
  have key : ∀ fuel, Always (fun r => r = .error .diverge)
      (iterLoop (iterSystematic d0 d1 h J) (d0 * d1) nIters fuel 0 L) := by
    intro fuel
    induction fuel with
    | zero => rw [iterLoop, if_pos hn]; rfl
    | succ fuel ih =>
      rw [iterLoop, if_pos hn]
      have e : iterSystematic d0 d1 h J L = .unif (Nat.factorial 0 - 1) fun _ => .ret L := by
        unfold iterSystematic randPerm
        simp only [hd, List.take_zero, Prog.forEach, Prog.bind]
      rw [e]
      intro k hk
      rw [hd] at ih ⊢
      exact ih
  unfold latIterate
  simp only [if_true]
  exact key nIters

/-- C70: whatever numbers are drawn, the lattice stays a lattice of 1 and -1 of the same shape. -/
theorem C70_lattice (d0 d1 : ℕ) (hd : 0 < d0 * d1) (h : Mat ℝ) (J : ℝ) (nIters : ℕ) (systematic : Bool) (L : Mat ℤ)
    (hL : L ∈ lattices d0 d1) :
    Returns (latIterate d0 d1 (.grid h) J nIters systematic L) fun L' => L' ∈ lattices d0 d1 := by
  have hd0 : 0 < d0 := Nat.pos_of_ne_zero fun h => by simp [h] at hd
  have hd1 : 0 < d1 := Nat.pos_of_ne_zero fun h => by simp [h] at hd
  cases systematic
  · rw [C70_random_count d0 d1 hd]
    refine returns_forEach (I := fun L => L ∈ lattices d0 d1) _ (fun _ _ L hL => ?_) L hL
    exact returns_randint d0 hd0 _ fun i hi => returns_randint d1 hd1 _ fun j hj => returns_flip hL hi hj _ _
  · rw [C70_iterations d0 d1 hd]
    refine returns_forEach (I := fun L => L ∈ lattices d0 d1) _ (fun _ _ L hL => ?_) L hL
    obtain ⟨order, ho, he⟩ := C70_sweep d0 d1 h J
    rw [he]
    refine returns_bind ho fun l hl => returns_forEach (I := fun L => L ∈ lattices d0 d1) _ (fun p hp L hL => ?_) L hL
    have hp' : p ∈ sites d0 d1 := hl.subset hp
    unfold sites at hp'
    obtain ⟨i, hi, hp'⟩ := List.mem_flatMap.1 hp'
    obtain ⟨j, hj, rfl⟩ := List.mem_map.1 hp'
    exact returns_flip hL (List.mem_range.1 hi) (List.mem_range.1 hj) _ _

theorem keepsG_average {α : Type} {S : List α} {w : α → ℝ} {n : ℕ} (hn : 0 < n) {body : ℕ → α → Prog α}
    (h : ∀ i < n, KeepsG S w (body i)) : KeepsG S w fun s => (Prog.randint n).bind fun i => body i s := by
  obtain ⟨m, rfl⟩ := Nat.exists_eq_add_of_lt hn
  rw [zero_add] at h ⊢
  exact keepsG_unif m fun i hi => h i (by omega)

/-- C70, what holds (missing: the sign of the field): on a lattice with at least two rows and columns, `iterate`,
systematic or not, keeps the Boltzmann distribution of the periodic nearest-neighbour model *with the fields
reversed*. -/
theorem C70_invariant_partial (d0 d1 : ℕ) (h0 : 2 ≤ d0) (h1 : 2 ≤ d1) (h : Mat ℝ) (J : ℝ) (nIters : ℕ)
    (systematic : Bool) (f : Mat ℤ → ℝ) :
    expect (lattices d0 d1) (fun L => latticeE d0 d1 J (fun i j => -h.at' i j) (latSpins L))
        (fun L => expectation f (latIterate d0 d1 (.grid h) J nIters systematic L)) =
      expect (lattices d0 d1) (fun L => latticeE d0 d1 J (fun i j => -h.at' i j) (latSpins L)) f := by
  have hd : 0 < d0 * d1 := Nat.mul_pos (by omega) (by omega)
  have hflip := fun i j hi hj => keepsG_flip d0 d1 h0 h1 i j hi hj h.at' J
  cases systematic
  · simp only [C70_random_count d0 d1 hd]
    refine keepsG_forEach _ (fun _ _ => ?_) f
    exact keepsG_average (by omega) fun i hi => keepsG_average (by omega) fun j hj => hflip i j hi hj
  · simp only [C70_iterations d0 d1 hd]
    refine keepsG_forEach _ (fun _ _ => ?_) f
    unfold iterSystematic randPerm
    refine keepsG_unif _ fun k hk => keepsG_forEach _ fun ix hix => ?_
    have hix' : ix ∈ List.range (d0 * d1) := (randPerm_perm _ k hk).subset (List.mem_of_mem_take hix)
    have hlt := List.mem_range.1 hix'
    exact hflip _ _ (Nat.div_lt_of_lt_mul (by rw [mul_comm]; exact hlt)) (Nat.mod_lt _ (by omega))

/-- C70 is false of the code for the sign of the field: with a positive field and no coupling, a positive spin is
always turned negative, and a negative spin turned positive only with probability `exp(-2h) < 1`. -/
theorem C70_field_wrong (d0 d1 : ℕ) (L : Mat ℤ) (hL : L ∈ lattices d0 d1) (i j : ℕ)
    (hi : i < d0) (hj : j < d1) (h : ℝ) (hh : 0 < h) :
    (L.at' i j = 1 → flipMetropolis i j h 0 L = .ret (latNeg L i j)) ∧
    (L.at' i j = -1 → prob (flipMetropolis i j h 0 L) (fun L' => L'.at' i j = 1) = Real.exp (-2 * h) ∧
      Real.exp (-2 * h) < 1) := by
  have hs := (mem_lattices.1 hL).1
  have hde : latDE i j h 0 L = -2 * ((L.at' i j : ℤ) : ℝ) * h := by
    unfold latDE latBond
    simp
  constructor
  · intro h2
    unfold flipMetropolis
    rw [if_pos]
    rw [hde, h2]
    push_cast
    linarith
  · intro h2
    have h3 : Real.exp (-2 * h) < 1 := by
      rw [Real.exp_lt_one_iff]; linarith
    refine ⟨?_, h3⟩
    unfold prob
    rw [expectation_flip, hde]
    dsimp only
    have h4 : (latNeg L i j).at' i j = 1 := by
      rw [latNeg_at hs hi hj, if_pos ⟨rfl, rfl⟩, h2]; rfl
    rw [if_pos h4, if_neg (by rw [h2]; decide), h2]
    norm_num
    exact hh.le

/-- C70 is false for lattices with a single row or column: such a site counts itself as two neighbours. On a
`1 × 1` lattice with coupling 1 and field 1 there are no bonds between different sites, so the energy is that of the
field (with either sign) up to a constant, but detailed balance fails. -/
theorem C70_narrow_wrong (sgn : ℝ) (hs : sgn = 1 ∨ sgn = -1) :
    Real.exp (sgn * 1) * prob (flipMetropolis 0 0 1 1 [[1]]) (fun L => L = [[-1]]) ≠
      Real.exp (sgn * -1) * prob (flipMetropolis 0 0 1 1 [[-1]]) (fun L => L = [[1]]) := by
  have e1 : latDE 0 0 1 1 [[1]] = 6 := by
    norm_num [latDE, latBond, wrapIx, Mat.at', Mat.ncols]
  have e2 : latDE 0 0 1 1 [[-1]] = 10 := by
    norm_num [latDE, latBond, wrapIx, Mat.at', Mat.ncols]
  have n1 : latNeg [[1]] 0 0 = [[-1]] := by decide
  have n2 : latNeg [[-1]] 0 0 = [[1]] := by decide
  unfold prob
  rw [expectation_flip, expectation_flip, e1, e2, n1, n2, if_pos rfl, if_pos rfl, if_neg (by decide), if_neg (by decide),
    min_eq_right (by rw [Real.exp_le_one_iff]; norm_num), min_eq_right (by rw [Real.exp_le_one_iff]; norm_num),
    mul_zero, mul_zero, add_zero, add_zero, mul_one (Real.exp (-6)), mul_one (Real.exp (-10)), ← Real.exp_add, ← Real.exp_add]
  intro h
  have := Real.exp_injective h
  rcases hs with rfl | rfl <;> norm_num at this

/-- C70: an array of fields with two or more entries is refused by the constructor, so fields that differ from
site to site cannot be given. -/
theorem C70_fields_refused (d0 d1 : ℕ) (M : Mat ℝ) (hM : M.HasShape d0 d1) (h : 2 ≤ d0 * d1) :
    latFieldInit d0 d1 (.array M) = .error .valueError := by
  have hd0 : 0 < d0 := Nat.pos_of_ne_zero fun h' => by simp [h'] at h
  unfold latFieldInit
  simp only [hM.1, Mat.ncols_eq hM hd0]
  rw [if_neg (by omega), if_neg (by omega)]

/-- C70: a field given as an integer other than 0 is stored as a number, and `iterate` raises. -/
theorem C70_integer_field (d0 d1 : ℕ) (z : ℤ) (hz : z ≠ 0) (J : ℝ) (nIters : ℕ) (hn : 0 < nIters) (systematic : Bool)
    (L : Mat ℤ) : ∃ h, latFieldInit d0 d1 (.int z) = .ok h ∧
      latIterate d0 d1 h J nIters systematic L = .fail .typeError :=
  ⟨.number z, by simp [latFieldInit, hz], by simp [latIterate, hn]⟩

/-- C70: a float is a constant field, and the default 0 no field. -/
theorem C70_constant_field (d0 d1 : ℕ) (x : ℝ) :
    latFieldInit d0 d1 (.float x) = .ok (.grid (Mat.build d0 d1 fun _ _ => x)) ∧
      latFieldInit d0 d1 (.int 0) = .ok (.grid (Mat.build d0 d1 fun _ _ => 0)) := by
  simp [latFieldInit]

/-- C70: the first lattice has spins 1 and -1. -/
theorem C70_init (d0 d1 : ℕ) : Returns (latInit d0 d1) fun L => L ∈ lattices d0 d1 := by
  refine returns_mono ?_ (returns_mapEach (Q := fun _ row => row ∈ words [1, -1] d1) _ fun i _ => ?_)
  · intro rows h
    refine mem_words.2 ⟨by rw [← h.length_eq, List.length_range], fun r hr => ?_⟩
    obtain ⟨k, hk, rfl⟩ := List.getElem_of_mem hr
    exact (List.forall₂_iff_get.1 h).2 k (by rw [h.length_eq]; exact hk) hk
  · refine returns_mono ?_ (returns_mapEach (Q := fun _ x => x ∈ ([1, -1] : List ℤ)) _ fun i _ => ?_)
    · intro row h
      refine mem_words.2 ⟨by rw [← h.length_eq, List.length_range], fun r hr => ?_⟩
      obtain ⟨k, hk, rfl⟩ := List.getElem_of_mem hr
      exact (List.forall₂_iff_get.1 h).2 k (by rw [h.length_eq]; exact hk) hk
    · intro u _ _
      refine ⟨_, rfl, ?_⟩
      split <;> simp

example : ([[1, -1], [1, 1]] : Mat ℤ) ∈ lattices 2 2 := by decide

end Verif.Props
