/-
The lattice automaton leads from every lattice to every lattice.
-/
import Verif.Props.Automaton
import Verif.Lemmas.Ergodic2

namespace Verif.Lemmas
open Verif Verif.Model Verif.Spec Verif.Props Filter

/-! ### Programs one after the other -/

theorem pos_bind {α β : Type} [DecidableEq α] [DecidableEq β] {p : Prog α} {q : α → Prog β} {Q : α → Prop} {R : β → Prop}
    (hp : FinDist p Q) (hq : ∀ a, Q a → FinDist (q a) R) (u : α) (h1 : 0 < expectation (pointFn u) p) (t : β)
    (h2 : 0 < expectation (pointFn t) (q u)) : 0 < expectation (pointFn t) (p.bind q) := by
  rw [expectation_bind]
  have h3 : expectation (fun a => 0 + expectation (pointFn t) (q u) * pointFn u a) p ≤
      expectation (fun a => expectation (pointFn t) (q a)) p := by
    refine hp.mono fun a ha => ?_
    by_cases h : a = u
    · subst h; rw [pointFn_self]; simp
    · have : pointFn u a = 0 := if_neg h
      rw [this, mul_zero, zero_add]
      exact (hq a ha).nonneg fun b _ => pointFn_nonneg t b
  rw [hp.affine, zero_add] at h3
  exact (mul_pos h2 h1).trans_le h3

/-! ### Flipping a set of sites -/

/-- The lattice with the sites `P` (numbered row by row) flipped. -/
def negOn (d0 d1 : ℕ) (P : ℕ → Bool) (L : Mat ℤ) : Mat ℤ :=
  Mat.build d0 d1 fun a b => if P (a * d1 + b) then -L.at' a b else L.at' a b

section
variable {d0 d1 : ℕ}

theorem negOn_shape (P : ℕ → Bool) (L : Mat ℤ) : (negOn d0 d1 P L).HasShape d0 d1 := Mat.build_shape _ _ _

theorem negOn_at (P : ℕ → Bool) (L : Mat ℤ) {a b : ℕ} (ha : a < d0) (hb : b < d1) :
    (negOn d0 d1 P L).at' a b = if P (a * d1 + b) then -L.at' a b else L.at' a b := Mat.at_build _ ha hb

theorem negOn_mem (P : ℕ → Bool) {L : Mat ℤ} (hL : L ∈ lattices d0 d1) : negOn d0 d1 P L ∈ lattices d0 d1 := by
  refine mem_lattices.2 ⟨negOn_shape P L, fun row hr x hx => ?_⟩
  unfold negOn Mat.build at hr
  obtain ⟨a, ha, rfl⟩ := List.mem_map.1 hr
  obtain ⟨b, hb, rfl⟩ := List.mem_map.1 hx
  have := lattice_at hL (List.mem_range.1 ha) (List.mem_range.1 hb)
  dsimp only
  split <;> omega

theorem site_lt {a b : ℕ} (ha : a < d0) (hb : b < d1) : a * d1 + b < d0 * d1 := by
  calc a * d1 + b < a * d1 + d1 := by omega
    _ = (a + 1) * d1 := by ring
    _ ≤ d0 * d1 := Nat.mul_le_mul_right _ ha

theorem site_div {a b : ℕ} (hb : b < d1) : (a * d1 + b) / d1 = a := by
  rw [mul_comm, Nat.mul_add_div (by omega), Nat.div_eq_of_lt hb, add_zero]

theorem site_mod {a b : ℕ} (hb : b < d1) : (a * d1 + b) % d1 = b := by
  rw [mul_comm, Nat.mul_add_mod, Nat.mod_eq_of_lt hb]

theorem negOn_congr {P Q : ℕ → Bool} (L : Mat ℤ) (h : ∀ k < d0 * d1, P k = Q k) : negOn d0 d1 P L = negOn d0 d1 Q L :=
  Mat.ext' (negOn_shape _ _) (negOn_shape _ _) fun a ha b hb => by
    rw [negOn_at P L ha hb, negOn_at Q L ha hb, h _ (site_lt ha hb)]

theorem negOn_negOn (P Q : ℕ → Bool) (L : Mat ℤ) :
    negOn d0 d1 P (negOn d0 d1 Q L) = negOn d0 d1 (fun k => xor (P k) (Q k)) L :=
  Mat.ext' (negOn_shape _ _) (negOn_shape _ _) fun a ha b hb => by
    rw [negOn_at _ _ ha hb, negOn_at _ _ ha hb, negOn_at _ _ ha hb]
    cases P (a * d1 + b) <;> cases Q (a * d1 + b) <;> simp

theorem negOn_false {L : Mat ℤ} (hL : L ∈ lattices d0 d1) : negOn d0 d1 (fun _ => false) L = L :=
  Mat.ext' (negOn_shape _ _) (mem_lattices.1 hL).1 fun a ha b hb => by rw [negOn_at _ _ ha hb]; rfl

theorem site_ranges {k : ℕ} (hk : k < d0 * d1) : k / d1 < d0 ∧ k % d1 < d1 := by
  have hd : 0 < d1 := Nat.pos_of_ne_zero fun h => by simp [h] at hk
  exact ⟨Nat.div_lt_of_lt_mul (by rwa [mul_comm]), Nat.mod_lt _ hd⟩

theorem latNeg_eq_negOn {L : Mat ℤ} (hL : L ∈ lattices d0 d1) {k : ℕ} (hk : k < d0 * d1) :
    latNeg L (k / d1) (k % d1) = negOn d0 d1 (fun x => x == k) L := by
  obtain ⟨h1, h2⟩ := site_ranges hk
  have hs := (mem_lattices.1 hL).1
  refine Mat.ext' (latNeg_shape hs h1 _) (negOn_shape _ _) fun a ha b hb => ?_
  rw [latNeg_at hs h1 h2, negOn_at _ _ ha hb]
  have : (a = k / d1 ∧ b = k % d1) ↔ ((a * d1 + b == k) = true) := by
    rw [beq_iff_eq]
    constructor
    · rintro ⟨rfl, rfl⟩
      rw [mul_comm]; exact Nat.div_add_mod k d1
    · rintro rfl
      exact ⟨(site_div hb).symm, (site_mod hb).symm⟩
  by_cases h : a = k / d1 ∧ b = k % d1
  · rw [if_pos h, if_pos (this.1 h)]
  · rw [if_neg h, if_neg fun h' => h (this.2 h')]

/-- The sites where two lattices differ. -/
def differ (d1 : ℕ) (L M : Mat ℤ) (k : ℕ) : Bool := decide (L.at' (k / d1) (k % d1) ≠ M.at' (k / d1) (k % d1))

/-- Every lattice is another one with some sites flipped. -/
theorem exists_negOn {L M : Mat ℤ} (hL : L ∈ lattices d0 d1) (hM : M ∈ lattices d0 d1) :
    negOn d0 d1 (differ d1 L M) L = M :=
  Mat.ext' (negOn_shape _ _) (mem_lattices.1 hM).1 fun a ha b hb => by
    unfold differ
    rw [negOn_at _ _ ha hb, site_div hb, site_mod hb]
    have h1 := lattice_at hL ha hb
    have h2 := lattice_at hM ha hb
    by_cases h : L.at' a b = M.at' a b
    · simp [h]
    · simp only [h, ne_eq, not_false_eq_true, decide_true, if_true]; omega

/-! ### Flips -/

theorem finDist_flip {L : Mat ℤ} (hL : L ∈ lattices d0 d1) {i j : ℕ} (hi : i < d0) (hj : j < d1) (h J : ℝ) :
    FinDist (flipMetropolis i j h J L) (· ∈ lattices d0 d1) := by
  unfold flipMetropolis
  split
  · exact finDist_ret (latNeg_mem hL hi hj)
  · exact finDist_rand _ measurableSet_Iio (finDist_ret (latNeg_mem hL hi hj)) (finDist_ret hL)

theorem flip_accept (i j : ℕ) (h J : ℝ) (L : Mat ℤ) : 0 < expectation (pointFn (latNeg L i j)) (flipMetropolis i j h J L) := by
  rw [expectation_flip, pointFn_self, mul_one]
  exact add_pos_of_pos_of_nonneg (accept_pos _) (mul_nonneg (reject_nonneg _) (pointFn_nonneg _ _))

theorem flip_reject {i j : ℕ} {h J : ℝ} {L : Mat ℤ} (hd : 0 < latDE i j h J L) :
    0 < expectation (pointFn L) (flipMetropolis i j h J L) := by
  rw [expectation_flip, pointFn_self, mul_one]
  exact add_pos_of_nonneg_of_pos (mul_nonneg (accept_pos _).le (pointFn_nonneg _ _)) (reject_pos hd)

theorem latDE_formula (h0 : 2 ≤ d0) (h1 : 2 ≤ d1) {L : Mat ℤ} (hL : L ∈ lattices d0 d1) {i j : ℕ} (hi : i < d0)
    (hj : j < d1) (h J : ℝ) :
    latDE i j h J L = 2 * latSpins L i j * (J * (latSpins L ((i + 1) % d0) j + latSpins L ((i + d0 - 1) % d0) j +
      latSpins L i ((j + 1) % d1) + latSpins L i ((j + d1 - 1) % d1)) - h) := by
  have hs := (mem_lattices.1 hL).1
  have e := latDE_eq h0 h1 hL hi hj (fun _ _ => h) J
  rw [latticeE_flip d0 d1 i j h0 h1 hi hj J _ (latSpins L) (latSpins (latNeg L i j))
    (fun a b hab => by unfold latSpins; rw [latNeg_at hs hi hj, if_neg hab])
    (by unfold latSpins; rw [latNeg_at hs hi hj, if_pos ⟨rfl, rfl⟩]; push_cast; ring)] at e
  rw [e]
  ring

/-- The sites to flip so that all bonds of site `k` are satisfied. -/
noncomputable def align (d1 : ℕ) (J : ℝ) (L : Mat ℤ) (k x : ℕ) : Bool :=
  open Classical in
  decide (x ≠ k ∧ J * latSpins L (k / d1) (k % d1) * latSpins L (x / d1) (x % d1) < 0)

theorem next_ne {d i : ℕ} (hd : 2 ≤ d) (hi : i < d) : (i + 1) % d ≠ i ∧ (i + d - 1) % d ≠ i := by
  constructor
  · rcases Nat.lt_or_ge (i + 1) d with h | h
    · rw [Nat.mod_eq_of_lt h]; omega
    · rw [show i + 1 = d by omega, Nat.mod_self]; omega
  · rcases Nat.eq_zero_or_pos i with h | h
    · rw [h, Nat.mod_eq_of_lt (by omega)]; omega
    · rw [show i + d - 1 = i - 1 + d by omega, Nat.add_mod_right, Nat.mod_eq_of_lt (by omega)]; omega

theorem spin_sq {L : Mat ℤ} (hL : L ∈ lattices d0 d1) {i j : ℕ} (hi : i < d0) (hj : j < d1) :
    latSpins L i j = 1 ∨ latSpins L i j = -1 := by
  unfold latSpins
  rcases lattice_at hL hi hj with h | h <;> rw [h] <;> simp

/-- With all bonds satisfied, the flip raises the energy by `8|J| - 2hs`. -/
theorem align_raise (h0 : 2 ≤ d0) (h1 : 2 ≤ d1) {L : Mat ℤ} (hL : L ∈ lattices d0 d1) {k : ℕ} (hk : k < d0 * d1) (h J : ℝ) :
    latDE (k / d1) (k % d1) h J (negOn d0 d1 (align d1 J L k) L) =
      8 * |J| - 2 * latSpins L (k / d1) (k % d1) * h := by
  obtain ⟨hi, hj⟩ := site_ranges hk
  obtain ⟨i, hi'⟩ : ∃ i, i = k / d1 := ⟨_, rfl⟩
  obtain ⟨j, hj'⟩ : ∃ j, j = k % d1 := ⟨_, rfl⟩
  have hkk : i * d1 + j = k := by rw [hi', hj', mul_comm]; exact Nat.div_add_mod k d1
  rw [← hi'] at hi ⊢
  rw [← hj'] at hj ⊢
  have hself : latSpins (negOn d0 d1 (align d1 J L k) L) i j = latSpins L i j := by
    unfold latSpins
    rw [negOn_at _ _ hi hj, hkk]
    simp [align]
  have hnb : ∀ a < d0, ∀ b < d1, ¬(a = i ∧ b = j) →
      J * latSpins L i j * latSpins (negOn d0 d1 (align d1 J L k) L) a b = |J| := by
    intro a ha b hb hab
    have hne : a * d1 + b ≠ k := by
      intro e
      apply hab
      rw [hi', hj', ← e, site_div hb, site_mod hb]
      exact ⟨rfl, rfl⟩
    have hal : align d1 J L k (a * d1 + b) = true ↔ J * latSpins L i j * latSpins L a b < 0 := by
      unfold align
      rw [decide_eq_true_iff, site_div hb, site_mod hb, ← hi', ← hj']
      exact ⟨fun h => h.2, fun h => ⟨hne, h⟩⟩
    have e : latSpins (negOn d0 d1 (align d1 J L k) L) a b =
        if align d1 J L k (a * d1 + b) then -latSpins L a b else latSpins L a b := by
      unfold latSpins
      rw [negOn_at _ _ ha hb]
      split <;> simp
    rw [e]
    have habs : |J * latSpins L i j * latSpins L a b| = |J| := by
      rw [abs_mul, abs_mul]
      rcases spin_sq hL hi hj with h | h <;> rcases spin_sq hL ha hb with h' | h' <;> rw [h, h'] <;> simp
    by_cases hlt : J * latSpins L i j * latSpins L a b < 0
    · rw [if_pos (hal.2 hlt), ← habs, abs_of_neg hlt]; ring
    · rw [if_neg fun h => hlt (hal.1 h), ← habs, abs_of_nonneg (not_lt.1 hlt)]
  have m0 : ∀ x, x % d0 < d0 := fun x => Nat.mod_lt _ (by omega)
  have m1 : ∀ x, x % d1 < d1 := fun x => Nat.mod_lt _ (by omega)
  rw [latDE_formula h0 h1 (negOn_mem _ hL) hi hj, hself]
  have e1 := hnb _ (m0 (i + 1)) j hj fun h => (next_ne h0 hi).1 h.1
  have e2 := hnb _ (m0 (i + d0 - 1)) j hj fun h => (next_ne h0 hi).2 h.1
  have e3 := hnb i hi _ (m1 (j + 1)) fun h => (next_ne h1 hj).1 h.2
  have e4 := hnb i hi _ (m1 (j + d1 - 1)) fun h => (next_ne h1 hj).2 h.2
  linear_combination 2 * e1 + 2 * e2 + 2 * e3 + 2 * e4

/-! ### Sweeps -/

variable (h : Mat ℝ) (J : ℝ)

theorem finDist_flipSite {L : Mat ℤ} (hL : L ∈ lattices d0 d1) {k : ℕ} (hk : k < d0 * d1) :
    FinDist (flipSite d1 h J k L) (· ∈ lattices d0 d1) := finDist_flip hL (site_ranges hk).1 (site_ranges hk).2 _ _

theorem finDist_flips (l : List ℕ) (hl : ∀ k ∈ l, k < d0 * d1) {L : Mat ℤ} (hL : L ∈ lattices d0 d1) :
    FinDist (Prog.forEach (flipSite d1 h J) l L) (· ∈ lattices d0 d1) :=
  finDist_forEach (I := (· ∈ lattices d0 d1)) l (fun k hk _ hL => finDist_flipSite h J hL (hl k hk)) L hL

/-- All flips accepted. -/
theorem flips_accept (l : List ℕ) (hl : ∀ k ∈ l, k < d0 * d1) (hn : l.Nodup) : ∀ L ∈ lattices d0 d1,
    0 < expectation (pointFn (negOn d0 d1 (fun x => decide (x ∈ l)) L)) (Prog.forEach (flipSite d1 h J) l L) := by
  induction l with
  | nil =>
    intro L hL
    rw [Prog.forEach, expectation_ret]
    simp only [List.not_mem_nil, decide_false]
    rw [negOn_false hL, pointFn_self]
    exact one_pos
  | cons k l ih =>
    intro L hL
    have hk := hl k (by simp)
    have hl' : ∀ k ∈ l, k < d0 * d1 := fun x hx => hl x (by simp [hx])
    have hkl := (List.nodup_cons.1 hn).1
    have e := ih hl' (List.nodup_cons.1 hn).2 _ (negOn_mem (fun x => x == k) hL)
    rw [negOn_negOn] at e
    refine pos_bind (finDist_flipSite h J hL hk) (fun M hM => finDist_flips h J l hl' hM)
      (negOn d0 d1 (fun x => x == k) L) ?_ _ ?_
    · rw [← latNeg_eq_negOn hL hk]
      exact flip_accept _ _ _ _ _
    · convert e using 3
      refine negOn_congr L fun x _ => ?_
      by_cases hx : x = k
      · subst hx; simp [hkl]
      · rw [beq_false_of_ne hx]; simp [hx]

theorem sweep_pos {L : Mat ℤ} (hL : L ∈ lattices d0 d1) (l : List ℕ) (hl : l.Perm (List.range (d0 * d1))) (t : Mat ℤ)
    (hp : 0 < expectation (pointFn t) (Prog.forEach (flipSite d1 h J) l L)) :
    0 < expectation (pointFn t) (iterSystematic d0 d1 h J L) := by
  unfold iterSystematic randPerm
  simp only [Prog.bind, expectation_unif]
  have hlen : (List.range (d0 * d1)).permutations.length = (d0 * d1).factorial := by
    rw [List.length_permutations, List.length_range]
  have hpos := Nat.factorial_pos (d0 * d1)
  obtain ⟨k, hk, hkl⟩ := List.mem_iff_getElem.1 (List.mem_permutations.2 hl)
  refine div_pos (Finset.sum_pos' (fun m hm => ?_) ⟨k, Finset.mem_range.2 (by omega), ?_⟩) (by positivity)
  · have hm := Finset.mem_range.1 hm
    have hperm := randPerm_perm (d0 * d1) m (by omega)
    exact (finDist_flips h J _ (fun x hx => List.mem_range.1 (hperm.subset (List.mem_of_mem_take hx))) hL).nonneg
      fun b _ => pointFn_nonneg t b
  · rw [List.getD_eq_getElem _ _ hk, hkl, List.take_of_length_le (by rw [hl.length_eq, List.length_range])]
    exact hp

/-- A sweep may flip every site. -/
theorem sweep_all {L : Mat ℤ} (hL : L ∈ lattices d0 d1) :
    0 < expectation (pointFn (negOn d0 d1 (fun _ => true) L)) (iterSystematic d0 d1 h J L) := by
  refine sweep_pos h J hL _ (List.Perm.refl _) _ ?_
  have := flips_accept (d0 := d0) (d1 := d1) h J (List.range (d0 * d1)) (fun k hk => List.mem_range.1 hk) List.nodup_range L hL
  rwa [negOn_congr L (Q := fun _ => true) fun k hk => by simp [hk]] at this

theorem perm_split (N k : ℕ) (hk : k < N) (A : ℕ → Bool) (hA : A k = false) :
    ((List.range N).filter A ++ k :: (List.range N).filter (fun x => !A x && x != k)).Perm (List.range N) := by
  refine (List.perm_ext_iff_of_nodup ?_ List.nodup_range).2 fun x => ?_
  · refine List.nodup_append.2 ⟨List.nodup_range.filter _, List.nodup_cons.2 ⟨by simp, List.nodup_range.filter _⟩, ?_⟩
    intro a ha b hb hab
    subst hab
    have h1 := (List.mem_filter.1 ha).2
    rcases List.mem_cons.1 hb with rfl | hb
    · rw [hA] at h1; exact absurd h1 (by simp)
    · have := (List.mem_filter.1 hb).2
      rw [h1] at this
      simp at this
  · simp only [List.mem_append, List.mem_filter, List.mem_cons, List.mem_range, Bool.and_eq_true, Bool.not_eq_true',
      bne_iff_ne, ne_eq]
    constructor
    · rintro (h | rfl | h)
      · exact h.1
      · exact hk
      · exact h.1
    · intro hx
      by_cases hxk : x = k
      · exact .inr (.inl hxk)
      · cases hAx : A x
        · exact .inr (.inr ⟨hx, rfl, hxk⟩)
        · exact .inl ⟨hx, rfl⟩

/-- A sweep may flip every site but one whose flip can raise the energy. -/
theorem sweep_but (h0 : 2 ≤ d0) (h1 : 2 ≤ d1) {L : Mat ℤ} (hL : L ∈ lattices d0 d1) {k : ℕ} (hk : k < d0 * d1)
    (hr : 0 < 8 * |J| - 2 * latSpins L (k / d1) (k % d1) * h.at' (k / d1) (k % d1)) :
    0 < expectation (pointFn (negOn d0 d1 (fun x => x != k) L)) (iterSystematic d0 d1 h J L) := by
  obtain ⟨A, hAdef⟩ : ∃ A, A = align d1 J L k := ⟨_, rfl⟩
  have hA : A k = false := by rw [hAdef]; simp [align]
  refine sweep_pos h J hL _ (perm_split (d0 * d1) k hk A hA) _ ?_
  rw [forEach_append']
  have hl1 : ∀ x ∈ (List.range (d0 * d1)).filter A, x < d0 * d1 := fun x hx => List.mem_range.1 (List.mem_filter.1 hx).1
  have hl2 : ∀ x ∈ (List.range (d0 * d1)).filter (fun x => !A x && x != k), x < d0 * d1 := fun x hx =>
    List.mem_range.1 (List.mem_filter.1 hx).1
  have hmid : negOn d0 d1 (fun x => decide (x ∈ (List.range (d0 * d1)).filter A)) L = negOn d0 d1 A L :=
    negOn_congr L fun x hx => by simp [hx]
  refine pos_bind (finDist_flips h J _ hl1 hL) (fun M hM => finDist_flips h J _ (fun x hx => ?_) hM)
    (negOn d0 d1 A L) ?_ _ ?_
  · rcases List.mem_cons.1 hx with rfl | hx
    · exact hk
    · exact hl2 x hx
  · rw [← hmid]
    exact flips_accept h J _ hl1 (List.nodup_range.filter _) L hL
  · refine pos_bind (finDist_flipSite h J (negOn_mem A hL) hk) (fun M hM => finDist_flips h J _ hl2 hM)
      (negOn d0 d1 A L) ?_ _ ?_
    · refine flip_reject ?_
      rw [hAdef, align_raise h0 h1 hL hk]
      exact hr
    · have e := flips_accept h J _ hl2 (List.nodup_range.filter _) _ (negOn_mem A hL)
      rw [negOn_negOn] at e
      convert e using 3
      refine negOn_congr L fun x hx => ?_
      by_cases hxk : x = k
      · subst hxk; simp [hA]
      · cases hAx : A x <;> simp [hx, hxk, hAx]

theorem finDist_sweep {L : Mat ℤ} (hL : L ∈ lattices d0 d1) : FinDist (iterSystematic d0 d1 h J L) (· ∈ lattices d0 d1) := by
  unfold iterSystematic randPerm
  simp only [Prog.bind]
  have : Prog.unif ((d0 * d1).factorial - 1) (fun k => Prog.forEach (flipSite d1 h J)
      (List.take (d0 * d1) ((List.range (d0 * d1)).permutations.getD k [])) L) =
      (Prog.randint (d0 * d1).factorial).bind fun k => Prog.forEach (flipSite d1 h J)
        (List.take (d0 * d1) ((List.range (d0 * d1)).permutations.getD k [])) L := by
    obtain ⟨m, hm⟩ := Nat.exists_eq_succ_of_ne_zero (Nat.factorial_ne_zero (d0 * d1))
    rw [hm]
    rfl
  rw [this]
  refine finDist_randint _ (Nat.factorial_pos _) _ fun k hk => ?_
  exact finDist_flips h J _ (fun x hx => List.mem_range.1 ((randPerm_perm (d0 * d1) k (by omega)).subset
    (List.mem_of_mem_take hx))) hL

/-- Two sweeps may flip a single site. -/
theorem sweep_one (h0 : 2 ≤ d0) (h1 : 2 ≤ d1) {L : Mat ℤ} (hL : L ∈ lattices d0 d1) {k : ℕ} (hk : k < d0 * d1)
    (hp : J ≠ 0 ∨ h.at' (k / d1) (k % d1) ≠ 0) :
    0 < (fun f s => expectation f (iterSystematic d0 d1 h J s))^[2] (pointFn (negOn d0 d1 (fun x => x == k) L)) L := by
  have hT := markov_step (S := lattices d0 d1) fun s hs => finDist_sweep h J hs
  obtain ⟨hi, hj⟩ := site_ranges hk
  by_cases hr : 0 < 8 * |J| - 2 * latSpins L (k / d1) (k % d1) * h.at' (k / d1) (k % d1)
  · have e1 := sweep_but h J h0 h1 hL hk hr
    have e2 := sweep_all h J (negOn_mem (fun x => x != k) hL)
    rw [negOn_negOn, negOn_congr L (Q := fun x => x == k) fun x _ => by
      by_cases hx : x = k <;> [simp [hx]; simp [bne, beq_false_of_ne hx]]] at e2
    exact reach_trans hT (k := 1) (l := 1) hL e1 e2
  · have e1 := sweep_all h J hL
    have hM := negOn_mem (fun _ => true) hL
    have e2 := sweep_but h J h0 h1 hM hk (by
      have es : latSpins (negOn d0 d1 (fun _ => true) L) (k / d1) (k % d1) = -latSpins L (k / d1) (k % d1) := by
        unfold latSpins
        rw [negOn_at _ _ hi hj, if_pos rfl]
        push_cast; ring
      rw [es]
      have := abs_nonneg J
      by_contra hcon
      have hJ : |J| = 0 := by linarith
      have hJ0 : J = 0 := abs_eq_zero.1 hJ
      rcases hp with hp | hp
      · exact hp hJ0
      · rw [hJ] at hr hcon
        rcases spin_sq hL hi hj with hs | hs <;> rw [hs] at hr hcon <;> exact hp (by linarith))
    rw [negOn_negOn, negOn_congr L (Q := fun x => x == k) fun x _ => by
      by_cases hx : x = k <;> [simp [hx]; simp [bne, beq_false_of_ne hx]]] at e2
    exact reach_trans hT (k := 1) (l := 1) hL e1 e2

theorem sweep_two {L : Mat ℤ} (hL : L ∈ lattices d0 d1) :
    0 < (fun f s => expectation f (iterSystematic d0 d1 h J s))^[2] (pointFn L) L := by
  have hT := markov_step (S := lattices d0 d1) fun s hs => finDist_sweep h J hs
  have e1 := sweep_all h J hL
  have e2 := sweep_all h J (negOn_mem (fun _ => true) hL)
  rw [negOn_negOn, negOn_congr L (Q := fun _ => false) fun x _ => by simp, negOn_false hL] at e2
  exact reach_trans hT (k := 1) (l := 1) hL e1 e2

/-- Twice as many sweeps as sites may lead anywhere. -/
theorem sweep_reach (h0 : 2 ≤ d0) (h1 : 2 ≤ d1) (hp : J ≠ 0 ∨ ∀ i < d0, ∀ j < d1, h.at' i j ≠ 0) (P : ℕ → Bool)
    {L : Mat ℤ} (hL : L ∈ lattices d0 d1) (m : ℕ) (hm : m ≤ d0 * d1) :
    0 < (fun f s => expectation f (iterSystematic d0 d1 h J s))^[2 * m]
      (pointFn (negOn d0 d1 (fun x => P x && decide (x < m)) L)) L := by
  have hT := markov_step (S := lattices d0 d1) fun s hs => finDist_sweep h J hs
  induction m with
  | zero =>
    simp only [Nat.not_lt_zero, decide_false, Bool.and_false, Nat.mul_zero]
    rw [negOn_false hL]
    exact reach_refl
  | succ m ih =>
    refine reach_trans hT (k := 2 * m) (l := 2) hL (ih (by omega)) ?_
    have hM := negOn_mem (fun x => P x && decide (x < m)) hL
    cases hP : P m
    · rw [negOn_congr L (Q := fun x => P x && decide (x < m)) fun x _ => by
        by_cases hx : x = m
        · subst hx; simp [hP]
        · rw [show decide (x < m + 1) = decide (x < m) from decide_eq_decide.2 (by omega)]]
      exact sweep_two h J hM
    · obtain ⟨hi, hj⟩ := site_ranges (show m < d0 * d1 by omega)
      have := sweep_one h J h0 h1 hM (show m < d0 * d1 by omega) (hp.imp id fun h => h _ hi _ hj)
      rwa [negOn_negOn, negOn_congr L (Q := fun x => P x && decide (x < m + 1)) fun x _ => by
        by_cases hx : x = m
        · subst hx; simp [hP]
        · rw [show decide (x < m + 1) = decide (x < m) from decide_eq_decide.2 (by omega)]; simp [beq_false_of_ne hx]] at this

theorem lattices_ne_nil : lattices d0 d1 ≠ [] := by
  have : List.replicate d0 (List.replicate d1 1) ∈ lattices d0 d1 := by
    refine mem_lattices.2 ⟨⟨by simp, fun row hr => ?_⟩, fun row hr x hx => ?_⟩
    · rw [List.eq_of_mem_replicate hr, List.length_replicate]
    · rw [List.eq_of_mem_replicate hr] at hx
      exact .inl (List.eq_of_mem_replicate hx)
  exact List.ne_nil_of_mem this

/-- The energy whose Boltzmann distribution the automaton keeps. -/
noncomputable def revE (d0 d1 : ℕ) (h : Mat ℝ) (J : ℝ) (L : Mat ℤ) : ℝ :=
  latticeE d0 d1 J (fun i j => -h.at' i j) (latSpins L)

theorem keepsG_sweep (h0 : 2 ≤ d0) (h1 : 2 ≤ d1) :
    KeepsG (lattices d0 d1) (boltzmann (lattices d0 d1) (revE d0 d1 h J)) (iterSystematic d0 d1 h J) := by
  unfold iterSystematic randPerm
  refine keepsG_unif _ fun k hk => keepsG_forEach _ fun ix hix => ?_
  have hix' : ix ∈ List.range (d0 * d1) := (randPerm_perm _ k hk).subset (List.mem_of_mem_take hix)
  obtain ⟨hi, hj⟩ := site_ranges (List.mem_range.1 hix')
  exact keepsG_flip d0 d1 h0 h1 _ _ hi hj h.at' J

theorem ergodic_sweep (h0 : 2 ≤ d0) (h1 : 2 ≤ d1) (hp : J ≠ 0 ∨ ∀ i < d0, ∀ j < d1, h.at' i j ≠ 0) :
    Ergodic (lattices d0 d1) (boltzmann (lattices d0 d1) (revE d0 d1 h J)) (iterSystematic d0 d1 h J) := by
  refine ⟨fun L hL => finDist_sweep h J hL, fun L _ => (boltzmann_pos _ _ lattices_ne_nil L).le,
    sum_boltzmann _ _ lattices_ne_nil, keepsG_sweep h J h0 h1, 2 * (d0 * d1), fun L hL M hM => ?_⟩
  have := sweep_reach h J h0 h1 hp (differ d1 L M) hL _ le_rfl
  rwa [negOn_congr L (Q := differ d1 L M) fun x hx => by simp [hx],
    exists_negOn hL hM] at this

/-! ### Random sites -/

/-- One flip at a random site. -/
noncomputable def randomFlip (d0 d1 : ℕ) (h : Mat ℝ) (J : ℝ) (L : Mat ℤ) : Prog (Mat ℤ) :=
  (Prog.randint d0).bind fun i => (Prog.randint d1).bind fun j => flipMetropolis i j (h.at' i j) J L

theorem finDist_randomFlip (h0 : 2 ≤ d0) (h1 : 2 ≤ d1) {L : Mat ℤ} (hL : L ∈ lattices d0 d1) :
    FinDist (randomFlip d0 d1 h J L) (· ∈ lattices d0 d1) :=
  finDist_randint d0 (by omega) _ fun _ hi => finDist_randint d1 (by omega) _ fun _ hj => finDist_flip hL hi hj _ _

theorem randomFlip_pos (h0 : 2 ≤ d0) (h1 : 2 ≤ d1) {L : Mat ℤ} (hL : L ∈ lattices d0 d1) {i j : ℕ} (hi : i < d0)
    (hj : j < d1) (t : Mat ℤ) (hp : 0 < expectation (pointFn t) (flipMetropolis i j (h.at' i j) J L)) :
    0 < expectation (pointFn t) (randomFlip d0 d1 h J L) := by
  have hz : ∀ a < d0, ∀ b < d1, 0 ≤ expectation (pointFn t) (flipMetropolis a b (h.at' a b) J L) := fun a ha b hb =>
    (finDist_flip hL ha hb _ _).nonneg fun _ _ => pointFn_nonneg t _
  unfold randomFlip
  rw [expectation_randint _ d0 (by omega)]
  refine div_pos (Finset.sum_pos' (fun a ha => ?_) ⟨i, Finset.mem_range.2 hi, ?_⟩) (by
    have : 0 < d0 := by omega
    exact_mod_cast this)
  · rw [expectation_randint _ d1 (by omega)]
    exact div_nonneg (Finset.sum_nonneg fun b hb => hz a (Finset.mem_range.1 ha) b (Finset.mem_range.1 hb)) (by positivity)
  · rw [expectation_randint _ d1 (by omega)]
    refine div_pos (Finset.sum_pos' (fun b hb => hz i hi b (Finset.mem_range.1 hb)) ⟨j, Finset.mem_range.2 hj, hp⟩) (by
      have : 0 < d1 := by omega
      exact_mod_cast this)

theorem exists_raise (h0 : 2 ≤ d0) (h1 : 2 ≤ d1) {k : ℕ} (hk : k < d0 * d1)
    (hp : J ≠ 0 ∨ h.at' (k / d1) (k % d1) ≠ 0) :
    ∃ L ∈ lattices d0 d1, 0 < latDE (k / d1) (k % d1) (h.at' (k / d1) (k % d1)) J L := by
  obtain ⟨hi, hj⟩ := site_ranges hk
  obtain ⟨L, hL⟩ := List.exists_mem_of_ne_nil _ (lattices_ne_nil (d0 := d0) (d1 := d1))
  have hM := negOn_mem (fun _ => true) hL
  by_cases hr : 0 < 8 * |J| - 2 * latSpins L (k / d1) (k % d1) * h.at' (k / d1) (k % d1)
  · exact ⟨_, negOn_mem (align d1 J L k) hL, by rw [align_raise h0 h1 hL hk]; exact hr⟩
  · refine ⟨_, negOn_mem (align d1 J (negOn d0 d1 (fun _ => true) L) k) hM, ?_⟩
    rw [align_raise h0 h1 hM hk]
    have es : latSpins (negOn d0 d1 (fun _ => true) L) (k / d1) (k % d1) = -latSpins L (k / d1) (k % d1) := by
      unfold latSpins
      rw [negOn_at _ _ hi hj, if_pos rfl]
      push_cast; ring
    rw [es]
    have := abs_nonneg J
    by_contra hcon
    have hJ : |J| = 0 := by linarith
    have hJ0 : J = 0 := abs_eq_zero.1 hJ
    rcases hp with hp | hp
    · exact hp hJ0
    · rw [hJ] at hr hcon
      rcases spin_sq hL hi hj with hs | hs <;> rw [hs] at hr hcon <;> exact hp (by linarith)

theorem ergodic_randomFlip (h0 : 2 ≤ d0) (h1 : 2 ≤ d1) (hp : J ≠ 0 ∨ ∃ i < d0, ∃ j < d1, h.at' i j ≠ 0) :
    Ergodic (lattices d0 d1) (boltzmann (lattices d0 d1) (revE d0 d1 h J)) (randomFlip d0 d1 h J) := by
  have hfin : ∀ L ∈ lattices d0 d1, FinDist (randomFlip d0 d1 h J L) (· ∈ lattices d0 d1) := fun L hL =>
    finDist_randomFlip h J h0 h1 hL
  have hT := markov_step hfin
  refine ⟨hfin, fun L _ => (boltzmann_pos _ _ lattices_ne_nil L).le, sum_boltzmann _ _ lattices_ne_nil,
    keepsG_average (by omega) fun i hi => keepsG_average (by omega) fun j hj =>
      keepsG_flip d0 d1 h0 h1 i j hi hj h.at' J, ?_⟩
  have hirr : ∀ s ∈ lattices d0 d1, ∀ t ∈ lattices d0 d1, ∃ d,
      0 < (fun f s => expectation f (randomFlip d0 d1 h J s))^[d] (pointFn t) s := by
    intro L hL M hM
    have key : ∀ m ≤ d0 * d1, ∃ d, 0 < (fun f s => expectation f (randomFlip d0 d1 h J s))^[d]
        (pointFn (negOn d0 d1 (fun k => differ d1 L M k && decide (k < m)) L)) L := by
      intro m
      induction m with
      | zero =>
        intro _
        refine ⟨0, ?_⟩
        simp only [Nat.not_lt_zero, decide_false, Bool.and_false]
        rw [negOn_false hL]
        exact reach_refl
      | succ m ih =>
        intro hm
        obtain ⟨d, hd⟩ := ih (by omega)
        cases hP : differ d1 L M m
        · refine ⟨d, ?_⟩
          rwa [negOn_congr L (Q := fun k => differ d1 L M k && decide (k < m))
            fun x _ => by
              by_cases hx : x = m
              · subst hx; rw [hP]; simp
              · rw [show decide (x < m + 1) = decide (x < m) from decide_eq_decide.2 (by omega)]]
        · refine ⟨d + 1, reach_trans hT hL hd ?_⟩
          obtain ⟨hi, hj⟩ := site_ranges (show m < d0 * d1 by omega)
          have hM' := negOn_mem (fun k => differ d1 L M k && decide (k < m)) hL
          have := randomFlip_pos h J h0 h1 hM' hi hj _ (flip_accept _ _ _ _ _)
          rw [latNeg_eq_negOn hM' (show m < d0 * d1 by omega), negOn_negOn, negOn_congr L
            (Q := fun k => differ d1 L M k && decide (k < m + 1)) fun x _ => by
              by_cases hx : x = m
              · subst hx; rw [hP]; simp
              · rw [show decide (x < m + 1) = decide (x < m) from decide_eq_decide.2 (by omega)]
                simp [beq_false_of_ne hx]] at this
          exact this
    obtain ⟨d, hd⟩ := key (d0 * d1) le_rfl
    refine ⟨d, ?_⟩
    rwa [negOn_congr L (Q := differ d1 L M) fun x hx => by simp [hx],
      exists_negOn hL hM] at hd
  obtain ⟨k, hk, hp'⟩ : ∃ k < d0 * d1, J ≠ 0 ∨ h.at' (k / d1) (k % d1) ≠ 0 := by
    rcases hp with hJ | ⟨i, hi, j, hj, hh⟩
    · exact ⟨0, Nat.mul_pos (by omega) (by omega), .inl hJ⟩
    · exact ⟨i * d1 + j, site_lt hi hj, .inr (by rwa [site_div hj, site_mod hj])⟩
  obtain ⟨a, ha, hlt⟩ := exists_raise h J h0 h1 hk hp'
  obtain ⟨hi, hj⟩ := site_ranges hk
  exact reach_all hT hirr a ha 0 fun k _ => hold_one hT ha (randomFlip_pos h J h0 h1 ha hi hj _ (flip_reject hlt)) k

end

end Verif.Lemmas
