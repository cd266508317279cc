import Verif.Lemmas.Sweep2
import Verif.Lemmas.IsingUpdate
import Verif.Lemmas.SumUpper
import Verif.Spec.Energy
import Mathlib.Tactic.Linarith
import Mathlib.Algebra.Ring.GeomSum
import Mathlib.Algebra.BigOperators.Intervals

namespace Verif.Lemmas
open Verif Verif.Model Verif.Spec

/-! ### The state before an update -/

theorem getD_prefix {n : ℕ} (hn : 0 < n) (m : ℕ) (s : List ℤ) (j : ℕ) (hj : j < n) :
    (turns ((List.range m).map (· % n)) s).getD j 0 = (-1) ^ (m / n + if j < m % n then 1 else 0) * s.getD j 0 := by
  induction m with
  | zero => simp [turns_nil, Nat.zero_mod]
  | succ m ih =>
    rw [List.range_succ, List.map_append, turns_append, List.map_singleton, turns_cons, turns_nil, getD_turn, ih]
    have hlt := Nat.mod_lt m hn
    have hdm := Nat.div_add_mod m n
    rcases Nat.lt_or_ge (m % n + 1) n with h | h
    · have e1 : (m + 1) % n = m % n + 1 := by
        rw [Nat.add_mod, Nat.mod_eq_of_lt (show 1 < n by omega), Nat.mod_eq_of_lt h]
      have e2 : (m + 1) / n = m / n := by
        rw [Nat.div_eq_of_lt_le]
        · rw [mul_comm]; omega
        · rw [Nat.succ_mul, mul_comm]; omega
      rw [e1, e2]
      by_cases hm : m % n = j
      · rw [if_pos hm, if_neg (by omega), if_pos (by omega)]; ring
      · rw [if_neg hm]
        by_cases h' : j < m % n
        · rw [if_pos h', if_pos (by omega)]
        · rw [if_neg h', if_neg (by omega)]
    · have hq : m % n + 1 = n := by omega
      have e : m + 1 = n * (m / n + 1) := by rw [mul_add, mul_one]; omega
      have e1 : (m + 1) % n = 0 := by rw [e]; exact Nat.mul_mod_right _ _
      have e2 : (m + 1) / n = m / n + 1 := by rw [e, Nat.mul_div_cancel_left _ hn]
      rw [e1, e2, if_neg (Nat.not_lt_zero j)]
      by_cases hm : m % n = j
      · rw [if_pos hm, if_neg (by omega)]; ring
      · rw [if_neg hm, if_pos (by omega)]

/-- All spins reversed. -/
def flipAll (s : List ℤ) : List ℤ := s.map fun x => -x

theorem getD_flipAll (s : List ℤ) (j : ℕ) : (flipAll s).getD j 0 = -s.getD j 0 := by
  unfold flipAll
  simp only [List.getD_eq_getElem?_getD, List.getElem?_map]
  cases s[j]? <;> simp

theorem turns_length (l : List ℕ) : ∀ s : List ℤ, (turns l s).length = s.length := by
  induction l with
  | nil => exact fun _ => rfl
  | cons i l ih => intro s; rw [turns_cons, ih, turn_length]

theorem turns_range_mod {n : ℕ} (hn : 0 < n) (s : List ℤ) (hs : s.length = n) (i : ℕ) :
    turns ((List.range (n + i)).map (· % n)) s = flipAll (turns ((List.range i).map (· % n)) s) := by
  refine list_ext_getD (by rw [turns_length, flipAll, List.length_map, turns_length]) fun j => ?_
  rw [getD_flipAll]
  rcases Nat.lt_or_ge j n with hj | hj
  · rw [getD_prefix hn _ _ _ hj, getD_prefix hn _ _ _ hj, Nat.add_mod_left, Nat.add_div_left _ hn]
    ring
  · rw [List.getD_eq_default _ _ (by rw [turns_length]; omega), List.getD_eq_default _ _ (by rw [turns_length]; omega)]
    rfl

theorem flipAll_mem {n : ℕ} {s : List ℤ} (hs : s ∈ words [1, -1] n) : flipAll s ∈ words [1, -1] n := by
  obtain ⟨h1, h2⟩ := mem_words.1 hs
  refine mem_words.2 ⟨by rw [flipAll, List.length_map, h1], fun x hx => ?_⟩
  obtain ⟨y, hy, rfl⟩ := List.mem_map.1 hx
  have := h2 y hy
  simp only [List.mem_cons, List.not_mem_nil, or_false] at this ⊢
  rcases this with rfl | rfl <;> simp

/-! ### Enough dependence of the energy -/

theorem connect_of_turn {n : ℕ} {R : List ℤ → List ℤ → Prop}
    (h : ∀ s ∈ words [1, -1] n, ∀ i < n, R s (turn i s)) (s t : List ℤ) (hs : s ∈ words [1, -1] n)
    (ht : t ∈ words [1, -1] n) : Relation.ReflTransGen R s t := by
  have key : ∀ i ≤ n, ∃ u ∈ words ([1, -1] : List ℤ) n, Relation.ReflTransGen R s u ∧ ∀ j < i, u.getD j 0 = t.getD j 0 := by
    intro i
    induction i with
    | zero => exact fun _ => ⟨s, hs, .refl, fun j hj => absurd hj (Nat.not_lt_zero _)⟩
    | succ i ih =>
      intro hi
      obtain ⟨u, h1, h2, h3⟩ := ih (by omega)
      by_cases hu : u.getD i 0 = t.getD i 0
      · refine ⟨u, h1, h2, fun j hj => ?_⟩
        rcases Nat.lt_succ_iff_lt_or_eq.1 hj with hj | rfl
        · exact h3 j hj
        · exact hu
      · refine ⟨turn i u, turn_mem i h1, h2.tail (h u h1 i (by omega)), fun j hj => ?_⟩
        rw [getD_turn]
        rcases Nat.lt_succ_iff_lt_or_eq.1 hj with hj | rfl
        · rw [if_neg (by omega)]; exact h3 j hj
        · rw [if_pos rfl]
          have a : ∀ v ∈ words ([1, -1] : List ℤ) n, v.getD j 0 = 1 ∨ v.getD j 0 = -1 := fun v hv => by
            obtain ⟨h4, h5⟩ := mem_words.1 hv
            rw [List.getD_eq_getElem _ _ (by omega)]
            simpa using h5 _ (List.getElem_mem (by omega : j < v.length))
          have b := a u h1
          have c := a t ht
          omega
  obtain ⟨u, h1, h2, h3⟩ := key n le_rfl
  have : u = t := by
    refine list_ext_getD (by rw [(mem_words.1 h1).1, (mem_words.1 ht).1]) fun j => ?_
    rcases Nat.lt_or_ge j n with hj | hj
    · exact h3 j hj
    · rw [List.getD_eq_default _ _ (by rw [(mem_words.1 h1).1]; exact hj),
        List.getD_eq_default _ _ (by rw [(mem_words.1 ht).1]; exact hj)]
  exact this ▸ h2

theorem two_sweeps {n k : ℕ} (hk : k = n ∨ 2 * n ≤ k) :
    ∃ rest, sweepSites n k ++ sweepSites n k = (List.range (n + n)).map (· % n) ++ rest := by
  rcases hk with rfl | hk
  · refine ⟨[], ?_⟩
    rw [List.append_nil, List.range_add, List.map_append, List.map_map]
    unfold sweepSites
    congr 1
    exact List.map_congr_left fun j _ => by simp
  · obtain ⟨d, rfl⟩ := Nat.exists_eq_add_of_le hk
    refine ⟨(List.range d).map ((· % n) ∘ (n + n + ·)) ++ sweepSites n (2 * n + d), ?_⟩
    rw [← List.append_assoc]
    congr 1
    unfold sweepSites
    rw [two_mul, List.range_add, List.map_append, List.map_map]

theorem sweepsConnect_of_dep {n k : ℕ} (hk : k = n ∨ 2 * n ≤ k) (E : List ℤ → ℝ)
    (h : ∀ s ∈ words [1, -1] n, ∀ i < n, E (turn i s) ≠ E s ∨ E (turn i (flipAll s)) ≠ E (flipAll s)) :
    SweepsConnect E n k := by
  intro s hs t ht
  refine connect_of_turn (fun s hs i hi => ?_) s t hs ht
  have hn : 0 < n := by omega
  obtain ⟨rest, hrest⟩ := two_sweeps hk
  have hsplit : ∀ a < n + n, ∃ after, sweepSites n k ++ sweepSites n k =
      (List.range a).map (· % n) ++ (a % n) :: after := by
    intro a ha
    obtain ⟨d, hd⟩ := Nat.exists_eq_add_of_lt ha
    refine ⟨(List.range d).map ((· % n) ∘ (a + 1 + ·)) ++ rest, ?_⟩
    rw [hrest, hd, show a + d + 1 = a + 1 + d by ring, List.range_add, List.range_succ]
    simp
  rcases h (turns ((List.range i).map (· % n)) s) (turns_mem _ hs) i hi with h | h
  · obtain ⟨after, e⟩ := hsplit i (by omega)
    rw [Nat.mod_eq_of_lt hi] at e
    exact ⟨_, i, after, e, rfl, h⟩
  · obtain ⟨after, e⟩ := hsplit (n + i) (by omega)
    rw [Nat.add_mod_left, Nat.mod_eq_of_lt hi] at e
    refine ⟨_, i, after, e, rfl, ?_⟩
    rw [turns_range_mod hn s (mem_words.1 hs).1]
    exact h

/-- The spins of a state as real numbers. -/
def realSpin (s : List ℤ) : ℕ → ℝ := fun i => ((s.getD i 0 : ℤ) : ℝ)

theorem realSpin_turn (i : ℕ) (s : List ℤ) :
    realSpin (turn i s) = fun j => if j = i then -realSpin s i else realSpin s j := by
  funext j
  unfold realSpin
  rw [getD_turn]
  by_cases h : j = i
  · subst h; simp
  · rw [if_neg h, if_neg (Ne.symm h)]

theorem realSpin_ne {n i : ℕ} {s : List ℤ} (hs : s ∈ words [1, -1] n) (hi : i < n) : realSpin s i ≠ 0 := by
  obtain ⟨h4, h5⟩ := mem_words.1 hs
  unfold realSpin
  rw [List.getD_eq_getElem _ _ (by omega)]
  have := h5 _ (List.getElem_mem (by omega : i < s.length))
  simp only [List.mem_cons, List.not_mem_nil, or_false] at this
  rcases this with h | h <;> rw [h] <;> norm_num

theorem ising_turn {n i : ℕ} {s : List ℤ} (hs : s ∈ words [1, -1] n) (hi : i < n) (h : ℕ → ℝ) (J : ℕ → ℕ → ℝ) :
    isingE n h J (realSpin (turn i s)) = isingE n h J (realSpin s) ↔
      h i + (∑ j ∈ Finset.range n, if j = i then 0 else J (min i j) (max i j) * realSpin s j) = 0 := by
  rw [realSpin_turn, isingE_update n i hi]
  have hne := realSpin_ne hs hi
  constructor
  · intro e
    have : realSpin s i * (h i + ∑ j ∈ Finset.range n, if j = i then 0 else J (min i j) (max i j) * realSpin s j) = 0 := by
      linarith
    exact (mul_eq_zero.1 this).resolve_left hne
  · intro e
    rw [e]; ring

theorem sweepsConnect_ising {n k : ℕ} (hk : k = n ∨ 2 * n ≤ k) (h : ℕ → ℝ) (J : ℕ → ℕ → ℝ)
    (hh : ∀ i < n, h i ≠ 0 ∨ ∀ s ∈ words [1, -1] n,
      (∑ j ∈ Finset.range n, if j = i then 0 else J (min i j) (max i j) * realSpin s j) ≠ 0) :
    SweepsConnect (fun s => isingE n h J (realSpin s)) n k := by
  refine sweepsConnect_of_dep hk _ fun s hs i hi => ?_
  by_contra hcon
  push Not at hcon
  obtain ⟨h1, h2⟩ := hcon
  rw [ising_turn hs hi] at h1
  rw [ising_turn (flipAll_mem hs) hi] at h2
  have e : (∑ j ∈ Finset.range n, if j = i then 0 else J (min i j) (max i j) * realSpin (flipAll s) j) =
      -∑ j ∈ Finset.range n, if j = i then 0 else J (min i j) (max i j) * realSpin s j := by
    rw [← Finset.sum_neg_distrib]
    refine Finset.sum_congr rfl fun j _ => ?_
    unfold realSpin
    rw [getD_flipAll]
    split <;> push_cast <;> ring
  rw [e] at h2
  rcases hh i hi with h' | h'
  · exact h' (by linarith)
  · exact h' s hs (by linarith)

/-! ### The alternating state -/

theorem sum_getD_range (s : List ℤ) : s.sum = ∑ j ∈ Finset.range s.length, s.getD j 0 := by
  induction s with
  | nil => rfl
  | cons a s ih =>
    rw [List.sum_cons, List.length_cons, Finset.sum_range_succ', ih, add_comm]
    simp

theorem sum_turn (i : ℕ) (s : List ℤ) (hi : i < s.length) : (turn i s).sum = s.sum - 2 * s.getD i 0 := by
  rw [sum_getD_range, sum_getD_range, turn_length]
  have : ∀ j ∈ Finset.range s.length, (turn i s).getD j 0 = s.getD j 0 - if j = i then 2 * s.getD i 0 else 0 := by
    intro j _
    rw [getD_turn]
    by_cases h : j = i
    · subst h; simp; ring
    · rw [if_neg (Ne.symm h), if_neg h, sub_zero]
  rw [Finset.sum_congr rfl this, Finset.sum_sub_distrib, Finset.sum_ite_eq' (Finset.range s.length) i,
    if_pos (Finset.mem_range.2 hi)]

/-- 1, -1, 1, ... -/
def alternating (n : ℕ) : List ℤ := (List.range n).map fun j => (-1) ^ j

theorem alternating_mem (n : ℕ) : alternating n ∈ words [1, -1] n := by
  refine mem_words.2 ⟨by simp [alternating], fun x hx => ?_⟩
  obtain ⟨j, -, rfl⟩ := List.mem_map.1 hx
  rcases neg_one_pow_eq_or ℤ j with h | h <;> rw [h] <;> simp

theorem getD_alternating (n j : ℕ) (hj : j < n) : (alternating n).getD j 0 = (-1) ^ j := by
  simp [alternating, List.getD_eq_getElem?_getD, hj]

theorem alternating_sum {n : ℕ} (hodd : Odd n) (m : ℕ) :
    (turns ((List.range m).map (· % n)) (alternating n)).sum =
      (turns ((List.range m).map (· % n)) (alternating n)).getD (m % n) 0 := by
  have hn : 0 < n := hodd.pos
  have hi := Nat.mod_lt m hn
  rw [getD_prefix hn _ _ _ hi, getD_alternating n _ hi, if_neg (lt_irrefl _), add_zero, sum_getD_range, turns_length]
  have hl : (alternating n).length = n := (mem_words.1 (alternating_mem n)).1
  rw [hl]
  have h1 : ∀ j ∈ Finset.range n, (turns ((List.range m).map (· % n)) (alternating n)).getD j 0 =
      (-1) ^ (m / n) * ((-1 : ℤ) ^ j - if j < m % n then 2 * (-1 : ℤ) ^ j else 0) := by
    intro j hj
    have hj := Finset.mem_range.1 hj
    rw [getD_prefix hn _ _ _ hj, getD_alternating n j hj]
    split
    · rw [pow_add]; ring
    · rw [add_zero, sub_zero]
  rw [Finset.sum_congr rfl h1, ← Finset.mul_sum, Finset.sum_sub_distrib]
  congr 1
  have h2 : (∑ j ∈ Finset.range n, if j < m % n then 2 * (-1 : ℤ) ^ j else 0) =
      ∑ j ∈ Finset.range (m % n), 2 * (-1 : ℤ) ^ j := by
    rw [← Finset.sum_filter]
    refine Finset.sum_congr ?_ fun _ _ => rfl
    ext j
    simp only [Finset.mem_filter, Finset.mem_range]
    omega
  rw [h2, ← Finset.mul_sum, neg_one_geom_sum, neg_one_geom_sum, if_neg (Nat.not_even_iff_odd.2 hodd)]
  rcases Nat.even_or_odd (m % n) with h | h
  · rw [if_pos h, h.neg_one_pow]; rfl
  · rw [if_neg (Nat.not_even_iff_odd.2 h), h.neg_one_pow]; rfl

theorem sweepSites_add {n q : ℕ} (_hn : 0 < n) :
    sweepSites n (n * q) ++ sweepSites n (n * q) = (List.range (n * q + n * q)).map (· % n) := by
  unfold sweepSites
  rw [List.range_add, List.map_append, List.map_map]
  congr 1
  exact List.map_congr_left fun j _ => by simp

theorem range_split {a : ℕ} (f : ℕ → ℕ) {before after : List ℕ} {i : ℕ}
    (h : (List.range a).map f = before ++ i :: after) :
    before = (List.range before.length).map f ∧ i = f before.length := by
  have hlen : a = before.length + (after.length + 1) := by
    have := congrArg List.length h
    simpa using this
  rw [hlen, List.range_add, List.map_append] at h
  obtain ⟨h1, h2⟩ := List.append_inj h.symm (by simp)
  refine ⟨h1, ?_⟩
  rw [List.range_succ_eq_map] at h2
  simp at h2
  exact h2.1

/-- From the alternating state every update is accepted, if the energy depends on the absolute value of the sum of the
spins only. -/
theorem alternating_isolated {n q : ℕ} (hodd : Odd n) (E : List ℤ → ℝ)
    (hE : ∀ s ∈ words [1, -1] n, ∀ t ∈ words [1, -1] n, t.sum = -s.sum → E t = E s) (y : List ℤ)
    (h : SweepClass E n (n * q) (alternating n) y) : y = alternating n := by
  have hn : 0 < n := hodd.pos
  unfold SweepClass at h
  rcases Relation.ReflTransGen.cases_head h with h | ⟨z, ⟨before, i, after, h1, -, h3⟩, -⟩
  · exact h.symm
  · exfalso
    rw [sweepSites_add hn] at h1
    obtain ⟨h4, h5⟩ := range_split (· % n) h1
    apply h3
    have hm := turns_mem before (alternating_mem n)
    refine hE _ hm _ (turn_mem _ hm) ?_
    rw [sum_turn _ _ (by rw [(mem_words.1 hm).1, h5]; exact Nat.mod_lt _ hn)]
    have := alternating_sum hodd before.length
    rw [← h4, ← h5] at this
    rw [this]; ring

theorem turns_sweeps {n : ℕ} (hn : 0 < n) (q : ℕ) (s : List ℤ) (hs : s.length = n) :
    turns (sweepSites n (n * q)) s = s ∨ turns (sweepSites n (n * q)) s = flipAll s := by
  have h : ∀ j < n, (turns (sweepSites n (n * q)) s).getD j 0 = (-1) ^ q * s.getD j 0 := by
    intro j hj
    unfold sweepSites
    rw [getD_prefix hn _ _ _ hj, Nat.mul_mod_right, Nat.mul_div_cancel_left _ hn, if_neg (Nat.not_lt_zero j), add_zero]
  have hout : ∀ j, n ≤ j → (turns (sweepSites n (n * q)) s).getD j 0 = 0 ∧ s.getD j 0 = 0 := fun j hj =>
    ⟨List.getD_eq_default _ _ (by rw [turns_length, hs]; exact hj), List.getD_eq_default _ _ (by rw [hs]; exact hj)⟩
  rcases neg_one_pow_eq_or ℤ q with e | e
  · left
    refine list_ext_getD (turns_length _ _) fun j => ?_
    rcases Nat.lt_or_ge j n with hj | hj
    · rw [h j hj, e, one_mul]
    · rw [(hout j hj).1, (hout j hj).2]
  · right
    refine list_ext_getD (by rw [turns_length, flipAll, List.length_map]) fun j => ?_
    rw [getD_flipAll]
    rcases Nat.lt_or_ge j n with hj | hj
    · rw [h j hj, e]; ring
    · rw [(hout j hj).1, (hout j hj).2, neg_zero]

theorem iterate_sweeps {n : ℕ} (hn : 0 < n) (q m : ℕ) (s : List ℤ) (hs : s.length = n) :
    (turns (sweepSites n (n * q)))^[m] s = s ∨ (turns (sweepSites n (n * q)))^[m] s = flipAll s := by
  have e : ∀ m, (turns (sweepSites n (n * q)))^[2 * m] s = s := fun m => by
    have : (turns (sweepSites n (n * q)))^[2] = id := funext fun z => turns_turns _ z
    rw [Function.iterate_mul, this, Function.iterate_id, id]
  rcases Nat.even_or_odd' m with ⟨r, rfl | rfl⟩
  · exact .inl (e r)
  · rw [Function.iterate_succ_apply', e]
    exact turns_sweeps hn q s hs

/-- The energy of equal couplings. -/
theorem isingE_equal (n : ℕ) (J : ℝ) (s : List ℤ) (hs : s ∈ words [1, -1] n) :
    isingE n (fun _ => 0) (fun _ _ => J) (realSpin s) = -J * (((s.sum : ℤ) : ℝ) ^ 2 - n) / 2 := by
  have h1 := sum_sum_upper n (fun i j => if i = j then 0 else realSpin s i * realSpin s j) (fun i => by simp)
  have h2 : (∑ i ∈ Finset.range n, ∑ j ∈ Finset.range n, if i = j then 0 else realSpin s i * realSpin s j) =
      ((s.sum : ℤ) : ℝ) ^ 2 - n := by
    have a : ∀ i ∈ Finset.range n, (∑ j ∈ Finset.range n, if i = j then 0 else realSpin s i * realSpin s j) =
        realSpin s i * ((s.sum : ℤ) : ℝ) - 1 := by
      intro i hi
      have hsq : realSpin s i * realSpin s i = 1 := by
        obtain ⟨h4, h5⟩ := mem_words.1 hs
        have hi := Finset.mem_range.1 hi
        unfold realSpin
        rw [List.getD_eq_getElem _ _ (by omega)]
        have := h5 _ (List.getElem_mem (by omega : i < s.length))
        simp only [List.mem_cons, List.not_mem_nil, or_false] at this
        rcases this with h | h <;> rw [h] <;> norm_num
      have b : ∀ j ∈ Finset.range n, (if i = j then 0 else realSpin s i * realSpin s j) =
          realSpin s i * realSpin s j - if i = j then 1 else 0 := by
        intro j _
        split
        · subst_vars; rw [hsq]; ring
        · ring
      rw [Finset.sum_congr rfl b, Finset.sum_sub_distrib, ← Finset.mul_sum, Finset.sum_ite_eq (Finset.range n) i,
        if_pos hi, sum_getD_range, (mem_words.1 hs).1]
      unfold realSpin
      push_cast
      ring
    rw [Finset.sum_congr rfl a, Finset.sum_sub_distrib, ← Finset.sum_mul]
    have c : ∑ i ∈ Finset.range n, realSpin s i = ((s.sum : ℤ) : ℝ) := by
      rw [sum_getD_range, (mem_words.1 hs).1]
      unfold realSpin
      push_cast
      ring
    rw [c]
    simp
    ring
  have h3 : (∑ i ∈ Finset.range n, ∑ j ∈ Finset.range n, if i < j then J * realSpin s i * realSpin s j else 0) =
      J / 2 * ∑ i ∈ Finset.range n, ∑ j ∈ Finset.range n, if i < j then
        (if i = j then 0 else realSpin s i * realSpin s j) + (if j = i then 0 else realSpin s j * realSpin s i) else 0 := by
    rw [Finset.mul_sum]
    refine Finset.sum_congr rfl fun i _ => ?_
    rw [Finset.mul_sum]
    refine Finset.sum_congr rfl fun j _ => ?_
    split
    · rw [if_neg (by omega), if_neg (by omega)]; ring
    · rw [mul_zero]
  unfold isingE
  rw [h3, ← h1, h2]
  simp
  ring

end Verif.Lemmas
