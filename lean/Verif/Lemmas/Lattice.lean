import Verif.Model.Automaton
import Verif.Spec.Lattice
import Verif.Lemmas.KeepsG
import Mathlib.Algebra.BigOperators.Ring.Finset
import Mathlib.Tactic.Ring
import Mathlib.Tactic.LinearCombination

namespace Verif.Lemmas
open Verif Verif.Model Verif.Spec Finset

/-! ### The energy change of a flip -/

/-- Changing one term of a sum. -/
theorem sum_change (d q : ℕ) (hq : q < d) (F F' : ℕ → ℝ) (c : ℝ) (h : ∀ j < d, j ≠ q → F' j = F j)
    (hc : F' q = F q + c) : ∑ j ∈ range d, F' j = ∑ j ∈ range d, F j + c := by
  have : ∀ j ∈ range d, F' j = F j + if j = q then c else 0 := by
    intro j hj
    by_cases hjq : j = q
    · rw [hjq, hc, if_pos rfl]
    · rw [h j (mem_range.1 hj) hjq, if_neg hjq, add_zero]
  rw [sum_congr rfl this, sum_add_distrib, sum_ite_eq' (range d) q, if_pos (mem_range.2 hq)]

theorem succ_mod_eq {d p i : ℕ} (hp : p < d) (hi : i < d) : (i + 1) % d = p ↔ i = (p + d - 1) % d := by
  rcases Nat.lt_or_ge (i + 1) d with h | h
  · rw [Nat.mod_eq_of_lt h]
    rcases Nat.eq_zero_or_pos p with h0 | h0
    · subst h0
      rw [Nat.mod_eq_of_lt (by omega)]
      omega
    · rw [show p + d - 1 = p - 1 + d by omega, Nat.add_mod_right, Nat.mod_eq_of_lt (by omega)]
      omega
  · rw [show i + 1 = d by omega, Nat.mod_self]
    rcases Nat.eq_zero_or_pos p with h0 | h0
    · subst h0
      rw [Nat.mod_eq_of_lt (by omega)]
      omega
    · rw [show p + d - 1 = p - 1 + d by omega, Nat.add_mod_right, Nat.mod_eq_of_lt (by omega)]
      omega

/-- A flip on a ring of at least two spins. -/
theorem ring_flip (d p : ℕ) (hd : 2 ≤ d) (hp : p < d) (x x' : ℕ → ℝ) (hne : ∀ i, i ≠ p → x' i = x i)
    (hx : x' p = -x p) :
    ∑ i ∈ range d, x' i * x' ((i + 1) % d) = ∑ i ∈ range d, x i * x ((i + 1) % d) -
      2 * x p * (x ((p + 1) % d) + x ((p + d - 1) % d)) := by
  have hs : (p + 1) % d ≠ p := by
    intro h
    rcases Nat.lt_or_ge (p + 1) d with h1 | h1
    · rw [Nat.mod_eq_of_lt h1] at h; omega
    · rw [show p + 1 = d by omega, Nat.mod_self] at h; omega
  have hterm : ∀ i ∈ range d, x' i * x' ((i + 1) % d) = x i * x ((i + 1) % d) +
      ((if i = p then -2 * x p * x ((p + 1) % d) else 0) +
        if i = (p + d - 1) % d then -2 * x p * x ((p + d - 1) % d) else 0) := by
    intro i hi
    by_cases h1 : i = p
    · subst h1
      have h2 : i ≠ (i + d - 1) % d := fun h => hs ((succ_mod_eq hp hp).2 h)
      rw [if_pos rfl, if_neg h2, hx, hne _ hs]
      ring
    · by_cases h2 : (i + 1) % d = p
      · have h3 := (succ_mod_eq hp (mem_range.1 hi)).1 h2
        rw [if_neg h1, if_pos h3, h2, hx, hne _ h1, ← h3]
        ring
      · rw [if_neg h1, if_neg (fun h => h2 ((succ_mod_eq hp (mem_range.1 hi)).2 h)), hne _ h1, hne _ h2]
        ring
  rw [sum_congr rfl hterm, sum_add_distrib, sum_add_distrib, sum_ite_eq' (range d) p, if_pos (mem_range.2 hp),
    sum_ite_eq' (range d), if_pos (mem_range.2 (Nat.mod_lt _ (by omega)))]
  ring

/-- A flip on the lattice. -/
theorem latticeE_flip (d0 d1 p q : ℕ) (h0 : 2 ≤ d0) (h1 : 2 ≤ d1) (hp : p < d0) (hq : q < d1) (J : ℝ)
    (h s s' : ℕ → ℕ → ℝ) (hne : ∀ i j, ¬ (i = p ∧ j = q) → s' i j = s i j) (hs : s' p q = -s p q) :
    latticeE d0 d1 J h s' = latticeE d0 d1 J h s + 2 * s p q * (J * (s ((p + 1) % d0) q + s ((p + d0 - 1) % d0) q +
      s p ((q + 1) % d1) + s p ((q + d1 - 1) % d1)) + h p q) := by
  have hcol : ∑ i ∈ range d0, ∑ j ∈ range d1, s' i j * s' ((i + 1) % d0) j =
      ∑ i ∈ range d0, ∑ j ∈ range d1, s i j * s ((i + 1) % d0) j -
        2 * s p q * (s ((p + 1) % d0) q + s ((p + d0 - 1) % d0) q) := by
    rw [sum_comm, sum_comm (s := range d0) (t := range d1) (f := fun i j => s i j * s ((i + 1) % d0) j),
      sum_change d1 q hq (fun j => ∑ i ∈ range d0, s i j * s ((i + 1) % d0) j)
        (fun j => ∑ i ∈ range d0, s' i j * s' ((i + 1) % d0) j)
        (-(2 * s p q * (s ((p + 1) % d0) q + s ((p + d0 - 1) % d0) q)))]
    · ring
    · intro j _ hj
      exact sum_congr rfl fun i _ => by rw [hne _ _ fun h => hj h.2, hne _ _ fun h => hj h.2]
    · rw [ring_flip d0 p h0 hp (fun i => s i q) (fun i => s' i q) (fun i hi => hne _ _ fun h => hi h.1) hs]
      ring
  have hrow : ∑ i ∈ range d0, ∑ j ∈ range d1, s' i j * s' i ((j + 1) % d1) =
      ∑ i ∈ range d0, ∑ j ∈ range d1, s i j * s i ((j + 1) % d1) -
        2 * s p q * (s p ((q + 1) % d1) + s p ((q + d1 - 1) % d1)) := by
    rw [sum_change d0 p hp (fun i => ∑ j ∈ range d1, s i j * s i ((j + 1) % d1))
        (fun i => ∑ j ∈ range d1, s' i j * s' i ((j + 1) % d1))
        (-(2 * s p q * (s p ((q + 1) % d1) + s p ((q + d1 - 1) % d1))))]
    · ring
    · intro i _ hi
      exact sum_congr rfl fun j _ => by rw [hne _ _ fun h => hi h.1, hne _ _ fun h => hi h.1]
    · rw [ring_flip d1 q h1 hq (fun j => s p j) (fun j => s' p j) (fun j hj => hne _ _ fun h => hj h.2) hs]
      ring
  have hfield : ∑ i ∈ range d0, ∑ j ∈ range d1, h i j * s' i j = ∑ i ∈ range d0, ∑ j ∈ range d1, h i j * s i j -
      2 * h p q * s p q := by
    rw [sum_change d0 p hp (fun i => ∑ j ∈ range d1, h i j * s i j) (fun i => ∑ j ∈ range d1, h i j * s' i j)
      (-(2 * h p q * s p q))]
    · ring
    · intro i _ hi
      exact sum_congr rfl fun j _ => by rw [hne _ _ fun h => hi h.1]
    · rw [sum_change d1 q hq (fun j => h p j * s p j) (fun j => h p j * s' p j) (-(2 * h p q * s p q))]
      · intro j _ hj
        rw [hne _ _ fun h => hj h.2]
      · rw [hs]; ring
  have hsplit : ∀ t : ℕ → ℕ → ℝ, ∑ i ∈ range d0, ∑ j ∈ range d1, t i j * (t ((i + 1) % d0) j + t i ((j + 1) % d1)) =
      ∑ i ∈ range d0, ∑ j ∈ range d1, t i j * t ((i + 1) % d0) j +
        ∑ i ∈ range d0, ∑ j ∈ range d1, t i j * t i ((j + 1) % d1) := by
    intro t
    simp only [mul_add, sum_add_distrib]
  unfold latticeE
  rw [hsplit s', hsplit s, hcol, hrow, hfield]
  ring

/-! ### Lattices -/

theorem mem_lattices {d0 d1 : ℕ} {L : Mat ℤ} :
    L ∈ lattices d0 d1 ↔ L.HasShape d0 d1 ∧ ∀ row ∈ L, ∀ x ∈ row, x = 1 ∨ x = -1 := by
  unfold lattices Mat.HasShape
  rw [mem_words]
  constructor
  · rintro ⟨h1, h2⟩
    exact ⟨⟨h1, fun row hr => (mem_words.1 (h2 row hr)).1⟩, fun row hr x hx => by
      simpa using (mem_words.1 (h2 row hr)).2 x hx⟩
  · rintro ⟨⟨h1, h2⟩, h3⟩
    exact ⟨h1, fun row hr => mem_words.2 ⟨h2 row hr, fun x hx => by simpa using h3 row hr x hx⟩⟩

theorem lattice_at {d0 d1 : ℕ} {L : Mat ℤ} (hL : L ∈ lattices d0 d1) {i j : ℕ} (hi : i < d0) (hj : j < d1) :
    L.at' i j = 1 ∨ L.at' i j = -1 := by
  obtain ⟨⟨h1, h2⟩, h3⟩ := mem_lattices.1 hL
  have hi' : i < L.length := by omega
  have hrow := h2 _ (List.getElem_mem hi')
  unfold Mat.at'
  rw [List.getD_eq_getElem _ _ hi', List.getD_eq_getElem _ _ (by omega)]
  exact h3 _ (List.getElem_mem hi') _ (List.getElem_mem _)

theorem latNeg_shape {d0 d1 : ℕ} {L : Mat ℤ} (hL : L.HasShape d0 d1) {i : ℕ} (hi : i < d0) (j : ℕ) :
    (latNeg L i j).HasShape d0 d1 := by
  have hi' : i < L.length := by rw [hL.1]; exact hi
  refine ⟨by rw [latNeg, List.length_set, hL.1], fun row hr => ?_⟩
  rcases List.mem_or_eq_of_mem_set hr with h | h
  · exact hL.2 row h
  · rw [h, List.length_set, List.getD_eq_getElem _ _ hi']
    exact hL.2 _ (List.getElem_mem hi')

theorem latNeg_at {d0 d1 : ℕ} {L : Mat ℤ} (hL : L.HasShape d0 d1) {i j : ℕ} (hi : i < d0) (hj : j < d1) (a b : ℕ) :
    (latNeg L i j).at' a b = if a = i ∧ b = j then -L.at' a b else L.at' a b := by
  have hi' : i < L.length := by rw [hL.1]; exact hi
  have hrow : (L.getD i []).length = d1 := by
    rw [List.getD_eq_getElem _ _ hi']; exact hL.2 _ (List.getElem_mem hi')
  unfold latNeg
  by_cases ha : a = i
  · subst ha
    have e : (L.set a ((L.getD a []).set j (L.at' a j * -1))).getD a [] = (L.getD a []).set j (L.at' a j * -1) := by
      rw [List.getD_eq_getElem _ _ (by simpa using hi'), List.getElem_set_self]
    unfold Mat.at' at e ⊢
    rw [e]
    by_cases hb : b = j
    · subst hb
      rw [List.getD_eq_getElem _ _ (by rw [List.length_set, hrow]; exact hj), List.getElem_set_self, if_pos ⟨rfl, rfl⟩]
      ring
    · rw [if_neg (fun h => hb h.2)]
      simp [List.getElem?_set_ne (Ne.symm hb)]
  · rw [if_neg (fun h => ha h.1)]
    unfold Mat.at'
    simp [List.getElem?_set_ne (Ne.symm ha)]

theorem latNeg_mem {d0 d1 : ℕ} {L : Mat ℤ} (hL : L ∈ lattices d0 d1) {i j : ℕ} (hi : i < d0) (hj : j < d1) :
    latNeg L i j ∈ lattices d0 d1 := by
  have hs := (mem_lattices.1 hL).1
  have hs' := latNeg_shape hs hi j
  refine mem_lattices.2 ⟨hs', fun row hr x hx => ?_⟩
  obtain ⟨a, ha, rfl⟩ := List.mem_iff_getElem.1 hr
  obtain ⟨b, hb, rfl⟩ := List.mem_iff_getElem.1 hx
  have ha' : a < d0 := by rw [hs'.1] at ha; exact ha
  have hb' : b < d1 := by rw [hs'.2 _ hr] at hb; exact hb
  have e := latNeg_at hs hi hj a b
  unfold Mat.at' at e
  rw [List.getD_eq_getElem _ _ ha, List.getD_eq_getElem _ _ hb] at e
  rw [e]
  have := lattice_at hL ha' hb'
  unfold Mat.at' at this
  split <;> omega

theorem latNeg_latNeg {d0 d1 : ℕ} {L : Mat ℤ} (hL : L.HasShape d0 d1) {i j : ℕ} (hi : i < d0) (hj : j < d1) :
    latNeg (latNeg L i j) i j = L := by
  refine Mat.ext' (latNeg_shape (latNeg_shape hL hi j) hi j) hL fun a _ b _ => ?_
  rw [latNeg_at (latNeg_shape hL hi j) hi hj, latNeg_at hL hi hj]
  split <;> simp

theorem wrapIx_up (i d : ℕ) : wrapIx i 1 d = (i + 1) % d := by
  unfold wrapIx
  norm_cast

theorem wrapIx_down (i d : ℕ) (hd : i < d) : wrapIx i (-1) d = (i + d - 1) % d := by
  unfold wrapIx
  have e : ((i : ℤ) + -1) % (d : ℤ) = ((i + d - 1 : ℕ) : ℤ) % (d : ℤ) := by
    rw [show ((i + d - 1 : ℕ) : ℤ) = (i : ℤ) + -1 + d by omega, Int.add_emod_right]
  rw [e]
  norm_cast

theorem latBond_eq {d0 d1 : ℕ} {L : Mat ℤ} (hL : L ∈ lattices d0 d1) {i j k l : ℕ} (hi : i < d0) (hj : j < d1)
    (hk : k < d0) (hl : l < d1) (J dE : ℝ) :
    latBond L i j k l J dE = dE + 2 * J * (((L.at' i j : ℤ) : ℝ) * ((L.at' k l : ℤ) : ℝ)) := by
  unfold latBond
  rcases lattice_at hL hi hj with h1 | h1 <;> rcases lattice_at hL hk hl with h2 | h2 <;> rw [h1, h2] <;> norm_num <;> ring

/-- The spins of a lattice as numbers. -/
def latSpins (L : Mat ℤ) (i j : ℕ) : ℝ := ((L.at' i j : ℤ) : ℝ)

/-- The energy change computed by the code is that of the flip for the reversed field. -/
theorem latDE_eq {d0 d1 : ℕ} (h0 : 2 ≤ d0) (h1 : 2 ≤ d1) {L : Mat ℤ} (hL : L ∈ lattices d0 d1) {i j : ℕ} (hi : i < d0)
    (hj : j < d1) (h : ℕ → ℕ → ℝ) (J : ℝ) :
    latDE i j (h i j) J L = latticeE d0 d1 J (fun i j => -h i j) (latSpins (latNeg L i j)) -
      latticeE d0 d1 J (fun i j => -h i j) (latSpins L) := by
  have hs := (mem_lattices.1 hL).1
  rw [latticeE_flip d0 d1 i j h0 h1 hi hj J _ (latSpins L) (latSpins (latNeg L i j))
    (fun a b hab => by unfold latSpins; rw [latNeg_at hs hi hj, if_neg hab])
    (by unfold latSpins; rw [latNeg_at hs hi hj, if_pos ⟨rfl, rfl⟩]; push_cast; ring)]
  unfold latDE
  dsimp only
  rw [hs.1, Mat.ncols_eq hs (by omega), wrapIx_down i d0 hi, wrapIx_down j d1 hj, wrapIx_up, wrapIx_up]
  have m0 : ∀ x, x % d0 < d0 := fun x => Nat.mod_lt _ (by omega)
  have m1 : ∀ x, x % d1 < d1 := fun x => Nat.mod_lt _ (by omega)
  rw [latBond_eq hL hi hj hi (m1 _), latBond_eq hL hi hj hi (m1 _), latBond_eq hL hi hj (m0 _) hj,
    latBond_eq hL hi hj (m0 _) hj]
  unfold latSpins
  ring

end Verif.Lemmas
