/-
The pseudolikelihood of Potts models: which parameters have the same energy differences, smallest points, samples with nearly
the right frequencies.
-/
import Verif.Lemmas.CondExist
import Verif.Lemmas.Pseudo2
import Verif.Spec.PottsFit

namespace Verif.Lemmas
open Verif Verif.Model Verif.Spec

theorem nodup_pottsVals (k : ℕ) : (pottsVals k).Nodup := by
  unfold pottsVals
  exact List.Nodup.map (fun a b h => by simpa using h) List.nodup_range

theorem mem_pottsVals {k : ℕ} {x : ℤ} : x ∈ pottsVals k ↔ ∃ a < k, x = (a : ℤ) := by
  unfold pottsVals
  rw [List.mem_map]
  exact ⟨fun ⟨a, h, e⟩ => ⟨a, List.mem_range.1 h, e.symm⟩, fun ⟨a, h, e⟩ => ⟨a, List.mem_range.2 h, e.symm⟩⟩

theorem words_potts_ne (n k : ℕ) (hk : 1 ≤ k) : words (pottsVals k) n ≠ [] :=
  List.ne_nil_of_mem (a := List.replicate n 0) (mem_words.2 ⟨by simp, fun x hx => by
    rw [List.eq_of_mem_replicate hx]
    exact mem_pottsVals.2 ⟨0, hk, rfl⟩⟩)

/-- The energies of a Potts model as a linear function of the parameters. -/
noncomputable def pottsLin (n k : ℕ) : (Fin (k * n + n * (n - 1) / 2) → ℝ) →ₗ[ℝ] (List ℤ → ℝ) where
  toFun v s := -∑ i, v i * (pottsObs n k fun i => s.getD i 0).getD i 0
  map_add' v w := by
    funext s
    simp only [Pi.add_apply, add_mul, Finset.sum_add_distrib]
    ring
  map_smul' c v := by
    funext s
    simp only [Pi.smul_apply, smul_eq_mul, RingHom.id_apply, mul_assoc, ← Finset.mul_sum]
    ring

theorem pottsLin_apply (n k : ℕ) (v : Fin (k * n + n * (n - 1) / 2) → ℝ) (s : List ℤ) :
    pottsLin n k v s = vecPottsE n k (List.ofFn v) s := by
  unfold vecPottsE
  have hl : (List.ofFn v).length = k * n + n * (n - 1) / 2 := List.length_ofFn
  rw [← dot_pottsObs n k _ _ (by rw [List.length_take, hl]; omega) (by rw [List.length_drop, hl]; omega),
    List.take_append_drop, dot_fin _ _ hl (length_pottsObs _ _ _)]
  simp [pottsLin]

theorem vecPottsE_lin (n k : ℕ) (θ : List ℝ) (hθ : θ.length = k * n + n * (n - 1) / 2) (s : List ℤ) :
    vecPottsE n k θ s = pottsLin n k (fun i => θ.getD i 0) s := by
  rw [pottsLin_apply, ofFn_getD θ hθ]

theorem field_index_lt {n k a r : ℕ} (ha : a < k) (hr : r < n) : a * n + r < k * n :=
  calc a * n + r < a * n + n := by omega
    _ = (a + 1) * n := by ring
    _ ≤ k * n := Nat.mul_le_mul_right _ ha

theorem getD_take_field {n k a r : ℕ} (ha : a < k) (hr : r < n) (θ : List ℝ) :
    (θ.take (k * n)).getD (a * n + r) 0 = θ.getD (a * n + r) 0 := by
  rw [List.getD_eq_getElem?_getD, List.getD_eq_getElem?_getD, List.getElem?_take, if_pos (field_index_lt ha hr)]

/-- The difference of energies of states that differ in one spin. -/
theorem potts_diff {n k r : ℕ} (hr : r < n) (θ : List ℝ) (s : List ℤ) (hs : s.length = n) (x b : ℕ) (hx : x < k) (hb : b < k)
    (hsx : s.getD r 0 = (x : ℤ)) :
    vecPottsE n k θ s - vecPottsE n k θ (s.set r (b : ℤ)) = (θ.getD (b * n + r) 0 - θ.getD (x * n + r) 0) +
      ∑ j ∈ Finset.range n, if j = r then 0 else
        ((if s.getD j 0 = (b : ℤ) then couplingOf n (θ.drop (k * n)) r j else 0) -
          if s.getD j 0 = (x : ℤ) then couplingOf n (θ.drop (k * n)) r j else 0) := by
  rw [← dotDiff_energy hr θ s hs x b hx hb hsx]
  unfold dotDiff
  rw [← potts_sel hr, dot_pottsSpinObs n k _ _ _ r b hb, dot_pottsSpinObs n k _ _ _ r x hx]
  unfold pottsLocal
  rw [getD_take_field hb hr, getD_take_field hx hr, add_sub_add_comm, ← Finset.sum_sub_distrib]
  congr 1
  refine Finset.sum_congr rfl fun j _ => ?_
  split_ifs <;> simp

/-- The coupling with a given number. -/
theorem coupling_getD {n k : ℕ} (θ : List ℝ) (p : ℕ) (hp : p < n * (n - 1) / 2) :
    ∃ i j, i < j ∧ j < n ∧ θ.getD (k * n + p) 0 = couplingAt n (θ.drop (k * n)) i j := by
  have hp' : p < (upperPairs n).length := by rw [length_upperPairs]; exact hp
  obtain ⟨h1, h2⟩ := mem_upperPairs.1 (show ((upperPairs n)[p].1, (upperPairs n)[p].2) ∈ upperPairs n from List.getElem_mem hp')
  refine ⟨_, _, h1, h2, ?_⟩
  unfold couplingAt
  rw [show ((upperPairs n)[p].1, (upperPairs n)[p].2) = (upperPairs n)[p] from rfl, (nodup_upperPairs n).idxOf_getElem p hp',
    List.getD_eq_getElem?_getD, List.getD_eq_getElem?_getD, List.getElem?_drop]

theorem getD_coupling {n k i j : ℕ} (h1 : i < j) (h2 : j < n) (θ : List ℝ) :
    ∃ p < n * (n - 1) / 2, couplingAt n (θ.drop (k * n)) i j = θ.getD (k * n + p) 0 ∧ p = (upperPairs n).idxOf (i, j) := by
  refine ⟨(upperPairs n).idxOf (i, j), ?_, ?_, rfl⟩
  · rw [← length_upperPairs]
    exact List.idxOf_lt_length_of_mem (mem_upperPairs.2 ⟨h1, h2⟩)
  · unfold couplingAt
    rw [List.getD_eq_getElem?_getD, List.getD_eq_getElem?_getD, List.getElem?_drop]

/-- Two parameter vectors with the same field differences and couplings have the same energy differences. -/
theorem diff_of_same {n k : ℕ} {v w : List ℝ} (h : PottsSame n k v w) :
    ∀ s ∈ words (pottsVals k) n, ∀ r < n, ∀ a ∈ pottsVals k,
      vecPottsE n k v (s.set r a) - vecPottsE n k w (s.set r a) = vecPottsE n k v s - vecPottsE n k w s := by
  intro s hs r hr a ha
  obtain ⟨b, hb, rfl⟩ := mem_pottsVals.1 ha
  obtain ⟨x, hx, hsx⟩ := mem_pottsVals.1 (getD_mem_of_words hr hs)
  have e1 := potts_diff hr v s (mem_words.1 hs).1 x b hx hb hsx
  have e2 := potts_diff hr w s (mem_words.1 hs).1 x b hx hb hsx
  have hc : ∀ j ∈ Finset.range n, (if j = r then (0 : ℝ) else
        ((if s.getD j 0 = (b : ℤ) then couplingOf n (v.drop (k * n)) r j else 0) -
          if s.getD j 0 = (x : ℤ) then couplingOf n (v.drop (k * n)) r j else 0)) = if j = r then 0 else
        ((if s.getD j 0 = (b : ℤ) then couplingOf n (w.drop (k * n)) r j else 0) -
          if s.getD j 0 = (x : ℤ) then couplingOf n (w.drop (k * n)) r j else 0) := by
    intro j hj
    by_cases hjr : j = r
    · rw [if_pos hjr, if_pos hjr]
    · have hj' := Finset.mem_range.1 hj
      have : couplingOf n (v.drop (k * n)) r j = couplingOf n (w.drop (k * n)) r j := by
        unfold couplingOf
        have h1 : min r j < max r j := by omega
        have h2 : max r j < n := by omega
        obtain ⟨p, hp, e, hpe⟩ := getD_coupling (k := k) h1 h2 v
        obtain ⟨q, hq, e', hqe⟩ := getD_coupling (k := k) h1 h2 w
        rw [e, e', hqe, ← hpe]
        exact h.2 p hp
      rw [this]
  rw [Finset.sum_congr rfl hc] at e1
  have := h.1 r hr b hb x hx
  linarith

/-- Energy differences determine field differences and couplings, if there are at least two states. -/
theorem same_of_diff {n k : ℕ} (hk : 2 ≤ k) {v w : List ℝ}
    (h : ∀ s ∈ words (pottsVals k) n, ∀ r < n, ∀ a ∈ pottsVals k,
      vecPottsE n k v (s.set r a) - vecPottsE n k w (s.set r a) = vecPottsE n k v s - vecPottsE n k w s) :
    PottsSame n k v w := by
  have key : ∀ s ∈ words (pottsVals k) n, ∀ r < n, ∀ x < k, s.getD r 0 = (x : ℤ) → ∀ b < k,
      (v.getD (b * n + r) 0 - v.getD (x * n + r) 0) +
        ∑ j ∈ Finset.range n, (if j = r then (0 : ℝ) else
          ((if s.getD j 0 = (b : ℤ) then couplingOf n (v.drop (k * n)) r j else 0) -
            if s.getD j 0 = (x : ℤ) then couplingOf n (v.drop (k * n)) r j else 0)) =
      (w.getD (b * n + r) 0 - w.getD (x * n + r) 0) +
        ∑ j ∈ Finset.range n, (if j = r then (0 : ℝ) else
          ((if s.getD j 0 = (b : ℤ) then couplingOf n (w.drop (k * n)) r j else 0) -
            if s.getD j 0 = (x : ℤ) then couplingOf n (w.drop (k * n)) r j else 0)) := by
    intro s hs r hr x hx hsx b hb
    have e1 := potts_diff hr v s (mem_words.1 hs).1 x b hx hb hsx
    have e2 := potts_diff hr w s (mem_words.1 hs).1 x b hx hb hsx
    have := h s hs r hr b (mem_pottsVals.2 ⟨b, hb, rfl⟩)
    rw [← e1, ← e2]
    linarith
  obtain ⟨z, hz⟩ : ∃ z : List ℤ, z = List.replicate n 0 := ⟨_, rfl⟩
  have hzw : z ∈ words (pottsVals k) n := by
    rw [hz]
    exact mem_words.2 ⟨by simp, fun x hx => by
      rw [List.eq_of_mem_replicate hx]
      exact mem_pottsVals.2 ⟨0, by omega, rfl⟩⟩
  have hzl := (mem_words.1 hzw).1
  have hz0 : ∀ i, z.getD i 0 = 0 := fun i => by rw [hz]; simp [List.getD_eq_getElem?_getD, List.getElem?_replicate]; split_ifs <;> rfl
  -- couplings
  have hcoup : ∀ r < n, ∀ j < n, j ≠ r → couplingOf n (v.drop (k * n)) r j = couplingOf n (w.drop (k * n)) r j := by
    intro r hr j hj hjr
    have k0 := key z hzw r hr 0 (by omega) (by simpa using hz0 r) 1 (by omega)
    have k1 := key (z.set j 1) (set_mem_words hzw (mem_pottsVals.2 ⟨1, by omega, rfl⟩)) r hr 0 (by omega) (by
      rw [congrFun (getD_set_fun z j (by omega) 1) r, if_neg (Ne.symm hjr)]
      simpa using hz0 r) 1 (by omega)
    have hg := congrFun (getD_set_fun z j (by omega) 1)
    have s0 : ∀ u : List ℝ, (∑ i ∈ Finset.range n, if i = r then (0 : ℝ) else
          ((if (z.set j 1).getD i 0 = ((1 : ℕ) : ℤ) then couplingOf n (u.drop (k * n)) r i else 0) -
            if (z.set j 1).getD i 0 = ((0 : ℕ) : ℤ) then couplingOf n (u.drop (k * n)) r i else 0)) =
        (∑ i ∈ Finset.range n, if i = r then (0 : ℝ) else
          ((if z.getD i 0 = ((1 : ℕ) : ℤ) then couplingOf n (u.drop (k * n)) r i else 0) -
            if z.getD i 0 = ((0 : ℕ) : ℤ) then couplingOf n (u.drop (k * n)) r i else 0)) +
          2 * couplingOf n (u.drop (k * n)) r j := by
      intro u
      rw [← Finset.sum_erase_add _ _ (Finset.mem_range.2 hj),
        ← Finset.sum_erase_add _ _ (Finset.mem_range.2 hj), add_assoc]
      congr 1
      · refine Finset.sum_congr rfl fun i hi => ?_
        rw [hg, if_neg (Finset.ne_of_mem_erase hi)]
      · rw [if_neg hjr, if_neg hjr, hg, if_pos rfl, hz0]
        norm_num
        ring
    rw [s0, s0] at k1
    linarith
  constructor
  · have hb : ∀ i < n, ∀ b < k, v.getD (b * n + i) 0 - v.getD (0 * n + i) 0 = w.getD (b * n + i) 0 - w.getD (0 * n + i) 0 := by
      intro r hr b hb
      have k0 := key z hzw r hr 0 (by omega) (by simpa using hz0 r) b hb
      have e : ∀ j ∈ Finset.range n, (if j = r then (0 : ℝ) else
          ((if z.getD j 0 = (b : ℤ) then couplingOf n (v.drop (k * n)) r j else 0) -
            if z.getD j 0 = ((0 : ℕ) : ℤ) then couplingOf n (v.drop (k * n)) r j else 0)) = if j = r then (0 : ℝ) else
          ((if z.getD j 0 = (b : ℤ) then couplingOf n (w.drop (k * n)) r j else 0) -
            if z.getD j 0 = ((0 : ℕ) : ℤ) then couplingOf n (w.drop (k * n)) r j else 0) := by
        intro j hj
        by_cases hjr : j = r
        · rw [if_pos hjr, if_pos hjr]
        · rw [hcoup r hr j (Finset.mem_range.1 hj) hjr]
      rw [Finset.sum_congr rfl e] at k0
      linarith
    intro i hi a ha b hb'
    linarith [hb i hi a ha, hb i hi b hb']
  · intro p hp
    obtain ⟨i, j, hij, hj, e⟩ := coupling_getD (k := k) v p hp
    have hp' : p < (upperPairs n).length := by rw [length_upperPairs]; exact hp
    obtain ⟨h1, h2⟩ := mem_upperPairs.1 (show ((upperPairs n)[p].1, (upperPairs n)[p].2) ∈ upperPairs n from List.getElem_mem hp')
    have hc := hcoup (upperPairs n)[p].1 (by omega) (upperPairs n)[p].2 h2 (by omega)
    unfold couplingOf at hc
    rw [min_eq_left h1.le, max_eq_right h1.le] at hc
    unfold couplingAt at hc
    rw [show ((upperPairs n)[p].1, (upperPairs n)[p].2) = (upperPairs n)[p] from rfl,
      (nodup_upperPairs n).idxOf_getElem p hp'] at hc
    simpa [List.getD_eq_getElem?_getD, List.getElem?_drop] using hc

theorem condProb_shift {vals : List ℤ} {r : ℕ} {s : List ℤ} (E E' : List ℤ → ℝ)
    (h : ∀ a ∈ vals, E' (s.set r a) - E (s.set r a) = E' s - E s) : condProb E' vals r s = condProb E vals r s := by
  unfold condProb
  have e : ∀ a ∈ vals, Real.exp (-E' (s.set r a)) = Real.exp (-E (s.set r a)) * Real.exp (-(E' s - E s)) := by
    intro a ha
    rw [← Real.exp_add, ← h a ha]
    congr 1; ring
  rw [list_sum_congr e, list_sum_mul_right]
  have e0 : Real.exp (-E' s) = Real.exp (-E s) * Real.exp (-(E' s - E s)) := by
    rw [← Real.exp_add]
    congr 1; ring
  rw [e0, mul_div_mul_right _ _ (Real.exp_pos _).ne']

/-- The same field differences and couplings: the same pseudolikelihood. -/
theorem pottsNegPL_same {n k : ℕ} {X : List (List ℤ)} (hX : ∀ s ∈ X, s ∈ words (pottsVals k) n) {v w : List ℝ}
    (h : PottsSame n k v w) : pottsNegPL n k X v = pottsNegPL n k X w := by
  unfold pottsNegPL negCondLogLik
  refine list_sum_congr fun r hr => ?_
  congr 1
  refine list_sum_congr fun s hs => ?_
  rw [condProb_shift _ _ fun a ha => diff_of_same h s (hX s hs) r (List.mem_range.1 hr) a ha]

theorem boltzmann_of_const {α : Type*} (S : List α) (E E' : α → ℝ) (h : ∀ s ∈ S, ∀ t ∈ S, E' s - E s = E' t - E t) :
    ∀ s ∈ S, boltzmann S E' s = boltzmann S E s := by
  intro s hs
  have e : ∀ t ∈ S, Real.exp (-E' t) = Real.exp (-E t) * Real.exp (-(E' s - E s)) := by
    intro t ht
    rw [← h t ht s hs, ← Real.exp_add]
    congr 1; ring
  unfold boltzmann partition
  rw [list_sum_congr e, list_sum_mul_right, e s hs, mul_div_mul_right _ _ (Real.exp_pos _).ne']

theorem const_of_boltzmann {α : Type*} (S : List α) (hS : S ≠ []) (E E' : α → ℝ)
    (h : ∀ s ∈ S, boltzmann S E' s = boltzmann S E s) : ∀ s ∈ S, E' s - E s = Real.log (partition S E) - Real.log (partition S E') := by
  intro s hs
  have := congrArg Real.log (h s hs)
  unfold boltzmann at this
  rw [Real.log_div (Real.exp_pos _).ne' (partition_pos S _ hS).ne', Real.log_div (Real.exp_pos _).ne' (partition_pos S _ hS).ne',
    Real.log_exp, Real.log_exp] at this
  linarith

/-- Subtract the field of state 0 from all fields of a spin. -/
noncomputable def fixGauge (n k : ℕ) (θ : List ℝ) (i : Fin (k * n + n * (n - 1) / 2)) : ℝ :=
  if (i : ℕ) < k * n then θ.getD i 0 - θ.getD (i % n) 0 else θ.getD i 0

theorem fixGauge_same (n k : ℕ) (θ : List ℝ) : PottsSame n k (List.ofFn (fixGauge n k θ)) θ := by
  have hget : ∀ i (hi : i < k * n + n * (n - 1) / 2), (List.ofFn (fixGauge n k θ)).getD i 0 = fixGauge n k θ ⟨i, hi⟩ := by
    intro i hi
    rw [List.getD_eq_getElem _ _ (by simpa using hi), List.getElem_ofFn]
  constructor
  · intro i hi a ha b hb
    have h1 := field_index_lt ha hi
    have h2 := field_index_lt hb hi
    rw [hget _ (by omega), hget _ (by omega)]
    unfold fixGauge
    simp only [h1, h2, if_true, Nat.mul_add_mod_self_right, Nat.mod_eq_of_lt hi]
    ring
  · intro p hp
    rw [hget _ (by omega)]
    unfold fixGauge
    simp

/-- Parameters whose fields of state 0 are 0. -/
def gaugeSpace (n k : ℕ) : Submodule ℝ (Fin (k * n + n * (n - 1) / 2) → ℝ) where
  carrier := {v | ∀ i : Fin (k * n + n * (n - 1) / 2), (i : ℕ) < n → v i = 0}
  add_mem' {v w} hv hw i hi := by
    rw [Pi.add_apply, hv i hi, hw i hi, add_zero]
  zero_mem' i _ := rfl
  smul_mem' c v hv i hi := by
    rw [Pi.smul_apply, hv i hi, smul_zero]

theorem fixGauge_mem (n k : ℕ) (hk : 1 ≤ k) (θ : List ℝ) : fixGauge n k θ ∈ gaugeSpace n k := by
  intro i hi
  unfold fixGauge
  have : (i : ℕ) < k * n := lt_of_lt_of_le hi (Nat.le_mul_of_pos_left n hk)
  rw [if_pos this, Nat.mod_eq_of_lt hi, sub_self]

theorem getD_zero (m i : ℕ) : (List.ofFn (fun _ : Fin m => (0 : ℝ))).getD i 0 = 0 := by
  by_cases h : i < m
  · rw [List.getD_eq_getElem _ _ (by simpa using h), List.getElem_ofFn]
  · rw [List.getD_eq_default _ _ (by simpa using h)]

theorem gauge_zero (n k : ℕ) (hk : 2 ≤ k) (v : Fin (k * n + n * (n - 1) / 2) → ℝ) (hv : v ∈ gaugeSpace n k)
    (h : ∀ s ∈ words (pottsVals k) n, ∀ r < n, ∀ a ∈ pottsVals k, pottsLin n k v (s.set r a) = pottsLin n k v s) : v = 0 := by
  have hs : PottsSame n k (List.ofFn v) (List.ofFn fun _ : Fin (k * n + n * (n - 1) / 2) => (0 : ℝ)) := by
    refine same_of_diff hk fun s hs r hr a ha => ?_
    rw [← pottsLin_apply, ← pottsLin_apply, ← pottsLin_apply, ← pottsLin_apply, h s hs r hr a ha]
    have : pottsLin n k (fun _ => 0) = 0 := (pottsLin n k).map_zero
    rw [this]
    simp
  have hget : ∀ i (hi : i < k * n + n * (n - 1) / 2), (List.ofFn v).getD i 0 = v ⟨i, hi⟩ := by
    intro i hi
    rw [List.getD_eq_getElem _ _ (by simpa using hi), List.getElem_ofFn]
  funext ⟨i, hi⟩
  show v ⟨i, hi⟩ = 0
  by_cases hik : i < k * n
  · have hn : 0 < n := Nat.pos_of_ne_zero fun h0 => by subst h0; simp at hik
    have ha : i / n < k := Nat.div_lt_of_lt_mul (by rw [Nat.mul_comm]; exact hik)
    have hm : i % n < n := Nat.mod_lt _ hn
    have e : i / n * n + i % n = i := by rw [Nat.mul_comm]; exact Nat.div_add_mod i n
    have h1 := hs.1 (i % n) hm (i / n) ha 0 (by omega)
    have hlt : 0 * n + i % n < k * n + n * (n - 1) / 2 := by
      have := field_index_lt (k := k) (a := 0) (by omega) hm
      omega
    have h2 := hv ⟨0 * n + i % n, hlt⟩ (by simpa using hm)
    rw [e, getD_zero, getD_zero, hget i hi, hget _ hlt, h2] at h1
    linarith
  · obtain ⟨p, rfl⟩ : ∃ p, i = k * n + p := ⟨i - k * n, by omega⟩
    have := hs.2 p (by omega)
    rwa [getD_zero, hget _ hi] at this

/-- The energies restricted to parameters whose fields of state 0 are 0. -/
noncomputable def gaugeLin (n k : ℕ) : gaugeSpace n k →ₗ[ℝ] (List ℤ → ℝ) := (pottsLin n k).comp (gaugeSpace n k).subtype

theorem pottsNegPL_gauge (n k : ℕ) (hk : 1 ≤ k) {X : List (List ℤ)} (hX : ∀ s ∈ X, s ∈ words (pottsVals k) n) (v : List ℝ) :
    pottsNegPL n k X v = negPL (pottsVals k) n X (gaugeLin n k ⟨fixGauge n k v, fixGauge_mem n k hk v⟩) := by
  rw [← pottsNegPL_same hX (fixGauge_same n k v)]
  have : gaugeLin n k ⟨fixGauge n k v, fixGauge_mem n k hk v⟩ = vecPottsE n k (List.ofFn (fixGauge n k v)) := by
    funext s
    exact pottsLin_apply n k _ s
  rw [this]
  rfl

/-- Potts samples with nearly the right frequencies: parameters whose pseudolikelihood is at least that of the truth are near
the truth. -/
theorem potts_stable (n k : ℕ) (hk : 2 ≤ k) (θ : List ℝ) (hθ : θ.length = k * n + n * (n - 1) / 2) (ε : ℝ) (hε : 0 < ε) :
    ∃ δ, 0 < δ ∧ ∀ X, PottsCloseTo n k θ δ X → ∀ v : List ℝ, v.length = k * n + n * (n - 1) / 2 →
      pottsNegPL n k X v ≤ pottsNegPL n k X θ → PottsNear n k ε v θ := by
  have hk1 : 1 ≤ k := by omega
  obtain ⟨t, ht⟩ : ∃ t : gaugeSpace n k, t = ⟨fixGauge n k θ, fixGauge_mem n k hk1 θ⟩ := ⟨_, rfl⟩
  have htE : gaugeLin n k t = vecPottsE n k (List.ofFn (fixGauge n k θ)) := by
    rw [ht]
    funext s
    exact pottsLin_apply n k _ s
  obtain ⟨δ, hδ, h⟩ := negPL_stable (nodup_pottsVals k) (words_potts_ne n k hk1) (gaugeLin n k) (fun w hw => by
    exact Subtype.ext (gauge_zero n k hk w.1 w.2 hw)) t (ε / 2) (by positivity)
  refine ⟨δ, hδ, fun X hX v hv hle => ?_⟩
  rw [pottsNegPL_gauge n k hk1 hX.2.1, pottsNegPL_gauge n k hk1 hX.2.1, ← ht] at hle
  have hb : ∀ s ∈ words (pottsVals k) n, boltzmann (words (pottsVals k) n) (gaugeLin n k t) s =
      boltzmann (words (pottsVals k) n) (vecPottsE n k θ) s := by
    rw [htE]
    exact boltzmann_of_const _ _ _ (const_of_sets (vals := pottsVals k) (n := n)
      (fun s => vecPottsE n k (List.ofFn (fixGauge n k θ)) s - vecPottsE n k θ s)
      fun r hr s hs a ha => diff_of_same (fixGauge_same n k θ) s hs r hr a ha)
  have hnorm := h X hX.1 hX.2.1 (fun s hs => by rw [hb s hs]; exact hX.2.2 s hs) _ hle
  rw [ht] at hnorm
  have hcomp : ∀ i : Fin (k * n + n * (n - 1) / 2), |fixGauge n k v i - fixGauge n k θ i| < ε / 2 := by
    intro i
    have hn : ‖fixGauge n k v - fixGauge n k θ‖ < ε / 2 := hnorm
    have := (pi_norm_lt_iff (by positivity)).1 hn i
    simpa [Real.norm_eq_abs] using this
  refine ⟨hv.trans hθ.symm, fun i hi a ha b hb' => ?_, fun p hp => ?_⟩
  · have h1 := field_index_lt ha hi
    have h2 := field_index_lt hb' hi
    have c1 := hcomp ⟨a * n + i, by omega⟩
    have c2 := hcomp ⟨b * n + i, by omega⟩
    unfold fixGauge at c1 c2
    simp only [h1, h2, if_true, Nat.mul_add_mod_self_right, Nat.mod_eq_of_lt hi] at c1 c2
    rw [abs_lt] at c1 c2 ⊢
    constructor <;> linarith [c1.1, c1.2, c2.1, c2.2]
  · have c := hcomp ⟨k * n + p, by omega⟩
    unfold fixGauge at c
    simp only [Nat.not_lt.2 (Nat.le_add_right (k * n) p), if_false] at c
    linarith

/-- When the pseudolikelihood of a Potts model has a maximum. -/
theorem potts_attained_iff (n k : ℕ) {X : List (List ℤ)} (hX : ∀ s ∈ X, s ∈ words (pottsVals k) n) :
    (∃ v : List ℝ, v.length = k * n + n * (n - 1) / 2 ∧ ∀ w : List ℝ, w.length = k * n + n * (n - 1) / 2 →
      pottsNegPL n k X v ≤ pottsNegPL n k X w) ↔
    ∀ w : List ℝ, w.length = k * n + n * (n - 1) / 2 → ¬ PottsStable n k X w := by
  have h := negPL_attained_iff hX (pottsLin n k)
  have e : ∀ v, pottsLin n k v = vecPottsE n k (List.ofFn v) := fun v => funext fun s => pottsLin_apply n k v s
  rw [exists_ofFn, forall_ofFn]
  simp only [forall_ofFn]
  simp only [e] at h
  refine h.trans (forall_congr' fun w => ⟨fun h1 h2 => ?_, fun h1 h2 s hs r hr a ha => ?_⟩)
  · obtain ⟨h3, s, hs, r, hr, a, ha, hlt⟩ := h2
    exact hlt.ne (h1 h3 s hs r hr a ha).symm
  · by_contra hne
    exact h1 ⟨h2, s, hs, r, hr, a, ha, lt_of_le_of_ne (h2 s hs r hr a ha) (Ne.symm hne)⟩

/-- How the maxima of the pseudolikelihood differ. -/
theorem potts_minima (n k : ℕ) {X : List (List ℤ)} (hX : ∀ s ∈ X, s ∈ words (pottsVals k) n) (v w : List ℝ)
    (hv : v.length = k * n + n * (n - 1) / 2) (hw : w.length = k * n + n * (n - 1) / 2)
    (hmin : ∀ u : List ℝ, u.length = k * n + n * (n - 1) / 2 → pottsNegPL n k X v ≤ pottsNegPL n k X u) :
    pottsNegPL n k X w ≤ pottsNegPL n k X v ↔ ∀ s ∈ X, ∀ r < n, ∀ a ∈ pottsVals k,
      vecPottsE n k w (s.set r a) - vecPottsE n k v (s.set r a) = vecPottsE n k w s - vecPottsE n k v s := by
  have e : ∀ v, pottsLin n k v = vecPottsE n k (List.ofFn v) := fun v => funext fun s => pottsLin_apply n k v s
  have h := negPL_minima hX (pottsLin n k) (fun i => v.getD i 0) (fun i => w.getD i 0) fun u => by
    rw [e, e, ofFn_getD v hv]
    exact hmin _ List.length_ofFn
  rw [e, e, ofFn_getD v hv, ofFn_getD w hw] at h
  exact h

end Verif.Lemmas
