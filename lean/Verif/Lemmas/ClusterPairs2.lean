/-
The result of `ClusterExpansion.solve` when no spin is in two kept pairs.
-/
import Verif.Lemmas.ClusterPairs
import Verif.Lemmas.Paired2
import Verif.Lemmas.Cluster7
import Verif.Lemmas.GuideSummary

namespace Verif.Lemmas
open Verif Verif.Model Verif.Spec Verif.Props

/-! ### Frequencies of a sample -/

theorem avg_freq {n : ℕ} {X : List (List ℤ)} (hX : ∀ r ∈ X, r ∈ words [1, -1] n) (g : List ℤ → ℝ) :
    avg X g = ((words [1, -1] n).map fun s => stateFreq X s * g s).sum := by
  unfold avg
  rw [sum_by_count (words [1, -1] n) X (nodup_words (by decide) n) hX g, div_eq_mul_inv, mul_comm, ← list_sum_mul_left]
  refine list_sum_congr fun s _ => ?_
  unfold stateFreq
  rw [div_eq_mul_inv]
  ring

theorem cooc_pair {n : ℕ} {X : List (List ℤ)} (hX : ∀ r ∈ X, r ∈ words [1, -1] n) (i j : ℕ) (hi : i < n) (hj : j < n) :
    avg X (fun r => ((r.getD i 0 : ℤ) + 1 : ℝ) / 2 * (((r.getD j 0 : ℤ) + 1) / 2)) = pairProb n (stateFreq X) i j 1 1 := by
  rw [avg_freq hX]
  refine list_sum_congr fun s hs => ?_
  rcases spin_pm hs hi with h | h <;> rcases spin_pm hs hj with h' | h' <;> rw [h, h'] <;> norm_num

theorem pairProb_self (n : ℕ) (p : List ℤ → ℝ) (i : ℕ) : pairProb n p i i 1 1 = spinProb n p i 1 := by
  unfold pairProb spinProb
  simp only [and_self]

theorem stateFreq_sum {n : ℕ} {X : List (List ℤ)} (hne : X ≠ []) (hX : ∀ r ∈ X, r ∈ words [1, -1] n) :
    ((words [1, -1] n).map (stateFreq X)).sum = 1 := by
  have h := avg_freq hX fun _ => 1
  simp only [mul_one] at h
  rw [← h]
  unfold avg
  have : (X.length : ℝ) ≠ 0 := by simpa using hne
  simp [this]

theorem stateFreq_positive {n : ℕ} {X : List (List ℤ)} (hne : X ≠ []) (hX : ∀ r ∈ X, r ∈ words [1, -1] n)
    (hall : ∀ i < n, ∀ j < n, i ≠ j → ∀ a b : ℤ, a = 1 ∨ a = -1 → b = 1 ∨ b = -1 →
      ∃ r ∈ X, r.getD i 0 = a ∧ r.getD j 0 = b) : PairPositive n (stateFreq X) := by
  refine ⟨stateFreq_sum hne hX, fun i hi j hj hij a b ha hb => ?_⟩
  obtain ⟨r, hr, hab⟩ := hall i hi j hj hij a b ha hb
  have hl : (0 : ℝ) < X.length := by
    have := List.length_pos_iff.2 hne
    exact_mod_cast this
  have h0 : ∀ s, 0 ≤ stateFreq X s := fun s => div_nonneg (Nat.cast_nonneg _) hl.le
  have h1 : 0 < stateFreq X r := div_pos (by exact_mod_cast List.count_pos_iff.2 hr) hl
  refine lt_of_lt_of_le h1 ?_
  unfold pairProb
  have := List.single_le_sum (l := (words ([1, -1] : List ℤ) n).map fun s =>
    if s.getD i 0 = a ∧ s.getD j 0 = b then stateFreq X s else 0) (by
      intro y hy
      obtain ⟨s, -, rfl⟩ := List.mem_map.1 hy
      split_ifs
      · exact h0 s
      · exact le_refl _) (stateFreq X r) (List.mem_map.2 ⟨r, hX r hr, by rw [if_pos hab]⟩)
  exact this

/-! ### Mutual information -/

theorem mutualInfo_nonneg {n : ℕ} {p : List ℤ → ℝ} (hp : PairPositive n p) (hn : 2 ≤ n) (i j : ℕ) (hi : i < n) (hj : j < n)
    (hij : i ≠ j) : 0 ≤ mutualInfo n p i j := by
  have key : ∀ x y : ℝ, 0 < x → 0 < y → x - y ≤ x * Real.log (x / y) := by
    intro x y hx hy
    have h := Real.one_sub_inv_le_log_of_pos (div_pos hx hy)
    have h2 := mul_le_mul_of_nonneg_left h hx.le
    rw [inv_div, mul_sub, mul_one, mul_div_cancel₀ _ hx.ne'] at h2
    exact h2
  have pos := hp.pos i hi j hj hij
  have si := spinProb_pos hp hn i hi
  have sj := spinProb_pos hp hn j hj
  have a1 := key _ _ (pos 1 1 (by simp) (by simp)) (mul_pos (si 1 (by simp)) (sj 1 (by simp)))
  have a2 := key _ _ (pos 1 (-1) (by simp) (by simp)) (mul_pos (si 1 (by simp)) (sj (-1) (by simp)))
  have a3 := key _ _ (pos (-1) 1 (by simp) (by simp)) (mul_pos (si (-1) (by simp)) (sj 1 (by simp)))
  have a4 := key _ _ (pos (-1) (-1) (by simp) (by simp)) (mul_pos (si (-1) (by simp)) (sj (-1) (by simp)))
  have b1 := spinProb_split n p i j hj 1
  have b2 := spinProb_split n p i j hj (-1)
  have b3 := spinProb_sum hp i hi
  have b4 := spinProb_sum hp j hj
  have b5 : (spinProb n p i 1 + spinProb n p i (-1)) * (spinProb n p j 1 + spinProb n p j (-1)) = 1 := by rw [b3, b4, one_mul]
  rw [mutualInfo_eq]
  unfold linkRatio
  dsimp only
  nlinarith

theorem mutualInfo_comm (n : ℕ) (p : List ℤ → ℝ) (i j : ℕ) : mutualInfo n p i j = mutualInfo n p j i := by
  rw [mutualInfo_eq, mutualInfo_eq]
  unfold linkRatio
  dsimp only
  rw [pairProb_swap n p i j 1 1, pairProb_swap n p i j (-1) 1, pairProb_swap n p i j 1 (-1), pairProb_swap n p i j (-1) (-1)]
  simp only [mul_comm (spinProb n p j _) (spinProb n p i _)]
  ring

theorem mutualInfo_entropies {n : ℕ} {p : List ℤ → ℝ} (hp : PairPositive n p) (hn : 2 ≤ n) (i j : ℕ) (hi : i < n) (hj : j < n)
    (hij : i ≠ j) : mutualInfo n p i j = siteEntropy n p i + siteEntropy n p j +
      (pairProb n p i j 1 1 * Real.log (pairProb n p i j 1 1) + pairProb n p i j 1 (-1) * Real.log (pairProb n p i j 1 (-1)) +
       pairProb n p i j (-1) 1 * Real.log (pairProb n p i j (-1) 1) +
       pairProb n p i j (-1) (-1) * Real.log (pairProb n p i j (-1) (-1))) := by
  have hlog : ∀ a b : ℤ, a = 1 ∨ a = -1 → b = 1 ∨ b = -1 → Real.log (linkRatio n p (i, j) a b) =
      Real.log (pairProb n p i j a b) - Real.log (spinProb n p i a) - Real.log (spinProb n p j b) := by
    intro a b ha hb
    have pi := spinProb_pos hp hn i hi a ha
    have pj := spinProb_pos hp hn j hj b hb
    rw [linkRatio, Real.log_div (hp.pos i hi j hj hij a b ha hb).ne' (mul_pos pi pj).ne', Real.log_mul pi.ne' pj.ne']
    ring
  rw [mutualInfo_eq, hlog 1 1 (by simp) (by simp), hlog 1 (-1) (by simp) (by simp), hlog (-1) 1 (by simp) (by simp),
    hlog (-1) (-1) (by simp) (by simp)]
  unfold siteEntropy
  have b1 := spinProb_split n p i j hj 1
  have b2 := spinProb_split n p i j hj (-1)
  have b3 := spinProb_split' n p i j hi 1
  have b4 := spinProb_split' n p i j hi (-1)
  generalize Real.log (spinProb n p i 1) = l1 at *
  generalize Real.log (spinProb n p i (-1)) = l2 at *
  generalize Real.log (spinProb n p j 1) = l3 at *
  generalize Real.log (spinProb n p j (-1)) = l4 at *
  rw [b1, b2, b3, b4]
  ring

theorem linked_pairing {n : ℕ} {p : List ℤ → ℝ} {T : ℝ} (h : Disjointed n (Linked n p T)) : Pairing n (Linked n p T) :=
  ⟨fun i j hij => ⟨hij.1.symm, by rw [mutualInfo_comm]; exact hij.2⟩, fun i j hij => hij.1, h⟩

/-! ### Energies -/

theorem pair_unique (n : ℕ) (v w : List ℝ) (hv : v.length = n + n * (n - 1) / 2) (hw : w.length = n + n * (n - 1) / 2) (c : ℝ)
    (h : ∀ s ∈ words [1, -1] n, pairE n v s = pairE n w s + c) : v = w := by
  refine order_unique n 2 true v w (by rw [hv, orderTuples_two]; simp [length_upperPairs]) (by rw [hw, orderTuples_two]; simp [length_upperPairs]) c fun s hs => ?_
  rw [← pairE_order n v hv, ← pairE_order n w hw]
  exact h s (mem_words_pm.2 hs)

theorem Fits.congr_moments {A : Finset ℕ} {C C' J : ℕ → ℕ → ℝ} (h : Fits A C J) (hC : ∀ i ∈ A, ∀ j ∈ A, C' i j = C i j) :
    Fits A C' J := ⟨h.symm, h.supp, fun i hi j hj => by rw [h.moments i hi j hj, hC i hi j hj]⟩

theorem quadE_duo (n : ℕ) {i j : ℕ} (hi : i < n) (hj : j < n) (hij : i ≠ j) (p00 p10 p01 p11 : ℝ) (x : ℕ → ℝ) :
    quadE n (duoJ i j p00 p10 p01 p11) x = (Real.log p00 - Real.log p10) * x i + (Real.log p00 - Real.log p01) * x j +
      (Real.log p10 + Real.log p01 - Real.log p11 - Real.log p00) * x i * x j := by
  unfold quadE
  have h1 : ∀ k ∈ Finset.range n, duoJ i j p00 p10 p01 p11 k k * x k =
      (if k = i then (Real.log p00 - Real.log p10) * x i else 0) + if k = j then (Real.log p00 - Real.log p01) * x j else 0 := by
    intro k _
    unfold duoJ
    by_cases a : k = i
    · subst a; simp [hij]
    · by_cases b : k = j
      · subst b; simp [a]
      · simp [a, b]
  have h2 : ∀ a ∈ Finset.range n, ∀ b ∈ Finset.range n, (if a = b then 0 else duoJ i j p00 p10 p01 p11 a b * x a * x b) =
      (if a = i then (if b = j then (Real.log p10 + Real.log p01 - Real.log p11 - Real.log p00) / 2 * x i * x j else 0) else 0) +
      (if a = j then (if b = i then (Real.log p10 + Real.log p01 - Real.log p11 - Real.log p00) / 2 * x i * x j else 0) else 0) := by
    intro a _ b _
    unfold duoJ
    by_cases a1 : a = i
    · subst a1
      by_cases b1 : b = j
      · subst b1; simp [hij, hij.symm]
      · by_cases b2 : b = a
        · subst b2; simp [hij]
        · simp [b1, b2, hij]
    · by_cases a2 : a = j
      · subst a2
        by_cases b1 : b = i
        · subst b1; simp [a1, hij]; simp only [mul_assoc, mul_comm (x a)]
        · by_cases b2 : b = a
          · subst b2; simp [a1]
          · simp [b1, b2, a1]
      · simp [a1, a2]
  rw [Finset.sum_congr rfl h1, Finset.sum_congr rfl fun a ha => Finset.sum_congr rfl (h2 a ha)]
  simp only [Finset.sum_add_distrib]
  simp [Finset.sum_ite_eq', hi, hj]
  ring

/-- A matrix of `n` rows and columns as a function of natural numbers. -/
noncomputable def extendM (n : ℕ) (M : Fin n → Fin n → ℝ) (i j : ℕ) : ℝ :=
  if h : i < n ∧ j < n then M ⟨i, h.1⟩ ⟨j, h.2⟩ else 0

theorem quadE_add (n : ℕ) (J J' : ℕ → ℕ → ℝ) (x : ℕ → ℝ) :
    quadE n (fun i j => J i j + J' i j) x = quadE n J x + quadE n J' x := by
  unfold quadE
  simp only [add_mul]
  have : ∀ a b : ℕ, (if a = b then (0 : ℝ) else J a b * x a * x b + J' a b * x a * x b) =
      (if a = b then 0 else J a b * x a * x b) + if a = b then 0 else J' a b * x a * x b := by
    intro a b; split_ifs <;> simp
  simp only [this, Finset.sum_add_distrib]
  ring

/-- The energy of the couplings. -/
noncomputable def energyHom (n : ℕ) (x : ℕ → ℝ) : (ℝ × (Fin n → Fin n → ℝ)) →+ ℝ where
  toFun v := quadE n (extendM n v.2) x
  map_zero' := by
    have : extendM n (0 : ℝ × (Fin n → Fin n → ℝ)).2 = fun _ _ => 0 := by
      funext i j; unfold extendM; split_ifs <;> rfl
    rw [this]
    simp [quadE]
  map_add' a b := by
    rw [← quadE_add]
    congr 1
    funext i j
    unfold extendM
    split_ifs
    · rfl
    · simp

theorem energyHom_fun (n : ℕ) (x : ℕ → ℝ) (e : ℝ) (J : ℕ → ℕ → ℝ) :
    energyHom n x (e, fun i j : Fin n => J i j) = quadE n J x := by
  show quadE n (extendM n fun i j : Fin n => J i j) x = _
  refine quadE_congr n _ _ _ _ (fun i hi j hj => ?_) fun _ _ => rfl
  rw [extendM, dif_pos ⟨hi, hj⟩]

/-- The asymmetry of the couplings. -/
def asymHom (n : ℕ) (i j : Fin n) : (ℝ × (Fin n → Fin n → ℝ)) →+ ℝ where
  toFun v := v.2 i j - v.2 j i
  map_zero' := by simp
  map_add' a b := by
    simp only [Prod.snd_add, Pi.add_apply]
    ring

theorem asymHom_fit (n : ℕ) (C : ℕ → ℕ → ℝ) (A : Finset ℕ) (i j : Fin n) : asymHom n i j (fitVal n C A) = 0 := by
  show (fitVal n C A).2 i j - (fitVal n C A).2 j i = 0
  unfold fitVal
  split_ifs with h
  · rw [sub_eq_zero]; exact h.choose_spec.symm _ _
  · simp

end Verif.Lemmas
