/-
A fitted cluster matrix embedded in the matrix of all spins; existence of a fit.
-/
import Verif.Lemmas.Cluster5
import Verif.Lemmas.Exists

namespace Verif.Lemmas
open Verif Verif.Model Verif.Spec Verif.Props

/-- `S` once the couplings of the cluster are known. -/
theorem clusterS_of_fit {lsq : (List ℝ → Py (List ℝ)) → List ℝ → Py (List ℝ)} {M : Mat ℝ} {n : ℕ}
    (hM : M.HasShape n n) (C : ℕ → ℕ → ℝ) (hCs : ∀ i j, C i j = C j i) (c : List ℕ) (hc : c.Nodup)
    (hne : c ≠ []) (hcn : ∀ i ∈ c, i < n) (logName : Option (ℝ → ℝ)) (an : Bool) (lam : ℝ)
    (ns : Option ℕ) (J : Mat ℝ) (hJ : clusterFit logName lsq M an lam ns c = .ok J)
    (j2 : J.HasShape c.length c.length)
    (j3 : ∀ i < c.length, ∀ j < c.length, J.at' i j = J.at' j i)
    (j4 : ∀ a b (ha : a < c.length) (hb : b < c.length), a ≤ b →
      expect (words [(0 : ℤ), 1] c.length) (fun s => quadE c.length (fun i j => J.at' i j) (spins s))
        (fun s => spins s a * spins s b) = C c[a] c[b]) :
    ∃ J, clusterS logName lsq M an lam ns c = .ok (setEntropy c.toFinset fun i j => J.at' i j, J) ∧
      J.HasShape n n ∧ Fits c.toFinset C fun i j => J.at' i j := by
  have hlen : 1 ≤ c.length := List.length_pos_iff.2 hne
  obtain ⟨Jf, f1, f2, f3, f4, f5⟩ := embed_fits hc hcn j2 j3
  have hq : ∀ s : List ℤ, quadE c.length (fun i j => J.at' i j) (spins s) =
      quadE c.length (fun a b => Jf.at' (c.getD a 0) (c.getD b 0)) (spins s) := fun s =>
    quadE_congr _ _ _ _ _ (fun a ha b hb => (f3 a ha b hb).symm) fun _ _ => rfl
  have hmom : ∀ a b (ha : a < c.length) (hb : b < c.length), a ≤ b →
      setMoment c.toFinset (fun i j => Jf.at' i j) c[a] c[b] = C c[a] c[b] := by
    intro a b ha hb hab
    have := j4 a b ha hb hab
    simp only [hq] at this
    rw [expect_onSet c hc (fun i j => Jf.at' i j) a b ha hb] at this
    exact this
  refine ⟨Jf, ?_, f2, f4, f5, ?_⟩
  · have hent : analyticEntropy J = .ok (setEntropy c.toFinset fun i j => Jf.at' i j) := by
      rw [analyticEntropy_ok j2 hlen, ← entropy_onSet c hc]
      simp only [hq]
    rw [clusterS, hJ]
    simp only [hM.1, f1, hent]
  · intro i hi j hj
    obtain ⟨a, ha, rfl⟩ := List.getElem_of_mem (List.mem_toFinset.1 hi)
    obtain ⟨b, hb, rfl⟩ := List.getElem_of_mem (List.mem_toFinset.1 hj)
    rcases le_total a b with h | h
    · exact hmom a b ha hb h
    · rw [setMoment_comm, hmom b a hb ha h, hCs]

/-- Symmetric matrices on a set of spins. -/
def symMat (A : Finset ℕ) : Submodule ℝ (A → A → ℝ) where
  carrier := {J | ∀ i j, J i j = J j i}
  add_mem' := fun {a b} ha hb i j => by simp [ha i j, hb i j]
  zero_mem' := fun _ _ => rfl
  smul_mem' := fun r a ha i j => by simp [ha i j]

/-- Extension by zero. -/
def extendZero (A : Finset ℕ) (J : A → A → ℝ) (i j : ℕ) : ℝ :=
  if h : i ∈ A ∧ j ∈ A then J ⟨i, h.1⟩ ⟨j, h.2⟩ else 0

/-- The energy as a linear map. -/
noncomputable def setELin (A : Finset ℕ) : symMat A →ₗ[ℝ] (Finset ℕ → ℝ) where
  toFun J X := setE (extendZero A J) X
  map_add' J J' := by
    funext X
    simp only [setE, Pi.add_apply, ← Finset.sum_add_distrib]
    refine Finset.sum_congr rfl fun i _ => Finset.sum_congr rfl fun j _ => ?_
    unfold extendZero
    split <;> simp
  map_smul' r J := by
    funext X
    simp only [setE, Pi.smul_apply, smul_eq_mul, Finset.mul_sum, RingHom.id_apply]
    refine Finset.sum_congr rfl fun i _ => Finset.sum_congr rfl fun j _ => ?_
    unfold extendZero
    split <;> simp

theorem expect_toList (A : Finset ℕ) (J : ℕ → ℕ → ℝ) (f : Finset ℕ → ℝ) :
    expect A.powerset.toList (setE J) f = ∑ X ∈ A.powerset, setProb A J X * f X := by
  unfold expect boltzmann partition setProb
  rw [Finset.sum_map_toList, Finset.sum_map_toList]

/-- Every positive distribution on the states of a set of spins has the pair frequencies of a pairwise
model. -/
theorem exists_fits (A : Finset ℕ) (p : Finset ℕ → ℝ) (hpos : ∀ X ∈ A.powerset, 0 < p X)
    (hsum : ∑ X ∈ A.powerset, p X = 1) :
    ∃ J, Fits A (fun i j => ∑ X ∈ A.powerset with i ∈ X ∧ j ∈ X, p X) J := by
  have hid : ∀ v : symMat A, (∃ c, ∀ s ∈ A.powerset.toList, setELin A v s = c) → v = 0 := by
    rintro v ⟨c, hc⟩
    have h0 : c = 0 := by
      rw [← hc ∅ (by simp)]
      simp [setELin, setE]
    have h1 : ∀ i (hi : i ∈ A), (v : A → A → ℝ) ⟨i, hi⟩ ⟨i, hi⟩ = 0 := by
      intro i hi
      have := hc {i} (by simpa using hi)
      rw [h0] at this
      simpa [setELin, setE, extendZero, hi] using this
    have h2 : ∀ i (hi : i ∈ A) j (hj : j ∈ A), i ≠ j → (v : A → A → ℝ) ⟨i, hi⟩ ⟨j, hj⟩ = 0 := by
      intro i hi j hj hij
      have := hc {i, j} (by
        rw [Finset.mem_toList, Finset.mem_powerset]
        intro x hx
        rcases Finset.mem_insert.1 hx with rfl | hx
        · exact hi
        · rw [Finset.mem_singleton.1 hx]; exact hj)
      rw [h0] at this
      have hs := v.2 ⟨j, hj⟩ ⟨i, hi⟩
      simp only [setELin, setE, LinearMap.coe_mk, AddHom.coe_mk, Finset.sum_pair hij, extendZero, hi, hj,
        and_self, dif_pos, h1] at this
      linarith
    apply Subtype.ext
    funext i j
    by_cases hij : (i : ℕ) = j
    · obtain rfl : i = j := Subtype.ext hij
      exact h1 i i.2
    · exact h2 i i.2 j j.2 hij
  obtain ⟨v, hv⟩ := exists_model A.powerset.toList
    (by
      intro h
      have h' : (∅ : Finset ℕ) ∈ A.powerset.toList := by simp
      rw [h] at h'
      cases h')
    p (by rw [Finset.sum_map_toList]; exact hsum)
    (fun s hs => hpos s (by simpa using hs)) (setELin A) hid
  refine ⟨extendZero A v, ?_, ?_, ?_⟩
  · intro i j
    unfold extendZero
    by_cases h : i ∈ A ∧ j ∈ A
    · rw [dif_pos h, dif_pos ⟨h.2, h.1⟩, v.2]
    · rw [dif_neg h, dif_neg (fun h' => h ⟨h'.2, h'.1⟩)]
  · intro i j h
    unfold extendZero
    rw [dif_neg (by tauto)]
  · intro i hi j hj
    -- the unit matrix for the pair
    let W : symMat A := ⟨fun a b => (if (a : ℕ) = i ∧ (b : ℕ) = j then 1 else 0) +
      if (a : ℕ) = j ∧ (b : ℕ) = i then 1 else 0, fun a b => by
        beta_reduce; rw [add_comm]; congr 1 <;> simp only [and_comm]⟩
    have hW : ∀ X ∈ A.powerset, setELin A W X = 2 * if i ∈ X ∧ j ∈ X then 1 else 0 := by
      intro X hX
      have hXA := Finset.mem_powerset.1 hX
      have h1 : ∀ a ∈ X, ∀ b ∈ X, extendZero A W a b =
          (if a = i then (if b = j then (1 : ℝ) else 0) else 0) +
            if a = j then (if b = i then 1 else 0) else 0 := by
        intro a ha b hb
        unfold extendZero
        rw [dif_pos ⟨hXA ha, hXA hb⟩]
        simp only [W, ite_and]
      show setE (extendZero A W) X = _
      unfold setE
      rw [Finset.sum_congr rfl fun a ha => Finset.sum_congr rfl (h1 a ha)]
      simp only [Finset.sum_add_distrib]
      have key : ∀ u w : ℕ, ∑ a ∈ X, ∑ b ∈ X, (if a = u then (if b = w then (1 : ℝ) else 0) else 0) =
          if u ∈ X ∧ w ∈ X then 1 else 0 := by
        intro u w
        rw [Finset.sum_congr rfl fun a _ => show ∑ b ∈ X, (if a = u then (if b = w then (1 : ℝ) else 0) else 0)
          = if a = u then (if w ∈ X then 1 else 0) else 0 by
            by_cases h : a = u <;> simp [h]]
        rw [Finset.sum_ite_eq' X u, ite_and]
      rw [key, key]
      by_cases hx : i ∈ X <;> by_cases hy : j ∈ X <;> simp [hx, hy]
      norm_num
    have h2 := hv W
    rw [Finset.sum_map_toList] at h2
    have h3 : expect A.powerset.toList (setELin A v) (setELin A W) =
        2 * setMoment A (extendZero A v) i j := by
      show expect A.powerset.toList (setE (extendZero A v)) (setELin A W) = _
      rw [expect_toList, Finset.sum_congr rfl fun X hX => by rw [hW X hX], setMoment, Finset.sum_filter,
        Finset.mul_sum]
      refine Finset.sum_congr rfl fun X _ => ?_
      split <;> ring
    rw [h3, Finset.sum_congr rfl fun X hX => by rw [hW X hX]] at h2
    have h4 : ∑ X ∈ A.powerset, p X * (2 * if i ∈ X ∧ j ∈ X then (1 : ℝ) else 0) =
        2 * ∑ X ∈ A.powerset with i ∈ X ∧ j ∈ X, p X := by
      rw [Finset.sum_filter, Finset.mul_sum]
      refine Finset.sum_congr rfl fun X _ => ?_
      split <;> ring
    rw [h4] at h2
    linarith

end Verif.Lemmas
