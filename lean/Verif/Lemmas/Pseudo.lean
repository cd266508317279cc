/-
Lemmas about the pseudolikelihood objectives.
-/
import Verif.Model.Pseudo
import Verif.Spec.Cond
import Verif.Lemmas.PottsHelpers
import Verif.Lemmas.Mpf2

namespace Verif.Lemmas
open Verif Verif.Model Verif.Spec

section scatter
variable {K : Type*}

theorem fancySet_aux (ix : List ℕ) : ∀ (v g : List K), v.length = ix.length → ix.Nodup →
    (∀ i ∈ ix, i < g.length) → ∃ g', (ix.zip v).foldlM (fun a q => setAt a q.1 q.2) g = .ok g' ∧
      g'.length = g.length ∧ ∀ (p : ℕ) (d : K), g'.getD p d =
        if p ∈ ix then v.getD (ix.idxOf p) d else g.getD p d := by
  induction ix with
  | nil => intro v g _ _ _; exact ⟨g, by simp [pure, Except.pure], rfl, by simp⟩
  | cons i ix ih =>
    intro v g hv hnd hin
    cases v with
    | nil => simp at hv
    | cons x v =>
      have hi : i < g.length := hin i (by simp)
      obtain ⟨g', e, hl, hg⟩ := ih v (g.set i x) (by simpa using hv) (List.nodup_cons.1 hnd).2
        (fun j hj => by rw [List.length_set]; exact hin j (List.mem_cons_of_mem _ hj))
      refine ⟨g', ?_, by rw [hl, List.length_set], ?_⟩
      · rw [List.zip_cons_cons, List.foldlM_cons]
        have : setAt g i x = .ok (g.set i x) := by unfold setAt; rw [if_pos hi]
        simp only [this, bind, Except.bind]
        exact e
      · intro p d
        rw [hg]
        have hni := (List.nodup_cons.1 hnd).1
        by_cases hpi : p = i
        · subst hpi
          simp [hni, hi]
        · have h1 : (i == p) = false := by simpa using Ne.symm hpi
          by_cases hp : p ∈ ix
          · rw [if_pos hp, if_pos (List.mem_cons_of_mem _ hp), List.idxOf_cons, h1]
            simp
          · rw [if_neg hp, if_neg (by simp [hpi, hp])]
            simp [List.getElem?_set_ne (Ne.symm hpi)]

theorem fancySet_ok (g : List K) (ix : List ℕ) (v : List K) (hv : v.length = ix.length)
    (hnd : ix.Nodup) (hin : ∀ i ∈ ix, i < g.length) : ∃ g', fancySet g ix v = .ok g' ∧
      g'.length = g.length ∧ ∀ (p : ℕ) (d : K), g'.getD p d =
        if p ∈ ix then v.getD (ix.idxOf p) d else g.getD p d := by
  unfold fancySet assignRow
  rw [if_pos hv]
  exact fancySet_aux ix v g hv hnd hin

theorem getAt_getD {β : Type*} (l : List β) (i : ℕ) (h : i < l.length) (d : β) : getAt l i = .ok (l.getD i d) := by
  unfold getAt
  rw [List.getElem?_eq_getElem h]
  simp [h]

theorem fancyAdd_ok [AddCommMonoid K] (g : List K) (ix : List ℕ) (v : List K)
    (hv : v.length = ix.length) (hnd : ix.Nodup) (hin : ∀ i ∈ ix, i < g.length) :
    ∃ g', fancyAdd g ix v = .ok g' ∧ g'.length = g.length ∧
      ∀ p, p < g.length → g'.getD p 0 = g.getD p 0 + v.getD (ix.idxOf p) 0 := by
  have h1 : ix.mapM (getAt g) = .ok (ix.map fun i => g.getD i 0) :=
    mapM_ok _ _ ix (fun i hi => getAt_getD g i (hin i hi) 0)
  have h2 : assignRow ix.length v = .ok v := by unfold assignRow; rw [if_pos hv]
  obtain ⟨g', e, hl, hg⟩ := fancySet_ok g ix
    (List.zipWith (· + ·) (ix.map fun i => g.getD i 0) v) (by simp [hv]) hnd hin
  refine ⟨g', ?_, hl, fun p hp => ?_⟩
  · unfold fancyAdd
    rw [h1, h2]
    exact e
  · rw [hg]
    by_cases hpx : p ∈ ix
    · rw [if_pos hpx]
      have hlt := List.idxOf_lt_length_iff.2 hpx
      have hlt' : ix.idxOf p < v.length := by omega
      have : (List.zipWith (· + ·) (ix.map fun i => g.getD i 0) v).getD (ix.idxOf p) 0 =
          g.getD (ix[ix.idxOf p]) 0 + v.getD (ix.idxOf p) 0 := by
        simp [hlt, hlt']
      rw [this, List.getElem_idxOf]
    · rw [if_neg hpx, List.idxOf_eq_length hpx]
      simp [← hv]

end scatter

/-- The entries of `θ` at the positions `ix`. -/
def sel (θ : List ℝ) (ix : List ℕ) : List ℝ := ix.map fun q => θ.getD q 0

theorem sel_set_notMem (θ : List ℝ) (ix : List ℕ) (p : ℕ) (x : ℝ) (h : p ∉ ix) :
    sel (θ.set p x) ix = sel θ ix := by
  unfold sel
  refine List.map_congr_left fun q hq => ?_
  have : p ≠ q := fun e => h (e ▸ hq)
  simp [List.getElem?_set_ne this]

theorem dot_sel (o θ : List ℝ) (ix : List ℕ) (p : ℕ) (x : ℝ) (ho : o.length = ix.length)
    (hnd : ix.Nodup) (hp : p < θ.length) :
    dot o (sel (θ.set p x) ix) = dot o (sel θ ix) + o.getD (ix.idxOf p) 0 * (x - θ.getD p 0) := by
  induction ix generalizing o with
  | nil => 
    have : o = [] := by simpa using ho
    subst this; simp [sel, dot]
  | cons i ix ih =>
    cases o with
    | nil => simp at ho
    | cons a o =>
      have e : ∀ θ : List ℝ, dot (a :: o) (sel θ (i :: ix)) = a * θ.getD i 0 + dot o (sel θ ix) := by
        intro θ; unfold sel; rw [List.map_cons, dot_cons]
      rw [e, e]
      by_cases hpi : p = i
      · subst hpi
        rw [sel_set_notMem _ _ _ _ (List.nodup_cons.1 hnd).1]
        simp [hp]
        ring
      · rw [ih o (by simpa using ho) (List.nodup_cons.1 hnd).2]
        have h1 : (i == p) = false := by simpa using Ne.symm hpi
        rw [List.idxOf_cons, h1]
        simp [List.getElem?_set_ne hpi]
        ring

theorem hasDerivAt_dot_sel (o θ : List ℝ) (ix : List ℕ) (p : ℕ) (ho : o.length = ix.length)
    (hnd : ix.Nodup) (hp : p < θ.length) (x : ℝ) :
    HasDerivAt (fun x => dot o (sel (θ.set p x) ix)) (o.getD (ix.idxOf p) 0) x := by
  have : (fun x => dot o (sel (θ.set p x) ix)) =
      fun x => dot o (sel θ ix) + o.getD (ix.idxOf p) 0 * (x - θ.getD p 0) := by
    funext x; exact dot_sel o θ ix p x ho hnd hp
  rw [this]
  simpa using (((hasDerivAt_id x).sub_const (θ.getD p 0)).const_mul (o.getD (ix.idxOf p) 0)).const_add
    (dot o (sel θ ix))

theorem set_getD_self {α : Type*} (θ : List α) (p : ℕ) (d : α) : θ.set p (θ.getD p d) = θ := by
  by_cases h : p < θ.length
  · simp [h]
  · rw [List.set_eq_of_length_le (by omega)]

theorem npDot_ok (o m : List ℝ) (h : o.length = m.length) : npDot o m = .ok (dot o m) := by
  unfold npDot dot; rw [if_pos h]

/-! ### Ising -/

/-- Positions of the parameters of spin `r`. -/
def spinIx (n r : ℕ) : List ℕ := r :: (otherSites n r).map fun i => pairPos n i r + n

/-- Observables of spin `r`. -/
def spinObs (n r : ℕ) (s : List ℤ) : List ℝ :=
  (spins s r : ℝ) :: (otherSites n r).map fun i => (spins s i : ℝ) * spins s r

theorem length_spinIx {n r : ℕ} (hr : r < n) : (spinIx n r).length = n := by
  simp [spinIx, length_otherSites hr]; omega

theorem length_spinObs {n r : ℕ} (hr : r < n) (s : List ℤ) : (spinObs n r s).length = n := by
  simp [spinObs, length_otherSites hr]; omega

theorem nodup_spinIx {n r : ℕ} (hr : r < n) : (spinIx n r).Nodup := by
  unfold spinIx
  rw [List.nodup_cons]
  constructor
  · intro h
    obtain ⟨i, _, e⟩ := List.mem_map.1 h
    omega
  · refine List.Nodup.map_on ?_ (nodup_otherSites n r)
    intro i hi j hj e
    obtain ⟨hi1, hi2⟩ := mem_otherSites.1 hi
    obtain ⟨hj1, hj2⟩ := mem_otherSites.1 hj
    exact pairPos_inj hi1 hr hi2 hj2 (by omega)

theorem spinIx_lt {n r : ℕ} (hr : r < n) : ∀ i ∈ spinIx n r, i < n + n * (n - 1) / 2 := by
  intro i hi
  unfold spinIx at hi
  rcases List.mem_cons.1 hi with rfl | h
  · omega
  · obtain ⟨j, hj, rfl⟩ := List.mem_map.1 h
    obtain ⟨h1, h2⟩ := mem_otherSites.1 hj
    have := pairPos_lt h1 hr h2
    omega

theorem getMultipliersR_sel {n r : ℕ} (hr : r < n) (θ : List ℝ)
    (hθ : θ.length = n + n * (n - 1) / 2) :
    getMultipliersR n r θ = .ok (sel θ (spinIx n r), spinIx n r) := by
  have h1 : (θ.take n).length = n := by simp; omega
  have := getMultipliersR_eq n r hr (θ.take n) (θ.drop n) h1 (by simp; omega)
  rw [List.take_append_drop] at this
  rw [this]
  congr 2
  unfold sel spinIx
  rw [List.map_cons, List.map_map]
  congr 1
  · rw [getD_take _ _ _ _ hr]
  · refine List.map_congr_left fun i _ => ?_
    rw [couplingOf_eq]
    simp [add_comm]

theorem obsR_map {n r : ℕ} (hr : r < n) (X : Data) :
    X.mapM (calcObservablesR (K := ℝ) n r) = .ok (X.map (spinObs n r)) :=
  mapM_ok _ _ X fun s _ => calcObservablesR_eq n r hr s

theorem dot_spinObs {n r : ℕ} (hr : r < n) (θ : List ℝ) (s : List ℤ) :
    dot (spinObs n r s) (sel θ (spinIx n r)) =
      spins s r * localField n (θ.take n) (θ.drop n) (spins s) r := by
  rw [← dot_obs_mult]
  unfold spinObs sel spinIx
  rw [List.map_cons, List.map_map]
  congr 2
  · rw [getD_take _ _ _ _ hr]
  · refine List.map_congr_left fun i _ => ?_
    rw [couplingOf_eq]
    simp [add_comm]

theorem condProb_ising {n r : ℕ} (hr : r < n) (θ : List ℝ) (s : List ℤ) (hs : s.length = n)
    (hsr : s.getD r 0 = 1 ∨ s.getD r 0 = -1) :
    condProb (vecE n θ) [1, -1] r s =
      (1 + Real.exp (2 * -dot (spinObs n r s) (sel θ (spinIx n r))))⁻¹ := by
  rw [dot_spinObs hr]
  unfold condProb vecE
  obtain ⟨F, hF⟩ : ∃ F, F = localField n (θ.take n) (θ.drop n) (spins s) r := ⟨_, rfl⟩
  obtain ⟨E, hE⟩ : ∃ E, E = isingVecE n (θ.take n) (θ.drop n) (spins s) := ⟨_, rfl⟩
  have key : ∀ v : ℤ, isingVecE n (θ.take n) (θ.drop n) (spins (s.set r v)) =
      E - ((v : ℝ) - spins s r) * F := by
    intro v
    rw [spins_set s r (by omega), isingVecE_update n r hr, ← hF, ← hE]
  simp only [List.map_cons, List.map_nil, List.sum_cons, List.sum_nil, add_zero, key]
  rw [← hF, ← hE]
  have hsp : (spins s r : ℝ) = 1 ∨ (spins s r : ℝ) = -1 := by
    unfold spins
    rcases hsr with h | h <;> rw [h] <;> simp
  rcases hsp with h | h <;> rw [h]
  · have e : Real.exp (-(E - (((-1 : ℤ) : ℝ) - 1) * F)) = Real.exp (-E) * Real.exp (2 * -(1 * F)) := by
      rw [← Real.exp_add]; congr 1; push_cast; ring
    have e2 : Real.exp (-(E - (((1 : ℤ) : ℝ) - 1) * F)) = Real.exp (-E) := by
      congr 1; push_cast; ring
    rw [e, e2, ← mul_one_add, div_mul_eq_div_div, div_self (Real.exp_pos _).ne', one_div]
  · have e : Real.exp (-(E - (((1 : ℤ) : ℝ) - -1) * F)) = Real.exp (-E) * Real.exp (2 * -(-1 * F)) := by
      rw [← Real.exp_add]; congr 1; push_cast; ring
    have e2 : Real.exp (-(E - (((-1 : ℤ) : ℝ) - -1) * F)) = Real.exp (-E) := by
      congr 1; push_cast; ring
    rw [e, e2, add_comm, ← mul_one_add, div_mul_eq_div_div, div_self (Real.exp_pos _).ne', one_div]

/-- Minus the log-likelihood of spin `r` as a sum over the sample. -/
theorem negCond_ising {n r : ℕ} (hr : r < n) (θ : List ℝ) (X : Data)
    (hX : ∀ s ∈ X, s.length = n ∧ (s.getD r 0 = 1 ∨ s.getD r 0 = -1)) :
    negCondLogLik (vecE n θ) [1, -1] X r =
      (X.map fun s => Real.log (1 + Real.exp (2 * -dot (spinObs n r s) (sel θ (spinIx n r))))).sum := by
  unfold negCondLogLik
  rw [← list_sum_neg]
  refine congrArg List.sum (List.map_congr_left fun s hs => ?_)
  rw [condProb_ising hr θ s (hX s hs).1 (hX s hs).2, Real.log_inv, neg_neg]

theorem isingCondTerm_ok {n r : ℕ} (hr : r < n) (θ : List ℝ) (X : Data)
    (hX : ∀ s ∈ X, s.length = n ∧ (s.getD r 0 = 1 ∨ s.getD r 0 = -1)) :
    ∃ d, isingCondTerm n (X.map (spinObs n r)) (sel θ (spinIx n r)) =
        .ok (-negCondLogLik (vecE n θ) [1, -1] X r, d) ∧ d.length = n ∧
      ∀ p < θ.length, HasDerivAt
        (fun x => negCondLogLik (vecE n (θ.set p x)) [1, -1] X r)
        (d.getD ((spinIx n r).idxOf p) 0) (θ.getD p 0) := by
  have h1 : (X.map (spinObs n r)).mapM (fun o => npDot o (sel θ (spinIx n r))) =
      .ok ((X.map (spinObs n r)).map fun o => dot o (sel θ (spinIx n r))) := by
    refine mapM_ok _ _ _ fun o ho => ?_
    obtain ⟨s, _, rfl⟩ := List.mem_map.1 ho
    exact npDot_ok _ _ (by simp [length_spinObs hr, sel, length_spinIx hr])
  unfold isingCondTerm
  rw [h1]
  refine ⟨(List.range n).map fun a => (List.zipWith (fun e (o : List ℝ) =>
        -(1 / (1 + Real.exp (2 * e)) * Real.exp (2 * e)) * 2 * o.getD a 0)
        (((X.map (spinObs n r)).map fun o => dot o (sel θ (spinIx n r))).map fun d => -d)
        (X.map (spinObs n r))).sum, ?_, ?_, ?_⟩
  · rw [negCond_ising hr θ X hX]
    simp only [List.map_map]
    rfl
  · simp
  · intro p hp
    have e : (fun x => negCondLogLik (vecE n (θ.set p x)) [1, -1] X r) = fun x =>
        (X.map fun s => Real.log (1 + Real.exp (2 * -dot (spinObs n r s)
          (sel (θ.set p x) (spinIx n r))))).sum := by
      funext x; exact negCond_ising hr _ X hX
    rw [e]
    have hd : ∀ s ∈ X, HasDerivAt (fun x => Real.log (1 + Real.exp (2 * -dot (spinObs n r s)
          (sel (θ.set p x) (spinIx n r)))))
        (-(1 / (1 + Real.exp (2 * -dot (spinObs n r s) (sel θ (spinIx n r)))) *
          Real.exp (2 * -dot (spinObs n r s) (sel θ (spinIx n r)))) * 2 *
            (spinObs n r s).getD ((spinIx n r).idxOf p) 0) (θ.getD p 0) := by
      intro s _
      have := (((hasDerivAt_dot_sel (spinObs n r s) θ (spinIx n r) p
        (by rw [length_spinObs hr, length_spinIx hr]) (nodup_spinIx hr) hp (θ.getD p 0)).neg.const_mul
        2).exp.const_add 1).log (by positivity)
      refine this.congr_deriv ?_
      simp only [Pi.neg_apply, set_getD_self]
      field_simp
    have := hasDerivAt_list_sum X _ _ (θ.getD p 0) hd
    refine this.congr_deriv ?_
    by_cases hlt : (spinIx n r).idxOf p < n
    · rw [getD_map_range n _ 0 hlt]
      rw [List.map_map, List.map_map, List.zipWith_map, List.zipWith_self]
      rfl
    · rw [List.getD_eq_default _ _ (by simpa using hlt)]
      rw [List.sum_eq_zero]
      intro y hy
      obtain ⟨s, _, rfl⟩ := List.mem_map.1 hy
      rw [List.getD_eq_default _ _ (by rw [length_spinObs hr]; omega), mul_zero]

end Verif.Lemmas
