/-
Facts about the model of MPF.
-/
import Verif.Model.Mpf
import Verif.Spec.Flow
import Verif.Spec.Moments
import Verif.Lemmas.MaxEnt
import Verif.Lemmas.Neighbors
import Mathlib.Analysis.SpecialFunctions.ExpDeriv
import Mathlib.Analysis.SpecialFunctions.Log.Deriv
import Mathlib.Analysis.Calculus.Deriv.Add
import Mathlib.Analysis.Calculus.Deriv.Mul

namespace Verif.Lemmas
open Verif Verif.Model Verif.Spec

theorem hasDerivAt_list_sum {α : Type*} (l : List α) (f : α → ℝ → ℝ) (f' : α → ℝ) (x : ℝ)
    (h : ∀ a ∈ l, HasDerivAt (f a) (f' a) x) :
    HasDerivAt (fun y => (l.map fun a => f a y).sum) ((l.map f').sum) x := by
  induction l with
  | nil => simpa using hasDerivAt_const x (0 : ℝ)
  | cons a l ih =>
    simp only [List.map_cons, List.sum_cons]
    exact (h a (by simp)).add (ih fun b hb => h b (List.mem_cons_of_mem _ hb))

theorem getAt_map {α β : Type*} (l : List α) (f : α → β) (i : ℕ) (hi : i < l.length) :
    getAt (l.map f) i = .ok (f l[i]) := by
  unfold getAt
  rw [List.getElem?_eq_getElem (by simpa using hi)]
  simp

theorem mpfItems_eq (U : Data) (c : List ℤ → ℕ) (nb : List ℤ → Data) :
    mpfItems U (U.map c) (U.map nb) = .ok (U.map fun s => (s, c s, nb s)) := by
  unfold mpfItems
  rw [mapM_ok _ (fun i => (U.getD i [], c (U.getD i []), nb (U.getD i []))) _ ?_]
  · congr 1
    apply List.ext_getElem
    · simp
    · intro i h1 h2
      have hi : i < U.length := by simpa using h2
      simp only [List.getElem_map, List.getElem_range, List.getD_eq_getElem _ _ hi]
  · intro i hi
    have hi' : i < U.length := List.mem_range.1 hi
    rw [getAt_map U c i hi', getAt_map U nb i hi']
    simp only [List.getD_eq_getElem _ _ hi']

theorem mpfKLoop_none (calcE : RowEnergy) (θ : List ℝ) (its : List MpfItem) (st : ℝ × List ℝ) :
    mpfKLoop calcE none θ its st =
      .ok (st.1 + (its.map fun it => (mpfDobj calcE θ it).sum).sum, st.2) := by
  induction its generalizing st with
  | nil => simp [mpfKLoop]
  | cons it its ih =>
    rw [mpfKLoop, ih]
    simp [add_assoc]

theorem mpfDeDiff_eq (de : RowGradient) (d : List ℤ → ℕ → ℝ) (j : ℕ) (it : MpfItem)
    (h1 : de it.1 j = .ok (d it.1 j)) (h2 : ∀ t ∈ it.2.2, de t j = .ok (d t j)) :
    mpfDeDiff de j it = .ok (it.2.2.map fun t => d it.1 j - d t j) := by
  unfold mpfDeDiff
  rw [h1, mapM_ok _ (fun t => d t j) _ h2]
  simp [Function.comp_def]

/-- The contribution of one data state to the gradient of `K`. -/
noncomputable def gradTerm (calcE : RowEnergy) (d : List ℤ → ℕ → ℝ) (θ : List ℝ) (j : ℕ)
    (it : MpfItem) : ℝ :=
  (it.2.2.map fun t => (it.2.1 : ℝ) * Real.exp (1 / 2 * (calcE θ it.1 - calcE θ t)) *
    (1 / 2 * (d it.1 j - d t j))).sum

theorem zipWith_map_map {α β γ : Type*} (l : List α) (f : α → β) (g : α → γ) {δ : Type*}
    (h : β → γ → δ) : List.zipWith h (l.map f) (l.map g) = l.map fun a => h (f a) (g a) := by
  induction l with
  | nil => rfl
  | cons a l ih => simp [ih]

theorem mpfGradAdd_eq (calcE : RowEnergy) (de : RowGradient) (d : List ℤ → ℕ → ℝ) (θ : List ℝ)
    (it : MpfItem) (h1 : ∀ j < θ.length, de it.1 j = .ok (d it.1 j))
    (h2 : ∀ t ∈ it.2.2, ∀ j < θ.length, de t j = .ok (d t j)) (g : ℕ → ℝ) :
    mpfGradAdd calcE de θ it ((List.range θ.length).map g) =
      .ok ((List.range θ.length).map fun j => g j + gradTerm calcE d θ j it) := by
  unfold mpfGradAdd
  apply mapM_ok
  intro j hj
  have hj' := List.mem_range.1 hj
  rw [mpfDeDiff_eq de d j it (h1 j hj') fun t ht => h2 t ht j hj']
  simp only [rd]
  rw [getD_map_range _ _ _ hj']
  congr 2
  unfold mpfDobj gradTerm
  rw [zipWith_map_map, ← list_sum_mul_left]
  exact list_sum_congr fun t _ => by ring

theorem mpfKLoop_some (calcE : RowEnergy) (de : RowGradient) (d : List ℤ → ℕ → ℝ) (θ : List ℝ)
    (its : List MpfItem) (h1 : ∀ it ∈ its, ∀ j < θ.length, de it.1 j = .ok (d it.1 j))
    (h2 : ∀ it ∈ its, ∀ t ∈ it.2.2, ∀ j < θ.length, de t j = .ok (d t j)) (o : ℝ) (g : ℕ → ℝ) :
    mpfKLoop calcE (some de) θ its (o, (List.range θ.length).map g) =
      .ok (o + (its.map fun it => (mpfDobj calcE θ it).sum).sum,
        (List.range θ.length).map fun j => g j + (its.map (gradTerm calcE d θ j)).sum) := by
  induction its generalizing o g with
  | nil => simp [mpfKLoop]
  | cons it its ih =>
    rw [mpfKLoop]
    simp only
    rw [mpfGradAdd_eq calcE de d θ it (h1 it (by simp)) (h2 it (by simp))]
    simp only
    rw [ih (fun it' h => h1 it' (List.mem_cons_of_mem _ h))
      (fun it' h => h2 it' (List.mem_cons_of_mem _ h))]
    simp [add_assoc]

/-! ### Counts -/

theorem sum_counts {α : Type*} [BEq α] [LawfulBEq α] (S X : List α) (hS : S.Nodup)
    (hX : ∀ x ∈ X, x ∈ S) : (S.map fun s => X.count s).sum = X.length := by
  have h := sum_by_count (K := ℤ) S X hS hX fun _ => 1
  simp only [mul_one, List.map_const', List.sum_replicate] at h
  have h2 : ((S.map fun s => X.count s).sum : ℤ) = (S.map fun s => (X.count s : ℤ)).sum := by
    clear h hS hX
    induction S with
    | nil => simp
    | cons a S ih => simp [ih]
  have : ((S.map fun s => X.count s).sum : ℤ) = X.length := by rw [h2, ← h]; simp
  exact_mod_cast this

theorem probFlow_items (U X : Data) (hU : U.Nodup) (hX : ∀ x ∈ X, x ∈ U) (nb : List ℤ → Data)
    (calcE : RowEnergy) (θ : List ℝ) :
    ((U.map fun s => (s, X.count s, nb s)).map fun it => (mpfDobj calcE θ it).sum).sum /
      (X.length : ℝ) = probFlow X nb (calcE θ) := by
  unfold probFlow
  rw [sum_by_count U X hU hX, List.map_map]
  congr 1
  apply list_sum_congr
  intro s _
  simp only [Function.comp, mpfDobj]
  rw [← list_sum_mul_left]
  exact list_sum_congr fun t _ => by ring_nf

theorem hasDerivAt_probFlow (X : Data) (nb : List ℤ → Data) (calcE : RowEnergy)
    (d : List ℤ → ℕ → ℝ) (θ : List ℝ) (j : ℕ)
    (h1 : ∀ s ∈ X, HasDerivAt (fun x => calcE (θ.set j x) s) (d s j) (θ.getD j 0))
    (h2 : ∀ s ∈ X, ∀ t ∈ nb s, HasDerivAt (fun x => calcE (θ.set j x) t) (d t j) (θ.getD j 0))
    (hj : j < θ.length) :
    HasDerivAt (fun x => probFlow X nb (calcE (θ.set j x)))
      ((X.map fun s => ((nb s).map fun t => Real.exp (1 / 2 * (calcE θ s - calcE θ t)) *
        (1 / 2 * (d s j - d t j))).sum).sum / X.length) (θ.getD j 0) := by
  unfold probFlow
  apply HasDerivAt.div_const
  apply hasDerivAt_list_sum
  intro s hs
  apply hasDerivAt_list_sum
  intro t ht
  have hθ : θ.set j (θ.getD j 0) = θ := by
    rw [List.getD_eq_getElem _ _ hj, List.set_getElem_self]
  have := (((h1 s hs).sub (h2 s hs t ht)).div_const 2).exp
  simp only [Pi.sub_apply, hθ] at this
  convert this using 1
  ring_nf

theorem gradTerm_items (U X : Data) (hU : U.Nodup) (hX : ∀ x ∈ X, x ∈ U) (nb : List ℤ → Data)
    (calcE : RowEnergy) (d : List ℤ → ℕ → ℝ) (θ : List ℝ) (j : ℕ) :
    ((U.map fun s => (s, X.count s, nb s)).map (gradTerm calcE d θ j)).sum =
      (X.map fun s => ((nb s).map fun t => Real.exp (1 / 2 * (calcE θ s - calcE θ t)) *
        (1 / 2 * (d s j - d t j))).sum).sum := by
  rw [sum_by_count U X hU hX, List.map_map]
  apply list_sum_congr
  intro s _
  simp only [Function.comp, gradTerm]
  rw [← list_sum_mul_left]
  exact list_sum_congr fun t _ => by ring

theorem probFlow_pos (X : Data) (hX : X ≠ []) (nb : List ℤ → Data) (hnb : ∀ s ∈ X, nb s ≠ [])
    (E : List ℤ → ℝ) : 0 < probFlow X nb E := by
  unfold probFlow
  have hlen : (0 : ℝ) < X.length := by exact_mod_cast List.length_pos_iff.2 hX
  apply div_pos _ hlen
  have key : ∀ (L : List (List ℤ)) (f : List ℤ → ℝ), L ≠ [] → (∀ s ∈ L, 0 < f s) →
      0 < (L.map f).sum := by
    intro L f hL hf
    induction L with
    | nil => exact absurd rfl hL
    | cons a L ih =>
      rw [List.map_cons, List.sum_cons]
      have ha := hf a (by simp)
      rcases eq_or_ne L [] with rfl | h
      · simpa using ha
      · exact add_pos ha (ih h fun s hs => hf s (List.mem_cons_of_mem _ hs))
  exact key _ _ hX fun s hs => key _ _ (hnb s hs) fun t _ => Real.exp_pos _

/-! ### logK -/

theorem assignRow_eq {α : Type*} (m : ℕ) (v : List α) (h : v.length = m) : assignRow m v = .ok v := by
  unfold assignRow
  rw [if_pos h]

/-- `power` before any shift. -/
noncomputable def powerOf (calcE : RowEnergy) (θ : List ℝ) (U : Data) (nb : List ℤ → Data) :
    List (List ℝ) :=
  U.map fun s => (nb s).map fun t => 1 / 2 * (calcE θ s - calcE θ t)

theorem powerRows (calcE : RowEnergy) (θ : List ℝ) (U : Data) (c : List ℤ → ℕ) (nb : List ℤ → Data)
    (m : ℕ) (hm : ∀ s ∈ U, (nb s).length = m) :
    (U.map fun s => (s, c s, nb s)).mapM (mpfPowerRow calcE θ m) = .ok (powerOf calcE θ U nb) := by
  rw [mapM_ok _ (fun it => it.2.2.map fun t => 1 / 2 * (calcE θ it.1 - calcE θ t))]
  · simp [powerOf, Function.comp_def]
  · intro it hit
    obtain ⟨s, hs, rfl⟩ := List.mem_map.1 hit
    unfold mpfPowerRow
    exact assignRow_eq _ _ (by simp [hm s hs])

theorem logTerms_eq (calcE : RowEnergy) (θ : List ℝ) (U : Data) (c : List ℤ → ℕ)
    (nb : List ℤ → Data) (hc : ∀ s ∈ U, 0 < c s) (hU : U ≠ []) :
    mpfLogTerms (powerOf calcE θ U nb) (U.map c) = (U.map fun s => (nb s).map fun t =>
      some (1 / 2 * (calcE θ s - calcE θ t) + Real.log (c s) -
        Real.log ((U.map c).sum : ℕ))).flatten := by
  have hsum : (U.map c).sum ≠ 0 := by
    obtain ⟨s, hs⟩ := List.exists_mem_of_ne_nil U hU
    have : c s ≤ (U.map c).sum := List.single_le_sum (by simp) _ (List.mem_map_of_mem hs)
    have := hc s hs
    omega
  unfold mpfLogTerms powerOf
  rw [zipWith_map_map]
  congr 1
  apply List.map_congr_left
  intro s hs
  rw [List.map_map]
  apply List.map_congr_left
  intro t _
  have := (hc s hs).ne'
  simp [logCount, this, hsum, addLogs]

theorem logsumexp_eq (calcE : RowEnergy) (θ : List ℝ) (U : Data) (c : List ℤ → ℕ)
    (nb : List ℤ → Data) (hc : ∀ s ∈ U, 0 < c s) (hU : U ≠ []) (hnb : ∀ s ∈ U, nb s ≠ []) :
    logsumexp (mpfLogTerms (powerOf calcE θ U nb) (U.map c)) = some (Real.log
      (((U.map fun s => (s, c s, nb s)).map fun it => (mpfDobj calcE θ it).sum).sum /
        ((U.map c).sum : ℕ))) := by
  have hsum : (((U.map c).sum : ℕ) : ℝ) ≠ 0 := by
    obtain ⟨s, hs⟩ := List.exists_mem_of_ne_nil U hU
    have : c s ≤ (U.map c).sum := List.single_le_sum (by simp) _ (List.mem_map_of_mem hs)
    have := hc s hs
    have : (U.map c).sum ≠ 0 := by omega
    exact_mod_cast this
  rw [logTerms_eq calcE θ U c nb hc hU]
  unfold logsumexp
  rw [if_neg]
  · congr 2
    rw [List.map_flatten, List.sum_flatten, List.map_map, List.map_map, List.map_map, ← list_sum_div]
    apply list_sum_congr
    intro s hs
    simp only [Function.comp, mpfDobj, List.map_map]
    rw [← list_sum_div]
    apply list_sum_congr
    intro t _
    have h1 : (0 : ℝ) < c s := by exact_mod_cast hc s hs
    have h2 : (0 : ℝ) < ((U.map c).sum : ℕ) := lt_of_le_of_ne (Nat.cast_nonneg _) (Ne.symm hsum)
    simp only [expOpt, Function.comp]
    rw [Real.exp_sub, Real.exp_add, Real.exp_log h1, Real.exp_log h2]
    ring
  · rw [Bool.not_eq_true, Bool.eq_false_iff]
    intro h
    obtain ⟨s, hs⟩ := List.exists_mem_of_ne_nil U hU
    obtain ⟨t, ht⟩ := List.exists_mem_of_ne_nil _ (hnb s hs)
    rw [List.all_eq_true] at h
    have := h _ (List.mem_flatten.2 ⟨_, List.mem_map_of_mem hs, List.mem_map_of_mem ht⟩)
    simp at this

theorem coefRows (de : RowGradient) (d : List ℤ → ℕ → ℝ) (U : Data) (c : List ℤ → ℕ)
    (nb : List ℤ → Data) (j m : ℕ) (hm : ∀ s ∈ U, (nb s).length = m)
    (h1 : ∀ s ∈ U, de s j = .ok (d s j)) (h2 : ∀ s ∈ U, ∀ t ∈ nb s, de t j = .ok (d t j)) :
    (U.map fun s => (s, c s, nb s)).mapM (mpfCoefRow de j m) =
      .ok (U.map fun s => (nb s).map fun t => 1 / 2 * (d s j - d t j)) := by
  rw [mapM_ok _ (fun it => it.2.2.map fun t => 1 / 2 * (d it.1 j - d t j))]
  · simp [Function.comp_def]
  · intro it hit
    obtain ⟨s, hs, rfl⟩ := List.mem_map.1 hit
    unfold mpfCoefRow
    rw [mpfDeDiff_eq de d j _ (h1 s hs) (h2 s hs)]
    simp only [List.map_map]
    rw [assignRow_eq _ _ (by simp [hm s hs])]
    simp [Function.comp_def]

theorem powerOf_flatten_ne (U : Data) (nb : List ℤ → Data) (hU : U ≠ [])
    (hnb : ∀ s ∈ U, nb s ≠ []) (f : List ℤ → List ℤ → ℝ) :
    (U.map fun s => (nb s).map fun t => f s t).flatten ≠ [] := by
  obtain ⟨s, hs⟩ := List.exists_mem_of_ne_nil U hU
  obtain ⟨t, ht⟩ := List.exists_mem_of_ne_nil _ (hnb s hs)
  exact List.ne_nil_of_mem (List.mem_flatten.2 ⟨_, List.mem_map_of_mem hs,
    List.mem_map_of_mem (f := fun t => f s t) ht⟩)

theorem mpfLogGradLoop_eq (calcE : RowEnergy) (de : RowGradient) (d : List ℤ → ℕ → ℝ) (θ : List ℝ)
    (U : Data) (c : List ℤ → ℕ) (nb : List ℤ → Data) (m : ℕ) (hm : ∀ s ∈ U, (nb s).length = m)
    (hU : U ≠ []) (hnb : ∀ s ∈ U, nb s ≠ []) (js : List ℕ)
    (h1 : ∀ s ∈ U, ∀ j ∈ js, de s j = .ok (d s j))
    (h2 : ∀ s ∈ U, ∀ t ∈ nb s, ∀ j ∈ js, de t j = .ok (d t j)) (k : ℝ) (acc : List ℝ) :
    mpfLogGradLoop de (U.map fun s => (s, c s, nb s)) m (U.map c) js
      (U.map fun s => (nb s).map fun t => 1 / 2 * (calcE θ s - calcE θ t) - k) acc =
      .ok (acc ++ js.map fun j =>
        ((U.map fun s => (s, c s, nb s)).map (gradTerm calcE d θ j)).sum /
          ((U.map fun s => (s, c s, nb s)).map fun it => (mpfDobj calcE θ it).sum).sum) := by
  induction js generalizing k acc with
  | nil => simp [mpfLogGradLoop]
  | cons j js ih =>
    rw [mpfLogGradLoop, coefRows de d U c nb j m hm (fun s hs => h1 s hs j (by simp))
      (fun s hs t ht => h2 s hs t ht j (by simp))]
    simp only
    rw [if_neg (powerOf_flatten_ne U nb hU hnb _)]
    obtain ⟨k', hk'⟩ : ∃ k', shiftMax (U.map fun s => (nb s).map fun t =>
        1 / 2 * (calcE θ s - calcE θ t) - k) =
        U.map fun s => (nb s).map fun t => 1 / 2 * (calcE θ s - calcE θ t) - k' := by
      refine ⟨k + arrayMax (U.map fun s => (nb s).map fun t => 1 / 2 * (calcE θ s - calcE θ t) - k), ?_⟩
      obtain ⟨M, hM⟩ : ∃ M, M = arrayMax (U.map fun s => (nb s).map fun t =>
        1 / 2 * (calcE θ s - calcE θ t) - k) := ⟨_, rfl⟩
      unfold shiftMax
      rw [← hM, List.map_map]
      apply List.map_congr_left
      intro s _
      simp only [Function.comp, List.map_map]
      apply List.map_congr_left
      intro t _
      simp only [Function.comp]
      ring
    rw [hk', ih (fun s hs i hi => h1 s hs i (List.mem_cons_of_mem _ hi))
      (fun s hs t ht i hi => h2 s hs t ht i (List.mem_cons_of_mem _ hi))]
    simp only [List.map_cons, List.append_assoc, List.singleton_append]
    congr 3
    have e1 : weightedSum (U.map fun s => (nb s).map fun t => 1 / 2 * (d s j - d t j))
        (U.map fun s => (nb s).map fun t => 1 / 2 * (calcE θ s - calcE θ t) - k') (U.map c) =
        Real.exp (-k') * ((U.map fun s => (s, c s, nb s)).map (gradTerm calcE d θ j)).sum := by
      unfold weightedSum
      rw [List.zip, zipWith_map_map, zipWith_map_map, List.map_map, ← list_sum_mul_left]
      apply list_sum_congr
      intro s _
      simp only [Function.comp, gradTerm]
      rw [zipWith_map_map, ← list_sum_mul_left]
      apply list_sum_congr
      intro t _
      rw [sub_eq_add_neg _ k', Real.exp_add]
      ring
    have e2 : weightSum
        (U.map fun s => (nb s).map fun t => 1 / 2 * (calcE θ s - calcE θ t) - k') (U.map c) =
        Real.exp (-k') * ((U.map fun s => (s, c s, nb s)).map fun it => (mpfDobj calcE θ it).sum).sum := by
      unfold weightSum
      rw [zipWith_map_map, List.map_map, ← list_sum_mul_left]
      apply list_sum_congr
      intro s _
      simp only [Function.comp, mpfDobj]
      rw [List.map_map, ← list_sum_mul_left]
      apply list_sum_congr
      intro t _
      simp only [Function.comp]
      rw [sub_eq_add_neg, Real.exp_add]
      ring
    rw [e1, e2, mul_div_mul_left _ _ (Real.exp_pos _).ne']

end Verif.Lemmas
