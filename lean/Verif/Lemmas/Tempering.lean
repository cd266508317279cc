import Verif.Lemmas.IterateBeta
import Verif.Lemmas.KeepsG
import Mathlib.Data.List.Perm.Basic
import Mathlib.Data.List.FinRange

namespace Verif.Lemmas
open Verif Verif.Model Verif.Spec Prog

/-! ### Exchanging two neighbours in a list -/

/-- The list with the entries `i` and `i+1` exchanged. -/
def swapAt {α : Type*} (d : α) (i : ℕ) (l : List α) : List α := (l.set i (l.getD (i + 1) d)).set (i + 1) (l.getD i d)

section
variable {α β : Type*} (d : α) (i : ℕ)

theorem swapAt_append (a b : α) (pre post : List α) (h : i = pre.length) :
    swapAt d i (pre ++ a :: b :: post) = pre ++ b :: a :: post := by
  subst h
  unfold swapAt
  rw [List.set_append_right _ _ (le_refl _), Nat.sub_self, List.set_cons_zero, List.getD_append_right _ _ _ _ (by omega),
    List.set_append_right _ _ (by omega), List.getD_append_right _ _ _ _ (le_refl _)]
  simp

theorem split_pair (l : List α) (h : i + 1 < l.length) :
    ∃ pre a b post, l = pre ++ a :: b :: post ∧ i = pre.length := by
  refine ⟨l.take i, l[i]'(by omega), l[i + 1], l.drop (i + 2), ?_, by simp; omega⟩
  conv_lhs => rw [← List.take_append_drop i l]
  rw [List.drop_eq_getElem_cons (by omega), List.drop_eq_getElem_cons (by omega)]

theorem swapAt_perm (l : List α) (h : i + 1 < l.length) : (swapAt d i l).Perm l := by
  obtain ⟨pre, a, b, post, rfl, hi⟩ := split_pair i l h
  rw [swapAt_append d i a b pre post hi]
  exact (List.Perm.swap a b post).append_left pre

theorem swapAt_swapAt (l : List α) (h : i + 1 < l.length) : swapAt d i (swapAt d i l) = l := by
  obtain ⟨pre, a, b, post, rfl, hi⟩ := split_pair i l h
  rw [swapAt_append d i a b pre post hi, swapAt_append d i b a pre post hi]

theorem swapAt_length (l : List α) : (swapAt d i l).length = l.length := by simp [swapAt]

theorem swapAt_map (f : α → β) (l : List α) (h : i + 1 < l.length) (d' : β) :
    swapAt d' i (l.map f) = (swapAt d i l).map f := by
  obtain ⟨pre, a, b, post, rfl, hi⟩ := split_pair i l h
  rw [swapAt_append d i a b pre post hi, List.map_append, List.map_cons, List.map_cons,
    swapAt_append d' i _ _ _ _ (by simpa using hi)]
  simp

theorem swapAt_mem_words {S : List α} {R : ℕ} {c : List α} (hc : c ∈ words S R) (h : i + 1 < R) :
    swapAt d i c ∈ words S R := by
  obtain ⟨h1, h2⟩ := mem_words.1 hc
  exact mem_words.2 ⟨by rw [swapAt_length, h1], fun x hx => h2 x ((swapAt_perm d i c (by omega)).mem_iff.1 hx)⟩

end

/-! ### Replicas that hold configurations -/

section
variable (calcE : List ℤ → List ℝ → ℝ)

/-- The replica holding the configuration `s`. -/
def holding (rep : Replica) (s : List ℤ) : Replica :=
  { rep with sample := [s], kept := some [s], E := [calcE s rep.theta] }

/-- The indices of replicas `i` and `i+1` exchanged. -/
def swapIndex (i : ℕ) (reps : List Replica) : List Replica :=
  (reps.set i { reps.getD i default with index := (reps.getD (i + 1) default).index }).set (i + 1)
    { reps.getD (i + 1) default with index := (reps.getD i default).index }

/-- The parameters are those of the inverse temperatures. -/
def Sync (theta beta : List ℝ) (reps : List Replica) : Prop :=
  List.Forall₂ (fun (rep : Replica) b => rep.theta = theta.map (· * b)) reps beta

theorem getD_zipWith {α β γ : Type*} (f : α → β → γ) (l : List α) (m : List β) (i : ℕ) (hl : i < l.length)
    (hm : i < m.length) (d : γ) (dl : α) (dm : β) :
    (List.zipWith f l m).getD i d = f (l.getD i dl) (m.getD i dm) := by
  rw [List.getD_eq_getElem _ _ (by simp; omega), List.getElem_zipWith, List.getD_eq_getElem _ _ hl,
    List.getD_eq_getElem _ _ hm]

variable {calcE} {theta beta : List ℝ} {reps : List Replica}

theorem Sync.length (h : Sync theta beta reps) : reps.length = beta.length := List.Forall₂.length_eq h

theorem Sync.getD (h : Sync theta beta reps) (j : ℕ) (hj : j < reps.length) :
    (reps.getD j default).theta = theta.map (· * beta.getD j 0) := by
  have hj' : j < beta.length := by rw [← h.length]; exact hj
  have := (List.forall₂_iff_get.1 h).2 j hj hj'
  rw [List.getD_eq_getElem _ _ hj, List.getD_eq_getElem _ _ hj']
  exact this

theorem sync_of_getD (hl : reps.length = beta.length)
    (h : ∀ j < reps.length, (reps.getD j default).theta = theta.map (· * beta.getD j 0)) : Sync theta beta reps := by
  refine List.forall₂_iff_get.2 ⟨hl, fun j hj hj' => ?_⟩
  have := h j hj
  rw [List.getD_eq_getElem _ _ hj, List.getD_eq_getElem _ _ hj'] at this
  exact this

theorem swapIndex_append (a b : Replica) (pre post : List Replica) (i : ℕ) (h : i = pre.length) :
    swapIndex i (pre ++ a :: b :: post) =
      pre ++ { a with index := b.index } :: { b with index := a.index } :: post := by
  subst h
  have ga : (pre ++ a :: b :: post).getD pre.length default = a := by
    rw [List.getD_append_right _ _ _ _ (le_refl _)]; simp
  have gb : (pre ++ a :: b :: post).getD (pre.length + 1) default = b := by
    rw [List.getD_append_right _ _ _ _ (by omega)]; simp
  unfold swapIndex
  rw [ga, gb, List.set_append_right _ _ (le_refl _), Nat.sub_self, List.set_cons_zero,
    List.set_append_right _ _ (by omega)]
  simp

theorem swapIndex_theta (i : ℕ) (h : i + 1 < reps.length) :
    (swapIndex i reps).map Replica.theta = reps.map Replica.theta := by
  obtain ⟨pre, a, b, post, rfl, hi⟩ := split_pair i reps h
  rw [swapIndex_append a b pre post i hi]
  simp

theorem swapIndex_index (i : ℕ) (h : i + 1 < reps.length) :
    (swapIndex i reps).map Replica.index = swapAt 0 i (reps.map Replica.index) := by
  obtain ⟨pre, a, b, post, rfl, hi⟩ := split_pair i reps h
  rw [swapIndex_append a b pre post i hi, List.map_append, List.map_cons, List.map_cons, List.map_append,
    List.map_cons, List.map_cons, swapAt_append 0 i _ _ _ _ (by simpa using hi)]

theorem swapIndex_length (i : ℕ) : (swapIndex i reps).length = reps.length := by simp [swapIndex]

theorem sync_iff : Sync theta beta reps ↔ reps.map Replica.theta = beta.map fun b => theta.map (· * b) := by
  unfold Sync
  constructor
  · intro h
    induction h with
    | nil => rfl
    | cons h _ ih => simp [h, ih]
  · intro h
    induction reps generalizing beta with
    | nil => cases beta <;> simp_all
    | cons r l ih =>
      cases beta with
      | nil => simp at h
      | cons b m => simp only [List.map_cons, List.cons.injEq] at h; exact .cons h.1 (ih h.2)

theorem Sync.swapIndex (h : Sync theta beta reps) (i : ℕ) (hi : i + 1 < reps.length) :
    Sync theta beta (swapIndex i reps) := by
  rw [sync_iff] at h ⊢
  rw [swapIndex_theta i hi, h]

/-- The exchange of two replicas that hold configurations. -/
theorem swapReplicas_holding (hlin : ∀ s b, calcE s (theta.map (· * b)) = b * calcE s theta)
    (hs : Sync theta beta reps) (hb : ∀ b ∈ beta, b ≠ 0) (c : List (List ℤ)) (hc : c.length = reps.length)
    (i : ℕ) (hi : i + 1 < reps.length) :
    swapReplicas beta i (List.zipWith (holding calcE) reps c) =
      List.zipWith (holding calcE) (swapIndex i reps) (swapAt [] i c) := by
  have hne : ∀ j < reps.length, beta.getD j 0 ≠ 0 := fun j hj => by
    rw [List.getD_eq_getElem _ _ (by rw [← hs.length]; exact hj)]
    exact hb _ (List.getElem_mem _)
  have h0 := hne i (by omega)
  have h1 := hne (i + 1) hi
  have t0 := hs.getD i (by omega)
  have t1 := hs.getD (i + 1) hi
  unfold swapReplicas
  rw [getD_zipWith _ _ _ i (by omega) (by omega) default default [],
    getD_zipWith _ _ _ (i + 1) (by omega) (by omega) default default []]
  generalize beta.getD i 0 = b0 at *
  generalize beta.getD (i + 1) 0 = b1 at *
  obtain ⟨pre, a, b, post, rfl, hi'⟩ := split_pair i reps hi
  obtain ⟨pre', x, y, post', rfl, hj'⟩ := split_pair i c (by omega)
  have ga : (pre ++ a :: b :: post).getD i default = a := by
    rw [hi', List.getD_append_right _ _ _ _ (le_refl _)]; simp
  have gb : (pre ++ a :: b :: post).getD (i + 1) default = b := by
    rw [hi', List.getD_append_right _ _ _ _ (by omega)]; simp
  have gx : (pre' ++ x :: y :: post').getD i [] = x := by
    rw [hj', List.getD_append_right _ _ _ _ (le_refl _)]; simp
  have gy : (pre' ++ x :: y :: post').getD (i + 1) [] = y := by
    rw [hj', List.getD_append_right _ _ _ _ (by omega)]; simp
  rw [ga] at t0
  rw [gb] at t1
  rw [ga, gb, gx, gy, swapIndex_append a b pre post i hi', swapAt_append [] i x y pre' post' hj',
    List.zipWith_append (by omega), List.zipWith_append (by omega)]
  simp only [List.zipWith_cons_cons]
  have hz : (List.zipWith (holding calcE) pre pre').length = i := by simp; omega
  rw [List.set_append_right _ _ (by omega), hz, Nat.sub_self, List.set_cons_zero, List.set_append_right _ _ (by omega),
    hz, Nat.add_sub_cancel_left, List.set_cons_succ, List.set_cons_zero]
  unfold holding
  simp only [List.map_cons, List.map_nil, t0, t1, hlin]
  rw [mul_div_cancel_left₀ _ h0, mul_div_cancel_left₀ _ h1, mul_comm b0, mul_comm b1]

/-- The acceptance probability of an exchange. -/
noncomputable def exchangeProb (e : List ℤ → ℝ) (beta : List ℝ) (i : ℕ) (c : List (List ℤ)) : ℝ :=
  min 1 (Real.exp ((e (c.getD i []) - e (c.getD (i + 1) [])) * (beta.getD i 0 - beta.getD (i + 1) 0)))

/-- An exchange of configurations. -/
noncomputable def cfgStep (e : List ℤ → ℝ) (beta : List ℝ) (i : ℕ) (c : List (List ℤ)) : Prog (List (List ℤ)) :=
  .rand fun u => if u < exchangeProb e beta i c then .ret (swapAt [] i c) else .ret c

theorem exchangeStep_holding (hlin : ∀ s b, calcE s (theta.map (· * b)) = b * calcE s theta)
    (hs : Sync theta beta reps) (hb : ∀ b ∈ beta, b ≠ 0) (n : ℕ) (c : List (List ℤ)) (hc : c.length = reps.length)
    (i : ℕ) (hi : i + 1 < reps.length) :
    exchangeStep calcE n beta i (List.zipWith (holding calcE) reps c) =
      .rand fun u => if u < exchangeProb (calcE · theta) beta i c then
        .ret (List.zipWith (holding calcE) (swapIndex i reps) (swapAt [] i c))
        else .ret (List.zipWith (holding calcE) reps c) := by
  have hne : ∀ j < reps.length, beta.getD j 0 ≠ 0 := fun j hj => by
    rw [List.getD_eq_getElem _ _ (by rw [← hs.length]; exact hj)]
    exact hb _ (List.getElem_mem _)
  have h0 := hne i (by omega)
  have h1 := hne (i + 1) hi
  have t0 := hs.getD i (by omega)
  have t1 := hs.getD (i + 1) hi
  unfold exchangeStep acceptanceRatio
  rw [if_pos, if_neg (by omega)]
  · simp only [Prog.bind, List.map_cons, List.map_nil, List.getD_cons_zero, Nat.cast_one, div_one]
    rw [swapReplicas_holding hlin hs hb c hc i hi]
    have e : pairRatio beta (List.zipWith (holding calcE) reps c) (i, i + 1) =
        exchangeProb (calcE · theta) beta i c := by
      unfold pairRatio exchangeProb
      dsimp only
      rw [if_neg (by tauto), getD_zipWith _ _ _ i (by omega) (by omega) default default [],
        getD_zipWith _ _ _ (i + 1) (by omega) (by omega) default default []]
      unfold holding
      dsimp only
      rw [List.getD_cons_zero, List.getD_cons_zero, t0, t1, hlin, hlin, mul_div_cancel_left₀ _ h0,
        mul_div_cancel_left₀ _ h1]
    rw [e]
  · intro r hr
    obtain ⟨j, hj, rfl⟩ := List.getElem_of_mem hr
    rw [List.getElem_zipWith]
    rfl

end

end Verif.Lemmas
