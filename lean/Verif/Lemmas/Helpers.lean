import Verif.Model.Helpers
import Verif.Lemmas.Pairs
import Verif.Lemmas.Corr

namespace Verif.Lemmas
open Verif Verif.Model Verif.Spec

variable {K : Type*}

theorem ent_eq_spins [CommRing K] (s : List ℤ) (i : ℕ) : (ent s i : K) = spins s i := rfl

theorem map_spins_range [CommRing K] (s : List ℤ) :
    (List.range s.length).map (spins s : ℕ → K) = s.map fun x : ℤ => (x : K) := by
  apply List.ext_getElem
  · simp
  · intro i h1 h2
    have : i < s.length := by simpa using h2
    simp [spins, this]

theorem fastSum_eq [CommRing K] (J : List K) (s : List ℤ) :
    fastSum J s = dot J ((upperPairs s.length).map fun p => spins s p.1 * spins s p.2) := by
  unfold fastSum
  rw [loopPairs_eq_upperPairs, foldl_counter (fun k (p : ℕ × ℕ) => rd J k * ent s p.1 * ent s p.2)]
  have := sum_zipIdx_getD (upperPairs s.length) J
    (fun p : ℕ × ℕ => (spins s p.1 * spins s p.2 : K)) 0
  simp only [zero_add]
  rw [List.drop_zero] at this
  unfold dot
  rw [← this]
  congr 1
  apply List.map_congr_left
  intro q _
  rw [mul_assoc]; rfl

theorem isingCalcERow_eq [CommRing K] (h J : List K) (s : List ℤ) (hh : h.length = s.length) :
    isingCalcERow (h ++ J) s = -dot (h ++ J) (pairObs s.length (spins s)) := by
  unfold isingCalcERow pairObs
  rw [dot_append _ _ _ _ (by simp [hh]), List.take_left' hh, List.drop_left' hh, fastSum_eq, neg_add,
    add_comm, ← sub_eq_add_neg]
  congr 1
  unfold dot
  rw [map_spins_range, List.zipWith_map_right, List.zipWith_comm]
  congr 1
  simp only [mul_comm]

theorem dot_pairObs [CommRing K] (n : ℕ) (h J : List K) (hh : h.length = n)
    (hJ : J.length = n * (n - 1) / 2) (x : ℕ → K) :
    -dot (h ++ J) (pairObs n x) = isingVecE n h J x := by
  unfold pairObs isingVecE isingE
  rw [dot_append _ _ _ _ (by simp [hh]), dot_range n h hh,
    dot_upperPairs n J hJ (fun i j => x i * x j), neg_add, sub_eq_add_neg]
  congr 2
  refine Finset.sum_congr rfl fun i _ => Finset.sum_congr rfl fun j _ => ?_
  by_cases hij : i < j <;> simp [hij, mul_assoc]

theorem setAt_left {β : Type*} (A B : List β) (i : ℕ) (v : β) (h : i < A.length) :
    setAt (A ++ B) i v = .ok (A.set i v ++ B) := by
  unfold setAt
  rw [if_pos (by simp; omega), List.set_append_left _ _ h]

theorem setAt_right {β : Type*} (A B : List β) (k : ℕ) (v : β) (h : k < B.length) :
    setAt (A ++ B) (A.length + k) v = .ok (A ++ B.set k v) := by
  unfold setAt
  rw [if_pos (by simp; omega), List.set_append_right _ _ (by omega), Nat.add_sub_cancel_left]

theorem enumWrite_append {α β : Type*} (f : ℕ → α → Py β) (L L' : List α) (k : ℕ) (arr : List β) :
    enumWrite f (L ++ L') k arr = (enumWrite f L k arr).bind (enumWrite f L' (k + L.length)) := by
  induction L generalizing k arr with
  | nil => rfl
  | cons x xs ih =>
    rw [List.cons_append, enumWrite, enumWrite]
    cases f k x with
    | error e => rfl
    | ok v =>
      simp only [bind, Except.bind]
      by_cases h : k < arr.length
      · rw [if_pos h, if_pos h, ih]
        simp [Except.bind, Nat.add_assoc, Nat.add_comm 1]
      · rw [if_neg h, if_neg h]

/-- The inner loop of `calc_observables` writes into the second part of the array. -/
theorem isingObs_inner [CommRing K] (s : List ℤ) (A : List K) (n i : ℕ) (hA : A.length = n)
    (L : List ℕ) (B : List K) (k : ℕ) (hB : k + L.length ≤ B.length) :
    L.foldlM (fun (st : List K × ℕ) j => do
        let obs ← setAt st.1 (n + st.2) (ent s i * ent s j)
        pure (obs, st.2 + 1)) (A ++ B, k) =
      (.ok (A ++ (B.take k ++ L.map (fun j => (spins s i * spins s j : K)) ++
        B.drop (k + L.length)), k + L.length) : Py (List K × ℕ)) := by
  induction L generalizing B k with
  | nil => simp [pure, Except.pure]
  | cons j L ih =>
    simp only [List.length_cons] at hB
    have hk : k < B.length := by omega
    rw [List.foldlM_cons, ← hA, setAt_right A B k _ hk]
    simp only [bind, Except.bind, pure, Except.pure]
    have := ih (B.set k (ent s i * ent s j)) (k + 1) (by simp; omega)
    rw [← hA] at this
    simp only [bind, Except.bind, pure, Except.pure] at this
    rw [this]
    congr 2
    · congr 1
      rw [take_succ_set _ _ _ hk, List.drop_set_of_lt (by omega)]
      simp [ent_eq_spins, Nat.add_assoc, Nat.add_comm 1]
    · simp [Nat.add_assoc, Nat.add_comm 1]

theorem isingObservables_eq [CommRing K] (s : List ℤ) :
    isingObservables (K := K) s = .ok (pairObs s.length (spins s)) := by
  set n := s.length with hn
  -- state of the arrays before round m
  have key : ∀ m, m ≤ n → (pyRange 0 m).foldlM (fun (st : List K × ℕ) i => (do
      let obs ← setAt st.1 i (ent s i)
      (pyRange (i + 1) n).foldlM (fun (st : List K × ℕ) j => do
        let obs ← setAt st.1 (n + st.2) (ent s i * ent s j)
        pure (obs, st.2 + 1)) (obs, st.2) : Py (List K × ℕ)))
      (List.replicate (n + n * (n - 1) / 2) (0 : K), 0) =
      .ok (((List.range m).map (spins s) ++ List.replicate (n - m) 0) ++
        ((((List.range m).flatMap fun i => (pyRange (i + 1) n).map fun j => (i, j)).map
            fun p => (spins s p.1 * spins s p.2 : K)) ++
          List.replicate (n * (n - 1) / 2 -
            ((List.range m).flatMap fun i => (pyRange (i + 1) n).map fun j => (i, j)).length) 0),
        ((List.range m).flatMap fun i => (pyRange (i + 1) n).map fun j => (i, j)).length) := by
    intro m hm
    induction m with
    | zero => simp [pyRange, pure, Except.pure]
    | succ m ih =>
      have hr : pyRange 0 (m + 1) = pyRange 0 m ++ [m] := by
        simp [pyRange, List.range'_1_concat]
      rw [hr, List.foldlM_append, ih (by omega)]
      set P := (List.range m).flatMap fun i => (pyRange (i + 1) n).map fun j => (i, j) with hP
      have hcount : P.length + (pyRange (m + 1) n).length ≤ n * (n - 1) / 2 := by
        have h1 : ((List.range (m + 1)).flatMap fun i => (pyRange (i + 1) n).map fun j => (i, j)).Sublist
            (upperPairs n) := by
          have h2 : upperPairs n = (List.range n).flatMap fun i => (pyRange (i + 1) n).map fun j => (i, j) := by
            rw [← loopPairs_eq_upperPairs]
            unfold loopPairs
            rcases n with _ | n'
            · rfl
            · rw [List.range_succ, List.flatMap_append]
              simp [pyRange, List.range_eq_range']
          rw [h2]
          obtain ⟨d, hd⟩ : ∃ d, n = (m + 1) + d := ⟨n - (m + 1), by omega⟩
          have h3 : List.range n = List.range (m + 1) ++ (List.range d).map (m + 1 + ·) := by
            conv_lhs => rw [hd]
            rw [List.range_add]
          rw [h3, List.flatMap_append]
          exact List.sublist_append_left _ _
        have h4 := h1.length_le
        rw [length_upperPairs, List.range_succ, List.flatMap_append, List.length_append, ← hP] at h4
        simpa only [List.flatMap_cons, List.flatMap_nil, List.append_nil, List.length_map] using h4
      simp only [bind, Except.bind]
      rw [List.foldlM_cons]
      simp only [bind, Except.bind, List.foldlM_nil, pure, Except.pure]
      rw [setAt_left _ _ m _ (by simp; omega)]
      simp only
      have hA : (((List.range m).map (spins s) ++ List.replicate (n - m) (0 : K)).set m (ent s m)) =
          (List.range (m + 1)).map (spins s) ++ List.replicate (n - (m + 1)) 0 := by
        rw [List.set_append_right _ _ (by simp)]
        have : n - m = (n - (m + 1)) + 1 := by omega
        rw [this, List.replicate_succ, List.range_succ]
        simp [ent_eq_spins]
      rw [hA]
      have hin := isingObs_inner s ((List.range (m + 1)).map (spins s) ++
        List.replicate (n - (m + 1)) (0 : K)) n m (by simp; omega) (pyRange (m + 1) n)
        (P.map (fun p => (spins s p.1 * spins s p.2 : K)) ++
          List.replicate (n * (n - 1) / 2 - P.length) 0) P.length (by simp; omega)
      simp only [bind, Except.bind, pure, Except.pure] at hin
      rw [hin]
      simp only
      have e : ((List.range (m + 1)).flatMap fun i => (pyRange (i + 1) n).map fun j => (i, j)) =
          P ++ (pyRange (m + 1) n).map fun j => (m, j) := by
        rw [List.range_succ, List.flatMap_append]; simp [hP]
      rw [e]
      congr 2
      · congr 1
        rw [List.take_left' (by simp), List.drop_append]
        simp [Function.comp_def, Nat.sub_sub]
      · simp
  unfold isingObservables
  simp only [← hn]
  rw [key n le_rfl]
  simp only [bind, Except.bind, pure, Except.pure]
  have h2 : upperPairs n = (List.range n).flatMap fun i => (pyRange (i + 1) n).map fun j => (i, j) := by
    rw [← loopPairs_eq_upperPairs]
    unfold loopPairs
    rcases hn' : n with _ | n'
    · rfl
    · rw [List.range_succ, List.flatMap_append]
      simp [pyRange, List.range_eq_range']
  rw [← h2, length_upperPairs]
  simp [pairObs]

end Verif.Lemmas
