/-
Facts about fill_in and the objectives of the enumeration solvers.
-/
import Verif.Model.Solvers
import Verif.Lemmas.MaxEnt

namespace Verif.Lemmas
open Verif Verif.Model Verif.Spec

variable {K : Type*}

/-! ### fill_in -/

/-- Numbers of missing positions before each listed position, and after the last. -/
def gapsOf (N : ℕ) : ℕ → List ℕ → List ℕ
  | lo, [] => [N - lo]
  | lo, p :: ps => (p - lo) :: gapsOf N (p + 1) ps

theorem length_gapsOf (N lo : ℕ) (ps : List ℕ) : (gapsOf N lo ps).length = ps.length + 1 := by
  induction ps generalizing lo with
  | nil => rfl
  | cons p ps ih => simp [gapsOf, ih]

theorem gaps_flatMap (N p s : ℕ) (ps : List ℕ) :
    (((p :: ps).zip ps).zipIdx s).flatMap (fun q => List.replicate (q.1.2 - q.1.1 - 1) (q.2 + 1)) ++
        List.replicate (N - ps.getLastD p - 1) (s + ps.length + 1) =
      ((gapsOf N (p + 1) ps).zipIdx (s + 1)).flatMap fun q => List.replicate q.1 q.2 := by
  induction ps generalizing p s with
  | nil => simp [gapsOf, Nat.sub_sub]
  | cons q ps ih =>
    simp only [gapsOf, List.zip_cons_cons, List.zipIdx_cons, List.flatMap_cons, List.append_assoc]
    rw [← ih q (s + 1), Nat.sub_sub]
    congr 2
    rw [List.getLastD_cons, List.length_cons, show s + (ps.length + 1) + 1 = s + 1 + ps.length + 1 by omega]

theorem count_gaps (l : List ℕ) (s k : ℕ) :
    ((l.zipIdx s).flatMap fun q => List.replicate q.1 q.2).count k =
      if s ≤ k then l.getD (k - s) 0 else 0 := by
  induction l generalizing s with
  | nil => simp
  | cons a l ih =>
    rw [List.zipIdx_cons, List.flatMap_cons, List.count_append, List.count_replicate, ih]
    rcases lt_trichotomy s k with h | h | h
    · rw [if_neg (by simp; omega), if_pos (by omega), if_pos h.le,
        show k - s = (k - (s + 1)) + 1 by omega, List.getD_cons_succ, zero_add]
    · subst h; simp
    · rw [if_neg (by simp; omega), if_neg (by omega), if_neg (by omega)]

/-- `set_insertion_ix` lists each position `k` as often as there are missing positions before the
`k`-th parameter. -/
theorem insertionIx_eq (N : ℕ) (ix : List ℕ) (hne : 2 ≤ ix.length ∨ ∃ p, ix = [p] ∧ N ≤ p + 1) :
    insertionIx N ix = .ok (((gapsOf N 0 ix).zipIdx).flatMap fun q => List.replicate q.1 q.2) := by
  rcases ix with _ | ⟨p, ps⟩
  · simp at hne
  have key := gaps_flatMap N p 0 ps
  have e : ((gapsOf N 0 (p :: ps)).zipIdx).flatMap (fun q => List.replicate q.1 q.2) =
      List.replicate p 0 ++ ((gapsOf N (p + 1) ps).zipIdx 1).flatMap fun q => List.replicate q.1 q.2 := by
    simp [gapsOf, List.zipIdx_cons]
  rw [e, ← key]
  unfold insertionIx
  simp only
  by_cases hlt : ps.getLastD p + 1 < N
  · have hps : ps ≠ [] := by
      rintro rfl
      rcases hne with h | ⟨p', h, h'⟩
      · simp at h
      · simp at h; subst h; simp at hlt; omega
    have hpos : 0 < ps.length := List.length_pos_iff.2 hps
    rw [if_pos hlt, if_neg hps, List.append_assoc, show ps.length - 1 + 2 = 0 + ps.length + 1 by omega]
  · rw [if_neg hlt, show N - ps.getLastD p - 1 = 0 by omega]
    simp

/-- The full vector, written by recursion. -/
def fillSpec (N : ℕ) (v : K) : ℕ → List ℕ → List K → List K
  | lo, p :: ps, a :: xs => List.replicate (p - lo) v ++ a :: fillSpec N v (p + 1) ps xs
  | lo, _, _ => List.replicate (N - lo) v

theorem flatMap_fillSpec (N : ℕ) (v : K) (lo : ℕ) (ps : List ℕ) (xs : List K) (c : ℕ → ℕ)
    (hlen : xs.length = ps.length) (hc : ∀ k, k ≤ ps.length → c k = (gapsOf N lo ps).getD k 0) :
    ((List.range (xs.length + 1)).flatMap fun k => List.replicate (c k) v ++ (xs[k]?).toList) =
      fillSpec N v lo ps xs := by
  induction ps generalizing lo xs c with
  | nil =>
    have : xs = [] := List.length_eq_zero_iff.1 hlen
    subst this
    simp [fillSpec, hc 0 (by simp), gapsOf]
  | cons p ps ih =>
    rcases xs with _ | ⟨a, xs⟩
    · simp at hlen
    · have := ih (p + 1) xs (fun k => c (k + 1)) (by simpa using hlen) (by
        intro k hk
        rw [hc (k + 1) (by simpa using hk)]
        simp [gapsOf])
      rw [List.length_cons, List.range_succ_eq_map, List.flatMap_cons, List.flatMap_map]
      simp only [List.getElem?_cons_succ, fillSpec, ← this]
      rw [hc 0 (by simp)]
      simp [gapsOf]

theorem fillSpec_eq [Zero K] (N : ℕ) (v : K) (lo : ℕ) (ps : List ℕ) (xs : List K)
    (hlen : xs.length = ps.length) (hs : ps.Pairwise (· < ·)) (hlo : ∀ p ∈ ps, lo ≤ p)
    (hN : ∀ p ∈ ps, p < N) (hloN : lo ≤ N) :
    fillSpec N v lo ps xs =
      (List.range' lo (N - lo)).map fun q => if q ∈ ps then xs.getD (ps.idxOf q) 0 else v := by
  induction ps generalizing lo xs with
  | nil =>
    have : xs = [] := List.length_eq_zero_iff.1 hlen
    subst this
    simp [fillSpec]
  | cons p ps ih =>
    rcases xs with _ | ⟨a, xs⟩
    · simp at hlen
    · have hp := hlo p (by simp)
      have hpN := hN p (by simp)
      have hs' := List.pairwise_cons.1 hs
      have e : N - lo = (p - lo) + (1 + (N - (p + 1))) := by omega
      have e2 : List.range' lo (N - lo) = List.range' lo (p - lo) ++
          p :: List.range' (p + 1) (N - (p + 1)) := by
        rw [e, ← List.range'_append_1, show lo + (p - lo) = p by omega, ← List.range'_append_1]
        rfl
      rw [e2, List.map_append, List.map_cons]
      simp only [fillSpec]
      congr 1
      · refine (List.eq_replicate_iff.2 ⟨by simp, ?_⟩).symm
        intro b hb
        obtain ⟨q, hq, rfl⟩ := List.mem_map.1 hb
        rw [List.mem_range'_1] at hq
        rw [if_neg]
        intro hmem
        rcases List.mem_cons.1 hmem with h | h
        · omega
        · have := hs'.1 q h; omega
      · congr 1
        · simp
        · rw [ih (p + 1) xs (by simpa using hlen) hs'.2 (fun q hq => hs'.1 q hq)
            (fun q hq => hN q (List.mem_cons_of_mem _ hq)) (by omega)]
          apply List.map_congr_left
          intro q hq
          rw [List.mem_range'_1] at hq
          have hne : p ≠ q := by omega
          rw [List.idxOf_cons_ne _ hne]
          simp only [List.mem_cons, hne.symm, false_or, List.getD_cons_succ]

theorem fillIn_eq [Zero K] (N : ℕ) (ix : List ℕ) (hs : ix.Pairwise (· < ·)) (hN : ∀ p ∈ ix, p < N)
    (hne : 2 ≤ ix.length ∨ ix = [N - 1]) (x : List K) (hx : x.length = ix.length) (v : K) :
    fillIn N ix x v =
      .ok ((List.range N).map fun q => if q ∈ ix then x.getD (ix.idxOf q) 0 else v) := by
  unfold fillIn
  have hne' : 2 ≤ ix.length ∨ ∃ p, ix = [p] ∧ N ≤ p + 1 :=
    hne.imp_right fun h => ⟨N - 1, h, by omega⟩
  rw [insertionIx_eq N ix hne']
  simp only
  unfold npInsert
  rw [if_neg]
  · congr 1
    rw [flatMap_fillSpec N v 0 ix x _ hx]
    · rw [fillSpec_eq N v 0 ix x hx hs (by simp) hN (by simp), Nat.sub_zero, ← List.range_eq_range']
    · intro k _
      rw [count_gaps]
      simp
  · rintro ⟨k, hk, hlt⟩
    obtain ⟨q, hq, hk'⟩ := List.mem_flatMap.1 hk
    have h1 := (List.mem_replicate.1 hk').2
    have h2 := List.mem_zipIdx hq
    rw [length_gapsOf] at h2
    omega

end Verif.Lemmas

namespace Verif.Lemmas
open Verif Verif.Model Verif.Spec

/-! ### Objectives -/

theorem zipWith_sub_zero (a b : List ℝ) (h : a.length = b.length)
    (hz : List.zipWith (· - ·) a b = List.replicate b.length 0) : a = b := by
  induction a generalizing b with
  | nil => exact (List.length_eq_zero_iff.1 h.symm).symm
  | cons x a ih =>
    rcases b with _ | ⟨y, b⟩
    · simp at h
    · simp only [List.zipWith_cons_cons, List.length_cons, List.replicate_succ, List.cons.injEq] at hz
      rw [ih b (by simpa using h) hz.2, sub_eq_zero.1 hz.1]

theorem broadcast2_sub_zero (a b : List ℝ) (h : a.length = b.length)
    (hz : broadcast2 (· - ·) a b = .ok (List.replicate b.length 0)) : a = b := by
  unfold broadcast2 at hz
  rw [if_pos h] at hz
  exact zipWith_sub_zero a b h (Except.ok.inj hz)

/-- All observables of a module, its states and its parameters: the exponential family. -/
theorem module_family (n : ℕ) (sym : Bool) (groups : List Group) (P Q : List (List ℝ))
    (hP : ParamsFit groups P) (hQ : ParamsFit groups Q)
    (h : ∀ i (hi : i < (groups.flatMap fun g => g.2).length),
      P.flatten.getD i 0 = Q.flatten.getD i 0 ∨
      expect (words (spinValues sym) n) (fun s => groupE groups P (spins s))
          (fun s => mono (spins s) (groups.flatMap fun g => g.2)[i]) =
        expect (words (spinValues sym) n) (fun s => groupE groups Q (spins s))
          (fun s => mono (spins s) (groups.flatMap fun g => g.2)[i])) :
    (∀ s ∈ words (spinValues sym) n,
      boltzmann (words (spinValues sym) n) (fun s => groupE groups P (spins s)) s =
        boltzmann (words (spinValues sym) n) (fun s => groupE groups Q (spins s)) s) ∧
    ∃ c, ∀ s ∈ words (spinValues sym) n, groupE groups P (spins s) = groupE groups Q (spins s) + c := by
  have hlen : ∀ R : List (List ℝ), ParamsFit groups R →
      R.flatten.length = (groups.flatMap fun g => g.2).length := by
    intro R hR
    rw [List.length_flatten, List.length_flatMap]
    unfold ParamsFit at hR
    rw [hR]
  refine family_unique (words (spinValues sym) n) (words_spinValues_ne sym n)
    (groups.flatMap fun g => g.2) (fun t s => mono (spins s) t) P.flatten Q.flatten (hlen P hP) (hlen Q hQ)
    _ _ (fun s _ => groupE_flatten groups P hP _) (fun s _ => groupE_flatten groups Q hQ _) ?_
  intro i hi
  have := h i hi
  rwa [List.getD_eq_getElem _ _ (by rw [hlen P hP]; exact hi),
    List.getD_eq_getElem _ _ (by rw [hlen Q hQ]; exact hi)] at this

theorem polyShape_of_fit (n m : ℕ) (P : List (List ℝ)) (hP : ParamsFit (allOrders n m) P) :
    P.length = m ∧ PolyShape n P := by
  unfold ParamsFit allOrders at hP
  have hl : P.length = m := by simpa using congrArg List.length hP
  refine ⟨hl, fun k hk => ?_⟩
  have := congrArg (fun l => l.getD k 0) hP
  simp only [List.map_map] at this
  rw [List.getD_eq_getElem _ _ (by simpa using hk), getD_map_range m _ _ (hl ▸ hk)] at this
  rw [List.getD_eq_getElem _ _ hk]
  simpa using this

/-- Different parameters of a model with all interactions up to some order differ in some observable,
even if only the observables of the parameters that differ are compared. -/
theorem params_unique (n m : ℕ) (sym : Bool) (P Q : List (List ℝ))
    (hP : ParamsFit (allOrders n m) P) (hQ : ParamsFit (allOrders n m) Q)
    (h : ∀ i (hi : i < ((allOrders n m).flatMap fun g => g.2).length),
      P.flatten.getD i 0 = Q.flatten.getD i 0 ∨
      expect (words (spinValues sym) n) (fun s => groupE (allOrders n m) P (spins s))
          (fun s => mono (spins s) ((allOrders n m).flatMap fun g => g.2)[i]) =
        expect (words (spinValues sym) n) (fun s => groupE (allOrders n m) Q (spins s))
          (fun s => mono (spins s) ((allOrders n m).flatMap fun g => g.2)[i])) : P = Q := by
  obtain ⟨-, c, hc⟩ := module_family n sym _ P Q hP hQ h
  obtain ⟨lP, sP⟩ := polyShape_of_fit n m P hP
  obtain ⟨lQ, sQ⟩ := polyShape_of_fit n m Q hQ
  refine poly_unique_words n sym P Q (lP.trans lQ.symm) sP sQ c fun s hs => ?_
  have := hc s hs
  have eP : groupE (allOrders n m) P (spins s) = polyE n P (spins s) := by
    rw [← lP]; exact groupE_allOrders n P (spins s)
  have eQ : groupE (allOrders n m) Q (spins s) = polyE n Q (spins s) := by
    rw [← lQ]; exact groupE_allOrders n Q (spins s)
  rwa [eP, eQ] at this

theorem fit_two (n : ℕ) (v : List ℝ) (hv : v.length = n + n * (n - 1) / 2) :
    ParamsFit (allOrders n 2) [v.take n, v.drop n] :=
  paramsFit_allOrders n [v.take n, v.drop n] (polyShape_two n _ _ (by rw [List.length_take]; omega)
    (by rw [List.length_drop]; omega))

theorem length_pairTuples (n : ℕ) :
    ((allOrders n 2).flatMap fun g => g.2).length = n + n * (n - 1) / 2 := by
  simp [allOrders, List.range_succ, length_tuples, Nat.choose_two_right]

/-- The pairwise module: probabilities and moments of the Boltzmann distribution, for a parameter
vector. -/
theorem pairwise_vec (n : ℕ) (hn : 1 ≤ n) (sym : Bool) :
    ∃ e, writeEqns n sym (pairwiseIx n) = .ok e ∧
      ∀ v : List ℝ, v.length = n + n * (n - 1) / 2 →
        moduleP e v = .ok ((words (spinValues sym) n).map
          (boltzmann (words (spinValues sym) n)
            fun s => groupE (allOrders n 2) [v.take n, v.drop n] (spins s))) ∧
        ∀ brk, moduleObservables brk e v = .ok (((allOrders n 2).flatMap fun g => g.2).map fun t =>
          expect (words (spinValues sym) n)
            (fun s => groupE (allOrders n 2) [v.take n, v.drop n] (spins s)) fun s => mono (spins s) t) := by
  obtain ⟨e, h1, h2⟩ := module_eq n hn sym (allOrders n 2) (goodGroups_allOrders n 2)
    (by simp [allOrders]) (allOrders_nonempty n 2 hn (by norm_num))
  refine ⟨e, by rw [pairwiseIx_eq]; exact h1, fun v hv => ?_⟩
  have := h2 _ (fit_two n v hv)
  have hf : ([v.take n, v.drop n] : List (List ℝ)).flatten = v := by simp
  rwa [hf] at this

theorem pairwise_unique (n : ℕ) (sym : Bool) (v w : List ℝ)
    (hv : v.length = n + n * (n - 1) / 2) (hw : w.length = n + n * (n - 1) / 2)
    (h : ∀ i (hi : i < ((allOrders n 2).flatMap fun g => g.2).length), v.getD i 0 = w.getD i 0 ∨
      expect (words (spinValues sym) n)
          (fun s => groupE (allOrders n 2) [v.take n, v.drop n] (spins s))
          (fun s => mono (spins s) ((allOrders n 2).flatMap fun g => g.2)[i]) =
        expect (words (spinValues sym) n)
          (fun s => groupE (allOrders n 2) [w.take n, w.drop n] (spins s))
          (fun s => mono (spins s) ((allOrders n 2).flatMap fun g => g.2)[i])) : v = w := by
  have hf : ∀ u : List ℝ, ([u.take n, u.drop n] : List (List ℝ)).flatten = u := fun u => by simp
  have := params_unique n 2 sym _ _ (fit_two n v hv) (fit_two n w hw) (by
    rw [hf, hf]; exact h)
  rw [← hf v, this, hf]

end Verif.Lemmas

namespace Verif.Lemmas
open Verif Verif.Model Verif.Spec

/-! ### logp -/

theorem logpLoop_length (us sample ms : Data) (out : List ℝ) :
    (logpLoop us sample ms out).length = out.length := by
  unfold logpLoop
  induction us generalizing out with
  | nil => rfl
  | cons u us ih => rw [List.foldl_cons, ih]; simp

theorem logpLoop_get (us sample ms : Data) (out : List ℝ) (hout : out.length = sample.length) (j : ℕ)
    (hj : j < sample.length) (hmem : sample[j] ∈ us) :
    (logpLoop us sample ms out)[j]? = some (((ms.filter fun m =>
      ((List.range sample[j].length).filter fun i => sample[j].getD i 0 ≠ 0).all
        fun i => sample[j].getD i 0 == m.getD i 0).length : ℝ) / (ms.length : ℝ)) := by
  have hget : sample.getD j [] = sample[j] := List.getD_eq_getElem _ _ hj
  have keep : ∀ (us : Data) (out : List ℝ), out.length = sample.length → sample[j] ∉ us →
      (logpLoop us sample ms out)[j]? = out[j]? := by
    intro us
    induction us with
    | nil => intro out _ _; rfl
    | cons u us ih =>
      intro out ho hn
      have hu : sample[j] ≠ u := fun h => hn (by simp [h])
      unfold logpLoop at ih ⊢
      rw [List.foldl_cons, ih _ (by simpa using ho) (fun h => hn (List.mem_cons_of_mem _ h))]
      rw [List.getElem?_map, List.getElem?_range (by omega), Option.map_some, hget, if_neg hu,
        List.getElem?_eq_getElem (by omega), List.getD_eq_getElem _ _ (by omega)]
  induction us generalizing out with
  | nil => simp at hmem
  | cons u us ih =>
    by_cases hin : sample[j] ∈ us
    · have := ih (out := (List.range out.length).map fun j =>
        if sample.getD j [] = u then ((ms.filter fun m =>
          ((List.range u.length).filter fun i => u.getD i 0 ≠ 0).all
            fun i => u.getD i 0 == m.getD i 0).length : ℝ) / (ms.length : ℝ) else out.getD j 0)
        (by simpa using hout) hin
      unfold logpLoop at this ⊢
      rw [List.foldl_cons]
      exact this
    · have hu : sample[j] = u := by
        rcases List.mem_cons.1 hmem with h | h
        · exact h
        · exact absurd h hin
      have := keep us ((List.range out.length).map fun j =>
        if sample.getD j [] = u then ((ms.filter fun m =>
          ((List.range u.length).filter fun i => u.getD i 0 ≠ 0).all
            fun i => u.getD i 0 == m.getD i 0).length : ℝ) / (ms.length : ℝ) else out.getD j 0)
        (by simpa using hout) hin
      unfold logpLoop at this ⊢
      rw [List.foldl_cons]
      refine this.trans ?_
      rw [List.getElem?_map, List.getElem?_range (by omega), Option.map_some, hget, if_pos hu, hu]

end Verif.Lemmas
