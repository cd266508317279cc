/-
The generated Potts modules compute the Boltzmann distribution and its moments.
-/
import Verif.Lemmas.PottsText
import Verif.Lemmas.LogSumExp
import Verif.Lemmas.Helpers2
import Verif.Lemmas.Boltzmann
import Verif.Lemmas.EnumerateWrap
import Verif.Props.States

namespace Verif.Lemmas
open Verif Verif.Model Verif.Spec

/-- The terms written for a state with digits `d`. -/
def pottsPieces (n : ℕ) (d : List ℕ) : List Piece :=
  (List.range n).map (fun i => Piece.term false 'h' (d.getD i 0 * n + i)) ++
    (upperPairs n).zipIdx.flatMap fun q =>
      if d.getD q.1.1 0 = d.getD q.1.2 0 then [Piece.term false 'J' q.2] else []

theorem pottsPieces_cases (n : ℕ) (d : List ℕ) (p : Piece) (hp : p ∈ pottsPieces n d) :
    (∃ i < n, p = .term false 'h' (d.getD i 0 * n + i)) ∨
      ∃ j < (upperPairs n).length, p = .term false 'J' j := by
  rcases List.mem_append.1 hp with h | h
  · obtain ⟨i, hi, rfl⟩ := List.mem_map.1 h
    exact Or.inl ⟨i, List.mem_range.1 hi, rfl⟩
  · obtain ⟨q, hq, hp⟩ := List.mem_flatMap.1 h
    split_ifs at hp
    · right
      refine ⟨q.2, ?_, by simpa using hp⟩
      have := List.mem_zipIdx hq
      omega
    · simp at hp

theorem digitCh_inj (a b : ℕ) (ha : a < 10) (hb : b < 10) : digitCh a = digitCh b ↔ a = b := by
  constructor
  · intro h
    have := congrArg digitVal h
    rw [digitVal_digitCh a ha, digitVal_digitCh b hb] at this
    exact Option.some.inj this
  · rintro rfl; rfl

theorem getElem?_digits (d : List ℕ) (i : ℕ) (hi : i < d.length) :
    (d.map digitCh)[i]? = some (digitCh (d.getD i 0)) := by
  rw [List.getElem?_map, List.getD_eq_getElem _ _ hi, List.getElem?_eq_getElem hi]; rfl

theorem getElem?_digits_eq (d : List ℕ) (hd : ∀ x ∈ d, x < 10) (i j : ℕ) (hi : i < d.length) (hj : j < d.length) :
    ((d.map digitCh)[i]? = (d.map digitCh)[j]?) ↔ d.getD i 0 = d.getD j 0 := by
  rw [getElem?_digits d i hi, getElem?_digits d j hj, Option.some_inj, digitCh_inj]
  · rw [List.getD_eq_getElem _ _ hi]; exact hd _ (List.getElem_mem hi)
  · rw [List.getD_eq_getElem _ _ hj]; exact hd _ (List.getElem_mem hj)

theorem combos_pairs (n : ℕ) : combos 2 (pyRange 0 n) = (upperPairs n).map fun p => [p.1, p.2] := by
  rw [← tuples_eq, tuples_two]

theorem pottsTerm_eq (n : ℕ) (hn : 1 ≤ n) (d : List ℕ) (hlen : d.length = n) (hd : ∀ x ∈ d, x < 10) :
    pottsTerm n (d.map digitCh) = .ok (render (pottsPieces n d)).tail := by
  unfold pottsTerm
  rw [mapM_ok _ (fun i => (Piece.term false 'h' (d.getD i 0 * n + i)).body ++ ['+']) (List.range n)]
  · simp only
    congr 1
    have hpieces : (List.map (fun i => (Piece.term false 'h' (d.getD i 0 * n + i)).body ++ ['+']) (List.range n)).flatten ++
        ((combos 2 (pyRange 0 n)).zipIdx.flatMap fun q =>
          if (d.map digitCh)[q.1.getD 0 0]? = (d.map digitCh)[q.1.getD 1 0]? then
            ['J', '['] ++ natText q.2 ++ [']', '+'] else []) =
        (((pottsPieces n d).map Piece.body).map fun b => b ++ ['+']).flatten := by
      unfold pottsPieces
      rw [List.map_append, List.map_append, List.flatten_append, List.map_map, List.map_map]
      congr 1
      rw [combos_pairs, List.zipIdx_map, List.flatMap_map, List.map_flatMap, List.map_flatMap,
        List.flatMap_def, List.flatMap_def, List.flatten_flatten, List.map_map]
      congr 1
      apply List.map_congr_left
      intro q hq
      have hm := List.mem_zipIdx hq
      have hq1 : q.1 ∈ upperPairs n := by rw [hm.2.2]; exact List.getElem_mem _
      have hlt := mem_upperPairs.1 (show (q.1.1, q.1.2) ∈ upperPairs n from hq1)
      simp only [Function.comp, Prod.map, id, List.getD_cons_zero, List.getD_cons_succ]
      have := getElem?_digits_eq d hd q.1.1 q.1.2 (by omega) (by omega)
      by_cases h : d.getD q.1.1 0 = d.getD q.1.2 0
      · rw [if_pos (this.2 h), if_pos h]
        simp [Piece.body]
      · rw [if_neg (fun h' => h (this.1 h')), if_neg h]; rfl
    rw [hpieces, plus_shift]
    · congr 1
      unfold render
      rw [List.map_map]
      congr 1
      apply List.map_congr_left
      intro p hp
      rcases pottsPieces_cases n d p hp with ⟨i, -, rfl⟩ | ⟨j, -, rfl⟩ <;> rfl
    · unfold pottsPieces
      intro h
      have := congrArg List.length h
      simp at this
      omega
  · intro i hi
    have hi := List.mem_range.1 hi
    unfold pottsField
    rw [getElem?_digits d i (by omega)]
    simp only
    rw [digitVal_digitCh]
    · simp [Piece.body]
    · rw [List.getD_eq_getElem _ _ (by omega)]; exact hd _ (List.getElem_mem _)

theorem sum_zipIdx_dot {α : Type*} (L : List α) (J : List ℝ) (g : α → ℝ) (k : ℕ) (h : L.length + k ≤ J.length) :
    ((L.zipIdx k).map fun q => J.getD q.2 0 * g q.1).sum = dot (J.drop k) (L.map g) := by
  induction L generalizing k with
  | nil => simp [dot]
  | cons a L ih =>
    have hk : k < J.length := by simp at h; omega
    rw [List.zipIdx_cons, List.map_cons, List.sum_cons, ih (k + 1) (by simp at h; omega),
      List.drop_eq_getElem_cons hk]
    simp only [dot, List.map_cons, List.zipWith_cons_cons, List.sum_cons]
    rw [List.getD_eq_getElem _ _ hk]

/-- The value of the terms is minus the energy. -/
theorem pottsPieces_val (n k : ℕ) (h J : List ℝ) (hJ : J.length = n * (n - 1) / 2)
    (env' : Char → ℕ → ℝ) (e1 : ∀ j, env' 'h' j = h.getD j 0) (e2 : ∀ j, env' 'J' j = J.getD j 0)
    (d : List ℕ) (hlen : d.length = n) (hd : ∀ x ∈ d, x < k) :
    ((pottsPieces n d).map (Piece.val env')).sum =
      -pottsVecE n k h J fun i => ((d.map fun x : ℕ => (x : ℤ)).getD i 0) := by
  have hget : ∀ i, (d.map fun x : ℕ => (x : ℤ)).getD i 0 = ((d.getD i 0 : ℕ) : ℤ) := by
    intro i
    by_cases hi : i < d.length
    · rw [List.getD_eq_getElem _ _ (by simpa using hi), List.getD_eq_getElem _ _ hi]; simp
    · rw [List.getD_eq_default _ _ (by simpa using hi), List.getD_eq_default _ _ (by omega)]; rfl
  have hpair : (((upperPairs n).zipIdx.flatMap fun q =>
      if d.getD q.1.1 0 = d.getD q.1.2 0 then [Piece.term false 'J' q.2] else []).map (Piece.val env')).sum =
      dot J ((upperPairs n).map fun p => if d.getD p.1 0 = d.getD p.2 0 then (1 : ℝ) else 0) := by
    have := sum_zipIdx_dot (upperPairs n) J (fun p => if d.getD p.1 0 = d.getD p.2 0 then (1 : ℝ) else 0) 0
      (by rw [length_upperPairs, hJ]; omega)
    rw [List.drop_zero] at this
    rw [← this, List.map_flatMap, sum_flatMap]
    congr 1
    apply List.map_congr_left
    intro q _
    split_ifs
    · simp [Piece.val, e2]
    · simp
  unfold pottsPieces
  rw [List.map_append, List.sum_append, hpair,
    dot_upperPairs n J hJ (fun i j => if d.getD i 0 = d.getD j 0 then (1 : ℝ) else 0)]
  unfold pottsVecE pottsE
  simp only [hget]
  rw [neg_sub, sub_neg_eq_add, add_comm]
  congr 1
  · refine Finset.sum_congr rfl fun i _ => Finset.sum_congr rfl fun j _ => ?_
    by_cases h1 : i < j
    · by_cases h2 : d.getD i 0 = d.getD j 0
      · rw [if_pos h1, if_pos h2, if_pos ⟨h1, by rw [h2]⟩, mul_one]
      · rw [if_pos h1, if_neg h2, if_neg (fun hh => h2 (by exact_mod_cast hh.2)), mul_zero]
    · rw [if_neg h1, if_neg (fun hh => h1 hh.1)]
  · rw [List.map_map, sum_map_range, Finset.sum_comm]
    refine Finset.sum_congr rfl fun i hi => ?_
    have hi := Finset.mem_range.1 hi
    have hlt : d.getD i 0 < k := by
      rw [List.getD_eq_getElem _ _ (by omega)]; exact hd _ (List.getElem_mem _)
    rw [Finset.sum_eq_single (d.getD i 0)]
    · rw [if_pos rfl]; simp [Piece.val, e1]
    · intro a _ ha
      rw [if_neg]
      intro hh
      exact ha (by exact_mod_cast hh.symm)
    · intro hh; exact absurd (Finset.mem_range.2 hlt) hh

theorem expLog_ratio_nonneg (X c : List ℝ) (hX : X ≠ []) (hc : c.length = X.length) (h0 : ∀ x ∈ c, 0 ≤ x) (z : ℝ) :
    ∃ num, fastLogSumExp X (some c) = .ok num ∧ expLog (subLog num.1 z) =
      (List.zipWith (fun x c => c * Real.exp x) X c).sum / Real.exp z := by
  obtain ⟨m, sgn, h1, h2, h3, -, h5⟩ := fastLogSumExp_coeffs X c hX hc
  have hsum : 0 ≤ (List.zipWith (fun x c => c * Real.exp x) X c).sum := by
    apply List.sum_nonneg
    intro y hy
    rw [← List.map_uncurry_zip_eq_zipWith] at hy
    obtain ⟨q, hq, rfl⟩ := List.mem_map.1 hy
    exact mul_nonneg (h0 _ (List.of_mem_zip hq).2) (Real.exp_pos _).le
  have hs := h5.2 hsum
  refine ⟨(m, sgn), h1, ?_⟩
  rcases m with _ | v
  · rw [h3.1 rfl]; simp [subLog, expLog]
  · have := h2 v rfl
    rw [hs, one_mul] at this
    rw [← this]
    simp only [subLog, Option.map_some, expLog]
    rw [Real.exp_sub]

/-- The states as integer vectors, in the order of `xpotts_states`. -/
abbrev pottsWords (n k : ℕ) : List (List ℤ) := words ((List.range k).map fun a : ℕ => (a : ℤ)) n

theorem pottsWords_eq (n k : ℕ) :
    pottsWords n k = (words (List.range k) n).map (List.map fun x : ℕ => (x : ℤ)) := words_map _ n

theorem pottsWords_ne (n k : ℕ) (hk : 2 ≤ k) : pottsWords n k ≠ [] := by
  intro h
  have := congrArg List.length h
  rw [length_words] at this
  simp at this
  omega

theorem alphanum_take (k : ℕ) (hk : k ≤ 10) : alphanum.take k = (List.range k).map digitCh := by
  interval_cases k <;> decide

/-- The states that are enumerated. -/
theorem xpotts_digits (est : ℕ → ℕ → ℕ) (n k : ℕ) (hn : 0 < n) (hk : 2 ≤ k) (hk' : k ≤ 10)
    (h : ∀ i, i ≠ 0 → GoodEst (est i k) i k) :
    xpottsStates est n k = .ok ((words (List.range k) n).map (List.map digitCh)) := by
  obtain ⟨v, h1, -, -, h2, -⟩ := Props.C06_xpotts_states est n k hn hk (by omega) h
  rw [h1, h2, alphanum_take k hk', words_map]

theorem potts_module_full (est : ℕ → ℕ → ℕ) (n k : ℕ) (hn : 2 < n) (hk : 2 ≤ k) (hk' : k ≤ 10)
    (hest : ∀ i, i ≠ 0 → GoodEst (est i k) i k) :
    ∃ e, writePotts est n k = .ok e ∧ e.n = n ∧ e.k = k ∧ e.coeffs.length = n * k + n * (n - 1) / 2 ∧
      ∀ h J : List ℝ, h.length = n * k → J.length = n * (n - 1) / 2 →
        pottsZ e (h ++ J) = .ok ((pottsWords n k).map (fun s => -pottsVecE n k h J fun i => s.getD i 0),
          Real.log (partition (pottsWords n k) fun s => pottsVecE n k h J fun i => s.getD i 0)) ∧
        pottsModuleP e (h ++ J) = .ok ((pottsWords n k).map
          (boltzmann (pottsWords n k) fun s => pottsVecE n k h J fun i => s.getD i 0)) ∧
        pottsModuleObs e (h ++ J) = .ok
          (((List.range k).flatMap fun a : ℕ => (List.range n).map fun i =>
              expect (pottsWords n k) (fun s => pottsVecE n k h J fun i => s.getD i 0)
                fun s => if s.getD i 0 = (a : ℤ) then 1 else 0) ++
            (upperPairs n).map fun p =>
              expect (pottsWords n k) (fun s => pottsVecE n k h J fun i => s.getD i 0)
                fun s => if s.getD p.1 0 = s.getD p.2 0 then 1 else 0) := by
  obtain ⟨D, hD⟩ : ∃ D, D = words (List.range k) n := ⟨_, rfl⟩
  have hDlen : ∀ d ∈ D, d.length = n := fun d hd => (mem_words.1 (hD ▸ hd)).1
  have hDlt : ∀ d ∈ D, ∀ x ∈ d, x < k := fun d hd x hx => List.mem_range.1 ((mem_words.1 (hD ▸ hd)).2 x hx)
  have hst := xpotts_digits est n k (by omega) hk hk' hest
  rw [← hD] at hst
  have hterms : (D.map (List.map digitCh)).mapM (pottsTerm n) =
      .ok (D.map fun d => (render (pottsPieces n d)).tail) := by
    rw [List.mapM_map]
    apply mapM_ok
    intro d hd
    exact pottsTerm_eq n (by omega) d (hDlen d hd) fun x hx => by have := hDlt d hd x hx; omega
  obtain ⟨e, he⟩ : ∃ e, writePotts est n k = .ok e ∧ e.n = n ∧ e.k = k ∧
      e.energies = ((D.map (pottsPieces n)).map fun ps =>
        ['\t', '\t'] ++ (render ps).tail ++ [',', '\n']).flatten ++ ['\t', '\t'] ∧
      e.coeffs = ((List.range k).flatMap fun a => (List.range n).map fun i =>
          coeffText (D.map fun d => if d.getD i 0 = a then '1' else '0')) ++
        (upperPairs n).map fun p =>
          coeffText (D.map fun d => if d.getD p.1 0 = d.getD p.2 0 then '1' else '0') := by
    unfold writePotts
    rw [if_neg (by omega), if_neg (by omega), hst]
    simp only
    rw [hterms]
    refine ⟨_, rfl, rfl, rfl, ?_, ?_⟩
    · simp only [List.map_map]; rfl
    · simp only
      congr 1
      · apply List.flatMap_congr
        intro a ha
        apply List.map_congr_left
        intro i hi
        rw [List.map_map]
        congr 1
        apply List.map_congr_left
        intro d hd
        have hi := List.mem_range.1 hi
        have ha := List.mem_range.1 ha
        have hlt : d.getD i 0 < k := by
          have := hDlen d hd
          rw [List.getD_eq_getElem _ _ (by omega)]; exact hDlt d hd _ (List.getElem_mem _)
        simp only [Function.comp]
        rw [getElem?_digits d i (by rw [hDlen d hd]; exact hi)]
        have ha10 : a < 10 := by omega
        have hnt : natText a = [digitCh a] := by
          clear hlt
          interval_cases a <;> decide
        have : ((some (digitCh (d.getD i 0))).map (fun c => [c]) = some (natText a)) ↔ d.getD i 0 = a := by
          rw [hnt]
          simp only [Option.map_some, Option.some_inj, List.cons.injEq, and_true]
          exact digitCh_inj _ _ (by omega) (by omega)
        simp only [this]
      · rw [combos_pairs, List.map_map]
        apply List.map_congr_left
        intro p hp
        have hlt := mem_upperPairs.1 (show (p.1, p.2) ∈ upperPairs n from hp)
        simp only [Function.comp, List.getD_cons_zero, List.getD_cons_succ, List.map_map]
        congr 1
        apply List.map_congr_left
        intro d hd
        have := getElem?_digits_eq d (fun x hx => by have := hDlt d hd x hx; omega) p.1 p.2
          (by rw [hDlen d hd]; omega) (by rw [hDlen d hd]; omega)
        simp only [Function.comp, this]
  obtain ⟨he1, he2, he3, he4, he5⟩ := he
  refine ⟨e, he1, he2, he3, ?_, fun h J hh hJ => ?_⟩
  · rw [he5]
    simp [length_upperPairs, mul_comm]
  obtain ⟨E, hE⟩ : ∃ E : List ℤ → ℝ, E = fun s => pottsVecE n k h J fun i => s.getD i 0 := ⟨_, rfl⟩
  have hE' : ∀ s, pottsVecE n k h J (fun i => s.getD i 0) = E s := fun s => by rw [hE]
  rw [← hE]
  simp only [hE']
  -- the energies
  have hZ := partition_pos (pottsWords n k) E (pottsWords_ne n k hk)
  have hval : evalList (pottsEnv n k (h ++ J)) e.energies = some ((pottsWords n k).map fun s => -E s) := by
    rw [he4, evalList_energies (pottsEnv n k (h ++ J)) (fun c j => if c = 'h' then h.getD j 0 else J.getD j 0)]
    · congr 1
      rw [List.map_map, pottsWords_eq, ← hD, List.map_map]
      apply List.map_congr_left
      intro d hd
      simp only [Function.comp]
      rw [pottsPieces_val n k h J hJ _ (fun j => by simp) (fun j => by simp) d (hDlen d hd) (hDlt d hd), hE]
    · intro ps hps
      obtain ⟨d, hd, rfl⟩ := List.mem_map.1 hps
      intro h0
      have := congrArg List.length h0
      simp [pottsPieces] at this
      omega
    · intro ps hps p hp
      obtain ⟨d, hd, rfl⟩ := List.mem_map.1 hps
      rcases pottsPieces_cases n d p hp with ⟨i, -, rfl⟩ | ⟨j, -, rfl⟩ <;> rfl
    · intro ps hps p hp
      obtain ⟨d, hd, rfl⟩ := List.mem_map.1 hps
      rcases pottsPieces_cases n d p hp with ⟨i, -, rfl⟩ | ⟨j, -, rfl⟩
      · show ('h' : Char).isAlpha = true; decide
      · show ('J' : Char).isAlpha = true; decide
    · intro ps hps p hp
      obtain ⟨d, hd, rfl⟩ := List.mem_map.1 hps
      rcases pottsPieces_cases n d p hp with ⟨i, hi, rfl⟩ | ⟨j, hj, rfl⟩
      · have hlt : d.getD i 0 < k := by
          have := hDlen d hd
          rw [List.getD_eq_getElem _ _ (by omega)]; exact hDlt d hd _ (List.getElem_mem _)
        have hix : d.getD i 0 * n + i < h.length := by
          rw [hh]; nlinarith
        show pottsEnv n k (h ++ J) 'h' (d.getD i 0 * n + i) = some _
        unfold pottsEnv
        rw [if_pos rfl, ← hh, List.take_left', List.getElem?_eq_getElem hix]
        · show _ = some (h.getD (d.getD i 0 * n + i) 0)
          rw [List.getD_eq_getElem _ _ hix]
        · rfl
      · have hix : j < J.length := by rw [hJ, ← length_upperPairs]; exact hj
        show pottsEnv n k (h ++ J) 'J' j = some _
        unfold pottsEnv
        rw [if_neg (by decide), if_pos rfl, ← hh, List.drop_left', List.getElem?_eq_getElem hix]
        · show _ = some (J.getD j 0)
          rw [List.getD_eq_getElem _ _ hix]
        · rfl
  have hZeq : pottsZ e (h ++ J) = .ok ((pottsWords n k).map (fun s => -E s),
      Real.log (partition (pottsWords n k) E)) := by
    unfold pottsZ
    rw [he2, he3, if_neg (by simp [hh, hJ]), hval]
    simp only
    rw [fastLogSumExp_none _ (by simpa using pottsWords_ne n k hk)]
    simp only [List.map_map]
    rfl
  have hlenW : (pottsWords n k).length = k ^ n := by rw [length_words]; simp
  refine ⟨hZeq, ?_, ?_⟩
  · unfold pottsModuleP
    rw [hZeq]
    simp only [he2, he3, List.length_map, hlenW, le_refl, if_true, Nat.sub_self, List.replicate_zero,
      List.append_nil, List.map_map]
    congr 1
    apply List.map_congr_left
    intro s _
    simp only [Function.comp, boltzmann, Real.exp_sub, Real.exp_log hZ]
  · have hcoef : ∀ (P : List ℕ → Prop) [DecidablePred P] (Q : List ℤ → Prop) [DecidablePred Q],
        (∀ d ∈ D, P d ↔ Q (d.map fun x : ℕ => (x : ℤ))) →
        pottsObsLine ((pottsWords n k).map fun s => -E s) (Real.log (partition (pottsWords n k) E))
          (coeffText (D.map fun d => if P d then '1' else '0')) =
        .ok (expect (pottsWords n k) E fun s => if Q s then 1 else 0) := by
      intro P _ Q _ hPQ
      have hDne : D ≠ [] := by
        intro h0
        apply pottsWords_ne n k hk
        rw [pottsWords_eq, ← hD, h0]; rfl
      unfold pottsObsLine
      rw [evalList_coeffText _ _ (by simpa using hDne) (by
        intro c hc
        obtain ⟨d, -, rfl⟩ := List.mem_map.1 hc
        split_ifs <;> simp)]
      simp only
      have hc : (D.map fun d => if P d then '1' else '0').map (bitVal (K := ℝ)) =
          (pottsWords n k).map fun s => if Q s then 1 else 0 := by
        rw [pottsWords_eq, ← hD, List.map_map, List.map_map]
        apply List.map_congr_left
        intro d hd
        simp only [Function.comp, hPQ d hd]
        split_ifs <;> simp [bitVal]
      rw [hc]
      obtain ⟨num, n1, n2⟩ := expLog_ratio_nonneg ((pottsWords n k).map fun s => -E s)
        ((pottsWords n k).map fun s => if Q s then (1 : ℝ) else 0) (by simpa using pottsWords_ne n k hk) (by simp)
        (by
          intro x hx
          obtain ⟨s, -, rfl⟩ := List.mem_map.1 hx
          split_ifs <;> simp) (Real.log (partition (pottsWords n k) E))
      rw [n1]
      simp only
      rw [n2, Real.exp_log hZ, expect_eq_div, List.zipWith_map, List.zipWith_self]
      congr 3
      apply List.map_congr_left
      intro s _
      ring
    unfold pottsModuleObs
    rw [hZeq]
    simp only
    have hget : ∀ (d : List ℕ) i, (d.map fun x : ℕ => (x : ℤ)).getD i 0 = ((d.getD i 0 : ℕ) : ℤ) := by
      intro d i
      by_cases hi : i < d.length
      · rw [List.getD_eq_getElem _ _ (by simpa using hi), List.getD_eq_getElem _ _ hi]; simp
      · rw [List.getD_eq_default _ _ (by simpa using hi), List.getD_eq_default _ _ (by omega)]; rfl
    obtain ⟨R, hR⟩ : ∃ R, R = (((List.range k).flatMap fun a : ℕ => (List.range n).map fun i =>
              expect (pottsWords n k) E fun s => if s.getD i 0 = (a : ℤ) then (1 : ℝ) else 0) ++
            (upperPairs n).map fun p =>
              expect (pottsWords n k) E fun s => if s.getD p.1 0 = s.getD p.2 0 then 1 else 0) := ⟨_, rfl⟩
    have hmap : e.coeffs.mapM (pottsObsLine ((pottsWords n k).map fun s => -E s)
        (Real.log (partition (pottsWords n k) E))) = .ok R := by
      have prod : ∀ {β : Type} (F : ℕ → ℕ → β), ((List.range k).flatMap fun a => (List.range n).map fun i => F a i) =
          ((List.range k).flatMap fun a => (List.range n).map fun i => (a, i)).map fun q => F q.1 q.2 := by
        intro β F
        simp only [List.map_flatMap, List.map_map]
        rfl
      rw [hR, prod (fun a i => expect (pottsWords n k) E fun s => if s.getD i 0 = (a : ℤ) then (1 : ℝ) else 0),
        he5, prod (fun a i => coeffText (D.map fun d => if d.getD i 0 = a then '1' else '0')),
        List.mapM_append, List.mapM_map, List.mapM_map]
      simp only [Function.comp_def]
      rw [mapM_ok _ (fun q : ℕ × ℕ => expect (pottsWords n k) E fun s => if s.getD q.2 0 = (q.1 : ℤ) then (1 : ℝ) else 0)]
      · simp only [bind, Except.bind]
        rw [mapM_ok _ (fun q : ℕ × ℕ => expect (pottsWords n k) E
          fun s => if s.getD q.1 0 = s.getD q.2 0 then (1 : ℝ) else 0)]
        · rfl
        · intro q _
          exact hcoef (fun d => d.getD q.1 0 = d.getD q.2 0) (fun s => s.getD q.1 0 = s.getD q.2 0)
            fun d _ => by rw [hget, hget]; exact_mod_cast Iff.rfl
      · intro q _
        exact hcoef (fun d => d.getD q.2 0 = q.1) (fun s => s.getD q.2 0 = (q.1 : ℤ))
          fun d _ => by rw [hget]; exact_mod_cast Iff.rfl
    rw [hmap]
    simp only [he2, he3]
    have hlenR : R.length = n * k + n * (n - 1) / 2 := by
      rw [hR]; simp [length_upperPairs, mul_comm]
    rw [if_pos (by omega), hlenR]
    simp [hR]

theorem mapM_ok_or {α β : Type*} (l : List α) (f : α → Py β) (e : PyErr)
    (h : ∀ x ∈ l, (∃ y, f x = .ok y) ∨ f x = .error e) : (∃ y, l.mapM f = .ok y) ∨ l.mapM f = .error e := by
  induction l with
  | nil => exact Or.inl ⟨[], rfl⟩
  | cons x l ih =>
    rw [List.mapM_cons]
    rcases h x (by simp) with ⟨y, hy⟩ | hy
    · rw [hy]
      rcases ih fun z hz => h z (by simp [hz]) with ⟨ys, h2⟩ | h2
      · rw [h2]; exact Or.inl ⟨_, rfl⟩
      · rw [h2]; exact Or.inr rfl
    · rw [hy]; exact Or.inr rfl

theorem mapM_error_of {α β : Type*} (l : List α) (f : α → Py β) (e : PyErr)
    (h : ∀ x ∈ l, (∃ y, f x = .ok y) ∨ f x = .error e) (hx : ∃ x ∈ l, f x = .error e) :
    l.mapM f = .error e := by
  induction l with
  | nil => simp at hx
  | cons x l ih =>
    rw [List.mapM_cons]
    rcases h x (by simp) with ⟨y, hy⟩ | hy
    · rw [hy]
      obtain ⟨z, hz, hz'⟩ := hx
      rcases List.mem_cons.1 hz with rfl | hz
      · rw [hy] at hz'; cases hz'
      · rw [ih (fun z hz => h z (by simp [hz])) ⟨z, hz, hz'⟩]; rfl
    · rw [hy]; rfl

theorem pottsField_ok_or (n : ℕ) (s : List Char) (hs : s.length = n) : ∀ i ∈ List.range n,
    (∃ y, pottsField n s i = .ok y) ∨ pottsField n s i = .error .valueError := by
  intro i hi
  have hi := List.mem_range.1 hi
  unfold pottsField
  rw [List.getElem?_eq_getElem (by omega)]
  simp only
  rcases digitVal _ with _ | d
  · exact Or.inr rfl
  · exact Or.inl ⟨_, rfl⟩

theorem potts_module (est : ℕ → ℕ → ℕ) (n k : ℕ) (hn : 2 < n) (hk : 2 ≤ k) (hk' : k ≤ 10)
    (hest : ∀ i, i ≠ 0 → GoodEst (est i k) i k) :
    ∃ e, writePotts est n k = .ok e ∧ e.n = n ∧ e.k = k ∧
      ∀ h J : List ℝ, h.length = n * k → J.length = n * (n - 1) / 2 →
        pottsModuleP e (h ++ J) = .ok ((pottsWords n k).map
          (boltzmann (pottsWords n k) fun s => pottsVecE n k h J fun i => s.getD i 0)) ∧
        pottsModuleObs e (h ++ J) = .ok
          (((List.range k).flatMap fun a : ℕ => (List.range n).map fun i =>
              expect (pottsWords n k) (fun s => pottsVecE n k h J fun i => s.getD i 0)
                fun s => if s.getD i 0 = (a : ℤ) then 1 else 0) ++
            (upperPairs n).map fun p =>
              expect (pottsWords n k) (fun s => pottsVecE n k h J fun i => s.getD i 0)
                fun s => if s.getD p.1 0 = s.getD p.2 0 then 1 else 0) := by
  obtain ⟨e, h1, h2, h3, -, h4⟩ := potts_module_full est n k hn hk hk' hest
  exact ⟨e, h1, h2, h3, fun h J hh hJ => (h4 h J hh hJ).2⟩

end Verif.Lemmas
