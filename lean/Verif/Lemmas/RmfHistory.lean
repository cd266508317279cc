/-
The python sampler with random numbers that are all zero: every proposal is for the first spin and is accepted.
-/
import Verif.Lemmas.RmfProg

namespace Verif.Lemmas
open Verif Verif.Model Verif.Spec Verif.Props Prog

/-- The generator whose numbers are all zero. -/
def zeroGen : Gen Unit where
  int _ _ := (0, ())
  unit _ := (0, ())

theorem zeroGen_valid : zeroGen.Valid where
  int_le _ _ := Nat.zero_le _
  unit_nonneg _ := le_refl _
  unit_lt _ := zero_lt_one

theorem length_negAt (s : List ℤ) (i : ℕ) : (negAt s i).length = s.length := by
  unfold negAt; simp

theorem zero_move (E : List ℤ → ℝ) (s : List ℤ) (hs : 1 ≤ s.length) (E0 : ℝ) :
    run zeroGen (sampleMetropolis E none s E0) () = (.ok (negAt s 0, E (negAt s 0) - E0), ()) := by
  unfold sampleMetropolis chooseSite randint
  obtain ⟨m, hm⟩ : ∃ m, s.length = m + 1 := ⟨s.length - 1, by omega⟩
  rw [hm]
  simp only [Prog.bind, run, zeroGen]
  rw [if_pos (by omega)]
  split
  · simp only [run]
    rw [if_neg (not_lt.2 (Real.exp_pos _).le)]
    rfl
  · rfl

theorem zero_run (E : List ℤ → ℝ) (n : ℕ) (l : List ℕ) : ∀ (s : List ℤ) (_ : 1 ≤ s.length) (E0 : ℝ),
    ∃ E1, run zeroGen (Prog.forEach (metroIter (sampleMetropolis E) n false) l (s, E0)) () =
      (.ok (((fun s => negAt s 0)^[l.length] s), E1), ()) := by
  induction l with
  | nil => exact fun s _ E0 => ⟨E0, rfl⟩
  | cons i l ih =>
    intro s hs E0
    obtain ⟨E1, h⟩ := ih (negAt s 0) (by rw [length_negAt]; exact hs) (E0 + (E (negAt s 0) - E0))
    refine ⟨E1, ?_⟩
    unfold Prog.forEach metroIter siteArg
    simp only [Bool.false_eq_true, if_false, ofPy_ok_bind, run_bind, zero_move E s hs E0]
    exact h

theorem iterate_even (s : List ℤ) (k : ℕ) : (fun s => negAt s 0)^[2 * k] s = s := by
  induction k with
  | zero => rfl
  | succ k ih =>
    rw [show 2 * (k + 1) = 2 * k + 1 + 1 by ring, Function.iterate_succ_apply, Function.iterate_succ_apply,
      negAt_negAt, ih]

theorem zero_record (E : List ℤ → ℝ) (n k : ℕ) (s : List ℤ) (hs : 1 ≤ s.length) (l : List ℕ) :
    ∀ (E0 : ℝ) (rows : List (List ℤ)) (es : List ℝ), ∃ E1 es',
    run zeroGen (Prog.forEach (fun _ (acc : (List ℤ × ℝ) × List (List ℤ) × List ℝ) =>
      (metroRun (sampleMetropolis E) n false (2 * k) acc.1).bind fun st' =>
        .ret (st', acc.2.1 ++ [st'.1], acc.2.2 ++ [st'.2])) l ((s, E0), rows, es)) () =
      (.ok ((s, E1), rows ++ List.replicate l.length s, es'), ()) := by
  induction l with
  | nil => exact fun E0 rows es => ⟨E0, es, by simp [Prog.forEach, run]⟩
  | cons i l ih =>
    intro E0 rows es
    obtain ⟨E1, h1⟩ := zero_run E n (List.range (2 * k)) s hs E0
    rw [List.length_range, iterate_even] at h1
    obtain ⟨E2, es', h2⟩ := ih E1 (rows ++ [s]) (es ++ [E1])
    refine ⟨E2, es', ?_⟩
    unfold Prog.forEach
    unfold metroRun
    simp only [run_bind, h1, run]
    unfold metroRun at h2
    rw [h2]
    simp [List.replicate_succ]

theorem zero_chain (E : List ℤ → ℝ) (n k q : ℕ) (s : List ℤ) (hs : 1 ≤ s.length) : ∃ E1,
    run zeroGen (parallelChain (sampleMetropolis E) E n false 1 q (2 * k) s) () =
      (.ok (List.replicate q (negAt s 0), negAt s 0, E1), ()) := by
  obtain ⟨E1, h1⟩ := zero_run E n (List.range 1) s hs (E s)
  obtain ⟨E2, es, h2⟩ := zero_record E n k (negAt s 0) (by rw [length_negAt]; exact hs) (List.range q) E1 [] []
  refine ⟨E2, ?_⟩
  unfold parallelChain
  rw [run_bind]
  unfold metroRun
  rw [h1]
  simp only [List.length_range, Function.iterate_one]
  rw [run_bind]
  unfold metroRecord
  unfold metroRun at h2 ⊢
  rw [h2]
  simp [run]

/-- The python sampler on one processor, from the state `s`. -/
theorem zero_generate (E : List ℤ → ℝ) (random : ℕ → Prog (List (List ℤ))) (n k size : ℕ) (prev : Option (List (List ℤ)))
    (s : List ℤ) (hs : 1 ≤ s.length) (h : run zeroGen (startStates random n 1 1 prev none) () = (.ok [s], ())) :
    ∃ out, run zeroGen (generateSampleParallelPy (sampleMetropolis E) random E n 1 prev size (2 * k) (some 1) false none) () =
      (.ok out, ()) ∧ out.sample = List.replicate size (negAt s 0) ∧ out.replicas = [negAt s 0] := by
  obtain ⟨E1, h1⟩ := zero_chain E n k ((size + 1 - 1) / 1) s hs
  unfold generateSampleParallelPy
  rw [run_bind, h]
  dsimp only
  rw [run_bind]
  unfold Prog.mapEach
  rw [run_bind, show burnOr (some 1) (2 * k) = 1 from rfl, h1]
  refine ⟨_, rfl, ?_, rfl⟩
  simp

end Verif.Lemmas
