/-
coniii/samplers.py: Metropolis and Potts3 (the Python implementations).
Energies are real numbers. The arrays of length one in which numpy keeps the energy of the current state
are numbers here. The energy function `calc_e` is given by the user; `calcE s` stands for
`calc_e(s[None,:], theta)[0]`.
-/
import Verif.Model.Rand
import Verif.Model.Matrix
import Mathlib.Analysis.SpecialFunctions.Exp

namespace Verif.Model
open Verif

/-- `sample0[i] *= -1`. -/
def negAt (s : List ℤ) (i : ℕ) : List ℤ := s.set i (s.getD i 0 * -1)

/-- What `sample_metropolis(sample0, E0, flip_site=...)` does: the state after it and the energy change it
returns. -/
abbrev Move := Option ℕ → List ℤ → ℝ → Prog (List ℤ × ℝ)

/-- `flip_site`, or `rng.randint(sample0.size)` if it is None. -/
def chooseSite (flipSite : Option ℕ) (s : List ℤ) : Prog ℕ :=
  match flipSite with
  | none => Prog.randint s.length
  | some i => .ret i

/-- samplers.py:1673-1714 `Metropolis.sample_metropolis`. -/
noncomputable def sampleMetropolis (calcE : List ℤ → ℝ) : Move := fun flipSite s E0 =>
  (chooseSite flipSite s).bind fun i =>
    if i < s.length then
      let s1 := negAt s i
      let de := calcE s1 - E0
      if de > 0 then
        .rand fun u => if u > Real.exp (-de) then .ret (negAt s1 i, 0) else .ret (s1, de)
      else .ret (s1, de)
    else .fail .indexError

/-- samplers.py:1123-1141 `_jit_sample_metropolis` with field vector `h` and coupling matrix `J`. The state
and the energy change are returned. -/
noncomputable def jitSampleMetropolis (h : List ℝ) (J : Mat ℝ) (i : ℕ) (s : List ℤ) : Prog (List ℤ × ℝ) :=
  if i < s.length then
    let s1 := negAt s i
    let si : ℝ := ((s1.getD i 0 : ℤ) : ℝ)
    let de := -2 * si * h.getD i 0 -
      ((List.range s1.length).map fun j => 2 * J.at' i j * (1 * si * ((s1.getD j 0 : ℤ) : ℝ))).sum
    if de < 0 then .ret (s1, de)
    else .rand fun u => if u > Real.exp (-de) then .ret (negAt s1 i, 0) else .ret (s1, de)
  else .fail .indexError

/-- samplers.py:1716-1717 `Metropolis.random_sample(n_samples)`. -/
def randomSample (n k : ℕ) : Prog (List (List ℤ)) :=
  Prog.mapEach (fun _ => Prog.mapEach (fun _ => (Prog.randint 2).bind fun b => .ret (if b = 0 then -1 else 1))
    (List.range n)) (List.range k)

/-- samplers.py:1862-1905 `Potts3.sample_metropolis`. -/
noncomputable def sampleMetropolisPotts3 (calcE : List ℤ → ℝ) : Move := fun flipSite s E0 =>
  (chooseSite flipSite s).bind fun i =>
    if i < s.length then
      let oState := s.getD i 0
      (Prog.randint 2).bind fun r =>
        let s1 := s.set i ((oState + (1 + r)) % 3)
        let de := calcE s1 - E0
        if de > 0 then
          .rand fun u => if u > Real.exp (-de) then .ret (s1.set i oState, 0) else .ret (s1, de)
        else .ret (s1, de)
    else .fail .indexError

/-- samplers.py:1907-1908 `Potts3.random_sample(n_samples)`. -/
def randomSamplePotts3 (n k : ℕ) : Prog (List (List ℤ)) :=
  Prog.mapEach (fun _ => Prog.mapEach (fun _ => (Prog.randint 3).bind fun b => .ret (b : ℤ))
    (List.range n)) (List.range k)

/-- The argument `flip_site` in iteration `j`: `j%n` if `systematic_iter`, else None. -/
def siteArg (n : ℕ) (systematic : Bool) (j : ℕ) : Py (Option ℕ) :=
  if systematic then (if n = 0 then .error .zeroDivision else .ok (some (j % n))) else .ok none

/-- One iteration: `de = self.sample_metropolis(s, E, ...); E += de`. -/
def metroIter (move : Move) (n : ℕ) (systematic : Bool) (j : ℕ) (st : List ℤ × ℝ) : Prog (List ℤ × ℝ) :=
  (Prog.ofPy (siteArg n systematic j)).bind fun site =>
    (move site st.1 st.2).bind fun r => .ret (r.1, st.2 + r.2)

/-- `for j in range(m)` with these iterations. -/
def metroRun (move : Move) (n : ℕ) (systematic : Bool) (m : ℕ) (st : List ℤ × ℝ) : Prog (List ℤ × ℝ) :=
  Prog.forEach (metroIter move n systematic) (List.range m) st

/-- `burn_in = burn_in or n_iters`. -/
def burnOr (burnIn : Option ℕ) (nIters : ℕ) : ℕ :=
  match burnIn with
  | none => nIters
  | some b => if b = 0 then nIters else b

/-- samplers.py:1301-1323 the loops that take samples without history: state and energy, and the rows and
energies recorded so far (the rows of zeros still to be filled are left out). -/
def metroRecord (move : Move) (n : ℕ) (systematic : Bool) (sampleSize nIters : ℕ) (st : List ℤ × ℝ) :
    Prog ((List ℤ × ℝ) × List (List ℤ) × List ℝ) :=
  Prog.forEach (fun _ acc => (metroRun move n systematic nIters acc.1).bind fun st' =>
    .ret (st', acc.2.1 ++ [st'.1], acc.2.2 ++ [st'.2])) (List.range sampleSize) (st, [], [])

/-- samplers.py:1277-1284, 1289-1296 the inner loop with history: `history[counter] = E; counter += 1`. -/
def metroRunHistory (move : Move) (n : ℕ) (systematic : Bool) (m : ℕ)
    (st : (List ℤ × ℝ) × List ℝ × ℕ) : Prog ((List ℤ × ℝ) × List ℝ × ℕ) :=
  Prog.forEach (fun j st => (metroIter move n systematic j st.1).bind fun st' =>
    .ret (st', st.2.1.set st.2.2 st'.2, st.2.2 + 1)) (List.range m) st

/-- samplers.py:1273-1299 the loops that take samples with history. -/
def metroRecordHistory (move : Move) (n : ℕ) (systematic : Bool) (sampleSize nIters : ℕ)
    (st : List ℤ × ℝ) :
    Prog (((List ℤ × ℝ) × List ℝ × ℕ) × List (List ℤ) × List ℝ) :=
  Prog.forEach (fun _ acc => (metroRunHistory move n systematic nIters acc.1).bind fun st' =>
    .ret (st', acc.2.1 ++ [st'.1.1], acc.2.2 ++ [st'.1.2])) (List.range sampleSize)
      ((st, List.replicate (sampleSize * nIters + 1) 0, 0), [], [])

/-- What a call of `generate_sample` leaves in the object, and the history it returns. -/
structure SampleOut where
  /-- `self.sample` -/
  sample : List (List ℤ)
  /-- `self.E` -/
  E : List ℝ
  /-- `self._samples` -/
  replicas : List (List ℤ)
  /-- the value returned -/
  history : Option (List ℝ)

/-- samplers.py:1256-1263 the first state(s): `k` is the number of states that must be there
(1 sequentially), `m` the number to which the number of kept states is compared (`sample_size`
sequentially). -/
def startStates (random : ℕ → Prog (List (List ℤ))) (n k m : ℕ) (prev initial : Option (List (List ℤ))) :
    Prog (List (List ℤ)) :=
  match initial with
  | none => match prev with
    | none => random k
    | some p => if p.length ≠ m then random k else .ret p
  | some x => if x.length = k ∧ ∀ r ∈ x, r.length = n then .ret x else .fail .assertion

/-- samplers.py:1227-1323 `generate_sample_py` for a class with the update `move` and the method
`random_sample`. If several states are kept from a parallel run, the energy is an array with several
entries and the first comparison (or the first row assignment) raises ValueError. -/
def generateSamplePy (move : Move) (random : ℕ → Prog (List (List ℤ))) (calcE : List ℤ → ℝ) (n : ℕ)
    (prev : Option (List (List ℤ))) (sampleSize nIters : ℕ) (burnIn : Option ℕ)
    (systematic saveHistory : Bool) (initial : Option (List (List ℤ))) : Prog SampleOut :=
  (startStates random n 1 sampleSize prev initial).bind fun states =>
    match states with
    | [s] =>
      (metroRun move n systematic (burnOr burnIn nIters) (s, calcE s)).bind fun st =>
        if saveHistory then
          (metroRecordHistory move n systematic sampleSize nIters st).bind fun r =>
            .ret ⟨r.2.1, r.2.2, [r.1.1.1], some r.1.2.1⟩
        else
          (metroRecord move n systematic sampleSize nIters st).bind fun r =>
            .ret ⟨r.2.1, r.2.2, [r.1.1], none⟩
    | _ => .fail .valueError

/-- samplers.py:1409-1441 the function run by each process: burn in, then `nSamples` rows. -/
def parallelChain (move : Move) (calcE : List ℤ → ℝ) (n : ℕ) (systematic : Bool)
    (burn nSamples nIters : ℕ) (s : List ℤ) : Prog (List (List ℤ) × List ℤ × ℝ) :=
  (metroRun move n systematic burn (s, calcE s)).bind fun st =>
    (metroRecord move n systematic nSamples nIters st).bind fun r =>
      .ret (r.2.1, r.1.1, r.1.2)

/-- samplers.py:1365-1446 `generate_sample_parallel_py` on `nCpus` processors. Each process has its own
generator, seeded by the generator of the object; the draws of all processes are taken as draws of one
program, one process after another. -/
def generateSampleParallelPy (move : Move) (random : ℕ → Prog (List (List ℤ))) (calcE : List ℤ → ℝ)
    (n nCpus : ℕ) (prev : Option (List (List ℤ))) (sampleSize nIters : ℕ) (burnIn : Option ℕ)
    (systematic : Bool) (initial : Option (List (List ℤ))) : Prog SampleOut :=
  (startStates random n nCpus nCpus prev initial).bind fun states =>
    (Prog.mapEach (parallelChain move calcE n systematic (burnOr burnIn nIters)
        ((sampleSize + nCpus - 1) / nCpus) nIters) states).bind fun rs =>
      .ret ⟨(rs.flatMap fun r => r.1).take sampleSize, rs.map fun r => r.2.2, rs.map fun r => r.2.1, none⟩

end Verif.Model
