/-
coniii/samplers.py: Metropolis.generate_cond_sample_py and define_jit_cond_calc_e.
Sites of fixed spins are natural numbers (negative Python indices are left out).
-/
import Verif.Model.CppSampler

namespace Verif.Model
open Verif

/-- `fullstate[0,ii] = state[0,stateix]; stateix += 1` for `ii in range(a,b)`. -/
def condFill (n : ℕ) (state : List ℤ) (a b : ℕ) (st : List ℤ × ℕ) : Py (List ℤ × ℕ) :=
  (pyRange a b).foldlM (fun st ii =>
    if st.2 < state.length ∧ ii < n then .ok (st.1.set ii (state.getD st.2 0), st.2 + 1)
    else .error .indexError) st

/-- samplers.py:1574-1588 the full state in `cond_calc_e`. -/
def condFull (n : ℕ) (fixed : List (ℕ × ℤ)) (state : List ℤ) : Py (List ℤ) :=
  (fixed.foldlM (fun (st : (List ℤ × ℕ) × ℕ) p =>
    (condFill n state st.2 p.1 st.1).bind fun r =>
      if p.1 < n then .ok ((r.1.set p.1 p.2, r.2), p.1 + 1) else .error .indexError)
    ((List.replicate n 0, 0), 0)).bind fun st =>
  (condFill n state st.2 n st.1).bind fun r => .ok r.1

/-- samplers.py:1574-1589 `cond_calc_e`. -/
def condCalcE (calcE : List ℤ → ℝ) (n : ℕ) (fixed : List (ℕ × ℤ)) (state : List ℤ) : Py ℝ :=
  (condFull n fixed state).bind fun full => .ok (calcE full)

/-- samplers.py:1673-1714 `Metropolis.sample_metropolis` with an energy function that may raise. -/
noncomputable def sampleMetropolisE (calcE : List ℤ → Py ℝ) : Move := fun flipSite s E0 =>
  (chooseSite flipSite s).bind fun i =>
    if i < s.length then
      let s1 := negAt s i
      (Prog.ofPy (calcE s1)).bind fun e =>
        let de := e - E0
        if de > 0 then
          .rand fun u => if u > Real.exp (-de) then .ret (negAt s1 i, 0) else .ret (s1, de)
        else .ret (s1, de)
    else .fail .indexError

/-- `range(a, b, w)` for `w > 0`. -/
def rangeStep (a b w : ℕ) : List ℕ := (List.range ((b - a + w - 1) / w)).map fun t => a + t * w

/-- The elements of `l`, the first of which has position `p`, with `v` put before every position in `idx`. -/
def insertBefore (idx : List ℕ) (v : ℤ) : ℕ → List ℤ → List ℤ
  | p, [] => List.replicate (idx.count p) v
  | p, x :: l => List.replicate (idx.count p) v ++ x :: insertBefore idx v (p + 1) l

/-- `np.insert(l, idx, v)` for a flat array. -/
def npInsertAll (l : List ℤ) (idx : List ℕ) (v : ℤ) : Py (List ℤ) :=
  if ∀ i ∈ idx, i ≤ l.length then .ok (insertBefore idx v 0 l) else .error .indexError

/-- samplers.py:1661-1668 the loop that puts the fixed spins back in; the array is flat after the first
`np.insert`, which flattens it. -/
def condInsert (nSubset : ℕ) (fixed : List (ℕ × ℤ)) (flat : List ℤ) : Py (List ℤ) :=
  (fixed.foldlM (fun (st : List ℤ × ℕ) p =>
    if nSubset + st.2 = 0 then .error .valueError
    else (npInsertAll st.1 (if p.1 = 0 then rangeStep p.1 st.1.length (nSubset + st.2)
        else rangeStep p.1 (st.1.length + 1) (nSubset + st.2)) p.2).bind fun l => .ok (l, st.2 + 1))
    (flat, 0)).bind fun st => .ok st.1

/-- `np.reshape(l, (m, n))`. -/
def npReshape (l : List ℤ) (m n : ℕ) : Py (List (List ℤ)) :=
  if l.length = m * n then .ok ((List.range m).map fun r => (l.drop (r * n)).take n) else .error .valueError

/-- samplers.py:1567-1570 the first `self.sample`. -/
def condOld (n k sampleSize : ℕ) (fixed : List (ℕ × ℤ)) (initial : Option (List (List ℤ))) :
    Prog (List (List ℤ)) :=
  match initial with
  | none => if n < fixed.length then .fail .valueError else randomSample k sampleSize
  | some x => if ∀ r ∈ x, r.length = k then .ret x else .fail .valueError

/-- samplers.py:1523-1671 `generate_cond_sample_py`: the new `self.sample` and `self.E`. An `initial_sample`
must have `n - len(fixed_subset)` columns (simplified: with another number of columns numpy may also broadcast).
Its rows are overwritten by the samples. -/
noncomputable def generateCondSamplePy (calcE : List ℤ → ℝ) (n sampleSize : ℕ) (fixed : List (ℕ × ℤ))
    (burnIn nIters : ℕ) (initial : Option (List (List ℤ))) (systematic parallel : Bool) :
    Prog (List (List ℤ) × List ℝ) :=
  let k := n - fixed.length
  (Prog.ofPy (checkFixed fixed)).bind fun _ =>
  (condOld n k sampleSize fixed initial).bind fun old =>
  (Prog.ofPy (old.mapM (condCalcE calcE n fixed))).bind fun oldE =>
  if parallel then .fail .notImplemented
  else if n < fixed.length then .fail .valueError
  else (Prog.mapEach (fun _ => (Prog.randint 2).bind fun b => .ret (if b = 0 then (-1 : ℤ) else 1))
      (List.range k)).bind fun s =>
    (Prog.ofPy (condCalcE calcE n fixed s)).bind fun e =>
    (metroRun (sampleMetropolisE (condCalcE calcE n fixed)) k systematic burnIn (s, e)).bind fun st =>
    (metroRecord (sampleMetropolisE (condCalcE calcE n fixed)) k systematic sampleSize nIters st).bind fun r =>
    if old.length < sampleSize then .fail .indexError
    else (Prog.ofPy ((condInsert k fixed (r.2.1 ++ old.drop sampleSize).flatten).bind fun flat =>
        npReshape flat sampleSize n)).bind fun rows =>
      if r.2.2 ++ oldE.drop sampleSize = [] then .fail .valueError
      else .ret (rows, r.2.2 ++ oldE.drop sampleSize)

/-- samplers.py:1740-1760 the full state in `define_jit_cond_calc_e`; `fixed` is the flat array of sites and
values. The loop variable `i` is overwritten by the site before it is used to read the value. (Reads outside the
arrays are unchecked in compiled code; they give 0 here, and writes outside do nothing.) -/
def jitCondFull (n : ℕ) (fixed : List ℤ) (state : List ℤ) : List ℤ :=
  let fill := fun (a b : ℕ) (st : List ℤ × ℕ) =>
    (pyRange a b).foldl (fun st ii => (st.1.set ii (state.getD st.2 0), st.2 + 1)) st
  let r := (rangeStep 0 fixed.length 2).foldl (fun (st : (List ℤ × ℕ) × ℕ) i =>
    let i := (fixed.getD i 0).toNat
    let s := fixed.getD (i + 1) 0
    let st1 := fill st.2 i st.1
    ((st1.1.set i s, st1.2), i + 1)) ((List.replicate n 0, 0), 0)
  (fill r.2 n r.1).1

end Verif.Model
