/-
coniii/solvers.py: the base class Solver, Enumerate and SparseEnumerate.
-/
import Verif.Model.Helpers
import Verif.Model.Enumerate

namespace Verif.Model
open Verif

variable {K : Type*}

/-! ### Solver -/

/-- solvers.py:95 `calc_observables(sample).mean(0)` with the observables of the Ising helpers; a
sample has `n = sample.shape[1]` columns. The mean over no rows is `nan`, here a division by zero. -/
def sampleConstraints [Field K] (n : ℕ) (sample : Data) : Py (List K) :=
  match sample.mapM (isingObservables (K := K)) with
  | .error e => .error e
  | .ok rows =>
    if sample.length = 0 then .error .zeroDivision
    else .ok ((List.range (n + n * (n - 1) / 2)).map fun j =>
      (rows.map fun r => r.getD j 0).sum / (sample.length : K))

/-- solvers.py:118-126 `set_insertion_ix`: the loop variable `i` keeps its last value after the loop
and is unbound if there was no round. -/
def insertionIx (nParams : ℕ) (parameterIx : List ℕ) : Py (List ℕ) :=
  match parameterIx with
  | [] => .error .indexError
  | p0 :: rest =>
    let ins := List.replicate p0 0 ++
      ((parameterIx.zip rest).zipIdx.flatMap fun q => List.replicate (q.1.2 - q.1.1 - 1) (q.2 + 1))
    let last := rest.getLastD p0
    if last + 1 < nParams then
      if rest = [] then .error .unboundLocal
      else .ok (ins ++ List.replicate (nParams - last - 1) (rest.length - 1 + 2))
    else .ok ins

/-- `np.insert(x, ix, v)` (library call, solvers.py:142) for a list of indices: before entry `k` of
`x` (and after the last, `k = len(x)`) come as many copies of `v` as there are `k`s in `ix`. -/
def npInsert (x : List K) (ix : List ℕ) (v : K) : Py (List K) :=
  if ∃ k ∈ ix, x.length < k then .error .indexError
  else .ok ((List.range (x.length + 1)).flatMap fun k =>
    List.replicate (ix.count k) v ++ (x[k]?).toList)

/-- solvers.py:128-142 `fill_in(x, fill_value)` after `set_insertion_ix`. -/
def fillIn (nParams : ℕ) (parameterIx : List ℕ) (x : List K) (v : K) : Py (List K) :=
  match insertionIx nParams parameterIx with
  | .error e => .error e
  | .ok ins => npInsert x ins v

/-- solvers.py:168-179 the loop of `logp` over the distinct rows `us`, writing to the positions of
`sample` that hold the row. The order of `us` (sorted in the code) does not matter. -/
noncomputable def logpLoop (us sample ms : Data) (out : List ℝ) : List ℝ :=
  us.foldl (fun out s =>
    let spinIx := (List.range s.length).filter fun i => s.getD i 0 ≠ 0
    let p := (ms.filter fun m => spinIx.all fun i => s.getD i 0 == m.getD i 0).length
    (List.range out.length).map fun j =>
      if sample.getD j [] = s then (p : ℝ) / (ms.length : ℝ) else out.getD j 0) out

/-- solvers.py:144-180 `logp(sample, run_checks)` for an `ndarray` with rows `sample` and the sample
`ms` of the model. `none` is `-inf` (or `nan`, if the model has no sample). A row of another width
than the model's raises. -/
noncomputable def logp (runChecks : Bool) (sample ms : Data) : Py (List (Option ℝ)) :=
  if runChecks ∧ ¬ (∀ s ∈ sample, ∀ x ∈ s, x = -1 ∨ x = 0 ∨ x = 1) then .error .assertion
  else if ∃ s ∈ sample, ∃ m ∈ ms, s.length ≠ m.length then .error .indexError
  else
    open scoped Classical in
    .ok ((logpLoop sample.dedup sample ms (List.replicate sample.length 0)).map fun p =>
      if p = 0 then none else some (Real.log p))

/-- solvers.py:162-166 `logp` of a one-dimensional `ndarray`: `s[None,:]` uses the loop variable `s`
before it is bound. -/
def logp1d (runChecks : Bool) (sample : List ℤ) : Py (List (Option ℝ)) :=
  if runChecks ∧ ¬ (∀ x ∈ sample, x = -1 ∨ x = 0 ∨ x = 1) then .error .assertion
  else .error .unboundLocal

/-! ### Enumerate -/

/-- solvers.py:260 `self.model.calc_observables(params)-constraints`; `obs` is
`self.model.calc_observables`. -/
noncomputable def obsDiff (obs : List ℝ → Py (List ℝ)) (constraints params : List ℝ) : Py (List ℝ) :=
  match obs params with
  | .error e => .error e
  | .ok o => broadcast2 (· - ·) o constraints

open scoped Classical in
/-- solvers.py:256-263 the function `f` handed to `root`. -/
noncomputable def enumF (obs : List ℝ → Py (List ℝ)) (constraints : List ℝ) (maxParam : Option ℝ)
    (params : List ℝ) : Py (List ℝ) :=
  match maxParam with
  | some m =>
    if ∃ p ∈ params, |p| > m then .ok (constraints.map fun _ => 0 + 10 ^ 30)
    else obsDiff obs constraints params
  | none => obsDiff obs constraints params

/-- solvers.py:271 `np.linalg.norm` of that difference. -/
noncomputable def obsDiffNorm (obs : List ℝ → Py (List ℝ)) (constraints params : List ℝ) : Py ℝ :=
  match obsDiff obs constraints params with
  | .error e => .error e
  | .ok d => .ok (Real.sqrt (d.map fun x => x * x).sum)

open scoped Classical in
/-- solvers.py:267-275 the function handed to `minimize` (`use_root=False`): the norm instead. -/
noncomputable def enumNorm (obs : List ℝ → Py (List ℝ)) (constraints : List ℝ) (maxParam : Option ℝ)
    (params : List ℝ) : Py ℝ :=
  match maxParam with
  | some m =>
    if ∃ p ∈ params, |p| > m then .ok (10 ^ 30) else obsDiffNorm obs constraints params
  | none => obsDiffNorm obs constraints params

/-- solvers.py:246-252 the arguments of `Enumerate.solve`: initial guess and constraints. `self` is
`self.constraints`, `None` unless a sample was given. -/
def enumSetup [Zero K] (self : Option (List K)) (guess constraints : Option (List K)) :
    Py (List K × List K) :=
  match self with
  | none => .error .attributeError
  | some sc =>
    let x0 := guess.getD (List.replicate sc.length 0)
    if x0.length ≠ sc.length then .error .assertion
    else .ok (x0, constraints.getD sc)

/-- solvers.py:246-281 `Enumerate.solve`; `root` and `minimize` are the library's, taking the function
and the starting point and returning `soln['x']`. -/
noncomputable def enumSolve (root : (List ℝ → Py (List ℝ)) → List ℝ → List ℝ)
    (minimize : (List ℝ → Py ℝ) → List ℝ → List ℝ) (obs : List ℝ → Py (List ℝ))
    (self guess constraints : Option (List ℝ)) (maxParam : Option ℝ) (useRoot : Bool) : Py (List ℝ) :=
  match enumSetup self guess constraints with
  | .error e => .error e
  | .ok (x0, c) =>
    if useRoot then .ok (root (enumF obs c maxParam) x0)
    else .ok (minimize (enumNorm obs c maxParam) x0)

/-! ### SparseEnumerate -/

/-- Entry selection `v[ix]` by an array of positions. -/
def takeIx (v : List K) (ix : List ℕ) : Py (List K) := ix.mapM fun i => getAt v i

open scoped Classical in
/-- solvers.py:416-429 the function `f` handed to `root` by `SparseEnumerate.solve`. -/
noncomputable def sparseF (obs : List ℝ → Py (List ℝ)) (nParams : ℕ) (ix : List ℕ)
    (constraints : List ℝ) (maxParam : Option ℝ) (params : List ℝ) : Py (List ℝ) :=
  match fillIn nParams ix params 0 with
  | .error e => .error e
  | .ok full =>
    let diff : Py (List ℝ) := match obs full with
      | .error e => .error e
      | .ok o => match takeIx o ix with
        | .error e => .error e
        | .ok o' => broadcast2 (· - ·) o' constraints
    match maxParam with
    | some m =>
      if ∃ p ∈ full, |p| > m then .ok (constraints.map fun _ => 0 + 10 ^ 30) else diff
    | none => diff

/-- solvers.py:405-411 the arguments of `SparseEnumerate.solve`: without `constraints` those of the
whole sample are taken, whose number must equal that of the selected parameters. -/
def sparseSetup [Zero K] (self : Option (List K)) (ix : List ℕ) (guess constraints : Option (List K)) :
    Py (List K × List K) :=
  let x0 := guess.getD (List.replicate ix.length 0)
  if x0.length ≠ ix.length then .error .assertion
  else match constraints with
    | some c => .ok (x0, c)
    | none => match self with
      | none => .error .assertion
      | some sc => if sc.length = ix.length then .ok (x0, sc) else .error .assertion

open scoped Classical in
/-- solvers.py:433-446 the function `f` handed to `minimize` when `use_root` is false. -/
noncomputable def sparseNorm (obs : List ℝ → Py (List ℝ)) (nParams : ℕ) (ix : List ℕ)
    (constraints : List ℝ) (maxParam : Option ℝ) (params : List ℝ) : Py ℝ :=
  match fillIn nParams ix params 0 with
  | .error e => .error e
  | .ok full =>
    let norm : Py ℝ := match obs full with
      | .error e => .error e
      | .ok o => match takeIx o ix with
        | .error e => .error e
        | .ok o' => match broadcast2 (· - ·) o' constraints with
          | .error e => .error e
          | .ok d => .ok (Real.sqrt ((d.map fun y => y * y).sum))
    match maxParam with
    | some m => if ∃ p ∈ full, |p| > m then .ok (10 ^ 30) else norm
    | none => norm

/-- solvers.py:405-453 `SparseEnumerate.solve`: the vector returned has one entry per selected
parameter. -/
noncomputable def sparseSolve (root : (List ℝ → Py (List ℝ)) → List ℝ → List ℝ)
    (minimize : (List ℝ → Py ℝ) → List ℝ → List ℝ) (obs : List ℝ → Py (List ℝ)) (nParams : ℕ)
    (ix : List ℕ) (self guess constraints : Option (List ℝ)) (maxParam : Option ℝ) (useRoot : Bool) :
    Py (List ℝ) :=
  match sparseSetup self ix guess constraints with
  | .error e => .error e
  | .ok (x0, c) =>
    if useRoot then .ok (root (sparseF obs nParams ix c maxParam) x0)
    else .ok (minimize (sparseNorm obs nParams ix c maxParam) x0)

end Verif.Model
