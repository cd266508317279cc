/-
coniii/solvers.py: MCHIncompleteData (MCH for data in which zeros stand for missing spins).
-/
import Verif.Model.MchProg
import Verif.Model.Corr

namespace Verif.Model
open Verif

/-- An argument `cond_sample_size` or `cond_sample_iters`: a Python int, a function, or anything else (such as an integer of
numpy). -/
inductive CondArg where
  | int (k : ℤ)
  | function (f : ℕ → ℤ)
  | other

/-- solvers.py:1408-1415 `f_cond_sample_size`; the name stays unbound for other types. -/
def CondArg.fn : CondArg → Option (ℕ → ℤ)
  | .int k => some fun _ => k
  | .function f => some f
  | .other => none

/-- solvers.py:1427-1428 `X[incompleteIx]`. -/
def incompleteRows (X : Data) : Data := X.filter fun r => decide (0 ∈ r)

/-- solvers.py:1428 `uIncompleteStates`. -/
def incStates (uniq : Data → Data) (X : Data) : Data :=
  (uniqueRowsIx uniq (incompleteRows X)).filterMap fun i => (incompleteRows X)[i]?

/-- solvers.py:1430-1431 `uIncompleteStatesCount`. -/
def incCounts (uniq : Data → Data) (X : Data) : List ℕ := bincount (uniqueRowsInv uniq (incompleteRows X))

/-- solvers.py:1432 `fullFraction`. -/
noncomputable def fullFraction (X : Data) : ℝ := ((X.length : ℝ) - ((incompleteRows X).length : ℝ)) / (X.length : ℝ)

/-- An object of class `MCHIncompleteData`. `samples` is None here as long as nobody has set the attribute from outside: no
method but `generate_sample` does, and that one raises. -/
structure IncObj where
  mch : MchObj
  samples : Option Data
  condSamples : List Data

/-- solvers.py:1343-1349 the constructor. -/
noncomputable def incInit (mc : Machine) (a : SolverArg) (model : Option ModelObj) (size : ℕ) (boost : Bool) (rng : ℕ) :
    Py IncObj :=
  match mchInit mc a model size boost rng with
  | .error e => .error e
  | .ok m => .ok ⟨m, none, []⟩

/-- solvers.py:1570-1645 `generate_sample`. Line 1599 reads `self.sampler`, an attribute that no method of `Solver`, `MCH` or
`MCHIncompleteData` sets (the sampler belongs to `self.model`). What would come after is not modelled. -/
def incGenerate (_o : IncObj) : Py IncObj := .error .attributeError

/-- solvers.py:1351-1489 `solve`; the loop starting in line 1450 comes after the first call of `generate_sample` and is not
modelled. `uniq` is `np.unique` of rows. -/
noncomputable def incSolve (o : IncObj) (X : Option Data) (constraints guess : Option (List ℝ)) (condSize condIters : CondArg) :
    Py (List ℝ) :=
  match X, constraints with
  | none, _ => .error .assertion
  | _, none => .error .assertion
  | some _, some c =>
    if ∃ g, guess = some g ∧ g.length ≠ c.length then .error .assertion
    else match condSize.fn, condIters.fn with
      | none, _ => .error .unboundLocal
      | _, none => .error .unboundLocal
      | some _, some _ => match incGenerate o with
        | .error e => .error e
        | .ok _ => .ok c

/-- `self.mch_approximation(s, dlamda)` of the Ising helpers for an array. (NaN entries are 0 here.) -/
noncomputable def approxRows (n : ℕ) (s : Data) (d : List ℝ) : Py (List ℝ) :=
  match mchIsing n s d with
  | .error e => .error e
  | .ok r => .ok (r.map fun v => v.getD 0)

/-- solvers.py:1543-1547 the part of the complete rows. -/
noncomputable def incStart (n : ℕ) (samples : Option Data) (full : ℝ) (d : List ℝ) : Py (List ℝ) :=
  open scoped Classical in
  if full > 0 then match samples with
    | none => .error .attributeError
    | some s => match approxRows n s d with
      | .error e => .error e
      | .ok r => .ok (r.map fun x => x * full)
  else .ok (d.map fun _ => 0)

/-- solvers.py:1551-1554 the loop over the conditional samples, from number `i` on. -/
noncomputable def incAdd (n : ℕ) (full : ℝ) (counts : List ℕ) (d : List ℝ) : ℕ → List Data → List ℝ → Py (List ℝ)
  | _, [], est => .ok est
  | i, s :: rest, est => match getAt counts i with
    | .error e => .error e
    | .ok k => match approxRows n s d with
      | .error e => .error e
      | .ok r => match addInto est (r.map fun x => (1 - full) * ((k : ℝ) / (counts.sum : ℝ)) * x) with
        | .error e => .error e
        | .ok est => incAdd n full counts d (i + 1) rest est

/-- solvers.py:1543-1554 the prediction after a change `d` of the parameters. -/
noncomputable def incApprox (n : ℕ) (o : IncObj) (full : ℝ) (counts : List ℕ) (d : List ℝ) : Py (List ℝ) :=
  match incStart n o.samples full d with
  | .error e => .error e
  | .ok est => incAdd n full counts d 0 o.condSamples est

/-- solvers.py:1491-1568 `learn_parameters_mch`: the multipliers afterwards. The loop is that of `MCH` with another
prediction. -/
noncomputable def incLearn (n : ℕ) (o : IncObj) (est : List ℝ) (full : ℝ) (counts : List ℕ) (c : List ℝ) (a : LearnArgs)
    (mult : List ℝ) : Py (List ℝ) :=
  learnMch (incApprox n o full counts) (fun d => .ok d) est c a mult

end Verif.Model
