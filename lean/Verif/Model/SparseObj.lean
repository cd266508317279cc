/-
coniii/solvers.py: the class `SparseEnumerate` as an object with the model that its constructor makes.
-/
import Verif.Model.EnumerateObj

namespace Verif.Model
open Verif

/-- `np.unique` of an array of positions (library call, solvers.py:346): each position once, in increasing order. -/
def uniqueIx (l : List ℕ) : List ℕ := (l.mergeSort fun a b => decide (a ≤ b)).dedup

/-- An object of class `SparseEnumerate`: what `basic_setup` sets, `parameterIx`, and the number of parameters that the model
had when `set_insertion_ix` was called. -/
structure SparseObj where
  solver : SolverObj
  ix : List ℕ
  nParams : ℕ

/-- solvers.py:310-348 `SparseEnumerate(sample, model, parameter_ix=pix)`. `pix` is an array of integers, here not negative;
warnings are left out. -/
noncomputable def sparseInit (mc : Machine) (a : SolverArg) (model : Option ModelObj) (pix : Option (List ℕ)) (rng : ℕ) :
    Py SparseObj :=
  match basicSetup mc a model rng with
  | .error e => .error e
  | .ok s => match pix with
    | none => .error .assertion
    | some l => match s.model with
      | none => .error .attributeError
      | some m => match insertionIx m.multipliers.length (uniqueIx l) with
        | .error e => .error e
        | .ok _ => .ok ⟨s, uniqueIx l, m.multipliers.length⟩

/-- solvers.py:350-453 `SparseEnumerate.solve` of an object. -/
noncomputable def sparseObjSolve (brk : ℕ → Bool) (root : (List ℝ → Py (List ℝ)) → List ℝ → List ℝ)
    (minimize : (List ℝ → Py ℝ) → List ℝ → List ℝ) (o : SparseObj) (guess constraints : Option (List ℝ))
    (maxParam : Option ℝ) (useRoot : Bool) : Py (List ℝ) :=
  match sparseSetup o.solver.constraints o.ix guess constraints with
  | .error e => .error e
  | .ok (x0, c) => match o.solver.model with
    | none => .error .attributeError
    | some m =>
      if useRoot then optimCall root (sparseF (fun x => m.calcObservables brk (some x)) o.nParams o.ix c maxParam) x0
      else optimCall minimize (sparseNorm (fun x => m.calcObservables brk (some x)) o.nParams o.ix c maxParam) x0

end Verif.Model
