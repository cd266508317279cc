/-
coniii/solvers.py: the class `Enumerate` as an object with the model that its constructor makes.
-/
import Verif.Model.MchProg

namespace Verif.Model
open Verif

/-- solvers.py:186-211 `Enumerate(sample, model)`. -/
noncomputable def enumerateInit (mc : Machine) (a : SolverArg) (model : Option ModelObj) (rng : ℕ) : Py SolverObj :=
  basicSetup mc a model rng

/-- A routine of scipy.optimize that is given a function and a starting point: the function is evaluated there first, and an
exception in it ends the call. `lib` is the rest, the vector `soln['x']` found. -/
def optimCall {β : Type*} (lib : (List ℝ → Py β) → List ℝ → List ℝ) (f : List ℝ → Py β) (x0 : List ℝ) : Py (List ℝ) :=
  match f x0 with
  | .error e => .error e
  | .ok _ => .ok (lib f x0)

/-- solvers.py:213-302 `Enumerate.solve` of an object: the observables are `self.model.calc_observables`. An object
without constraints raises before the model is used. The flag `soln['success']` is not looked at. -/
noncomputable def enumerateSolve (brk : ℕ → Bool) (root : (List ℝ → Py (List ℝ)) → List ℝ → List ℝ)
    (minimize : (List ℝ → Py ℝ) → List ℝ → List ℝ) (o : SolverObj) (guess constraints : Option (List ℝ))
    (maxParam : Option ℝ) (useRoot : Bool) : Py (List ℝ) :=
  match enumSetup o.constraints guess constraints with
  | .error e => .error e
  | .ok (x0, c) => match o.model with
    | none => .error .attributeError
    | some m =>
      if useRoot then optimCall root (enumF (fun x => m.calcObservables brk (some x)) c maxParam) x0
      else optimCall minimize (enumNorm (fun x => m.calcObservables brk (some x)) c maxParam) x0

end Verif.Model
