/-
coniii/solvers.py: `Enumerate` with the argument `calc_observables`, as for the models of class `Triplet`.
-/
import Verif.Model.PseudoObj

namespace Verif.Model
open Verif

/-- solvers.py:186-211 `Enumerate(sample, model, calc_observables)`; `enumerateInit` is the case without the last argument. -/
noncomputable def enumerateInitObs (mc : Machine) (a : SolverArg) (model : Option ModelObj) (obs : ObsArg) (rng : ℕ) :
    Py SolverObj :=
  basicSetupObs mc a model obs rng

end Verif.Model
