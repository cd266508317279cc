/-
coniii/solvers.py: the classes `Pseudo`, `ClusterExpansion` and `RegularizedMeanField` as objects: constructors and the
choice of the algorithm.
-/
import Verif.Model.EnumerateObj
import Verif.Model.Pseudo
import Verif.Model.Cluster

namespace Verif.Model
open Verif

/-- The argument `calc_observables` of a solver: the function of the Ising helpers (also the default), of the helpers of the
Potts model with `k` states or of the triplet helpers. -/
inductive ObsArg where
  | ising
  | potts (k : ℕ)
  | triplet

/-- utils.py:976-987, 1140-1172, 1060-1085 `calc_observables` for one row. -/
def ObsArg.row (o : ObsArg) (s : List ℤ) : Py (List ℝ) :=
  match o with
  | .ising => isingObservables s
  | .potts k => pottsObservables k s
  | .triplet => tripletObservables s

/-- solvers.py:95 `calc_observables(sample).mean(0)`. -/
noncomputable def ObsArg.means (o : ObsArg) (n : ℕ) (rows : Data) : Py (List ℝ) :=
  match o with
  | .ising => sampleConstraints n rows
  | .potts k => match rows.mapM (pottsObservables (K := ℝ) k) with
    | .error e => .error e
    | .ok v =>
      if rows.length = 0 then .error .zeroDivision
      else .ok ((List.range (n * k + n * (n - 1) / 2)).map fun j => (v.map fun r => r.getD j 0).sum / (rows.length : ℝ))
  | .triplet => match rows.mapM (tripletObservables (K := ℝ)) with
    | .error e => .error e
    | .ok v =>
      if rows.length = 0 then .error .zeroDivision
      else .ok ((List.range (n + n * (n - 1) / 2 + n * (n - 1) * (n - 2) / 6)).map fun j =>
        (v.map fun r => r.getD j 0).sum / (rows.length : ℝ))

/-- solvers.py:19-106 `basic_setup(sample_or_n, model, calc_observables)`. Warnings are left out. -/
noncomputable def basicSetupObs (mc : Machine) (a : SolverArg) (model : Option ModelObj) (obs : ObsArg) (rng : ℕ) :
    Py SolverObj :=
  match a with
  | .nothing => .ok ⟨none, model, none⟩
  | .size n =>
    if ¬ (n > 1) then .error .assertion
    else match solverModel mc n.toNat model rng with
      | .error e => .error e
      | .ok o => .ok ⟨some n.toNat, some o, none⟩
  | .data n rows => match solverModel mc n model rng with
    | .error e => .error e
    | .ok o => match obs.means n rows with
      | .error e => .error e
      | .ok c => .ok ⟨some n, some o, some c⟩

/-- solvers.py:62, 71, 88 `self.sample`. -/
def SolverArg.rows (a : SolverArg) : Option Data :=
  match a with
  | .data _ rows => some rows
  | _ => none

/-- An object of class `Pseudo`. `k` is `none` if `self.get_multipliers_r` and `self.calc_observables_r` are those of the
Ising helpers; otherwise they are those of `define_pseudo_potts_helper_functions(self.n, k)`. -/
structure PseudoObj where
  n : Option ℕ
  sample : Option Data
  model : Option ModelObj
  obs : ObsArg
  k : Option ℕ

/-- solvers.py:1654-1698 `Pseudo(sample, model, calc_observables, get_multipliers_r, calc_observables_r, k)`. `helpers` tells
whether both functions are given, which then are the Potts helpers for the same `k`; if only one is given it is not used. The
attribute `self.k` is not set without helpers. -/
noncomputable def pseudoInit (mc : Machine) (a : SolverArg) (model : Option ModelObj) (obs : ObsArg) (helpers : Bool) (k : ℕ)
    (rng : ℕ) : Py PseudoObj :=
  match basicSetupObs mc a model obs rng with
  | .error e => .error e
  | .ok s =>
    if helpers then match a with
      | .data n rows =>
        if n = 0 ∨ rows = [] then .error .valueError
        else if ∀ r ∈ rows, ∀ x ∈ r, x ≤ (k : ℤ) - 1 then .ok ⟨s.n, a.rows, s.model, obs, some k⟩
        else .error .assertion
      | _ => .error .attributeError
    else .ok ⟨s.n, a.rows, s.model, obs, none⟩

/-- solvers.py:1752, 1825, 1890 the starting point. `self.sample` may be `None`. -/
def pseudoGuess (o : PseudoObj) (guess : Option (List ℝ)) : Py (List ℝ) :=
  match guess with
  | some g => .ok g
  | none => match o.sample with
    | none => .error .typeError
    | some [] => .error .indexError
    | some (s :: _) => match o.obs.row s with
      | .error e => .error e
      | .ok v => .ok (List.replicate v.length 0)

/-- The keyword arguments of `Pseudo.solve`: `force_general`, `initial_guess`, `cost_fcn`, `cost_fcn_jac`. -/
structure PseudoArgs where
  force : Bool
  guess : Option (List ℝ)
  cost : Option (List ℝ → ℝ)
  costJac : Option (List ℝ → List ℝ)

/-- The class of `self.model`. -/
def PseudoObj.kind (o : PseudoObj) : Option ModelKind := o.model.map fun m => m.kind

/-- solvers.py:1728-1791 `_solve_ising` of an object; the arguments for the cost are not accepted. Without a sample the
compiled `calc_observables_r` raises; with the Potts helpers the positions do not fit the starting point. `lib` is
`scipy.optimize.minimize`. -/
noncomputable def pseudoIsing (lib : (List ℝ → Py (ℝ × List ℝ)) → List ℝ → List ℝ) (o : PseudoObj) (a : PseudoArgs) :
    Py (List ℝ) :=
  if a.cost.isSome ∨ a.costJac.isSome then .error .typeError
  else match pseudoGuess o a.guess with
    | .error e => .error e
    | .ok g => match o.sample, o.n, o.k with
      | some X, some n, none => isingPseudoSolve (optimCall lib) n X g
      | some _, some _, some _ => .error .valueError
      | _, _, _ => .error .typeError

/-- solvers.py:1793-1851 `_solve_general` of an object. With the Potts helpers `obs[r]` is a tuple, which has no `dot`. -/
noncomputable def pseudoGeneral (lib : (List ℝ → Py (ℝ × List ℝ)) → List ℝ → List ℝ) (o : PseudoObj) (a : PseudoArgs) :
    Py (List ℝ) :=
  if a.cost.isSome ∨ a.costJac.isSome then .error .typeError
  else match pseudoGuess o a.guess with
    | .error e => .error e
    | .ok g => match o.sample, o.n, o.k with
      | some X, some n, none => optimCall lib (generalPseudoF n X) g
      | some _, some _, some _ => .error .attributeError
      | _, _, _ => .error .typeError

/-- solvers.py:1898-1903 the cost function and its derivative. The check of the derivative only warns. -/
def pseudoCost (a : PseudoArgs) : Py ((List ℝ → ℝ) × (List ℝ → List ℝ)) :=
  match a.cost with
  | none => .ok (fun _ => 0, fun _ => [0])
  | some c => match a.costJac with
    | none => .error .assertion
    | some j => .ok (c, j)

/-- solvers.py:1853-1968 `_solve_potts` of an object. With the Ising helpers the results are taken apart as if they were
tuples, and a number is indexed in the objective (or there are fewer than three rows). -/
noncomputable def pseudoPotts (lib : (List ℝ → Py (ℝ × List ℝ)) → List ℝ → List ℝ) (o : PseudoObj) (a : PseudoArgs) :
    Py (List ℝ) :=
  match pseudoGuess o a.guess with
  | .error e => .error e
  | .ok g => match o.sample, o.n with
    | some X, some n => match o.k with
      | none => .error .indexError
      | some k => match pseudoCost a with
        | .error e => .error e
        | .ok (c, j) => optimCall lib (pottsPseudoF n k X c j) g
    | _, _ => .error .typeError

/-- solvers.py:1700-1726 `Pseudo.solve`. -/
noncomputable def pseudoSolve (lib : (List ℝ → Py (ℝ × List ℝ)) → List ℝ → List ℝ) (o : PseudoObj) (a : PseudoArgs) :
    Py (List ℝ) :=
  if o.kind = some .ising ∧ a.force = false then pseudoIsing lib o a
  else if o.kind = some .potts3 then pseudoPotts lib o a
  else pseudoGeneral lib o a

/-- An object of class `ClusterExpansion` or `RegularizedMeanField`. -/
structure SampledObj where
  n : Option ℕ
  sample : Option Data
  model : ModelObj

/-- solvers.py:2142-2178 `ClusterExpansion(sample, model, calc_observables, sample_size)`. -/
noncomputable def clusterInit (mc : Machine) (a : SolverArg) (model : Option ModelObj) (obs : ObsArg) (size : ℕ) (rng : ℕ) :
    Py SampledObj :=
  match basicSetupObs mc a model obs rng with
  | .error e => .error e
  | .ok s => match s.model with
    | none => .error .attributeError
    | some m => match m.setupSampler mc (chars! "metropolis") size true with
      | .error e => .error e
      | .ok m => .ok ⟨s.n, a.rows, m⟩

/-- solvers.py:2529-2571 `RegularizedMeanField(sample, model, calc_observables, sample_size)`. -/
noncomputable def rmfInit (mc : Machine) (a : SolverArg) (model : Option ModelObj) (obs : ObsArg) (size : ℕ) (rng : ℕ) :
    Py SampledObj :=
  if ¬ (size > 0) then .error .assertion
  else clusterInit mc a model obs size rng

/-- solvers.py:2407-2517 `ClusterExpansion.solve(threshold, cluster, priorLmbda, numSamples, meanFieldRef, independentRef,
full_output=True)` of an object; `None+1` raises. -/
noncomputable def clusterObjSolve (lsq : (List ℝ → Py (List ℝ)) → List ℝ → Py (List ℝ)) (o : SampledObj) (T : ℝ)
    (cluster : Option (List ℕ)) (priorLmbda : ℝ) (numSamples : Option ℕ) (meanFieldRef independentRef : Bool) :
    Py (List ℝ × ℝ × List (List (List ℕ))) :=
  match o.sample, o.n with
  | some X, some n => match aceCooc n X with
    | none => .error .indexError
    | some M => clusterExpansionSolve lsq n M T cluster priorLmbda numSamples meanFieldRef independentRef
  | _, _ => .error .typeError

end Verif.Model
