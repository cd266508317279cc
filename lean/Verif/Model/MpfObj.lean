/-
coniii/solvers.py: the class `MPF` as an object: constructor, starting point, bounds and result of `solve`.
-/
import Verif.Model.PseudoObj
import Verif.Model.Mpf

namespace Verif.Model
open Verif

/-- utils.py:539-561 `split_concat_params(p, n)` as a program. After `n` rounds the binomial coefficients are zero and the
loop makes no progress any more. -/
def splitConcat {K : Type*} (p : List K) (n : ℕ) : Py (List (List K)) :=
  match splitLoop p n n 0 1 [] with
  | some r => .ok r
  | none => .error .diverge

/-- solvers.py:698, 718 `ising_convert_params(split_concat_params(x, self.n), tgt, True)`. -/
noncomputable def mpfConvert (n : ℕ) (tgt : Basis) (x : List ℝ) : Py (List ℝ) :=
  match splitConcat x n with
  | .error e => .error e
  | .ok P => isingConvertParamsConcat P tgt

/-- An object of class `MPF`. What `adj` and `calc_de` are if they are set is fixed (utils.py, `None`), so only their
presence is kept. -/
structure MpfObj where
  n : Option ℕ
  sample : Option Data
  model : Option ModelObj
  obs : ObsArg
  attrs : MpfAttrs Unit Unit

/-- solvers.py:453-496 `MPF(sample, model, calc_observables, calc_de, adj)`; the flags tell whether the last two are given. -/
noncomputable def mpfObjInit (mc : Machine) (a : SolverArg) (model : Option ModelObj) (obs : ObsArg) (adjGiven deGiven : Bool)
    (rng : ℕ) : Py MpfObj :=
  match basicSetupObs mc a model obs rng with
  | .error e => .error e
  | .ok s => .ok ⟨s.n, a.rows, s.model, obs,
      mpfInit () (if adjGiven then some () else none) (if deGiven then some () else none)⟩

/-- solvers.py:695-698 the starting point; `X` are the bits of the data. -/
noncomputable def mpfStart (n : ℕ) (obs : ObsArg) (X : Data) (guess : Option (List ℝ)) : Py (List ℝ) :=
  match guess with
  | none => obs.means n X
  | some g => mpfConvert n .b01 g

/-- solvers.py:705-711 the function given to the library, for a model of class `k`: `calc_e` raises if the parameters do not
fit (all rows have `n` columns); otherwise `mpfF` with the energies. -/
noncomputable def mpfObjF (k : ModelKind) (uniq : Data → Data) (n : ℕ) (X : Data) (allConnected uselog : Bool)
    (params : List ℝ) : Py (Option ℝ) :=
  match kindCalcERow k params (List.replicate n 0) with
  | .error e => .error e
  | .ok _ => mpfF (kindEnergy k) uniq X allConnected uselog params

/-- `scipy.optimize.minimize(f, x0, bounds=[(-limit, limit)]*len(x0), method='L-BFGS-B')`: an exception of the function
ends the call. `lib` is the vector `soln['x']` found. (The library moves the start into the bounds first; whether the
function raises depends only on the length.) -/
def boundedCall {β : Type*} (lib : (List ℝ → Py β) → List ℝ → ℝ → List ℝ) (f : List ℝ → Py β) (x0 : List ℝ) (limit : ℝ) :
    Py (List ℝ) :=
  match f x0 with
  | .error e => .error e
  | .ok _ => .ok (lib f x0 limit)

/-- The keyword arguments of `MPF.solve` that are used here: `initial_guess`, `all_connected`, `parameter_limits`,
`uselog`. -/
structure MpfArgs where
  guess : Option (List ℝ)
  allConnected : Bool
  limit : ℝ
  uselog : Bool

/-- solvers.py:653-722 `MPF.solve`. `uniq` is `np.unique(X, axis=0)`. The flag `soln['success']` is not looked at. -/
noncomputable def mpfObjSolve (uniq : Data → Data) (lib : (List ℝ → Py (Option ℝ)) → List ℝ → ℝ → List ℝ) (o : MpfObj)
    (a : MpfArgs) : Py (List ℝ) :=
  if ¬ (a.limit > 0) then .error .assertion
  else match o.sample, o.n with
    | some X, some n => match o.attrs.calcDe with
      | none => .error .attributeError
      | some _ => match mpfStart n o.obs (toBits X) a.guess with
        | .error e => .error e
        | .ok x0 => match o.attrs.adj with
          | none => .error .attributeError
          | some _ => match listAdjacentStates (uniq (toBits X)) a.allConnected with
            | .error e => .error e
            | .ok _ => match o.model with
              | none => .error .attributeError
              | some m => match boundedCall lib (mpfObjF m.kind uniq n X a.allConnected a.uselog) x0 a.limit with
                | .error e => .error e
                | .ok x => mpfConvert n .b11 x
    | _, _ => .error .typeError

end Verif.Model
