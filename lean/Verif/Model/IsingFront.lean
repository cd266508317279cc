/-
Model of the class `Ising` of coniii/ising/utils.py.
-/
import Verif.Model.Matrix
import Verif.Model.Corr
import Verif.Model.RegMeanField

namespace Verif.Model
open Verif

section
variable {K : Type*}

/-- The arguments `h` and `J` of the constructor: None, a number, a Python list, or a (one-dimensional) array. -/
inductive FrontArg (K : Type*) where
  | none
  | num (x : K)
  | list (l : List K)
  | array (l : List K)

/-- ising/utils.py:52-65 the vector of length `m` made of the argument; the second component says whether it
has an attribute `ndim` (arrays do, Python lists do not). -/
def frontArg [Zero K] [Add K] (m : ℕ) : FrontArg K → Py (List K × Bool)
  | .none => .ok (List.replicate m 0, true)
  | .num x => .ok (List.replicate m (0 + x), true)
  | .list l => if l.length = m then .ok (l, false) else .error .assertion
  | .array l => if l.length = m then .ok (l, true) else .error .assertion

/-- The attributes of an `Ising` object. -/
structure Front (K : Type*) where
  /-- `self.n` -/
  n : ℕ
  /-- `self.hJ` -/
  hJ : List K
  /-- `self.Jmat` -/
  Jmat : Mat K
  /-- `self.hJ01` -/
  hJ01 : List K
  /-- `self.ising_eqns.calc_observables` -/
  observables : List K → List K

/-- ising/utils.py:38-73 `Ising.__init__(n, h, J)`. `eqns n` is the function `calc_observables` of the module
`coniii.ising_eqn.ising_eqn_<n>_sym`, if there is such a module (importing it raises otherwise;
`ModuleNotFoundError` is not distinguished from `Exception`). -/
def frontInit [Field K] [DecidableEq K] (eqns : ℕ → Option (List K → List K)) (n : ℕ) (h J : FrontArg K) :
    Py (Front K) :=
  if ¬ 1 < n then .error .assertion
  else match frontArg n h with
    | .error e => .error e
    | .ok (h, hArr) => match frontArg (n * (n - 1) / 2) J with
      | .error e => .error e
      | .ok (J, jArr) =>
        if ¬ (hArr ∧ jArr) then .error .attributeError
        else match squareformVec J with
          | .error e => .error e
          | .ok M => match convertParamsConcat h (.vec J) .b01 with
            | .error e => .error e
            | .ok hJ01 => match eqns n with
              | none => .error .exception
              | some f => .ok ⟨n, h ++ J, M, hJ01, f⟩

/-- ising/utils.py:75-90 `correlations(basis)`; `basis1` says whether the argument is `'1'`. -/
def frontCorrelations [Field K] (m : Front K) (basis1 : Bool) : Py (List K) :=
  let sisj := m.observables m.hJ
  if basis1 then .ok sisj else convertCorrConcat (sisj.take m.n) (sisj.drop m.n) .b01 .none

/-- ising/utils.py:92-106 `fields(basis)`. -/
def frontFields (m : Front K) (basis1 : Bool) : List K :=
  if basis1 then m.hJ.take m.n else m.hJ01.take m.n

/-- ising/utils.py:108-120 `couplings(basis)`. -/
def frontCouplings (m : Front K) (basis1 : Bool) : List K :=
  if basis1 then m.hJ.drop m.n else m.hJ01.drop m.n

/-- ising/utils.py:147-153 `neighbor_dE(state)`. A state of the wrong length raises: with fewer than two spins
when `state[i]` is read, otherwise when the state is multiplied by a row of `Jmat`. -/
def frontNeighborDE [Field K] (m : Front K) (state : List ℤ) : Py (List K) :=
  if state.length = m.n then
    .ok ((List.range m.n).map fun i => 2 * ((state.getD i 0 : ℤ) : K) * m.hJ.getD i 0 +
      2 * ((state.getD i 0 : ℤ) : K) *
        ((List.range m.n).map fun j => ((state.getD j 0 : ℤ) : K) * m.Jmat.at' i j).sum)
  else if state.length ≤ 1 then .error .indexError
  else .error .valueError

/-- ising/utils.py:134-144 the loop of `find_basin`, at most `fuel` rounds (`diverge` when they are used up). -/
def frontDescend [Field K] [LinearOrder K] (m : Front K) : ℕ → List ℤ → Py (List ℤ)
  | 0, _ => .error .diverge
  | fuel + 1, s => match frontNeighborDE m s with
    | .error e => .error e
    | .ok dE =>
      if dE.any fun d => d < 0 then
        match npArgmin dE with
        | .error e => .error e
        | .ok ix => frontDescend m fuel (s.set ix (s.getD ix 0 * -1))
      else .ok s

/-- ising/utils.py:122-145 `find_basin(s)`. Entries of `s` are integers (`astype(np.int8)`; the range of int8
is not modelled, spins are 1 or -1). The number of rounds is bounded by the number of states, see
`C69_terminates`. -/
def frontFindBasin [Field K] [LinearOrder K] (m : Front K) (s : List ℤ) : Py (List ℤ) :=
  if s.length = m.n then frontDescend m (2 ^ m.n + 1) s else .error .assertion

end
end Verif.Model
