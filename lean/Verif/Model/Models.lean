/-
coniii/models.py: construction of the models.
-/
import Verif.Model.Matrix
import Verif.Model.Enumerate
import Mathlib.Data.Nat.Choose.Basic
import Mathlib.Data.Nat.Sqrt

namespace Verif.Model
open Verif

variable {K : Type*}

/-- Forms of the `multipliers` argument that the code tells apart: an `int`, a list of arrays, a one-dimensional `ndarray`, a two-dimensional `ndarray` (given by its rows). -/
inductive IsingArg (K : Type*) where
  | int (n : ℤ)
  | parts (l : List (List K))
  | vec (v : List K)
  | mat (M : Mat K)

/-- The attributes `n` and `multipliers` of a model. -/
structure ModelState (K : Type*) where
  n : ℕ
  multipliers : List K
  deriving DecidableEq

/-- models.py:160-163 two objects of lengths `a`, `b` that are joined to `ab`:
`self.n*(self.n-1)/2==len(multipliers[1])` compares with a float, hence exactly. -/
def isingParts (h J : List K) : Py (ModelState K) :=
  if h.length * (h.length - 1) = 2 * J.length then .ok ⟨h.length, h ++ J⟩ else .error .assertion

/-- models.py:174-177 one vector: `int((np.sqrt(1+8*size)-1)//2)` with an exact square root. -/
def isingVec (v : List K) : Py (ModelState K) :=
  let n := vecDim v.length
  if 2 * v.length = 2 * n + (n - 1) * n then .ok ⟨n, v⟩ else .error .assertion

/-- models.py:166-173 a matrix. `np.diag_indices(shape[0])` is out of range when there are fewer
columns than rows; `squareform` raises for a matrix that is not symmetric. -/
def isingMat [Zero K] [DecidableEq K] (M : Mat K) : Py (ModelState K) :=
  let n := M.length
  if M.ncols < n then .error .indexError
  else
    let h := (List.range n).map fun i => M.at' i i
    let Z := Mat.build n M.ncols fun i j => if i = j then 0 else M.at' i j
    match squareformMat Z with
    | .error e => .error e
    | .ok J => .ok ⟨n, h ++ J⟩

/-- models.py:134-199 `Ising(multipliers)`: attributes `n` and `multipliers`. The test
`len(multipliers)==2` comes first and is also true of a vector with two entries (whose entries have
no length) and of a matrix with two rows. -/
def isingInit [Zero K] [DecidableEq K] (a : IsingArg K) : Py (ModelState K) :=
  match a with
  | .int n => if ¬ (n > 1) then .error .assertion
      else isingVec (List.replicate (n.toNat + n.toNat * (n.toNat - 1) / 2) 0)
  | .parts l => match l with
    | [h, J] => isingParts h J
    | _ => .error .exception
  | .vec v => if v.length = 2 then .error .typeError else isingVec v
  | .mat M => match M with
    | [r0, r1] => isingParts r0 r1
    | _ => isingMat M

/-- models.py:208-231 `Triplet(multipliers)`: `multipliers[0]`, `[1]`, `[2]` are read; a vector of
numbers has no parts (`TypeError`); further parts are joined without a check. -/
def tripletInit (a : IsingArg K) : Py (ModelState K) :=
  match a with
  | .int _ => .error .typeError
  | .vec v => if v = [] then .error .indexError else .error .typeError
  | .parts l | .mat l => match l with
    | [] => .error .indexError
    | [_] => .error .indexError
    | h :: J :: rest =>
      if ¬ (h.length.choose 2 = J.length) then .error .assertion
      else match rest with
        | [] => .error .indexError
        | T :: _ => if ¬ (h.length.choose 3 = T.length) then .error .assertion
          else .ok ⟨h.length, l.flatten⟩

/-- models.py:258-283 `Potts3(multipliers)`: a list of two arrays, or one array with
`n = (sqrt(25+8*size)-5)/2`, which must be an integer (exact arithmetic). A matrix is an `ndarray` too
and is taken by its number of entries. -/
def potts3Init (a : IsingArg K) : Py (ModelState K) :=
  let vec (v : List K) : Py (ModelState K) :=
    let r := Nat.sqrt (25 + 8 * v.length)
    if r * r = 25 + 8 * v.length ∧ (r - 5) % 2 = 0 then .ok ⟨(r - 5) / 2, v⟩ else .error .assertion
  match a with
  | .int _ => .error .assertion
  | .vec v => vec v
  | .mat M => vec M.flatten
  | .parts l => match l with
    | [] => .error .indexError
    | h :: rest =>
      if ¬ (h.length % 3 = 0) then .error .assertion
      else match rest with
        | [J] => if ¬ ((h.length / 3).choose 2 = J.length) then .error .assertion
          else .ok ⟨h.length / 3, h ++ J⟩
        | _ => .error .assertion

/-- models.py:179-199: what `calc_p()` and `calc_observables()` of a model give without argument: the
functions of the imported module `e` on the vector that was bound as default when
`set_multipliers` was last called. -/
structure IsingModel where
  state : ModelState ℝ
  eqns : Eqns
  bound : List ℝ

/-- models.py:179-192 construction, with the imported module. -/
def isingModelInit (st : ModelState ℝ) (e : Eqns) : IsingModel := ⟨st, e, st.multipliers⟩

/-- models.py:190-199 `set_multipliers`. -/
def IsingModel.setMultipliers (m : IsingModel) (x : List ℝ) : IsingModel :=
  { m with state := { m.state with multipliers := x }, bound := x }

/-- models.py:199 `calc_p(x=self.multipliers)`. -/
noncomputable def IsingModel.calcP (m : IsingModel) (x : Option (List ℝ)) : Py (List ℝ) :=
  moduleP m.eqns (x.getD m.bound)

/-- models.py:198 `calc_observables(x=self.multipliers)`. -/
noncomputable def IsingModel.calcObservables (brk : ℕ → Bool) (m : IsingModel) (x : Option (List ℝ)) :
    Py (List ℝ) :=
  moduleObservables brk m.eqns (x.getD m.bound)

end Verif.Model
