/-
coniii/solvers.py: MPF (minimum probability flow).
-/
import Verif.Model.Neighbors
import Verif.Model.HighOrder
import Mathlib.Analysis.SpecialFunctions.Log.Basic

namespace Verif.Model
open Verif

/-- `self.model.calc_e` row by row: parameters, then one state. The functions of utils.py and
models.py compute the energy of each row separately. -/
abbrev RowEnergy := List ℝ → List ℤ → ℝ

/-- `self.calc_de` row by row: one state, then the index of the parameter. -/
abbrev RowGradient := List ℤ → ℕ → Py ℝ

/-- utils.py:1274-1297 `calc_de(s[None,:], j)` for one state. -/
noncomputable def isingDe : RowGradient := fun s j => match calcDe s.length [s] j with
  | .error e => .error e
  | .ok l => getAt l 0

/-- solvers.py:490-496 the attributes `adj` and `calc_de` after the constructor. An argument that was
given is never stored; `self.calc_de = calc_de` refers to the argument, which is `None` there. The
outer `none` is a missing attribute. -/
structure MpfAttrs (A D : Type*) where
  adj : Option A
  calcDe : Option (Option D)

/-- solvers.py:490-496; `utilsAdj` is `adj` of utils.py. -/
def mpfInit {A D : Type*} (utilsAdj : A) (adjArg : Option A) (calcDeArg : Option D) : MpfAttrs A D where
  adj := match adjArg with
    | none => some utilsAdj
    | some _ => none
  calcDe := match calcDeArg with
    | none => some none
    | some _ => none

/-- One data state with its count and its adjacent states: what round `i` of the loops over
`enumerate(Xuniq)` reads. -/
abbrev MpfItem := List ℤ × ℕ × Data

/-- `s`, `Xcount[i]` and `adjacentStates[i]` for each round; too few of them raise `IndexError` (in
the code in the round concerned; nothing observable happens before). -/
def mpfItems (Xuniq : Data) (Xcount : List ℕ) (adjs : List Data) : Py (List MpfItem) :=
  (List.range Xuniq.length).mapM fun i =>
    match getAt Xcount i, getAt adjs i with
    | .ok c, .ok a => .ok (Xuniq.getD i [], c, a)
    | _, _ => .error .indexError

/-- solvers.py:530-531 `dobj`. -/
noncomputable def mpfDobj (calcE : RowEnergy) (params : List ℝ) (it : MpfItem) : List ℝ :=
  it.2.2.map fun t => (it.2.1 : ℝ) * Real.exp (1 / 2 * (calcE params it.1 - calcE params t))

/-- `self.calc_de(s[None,:],j) - self.calc_de(adjacentStates[i],j)`. -/
def mpfDeDiff (de : RowGradient) (j : ℕ) (it : MpfItem) : Py (List ℝ) :=
  match de it.1 j, it.2.2.mapM fun t => de t j with
  | .ok d, .ok ds => .ok (ds.map fun e => d - e)
  | .error e, _ => .error e
  | _, .error e => .error e

/-- solvers.py:533-537 the update of `objGrad` in one round. The sizes compared in line 534 are equal
by construction. -/
noncomputable def mpfGradAdd (calcE : RowEnergy) (de : RowGradient) (params : List ℝ) (it : MpfItem)
    (g : List ℝ) : Py (List ℝ) :=
  (List.range params.length).mapM fun j =>
    match mpfDeDiff de j it with
    | .error e => .error e
    | .ok diff => .ok (rd g j +
        1 / 2 * (List.zipWith (· * ·) (mpfDobj calcE params it) diff).sum)

/-- solvers.py:529-538 the loop of `K`. -/
noncomputable def mpfKLoop (calcE : RowEnergy) (de : Option RowGradient) (params : List ℝ) :
    List MpfItem → ℝ × List ℝ → Py (ℝ × List ℝ)
  | [], st => .ok st
  | it :: its, st =>
    match de with
    | none => mpfKLoop calcE de params its (st.1 + (mpfDobj calcE params it).sum, st.2)
    | some d => match mpfGradAdd calcE d params it st.2 with
      | .error e => .error e
      | .ok g => mpfKLoop calcE de params its (st.1 + (mpfDobj calcE params it).sum, g)

/-- solvers.py:503-555 `K`: the value, and the gradient if `calc_de` is not `None`. Dividing by the
count zero gives `nan` in the code. -/
noncomputable def mpfK (calcE : RowEnergy) (de : Option RowGradient) (Xuniq : Data)
    (Xcount : List ℕ) (adjs : List Data) (params : List ℝ) : Py (ℝ × Option (List ℝ)) :=
  match mpfItems Xuniq Xcount adjs with
  | .error e => .error e
  | .ok its => match mpfKLoop calcE de params its (0, List.replicate params.length 0) with
    | .error e => .error e
    | .ok (obj, g) =>
      if Xcount.sum = 0 then .error .zeroDivision
      else .ok (obj / (Xcount.sum : ℝ), de.map fun _ => g.map (· / (Xcount.sum : ℝ)))

/-- Assignment of a vector to a row of width `m`: NumPy stretches a single entry and raises for any
other width. -/
def assignRow {α : Type*} (m : ℕ) (v : List α) : Py (List α) :=
  if v.length = m then .ok v
  else match v with
    | [x] => .ok (List.replicate m x)
    | _ => .error .valueError

/-- solvers.py:600-603 one row of `power`. -/
noncomputable def mpfPowerRow (calcE : RowEnergy) (params : List ℝ) (m : ℕ) (it : MpfItem) :
    Py (List ℝ) :=
  assignRow m (it.2.2.map fun t => 1 / 2 * (calcE params it.1 - calcE params t))

/-- One row of `gradcoef`, solvers.py:613-614. -/
noncomputable def mpfCoefRow (de : RowGradient) (j m : ℕ) (it : MpfItem) : Py (List ℝ) :=
  match mpfDeDiff de j it with
  | .error e => .error e
  | .ok d => assignRow m (d.map fun x => 1 / 2 * x)

/-- `np.exp`, with `none` for `-inf`. -/
noncomputable def expOpt : Option ℝ → ℝ
  | none => 0
  | some v => Real.exp v

/-- scipy's `logsumexp` (library call): `none` is `-inf`. -/
noncomputable def logsumexp (l : List (Option ℝ)) : Option ℝ :=
  if l.all Option.isNone then none else some (Real.log (l.map expOpt).sum)

/-- `np.log` of a count. -/
noncomputable def logCount (c : ℕ) : Option ℝ := if c = 0 then none else some (Real.log c)

/-- `p + a - b` for a count's logarithm `a` and the total's logarithm `b`. -/
noncomputable def addLogs (p : ℝ) : Option ℝ → Option ℝ → Option ℝ
  | some a, some b => some (p + a - b)
  | _, _ => none

/-- The array handed to `logsumexp` in solvers.py:605, flattened. -/
noncomputable def mpfLogTerms (power : List (List ℝ)) (counts : List ℕ) : List (Option ℝ) :=
  (List.zipWith (fun row c => row.map fun p => addLogs p (logCount c) (logCount counts.sum))
    power counts).flatten

/-- `power.max()` of an array that is not empty. -/
noncomputable def arrayMax (power : List (List ℝ)) : ℝ :=
  power.flatten.foldl max (power.flatten.headD 0)

/-- `power -= power.max()`. -/
noncomputable def shiftMax (power : List (List ℝ)) : List (List ℝ) :=
  power.map fun row => row.map fun p => p - arrayMax power

/-- `(coef*np.exp(power)*Xcount[:,None]).sum()` as in solvers.py:616-617. -/
noncomputable def weightedSum (coef power : List (List ℝ)) (counts : List ℕ) : ℝ :=
  (List.zipWith (fun cp (c : ℕ) => (List.zipWith (fun a p => a * Real.exp p * (c : ℝ)) cp.1 cp.2).sum)
    (coef.zip power) counts).sum

/-- `(np.exp(power)*Xcount[:,None]).sum()`. -/
noncomputable def weightSum (power : List (List ℝ)) (counts : List ℕ) : ℝ :=
  (List.zipWith (fun row (c : ℕ) => (row.map fun p => Real.exp p * (c : ℝ)).sum) power counts).sum

/-- solvers.py:610-617 the loop over the parameters; `power` is shifted again in every round. The
maximum of an empty array raises. -/
noncomputable def mpfLogGradLoop (de : RowGradient) (its : List MpfItem) (m : ℕ) (counts : List ℕ) :
    List ℕ → List (List ℝ) → List ℝ → Py (List ℝ)
  | [], _, g => .ok g
  | j :: js, power, g =>
    match its.mapM (mpfCoefRow de j m) with
    | .error e => .error e
    | .ok coef =>
      if power.flatten = [] then .error .valueError
      else
      let power := shiftMax power
      mpfLogGradLoop de its m counts js power
        (g ++ [weightedSum coef power counts / weightSum power counts])

/-- solvers.py:578-623 `logK`: the value, and the gradient if `calc_de` is not `None`; `none` is
`-inf`. `Xcount` must have one entry per state (otherwise broadcasting raises). -/
noncomputable def mpfLogK (calcE : RowEnergy) (de : Option RowGradient) (Xuniq : Data)
    (Xcount : List ℕ) (adjs : List Data) (params : List ℝ) : Py (Option ℝ × Option (List ℝ)) :=
  match adjs.head? with
  | none => .error .indexError
  | some a0 => match mpfItems Xuniq Xcount adjs with
    | .error e => .error e
    | .ok its => match its.mapM (mpfPowerRow calcE params a0.length) with
      | .error e => .error e
      | .ok power =>
        if Xcount.length ≠ Xuniq.length then .error .valueError
        else
          let obj := logsumexp (mpfLogTerms power Xcount)
          match de with
          | none => .ok (obj, none)
          | some d =>
            match mpfLogGradLoop d its a0.length Xcount (List.range params.length) power [] with
            | .error e => .error e
            | .ok g =>
              if g.length = 1 then .error .exception
              else .ok (obj, some (g.map fun x => x - Real.log (Xcount.sum : ℝ)))

/-- solvers.py:625-651 `list_adjacent_states` with `adj` of utils.py (without random neighbours).
With `all_connected=False` line 646 uses the undefined name `X` in the first round. -/
def listAdjacentStates (Xuniq : Data) (allConnected : Bool) : Py (List Data) :=
  if allConnected then .ok (Xuniq.map fun s => (flipScan (fun x => 1 - x) s).2)
  else if Xuniq = [] then .ok [] else .error .nameError

/-- solvers.py:689 `(self.sample+1)//2`. -/
def toBits (sample : Data) : Data := sample.map fun s => s.map fun x => (x + 1) / 2

/-- solvers.py:701-711 the function handed to `minimize` by `solve`, with the default `calc_de`
(none). `uniq` is `np.unique(X, axis=0)`, whose counts are those of the rows in `X`. -/
noncomputable def mpfF (calcE : RowEnergy) (uniq : Data → Data) (sample : Data)
    (allConnected uselog : Bool) (params : List ℝ) : Py (Option ℝ) :=
  let X := toBits sample
  let Xuniq := uniq X
  let Xcount := Xuniq.map fun s => X.count s
  match listAdjacentStates Xuniq allConnected with
  | .error e => .error e
  | .ok adjs =>
    if uselog then match mpfLogK calcE none Xuniq Xcount adjs params with
      | .error e => .error e
      | .ok r => .ok r.1
    else match mpfK calcE none Xuniq Xcount adjs params with
      | .error e => .error e
      | .ok r => .ok (some r.1)

/-- solvers.py:718, 722 the parameters returned by `solve` for the optimum `x`, and (line 697, basis
`01`) the starting point for a given guess. -/
def MpfConverted (n : ℕ) (tgt : Basis) (x r : List ℝ) : Prop :=
  ∃ P, SplitConcatParams x n P ∧ isingConvertParamsConcat P tgt = .ok r

end Verif.Model
