/-
The complete text of a Potts equation module: what `SpecificFieldGenericCouplings(n, k).write(fname)`
leaves in the file (coniii/enumerate_potts.py:66-226), and what Python makes of such a file when it is
imported and one of its two functions is called.
-/
import Verif.Model.EnumeratePotts
import Verif.Model.EqnModule

namespace Verif.Model
open Verif

/-! ### Writing -/

/-! Lines that are always the same (enumerate_potts.py:122-123, 126, 141, 171, 175, 188, 193); the second
import and the two `def` lines read as in the Ising modules. -/

def ptNp : List Char := chars! "from numpy import zeros, exp"
def ptLogZ : List Char := chars! "\tlogZ = fast_logsumexp(energies)[0]"
def ptRetO : List Char := chars! "\treturn observables"
def ptRetP : List Char := chars! "\treturn p"

/-- Number of parameters, `self.n*self.k+self.n*(self.n-1)//2`. -/
def pottsSize (n k : ℕ) : ℕ := n * k + n * (n - 1) / 2

/-- enumerate_potts.py:98-119 `_write_header` up to the imports. `licence` is what `readlines` gives for
LICENSE.txt (every entry with its own line end, the last one perhaps without), or `none` when there is no
such file. -/
def pottsHead (n k : ℕ) (licence : Option (List (List Char))) (date : List Char) : List Char :=
  joinLines
    [chars! "# This file contains equations for the Potts model with " ++ natText n ++ chars! " spins and " ++
        natText k ++ chars! " states.",
     chars! "# Provided as part of ConIII package.",
     chars! "# Written on " ++ date ++ ['.'], ['#'], ['#']] ++
  (match licence with
   | none => []
   | some ls => ls.flatMap fun l => chars! "# " ++ l) ++ ['#', '\n']

/-- enumerate_potts.py:127-129 and 176-178 the declarations of a function. -/
def pottsDecl (n k : ℕ) : List (List Char) :=
  [chars! "\tassert params.size==" ++ natText (pottsSize n k),
   chars! "\th = params[:" ++ natText (n * k) ++ [']'],
   chars! "\tJ = params[" ++ natText (n * k) ++ chars! ":]"]

/-- enumerate_potts.py:121-130 everything written before the first energy, without the heading. -/
def pottsObsStart (n k : ℕ) : List (List Char) :=
  [ptNp, lnLse, [], lnObs] ++ pottsDecl n k ++
  [chars! "\tobservables = zeros(" ++ natText (pottsSize n k) ++ [')']]

/-- enumerate_potts.py:132-141, 181-188 the energies and `logZ`. -/
def pottsEnergy (e : PottsEqns) : List (List Char) :=
  [chars! "\tenergies = [" ++ e.energies ++ [']'], ptLogZ]

/-- enumerate_potts.py:143-170 one statement for each observable. -/
def pottsObsLines (e : PottsEqns) : List (List Char) :=
  e.coeffs.zipIdx.map fun q =>
    chars! "\tobservables[" ++ natText q.2 ++ chars! "] = exp(fast_logsumexp(energies, [" ++ q.1 ++
      chars! "])[0] - logZ)"

/-- enumerate_potts.py:190-192 one statement for each state, of which there are `m`. -/
def pottsPLines (m : ℕ) : List (List Char) :=
  (List.range m).map fun i =>
    chars! "\tp[" ++ natText i ++ chars! "] = exp(energies[" ++ natText i ++ chars! "] - logZ)"

/-- enumerate_potts.py:89-193 `write` when nothing fails: the lines after the heading, where a
statement that goes on over several lines is one entry. The last loop runs over the states once more;
`xpotts_states(n, k)` has `k**n` of them. -/
def pottsLines (e : PottsEqns) : List (List Char) :=
  pottsObsStart e.n e.k ++ pottsEnergy e ++ pottsObsLines e ++ [ptRetO, [], lnP] ++ pottsDecl e.n e.k ++
    [chars! "\tp = zeros(" ++ natText (e.k ^ e.n) ++ [')']] ++ pottsEnergy e ++ pottsPLines (e.k ^ e.n) ++ [ptRetP]

/-- enumerate_potts.py:135-137 the loop over the states: what it writes, and whether it ends regularly.
State number `i` is that of `xpotts_states` (utils.py:301-303). -/
def pottsWriteTerms (est : ℕ → ℕ → ℕ) (n k : ℕ) : List ℕ → List Char × Py Unit
  | [] => ([], .ok ())
  | i :: is => match baseRepr est i k with
    | .error e => ([], .error e)
    | .ok state => match pottsTerm n (List.replicate (n - state.length) '0' ++ state) with
      | .error e => ([], .error e)
      | .ok t =>
        let r := pottsWriteTerms est n k is
        (['\t', '\t'] ++ t ++ [',', '\n'] ++ r.1, r.2)

/-- enumerate_potts.py:67-81, 89-96 constructor and `write(fname)`: the content of the file when the call
is over (`none`: not opened), and its outcome. The file is closed by `with`, so that what was written
before an exception stays in it. -/
def pottsWrite (est : ℕ → ℕ → ℕ) (n k : ℕ) (licence : Option (List (List Char))) (date : List Char) :
    Option (List Char) × Py Unit :=
  if ¬ (n > 2) then (none, .error .assertion)
  else if ¬ (k ≥ 2) then (none, .error .assertion)
  else match pottsWriteTerms est n k (List.range (k ^ n)) with
    | (t, .error e) =>
      (some (pottsHead n k licence date ++ (joinLines (pottsObsStart n k) ++ (chars! "\tenergies = [" ++ t))), .error e)
    | (_, .ok _) => match writePotts est n k with
      | .error e => (some [], .error e)
      | .ok e => (some (pottsHead n k licence date ++ joinLines (pottsLines e)), .ok ())

/-! ### Reading -/

/-- The statements that occur. -/
inductive PtLine where
  | blank | importNp | importLse | defObs | defP
  | size (m : ℕ) | takeH (a : ℕ) | dropJ (a : ℕ) | zerosO (m : ℕ) | zerosP (m : ℕ)
  | energy (t : List Char) | logZ | setO (i : ℕ) (t : List Char) | retO
  | setP (i j : ℕ) | retP
  deriving DecidableEq

/-- Lines without parameters, spelled out once more: reading does not depend on what is written. -/
def ptFixed : List (List Char × PtLine) :=
  [([], .blank),
   (chars! "from numpy import zeros, exp", .importNp),
   (chars! "from ..enumerate import fast_logsumexp", .importLse),
   (chars! "def calc_observables(params):", .defObs),
   (chars! "def p(params):", .defP),
   (chars! "\tlogZ = fast_logsumexp(energies)[0]", .logZ),
   (chars! "\treturn observables", .retO),
   (chars! "\treturn p", .retP)]

/-- Lines with parameters: the beginning, and how the rest is read. -/
def ptRules : List (List Char × (List Char → Option PtLine)) :=
  [(chars! "\tassert params.size==", fun s => do
      let q ← readNat none s
      if q.2 = [] then some (.size q.1) else none),
   (chars! "\th = params[:", fun s => do
      let q ← readNat none s
      if q.2 = [']'] then some (.takeH q.1) else none),
   (chars! "\tJ = params[", fun s => do
      let q ← readNat none s
      if q.2 = chars! ":]" then some (.dropJ q.1) else none),
   (chars! "\tobservables = zeros(", fun s => do
      let q ← readNat none s
      if q.2 = [')'] then some (.zerosO q.1) else none),
   (chars! "\tp = zeros(", fun s => do
      let q ← readNat none s
      if q.2 = [')'] then some (.zerosP q.1) else none),
   (chars! "\tenergies = [", fun s => (dropEnd [']'] s).map .energy),
   (chars! "\tobservables[", fun s => do
      let q ← readNat none s
      let r ← dropPre (chars! "] = exp(fast_logsumexp(energies, [") q.2
      let t ← dropEnd (chars! "])[0] - logZ)") r
      some (.setO q.1 t)),
   (chars! "\tp[", fun s => do
      let q ← readNat none s
      let r ← dropPre (chars! "] = exp(energies[") q.2
      let q' ← readNat none r
      if q'.2 = chars! "] - logZ)" then some (.setP q.1 q'.1) else none)]

/-- The first rule whose beginning fits. -/
def ptTry : List (List Char × (List Char → Option PtLine)) → List Char → Option PtLine
  | [], _ => none
  | r :: rs, s => match dropPre r.1 s with
    | some t => r.2 t
    | none => ptTry rs s

/-- Reading one logical line; `none` when it is none of the statements above. -/
def ptParse (s : List Char) : Option PtLine :=
  match ptFixed.lookup s with
  | some l => some l
  | none => ptTry ptRules s

/-- State while the lines of a module are read: whether the imports were seen, the function whose body is
being read (`some true` is `p`), and the bodies so far. -/
structure PtRead where
  np : Bool
  lse : Bool
  cur : Option Bool
  obs : List PtLine
  p : List PtLine
  deriving DecidableEq

/-- One logical line of the module. -/
def ptReadLine (st : PtRead) (l : List Char) : Option PtRead :=
  match ptParse l with
  | none => none
  | some .blank => some st
  | some .importNp => some { st with np := true }
  | some .importLse => some { st with lse := true }
  | some .defObs => if st.obs = [] then some { st with cur := some false } else none
  | some .defP => if st.p = [] then some { st with cur := some true } else none
  | some s => match st.cur with
    | none => none
    | some false => some { st with obs := st.obs ++ [s] }
    | some true => some { st with p := st.p ++ [s] }

/-- Reading a whole module: the bodies of its two functions; `none` when Python would not import it (or
when it uses anything outside this fragment). -/
def ptReadModule (text : List Char) : Option (List PtLine × List PtLine) :=
  match (logical false 0 [] text).foldlM ptReadLine ⟨false, false, none, [], []⟩ with
  | none => none
  | some st => if st.np && st.lse then some (st.obs, st.p) else none

/-! ### Running -/

/-- Local variables of a function of the module. -/
structure PtSt where
  h : Option (List ℝ)
  J : Option (List ℝ)
  out : Option (List ℝ)
  p : Option (List ℝ)
  energies : Option (List ℝ)
  logZ : Option ℝ

/-- Value of `c[j]`. -/
def PtSt.env (st : PtSt) (c : Char) (j : ℕ) : Option ℝ :=
  if c = 'h' then st.h.bind fun l => l[j]?
  else if c = 'J' then st.J.bind fun l => l[j]?
  else none

/-- One statement. (`logZ` would be `-inf` only for a sum of exponentials that is zero.) -/
noncomputable def ptExec (params : List ℝ) (st : PtSt) : PtLine → Py PtSt
  | .size m => if params.length = m then .ok st else .error .assertion
  | .takeH a => .ok { st with h := some (params.take a) }
  | .dropJ a => .ok { st with J := some (params.drop a) }
  | .zerosO m => .ok { st with out := some (List.replicate m 0) }
  | .zerosP m => .ok { st with p := some (List.replicate m 0) }
  | .energy t => match evalList st.env t with
    | none => .error .indexError
    | some E => .ok { st with energies := some E }
  | .logZ => do
    let E ← boundVar st.energies
    match ← fastLogSumExp E none with
    | (some z, _) => .ok { st with logZ := some z }
    | (none, _) => .error .valueError
  | .setO i t => do
    let E ← boundVar st.energies
    match evalList (fun _ _ => none) t with
    | none => .error .exception
    | some c =>
      let v ← fastLogSumExp E (some c)
      let z ← boundVar st.logZ
      let a ← boundVar st.out
      let a ← assignAt a i (expLog (subLog v.1 z))
      .ok { st with out := some a }
  | .setP i j => do
    let E ← boundVar st.energies
    match E[j]? with
    | none => .error .indexError
    | some x =>
      let z ← boundVar st.logZ
      let a ← boundVar st.p
      let a ← assignAt a i (Real.exp (x - z))
      .ok { st with p := some a }
  | _ => .ok st

/-- The body of a function; `none` is the Python `None` of a function that does not return. -/
noncomputable def ptBody (params : List ℝ) : List PtLine → PtSt → Py (Option (List ℝ))
  | [], _ => .ok none
  | .retO :: _, st => do
    let a ← boundVar st.out
    .ok (some a)
  | .retP :: _, st => do
    let a ← boundVar st.p
    .ok (some a)
  | l :: ls, st => match ptExec params st l with
    | .error err => .error err
    | .ok st' => ptBody params ls st'

/-- No local variable assigned. -/
def PtSt.start : PtSt := ⟨none, none, none, none, none, none⟩

/-- `calc_observables(params)` of the module with this text. -/
noncomputable def runPottsObs (text : List Char) (params : List ℝ) : Py (Option (List ℝ)) :=
  match ptReadModule text with
  | none => .error .exception
  | some m => ptBody params m.1 PtSt.start

/-- `p(params)` of the module with this text. -/
noncomputable def runPottsP (text : List Char) (params : List ℝ) : Py (Option (List ℝ)) :=
  match ptReadModule text with
  | none => .error .exception
  | some m => ptBody params m.2 PtSt.start

end Verif.Model
