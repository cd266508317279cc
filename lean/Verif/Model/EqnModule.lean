/-
The complete text of an equation module: what `write_py` writes (coniii/enumerate.py:124-247), and
what Python makes of such a file when it is imported and one of its two functions is called. Text is
a list of characters, so that the same reading applies to the files shipped in coniii/ising_eqn.
-/
import Verif.Model.Enumerate
import Verif.Model.Chars

namespace Verif.Model
open Verif

/-! ### Writing -/

/-! Lines that are always the same (enumerate.py:173-174, 178, 208-209, 217-218, 222-224, 269, 115, 246). -/

def lnNp : List Char := chars! "from numpy import zeros, exp, array, prod, isnan"
def lnLse : List Char := chars! "from ..enumerate import fast_logsumexp"
def lnObs : List Char := chars! "def calc_observables(params):"
def lnP : List Char := chars! "def p(params):"
def lnQuotes : List Char := chars! "    \"\"\""
def lnGive : List Char := chars! "    Give all parameters concatenated into one array from lowest to highest order."
def lnAll : List Char := chars! "    Returns all correlations."
def lnProbs : List Char := chars! "    Returns probabilities of all configurations."
def lnLogZ : List Char := chars! "    logZ = fast_logsumexp(energyTerms)[0]"
def lnNan : List Char := chars! "    Cout[isnan(Cout)] = 0."
def lnRetC : List Char := chars! "    return(Cout)"
def lnRev : List Char := chars! "    Pout = Pout[::-1]"
def lnRetP : List Char := chars! "    return(Pout)"

/-- enumerate.py:183-187 the declarations `H = params[a:b]`, one for each group of constraints. -/
def sliceLines (e : Eqns) : List (List Char) :=
  let sizes := e.signs.map List.length
  (List.range e.signs.length).map fun i =>
    chars! "    " ++ [abc.getD i ' '] ++ chars! " = params[" ++ natText (sizes.take i).sum ++ [':'] ++
      natText (sizes.take (i + 1)).sum ++ [']']

/-- enumerate.py:179, 183-187 `vardec` of `calc_observables`. -/
def obsDecl (e : Eqns) : List (List Char) :=
  (chars! "    Cout = zeros((" ++ natText (e.signs.map List.length).sum ++ chars! "))") :: sliceLines e

/-- enumerate.py:249-272 `_write_energy_terms`, two statements. (For no states at all nothing would be
closed; there is always at least one state.) -/
def energyLines (e : Eqns) : List (List Char) :=
  let Z := e.expterms.flatten
  [chars! "    energyTerms = array([" ++ energyText Z.length Z ++ chars! "])",
   lnLogZ]

/-- enumerate.py:189-204 the two statements of one constraint. -/
def obsLines (brk : ℕ → Bool) (e : Eqns) : List (List Char) :=
  e.signs.flatten.zipIdx.flatMap fun q =>
    [chars! "    num = fast_logsumexp(energyTerms, [" ++ signText brk e.sym q.1 ++ chars! "])",
     chars! "    Cout[" ++ natText q.2 ++ chars! "] = exp( num[0] - logZ ) * num[1]"]

/-- enumerate.py:241-242 one statement for each state. -/
def probLines (e : Eqns) : List (List Char) :=
  e.expterms.zipIdx.map fun q =>
    chars! "    Pout[" ++ natText q.2 ++ chars! "] = exp( " ++ q.1.take (q.1.length - 2) ++ chars! " - logZ )"

/-- enumerate.py:155-164 the licence, when LICENSE.txt is found, and a blank line. The lines of the
file are given without their line ends. -/
def licenceLines (licence : Option (List (List Char))) : List (List Char) :=
  match licence with
  | none => []
  | some ls => ls.map (fun l => chars! "# " ++ l) ++ [[]]

/-- enumerate.py:166-175 (ordinary precision) heading and imports. -/
def headLines (n : ℕ) (licence : Option (List (List Char))) (date : List Char) : List (List Char) :=
  licenceLines licence ++
  [chars! "# Equations for " ++ natText n ++ chars! "-spin Ising model.", [],
   chars! "# Written on " ++ date ++ ['.'],
   lnNp,
   lnLse, []]

/-- enumerate.py:206-217 `calc_observables`. -/
def obsFun (brk : ℕ → Bool) (e : Eqns) : List (List Char) :=
  [lnObs, lnQuotes,
   lnGive,
   lnAll, lnQuotes] ++
  obsDecl e ++ energyLines e ++ obsLines brk e ++
  [lnNan, lnRetC, []]

/-- enumerate.py:219-247 `p`; the extra line of the {-1,1} module comes from write_eqns, 112-116. -/
def pFun (e : Eqns) : List (List Char) :=
  [lnP, lnQuotes,
   lnGive,
   lnProbs, lnQuotes] ++
  obsDecl e ++ sliceLines e ++
  [chars! "    Pout = zeros((" ++ natText (2 ^ e.n) ++ chars! "))"] ++ energyLines e ++ probLines e ++
  (if e.sym then [[], lnRev] else [[]]) ++ [lnRetP]

/-- enumerate.py:124-247 `write_py` without `high_prec`: the lines of the file, where a statement that
goes on over several lines is one entry. `brk` tells where numpy breaks the lines of an array, `date`
is the date of writing. -/
def fileLines (brk : ℕ → Bool) (licence : Option (List (List Char))) (date : List Char) (e : Eqns) :
    List (List Char) :=
  headLines e.n licence date ++ obsFun brk e ++ pFun e

/-- Lines, each with its line end. -/
def joinLines (ls : List (List Char)) : List Char := ls.flatMap fun l => l ++ ['\n']

/-- The text of the file. -/
def fileText (brk : ℕ → Bool) (licence : Option (List (List Char))) (date : List Char) (e : Eqns) :
    List Char := joinLines (fileLines brk licence date e)

/-! ### Reading -/

/-- Depth of brackets after one more character. -/
def depthStep (d : ℕ) (c : Char) : ℕ :=
  if c = '(' ∨ c = '[' then d + 1 else if c = ')' ∨ c = ']' then d - 1 else d

/-- Python's logical lines: a line end inside brackets does not end the statement; a line that starts
with `#` is left out. (`#` elsewhere and string literals with brackets do not occur.) The arguments:
inside a comment, depth of brackets, characters of the line so far in reverse. -/
def logical : Bool → ℕ → List Char → List Char → List (List Char)
  | _, _, cur, [] => if cur = [] then [] else [cur.reverse]
  | true, d, cur, c :: cs => if c = '\n' then logical false d cur cs else logical true d cur cs
  | false, d, cur, c :: cs =>
    if c = '\n' ∧ d = 0 then cur.reverse :: logical false 0 [] cs
    else if c = '#' ∧ d = 0 ∧ cur = [] then logical true 0 [] cs
    else logical false (depthStep d c) (c :: cur) cs

/-- The statements that occur. -/
inductive EqLine where
  | blank | importNp | importLse | defObs | defP | quotes
  | zerosC (k : ℕ) | zerosP (k : ℕ) | slice (c : Char) (a b : ℕ)
  | energy (t : List Char) | logZ | num (t : List Char) | setC (k : ℕ) | nanC | retC
  | setP (k : ℕ) (t : List Char) | revP | retP
  deriving DecidableEq

/-- What follows a given beginning. -/
def dropPre : List Char → List Char → Option (List Char)
  | [], s => some s
  | _ :: _, [] => none
  | p :: ps, c :: cs => if p = c then dropPre ps cs else none

/-- What comes before a given end. -/
def dropEnd (suf s : List Char) : Option (List Char) := (dropPre suf.reverse s.reverse).map List.reverse

/-- A decimal number at the beginning of the text, and the rest. -/
def readNat : Option ℕ → List Char → Option (ℕ × List Char)
  | acc, [] => acc.map fun n => (n, [])
  | acc, c :: cs => match digitVal c with
    | some d => readNat (some (10 * acc.getD 0 + d)) cs
    | none => acc.map fun n => (n, c :: cs)

/-- Lines without parameters, spelled out once more: reading does not depend on what is written. -/
def fixedLines : List (List Char × EqLine) :=
  [([], .blank),
   (chars! "from numpy import zeros, exp, array, prod, isnan", .importNp),
   (chars! "from ..enumerate import fast_logsumexp", .importLse),
   (chars! "def calc_observables(params):", .defObs),
   (chars! "def p(params):", .defP),
   (chars! "    \"\"\"", .quotes),
   (chars! "    logZ = fast_logsumexp(energyTerms)[0]", .logZ),
   (chars! "    Cout[isnan(Cout)] = 0.", .nanC),
   (chars! "    return(Cout)", .retC),
   (chars! "    Pout = Pout[::-1]", .revP),
   (chars! "    return(Pout)", .retP)]

/-- `NUMBER` followed by a given end. -/
def numThen (suf : List Char) (mk : ℕ → EqLine) (s : List Char) : Option EqLine := do
  let q ← readNat none s
  if q.2 = suf then some (mk q.1) else none

/-- Text followed by a given end. -/
def textThen (suf : List Char) (mk : List Char → EqLine) (s : List Char) : Option EqLine :=
  (dropEnd suf s).map mk

/-- Lines with parameters: the beginning, and how the rest is read. -/
def lineRules : List (List Char × (List Char → Option EqLine)) :=
  [(chars! "    Cout = zeros((", numThen (chars! "))") .zerosC),
   (chars! "    Pout = zeros((", numThen (chars! "))") .zerosP),
   (chars! "    energyTerms = array([", textThen (chars! "])") .energy),
   (chars! "    num = fast_logsumexp(energyTerms, [", textThen (chars! "])") .num),
   (chars! "    Cout[", numThen (chars! "] = exp( num[0] - logZ ) * num[1]") .setC),
   (chars! "    Pout[", fun s => do
      let q ← readNat none s
      let r ← dropPre (chars! "] = exp( ") q.2
      textThen (chars! " - logZ )") (.setP q.1) r),
   (chars! "    ", fun s => match s with
      | [] => none
      | c :: s => do
        let r ← dropPre (chars! " = params[") s
        let q ← readNat none r
        let r ← dropPre [':'] q.2
        numThen [']'] (.slice c q.1) r)]

/-- The first rule whose beginning fits. -/
def tryRules : List (List Char × (List Char → Option EqLine)) → List Char → Option EqLine
  | [], _ => none
  | r :: rs, s => match dropPre r.1 s with
    | some t => r.2 t
    | none => tryRules rs s

/-- Reading one logical line; `none` when it is none of the statements above. -/
def parseLine (s : List Char) : Option EqLine :=
  match fixedLines.lookup s with
  | some l => some l
  | none => tryRules lineRules s

/-- A module: the bodies of its two functions. -/
structure EqModule where
  obs : List EqLine
  p : List EqLine
  deriving DecidableEq

/-- State while the lines of a module are read: whether the imports were seen, whether inside a
docstring, and the function whose body is being read (`some true` is `p`). -/
structure ReadSt where
  np : Bool
  lse : Bool
  doc : Bool
  cur : Option Bool
  mod : EqModule
  deriving DecidableEq

/-- One logical line of the module. -/
def readLine (st : ReadSt) (l : List Char) : Option ReadSt :=
  if st.doc then
    some (if l = lnQuotes then { st with doc := false } else st)
  else match parseLine l with
    | none => none
    | some .blank => some st
    | some .importNp => some { st with np := true }
    | some .importLse => some { st with lse := true }
    | some .defObs => if st.mod.obs = [] then some { st with cur := some false } else none
    | some .defP => if st.mod.p = [] then some { st with cur := some true } else none
    | some .quotes => some { st with doc := true }
    | some s => match st.cur with
      | none => none
      | some false => some { st with mod := { st.mod with obs := st.mod.obs ++ [s] } }
      | some true => some { st with mod := { st.mod with p := st.mod.p ++ [s] } }

/-- Reading a whole module; `none` when Python would not import it (or when it uses anything outside
this fragment). -/
def readModule (text : List Char) : Option EqModule :=
  match (logical false 0 [] text).foldlM readLine ⟨false, false, false, none, ⟨[], []⟩⟩ with
  | none => none
  | some st => if st.np && st.lse && !st.doc then some st.mod else none

/-! ### Running -/

/-- Local variables of a function of the module. -/
structure EqSt where
  arr : Char → Option (List ℝ)
  cout : Option (List ℝ)
  pout : Option (List ℝ)
  energies : Option (List ℝ)
  logZ : Option ℝ
  num : Option (LogVal × ℝ)

/-- Value of `c[j]`. -/
def EqSt.env (st : EqSt) (c : Char) (j : ℕ) : Option ℝ := (st.arr c).bind fun l => l[j]?

/-- A local variable that has not been assigned. -/
def boundVar {α : Type} : Option α → Py α
  | some x => .ok x
  | none => .error .unboundLocal

/-- `a[k] = x`. -/
def assignAt (a : List ℝ) (k : ℕ) (x : ℝ) : Py (List ℝ) :=
  if k < a.length then .ok (a.set k x) else .error .indexError

/-- One statement. (`Cout[isnan(Cout)] = 0.` has nothing to do in exact arithmetic; `logZ` would be
`-inf` only for a sum of exponentials that is zero. Lines that are no statements do nothing.) -/
noncomputable def execLine (params : List ℝ) (st : EqSt) : EqLine → Py EqSt
  | .zerosC k => .ok { st with cout := some (List.replicate k 0) }
  | .zerosP k => .ok { st with pout := some (List.replicate k 0) }
  | .slice c a b => .ok { st with arr := fun x => if x = c then some ((params.drop a).take (b - a)) else st.arr x }
  | .energy t => match evalList st.env t with
    | none => .error .indexError
    | some E => .ok { st with energies := some E }
  | .logZ => do
    let E ← boundVar st.energies
    match ← fastLogSumExp E none with
    | (some z, _) => .ok { st with logZ := some z }
    | (none, _) => .error .valueError
  | .num t => do
    let E ← boundVar st.energies
    match evalList (fun _ _ => none) t with
    | none => .error .exception
    | some c =>
      let v ← fastLogSumExp E (some c)
      .ok { st with num := some v }
  | .setC k => do
    let v ← boundVar st.num
    let z ← boundVar st.logZ
    let a ← boundVar st.cout
    let a ← assignAt a k (expLog (subLog v.1 z) * v.2)
    .ok { st with cout := some a }
  | .setP k t => match evalExpr st.env t with
    | none => .error .indexError
    | some x => do
      let z ← boundVar st.logZ
      let a ← boundVar st.pout
      let a ← assignAt a k (Real.exp (x - z))
      .ok { st with pout := some a }
  | .revP => do
    let a ← boundVar st.pout
    .ok { st with pout := some a.reverse }
  | _ => .ok st

/-- The body of a function; `none` is the Python `None` of a function that does not return. -/
noncomputable def execBody (params : List ℝ) : List EqLine → EqSt → Py (Option (List ℝ))
  | [], _ => .ok none
  | .retC :: _, st => do
    let a ← boundVar st.cout
    .ok (some a)
  | .retP :: _, st => do
    let a ← boundVar st.pout
    .ok (some a)
  | l :: ls, st => match execLine params st l with
    | .error err => .error err
    | .ok st' => execBody params ls st'

/-- No local variable assigned. -/
def EqSt.start : EqSt := ⟨fun _ => none, none, none, none, none, none⟩

/-- `calc_observables(params)` of the module with this text. -/
noncomputable def runObservables (text : List Char) (params : List ℝ) : Py (Option (List ℝ)) :=
  match readModule text with
  | none => .error .exception
  | some m => execBody params m.obs EqSt.start

/-- `p(params)` of the module with this text. -/
noncomputable def runP (text : List Char) (params : List ℝ) : Py (Option (List ℝ)) :=
  match readModule text with
  | none => .error .exception
  | some m => execBody params m.p EqSt.start

end Verif.Model
