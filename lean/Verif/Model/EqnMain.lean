/-
`python enumerate.py ...`: the command line of the equation writer (coniii/enumerate.py:581-639), the text of a module in high
precision (the `high_prec` branches of `write_eqns` and `write_py`), and what Python makes of it.
-/
import Verif.Model.EqnModule

namespace Verif.Model
open Verif

/-! ### High precision: writing -/

/-! enumerate.py:172-174, 217 lines that only such a module has. -/

def lnNpObj : List Char := chars! "from numpy import zeros, array, prod"
def lnLseMp : List Char := chars! "from ..enumerate import mp_fast_logsumexp as fast_logsumexp"
def lnMp : List Char := chars! "from mpmath import exp, isnan"
def lnFor : List Char := chars! "    for i in range(Cout.size):"
def lnIf : List Char := chars! "         if isnan(Cout[i]):"
def lnZero : List Char := chars! "             Cout[i] = 0."

/-- enumerate.py:166-174 heading and imports. -/
def hpHeadLines (n : ℕ) (licence : Option (List (List Char))) (date : List Char) : List (List Char) :=
  licenceLines licence ++
  [chars! "# Equations for " ++ natText n ++ chars! "-spin Ising model.", [],
   chars! "# Written on " ++ date ++ ['.'],
   lnNpObj, lnLseMp, lnMp, []]

/-- enumerate.py:182-190 `vardec` of `calc_observables`. -/
def hpObsDecl (e : Eqns) : List (List Char) :=
  (chars! "    Cout = zeros((" ++ natText (e.signs.map List.length).sum ++ chars! "), dtype=object)") :: sliceLines e

/-- enumerate.py:208-220 `calc_observables`. -/
def hpObsFun (brk : ℕ → Bool) (e : Eqns) : List (List Char) :=
  [lnObs, lnQuotes, lnGive, lnAll, lnQuotes] ++
  hpObsDecl e ++ energyLines e ++ obsLines brk e ++ [lnFor, lnIf, lnZero, lnRetC, []]

/-- enumerate.py:221-247 `p`. -/
def hpPFun (e : Eqns) : List (List Char) :=
  [lnP, lnQuotes, lnGive, lnProbs, lnQuotes] ++
  hpObsDecl e ++ sliceLines e ++
  [chars! "    Pout = zeros((" ++ natText (2 ^ e.n) ++ chars! "), dtype=object)"] ++ energyLines e ++ probLines e ++
  (if e.sym then [[], lnRev] else [[]]) ++ [lnRetP]

/-- enumerate.py:124-247 `write_py` with `high_prec`, as `fileText`. -/
def hpFileText (brk : ℕ → Bool) (licence : Option (List (List Char))) (date : List Char) (e : Eqns) : List Char :=
  joinLines (hpHeadLines e.n licence date ++ hpObsFun brk e ++ hpPFun e)

/-! ### High precision: reading -/

/-- The statements that occur: those of an ordinary module, and a few more. -/
inductive HpLine where
  | old (l : EqLine) | importNpObj | importLseMp | importMp | zerosC (k : ℕ) | zerosP (k : ℕ) | forNan | ifNan | setNan
  deriving DecidableEq

/-- Lines without parameters, spelled out once more. -/
def hpFixed : List (List Char × HpLine) :=
  [(chars! "from numpy import zeros, array, prod", .importNpObj),
   (chars! "from ..enumerate import mp_fast_logsumexp as fast_logsumexp", .importLseMp),
   (chars! "from mpmath import exp, isnan", .importMp),
   (chars! "    for i in range(Cout.size):", .forNan),
   (chars! "         if isnan(Cout[i]):", .ifNan),
   (chars! "             Cout[i] = 0.", .setNan)]

/-- `NUMBER), dtype=object)`. -/
def zerosObj (mk : ℕ → HpLine) (s : List Char) : Option HpLine :=
  match readNat none s with
  | none => none
  | some q => if q.2 = chars! "), dtype=object)" then some (mk q.1) else none

/-- Reading one logical line. -/
def parseHp (s : List Char) : Option HpLine :=
  match parseLine s with
  | some l => some (.old l)
  | none => match hpFixed.lookup s with
    | some l => some l
    | none => match dropPre (chars! "    Cout = zeros((") s with
      | some t => zerosObj .zerosC t
      | none => match dropPre (chars! "    Pout = zeros((") s with
        | some t => zerosObj .zerosP t
        | none => none

/-- State while the lines of a module are read: which names are imported (`zeros` and `array`; `exp` and `isnan`;
`fast_logsumexp`), whether `fast_logsumexp` is the high precision one, whether inside a docstring, the function whose body is being
read, how far inside the loop over `Cout`, and the bodies so far. -/
structure HpSt where
  np : Bool
  ex : Bool
  lse : Bool
  mp : Bool
  doc : Bool
  cur : Option Bool
  loop : ℕ
  mod : EqModule
  deriving DecidableEq

/-- One more statement of the function that is being read. -/
def HpSt.push (st : HpSt) (s : EqLine) : Option HpSt :=
  match st.cur with
  | none => none
  | some false => some { st with mod := { st.mod with obs := st.mod.obs ++ [s] } }
  | some true => some { st with mod := { st.mod with p := st.mod.p ++ [s] } }

/-- A statement of an ordinary module. -/
def HpSt.oldLine (st : HpSt) : EqLine → Option HpSt
  | .blank => some st
  | .importNp => some { st with np := true, ex := true }
  | .importLse => some { st with lse := true, mp := false }
  | .defObs => if st.mod.obs = [] then some { st with cur := some false } else none
  | .defP => if st.mod.p = [] then some { st with cur := some true } else none
  | .quotes => some { st with doc := true }
  | s => st.push s

/-- A statement outside the loop. -/
def HpSt.line (st : HpSt) : HpLine → Option HpSt
  | .old l => st.oldLine l
  | .importNpObj => some { st with np := true }
  | .importLseMp => some { st with lse := true, mp := true }
  | .importMp => some { st with ex := true }
  | .zerosC k => st.push (.zerosC k)
  | .zerosP k => st.push (.zerosP k)
  | .forNan => if st.cur = none then none else some { st with loop := 1 }
  | .ifNan => none
  | .setNan => none

/-- A statement inside the loop, which sets the entries of `Cout` that are `nan` to zero. -/
def HpSt.inLoop (st : HpSt) : HpLine → Option HpSt
  | .ifNan => if st.loop = 1 then some { st with loop := 2 } else none
  | .setNan => if st.loop = 2 then HpSt.push { st with loop := 0 } .nanC else none
  | _ => none

/-- One logical line of the module. -/
def readHpLine (st : HpSt) (l : List Char) : Option HpSt :=
  if st.doc then
    some (if l = lnQuotes then { st with doc := false } else st)
  else match parseHp l with
    | none => none
    | some s => if st.loop = 0 then st.line s else st.inLoop s

/-- Nothing read. -/
def HpSt.start : HpSt := ⟨false, false, false, false, false, none, 0, ⟨[], []⟩⟩

/-- Reading a whole module: its functions, and whether it calculates in high precision. -/
def readHpModule (text : List Char) : Option (EqModule × Bool) :=
  match (logical false 0 [] text).foldlM readHpLine HpSt.start with
  | none => none
  | some st => if st.np && st.ex && st.lse && !st.doc && st.loop = 0 then some (st.mod, st.mp) else none

/-! ### High precision: running -/

open scoped Classical in
/-- enumerate.py:551-577 `mp_fast_logsumexp(X, coeffs)`. Numbers of mpmath are real numbers here; `mp.log(0)` is `-inf`. -/
noncomputable def mpFastLogSumExp (X : List ℝ) (coeffs : Option (List ℝ)) : Py (LogVal × ℝ) :=
  match X with
  | [] => .error .valueError
  | x :: xs =>
    let mx := xs.foldl max x
    let y : Py ℝ := match coeffs with
      | none => .ok (((X.map fun v => v - mx).map Real.exp).sum)
      | some c => if c.length = X.length then
          .ok (List.zipWith (· * ·) c ((X.map fun v => v - mx).map Real.exp)).sum
        else .error .valueError
    match y with
    | .error e => .error e
    | .ok y =>
      if y < 0 then .ok (some (Real.log |y| + mx), -1)
      else if y = 0 then .ok (none, 1)
      else .ok (some (Real.log y + mx), 1)

/-- One statement of a high precision module: as `execLine`, but `fast_logsumexp` is `mp_fast_logsumexp`. -/
noncomputable def execHpLine (params : List ℝ) (st : EqSt) : EqLine → Py EqSt
  | .logZ => do
    let E ← boundVar st.energies
    match ← mpFastLogSumExp E none with
    | (some z, _) => .ok { st with logZ := some z }
    | (none, _) => .error .valueError
  | .num t => do
    let E ← boundVar st.energies
    match evalList (fun _ _ => none) t with
    | none => .error .exception
    | some c =>
      let v ← mpFastLogSumExp E (some c)
      .ok { st with num := some v }
  | l => execLine params st l

/-- The body of a function, as `execBody`. -/
noncomputable def execHpBody (params : List ℝ) : List EqLine → EqSt → Py (Option (List ℝ))
  | [], _ => .ok none
  | .retC :: _, st => do
    let a ← boundVar st.cout
    .ok (some a)
  | .retP :: _, st => do
    let a ← boundVar st.pout
    .ok (some a)
  | l :: ls, st => match execHpLine params st l with
    | .error err => .error err
    | .ok st' => execHpBody params ls st'

/-- The body of a function of a module that was read. -/
noncomputable def execAny (mp : Bool) (params : List ℝ) (ls : List EqLine) : Py (Option (List ℝ)) :=
  if mp then execHpBody params ls EqSt.start else execBody params ls EqSt.start

/-- `calc_observables(params)` of the module with this text. -/
noncomputable def runHpObservables (text : List Char) (params : List ℝ) : Py (Option (List ℝ)) :=
  match readHpModule text with
  | none => .error .exception
  | some m => execAny m.2 params m.1.obs

/-- `p(params)` of the module with this text. -/
noncomputable def runHpP (text : List Char) (params : List ℝ) : Py (Option (List ℝ)) :=
  match readHpModule text with
  | none => .error .exception
  | some m => execAny m.2 params m.1.p

/-! ### The command line -/

/-- Digits in groups separated by single underscores, as Python's `int` takes them; the flag tells whether a digit came last. -/
def pyDigits : Bool → ℕ → List Char → Option ℕ
  | last, acc, [] => if last then some acc else none
  | last, acc, c :: cs => if c = '_' then (if last then pyDigits false acc cs else none)
    else match digitVal c with
      | some d => pyDigits true (10 * acc + d) cs
      | none => none

/-- White space (of ASCII). -/
def isBlank (c : Char) : Bool := c = ' ' || c = '\t' || c = '\n' || c = '\r' || c = '\x0b' || c = '\x0c' ||
  c = '\x1c' || c = '\x1d' || c = '\x1e' || c = '\x1f'

/-- Digits after at most one sign. -/
def pySigned : List Char → Option ℤ
  | [] => none
  | c :: cs =>
    if c = '-' then (pyDigits false 0 cs).map fun k : ℕ => -(k : ℤ)
    else if c = '+' then (pyDigits false 0 cs).map fun k : ℕ => (k : ℤ)
    else (pyDigits false 0 (c :: cs)).map fun k : ℕ => (k : ℤ)

/-- Python's `int(text)` for ASCII text: white space around it is dropped, a sign may come first. (Other alphabets' digits and
blanks are not modelled.) -/
def pyInt (s : List Char) : Py ℤ :=
  match pySigned ((s.dropWhile isBlank).reverse.dropWhile isBlank).reverse with
  | some z => .ok z
  | none => .error .valueError

/-- `i[0]` for all words of the command line; an empty word raises. -/
def firstChars (argv : List (List Char)) : Py Unit := if [] ∈ argv then .error .indexError else .ok ()

/-- The file that is written. -/
structure EqnFile where
  name : List Char
  hp : Bool
  eqns : Eqns

/-- enumerate.py:71-72, 153 the name of the file: the suffix of the wrapper, then that of the precision. -/
def eqnFileName (n : ℕ) (suffix : List Char) (hp : Bool) : List Char :=
  chars! "ising_eqn/ising_eqn_" ++ natText n ++ suffix ++ (if hp then chars! "_hp" else []) ++ chars! ".py"

/-- The text of the file. -/
def EqnFile.text (brk : ℕ → Bool) (licence : Option (List (List Char))) (date : List Char) (f : EqnFile) : List Char :=
  if f.hp then hpFileText brk licence date f.eqns else fileText brk licence date f.eqns

/-- enumerate.py:411-438 `pairwise(n, sym, high_prec)`. A negative `n` raises in `np.ones`. -/
def pairwiseFileOf (n sym : ℤ) (hp : Bool) : Py EqnFile :=
  if sym = 0 ∨ sym = 1 then
    if n < 0 then .error .valueError
    else match writeEqns n.toNat (sym = 1) (pairwiseIx n.toNat) with
      | .error e => .error e
      | .ok e => .ok ⟨eqnFileName n.toNat (if sym = 1 then chars! "_sym" else []) hp, hp, e⟩
  else .error .assertion

/-- enumerate.py:440-470 `triplet(n, sym, high_prec)`. For a negative `n`, `range(2**n)` raises. -/
def tripletFileOf (n sym : ℤ) (hp : Bool) : Py EqnFile :=
  if sym = 0 ∨ sym = 1 then
    if n < 0 then .error .typeError
    else match writeEqns n.toNat (sym = 1) (tripletIx n.toNat) with
      | .error e => .error e
      | .ok e => .ok ⟨eqnFileName n.toNat (if sym = 1 then chars! "_sym_triplet" else chars! "_triplet") hp, hp, e⟩
  else .error .assertion

/-- enumerate.py:605-617 size, basis and order. -/
def mainArgs (args : List (List Char)) : Py (ℤ × ℤ × ℤ) :=
  match args with
  | [] => .error .indexError
  | [_] => .error .indexError
  | _ :: a :: rest => do
    let n ← pyInt a
    match rest with
    | [] => .ok (n, 0, 2)
    | [b] => do
      let sym ← pyInt b
      if sym = 0 ∨ sym = 1 then .ok (n, sym, 2) else .error .assertion
    | [b, c] => do
      let sym ← pyInt b
      let order ← pyInt c
      .ok (n, sym, order)
    | _ => .error .exception

/-- enumerate.py:619-632 the precision: only the first option is looked at. -/
def mainHp (kwargs : List (List Char)) : Py Bool :=
  match kwargs with
  | [] => .ok false
  | k :: _ =>
    if k.take 4 = chars! "-hp=" then
      if (k.drop 4).map Char.toLower = chars! "true" then .ok true
      else if (k.drop 4).map Char.toLower = chars! "false" then .ok false
      else .error .exception
    else .ok false

/-- enumerate.py:600-639 the main program, up to what is printed. `argv` is `sys.argv`, with the name of the program first. -/
def eqnMain (argv : List (List Char)) : Py EqnFile := do
  firstChars argv
  let args := argv.filter fun w => w.head? ≠ some '-'
  let kwargs := argv.filter fun w => w.head? = some '-'
  let a ← mainArgs args
  let hp ← mainHp kwargs
  if a.2.2 = 2 then pairwiseFileOf a.1 a.2.1 hp
  else if a.2.2 = 3 then tripletFileOf a.1 a.2.1 hp
  else .error .notImplemented

end Verif.Model
