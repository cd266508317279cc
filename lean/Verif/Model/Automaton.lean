/-
Model of coniii/ising/automaton.py: the class `Ising2D` and the function `coarse_grain`.
-/
import Verif.Model.Rand
import Verif.Spec.Matrix
import Mathlib.Analysis.SpecialFunctions.Exp
import Mathlib.Data.List.Permutation
import Mathlib.Data.Nat.Factorial.Basic

namespace Verif.Model
open Verif

/-! ### Ising2D -/

/-- The argument `h` of the constructor. -/
inductive LatArg where
  | float (x : ℝ)
  | int (z : ℤ)
  | array (M : Mat ℝ)

/-- The attribute `self.h`. -/
inductive LatField where
  | grid (M : Mat ℝ)
  | number (z : ℤ)

/-- automaton.py:31-34: `type(h) is type(int)` compares with the type of the class `int`, so integers go to
the second branch, `h or np.zeros(dim)`. The truth value of an array with more than one entry raises
`ValueError`; that of an empty array is False. -/
noncomputable def latFieldInit (d0 d1 : ℕ) : LatArg → Py LatField
  | .float x => .ok (.grid (Mat.build d0 d1 fun _ _ => 0 + x))
  | .int z => if z ≠ 0 then .ok (.number z) else .ok (.grid (Mat.build d0 d1 fun _ _ => 0))
  | .array M =>
    if M.length * M.ncols = 0 then .ok (.grid (Mat.build d0 d1 fun _ _ => 0))
    else if M.length * M.ncols = 1 then
      open Classical in
      if M.at' 0 0 ≠ 0 then .ok (.grid M) else .ok (.grid (Mat.build d0 d1 fun _ _ => 0))
    else .error .valueError

/-- automaton.py:29 `((np.random.rand(*dim)<.5)*2.-1).astype(np.int8)`. -/
noncomputable def latInit (d0 d1 : ℕ) : Prog (Mat ℤ) :=
  Prog.mapEach (fun _ => Prog.mapEach (fun _ => .rand fun u => .ret (if u < 1 / 2 then 1 else -1))
    (List.range d1)) (List.range d0)

/-- `lattice[i,j]*=-1`. -/
def latNeg (L : Mat ℤ) (i j : ℕ) : Mat ℤ := L.set i ((L.getD i []).set j (L.at' i j * -1))

/-- The index `(i+d)%n` in Python. -/
def wrapIx (i : ℕ) (d : ℤ) (n : ℕ) : ℕ := (((i : ℤ) + d) % (n : ℤ)).toNat

/-- automaton.py:87-102 one of the four `if` statements: the energy change `dE` after it. -/
noncomputable def latBond (L : Mat ℤ) (i j k l : ℕ) (J dE : ℝ) : ℝ :=
  if L.at' k l = L.at' i j then dE + 2 * J else dE - 2 * J

/-- automaton.py:82-105 `dE`. -/
noncomputable def latDE (i j : ℕ) (h J : ℝ) (L : Mat ℤ) : ℝ :=
  let d0 := L.length
  let d1 := L.ncols
  let dE := latBond L i j (wrapIx i (-1) d0) j J 0
  let dE := latBond L i j (wrapIx i 1 d0) j J dE
  let dE := latBond L i j i (wrapIx j 1 d1) J dE
  let dE := latBond L i j i (wrapIx j (-1) d1) J dE
  dE - 2 * ((L.at' i j : ℤ) : ℝ) * h

/-- automaton.py:71-111 `flip_metropolis(i, j, h, J, lattice)` (the lattice after the call). Only called with
`i` and `j` in range. -/
noncomputable def flipMetropolis (i j : ℕ) (h J : ℝ) (L : Mat ℤ) : Prog (Mat ℤ) :=
  if latDE i j h J L ≤ 0 then .ret (latNeg L i j)
  else .rand fun u => if u < Real.exp (-latDE i j h J L) then .ret (latNeg L i j) else .ret L

/-- `np.random.permutation(np.arange(N))` (library call): one of all orders of `0, ..., N-1`, all equally
likely. -/
def randPerm (N : ℕ) : Prog (List ℕ) :=
  .unif (N.factorial - 1) fun k => .ret ((List.range N).permutations.getD k [])

/-- The flip at the site with number `ix` (row by row). -/
noncomputable def flipSite (d1 : ℕ) (h : Mat ℝ) (J : ℝ) (ix : ℕ) (L : Mat ℤ) : Prog (Mat ℤ) :=
  flipMetropolis (ix / d1) (ix % d1) (h.at' (ix / d1) (ix % d1)) J L

/-- automaton.py:56-62 `single_iteration` if `systematic`. -/
noncomputable def iterSystematic (d0 d1 : ℕ) (h : Mat ℝ) (J : ℝ) (L : Mat ℤ) : Prog (Mat ℤ) :=
  (randPerm (d0 * d1)).bind fun ix => Prog.forEach (flipSite d1 h J) (ix.take (d0 * d1)) L

/-- automaton.py:48-53 `single_iteration` if not `systematic`: `n_iters` flips. -/
noncomputable def iterRandom (d0 d1 nIters : ℕ) (h : Mat ℝ) (J : ℝ) (L : Mat ℤ) : Prog (Mat ℤ) :=
  Prog.forEach (fun _ L => (Prog.randint d0).bind fun i => (Prog.randint d1).bind fun j =>
    flipMetropolis i j (h.at' i j) J L) (List.range nIters) L

/-- automaton.py:64-69 the while loop, at most `fuel` rounds (`diverge` if they are used up). -/
def iterLoop (single : Mat ℤ → Prog (Mat ℤ)) (size nIters : ℕ) : ℕ → ℕ → Mat ℤ → Prog (Mat ℤ)
  | 0, counter, L => if counter < nIters then .fail .diverge else .ret L
  | fuel + 1, counter, L =>
    if counter < nIters then (single L).bind (iterLoop single size nIters fuel (counter + size)) else .ret L

/-- automaton.py:37-69 `iterate(n_iters, systematic)`: the lattice after it. If `self.h` is a number, indexing
it does not compile (numba's `TypingError`, here `TypeError`) and the error shows when the compiled function is
first called. -/
noncomputable def latIterate (d0 d1 : ℕ) (h : LatField) (J : ℝ) (nIters : ℕ) (systematic : Bool) (L : Mat ℤ) :
    Prog (Mat ℤ) :=
  match h with
  | .number _ => if 0 < nIters then .fail .typeError else .ret L
  | .grid h => iterLoop (if systematic then iterSystematic d0 d1 h J else iterRandom d0 d1 nIters h J)
      (d0 * d1) nIters nIters 0 L

/-! ### coarse_grain -/

/-- Overflow of 16-bit integers. -/
def wrap16 (x : ℤ) : ℤ := (x + 2 ^ 15) % 2 ^ 16 - 2 ^ 15

/-- automaton.py:132 number of rows (columns) of `lattice[i::factor,j::factor][:reL,:reL]`, for the offset `i`
and `d` rows (columns) of the lattice: `d[i::factor]` has `ceil((d-i)/factor)` entries. -/
def latSliceLen (d i f reL : ℕ) : ℕ := min reL ((d - i + (f - 1)) / f)

/-- automaton.py:132 `lattice[i::factor,j::factor][:reL,:reL]`. -/
def latSlice (d0 d1 : ℕ) (L : Mat ℤ) (i j f reL : ℕ) : Mat ℤ :=
  Mat.build (latSliceLen d0 i f reL) (latSliceLen d1 j f reL) fun a b => L.at' (i + f * a) (j + f * b)

/-- `acc += B` for a 16-bit array `acc` of shape `(r, c)` and an array `B` of shape `(rb, cb)`: a dimension of
length one is repeated, other differences raise `ValueError`. -/
def addInto16 (r c rb cb : ℕ) (acc B : Mat ℤ) : Py (Mat ℤ) :=
  if (rb = r ∨ rb = 1) ∧ (cb = c ∨ cb = 1) then
    .ok (Mat.build r c fun a b => wrap16 (acc.at' a b + B.at' (if rb = 1 then 0 else a) (if cb = 1 then 0 else b)))
  else .error .valueError

/-- automaton.py:127-132 the block sums. -/
def latBlockSums (d0 d1 : ℕ) (L : Mat ℤ) (f : ℕ) : Py (Mat ℤ) :=
  ((List.range f).flatMap fun i => (List.range f).map fun j => (i, j)).foldlM (fun acc p =>
    addInto16 (d0 / f) (d1 / f) (latSliceLen d0 p.1 f (d0 / f)) (latSliceLen d1 p.2 f (d0 / f)) acc
      (latSlice d0 d1 L p.1 p.2 f (d0 / f))) (Mat.build (d0 / f) (d1 / f) fun _ _ => 0)

/-- automaton.py:113-136 `coarse_grain(lattice, factor)` for an integer lattice of shape `(d0, d1)`. The
random choices fill the ties row by row. -/
def latCoarseGrain (d0 d1 : ℕ) (L : Mat ℤ) (f : ℕ) : Prog (Mat ℤ) :=
  if f = 0 then .fail .zeroDivision
  else match latBlockSums d0 d1 L f with
    | .error e => .fail e
    | .ok S => Prog.mapEach (fun row : List ℤ => Prog.mapEach (fun x : ℤ =>
        if x.sign = 0 then (Prog.randint 2).bind fun b => .ret (if b = 0 then -1 else 1) else .ret x.sign) row) S

end Verif.Model
