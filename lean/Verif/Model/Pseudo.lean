/-
coniii/solvers.py: Pseudo (pseudolikelihood).
-/
import Verif.Model.Mpf
import Verif.Model.Matrix

namespace Verif.Model
open Verif

variable {K : Type*}

/-! ### Ising -/

/-- `a[ix] = v` for an array of positions. -/
def fancySet (a : List K) (ix : List ℕ) (v : List K) : Py (List K) :=
  match assignRow ix.length v with
  | .error e => .error e
  | .ok v => (ix.zip v).foldlM (fun a q => setAt a q.1 q.2) a

/-- `a[ix] += v`: the right hand side `a[ix]+v` is computed first. -/
def fancyAdd [Add K] (a : List K) (ix : List ℕ) (v : List K) : Py (List K) :=
  match ix.mapM (getAt a), assignRow ix.length v with
  | .ok old, .ok v => fancySet a ix (List.zipWith (· + ·) old v)
  | .error e, _ => .error e
  | _, .error e => .error e

/-- solvers.py:1776-1778 and 1842-1846: `loglikelihood` and `dloglikelihood` for the observables `obs`
of the rows of the sample (`n` columns) and the parameters `m` of one spin. The vectors over the sample
are handled entry by entry. -/
noncomputable def isingCondTerm (n : ℕ) (obs : List (List ℝ)) (m : List ℝ) : Py (ℝ × List ℝ) :=
  match obs.mapM fun o => npDot o m with
  | .error e => .error e
  | .ok D =>
    let E := D.map fun d => -d
    .ok (-(E.map fun e => Real.log (1 + Real.exp (2 * e))).sum,
      (List.range n).map fun a => (List.zipWith (fun e (o : List ℝ) =>
        -(1 / (1 + Real.exp (2 * e)) * Real.exp (2 * e)) * 2 * o.getD a 0) E obs).sum)

/-- solvers.py:1770-1780 the function `f` handed to `minimize` for spin `r`; `guess` is the array that
`f` writes to. -/
noncomputable def isingPseudoF (n r : ℕ) (sample : Data) (guess params : List ℝ) :
    Py (ℝ × List ℝ) :=
  match sample.mapM (calcObservablesR (K := ℝ) n r), getMultipliersR n r guess with
  | .error e, _ => .error e
  | _, .error e => .error e
  | .ok obs, .ok (_, ix) => match fancySet guess ix params with
    | .error e => .error e
    | .ok guess => match getMultipliersR n r guess with
      | .error e => .error e
      | .ok (m, _) => match isingCondTerm n obs m with
        | .error e => .error e
        | .ok (ll, d) => .ok (-ll, d)

/-- solvers.py:1836-1846 one round of the loop in `f` of `_solve_general`. -/
noncomputable def generalStep (n : ℕ) (sample : Data) (params : List ℝ) (r : ℕ)
    (st : ℝ × List ℝ) : Py (ℝ × List ℝ) :=
  match sample.mapM (calcObservablesR (K := ℝ) n r), getMultipliersR n r params with
  | .error e, _ => .error e
  | _, .error e => .error e
  | .ok obs, .ok (m, ix) => match isingCondTerm n obs m with
    | .error e => .error e
    | .ok (ll, d) => match fancyAdd st.2 ix d with
      | .error e => .error e
      | .ok g => .ok (st.1 + ll, g)

/-- solvers.py:1829-1847 the function `f` of `_solve_general` with the helpers of the Ising model. -/
noncomputable def generalPseudoF (n : ℕ) (sample : Data) (params : List ℝ) : Py (ℝ × List ℝ) :=
  match (pyRange 0 n).foldlM (fun st r => generalStep n sample params r st)
      ((0 : ℝ), List.replicate params.length (0 : ℝ)) with
  | .error e => .error e
  | .ok (ll, g) => .ok (-ll, g)

/-- solvers.py:1754-1758 the rows of `initial_guessAsMat` after the loop that exchanges the entries
`[i,i]` and `[i,0]`. -/
def startMat [Ring K] (n : ℕ) (guess : List K) : Py (Mat K) :=
  match squareformVec (guess.drop n) with
  | .error e => .error e
  | .ok M => match replaceDiag M (guess.take n) with
    | .error e => .error e
    | .ok M => .ok ((pyRange 1 n).foldl (fun M i =>
        let row := M.getD i []
        M.set i ((row.set i (rd row 0)).set 0 (rd row i))) M)

/-- solvers.py:1783-1785 row `r` of `Jmat` from the optimum `x` for spin `r`. -/
def jmatRow [Zero K] (n r : ℕ) (x : List K) : Py (List K) :=
  match setAt (List.replicate n (0 : K)) r (rd x 0) with
  | .error e => .error e
  | .ok row => fancySet row ((pyRange 0 n).filter fun i => i ≠ r) (x.drop 1)

/-- solvers.py:1783-1789 the couplings put together from the optima of all spins, symmetrised. -/
def assembleIsing [Field K] [DecidableEq K] (n : ℕ) (xs : List (List K)) : Py (List K) :=
  match (List.range n).mapM fun r => jmatRow n r (xs.getD r []) with
  | .error e => .error e
  | .ok J =>
    let S := Mat.build n n fun i j => (Mat.at' J i j + Mat.at' J j i) / 2
    match zeroDiag S with
    | .error e => .error e
    | .ok Z => match squareformMat Z with
      | .error e => .error e
      | .ok v => .ok (diagonal S ++ v)

open scoped Classical in
/-- solvers.py:1728-1791 `_solve_ising(initial_guess)`; `minimize f x0` stands for
`scipy.optimize.minimize(f, x0, jac=True)['x']`. -/
noncomputable def isingPseudoSolve (minimize : (List ℝ → Py (ℝ × List ℝ)) → List ℝ → Py (List ℝ))
    (n : ℕ) (sample : Data) (guess : List ℝ) : Py (List ℝ) :=
  match startMat n guess with
  | .error e => .error e
  | .ok M => match (List.range n).mapM fun r =>
      minimize (isingPseudoF n r sample guess) (M.getD r []) with
    | .error e => .error e
    | .ok xs => assembleIsing n xs

/-! ### Potts -/

/-- solvers.py:1914-1918 `Edelta` of one row, without the constant column. -/
def pottsEdelta (obs : List ℝ) (others : List (List ℝ)) (m : List ℝ) : Py (List ℝ) :=
  match npDot obs m, others.mapM fun o => npDot o m with
  | .ok e, .ok es => .ok (es.map fun eo => -eo - -e)
  | .error e, _ => .error e
  | _, .error e => .error e

/-- solvers.py:1918-1919 `-logsumexp(-Edelta)` of one row, with the constant column. -/
noncomputable def pottsRowLL (ed : List ℝ) : ℝ :=
  -Real.log (((ed ++ [0]).map fun e => Real.exp (-e)).sum)

/-- solvers.py:1935-1939 `sgn` of a field: `x` is the state of spin `r`, `b` the other state. -/
def fieldSgn (x hix b : ℤ) : ℝ := if x = hix then -1 else if b ≠ hix then 0 else 1

/-- solvers.py:1950-1956 `sgn` of a coupling: `xj` is the state of the other spin. -/
def couplingSgn (x xj b : ℤ) : ℝ := if x = xj then -1 else if b = xj then 1 else 0

/-- `num/den` of one row: `sgn` takes the other state. -/
noncomputable def pottsNumDen (ed : List ℝ) (states : List ℕ) (sgn : ℤ → ℝ) : ℝ :=
  (List.zipWith (fun e (b : ℕ) => sgn (b : ℤ) * Real.exp (-e)) ed states).sum /
    -Real.exp (-pottsRowLL ed)

/-- What one row contributes for spin `r` with parameters `m`: log-likelihood and its derivatives with
respect to the fields and couplings of the spin, in the order of `multipliersrix`. -/
noncomputable def pottsRowTerm (n k r : ℕ) (m : List ℝ) (s : List ℤ) : Py (ℝ × List ℝ) :=
  match pottsObservablesR (K := ℝ) n k r s with
  | .error e => .error e
  | .ok (obs, others, states) => match pottsEdelta obs others m with
    | .error e => .error e
    | .ok ed => .ok (pottsRowLL ed,
        ((pyRange 0 k).map fun hix : ℕ => pottsNumDen ed states (fieldSgn (s.getD r 0) (hix : ℤ))) ++
        ((pyRange 0 n).filter fun i => i ≠ r).map fun j =>
          pottsNumDen ed states (couplingSgn (s.getD r 0) (s.getD j 0)))

/-- solvers.py:1909-1959 one round of the loop in `f` of `_solve_potts`. The additions to
`dloglikelihood` one position after the other are written as one addition to the positions
`multipliersrix`. `np.vstack` of no arrays raises. -/
noncomputable def pottsStep (n k : ℕ) (sample : Data) (params : List ℝ) (r : ℕ)
    (st : ℝ × List ℝ) : Py (ℝ × List ℝ) :=
  match pottsMultipliersR n k r params with
  | .error e => .error e
  | .ok (m, ix) =>
    if k - 1 = 0 then .error .valueError
    else match sample.mapM (pottsRowTerm n k r m) with
      | .error e => .error e
      | .ok rows => match fancyAdd st.2 ix ((List.range (k + (n - 1))).map fun a =>
          (rows.map fun q => q.2.getD a 0).sum) with
        | .error e => .error e
        | .ok g => .ok (st.1 + (rows.map fun q => q.1).sum, g)

/-- solvers.py:1903-1960 the function `f` of `_solve_potts` with cost function and its derivative. -/
noncomputable def pottsPseudoF (n k : ℕ) (sample : Data) (cost : List ℝ → ℝ)
    (costJac : List ℝ → List ℝ) (params : List ℝ) : Py (ℝ × List ℝ) :=
  match (pyRange 0 n).foldlM (fun st r => pottsStep n k sample params r st)
      ((0 : ℝ), List.replicate params.length (0 : ℝ)) with
  | .error e => .error e
  | .ok (ll, g) => match broadcast2 (· + ·) (g.map fun x => -x) (costJac params) with
    | .error e => .error e
    | .ok j => .ok (-ll + cost params, j)

end Verif.Model
