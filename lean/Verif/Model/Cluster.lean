/-
coniii/solvers.py: ClusterExpansion (adaptive cluster expansion).
-/
import Verif.Model.Matrix
import Verif.Model.MeanField
import Mathlib.Data.List.Sort

namespace Verif.Model
open Verif

/-! ### Subsets and cluster names -/

/-- solvers.py:2366-2403 `ClusterExpansion.subsets(thisSet, size)` with `sort=False`. `srest.append(s)`
changes lists that no one else holds: the only case in which `subsets` hands out its own argument
(`size == len`) does not occur for the inner call with `size-1`. -/
def subsets (thisSet : List ℕ) (size : ℤ) : Py (List (List ℕ)) :=
  if thisSet.length ≠ thisSet.dedup.length then .error .exception
  else if size = thisSet.length then .ok [thisSet]
  else if size > thisSet.length then .ok []
  else if size ≤ 0 then .ok []
  else if size = 1 then .ok (thisSet.map fun s => [s])
  else match thisSet with
    | [] => .error .indexError
    | s :: rest => match subsets rest size with
      | .error e => .error e
      | .ok subrest1 => match subsets rest (size - 1) with
        | .error e => .error e
        | .ok subrest2 => .ok (subrest1 ++ subrest2.map fun srest => srest ++ [s])

/-- `np.sort` of a list of spins. -/
def sortSpins (l : List ℕ) : List ℕ := l.insertionSort (· ≤ ·)

/-- solvers.py:2401-2403 `subsets(thisSet, size, sort=True)`: every subset is sorted, but only if none
of the earlier `return` statements was taken. -/
def subsetsSorted (thisSet : List ℕ) (size : ℤ) : Py (List (List ℕ)) :=
  match subsets thisSet size with
  | .error e => .error e
  | .ok sub =>
    if size = thisSet.length ∨ size > thisSet.length ∨ size ≤ 0 ∨ size = 1 then .ok sub
    else .ok (sub.map sortSpins)

/-- solvers.py:2363-2364 `clusterID(cluster)`. -/
def clusterID (cluster : List ℕ) : List ℕ := sortSpins cluster

/-! ### Entropies of one cluster -/

/-- solvers.py:2206-2208 the coupling matrix of one spin; `log` is the value of the global name `log`.
Frequencies 0 and 1 give infinite numbers in numpy; the theorems exclude them. -/
noncomputable def analyticOne (log : ℝ → ℝ) (p : ℝ) : Mat ℝ := [[-log (p / (1 - p))]]

/-- solvers.py:2215-2221 the coupling matrix of two spins. (`Jii1` and `Jjj1` are not used.) -/
noncomputable def analyticTwo (log : ℝ → ℝ) (pi pj pij : ℝ) : Mat ℝ :=
  let Jii := -log ((pi - pij) / (1 - pi - pj + pij))
  let Jjj := -log ((pj - pij) / (1 - pi - pj + pij))
  let Jij := -log pij + log (pi - pij) + log (pj - pij) - log (1 - pi - pj + pij)
  [[Jii, 1 / 2 * Jij], [1 / 2 * Jij, Jjj]]

/-- solvers.py:2204-2228 the coupling matrix fitted by `S`. `logName` is the meaning of the global name
`log` in solvers.py; the module neither defines nor imports it, so in the code as it stands it is `none`
and the name raises `NameError`. -/
noncomputable def clusterFit (logName : Option (ℝ → ℝ))
    (lsq : (List ℝ → Py (List ℝ)) → List ℝ → Py (List ℝ)) (coocMat : Mat ℝ) (useAnalytic : Bool)
    (priorLmbda : ℝ) (numSamples : Option ℕ) (cluster : List ℕ) : Py (Mat ℝ) :=
  let general : Py (Mat ℝ) := match coocCluster coocMat cluster with
    | .error e => .error e
    | .ok C => findJmatrix lsq C false numSamples priorLmbda 0
  match cluster with
  | [] => .error .exception
  | [i] =>
    if useAnalytic then match getCell coocMat i i with
      | .error e => .error e
      | .ok p => match logName with
        | none => .error .nameError
        | some log => .ok (analyticOne log p)
    else general
  | [a, b] =>
    if useAnalytic then
      let i := min a b
      let j := max a b
      match getCell coocMat i i with
      | .error e => .error e
      | .ok pi => match getCell coocMat j j with
        | .error e => .error e
        | .ok pj => match getCell coocMat i j with
          | .error e => .error e
          | .ok pij => match logName with
            | none => .error .nameError
            | some log => .ok (analyticTwo log pi pj pij)
    else general
  | _ => general

/-- solvers.py:2180-2236 `ClusterExpansion.S`: entropy and couplings (in a matrix for all spins). -/
noncomputable def clusterS (logName : Option (ℝ → ℝ))
    (lsq : (List ℝ → Py (List ℝ)) → List ℝ → Py (List ℝ)) (coocMat : Mat ℝ) (useAnalytic : Bool)
    (priorLmbda : ℝ) (numSamples : Option ℕ) (cluster : List ℕ) : Py (ℝ × Mat ℝ) :=
  match clusterFit logName lsq coocMat useAnalytic priorLmbda numSamples cluster with
  | .error e => .error e
  | .ok J => match jfullFromCluster J cluster coocMat.length with
    | .error e => .error e
    | .ok Jfull => match analyticEntropy J with
      | .error e => .error e
      | .ok ent => .ok (ent, Jfull)

/-- solvers.py:2238-2274 `Sindependent(cluster, coocMat)`. Frequencies 0 and 1 give numbers that are
not finite in numpy; the theorems exclude them. -/
noncomputable def sIndependent (coocMat : Mat ℝ) (cluster : List ℕ) : Py (ℝ × Mat ℝ) :=
  match coocCluster coocMat cluster with
  | .error e => .error e
  | .ok C => match symmetrizeUsingUpper C with
    | .error e => .error e
    | .ok C =>
      let freqs := diagonalK C 0
      let h := freqs.map fun f => -Real.log (f / (1 - f))
      let Sind := (freqs.map fun f => -f * Real.log f - (1 - f) * Real.log (1 - f)).sum
      match jfullFromCluster (diagMat h 0) cluster coocMat.length with
      | .error e => .error e
      | .ok Jfull => .ok (Sind, Jfull)

/-! ### Algorithm 1: cluster contributions

`V` holds what is computed for a cluster: the pair of entropy and coupling matrix, which the code always
subtracts and stores together (dictionaries `deltaSdict` and `deltaJdict`, here one). -/

/-- The dictionaries, latest entry first. -/
abbrev Dict (V : Type*) := List (List ℕ × V)

variable {V : Type*}

section
variable [Sub V]

/-- solvers.py:2347-2356 subtraction of the contributions of the sub-clusters of one size; `rec` is the
recursive call of `deltaS`. -/
def subtractSubs (rec : List ℕ → Dict V → Py (V × Dict V)) (st : V × Dict V) (sub : List ℕ) :
    Py (V × Dict V) :=
  match rec sub st.2 with
  | .error e => .error e
  | .ok (v, d) => .ok (st.1 - v, d)

/-- solvers.py:2345-2356 the loop over sizes. -/
def subtractSize (rec : List ℕ → Dict V → Py (V × Dict V)) (cluster : List ℕ) (st : V × Dict V)
    (size : ℕ) : Py (V × Dict V) :=
  match subsets cluster size with
  | .error e => .error e
  | .ok subs => subs.foldlM (subtractSubs rec) st

/-- solvers.py:2319-2361 `deltaS` after the check of the reference: `S` is the entropy of a cluster and
`S0` the reference. The first argument bounds the depth of the recursion; `len(cluster)+1` suffices
(theorem C47_telescopes). -/
def deltaS (S S0 : List ℕ → Py V) : ℕ → List ℕ → Dict V → Py (V × Dict V)
  | 0, _, _ => .error .diverge
  | fuel + 1, cluster, d => match d.lookup (clusterID cluster) with
    | some v => .ok (v, d)
    | none => match S cluster with
      | .error e => .error e
      | .ok s => match S0 cluster with
        | .error e => .error e
        | .ok s0 =>
          match (pyRange 1 cluster.length).reverse.foldlM
              (subtractSize (deltaS S S0 fuel) cluster) (s - s0, d) with
          | .error e => .error e
          | .ok (v, d) => .ok (v, (clusterID cluster, v) :: d)

/-- `deltaS` with enough depth. -/
def deltaSRun (S S0 : List ℕ → Py V) (cluster : List ℕ) (d : Dict V) : Py (V × Dict V) :=
  deltaS S S0 (cluster.length + 1) cluster d

/-- Several calls of `deltaS` one after the other with the same dictionaries: the values returned and
the dictionaries at the end. -/
def deltaSMany (S S0 : List ℕ → Py V) : List (List ℕ) → Dict V → Py (List V × Dict V)
  | [], d => .ok ([], d)
  | c :: cs, d => match deltaSRun S S0 c d with
    | .error e => .error e
    | .ok (v, d) => match deltaSMany S S0 cs d with
      | .error e => .error e
      | .ok (vs, d) => .ok (v :: vs, d)

/-- solvers.py:2313-2314, 2332-2342 `deltaS` with its arguments `independentRef` and `meanFieldRef`; the
name `SmeanField` does not exist in solvers.py. -/
def deltaSRef (S Sind : List ℕ → Py V) (independentRef meanFieldRef : Bool) (cluster : List ℕ)
    (d : Dict V) : Py (V × Dict V) :=
  if (independentRef && meanFieldRef) || !(independentRef || meanFieldRef) then .error .exception
  else deltaSRun S (if independentRef then Sind else fun _ => .error .nameError) cluster d

/-! ### Algorithm 2: selection of clusters -/

/-- solvers.py:2477-2491 one pair of clusters of the same size; `keep` is `abs(.) > T`, and `delta` is
the call of `deltaS`. `np.intersect1d` and `np.union1d` remove duplicates and sort. -/
def aceStep (delta : List ℕ → Dict V → Py (V × Dict V)) (keep : V → Bool) (size : ℕ)
    (st : List (List ℕ) × Dict V) (g : List ℕ × List ℕ) : Py (List (List ℕ) × Dict V) :=
  let gammaI := (g.1.filter fun x => x ∈ g.2).dedup
  let gammaU := sortSpins (g.1 ++ g.2).dedup
  if gammaI.length + 1 = size then
    match delta gammaU st.2 with
    | .error e => .error e
    | .ok (v, d) =>
      if keep v ∧ gammaU ∉ st.1 then .ok (st.1 ++ [gammaU], d) else .ok (st.1, d)
  else .ok st

/-- The pairs `(l[i], l[j])` with `i < j` in the order of the double loop. -/
def pairsOf {α : Type*} : List α → List (α × α)
  | [] => []
  | a :: l => l.map (fun b => (a, b)) ++ pairsOf l

/-- solvers.py:2470-2492 the loop over sizes, with a bound on the number of rounds: the lists of clusters
by size, the last one empty. -/
def aceLoop (delta : List ℕ → Dict V → Py (V × Dict V)) (keep : V → Bool) :
    ℕ → ℕ → List (List ℕ) → Dict V → Py (List (List (List ℕ)) × Dict V)
  | 0, _, _, _ => .error .diverge
  | fuel + 1, size, cl, d =>
    if cl.length > 0 then
      match (pairsOf cl).foldlM (aceStep delta keep size) ([], d) with
      | .error e => .error e
      | .ok (cl', d') => match aceLoop delta keep fuel (size + 1) cl' d' with
        | .error e => .error e
        | .ok (levels, d'') => .ok (cl :: levels, d'')
    else .ok ([cl], d)

/-- solvers.py:2503-2507 the value of one selected cluster is added. -/
def aceAdd [Add V] (d : Dict V) (acc : V) (cluster : List ℕ) : Py V :=
  match d.lookup (clusterID cluster) with
  | none => .error .keyError
  | some v => .ok (acc + v)

/-- solvers.py:2457-2507 `ClusterExpansion.solve` from the choice of the reference to the sums: the value
(entropy and coupling matrix), the selected clusters by size, and the dictionaries. `zero` is the value
with which the sums start if there is no reference. -/
def aceSolve [Add V] [Zero V] (S Sind : List ℕ → Py V) (keep : V → Bool)
    (independentRef meanFieldRef : Bool) (cluster : List ℕ) (d : Dict V) :
    Py (V × List (List (List ℕ)) × Dict V) :=
  if independentRef && meanFieldRef then .error .exception
  else match aceLoop (deltaSRef S Sind independentRef meanFieldRef) keep (cluster.length + 2) 1
      (cluster.map fun i => [i]) d with
    | .error e => .error e
    | .ok (levels, d) =>
      let start : Py V := if independentRef then Sind cluster
        else if meanFieldRef then .error .nameError else .ok 0
      match start with
      | .error e => .error e
      | .ok v0 => match levels.flatten.foldlM (aceAdd d) v0 with
        | .error e => .error e
        | .ok v => .ok (v, levels, d)

end

/-! ### The whole solver -/

/-- A pair of entropy and `N × N` matrix as an element of a vector space. -/
def entJ (N : ℕ) (r : ℝ × Mat ℝ) : ℝ × (Fin N → Fin N → ℝ) := (r.1, fun i j => r.2.at' i j)

/-- `entJ` for a computation that may raise. -/
def entJPy (N : ℕ) (r : Py (ℝ × Mat ℝ)) : Py (ℝ × (Fin N → Fin N → ℝ)) :=
  match r with
  | .error e => .error e
  | .ok r => .ok (entJ N r)

open scoped Classical in
/-- solvers.py:2509-2512 from the coupling matrix to the ±1 parameters. -/
noncomputable def aceParams (J : Mat ℝ) : Py (List ℝ) :=
  let h := (diagonal J).map fun x => -x
  match zeroDiag J with
  | .error e => .error e
  | .ok Z => match squareformMat (Z.map fun r => r.map fun x => -x) with
    | .error e => .error e
    | .ok v => convertParamsConcat h (.vec (v.map fun x => x * 2)) .b11

/-- solvers.py:2452 the co-occurrence matrix of the sample; a sample without rows gives
not-a-number (`none`). -/
noncomputable def aceCooc (n : ℕ) (sample : List (List ℤ)) : Option (Mat ℝ) :=
  if sample = [] then none
  else some ((cooccurrenceMatrix n (sample.map fun r => r.map fun x : ℤ => ((x : ℝ) + 1) / 2) true).map
    fun row => row.map fun x => x.getD 0)

open scoped Classical in
/-- solvers.py:2407-2517 `ClusterExpansion.solve(threshold, cluster, priorLmbda, numSamples,
meanFieldRef, independentRef, full_output=True)` without given dictionaries for a sample of `n` spins:
multipliers, entropy and clusters. -/
noncomputable def clusterExpansionSolve (lsq : (List ℝ → Py (List ℝ)) → List ℝ → Py (List ℝ)) (n : ℕ)
    (coocMat : Mat ℝ) (T : ℝ) (cluster : Option (List ℕ)) (priorLmbda : ℝ) (numSamples : Option ℕ)
    (meanFieldRef independentRef : Bool) : Py (List ℝ × ℝ × List (List (List ℕ))) :=
  match aceSolve (fun c => entJPy n (clusterS none lsq coocMat false priorLmbda numSamples c))
      (fun c => entJPy n (sIndependent coocMat c)) (fun v => decide (|v.1| > T))
      independentRef meanFieldRef (cluster.getD (List.range n)) [] with
  | .error e => .error e
  | .ok (v, levels, _) =>
    match aceParams (Mat.build n n fun i j => if h : i < n ∧ j < n then v.2 ⟨i, h.1⟩ ⟨j, h.2⟩ else 0) with
    | .error e => .error e
    | .ok x => .ok (x, v.1, levels)

end Verif.Model
