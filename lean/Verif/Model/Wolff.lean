/-
coniii/samplers.py:216-411 WolffIsing. States are lists of ±1 (floats there).
-/
import Verif.Model.Rand
import Verif.Model.Matrix
import Mathlib.Analysis.SpecialFunctions.Exp

namespace Verif.Model
open Verif

/-- samplers.py:217-238 the constructor with a coupling vector or matrix `J`: the matrix and the fields it keeps. The
number of rows of `J` has to be that of a coupling vector, so a coupling matrix is accepted only for 3 spins. -/
def wolffInit {K : Type} [Zero K] (J : List K ⊕ Mat K) (h : List K) : Py (Mat K × List K) :=
  match J with
  | .inl v =>
    if v.length ≠ h.length * (h.length - 1) / 2 then .error .assertion
    else match squareformVec v with
      | .error e => .error e
      | .ok M => .ok (M, h)
  | .inr M => if M.length ≠ h.length * (h.length - 1) / 2 then .error .assertion else .ok (M, h)

/-- samplers.py:381-410 `iterate_neighbors`. (The array of zeros that is filled and cut is the list of the
neighbours found.) -/
noncomputable def iterateNeighbors (n : ℕ) (ix : ℕ → Bool) (expdJ : ℕ → ℝ) (r : List ℝ) : List ℕ :=
  (List.range n).foldl (fun nb i => if ¬ ix i ∧ r.getD i 0 < 1 - expdJ i then nb ++ [i] else nb) []

/-- `self.expdJ[i,j]` (samplers.py:322): `exp(-2*state[i]*J[i,j]*state[j])`. -/
noncomputable def expdJ (J : Mat ℝ) (s : List ℤ) (i j : ℕ) : ℝ :=
  Real.exp (-2 * ((s.getD i 0 : ℤ) : ℝ) * J.at' i j * ((s.getD j 0 : ℤ) : ℝ))

/-- samplers.py:351-378 `find_neighbors`: the neighbours found (they are also appended to the marked sites). -/
noncomputable def findNeighbors (n : ℕ) (J : Mat ℝ) (s : List ℤ) (site : ℕ) (marked : List ℕ) : Prog (List ℕ) :=
  if site < n then
    (Prog.mapEach (fun _ => Prog.rand01) (List.range n)).bind fun r =>
      .ret (iterateNeighbors n (fun i => decide (i ∈ marked ∨ i = site)) (fun i => expdJ J s i site) r)
  else .fail .indexError

/-- samplers.py:346-348 the loop of `build_cluster`; `fuel` bounds the number of rounds. -/
noncomputable def growCluster (n : ℕ) (J : Mat ℝ) (s : List ℤ) : ℕ → List ℕ → List ℕ → Prog (List ℕ)
  | 0, _, _ => .fail .diverge
  | fuel + 1, newSites, marked =>
    match newSites with
    | [] => .ret marked
    | site :: rest => (findNeighbors n J s site marked).bind fun nb =>
        growCluster n J s fuel (rest ++ nb) (marked ++ nb)

/-- samplers.py:335-349 `build_cluster`. -/
noncomputable def buildCluster (n : ℕ) (J : Mat ℝ) (s : List ℤ) (site : ℕ) : Prog (List ℕ) :=
  growCluster n J s (n + 1) [site] [site]

/-- `state[cluster] *= -1`: every spin of the cluster is negated (once, even if it were repeated). -/
def flipCluster (s : List ℤ) (c : List ℕ) : List ℤ :=
  (List.range s.length).map fun i => if i ∈ c then s.getD i 0 * -1 else s.getD i 0

/-- samplers.py:326 `initialsite or self.rng.randint(n)`. -/
def wolffSite (n : ℕ) (site : Option ℕ) : Prog ℕ :=
  match site with
  | none => Prog.randint n
  | some 0 => Prog.randint n
  | some (i + 1) => .ret (i + 1)

/-- samplers.py:316-333 `one_step`. -/
noncomputable def wolffStep (n : ℕ) (J : Mat ℝ) (h : List ℝ) (site : Option ℕ) (s : List ℤ) : Prog (List ℤ) :=
  (wolffSite n site).bind fun i =>
    (buildCluster n J s i).bind fun c =>
      .rand fun u =>
        if u < Real.exp (-2 * (c.map fun i => h.getD i 0 * ((s.getD i 0 : ℤ) : ℝ)).sum) then .ret (flipCluster s c)
        else .ret s

/-- samplers.py:254, 278 `self.rng.choice([-1.,1.], size=(samplesize,self.n))`. -/
def wolffStart (n m : ℕ) : Prog (List (List ℤ)) :=
  Prog.mapEach (fun _ => Prog.mapEach (fun _ => (Prog.randint 2).bind fun b => .ret (if b = 0 then -1 else 1))
    (List.range n)) (List.range m)

/-- samplers.py:246-273 `generate_sample` without history: every row is evolved for `n_iters` steps. -/
noncomputable def wolffSample (n : ℕ) (J : Mat ℝ) (h : List ℝ) (samplesize nIters : ℕ)
    (initial : Option (List (List ℤ))) : Prog (List (List ℤ)) :=
  (match initial with
    | none => wolffStart n samplesize
    | some x => .ret x).bind
    (Prog.mapEach fun s => Prog.forEach (fun _ s => wolffStep n J h none s) (List.range nIters) s)

/-- samplers.py:275-299 `generate_sample_parallel`: the first site of step `j` is `j % n`. The draws of the processes
are taken as draws of one program. -/
noncomputable def wolffSampleParallel (n : ℕ) (J : Mat ℝ) (h : List ℝ) (samplesize nIters : ℕ)
    (initial : Option (List (List ℤ))) : Prog (List (List ℤ)) :=
  (match initial with
    | none => wolffStart n samplesize
    | some x => .ret x).bind
    (Prog.mapEach fun s => Prog.forEach (fun j s =>
      (if n = 0 then Prog.fail .zeroDivision else .ret (j % n)).bind fun i => wolffStep n J h (some i) s)
      (List.range nIters) s)

end Verif.Model
