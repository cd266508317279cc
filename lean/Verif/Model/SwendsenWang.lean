/-
coniii/samplers.py:415-525 SWIsing, the Swendsen-Wang sampler. States are lists of ±1.
-/
import Verif.Model.IterCluster
import Verif.Model.Wolff

namespace Verif.Model
open Verif

/-- samplers.py:416-443 the constructor raises NotImplementedError before it stores anything, whatever it is given. The
methods below are modelled for an object with fields `h` and couplings `J` set all the same (`n` fields and `n(n-1)/2`
couplings, as line 437 cuts them from `theta`). -/
def swInit {K : Type} (_n : ℕ) (_theta : List K) : Py (List K × List K) := .error .notImplemented

/-- samplers.py:501-512 `get_clusters`: a random number for every coupling, the bonds, and the clusters of the graph of
the bonds. `pick` and `order` stand for the order in which Python goes through sets (see `iterCluster`). -/
noncomputable def swClusters (J : List ℝ) (pick : List ℕ → ℕ) (order : List ℕ → List ℕ) (s : List ℤ) :
    Prog (List (List ℕ)) :=
  let state : List ℝ := s.map (Int.cast : ℤ → ℝ)
  let p := List.zipWith (fun J x => 1 - Real.exp (-2 * J * x)) J (pairwiseProd state)
  (Prog.mapEach (fun _ => Prog.rand01) (List.range J.length)).bind fun r =>
    Prog.ofPy (match squareformVec (sampleBonds p r state J) with
      | .error e => .error e
      | .ok adj => iterCluster adj pick order)

/-- samplers.py:514-517 one round of `randomly_flip_clusters`. -/
noncomputable def swFlip (h : List ℝ) (cls : List ℕ) (s : List ℤ) : Prog (List ℤ) :=
  .rand fun u =>
    if u > 1 / (1 + Real.exp (-2 * (cls.map fun i => h.getD i 0 * ((s.getD i 0 : ℤ) : ℝ)).sum)) then
      .ret (flipCluster s cls)
    else .ret s

/-- samplers.py:496-499 `one_step`. -/
noncomputable def swStep (h J : List ℝ) (pick : List ℕ → ℕ) (order : List ℕ → List ℕ) (s : List ℤ) : Prog (List ℤ) :=
  (swClusters J pick order s).bind fun clusters => Prog.forEach (swFlip h) clusters s

/-- samplers.py:476-494 `generate_sample`: the first `n_samples` rows are evolved in place one after another. -/
noncomputable def swSample (n : ℕ) (h J : List ℝ) (pick : List ℕ → ℕ) (order : List ℕ → List ℕ) (nSamples nIters : ℕ)
    (initial : Option (List (List ℤ))) : Prog (List (List ℤ)) :=
  (match initial with
    | none => wolffStart n nSamples
    | some x => .ret x).bind
    (Prog.forEach (fun i sample =>
      if i < sample.length then
        (Prog.forEach (fun _ s => swStep h J pick order s) (List.range nIters) (sample.getD i [])).bind fun s =>
          .ret (sample.set i s)
      else .fail .indexError) (List.range nSamples))

/-- samplers.py:445-474 `generate_sample_parallel`: line 456 reads the undefined name `n_ncpus`. -/
def swSampleParallel (_nSamples _nIters : ℕ) (_initial : Option (List (List ℤ))) : Prog (List (List ℤ)) :=
  .fail .nameError

end Verif.Model
