/-
coniii/samplers.py: iter_cluster (the clusters of the Swendsen-Wang sampler), pairwise_prod, sample_bonds.
-/
import Verif.Model.Matrix
import Verif.Model.Index

namespace Verif.Model
open Verif

section
variable {K : Type} [Zero K] [DecidableEq K]

/-- `set(np.nonzero(adj[site])[0].tolist())` without the elements of `marked` (samplers.py:581-582), in increasing
order. -/
def unmarkedNeighbors (A : Mat K) (marked : List ℕ) (site : ℕ) : List ℕ :=
  (List.range (A.getD site []).length).filter fun j => A.at' site j ≠ 0 ∧ j ∉ marked

/-- samplers.py:578-587 the loop that explores one cluster: the cluster and the marked sites. The order in which a
Python set is iterated is not specified: it is given by `order`. `fuel` bounds the number of rounds. -/
def explore (A : Mat K) (order : List ℕ → List ℕ) : ℕ → List ℕ → List ℕ → List ℕ → Py (List ℕ × List ℕ)
  | 0, _, _, _ => .error .diverge
  | fuel + 1, cluster, newSites, marked =>
    match newSites with
    | [] => .ok (cluster, marked)
    | site :: rest =>
      if site < A.length then
        let nb := order (unmarkedNeighbors A marked site)
        explore A order fuel (cluster ++ [site]) (rest ++ nb) (marked ++ nb)
      else .error .indexError

/-- samplers.py:572-590 the loop over the sites that are in no cluster yet. Which element `set.pop` takes is not
specified: it is given by `pick`. -/
def clusterLoop (A : Mat K) (pick : List ℕ → ℕ) (order : List ℕ → List ℕ) (inner : ℕ) :
    ℕ → List ℕ → List ℕ → List (List ℕ) → Py (List (List ℕ))
  | 0, _, _, _ => .error .diverge
  | fuel + 1, initial, marked, clusters =>
    match initial with
    | [] => .ok clusters
    | x :: l =>
      let site := pick (x :: l)
      match explore A order inner [] [site] (marked ++ [site]) with
      | .error e => .error e
      | .ok (c, marked) =>
        clusterLoop A pick order inner fuel (((x :: l).erase site).filter (· ∉ marked)) marked (clusters ++ [c])

/-- samplers.py:563-592 `iter_cluster(adj)`. -/
def iterCluster (A : Mat K) (pick : List ℕ → ℕ) (order : List ℕ → List ℕ) : Py (List (List ℕ)) :=
  clusterLoop A pick order (A.length + 2) (A.length + 1) (List.range A.length) [] []

end

section
variable {K : Type} [CommRing K]

/-- samplers.py:528-537 `pairwise_prod(state)`. -/
def pairwiseProd (s : List K) : List K := (loopPairs s.length).map fun p => s.getD p.1 0 * s.getD p.2 0

/-- samplers.py:539-561 `sample_bonds(p, r, state, J)`. -/
def sampleBonds [LinearOrder K] (p r s J : List K) : List K :=
  ((loopPairs s.length).foldl (fun (st : List K × ℕ) q =>
    let x := s.getD q.1 0 * s.getD q.2 0
    let c := st.2
    (if J.getD c 0 < 0 ∧ x < 0 ∧ r.getD c 0 < p.getD c 0 then st.1.set c 1
      else if 0 < J.getD c 0 ∧ 0 < x ∧ r.getD c 0 < p.getD c 0 then st.1.set c 1 else st.1, c + 1))
    (List.replicate J.length 0, 0)).1

end

end Verif.Model
