/-
Specification of replica exchange.
-/
import Verif.Model.Tempering

namespace Verif.Spec
open Verif.Model

/-- The replicas hold one configuration each; their parameters are those of the model times the inverse
temperature, and the energy they store is the inverse temperature times the energy `e` of the configuration. -/
def Consistent (e : List ℤ → ℝ) (theta beta : List ℝ) (reps : List Replica) : Prop :=
  List.Forall₂ (fun (r : Replica) b => r.theta = theta.map (· * b) ∧
    ∃ s, r.sample = [s] ∧ r.kept = some [s] ∧ r.E = [b * e s]) reps beta

/-- The configuration of each replica. -/
def configs (reps : List Replica) : List (List ℤ) := reps.map fun r => r.sample.getD 0 []

/-- The sum of the energies of independent replicas, each times its inverse temperature. -/
noncomputable def replicaE (e : List ℤ → ℝ) (beta : List ℝ) (c : List (List ℤ)) : ℝ :=
  ∑ j ∈ Finset.range beta.length, beta.getD j 0 * e (c.getD j [])

end Verif.Spec
