/-
Models of ±1 spins with interactions of up to `m` spins: energy, likelihood, probability flow.
-/
import Verif.Spec.Poly
import Verif.Spec.Box
import Verif.Spec.Freq

namespace Verif.Spec
open Verif

/-- The sites of the interactions, in the order of the parameters: all single sites, all pairs, all triplets and so on, each
kind in lexicographic order. -/
def orderTuples (n m : ℕ) : List (List ℕ) := (List.range m).flatMap fun k => tuples n (k + 1)

/-- Energy: minus the sum of parameters times products of spins. -/
def orderE (n m : ℕ) (θ : List ℝ) (s : List ℤ) : ℝ := -dot θ ((orderTuples n m).map (mono (spins s)))

/-- Log likelihood of a sample. -/
noncomputable def orderLik (n m : ℕ) (v : List ℝ) (X : List (List ℤ)) : ℝ :=
  (X.map fun r => Real.log (boltzmann (words [-1, 1] n) (orderE n m v) r)).sum

/-- The model has the mean products of the sample, for all products of up to `m` spins. -/
def ReproducesOrders (n m : ℕ) (v : List ℝ) (X : List (List ℤ)) : Prop :=
  ∀ t ∈ orderTuples n m, expect (words [-1, 1] n) (orderE n m v) (fun s => mono (spins s) t) =
    avg X fun r => (mono (spins r) t : ℝ)

/-- Probability flow out of the data. -/
noncomputable def orderFlow (n m : ℕ) (X : List (List ℤ)) (r : List ℝ) : ℝ := probFlow X (flips fun x => -x) (orderE n m r)

/-- `x` are the parameters that give the bits the energies, up to a constant, that `r` gives the spins. -/
def BitForm (n m : ℕ) (r x : List ℝ) : Prop :=
  x.length = (orderTuples n m).length ∧ ∃ c, ∀ s ∈ words [-1, 1] n,
    orderE n m x (s.map fun y => if y = 1 then 1 else 0) = orderE n m r s + c

/-- `r` has the least flow among the parameters whose {0,1} form is within the limit. -/
def LeastOrderFlow (n m : ℕ) (L : ℝ) (X : List (List ℤ)) (r : List ℝ) : Prop :=
  r.length = (orderTuples n m).length ∧ (∃ x, BitForm n m r x ∧ InLimit L x) ∧
    ∀ r' x' : List ℝ, r'.length = (orderTuples n m).length → BitForm n m r' x' → InLimit L x' →
      orderFlow n m X r ≤ orderFlow n m X r'

end Verif.Spec
