/-
Specification of what one and two spins of a distribution over the states of `n` spins tell: probabilities, entropy, mutual
information, and the parameters of the models of one and of two spins.
-/
import Verif.Spec.Words
import Verif.Spec.Pairs
import Mathlib.Algebra.BigOperators.Group.Finset.Basic
import Mathlib.Analysis.SpecialFunctions.Log.Basic

namespace Verif.Spec
open Verif

/-- Frequency of a state in a sample. -/
noncomputable def stateFreq (X : List (List ℤ)) (s : List ℤ) : ℝ := (X.count s : ℝ) / X.length

/-- Probability that spin `i` is `a`. -/
def spinProb (n : ℕ) (p : List ℤ → ℝ) (i : ℕ) (a : ℤ) : ℝ :=
  ((words [1, -1] n).map fun s => if s.getD i 0 = a then p s else 0).sum

/-- Probability that spin `i` is `a` and spin `j` is `b`. -/
def pairProb (n : ℕ) (p : List ℤ → ℝ) (i j : ℕ) (a b : ℤ) : ℝ :=
  ((words [1, -1] n).map fun s => if s.getD i 0 = a ∧ s.getD j 0 = b then p s else 0).sum

/-- Entropy of spin `i`. -/
noncomputable def siteEntropy (n : ℕ) (p : List ℤ → ℝ) (i : ℕ) : ℝ :=
  -(spinProb n p i 1 * Real.log (spinProb n p i 1) + spinProb n p i (-1) * Real.log (spinProb n p i (-1)))

/-- Mutual information of the spins `i` and `j`. -/
noncomputable def mutualInfo (n : ℕ) (p : List ℤ → ℝ) (i j : ℕ) : ℝ :=
  (([1, -1] : List ℤ).map fun a => (([1, -1] : List ℤ).map fun b =>
    pairProb n p i j a b * Real.log (pairProb n p i j a b / (spinProb n p i a * spinProb n p j b))).sum).sum

/-- Field of the model of spin `i` alone. -/
noncomputable def soloField (n : ℕ) (p : List ℤ → ℝ) (i : ℕ) : ℝ :=
  (Real.log (spinProb n p i 1) - Real.log (spinProb n p i (-1))) / 2

/-- Field of spin `i` in the model of the spins `i` and `j` alone. -/
noncomputable def duoField (n : ℕ) (p : List ℤ → ℝ) (i j : ℕ) : ℝ :=
  (Real.log (pairProb n p i j 1 1) + Real.log (pairProb n p i j 1 (-1)) - Real.log (pairProb n p i j (-1) 1) -
    Real.log (pairProb n p i j (-1) (-1))) / 4

/-- Coupling in the model of the spins `i` and `j` alone. -/
noncomputable def duoCoupling (n : ℕ) (p : List ℤ → ℝ) (i j : ℕ) : ℝ :=
  (Real.log (pairProb n p i j 1 1) - Real.log (pairProb n p i j 1 (-1)) - Real.log (pairProb n p i j (-1) 1) +
    Real.log (pairProb n p i j (-1) (-1))) / 4

/-- The pairs with a mutual information above `T`. -/
def Linked (n : ℕ) (p : List ℤ → ℝ) (T : ℝ) (i j : ℕ) : Prop := i ≠ j ∧ T < mutualInfo n p i j

/-- No spin is in two pairs of `K`. -/
def Disjointed (n : ℕ) (K : ℕ → ℕ → Prop) : Prop := ∀ i < n, ∀ j < n, ∀ k < n, K i j → K i k → j = k

open scoped Classical in
/-- The parameters of the model in which the pairs of `K` have their joint probabilities and are independent of each other and
of the spins that are in no pair, if no spin is in two pairs. -/
noncomputable def pairedParams (n : ℕ) (p : List ℤ → ℝ) (K : ℕ → ℕ → Prop) : List ℝ :=
  (List.range n).map (fun i => soloField n p i +
    ∑ j ∈ Finset.range n, if K i j then duoField n p i j - soloField n p i else 0) ++
  (upperPairs n).map fun q => if K q.1 q.2 then duoCoupling n p q.1 q.2 else 0

end Verif.Spec
