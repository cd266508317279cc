/-
coniii/samplers.py:615-909 ParallelTempering.
The replicas are `Metropolis` samplers made with `boost=False`. `calcE s theta` stands for `calc_e(s[None,:], theta)[0]`.
`pool.map` runs the replicas in other processes, each with its own generator; their draws are taken as draws of
one program, one replica after another.
-/
import Verif.Model.Metropolis

namespace Verif.Model
open Verif

/-- The attributes of a replica. Before the first call of `generate_sample` there is no `sample` and no `E`; they
are empty here. -/
structure Replica where
  /-- `rep.theta` -/
  theta : List ℝ
  /-- `rep.sample` -/
  sample : List (List ℤ)
  /-- `rep._samples` -/
  kept : Option (List (List ℤ))
  /-- `rep.E` -/
  E : List ℝ
  /-- `rep.index` -/
  index : ℕ

instance : Inhabited Replica := ⟨⟨[], [], none, [], 0⟩⟩

/-- samplers.py:707-710 `f` of `burn_in_replicas`: `rep.generate_sample(1, n_iters=nIters, systematic_iter=True)`. -/
noncomputable def burnReplica (calcE : List ℤ → List ℝ → ℝ) (n nIters : ℕ) (rep : Replica) : Prog Replica :=
  (generateSamplePy (sampleMetropolis fun s => calcE s rep.theta) (randomSample n) (fun s => calcE s rep.theta) n
    rep.kept 1 nIters none true false none).bind fun o =>
      .ret { rep with sample := o.sample, E := o.E, kept := some o.replicas }

/-- samplers.py:693-715 `burn_in_replicas` with the number of iterations `n_iters or self.replicaBurnin`. -/
noncomputable def burnInReplicas (calcE : List ℤ → List ℝ → ℝ) (n nIters : ℕ) (reps : List Replica) :
    Prog (List Replica) :=
  Prog.mapEach (burnReplica calcE n nIters) reps

/-- samplers.py:900-901, 905-906 `min(1, exp(dE*(beta[i]-beta[j])))`. The energies are arrays of length one. An
inverse temperature 0 (with energy 0) gives nan, for which `min(1, nan)` is 1. -/
noncomputable def pairRatio (beta : List ℝ) (reps : List Replica) (p : ℕ × ℕ) : ℝ :=
  let b0 := beta.getD p.1 0
  let b1 := beta.getD p.2 0
  if b0 = 0 ∨ b1 = 0 then 1
  else
    let dE := (reps.getD p.1 default).E.getD 0 0 / b0 - (reps.getD p.2 default).E.getD 0 0 / b1
    min 1 (Real.exp (dE * (b0 - b1)))

/-- samplers.py:868-908 `_acceptance_ratio` for `n_samples >= 1`: the average ratio of each pair, and the replicas
(which are burned in again for every sample if `n_iters > 0`). With `n_iters = 0` only the first column of the
array is filled, but the mean is over all columns. -/
noncomputable def acceptanceRatio (calcE : List ℤ → List ℝ → ℝ) (n : ℕ) (beta : List ℝ) (nSamples nIters : ℕ)
    (pairs : List (ℕ × ℕ)) (reps : List Replica) : Prog (List ℝ × List Replica) :=
  if ∀ r ∈ reps, r.sample.length = 1 then
    if nIters > 0 then
      (Prog.forEach (fun (_ : ℕ) (st : List Replica × List (List ℝ)) =>
        (burnInReplicas calcE n nIters st.1).bind fun reps' =>
          .ret (reps', st.2 ++ [pairs.map (pairRatio beta reps')])) (List.range nSamples) (reps, [])).bind fun st =>
        .ret ((List.range pairs.length).map fun j => (st.2.map fun c => c.getD j 0).sum / (nSamples : ℝ), st.1)
    else .ret (pairs.map fun p => pairRatio beta reps p / (nSamples : ℝ), reps)
  else .fail .assertion

/-- samplers.py:728-744 the exchange of the configurations of replicas `i` and `i+1`. -/
noncomputable def swapReplicas (beta : List ℝ) (i : ℕ) (reps : List Replica) : List Replica :=
  let a := reps.getD i default
  let b := reps.getD (i + 1) default
  let bi := beta.getD i 0
  let bj := beta.getD (i + 1) 0
  (reps.set i { a with sample := b.sample, kept := b.kept, index := b.index, E := b.E.map fun e => e / bj * bi }).set
    (i + 1) { b with sample := a.sample, kept := a.kept, index := a.index, E := a.E.map fun e => e / bi * bj }

/-- samplers.py:726-744 one round of the loop over neighbouring replicas. -/
noncomputable def exchangeStep (calcE : List ℤ → List ℝ → ℝ) (n : ℕ) (beta : List ℝ) (i : ℕ) (reps : List Replica) :
    Prog (List Replica) :=
  (acceptanceRatio calcE n beta 1 0 [(i, i + 1)] reps).bind fun r =>
    .rand fun u => if u < r.1.getD 0 0 then .ret (swapReplicas beta i r.2) else .ret r.2

/-- samplers.py:725-744 the loop over neighbouring replicas. -/
noncomputable def exchanges (calcE : List ℤ → List ℝ → ℝ) (n : ℕ) (beta : List ℝ) (nReplicas : ℕ)
    (reps : List Replica) : Prog (List Replica) :=
  Prog.forEach (exchangeStep calcE n beta) (List.range (nReplicas - 1)) reps

/-- samplers.py:717-744 `burn_and_exchange`; `nIters` is `self.repExBurnin or self.replicaBurnin`. -/
noncomputable def burnAndExchange (calcE : List ℤ → List ℝ → ℝ) (n nIters : ℕ) (beta : List ℝ) (nReplicas : ℕ)
    (reps : List Replica) : Prog (List Replica) :=
  (burnInReplicas calcE n nIters reps).bind (exchanges calcE n beta nReplicas)

/-- samplers.py:746-792 `generate_sample`: `self.sample` (for each replica its rows), the index history, and the
replicas after it. -/
noncomputable def temperingSample (calcE : List ℤ → List ℝ → ℝ) (n nIters : ℕ) (beta : List ℝ) (nReplicas sampleSize : ℕ)
    (reps : List Replica) : Prog ((List (List (List ℤ)) × List (List ℕ)) × List Replica) :=
  (Prog.forEach (fun (_ : ℕ) (st : List Replica × List (List (List ℤ)) × List (List ℕ)) =>
    (burnAndExchange calcE n nIters beta nReplicas st.1).bind fun reps' =>
      .ret (reps', st.2.1 ++ [(List.range nReplicas).map fun j => (reps'.getD j default).sample.getD 0 []],
        st.2.2 ++ [(List.range nReplicas).map fun j => (reps'.getD j default).index]))
    (List.range sampleSize) (reps, [], [])).bind fun st =>
      .ret (((List.range nReplicas).map fun j => st.2.1.map fun row => row.getD j [], st.2.2), st.1)

/-- `np.linspace(b0, b1, m)` (samplers.py:795-797 `initialize_beta`). -/
noncomputable def initializeBeta (b0 b1 : ℝ) (m : ℕ) : List ℝ :=
  (List.range m).map fun i : ℕ => b0 + (i : ℝ) * ((b1 - b0) / ((m : ℝ) - 1))

/-- samplers.py:799-822 `iterate_beta`; `none` if the average of the ratios is 0 (then numpy divides by zero and
returns nan or infinite values). -/
def iterateBeta {K : Type} [Field K] [LinearOrder K] (beta ratio : List K) : Py (Option (List K)) :=
  if ratio.length + 1 ≠ beta.length then .error .assertion
  else if ¬ ∀ r ∈ ratio, r ≤ 1 then .error .assertion
  else
    let avg := ratio.sum / (ratio.length : K)
    if avg = 0 ∧ 1 < beta.length then .ok none
    else .ok (some (((List.range' 1 (beta.length - 1)).reverse).foldl (fun nb i =>
      nb.set (i - 1) (nb.getD i 0 - (beta.getD i 0 - beta.getD (i - 1) 0) * ratio.getD (i - 1) 0 / avg)) beta))

/-- samplers.py:668-673 `update_replica_parameters`. -/
noncomputable def updateReplicas (theta beta : List ℝ) (reps : List Replica) : List Replica :=
  List.zipWith (fun b rep => { rep with theta := theta.map (· * b) }) beta reps

/-- samplers.py:845-858 the loop of `optimize_beta`; `k` is the number of rounds left. If a round does not give
numbers, the comparison with nan ends the loop and the constructor fails at its last assertion. -/
noncomputable def optimizeLoop (calcE : List ℤ → List ℝ → ℝ) (n : ℕ) (theta : List ℝ) (nReplicas nSamples nIters : ℕ)
    (tol : ℝ) : ℕ → Option (List ℝ) → List ℝ → List Replica → Prog (List ℝ × List Replica)
  | 0, _, beta, reps => .ret (beta, reps)
  | k + 1, old, beta, reps =>
    let go := (acceptanceRatio calcE n beta nSamples nIters ((List.range (nReplicas - 1)).map fun i => (i, i + 1))
      reps).bind fun r =>
        (Prog.ofPy (iterateBeta beta r.1)).bind fun nb =>
          match nb with
          | none => .fail .assertion
          | some nb => optimizeLoop calcE n theta nReplicas nSamples nIters tol k (some beta) nb
              (updateReplicas theta nb r.2)
    match old with
    | none => go
    | some old =>
      if tol < (List.zipWith (fun a b => |a - b|) old beta).sum / (beta.length : ℝ) then go else .ret (beta, reps)

/-- samplers.py:615-666, 675-691 the constructor: the inverse temperatures and the replicas. -/
noncomputable def tempering (calcE : List ℤ → List ℝ → ℝ) (n : ℕ) (theta : List ℝ) (nReplicas : ℕ) (T0 T1 : ℝ)
    (replicaBurnin : Option ℕ) : Prog (List ℝ × List Replica) :=
  if ¬ (T0 < T1 ∧ T0 > 0) then .fail .assertion
  else if ¬ nReplicas > 1 then .fail .assertion
  else
    let burn := burnOr replicaBurnin (n * 50)
    let beta := initializeBeta (1 / T1) (1 / T0) nReplicas
    let reps := beta.zipIdx.map fun bi : ℝ × ℕ => (⟨theta.map (· * bi.1), [], none, [], bi.2⟩ : Replica)
    (burnInReplicas calcE n burn reps).bind fun reps =>
      (optimizeLoop calcE n theta nReplicas 10 (n * 10) (1 / 100) 10 none beta reps).bind fun br =>
        (burnInReplicas calcE n burn br.2).bind fun reps =>
          if ∀ i < br.1.length - 1, br.1.getD i 0 < br.1.getD (i + 1) 0 then .ret (br.1, reps) else .fail .assertion

end Verif.Model
