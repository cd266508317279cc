/-
cpp/samplers.cpp and the Python methods that call it (coniii/samplers.py).
`double` is a field here. A `std::vector` is a list; reading outside a vector is undefined in C++ and gives 0
here. A failing `assert` is an error (`ndebug = false`), or nothing (`ndebug = true`, with which Python's default
compiler flags build the extension).
-/
import Verif.Model.Index
import Verif.Model.Metropolis

namespace Verif.Model
open Verif

section energy
variable {K : Type*} [Ring K]

/-- `M[i][j] = v`. -/
def setEntry (M : Mat K) (i j : ℕ) (v : K) : Mat K := M.set i ((M.getD i []).set j v)

/-- cpp/samplers.cpp:57-62, 294-299, 384-389 the coupling matrix; the couplings are read from position `off`
of the parameter vector on: `n` in `Ising` and in the constructor of `Sampler` from a `std::vector`, `3n` in the
constructor of `Potts3` from an array. -/
def cppCouplingMat (n off : ℕ) (m : List K) : Mat K :=
  ((loopPairs n).foldl (fun (st : Mat K × ℕ) p =>
    (setEntry (setEntry st.1 p.2 p.1 (m.getD (st.2 + off) 0)) p.1 p.2 (m.getD (st.2 + off) 0), st.2 + 1))
    (List.replicate n (List.replicate n 0), 0)).1

/-- `s[i]` as a number. -/
def spinAt (s : List ℤ) (i : ℕ) : K := ((s.getD i 0 : ℤ) : K)

/-- cpp/samplers.cpp:331-344 `Ising::calc_e`. -/
def cppIsingCalcE (n : ℕ) (m : List K) (s : List ℤ) : K :=
  let r := (pyRange 0 (n - 1)).foldl (fun (st : K × ℕ) i =>
    (pyRange (i + 1) n).foldl (fun (st : K × ℕ) j =>
      (st.1 - m.getD (st.2 + n) 0 * spinAt s i * spinAt s j, st.2 + 1))
      (st.1 - m.getD i 0 * spinAt s i, st.2)) (0, 0)
  r.1 - m.getD (n - 1) 0 * spinAt s (n - 1)

/-- cpp/samplers.cpp:350-355 the energy change in `Ising::sample_metropolis`; `s` is the flipped state. -/
def cppIsingDe (n : ℕ) (m : List K) (M : Mat K) (i : ℕ) (s : List ℤ) : K :=
  (List.range n).foldl (fun de k => de - 2 * M.at' i k * spinAt s i * spinAt s k)
    (-2 * m.getD i 0 * spinAt s i)

/-- cpp/samplers.cpp:418-448 `Potts3::calc_e`. -/
def cppPottsCalcE (n : ℕ) (m : List K) (s : List ℤ) : K :=
  let r := (pyRange 0 (n - 1)).foldl (fun (st : K × ℕ) i =>
    (pyRange (i + 1) n).foldl (fun (st : K × ℕ) j =>
      (if s.getD i 0 = s.getD j 0 then st.1 - m.getD (st.2 + 3 * n) 0 else st.1, st.2 + 1))
      (if s.getD i 0 = 0 then st.1 - m.getD i 0
        else if s.getD i 0 = 1 then st.1 - m.getD (i + n) 0 else st.1 - m.getD (i + 2 * n) 0, st.2)) (0, 0)
  if s.getD (n - 1) 0 = 0 then r.1 - m.getD (n - 1) 0
  else if s.getD (n - 1) 0 = 1 then r.1 - m.getD (2 * n - 1) 0 else r.1 - m.getD (3 * n - 1) 0

/-- cpp/samplers.cpp:457-469 the energy change in `Potts3::sample_metropolis`; `s` is the changed state. -/
def cppPottsDe (n : ℕ) (m : List K) (M : Mat K) (i : ℕ) (oState : ℤ) (s : List ℤ) : K :=
  (List.range n).foldl (fun de k =>
    let de1 := if oState = s.getD k 0 then de + M.at' i k else de
    if s.getD i 0 = s.getD k 0 then de1 - M.at' i k else de1)
    (0 + m.getD (oState.toNat * n + i) 0 - m.getD ((s.getD i 0).toNat * n + i) 0)

end energy

/-- `virtual double sample_metropolis(std::vector<int>&, int const)`: the state after it and the value
returned. -/
abbrev CppMove := ℕ → List ℤ → Prog (List ℤ × ℝ)

/-- cpp/samplers.cpp:347-362 `Ising::sample_metropolis`. -/
noncomputable def cppIsingMove (n : ℕ) (m : List ℝ) (M : Mat ℝ) : CppMove := fun i s =>
  let s1 := negAt s i
  let de := cppIsingDe n m M i s1
  if de > 0 then
    .rand fun u => if u > Real.exp (-de) then .ret (negAt s1 i, 0) else .ret (s1, de)
  else .ret (s1, de)

/-- cpp/samplers.cpp:451-476 `Potts3::sample_metropolis`. -/
noncomputable def cppPottsMove (n : ℕ) (m : List ℝ) (M : Mat ℝ) : CppMove := fun i s =>
  let oState := s.getD i 0
  (Prog.randint 2).bind fun r =>
    let s1 := s.set i (((1 + r) + oState) % 3)
    let de := cppPottsDe n m M i oState s1
    if de > 0 then
      .rand fun u => if u > Real.exp (-de) then .ret (s1.set i oState, 0) else .ret (s1, de)
    else .ret (s1, de)

/-- cpp/samplers.cpp:317-329 `Ising::init_sample`. -/
def cppIsingInit (n : ℕ) : Prog (List ℤ) :=
  Prog.mapEach (fun _ => (Prog.randint 2).bind fun b => .ret (if b = 0 then 1 else -1)) (List.range n)

/-- cpp/samplers.cpp:406-414 `Potts3::init_sample`. -/
def cppPottsInit (n : ℕ) : Prog (List ℤ) :=
  Prog.mapEach (fun _ => (Prog.randint 3).bind fun b => .ret (b : ℤ)) (List.range n)

/-- The next site: `counter%n`, or a random one. (`n = 0` is undefined in C++.) -/
def cppSite (n : ℕ) (systematic : Bool) (counter : ℕ) : Prog ℕ :=
  if systematic then (if n = 0 then .fail .zeroDivision else .ret (counter % n)) else Prog.randint n

/-- One iteration: state, energy and counter. -/
def cppIter (move : CppMove) (n : ℕ) (systematic : Bool) (st : (List ℤ × ℝ) × ℕ) : Prog ((List ℤ × ℝ) × ℕ) :=
  (cppSite n systematic st.2).bind fun i =>
    (move i st.1.1).bind fun r => .ret ((r.1, st.1.2 + r.2), st.2 + 1)

/-- cpp/samplers.cpp:108-132 the loops of `Sampler::generate_sample` from the state `s` on; the rows
recorded. -/
def cppChain (iter : (List ℤ × ℝ) × ℕ → Prog ((List ℤ × ℝ) × ℕ)) (nSamples burnIn nIters : ℕ)
    (s : List ℤ) (e : ℝ) : Prog (List (List ℤ)) :=
  (Prog.forEach (fun (_ : ℕ) st => iter st) (List.range burnIn) ((s, e), 0)).bind fun st =>
    (Prog.forEach (fun (_ : ℕ) acc =>
      (Prog.forEach (fun (_ : ℕ) st => iter st) (List.range nIters) acc.1).bind fun st' =>
        .ret (st', acc.2 ++ [st'.1.1])) (List.range nSamples) (st, ([] : List (List ℤ)))).bind fun r =>
      .ret r.2

/-- cpp/samplers.cpp:92-133 `Sampler::generate_sample`. -/
def cppGenerateSample (init : Prog (List ℤ)) (calcE : List ℤ → ℝ) (move : CppMove) (n nSamples burnIn nIters : ℕ)
    (systematic : Bool) : Prog (List (List ℤ)) :=
  init.bind fun s => cppChain (cppIter move n systematic) nSamples burnIn nIters s (calcE s)

/-- cpp/samplers.cpp:156-164 `non_ix`: the sites that are not in `ix`. -/
def cppNonIx (n : ℕ) (ix : List ℕ) : List ℕ :=
  ((List.range n).foldl (fun (st : List ℕ × ℕ) i =>
    if st.2 < ix.length ∧ i ≠ ix.getD st.2 0 then (st.1 ++ [i], st.2)
    else if st.2 < ix.length then (st.1, st.2 + 1)
    else (st.1 ++ [i], st.2)) ([], 0)).1

/-- cpp/samplers.cpp:179-185, 190-196 one iteration with some spins fixed; `k = n - ix.size()`. -/
def cppCondIter (move : CppMove) (nonIx : List ℕ) (k : ℕ) (systematic : Bool) (st : (List ℤ × ℝ) × ℕ) :
    Prog ((List ℤ × ℝ) × ℕ) :=
  (if systematic then (if k = 0 then .fail .zeroDivision else .ret (nonIx.getD (st.2 % k) 0, st.2 + 1))
    else (Prog.randint k).bind fun r => .ret (nonIx.getD r 0, st.2)).bind fun ic : ℕ × ℕ =>
    (move ic.1 st.1.1).bind fun r => .ret ((r.1, st.1.2 + r.2), ic.2)

/-- cpp/samplers.cpp:135-201 `Sampler::generate_cond_sample` for the fixed sites `ix` with values `vals`. -/
def cppGenerateCondSample (ndebug : Bool) (init : Prog (List ℤ)) (calcE : List ℤ → ℝ) (move : CppMove)
    (n : ℕ) (ix : List ℕ) (vals : List ℤ) (nSamples burnIn nIters : ℕ) (systematic : Bool) :
    Prog (List (List ℤ)) :=
  if ndebug = false ∧ (ix.length ≠ vals.length ∨ ix.length + (cppNonIx n ix).length ≠ n) then .fail .assertion
  else init.bind fun s0 =>
    let s := (ix.zip vals).foldl (fun s p => s.set p.1 p.2) s0
    cppChain (cppCondIter move (cppNonIx n ix) (n - ix.length) systematic) nSamples burnIn nIters s (calcE s)

/-- cpp/samplers.cpp:286-314 `BoostIsing(n, theta, seed)`: the multipliers and the coupling matrix. -/
def boostIsing (ndebug : Bool) (n : ℕ) (theta : List ℝ) : Py (List ℝ × Mat ℝ) :=
  if ndebug = false ∧ theta.length ≠ n + n * (n - 1) / 2 then .error .assertion
  else .ok (theta, cppCouplingMat n n theta)

/-- cpp/samplers.cpp:375-404 `BoostPotts3(n, theta, seed)`. -/
def boostPotts3 (ndebug : Bool) (n : ℕ) (theta : List ℝ) : Py (List ℝ × Mat ℝ) :=
  if ndebug = false ∧ theta.length ≠ n * 3 + n * (n - 1) / 2 then .error .assertion
  else .ok (theta, cppCouplingMat n (n * 3) theta)

/-- cpp/samplers.cpp:368-373 with 35-67, the constructor of `Potts3` from a `std::vector` (not reachable from
Python): the coupling matrix is filled by the constructor of `Sampler`. -/
def cppPotts3FromVector (ndebug : Bool) (n : ℕ) (theta : List ℝ) : Py (List ℝ × Mat ℝ) :=
  if ndebug = false ∧ theta.length ≠ n * 3 + n * (n - 1) / 2 then .error .assertion
  else .ok (theta, cppCouplingMat n n theta)

/-- `bsampler.generate_sample(...)` of a `BoostIsing`. -/
noncomputable def boostIsingSample (n : ℕ) (b : List ℝ × Mat ℝ) (nSamples burnIn nIters : ℕ)
    (systematic : Bool) : Prog (List (List ℤ)) :=
  cppGenerateSample (cppIsingInit n) (cppIsingCalcE n b.1) (cppIsingMove n b.1 b.2) n nSamples burnIn nIters
    systematic

/-- `bsampler.generate_sample(...)` of a `BoostPotts3`. -/
noncomputable def boostPottsSample (n : ℕ) (b : List ℝ × Mat ℝ) (nSamples burnIn nIters : ℕ)
    (systematic : Bool) : Prog (List (List ℤ)) :=
  cppGenerateSample (cppPottsInit n) (cppPottsCalcE n b.1) (cppPottsMove n b.1 b.2) n nSamples burnIn nIters
    systematic

/-- samplers.py:1193-1225 `Metropolis.generate_sample_boost`, also inherited by `Potts3`; `theta` is
`self.theta`. The new `self.sample` (`self.E` is not set). -/
noncomputable def generateSampleBoost (ndebug : Bool) (n : ℕ) (theta : List ℝ) (sampleSize nIters : ℕ)
    (burnIn : Option ℕ) (systematic : Bool) : Prog (List (List ℤ)) :=
  if sampleSize = 0 then .fail .assertion
  else (Prog.ofPy (boostIsing ndebug n theta)).bind fun b =>
    boostIsingSample n b sampleSize (burnOr burnIn nIters) nIters systematic

/-- samplers.py:1357-1363 the rows of all processes put together. -/
def boostParallel (nCpus sampleSize : ℕ) (one : ℕ → Prog (List (List ℤ))) : Prog (List (List ℤ)) :=
  (Prog.mapEach (fun _ => one ((sampleSize + nCpus - 1) / nCpus)) (List.range nCpus)).bind fun rs =>
    .ret (rs.flatten.take sampleSize)

/-- samplers.py:1325-1363 `Metropolis.generate_sample_parallel_boost` on `nCpus` processors. -/
noncomputable def generateSampleParallelBoost (ndebug : Bool) (n : ℕ) (theta : List ℝ) (nCpus sampleSize nIters : ℕ)
    (burnIn : Option ℕ) (systematic : Bool) : Prog (List (List ℤ)) :=
  boostParallel nCpus sampleSize fun q =>
    (Prog.ofPy (boostIsing ndebug n theta)).bind fun b =>
      boostIsingSample n b q (burnOr burnIn nIters) nIters systematic

/-- samplers.py:1819-1860 `Potts3.generate_sample_parallel_boost`. -/
noncomputable def generateSampleParallelBoostPotts3 (ndebug : Bool) (n : ℕ) (theta : List ℝ)
    (nCpus sampleSize nIters : ℕ) (burnIn : Option ℕ) (systematic : Bool) : Prog (List (List ℤ)) :=
  if nCpus < 2 ∨ sampleSize ≤ nCpus then .fail .assertion
  else boostParallel nCpus sampleSize fun q =>
    (Prog.ofPy (boostPotts3 ndebug n theta)).bind fun b =>
      boostPottsSample n b q (burnOr burnIn nIters) nIters systematic

/-- samplers.py:1484-1493 the checks of `generate_cond_sample_boost` and `generate_cond_sample_py` on the fixed
spins: `zip(*fixed_subset)` of an empty list has no entry 0; the sites must increase; the values must be -1
or 1. -/
def checkFixed (fixed : List (ℕ × ℤ)) : Py Unit :=
  if fixed = [] then .error .indexError
  else if ¬ (fixed.map Prod.fst).IsChain (· < ·) then .error .assertion
  else if ¬ ∀ p ∈ fixed, p.2 = -1 ∨ p.2 = 1 then .error .assertion
  else .ok ()

/-- samplers.py:1448-1521 `generate_cond_sample_boost`; `parallel = some nCpus` for the parallel
version. -/
noncomputable def generateCondSampleBoost (ndebug : Bool) (n : ℕ) (theta : List ℝ) (parallel : Option ℕ)
    (sampleSize : ℕ) (fixed : List (ℕ × ℤ)) (burnIn nIters : ℕ) (systematic : Bool) :
    Prog (List (List ℤ)) :=
  if sampleSize = 0 then .fail .assertion
  else (Prog.ofPy (checkFixed fixed)).bind fun _ =>
    let one := fun q => (Prog.ofPy (boostIsing ndebug n theta)).bind fun b =>
      cppGenerateCondSample ndebug (cppIsingInit n) (cppIsingCalcE n b.1) (cppIsingMove n b.1 b.2) n
        (fixed.map Prod.fst) (fixed.map Prod.snd) q (burnOr (some burnIn) nIters) nIters systematic
    match parallel with
    | none => one sampleSize
    | some nCpus => boostParallel nCpus sampleSize one

end Verif.Model
