/-
coniii/samplers.py: the Metropolis sampler (the Python implementation) in floating-point arithmetic. Random numbers are real numbers
here, as in Verif/Model/Rand.lean.
-/
import Verif.Model.FloatMpf
import Verif.Model.Metropolis

namespace Verif.Model
open Verif FlArith

/-- samplers.py:1673-1714 `Metropolis.sample_metropolis`; `calcE s` is what `calc_e(s[None,:], theta)` computes. -/
noncomputable def sampleMetropolisFl (A : FlArith) (calcE : List ℤ → Fl) (flipSite : Option ℕ) (s : List ℤ) (E0 : Fl) :
    Prog (List ℤ × Fl) :=
  (chooseSite flipSite s).bind fun i =>
    if i < s.length then
      let s1 := negAt s i
      let de := A.sub (calcE s1) E0
      if lt (.num 0) de = true then
        .rand fun u => if lt (A.exp (neg de)) (.num u) = true then .ret (negAt s1 i, .num 0) else .ret (s1, de)
      else .ret (s1, de)
    else .fail .indexError

/-- samplers.py:1273-1275, 1277-1279 one iteration: `de = self.sample_metropolis(...); E += de`. -/
noncomputable def metroIterFl (A : FlArith) (calcE : List ℤ → Fl) (n : ℕ) (systematic : Bool) (j : ℕ) (st : List ℤ × Fl) :
    Prog (List ℤ × Fl) :=
  (Prog.ofPy (siteArg n systematic j)).bind fun site =>
    (sampleMetropolisFl A calcE site st.1 st.2).bind fun r => .ret (r.1, A.add st.2 r.2)

/-- `for j in range(m)` with these iterations. -/
noncomputable def metroRunFl (A : FlArith) (calcE : List ℤ → Fl) (n : ℕ) (systematic : Bool) (m : ℕ) (st : List ℤ × Fl) :
    Prog (List ℤ × Fl) :=
  Prog.forEach (metroIterFl A calcE n systematic) (List.range m) st

/-- samplers.py:1267-1279, 1306-1323 `generate_sample_py` after the first state `s` is chosen, without history: `burn` iterations,
then `sampleSize` times `nIters` iterations, after each of which the state and the energy are recorded in `self.sample` and
`self.E`. -/
noncomputable def metroSampleFl (A : FlArith) (calcE : List ℤ → Fl) (n : ℕ) (systematic : Bool) (burn sampleSize nIters : ℕ)
    (s : List ℤ) : Prog (List (List ℤ) × List Fl) :=
  (metroRunFl A calcE n systematic burn (s, calcE s)).bind fun st =>
    (Prog.forEach (fun _ (acc : (List ℤ × Fl) × List (List ℤ) × List Fl) =>
      (metroRunFl A calcE n systematic nIters acc.1).bind fun st' =>
        .ret (st', acc.2.1 ++ [st'.1], acc.2.2 ++ [st'.2])) (List.range sampleSize) (st, [], [])).bind fun r => .ret r.2

end Verif.Model
