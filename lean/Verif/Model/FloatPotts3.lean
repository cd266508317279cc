/-
coniii/samplers.py: the Metropolis sampler of the three-state Potts model in floating-point arithmetic. Random numbers are real
numbers here, as in Verif/Model/Rand.lean.
-/
import Verif.Model.FloatMetropolis

namespace Verif.Model
open Verif FlArith

/-- samplers.py:1862-1905 `Potts3.sample_metropolis`; `calcE s` is what `calc_e(s[None,:], theta)` computes. -/
noncomputable def sampleMetropolisPotts3Fl (A : FlArith) (calcE : List ℤ → Fl) (flipSite : Option ℕ) (s : List ℤ) (E0 : Fl) :
    Prog (List ℤ × Fl) :=
  (chooseSite flipSite s).bind fun i =>
    if i < s.length then
      let oState := s.getD i 0
      (Prog.randint 2).bind fun r =>
        let s1 := s.set i ((oState + (1 + r)) % 3)
        let de := A.sub (calcE s1) E0
        if lt (.num 0) de = true then
          .rand fun u => if lt (A.exp (neg de)) (.num u) = true then .ret (s1.set i oState, .num 0) else .ret (s1, de)
        else .ret (s1, de)
    else .fail .indexError

/-- samplers.py:1273-1275, 1277-1279 (inherited from `Metropolis`) one iteration: `de = self.sample_metropolis(...); E += de`. -/
noncomputable def metroIterPotts3Fl (A : FlArith) (calcE : List ℤ → Fl) (n : ℕ) (systematic : Bool) (j : ℕ) (st : List ℤ × Fl) :
    Prog (List ℤ × Fl) :=
  (Prog.ofPy (siteArg n systematic j)).bind fun site =>
    (sampleMetropolisPotts3Fl A calcE site st.1 st.2).bind fun r => .ret (r.1, A.add st.2 r.2)

/-- `for j in range(m)` with these iterations. -/
noncomputable def metroRunPotts3Fl (A : FlArith) (calcE : List ℤ → Fl) (n : ℕ) (systematic : Bool) (m : ℕ) (st : List ℤ × Fl) :
    Prog (List ℤ × Fl) :=
  Prog.forEach (metroIterPotts3Fl A calcE n systematic) (List.range m) st

end Verif.Model
