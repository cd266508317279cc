/-
The text of coniii/ising_eqn/ising_eqn_3.py is the text that `write_py` writes (checked by the kernel).
-/
import Verif.Model.Shipped.Eqn3
import Verif.Lemmas.Shipped.Eqn2Sym

set_option maxRecDepth 100000

namespace Verif.Lemmas
open Verif Verif.Model

theorem ising_eqn_3_text : isWritten 3 false (pairwiseIx 3) (chars! "2019/09/19") ising_eqn_3 = true := by
  decide +kernel

end Verif.Lemmas
