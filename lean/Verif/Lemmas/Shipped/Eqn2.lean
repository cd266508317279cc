/-
The text of coniii/ising_eqn/ising_eqn_2.py is the text that `write_py` writes (checked by the kernel).
-/
import Verif.Model.Shipped.Eqn2

set_option maxRecDepth 100000

namespace Verif.Lemmas
open Verif Verif.Model

theorem ising_eqn_2_text : isWritten 2 false (pairwiseIx 2) (chars! "2019/09/19") ising_eqn_2 = true := by
  decide +kernel

end Verif.Lemmas
