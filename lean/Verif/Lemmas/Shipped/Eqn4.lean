/-
The text of coniii/ising_eqn/ising_eqn_4.py is the text that `write_py` writes (checked by the kernel).
-/
import Verif.Model.Shipped.Eqn4
import Verif.Lemmas.Shipped.Eqn3Sym

set_option maxRecDepth 100000

namespace Verif.Lemmas
open Verif Verif.Model

theorem ising_eqn_4_text : isWritten 4 false (pairwiseIx 4) (chars! "2019/09/19") ising_eqn_4 = true := by
  decide +kernel

end Verif.Lemmas
