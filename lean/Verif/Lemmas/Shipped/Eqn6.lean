/-
The text of coniii/ising_eqn/ising_eqn_6.py is the text that `write_py` writes (checked by the kernel).
-/
import Verif.Model.Shipped.Eqn6
import Verif.Lemmas.Shipped.Eqn5SymTriplet

set_option maxRecDepth 100000

namespace Verif.Lemmas
open Verif Verif.Model

theorem ising_eqn_6_text : isWritten 6 false (pairwiseIx 6) (chars! "2019/09/19") ising_eqn_6 = true := by
  decide +kernel

end Verif.Lemmas
