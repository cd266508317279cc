/-
The text of coniii/ising_eqn/ising_eqn_6_sym.py is the text that `write_py` writes (checked by the kernel).
-/
import Verif.Model.Shipped.Eqn6Sym
import Verif.Lemmas.Shipped.Eqn6

set_option maxRecDepth 100000

namespace Verif.Lemmas
open Verif Verif.Model

theorem ising_eqn_6_sym_text : isWritten 6 true (pairwiseIx 6) (chars! "2019/09/19") ising_eqn_6_sym = true := by
  decide +kernel

end Verif.Lemmas
