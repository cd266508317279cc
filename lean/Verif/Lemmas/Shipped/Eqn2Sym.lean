/-
The text of coniii/ising_eqn/ising_eqn_2_sym.py is the text that `write_py` writes (checked by the kernel).
-/
import Verif.Model.Shipped.Eqn2Sym
import Verif.Lemmas.Shipped.Eqn2

set_option maxRecDepth 100000

namespace Verif.Lemmas
open Verif Verif.Model

theorem ising_eqn_2_sym_text : isWritten 2 true (pairwiseIx 2) (chars! "2019/09/19") ising_eqn_2_sym = true := by
  decide +kernel

end Verif.Lemmas
