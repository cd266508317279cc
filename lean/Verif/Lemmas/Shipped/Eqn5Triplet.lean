/-
The text of coniii/ising_eqn/ising_eqn_5_triplet.py is the text that `write_py` writes (checked by the kernel).
-/
import Verif.Model.Shipped.Eqn5Triplet
import Verif.Lemmas.Shipped.Eqn5Sym

set_option maxRecDepth 100000

namespace Verif.Lemmas
open Verif Verif.Model

theorem ising_eqn_5_triplet_text : isWritten 5 false (tripletIx 5) (chars! "2019/09/19") ising_eqn_5_triplet = true := by
  decide +kernel

end Verif.Lemmas
