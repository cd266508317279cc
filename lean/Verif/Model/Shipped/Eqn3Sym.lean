/-
Text of coniii/ising_eqn/ising_eqn_3_sym.py, copied from the repository.
-/
import Verif.Model.Shipped.Licence

set_option maxRecDepth 100000

namespace Verif.Model

/-- coniii/ising_eqn/ising_eqn_3_sym.py:1-81, all lines (the licence is the same in all files). A statement that
goes on over several lines is one entry. -/
noncomputable def ising_eqn_3_sym : List (List Char) :=
  licenceLines (some repoLicence) ++
  [chars! "# Equations for 3-spin Ising model.",
   [],
   chars! "# Written on 2019/09/19.",
   chars! "from numpy import zeros, exp, array, prod, isnan",
   chars! "from ..enumerate import fast_logsumexp",
   [],
   chars! "def calc_observables(params):",
   chars! "    \"\"\"",
   chars! "    Give all parameters concatenated into one array from lowest to highest order.",
   chars! "    Returns all correlations.",
   chars! "    \"\"\"",
   chars! "    Cout = zeros((6))",
   chars! "    H = params[0:3]",
   chars! "    J = params[3:6]",
   List.intercalate ['\n']
     [chars! "    energyTerms = array([    +H[0]+H[1]+H[2]+J[0]+J[1]+J[2], +H[0]+H[1]-H[2]+J[0]-J[1]-J[2], +H[0]-H[1]+H[2]-J[0]+J[1]-J[2], +H[0]-H[1]-H[2]-J[0]-J[1]+",
      chars! "    J[2], -H[0]+H[1]+H[2]-J[0]-J[1]+J[2], -H[0]+H[1]-H[2]-J[0]+J[1]-J[2], -H[0]-H[1]+H[2]+J[0]-J[1]-J[2], -H[0]-H[1]-H[2]+",
      chars! "            J[0]+J[1]+J[2],])"],
   chars! "    logZ = fast_logsumexp(energyTerms)[0]",
   chars! "    num = fast_logsumexp(energyTerms, [ 1, 1, 1, 1,-1,-1,-1,-1])",
   chars! "    Cout[0] = exp( num[0] - logZ ) * num[1]",
   chars! "    num = fast_logsumexp(energyTerms, [ 1, 1,-1,-1, 1, 1,-1,-1])",
   chars! "    Cout[1] = exp( num[0] - logZ ) * num[1]",
   chars! "    num = fast_logsumexp(energyTerms, [ 1,-1, 1,-1, 1,-1, 1,-1])",
   chars! "    Cout[2] = exp( num[0] - logZ ) * num[1]",
   chars! "    num = fast_logsumexp(energyTerms, [ 1, 1,-1,-1,-1,-1, 1, 1])",
   chars! "    Cout[3] = exp( num[0] - logZ ) * num[1]",
   chars! "    num = fast_logsumexp(energyTerms, [ 1,-1, 1,-1,-1, 1,-1, 1])",
   chars! "    Cout[4] = exp( num[0] - logZ ) * num[1]",
   chars! "    num = fast_logsumexp(energyTerms, [ 1,-1,-1, 1, 1,-1,-1, 1])",
   chars! "    Cout[5] = exp( num[0] - logZ ) * num[1]",
   chars! "    Cout[isnan(Cout)] = 0.",
   chars! "    return(Cout)",
   [],
   chars! "def p(params):",
   chars! "    \"\"\"",
   chars! "    Give all parameters concatenated into one array from lowest to highest order.",
   chars! "    Returns probabilities of all configurations.",
   chars! "    \"\"\"",
   chars! "    Cout = zeros((6))",
   chars! "    H = params[0:3]",
   chars! "    J = params[3:6]",
   chars! "    H = params[0:3]",
   chars! "    J = params[3:6]",
   chars! "    Pout = zeros((8))",
   List.intercalate ['\n']
     [chars! "    energyTerms = array([    +H[0]+H[1]+H[2]+J[0]+J[1]+J[2], +H[0]+H[1]-H[2]+J[0]-J[1]-J[2], +H[0]-H[1]+H[2]-J[0]+J[1]-J[2], +H[0]-H[1]-H[2]-J[0]-J[1]+",
      chars! "    J[2], -H[0]+H[1]+H[2]-J[0]-J[1]+J[2], -H[0]+H[1]-H[2]-J[0]+J[1]-J[2], -H[0]-H[1]+H[2]+J[0]-J[1]-J[2], -H[0]-H[1]-H[2]+",
      chars! "            J[0]+J[1]+J[2],])"],
   chars! "    logZ = fast_logsumexp(energyTerms)[0]",
   chars! "    Pout[0] = exp( +H[0]+H[1]+H[2]+J[0]+J[1]+J[2] - logZ )",
   chars! "    Pout[1] = exp( +H[0]+H[1]-H[2]+J[0]-J[1]-J[2] - logZ )",
   chars! "    Pout[2] = exp( +H[0]-H[1]+H[2]-J[0]+J[1]-J[2] - logZ )",
   chars! "    Pout[3] = exp( +H[0]-H[1]-H[2]-J[0]-J[1]+J[2] - logZ )",
   chars! "    Pout[4] = exp( -H[0]+H[1]+H[2]-J[0]-J[1]+J[2] - logZ )",
   chars! "    Pout[5] = exp( -H[0]+H[1]-H[2]-J[0]+J[1]-J[2] - logZ )",
   chars! "    Pout[6] = exp( -H[0]-H[1]+H[2]+J[0]-J[1]-J[2] - logZ )",
   chars! "    Pout[7] = exp( -H[0]-H[1]-H[2]+J[0]+J[1]+J[2] - logZ )",
   [],
   chars! "    Pout = Pout[::-1]",
   chars! "    return(Pout)"]

end Verif.Model
