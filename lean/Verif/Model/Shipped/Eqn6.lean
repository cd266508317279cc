/-
Text of coniii/ising_eqn/ising_eqn_6.py, copied from the repository.
-/
import Verif.Model.Shipped.Licence

set_option maxRecDepth 100000

namespace Verif.Model

/-- coniii/ising_eqn/ising_eqn_6.py:1-229, all lines (the licence is the same in all files). A statement that
goes on over several lines is one entry. -/
noncomputable def ising_eqn_6 : List (List Char) :=
  licenceLines (some repoLicence) ++
  [chars! "# Equations for 6-spin Ising model.",
   [],
   chars! "# Written on 2019/09/19.",
   chars! "from numpy import zeros, exp, array, prod, isnan",
   chars! "from ..enumerate import fast_logsumexp",
   [],
   chars! "def calc_observables(params):",
   chars! "    \"\"\"",
   chars! "    Give all parameters concatenated into one array from lowest to highest order.",
   chars! "    Returns all correlations.",
   chars! "    \"\"\"",
   chars! "    Cout = zeros((21))",
   chars! "    H = params[0:6]",
   chars! "    J = params[6:21]",
   List.intercalate ['\n']
     [chars! "    energyTerms = array([    +0, +H[5]+0, +H[4]+0, +H[4]+H[5]+J[14], +H[3]+0, +H[3]+H[5]+J[13], +H[3]+H[4]+J[12], +H[3]+H[4]+H[5]+",
      chars! "    J[12]+J[13]+J[14], +H[2]+0, +H[2]+H[5]+J[11], +H[2]+H[4]+J[10], +H[2]+H[4]+H[5]+J[10]+J[11]+J[14], +",
      chars! "    H[2]+H[3]+J[9], +H[2]+H[3]+H[5]+J[9]+J[11]+J[13], +H[2]+H[3]+H[4]+J[9]+J[10]+J[12], +H[2]+H[3]+H[4]+",
      chars! "    H[5]+J[9]+J[10]+J[11]+J[12]+J[13]+J[14], +H[1]+0, +H[1]+H[5]+J[8], +H[1]+H[4]+J[7], +H[1]+H[4]+H[5]+",
      chars! "    J[7]+J[8]+J[14], +H[1]+H[3]+J[6], +H[1]+H[3]+H[5]+J[6]+J[8]+J[13], +H[1]+H[3]+H[4]+J[6]+J[7]+J[12], +",
      chars! "    H[1]+H[3]+H[4]+H[5]+J[6]+J[7]+J[8]+J[12]+J[13]+J[14], +H[1]+H[2]+J[5], +H[1]+H[2]+H[5]+J[5]+J[8]+J[11], +",
      chars! "    H[1]+H[2]+H[4]+J[5]+J[7]+J[10], +H[1]+H[2]+H[4]+H[5]+J[5]+J[7]+J[8]+J[10]+J[11]+J[14], +H[1]+H[2]+H[3]+",
      chars! "    J[5]+J[6]+J[9], +H[1]+H[2]+H[3]+H[5]+J[5]+J[6]+J[8]+J[9]+J[11]+J[13], +H[1]+H[2]+H[3]+H[4]+J[5]+J[6]+",
      chars! "    J[7]+J[9]+J[10]+J[12], +H[1]+H[2]+H[3]+H[4]+H[5]+J[5]+J[6]+J[7]+J[8]+J[9]+J[10]+J[11]+J[12]+J[13]+J[14], +",
      chars! "    H[0]+0, +H[0]+H[5]+J[4], +H[0]+H[4]+J[3], +H[0]+H[4]+H[5]+J[3]+J[4]+J[14], +H[0]+H[3]+J[2], +H[0]+H[3]+",
      chars! "    H[5]+J[2]+J[4]+J[13], +H[0]+H[3]+H[4]+J[2]+J[3]+J[12], +H[0]+H[3]+H[4]+H[5]+J[2]+J[3]+J[4]+J[12]+J[13]+",
      chars! "    J[14], +H[0]+H[2]+J[1], +H[0]+H[2]+H[5]+J[1]+J[4]+J[11], +H[0]+H[2]+H[4]+J[1]+J[3]+J[10], +H[0]+H[2]+",
      chars! "    H[4]+H[5]+J[1]+J[3]+J[4]+J[10]+J[11]+J[14], +H[0]+H[2]+H[3]+J[1]+J[2]+J[9], +H[0]+H[2]+H[3]+H[5]+J[1]+",
      chars! "    J[2]+J[4]+J[9]+J[11]+J[13], +H[0]+H[2]+H[3]+H[4]+J[1]+J[2]+J[3]+J[9]+J[10]+J[12], +H[0]+H[2]+H[3]+H[4]+",
      chars! "    H[5]+J[1]+J[2]+J[3]+J[4]+J[9]+J[10]+J[11]+J[12]+J[13]+J[14], +H[0]+H[1]+J[0], +H[0]+H[1]+H[5]+J[0]+J[4]+",
      chars! "    J[8], +H[0]+H[1]+H[4]+J[0]+J[3]+J[7], +H[0]+H[1]+H[4]+H[5]+J[0]+J[3]+J[4]+J[7]+J[8]+J[14], +H[0]+H[1]+",
      chars! "    H[3]+J[0]+J[2]+J[6], +H[0]+H[1]+H[3]+H[5]+J[0]+J[2]+J[4]+J[6]+J[8]+J[13], +H[0]+H[1]+H[3]+H[4]+J[0]+",
      chars! "    J[2]+J[3]+J[6]+J[7]+J[12], +H[0]+H[1]+H[3]+H[4]+H[5]+J[0]+J[2]+J[3]+J[4]+J[6]+J[7]+J[8]+J[12]+J[13]+",
      chars! "    J[14], +H[0]+H[1]+H[2]+J[0]+J[1]+J[5], +H[0]+H[1]+H[2]+H[5]+J[0]+J[1]+J[4]+J[5]+J[8]+J[11], +H[0]+H[1]+",
      chars! "    H[2]+H[4]+J[0]+J[1]+J[3]+J[5]+J[7]+J[10], +H[0]+H[1]+H[2]+H[4]+H[5]+J[0]+J[1]+J[3]+J[4]+J[5]+J[7]+J[8]+",
      chars! "    J[10]+J[11]+J[14], +H[0]+H[1]+H[2]+H[3]+J[0]+J[1]+J[2]+J[5]+J[6]+J[9], +H[0]+H[1]+H[2]+H[3]+H[5]+J[0]+",
      chars! "    J[1]+J[2]+J[4]+J[5]+J[6]+J[8]+J[9]+J[11]+J[13], +H[0]+H[1]+H[2]+H[3]+H[4]+J[0]+J[1]+J[2]+J[3]+J[5]+J[6]+",
      chars! "    J[7]+J[9]+J[10]+J[12], +H[0]+H[1]+H[2]+H[3]+H[4]+H[5]+J[0]+J[1]+J[2]+J[3]+J[4]+J[5]+J[6]+J[7]+J[8]+J[9]+",
      chars! "            J[10]+J[11]+J[12]+J[13]+J[14],])"],
   chars! "    logZ = fast_logsumexp(energyTerms)[0]",
   List.intercalate ['\n']
     [chars! "    num = fast_logsumexp(energyTerms, [0,0,0,0,0,0,0,0,0,0,0,0,0,0,0,0,0,0,0,0,0,0,0,0,0,0,0,0,0,0,0,0,1,1,1,1,1,",
      chars! " 1,1,1,1,1,1,1,1,1,1,1,1,1,1,1,1,1,1,1,1,1,1,1,1,1,1,1])"],
   chars! "    Cout[0] = exp( num[0] - logZ ) * num[1]",
   List.intercalate ['\n']
     [chars! "    num = fast_logsumexp(energyTerms, [0,0,0,0,0,0,0,0,0,0,0,0,0,0,0,0,1,1,1,1,1,1,1,1,1,1,1,1,1,1,1,1,0,0,0,0,0,",
      chars! " 0,0,0,0,0,0,0,0,0,0,0,1,1,1,1,1,1,1,1,1,1,1,1,1,1,1,1])"],
   chars! "    Cout[1] = exp( num[0] - logZ ) * num[1]",
   List.intercalate ['\n']
     [chars! "    num = fast_logsumexp(energyTerms, [0,0,0,0,0,0,0,0,1,1,1,1,1,1,1,1,0,0,0,0,0,0,0,0,1,1,1,1,1,1,1,1,0,0,0,0,0,",
      chars! " 0,0,0,1,1,1,1,1,1,1,1,0,0,0,0,0,0,0,0,1,1,1,1,1,1,1,1])"],
   chars! "    Cout[2] = exp( num[0] - logZ ) * num[1]",
   List.intercalate ['\n']
     [chars! "    num = fast_logsumexp(energyTerms, [0,0,0,0,1,1,1,1,0,0,0,0,1,1,1,1,0,0,0,0,1,1,1,1,0,0,0,0,1,1,1,1,0,0,0,0,1,",
      chars! " 1,1,1,0,0,0,0,1,1,1,1,0,0,0,0,1,1,1,1,0,0,0,0,1,1,1,1])"],
   chars! "    Cout[3] = exp( num[0] - logZ ) * num[1]",
   List.intercalate ['\n']
     [chars! "    num = fast_logsumexp(energyTerms, [0,0,1,1,0,0,1,1,0,0,1,1,0,0,1,1,0,0,1,1,0,0,1,1,0,0,1,1,0,0,1,1,0,0,1,1,0,",
      chars! " 0,1,1,0,0,1,1,0,0,1,1,0,0,1,1,0,0,1,1,0,0,1,1,0,0,1,1])"],
   chars! "    Cout[4] = exp( num[0] - logZ ) * num[1]",
   List.intercalate ['\n']
     [chars! "    num = fast_logsumexp(energyTerms, [0,1,0,1,0,1,0,1,0,1,0,1,0,1,0,1,0,1,0,1,0,1,0,1,0,1,0,1,0,1,0,1,0,1,0,1,0,",
      chars! " 1,0,1,0,1,0,1,0,1,0,1,0,1,0,1,0,1,0,1,0,1,0,1,0,1,0,1])"],
   chars! "    Cout[5] = exp( num[0] - logZ ) * num[1]",
   List.intercalate ['\n']
     [chars! "    num = fast_logsumexp(energyTerms, [0,0,0,0,0,0,0,0,0,0,0,0,0,0,0,0,0,0,0,0,0,0,0,0,0,0,0,0,0,0,0,0,0,0,0,0,0,",
      chars! " 0,0,0,0,0,0,0,0,0,0,0,1,1,1,1,1,1,1,1,1,1,1,1,1,1,1,1])"],
   chars! "    Cout[6] = exp( num[0] - logZ ) * num[1]",
   List.intercalate ['\n']
     [chars! "    num = fast_logsumexp(energyTerms, [0,0,0,0,0,0,0,0,0,0,0,0,0,0,0,0,0,0,0,0,0,0,0,0,0,0,0,0,0,0,0,0,0,0,0,0,0,",
      chars! " 0,0,0,1,1,1,1,1,1,1,1,0,0,0,0,0,0,0,0,1,1,1,1,1,1,1,1])"],
   chars! "    Cout[7] = exp( num[0] - logZ ) * num[1]",
   List.intercalate ['\n']
     [chars! "    num = fast_logsumexp(energyTerms, [0,0,0,0,0,0,0,0,0,0,0,0,0,0,0,0,0,0,0,0,0,0,0,0,0,0,0,0,0,0,0,0,0,0,0,0,1,",
      chars! " 1,1,1,0,0,0,0,1,1,1,1,0,0,0,0,1,1,1,1,0,0,0,0,1,1,1,1])"],
   chars! "    Cout[8] = exp( num[0] - logZ ) * num[1]",
   List.intercalate ['\n']
     [chars! "    num = fast_logsumexp(energyTerms, [0,0,0,0,0,0,0,0,0,0,0,0,0,0,0,0,0,0,0,0,0,0,0,0,0,0,0,0,0,0,0,0,0,0,1,1,0,",
      chars! " 0,1,1,0,0,1,1,0,0,1,1,0,0,1,1,0,0,1,1,0,0,1,1,0,0,1,1])"],
   chars! "    Cout[9] = exp( num[0] - logZ ) * num[1]",
   List.intercalate ['\n']
     [chars! "    num = fast_logsumexp(energyTerms, [0,0,0,0,0,0,0,0,0,0,0,0,0,0,0,0,0,0,0,0,0,0,0,0,0,0,0,0,0,0,0,0,0,1,0,1,0,",
      chars! " 1,0,1,0,1,0,1,0,1,0,1,0,1,0,1,0,1,0,1,0,1,0,1,0,1,0,1])"],
   chars! "    Cout[10] = exp( num[0] - logZ ) * num[1]",
   List.intercalate ['\n']
     [chars! "    num = fast_logsumexp(energyTerms, [0,0,0,0,0,0,0,0,0,0,0,0,0,0,0,0,0,0,0,0,0,0,0,0,1,1,1,1,1,1,1,1,0,0,0,0,0,",
      chars! " 0,0,0,0,0,0,0,0,0,0,0,0,0,0,0,0,0,0,0,1,1,1,1,1,1,1,1])"],
   chars! "    Cout[11] = exp( num[0] - logZ ) * num[1]",
   List.intercalate ['\n']
     [chars! "    num = fast_logsumexp(energyTerms, [0,0,0,0,0,0,0,0,0,0,0,0,0,0,0,0,0,0,0,0,1,1,1,1,0,0,0,0,1,1,1,1,0,0,0,0,0,",
      chars! " 0,0,0,0,0,0,0,0,0,0,0,0,0,0,0,1,1,1,1,0,0,0,0,1,1,1,1])"],
   chars! "    Cout[12] = exp( num[0] - logZ ) * num[1]",
   List.intercalate ['\n']
     [chars! "    num = fast_logsumexp(energyTerms, [0,0,0,0,0,0,0,0,0,0,0,0,0,0,0,0,0,0,1,1,0,0,1,1,0,0,1,1,0,0,1,1,0,0,0,0,0,",
      chars! " 0,0,0,0,0,0,0,0,0,0,0,0,0,1,1,0,0,1,1,0,0,1,1,0,0,1,1])"],
   chars! "    Cout[13] = exp( num[0] - logZ ) * num[1]",
   List.intercalate ['\n']
     [chars! "    num = fast_logsumexp(energyTerms, [0,0,0,0,0,0,0,0,0,0,0,0,0,0,0,0,0,1,0,1,0,1,0,1,0,1,0,1,0,1,0,1,0,0,0,0,0,",
      chars! " 0,0,0,0,0,0,0,0,0,0,0,0,1,0,1,0,1,0,1,0,1,0,1,0,1,0,1])"],
   chars! "    Cout[14] = exp( num[0] - logZ ) * num[1]",
   List.intercalate ['\n']
     [chars! "    num = fast_logsumexp(energyTerms, [0,0,0,0,0,0,0,0,0,0,0,0,1,1,1,1,0,0,0,0,0,0,0,0,0,0,0,0,1,1,1,1,0,0,0,0,0,",
      chars! " 0,0,0,0,0,0,0,1,1,1,1,0,0,0,0,0,0,0,0,0,0,0,0,1,1,1,1])"],
   chars! "    Cout[15] = exp( num[0] - logZ ) * num[1]",
   List.intercalate ['\n']
     [chars! "    num = fast_logsumexp(energyTerms, [0,0,0,0,0,0,0,0,0,0,1,1,0,0,1,1,0,0,0,0,0,0,0,0,0,0,1,1,0,0,1,1,0,0,0,0,0,",
      chars! " 0,0,0,0,0,1,1,0,0,1,1,0,0,0,0,0,0,0,0,0,0,1,1,0,0,1,1])"],
   chars! "    Cout[16] = exp( num[0] - logZ ) * num[1]",
   List.intercalate ['\n']
     [chars! "    num = fast_logsumexp(energyTerms, [0,0,0,0,0,0,0,0,0,1,0,1,0,1,0,1,0,0,0,0,0,0,0,0,0,1,0,1,0,1,0,1,0,0,0,0,0,",
      chars! " 0,0,0,0,1,0,1,0,1,0,1,0,0,0,0,0,0,0,0,0,1,0,1,0,1,0,1])"],
   chars! "    Cout[17] = exp( num[0] - logZ ) * num[1]",
   List.intercalate ['\n']
     [chars! "    num = fast_logsumexp(energyTerms, [0,0,0,0,0,0,1,1,0,0,0,0,0,0,1,1,0,0,0,0,0,0,1,1,0,0,0,0,0,0,1,1,0,0,0,0,0,",
      chars! " 0,1,1,0,0,0,0,0,0,1,1,0,0,0,0,0,0,1,1,0,0,0,0,0,0,1,1])"],
   chars! "    Cout[18] = exp( num[0] - logZ ) * num[1]",
   List.intercalate ['\n']
     [chars! "    num = fast_logsumexp(energyTerms, [0,0,0,0,0,1,0,1,0,0,0,0,0,1,0,1,0,0,0,0,0,1,0,1,0,0,0,0,0,1,0,1,0,0,0,0,0,",
      chars! " 1,0,1,0,0,0,0,0,1,0,1,0,0,0,0,0,1,0,1,0,0,0,0,0,1,0,1])"],
   chars! "    Cout[19] = exp( num[0] - logZ ) * num[1]",
   List.intercalate ['\n']
     [chars! "    num = fast_logsumexp(energyTerms, [0,0,0,1,0,0,0,1,0,0,0,1,0,0,0,1,0,0,0,1,0,0,0,1,0,0,0,1,0,0,0,1,0,0,0,1,0,",
      chars! " 0,0,1,0,0,0,1,0,0,0,1,0,0,0,1,0,0,0,1,0,0,0,1,0,0,0,1])"],
   chars! "    Cout[20] = exp( num[0] - logZ ) * num[1]",
   chars! "    Cout[isnan(Cout)] = 0.",
   chars! "    return(Cout)",
   [],
   chars! "def p(params):",
   chars! "    \"\"\"",
   chars! "    Give all parameters concatenated into one array from lowest to highest order.",
   chars! "    Returns probabilities of all configurations.",
   chars! "    \"\"\"",
   chars! "    Cout = zeros((21))",
   chars! "    H = params[0:6]",
   chars! "    J = params[6:21]",
   chars! "    H = params[0:6]",
   chars! "    J = params[6:21]",
   chars! "    Pout = zeros((64))",
   List.intercalate ['\n']
     [chars! "    energyTerms = array([    +0, +H[5]+0, +H[4]+0, +H[4]+H[5]+J[14], +H[3]+0, +H[3]+H[5]+J[13], +H[3]+H[4]+J[12], +H[3]+H[4]+H[5]+",
      chars! "    J[12]+J[13]+J[14], +H[2]+0, +H[2]+H[5]+J[11], +H[2]+H[4]+J[10], +H[2]+H[4]+H[5]+J[10]+J[11]+J[14], +",
      chars! "    H[2]+H[3]+J[9], +H[2]+H[3]+H[5]+J[9]+J[11]+J[13], +H[2]+H[3]+H[4]+J[9]+J[10]+J[12], +H[2]+H[3]+H[4]+",
      chars! "    H[5]+J[9]+J[10]+J[11]+J[12]+J[13]+J[14], +H[1]+0, +H[1]+H[5]+J[8], +H[1]+H[4]+J[7], +H[1]+H[4]+H[5]+",
      chars! "    J[7]+J[8]+J[14], +H[1]+H[3]+J[6], +H[1]+H[3]+H[5]+J[6]+J[8]+J[13], +H[1]+H[3]+H[4]+J[6]+J[7]+J[12], +",
      chars! "    H[1]+H[3]+H[4]+H[5]+J[6]+J[7]+J[8]+J[12]+J[13]+J[14], +H[1]+H[2]+J[5], +H[1]+H[2]+H[5]+J[5]+J[8]+J[11], +",
      chars! "    H[1]+H[2]+H[4]+J[5]+J[7]+J[10], +H[1]+H[2]+H[4]+H[5]+J[5]+J[7]+J[8]+J[10]+J[11]+J[14], +H[1]+H[2]+H[3]+",
      chars! "    J[5]+J[6]+J[9], +H[1]+H[2]+H[3]+H[5]+J[5]+J[6]+J[8]+J[9]+J[11]+J[13], +H[1]+H[2]+H[3]+H[4]+J[5]+J[6]+",
      chars! "    J[7]+J[9]+J[10]+J[12], +H[1]+H[2]+H[3]+H[4]+H[5]+J[5]+J[6]+J[7]+J[8]+J[9]+J[10]+J[11]+J[12]+J[13]+J[14], +",
      chars! "    H[0]+0, +H[0]+H[5]+J[4], +H[0]+H[4]+J[3], +H[0]+H[4]+H[5]+J[3]+J[4]+J[14], +H[0]+H[3]+J[2], +H[0]+H[3]+",
      chars! "    H[5]+J[2]+J[4]+J[13], +H[0]+H[3]+H[4]+J[2]+J[3]+J[12], +H[0]+H[3]+H[4]+H[5]+J[2]+J[3]+J[4]+J[12]+J[13]+",
      chars! "    J[14], +H[0]+H[2]+J[1], +H[0]+H[2]+H[5]+J[1]+J[4]+J[11], +H[0]+H[2]+H[4]+J[1]+J[3]+J[10], +H[0]+H[2]+",
      chars! "    H[4]+H[5]+J[1]+J[3]+J[4]+J[10]+J[11]+J[14], +H[0]+H[2]+H[3]+J[1]+J[2]+J[9], +H[0]+H[2]+H[3]+H[5]+J[1]+",
      chars! "    J[2]+J[4]+J[9]+J[11]+J[13], +H[0]+H[2]+H[3]+H[4]+J[1]+J[2]+J[3]+J[9]+J[10]+J[12], +H[0]+H[2]+H[3]+H[4]+",
      chars! "    H[5]+J[1]+J[2]+J[3]+J[4]+J[9]+J[10]+J[11]+J[12]+J[13]+J[14], +H[0]+H[1]+J[0], +H[0]+H[1]+H[5]+J[0]+J[4]+",
      chars! "    J[8], +H[0]+H[1]+H[4]+J[0]+J[3]+J[7], +H[0]+H[1]+H[4]+H[5]+J[0]+J[3]+J[4]+J[7]+J[8]+J[14], +H[0]+H[1]+",
      chars! "    H[3]+J[0]+J[2]+J[6], +H[0]+H[1]+H[3]+H[5]+J[0]+J[2]+J[4]+J[6]+J[8]+J[13], +H[0]+H[1]+H[3]+H[4]+J[0]+",
      chars! "    J[2]+J[3]+J[6]+J[7]+J[12], +H[0]+H[1]+H[3]+H[4]+H[5]+J[0]+J[2]+J[3]+J[4]+J[6]+J[7]+J[8]+J[12]+J[13]+",
      chars! "    J[14], +H[0]+H[1]+H[2]+J[0]+J[1]+J[5], +H[0]+H[1]+H[2]+H[5]+J[0]+J[1]+J[4]+J[5]+J[8]+J[11], +H[0]+H[1]+",
      chars! "    H[2]+H[4]+J[0]+J[1]+J[3]+J[5]+J[7]+J[10], +H[0]+H[1]+H[2]+H[4]+H[5]+J[0]+J[1]+J[3]+J[4]+J[5]+J[7]+J[8]+",
      chars! "    J[10]+J[11]+J[14], +H[0]+H[1]+H[2]+H[3]+J[0]+J[1]+J[2]+J[5]+J[6]+J[9], +H[0]+H[1]+H[2]+H[3]+H[5]+J[0]+",
      chars! "    J[1]+J[2]+J[4]+J[5]+J[6]+J[8]+J[9]+J[11]+J[13], +H[0]+H[1]+H[2]+H[3]+H[4]+J[0]+J[1]+J[2]+J[3]+J[5]+J[6]+",
      chars! "    J[7]+J[9]+J[10]+J[12], +H[0]+H[1]+H[2]+H[3]+H[4]+H[5]+J[0]+J[1]+J[2]+J[3]+J[4]+J[5]+J[6]+J[7]+J[8]+J[9]+",
      chars! "            J[10]+J[11]+J[12]+J[13]+J[14],])"],
   chars! "    logZ = fast_logsumexp(energyTerms)[0]",
   chars! "    Pout[0] = exp( +0 - logZ )",
   chars! "    Pout[1] = exp( +H[5]+0 - logZ )",
   chars! "    Pout[2] = exp( +H[4]+0 - logZ )",
   chars! "    Pout[3] = exp( +H[4]+H[5]+J[14] - logZ )",
   chars! "    Pout[4] = exp( +H[3]+0 - logZ )",
   chars! "    Pout[5] = exp( +H[3]+H[5]+J[13] - logZ )",
   chars! "    Pout[6] = exp( +H[3]+H[4]+J[12] - logZ )",
   chars! "    Pout[7] = exp( +H[3]+H[4]+H[5]+J[12]+J[13]+J[14] - logZ )",
   chars! "    Pout[8] = exp( +H[2]+0 - logZ )",
   chars! "    Pout[9] = exp( +H[2]+H[5]+J[11] - logZ )",
   chars! "    Pout[10] = exp( +H[2]+H[4]+J[10] - logZ )",
   chars! "    Pout[11] = exp( +H[2]+H[4]+H[5]+J[10]+J[11]+J[14] - logZ )",
   chars! "    Pout[12] = exp( +H[2]+H[3]+J[9] - logZ )",
   chars! "    Pout[13] = exp( +H[2]+H[3]+H[5]+J[9]+J[11]+J[13] - logZ )",
   chars! "    Pout[14] = exp( +H[2]+H[3]+H[4]+J[9]+J[10]+J[12] - logZ )",
   chars! "    Pout[15] = exp( +H[2]+H[3]+H[4]+H[5]+J[9]+J[10]+J[11]+J[12]+J[13]+J[14] - logZ )",
   chars! "    Pout[16] = exp( +H[1]+0 - logZ )",
   chars! "    Pout[17] = exp( +H[1]+H[5]+J[8] - logZ )",
   chars! "    Pout[18] = exp( +H[1]+H[4]+J[7] - logZ )",
   chars! "    Pout[19] = exp( +H[1]+H[4]+H[5]+J[7]+J[8]+J[14] - logZ )",
   chars! "    Pout[20] = exp( +H[1]+H[3]+J[6] - logZ )",
   chars! "    Pout[21] = exp( +H[1]+H[3]+H[5]+J[6]+J[8]+J[13] - logZ )",
   chars! "    Pout[22] = exp( +H[1]+H[3]+H[4]+J[6]+J[7]+J[12] - logZ )",
   chars! "    Pout[23] = exp( +H[1]+H[3]+H[4]+H[5]+J[6]+J[7]+J[8]+J[12]+J[13]+J[14] - logZ )",
   chars! "    Pout[24] = exp( +H[1]+H[2]+J[5] - logZ )",
   chars! "    Pout[25] = exp( +H[1]+H[2]+H[5]+J[5]+J[8]+J[11] - logZ )",
   chars! "    Pout[26] = exp( +H[1]+H[2]+H[4]+J[5]+J[7]+J[10] - logZ )",
   chars! "    Pout[27] = exp( +H[1]+H[2]+H[4]+H[5]+J[5]+J[7]+J[8]+J[10]+J[11]+J[14] - logZ )",
   chars! "    Pout[28] = exp( +H[1]+H[2]+H[3]+J[5]+J[6]+J[9] - logZ )",
   chars! "    Pout[29] = exp( +H[1]+H[2]+H[3]+H[5]+J[5]+J[6]+J[8]+J[9]+J[11]+J[13] - logZ )",
   chars! "    Pout[30] = exp( +H[1]+H[2]+H[3]+H[4]+J[5]+J[6]+J[7]+J[9]+J[10]+J[12] - logZ )",
   chars! "    Pout[31] = exp( +H[1]+H[2]+H[3]+H[4]+H[5]+J[5]+J[6]+J[7]+J[8]+J[9]+J[10]+J[11]+J[12]+J[13]+J[14] - logZ )",
   chars! "    Pout[32] = exp( +H[0]+0 - logZ )",
   chars! "    Pout[33] = exp( +H[0]+H[5]+J[4] - logZ )",
   chars! "    Pout[34] = exp( +H[0]+H[4]+J[3] - logZ )",
   chars! "    Pout[35] = exp( +H[0]+H[4]+H[5]+J[3]+J[4]+J[14] - logZ )",
   chars! "    Pout[36] = exp( +H[0]+H[3]+J[2] - logZ )",
   chars! "    Pout[37] = exp( +H[0]+H[3]+H[5]+J[2]+J[4]+J[13] - logZ )",
   chars! "    Pout[38] = exp( +H[0]+H[3]+H[4]+J[2]+J[3]+J[12] - logZ )",
   chars! "    Pout[39] = exp( +H[0]+H[3]+H[4]+H[5]+J[2]+J[3]+J[4]+J[12]+J[13]+J[14] - logZ )",
   chars! "    Pout[40] = exp( +H[0]+H[2]+J[1] - logZ )",
   chars! "    Pout[41] = exp( +H[0]+H[2]+H[5]+J[1]+J[4]+J[11] - logZ )",
   chars! "    Pout[42] = exp( +H[0]+H[2]+H[4]+J[1]+J[3]+J[10] - logZ )",
   chars! "    Pout[43] = exp( +H[0]+H[2]+H[4]+H[5]+J[1]+J[3]+J[4]+J[10]+J[11]+J[14] - logZ )",
   chars! "    Pout[44] = exp( +H[0]+H[2]+H[3]+J[1]+J[2]+J[9] - logZ )",
   chars! "    Pout[45] = exp( +H[0]+H[2]+H[3]+H[5]+J[1]+J[2]+J[4]+J[9]+J[11]+J[13] - logZ )",
   chars! "    Pout[46] = exp( +H[0]+H[2]+H[3]+H[4]+J[1]+J[2]+J[3]+J[9]+J[10]+J[12] - logZ )",
   chars! "    Pout[47] = exp( +H[0]+H[2]+H[3]+H[4]+H[5]+J[1]+J[2]+J[3]+J[4]+J[9]+J[10]+J[11]+J[12]+J[13]+J[14] - logZ )",
   chars! "    Pout[48] = exp( +H[0]+H[1]+J[0] - logZ )",
   chars! "    Pout[49] = exp( +H[0]+H[1]+H[5]+J[0]+J[4]+J[8] - logZ )",
   chars! "    Pout[50] = exp( +H[0]+H[1]+H[4]+J[0]+J[3]+J[7] - logZ )",
   chars! "    Pout[51] = exp( +H[0]+H[1]+H[4]+H[5]+J[0]+J[3]+J[4]+J[7]+J[8]+J[14] - logZ )",
   chars! "    Pout[52] = exp( +H[0]+H[1]+H[3]+J[0]+J[2]+J[6] - logZ )",
   chars! "    Pout[53] = exp( +H[0]+H[1]+H[3]+H[5]+J[0]+J[2]+J[4]+J[6]+J[8]+J[13] - logZ )",
   chars! "    Pout[54] = exp( +H[0]+H[1]+H[3]+H[4]+J[0]+J[2]+J[3]+J[6]+J[7]+J[12] - logZ )",
   chars! "    Pout[55] = exp( +H[0]+H[1]+H[3]+H[4]+H[5]+J[0]+J[2]+J[3]+J[4]+J[6]+J[7]+J[8]+J[12]+J[13]+J[14] - logZ )",
   chars! "    Pout[56] = exp( +H[0]+H[1]+H[2]+J[0]+J[1]+J[5] - logZ )",
   chars! "    Pout[57] = exp( +H[0]+H[1]+H[2]+H[5]+J[0]+J[1]+J[4]+J[5]+J[8]+J[11] - logZ )",
   chars! "    Pout[58] = exp( +H[0]+H[1]+H[2]+H[4]+J[0]+J[1]+J[3]+J[5]+J[7]+J[10] - logZ )",
   chars! "    Pout[59] = exp( +H[0]+H[1]+H[2]+H[4]+H[5]+J[0]+J[1]+J[3]+J[4]+J[5]+J[7]+J[8]+J[10]+J[11]+J[14] - logZ )",
   chars! "    Pout[60] = exp( +H[0]+H[1]+H[2]+H[3]+J[0]+J[1]+J[2]+J[5]+J[6]+J[9] - logZ )",
   chars! "    Pout[61] = exp( +H[0]+H[1]+H[2]+H[3]+H[5]+J[0]+J[1]+J[2]+J[4]+J[5]+J[6]+J[8]+J[9]+J[11]+J[13] - logZ )",
   chars! "    Pout[62] = exp( +H[0]+H[1]+H[2]+H[3]+H[4]+J[0]+J[1]+J[2]+J[3]+J[5]+J[6]+J[7]+J[9]+J[10]+J[12] - logZ )",
   chars! "    Pout[63] = exp( +H[0]+H[1]+H[2]+H[3]+H[4]+H[5]+J[0]+J[1]+J[2]+J[3]+J[4]+J[5]+J[6]+J[7]+J[8]+J[9]+J[10]+J[11]+J[12]+J[13]+J[14] - logZ )",
   [],
   chars! "    return(Pout)"]

end Verif.Model
