# Formal model of coniii: design

Source: `/repo` (eltrompetero/coniii, pinned), read as text only. Model and proofs:
`/verif/lean/Verif`. Claims: `properties.jsonl`; theorem names: `MANIFEST.json`;
mutation log: `seeded/LOG.jsonl`.

## 1. Trusted base

* Lean 4.33.0 kernel, and Mathlib as installed. No axiom of our own, no `sorry`,
  no `native_decide`, no `bv_decide`, no `implemented_by`, no `unsafe`. Each theorem depends
  on at most `propext`, `Classical.choice`, `Quot.sound` (checked with `#print axioms`).
* The correspondence between the Python/C++ text and the Lean definitions. It was made by
  reading; each definition cites the file and lines it follows. `/repo` was never run.
* The stated meaning of library calls (section 3).

## 2. How the code is modelled

* **Shallow model, function by function**, in `Verif/Model`. Python loops become folds or
  recursions over the same index ranges in the same order; exceptions are values
  (`Except PyErr`), so that error branches are results like any other.
* **Numbers.** Floating point numbers become elements of an arbitrary field (algebraic code)
  or real numbers (code with exp/log/sqrt). Rounding, overflow, NaN and infinities are *not*
  modelled, except where the code's behaviour depends on them by design: the log of zero
  in `fast_logsumexp` (modelled by a `-inf` value; C132 models this function and the generated modules
  over floating-point values with rounding, overflow and NaN) and the rounded logarithm in `base_repr`
  (modelled by an arbitrary estimate within stated limits).
* **Arrays** become lists (vectors) and lists of lists or `i j`-indexed functions (matrices).
  Out-of-range reads by numba code (undefined behaviour) are avoided by explicit shape
  hypotheses.
* **Randomness** becomes a program over ideal random numbers (`Verif/Model/Rand.lean`): a `Prog`
  returns, raises, or asks for a uniform integer below a bound or a uniform real in [0,1).
  Two meanings are used (`Verif/Spec/Rand.lean`): statements for *every* stream of drawn numbers
  (`Returns`, `Always`, `run`) and statements about probability (`expectation`, `prob`, where
  an integer draw is an average and a real draw an integral over [0,1)). Seeds, and the quality of
  the pseudo-random generators, are outside the model; processes of a pool draw independently.
* **Loops without a bound** (`while`) are recursions with fuel that return `diverge` when the fuel
  is used up; a theorem says which fuel suffices, or that none does.
* **Sets**: the iteration order and `set.pop` are parameters (oracles), and theorems hold for all
  of them.
* **Generated code** (`enumerate.py`, `enumerate_potts.py`): the text written to the module is
  modelled as text, and an evaluator for the expressions that occur gives it meaning. Line breaks
  inserted by numpy when it prints arrays are left out.
* **C++** (`samplers.cpp`): the classes are modelled with and without `NDEBUG`; reads out of range
  are excluded by hypotheses, and `abort` by an assertion is an error value.
* **External solvers** (scipy root/minimize/leastsq/eig) are parameters; only what is handed to
  them is modelled, and claims about results are conditional on what they report.
* **Not modelled:** floating-point error (except in C127, C132 to C138), wall-clock time, memory, warnings and printing, numba
  compilation, the boost binding glue, matlab output, the conditional sampling of `MCHIncompleteData` (it calls the method
  `generate_cond_samples`, which does not exist; see C112), the methods of `HamiltonianMC` and
  `Heisenberg3DSampler` other than those of C87 and C88, plotting and file-system paths.

## 3. Assumptions on libraries

| call | meaning used |
|---|---|
| `itertools.combinations(range(n),k)` | strictly increasing k-tuples in lexicographic order |
| `np.binary_repr(i,width=n)` | binary digits of i, most significant first, padded with 0 to width n (`'0'` for i=0, n=0) |
| `np.insert(x, idx, v)` (list idx) | each v is put before the element whose *original* index is in idx |
| `np.delete`, `list.pop` | removal at an index; index -1 is the last |
| `np.argmax` | first position of the maximum |
| `np.unique` on rows | distinct rows in some fixed total order, with inverse/counts |
| `scipy squareform` | vector of length m(m-1)/2 <-> symmetric m x m zero-diagonal matrix, row-major pairs; other lengths raise; an empty vector gives a 1 x 1 zero matrix |
| floating-point arithmetic in C132, C133 | monotone symmetric rounding that keeps naturals up to 2^53; `exp`, `log` within their ranges (C132) and accurate (C133); any order of summation |
| floating-point arithmetic in C134, C135 | as C132, with relative accuracy down to the inverse of the largest number, doubling exact, logarithms at most 1024; C135 also takes `exp` to be monotone |
| floating-point arithmetic in C136 | as C132 and C133 (rounding monotone, symmetric, exact for integers up to 2^53, absolute and relative accuracy ε); overflow: `exp` is not negative and exceeds the largest number from some argument on |
| floating-point arithmetic in C137 | as C132, C133 and C134 (absolute accuracy ε, relative accuracy ε down to the reciprocal of the largest number); sums of numpy, `dot` and `logsumexp` in any order; overflow: `exp` exceeds the largest number from some argument on |
| floating-point arithmetic in C138 | as C132 and C133; random numbers are real numbers, uniform on [0,1) |
| `scipy logsumexp` | log of the sum of exponentials |
| RNG calls | arbitrary numbers in the documented range; uniform for the statements about probability |
| `np.random.permutation` | every order of the entries, all equally likely |
| `scipy.optimize.minimize`, `root`, `leastsq` | oracles; assumptions are hypotheses of the theorems |
| `scipy.linalg.eig` | oracle; for C89 assumed to return orthonormal real eigenvectors of a symmetric matrix |
| numpy broadcasting, `+=` on int16 arrays | repetition of dimensions of length one, wrapping modulo 2^16 |
| `multiprocessing.Pool.map` | map |

## 4. Plan per property

| id | model | proof |
|---|---|---|
| C01-C02 | `sub_to_ind`, `ind_to_sub` as sums/scans | induction on i; position in the explicit pair list |
| C03 | `unravel_index` with its nested binomial sums | induction on the tuple; hockey-stick identities |
| C04 | `bin_states`, `xbin_states` via binary digits | induction on n; rows = digit expansion; Nodup + completeness |
| C05-C06 | `_small_base`, `_large_base` with the exponent estimate as a parameter | equality with `Nat.digits`; the alphabet is checked digit by digit; expected false for bases >= 19 (letters I and J exchanged), to be shown by witness |
| C07-C09 | `pair_corr`, `k_corr` option by option | equality with weighted sums; `k_corr` exclude_empty expected false by witness |
| C10-C12 | `convert_corr`, `convert_params` over a field | ring identities and finite sums |
| C13-C14 | `ising_convert_params` with flat arrays and `unravel_index` | multilinear expansion over subsets; uniqueness of multilinear coefficients |
| C15 | `split_concat_params` as a fuelled loop | append/split induction; non-termination for long input shown by invariance |
| C16-C17 | matrix helpers | index lemmas; the vacuous length check gives a witness |
| C18 | `state_probs` | counting |
| C19-C22, C25 | helper functions | fold = sum lemmas |
| C23 | `mch_approximation` over the reals | weighted means, reweighting identity |
| C24 | `adj`, `adj_sym` with in-place flips | list update lemmas |
| C26 | `coarse_grain_with_func` with arbitrary similarity matrices | permutation invariant; expected false when similarities are not positive |
| C27-C30 | generated modules: abstract syntax of the terms, and the text | expectation identities over all states |
| C31 | Potts generator | as above; k > 10 expected to fail |
| C32 | index cubes | direct |
| C33-C34 | constructors | case analysis; the 2 x 2 matrix case expected false |
| C35 | `set_insertion_ix`, `np.insert` | induction over positions; single-position list expected to raise |
| C36-C37 | moments map of the exponential family | Gibbs inequality, linear independence of parity functions |
| C38-C39 | `K`, `logK` | derivatives; `logK` gradient expected false by witness |
| C40-C42 | pseudolikelihood objectives | derivatives; initial guess expected false for r >= 2 |
| C43-C45 | MCH loops with the sampler as oracle | loop invariants |
| C46-C49 | cluster expansion | Moebius inversion with a memo table; order dependence expected by witness |
| C50-C53 | Metropolis | measure of the accepting uniforms, detailed balance, invariance by induction |
| C54-C56 | C++ updates and conditional sampling | finite-sum algebra, `np.insert` lemma |
| C57-C58 | parallel tempering | invariants; positivity of beta expected false |
| C59-C60 | cluster search | worklist invariants |
| C61 | Heisenberg | derivatives |
| C62-C66 | mean-field helpers | index lemmas, sums |
| C67-C68 | regularised mean field | argmin; expected false by witness in part |
| C69 | `find_basin` as a fuelled descent | each step lowers the energy, finitely many states; spec: steepest-descent path to a local minimum |
| C70 | `Ising2D`, flips and sweeps as programs | energy difference on a torus; detailed balance, invariance; expected false for the sign of the field |
| C71 | `coarse_grain` with strided slices and 16-bit sums | fold invariant modulo 2^16; expected false for non-square lattices |
| C72-C73 | `Solver.logp`, default constraints | counting; equality with the moments of C07 |
| C74-C75 | `MPF.solve` around an optimiser oracle | conversion lemmas; the true parameters are a stationary minimum |
| C76-C77 | `Pseudo.solve` | assembly of the rows; conditional Gibbs inequality |
| C78-C83 | small-cluster fit and the cluster expansion end to end | moment map, entropy identities, existence by maximising a coercive concave function |
| C84 | the compiled Potts sampler | refinement; expected false for `generate_sample` |
| C85 | Wolff step | sum over clusters and boundary bonds; detailed balance |
| C86-C88 | Heisenberg helpers | derivatives, rotations, time reversal of the leapfrog steps; aliasing of arrays expected to break rejection |
| C89 | mean-field equations | diagonalisation with the eigenvector oracle; bracketing |
| C90 | `ising.utils.Ising` | conversion of C11 with the generated modules of C28-C30 |
| C91 | `Metropolis.generate_sample_py`, Potts3, the compiled samplers (single and parallel), the parallel Python sampler, the samplers with fixed spins (Python and compiled), `WolffIsing.generate_sample` | finite Markov chains: one block of steps reaches every state, so ranges contract; every sampler is shown to return rows of such a chain (`IsRows`); energy constant and systematic sweeps as counterexamples |
| C92 | the same | bound on the second moment of sums over the visited states, by induction over the rows |
| C93 | `FHomogeneous`, `dFdT`, `SHomogeneous`, `avgmHomogeneous`, `avgxHomogeneous` | Gaussian integral of `exp(N log cosh ..)` expanded over all states; `quad` is assumed exact (`QuadExact`) |
| C94 | `independentEntropyHomogeneous`, `..2`, `MultiInfoHomogeneous` | Gibbs inequality against the product distribution; strict because a positive coupling is not a product |
| C95 | `m`, `avgE`, `dmdT`, `specificHeat`, `susc` (scalar arguments) | sign change, monotonicity and derivative of the self-consistency equation; `brentq` is assumed to return a root (`BrentqOk`) |
| C96 | `meanFieldStability` | derivative of the mean-field map equals the matrix whose eigenvalues are taken, up to transposition; `eigvals` is assumed to return the roots of the characteristic polynomial |
| C97 | `coocSampleCovariance` | entries from C66; witnesses for the wrong entries |
| C98 | `cond_log_likelihood`, `cond_jac`, `cond_hess`, `pair_cooc_mat`, `pseudo_log_likelihood` of `Pseudo`; the same in `pseudo_inverse_ising.py` | values equal logarithms of conditional probabilities in the model on states with at least `minSize` ones; derivatives by `HasDerivAt`; witnesses for the Hessian that is passed and for the total |
| C99 | `Pseudo._solve_ising_deprecated`, `pseudoInverseIsing` | Gibbs' inequality in every context gives the minimum, identifiability gives uniqueness; `fmin_ncg` is assumed to find a minimum of the objective, and minima exist (`C99_*_minimum`) |
| C100 | `write_py` (whole text), the files in coniii/ising_eqn for 2 to 6 spins (copied), Python's logical lines, the statements that occur and their execution | Any text that evaluates keeps brackets balanced, so logical lines are the written statements; execution by induction over the statements reduces to C28/C29; the shipped files equal the written text (kernel evaluation). Files for 7 to 9 spins are not copied; `high_prec` not modelled |
| C101 | `SWIsing` (`__init__`, `get_clusters`, `randomly_flip_clusters`, `one_step`, `generate_sample`, `generate_sample_parallel`) | Edwards-Sokal joint weight of bonds and spins is invariant under cluster flips; the flips commute and are reversible; the empty bond set makes every state reachable in one step |
| C102 | `Model` (`setup_sampler`, `set_rng`, `generate_sample`), `set_multipliers`, `calc_p`, `calc_observables` of `Ising`, `Triplet`, `Potts3`; constructors and `update_parameters` of their samplers | invariant of objects over all programs of a user; convergence from C91 with the energy identified as that of the model. The state left behind by an exception is not modelled |
| C103 | `sample_ising` | as C102; the number of spins from the length |
| C104 | `PythonFileWriterBase` and `SpecificFieldGenericCouplings` (whole text, also what is left in the file when writing fails), reading and running of that text | as C100, reducing to C31; more than ten states: the first bad state ends the text inside an open bracket |
| C105 | `Solver.basic_setup`, `MCH.__init__`, `MCH.solve` as one random program with the model object and the sampler of C102 | `solve` returns for all random numbers (invariant of the loop); law of large numbers for the sampler, uniform over bounded parameters that are not all close to zero (bound on the mixing rate), union bound over the rounds |
| C106 | `Metropolis.generate_sample_py` with `systematic_iter=True` | two rounds of sweeps form an irreducible aperiodic chain on the states if these are connected by spins the energy depends on; otherwise every round maps the class of a state into one class for all random numbers (invariant) |
| C107 | `ParallelTempering` (`burn_in_replicas`, `burn_and_exchange`, `generate_sample`) | chain on the list of configurations; exchange and sweeps keep the product of Boltzmann weights; connected by C106 and the exchange of neighbours; otherwise as C106, the exchanges permute configurations |
| C108 | `Enumerate.__init__`, `Enumerate.solve` as an object with its model; exponential families in general | a zero of the objective is a critical point of the strictly concave likelihood; existence by compactness when every direction has a state below the data (`Lemmas/Exists2`), otherwise the direction refutes it; concrete silent failure |
| C109 | `MCH.estimate_jac` with the reweighted means of `mch_approximation` | for ±1 observables `exp(±ε f)` is linear in `f`, so both means are rational functions of averages over the sample: closed form; bounds for `tanh ε/ε`; derivative of an expectation |
| C110 | the objectives of `MPF.solve` (C74) and `Pseudo` (C40) | both are log-sums of exponentials of linear functions (the pseudolikelihood over sets of rows); such a function has a minimum iff it decreases forever in no direction (`Lemmas/Attain`: compactness on a complement of the flat directions); a missing pattern of a pair gives such a direction |
| C111 | `SparseEnumerate.__init__` and `solve` as an object (`np.unique`, `set_insertion_ix`, `fill_in`) | the selected observables are an exponential family of their own: `dot` with the filled-in vector is `dot` with the selection; existence, uniqueness and likelihood as in C108 |
| C112 | `MCHIncompleteData` (`solve` up to the first `generate_sample`, `learn_parameters_mch`, the tables of incomplete rows) | `solve` by cases; the weighted loop over conditional samples by induction, counts regrouped to a mean over rows; learning loop from C43 |
| C113 | constructors of `Pseudo`, `ClusterExpansion`, `RegularizedMeanField`; `Pseudo.solve` with the choice of algorithm | case analysis on top of C40, C41, C76, C77, C82, C110; a start vector that is too short reads past the end in some round |
| C114 | constructor of `SparseMCH` and `SparseMCH.solve` with model and sampler as random program | as C105: invariant of the main loop with the parameters outside the positions zero; Chebyshev bound for each round with a constant uniform in the parameters; `np.insert` for positions beyond the end gives a vector that the sampler refuses |
| C115 | constructor and `solve` of `RegularizedMeanField` with model, sampler, kept states, generators and element types | an evaluation returns for every strength because the mean-field matrix exists whenever no frequency is 0 or 1; evaluations as state changes with an invariant (the compiled sampler draws the same rows for equal parameters); any search on such an objective equals the search on a function; kept states by a generator that gives only zeros |
| C116 | `MPF` as an object: constructor, starting point, bounds, conversion of the result | the conversions are mutually inverse with an explicit {0,1} form (C13, C14), so the box in {0,1} parameters is a set of ±1 parameters; compactness for existence, convexity of the flow for results inside and at the limit; C75 and C110 for data at model frequencies and without optimum |
| C117 | the steps inside `learn_parameters_mch`, with the sample reweighted as by `mch_approximation` | the predicted error is the gradient of a convex function with curvature at most the squared norm of the observables; descent with a factor below 2/curvature (Lemmas/Tilt) gives monotonicity, rate and limit; a separate specification `tiltedMean`, `Mixture` |
| C118 | `learn_settings` and the triplet `mch_approximation` of ipynb/usage_guide.py | invariant of the main loop of `mchSolveP` with the distance to the start, geometric series; the approximation as `tiltedMean` for the negated change, C117's lemmas with the opposite sign |
| C119 | `sample_ising` → `Enumerate.solve`, `Pseudo.solve`, `MPF.solve`, the searches being oracles that find what exists | a convex objective with a unique minimum: every minimum of a nearby objective (frequencies within δ) is near (`stable_avg`, `stable_below`, compactness of spheres); existence from full support (C108, C110); mean-square error of the frequencies ≤ K/size from C92/C106's mixing bounds, then Chebyshev; zero parameters: invariant product of the spins |
| C120 | the data recipe of ipynb/usage_guide.py:81-88 (`p` of the equation module, `bin_states`, `np.random.choice` with probabilities as a random program), then the fits of C119 | integral over the cumulative distribution by induction on the probabilities; independent draws by induction over the rows (product formula, exact variance), Chebyshev, C119's stability |
| C121 | `Triplet` objects, `Enumerate` and `MPF` with `calc_observables` of the triplet helper, `convert_params` for triplets, the module with triplets, the data recipe | models with all interactions of up to m spins (`orderE`) as linear families: injectivity of the parameters from independence of the products, {0,1} form in both directions, convexity and compactness for least flow within the limit, C120's recipe and C119's stability (`stable_below`) for the tolerance |
| C122 | `Pseudo` for `Potts3` objects with the k-state helpers, from constructor to result; `Potts3.generate_sample` | the pseudolikelihood as a convex function on a linear family (`Lemmas/CondExist`): its minima differ only where no conditional probability of the sample notices, and it has one iff no direction is a stable one; the freedom to shift the fields of a spin is removed by a gauge subspace, on which C119's stability argument applies; a law of large numbers for the frequencies of all states for every class of models (`Lemmas/ModelSample`) |
| C123 | `generate_sample` of `Ising` and `Triplet` objects followed by `Enumerate`, `Pseudo`, `MPF` | C122's frequencies with C119's and C121's tolerance theorems |
| C124 | the guide's `summarize` with `error_on_correlations` and `error_on_multipliers`, for pairwise and triplet models | refinement to two Euclidean distances (`Spec/Summary`); zero exactly if means, or parameters, agree; continuity of the model means in the parameters with C120's frequencies and the tolerance theorems of C119, C121 |
| C125 | `ClusterExpansion.solve` on the object, threshold keeping disjoint pairs of the sample (`Spec/PairInfo`: mutual information, fields and couplings of one and two spins) | the loop of the expansion stops after the pairs, Möbius terms of the pairs summed to the model of independent pairs; recovery of a model by flipping one spin; limits along samples close to a model, with C82 and C119 for negative thresholds |
| C126 | the main program of enumerate.py (`sys.argv` to the file written), `write_py` with `high_prec`, `mp_fast_logsumexp`, reading and running of such files; mpmath numbers are real numbers | every line of a module in high precision is read to the statement of the ordinary module, the two `logsumexp` agree, then C100's execution; decision logic for the command line, also the converse: nothing but the documented files is ever written; traps: only the first option counts, a negative number counts as an option |
| C127 | `multinomial`, with the computer's arithmetic as a parameter, and `_expand_binomial` (real numbers) | words counted by induction on their length; coefficients in `MvPolynomial`. Partial: `int` cuts off, so that any rounding error downwards gives one less (proved) |
| C128 | `Ising2D.iterate`, the programs of C70 | the sites that oppose a site are put before it in the order of a sweep, so that all its bonds are satisfied when its turn comes and its flip can be refused: two sweeps may flip exactly one site; from there the kit for finite chains. Partial: the limit has the fields reversed (exact condition proved) |
| C129 | `spec_cluster`; `scipy.linalg.eig` is a parameter: any eigenvalues and independent real eigenvectors of length 1, in exact arithmetic | the kernel of the Laplacian (Mathlib) is spanned by the returned columns, which are constant on components; a gap below the other eigenvalues by walks along a path. Partial: eigenvectors of a kernel are not unique, and a column may join components (witness) |
| C130 | `MCH.__init__`, `MCH.solve` with `calc_observables` one of the three helper functions, `mch_approximation` an arbitrary function of sample and change, models of any class with their samplers (Python and compiled) | the lemmas of C105 for a general class; one mixing bound for all parameters in a range: compactness for spins -1 and 1, two moves per spin for the Potts model; the triplet and Potts calls of the usage guide are instances. Proved; for spins -1 and 1 with the exception that all returned parameters are tiny, as in C105 (where it is shown to be needed). Also: observables of another class are refused when the numbers of parameters differ |
| C131 | `random_sample` of both classes, `init_sample` of both compiled classes, then as C102/C103 | draws are uniform by induction over the spins; the kernels keep the Boltzmann distribution (C50, C54, C56), and the uniform distribution differs from it by factors between exp(-D) and exp(D) |
| C132 | `fast_logsumexp`, `p` and `calc_observables` of the generated modules over floating-point values (rounded numbers, infinities, NaN), with the order of summation as a parameter | by induction over the order of summation every partial sum is between a natural number below and the number of terms; monotone rounding keeps the order of results; case analysis on overflow |
| C133 | as C132, and the entries of `energyTerms` summed from left to right | error analysis: sums by induction over terms and over orders of summation, Lipschitz bounds of exp and log, a signed sum near zero (its logarithm is large, its exponential small), and probabilities for energies that are close |
| C134 | `loglikelihood`, `dloglikelihood` of solvers.py:1775-1777 and 1842-1846 with rounding, infinities and NaN, refined against the real-valued model of C40 | relative error analysis of the logistic function and of log(1+exp), sums over all orders by induction, spread of NaN and infinity; partial: the code overflows for large parameters (witness) |
| C135 | one row of `loglikelihoodPerSample`, `num` and `den` of solvers.py:1916-1958 with rounding, infinities and NaN, refined against the real-valued model of C41 | `logsumexp` as in C132 and C133, the sum over states from left to right by induction, error of a quotient, spread of NaN; partial: the code overflows for large parameters (witness) |
| C136 | `fast_sum` and `calc_e` of utils.py:934-963, `logK` and `K` of solvers.py:527-609 without a gradient, with rounding, refined against the real-valued model of C38 | the loop of `fast_sum` by induction, sums in any order, log-sum-exp as in C133 and its Lipschitz constant; spread of infinity through sums of numbers that are not negative |
| C137 | `mch_approximation` of utils.py:965-974 with the weighted part of `pair_corr` (utils.py:151-185), with rounding; specification: the average with weights exp(-E), E the Ising energy in real numbers | relative errors of weights, sums, the quotient and the product; Lipschitz constant of the average; spread of infinity and NaN through sums and the product with 0 |
| C138 | `Metropolis.sample_metropolis` and the loops of `generate_sample_py` without history (samplers.py:1267-1323, 1673-1714), with rounding; specification: the Ising energy in real numbers and the Metropolis probability | invariant of the loops: the tracked energy is within one step's rounding errors of the energy of the state, because `E1` is computed afresh in every step; Lipschitz constant of the Metropolis probability; law of whole runs by induction on iterations, comparing mixtures; closeness to the Boltzmann distribution for all times by applying C91's rate to the last K iterations only; the same for `Potts3.sample_metropolis` (samplers.py:1862-1905), the rate for updates at random sites |

The outcome for each property (proved or partial, theorem names, what is missing) is in
`MANIFEST.json`. Theorems about a property are named `C##_...` and are in `Verif/Props`; lemmas are in
`Verif/Lemmas`; definitions that only serve to state properties are in `Verif/Spec`. Theorems ending in
`_partial` state what holds where the full claim does not; the theorems that show the failure end in
`_wrong`, `_fails`, `_raises`, or name the case.

## 5. Findings

Places where the code does not do what it says. Each has a theorem unless marked (noted).

States and utilities (`utils.py`)
* `base_repr`: letters I and J are exchanged, so bases 19 to 36 are wrong (C05).
* `bin_states(0)` is `[[0]]`, one state of one spin (C04).
* `pair_corr`: `laplace_count` without `exclude_empty` has no effect (C08).
* `k_corr`: `exclude_empty` has no effect, its result is overwritten (C09).
* `convert_corr` refers to an undefined name in its error branch (C10).
* `split_concat_params` does not end on vectors with more than 2^n - 1 entries (C15).
* `vec2mat(separate_fields=True)` accepts malformed lengths (C16).
* `adj` with random neighbours does not end for no spins (C24).
* `coarse_grain_with_func` merges a column with itself when similarities are not positive (C26).
* The ternary Potts helpers read out of range for other alphabets (C22).

Generated equations (`enumerate.py`, `enumerate_potts.py`)
* `get_nidx(k,n)` raises `NameError` for k < n (C32).
* `enumerate_potts` raises for more than ten states (C31) and leaves behind a file that cannot be imported
  (C104).
* The numba signature of `fast_sum` in the `_sym` modules has its types exchanged (noted).

Models and solvers (`models.py`, `solvers.py`)
* A 2 x 2 coupling matrix is taken for a list `[h, J]` and rejected (C33).
* `generate_sample` and `set_rng` before `setup_sampler` raise `AttributeError`, not the intended assertion;
  without equations `calc_p` is None, and `calc_observables` is missing in `Ising`; after a parallel run with the
  Python sampler a sequential sample of as many rows as processors raises; `Potts3` with the compiled extension
  aborts in sequential sampling (C102).
* `set_insertion_ix` raises `UnboundLocalError` for a single position other than the last (C35).
* `MPF.logK`: every gradient component is off by -log(number of samples); a single parameter raises (C39).
* `MPF` with `all_connected=False` raises `NameError` (C74); the arguments `calc_de` and `adj` are never
  stored (noted).
* `Pseudo._solve_ising` permutes the initial guess for the third spin and later ones (C42).
* `Pseudo`: the gradient is computed as `1/(1+np.exp(2*E)) * np.exp(2*E)`, which is 0 times infinity = NaN in every entry as
  soon as `exp(2E)` overflows for one row (E > 354 in double precision); the objective is then infinite (C134).
* `Pseudo` for the Potts model: `num/den` with `den = -np.exp(-loglikelihoodPerSample)` is infinity over infinity = NaN as soon as
  one `exp(-Edelta)` overflows, although the log-likelihood is computed safely with `logsumexp` (C135).
* `MPF.solve(uselog=False)`: the objective is infinite for parameters within the default `parameter_limits=100`, for example for 16
  spins; with `uselog=True`, the default, it never is (C136).
* `mch_approximation` returns NaN for every prediction as soon as one `exp(-dE)` overflows (energy change below -709 in double
  precision), and its assertion does not fail because comparisons with NaN are false (C137).
* `MCH`: tolerance 0 is taken for "not given"; one round more than `maxiter` is done; a step may exceed
  `maxdlamda` once (C43, C44).
* `SparseMCH` and `SparseEnumerate` raise with their default constraints (C45).
* `ClusterExpansion`: `log` is not defined, so the analytic branch raises (C49); fields of a decreasing pair
  are exchanged (C49); sub-matrices of clusters in another order read zeros below the diagonal, so entropies
  depend on the order and on the history (C47, C48); `meanFieldRef` raises `NameError` (C47); one spin raises
  `KeyError` (C81).
* `RegularizedMeanField` returns parameters with twice the energy of its matrix, and its search samples
  another model (C68). `bracket1d` may return ties (C67).
* `MCH`: the argument `sample_method` is ignored; `solve` leaves the parameters of the model object as they were and
  ends with a new sample, which the error history does not describe; `MCH(None)` raises `AttributeError`, or with a
  model lets `solve` raise `TypeError`; so does a number of spins without constraints (C105). The first sample is
  drawn with all parameters zero, where the sampler does not approach the Boltzmann distribution (C91); for one spin
  and data that are all 1 this leads to a report of success with the parameter 0 (C105).
* `Enumerate(n).solve(constraints=c)` raises `AttributeError` (C36).
* `MCHIncompleteData` calls a method that does not exist (noted).
* Deprecated pseudolikelihood and `pseudo_inverse_ising`: the Hessian passed to the optimiser lacks factors of 2
  and 4, as the cached array is of samples that are not doubled; `pseudo_log_likelihood` raises `NameError`;
  `pseudoLogLikelihood` passes the whole matrix for one row and adds up too much; the documentation of the
  Jacobian has the wrong sign (C98). With `minSize` >= n-1 the parameters are not determined (C99).

Samplers (`samplers.py`, `samplers.cpp`)
* `burn_in=0` means `n_iters`; the last entry of the recorded history is never written (C53).
* With constant energy (all parameters zero) every update is accepted and the parity of the state is fixed by
  the number of updates; with systematic sweeps a spin without field and couplings is flipped in every sweep.
  In both cases the sample never approaches the Boltzmann distribution (C91, C92).
* Systematic sweeps converge exactly when all states are connected (C106). For an odd number of spins with equal
  couplings and no fields, whole sweeps never leave the state +-+... ; `ParallelTempering` always uses whole sweeps by
  default and its exchanges do not help (C107).
* `Enumerate.solve` ignores the success flag of scipy, and the constructor only warns about correlations of magnitude
  close to one: for data in which two spins never show one of their four patterns there is no solution, but a vector is
  returned silently (C108).
* If one of the four patterns of a pair of spins is missing from the data, neither MPF nor the pseudolikelihood has an
  optimum over all parameters. Nothing checks for this: the pseudolikelihood returns the vector where the library stops
  (C110), and MPF, which searches within bounds, returns a vector at the bounds (C116).
- `SparseEnumerate.solve()` without `constraints` always raises unless every parameter was selected, although the docstring
  says that constraints default to those of the sample; one selected field (or any single position but the last) makes the
  constructor raise UnboundLocalError (C111).
- `MCHIncompleteData.solve` cannot return: `generate_sample` reads `self.sampler`, an attribute nothing sets (C112).
- `Pseudo` with a `Potts3` model raises in `solve` unless both helper functions are given, and without a starting point also unless `calc_observables` is given; `force_general` is ignored for it; for a `Triplet` model the pairwise model is fitted (C113).
- `SparseMCH` of a sample cannot be solved with its own constraints: `solve()` compares the means of all observables with the number of positions and raises unless all parameters are selected (C114_default_raises). Positions beyond the number of parameters are accepted by the constructor and make every call of `solve` raise (C114_out_of_range). In contrast to `MCH`, the sample left in the model is the one that the last errors were computed from.
- `RegularizedMeanField`: `reset_rng` does not make the objective a function without the extension, since the python sampler keeps its states between calls (C115_kept_states). Its rows have eight-bit elements, so `samples.T.dot(samples)` wraps: with the default 1000 rows every spin has the co-occurrence -24/1000 with itself (C115_int8). Rows of ±1 are compared with data counted as 0 and 1, so the residuals of the frequencies do not depend on the candidate (C115_frequencies_not_fitted). `min_covariance` raises NameError or Exception (C115_options). After `solve` the model has the parameters of the last candidate, with another sign than those returned (C115_left).
- `MPF.solve`: `parameter_limits` ("maximum allowed magnitude of any single parameter") bounds the parameters of the {0,1} variables, not those returned: no coupling can be larger than a quarter of it, fields can be larger than it (C116_magnitudes), and data at the exact frequencies of a model with parameters below the limit need not give that model (C116_documented_limit). A guess with 2^n or more entries makes `solve` hang (C116_long_guess); a 0 in the data counts as -1 (C116_bits_as_data).
- `learn_parameters_mch`: the default `eta=1` is beyond the limit 2/N from N = 3 parameters on, and one call can then leave the prediction farther from the constraints than it was (C117_overshoots).
- Usage guide: the triplet `mch_approximation` (ipynb/usage_guide.py:414-422) has the opposite sign of the library's helpers (C118_exact, C118_witness); the `learn_settings` limit the total change of a parameter to 17 (C118_guide_reach). The Potts section calls `generate_samples_parallel`, `samples` and `generate_samples`, which the classes do not have (noted, not modelled).
- Samples of a model with all parameters zero keep the product of the spins with the default settings, so that for two spins no fit of the sample exists (C119_zero_wrong).
* States kept from a parallel run raise when their number is `sample_size` >= 2 (C51).
* `_jit_sample_metropolis` is wrong for matrices with a diagonal (C50); `define_jit_cond_calc_e` overwrites
  its loop variable (C55).
* The conditional sampler ignores `initial_sample` and raises for no fixed spins, no free spins or no
  samples (C55).
* `Potts3.generate_sample` samples with the Ising class (C84).
* Wolff: first site 0 is taken for "not given"; coupling matrices are rejected except for three spins (C60).
* `sample_ising` does not check how parameters are split into fields and couplings (C103).
* `iterate_beta` can return negative inverse temperatures (C58).
* `iter_cluster` needs a symmetric matrix (C59).
* `SWIsing`: the constructor always raises; `generate_sample_parallel` uses the undefined name `n_ncpus`;
  the algorithm itself is right (C101).
* Heisenberg: `grad_E` lacks a factor sin(theta) (C87); rejected proposals are kept (C88);
  `sample_nearby_vector` is undefined at the poles (C86).

Equation writer (`enumerate.py`)
* `python enumerate.py`: `-hp=true` is ignored after another option; `-3 1` writes the equations of one spin; triplets of fewer than
  three spins raise (C126).
* `multinomial` of utils.py cuts off digits of a rounded number: it is one too small whenever the rounding goes down (C127).

Package `ising`
* `mean_field_ising`: `aboveDiagFlat` without the diagonal raises for one site (C62), `coocExpectations`
  raises for `minSize` > n (C63).
* `mean_field_ising`: `avgE` and `dmdT` use another sign of the coupling than `m`; `specificHeat` raises for free
  spins and can be negative; `susc` lacks a factor of the temperature (C95).
  `m` may be one of several solutions for strong attraction (C95). The homogeneous functions raise
  without coupling (C93).
* `coocSampleCovariance`: entries off the diagonal are not covariances; the solver passes samples of -1 and 1,
  for which the variances come out as zero (C97).
* `Ising`: fields and couplings given as Python lists raise (C90).
* `Ising2D`: a positive field favours negative spins (C70); fields given as an array raise, integer fields
  other than 0 raise later (C70); one row or column breaks detailed balance (C70); a lattice without sites does
  not end (C70); the argument `rng` is never used (noted). Without coupling, sweeps flip a site without field every time and
  approach no distribution; the documented model is approached exactly for a coupling other than 0 and no fields (C128).
* `spec_cluster`: the number of clusters is right, but for graphs that are not connected a cluster may join components and
  clusters may repeat, depending on the eigenvectors the library picks (C129).
* Generated modules: if an energy overflows, `p` is NaN everywhere but `calc_observables` returns zeros without notice (C132).
* `coarse_grain`: lattices that are not square raise or repeat the first block; factors from 182 overflow
  16-bit sums (C71).
