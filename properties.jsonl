{"id": "C01", "title": "sub_to_ind is the row-major pair index", "statement": "For every system size n and every two different sites i, j < n, sub_to_ind(n,i,j) is the position of the pair {i,j} in the row-major list of all pairs (0,1),(0,2),...,(n-2,n-1). The answer does not depend on the order of i and j, lies in [0, n(n-1)/2), and i == j raises an exception.", "quantifier": "all n, all i, j < n", "why_tests_cant": "The index formula must be right for every size; tests check a handful of (n,i,j).", "anchors": [{"file": "coniii/utils.py", "symbols": ["sub_to_ind"]}]}
{"id": "C02", "title": "ind_to_sub inverts sub_to_ind and rejects out-of-range positions", "statement": "For every n and every position ix: if ix < n(n-1)/2 then ind_to_sub(n,ix) returns a pair i<j<n with sub_to_ind(n,i,j) == ix, and conversely ind_to_sub(n,sub_to_ind(n,i,j)) is (i,j) for every i<j<n. If ix >= n(n-1)/2 it returns None.", "quantifier": "all n, all ix, all pairs", "why_tests_cant": "Bijectivity over all sizes is not a finite check.", "anchors": [{"file": "coniii/utils.py", "symbols": ["ind_to_sub", "sub_to_ind"]}]}
{"id": "C03", "title": "unravel_index is the lexicographic rank of a k-tuple", "statement": "For every n, every order k >= 1 and every strictly increasing k-tuple of sites below n, unravel_index(ijk,n) is the position of the tuple in itertools.combinations(range(n),k). Tuples of two or more sites that are not increasing, or that contain a site >= n, are rejected.", "quantifier": "all n, all k >= 1, all k-tuples", "why_tests_cant": "The nested binomial sums must be right for every order of interaction; only triplets and pairs are ever tried.", "anchors": [{"file": "coniii/utils.py", "symbols": ["unravel_index"]}]}
{"id": "C04", "title": "bin_states and xbin_states list every binary state exactly once in counting order", "statement": "For 1 <= n <= 30 bin_states(n) has 2^n rows, row i is the n-digit binary expansion of i with the most significant digit first; hence every 0/1 vector of length n occurs exactly once. With sym=True each row is mapped by x -> 2x-1. xbin_states yields the same rows in the same order. n < 0 and n > 30 raise in bin_states, n <= 0 raises in xbin_states.", "quantifier": "all n, all states", "why_tests_cant": "2^n states for every n cannot be enumerated.", "anchors": [{"file": "coniii/utils.py", "symbols": ["bin_states", "xbin_states"]}]}
{"id": "C05", "title": "base_repr is positional notation", "statement": "For every i >= 0 and 2 <= base <= 36, base_repr(i,base) is the digit string of i in that base (most significant first, no superfluous leading zero), with the usual digits 0-9A-Z as in numpy.base_repr. base > 36 raises.", "quantifier": "all naturals i, all bases 2..36, all admissible float roundings of log(i)/log(base)", "why_tests_cant": "Tests draw random integers for bases 2, 3, 5, 18 only.", "anchors": [{"file": "coniii/utils.py", "symbols": ["base_repr", "_small_base", "_large_base"]}]}
{"id": "C06", "title": "xpotts_states lists every Potts state exactly once", "statement": "For n > 0 and 2 <= k <= 36, xpotts_states(n,k) yields k^n states, each of exactly n one-character digits, all different, in counting order, and every assignment of the k digits to n sites is yielded.", "quantifier": "all n, all k, all states", "why_tests_cant": "k^n states for every n and k.", "anchors": [{"file": "coniii/utils.py", "symbols": ["xpotts_states", "base_repr"]}]}
{"id": "C07", "title": "pair_corr computes the (weighted) first and second moments in row-major pair order", "statement": "For every data set X (rows are samples), pair_corr(X) returns si[j] = mean of column j and sisj[k] = mean of the product of the k-th row-major pair of columns. weights given as an array w with one entry per row replaces the means by sum_i w_i(...); a scalar is a constant weight per row; a pair of arrays (w1,w2) gives the entrywise normalisations of the plain sums, w1[j] for column j and w2[k] for pair k. subtract_mean subtracts si[i]*si[j] from each pair. concat=True returns si followed by sisj.", "quantifier": "all data matrices, all weights", "why_tests_cant": "A statement about all data sets and weight vectors.", "anchors": [{"file": "coniii/utils.py", "symbols": ["pair_corr"]}]}
{"id": "C08", "title": "pair_corr exclude_empty and laplace_count use the documented denominators", "statement": "With exclude_empty=True, si[j] is the sum of column j divided by the number of its nonzero entries and sisj the sum of products divided by the number of rows where both entries are nonzero. With laplace_count=True in addition, the denominators are those counts plus 2 for single spins and plus 4 for pairs, so the estimates lie strictly inside (-1,1) for every data set, even for columns without entries. Asking for laplace_count alone has the documented smoothing effect too. Entries outside {-1,0,1} are rejected in every mode.", "quantifier": "all data matrices with entries in {-1,0,1}", "why_tests_cant": "All data sets, including columns with no nonzero entry.", "anchors": [{"file": "coniii/utils.py", "symbols": ["pair_corr"]}]}
{"id": "C09", "title": "k_corr computes k-th order moments, and honours exclude_empty", "statement": "k_corr(X,k) returns, for each k-subset of columns in lexicographic order, the weighted mean of their product; for k=1 and 2 it agrees with pair_corr. With exclude_empty=True entries equal to zero are not counted in the denominators.", "quantifier": "all data matrices, all k, all weights", "why_tests_cant": "All orders k and all data sets.", "anchors": [{"file": "coniii/utils.py", "symbols": ["k_corr", "pair_corr"]}]}
{"id": "C10", "title": "convert_corr maps moments between the {0,1} and {-1,1} bases exactly", "statement": "For every probability distribution over {0,1}^n, applying convert_corr(..., '11') to its first and second moments gives the moments of the same distribution with spins relabelled by s=2x-1, and convert_corr(...,'01') does the reverse. The two conversions are inverse to each other for all inputs. Any other convert_to raises.", "quantifier": "all distributions, all n, all moment vectors", "why_tests_cant": "A statement about all distributions.", "anchors": [{"file": "coniii/utils.py", "symbols": ["convert_corr"]}]}
{"id": "C11", "title": "convert_params leaves the Boltzmann distribution unchanged", "statement": "For all fields h and couplings J (vector or symmetric-matrix form), the parameters returned by convert_params(h,J,'01') assign to x in {0,1}^n an energy that differs from the energy of (h,J) at s=2x-1 by a constant independent of x; likewise for '11' in the other direction. Hence probabilities are unchanged. Any other convert_to raises.", "quantifier": "all n, all h, all J, all states", "why_tests_cant": "Must hold for all parameters and all 2^n states.", "anchors": [{"file": "coniii/utils.py", "symbols": ["convert_params"]}]}
{"id": "C12", "title": "convert_params '01' and '11' are mutually inverse", "statement": "convert_params(*convert_params(h,J,'01'),'11') returns (h,J), and the same with the two bases exchanged, for every h and J, and concat=True returns the same numbers concatenated.", "quantifier": "all n, all h, all J", "why_tests_cant": "All parameter vectors.", "anchors": [{"file": "coniii/utils.py", "symbols": ["convert_params"]}]}
{"id": "C13", "title": "ising_convert_params leaves the distribution unchanged for interactions of every order", "statement": "For parameters of interaction orders 1..K (K arbitrary), ising_convert_params(params,'01') and (...,'11') preserve the energy of every state up to a state-independent constant, where the {0,1} state x corresponds to the {-1,1} state 2x-1.", "quantifier": "all n, all K <= n, all parameters, all states", "why_tests_cant": "All interaction orders and all states; tests look at orders 2 and 3 with one random vector.", "anchors": [{"file": "coniii/utils.py", "symbols": ["ising_convert_params", "unravel_index", "_expand_binomial"]}]}
{"id": "C14", "title": "ising_convert_params round trip and agreement with convert_params", "statement": "Converting to one basis and back returns the original parameters at every interaction order, and for fields plus pairwise couplings the result equals that of convert_params.", "quantifier": "all n, K, all parameters", "why_tests_cant": "All orders and parameter vectors.", "anchors": [{"file": "coniii/utils.py", "symbols": ["ising_convert_params", "convert_params"]}]}
{"id": "C15", "title": "split_concat_params undoes concatenation and terminates", "statement": "For params of orders 1..K concatenated into one vector, split_concat_params returns the list of the original arrays. The function terminates on every input.", "quantifier": "all n, K <= n, all parameter vectors; all input lengths", "why_tests_cant": "Termination and inversion quantify over all inputs.", "anchors": [{"file": "coniii/utils.py", "symbols": ["split_concat_params"]}]}
{"id": "C16", "title": "vec2mat and mat2vec are mutually inverse and reject malformed lengths", "statement": "For every vector v of length n+n(n-1)/2, mat2vec(vec2mat(v)) is v; for every symmetric n x n matrix A, vec2mat(mat2vec(A)) is A. vec2mat puts the fields on the diagonal and the k-th coupling at the k-th row-major pair, symmetric. A vector whose length is not of the form n(n+1)/2 is rejected.", "quantifier": "all n, all vectors, all symmetric matrices, all lengths", "why_tests_cant": "All sizes, including malformed ones.", "anchors": [{"file": "coniii/utils.py", "symbols": ["vec2mat", "mat2vec", "replace_diag"]}]}
{"id": "C17", "title": "replace_diag and zero_diag change only the diagonal", "statement": "replace_diag(M,d) returns a new matrix equal to M off the diagonal and to d on it, without altering M; zero_diag is the case d=0. A vector of the wrong length raises.", "quantifier": "all n, all matrices, all vectors", "why_tests_cant": "All matrices.", "anchors": [{"file": "coniii/utils.py", "symbols": ["replace_diag", "zero_diag"]}, {"file": "coniii/mean_field_ising.py", "symbols": ["replaceDiag", "zeroDiag"]}]}
{"id": "C18", "title": "state_probs returns the empirical distribution", "statement": "Without allstates, state_probs(X) returns nonnegative frequencies that sum to 1 together with the distinct rows of X, each with its relative frequency. With allstates listing every state that occurs (without repeats) the frequency of each listed state is its weighted share.", "quantifier": "all nonempty data sets", "why_tests_cant": "All data sets.", "anchors": [{"file": "coniii/utils.py", "symbols": ["state_probs", "unique_rows"]}]}
{"id": "C19", "title": "Ising calc_e equals minus the observables dotted with the parameters", "statement": "For every n, every state s and every parameter vector, calc_e(s,params) = -sum_i h_i s_i - sum_{i<j} J_ij s_i s_j = -(calc_observables(s) . params), where the parameters are the fields followed by the row-major couplings.", "quantifier": "all n, all states, all parameters", "why_tests_cant": "All parameter vectors and states.", "anchors": [{"file": "coniii/utils.py", "symbols": ["define_ising_helper_functions", "fast_sum", "calc_e", "calc_observables"]}]}
{"id": "C20", "title": "Triplet and Potts helper functions compute the model energies", "statement": "For the triplet model calc_observables lists s_i, then s_i s_j (i<j), then s_i s_j s_k (i<j<k) in lexicographic order; for the k-state Potts model it lists the k*n state indicators, state-major, and then the row-major pair-equality indicators. In both cases calc_e is minus the dot product of the observables with the parameters.", "quantifier": "all n, all k, all states, all parameters", "why_tests_cant": "All sizes and parameters.", "anchors": [{"file": "coniii/utils.py", "symbols": ["define_triplet_helper_functions", "define_potts_helper_functions"]}]}
{"id": "C21", "title": "Pseudo-likelihood helpers isolate exactly the terms of one spin (Ising)", "statement": "For every site r, the dot product of calc_observables_r(r,s) with get_multipliers_r(r,theta) is the part of -energy that involves spin r: flipping spin r changes calc_e by exactly twice that number. The positions returned by get_multipliers_r are distinct and are where those parameters sit in the full parameter vector.", "quantifier": "all n, all r < n, all states, all parameters", "why_tests_cant": "The index bookkeeping must match for every r and n.", "anchors": [{"file": "coniii/utils.py", "symbols": ["define_pseudo_ising_helper_functions", "get_multipliers_r", "calc_observables_r"]}]}
{"id": "C22", "title": "Pseudo-likelihood helpers isolate exactly the terms of one spin (Potts)", "statement": "For every site r and every number of states k, the observables for the actual and for each alternative state of spin r, dotted with get_multipliers_r, differ by exactly the energy difference of the two full configurations.", "quantifier": "all n, k, r, states, parameters", "why_tests_cant": "All sizes, states and parameters.", "anchors": [{"file": "coniii/utils.py", "symbols": ["define_pseudo_potts_helper_functions"]}]}
{"id": "C23", "title": "mch_approximation is exact histogram reweighting", "statement": "mch_approximation(samples,dlamda) is the weighted mean of the observables with weights proportional to exp(dlamda . observables). With dlamda=0 it is the plain sample mean; every entry stays in [-1,1], so the range assertion never fires; and if the sample has exactly the distribution of the model with parameters theta then the result is exactly the vector of observables of the model with parameters theta+dlamda.", "quantifier": "all samples, all parameter changes", "why_tests_cant": "All samples and all real parameter shifts.", "anchors": [{"file": "coniii/utils.py", "symbols": ["mch_approximation"]}]}
{"id": "C24", "title": "adj and adj_sym list the n single-flip neighbours and leave the state unchanged", "statement": "For each state s, adj(s) ({0,1}) and adj_sym(s) ({-1,1}) return n rows; row i differs from s exactly at site i and s itself is left as it was. Extra random neighbours, when requested, are all valid states different from s.", "quantifier": "all n, all states, all random streams", "why_tests_cant": "All states and random streams.", "anchors": [{"file": "coniii/utils.py", "symbols": ["adj", "adj_sym"]}]}
{"id": "C25", "title": "calc_de is the derivative of the energy with respect to a parameter", "statement": "For each parameter index i, calc_de(s,i) is the derivative of calc_e(s,params) with respect to params[i]: -s_i for a field, -s_j s_k for the coupling of the i-th row-major pair.", "quantifier": "all n, all i, all states", "why_tests_cant": "All indices and sizes.", "anchors": [{"file": "coniii/utils.py", "symbols": ["calc_de", "ind_to_sub"]}]}
{"id": "C26", "title": "coarse_grain_with_func partitions the columns", "statement": "The bins returned by coarse_grain_with_func partition the columns of X: each original column index belongs to exactly one bin, for every similarity function and every number of rounds allowed by the assertion.", "quantifier": "all data matrices, all similarity functions, all n_times", "why_tests_cant": "Every similarity matrix.", "anchors": [{"file": "coniii/utils.py", "symbols": ["coarse_grain_with_func"]}]}
{"id": "C27", "title": "fast_logsumexp is the exact signed log-sum-exp", "statement": "fast_logsumexp(X,coeffs) returns (m,sgn) with sgn*exp(m) = sum_i coeffs_i exp(X_i), sgn is -1 exactly when the sum is negative, and a zero sum gives m=-inf. Without coeffs the value is log(sum_i exp(X_i)).", "quantifier": "all nonempty X, all coefficients", "why_tests_cant": "All real inputs.", "anchors": [{"file": "coniii/enumerate.py", "symbols": ["fast_logsumexp", "mp_fast_logsumexp"]}]}
{"id": "C28", "title": "Generated p(params) is the Boltzmann distribution in bin_states order", "statement": "For every n and both bases, the p function that the enumeration script writes returns strictly positive numbers that sum to one, and entry i is proportional to exp(sum h s + sum J s s) of row i of bin_states(n,sym).", "quantifier": "all n >= 2, both bases, all parameters", "why_tests_cant": "Only n <= 6 modules are ever generated in tests, with a few random parameter vectors.", "anchors": [{"file": "coniii/enumerate.py", "symbols": ["write_eqns", "write_py", "get_terms11", "get_terms01", "_write_energy_terms"]}]}
{"id": "C29", "title": "Generated calc_observables returns the exact moments", "statement": "For every n, both bases, and pairwise or triplet models, entry k of the generated calc_observables(params) is the expectation of the k-th product of spins under the distribution returned by p(params); in particular it equals pair_corr(bin_states(n,sym), weights=p(params), concat=True) and lies in [-1,1].", "quantifier": "all n, all parameters, all orders of constraint", "why_tests_cant": "All parameters and all n.", "anchors": [{"file": "coniii/enumerate.py", "symbols": ["write_eqns", "_compute_signs", "write_py", "pairwise", "triplet"]}]}
{"id": "C30", "title": "The two bases of the generated equations agree", "statement": "Solving the model in {-1,1} and converting the correlations with convert_corr(...,'01') gives the same numbers as converting the parameters with convert_params(...,'01') and evaluating the {0,1} equations, and probabilities agree entry by entry.", "quantifier": "all n >= 2, all parameters", "why_tests_cant": "All parameters and n.", "anchors": [{"file": "coniii/enumerate.py", "symbols": ["write_eqns"]}, {"file": "coniii/utils.py", "symbols": ["convert_params", "convert_corr"]}]}
{"id": "C31", "title": "Generated Potts equations give the exact distribution and moments", "statement": "For n > 2 and k >= 2 the Potts module generator writes p(params) that is the Boltzmann distribution over the k^n states in xpotts_states order and calc_observables(params) that are the expectations of the state indicators and pair equalities.", "quantifier": "all n > 2, all k >= 2, all parameters", "why_tests_cant": "All n, k and parameters; the tests use k=3.", "anchors": [{"file": "coniii/enumerate_potts.py", "symbols": ["PythonFileWriterBase", "SpecificFieldGenericCouplings", "insert_newlines"]}]}
{"id": "C32", "title": "get_3idx and get_nidx mark exactly the increasing index tuples", "statement": "get_3idx(n) is a boolean cube whose entry (i,j,k) is true exactly when i<j<k. get_nidx(k,n) lists the binary words with exactly k ones.", "quantifier": "all n, all k", "why_tests_cant": "All n.", "anchors": [{"file": "coniii/enumerate.py", "symbols": ["get_3idx", "get_nidx"]}]}
{"id": "C33", "title": "Ising constructor: all parameter formats describe the same model", "statement": "A list [h,J], the full parameter vector, or a matrix with fields on the diagonal construct Ising models with the same n and the same multipliers; an integer n gives zero multipliers of length n+n(n-1)/2; lengths that are not of that form are rejected.", "quantifier": "all n, all parameters", "why_tests_cant": "All n and parameter vectors; tests use one size.", "anchors": [{"file": "coniii/models.py", "symbols": ["Ising"]}]}
{"id": "C34", "title": "Triplet and Potts3 constructors infer n from the parameters", "statement": "Potts3 given a vector infers the n with 3n+n(n-1)/2 == length and rejects every length of no such form; given a list [h,J] it infers n = len(h)/3 and accepts exactly when len(J) == n(n-1)/2. Triplet given a list [h,J,T] infers n = len(h) and accepts exactly when the other lengths are n choose 2 and n choose 3; the multipliers are always the concatenation. (The documentation says Triplet also accepts one vector; it never does.)", "quantifier": "all lengths, all parameters", "why_tests_cant": "All lengths.", "anchors": [{"file": "coniii/models.py", "symbols": ["Potts3", "Triplet"]}]}
{"id": "C35", "title": "fill_in puts each sparse parameter at its own position", "statement": "For every sorted list of distinct parameter positions below n(n+1)/2, fill_in(x) returns the full-length vector with x at those positions and the fill value at all others.", "quantifier": "all parameter position lists, all x", "why_tests_cant": "All index sets.", "anchors": [{"file": "coniii/solvers.py", "symbols": ["set_insertion_ix", "fill_in"]}]}
{"id": "C36", "title": "Enumerate: matching the constraints determines the parameters uniquely", "statement": "For every n, two parameter vectors whose generated calc_observables agree are equal. Hence if the root finder of Enumerate.solve reports a zero of its objective, the returned parameters are the only ones whose observables equal the constraints, and all of them are within max_param_value.", "quantifier": "all n, all parameter vectors, all constraints", "why_tests_cant": "Uniqueness quantifies over all parameter vectors.", "anchors": [{"file": "coniii/solvers.py", "symbols": ["Enumerate"]}, {"file": "coniii/enumerate.py", "symbols": ["write_eqns"]}]}
{"id": "C37", "title": "The fitted pairwise model has maximal entropy among all distributions with its moments", "statement": "For all parameters theta, the distribution p(theta) has an entropy at least as large as that of any distribution over the same states with the same observables, with equality only for p(theta) itself.", "quantifier": "all n, all parameters, all competing distributions", "why_tests_cant": "Quantifies over all distributions.", "anchors": [{"file": "coniii/solvers.py", "symbols": ["Enumerate"]}, {"file": "coniii/enumerate.py", "symbols": ["write_eqns"]}]}
{"id": "C38", "title": "MPF objective: logK is the log of K and the K gradient is exact", "statement": "For all data, adjacency lists and parameters, exp(logK(...)) = K(...) and the gradient returned with K is the derivative of K with respect to each parameter.", "quantifier": "all data sets, adjacency, parameters", "why_tests_cant": "All real parameters.", "anchors": [{"file": "coniii/solvers.py", "symbols": ["MPF.K", "MPF.logK"]}]}
{"id": "C39", "title": "MPF logK gradient", "statement": "The gradient returned by MPF.logK is the derivative of the objective it returns.", "quantifier": "all data sets, all parameters", "why_tests_cant": "All parameters and data.", "anchors": [{"file": "coniii/solvers.py", "symbols": ["MPF.logK"]}]}
{"id": "C40", "title": "Pseudolikelihood objective (Ising) is the negative conditional log-likelihood with its exact gradient", "statement": "For each spin r the function minimised by Pseudo._solve_ising returns minus the sum over samples of log P(s_r | other spins) under the model with the given multipliers, and its second return value is the gradient. The same holds for the all-spins objective of _solve_general.", "quantifier": "all samples, all r, all parameters", "why_tests_cant": "All parameters.", "anchors": [{"file": "coniii/solvers.py", "symbols": ["Pseudo._solve_ising", "Pseudo._solve_general"]}]}
{"id": "C41", "title": "Pseudolikelihood objective (Potts) is exact", "statement": "For each spin r the function minimised by Pseudo._solve_potts is minus the conditional log-likelihood of spin r given the others (plus the requested regulariser), and the Jacobian it returns is its gradient.", "quantifier": "all samples, n, k, r, parameters", "why_tests_cant": "All parameters.", "anchors": [{"file": "coniii/solvers.py", "symbols": ["Pseudo._solve_potts"]}]}
{"id": "C42", "title": "Pseudo._solve_ising starts from the user's initial guess", "statement": "The starting vector handed to the optimiser for spin r is (h_r, J_r0, J_r1, ..., skipping r) of the supplied initial guess, in the order used by the objective.", "quantifier": "all n, all r, all initial guesses", "why_tests_cant": "All n and r.", "anchors": [{"file": "coniii/solvers.py", "symbols": ["Pseudo._solve_ising"]}, {"file": "coniii/utils.py", "symbols": ["get_multipliers_r"]}]}
{"id": "C43", "title": "MCH learning steps are bounded", "statement": "One call of learn_parameters_mch performs at least one and at most maxLearningSteps+1 gradient steps, always terminates, returns old multipliers plus the accumulated change, stops as soon as the change's norm exceeds maxdlamdaNorm or its largest element exceeds maxdlamda, and so no multiplier moves by more than maxdlamda plus one step.", "quantifier": "all estimates, constraints, settings", "why_tests_cant": "All parameter settings and sample histories.", "anchors": [{"file": "coniii/solvers.py", "symbols": ["MCH.learn_parameters_mch"]}]}
{"id": "C44", "title": "MCH.solve terminates and its error flag is truthful", "statement": "For every sequence of sampled correlations, MCH.solve terminates after at most maxiter+1 learning rounds, returns errflag 0 exactly when the last recorded error vector satisfies both tolerances, 1 otherwise, and the error history has one entry per sampling round.", "quantifier": "all histories of sampler outputs, all settings", "why_tests_cant": "All sampler histories.", "anchors": [{"file": "coniii/solvers.py", "symbols": ["MCH.solve"]}]}
{"id": "C45", "title": "SparseMCH leaves unspecified multipliers at zero", "statement": "Throughout SparseMCH, multipliers whose positions are not in parameter_ix are exactly zero after every learning step, whatever the sampled correlations, and the returned vector lists the multipliers at parameter_ix.", "quantifier": "all sampler histories, all parameter_ix", "why_tests_cant": "All histories.", "anchors": [{"file": "coniii/solvers.py", "symbols": ["SparseMCH"]}]}
{"id": "C46", "title": "ClusterExpansion.subsets lists every subset of a given size exactly once", "statement": "For each list of distinct spins and size >= 1, subsets returns every subset of that size exactly once (as a set), and nothing else.", "quantifier": "all lists, all sizes", "why_tests_cant": "All lists.", "anchors": [{"file": "coniii/solvers.py", "symbols": ["ClusterExpansion.subsets"]}]}
{"id": "C47", "title": "Cluster entropies telescope, whatever the memoisation history", "statement": "For every cluster the deltaS values of all its nonempty sub-clusters add up to S(cluster)-S0(cluster) for the entropy function actually used, and the same for the coupling matrices; the values returned do not depend on which clusters were evaluated before.", "quantifier": "all clusters, all evaluation histories, all entropy functions", "why_tests_cant": "All call histories.", "anchors": [{"file": "coniii/solvers.py", "symbols": ["ClusterExpansion.deltaS", "ClusterExpansion.clusterID"]}]}
{"id": "C48", "title": "ClusterExpansion.S depends only on the set of spins", "statement": "Evaluating a cluster with its spins listed in a different order gives the same entropy, because the pair data handed to the fit are those of the pairs in the cluster.", "quantifier": "all clusters, all orderings, all data", "why_tests_cant": "All orderings.", "anchors": [{"file": "coniii/solvers.py", "symbols": ["ClusterExpansion.S", "ClusterExpansion.subsets"]}, {"file": "coniii/mean_field_ising.py", "symbols": ["coocCluster", "cooccurrence_matrix"]}]}
{"id": "C49", "title": "Analytic one- and two-spin entropies and couplings are exact", "statement": "For a cluster of one or two spins the couplings returned by S(...,useAnalyticResults=True) reproduce the given co-occurrence frequencies exactly under the Boltzmann distribution, and the entropy is the entropy of that distribution.", "quantifier": "all admissible co-occurrence values", "why_tests_cant": "All real frequencies.", "anchors": [{"file": "coniii/solvers.py", "symbols": ["ClusterExpansion.S"]}, {"file": "coniii/mean_field_ising.py", "symbols": ["coocExpectations", "unsummedLogZ"]}]}
{"id": "C50", "title": "Metropolis acceptance leaves the Boltzmann distribution invariant", "statement": "The single-spin update accepts with probability min(1,exp(-dE)), satisfies detailed balance with respect to exp(-E)/Z, and therefore any number of updates, at random sites or sweeping systematically, leaves that distribution invariant.", "quantifier": "all n, all energy functions, all numbers of iterations", "why_tests_cant": "A statement about all energies and about distributions.", "anchors": [{"file": "coniii/samplers.py", "symbols": ["Metropolis.sample_metropolis", "Metropolis.generate_sample_py", "_jit_sample_metropolis"]}]}
{"id": "C51", "title": "Metropolis energy bookkeeping and state validity", "statement": "After generate_sample, for every random stream, every returned spin is -1 or 1, the sample has the requested shape, and the stored energy of each sample equals calc_e of that sample.", "quantifier": "all random streams, sizes, iteration counts", "why_tests_cant": "All random streams.", "anchors": [{"file": "coniii/samplers.py", "symbols": ["Metropolis.generate_sample_py", "Metropolis.sample_metropolis"]}]}
{"id": "C52", "title": "Parallel sampling returns exactly the requested number of samples", "statement": "Whatever the number of CPUs, parallel sampling returns exactly sample_size rows, each produced by one of the chains.", "quantifier": "all sample sizes, all CPU counts", "why_tests_cant": "All combinations.", "anchors": [{"file": "coniii/samplers.py", "symbols": ["generate_sample_parallel_py", "generate_sample_parallel_boost"]}]}
{"id": "C53", "title": "burn_in=0 and the recorded history mean what they say", "statement": "generate_sample(..., burn_in=0) performs no burn-in iterations, and the saved energy history records the energy after every update.", "quantifier": "all sizes", "why_tests_cant": "Edge values.", "anchors": [{"file": "coniii/samplers.py", "symbols": ["Metropolis.generate_sample_py"]}]}
{"id": "C54", "title": "C++ Ising sampler: incremental energy change equals the energy difference", "statement": "In the compiled sampler, the energy change used for a proposed flip equals calc_e(after)-calc_e(before), calc_e agrees with the Python calc_e on the same parameter vector, and the state after rejection is the state before.", "quantifier": "all n, states, sites, parameters", "why_tests_cant": "All parameters and states.", "anchors": [{"file": "cpp/samplers.cpp", "symbols": ["Ising::calc_e", "Ising::sample_metropolis"]}]}
{"id": "C55", "title": "Conditional sampling keeps the fixed spins fixed and every spin in its own column", "statement": "In generate_cond_sample (Python and C++), for every sorted set of fixed spins, every returned row has the fixed values at the fixed sites, the freely sampled spins in increasing order at the remaining sites, and the energy used is the full energy of that row.", "quantifier": "all n, all fixed subsets, all random streams, all sample sizes", "why_tests_cant": "All fixed subsets.", "anchors": [{"file": "coniii/samplers.py", "symbols": ["generate_cond_sample_py"]}, {"file": "cpp/samplers.cpp", "symbols": ["Sampler::generate_cond_sample", "Sampler::readin_fixed_set"]}]}
{"id": "C56", "title": "Potts3 update: valid, symmetric proposals and correct energy", "statement": "The three-state update proposes each of the two other states with equal chance, keeps states in {0,1,2}, satisfies detailed balance for the Potts energy; in C++ the incremental energy change equals the energy difference.", "quantifier": "all n, states, sites, parameters", "why_tests_cant": "All parameters.", "anchors": [{"file": "coniii/samplers.py", "symbols": ["Potts3.sample_metropolis"]}, {"file": "cpp/samplers.cpp", "symbols": ["Potts3::sample_metropolis", "Potts3::calc_e"]}]}
{"id": "C57", "title": "Replica exchange is consistent", "statement": "After any sequence of exchanges in ParallelTempering the set of configurations is a permutation of the original, the replica indices remain a permutation, each replica's stored energy equals its inverse temperature times the energy of the configuration it holds, and the swap acceptance satisfies detailed balance for the product of the replica distributions.", "quantifier": "all replica counts, all random streams, all exchange histories", "why_tests_cant": "All histories.", "anchors": [{"file": "coniii/samplers.py", "symbols": ["ParallelTempering.burn_and_exchange", "_acceptance_ratio"]}]}
{"id": "C58", "title": "iterate_beta keeps the inverse temperatures positive and ordered", "statement": "Given increasing positive inverse temperatures and acceptance ratios in (0,1], iterate_beta returns increasing positive inverse temperatures and keeps the largest one.", "quantifier": "all beta vectors and ratios", "why_tests_cant": "All inputs.", "anchors": [{"file": "coniii/samplers.py", "symbols": ["ParallelTempering.iterate_beta"]}]}
{"id": "C59", "title": "iter_cluster returns the connected components", "statement": "For every symmetric adjacency matrix, iter_cluster returns a list of site lists that partition all sites, two sites being in the same list exactly when they are connected by a path.", "quantifier": "all n, all symmetric adjacency matrices", "why_tests_cant": "All graphs.", "anchors": [{"file": "coniii/samplers.py", "symbols": ["iter_cluster"]}]}
{"id": "C60", "title": "Wolff cluster growth and flip", "statement": "The cluster built from an initial site contains that site, has no repeated site, always terminates, and one Wolff step changes exactly the spins of the cluster or none.", "quantifier": "all n, states, random streams", "why_tests_cant": "All random streams.", "anchors": [{"file": "coniii/samplers.py", "symbols": ["WolffIsing.build_cluster", "WolffIsing.find_neighbors", "WolffIsing.one_step", "iterate_neighbors"]}]}
{"id": "C61", "title": "Heisenberg energy gradient", "statement": "grad_e(theta,x) is the gradient of calc_e(theta,x) in the angles, and grad_e_theta is its gradient in the couplings.", "quantifier": "all n, all angles, all couplings", "why_tests_cant": "All real angles.", "anchors": [{"file": "coniii/samplers.py", "symbols": ["calc_e", "grad_e", "grad_e_theta"]}]}
{"id": "C62", "title": "diagFlatIndex, aboveDiagFlat and unflatten agree", "statement": "diagFlatIndex(i,j,ell) is the position of entry (i,j), i<=j, in aboveDiagFlat(mat,keepDiag=True); unflatten puts each entry back, and with symmetrize=True the quadratic form of the matrix is unchanged.", "quantifier": "all ell, all matrices", "why_tests_cant": "All sizes.", "anchors": [{"file": "coniii/mean_field_ising.py", "symbols": ["aboveDiagFlat", "unflatten", "diagFlatIndex"]}]}
{"id": "C63", "title": "coocExpectations are the exact moments of the coupling-matrix model", "statement": "For each coupling matrix J, coocExpectations(J) has at (i,j), i<=j, the expectation of x_i x_j over {0,1}^n with probability proportional to exp(-sum_i J_ii x_i - sum_{i!=j} J_ij x_i x_j).", "quantifier": "all n, all J", "why_tests_cant": "All matrices.", "anchors": [{"file": "coniii/mean_field_ising.py", "symbols": ["coocExpectations", "unsummedLogZ", "fightPossibilities"]}]}
{"id": "C64", "title": "Cluster sub-matrix and embedding are consistent", "statement": "coocCluster(M,c) has entry (a,b) equal to M[c_a,c_b]; JfullFromCluster puts it back at the cluster's sites and zeros elsewhere, so that restricting the embedded matrix to the cluster returns it; symmetrizeUsingUpper returns a symmetric matrix with the given upper triangle.", "quantifier": "all matrices, all clusters of distinct sites", "why_tests_cant": "All clusters.", "anchors": [{"file": "coniii/mean_field_ising.py", "symbols": ["coocCluster", "JfullFromCluster", "symmetrizeUsingUpper"]}]}
{"id": "C65", "title": "Bayesian mean keeps frequencies strictly inside (0,1)", "statement": "coocMatBayesianMean maps frequencies in [0,1] from N samples into (0,1) strictly for all N >= 0, so that the standard deviations of coocStdevsFlat are strictly positive and can be divided by.", "quantifier": "all frequencies, all N", "why_tests_cant": "All inputs.", "anchors": [{"file": "coniii/mean_field_ising.py", "symbols": ["coocMatBayesianMean", "coocStdevsFlat"]}]}
{"id": "C66", "title": "cooccurrence_matrix and fourthOrderCoocMat", "statement": "cooccurrence_matrix(samples) has at (i,j), i<=j, the mean of x_i x_j and zeros below the diagonal; fourthOrderCoocMat is symmetric and has the mean of x_i x_j x_m x_n at the positions of (i,j) and (m,n).", "quantifier": "all data", "why_tests_cant": "All data sets.", "anchors": [{"file": "coniii/mean_field_ising.py", "symbols": ["cooccurrence_matrix", "fourthOrderCoocMat"]}]}
{"id": "C67", "title": "bracket1d returns a bracketing triple", "statement": "bracket1d returns a<b<c from the sorted list with f(b) < f(a) and f(b) < f(c) (as documented), or raises when the minimum is at an end.", "quantifier": "all lists, all function values", "why_tests_cant": "All inputs, including ties.", "anchors": [{"file": "coniii/solvers.py", "symbols": ["RegularizedMeanField.bracket1d"]}]}
{"id": "C68", "title": "RegularizedMeanField returns and samples the model it describes", "statement": "The parameters returned by RegularizedMeanField.solve describe the mean-field coupling matrix it found, and the samples it draws while searching for the regularisation strength are drawn from the model of the candidate coupling matrix.", "quantifier": "all coupling matrices", "why_tests_cant": "All matrices.", "anchors": [{"file": "coniii/solvers.py", "symbols": ["RegularizedMeanField.solve"]}, {"file": "coniii/mean_field_ising.py", "symbols": ["SmeanField"]}]}
{"id": "C69", "title": "find_basin descends to a local minimum", "statement": "For all fields, couplings and starting states, find_basin terminates, every step strictly lowers the energy, and the returned state cannot be improved by any single flip. neighbor_dE is the vector of exact energy changes.", "quantifier": "all n, h, J, starting states", "why_tests_cant": "Termination and optimality over all parameters.", "anchors": [{"file": "coniii/ising/utils.py", "symbols": ["find_basin", "neighbor_dE"]}]}
{"id": "C70", "title": "Two-dimensional automaton: sweeps, detailed balance and field sign", "statement": "One systematic iteration visits every lattice site exactly once; each flip is Metropolis for the nearest-neighbour periodic lattice energy; a positive field favours positive spins; the lattice of a new object is any lattice with equal probability.", "quantifier": "all lattice sizes, fields, couplings, random streams", "why_tests_cant": "All lattices and random streams.", "anchors": [{"file": "coniii/ising/automaton.py", "symbols": ["Ising2D.flip_metropolis", "Ising2D.iterate"]}]}
{"id": "C71", "title": "Lattice coarse graining is the majority rule", "statement": "coarse_grain(lattice,factor) returns for each factor x factor block +1 or -1 according to its majority (ties at random).", "quantifier": "all lattices, all factors", "why_tests_cant": "All lattices.", "anchors": [{"file": "coniii/ising/automaton.py", "symbols": ["coarse_grain"]}]}
{"id": "C72", "title": "Solver.logp is the log of the matching frequency", "statement": "logp(sample) returns for each row the logarithm of the fraction of the states in the model's sample that agree with the row at all of its nonzero entries (minus infinity if none does), whatever the order and repetitions of the rows; values other than -1, 0, 1 are rejected when checks are on.", "quantifier": "all samples, all model samples", "why_tests_cant": "The rows are deduplicated and results scattered back by index; only a proof covers every pattern of repetitions and zeros.", "anchors": [{"file": "coniii/solvers.py", "symbols": ["Solver.logp"]}]}
{"id": "C73", "title": "The default constraints of a solver are the moments of the sample", "statement": "For every sample of spins, the constraints set up by a Solver equal pair_corr(sample, concat=True): mean spins followed by mean pair products in row-major order.", "quantifier": "all samples, all n", "why_tests_cant": "Two separately written loops must agree on ordering for every system size.", "anchors": [{"file": "coniii/solvers.py", "symbols": ["Solver.basic_setup"]}, {"file": "coniii/utils.py", "symbols": ["pair_corr"]}]}
{"id": "C74", "title": "MPF.solve works on the user's \u00b11 model", "statement": "For every \u00b11 sample, the function MPF.solve minimises over its internal {0,1} parameters equals the (log) probability flow of the given sample under the \u00b11 model with the parameters solve would return for them; a starting point given in \u00b11 parameters is the model the search starts from.", "quantifier": "all samples, n >= 1, all parameters", "why_tests_cant": "The data, the neighbours, the energies and the parameters are each converted separately; only a proof shows the four conversions fit together for all inputs.", "anchors": [{"file": "coniii/solvers.py", "symbols": ["MPF.solve", "MPF.logK", "MPF.K"]}, {"file": "coniii/utils.py", "symbols": ["ising_convert_params", "adj"]}]}
{"id": "C75", "title": "Minimum probability flow is consistent", "statement": "If every state occurs in the sample with its Boltzmann probability for some pairwise parameters, the objective of MPF is smallest at these parameters and at no others.", "quantifier": "all n, all parameters, all samples with these frequencies", "why_tests_cant": "A statement about all competing parameter vectors.", "anchors": [{"file": "coniii/solvers.py", "symbols": ["MPF.K"]}]}
{"id": "C76", "title": "Pseudo puts the per-spin optima together as it says", "statement": "If the optimum found for spin r holds the parameters of spin r of some model theta_r, Pseudo._solve_ising returns the fields h_i of theta_i and the averages of the couplings J_ij of theta_i and theta_j; when all theta_r are the same model, it returns that model.", "quantifier": "all n, all optima", "why_tests_cant": "An index slip in the assembly shows only for particular n and asymmetric optima.", "anchors": [{"file": "coniii/solvers.py", "symbols": ["Pseudo._solve_ising"]}, {"file": "coniii/utils.py", "symbols": ["get_multipliers_r"]}]}
{"id": "C77", "title": "Pseudolikelihood is consistent", "statement": "When the sample frequencies are those of the Boltzmann distribution of a model, the conditional log-likelihood of each spin is largest exactly at that model's parameters of the spin, the Ising solver with an exact optimiser returns the model, and the Potts objective is smallest exactly at parameters with the same distribution.", "quantifier": "all n, k, parameters, samples with those frequencies", "why_tests_cant": "Consistency is a statement about all parameters and exact frequencies; a test sees one noisy sample.", "anchors": [{"file": "coniii/solvers.py", "symbols": ["Pseudo._solve_ising", "Pseudo._solve_general", "Pseudo._solve_potts"]}]}
{"id": "C78", "title": "The small-cluster fit finds the coupling matrix, and only it, that reproduces the co-occurrences", "statement": "The residual that findJmatrixAnalytic_CoocMat hands to the least-squares routine vanishes (without a prior) exactly when the model's co-occurrences equal the wanted ones; at most one symmetric matrix does this; and the search starts from the independent model.", "quantifier": "all sizes, all co-occurrence matrices, all solver outputs", "why_tests_cant": "Uniqueness quantifies over all real matrices.", "anchors": [{"file": "coniii/mean_field_ising.py", "symbols": ["findJmatrixAnalytic_CoocMat", "coocExpectations"]}]}
{"id": "C79", "title": "analyticEntropy is the entropy of the model's distribution", "statement": "For every coupling matrix, analyticEntropy returns -sum p ln p over the 2^n states of the Boltzmann distribution of the quadratic energy.", "quantifier": "all sizes, all real coupling matrices", "why_tests_cant": "All real matrices.", "anchors": [{"file": "coniii/mean_field_ising.py", "symbols": ["analyticEntropy", "unsummedZ"]}]}
{"id": "C80", "title": "The independent reference of the cluster expansion is the entropy and coupling matrix of independent spins", "statement": "ClusterExpansion.Sindependent(cluster) returns, for a cluster of distinct spins whose frequencies lie strictly between 0 and 1, the entropy of the independent {0,1} model with those frequencies and a coupling matrix that is zero off the diagonal and whose diagonal fields reproduce the frequencies.", "quantifier": "every cluster of distinct spins, every frequency matrix", "why_tests_cant": "A test checks a few numbers; it cannot show that the closed formula equals the entropy of the model for all frequencies and cluster sizes.", "anchors": [{"file": "coniii/solvers.py", "symbols": ["ClusterExpansion.Sindependent"]}]}
{"id": "C81", "title": "The selective cluster algorithm keeps exactly the significant clusters, and keeping all of them is exact", "statement": "ClusterExpansion.solve starts from the single spins, considers a larger cluster only when it is the union of two kept clusters of the previous size, keeps those whose contribution exceeds the threshold, and returns the reference plus the sum of the contributions of all kept clusters; when every cluster is kept the result is the full-cluster entropy and couplings; a single spin raises KeyError.", "quantifier": "every number of spins, every threshold, every evaluation function", "why_tests_cant": "The selection depends on the threshold and on contributions of exponentially many subclusters; tests only see one selection.", "anchors": [{"file": "coniii/solvers.py", "symbols": ["ClusterExpansion.solve", "ClusterExpansion.deltaS", "ClusterExpansion.subsets"]}]}
{"id": "C82", "title": "ClusterExpansion.solve with a negative threshold solves the pairwise inverse problem", "statement": "For a sample of \u00b11 states in which every state occurs, and a least-squares routine that finds a zero residual whenever one exists, ClusterExpansion.solve with negative threshold returns the parameter vector (fields then couplings) of the pairwise \u00b11 model that reproduces the magnetisations and pair correlations of the sample, and the entropy of that model.", "quantifier": "every n \u2265 2, every full-support sample, every exact least-squares routine, every negative threshold", "why_tests_cant": "Testing compares a few random samples within a tolerance; the property concerns the exact conversion of bases, of the coupling matrix and the telescoping over all subclusters.", "anchors": [{"file": "coniii/solvers.py", "symbols": ["ClusterExpansion.solve", "ClusterExpansion.S", "ClusterExpansion.Sindependent"]}, {"file": "coniii/utils.py", "symbols": ["convert_params"]}]}
{"id": "C83", "title": "Full-support data have exactly one pairwise model", "statement": "For every distribution giving all states of a set of spins positive probability there is exactly one symmetric coupling matrix whose pairwise {0,1} model has the same spin and pair frequencies, so the fits asked of findJmatrixAnalytic_CoocMat and ClusterExpansion.S are well-posed.", "quantifier": "every finite set of spins, every positive distribution, every sample in which all states occur", "why_tests_cant": "Existence and uniqueness quantify over all coupling matrices; no test can search them.", "anchors": [{"file": "coniii/mean_field_ising.py", "symbols": ["findJmatrixAnalytic_CoocMat"]}, {"file": "coniii/solvers.py", "symbols": ["ClusterExpansion.S"]}]}
{"id": "C84", "title": "With the compiled library Potts3.generate_sample samples the Potts model", "statement": "Potts3.generate_sample, with the compiled sampler available, returns states in {0,1,2} sampled from the three-state Potts model of the sampler's parameters.", "quantifier": "all n, parameters, sample sizes, random streams", "why_tests_cant": "The result is random; a wrong model may still give plausible arrays.", "anchors": [{"file": "coniii/samplers.py", "symbols": ["Potts3", "Metropolis.generate_sample_boost", "Potts3.generate_sample_parallel_boost"]}, {"file": "cpp/samplers.cpp", "symbols": ["BoostIsing", "BoostPotts3"]}]}
{"id": "C85", "title": "Wolff steps satisfy detailed balance", "statement": "For every symmetric coupling matrix and all fields, one step of WolffIsing satisfies detailed balance for the Boltzmann distribution of the Ising model, leaves it invariant (so do generate_sample and generate_sample_parallel), and can flip every single spin.", "quantifier": "all n, symmetric couplings, fields, states", "why_tests_cant": "Probabilities over all clusters and all parameters; a wrong bond probability or acceptance factor gives plausible samples.", "anchors": [{"file": "coniii/samplers.py", "symbols": ["WolffIsing.one_step", "WolffIsing.build_cluster", "WolffIsing.generate_sample", "WolffIsing.generate_sample_parallel"]}]}
{"id": "C86", "title": "Random vectors near a given one", "statement": "sample_nearby_vector computes the polar angles of the given vector, and every vector it returns has length 1 and lies at the drawn angle from the given direction; with sigma 0 it returns the direction itself.", "quantifier": "all vectors off the z axis, all random numbers", "why_tests_cant": "All real vectors; a sign error in the rotation still returns unit vectors.", "anchors": [{"file": "coniii/samplers.py", "symbols": ["Heisenberg3DSampler.sample_nearby_vector", "jit_sample_nearby_vector", "cross"]}]}
{"id": "C87", "title": "Heisenberg3DSampler.grad_E is the gradient of the energy", "statement": "For symmetric couplings grad_E(X) contains the derivatives of the Heisenberg energy with respect to polar angles and azimuths.", "quantifier": "all symmetric coupling matrices, all angles", "why_tests_cant": "All real angles.", "anchors": [{"file": "coniii/samplers.py", "symbols": ["Heisenberg3DSampler.grad_E"]}]}
{"id": "C88", "title": "Hamiltonian Monte Carlo step", "statement": "The leapfrog trajectory in jit_sample is reversible, an accepted proposal becomes the state together with its energy and gradient, and a rejected proposal leaves the state unchanged.", "quantifier": "all gradient functions, step sizes, trajectories, random numbers", "why_tests_cant": "Reversibility for all gradients; aliasing of arrays shows only after a rejection.", "anchors": [{"file": "coniii/samplers.py", "symbols": ["jit_sample"]}]}
{"id": "C89", "title": "Mean-field couplings solve the regularised mean-field equations", "statement": "SmeanField returns the couplings given by the inverse of the regularised correlation matrix (the inverse covariance matrix when there is no prior), the matching fields and the entropy of the independent model plus (log det + n - tr)/2; independent data give no couplings and the independent fields for every strength of the prior.", "quantifier": "all clusters, all co-occurrence matrices with frequencies in (0,1), all prior strengths", "why_tests_cant": "Matrices of any size and any strength of the prior.", "anchors": [{"file": "coniii/mean_field_ising.py", "symbols": ["SmeanField", "JmeanField"]}]}
{"id": "C90", "title": "The Ising front end describes one distribution in both bases", "statement": "For fields h and couplings J given to Ising in one basis ({-1,1} or {0,1}), fields(basis) and couplings(basis) return the given numbers in that basis and in the other basis parameters of the same Boltzmann distribution over the corresponding states; correlations(basis) are the expectations of the spins and of the products of pairs in the states of that basis.", "quantifier": "all system sizes, all fields and couplings given as arrays or numbers, both bases", "why_tests_cant": "Only an infinite family of parameters and sizes shows that the conversion keeps the distribution; tests compare a few numbers.", "anchors": [{"file": "coniii/ising/utils.py", "symbols": ["Ising.__init__", "Ising.correlations", "Ising.fields", "Ising.couplings"]}]}
{"id": "C91", "title": "Metropolis samples converge to the Boltzmann distribution from every first state", "statement": "With updates at random sites, the distribution of the state after m updates tends to the Boltzmann distribution from every first state, exactly when the energy is not the same for all states (Ising), and always (three-state Potts). Hence every row of generate_sample has approximately the Boltzmann distribution once the number of updates before it (burn-in and n_iters per row) is large, whether the first state is given, kept from the last call or random. With constant energy the product of all spins alternates and never mixes; with systematic sweeps a spin on which the energy does not depend is flipped in every sweep and never mixes.", "quantifier": "all system sizes, all energy functions, all first states, all functions of the state, all sample sizes and iteration numbers", "why_tests_cant": "Convergence is a statement about limits of distributions for every energy and every first state; a test sees one finite run.", "anchors": [{"file": "coniii/samplers.py", "symbols": ["Metropolis.generate_sample_py", "Metropolis.sample_metropolis", "Potts3.sample_metropolis"]}]}
{"id": "C92", "title": "Averages over a sample converge to the Boltzmann means", "statement": "The mean square deviation of the average of any function over the rows of generate_sample from its Boltzmann mean is at most K divided by the number of rows, with one K for all first states, burn-ins and all n_iters >= 1; so averages (means, pair correlations) computed from samples approach the model's averages in probability. With constant energy this fails: for two spins and even n_iters every sampled correlation is 1 or -1.", "quantifier": "all system sizes, all non-constant energies (Ising), all energies (Potts3), all functions, all arguments of generate_sample", "why_tests_cant": "The rows of a sample are correlated; only a proof about the chain shows that averages over them converge for every model.", "anchors": [{"file": "coniii/samplers.py", "symbols": ["Metropolis.generate_sample_py", "Metropolis.sample_metropolis", "Potts3.sample_metropolis"]}]}
{"id": "C93", "title": "The homogeneous model's integrals give the entropy and the mean spin of the fully connected model", "statement": "For a field h and an attractive coupling J > 0 the integral computed from FHomogeneous is the partition function of N spins with energy -h sum_i s_i - (J/2N)(sum_i s_i)^2, SHomogeneous is the entropy of its Boltzmann distribution, and avgmHomogeneous and avgxHomogeneous both return the mean of every spin. Without coupling all these functions raise ZeroDivisionError.", "quantifier": "all fields, all positive couplings, all numbers of spins", "why_tests_cant": "The integrals are an exact rewriting (Hubbard-Stratonovich) of a sum over 2^N states for real parameters and every N; a test compares a few values numerically.", "anchors": [{"file": "coniii/mean_field_ising.py", "symbols": ["FHomogeneous", "dFdT", "SHomogeneous", "avgmHomogeneous", "avgxHomogeneous"]}]}
{"id": "C94", "title": "The multi-information of the homogeneous model is the gap to independent spins", "statement": "independentEntropyHomogeneous is the sum of the entropies of the single spins, independentEntropyHomogeneous2 is the same number, and MultiInfoHomogeneous is that sum minus the entropy of the model: it is never negative and it is zero exactly for one spin.", "quantifier": "all fields, all positive couplings, all numbers of spins", "why_tests_cant": "Non-negativity and the case of equality are inequalities for all real parameters.", "anchors": [{"file": "coniii/mean_field_ising.py", "symbols": ["independentEntropyHomogeneous", "independentEntropyHomogeneous2", "MultiInfoHomogeneous"]}]}
{"id": "C95", "title": "The single-site mean field m solves its self-consistency equation", "statement": "For a temperature other than zero m(h,J,ell,T) returns a number strictly between 0 and 1 that equals the probability of activity of a spin in the field h + 2(ell-1)J m; it is the only one if (ell-1)J/T > -2. avgE should be the mean-field energy at m and dmdT the derivative of m: both carry the wrong sign of the coupling. susc should be minus the derivative of m with respect to the field (it is wrong at temperatures other than one) and specificHeat the fluctuation of the energy over the squared temperature (it raises for free spins and can be negative).", "quantifier": "all real fields, couplings, sizes and temperatures", "why_tests_cant": "A root of a transcendental equation for all real parameters, its uniqueness and a derivative are not settled by sampling.", "anchors": [{"file": "coniii/mean_field_ising.py", "symbols": ["m", "avgE", "dmdT", "specificHeat", "susc"]}]}
{"id": "C96", "title": "meanFieldStability is the spectral radius of the mean-field map at its fixed point", "statement": "If the frequencies solve the mean-field equations for the couplings J and some fields, meanFieldStability(J,freqs) is the largest modulus of an eigenvalue of the derivative of the mean-field map at the frequencies.", "quantifier": "all coupling matrices, all fields, all fixed points", "why_tests_cant": "It identifies the result with derivatives of a map at a fixed point for every real matrix.", "anchors": [{"file": "coniii/mean_field_ising.py", "symbols": ["meanFieldStability"]}]}
{"id": "C97", "title": "coocSampleCovariance returns the covariance of the co-occurrences", "statement": "The matrix should hold the sample covariance of the products of pairs of spins, with a Laplace correction of the means on its diagonal if asked, followed by an identity block for the prior. The diagonal is the variance for samples of zeros and ones, but the entries off the diagonal are c(1-c) with c the mean of the four-spin product, which is not a covariance, and for samples of -1 and 1, which RegularizedMeanField passes, the diagonal is zero.", "quantifier": "all samples over both alphabets, all pairs of pairs, all flags", "why_tests_cant": "An identity between entries addressed through the flattened upper triangle, for every sample and size.", "anchors": [{"file": "coniii/mean_field_ising.py", "symbols": ["coocSampleCovariance"]}, {"file": "coniii/solvers.py", "symbols": ["RegularizedMeanField.solve"]}]}
{"id": "C98", "title": "The deprecated conditional log-likelihoods and their derivatives are those of the pairwise model", "statement": "For the row of a symmetric matrix, cond_log_likelihood and conditionalLogLikelihood are sums over the samples of the logarithm of the probability of spin r given the others, in the pairwise model on the states of zeros and ones with at least minSize ones; cond_jac and cond_hess hold the first and second derivatives of its negative. The sum over all spins should be the sum of those terms. The Hessian the solvers ask for, with the cached co-occurrences, is too small by factors of 2 and 4, and the sums over all spins are wrong or raise.", "quantifier": "all samples, all sizes, all minimal sizes, all parameters", "why_tests_cant": "Equality of real-valued functions and of their derivatives for every data set.", "anchors": [{"file": "coniii/solvers.py", "symbols": ["Pseudo.cond_log_likelihood", "Pseudo.cond_jac", "Pseudo.cond_hess", "Pseudo.pair_cooc_mat", "Pseudo.pseudo_log_likelihood"]}, {"file": "coniii/pseudo_inverse_ising.py", "symbols": ["conditionalLogLikelihood", "conditionalJacobian", "conditionalHessian", "pairCoocMat", "pseudoLogLikelihood"]}]}
{"id": "C99", "title": "The deprecated pseudolikelihood solvers recover the parameters", "statement": "If the data have the frequencies of the Boltzmann distribution of some parameters (restricted to states with at least minSize ones) and the optimiser finds minima, _solve_ising_deprecated returns those parameters in the basis -1, 1 and pseudoInverseIsing returns the symmetric matrix on 0, 1, provided minSize is at most n-2.", "quantifier": "all sizes, all parameters, all data with those frequencies", "why_tests_cant": "Consistency of an estimator over all models.", "anchors": [{"file": "coniii/solvers.py", "symbols": ["Pseudo._solve_ising_deprecated"]}, {"file": "coniii/pseudo_inverse_ising.py", "symbols": ["pseudoInverseIsing"]}]}
{"id": "C100", "title": "The text of an equation module, run by Python, computes the exact model", "statement": "For any groups of constraints the file that write_py writes is a module whose p(params) returns the Boltzmann distribution over all states and whose calc_observables(params) returns the expectations of all constrained products, whatever the heading and wherever numpy breaks the lines of arrays; pairwise files are right for every n, triplet files for every n from 3 on. The files shipped in coniii/ising_eqn for 2 to 6 spins (both bases, and the two triplet files) are such texts, character by character, and so compute these values for all parameters.", "quantifier": "all n >= 1, all constraint groups, all real parameters, all headings; the shipped files verbatim", "why_tests_cant": "The text is generated code; a test samples a few parameters of a few files, and cannot rule out a wrong index, sign, slice or line break in one of the hundreds of generated lines.", "anchors": [{"file": "coniii/enumerate.py", "symbols": ["write_eqns", "write_py", "_write_energy_terms"]}, {"file": "coniii/ising_eqn/ising_eqn_5_sym.py", "symbols": ["calc_observables", "p"]}, {"file": "coniii/ising_eqn/ising_eqn_6.py", "symbols": ["calc_observables", "p"]}, {"file": "coniii/ising_eqn/ising_eqn_5_triplet.py", "symbols": ["calc_observables", "p"]}]}
{"id": "C101", "title": "The Swendsen-Wang sampler samples the Boltzmann distribution, though it cannot be constructed", "statement": "The constructor of SWIsing always raises NotImplementedError and generate_sample_parallel always raises NameError. Its algorithm is nevertheless right: a step divides the sites into clusters joined through pairs whose alignment lowers the energy and negates some of them; it satisfies detailed balance for the Ising model with any fields and couplings; every row of generate_sample converges to the Boltzmann distribution from every first state, and averages over the rows converge to Boltzmann means.", "quantifier": "all numbers of spins, fields, couplings, first states, numbers of rows and steps, and all orders of set iteration", "why_tests_cant": "The constructor raises, so the methods cannot be tested at all; detailed balance over random bond configurations and convergence in distribution are not settled by finite samples.", "anchors": [{"file": "coniii/samplers.py", "symbols": ["SWIsing", "SWIsing.__init__", "SWIsing.get_clusters", "SWIsing.randomly_flip_clusters", "SWIsing.one_step", "SWIsing.generate_sample", "SWIsing.generate_sample_parallel"]}]}
{"id": "C102", "title": "A model object stays consistent and its samples are those of its current parameters", "statement": "Whatever operations were called on an Ising, Triplet or Potts3 object: calc_p() and calc_observables() without argument use the current multipliers; the sampler has the class, size and generator of the model; generate_sample leaves in sample the wanted number of states of the model, whose expectations approach the Boltzmann means of the current (or given) multipliers, sequentially and in parallel, with the compiled and with the Python sampler. Before setup_sampler it raises; multipliers of another length are refused.", "quantifier": "all models, all sequences of calls, all arguments, all random numbers", "why_tests_cant": "A statement on all histories of an object and on limits of distributions.", "anchors": [{"file": "coniii/models.py", "symbols": ["Model.setup_sampler", "Model.set_rng", "Model.generate_sample", "Ising.set_multipliers", "Triplet.set_multipliers", "Potts3.set_multipliers"]}, {"file": "coniii/samplers.py", "symbols": ["Metropolis.__init__", "Metropolis.update_parameters", "Potts3.__init__"]}]}
{"id": "C103", "title": "sample_ising samples the Ising model of its argument", "statement": "sample_ising takes a vector of n fields and n(n-1)/2 couplings, or the two of them, and returns n_samples rows of n spins -1 and 1 without exception, sequentially or in parallel; their expectations approach the Boltzmann means. Other lengths are refused. How the entries are split between the two vectors is not checked.", "quantifier": "all numbers of spins, all parameters, all arguments, all random numbers", "why_tests_cant": "Limits of distributions for all models.", "anchors": [{"file": "coniii/samplers.py", "symbols": ["sample_ising"]}]}
{"id": "C104", "title": "The text of a Potts equation module, run by Python, computes the Potts model", "statement": "For every number of spins n >= 3 and every number of states k >= 2, SpecificFieldGenericCouplings(n, k).write(fname) leaves a file that Python can import, whatever LICENSE.txt contains; for all fields and couplings its p(params) returns the Boltzmann distribution over all k^n configurations in the order of xpotts_states, and its calc_observables(params) the probabilities of each spin being in each state followed by the probabilities that two spins agree; both refuse parameter vectors of any other length. Sizes below are refused before the file is opened.", "quantifier": "all n, all k, all parameters, all licence texts and dates", "why_tests_cant": "All sizes and all real parameters; the text is thousands of lines even for small systems.", "anchors": [{"file": "coniii/enumerate_potts.py", "symbols": ["PythonFileWriterBase", "SpecificFieldGenericCouplings", "insert_newlines"]}]}
{"id": "C105", "title": "MCH.solve with its own sampler returns, and reports convergence rightly", "statement": "An MCH object made from data, from a number of spins or with an Ising model of the user, and used before in any way, can solve: for all constraints in [-1,1], all starting points and settings, solve returns for every sequence of random numbers, after at most maxiter+2 rounds (one if maxiter is negative), with the right number of parameters, and its error flag is 0 exactly if the last entry of the error history is within both limits. With all samples drawn by the Metropolis sampler of the model object, that last entry is close to the deviation of the true means of the model with the returned parameters from the constraints: the probability of being off by eps or more in any observable is at most K*cpus/(sample_size*eps^2), where K depends only on the number of spins, the bounds on the settings and rho, provided some returned parameter is at least rho in absolute value. So a reported convergence is right up to tol+eps with probability tending to 1 as the samples grow; this includes MCH(sample).solve() with default arguments.", "quantifier": "all numbers of spins, samples, machines, settings, random numbers", "why_tests_cant": "The outcome depends on all random numbers drawn; the claim on probabilities is a limit in the sample size.", "anchors": [{"file": "coniii/solvers.py", "symbols": ["MCH.__init__", "MCH.solve", "MCH.learn_parameters_mch", "Solver.basic_setup"]}, {"file": "coniii/models.py", "symbols": ["Model.generate_sample", "Ising"]}, {"file": "coniii/samplers.py", "symbols": ["Metropolis.generate_sample"]}]}
{"id": "C106", "title": "Systematic sweeps converge exactly when every state can be left", "statement": "With systematic_iter=True, rounds of Metropolis updates that visit the spins in order approach the Boltzmann distribution from every first state, and averages over generate_sample approach the Boltzmann means, if and only if any two states are connected by spins on which the energy depends at the time of the visit; this holds for Ising models where each spin has a field or couplings that cannot cancel. For an odd number of spins with equal couplings and no fields it fails: the state +-+... is mapped to its negative or itself by every sweep for all random numbers, and the sample correlation of two neighbouring spins is -1 for ever.", "quantifier": "all numbers of spins, energies, numbers of iterations, first states, sample sizes, functions of the state and tolerances", "why_tests_cant": "a limit over sample sizes, and an equivalence over all energies; a test of one run sees one model, and samples of a trapped chain look like regular samples", "anchors": [{"file": "coniii/samplers.py", "symbols": ["Metropolis.generate_sample_py", "Metropolis.sample_metropolis"]}]}
{"id": "C107", "title": "Parallel tempering samples the Boltzmann distribution of each temperature", "statement": "ParallelTempering: late rows of the sample of each replica have approximately the Boltzmann distribution at the inverse temperature of that replica, and averages over its rows approach the Boltzmann means, if and only if sweeps of the number of iterations used connect all states. Exchanges only permute configurations, so replicas that start in a trapped state (odd number of spins, equal couplings, no fields, default number of iterations) keep it for ever.", "quantifier": "all numbers of spins and replicas, inverse temperatures other than zero, energies linear in the parameters, consistent first replicas, sample sizes, functions of the state, tolerances", "why_tests_cant": "a limit, over all models; a finite run cannot tell slow from missing convergence", "anchors": [{"file": "coniii/samplers.py", "symbols": ["ParallelTempering.generate_sample", "ParallelTempering.burn_in_replicas", "ParallelTempering.burn_and_exchange"]}]}
{"id": "C108", "title": "Enumerate has a solution exactly when no energy has all data as ground states", "statement": "Enumerate(X).solve(): the function handed to the root finder (or minimiser) is zero exactly at parameters within the bound for which the model reproduces the mean spins and pair products of the sample; these are the unique parameters of the greatest likelihood; they exist if and only if no nonzero fields and couplings make every row of the sample a ground state. In particular there are none if some pair of spins never shows one of its four patterns, and the likelihood then has no maximum. solve returns in any case, without a warning for data of this kind whose correlations are small.", "quantifier": "all numbers of spins, all nonempty samples of \u00b11 spins, all libraries' root finders and minimisers, guesses and bounds; the criterion also for constraints of any origin and all modules with interactions up to order m", "why_tests_cant": "existence of a solution for all data sets is a statement about a system of equations without closed form; a failing root finder in a test does not show that no solution exists", "anchors": [{"file": "coniii/solvers.py", "symbols": ["Solver.basic_setup", "Enumerate.__init__", "Enumerate.solve"]}, {"file": "coniii/enumerate.py", "symbols": ["write_eqns"]}]}
{"id": "C109", "title": "estimate_jac returns the covariance matrix of the sample, which is the derivative of the model's means", "statement": "For a sample of \u00b11 spins every entry (a,b) of the matrix returned by MCH.estimate_jac is the covariance over the sample of observables a and b times a factor in closed form that depends only on the step and on the mean of observable a. The relative error is at most eps^2 for |eps| <= 1/2, the sign is always right, and if the sample has the frequencies of the model the covariance is the derivative of mean b with respect to parameter a. Before solve the method raises AttributeError.", "quantifier": "all samples of \u00b11 spins, all numbers of spins, all steps", "why_tests_cant": "the factor is within 1e-6 of one for the default step, so a test cannot tell the derivative from a number near it, and cannot cover all samples", "anchors": [{"file": "coniii/solvers.py", "symbols": ["MCH.estimate_jac", "MCH.mch_approximation"]}]}
{"id": "C110", "title": "When MPF and pseudolikelihood have an optimum", "statement": "Over all parameters (without the bounds of MPF.solve, for which see C116), the function minimised by MPF.solve and that of Pseudo._solve_general have a minimum exactly if under no pairwise energy function all rows of the data are stable against flips of single spins (unless no flip changes the energy). The function minimised for spin r by _solve_ising has a minimum exactly if no pairwise energy keeps spin r of every row in place. In particular there is no optimum as soon as one of the four patterns of some pair of spins does not occur in the data, and the solvers call the library all the same. If every nonzero energy has a row that a flip lowers, both optima exist, are unique, and Enumerate has a solution too; data with every state are of this kind.", "quantifier": "all samples of \u00b11 spins, all numbers of spins, with and without logarithm", "why_tests_cant": "a test sees the vector the library stopped at, not that the objective keeps decreasing; existence of a minimum is a statement about all parameter vectors", "anchors": [{"file": "coniii/solvers.py", "symbols": ["MPF.solve", "MPF.K", "MPF.logK", "Pseudo._solve_ising", "Pseudo._solve_general"]}]}
{"id": "C111", "title": "SparseEnumerate as an object: accepted positions, existence and likelihood", "statement": "SparseEnumerate(X, parameter_ix=l) for a sample of spins raises without positions, for an empty array and for a single position other than the last; otherwise it keeps the positions sorted and without repetitions. solve() without constraints raises AssertionError unless all parameters were selected, in which case a zero of its function is a model that reproduces the sample. With constraints for the selected observables, a zero is exactly a vector within the bound for which the model with these parameters and zeros elsewhere has these expectations. For the moments of the sample a zero is the unique maximum of the likelihood among all parameter vectors that are zero at the positions left out; it exists exactly if no nonzero choice of the selected parameters makes all rows ground states, and it exists for every part of a selection for which it exists.", "quantifier": "all samples of \u00b11 spins, all numbers of spins, all selections of positions, all constraints, bounds and starting points, root and minimize", "why_tests_cant": "existence and optimality range over all parameter vectors of the constrained family; a test compares one fit with one target", "anchors": [{"file": "coniii/solvers.py", "symbols": ["SparseEnumerate.__init__", "SparseEnumerate.solve", "Solver.set_insertion_ix", "Solver.fill_in", "Solver.basic_setup"]}]}
{"id": "C112", "title": "MCHIncompleteData cannot solve; its learning step", "statement": "MCHIncompleteData.solve raises for every argument; for usable arguments it is AttributeError, because generate_sample reads self.sampler, which nothing sets. On the object that the constructor makes, learn_parameters_mch raises AttributeError if some row of the data is complete and else predicts zero for every observable. Given a sample of the model and one conditional sample for each distinct incomplete row, the prediction after a change of the parameters is the mean over the rows of the data of the reweighted means in the sample that belongs to the row, hence at most one in magnitude; the loop ends and moves no parameter by more than maxdlamda plus one step.", "quantifier": "all data sets with missing spins, all samples, constraints, starting points and learning arguments", "why_tests_cant": "that no argument leads to a result, and that the weights of the samples are right for all data, are statements about all inputs", "anchors": [{"file": "coniii/solvers.py", "symbols": ["MCHIncompleteData.__init__", "MCHIncompleteData.solve", "MCHIncompleteData.learn_parameters_mch", "MCHIncompleteData.generate_sample"]}, {"file": "coniii/utils.py", "symbols": ["unique_rows"]}]}
{"id": "C113", "title": "Pseudo, ClusterExpansion and RegularizedMeanField from constructor to result", "statement": "Pseudo(X).solve() returns the true parameters when the sample has the frequencies of a pairwise model and the library finds minima, with or without force_general, from any starting point, for any model object that is not Potts3; in general the result is a maximum of the pseudolikelihood (or, spin by spin, the average of the conditional maxima) whenever there is one. A Potts3 object with helpers for k states hands the library minus the log-pseudolikelihood plus cost with the right gradient and recovers the distribution; without the helpers, or with the default observables and starting point, solve raises. Helpers are accepted only if no entry exceeds k-1. Without data no object can be solved. ClusterExpansion(X).solve with a negative threshold reproduces the moments of the sample.", "quantifier": "all samples, models, starting points, cost functions and machines", "why_tests_cant": "the choice of algorithm and helpers interacts with every argument; a test sees one combination", "anchors": [{"file": "coniii/solvers.py", "symbols": ["Pseudo.__init__", "Pseudo.solve", "ClusterExpansion.__init__", "RegularizedMeanField.__init__", "Solver.basic_setup"]}]}
{"id": "C114", "title": "SparseMCH returns parameters for the selected positions only, and a true error flag", "statement": "SparseMCH made for spins and a set of positions: the constructor refuses an empty set, a single position other than the last and a missing set, and accepts all others sorted without repetitions, also ones beyond the number of parameters, with which solve always raises. Without the argument constraints, solve raises unless all parameters were selected. With as many constraints as positions, solve returns whatever random numbers are drawn: the parameters outside the positions are zero, the error flag is 0 exactly if the last errors are within the limits, the last errors are those of the sample that the model holds, and the probability that they are off from the true deviation of the model by eps or more is at most K cpus/(size eps^2), unless all returned parameters are close to zero.", "quantifier": "all numbers of spins, all samples of spins, all sets of positions, all arguments of solve with the right lengths, all random number streams, all histories of calls", "why_tests_cant": "The result depends on random numbers; the bound on the probability of a wrong report and the behaviour for every set of positions cannot be seen from finitely many runs.", "anchors": [{"file": "coniii/solvers.py", "symbols": ["SparseMCH.__init__", "SparseMCH.solve", "SparseMCH.learn_parameters_mch", "Solver.set_insertion_ix", "Solver.fill_in"]}]}
{"id": "C115", "title": "RegularizedMeanField from the constructor to the result", "statement": "For data in which every spin is seen up and down, every evaluation of the objective of RegularizedMeanField returns a number, whatever was evaluated before: the sum of squared residuals of the rows drawn in units of their variances. With the compiled sampler and reset_rng the objective is one function of the strength, so that solve returns the parameters made from the mean-field matrix at the strength that the search finds for that function. Without the extension two evaluations at one strength can differ although reset_rng is set, because the sampler goes on from the states it kept, and co-occurrences of more than 127 rows are wrong because they are computed with eight bits. The residuals of the frequencies do not depend on the rows. solve leaves the parameters of the last candidate sampled in the model, not those returned. The options priorLmbda, min_covariance and min_independent=False always raise.", "quantifier": "for all numbers of spins, data, sample sizes, random numbers, eigenvalue routines, searches and sequences of evaluations", "why_tests_cant": "The statements are about every sequence of evaluations, every search and all random numbers; tests run one search with one seed, and the states kept in the sampler show only when the same strength is evaluated twice", "anchors": [{"file": "coniii/solvers.py", "symbols": ["RegularizedMeanField.__init__", "RegularizedMeanField.solve", "RegularizedMeanField.bracket1d"]}, {"file": "coniii/samplers.py", "symbols": ["Metropolis.generate_sample_parallel_py", "Metropolis.generate_sample_parallel_boost"]}, {"file": "coniii/mean_field_ising.py", "symbols": ["isingDeltaCooc", "cooccurrence_matrix", "coocStdevsFlat", "JmeanField"]}, {"file": "coniii/models.py", "symbols": ["Model.set_rng", "Model.generate_sample"]}]}
{"id": "C116", "title": "MPF from the constructor to the result: the search within bounds", "statement": "For every sample of \u00b11 spins MPF can be made and solve returns the \u00b11 form of the vector the library found; the search starts at the means of the {0,1} data or at the {0,1} form of the guess. If the library finds a smallest point within the bounds, the result has the least probability flow among all parameters whose {0,1} form is within parameter_limits; such parameters always exist. A result strictly within the limit is the optimum over all parameters; if there is no such optimum, some {0,1} parameter of the result is at the limit, so that the limit decides the result. Data at the Boltzmann frequencies of a model return that model exactly if its {0,1} form is within the limit. The limit is not the largest magnitude of a returned parameter: couplings are at most a quarter of it, fields can be (n+1)/4 times as large. Data given as 0 and 1 give the same result as the same data given as \u00b11. A Triplet model with a fitting guess is fitted with its three-spin terms; otherwise Triplet and Potts3 models raise. adj, calc_de and all_connected=False always raise, a guess with 2^n entries does not end.", "quantifier": "for all samples of spins, numbers of spins, limits, guesses and libraries", "why_tests_cant": "The optimum within bounds is a statement about all parameter vectors and the bounds apply in a basis the user does not see; tests use data whose parameters are far within them", "anchors": [{"file": "coniii/solvers.py", "symbols": ["MPF.__init__", "MPF.solve", "MPF.K", "MPF.logK", "Solver.basic_setup"]}, {"file": "coniii/utils.py", "symbols": ["ising_convert_params", "split_concat_params", "define_ising_helper_functions", "define_triplet_helper_functions"]}]}
{"id": "C117", "title": "The learning step of the Monte Carlo histogram solver lowers its predicted error and reaches constraints it can reach", "statement": "Within one call, learn_parameters_mch repeatedly moves the parameter change along the difference between constraints and predicted observables, predicting by reweighting one sample. If eta is at most 2/N (N parameters of the Ising helpers; for the Potts helpers 2/(n+n(n-1)/2) whatever k is), the distance of prediction to constraints never rises from step to step; if eta is smaller it tends to zero exactly if the constraints are a mixture of the observables of the sampled states, and then at a rate of at least T^(-1/3). For larger eta, including the default eta=1, the prediction can end farther from the constraints than the sample was.", "quantifier": "every sample of states, every constraints, every eta in the stated range, every number of steps; for the last sentence a witness", "why_tests_cant": "Convergence over unboundedly many steps for every sample and every factor is a statement about limits; a test follows one sample for a few steps, and convergence or overshoot depends on the sample.", "anchors": [{"file": "coniii/solvers.py", "symbols": ["MCH.learn_parameters_mch", "MCH.solve"]}, {"file": "coniii/utils.py", "symbols": ["define_ising_helper_functions", "define_potts_helper_functions"]}]}
{"id": "C118", "title": "What the usage guide's settings and triplet approximation make of the Monte Carlo histogram solver", "statement": "MCH.solve moves each parameter by at most the sum over its rounds of maxdlamda + 2|eta|; with the learn_settings function of the usage guide (exp(-i/5), in the Potts section half of it) that is at most 17 (8.5) in total, however many rounds maxiter allows, so parameters farther from the starting point cannot be found. The mch_approximation that the guide defines for triplet interactions predicts observables for the opposite of the change it is given (exact means of theta - d for a sample at the exact frequencies of theta), hence with it the predicted error inside learn_parameters_mch never falls and generally rises.", "quantifier": "every machine, data, constraints in [-1,1], starting point, number of rounds and random numbers; every sample of spins and every change for the approximation", "why_tests_cant": "A bound over all numbers of rounds and all random numbers is not observable in runs; the guide's own run converges only because its settings shrink the steps, which hides the sign.", "anchors": [{"file": "ipynb/usage_guide.py", "symbols": ["learn_settings", "mch_approximation"]}, {"file": "coniii/solvers.py", "symbols": ["MCH.solve", "MCH.learn_parameters_mch"]}]}
{"id": "C119", "title": "Fits to samples approach the parameters of the model", "statement": "Draw a sample from the pairwise Ising model with parameters theta (not all zero) with sample_ising and fit an Ising model to it with Enumerate, Pseudo (default and force_general) or MPF (limits that contain theta). Then, if the numerical searches find what they look for, for every tolerance the probability that a fit raises or returns some parameter off by the tolerance or more is at most a constant divided by the number of samples. If all parameters are zero this fails: with default settings and two spins no fit exists.", "quantifier": "all n, all parameter vectors not identically zero, all tolerances, all sample sizes, iteration counts >= 1, burn-ins, serial and parallel, all first guesses", "why_tests_cant": "It is a statement about the limit of the distribution of estimates over all random numbers and all parameters; a test fits a few samples with loose tolerances.", "anchors": [{"file": "coniii/samplers.py", "symbols": ["sample_ising", "Metropolis.generate_sample"]}, {"file": "coniii/solvers.py", "symbols": ["Enumerate.solve", "Pseudo.solve", "MPF.solve"]}]}
{"id": "C120", "title": "The usage guide's data recipe draws independent states of the model, and fits to them find its parameters", "statement": "The recipe p = ising_eqn_n_sym.p(hJ); sample = bin_states(n, True)[np.random.choice(range(2**n), size=size, replace=True, p=p)] of the usage guide returns size rows that are independent and each distributed as the Ising model with parameters hJ (row k of bin_states and entry k of p belong to the same state). Averages over the rows have the model's expectations and the model's variance divided by size; the probability that some state's frequency is off by delta is at most 1/(size delta^2); fitting the sample with Enumerate, Pseudo or MPF misses a parameter by eps or more with probability at most a constant divided by size, also if all parameters are zero.", "quantifier": "all n up to 30, all parameter vectors, all sample sizes, all tolerances; for the independence every probability vector that numpy accepts", "why_tests_cant": "A test sees one sample per seed; independence, exact row distribution and the rate of convergence are statements about all random numbers, and a misalignment between the order of p and of bin_states shifts probabilities between states without any error.", "anchors": [{"file": "ipynb/usage_guide.py", "symbols": ["sample", "allstates"]}, {"file": "coniii/utils.py", "symbols": ["bin_states"]}, {"file": "coniii/enumerate.py", "symbols": ["_write_python"]}, {"file": "coniii/solvers.py", "symbols": ["Enumerate.solve", "Pseudo.solve", "MPF.solve"]}]}
{"id": "C121", "title": "Fits of models with triplet interactions with Enumerate and MPF return what they should, from constructor to result", "statement": "For a model Triplet([h, J, K]) of n >= 3 spins with calc_observables of the triplet order (as in the usage guide): MPF(sample, model=..., calc_observables=...).solve() starts from the mean products of the bits or from the {0,1} form of the guess, and if the bounded search finds a smallest point the returned h, J, K have the least probability flow among all parameters whose {0,1} form is within the limit; such parameters always exist, and if they are strictly inside the limit it had no effect. Enumerate(...).solve() looks for the zeros of a function that is zero exactly where the model has the mean products of one, two and three spins of the sample; that is the unique maximum of the likelihood, and it exists exactly if no nonzero choice of parameters makes every row a ground state. On data that the guide's recipe draws from a model with triplet interactions, both fits come within any tolerance of its parameters except with probability at most a constant divided by the sample size.", "quantifier": "all n >= 3 (to 30 for the recipe), all +-1 samples, all parameter values of the model, all guesses, limits, tolerances and sample sizes", "why_tests_cant": "The repository has no test of a fit with triplet interactions; a test would try one data set, while the conversion between bases of the triplet parameters, the order of the observables and the existence of a solution are statements about all data and parameters.", "anchors": [{"file": "coniii/solvers.py", "symbols": ["Enumerate.__init__", "Enumerate.solve", "MPF.__init__", "MPF.solve", "basic_setup"]}, {"file": "coniii/models.py", "symbols": ["Triplet.__init__"]}, {"file": "coniii/utils.py", "symbols": ["convert_params", "define_triplet_helper_functions"]}, {"file": "ipynb/usage_guide.py", "symbols": ["MPF"]}]}
{"id": "C122", "title": "Fits of Potts models by pseudolikelihood: when they exist, how far they are determined, and that they approach the true parameters", "statement": "For a Potts model of n spins with k states: two parameter vectors give the same distribution exactly if their couplings and the differences between the fields of each spin agree, so Pseudo's answer is determined at most up to a constant per spin, and the objective never has exactly one minimum. A minimum exists exactly if no parameters make every change of one spin in a row of the sample an increase of energy or neutral, with one increase; it exists if all states occur and does not if a spin never takes one of the values. Pseudo(sample, model=Potts3(...)) with the helper functions for k states returns a minimum whenever there is one. Data drawn from a Potts3 model by generate_sample (Python or compiled, sequential or parallel) and fitted that way give couplings and field differences within any tolerance of the true ones except with probability at most a constant divided by the sample size (times the number of processors for parallel sampling).", "quantifier": "all n, k >= 2 (k = 3 for sampling), all samples, parameters, guesses, tolerances, sample sizes, iterations and burn-ins", "why_tests_cant": "A test fits one random sample with one library routine and compares numbers; whether an answer exists, to what extent it is determined, and that errors vanish with the sample size are statements about all samples.", "anchors": [{"file": "coniii/solvers.py", "symbols": ["Pseudo.__init__", "Pseudo.solve", "Pseudo._solve_potts"]}, {"file": "coniii/utils.py", "symbols": ["define_potts_helper_functions"]}, {"file": "coniii/models.py", "symbols": ["Potts3.generate_sample", "Potts3.setup_sampler"]}, {"file": "coniii/samplers.py", "symbols": ["Potts3Metropolis"]}]}
{"id": "C123", "title": "A model's own samples, fitted with a model of the same class, give back its parameters", "statement": "Draw a sample with generate_sample of an Ising or Triplet object that has reached its state by any sequence of calls, then fit a model of the same class: the probability that Enumerate, Pseudo (Ising only) or MPF raises or returns a parameter that is off by a given tolerance or more is at most a constant divided by the number of samples (times the number of processors for parallel sampling). Parameters are not all zero and, for MPF, within its limit.", "quantifier": "all numbers of spins, parameters, histories of the object, machines with and without compiled extension, iterations, burn-ins, tolerances and sample sizes", "why_tests_cant": "The repository's tests never fit what they sample; a test would see one random sample at one size and could not bound the probability of a wrong answer.", "anchors": [{"file": "coniii/models.py", "symbols": ["Ising.generate_sample", "Triplet.generate_sample", "Ising.setup_sampler"]}, {"file": "coniii/solvers.py", "symbols": ["Enumerate.solve", "Pseudo.solve", "MPF.solve"]}, {"file": "coniii/samplers.py", "symbols": ["Metropolis.generate_sample", "Metropolis.generate_sample_parallel"]}]}
{"id": "C124", "title": "The usage guide's summary of a fit shows two distances, which vanish as the data grow", "statement": "summarize(solver) prints the Euclidean distance between the sample's means, pair means (and triplet means) and those of the model at the solver's parameters, and the distance between the true and the solver's parameters. The first is zero exactly if the model has the means of the sample, as it does after Enumerate whenever any parameters do; the second exactly if the parameters are the true ones. With data drawn by the guide's recipe, the probability that Enumerate, MPF or Pseudo (Enumerate or MPF for triplets) or the summary raises, or prints a number not below a given tolerance, is at most a constant divided by the number of rows. Without an equation module the summary raises.", "quantifier": "all numbers of spins, parameters, samples of spins, first guesses, tolerances and sample sizes", "why_tests_cant": "A run of the guide prints two numbers for one random data set of 1000 rows; it says neither what the numbers are in general nor how probable large ones are.", "anchors": [{"file": "ipynb/usage_guide.py", "symbols": ["error_on_correlations", "error_on_multipliers", "summarize"]}, {"file": "coniii/utils.py", "symbols": ["pair_corr"]}, {"file": "coniii/solvers.py", "symbols": ["Enumerate.solve", "MPF.solve", "Pseudo.solve"]}]}
{"id": "C125", "title": "What the cluster expansion returns when its threshold keeps disjoint pairs, and whether its fits approach the true parameters", "statement": "For a sample in which every two spins take all four pairs of values, and a threshold for which no spin is in two pairs with a larger mutual information, ClusterExpansion.solve returns in closed form the model in which these pairs have the sample's joint probabilities and are independent of each other and of the other spins, its entropy, and the single spins and these pairs as clusters. As samples approach a pairwise model the fits approach the model of the kept pairs: the true model if the threshold is negative, or positive and below the mutual information of every coupled pair when no spin is coupled with two others (such a threshold always exists). The couplings of pairs below the threshold come out as exactly zero, whatever they are in the model. With data from the guide's recipe or from sample_ising the probability of a fit that is off by a given tolerance is at most a constant divided by the number of samples.", "quantifier": "all numbers of spins from two on, all samples, all models and thresholds as described, all tolerances, all sample sizes; every least squares routine that finds a root when there is one", "why_tests_cant": "The limit of infinitely many samples, all thresholds and all models cannot be enumerated; a test sees one sample with one threshold and cannot tell a bias of the method from sampling error", "anchors": [{"file": "coniii/solvers.py", "symbols": ["ClusterExpansion", "solve", "S", "deltaS", "Sindependent", "subsets"]}]}
{"id": "C126", "title": "The command line of the equation writer writes the module it documents, also in high precision", "statement": "Calling python enumerate.py with a size, optionally a basis (0 or 1) and an order (2 or 3), and with options anywhere among them, writes one file. Its name is ising_eqn_[n][_sym][_triplet][_hp].py, its precision is what the first option says, and importing it gives functions p and calc_observables that compute the Boltzmann distribution and the means and correlations of the model of that size, basis and order, for all parameters. Modules in high precision compute the same functions as ordinary ones. No command line writes any other file; what is refused raises the named exceptions.", "quantifier": "all sizes, both bases, both orders, both precisions, all parameters, all command lines", "why_tests_cant": "Tests import a few shipped files; no test runs the command line, and none reads a module in high precision for arbitrary size and parameters.", "anchors": [{"file": "coniii/enumerate.py", "symbols": ["write_eqns", "write_py", "pairwise", "triplet", "mp_fast_logsumexp", "__main__"]}]}
{"id": "C127", "title": "The counting functions of the utilities count what they say", "statement": "multinomial(N, a1, ..., ak) is the number of words of length N over k letters in which letter i occurs ai times; the numbers must add up to N, otherwise it raises. _expand_binomial(a, b, n) lists the coefficients of the product of n binomials a*x_i + b by falling degree: there are 2^n of them and they add up to (a+b)^n.", "quantifier": "all arguments that are natural numbers, all real a and b, all n", "why_tests_cant": "Tests compare one product of two binomials; multinomial has no test, and whether cutting off digits gives the right number depends on the direction of rounding errors.", "anchors": [{"file": "coniii/utils.py", "symbols": ["multinomial", "_expand_binomial"]}]}
{"id": "C128", "title": "Long simulations of the lattice approach the Boltzmann distribution", "statement": "However the lattice starts, the lattice after iterate(n_iters) has, as n_iters grows, the Boltzmann distribution of the periodic nearest-neighbour model with the coupling and fields given: the mean of every function of the lattice tends to its mean over that distribution, for sweeps in random order (systematic=True) and for flips at random sites.", "quantifier": "All lattices with at least two rows and columns, all couplings and fields, all first lattices, all functions of the lattice.", "why_tests_cant": "Convergence is a statement about the limit of infinitely many iterations and over all random numbers; tests see a few runs of finite length, and cannot tell slow convergence from none.", "anchors": [{"file": "coniii/ising/automaton.py", "symbols": ["Ising2D.__init__", "Ising2D.iterate", "Ising2D.flip_metropolis"]}]}
{"id": "C129", "title": "spec_cluster returns the connected components of a graph", "statement": "Given the Laplacian of a graph on n sites, spec_cluster returns the connected components of the graph, each once, in exact and in tolerant mode.", "quantifier": "for all graphs on any number of sites (fewer than 10^16 where stated, at most 464 for the tolerant mode) and all eigenvalues and independent eigenvectors of length 1 that the eigenvalue routine may return", "why_tests_cant": "The eigenvectors for the eigenvalue 0 are not determined by the graph; a test sees only the ones one library version happens to return for a few graphs.", "anchors": [{"file": "coniii/samplers.py", "symbols": ["spec_cluster"]}]}
{"id": "C130", "title": "MCH with a triplet or Potts model and supplied functions: a report of convergence can be trusted", "statement": "MCH(sample, model, calc_observables, mch_approximation=...) with an Ising, triplet or three-state Potts model takes the means of the observables of that class as constraints. solve returns whatever random numbers are drawn; the last entry of the error history is close to the deviation of the model with the returned parameters from the constraints, and if the error flag is 0 the model has the wanted means within tol plus epsilon, with a probability that tends to 1 as the samples grow. This holds for whatever mch_approximation returns, as long as it returns one number of size at most 1 per parameter; so it holds for the calls of the usage guide for triplets (although the approximation of the guide has the wrong sign) and for the Potts model. A function calc_observables of another class than the model is refused with an AssertionError by solve, unless the numbers of parameters happen to agree (Ising and triplet for at most two spins, triplet and Potts for five).", "quantifier": "all numbers of spins, all data, all models that a user can have, all settings within bounds, all approximations, all random numbers; for the Ising and triplet models unless all returned parameters are smaller than rho", "why_tests_cant": "The claim is about the distribution of the result over all random numbers and about means in the fitted model, which a test can only estimate; the functions supplied by the user are arbitrary.", "anchors": [{"file": "coniii/solvers.py", "symbols": ["MCH.__init__", "MCH.solve", "MCH.learn_parameters_mch"]}, {"file": "ipynb/usage_guide.py", "symbols": ["mch_approximation", "learn_settings"]}]}
{"id": "C131", "title": "Samplers start from uniformly random states, so short samples are wrong at most by a bounded factor", "statement": "random_sample and the compiled init_sample draw every state with equal probability and independently. Hence in the first sample of a new sampler (and in every sample of a compiled one), for any n_iters and burn_in including 0, every row has the distribution of the model up to a factor: if the energies of no two states differ by more than D, the probability of each event and the mean of each nonnegative function are within a factor exp(D) of those of the model, in particular with D twice the sum of the absolute parameters. If all parameters are zero each row is exactly uniform. sample_ising has the same guarantee.", "quantifier": "all numbers of spins, all parameters, Ising, triplet and Potts models, Python and compiled, sequential and parallel, all numbers of iterations and burn-ins, all rows, all nonnegative functions of the state", "why_tests_cant": "The claim is about exact probabilities over all random numbers; a test that draws samples sees estimates for a few parameters and cannot exclude a bias of the first states, which long burn-ins hide.", "anchors": [{"file": "coniii/samplers.py", "symbols": ["Metropolis.random_sample", "Potts3.random_sample", "Metropolis.generate_sample_py", "Metropolis.generate_sample_parallel_py", "sample_ising"]}, {"file": "cpp/samplers.cpp", "symbols": ["Ising::init_sample", "Potts3::init_sample"]}, {"file": "coniii/models.py", "symbols": ["Model.generate_sample"]}]}
{"id": "C132", "title": "Generated equations in floating-point arithmetic stay within range, and hide overflow of the energies", "statement": "In floating-point arithmetic (rounded operations with a largest number, infinities and NaN), if the energies of a generated module are finite numbers, however large: fast_logsumexp overflows in no exponential, returns sign 1, and a value that is not NaN and not below the largest energy; every entry of p(params) is a number from 0 to 1; every entry of calc_observables(params) with coefficients -1, 0 and 1 is a number from -1 to 1, if both sums are added in the same order and the logarithm is monotone. If an energy overflows to plus infinity, all entries of p(params) are NaN while every entry of calc_observables(params) is silently 0.", "quantifier": "Every arithmetic with a monotone symmetric rounding that keeps the naturals up to 2^53 and with exp and log within their ranges, every list of energies of up to 2^53 states, every order in which numpy may add", "why_tests_cant": "Tests run small parameters on one machine; overflow, the order of summation chosen by numpy and the rounding of every operation vary over ranges no test covers", "anchors": [{"file": "coniii/enumerate.py", "symbols": ["fast_logsumexp", "write_eqns", "write_py"]}]}
{"id": "C133", "title": "Accuracy of the generated equations in floating-point arithmetic", "statement": "In floating-point arithmetic with accuracy eps, each entry of p(params) of a generated module differs from the exact Boltzmann probability of its state by at most eps times an explicit number (the square of the number of states, plus terms in the number and size of the parameters), and each entry of calc_observables(params) from the exact expectation by at most six times as much, in whatever order numpy adds. For the modules for up to 9 spins that are shipped, in double precision, with fields and couplings up to 10, both errors are below 1e-9.", "quantifier": "Every arithmetic with the stated accuracy, every set of products of spins, every list of states, every parameter within the stated size, every order of summation", "why_tests_cant": "Tests compare against other floating-point computations at a few parameters; an error bound for all parameters and summation orders needs a proof", "anchors": [{"file": "coniii/enumerate.py", "symbols": ["fast_logsumexp", "write_py", "get_terms11", "get_terms01"]}]}
{"id": "C134", "title": "Pseudolikelihood objective and gradient in floating point", "statement": "The function that the pseudolikelihood solvers hand to scipy's minimiser returns, for every spin, a log-likelihood and a gradient that agree with their exact values up to a bound given by the rounding unit, the sample size and the size of the parameters, whatever the order in which numpy adds. This fails for large parameters: as soon as exp(2E) overflows for one row of the sample, every entry of the gradient is NaN (0 times infinity) and the log-likelihood is minus infinity, although the exact values are moderate numbers.", "quantifier": "all arithmetics satisfying the stated rounding rules, all samples, all parameters, all orders of summation", "why_tests_cant": "Tests try small parameters on one machine; rounding bounds must hold for all inputs, and the overflow needs energies that no test reaches.", "anchors": [{"file": "coniii/solvers.py", "symbols": ["Pseudo", "_solve_ising", "_solve_general"]}]}
{"id": "C135", "title": "Potts pseudolikelihood and its gradient in floating point", "statement": "For every row of the sample, the log-likelihood that Pseudo computes for the Potts model (through logsumexp) is a number that is not positive, however large the differences of energies are, unless the logarithm itself exceeds the range; as long as the exponentials of the differences stay in range, all derivatives are finite and they and the log-likelihood agree with their exact values up to a bound given by the rounding unit, the number of states and the size of the differences, whatever the order in which numpy adds. This fails for large parameters: as soon as exp(-Edelta) overflows for one state, every derivative of the row is NaN (infinity over infinity), although the exact derivatives are between -1 and 1 and the log-likelihood is finite.", "quantifier": "all arithmetics satisfying the stated rounding rules, all numbers of states, all differences of energies, all orders of summation", "why_tests_cant": "Tests try small parameters on one machine; rounding bounds must hold for all inputs, and the overflow needs energies that no test reaches.", "anchors": [{"file": "coniii/solvers.py", "symbols": ["Pseudo", "_solve_potts"]}]}
{"id": "C136", "title": "MPF's default objective cannot overflow and is accurate", "statement": "In floating-point arithmetic, for every sample of {0,1} states, all pairwise Ising parameters up to a bound b and every order in which numpy and scipy add, the objective MPF minimises by default (uselog=True) is a finite number whose distance from the logarithm of the probability flow is at most the rounding error times an explicit number that depends only on n, b and the number of distinct states. With uselog=False the objective is infinite as soon as one energy difference is too large, which happens within the default parameter_limits.", "quantifier": "all arithmetics that round as IEEE arithmetic does, all samples, n >= 1, all parameters up to b, all orders of summation", "why_tests_cant": "Rounding errors depend on every parameter, state and order of summation; tests see a few, and overflow needs large parameters that tests avoid.", "anchors": [{"file": "coniii/solvers.py", "symbols": ["MPF.logK", "MPF.K", "MPF.solve"]}, {"file": "coniii/utils.py", "symbols": ["fast_sum", "calc_e"]}]}
{"id": "C137", "title": "Reweighted predictions of MCH in floating point", "statement": "For +-1 samples the Ising mch_approximation returns, for every spin and every pair, the average over the sample with weights exp(-dE), up to a stated bound on rounding errors, and its assertion does not fail. If some exp(-dE) overflows it returns NaN in every entry and the assertion still does not fail.", "quantifier": "every number of spins, every sample, every vector of parameter changes, every order of summation, every rounding arithmetic of the stated accuracy", "why_tests_cant": "Rounding errors depend on the sample, the parameters and the order in which numpy adds; tests try a few small steps, and never steps large enough to overflow.", "anchors": [{"file": "coniii/utils.py", "symbols": ["mch_approximation", "pair_corr", "calc_e"]}]}
{"id": "C138", "title": "Metropolis sampler in floating point", "statement": "The sampler does not recompute the energy of the current state but adds up changes. However many iterations are made, every energy it records is that of the recorded state up to a fixed bound on rounding errors, nothing overflows, and every flip is accepted with the Metropolis probability up to a stated bound. Averages after k iterations differ from those of the exact sampler by at most k times a stated bound. For every tolerance there is an accuracy such that, however long the sampler runs after a burn-in, averages are those of the Boltzmann distribution up to the tolerance.", "quantifier": "every number of spins, every energy function computed with a stated accuracy (in particular the Ising energy for all parameters in range), every number of iterations, every stream of random numbers, every rounding arithmetic of the stated accuracy", "why_tests_cant": "Accumulation of rounding errors shows only in long runs and depends on the random numbers; tests compare with a tolerance after a few iterations.", "anchors": [{"file": "coniii/samplers.py", "symbols": ["Metropolis.sample_metropolis", "Metropolis.generate_sample_py", "Potts3.sample_metropolis"]}]}
