{"id": "C01", "title": "Two-factor output functions compute their logical formula", "statement": "For each of the eight implemented two-factor models OUTER-INNER, the scalar output function returns 1 exactly when OUTER over the latent dimensions of INNER(z_l,u_l) is true (XOR meaning 'exactly one'), and -1 otherwise.", "quantifier": "all latent sizes L (including 0) and all vectors z,u with entries in {-1,1}", "why_tests_cant": "the repository samples ten random pairs at L=3; L is unbounded and the early exits/counters only show at particular positions", "anchors": ["lom/_numba/lom_outputs.py:OR_AND_product", "lom/_numba/lom_outputs.py:OR_NAND_product", "lom/_numba/lom_outputs.py:OR_XOR_product", "lom/_numba/lom_outputs.py:NAND_XOR_product", "lom/_numba/lom_outputs.py:XOR_AND_product", "lom/_numba/lom_outputs.py:XOR_XOR_product", "lom/_numba/lom_outputs.py:XOR_NXOR_product", "lom/_numba/lom_outputs.py:XOR_NAND_product", "lom/_numba/lambda_updates_numba.py:get_scalar_output_function_2d"]}
{"id": "C02", "title": "Three-factor output functions compute their logical formula", "statement": "For each of the eight implemented models, the three-factor scalar output function returns 1 exactly when OUTER over l of INNER(z_l,u_l,v_l) is true and -1 otherwise.", "quantifier": "all L and all z,u,v in {-1,1}^L", "why_tests_cant": "no existing test covers the 3D functions directly and the arithmetic encodings of three-way XOR (sum == -1) must hold for every combination and position", "anchors": ["lom/_numba/lom_outputs.py:OR_AND_product_3d", "lom/_numba/lom_outputs.py:OR_NAND_product_3d", "lom/_numba/lom_outputs.py:OR_XOR_product_3d", "lom/_numba/lom_outputs.py:NAND_XOR_product_3d", "lom/_numba/lom_outputs.py:XOR_AND_product_3d", "lom/_numba/lom_outputs.py:XOR_XOR_product_3d", "lom/_numba/lom_outputs.py:XOR_NXOR_product_3d", "lom/_numba/lom_outputs.py:XOR_NAND_product_3d", "lom/_numba/lambda_updates_numba.py:get_scalar_output_function_3d"]}
{"id": "C03", "title": "lom_generate_data implements every one of the 36 models at every arity", "statement": "lom_generate_data(factors, 'OUTER-INNER') returns an array whose shape is the list of row counts, whose every cell is 1 if OUTER_l INNER_k (factors[k][i_k,l]==1) and -1 otherwise; an operator name outside the six raises an error.", "quantifier": "all 36 operator pairs, any number K>=1 of factors, any sizes, every cell", "why_tests_cant": "K, the sizes and the factor contents are unbounded", "anchors": ["lom/auxiliary_functions.py:lom_generate_data", "lom/auxiliary_functions.py:get_lop"]}
{"id": "C04", "title": "Fast data generation agrees with the general one", "statement": "lom_generate_data_fast(factors, model) equals lom_generate_data(factors, model) in shape and in every cell, whichever code path (2D kernel, 3D OR-AND kernel, fallback) is chosen.", "quantifier": "all 36 models, any number of factors, all {-1,1} factors of any size", "why_tests_cant": "dispatch and kernels have to agree for every shape and content", "anchors": ["lom/auxiliary_functions.py:lom_generate_data_fast", "lom/_numba/lambda_updates_numba.py:make_output_function_2d", "lom/_numba/lambda_updates_numba.py:make_output_function_3d", "lom/auxiliary_functions.py:implemented_loms"]}
{"id": "C05", "title": "qL-AND output is a threshold", "statement": "The qL-AND output of a cell is 1 exactly when at least q_d latent dimensions are active in both factors, for threshold q_d>=1; with all thresholds 1 it coincides with OR-AND.", "quantifier": "all L, all {-1,1} vectors, all thresholds q>=1 (q=0 behaviour characterised too)", "why_tests_cant": "the loop exits early on equality, so correctness depends on every position at which the count passes q", "anchors": ["lom/_numba/lom_outputs.py:qL_AND_product", "lom/_numba/lambda_updates_numba.py:make_correct_predictions_counter"]}
{"id": "C06", "title": "Output does not depend on the order of latent dimensions or of factors", "statement": "Permuting the latent dimensions of all factors simultaneously, or exchanging the two (three) factor vectors, leaves every output value unchanged.", "quantifier": "all eight models, all L, all permutations", "why_tests_cant": "L! permutations for unbounded L", "anchors": ["lom/_numba/lom_outputs.py:OR_AND_product", "lom/_numba/lom_outputs.py:XOR_XOR_product_3d"]}
{"id": "C07", "title": "MAX-AND product takes the maximum dispersion among active dimensions", "statement": "MAX_AND_product_2d gives each cell the largest lambda among the latent dimensions active in that cell (0 when none is active).", "quantifier": "all L, all factor contents, all positive lambdas", "why_tests_cant": "needs two overlapping dimensions with different lambdas; existing test only checks a thresholded accuracy", "anchors": ["lom/_numba/lom_outputs.py:MAX_AND_product_2d", "lom/_numba/lom_outputs.py:OR_AND_product_expand", "lom/_numba/max_machine_sampler.py:maxmachine_forward_pass"]}
{"id": "C08", "title": "Active-source counts are exact", "statement": "compute_g adds to every cell the number of latent dimensions active in both factors.", "quantifier": "all sizes; counts held in int8", "why_tests_cant": "the int8 accumulator only wraps once more than 127 sources are active", "anchors": ["lom/_numba/lom_outputs.py:compute_g"]}
{"id": "C09", "title": "Canonicalisation of the model preserves its meaning", "statement": "For every model OUTER-INNER the canonical model and inversion flags chosen by add_layer satisfy: output of the requested model on factors F equals (negated iff invert_data) the output of the canonical model on F (negated iff invert_factors).", "quantifier": "all 36 operator pairs, any arity, sizes and {-1,1} factors", "why_tests_cant": "36 models x unbounded factor contents", "anchors": ["lom/auxiliary_functions.py:canonise_model", "lom/auxiliary_functions.py:replace_equivalent_model"]}
{"id": "C10", "title": "Every one of the 36 models is accepted and lands on an implemented model", "statement": "canonise_model succeeds for every pair of the six operators and returns one of the eight implemented models; any name other than these 36 and the three special models MAX-AND, OR-AND-IBP and qL-AND is rejected with an error and leaves the data untouched.", "quantifier": "all model strings", "why_tests_cant": "strings are unbounded; acceptance must be exactly the documented set", "anchors": ["lom/auxiliary_functions.py:canonise_model", "lom/auxiliary_functions.py:implemented_loms"]}
{"id": "C11", "title": "add_layer presents the layer with data in the orientation its model needs", "statement": "After add_layer(child=data, model=m) the data seen by every layer attached to that child is the caller's data, negated iff that layer's invert_data flag is set; a failing add_layer leaves the data unchanged.", "quantifier": "all sequences of add_layer calls on a shared child", "why_tests_cant": "depends on the history of calls; one call per test never exposes the interaction", "anchors": ["lom/auxiliary_functions.py:canonise_model", "lom/machine.py:Machine.add_layer"]}
{"id": "C12", "title": "replace_equivalent_model only replaces a model by an equivalent one", "statement": "The model returned computes the same output as the model passed in, and applying the replacement twice changes nothing more.", "quantifier": "all model strings; all arities, sizes and factors", "why_tests_cant": "semantic equality over unbounded inputs", "anchors": ["lom/auxiliary_functions.py:replace_equivalent_model"]}
{"id": "C13", "title": "expected_density is the exact probability of a 1", "statement": "expected_density(model, L, K, f) equals the probability that a cell is 1 when all K*L factor bits are independent Bernoulli(f).", "quantifier": "all 36 models, all L>=1, all K>=1, all f in [0,1]", "why_tests_cant": "the test compares one random sample at L=3,K=2,f=.5 within 5e-2, and swallows the failure", "anchors": ["lom/auxiliary_functions.py:expected_density", "lom/auxiliary_functions.py:get_lom_class"]}
{"id": "C14", "title": "Two-factor update score is the exact score difference of the data", "statement": "For each of the eight models the score used to resample Z[n,l] equals the sum over d of X[n,d] times half the change of the predicted cell when Z[n,l] goes from -1 to 1.", "quantifier": "all sizes D,L, all {-1,1} factors, all {-1,0,1} data, every l", "why_tests_cant": "explaining-away logic depends on all other latent dimensions; the score is returned as int16 so size matters too", "anchors": ["lom/_numba/posterior_score_fcts.py:posterior_score_OR_AND_2D", "lom/_numba/posterior_score_fcts.py:posterior_score_XOR_AND_2D", "lom/_numba/posterior_score_fcts.py:posterior_score_XOR_NAND_2D", "lom/_numba/posterior_score_fcts.py:posterior_score_OR_NAND_2D", "lom/_numba/posterior_score_fcts.py:posterior_score_OR_XOR_2D", "lom/_numba/posterior_score_fcts.py:posterior_score_NAND_XOR_2D", "lom/_numba/posterior_score_fcts.py:posterior_score_XOR_XOR_2D", "lom/_numba/posterior_score_fcts.py:posterior_score_XOR_NXOR_2D"]}
{"id": "C15", "title": "Three-factor update score is the exact score difference of the data", "statement": "For each of the eight models the score used to resample Z[n,l] of a three-factor layer equals the sum over (d,m) of X[n,d,m] times half the change of the predicted cell when Z[n,l] goes from -1 to 1.", "quantifier": "all sizes, all {-1,1} factors, all {-1,0,1} data, every l (sums below 2^63)", "why_tests_cant": "as C14, with products of three factors", "anchors": ["lom/_numba/posterior_score_fcts.py:posterior_score_OR_AND_3D", "lom/_numba/posterior_score_fcts.py:posterior_score_XOR_AND_3D", "lom/_numba/posterior_score_fcts.py:posterior_score_XOR_NAND_3D", "lom/_numba/posterior_score_fcts.py:posterior_score_OR_NAND_3D", "lom/_numba/posterior_score_fcts.py:posterior_score_OR_XOR_3D", "lom/_numba/posterior_score_fcts.py:posterior_score_NAND_XOR_3D", "lom/_numba/posterior_score_fcts.py:posterior_score_XOR_XOR_3D", "lom/_numba/posterior_score_fcts.py:posterior_score_XOR_NXOR_3D"]}
{"id": "C16", "title": "The update uses the exact posterior log-odds of the entry", "statement": "lambda*score + logit(bernoulli_prior) equals log p(Z[n,l]=1 | rest, data) - log p(Z[n,l]=-1 | rest, data), where each observed cell has likelihood sigmoid(lambda*x*prediction), missing cells (0) contribute nothing, and entries have independent Bernoulli priors.", "quantifier": "all eight models, 2 or 3 factors, all sizes, all lambda, all priors in (0,1)", "why_tests_cant": "a distributional statement over reals", "anchors": ["lom/_numba/matrix_updates_numba.py:make_sampling_fct_onechild", "lom/matrix_update_wrappers.py:get_sampling_fct"]}
{"id": "C17", "title": "Metropolised Gibbs flip is reversible", "statement": "With a uniform draw, an entry flips with probability min(1, exp(-z*logit_p)), hence p(1)*P(1->-1) = p(-1)*P(-1->1) for p = Bernoulli(sigmoid(logit_p)).", "quantifier": "all real logits, both current values", "why_tests_cant": "a probability statement; sampling can only estimate it", "anchors": ["lom/_numba/matrix_updates_numba.py:flip_metropolised_gibbs_numba"]}
{"id": "C18", "title": "The logit and probability versions of the flip agree", "statement": "flip_metropolised_gibbs_numba(x,z) and flip_metropolised_gibbs_numba_classic(sigmoid(x),z) give the same result from the same random draw, and flip_gibbs_numba leaves Bernoulli(p) invariant.", "quantifier": "all real x, z in {-1,1}, all draws in [0,1)", "why_tests_cant": "equality over reals for every draw", "anchors": ["lom/_numba/matrix_updates_numba.py:flip_metropolised_gibbs_numba", "lom/_numba/matrix_updates_numba.py:flip_metropolised_gibbs_numba_classic", "lom/_numba/matrix_updates_numba.py:flip_gibbs_numba"]}
{"id": "C19", "title": "A factor sweep leaves the posterior invariant", "statement": "If the unfixed entries of a factor are distributed according to the posterior given everything else, they are so after one call of its sampling function.", "quantifier": "all eight models, 2 and 3 factors, all sizes, all data, all masks of fixed entries", "why_tests_cant": "stationarity is a statement about distributions over 2^(N*L) states", "anchors": ["lom/_numba/matrix_updates_numba.py:make_sampling_fct_onechild", "lom/_numba/matrix_updates_numba.py:flip_metropolised_gibbs_numba"]}
{"id": "C20", "title": "Fixed entries never change and entries stay in {-1,1}", "statement": "After a sampling call every entry flagged in fixed_entries is unchanged, every other entry is in {-1,1}, the shape is unchanged, and no other array is written.", "quantifier": "all models served by the generic sampler, all sizes, data, masks, random draws", "why_tests_cant": "must hold for every random draw and mask", "anchors": ["lom/_numba/matrix_updates_numba.py:make_sampling_fct_onechild", "lom/_numba/matrix_updates_numba.py:make_sampling_fct_onechild_oneparent", "lom/_numba/matrix_updates_numba.py:make_sampling_fct_onechild_twoparents", "lom/_numba/matrix_updates_numba.py:make_sampling_fct_nochild_oneparent", "lom/_numba/matrix_updates_numba.py:make_sampling_fct_nochild_twoparents"]}
{"id": "C21", "title": "Parallel row updates are schedule independent", "statement": "For given per-entry random draws, executing the row loops in parallel yields the same matrix for every interleaving of the rows' entry updates as the sequential loop.", "quantifier": "all interleavings, all sizes", "why_tests_cant": "the number of schedules is exponential and a test run sees one", "anchors": ["lom/_numba/matrix_updates_numba.py:make_sampling_fct_onechild"]}
{"id": "C22", "title": "Each factor is updated against its own axis of the data", "statement": "Whatever the axis of the factor, the score computed from the transposed data and the sorted siblings equals the change of the total agreement sum over the whole data array when that one factor entry is switched from -1 to 1.", "quantifier": "2 and 3 factors, every axis, all sizes and data, all eight models", "why_tests_cant": "needs asymmetric shapes and every axis", "anchors": ["lom/matrix_update_wrappers.py:get_sampling_fct", "lom/machine.py:MachineMatrix.siblings", "lom/machine.py:MachineLayer.__init__"]}
{"id": "C23", "title": "A parent layer contributes exactly its prior log-odds", "statement": "For a matrix that is also the child of one or two parent layers the logit used is the data score plus, for each parent layer, lambda_parent times that parent model's own prediction of the entry, plus the Bernoulli prior logit.", "quantifier": "all pairs of parent models, all sizes", "why_tests_cant": "needs hierarchical machines with different parent models", "anchors": ["lom/_numba/matrix_updates_numba.py:make_sampling_fct_onechild_oneparent", "lom/_numba/matrix_updates_numba.py:make_sampling_fct_nochild_oneparent", "lom/_numba/matrix_updates_numba.py:make_sampling_fct_nochild_twoparents", "lom/_numba/matrix_updates_numba.py:make_sampling_fct_onechild_twoparents"]}
{"id": "C24", "title": "Unsupported family structures are rejected", "statement": "A matrix with more than two parent layers is rejected with an error.", "quantifier": "all numbers of parents", "why_tests_cant": "the rejecting branch has to be reachable for every count above two", "anchors": ["lom/matrix_update_wrappers.py:get_relatives_models"]}
{"id": "C25", "title": "Every machine add_layer accepts can be inferred", "statement": "If add_layer accepts (model, data) then assigning sampling and lambda-update functions succeeds for the resulting single-layer machine.", "quantifier": "all accepted model names, all data dimensionalities", "why_tests_cant": "the product of names and dimensionalities, each resolved through string dispatch", "anchors": ["lom/matrix_update_wrappers.py:get_sampling_fct", "lom/_numba/matrix_updates_numba.py:get_posterior_score_fct", "lom/_numba/lambda_updates_numba.py:make_lbda_update_fct", "lom/lambda_update_wrappers.py:get_update_fct"]}
{"id": "C26", "title": "Correct predictions are counted exactly and never exceed the observed cells", "statement": "The lambda update counts P = number of cells whose data value equals the prediction; missing cells are never counted, so 0 <= P <= ND with ND the number of non-missing cells.", "quantifier": "2 and 3 factors, all eight models, all sizes and contents", "why_tests_cant": "unbounded sizes", "anchors": ["lom/_numba/lambda_updates_numba.py:make_correct_predictions_counter", "lom/_numba/lambda_updates_numba.py:make_lbda_update_fct"]}
{"id": "C27", "title": "Lambda update is well defined, non-negative and equals the smoothed accuracy", "statement": "With beta prior (a,b), a,b>0, the updated lambda satisfies lambda>=0 and sigmoid(lambda) = max(1/2, (P+a)/(ND+a+b)); the logarithm's argument is always positive.", "quantifier": "all data, factors and positive a,b", "why_tests_cant": "domain errors of log/division only appear at extreme counts", "anchors": ["lom/_numba/lambda_updates_numba.py:make_lbda_update_fct"]}
{"id": "C28", "title": "Lambda update maximises the (regularised) likelihood", "statement": "Among all lambda >= 0 the updated value maximises (P+a)*log sigmoid(lambda) + (ND-P+b)*log sigmoid(-lambda), i.e. the likelihood of the data with a pseudo-correct and b pseudo-wrong predictions, and is the only maximiser.", "quantifier": "all P<=ND, all a,b>0, all competitors lambda", "why_tests_cant": "optimality over a continuum", "anchors": ["lom/_numba/lambda_updates_numba.py:make_lbda_update_fct"]}
{"id": "C29", "title": "MAX-AND lambda update attributes every observed cell once", "statement": "In lbda_MAX_AND each latent dimension receives exactly one value, computed from the cells it predicts that no previously processed dimension predicts; all values lie strictly between 0 and 1 and the clamped one is the minimum.", "quantifier": "all sizes, factors, data", "why_tests_cant": "incremental true/false positive bookkeeping over L rounds with shifting indices", "anchors": ["lom/_numba/max_machine_sampler.py:lbda_MAX_AND"]}
{"id": "C30", "title": "Lambda ratio table is exact and antisymmetric", "statement": "compute_lbda_ratios stores log(l1/l2) and log((1-l1)/(1-l2)) for every ordered pair, antisymmetric, zero on the diagonal; the table used by the sampler always reflects the current lambdas.", "quantifier": "all lambda vectors in (0,1), any history of lambda assignments", "why_tests_cant": "staleness depends on the history of assignments", "anchors": ["lom/_numba/max_machine_sampler.py:compute_lbda_ratios", "lom/machine.py:MachineLayer.__init__"]}
{"id": "C31", "title": "MAX-AND update score is the log-likelihood difference", "statement": "posterior_score_MAX_AND_2D returns the log-likelihood difference between Z[n,l]=1 and Z[n,l]=-1 under the MAX-AND model (cell probability = largest active lambda, clamped lambda if none).", "quantifier": "all sizes, contents and lambda orders", "why_tests_cant": "index mix-ups only show when the lambda order differs from the column order; truncation only for non-integer ratios", "anchors": ["lom/_numba/max_machine_sampler.py:posterior_score_MAX_AND_2D", "lom/_numba/max_machine_sampler.py:draw_MAX_AND_2D", "lom/matrix_update_wrappers.py:get_sampling_fct"]}
{"id": "C32", "title": "qL-AND factor updates use the exact posterior log-odds", "statement": "The logit used to resample a factor entry of a qL-AND layer is lambda times the sum of X over cells whose prediction the entry decides, and fixed entries are respected.", "quantifier": "all sizes, contents, thresholds, lambdas, masks", "why_tests_cant": "needs all thresholds and positions; lambda dependence is invisible at lambda near 1", "anchors": ["lom/_numba/matrix_updates_numba.py:posterior_score_fct_qL_Z", "lom/_numba/matrix_updates_numba.py:posterior_score_fct_qL_U", "lom/_numba/matrix_updates_numba.py:sample_qL_factors_Z", "lom/_numba/matrix_updates_numba.py:sample_qL_factors_U"]}
{"id": "C33", "title": "qL-AND thresholds are sampled from their conditional given the data", "statement": "sample_qL_q draws q_d in 1..5 with probability proportional to prior times the likelihood of column d of the data.", "quantifier": "all data, factors, lambda, gamma", "why_tests_cant": "distribution over thresholds as a function of all data", "anchors": ["lom/_numba/matrix_updates_numba.py:sample_qL_q", "lom/_numba/matrix_updates_numba.py:random_choice"]}
{"id": "C34", "title": "random_choice draws an index with its probability", "statement": "For a probability vector p, random_choice(p) returns i+1 exactly when the uniform draw falls in the i-th cumulative interval, of length p_i, and never returns len(p)+1.", "quantifier": "all probability vectors and draws in [0,1)", "why_tests_cant": "statement about every draw", "anchors": ["lom/_numba/matrix_updates_numba.py:random_choice"]}
{"id": "C35", "title": "IBP update keeps the two factors aligned and binary", "statement": "sample_2d_IBP returns Z (N x L') and U (D x L') with the same L', all entries in {-1,1}, and every returned column of Z has at least one 1.", "quantifier": "all sizes with at least one row, data, random draws and numbers of new columns", "why_tests_cant": "columns are created and deleted inside the row loop depending on random draws", "anchors": ["lom/_numba/matrix_updates_numba.py:sample_2d_IBP", "lom/_numba/lom_outputs.py:OR_AND_single_n"]}
{"id": "C36", "title": "IBP probabilities are well formed", "statement": "The prior odds used for an existing column are logit of a number strictly between 0 and 1, and the vector used to draw the number of new columns is a probability distribution.", "quantifier": "all states reachable inside the update, alpha>0, 0<q<1", "why_tests_cant": "degenerate counts (0 or N) occur only in particular states", "anchors": ["lom/_numba/matrix_updates_numba.py:sample_2d_IBP"]}
{"id": "C37", "title": "IBP new-column likelihood factors marginalise the Bernoulli prior", "statement": "The factors used for unexplained ones/zeros are the log-probabilities of observing 1/-1 when k new columns with independent Bernoulli(bernoulli_prior) feature entries are added.", "quantifier": "all lambda, q in (0,1), k", "why_tests_cant": "only visible for priors other than 1/2", "anchors": ["lom/_numba/matrix_updates_numba.py:sample_2d_IBP"]}
{"id": "C38", "title": "IBP respects fixed matrices and fixed entries", "statement": "With model OR-AND-IBP, a factor marked fixed and entries marked in fixed_entries keep their values during infer.", "quantifier": "all masks, all draws", "why_tests_cant": "history/configuration dependent", "anchors": ["lom/matrix_update_wrappers.py:get_sampling_fct", "lom/_numba/matrix_updates_numba.py:sample_2d_IBP"]}
{"id": "C39", "title": "Traces hold exactly the drawn samples", "statement": "After infer(no_samples=S) the trace of every sampled matrix and parameter has S entries, entry t being the value right after sampling sweep t; the last entry equals the current value.", "quantifier": "all machines, all update functions, all S>=0, all burn-in outcomes", "why_tests_cant": "trace indices are reset and shared across burn-in and sampling phases", "anchors": ["lom/machine.py:Machine.infer", "lom/machine.py:Trace.update_trace", "lom/machine.py:Trace.allocate_trace_arrays"]}
{"id": "C40", "title": "Burn-in always stops within its limit", "statement": "burn_in performs at least burn_in_min and at most max(burn_in_min, burn_in_max) sweeps, and never writes outside the lambda trace window.", "quantifier": "all update functions, convergence behaviours, windows >=1, burn_in_min >= 0, burn_in_max", "why_tests_cant": "termination and index bounds over all convergence histories", "anchors": ["lom/machine.py:Machine.burn_in"]}
{"id": "C41", "title": "Convergence is judged on sampled lambdas only", "statement": "Whether burn-in stops as converged depends only on lambda values produced by the update function.", "quantifier": "all windows, all contents of freshly allocated memory", "why_tests_cant": "uninitialised memory cannot be enumerated by tests", "anchors": ["lom/machine.py:Machine.burn_in", "lom/machine.py:Trace.allocate_trace_arrays", "lom/auxiliary_functions.py:check_convergence_single_trace"]}
{"id": "C42", "title": "burn_in_iters reports the number of burn-in iterations", "statement": "After burn_in the attribute burn_in_iters is one more than the number of sweeps performed in pre-burn-in and burn-in together, whichever way burn-in ended.", "quantifier": "all outcomes of burn-in", "why_tests_cant": "depends on how the chain ended", "anchors": ["lom/machine.py:Machine.burn_in"]}
{"id": "C43", "title": "Fixed matrices and fixed parameters are never changed by infer", "statement": "A matrix or lambda flagged fixed has the same value after infer as before.", "quantifier": "all machines, all flags auto_clean/auto_reset, all random draws", "why_tests_cant": "depends on history of clean-up events", "anchors": ["lom/machine.py:Machine.infer", "lom/machine.py:Machine.burn_in", "lom/auxiliary_functions.py:clean_up_codes", "lom/auxiliary_functions.py:reset_dimension"]}
{"id": "C44", "title": "Annealing ends at the requested lambda", "statement": "With anneal=True the lambda of every layer rises in equal steps and equals its initially given value at the last pre-burn-in iteration.", "quantifier": "all burn_in_min >= 1, all positive target lambdas", "why_tests_cant": "off-by-one in a computed range; holds or fails uniformly in burn_in_min", "anchors": ["lom/machine.py:Machine.burn_in"]}
{"id": "C45", "title": "infer uses the priors set at the time it is called", "statement": "Each call of infer uses the current bernoulli_prior of each factor.", "quantifier": "all histories of infer calls and prior assignments", "why_tests_cant": "requires at least two infer calls with different settings", "anchors": ["lom/matrix_update_wrappers.py:get_sampling_fct", "lom/machine.py:Machine.infer"]}
{"id": "C46", "title": "infer completes for machines with unfixed data", "statement": "A machine whose data matrix is not fixed (to be imputed from its parents) can be inferred without error.", "quantifier": "all machines with an unfixed stand-alone matrix", "why_tests_cant": "error occurs only after a full burn-in", "anchors": ["lom/machine.py:Machine.infer"]}
{"id": "C47", "title": "Latent matrices stay binary through inference", "statement": "For single-layer machines of the generic models all factor entries are in {-1,1} after any number of sweeps, in any order of the matrices, interleaved with lambda updates and clean-ups.", "quantifier": "all sweep orders and draws", "why_tests_cant": "all histories", "anchors": ["lom/machine.py:Machine.infer", "lom/_numba/matrix_updates_numba.py:make_sampling_fct_onechild", "lom/auxiliary_functions.py:clean_up_codes"]}
{"id": "C48", "title": "Posterior means and MAP estimates are in range", "statement": "mean() of a sampled factor lies in [-1,1] entrywise; set_to_map leaves entries in {-1,1}, equal to 1 exactly where more than half of the samples are 1; without a trace mean() is the current value.", "quantifier": "all traces of {-1,1} samples", "why_tests_cant": "all traces", "anchors": ["lom/machine.py:Trace.mean", "lom/machine.py:MachineMatrix.set_to_map"]}
{"id": "C49", "title": "layer.output returns probabilities", "statement": "For every technique ('point_estimate','factor_map','factor_mean','mc'), with or without noisy_emission, the output of a layer has all entries in [0,1] (and in [-1,1] with map_to_probabilities=False).", "quantifier": "all models, 2 and 3 factors, all factor states and traces", "why_tests_cant": "combination of techniques, models and arities", "anchors": ["lom/machine.py:MachineLayer.output", "lom/auxiliary_functions.py:lom_generate_data_fast"]}
{"id": "C50", "title": "layer.output caches but never corrupts the layer", "statement": "output leaves model, factors and lambda unchanged whether or not it raises, and a lazy call returns what the last call computed.", "quantifier": "all histories of output calls, including failing ones", "why_tests_cant": "needs a failing call followed by further use", "anchors": ["lom/machine.py:MachineLayer.output"]}
{"id": "C51", "title": "MC output is the posterior frequency of a one", "statement": "technique='mc' returns in each cell the fraction of trace samples whose factor product predicts 1.", "quantifier": "all traces and models", "why_tests_cant": "all traces", "anchors": ["lom/machine.py:MachineLayer.output"]}
{"id": "C52", "title": "Fuzzy two-factor outputs are exact expectations", "statement": "Each fuzzy output function returns the probability that the crisp output is 1 when the factor entries are independent Bernoulli with the given means; hence it is in [0,1] and agrees with the crisp function on {0,1} inputs.", "quantifier": "all eight models, all L, all means in [0,1]", "why_tests_cant": "multilinear identities over a continuum and unbounded L", "anchors": ["lom/_numba/lom_outputs_fuzzy.py:OR_AND_product_fuzzy", "lom/_numba/lom_outputs_fuzzy.py:XOR_AND_product_fuzzy", "lom/_numba/lom_outputs_fuzzy.py:XOR_NAND_product_fuzzy", "lom/_numba/lom_outputs_fuzzy.py:OR_XOR_product_fuzzy", "lom/_numba/lom_outputs_fuzzy.py:NAND_XOR_product_fuzzy", "lom/_numba/lom_outputs_fuzzy.py:XOR_XOR_product_fuzzy", "lom/_numba/lom_outputs_fuzzy.py:XOR_NXOR_product_fuzzy", "lom/_numba/lom_outputs_fuzzy.py:OR_NAND_product_fuzzy", "lom/auxiliary_functions.py:get_fuzzy_lop"]}
{"id": "C53", "title": "Fuzzy three-factor outputs are exact expectations", "statement": "As C52 for the eight three-factor fuzzy functions.", "quantifier": "all eight models, all L, all means in [0,1]", "why_tests_cant": "no test touches the 3D fuzzy functions", "anchors": ["lom/_numba/lom_outputs_fuzzy.py:OR_AND_product_fuzzy_3d", "lom/_numba/lom_outputs_fuzzy.py:OR_XOR_product_fuzzy_3d", "lom/_numba/lom_outputs_fuzzy.py:NAND_XOR_product_fuzzy_3d", "lom/_numba/lom_outputs_fuzzy.py:XOR_XOR_product_fuzzy_3d", "lom/_numba/lom_outputs_fuzzy.py:p_XOR_fuzzy_3d", "lom/_numba/lom_outputs_fuzzy.py:XOR_NXOR_product_fuzzy_3d", "lom/_numba/lom_outputs_fuzzy.py:OR_NAND_product_fuzzy_3d", "lom/_numba/lom_outputs_fuzzy.py:XOR_AND_product_fuzzy_3d", "lom/_numba/lom_outputs_fuzzy.py:XOR_NAND_product_fuzzy_3d"]}
{"id": "C54", "title": "clean_up_codes removes all useless and duplicate dimensions", "statement": "After clean_up_codes(clean=True) no latent dimension is inactive (all -1 in some factor) and no two remaining dimensions are duplicates; the return value is True exactly if a dimension was removed; it terminates.", "quantifier": "all layers, all factor contents", "why_tests_cant": "needs adjacent removable dimensions", "anchors": ["lom/auxiliary_functions.py:clean_up_codes", "lom/auxiliary_functions.py:remove_dimension"]}
{"id": "C55", "title": "clean_up_codes does not change what an OR-AND layer predicts", "statement": "Removing (or resetting) useless or duplicate dimensions leaves the OR-AND product of the factors unchanged.", "quantifier": "all factor contents, 2 and 3 factors", "why_tests_cant": "needs dimensions equal in one factor only", "anchors": ["lom/auxiliary_functions.py:clean_up_codes", "lom/auxiliary_functions.py:remove_dimension", "lom/auxiliary_functions.py:reset_dimension"]}
{"id": "C56", "title": "Fixed entries keep designating the same latent dimension after clean-up", "statement": "After a dimension is removed, fixed_entries has the shape of the factor and flags the same entries as before.", "quantifier": "all layers with fixed entries", "why_tests_cant": "needs fixed entries together with auto_clean", "anchors": ["lom/auxiliary_functions.py:remove_dimension", "lom/machine.py:MachineMatrix.__init__"]}
{"id": "C57", "title": "split_test_train hides balanced entries and nothing else", "statement": "The returned matrix equals the (recoded) data except that exactly int(p*size/2) ones and as many minus-ones are 0; the input array is not modified.", "quantifier": "all binary matrices, all p for which the draw is possible, all draws", "why_tests_cant": "all random choices", "anchors": ["lom/auxiliary_functions.py:split_test_train", "lom/auxiliary_functions.py:check_binary_coding"]}
{"id": "C58", "title": "split_train_test hides only observed cells", "statement": "training tensor equals the input outside the mask and 0 on it; the mask covers only observed (non-zero) cells; in balanced mode it covers exactly S ones and S minus-ones; the input is not modified.", "quantifier": "all tensors of any dimension, all draws", "why_tests_cant": "all random choices", "anchors": ["lom/experiments.py:split_train_test"]}
{"id": "C59", "title": "Bernoulli noise flips signs only", "statement": "add_bernoulli_noise_2d(_biased) returns a matrix equal to the input up to sign in each cell (cells flip exactly where the draw is below p), leaves 0 at 0, leaves the input unmodified, and is a deterministic function of its seed argument.", "quantifier": "all matrices, p, draws, seeds", "why_tests_cant": "all draws and seeds", "anchors": ["lom/auxiliary_functions.py:add_bernoulli_noise_2d", "lom/auxiliary_functions.py:add_bernoulli_noise_2d_biased", "lom/auxiliary_functions.py:add_bernoulli_noise"]}
{"id": "C60", "title": "check_binary_coding normalises 0/1 data and is idempotent", "statement": "0/1 data becomes the corresponding -1/1 data, data already containing -1 is unchanged, and applying it twice equals applying it once.", "quantifier": "all arrays over {-1,0,1}", "why_tests_cant": "all arrays", "anchors": ["lom/auxiliary_functions.py:check_binary_coding"]}
{"id": "C61", "title": "unique_ordered returns the distinct elements in first-occurrence order", "statement": "The result has no duplicates, the same elements, is ordered by first occurrence, and the function is idempotent.", "quantifier": "all finite sequences", "why_tests_cant": "all sequences", "anchors": ["lom/auxiliary_functions.py:unique_ordered"]}
{"id": "C62", "title": "find_centers_of_ordered_list points into each block", "statement": "For a list whose equal elements are contiguous, one position per distinct value is returned, in order, and the list carries that value at that position.", "quantifier": "all lists with contiguous equal elements", "why_tests_cant": "all lists", "anchors": ["lom/auxiliary_functions.py:find_centers_of_ordered_list"]}
{"id": "C63", "title": "all_columsn_are_disjoint detects overlapping columns", "statement": "It returns True exactly when the sets of 1-positions of every two columns are disjoint.", "quantifier": "all binary matrices", "why_tests_cant": "all matrices", "anchors": ["lom/auxiliary_functions.py:all_columsn_are_disjoint"]}
{"id": "C64", "title": "generate_orm_product terminates for every size and returns the Boolean product", "statement": "generate_orm_product(N,D,L) eventually returns for every N,D,L, and returns U,Z in {-1,1} and X their OR-AND product.", "quantifier": "all N,D,L, all draws", "why_tests_cant": "termination for all sizes", "anchors": ["lom/auxiliary_functions.py:generate_orm_product", "lom/auxiliary_functions.py:all_columsn_are_disjoint"]}
{"id": "C65", "title": "boolean_tensor_product is the Boolean tensor product", "statement": "Cell (n,d,m) is True exactly when some latent dimension is True in Z[n], U[d] and V[m].", "quantifier": "all sizes and contents", "why_tests_cant": "unbounded sizes", "anchors": ["lom/auxiliary_functions.py:boolean_tensor_product"]}
{"id": "C66", "title": "generate_random_tensor chooses the factor density that gives the requested density", "statement": "With factor density (1-(1-d)^(1/L))^(1/3) the expected density of the noise-free tensor is d.", "quantifier": "all d in [0,1], L>=1", "why_tests_cant": "analytic identity", "anchors": ["lom/experiments.py:generate_random_tensor", "lom/auxiliary_functions.py:expected_density"]}
{"id": "C67", "title": "compute_bp / compute_bbp return the successive log-ratios of the (beta-)binomial", "statement": "compute_bp(q,n,N) has length N and entry k<n equals log of Binomial(n,q) pmf ratio (k+1 over k), -inf beyond; compute_bbp(n,a,b) has length n+1 with entry k the log ratio of the beta-binomial pmf, -inf at k=n, for all a,b>0.", "quantifier": "all n,N, 0<q<1, a,b>0", "why_tests_cant": "n, N unbounded; degenerate parameters", "anchors": ["lom/auxiliary_functions.py:compute_bp", "lom/auxiliary_functions.py:compute_bbp"]}
{"id": "C68", "title": "get_roc_auc scores the held-out entries", "statement": "get_roc_auc passes to the AUC routine, for each held-out cell of the training data, its true label and its prediction, in the same order.", "quantifier": "all data, masks, predictions", "why_tests_cant": "any hold-out set", "anchors": ["lom/auxiliary_functions.py:get_roc_auc"]}
{"id": "C69", "title": "The numerical fallbacks are consistent", "statement": "The fallback expit and logit are mutually inverse, expit(-x)=1-expit(x), and the fallback logsumexp equals log of the sum of exponentials, never exponentiating a positive number.", "quantifier": "all reals, all non-empty vectors", "why_tests_cant": "identities over the continuum", "anchors": ["lom/auxiliary_functions.py:expit", "lom/auxiliary_functions.py:logit", "lom/auxiliary_functions.py:logsumexp"]}
{"id": "C70", "title": "Check of convergence compares the two halves of the trace", "statement": "check_convergence_single_trace returns True exactly when the sigmoids of the mean of the first floor(n/2) and of the remaining trace values differ by less than eps; a constant trace of length >= 2 always converges for eps>0, and it never converges for eps<=0.", "quantifier": "all traces, all eps", "why_tests_cant": "all traces", "anchors": ["lom/auxiliary_functions.py:check_convergence_single_trace", "lom/machine.py:Trace.check_convergence"]}
{"id": "C71", "title": "The pattern of missing entries is invariant under sampling", "statement": "Calling the sampling function of a matrix neither imputes a missing entry (0) nor turns an observed entry into a missing one; the set of zeros is the same before and after.", "quantifier": "all family structures served by the generic samplers, all contents, all draws", "why_tests_cant": "all scores and draws", "anchors": ["lom/_numba/matrix_updates_numba.py:flip_metropolised_gibbs_numba", "lom/matrix_update_wrappers.py:get_sampling_fct"]}
{"id": "C72", "title": "Thresholds of a qL-AND layer are sampled whenever they are not fixed", "statement": "For a qL-AND layer the matrix of thresholds q is updated by the threshold sampler, whichever of the two factors are fixed.", "quantifier": "all combinations of fixed flags", "why_tests_cant": "depends on the order of sampler assignment over all flag combinations", "anchors": ["lom/matrix_update_wrappers.py:get_sampling_fct", "lom/machine.py:Machine.infer"]}
{"id": "C73", "title": "The number of new columns drawn by the IBP update follows the Indian buffet process", "statement": "When row n of an OR-AND-IBP machine is updated, the number k of new columns (0, 1 or 2) is drawn with probability proportional to the Poisson(alpha/N) probability of k times the likelihood of the row's data with k new features.", "quantifier": "all states, data, alpha > 0, numbers of columns", "why_tests_cant": "a wrong prior only shifts frequencies; every draw looks plausible", "anchors": ["lom/_numba/matrix_updates_numba.py:sample_2d_IBP"]}
{"id": "C74", "title": "split_tensor_train_test_old hides only observed cells, as many as asked for", "statement": "split_tensor_train_test_old(tensor, split) returns a training tensor equal to the input outside the mask and 0 on it; the mask covers only observed (non-zero) cells, and exactly int(split*size) cells when the tensor is fully observed.", "quantifier": "all tensors, split ratios and index draws", "why_tests_cant": "the set of possible draws is astronomically large; a test sees one of them", "anchors": ["lom/experiments.py:split_tensor_train_test_old"]}
{"id": "C75", "title": "MAX-AND output from posterior means is the expected maximum", "statement": "layer.output(technique='factor_mean') of a MAX-AND layer gives each cell the expected value of the largest lambda among the latent dimensions that are on, where dimension l is on with the product of the posterior probabilities of its two entries; in particular a number in [0,1].", "quantifier": "all posterior means, lambdas and numbers of latent dimensions, including equal lambdas", "why_tests_cant": "the value depends on the order of products of probabilities and lambdas; a few examples do not exercise ties and inversions", "anchors": ["lom/_numba/lom_outputs_fuzzy.py:MAX_AND_product_fuzzy", "lom/machine.py:MachineLayer.output"]}
{"id": "C76", "title": "Inference in a hierarchy of layers samples the joint posterior of all factors", "statement": "In a machine with several layers, where factors of one layer are data of others, the sampling functions that infer() assigns leave the joint posterior of all factor matrices (product of the likelihoods of all layers and the Bernoulli priors, lambdas held fixed) invariant, in whatever order and however often they are called.", "quantifier": "all hierarchies, sizes, data, priors, lambdas, fixed entries, orders of updates and random draws", "why_tests_cant": "invariance of a distribution over all states of all matrices cannot be observed in finitely many runs", "anchors": ["lom/matrix_update_wrappers.py:get_sampling_fct", "lom/_numba/matrix_updates_numba.py:make_sampling_fct_onechild_oneparent", "lom/_numba/matrix_updates_numba.py:make_sampling_fct_onechild_twoparents", "lom/machine.py:Machine.infer"]}
{"id": "C77", "title": "Arrays passed to add_matrix stay the caller's", "statement": "After add_matrix(val=X, fixed=True), adding layers, inference and set_to_map leave the caller's array X as it is, and later changes to X do not change the machine; so X can be used for any number of machines.", "quantifier": "all arrays, types, models and histories of calls in any number of machines", "why_tests_cant": "aliasing depends on the type of the array and on the whole history of calls", "anchors": ["lom/machine.py:Machine.add_matrix", "lom/machine.py:Machine.add_layer", "lom/auxiliary_functions.py:canonise_model"]}
{"id": "C78", "title": "The samples of infer() have the posterior distribution once the state has it", "statement": "If the factor matrices of a machine with given lambdas have the posterior distribution when infer() is called, every sample stored in the traces has the posterior distribution, jointly over all factors of all layers; hence mat.mean() is an unbiased estimate of the posterior mean. In particular neither the burn-in and its convergence check nor the placement of samples in the trace biases the samples.", "quantifier": "all hierarchies of layers, data, priors, lambdas, burn-in settings, numbers of samples, update orders and sample indices", "why_tests_cant": "a distribution over all states and draws; any bias only shifts frequencies", "anchors": ["lom/machine.py:Machine.infer", "lom/machine.py:Machine.burn_in", "lom/matrix_update_wrappers.py:get_sampling_fct", "lom/_numba/matrix_updates_numba.py:flip_metropolised_gibbs_numba", "lom/machine.py:Trace.mean"]}
{"id": "C79", "title": "The samples converge to the posterior from any start", "statement": "Whatever the initial factor matrices, the distribution of sample k of infer() converges to the posterior distribution of the factors as burn-in gets longer (given lambdas): the chain forgets its start, no state is unreachable and no periodic behaviour remains.", "quantifier": "all hierarchies, data (with any missing entries), priors, lambdas, initial states and update orders", "why_tests_cant": "a statement about the limit of infinitely many sweeps from all initial states", "anchors": ["lom/machine.py:Machine.infer", "lom/_numba/matrix_updates_numba.py:flip_metropolised_gibbs_numba", "lom/matrix_update_wrappers.py:get_sampling_fct"]}
{"id": "C80", "title": "Averages over the samples approach posterior expectations", "statement": "The average over the S samples of infer() of any bounded function of the factors (an entry, a prediction, a score) is as close as desired to its expectation under the posterior distribution, with probability as close to 1 as desired, once S is large enough, from any initial state and for any burn-in (given lambdas). In particular mat.mean() approaches the posterior mean and set_to_map gives entries their more probable value.", "quantifier": "all hierarchies, data (with any missing entries), priors, lambdas, initial states, burn-in settings, update orders and functions of the factors", "why_tests_cant": "a law of large numbers over dependent samples: a limit over the number of samples and a probability over all draws", "anchors": ["lom/machine.py:Machine.infer", "lom/machine.py:Trace.mean", "lom/machine.py:MachineMatrix.set_to_map", "lom/_numba/matrix_updates_numba.py:flip_metropolised_gibbs_numba"]}
{"id": "C81", "title": "Predictions after inference are probabilities of the shape of the data", "statement": "After infer() on a machine with a layer of any generic model, layer.output(technique) returns, for every technique and with or without noise, an array of the shape of the data whose entries are probabilities; with technique='mc' each entry is the fraction of stored samples whose factors predict a one there.", "quantifier": "all generic models, sizes, data, initial states, fixed factors, clean-up flags, inference settings and random draws", "why_tests_cant": "combines all states inference can leave behind with all techniques; a particular run shows one state", "anchors": ["lom/machine.py:MachineLayer.output", "lom/machine.py:Machine.infer", "lom/machine.py:Trace.mean"]}
{"id": "C82", "title": "The lists of model families and clans have one representative each", "statement": "canonical_loms('families', mode) lists sixteen models such that each of the 36 models is, up to inversion of all its factors, exactly one of them; canonical_loms('clans', mode) lists eight such that each of the 36 is exactly one of them up to inversion of the factors and of the data; with mode='implemented' the clans are the models that support inference. Any other level or mode raises ValueError.", "quantifier": "all 36 models, both modes, all numbers of factors and latent dimensions, all level and mode strings", "why_tests_cant": "that two models are never the same needs all pairs, and that they always are needs all sizes and factors", "anchors": ["lom/auxiliary_functions.py:canonical_loms"]}
{"id": "C83", "title": "factor_density inverts expected_density", "statement": "factor_density(model, L, K, X) returns the density in [0, 1] of the factors for which data generated from them have density X, or the closest the root finder found; for names that are not models it raises.", "quantifier": "all models, sizes, densities and behaviours of the root finder", "why_tests_cant": "the result depends on the numerical solver; tests try single densities", "anchors": ["lom/auxiliary_functions.py:factor_density", "lom/auxiliary_functions.py:expected_density"]}
{"id": "C84", "title": "Point estimates and MAP predictions follow the model", "statement": "layer.output('point_estimate') is 1 exactly where the model predicts a one from the current factors, and layer.output('factor_map') exactly where it does from the majorities of the posterior samples of each entry; after set_to_map() on the factors the point estimate is what the MAP prediction was.", "quantifier": "all 36 models, numbers of factors, sizes, states and traces", "why_tests_cant": "all states and traces; the tests compare outputs with the code's own functions", "anchors": ["lom/machine.py:MachineLayer.output", "lom/machine.py:MachineMatrix.set_to_map", "lom/machine.py:Trace.mean", "lom/auxiliary_functions.py:lom_generate_data_fast"]}
{"id": "C85", "title": "Relevance of latent dimensions is the share of ones they account for", "statement": "maxmachine_relevance(layer) after inference on a MAX-AND layer gives each latent dimension the average over the stored samples of the fraction of the ones of the data that it accounts for (it is active there and no dimension with a larger parameter is), times its parameter; these are fractions whose sum is at most 1; the result belongs to the current traces.", "quantifier": "all layers, data, traces, numbers of samples and of latent dimensions", "why_tests_cant": "an average over all cells, samples and dimensions; the existing tests never call it", "anchors": ["lom/_numba/max_machine_sampler.py:maxmachine_relevance"]}
{"id": "C86", "title": "fix_lbda_iters keeps the parameters fixed for that many sweeps", "statement": "With infer(fix_lbda_iters=k) on a machine without annealing the first k sweeps of burn-in update the factor matrices only; every later sweep updates the matrices and then the parameters.", "quantifier": "all machines, update functions, settings of burn-in and values of k", "why_tests_cant": "needs the order of calls in every run; a test of one run shows one k", "anchors": ["lom/machine.py:Machine.burn_in", "lom/machine.py:Machine.infer"]}
{"id": "C87", "title": "Predictions of a layer are about the model that was asked for", "statement": "For a layer added with model 'A-B', layer.output() gives what this model predicts from its factors: 'point_estimate' the data generated from the current factors, 'factor_map' that from the majorities of the samples, 'factor_mean' the probability of a one if entries are independent with the frequencies of the samples, 'mc' the fraction of samples from which a one is predicted; if the layer's invert_factors (invert_data) is set, after inversion of the factors (of the prediction).", "quantifier": "all 36 models, states, traces and sizes; any number of factors for three of the techniques", "why_tests_cant": "models are rewritten when a layer is added; tests compare single models with the code's own functions", "anchors": ["lom/machine.py:Machine.add_layer", "lom/machine.py:MachineLayer.output", "lom/auxiliary_functions.py:canonise_model"]}
{"id": "C88", "title": "LOM_predictive returns the share of test cells that the model predicts", "statement": "LOM_predictive((X, X_train, mask, model, L, _, lbda, anneal)) returns the model and size it was given, the posterior means of the factors and the fraction of cells in the mask where the model predicts the value in X: with the factor entries independent at their posterior means, X is 1 exactly where the probability of a one is over one half.", "quantifier": "all 36 models, data with two axes (three for models treated as OR-AND), sizes, settings and random draws", "why_tests_cant": "end-to-end through inference with random draws; there is no test of it", "anchors": ["lom/experiments.py:LOM_predictive", "lom/machine.py:MachineLayer.output", "lom/machine.py:Machine.infer"]}
{"id": "C89", "title": "The grid search finds a test set", "statement": "LOM_hyperparms_parallel_gridsearch(X) holds out a test set of observed cells, trying fractions .1, .01, ... until one is possible, and ends for all X; with balanced=True the test set has as many ones as minus-ones and is not empty.", "quantifier": "all tensors and random draws", "why_tests_cant": "the loop catches all exceptions; termination is about all attempts", "anchors": ["lom/experiments.py:LOM_hyperparms_parallel_gridsearch", "lom/experiments.py:split_train_test"]}
{"id": "C90", "title": "The grid search reports every experiment, on the same data", "statement": "LOM_hyperparms_parallel_gridsearch(X, machines, L_inits, random_idxs) returns one row per combination, in lexicographic order, with its model, its size and its accuracy on the held-out cells of X; all experiments are run on the same training data.", "quantifier": "all data with two axes, lists of models, sizes, grids and random draws", "why_tests_cant": "depends on how tasks are distributed to processes, which share an array that is modified in place; small grids do not show it", "anchors": ["lom/experiments.py:LOM_hyperparms_parallel_gridsearch", "lom/experiments.py:parallel_function", "lom/experiments.py:LOM_predictive", "lom/auxiliary_functions.py:canonise_model"]}
{"id": "C91", "title": "The stored dispersion of a sample belongs to the stored factors", "statement": "After machine.infer(...) on a machine with one layer (two or three factors, one of the eight sampled models, lambda not fixed), row t of layer.lbda.trace is the dispersion that belongs to the factors in row t of their traces: expit of it is (cells those factors predict correctly + a) over (observed cells + a + b), or 1/2 if that is more, with a and b of the layer's beta prior (1 and 1 by default).", "quantifier": "all eight models, two or three factors, fixed or free, all data, settings and random draws", "why_tests_cant": "a row written one sweep early or late has plausible values; needs the order of updates in every run", "anchors": ["lom/machine.py:Machine.infer", "lom/machine.py:Trace", "lom/lambda_update_wrappers.py:draw_lbda_or"]}
{"id": "C92", "title": "Averages over samples tell latent dimensions apart", "statement": "The average of the samples of a factor (mat.mean(), used by output('factor_mean') and set_to_map()) describes the single latent dimensions: as the number of samples grows, its columns approach the factors of one factorisation of the data.", "quantifier": "all data, sizes, models, settings; limit of infinitely many samples", "why_tests_cant": "a statement about probabilities of long runs; short chains stay near one of the equivalent solutions, so tests see distinct columns", "anchors": ["lom/machine.py:Trace.mean", "lom/machine.py:MachineMatrix.set_to_map", "lom/machine.py:MachineLayer.output"]}
{"id": "C93", "title": "tensorm_reconstruct returns the posterior reconstruction of a tensor", "statement": "tensorm_reconstruct(X, L), for X coded 0/1 or -1/1 with 0 for missing cells, returns the probability of a one for every cell if factor entries are independent with the frequencies of their samples, the means of the samples of the three factors, and the Boolean product of the factors' most frequent entries; the coding makes no difference and missing cells are not used.", "quantifier": "all tensors with three axes, types, sizes and random draws", "why_tests_cant": "end-to-end through inference with random draws; there is no test of it", "anchors": ["lom/experiments.py:tensorm_reconstruct", "lom/machine.py:MachineLayer.output", "lom/machine.py:Machine.infer"]}
{"id": "C94", "title": "Slices without data have no influence on the rest", "statement": "Consider machines with one layer of the eight sampled models with two or three factors, without auto_clean and auto_reset, scores within the range of integers. If X2 = X[np.ix_(rows, columns, ...)] leaves out only missing cells, and machines for X and X2 start with equal values and draw equal numbers for the rows they share, then machine.infer(...) takes the same number of burn-in iterations on both and stores the same samples of lambda and of all shared rows.", "quantifier": "all data with two or three axes, all selections, models, settings and random draws", "why_tests_cant": "a relation between two whole runs with coupled random draws; tests would have to control every draw", "anchors": ["lom/machine.py:Machine.infer", "lom/machine.py:Machine.burn_in", "lom/_numba/matrix_updates_numba.py:make_sampling_fct_onechild", "lom/lambda_update_wrappers.py:draw_lbda_or"]}
{"id": "C95", "title": "The order of rows does not matter", "statement": "For machines with one layer of the eight sampled models with two or three factors, without auto_clean and auto_reset, scores within the range of integers: permuting the rows of any axis of the data, together with the initial values of that factor and the numbers drawn for its entries, permutes the samples of that factor in the same way and changes nothing else (other factors, lambda, length of burn-in).", "quantifier": "all data with two or three axes, all permutations, models, settings and random draws", "why_tests_cant": "a relation between two whole runs with coupled random draws; in parallel sweeps an update that reads another row would break it only for some data", "anchors": ["lom/machine.py:Machine.infer", "lom/machine.py:Machine.burn_in", "lom/_numba/matrix_updates_numba.py:make_sampling_fct_onechild", "lom/lambda_update_wrappers.py:draw_lbda_or"]}
{"id": "C96", "title": "The order of axes does not matter", "statement": "For machines with one layer of the eight sampled models with two or three factors, without auto_clean and auto_reset, scores within the range of integers: np.transpose(X, axes) with the factors given in the transposed order, the same initial values, draws and order of updates, gives the same samples of every factor and of lambda, and the same length of burn-in.", "quantifier": "all data with two or three axes, all permutations of the axes, models, settings and random draws", "why_tests_cant": "there are separate update functions for each axis, which must agree on all data; a relation between two whole runs", "anchors": ["lom/machine.py:Machine.infer", "lom/matrix_update_wrappers.py:get_sampling_fct", "lom/_numba/matrix_updates_numba.py:make_sampling_fct_onechild", "lom/lambda_update_wrappers.py:draw_lbda_or"]}
{"id": "C97", "title": "Inference with an OR-AND-IBP layer returns samples of any size", "statement": "machine.infer(...) on a machine with a single 'OR-AND-IBP' layer returns whatever is drawn. Each stored sample consists of two binary matrices with equally many columns, every column used by some row; row t of a trace holds the columns of sample t, the rest of the row is zero.", "quantifier": "all data with two axes, numbers of initial columns, settings of inference and random draws; with and without annealing and fixed factors", "why_tests_cant": "the number of columns changes at random during inference and has no bound; a test sees a few runs on small data", "anchors": ["lom/machine.py:Machine.infer", "lom/machine.py:Trace.allocate_trace_arrays_IBP", "lom/_numba/matrix_updates_numba.py:sample_2d_IBP", "lom/matrix_update_wrappers.py:get_sampling_fct"]}
{"id": "C98", "title": "Inference with a MAX-AND layer keeps the model in order", "statement": "machine.infer(...) on a machine with a single 'MAX-AND' layer returns whatever is drawn. Afterwards factors and all stored samples of them are binary, lambda and all stored samples of it are L+1 numbers strictly between 0 and 1 of which the last (background noise) is the smallest, and what is fixed (factors, entries, lambda) is unchanged.", "quantifier": "all data with two axes, sizes, settings and random draws", "why_tests_cant": "the lambdas and the table of their ratios are updated in different places, between matrix updates in random order; tests see single runs without clean-up", "anchors": ["lom/machine.py:Machine.infer", "lom/_numba/max_machine_sampler.py:draw_MAX_AND_2D", "lom/_numba/max_machine_sampler.py:lbda_MAX_AND", "lom/machine.py:Machine.burn_in"]}
{"id": "C99", "title": "Inference with a qL-AND layer keeps thresholds in range", "statement": "machine.infer(...) on a machine with a single 'qL-AND' layer returns whatever is drawn if thresholds and factors are inferred together. Afterwards factors and all stored samples of them are binary, thresholds and all stored samples of them are between 1 and 5, lambda and its samples are finite, data and everything fixed are unchanged.", "quantifier": "all data with two axes, sizes, settings and random draws; with and without annealing, clean-up and fixed matrices", "why_tests_cant": "three matrices with different update functions in random order; which function is assigned depends on what is fixed", "anchors": ["lom/machine.py:Machine.infer", "lom/matrix_update_wrappers.py:get_sampling_fct", "lom/_numba/matrix_updates_numba.py:sample_qL_q", "lom/lambda_update_wrappers.py:get_update_fct"]}
{"id": "C100", "title": "Rows of an OR-AND-IBP machine choose among shared features with buffet probabilities", "statement": "When row n of an OR-AND-IBP machine is updated, features that no other row uses are dropped, and every other feature is switched on for row n with its conditional probability given the data and everything else, where a feature that m of the N - 1 other rows use has prior probability m/N.", "quantifier": "all states, rows, features, data and draws", "why_tests_cant": "probabilities of single decisions inside a sweep with a changing number of columns; every outcome looks plausible", "anchors": ["lom/_numba/matrix_updates_numba.py:sample_2d_IBP"]}
{"id": "C101", "title": "Entries of features added by the IBP update are drawn given the data", "statement": "When the update of row n of an OR-AND-IBP machine adds features, only row n uses them, and their entries in the second factor are drawn from their distribution given the data and the rest of both factors, with flat prior.", "quantifier": "all states, rows, data and draws, one or two new features", "why_tests_cant": "a wrong distribution only shifts frequencies; it concerns rare steps of the sampler", "anchors": ["lom/_numba/matrix_updates_numba.py:sample_2d_IBP"]}
{"id": "C102", "title": "Machines that are built step by step can be inferred and stay in order", "statement": "Whatever sequence of add_matrix, add_layer (generic models, on data or on factors), assignments of attributes (fixed, fixed_entries, priors, values, lambdas, clean-up, annealing) and infer() calls has been made: the factors of every layer are binary, fit the axes of the matrix below and share one latent size, and lambda is finite. A further infer() returns, whatever is drawn, exactly if every matrix that is not fixed is a factor of a layer with two factors, or of one with three factors and no layer on top of it (at the time of its first inference), and every free lambda belongs to a layer with two or three factors. It changes no data, no fixed lambda and, without clean-up, no fixed factor or entry; all samples are binary or finite; and it can be called again.", "quantifier": "all sequences of calls, all sizes, numbers of layers, arrangements and random draws", "why_tests_cant": "arrangements and sequences of calls are unbounded; tests build two or three fixed machines", "anchors": ["lom/machine.py:Machine.add_layer", "lom/machine.py:Machine.add_matrix", "lom/machine.py:MachineLayer.__init__", "lom/machine.py:Machine.infer", "lom/matrix_update_wrappers.py:get_sampling_fct"]}
{"id": "C103", "title": "Layers that are put on a factor after an inference take part in later ones", "statement": "If a layer is added on top of a factor of a machine that has been inferred before, the next infer() samples that factor given its own data and the new layer, as if the layer had been there from the start.", "quantifier": "all machines, sequences of calls, later layers and values", "why_tests_cant": "the samples of the factor remain plausible if the layer on top is ignored; only their distribution differs", "anchors": ["lom/matrix_update_wrappers.py:get_sampling_fct", "lom/machine.py:Machine.add_layer", "lom/machine.py:Machine.infer"]}
{"id": "C104", "title": "Machines that are built step by step sample from the posterior of the model that was built", "statement": "A machine that any sequence of calls of add_matrix, add_layer (generic models) and assignments has built, with lambdas and data fixed, samples its factors from the posterior defined by its layers, models, lambdas, priors and data, given everything that is fixed: this distribution is preserved by every infer() call, the distribution of a stored sample converges to it at a geometric rate in the number of sweeps, and averages over the stored samples of one run have a mean square error of at most a constant divided by the number of samples.", "quantifier": "all sequences of calls and arrangements of layers, whatever order the matrices were created in, all initial values, settings and update orders", "why_tests_cant": "the distribution of the samples of every machine that can be built; tests see single runs of single machines", "anchors": ["lom/machine.py:Machine.add_layer", "lom/machine.py:Machine.add_matrix", "lom/machine.py:MachineLayer.__init__", "lom/machine.py:Machine.infer", "lom/matrix_update_wrappers.py:get_sampling_fct"]}
{"id": "C105", "title": "Lambda without pseudo-counts", "statement": "With any pseudo-counts for lambda, including zero (beta_prior (0, 0)), the update of lambda returns a value: the finite one for which sigmoid(lambda) is the smoothed accuracy (at least one half) if there is a correct and a wrong (pseudo-)prediction, infinity if there are no wrong ones, zero if there are no correct ones, and nan if nothing is observed.", "quantifier": "all generic models and qL-AND, sizes, data with missing values, factors and pseudo-counts", "why_tests_cant": "the four cases are separated by exact equality of counts, which samples of the input space hit only by accident", "anchors": ["lom/lambda_update_wrappers.py:make_lbda_update_fct"]}
{"id": "C106", "title": "Factors that are fixed at a value contribute that value to predictions", "statement": "A factor of a layer that the user sets to a value and fixes (mat.val = v; mat.fixed = True) keeps this value in all later infer() calls, and posterior means and predictions of the layer made afterwards use this value.", "quantifier": "all machines built by calls of the API, values, settings and random draws, factors sampled before or not", "why_tests_cant": "posterior means and predictions made from the samples of an earlier run are plausible arrays of the right shape", "anchors": ["lom/machine.py:Trace.mean", "lom/machine.py:Machine.infer", "lom/machine.py:MachineLayer.output"]}
{"id": "C107", "title": "Inference gets away from factors that predict no better than chance", "statement": "If lambda is learned (not fixed) and the factors at the start predict no more than half of the observed cells correctly, infer() with enough burn-in and samples moves on to other factors: its samples depend on the data and the draws, and the posterior means of the entries of the factors say which entries are likely to be 1.", "quantifier": "all generic models with two or three factors, data, starting factors, starting lambda, settings, numbers of samples and random draws", "why_tests_cant": "a run that only mirrors its starting point returns arrays of the right shape, converges by the criterion and prints a lambda; other starting points of the same machine work", "anchors": ["lom/machine.py:Machine.infer", "lom/lambda_update_wrappers.py:make_lbda_update_fct", "lom/_numba/matrix_updates_numba.py:flip_metropolised_gibbs_numba"]}
{"id": "C108", "title": "What inference learns depends on the data, whatever the model", "statement": "With the default prior and randomly initialised factors, the samples of infer() depend on the data: for data that different factors explain perfectly, the samples and posterior means of the factors differ, for each of the generic models.", "quantifier": "all generic models with two or three factors, all data, lambdas (fixed or learned), settings, numbers of samples and random draws; starting values: random, all or nearly all of them", "why_tests_cant": "a run on a given seed returns arrays of the right shape and a small lambda, which looks like data that are hard to explain; that all seeds and all data give the same needs an argument over all of them", "anchors": ["lom/machine.py:Machine.infer", "lom/_numba/matrix_updates_numba.py:flip_metropolised_gibbs_numba", "lom/machine.py:MachineMatrix.__init__"]}
{"id": "C109", "title": "Matrices start from random values of the requested density", "statement": "MachineMatrix and add_matrix start a matrix at the given array; without array at independent random entries that are 1 with probability one half; and with a float p at independent random entries that are 1 with probability 1 - p.", "quantifier": "all shapes, arrays, densities and random draws", "why_tests_cant": "a distribution over all matrices of a size; a sample of matrices shows frequencies, not independence", "anchors": ["lom/machine.py:MachineMatrix.__init__", "lom/machine.py:Machine.add_matrix"]}
{"id": "C110", "title": "Noisy predictions are posterior predictive probabilities", "statement": "output(technique='mc', noisy_emission=True) is the posterior predictive probability of a one: the average over the stored samples of the probability that the prediction of the sample, with the dispersion of the sample, gives a one.", "quantifier": "all 36 models, numbers of factors, sizes, samples and dispersions", "why_tests_cant": "the value returned is a probability close to the right one; that the average and the sigmoid are exchanged shows only in exact comparison over all samples", "anchors": ["lom/machine.py:MachineLayer.output", "lom/machine.py:Trace.mean"]}
{"id": "C111", "title": "Predictions from posterior means agree with predictions from samples", "statement": "output(technique='factor_mean') and output(technique='mc') return the same probabilities for a layer with samples of all factors.", "quantifier": "all models with a formula for means, numbers of latent dimensions, sizes and samples", "why_tests_cant": "they agree for single samples and on average data; when they do is a statement about the joint distribution of the samples", "anchors": ["lom/machine.py:MachineLayer.output", "lom/machine.py:Trace.mean"]}
{"id": "C112", "title": "The stored lambdas are samples from the posterior of lambda", "statement": "If lambda is not fixed, the samples of lambda in layer.lbda.trace after infer() have (in the long run, or from a suitable start) the posterior distribution of lambda under the Beta prior on its sigmoid that layer.lbda.beta_prior sets, so that their spread measures the uncertainty about the noise.", "quantifier": "all machines with one layer of the generic models, data, priors, distributions of starting values, draws and numbers of samples", "why_tests_cant": "stored lambdas vary from sample to sample and lie where the posterior is large; that their distribution is singular to the posterior is a statement about distributions", "anchors": ["lom/machine.py:MachineParameter", "lom/machine.py:Machine.infer"]}
{"id": "C113", "title": "Predictions and counts do not depend on the number of threads", "statement": "The arrays computed by the output functions (from factors or from means) and the numbers of correct predictions that set lambda are the same however many threads execute the parallel loops, however the cells are divided among them and however the threads are interleaved.", "quantifier": "all models, sizes, numbers of threads, divisions of the cells and interleavings", "why_tests_cant": "a test sees one division and one interleaving per run; races show up rarely", "anchors": ["lom/_numba/lambda_updates_numba.py:make_correct_predictions_counter", "lom/_numba/lambda_updates_numba.py:make_output_function_2d", "lom/_numba/lambda_updates_numba.py:make_output_function_3d", "lom/_numba/lom_outputs_fuzzy.py:MAX_AND_product_fuzzy"]}
{"id": "C114", "title": "Automatic clean-up keeps a hierarchy consistent", "statement": "In a machine of several layers with auto_clean or auto_reset set for some of them, after every inference the factors of every layer still have as many rows as the axes of the matrix below are long.", "quantifier": "all machines of generic layers that can be built by calls of the API, all settings, draws and numbers of samples", "why_tests_cant": "shapes change only if latent dimensions become useless in a run, and reading outside of an array raises nothing in compiled code", "anchors": ["lom/machine.py:Machine.burn_in", "lom/auxiliary_functions.py:clean_up_codes"]}
{"id": "C115", "title": "Every model can be part of a machine of several layers", "statement": "A layer on top of a factor of another layer has a say in the samples of that factor, whatever the models of the two layers (the eight sampled models, MAX-AND, qL-AND, OR-AND-IBP); combinations that are not supported are rejected by infer().", "quantifier": "all combinations of models of two-factor layers, all states of all layers, all schedules of updates, all draws", "why_tests_cant": "An ignored layer raises no error and the machine returns plausible samples; only the dependence on the layer on top, for all states, shows that it is ignored.", "anchors": ["lom/matrix_update_wrappers.py:get_sampling_fct", "lom/matrix_update_wrappers.py:get_relatives_models"]}
{"id": "C116", "title": "Names that are not models are rejected everywhere", "statement": "A model name that is none of the 36 operator pairs (for add_layer also none of MAX-AND, qL-AND, OR-AND-IBP) is never taken for some model: generating data (general, fast and fuzzy) raises ValueError, add_layer raises NotImplementedError and leaves machine and data as they were, expected_density and factor_density raise TypeError; functions made for predictions and for updating lambda raise TypeError for all but the models that are sampled; sampling functions for other names are not made.", "quantifier": "all strings, factors, machines, numbers of axes and latent dimensions", "why_tests_cant": "The set of strings is infinite; tests try a few misspelt names, and dispatch by chains of comparisons and by splitting at dashes can let others through.", "anchors": ["lom/auxiliary_functions.py:lom_generate_data", "lom/auxiliary_functions.py:canonise_model", "lom/auxiliary_functions.py:get_lom_class", "lom/_numba/lambda_updates_numba.py:make_correct_predictions_counter"]}
{"id": "C117", "title": "Layers on top of an OR-AND-IBP layer keep fitting the matrix below", "statement": "If a layer is put on a factor of an OR-AND-IBP layer, its factors have as many rows as the axes of the matrix below are long at all times of the inference, also when the number of latent dimensions below changes.", "quantifier": "all machines with a layer on the first factor of an OR-AND-IBP layer, all states, draws and sequences of updates", "why_tests_cant": "The number of latent dimensions changes at random, and compiled code reads outside of arrays without an error.", "anchors": ["lom/matrix_update_wrappers.py:get_sampling_fct", "lom/_numba/matrix_updates_numba.py:sample_2d_IBP"]}
{"id": "C118", "title": "A layer can be added by giving its shape", "statement": "add_layer(shape=..., model=M) without a child creates a matrix of that shape with a layer on it and leaves everything else as it was, for every model.", "quantifier": "all 36 operator pairs and MAX-AND, qL-AND, OR-AND-IBP; all shapes and machines", "why_tests_cant": "Tests add layers by their shape for a few models; whether the canonical form of a name needs a child to invert is spread over 27 branches.", "anchors": ["lom/machine.py:Machine.add_layer", "lom/auxiliary_functions.py:canonise_model"]}
{"id": "C119", "title": "Arguments that cannot be served are reported", "statement": "Calls that cannot be served raise an exception and do not return: inference with print_step=0 or a convergence window of zero, annealing from a lambda of zero, a technique of output() that does not exist, layers with a number of axes that their model does not support, biased noise on entries other than -1, 0, 1, masks of the wrong shape.", "quantifier": "all machines, layers, data and other arguments", "why_tests_cant": "A test tries one wrong call on one machine; that none of them ever returns is a statement on all states.", "anchors": ["lom/machine.py:Machine.infer", "lom/machine.py:Machine.burn_in", "lom/machine.py:MachineLayer.output", "lom/auxiliary_functions.py:add_bernoulli_noise_2d_biased"]}
{"id": "C120", "title": "Plots of a factor show probabilities", "statement": "MachineMatrix.show shows a number between 0 and 1 for every entry: technique 'state' the current value (1 as 1, -1 as 0), 'mean' the share of samples in which the entry is 1, 'map' the value that set_to_map would set; any other technique raises ValueError.", "quantifier": "all factors with values in {-1, 1}, all traces with at least one sample", "why_tests_cant": "A picture cannot be tested, and the rescaling depends on whether any entry of the whole matrix is negative.", "anchors": ["lom/machine.py:MachineMatrix.show", "lom/machine.py:MachineMatrix.set_to_map", "lom/auxiliary_functions.py:plot_matrix"]}
{"id": "C121", "title": "Intersecting two data frames", "statement": "intersect_dataframes(A, B) returns two frames with the same labels of rows (ascending) and columns, exactly those that A and B share, and with the entries that A and B have there.", "quantifier": "all frames without repeated labels, all orders in which a set is traversed", "why_tests_cant": "The order of a Python set varies from run to run; alignment for all orders and all frames is not a finite check.", "anchors": ["lom/auxiliary_functions.py:intersect_dataframes"]}
{"id": "C122", "title": "Models that say the same give the same inference", "statement": "If the formulas of two of the 36 models are the same up to inversion of all factors and of the data (AND-OR and OR-AND by De Morgan, a model and the one with the complementary outer operator), then a machine with data and a layer of the first model, and one with the (inverted, if so) data and a layer of the second, are the same apart from the record of what has been inverted: factors, lambdas and samples of every inference are the same for the same random numbers. No other models or data give the same machine.", "quantifier": "all pairs of models, data of any shape with entries -1, 0, 1, initial values, settings, draws, other contents of the machine", "why_tests_cant": "There are 1296 pairs of models; that two runs are equal for all data and random numbers cannot be seen from runs.", "anchors": ["lom/auxiliary_functions.py:canonise_model", "lom/auxiliary_functions.py:replace_equivalent_model", "lom/machine.py:Machine.add_layer", "lom/machine.py:Machine.infer"]}
{"id": "C123", "title": "Wrappers for whole analyses return their results", "statement": "predict_applicability_simple and predict_applicability_fast hold out a test set of the data, fit a machine and return the layer (and the area under the ROC curve); plot_codes shows the codes of a factor in the order of their relevance; tensorm_reconstruct_indp returns reconstructions of a tensor.", "quantifier": "all data, draws and settings", "why_tests_cant": "The functions have no tests, and what they do before they fail depends on the data.", "anchors": ["lom/auxiliary_functions.py:predict_applicability_simple", "lom/auxiliary_functions.py:predict_applicability_fast", "lom/auxiliary_functions.py:plot_codes", "lom/experiments.py:tensorm_reconstruct_indp"]}
{"id": "C124", "title": "Unrelated layers do not influence each other", "statement": "If matrices and layers are added to a machine that have no connection to those already there (no layer of the old part is above or below one of the new part), then inference of the extended machine, with the same settings and the same random numbers for the old part, gives the same factors, lambdas and samples of the old part as inference without the additions.", "quantifier": "all machines built by calls of the API from the eight sampled models with two or three factors, all additions, settings and draws", "why_tests_cant": "Independence of the parts is a statement on pairs of machines of any size and on all random numbers; two runs of the program do not use the same random numbers for the same matrices.", "anchors": ["lom/machine.py:Machine.infer", "lom/machine.py:Machine.burn_in", "lom/machine.py:Machine.add_layer", "lom/matrix_update_wrappers.py:get_sampling_fct", "lom/lambda_update_wrappers.py:get_update_fct"]}
{"id": "C125", "title": "Inference can be continued", "statement": "A second call of infer goes on where the first one stopped, whatever its settings: there is one call, with the settings of the first and more samples, that leaves the same factors and lambdas; its samples are those of the first call, those that the burn-in of the second call passes over, and those of the second call. With burn_in_min=0 and burn_in_max=0 in the second call, S1 samples and then S2 samples are S1 + S2 samples.", "quantifier": "all machines built by calls of the API from the eight sampled models with two or three factors, without annealing and automatic clean-up, fix_lbda_iters=0; all numbers of samples, settings and draws", "why_tests_cant": "Whether anything besides the factors and lambdas is carried over or reset between two calls (sampling functions, trace indices, windows) shows only for all runs together, and two runs of the program do not use the same random numbers.", "anchors": ["lom/machine.py:Machine.infer", "lom/machine.py:Machine.burn_in", "lom/matrix_update_wrappers.py:get_sampling_fct", "lom/lambda_update_wrappers.py:get_update_fct"]}
{"id": "C126", "title": "Settings of burn-in and printing only choose which states are kept", "statement": "convergence_window, convergence_eps, burn_in_min, burn_in_max, print_step and no_samples have no influence on the states that a machine runs through: samples of two calls that are drawn after the same number of sweeps are the same for the same random numbers, and so are the states left by two calls with the same number of sweeps. Two non-zero values of print_step give the same machine or the same exception.", "quantifier": "all machines built by calls of the API from the eight sampled models with two or three factors, without annealing and automatic clean-up, fix_lbda_iters=0; all pairs of settings, all draws; for print_step all machines and options", "why_tests_cant": "Burn-in stores lambdas in the same traces and indices that hold the samples; that this never reaches the samples, for any pair of settings, is a statement on all runs.", "anchors": ["lom/machine.py:Machine.infer", "lom/machine.py:Machine.burn_in", "lom/machine.py:Trace.update_trace"]}
{"id": "C127", "title": "Binary data may be given as zeros and ones", "statement": "The data of a machine can be given as an array of zeros and ones as well as in -1/1 coding: inference then has the same posterior distribution as for the recoded data. (False: add_matrix keeps the zeros, which mean missing cells.)", "quantifier": "all arrays of zeros and ones of two or three dimensions, all eight models, all numbers of latent dimensions, all lambdas and all factors", "why_tests_cant": "A run on 0/1 data ends without exception and with a plausible reconstruction; what it samples from is a distribution over all factors, which no test evaluates.", "anchors": ["lom/machine.py:Machine.add_matrix", "lom/auxiliary_functions.py:check_binary_coding", "lom/_numba/posterior_score_fcts.py:posterior_score_OR_AND_2D"]}
{"id": "C128", "title": "An array given as fixed holds the marked entries", "statement": "The argument (or attribute) fixed of a matrix may be an array of the shape of the matrix: inference then holds exactly the marked entries fixed. (False: infer takes the truth value of the array.)", "quantifier": "all machines, matrices, masks, settings and draws", "why_tests_cant": "That no machine whatever can be run with such an array, and that for flags and arrays of one entry nothing changes, is a statement on all machines.", "anchors": ["lom/machine.py:MachineMatrix.__init__", "lom/machine.py:Machine.infer", "lom/machine.py:Machine.add_matrix"]}
{"id": "C129", "title": "Priors of zero and one decide a factor, other numbers are reported", "statement": "With bernoulli_prior = 0 (1) all entries of a factor that are not held fixed are -1 (1) from the first sweep on, whatever the data. A prior between 0 and 1 acts through its logit. A prior that is no probability is reported.", "quantifier": "all factors, data, scores, finite lambdas, draws in [0, 1) and all real numbers as prior; factors of two- and three-dimensional data, matrices with one or two parents", "why_tests_cant": "Infinite and undefined logits run through the same comparisons as ordinary ones; that no data, however strong, and no draw gets an entry off the prior is a statement on all of them, and a run with a prior outside of [0, 1] looks like one that has converged.", "anchors": ["lom/matrix_update_wrappers.py:get_sampling_fct", "lom/_numba/matrix_updates_numba.py:flip_metropolised_gibbs_numba", "lom/_numba/matrix_updates_numba.py:make_sampling_fct_onechild"]}
{"id": "C130", "title": "random_machine_matrix has the density asked for", "statement": "random_machine_matrix(p, shape) returns an array of the given shape whose entries are independent, 1 with probability p and -1 otherwise, for every p from 0 to 1 including the ends; other numbers are rejected.", "quantifier": "all probabilities and other real numbers, all sizes of two-dimensional matrices and all their values (distribution); all shapes and draws (values, rejection)", "why_tests_cant": "That entries are independent and have exactly this density is a statement on the distribution of all matrices; samples can only make it plausible, and the matrices made by other parts of the package have the complementary density (C109).", "anchors": ["lom/auxiliary_functions.py:random_machine_matrix"]}
{"id": "C131", "title": "Data without noise are explained best by the factors they come from, and inference holds on to them", "statement": "If data are generated from factors by any of the 36 models, and any cells are removed, then a layer of that model on these data has its largest likelihood at these factors (inverted if the layer inverts factors); factors that miss an observed cell have a smaller one. The update of lambda is largest there. An entry is flipped with probability exp(-lambda c), where c is the number of observed cells whose prediction it decides; a sweep leaves factors that still predict every observed cell with probability at least (1 - exp(|logit prior| - lambda)) to the number of entries.", "quantifier": "all 36 models, sizes, factors, patterns of missing cells, lambdas, priors with |logit| below lambda, fixed entries, orders of sweeps; two and three factors; two factors: up to 32767 rows and columns", "why_tests_cant": "That no other factors explain the data better is a statement on all of the exponentially many factors; that inference keeps predicting the data although indifferent entries flip in every sweep is one on all paths.", "anchors": ["lom/auxiliary_functions.py:lom_generate_data", "lom/auxiliary_functions.py:canonise_model", "lom/_numba/matrix_updates_numba.py:make_sampling_fct_onechild", "lom/_numba/lambda_updates_numba.py:make_lbda_update_fct"]}
{"id": "C132", "title": "More latent dimensions never make the best fit worse", "statement": "Whatever data or likelihood factors with L latent dimensions produce, factors with more latent dimensions produce as well: to every factor a constant column can be added such that all predictions stay the same.", "quantifier": "all 36 models, any number of factors, all sizes, factors and data (complete or not), all lambdas, all larger numbers of latent dimensions", "why_tests_cant": "A fit with more dimensions that is worse in a test may be due to the sampler; that better or equal factors exist is a statement on all factors, sizes and models.", "anchors": ["lom/auxiliary_functions.py:lom_generate_data", "lom/_numba/posterior_score_fcts.py:posterior_score_OR_AND_2D"]}
{"id": "C133", "title": "Automatic clean-up does not change what a layer predicts, whatever its model", "statement": "auto_clean and auto_reset can be used with a layer of any model: cleaning up unused and duplicate dimensions does not change what the layer predicts. (False for all models but OR-AND: the rules for unused and duplicate dimensions are those of OR-AND.)", "quantifier": "all eight models, layers of any number of factors, sizes, entries, and both settings", "why_tests_cant": "Clean-up happens when a run has converged and only if some dimension is unused or double, and what it changes are cells that the next sweeps may repair or not; that no model but OR-AND is safe is a statement for each of them.", "anchors": ["lom/auxiliary_functions.py:clean_up_codes", "lom/auxiliary_functions.py:remove_dimension", "lom/auxiliary_functions.py:reset_dimension", "lom/machine.py:Machine.burn_in"]}
{"id": "C134", "title": "With enough latent dimensions a model reproduces any binary matrix", "statement": "For every model and every binary matrix there is a number of latent dimensions and factors of that size that generate the matrix exactly. (True for OR-AND, XOR-AND and the ten models equivalent to them, with as many dimensions as rows or columns; false for the other 24, for any number of dimensions.)", "quantifier": "all 36 models, all binary matrices, all numbers of latent dimensions", "why_tests_cant": "A user raises the number of dimensions until the error vanishes; that for a model it can never vanish is a statement on all factors of all sizes.", "anchors": ["lom/auxiliary_functions.py:lom_generate_data", "lom/auxiliary_functions.py:canonise_model"]}
{"id": "C135", "title": "dbtf_reconstruct returns the factors that dbtf found and their product", "statement": "dbtf_reconstruct hands all positions of ones of the tensor to dbtf, and returns the factors whose ones are the entries dbtf lists, together with their Boolean tensor product. (False if dbtf lists exactly one entry for a factor: the function then ends with a TypeError.)", "quantifier": "all tensors, sizes, numbers of latent dimensions and all files that dbtf may write", "why_tests_cant": "dbtf is an external program; its output is an arbitrary list of entries, and the short lists on which the reading fails are rare.", "anchors": ["lom/experiments.py:dbtf_reconstruct", "lom/auxiliary_functions.py:boolean_tensor_product"]}
{"id": "C136", "title": "The averages over the samples of a two-factor model with an inner XOR carry no information on its factors", "statement": "If the inner operator of a two-factor layer is XOR or NXOR (OR-XOR, NAND-XOR, XOR-XOR, XOR-NXOR), its factors have the default prior and nothing of them is fixed, then turning over a latent dimension in both factors leaves the posterior as it is. Hence the posterior expectation of every entry is 0 whatever the data; mat.mean() approaches 0 with more samples, and from means of 0 the output of technique factor_mean is the same in every cell. (A user expects the averages to show which entries are on.)", "quantifier": "all legal hierarchies, layers on top with such a model, data, strengths, numbers of latent dimensions, and for the averages all machines, initial states and lengths of burn-in from which all states can be reached", "why_tests_cant": "In a short run the chain stays near one of the mirrored solutions and the averages look informative; that they vanish is a statement on the limit.", "anchors": ["lom/machine.py:Trace.mean", "lom/machine.py:MachineLayer.output", "lom/_numba/matrix_updates_numba.py", "lom/_numba/posterior_score_fcts.py"]}
{"id": "C137", "title": "Predictions from averages over many samples are posterior predictive probabilities", "statement": "With enough samples, layer.output(technique='factor_mean') returns in each cell the posterior probability that the layer predicts a one. (False: it approaches the probability of a one if all entries were independent with their posterior probabilities, which is another number if entries depend on each other; for inner XOR with the default prior it is the same for all cells and data.)", "quantifier": "all legal hierarchies with fixed strengths, layers of two sampled factors, cells, initial states, lengths of burn-in, and orders and draws as random variables", "why_tests_cant": "The limit concerns infinitely many samples; a run gives one number that depends on the draws.", "anchors": ["lom/machine.py:MachineLayer.output", "lom/machine.py:Trace.mean", "lom/auxiliary_functions.py:lom_generate_data_fast", "lom/_numba/lom_outputs_fuzzy.py"]}
{"id": "C138", "title": "Observations with the same data are described alike", "statement": "If two rows (columns, slices) of the data are equal, nothing is fixed in the corresponding rows of the factor, and the factor is not itself modelled by another layer, then both rows have the same posterior expectations and the same posterior predictive probabilities in every cell, and their averages over the samples (mat.mean()) approach each other as the number of samples grows, wherever each of them started.", "quantifier": "all legal hierarchies, layers of two or three factors on data, strengths, priors, pairs of equal rows; for the averages all machines, initial states and lengths of burn-in from which all states can be reached", "why_tests_cant": "In a single run the two rows get different samples; that they agree is a statement on the distribution.", "anchors": ["lom/machine.py:Trace.mean", "lom/machine.py:Machine.infer", "lom/_numba/matrix_updates_numba.py", "lom/_numba/posterior_score_fcts.py"]}
{"id": "C139", "title": "Predictions from most frequent entries are the more probable predictions", "statement": "With enough samples, layer.output(technique='factor_map') returns in each cell the value that the layer predicts with the larger posterior probability. (False: it returns what the layer predicts if each entry of the factors has its more probable value, which can be the less probable prediction.)", "quantifier": "all legal hierarchies with fixed strengths, layers of two or three sampled factors, cells without entries that are as probable on as off, initial states, lengths of burn-in, and orders and draws as random variables", "why_tests_cant": "The limit concerns infinitely many samples, and the comparison a sum over all states of the factors.", "anchors": ["lom/machine.py:MachineLayer.output", "lom/machine.py:Trace.mean", "lom/auxiliary_functions.py:lom_generate_data_fast"]}
{"id": "C140", "title": "Both factors describe symmetric data alike", "statement": "If a layer of two factors is put on a symmetric matrix (an undirected graph, a similarity), its factors have the same prior, nothing is fixed in them and they are not modelled by another layer, then corresponding entries of both factors have the same posterior probability of being on, posterior predictive probabilities are symmetric, and the averages of both factors over the samples (mat.mean()) approach each other as the number of samples grows.", "quantifier": "all legal hierarchies, models, symmetric data with or without missing cells, strengths, equal priors; for the averages all machines, initial states and lengths of burn-in from which all states can be reached", "why_tests_cant": "In a single run the two factors get different samples and updates in random order; that they agree is a statement on the distribution.", "anchors": ["lom/machine.py:Trace.mean", "lom/machine.py:Machine.infer", "lom/_numba/matrix_updates_numba.py", "lom/_numba/posterior_score_fcts.py"]}
{"id": "C141", "title": "Some models differ in the sign of a factor only", "statement": "With two factors, OR-XOR and NAND-XOR describe the same data equally well, and so do XOR-XOR and XOR-NXOR: each computes from the factors (z, u) what the other one computes from (z, -u). If nothing models u and its prior is replaced by the complementary one (the default prior is its own complement), the evidence of both models is the same for any data, corresponding states have the same posterior probability, every cell is predicted with the same probability, and the averages over the samples (mat.mean()) approach the same values up to the sign of u.", "quantifier": "all legal hierarchies, two-factor layers of these four models, data with or without missing cells, strengths, priors, fixed entries; for the averages all machines, initial states and lengths of burn-in from which all states can be reached", "why_tests_cant": "Equality of evidence is about a sum over all states for every data set; runs of the two models use different code paths and draws.", "anchors": ["lom/_numba/lom_outputs.py", "lom/_numba/posterior_score_fcts.py", "lom/machine.py:Machine.infer", "lom/machine.py:Trace.mean"]}
{"id": "C142", "title": "A layer with a large strength looks for the best fit", "statement": "A machine with a single layer and the default prior, whose strength is fixed at lambda >= 0: the posterior probability that the factors predict fewer data cells than they could (given what is fixed) is at most the number of states times exp(-lambda), so it vanishes as the strength grows; under any other prior it is at most exp(-lambda) divided by the prior probability, given what is fixed, of any best fit; if data of two dimensions can be described exactly, the best fits are the factors that reproduce all observed cells; and in a long run the share of the samples that are not best fits is at most that number plus any small margin.", "quantifier": "all layers of two or three factors, all eight models, data with or without missing cells, strengths, fixed entries; for the samples all machines, initial states and lengths of burn-in from which all states can be reached", "why_tests_cant": "The best fit is a maximum over exponentially many states, and the share of samples a statement on the distribution of runs of any length.", "anchors": ["lom/machine.py:Machine.infer", "lom/_numba/matrix_updates_numba.py", "lom/_numba/posterior_score_fcts.py"]}
{"id": "C143", "title": "Observing a cell multiplies the odds of its prediction by a fixed amount", "statement": "Compare data in which a cell is missing with the same data in which it is a 1 (a 0). The posterior odds that a layer of strength lambda predicts a 1 in that cell are multiplied by exp(lambda) (by exp(-lambda)), whatever the other data, the model, the priors and the other layers. In particular a layer of strength lambda >= 0 does not get less sure of what was observed. The evidence of the data with the cell is the evidence without it times the (noisy) posterior predictive probability of its value. The share of the samples of a run that predict a 1 there approaches the value that these odds give.", "quantifier": "all legal hierarchies, layers of two or three factors on data that no other layer is on, cells, strengths, priors, fixed entries; for the samples all machines, initial states and lengths of burn-in from which all states can be reached", "why_tests_cant": "The odds are quotients of sums over all states; runs with and without the cell share no draws and no states.", "anchors": ["lom/machine.py:Machine.infer", "lom/_numba/posterior_score_fcts.py", "lom/_numba/matrix_updates_numba.py", "lom/auxiliary_functions.py:split_test_train"]}
