# Formal model of LogicalFactorisationMachines in Lean 4 — design

The code in `/repo` is read as text; nothing is executed. All theorems are about the
Lean model in `lean/Verif`, whose definitions cite the file and lines they model.

## Layout

| module | contents |
|---|---|
| `Verif/Py.lean` | numpy-like arrays (`Arr`: shape + index function), machine-integer wrap-around, Python string helpers, errors |
| `Verif/Spec/*.lean` | the small, independent specification: six logical operators, LOM formula, sigmoid likelihood, Bernoulli expectations, posterior, legal inputs |
| `Verif/Model/*.lean` | the model, function by function, in `do` notation mirroring the loops, exceptions as values |
| `Verif/Lemmas/*.lean` | helper lemmas and closed forms of the loops |
| `Verif/Props/*.lean` | the property theorems (one section per property id) with non-vacuity examples (`…_hypotheses_met`, `…_met`, `example`) |

## Modelling conventions

* `int8/int16/int64` entries are `Int`. Numba evaluates integer expressions in `int64`; wrap-around is
  modelled where a value is *returned or stored* in a narrower type than it was computed in
  (`int16` return of the 2D scores, `int64` return of the 3D scores, `int8` accumulator `g`, `int8` index of `random_choice`).
* `float64/float32` are real numbers `ℝ`; rounding is not modelled. Truncation of a float to an
  integer return type (`int32` in the MAX-AND score) *is* modelled. Where infinities and nan decide the
  behaviour (convergence check, traces of lambda, logarithm of a zero prior) floats are `NpF` (finite, ±inf, nan).
* `np.random` calls become an explicit argument: the number that call would return.
  Theorems quantify over all of them (hypothesis `0 ≤ u < 1` where it matters); probabilities are
  Lebesgue measure of sets of draws or `PMF`s. `np.random.permutation`/`choice` are any list that meets numpy's contract.
* `prange` is modelled twice: sequentially, and as an arbitrary interleaving (C21, C113).
* Exceptions are `Except Err`. Uninitialised memory (`np.empty`) is an explicit arbitrary argument.
* Python objects with identity (matrices, layers, shared arrays, assigned functions) live in an explicit store where
  sharing matters (C11, C30, C39–C50, C72).
* `~` on a boolean inside numba-compiled code and on numpy booleans is logical not.
* The three-factor fuzzy output function declares a two-dimensional return type
  (`lambda_updates_numba.py:147`); numba may reject it at compile time, the model gives what its body computes.
* The code uses `np.int`, `np.infty` and similar names: a numpy that still has them is assumed.
  Python 3 is assumed (`zip` is an iterator, C68). `pandas.unique` keeps the order of first occurrence.
* `Machine` model: matrices and layers are records in lists; printing, timing and the `tqdm`-like output are left out;
  the update functions are arbitrary functions of the whole state in C39–C46, the real ones in C43, C45, C47.
  Traces of scalar lambdas are float32 in the code, real numbers here.
* `Wiring`: an infinite or nan lambda (possible with a zero beta prior only, `C27_zero_beta_infinite`) ends the modelled run with an error;
  theorems that show `infer` returns also show that this does not occur.
* `Output`: the returned array is the stored prediction object (no aliasing with later mutation by the user); arrays that do not
  broadcast give ValueError; `BALANCED-…` models (arrays of lambda there) are reported as that ValueError.

## Results per property

`proved` = the statement of `properties.jsonl` for all inputs; `partial` = the theorem ending in `_partial` proves the named part and, where the code refutes the rest, a `_wrong`-style theorem proves the negation with a witness. The modelling column says what is modelled and how the proof goes.

* **C01 Two-factor output functions compute their logical formula** — proved. `LomOutputs.*_product` + `make_output_function_2d` (loops in `do` notation). Loop closed forms by list induction, then equality with `Spec.lom`. Theorems: `C01_two_factor_outputs`, `C01_two_factor_matrix`, `C02_other_models`.
* **C02 Three-factor output functions compute their logical formula** — proved. the `*_product_3d` kernels and `make_output_function_3d`; same method with three factors. Theorems: `C02_three_factor_outputs`, `C02_three_factor_tensor`, `C02_other_models`.
* **C03 lom_generate_data implements every one of the 36 models at every arity** — proved. `lom_generate_data` for a list of factors; induction over the factor list and over the latent dimensions; all strings covered. *all 36 models, any number of factors; other strings raise* Theorems: `C03_all_models_all_arities`, `C03_other_names_rejected`.
* **C04 Fast data generation agrees with the general one** — proved. `lom_generate_data_fast` and the kernel dispatch; equality of `Except` values for every string. *any model string, any arity, same array or same exception* Theorems: `C04_fast_agrees`.
* **C05 qL-AND output is a threshold** — proved. `qL_AND_product`; counting invariant of the loop against `Spec.activeCount`. Theorems: `C05_qL_threshold`, `C05_qL_one`, `C05_qL_zero`, `C05_qL_neg`.
* **C06 Output does not depend on the order of latent dimensions or of factors** — proved. proved on the specification and transported by C01/C02. Theorems: `C06_order_invariance_2d`, `C06_order_invariance_3d`.
* **C07 MAX-AND product takes the maximum dispersion among active dimensions** — partial. `MAX_AND_product_2d` and `maxmachine_forward_pass`; order theory (`IsLeast`/`IsGreatest` over active dimensions). *False for MAX_AND_product_2d: it returns the smallest active lambda (proved for all inputs, with a witness that this is not the largest); the claim is proved when all active dimensions share one lambda. maxmachine_forward_pass does return the largest.* Theorems: `C07_actual_minimum`, `C07_not_maximum`, `C07_maximum_partial`, `C07_forward_pass_maximum`.
* **C08 Active-source counts are exact** — partial. `compute_g` with the int8 accumulator; `wrap8` is a ring homomorphism mod 256. *exact while the count fits int8; C08_overflow refutes the unrestricted claim (128 active dimensions give -128)* Theorems: `C08_compute_g_wraps`, `C08_compute_g_partial`, `C08_overflow`.
* **C09 Canonicalisation of the model preserves its meaning** — proved. `canonise_model`, `replace_equivalent_model`, `implemented_loms` on real strings; 36-way case split; semantics via operator dualities of `Spec.lom`. *all models accepted, any number of factors and columns* Theorems: `C09_canonical_form_preserves_meaning`.
* **C10 Every one of the 36 models is accepted and lands on an implemented model** — proved. `canonise_model`, `replace_equivalent_model`, `implemented_loms` on real strings; 36-way case split; semantics via operator dualities of `Spec.lom`. *all strings* Theorems: `C10_accepts_all`, `C10_rejects_others`.
* **C11 add_layer presents the layer with data in the orientation its model needs** — partial. `AddLayer`: store of arrays with identity, branch by branch incl. failing calls. *holds when at most one inverting layer is attached per data matrix and no call fails; two inverting layers on one child undo each other (witness), and a failing call can leave the data inverted (witness)* Theorems: `C11_actual_orientation`, `C11_orientation_partial`, `C11_failure_partial`, `C11_shared_child_wrong`, `C11_failure_inverts`.
* **C12 replace_equivalent_model only replaces a model by an equivalent one** — proved. `canonise_model`, `replace_equivalent_model`, `implemented_loms` on real strings; 36-way case split; semantics via operator dualities of `Spec.lom`. *all strings* Theorems: `C12_replacement_equivalent`.
* **C13 expected_density is the exact probability of a 1** — partial. `expected_density`; expectation as a finite sum over all bit assignments, factorised over dimensions and factors. *34 of 36 models for all L, K, f; XOR-XOR and NXOR-XOR are wrong exactly for three or more factors, two or more dimensions and a density strictly between 0 and 1 (C13_iff); XOR-XOR is then too small* Theorems: `C13_expected_density_partial`, `C13_iff`, `C13_too_small`, `C13_xor_xor_wrong`, `C13_unknown_rejected`.
* **C14 Two-factor update score is the exact score difference of the data** — partial. 16 score functions; closed form per loop (early exits included), then case analysis per cell against the difference of data log-likelihoods. *exact up to 32767 columns; C14_int16_overflow refutes the unrestricted claim (int16 return type)* Theorems: `C14_score_2d_wraps`, `C14_score_2d_partial`, `C14_int16_overflow`.
* **C15 Three-factor update score is the exact score difference of the data** — proved. 16 score functions; closed form per loop (early exits included), then case analysis per cell against the difference of data log-likelihoods. Theorems: `C15_score_3d_wraps`, `C15_score_3d`.
* **C16 The update uses the exact posterior log-odds of the entry** — partial. C14/C15 + real analysis of the sigmoid likelihood. *two-factor part up to 32767 columns; false beyond that (C16_wrong: with 32768 columns the logit has the wrong sign)* Theorems: `C16_log_odds_2d_partial`, `C16_log_odds_3d`, `C16_wrong`.
* **C17 Metropolised Gibbs flip is reversible** — proved. three flip functions; Lebesgue measure of the acceptance set, detailed balance. Theorems: `C17_flip_probability`, `C17_reversible`.
* **C18 The logit and probability versions of the flip agree** — proved. three flip functions; Lebesgue measure of the acceptance set, detailed balance. Theorems: `C18_flip_versions_agree`, `C18_gibbs_flip`.
* **C19 A factor sweep leaves the posterior invariant** — partial. the sampling functions of `make_sampling_fct_onechild`; kernels as weighted sums, invariance composed over all entries in the loop order. *two-factor part up to 32767 rows and columns; false beyond that (C19_wrong: with 32768 columns the posterior is not preserved); three-factor part complete* Theorems: `C19_posterior_invariant_2d_partial`, `C19_posterior_invariant_3d`, `C19_wrong`.
* **C20 Fixed entries never change and entries stay in {-1,1}** — proved. all seven sampling functions; loop invariants. Theorems: `C20_sampling_keeps`.
* **C21 Parallel row updates are schedule independent** — proved. interleavings as lists of (row, column) tasks with per-row order; commutation of rows. Theorems: `C21_onechild_2D`, `C21_onechild_3D`, `C21_onechild_oneparent_2D`, `C21_nochild_oneparent_2D`, `C21_nochild_twoparents_2D`, `C21_nochild_twoparents_3D`, `C21_onechild_twoparents_2D`.
* **C22 Each factor is updated against its own axis of the data** — partial. wrapper transpositions; identities on `Spec.lom`. *two-factor part up to 32767 rows and columns; false beyond that (C22_wrong: int16 score)* Theorems: `C22_axes_2d_partial`, `C22_axes_3d`, `C22_wrong`.
* **C23 A parent layer contributes exactly its prior log-odds** — partial. the parent wrappers; closed forms for what the code does, negations with witnesses. *false for two parents with different models (C23_two_parents_wrong: both use the second model) and for three-factor children (C23_three_factors_fail)* Theorems: `C23_onechild_oneparent_partial`, `C23_nochild_oneparent`, `C23_nochild_twoparents_actual`, `C23_nochild_twoparents_partial`, `C23_two_parents_wrong`, `C23_onechild_twoparents_actual`, `C23_three_factors_fail`, `C23_hypotheses_met`.
* **C24 Unsupported family structures are rejected** — partial. the parent wrappers; closed forms for what the code does, negations with witnesses. *the claim is false: a third parent is silently ignored; what is rejected is C24_rejects_partial* Theorems: `C24_extra_parents_ignored`, `C24_not_rejected`, `C24_rejects_partial`.
* **C25 Every machine add_layer accepts can be inferred** — partial. dispatch of add_layer (`Wiring`) against dispatch of the samplers; exact characterisation of all strings × arities. *exact characterisation; true for two-dimensional data and OUTER-INNER models on three-dimensional data; false otherwise (witnesses): special models on 3-dimensional data and 1- or 4-dimensional data are accepted but cannot be inferred* Theorems: `C25_axes`, `C25_assignable_iff`, `C25_inferable_partial`, `C25_wrong`.
* **C26 Correct predictions are counted exactly and never exceed the observed cells** — proved. `make_correct_predictions_counter`, `make_lbda_update_fct`; counting; strict concavity/derivative for C28. Theorems: `C26_correct_predictions_2d`, `C26_correct_predictions_3d`, `C26_correct_predictions_qL`, `C26_ibp_counts_as_or_and`.
* **C27 Lambda update is well defined, non-negative and equals the smoothed accuracy** — proved. `make_correct_predictions_counter`, `make_lbda_update_fct`; counting; strict concavity/derivative for C28. *C27_zero_beta_infinite covers the edge case of a zero beta prior* Theorems: `C27_lambda_smoothed_accuracy_2d`, `C27_lambda_smoothed_accuracy_3d`, `C27_lambda_smoothed_accuracy_qL`, `C27_zero_beta_infinite`.
* **C28 Lambda update maximises the (regularised) likelihood** — proved. `make_correct_predictions_counter`, `make_lbda_update_fct`; counting; strict concavity/derivative for C28. Theorems: `C28_lambda_maximises_2d`, `C28_lambda_maximises_3d`.
* **C29 MAX-AND lambda update attributes every observed cell once** — proved. `MaxMachine` model with stable argsort, int32 truncation and the stored ratio table. Theorems: `C29_lambda_attribution`, `C29_other_arity_rejected`.
* **C30 Lambda ratio table is exact and antisymmetric** — partial. `MaxMachine` model with stable argsort, int32 truncation and the stored ratio table. *Exactness, antisymmetry and diagonal proved. The table reflects the current lambdas after any sequence of sampler updates; false after an assignment by the user (witness).* Theorems: `C30_ratio_table`, `C30_table_current_partial`, `C30_stale_after_assignment`.
* **C31 MAX-AND update score is the log-likelihood difference** — partial. `MaxMachine` model with stable argsort, int32 truncation and the stored ratio table. *False as stated: the score is truncated to an integer and mixes up columns and ranks (witnesses). Proved up to truncation for dimensions whose rank equals their column, and for the whole update of a factor if columns are sorted by lambda.* Theorems: `C31_score_partial`, `C31_sweep_partial`, `C31_sweep_hypotheses_met`, `C31_truncated`, `C31_wrong_column`.
* **C32 qL-AND factor updates use the exact posterior log-odds** — partial. `QL` model; int8 index wrap in `random_choice`; store of assigned functions for C72. *scores are right; the code ignores lambda, the prior and fixed entries, so the law is the conditional only for lambda = 1, a uniform prior and nothing fixed (witnesses)* Theorems: `C32_score_Z_partial`, `C32_score_U_partial`, `C32_log_odds_Z_partial`, `C32_log_odds_U_partial`, `C32_lambda_ignored`, `C32_fixed_ignored`.
* **C33 qL-AND thresholds are sampled from their conditional given the data** — partial. `QL` model; int8 index wrap in `random_choice`; store of assigned functions for C72. *thresholds stay in 1..5; the law is the conditional only for columns of ones, the code never reads the data (witness)* Theorems: `C33_range`, `C33_law_ignores_data`, `C33_conditional_partial`, `C33_wrong`.
* **C34 random_choice draws an index with its probability** — partial. `QL` model; int8 index wrap in `random_choice`; store of assigned functions for C72. *up to 127 entries; the index is an int8 and wraps around beyond (witness)* Theorems: `C34_interval_partial`, `C34_iff_partial`, `C34_probability_partial`, `C34_overflow`.
* **C35 IBP update keeps the two factors aligned and binary** — proved. `IBP` model: all branches of `sample_2d_IBP` with explicit draws; invariants over rows. *any positive number of rows, all draws* Theorems: `C35_aligned_binary_active`.
* **C36 IBP probabilities are well formed** — proved. `IBP` model: all branches of `sample_2d_IBP` with explicit draws; invariants over rows. *every state reached inside the update; alpha > 0, 0 < q < 1* Theorems: `C36_prior_odds`, `C36_new_columns`, `C36_draw_law`.
* **C37 IBP new-column likelihood factors marginalise the Bernoulli prior** — partial. `IBP` model: all branches of `sample_2d_IBP` with explicit draws; invariants over rows. *true for the default prior 1/2 only: the code uses q^k where (1-q)^k is needed (equivalence proved)* Theorems: `C37_swapped`, `C37_half_partial`, `C37_iff`.
* **C38 IBP respects fixed matrices and fixed entries** — partial. `IBP` model: all branches of `sample_2d_IBP` with explicit draws; invariants over rows. *holds if the first factor is fixed; a fixed second factor and fixed entries of the first are overwritten (witness)* Theorems: `C38_first_fixed_partial`, `C38_wrong`.
* **C39 Traces hold exactly the drawn samples** — proved. `Machine` model: state machine of infer/burn_in with arbitrary update functions, heap of matrices, traces; relational invariants over phases. *all update functions, all arguments; IBP layers included (entries that do not exist are -1)* Theorems: `C39_traces`, `C39_last`, `C39_others`, `C46_hypotheses_met`.
* **C40 Burn-in always stops within its limit** — proved. `Machine` model: state machine of infer/burn_in with arbitrary update functions, heap of matrices, traces; relational invariants over phases. *all update functions and convergence histories; ZeroDivisionError for a window of zero* Theorems: `C40_sweeps`, `C40_no_error`, `C40_zero`, `C40_hypotheses_met`.
* **C41 Convergence is judged on sampled lambdas only** — partial. `Machine` model: state machine of infer/burn_in with arbitrary update functions, heap of matrices, traces; relational invariants over phases. *independent of all fresh memory but the last row of the first window, which is read before it is ever written (witness)* Theorems: `C41_partial`, `C41_wrong`, `C41_window_one`.
* **C42 burn_in_iters reports the number of burn-in iterations** — partial. `Machine` model: state machine of infer/burn_in with arbitrary update functions, heap of matrices, traces; relational invariants over phases. *right if burn-in converged; at the limit the pre-burn-in sweeps are left out (for all machines with burn_in_min > 0)* Theorems: `C42_partial`, `C42_wrong`, `C42_wrong_met`.
* **C43 Fixed matrices and fixed parameters are never changed by infer** — partial. `Wiring` + `Machine`: the real update functions inside the state machine; invariant over all executions. *true unless a layer with auto_clean or auto_reset has a fixed factor: clean-up removes its columns, too (witness)* Theorems: `C43_fixed_partial`, `C43_hypotheses_met`, `C47_infer_binary`, `C43_wrong`.
* **C44 Annealing ends at the requested lambda** — partial. `Machine` model: state machine of infer/burn_in with arbitrary update functions, heap of matrices, traces; relational invariants over phases. *fixed lambdas: annealing has no effect at all (C44_fixed_lambdas); equal steps proved; the last is (1 + 1/burn_in_min) times the requested value, for all inputs* Theorems: `C44_steps_partial`, `C44_wrong`, `C44_rejects`, `C44_rejects_met`, `C44_hypotheses_met`, `C44_fixed_lambdas`, `C44_fixed_hypotheses_met`.
* **C45 infer uses the priors set at the time it is called** — partial. `Wiring` + `Machine`: the real update functions inside the state machine; invariant over all executions. *true of the first call with generic models; MAX-AND and qL-AND ignore the priors altogether (C45_special_wrong); later calls do not depend on the priors at all (for all machines, all update functions): the first function is kept* Theorems: `C45_first_call_partial`, `C45_wrong`, `C45_hypotheses_met`, `C45_special_wrong`, `C45_special_hypotheses_met`.
* **C46 infer completes for machines with unfixed data** — partial. `Machine` model: state machine of infer/burn_in with arbitrary update functions, heap of matrices, traces; relational invariants over phases. *with or without annealing; completes if all sampled matrices are factors of layers; AttributeError after burn-in otherwise, for all machines* Theorems: `C46_completes_partial`, `C46_hypotheses_met`, `C46_wrong`, `C46_wrong_never`, `C46_wrong_met`, `C47_infer_binary`.
* **C47 Latent matrices stay binary through inference** — proved. `Wiring` + `Machine`: the real update functions inside the state machine; invariant over all executions. *with or without annealing; single layer, any generic model, two or three factors, all draws, orders, clean-up flags and fixed entries; also shows that infer returns, that lambda is finite and that all samples are binary* Theorems: `C47_infer_binary`, `C47_hypotheses_met`, `C47_anneal_met`.
* **C48 Posterior means and MAP estimates are in range** — proved. `Output` model: Trace.mean, set_to_map, layer.output with all techniques and its caching, and MAX_AND_product_fuzzy. *all traces with at least one sample; ties give -1 (note: show('map') uses another threshold, .5 on the [-1,1] scale)* Theorems: `C48_mean_in_range`, `C48_set_to_map`, `C48_no_trace`, `C48_hypotheses_met`.
* **C49 layer.output returns probabilities** — partial. `Output` model: Trace.mean, set_to_map, layer.output with all techniques and its caching, and MAX_AND_product_fuzzy. *all 36 operator pairs and OR-AND-IBP, any number of factors, all techniques but factor_mean with 3+ factors of other models than OR-AND (returns -1); after inference without samples factor_mean is nan for two factors (C49_no_samples_wrong); qL-AND returns -1/1, MAX-AND factor_mean up to 1.8 (witnesses)* Theorems: `C49_probabilities_partial`, `C49_noise_formula`, `C49_max_and_partial`, `C49_max_factor_mean_partial`, `C49_hypotheses_met`, `C49_factor_mean_wrong`, `C49_qL_wrong`, `C49_qL_partial`, `C49_max_wrong`, `C49_no_samples_wrong`, `C49_no_samples_3d`, `C49_no_samples_met`.
* **C50 layer.output caches but never corrupts the layer** — partial. `Output` model: Trace.mean, set_to_map, layer.output with all techniques and its caching, and MAX_AND_product_fuzzy. *all histories of calls; a failing call on an OR-AND-IBP layer renames its model, and lazy calls return probabilities even if the last call did not (witnesses)* Theorems: `C50_layer_kept_partial`, `C50_lazy_partial`, `C50_ibp_wrong`, `C50_lazy_wrong`, `C50_hypotheses_met`.
* **C51 MC output is the posterior frequency of a one** — partial. `Output` model: Trace.mean, set_to_map, layer.output with all techniques and its caching, and MAX_AND_product_fuzzy. *all operator pairs, OR-AND-IBP and MAX-AND, any number of factors and samples; qL-AND ignores the samples (witness)* Theorems: `C51_mc_fraction_partial`, `C51_max_and`, `C51_max_hypotheses_met`, `C51_hypotheses_met`, `C49_qL_wrong`, `C49_qL_partial`.
* **C52 Fuzzy two-factor outputs are exact expectations** — proved. 16 fuzzy kernels and the general fuzzy implementation; expectation over independent bits. *all eight two-factor kernels and the general implementation for all 36 models and any arity* Theorems: `C52_exact_expectation`, `C52_in_unit_interval`, `C52_agrees_with_crisp`, `C52_general_expectation`, `C52_general_other_names`.
* **C53 Fuzzy three-factor outputs are exact expectations** — partial. 16 fuzzy kernels and the general fuzzy implementation; expectation over independent bits. *seven of eight models; the three-factor OR-XOR formula has two wrong signs and can return -1 (witness); it is never too large, and C53_or_xor_iff says exactly when it is right* Theorems: `C53_exact_expectation_partial`, `C53_in_unit_interval_partial`, `C53_agrees_with_crisp_partial`, `C53_or_xor_wrong`, `C53_or_xor_iff`.
* **C54 clean_up_codes removes all useless and duplicate dimensions** — partial. `CleanUp` model: loops over columns with removal in place, reset; termination by measure. *termination and return value proved; a single call may leave a useless dimension behind (skips the column after a removed one, witness), repeating until False does not. Of the useless dimensions at most half survive a call (C54_halves_partial), none if no two are neighbours (C54_isolated_partial)* Theorems: `C54_return_value`, `C54_false_certifies_partial`, `C54_repeat`, `C54_no_action`, `C54_reset_reports_again`, `C54_wrong`, `C54_halves_partial`, `C54_isolated_partial`, `C54_calls`, `C54_halves_met`.
* **C55 clean_up_codes does not change what an OR-AND layer predicts** — partial. `CleanUp` model: loops over columns with removal in place, reset; termination by measure. *true if dimensions that coincide in one factor coincide in all; otherwise the prediction can change (witness)* Theorems: `C55_product_partial`, `C55_inactive`, `C55_hypotheses_met`, `C55_wrong`.
* **C56 Fixed entries keep designating the same latent dimension after clean-up** — partial. `CleanUp` model: loops over columns with removal in place, reset; termination by measure. *true for reset; whenever a dimension is removed the mask no longer fits (for all layers)* Theorems: `C56_reset_partial`, `C56_wrong`, `C56_hypotheses_met`.
* **C57 split_test_train hides balanced entries and nothing else** — proved. `DataPrep` model; permutations/choices as explicit draws with their contract as hypothesis. *all data, all draws; ValueError if there are too few ones or minus-ones* Theorems: `C57_hides_balanced`, `C57_too_few`, `C57_hypotheses_met`.
* **C58 split_train_test hides only observed cells** — proved. `DataPrep` model; permutations/choices as explicit draws with their contract as hypothesis. *all tensors, all draws, both modes* Theorems: `C58_hides_observed`, `C58_balanced`, `C58_unbalanced_iff`, `C58_unbalanced_raises`, `C58_balanced_raises`, `C58_hypotheses_met`, `C58_raises_met`.
* **C59 Bernoulli noise flips signs only** — partial. `DataPrep` model; permutations/choices as explicit draws with their contract as hypothesis. *signs proved; the result is not a function of the seed: a given seed is ignored (for every generator with two differing states), no seed means one of 10000; the 3D function leaves the coding on integer arrays* Theorems: `C59_flips_signs`, `C59_flips_signs_biased`, `C59_flips_bits`, `C59_seed_ignored`, `C59_seed_ignored_met`, `C59_few_outcomes`, `C59_int_wrong`.
* **C60 check_binary_coding normalises 0/1 data and is idempotent** — proved. `DataPrep` model; permutations/choices as explicit draws with their contract as hypothesis. *all arrays* Theorems: `C60_recodes`, `C60_idempotent`, `C60_hypothesis_met`.
* **C61 unique_ordered returns the distinct elements in first-occurrence order** — proved. list and column functions; Sperner's bound and almost-sure termination for C64. *all lists* Theorems: `C61_unique_ordered`, `C61_idempotent`.
* **C62 find_centers_of_ordered_list points into each block** — proved. list and column functions; Sperner's bound and almost-sure termination for C64. *lists in which equal labels are adjacent, as the property says* Theorems: `C62_centers`, `C62_hypothesis_met`, `C62_needs_blocks`.
* **C63 all_columsn_are_disjoint detects overlapping columns** — partial. list and column functions; Sperner's bound and almost-sure termination for C64. *the function tests that no column contains another, not disjointness (witness)* Theorems: `C63_checks_antichain_partial`, `C63_disjoint_nonempty_partial`, `C63_wrong`, `C63_hypotheses_met`.
* **C64 generate_orm_product terminates for every size and returns the Boolean product** — partial. list and column functions; Sperner's bound and almost-sure termination for C64. *result proved; it can return exactly up to Sperner's bound on L (witness beyond), and then terminates with probability one* Theorems: `C64_can_return_iff`, `C64_wrong`, `C64_result_partial`, `C64_terminates_partial`, `C64_hypothesis_met`.
* **C65 boolean_tensor_product is the Boolean tensor product** — proved. `boolean_tensor_product`, `generate_random_tensor`; product measure of uniform draws. *all matrices* Theorems: `C65_tensor_product`, `C65_rejects`, `C65_hypotheses_met`.
* **C66 generate_random_tensor chooses the factor density that gives the requested density** — proved. `boolean_tensor_product`, `generate_random_tensor`; product measure of uniform draws. *all sizes and densities in [0,1]; the probability is that of independent uniform draws* Theorems: `C66_cell`, `C66_density`, `C66_no_dimension`.
* **C67 compute_bp / compute_bbp return the successive log-ratios of the (beta-)binomial** — partial. `Numeric` model; finite products and telescoping, `NpF` floats with inf and nan for traces. *all entries that are log-ratios are right, for all parameters; the padded result is one longer than N, n=0 gives length 1 and q=1 raises ZeroDivisionError (witnesses)* Theorems: `C67_bp_exact_partial`, `C67_bp_padded_partial`, `C67_bp_length_wrong`, `C67_bp_certain`, `C67_bbp_partial`, `C67_bbp_wrong`, `C67_example`.
* **C68 get_roc_auc scores the held-out entries** — partial. `DataPrep` model; permutations/choices as explicit draws with their contract as hypothesis. *labels are right; the zip object is used up by the first comprehension, so the second argument is empty whenever anything is held out (witness)* Theorems: `C68_labels_partial`, `C68_wrong`.
* **C69 The numerical fallbacks are consistent** — proved. `Numeric` model; finite products and telescoping, `NpF` floats with inf and nan for traces. *all reals, all non-empty vectors* Theorems: `C69_expit`, `C69_inverse`, `C69_logit_ends`, `C69_logsumexp`.
* **C70 Check of convergence compares the two halves of the trace** — proved. `Numeric` model; finite products and telescoping, `NpF` floats with inf and nan for traces. *all traces (also with infinities and nan) and all eps* Theorems: `C70_compares_halves`, `C70_constant`, `C70_never`, `C70_detects`, `C70_vectors`.
* **C71 The pattern of missing entries is invariant under sampling** — proved. all seven sampling functions; loop invariants. Theorems: `C71_missing_pattern_unchanged`.
* **C72 Thresholds of a qL-AND layer are sampled whenever they are not fixed** — partial. `QL` model; int8 index wrap in `random_choice`; store of assigned functions for C72. *the threshold sampler is assigned only as a side effect of assigning a factor's function (witness: both factors fixed)* Theorems: `C72_factor_samplers`, `QLFcts_assign_ok`, `C72_threshold_sampler_partial`, `C72_both_factors_fixed_wrong`.
* **C73 The number of new columns drawn by the IBP update follows the Indian buffet process** — partial. `IBP` model: all branches of `sample_2d_IBP` with explicit draws; invariants over rows. *the probabilities the code uses are proved for every row of every state; the prior is evaluated at L + k instead of k: right only while no column is left, and for q = 1/2 (witness)* Theorems: `C73_new_columns_partial`, `C73_one_row_partial`, `C73_any_row_partial`, `C73_wrong`.
* **C74 split_tensor_train_test_old hides only observed cells, as many as asked for** — proved. `DataPrep` model; permutations/choices as explicit draws with their contract as hypothesis. *all tensors, all draws* Theorems: `C74_old_split`, `C74_old_split_full`, `C74_missing_data`, `C74_hypotheses_met`.
* **C75 MAX-AND output from posterior means is the expected maximum** — partial. `Output` model: Trace.mean, set_to_map, layer.output with all techniques and its caching, and MAX_AND_product_fuzzy. *true if lambdas are ordered strictly like probability times lambda; false in general (two witnesses). C75_exact says what a cell is for all inputs; without equal products it is at most the expected maximum, and C75_iff says exactly when it is equal* Theorems: `C75_expected_maximum_partial`, `C75_exact`, `C75_at_most`, `C75_at_least`, `C75_iff`, `C75_iff_met`, `C75_wrong_order`, `C75_wrong_ties`, `C49_max_factor_mean_partial`.
* **C76 Inference in a hierarchy of layers samples the joint posterior of all factors** — partial. Log-odds of one entry of the joint posterior split by layer; each sampling function is the systematic sweep with those log-odds (C22, C23), hence invariant; composition over schedules. *any number of layers of two and three factors in any arrangement without a layer on its own factor, any schedule of updates; missing: more than two parents (NotImplemented/ignored), two parents of different models (false, see C23), layers on top of a factor of a three-factor layer (the code fails, see C23_three_factors_fail), factors of two-factor layers with more than 32767 rows, imputed data* Theorems: `C76_hierarchy_posterior_partial`, `C76_example`.
* **C77 Arrays passed to add_matrix stay the caller's** — partial. `Build` model: arrays at addresses, matrices refer to addresses; invariant over histories. *all histories; true unless the array is int8; int8 arrays are negated once per inverting model (witness: two machines on one array)* Theorems: `C77_other_types`, `C77_int8_partial`, `C77_hypotheses_met`, `C77_int8_wrong`.
* **C78 The samples of infer() have the posterior distribution once the state has it** — partial. `infer` with fixed parameters is a run of matrix updates, each with its own independent draws (`Lemmas/HierSteps`, `Lemmas/Fresh`); invariance from C76, the trace from C39. *all hierarchies as in C76 (two- and three-factor layers), burn-in settings, sample indices and update orders; with fixed lambdas annealing has no effect (C44_fixed_lambdas); missing: sampled lambdas, automatic clean-up, the cases missing in C76* Theorems: `C78_samples_stationary_partial`, `C78_mean_unbiased_partial`, `C78_hypotheses_met`.
* **C79 The samples converge to the posterior from any start** — partial. Doeblin: in a finite number of sweeps, whatever their order, every state is reached with probability at least ε; contraction of the distance to the posterior. `C79_mixing_iff`: a sweep that flips everything is always possible, so an entry that is not indifferent at the moment it is met gives a second successor; two sweeps reach exactly the states linked by such changes, an aperiodic chain on each class (`Moves.converges`). Odd data: parity of the number of observed cells for which an entry is relevant. Negation: exact alternation of unobserved rows; states in which every entry met is indifferent (C79_quiet: the patterns of C108, for all data). *geometric convergence, uniformly in the start and the update order, to the posterior given whatever matrices and entries are fixed, if no sampled entry is ever indifferent. With prior 1/2 (the default) entries are indifferent at times; with random orders, as in the code, C79_mixing_iff says exactly when the samples converge. They do for odd data and up to two latent dimensions (C79_odd_partial); they do not for balanced data, whatever the model (C79_balanced), nor for OR-NAND with two or more latent dimensions, whatever the data (C79_or_nand), nor for any other model with enough latent dimensions, whatever the data (C79_quiet: from 3 for OR-XOR and NAND-XOR, from 6 for OR-AND; up to 2 they do for odd data); entries of unobserved rows alternate deterministically for ever (C79_unobserved_actual)* Theorems: `C79_converges_given_partial`, `C79_limit_given_partial`, `C79_converges_partial`, `C79_noTies`, `C79_example`, `C79_given_hypotheses_met`, `C78_hypotheses_met`, `C79_mixing_partial`, `C79_mixing_iff`, `C79_odd_partial`, `C79_balanced`, `C79_or_nand`, `C79_odd_hypotheses_met`, `C79_unobserved_actual`, `C79_wrong`, `C79_quiet`, `C79_quiet_hypotheses_met`.
* **C80 Averages over the samples approach posterior expectations** — partial. Joint law of two samples as a product of two schedules (`runSteps_joint`), covariance bounded geometrically by C79, summed; Chebyshev. With random orders: the chain may be periodic, so the second moment is bounded by solving `f = g - P g` (dimension count: the kernel of `1 - P` is the constants); if configurations are not linked, the indicator of what can be reached is an average that stays at 1. Negation: exact alternation of two unobserved rows. *mean square error at most C/S for any function of the factors, uniformly in start, burn-in and update order, relative to the posterior given whatever matrices and entries are fixed, if no sampled entry is ever indifferent. With random update orders, as in the code, C80_average_iff says exactly when averages converge: if and only if all configurations are linked by changes that matter and changes of all free entries at once (the samples themselves need not converge: C80_one_entry). With the default prior they do for odd data and up to two latent dimensions (C80_odd_partial), they do not for balanced data (C80_balanced) nor for OR-NAND (C80_or_nand) nor for any model with enough latent dimensions, whatever the data (C80_quiet). As stated the property is wrong: a missing cell that every sample predicts to be false (C80_wrong)* Theorems: `C80_average_given_partial`, `C80_mean_square_given_partial`, `C80_consistent_given_partial`, `C80_map_given_partial`, `C80_linked_partial`, `C80_average_iff`, `C80_of_converge`, `C80_linked_mean_partial`, `C80_linked_consistent_partial`, `C80_linked_map_partial`, `C80_odd_partial`, `C80_balanced`, `C80_or_nand`, `C80_one_entry`, `C80_one_entry_met`, `C80_wrong`, `C79_given_hypotheses_met`, `C79_odd_hypotheses_met`, `C79_example`, `C80_quiet`, `C79_quiet_hypotheses_met`.
* **C81 Predictions after inference are probabilities of the shape of the data** — partial. `Mach.olayer` is what output sees of a machine; C47 (legal state and traces after inference), C39 (other traces untouched), then C49 and C51. *C81_built_partial: every layer of every machine that calls have built. The others: with or without annealing; single layer of any of the eight models, two or three factors, anything fixed, all clean-up flags and draws, at least one sample; factor_mean needs two factors or OR-AND; mc raises AttributeError whenever lambda or a factor is fixed (all such machines)* Theorems: `C81_predicts_partial`, `C81_mc`, `C81_mc_wrong`, `C81_hypotheses_met`, `C81_built_partial`, `C81_built_hypotheses_met`.
* **C82 The lists of model families and clans have one representative each** — proved. Family and clan membership are equivalence relations (inversions compose); a representative is given for each of the 36 models; representatives are told apart by evaluation on seven 3 x 3 arrays of factor bits. *both lists, both modes; uniqueness by transitivity and seven small factor arrays that tell the representatives apart* Theorems: `C82_families`, `C82_clans`, `C82_rejects`, `C82_implemented`.
* **C83 factor_density inverts expected_density** — partial. Loop invariant: the best solution so far and its distance; the solver is an argument of the model. *the solver is scipy's: an arbitrary function here; for 34 of the 36 models (as C13). One solution outside [0, 1] makes the function fail with TypeError, even if another is exact* Theorems: `C83_closest_partial`, `C83_inverts_partial`, `C83_wrong`, `C83_unknown_rejected`, `C83_absurd_density`, `C83_hypotheses_met`.
* **C84 Point estimates and MAP predictions follow the model** — proved. Evaluation of `output` through C04 (fast equals general implementation) and C03 (general implementation equals the logical model); majority from C48. *all 36 models, OR-AND-IBP and, for set_to_map, MAX-AND; any number of factors; for qL-AND see C49_qL_wrong* Theorems: `C84_point_estimate`, `C84_factor_map`, `C84_set_to_map`, `C84_set_to_map_max`, `C84_hypotheses_met`.
* **C85 Relevance of latent dimensions is the share of ones they account for** — partial. The loop over samples and dimensions adds up counts of cells; the shares of different dimensions are disjoint sets of ones when parameters differ. *all layers, data and traces, provided the attribute `eigenvals` is set to None by hand: a layer never has it and the call raises AttributeError (C85_wrong); sum at most 1 if the parameters differ, false otherwise (C85_ties_wrong); a second call returns the old value whatever has been sampled since* Theorems: `C85_relevance_partial`, `C85_fractions`, `C85_ties_wrong`, `C85_wrong`, `C85_hypotheses_met`.
* **C86 fix_lbda_iters keeps the parameters fixed for that many sweeps** — partial. Induction over the turns of the first loop of burn_in: it is a sequence of matrix sweeps followed by full sweeps. *all machines and update functions, for fix_lbda_iters up to burn_in_min; a larger value has the same effect as burn_in_min (C86_wrong, for all machines; C86_instance is a run)* Theorems: `C86_fixed_partial`, `C86_wrong`, `C86_instance`.
* **C87 Predictions of a layer are about the model that was asked for** — partial. `canonise_model` rewrites the model by inversions that compose with the logical model (C09); C84, C51 and C52 for the layer as it is stored. *all 36 models; factor_mean is a probability for two factors, or three and a model treated as OR-AND, otherwise the prediction from entries all of whose samples are ones. False without the last clause: for models that invert their data every cell of the output differs from what the model asked for generates (C87_wrong)* Theorems: `C87_point_estimate`, `C87_factor_map`, `C87_factor_mean_partial`, `C87_factor_mean_three`, `C87_mc`, `C87_wrong`, `C87_hypotheses_met`.
* **C88 LOM_predictive returns the share of test cells that the model predicts** — partial. The machine that is built is a single layer in a legal state (C47): inference completes with samples of all factors, the output is evaluated through C87, and the mean over the mask counts cells. *all 36 models, all draws, with and without annealing, two axes or three and OR-AND (C88_three for the others, where an entry counts as one only if all its samples are). An empty mask gives nan; if X and X_train are one int8 array and the model inverts its data, the result is the share of cells predicted wrong (C88_aliased_wrong)* Theorems: `C88_accuracy_partial`, `C88_three`, `C88_no_test_cells`, `C88_aliased_wrong`, `C88_hypotheses_met`.
* **C89 The grid search finds a test set** — partial. The loop returns the first split that succeeds; when that is by C58; the fractions tend to zero. *all tensors and draws, in exact arithmetic: ends if and only if a cell is observed (balanced: a one and a minus-one); a balanced split of fewer than 200 observed cells that fails once holds out nothing* Theorems: `C89_unbalanced`, `C89_balanced`, `C89_forever`, `C89_nothing_held_out`, `C89_hypotheses_met`.
* **C90 The grid search reports every experiment, on the same data** — partial. Induction over the tasks with the number of inversions of the shared array as invariant; every row through C88. *all lists of the 36 models, sizes and draws for two axes. With an int8 tensor the data are the same up to 112 experiments; beyond, experiments are run on data negated once for each inverting model that precedes them in their chunk (C90_shared_data, C90_large_grid_wrong). Without `machines` NameError* Theorems: `C90_table_partial`, `C90_separate_data`, `C90_shared_data`, `C90_large_grid_wrong`, `C90_default_machines`, `C90_hypotheses_met`.
* **C91 The stored dispersion of a sample belongs to the stored factors** — proved. Invariant of the sampling loop of C39: factors are updated before lambda in each sweep, and nothing changes in between before both are stored; the value by C27. *machines with a single layer of the eight generic models, two or three factors, any of them fixed or free, all draws, with and without annealing and clean-ups* Theorems: `C91_lambda_of_sample`, `C91_hypotheses_met`.
* **C92 Averages over samples tell latent dimensions apart** — partial. The involution that swaps two columns in all factors of a layer preserves likelihood and prior; the limits are C80's (fixed orders of updates without ties, or random orders with linked configurations), the two bounds are added. *false: the posterior is invariant under swapping latent dimensions of a layer of which nothing is fixed, so expectations are equal across dimensions, averages get equal with more samples, and set_to_map gives all dimensions one column (and cannot reconstruct, e.g., the identity) with probability 1 - C/S. For hierarchies of any depth; the statements about runs need fixed lambdas and entries that are never exactly indifferent (see C79, C80), the one about set_to_map expectations other than 0* Theorems: `C92_exchangeable`, `C92_equal_means`, `C92_means_agree_partial`, `C92_map_one_column_partial`, `C92_means_agree_linked_partial`, `C92_map_linked_partial`, `C92_linked_met`, `C92_hypotheses_met`, `C92_map_hypotheses_met`.
* **C93 tensorm_reconstruct returns the posterior reconstruction of a tensor** — partial. As C88: a new machine is a single layer in a legal state; the outputs by C52, C53 and C84, written out for OR-AND. *all tensors with three axes and all draws; false about missing cells of tensors that have no minus one: they are taken for zeros of 0/1 coding (C93_missing_wrong, for all tensors). Matrices raise IndexError* Theorems: `C93_reconstruction`, `C93_coding`, `C93_missing_wrong`, `C93_matrices_fail`, `C93_hypotheses_met`.
* **C94 Slices without data have no influence on the rest** — proved. Two runs side by side: a relation between states (corresponding rows of factors equal, lambdas equal) is respected by every update, because scores and counts are sums over observed cells, and decisions during burn-in depend on lambdas only; induction over burn-in and sampling (Lemmas/Simulation.lean, Lemmas/Relabel.lean). *machines with a single layer of the eight generic models whose sampling functions are not assigned yet, two or three axes (int16 scores: up to 32767 rows and columns for two axes), with or without annealing and fixed factors or entries; automatic clean-up switched off (it looks at all rows)* Theorems: `C94_missing_slices`, `C94_hypotheses_met`.
* **C95 The order of rows does not matter** — proved. Two runs side by side: a relation between states (corresponding rows of factors equal, lambdas equal) is respected by every update, because scores and counts are sums over observed cells, and decisions during burn-in depend on lambdas only; induction over burn-in and sampling (Lemmas/Simulation.lean, Lemmas/Relabel.lean). *same machines as C94* Theorems: `C95_row_order`, `C95_hypotheses_met`.
* **C96 The order of axes does not matter** — proved. Two runs side by side: a relation between states (corresponding rows of factors equal, lambdas equal) is respected by every update, because scores and counts are sums over observed cells, and decisions during burn-in depend on lambdas only; induction over burn-in and sampling (Lemmas/Simulation.lean, Lemmas/Relabel.lean). *same machines as C94* Theorems: `C96_axes_order`, `C96_hypotheses_met`.
* **C97 Inference with an OR-AND-IBP layer returns samples of any size** — partial. Invariant of all updates (two binary factors of equal width, every column used after the first factor's update); the sampling loop is followed until a sample does not fit its row; the overflow with draws that give every row two new columns. *false: traces have room for ten columns more than there are after burn-in, while one sweep can add two columns per row, so for 2N > L + 10 there are draws for which infer raises ValueError (C97_overflows). Proved: inference returns exactly if all samples have at most ten more columns than at the end of burn-in, and then samples are as claimed; otherwise ValueError. All draws, with and without annealing, clean-up and fixed factors (if the first factor is sampled, the second is resized even if fixed, see C38)* Theorems: `C97_ibp_infer`, `C97_growth`, `C97_overflows`, `C97_wrong`, `C97_hypotheses_met`.
* **C98 Inference with a MAX-AND layer keeps the model in order** — partial. Health of the environment as for C39/C54 (every update returns and keeps an invariant of the world), then the generic theorem about runs. *proved without annealing and clean-up. With annealing inference raises ValueError as soon as there is a burn-in turn; if clean-up removes a latent dimension, there are too many lambdas afterwards, and the next update takes a stale one for the background* Theorems: `C98_max_infer`, `C98_annealing_raises`, `C98_clean_misaligned`, `C98_stale_background`, `C98_clean_wrong`, `C98_hypotheses_met`, `C98_annealing_met`.
* **C99 Inference with a qL-AND layer keeps thresholds in range** — proved. Health of the environment as for C39/C54 (every update returns and keeps an invariant of the world), then the generic theorem about runs. *machines with a single layer; fixed factors are unchanged unless clean-up is on (see C43). If thresholds are inferred with both factors fixed, and have no sampler yet, infer raises ValueError as soon as there is a burn-in turn* Theorems: `C99_qL_infer`, `C99_both_factors_fixed`, `C99_hypotheses_met`.
* **C100 Rows of an OR-AND-IBP machine choose among shared features with buffet probabilities** — proved. The state at the time of a draw is reconstructed from the state before the row's update and the result; the score is the difference of log likelihoods (C14, C16), prior odds m : N - m or flat. *data with up to 32767 columns (int16 scores, C14)* Theorems: `C100_shared_features`.
* **C101 Entries of features added by the IBP update are drawn given the data** — partial. The state at the time of a draw is reconstructed from the state before the row's update and the result; the score is the difference of log likelihoods (C14, C16), prior odds m : N - m or flat. *proved for a single new feature and for the last of two; the entries of the first of two are drawn as if the second were off, which gives wrong probabilities (C101_wrong, any lambda except 0). Up to 32767 rows (int16 scores)* Theorems: `C101_new_features_partial`, `C101_last_column`, `C101_wrong`, `C101_two_columns`.
* **C102 Machines that are built step by step can be inferred and stay in order** — proved. A machine is whatever sequence of legal calls makes of the empty one (Built, inductive). Invariant Sound (numbering of matrices and layers, shapes, functions assigned earlier fit) by induction over calls; from it, existence of functions for every arrangement (and, by the names of the compiled functions, non-existence for other numbers of factors), and the generic theorem about runs (C39). *generic models (for MAX-AND, qL-AND and OR-AND-IBP layers see C97 to C99); legal calls: settings with a window and a print step of at least one, no zero lambda with annealing, no clean-up of layers with other layers on top, values of the right shape* Theorems: `C102_always_binary`, `C102_infer_iff`, `C102_after_infer`, `C102_hypotheses_met`, `C102_not_ready`, `C102_fixed_switch`, `C102_lbda_switch`, `C102_switch_hypotheses_met`.
* **C103 Layers that are put on a factor after an inference take part in later ones** — partial. What is there is never moved (Extends, by induction over later calls), the assigned function stays, and it reads only as many layers on top as there were when it was made (family_prefix). *false: the sampling function is made at the first inference and kept (matrix_update_wrappers.py:19-21), so a layer that is put on a factor later is ignored in all its updates, for all machines and values (C103_after_inference). What holds: layers that are there at the first inference take part (C103_layers_before_partial, C23, C76)* Theorems: `C103_later_layers_ignored`, `C103_after_inference`, `C103_hypotheses_met`, `C103_layers_before_partial`.
* **C104 Machines that are built step by step sample from the posterior of the model that was built** — partial. Inference commutes with renumbering the matrices (infer_ren, through burn-in, annealing, clean-up and tracing). Numbering the factors first turns a machine that calls have built into the hierarchy of C76 (Describes; existence in Lemmas/DescribeExists), so C78 to C80 carry over, including the exact criteria for random update orders (renOrders: orders of the renumbered matrices). *every proper machine that calls have built stands for a hierarchy (C104_described), in every state of it (C104_start_built). Partial: layers have two or three factors, at most two layers (of one model) are on a factor, none on factors of tensor layers, no annealing (which has no effect here, C44_fixed_lambdas) or clean-up; first or later calls of infer (C104_again; priors or layers changed in between: C45, C103); convergence for all orders of updates if no free entry is ever indifferent (C104_noTies: a sufficient condition); with random orders, as in the code, C104_samples_iff and C104_averages_iff say exactly when samples and averages converge. With the default prior they do for odd data and up to two latent dimensions (C104_odd_partial) and do not for balanced data or OR-NAND (C104_balanced, C104_or_nand) or any model with enough latent dimensions (C104_quiet), for all machines of this kind* Theorems: `C104_described`, `C104_start_built`, `C104_stationary_partial`, `C104_converges_partial`, `C104_average_partial`, `C104_noTies`, `C104_hypotheses_met`, `C104_again`, `C104_again_hypotheses_met`, `C104_samples_iff`, `C104_averages_iff`, `C104_odd_partial`, `C104_balanced`, `C104_or_nand`, `C104_plain_met`, `C104_odd_met`, `C104_balanced_met`, `C104_quiet`.
* **C105 Lambda without pseudo-counts** — proved. Case distinction on the counts after C26. *C27 is the case of positive pseudo-counts. Division and log of numpy scalars (np.prod gives one), which warn and return inf or nan where Python raises* Theorems: `C105_lambda_2d`, `C105_lambda_3d`, `C105_lambda_qL`, `C105_hypotheses_met`.
* **C106 Factors that are fixed at a value contribute that value to predictions** — partial. C102 (values and traces after inference) and C39 (inference leaves the traces of fixed matrices alone); for mc, the sum over samples fails at the first index beyond the shorter trace. *false: inference does not remove the samples of a factor that has been fixed since (machine.py:148-153, 693-729), so its mean stays that of the old samples whatever its value is (C106_mean_of_old_samples); for every machine there are values for which predictions use the opposite in every entry (C106_wrong); mc raises if the new run is longer (C106_mc_raises). Proved for factors that have not been sampled before they are fixed; layers without clean-up* Theorems: `C106_mean_of_old_samples`, `C106_wrong`, `C106_mc_raises`, `C106_fixed_before_partial`, `C106_hypotheses_met`.
* **C107 Inference gets away from factors that predict no better than chance** — partial. With log-odds 0 a sweep negates every free entry (induction over the entries), so burn-in preserves 'the starting factors up to signs, and lambda 0' (the lambda update gives 0 by C27 and the hypothesis), and sampling alternates the sign (induction over sweeps on top of C39). For other starting values of lambda: scores are bounded by the number of observed cells, so small draws flip every entry in the first sweep (induction over entries and factors); an invariant of whole sweeps (induction over both loops of burn-in) gives the rest. For every data set: factors with equal rows that predict the rarer value everywhere, also with all signs changed; the measure of the small draws is a product. *false: with lambda 0 and prior 1/2 every log-odds is 0, at which flip_metropolised_gibbs_numba (matrix_updates_numba.py:18-35) flips without looking at the draw; if the mirrored factors also predict at most half of the cells, lambda is set to 0 again. Then all samples are the starting factors with alternating sign whatever is drawn (C107_stuck), and for even numbers of samples all means are 0 and all MAP estimates -1 (C107_stuck_mean); the witness is data that factors of the same size predict exactly. It is not a matter of starting with lambda 0: from any lambda, if all draws of the first sweep are below a positive threshold and the starting factors and their mirror image are at chance level, the rest of the run is stuck (C107_gets_stuck); and such starting factors exist for every data set (C107_every_data_2d, _3d: six of the eight models with two factors, four with three; see C108 for the NAND models). So with default settings, for every data matrix inference learns nothing with positive probability (C107_default_probability). What holds: the lambda of a sample is 0 only if that sample is at chance level (C107_lambda_zero_partial)* Theorems: `C107_stuck`, `C107_stuck_mean`, `C107_gets_stuck`, `C107_every_data_2d`, `C107_every_data_3d`, `C107_default_start`, `C107_default_probability`, `C107_lambda_zero_partial`, `C107_hypotheses_met`, `C107_every_data_met`.
* **C108 What inference learns depends on the data, whatever the model** — partial. If all rows of the siblings have enough entries -1, predictions are constant in the entry (twiceScore2_nand, twiceScore3_nand), so a sweep negates every free entry (induction over the entries); the hypothesis is invariant under the sign, so burn-in and sampling preserve it (induction over sweeps on top of C39). Random starts by a union bound over rows. In general (C108_unheard): an entry is met when earlier entries of its row are negated and later ones are not, other factors as a whole with either sign; if no such change of an entry changes a prediction, a sweep negates everything. Random starts of all models: an entry has no effect if two other latent dimensions are active; union bound over cells, entries and signs, each row tuple counted as a product over latent dimensions (card_restricted). Patterns for all models, repeated in all rows, found by search and checked in the kernel (Lemmas/Patterns: the position of the entry is reduced to the dimensions of the pattern and one beyond). *false for OR-NAND and XOR-NAND: if every row of every factor has one (XOR-NAND: two) entries of either sign, no single entry changes a prediction, so all log-odds are 0 and all entries flip in every sweep, whatever data, lambda and draws (C108_stuck). For OR-NAND random starting values are of this kind with probability at least 1 - (N + D) / 2^(L-1) (C108_random_start). For every model, of two or three factors, and enough latent dimensions (OR-AND 6, XOR-AND 10, others 5 or fewer; three factors: up to 23) there are starting values with which inference sees nothing of any data (C108_every_data_2d, C108_every_data_3d; C108_every_data_default with all default settings); the general condition on starting values, checkable by one pass, is that of C108_unheard. Random starting values (the default) are of this kind with probability at least 1 - 128/9 N D L^2 (3/4)^L for every model with two factors, 1 - 1536/49 N D M L^2 (7/8)^L with three (C108_random_default_2d, C108_random_default_3d as fractions of all matrices, C108_random_draws_2d, C108_random_draws_3d as probabilities of the draws that set the initial values), which tends to 1 with growing L (C108_random_limit). What holds: with an odd number of observed cells in every row and column and up to two latent dimensions all models converge to their posterior (C79_odd_partial)* Theorems: `C108_stuck`, `C108_stuck_mean`, `C108_constant`, `C108_random_start`, `C108_hypotheses_met`, `C108_bothSigns_met`, `C79_odd_partial`, `C108_unheard`, `C108_unheard_mean`, `C108_every_data_2d`, `C108_every_data_3d`, `C108_every_data_default`, `C108_every_data_3d_met`, `C108_random_start_2d`, `C108_random_start_3d`, `C108_random_default_2d`, `C108_random_default_3d`, `C108_random_limit`, `C108_random_example`, `C108_initial_values`, `C108_random_draws_2d`, `C108_random_draws_3d`.
* **C109 Matrices start from random values of the requested density** — partial. The initial value is modelled with its exceptions (Init); the set of draws that give a matrix is a box, whose measure is a product. The bounds of C108 are then sums over the matrices concerned. *false with a float: lines 218-219 (and 535 in add_matrix) ask for the shape (dtype) of every value before the float is recognised in line 225, which Python floats do not have, so an AttributeError is raised for every density (C109_density_wrong) and line 226, which would do what is claimed (C109_density_unreached), is never reached. What holds: without value all matrices are equally likely (C109_random_partial), with an array the matrix starts there (C109_given)* Theorems: `C109_random_partial`, `C109_given`, `C109_density_wrong`, `C109_density_unreached`, `C109_met`.
* **C110 Noisy predictions are posterior predictive probabilities** — partial. C51 (mc as a fraction) and the formula for the noise (C49), regrouped over samples; Jensen's inequality for the sigmoid, whose derivative is strictly decreasing on the positive half-line. *false: the code applies the sigmoid to the mean of the lambdas (machine.py:440-442) instead of averaging sigmoids. All 36 models and OR-AND-IBP, any number of factors and samples: C110_returns says what is returned, C110_iff exactly when it is the predictive probability of a cell; it is if lambda is the same in all samples. Where all samples predict the same and two lambdas differ, the probability of that value is always too large (C110_overconfident, strict concavity of the sigmoid)* Theorems: `C110_returns`, `C110_same_lambda_partial`, `C110_iff`, `C110_overconfident`, `C110_hypotheses_met`.
* **C111 Predictions from posterior means agree with predictions from samples** — partial. C51 and C52/C53: both sides as sums over the values of the entries of a cell; equal term by term under independence. *factor_mean treats entries as independent: equal to mc for every cell whose entries are independent among the samples, in particular for one sample or equal samples; false otherwise, for each of the eight models (C111_wrong: two samples in which two entries agree). Two factors, or three for OR-AND (other models with three factors: C49)* Theorems: `C111_independent_partial`, `C111_same_partial`, `C111_wrong`, `C111_hypotheses_met`.
* **C112 The stored lambdas are samples from the posterior of lambda** — partial. From C91: all stored lambdas are in a finite set; the posterior (a measure on the sigmoid of lambda, defined by Bayes' formula in the same file) is absolutely continuous with respect to the prior. The posterior is shown to exist. *false: lambda is not drawn but set to the maximiser given the factors (lambda_updates_numba.py, C27, C28), so with n observed cells it is one of n + 1 numbers that are known before inference (C112_values_partial), a set that has posterior probability zero for every prior without atoms, whatever the distributions of start, draws and orders (C112_wrong). Single layers of the eight generic models, with or without annealing and clean-up* Theorems: `C112_values_partial`, `C112_wrong`, `C112_posterior_exists`, `C112_hypotheses_met`.
* **C113 Predictions and counts do not depend on the number of threads** — proved. Threads are lists of cells; an execution is any list of evaluations and stores whose restriction to each thread is that thread's program (`Model/ParallelLoops.lean`). Counters: induction on the restriction to a thread; outputs: the value a thread is about to store is that of its cell, an invariant of all executions. *evaluation and store are separate steps; that `count += 1` in a parallel loop is a reduction (a counter per thread, added up in the end) is numba's documented behaviour and trusted; the samplers' loops are C21* Theorems: `C113_count_2d`, `C113_count_3d`, `C113_count_qL`, `C113_output_2d`, `C113_output_3d`, `C113_fuzzy_2d`, `C113_fuzzy_3d`, `C113_fuzzy_max`, `C113_hypotheses_met`.
* **C114 Automatic clean-up keeps a hierarchy consistent** — partial. A relation that all steps of an inference respect: numbers of rows never change, shapes only in layers with clean-up; with the invariant of machines that are built by calls (C102) the rest is comparison of shapes. The witness is a run of a concrete machine. *false: clean-up removes latent dimensions of a factor (machine.py:635-640, 656-658), nothing adapts the layers on top of it; they fit afterwards exactly if no dimension has been removed (C114_fits_iff, all machines). C114_wrong: a machine of two layers; C114_reads_outside: the next update of the factor on top depends on memory outside of the array below. What holds: layers whose matrix below is not a factor of a layer with clean-up always fit (C114_fits_partial)* Theorems: `C114_fits_partial`, `C114_fits_iff`, `C114_wrong`, `C114_reads_outside`, `C114_hypotheses_met`.
* **C115 Every model can be part of a machine of several layers** — partial. Relational invariant: two runs with the same draws that agree on one layer keep agreeing on it, by induction on the schedule; each sampling function is shown to read and write only its own layer. Rejections: evaluation of the dispatch for symbolic models, then induction on the assignments at the beginning of infer. *false: factors of qL-AND and OR-AND-IBP layers get the same sampling function with and without layers on top (matrix_update_wrappers.py:61-138), and in any schedule of updates nothing in the layers on top has an effect on them (C115_unheard). Rejected by infer: layers on top of MAX-AND factors, and MAX-AND, qL-AND, OR-AND-IBP layers on top of the eight sampled models (C115_max_and_partial, C115_special_above_partial); the eight models among themselves are C23 and C76* Theorems: `C115_unheard`, `C115_parents_ignored`, `C115_max_and_rejects`, `C115_special_above_rejects`, `C115_max_and_partial`, `C115_special_above_partial`, `C115_hypotheses_met`, `C115_rejected_met`.
* **C116 Names that are not models are rejected everywhere** — proved. Case distinction on the result: if a name is split into two operator names that are found, it is their concatenation, so one of the 36; the exceptions follow the chains of comparisons branch by branch. *without factors generating data raises IndexError (C116_no_factors); TypeErrors of Python and typing errors of numba are one kind of error in the model* Theorems: `C116_generate`, `C116_no_factors`, `C116_add_layer`, `C116_density`, `C116_outputs`, `C116_lambda`, `C116_sampling`.
* **C117 Layers on top of an OR-AND-IBP layer keep fitting the matrix below** — partial. Draws under which every row adds two columns (C97_growth), and evaluation of one update of a machine with symbolic state; shapes: induction on the sequence of updates, each of which is a sweep that keeps the shape (C20). *false: nothing adapts the layer on top when columns are added or removed below; for every state with fewer than 2N latent dimensions there are draws for which one update of the first factor leaves the layer on top unfit (C117_wrong), and its lambda then depends on memory outside of its factor (C117_reads_outside). What holds: as long as the first factor of the OR-AND-IBP layer is fixed, no matrix changes its shape (C117_shapes_partial)* Theorems: `C117_wrong`, `C117_assigned`, `C117_shapes_partial`, `C117_second_plain`, `C117_reads_outside`, `C117_hypotheses_met`.
* **C118 A layer can be added by giving its shape** — partial. The canonical form of the 36 names inverts data exactly for the outer operators AND, NOR and NXOR (case distinction on both operators); the rest is evaluation of add_layer with symbolic machine, shape and values. *false: the 18 models with outer operator AND, NOR or NXOR raise AttributeError, since canonise_model inverts the values of the child, which is None (auxiliary_functions.py:941, 951; machine.py:498): C118_wrong. The other 18 (C118_shape_partial), MAX-AND, OR-AND-IBP and qL-AND with two axes or more (C118_special) work as stated* Theorems: `C118_wrong`, `C118_shape_partial`, `C118_special`, `C118_no_shape`.
* **C119 Arguments that cannot be served are reported** — partial. Evaluation of the model up to the exception, for symbolic arguments; burn-in by cases on the number of turns of the first loop, annealing and noise by induction on the parameters and cells before the offending one. *false for qL-AND layers, which ignore the technique (C119_technique_ignored); all other calls of the statement raise. Biased noise: shown if the first entry other than zero is not 1 or -1; later ones are treated with the probability of the entry before* Theorems: `C119_print_step`, `C119_infer_print_step`, `C119_infer_never`, `C119_window`, `C119_anneal`, `C119_anneal_zero`, `C119_anneal_zero_met`, `C119_technique`, `C119_technique_ignored`, `C119_axes`, `C119_noise`, `C119_mask`.
* **C120 Plots of a factor show probabilities** — partial. The array handed to matplotlib as a function of the mean of the trace (`Model/Plot.lean`); sums of signs are counts of ones, then linear arithmetic on the shares of ones. *false for means: plot_matrix rescales only if some entry is negative (auxiliary_functions.py:200-202), so a factor whose entries are all 1 in at least half of the samples is shown with twice the share minus one; the shares are shown exactly if some share is below one half or all are one (C120_mean_iff). False for 'map': the threshold .5 (machine.py:250) is applied to means between -1 and 1, so an entry is shown as one only if it is 1 in more than three quarters of the samples (C120_map, C120_map_iff). 'state' is as stated (C120_state)* Theorems: `C120_state`, `C120_mean`, `C120_mean_iff`, `C120_mean_wrong`, `C120_map`, `C120_map_iff`, `C120_map_wrong`, `C120_technique`, `plotFac_sampled`.
* **C121 Intersecting two data frames** — partial. Frames are lists of labelled rows (`Model/Frames.lean`), the traversal of a set is any list of its elements. Sorted lists with the same members are equal; selection of columns by positions is a map along the labels (induction). *false: the call never returns, it ends with a NameError on `mut` (auxiliary_functions.py:611). What holds: the two frames computed before that line have the stated labels and entries (C121_labels_partial, C121_entries_partial); with repeated labels ValueError may be raised (C121_repeated)* Theorems: `C121_never`, `C121_wrong`, `C121_labels_partial`, `C121_entries_partial`, `C121_repeated`.
* **C122 Models that say the same give the same inference** — proved. The canonical table gives each model a canonical one that matches it up to inversions; matching is an equivalence, and truth tables on three by three entries tell the eight canonical models and their complements apart. So matching models have one canonical model and inversions of data that differ as they should; data inverted twice are the same, so both calls of add_layer end in the same state. Conversely the state shows canonical model and data. *the formulas are compared on all families of propositions; entries outside of the shape of the data, which have no meaning, are taken to be -1, 0 or 1, too. What is the same is the machine: predictions are those of the common canonical model (C87)* Theorems: `C122_same`, `C122_only`, `C122_inference`, `C122_met`.
* **C123 Wrappers for whole analyses return their results** — partial. The statements before the undefined name are modelled, with the split of C57; both outcomes of every step end in an exception. *false: none of the functions ever returns (C123_never). The first two end with a NameError on `maxmachine` (auxiliary_functions.py:304, 394; C123_wrong), or with ValueError if there is no test set (C123_too_few), the third with a NameError on `maxmachine_relevance` (254), the last with a TypeError on the argument sampling_indicator (experiments.py:138). There is nothing to prove of the rest of the claim* Theorems: `C123_never`, `C123_wrong`, `C123_too_few`, `C123_met`.
* **C124 Unrelated layers do not influence each other** — partial. The extended machine has the old part as a prefix of its layers and numbers (induction on the actions). Two folds over lists with the same common elements keep a relation that the other elements do not touch; applied to assignment of functions, sweeps of matrices and sweeps of lambdas. Burn-in is a number of sweeps (C39, C107), so equal clocks give equal states of the part. Witness: lambda fixed at 0, where each sweep flips all signs, and a window that cannot converge. *false: burn-in ends when the lambdas of all layers have converged (machine.py:622-628), so a layer added aside changes the number of sweeps of the others; C124_joint_convergence: with the same draws all entries of the old factors have the opposite sign afterwards. What holds: if the two calls make the same number of sweeps, everything in the old part is the same (C124_unrelated_partial), in particular if burn_in_max is at most burn_in_min (C124_fixed_burn_in). Not covered: annealing, fix_lbda_iters, automatic clean-up* Theorems: `C124_unrelated_partial`, `C124_fixed_burn_in`, `C124_joint_convergence`, `C124_hypotheses_met`.
* **C125 Inference can be continued** — proved. Burn-in and sampling are sweeps from the state before (C39, C107); sweeps are a function of the state, so two sequences of sweeps with the same start and length end in the same state. The second call finds all sampling functions assigned and assigns none; layers, fixed and lists of free matrices and lambdas stay. *draws are indexed by the number of sweeps made, so the second call takes the random numbers that follow those of the first. Not covered: annealing (a second call would anneal again), fix_lbda_iters, automatic clean-up (which acts in burn-in only)* Theorems: `C125_continue`, `C125_in_two_calls`, `C125_hypotheses_met`.
* **C126 Settings of burn-in and printing only choose which states are kept** — proved. All samples of a call lie on the sequence of sweeps from the state before, by the number of the sweep; that sequence is unique. For print_step the two computations are compared statement by statement (induction on the loops). *for annealing, where burn_in_min decides the steps, and for fix_lbda_iters and automatic clean-up the first part is not claimed* Theorems: `C126_one_path`, `C126_print_step`, `C125_hypotheses_met`.
* **C127 Binary data may be given as zeros and ones** — partial. Every model predicts one (and minus one) from some pair of rows; with these rows all likelihoods of cells are largest, and the two likelihoods are compared cell by cell. The scores are those of C14. Recoding is C60. *false: a zero is a missing cell (machine.py:533-542 does not recode). For every model and any 0/1 data with a zero the likelihood of the array in the machine is not that of the data meant, up to a constant (C127_wrong); factors that predict one everywhere have the largest likelihood (C127_flat), for OR-AND no score is negative (C127_or_and_score), so every free entry at -1 turns to 1 in the next sweep (C127_or_and_sweep), and the scores differ by the part of the zeros (C127_score_difference). What holds: data that went through check_binary_coding is the data meant (C127_recoded_partial)* Theorems: `C127_recoded_partial`, `C127_wrong`, `C127_flat`, `C127_not_proportional`, `C127_score_difference`, `C127_or_and_score`, `C127_or_and_sweep`, `C127_recoded_3d_partial`, `C127_wrong_3d`, `C127_flat_3d`, `C127_hypotheses_met`.
* **C128 An array given as fixed holds the marked entries** — partial. The attribute is a flag or an array; its truth value in machine.py:686 is modelled, with the error of numpy for several entries. Induction on the list of matrices. *false: MachineMatrix accepts an array of the right shape (machine.py:231-235, C128_creation), but infer always ends with a ValueError if it has two or more entries (machine.py:686, C128_wrong). What holds: with flags and arrays of at most one entry the matrix is held or sampled as a whole (C128_one_entry_partial). Single entries can be held by the attribute fixed_entries (C20)* Theorems: `C128_one_entry_partial`, `C128_wrong`, `C128_creation`, `C128_hypotheses_met`.
* **C129 Priors of zero and one decide a factor, other numbers are reported** — partial. Logits are float64 with infinities and nan; comparisons and exp follow IEEE. The loops over entries are one fold (as in C20); each flip is a function of the old value only, by induction so is the sweep. Between 0 and 1 the loops are those of the model of C16-C23. *false as to the last sentence: outside of [0, 1] the logit is nan, all comparisons fail and no entry ever changes, without any exception (C129_wrong; matrix_updates_numba.py:24-35). The other parts are proved (C129_zero, C129_one, C129_inside_partial). Lambdas are finite; scipy.special.logit is taken to be -inf at 0, inf at 1 and nan outside* Theorems: `C129_zero`, `C129_one`, `C129_inside_partial`, `C129_wrong`, `C129_hypotheses_met`.
* **C130 random_machine_matrix has the density asked for** — proved. Each entry depends on its own uniform draw; the sets of draws that give 1 or -1 are intervals, so the measure of the draws that give a matrix is a product. *numpy's binomial with n = 1 is modelled by its inversion of one uniform draw per entry, over the reals (numpy is not part of /repo)* Theorems: `C130_density`, `C130_values`, `C130_extremes`, `C130_hypotheses_met`.
* **C131 Data without noise are explained best by the factors they come from, and inference holds on to them** — proved. Every cell has its largest likelihood if it is predicted. The score of an entry counts, with its sign, the observed cells it decides (C14); if it decides none, the flipped factor predicts the same. Invariant over the entries of a sweep and over sweeps; probability by monotonicity of the measure of draws. *the data after canonise_model are reproduced by the (inverted) factors; the other theorems are about data that are reproduced by factors. Two factors up to 32767 rows and columns (int16 scores, C14). Exact flip probabilities: two factors and the default prior. One layer without parents; lambda fixed during the sweeps (its update gives the same value as long as all cells are predicted, C131_lambda_2d)* Theorems: `C131_generated_2d`, `C131_generated_3d`, `C131_best_2d`, `C131_best_3d`, `C131_lambda_2d`, `C131_lambda_3d`, `C131_flip_2d`, `C131_sweep_2d`, `C131_sweep_3d`, `C131_stay_2d`, `C131_stay_3d`, `C131_sweeps_2d`, `C131_hypotheses_met`.
* **C132 More latent dimensions never make the best fit worse** — proved. The new entries are chosen such that the inner operator gives the neutral value of the outer one, which every inner operator can; induction on the number of dimensions for the likelihoods. *generated data: any number of factors and all 36 models; likelihoods: the eight models that layers have, two and three factors. That the sampler finds such factors is not claimed* Theorems: `C132_one_more`, `C132_best_2d`, `C132_best_3d`, `C132_hypotheses_met`.
* **C133 Automatic clean-up does not change what a layer predicts, whatever its model** — partial. Witness layers of one row per factor, on which the loops of clean_up_codes are unrolled; invariant of the loops (after a reset some dimension is off in all factors) for the general statements. *false for each of the seven models other than OR-AND, for both settings (C133_wrong): burn_in calls clean_up_codes whatever the model (machine.py:635-640), and a dimension that is off in one factor is not neutral there. An OR-NAND layer with a reset dimension predicts one everywhere (C133_or_nand_reset). What holds: OR-AND, if dimensions that coincide in one factor coincide in all (C133_or_and_partial)* Theorems: `C133_or_and_partial`, `C133_wrong`, `C133_or_nand_reset`, `C133_xor_reset`, `C133_hypotheses_met`.
* **C134 With enough latent dimensions a model reproduces any binary matrix** — partial. A unit matrix as one factor and the data as the other (any number of factors: one latent dimension per cell). For the other models: equal codes where the zeros of the matrix are (OR models), at most two common neighbours of two codes at distance one (XOR-XOR, XOR-NXOR), at most one entry off (XOR-NAND); lifted to 36 models by inverting data and factors. *true for twelve of the 36 models, with as many dimensions as rows or columns (sharp for OR-AND: C134_unit_matrix), and for arrays of any number of dimensions (C134_every_array_partial); for the other 24 models there is a binary matrix of four rows and columns that no number of latent dimensions makes (C134_wrong, two factors)* Theorems: `C134_every_matrix_partial`, `C134_every_array_partial`, `C134_unit_matrix`, `C134_wrong`, `C134_hypotheses_met`.
* **C135 dbtf_reconstruct returns the factors that dbtf found and their product** — partial. The files are arbitrary lists of pairs of integers; induction on the list for the entries set and for the rejected ones, C65 for the product. *false if a file has exactly one line: np.loadtxt then returns a one-dimensional array, whose elements cannot be unpacked (experiments.py:80-88, C135_wrong). True otherwise. The program, its directory and the operating system are not modelled; the files are arguments* Theorems: `C135_result_partial`, `C135_input`, `C135_rejects`, `C135_wrong`, `C135_hypotheses_met`.
* **C136 The averages over the samples of a two-factor model with an inner XOR carry no information on its factors** — proved. The mirror image is an involution of the states that leaves every prediction (XOR of two bits both turned over) and the prior 1/2 as they are; summing an odd function over it gives 0; C80 for the averages, C52 for the output. *fixed strengths; convergence under the condition of C79/C80 (all states can be reached). For contrast: expectations that are not 0 for OR-AND (C92_map_hypotheses_met)* Theorems: `C136_mirror`, `C136_mean_zero`, `C136_averages_vanish`, `C136_flat_output`, `C136_hypotheses_met`.
* **C137 Predictions from averages over many samples are posterior predictive probabilities** — partial. Continuity of the fuzzy output in the means, the rate of C80 for each mean involved, a union bound over the entries of the two rows; the single cell by counting states in pairs that differ in one entry. *false: the limit takes entries for independent (machine.py:417-422). What holds: the output approaches lomProb of the posterior probabilities of the entries, with probability of a deviation of at most C/S (C137_limit_partial, two sampled factors, fixed lambdas, conditions of C80). C137_wrong: a single cell, where the limit is 1/2 and the posterior predictive probability is sigmoid(1)* Theorems: `C137_limit_partial`, `C137_inner_xor`, `C137_wrong`, `C137_hypotheses_met`.
* **C138 Observations with the same data are described alike** — proved. Exchanging the two rows of the factor is an involution of the states; likelihood and prior are products over rows, which are merely reordered; C80 for both averages and a union bound. *layers of the eight generic models with fixed strengths; averages where the configurations are linked (C80_average_iff says exactly when): rate C/(S delta^2), random orders and draws as in the code.* Theorems: `C138_exchange`, `C138_same_mean`, `C138_same_predictive`, `C138_same_predictive_three`, `C138_three_hypotheses_met`, `C138_averages_meet`, `C138_hypotheses_met`.
* **C139 Predictions from most frequent entries are the more probable predictions** — partial. The rate of C80 for each mean involved, at a distance equal to the mean itself (a closer mean has the same sign), and a union bound over the entries of the two rows; the witness by summing over its four states. *false: entries are set to their more probable values one by one (machine.py:411-415). What holds: except with probability C/S the output is what the layer predicts from the more probable value of every entry (C139_limit_partial; C139_any_layer_partial for two or three factors), under the conditions of C80. Witness: one cell with a one, OR-AND with one latent dimension, strength 1, default prior; both entries are more likely on, so the output approaches 1, but a zero is the more probable prediction (C139_wrong), and the conditions of the limit theorem hold there (C139_hypotheses_met)* Theorems: `C139_limit_partial`, `C139_any_layer_partial`, `C139_wrong`, `C139_hypotheses_met`.
* **C140 Both factors describe symmetric data alike** — proved. Exchanging the two factors is an involution of the states; the likelihood of a symmetric matrix does not change because every model is symmetric in its factors (pred2_comm); C80 for both averages and a union bound. *layers of the eight generic models with fixed strengths; averages where the configurations are linked (C80_average_iff says exactly when): rate C/(S delta^2), random orders and draws as in the code* Theorems: `C140_exchange`, `C140_same_factors`, `C140_averages_meet`, `C140_hypotheses_met`.
* **C141 Some models differ in the sign of a factor only** — proved. Inverting u is a bijection between the states of both hierarchies; XOR of z and -u is NXOR of z and u, which turns the outer OR into NAND; C01 for the output functions, C80 for the averages. *C141_outputs is about the output functions of the code, C141_averages about runs of infer with fixed strengths (configurations linked, C80_average_iff says exactly when); the rest about the posterior that the sampler of the code has as its limit (C79). Only layers of two factors: with three, XOR is 'exactly one' and no choice of factors to invert exchanges the models (C141_three_wrong)* Theorems: `C141_predictions`, `C141_outputs`, `C141_same_evidence`, `C141_plain`, `C141_same_posterior`, `C141_same_predictive`, `C141_averages`, `C141_hypotheses_met`, `C141_three_wrong`.
* **C142 A layer with a large strength looks for the best fit** — proved. The joint probability is a constant times exp(lambda) to the number of predicted cells (prod_cellLik), so each state that is no best fit has at most exp(-lambda) of the probability of a best one; C80 for the share of samples. *C142_samples is about runs of infer with a fixed strength where the configurations are linked (C80_average_iff says exactly when); its constant C depends on the machine, and so on the strength: nothing is said on how long a run has to be. Number of states 2^(entries of the factors)* Theorems: `C142_posterior`, `C142_samples`, `C142_hypotheses_met`, `C142_any_prior`, `C142_best_exists`, `C142_any_prior_samples`, `C142_any_prior_hypotheses_met`, `C142_perfect`, `C142_reproduced`, `C142_reproduced_hypotheses_met`.
* **C143 Observing a cell multiplies the odds of its prediction by a fixed amount** — proved. The joint probability with the cell is the one without it times the likelihood of the cell, which depends on the prediction in that cell only (joint_setCell); hence the masses of the states that predict 1 and 0 there are scaled by sigmoid(lambda) and sigmoid(-lambda); C80 for the share of samples. *C143_samples is about runs of infer with fixed strengths where the configurations are linked (C80_average_iff says exactly when): rate C/(S delta^2), random orders and draws as in the code* Theorems: `C143_odds`, `C143_surer`, `C143_evidence`, `C143_samples`, `C143_odds_three`, `C143_samples_three`, `C143_hypotheses_met`, `C143_three_hypotheses_met`.

## Disagreements between the code and the stated properties

Each is proved (negation on the model, with a concrete witness or for all inputs of a class):

* C07: False for MAX_AND_product_2d: it returns the smallest active lambda (proved for all inputs, with a witness that this is not the largest); the claim is proved when all active dimensions share one lambda. maxmachine_forward_pass does return the largest. (`C07_actual_minimum`, `C07_not_maximum`)
* C08: exact while the count fits int8; C08_overflow refutes the unrestricted claim (128 active dimensions give -128) (`C08_overflow`)
* C11: holds when at most one inverting layer is attached per data matrix and no call fails; two inverting layers on one child undo each other (witness), and a failing call can leave the data inverted (witness) (`C11_actual_orientation`, `C11_shared_child_wrong`, `C11_failure_inverts`)
* C13: 34 of 36 models for all L, K, f; XOR-XOR and NXOR-XOR are wrong exactly for three or more factors, two or more dimensions and a density strictly between 0 and 1 (C13_iff); XOR-XOR is then too small (`C13_iff`, `C13_xor_xor_wrong`)
* C14: exact up to 32767 columns; C14_int16_overflow refutes the unrestricted claim (int16 return type) (`C14_int16_overflow`)
* C16: two-factor part up to 32767 columns; false beyond that (C16_wrong: with 32768 columns the logit has the wrong sign) (`C16_wrong`)
* C19: two-factor part up to 32767 rows and columns; false beyond that (C19_wrong: with 32768 columns the posterior is not preserved); three-factor part complete (`C19_wrong`)
* C22: two-factor part up to 32767 rows and columns; false beyond that (C22_wrong: int16 score) (`C22_wrong`)
* C23: false for two parents with different models (C23_two_parents_wrong: both use the second model) and for three-factor children (C23_three_factors_fail) (`C23_nochild_twoparents_actual`, `C23_two_parents_wrong`, `C23_onechild_twoparents_actual`, `C23_three_factors_fail`)
* C24: the claim is false: a third parent is silently ignored; what is rejected is C24_rejects_partial (`C24_extra_parents_ignored`, `C24_not_rejected`)
* C25: exact characterisation; true for two-dimensional data and OUTER-INNER models on three-dimensional data; false otherwise (witnesses): special models on 3-dimensional data and 1- or 4-dimensional data are accepted but cannot be inferred (`C25_assignable_iff`, `C25_wrong`)
* C30: Exactness, antisymmetry and diagonal proved. The table reflects the current lambdas after any sequence of sampler updates; false after an assignment by the user (witness). (`C30_stale_after_assignment`)
* C31: False as stated: the score is truncated to an integer and mixes up columns and ranks (witnesses). Proved up to truncation for dimensions whose rank equals their column, and for the whole update of a factor if columns are sorted by lambda. (`C31_truncated`, `C31_wrong_column`)
* C32: scores are right; the code ignores lambda, the prior and fixed entries, so the law is the conditional only for lambda = 1, a uniform prior and nothing fixed (witnesses) (`C32_lambda_ignored`, `C32_fixed_ignored`)
* C33: thresholds stay in 1..5; the law is the conditional only for columns of ones, the code never reads the data (witness) (`C33_wrong`)
* C34: up to 127 entries; the index is an int8 and wraps around beyond (witness) (`C34_overflow`)
* C37: true for the default prior 1/2 only: the code uses q^k where (1-q)^k is needed (equivalence proved) (`C37_swapped`, `C37_iff`)
* C38: holds if the first factor is fixed; a fixed second factor and fixed entries of the first are overwritten (witness) (`C38_wrong`)
* C41: independent of all fresh memory but the last row of the first window, which is read before it is ever written (witness) (`C41_wrong`, `C41_window_one`)
* C42: right if burn-in converged; at the limit the pre-burn-in sweeps are left out (for all machines with burn_in_min > 0) (`C42_wrong`, `C42_wrong_met`)
* C43: true unless a layer with auto_clean or auto_reset has a fixed factor: clean-up removes its columns, too (witness) (`C43_wrong`)
* C44: fixed lambdas: annealing has no effect at all (C44_fixed_lambdas); equal steps proved; the last is (1 + 1/burn_in_min) times the requested value, for all inputs (`C44_wrong`, `C44_rejects`, `C44_rejects_met`)
* C45: true of the first call with generic models; MAX-AND and qL-AND ignore the priors altogether (C45_special_wrong); later calls do not depend on the priors at all (for all machines, all update functions): the first function is kept (`C45_wrong`, `C45_special_wrong`)
* C46: with or without annealing; completes if all sampled matrices are factors of layers; AttributeError after burn-in otherwise, for all machines (`C46_wrong`, `C46_wrong_never`, `C46_wrong_met`)
* C49: all 36 operator pairs and OR-AND-IBP, any number of factors, all techniques but factor_mean with 3+ factors of other models than OR-AND (returns -1); after inference without samples factor_mean is nan for two factors (C49_no_samples_wrong); qL-AND returns -1/1, MAX-AND factor_mean up to 1.8 (witnesses) (`C49_factor_mean_wrong`, `C49_qL_wrong`, `C49_max_wrong`, `C49_no_samples_wrong`)
* C50: all histories of calls; a failing call on an OR-AND-IBP layer renames its model, and lazy calls return probabilities even if the last call did not (witnesses) (`C50_ibp_wrong`, `C50_lazy_wrong`)
* C51: all operator pairs, OR-AND-IBP and MAX-AND, any number of factors and samples; qL-AND ignores the samples (witness) (`C49_qL_wrong`)
* C53: seven of eight models; the three-factor OR-XOR formula has two wrong signs and can return -1 (witness); it is never too large, and C53_or_xor_iff says exactly when it is right (`C53_or_xor_wrong`, `C53_or_xor_iff`)
* C54: termination and return value proved; a single call may leave a useless dimension behind (skips the column after a removed one, witness), repeating until False does not. Of the useless dimensions at most half survive a call (C54_halves_partial), none if no two are neighbours (C54_isolated_partial) (`C54_wrong`)
* C55: true if dimensions that coincide in one factor coincide in all; otherwise the prediction can change (witness) (`C55_wrong`)
* C56: true for reset; whenever a dimension is removed the mask no longer fits (for all layers) (`C56_wrong`)
* C59: signs proved; the result is not a function of the seed: a given seed is ignored (for every generator with two differing states), no seed means one of 10000; the 3D function leaves the coding on integer arrays (`C59_seed_ignored`, `C59_seed_ignored_met`, `C59_few_outcomes`, `C59_int_wrong`)
* C63: the function tests that no column contains another, not disjointness (witness) (`C63_wrong`)
* C64: result proved; it can return exactly up to Sperner's bound on L (witness beyond), and then terminates with probability one (`C64_can_return_iff`, `C64_wrong`)
* C67: all entries that are log-ratios are right, for all parameters; the padded result is one longer than N, n=0 gives length 1 and q=1 raises ZeroDivisionError (witnesses) (`C67_bp_length_wrong`, `C67_bp_certain`, `C67_bbp_wrong`)
* C68: labels are right; the zip object is used up by the first comprehension, so the second argument is empty whenever anything is held out (witness) (`C68_wrong`)
* C72: the threshold sampler is assigned only as a side effect of assigning a factor's function (witness: both factors fixed) (`C72_both_factors_fixed_wrong`)
* C73: the probabilities the code uses are proved for every row of every state; the prior is evaluated at L + k instead of k: right only while no column is left, and for q = 1/2 (witness) (`C73_wrong`)
* C75: true if lambdas are ordered strictly like probability times lambda; false in general (two witnesses). C75_exact says what a cell is for all inputs; without equal products it is at most the expected maximum, and C75_iff says exactly when it is equal (`C75_iff`, `C75_iff_met`, `C75_wrong_order`, `C75_wrong_ties`)
* C76: any number of layers of two and three factors in any arrangement without a layer on its own factor, any schedule of updates; missing: more than two parents (NotImplemented/ignored), two parents of different models (false, see C23), layers on top of a factor of a three-factor layer (the code fails, see C23_three_factors_fail), factors of two-factor layers with more than 32767 rows, imputed data ()
* C77: all histories; true unless the array is int8; int8 arrays are negated once per inverting model (witness: two machines on one array) (`C77_int8_wrong`)
* C78: all hierarchies as in C76 (two- and three-factor layers), burn-in settings, sample indices and update orders; with fixed lambdas annealing has no effect (C44_fixed_lambdas); missing: sampled lambdas, automatic clean-up, the cases missing in C76 ()
* C79: geometric convergence, uniformly in the start and the update order, to the posterior given whatever matrices and entries are fixed, if no sampled entry is ever indifferent. With prior 1/2 (the default) entries are indifferent at times; with random orders, as in the code, C79_mixing_iff says exactly when the samples converge. They do for odd data and up to two latent dimensions (C79_odd_partial); they do not for balanced data, whatever the model (C79_balanced), nor for OR-NAND with two or more latent dimensions, whatever the data (C79_or_nand), nor for any other model with enough latent dimensions, whatever the data (C79_quiet: from 3 for OR-XOR and NAND-XOR, from 6 for OR-AND; up to 2 they do for odd data); entries of unobserved rows alternate deterministically for ever (C79_unobserved_actual) (`C79_mixing_iff`, `C79_unobserved_actual`, `C79_wrong`)
* C80: mean square error at most C/S for any function of the factors, uniformly in start, burn-in and update order, relative to the posterior given whatever matrices and entries are fixed, if no sampled entry is ever indifferent. With random update orders, as in the code, C80_average_iff says exactly when averages converge: if and only if all configurations are linked by changes that matter and changes of all free entries at once (the samples themselves need not converge: C80_one_entry). With the default prior they do for odd data and up to two latent dimensions (C80_odd_partial), they do not for balanced data (C80_balanced) nor for OR-NAND (C80_or_nand) nor for any model with enough latent dimensions, whatever the data (C80_quiet). As stated the property is wrong: a missing cell that every sample predicts to be false (C80_wrong) (`C80_average_iff`, `C80_wrong`)
* C81: C81_built_partial: every layer of every machine that calls have built. The others: with or without annealing; single layer of any of the eight models, two or three factors, anything fixed, all clean-up flags and draws, at least one sample; factor_mean needs two factors or OR-AND; mc raises AttributeError whenever lambda or a factor is fixed (all such machines) (`C81_mc_wrong`)
* C83: the solver is scipy's: an arbitrary function here; for 34 of the 36 models (as C13). One solution outside [0, 1] makes the function fail with TypeError, even if another is exact (`C83_wrong`)
* C85: all layers, data and traces, provided the attribute `eigenvals` is set to None by hand: a layer never has it and the call raises AttributeError (C85_wrong); sum at most 1 if the parameters differ, false otherwise (C85_ties_wrong); a second call returns the old value whatever has been sampled since (`C85_ties_wrong`, `C85_wrong`)
* C86: all machines and update functions, for fix_lbda_iters up to burn_in_min; a larger value has the same effect as burn_in_min (C86_wrong, for all machines; C86_instance is a run) (`C86_wrong`)
* C87: all 36 models; factor_mean is a probability for two factors, or three and a model treated as OR-AND, otherwise the prediction from entries all of whose samples are ones. False without the last clause: for models that invert their data every cell of the output differs from what the model asked for generates (C87_wrong) (`C87_wrong`)
* C88: all 36 models, all draws, with and without annealing, two axes or three and OR-AND (C88_three for the others, where an entry counts as one only if all its samples are). An empty mask gives nan; if X and X_train are one int8 array and the model inverts its data, the result is the share of cells predicted wrong (C88_aliased_wrong) (`C88_aliased_wrong`)
* C89: all tensors and draws, in exact arithmetic: ends if and only if a cell is observed (balanced: a one and a minus-one); a balanced split of fewer than 200 observed cells that fails once holds out nothing ()
* C90: all lists of the 36 models, sizes and draws for two axes. With an int8 tensor the data are the same up to 112 experiments; beyond, experiments are run on data negated once for each inverting model that precedes them in their chunk (C90_shared_data, C90_large_grid_wrong). Without `machines` NameError (`C90_large_grid_wrong`)
* C92: false: the posterior is invariant under swapping latent dimensions of a layer of which nothing is fixed, so expectations are equal across dimensions, averages get equal with more samples, and set_to_map gives all dimensions one column (and cannot reconstruct, e.g., the identity) with probability 1 - C/S. For hierarchies of any depth; the statements about runs need fixed lambdas and entries that are never exactly indifferent (see C79, C80), the one about set_to_map expectations other than 0 ()
* C93: all tensors with three axes and all draws; false about missing cells of tensors that have no minus one: they are taken for zeros of 0/1 coding (C93_missing_wrong, for all tensors). Matrices raise IndexError (`C93_missing_wrong`, `C93_matrices_fail`)
* C97: false: traces have room for ten columns more than there are after burn-in, while one sweep can add two columns per row, so for 2N > L + 10 there are draws for which infer raises ValueError (C97_overflows). Proved: inference returns exactly if all samples have at most ten more columns than at the end of burn-in, and then samples are as claimed; otherwise ValueError. All draws, with and without annealing, clean-up and fixed factors (if the first factor is sampled, the second is resized even if fixed, see C38) (`C97_overflows`, `C97_wrong`)
* C98: proved without annealing and clean-up. With annealing inference raises ValueError as soon as there is a burn-in turn; if clean-up removes a latent dimension, there are too many lambdas afterwards, and the next update takes a stale one for the background (`C98_stale_background`, `C98_clean_wrong`)
* C101: proved for a single new feature and for the last of two; the entries of the first of two are drawn as if the second were off, which gives wrong probabilities (C101_wrong, any lambda except 0). Up to 32767 rows (int16 scores) (`C101_wrong`)
* C103: false: the sampling function is made at the first inference and kept (matrix_update_wrappers.py:19-21), so a layer that is put on a factor later is ignored in all its updates, for all machines and values (C103_after_inference). What holds: layers that are there at the first inference take part (C103_layers_before_partial, C23, C76) (`C103_later_layers_ignored`)
* C104: every proper machine that calls have built stands for a hierarchy (C104_described), in every state of it (C104_start_built). Partial: layers have two or three factors, at most two layers (of one model) are on a factor, none on factors of tensor layers, no annealing (which has no effect here, C44_fixed_lambdas) or clean-up; first or later calls of infer (C104_again; priors or layers changed in between: C45, C103); convergence for all orders of updates if no free entry is ever indifferent (C104_noTies: a sufficient condition); with random orders, as in the code, C104_samples_iff and C104_averages_iff say exactly when samples and averages converge. With the default prior they do for odd data and up to two latent dimensions (C104_odd_partial) and do not for balanced data or OR-NAND (C104_balanced, C104_or_nand) or any model with enough latent dimensions (C104_quiet), for all machines of this kind (`C104_samples_iff`, `C104_averages_iff`)
* C106: false: inference does not remove the samples of a factor that has been fixed since (machine.py:148-153, 693-729), so its mean stays that of the old samples whatever its value is (C106_mean_of_old_samples); for every machine there are values for which predictions use the opposite in every entry (C106_wrong); mc raises if the new run is longer (C106_mc_raises). Proved for factors that have not been sampled before they are fixed; layers without clean-up (`C106_mean_of_old_samples`, `C106_wrong`)
* C107: false: with lambda 0 and prior 1/2 every log-odds is 0, at which flip_metropolised_gibbs_numba (matrix_updates_numba.py:18-35) flips without looking at the draw; if the mirrored factors also predict at most half of the cells, lambda is set to 0 again. Then all samples are the starting factors with alternating sign whatever is drawn (C107_stuck), and for even numbers of samples all means are 0 and all MAP estimates -1 (C107_stuck_mean); the witness is data that factors of the same size predict exactly. It is not a matter of starting with lambda 0: from any lambda, if all draws of the first sweep are below a positive threshold and the starting factors and their mirror image are at chance level, the rest of the run is stuck (C107_gets_stuck); and such starting factors exist for every data set (C107_every_data_2d, _3d: six of the eight models with two factors, four with three; see C108 for the NAND models). So with default settings, for every data matrix inference learns nothing with positive probability (C107_default_probability). What holds: the lambda of a sample is 0 only if that sample is at chance level (C107_lambda_zero_partial) (`C107_stuck`, `C107_stuck_mean`, `C107_gets_stuck`)
* C108: false for OR-NAND and XOR-NAND: if every row of every factor has one (XOR-NAND: two) entries of either sign, no single entry changes a prediction, so all log-odds are 0 and all entries flip in every sweep, whatever data, lambda and draws (C108_stuck). For OR-NAND random starting values are of this kind with probability at least 1 - (N + D) / 2^(L-1) (C108_random_start). For every model, of two or three factors, and enough latent dimensions (OR-AND 6, XOR-AND 10, others 5 or fewer; three factors: up to 23) there are starting values with which inference sees nothing of any data (C108_every_data_2d, C108_every_data_3d; C108_every_data_default with all default settings); the general condition on starting values, checkable by one pass, is that of C108_unheard. Random starting values (the default) are of this kind with probability at least 1 - 128/9 N D L^2 (3/4)^L for every model with two factors, 1 - 1536/49 N D M L^2 (7/8)^L with three (C108_random_default_2d, C108_random_default_3d as fractions of all matrices, C108_random_draws_2d, C108_random_draws_3d as probabilities of the draws that set the initial values), which tends to 1 with growing L (C108_random_limit). What holds: with an odd number of observed cells in every row and column and up to two latent dimensions all models converge to their posterior (C79_odd_partial) (`C108_stuck`, `C108_stuck_mean`)
* C109: false with a float: lines 218-219 (and 535 in add_matrix) ask for the shape (dtype) of every value before the float is recognised in line 225, which Python floats do not have, so an AttributeError is raised for every density (C109_density_wrong) and line 226, which would do what is claimed (C109_density_unreached), is never reached. What holds: without value all matrices are equally likely (C109_random_partial), with an array the matrix starts there (C109_given) (`C109_density_wrong`)
* C110: false: the code applies the sigmoid to the mean of the lambdas (machine.py:440-442) instead of averaging sigmoids. All 36 models and OR-AND-IBP, any number of factors and samples: C110_returns says what is returned, C110_iff exactly when it is the predictive probability of a cell; it is if lambda is the same in all samples. Where all samples predict the same and two lambdas differ, the probability of that value is always too large (C110_overconfident, strict concavity of the sigmoid) (`C110_iff`)
* C111: factor_mean treats entries as independent: equal to mc for every cell whose entries are independent among the samples, in particular for one sample or equal samples; false otherwise, for each of the eight models (C111_wrong: two samples in which two entries agree). Two factors, or three for OR-AND (other models with three factors: C49) (`C111_wrong`)
* C112: false: lambda is not drawn but set to the maximiser given the factors (lambda_updates_numba.py, C27, C28), so with n observed cells it is one of n + 1 numbers that are known before inference (C112_values_partial), a set that has posterior probability zero for every prior without atoms, whatever the distributions of start, draws and orders (C112_wrong). Single layers of the eight generic models, with or without annealing and clean-up (`C112_wrong`)
* C114: false: clean-up removes latent dimensions of a factor (machine.py:635-640, 656-658), nothing adapts the layers on top of it; they fit afterwards exactly if no dimension has been removed (C114_fits_iff, all machines). C114_wrong: a machine of two layers; C114_reads_outside: the next update of the factor on top depends on memory outside of the array below. What holds: layers whose matrix below is not a factor of a layer with clean-up always fit (C114_fits_partial) (`C114_fits_iff`, `C114_wrong`)
* C115: false: factors of qL-AND and OR-AND-IBP layers get the same sampling function with and without layers on top (matrix_update_wrappers.py:61-138), and in any schedule of updates nothing in the layers on top has an effect on them (C115_unheard). Rejected by infer: layers on top of MAX-AND factors, and MAX-AND, qL-AND, OR-AND-IBP layers on top of the eight sampled models (C115_max_and_partial, C115_special_above_partial); the eight models among themselves are C23 and C76 (`C115_parents_ignored`, `C115_max_and_rejects`, `C115_special_above_rejects`)
* C117: false: nothing adapts the layer on top when columns are added or removed below; for every state with fewer than 2N latent dimensions there are draws for which one update of the first factor leaves the layer on top unfit (C117_wrong), and its lambda then depends on memory outside of its factor (C117_reads_outside). What holds: as long as the first factor of the OR-AND-IBP layer is fixed, no matrix changes its shape (C117_shapes_partial) (`C117_wrong`)
* C118: false: the 18 models with outer operator AND, NOR or NXOR raise AttributeError, since canonise_model inverts the values of the child, which is None (auxiliary_functions.py:941, 951; machine.py:498): C118_wrong. The other 18 (C118_shape_partial), MAX-AND, OR-AND-IBP and qL-AND with two axes or more (C118_special) work as stated (`C118_wrong`)
* C119: false for qL-AND layers, which ignore the technique (C119_technique_ignored); all other calls of the statement raise. Biased noise: shown if the first entry other than zero is not 1 or -1; later ones are treated with the probability of the entry before (`C119_technique_ignored`)
* C120: false for means: plot_matrix rescales only if some entry is negative (auxiliary_functions.py:200-202), so a factor whose entries are all 1 in at least half of the samples is shown with twice the share minus one; the shares are shown exactly if some share is below one half or all are one (C120_mean_iff). False for 'map': the threshold .5 (machine.py:250) is applied to means between -1 and 1, so an entry is shown as one only if it is 1 in more than three quarters of the samples (C120_map, C120_map_iff). 'state' is as stated (C120_state) (`C120_mean_iff`, `C120_mean_wrong`, `C120_map_iff`, `C120_map_wrong`)
* C121: false: the call never returns, it ends with a NameError on `mut` (auxiliary_functions.py:611). What holds: the two frames computed before that line have the stated labels and entries (C121_labels_partial, C121_entries_partial); with repeated labels ValueError may be raised (C121_repeated) (`C121_wrong`)
* C123: false: none of the functions ever returns (C123_never). The first two end with a NameError on `maxmachine` (auxiliary_functions.py:304, 394; C123_wrong), or with ValueError if there is no test set (C123_too_few), the third with a NameError on `maxmachine_relevance` (254), the last with a TypeError on the argument sampling_indicator (experiments.py:138). There is nothing to prove of the rest of the claim (`C123_wrong`)
* C124: false: burn-in ends when the lambdas of all layers have converged (machine.py:622-628), so a layer added aside changes the number of sweeps of the others; C124_joint_convergence: with the same draws all entries of the old factors have the opposite sign afterwards. What holds: if the two calls make the same number of sweeps, everything in the old part is the same (C124_unrelated_partial), in particular if burn_in_max is at most burn_in_min (C124_fixed_burn_in). Not covered: annealing, fix_lbda_iters, automatic clean-up ()
* C127: false: a zero is a missing cell (machine.py:533-542 does not recode). For every model and any 0/1 data with a zero the likelihood of the array in the machine is not that of the data meant, up to a constant (C127_wrong); factors that predict one everywhere have the largest likelihood (C127_flat), for OR-AND no score is negative (C127_or_and_score), so every free entry at -1 turns to 1 in the next sweep (C127_or_and_sweep), and the scores differ by the part of the zeros (C127_score_difference). What holds: data that went through check_binary_coding is the data meant (C127_recoded_partial) (`C127_wrong`, `C127_not_proportional`, `C127_score_difference`, `C127_wrong_3d`)
* C128: false: MachineMatrix accepts an array of the right shape (machine.py:231-235, C128_creation), but infer always ends with a ValueError if it has two or more entries (machine.py:686, C128_wrong). What holds: with flags and arrays of at most one entry the matrix is held or sampled as a whole (C128_one_entry_partial). Single entries can be held by the attribute fixed_entries (C20) (`C128_wrong`)
* C129: false as to the last sentence: outside of [0, 1] the logit is nan, all comparisons fail and no entry ever changes, without any exception (C129_wrong; matrix_updates_numba.py:24-35). The other parts are proved (C129_zero, C129_one, C129_inside_partial). Lambdas are finite; scipy.special.logit is taken to be -inf at 0, inf at 1 and nan outside (`C129_wrong`)
* C133: false for each of the seven models other than OR-AND, for both settings (C133_wrong): burn_in calls clean_up_codes whatever the model (machine.py:635-640), and a dimension that is off in one factor is not neutral there. An OR-NAND layer with a reset dimension predicts one everywhere (C133_or_nand_reset). What holds: OR-AND, if dimensions that coincide in one factor coincide in all (C133_or_and_partial) (`C133_wrong`)
* C134: true for twelve of the 36 models, with as many dimensions as rows or columns (sharp for OR-AND: C134_unit_matrix), and for arrays of any number of dimensions (C134_every_array_partial); for the other 24 models there is a binary matrix of four rows and columns that no number of latent dimensions makes (C134_wrong, two factors) (`C134_wrong`)
* C135: false if a file has exactly one line: np.loadtxt then returns a one-dimensional array, whose elements cannot be unpacked (experiments.py:80-88, C135_wrong). True otherwise. The program, its directory and the operating system are not modelled; the files are arguments (`C135_rejects`, `C135_wrong`)
* C137: false: the limit takes entries for independent (machine.py:417-422). What holds: the output approaches lomProb of the posterior probabilities of the entries, with probability of a deviation of at most C/S (C137_limit_partial, two sampled factors, fixed lambdas, conditions of C80). C137_wrong: a single cell, where the limit is 1/2 and the posterior predictive probability is sigmoid(1) (`C137_wrong`)
* C139: false: entries are set to their more probable values one by one (machine.py:411-415). What holds: except with probability C/S the output is what the layer predicts from the more probable value of every entry (C139_limit_partial; C139_any_layer_partial for two or three factors), under the conditions of C80. Witness: one cell with a one, OR-AND with one latent dimension, strength 1, default prior; both entries are more likely on, so the output approaches 1, but a zero is the more probable prediction (C139_wrong), and the conditions of the limit theorem hold there (C139_hypotheses_met) (`C139_wrong`)

## Observations outside the properties

* `experiments.py:155-156` calls `layer.output(recon_model=…, force_computation=True)`; neither keyword exists.
* With a fixed lambda, `layer.output(technique='mc')` raises AttributeError: fixed parameters get no trace (`machine.py:432`).
* `predict_applicability_*` set `layer.auto_clean_up` (`auxiliary_functions.py:318, 405, 437`), an attribute nothing reads; the flags inference reads are `auto_clean` and `auto_reset` (`machine.py:636-657`).
* The workers of the grid search are forked without reseeding: experiments in different processes may use the same draws (the theorems hold for all draws).

## Trusted base

* Lean 4.33 kernel; axioms `propext`, `Classical.choice`, `Quot.sound` only (checked by `#print axioms`, listed below).
  No `sorry`, `admit`, `native_decide`, `bv_decide`, `implemented_by`, `unsafe` or own axioms.
* Mathlib's definitions of real numbers, Lebesgue measure, `PMF`, finite sums.
* The reading of the Python/numba/numpy semantics written in the comments of each definition and in the conventions above.

### Which code is modelled

| file | modelled | not modelled |
|---|---|---|
| `_numba/lom_outputs.py` | everything | – |
| `_numba/lom_outputs_fuzzy.py` | everything | – |
| `_numba/posterior_score_fcts.py` | everything | – |
| `_numba/matrix_updates_numba.py` | everything | – (the commented-out code) |
| `_numba/lambda_updates_numba.py` | everything | – |
| `_numba/max_machine_sampler.py` | sampler, score, lambda update, ratio table, forward pass, `maxmachine_relevance` | 'plugin' branch beyond its TypeError |
| `matrix_update_wrappers.py` | everything | – |
| `lambda_update_wrappers.py` | `get_update_fct` | the functions marked "not needed anymore" (32-126; they use modules that are not imported) |
| `machine.py` | `Trace`, `MachineMatrix` (initial values in `Model/Init.lean`, the attribute `fixed` as flag or array in `Model/FixedArg.lean`, sampling, siblings, model, set_to_map, the array shown by `show`), `MachineLayer` (init, output), `Machine` (members, add_layer, add_matrix, burn_in, infer; single calls, and in `Model/Assemble.lean` all sequences of calls) | printing, colours, `__repr__`, `MachineParameter.print_value` |
| `auxiliary_functions.py` | expit … reset_dimension, get_roc_auc, split_test_train, check_binary_coding … add_bernoulli_noise_*, all_columsn_are_disjoint … expected_density, random_machine_matrix, factor_density (with the solver as a parameter), canonical_loms, find_centers, intersect_dataframes, the rescaling in plot_matrix | plotting otherwise; `predict_applicability_*` and `plot_codes` are modelled up to the undefined name at which they end |
| `experiments.py` | generate_random_tensor, dbtf_reconstruct (the files of the program are arguments), split_train_test, split_tensor_train_test_old, tensorm_reconstruct, LOM_predictive (the 36 models), parallel_function (which experiments share data), LOM_hyperparms_parallel_gridsearch | the program that `dbtf_reconstruct` calls, `tensorm_reconstruct_indp` beyond the call at which it ends, pandas, the operating system processes |
| `benchmarks/` | – | timing scripts |

Inference with the update functions of MAX-AND, qL-AND and OR-AND-IBP layers is in `Model/Special.lean`, the parallel loops of
samplers in `Model/Parallel.lean` and of the output functions and counters in `Model/ParallelLoops.lean`.
Sampling with any number as prior, with infinite and undefined logits, is in `Model/EdgePrior.lean`.
`LOM_factorise` (experiments.py:292-293) has an empty body; the
properties `L`, `dimensionality`, `__iter__` of layers (machine.py:327-336) are not modelled separately.

Compilation by numba is trusted. `OR_AND_single_n` (lom_outputs.py:70) and the function made by
`make_output_function_3d_fuzzy` (lambda_updates_numba.py:149) declare results of other dimensions than the arrays they
return; they are taken to run as Python code (numba's fallback, `nopython` is not set). Arrays of other types than the
declared ones are rejected by numba with TypeError; the model has int8 and float64 arrays only where these are declared.

Also not modelled: floating-point rounding, thread-level memory effects below one array-element write, memory limits,
pandas/sklearn/scipy internals (`roc_auc_score` is an arbitrary function of its two arguments).

### Axioms per theorem

`#print axioms` on every theorem named in MANIFEST.json. All depend on exactly `propext, Classical.choice, Quot.sound` except:

* `none`: `C64_hypothesis_met`
* `propext`: `C02_other_models`, `C10_rejects_others`, `C116_lambda`, `C118_no_shape`, `C118_wrong`, `C11_failure_inverts`, `C11_shared_child_wrong`, `C127_hypotheses_met`, `C128_creation`, `C132_hypotheses_met`, `C134_hypotheses_met`, `C26_ibp_counts_as_or_and`, `C62_hypothesis_met`, `C62_needs_blocks`, `C63_hypotheses_met`, `C63_wrong`, `C65_hypotheses_met`, `C65_rejects`
* `propext, Quot.sound`: `C05_qL_neg`, `C05_qL_zero`, `C116_add_layer`, `C118_shape_partial`, `C118_special`, `C121_never`, `C121_repeated`, `C133_hypotheses_met`, `C133_or_and_partial`, `C133_or_nand_reset`, `C133_xor_reset`, `C25_axes`, `C54_false_certifies_partial`, `C54_repeat`, `C54_reset_reports_again`, `C54_return_value`, `C55_inactive`, `C55_product_partial`, `C55_wrong`, `C56_reset_partial`, `C56_wrong`, `C60_recodes`, `C90_separate_data`, `C93_missing_wrong`, `plotFac_sampled`
