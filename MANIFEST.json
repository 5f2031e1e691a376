{
 "claims": [
  {
   "property": "C01",
   "status": "proved",
   "theorems": [
    "LFM.C01_two_factor_outputs",
    "LFM.C01_two_factor_matrix",
    "LFM.C02_other_models"
   ],
   "note": ""
  },
  {
   "property": "C02",
   "status": "proved",
   "theorems": [
    "LFM.C02_three_factor_outputs",
    "LFM.C02_three_factor_tensor",
    "LFM.C02_other_models"
   ],
   "note": ""
  },
  {
   "property": "C03",
   "status": "proved",
   "theorems": [
    "LFM.C03_all_models_all_arities",
    "LFM.C03_other_names_rejected"
   ],
   "note": "all 36 models, any number of factors; other strings raise"
  },
  {
   "property": "C04",
   "status": "proved",
   "theorems": [
    "LFM.C04_fast_agrees"
   ],
   "note": "any model string, any arity, same array or same exception"
  },
  {
   "property": "C05",
   "status": "proved",
   "theorems": [
    "LFM.C05_qL_threshold",
    "LFM.C05_qL_one",
    "LFM.C05_qL_zero",
    "LFM.C05_qL_neg"
   ],
   "note": ""
  },
  {
   "property": "C06",
   "status": "proved",
   "theorems": [
    "LFM.C06_order_invariance_2d",
    "LFM.C06_order_invariance_3d"
   ],
   "note": ""
  },
  {
   "property": "C07",
   "status": "partial",
   "theorems": [
    "LFM.C07_actual_minimum",
    "LFM.C07_not_maximum",
    "LFM.C07_maximum_partial",
    "LFM.C07_forward_pass_maximum"
   ],
   "note": "False for MAX_AND_product_2d: it returns the smallest active lambda (proved for all inputs, with a witness that this is not the largest); the claim is proved when all active dimensions share one lambda. maxmachine_forward_pass does return the largest."
  },
  {
   "property": "C08",
   "status": "partial",
   "theorems": [
    "LFM.C08_compute_g_wraps",
    "LFM.C08_compute_g_partial",
    "LFM.C08_overflow"
   ],
   "note": "exact while the count fits int8; C08_overflow refutes the unrestricted claim (128 active dimensions give -128)"
  },
  {
   "property": "C09",
   "status": "proved",
   "theorems": [
    "LFM.C09_canonical_form_preserves_meaning"
   ],
   "note": "all models accepted, any number of factors and columns"
  },
  {
   "property": "C10",
   "status": "proved",
   "theorems": [
    "LFM.C10_accepts_all",
    "LFM.C10_rejects_others"
   ],
   "note": "all strings"
  },
  {
   "property": "C100",
   "status": "proved",
   "theorems": [
    "LFM.C100_shared_features"
   ],
   "note": "data with up to 32767 columns (int16 scores, C14)"
  },
  {
   "property": "C101",
   "status": "partial",
   "theorems": [
    "LFM.C101_new_features_partial",
    "LFM.C101_last_column",
    "LFM.C101_wrong",
    "LFM.C101_two_columns"
   ],
   "note": "proved for a single new feature and for the last of two; the entries of the first of two are drawn as if the second were off, which gives wrong probabilities (C101_wrong, any lambda except 0). Up to 32767 rows (int16 scores)"
  },
  {
   "property": "C102",
   "status": "proved",
   "theorems": [
    "LFM.C102_always_binary",
    "LFM.C102_infer_iff",
    "LFM.C102_after_infer",
    "LFM.C102_hypotheses_met",
    "LFM.C102_not_ready",
    "LFM.C102_fixed_switch",
    "LFM.C102_lbda_switch",
    "LFM.C102_switch_hypotheses_met"
   ],
   "note": "generic models (for MAX-AND, qL-AND and OR-AND-IBP layers see C97 to C99); legal calls: settings with a window and a print step of at least one, no zero lambda with annealing, no clean-up of layers with other layers on top, values of the right shape"
  },
  {
   "property": "C103",
   "status": "partial",
   "theorems": [
    "LFM.C103_later_layers_ignored",
    "LFM.C103_after_inference",
    "LFM.C103_hypotheses_met",
    "LFM.C103_layers_before_partial"
   ],
   "note": "false: the sampling function is made at the first inference and kept (matrix_update_wrappers.py:19-21), so a layer that is put on a factor later is ignored in all its updates, for all machines and values (C103_after_inference). What holds: layers that are there at the first inference take part (C103_layers_before_partial, C23, C76)"
  },
  {
   "property": "C104",
   "status": "partial",
   "theorems": [
    "LFM.C104_described",
    "LFM.C104_start_built",
    "LFM.C104_stationary_partial",
    "LFM.C104_converges_partial",
    "LFM.C104_average_partial",
    "LFM.C104_noTies",
    "LFM.C104_hypotheses_met",
    "LFM.C104_again",
    "LFM.C104_again_hypotheses_met",
    "LFM.C104_samples_iff",
    "LFM.C104_averages_iff",
    "LFM.C104_odd_partial",
    "LFM.C104_balanced",
    "LFM.C104_or_nand",
    "LFM.C104_plain_met",
    "LFM.C104_odd_met",
    "LFM.C104_balanced_met",
    "LFM.C104_quiet"
   ],
   "note": "every proper machine that calls have built stands for a hierarchy (C104_described), in every state of it (C104_start_built). Partial: layers have two or three factors, at most two layers (of one model) are on a factor, none on factors of tensor layers, no annealing (which has no effect here, C44_fixed_lambdas) or clean-up; first or later calls of infer (C104_again; priors or layers changed in between: C45, C103); convergence for all orders of updates if no free entry is ever indifferent (C104_noTies: a sufficient condition); with random orders, as in the code, C104_samples_iff and C104_averages_iff say exactly when samples and averages converge. With the default prior they do for odd data and up to two latent dimensions (C104_odd_partial) and do not for balanced data or OR-NAND (C104_balanced, C104_or_nand) or any model with enough latent dimensions (C104_quiet), for all machines of this kind"
  },
  {
   "property": "C105",
   "status": "proved",
   "theorems": [
    "LFM.C105_lambda_2d",
    "LFM.C105_lambda_3d",
    "LFM.C105_lambda_qL",
    "LFM.C105_hypotheses_met"
   ],
   "note": "C27 is the case of positive pseudo-counts. Division and log of numpy scalars (np.prod gives one), which warn and return inf or nan where Python raises"
  },
  {
   "property": "C106",
   "status": "partial",
   "theorems": [
    "LFM.C106_mean_of_old_samples",
    "LFM.C106_wrong",
    "LFM.C106_mc_raises",
    "LFM.C106_fixed_before_partial",
    "LFM.C106_hypotheses_met"
   ],
   "note": "false: inference does not remove the samples of a factor that has been fixed since (machine.py:148-153, 693-729), so its mean stays that of the old samples whatever its value is (C106_mean_of_old_samples); for every machine there are values for which predictions use the opposite in every entry (C106_wrong); mc raises if the new run is longer (C106_mc_raises). Proved for factors that have not been sampled before they are fixed; layers without clean-up"
  },
  {
   "property": "C107",
   "status": "partial",
   "theorems": [
    "LFM.C107_stuck",
    "LFM.C107_stuck_mean",
    "LFM.C107_gets_stuck",
    "LFM.C107_every_data_2d",
    "LFM.C107_every_data_3d",
    "LFM.C107_default_start",
    "LFM.C107_default_probability",
    "LFM.C107_lambda_zero_partial",
    "LFM.C107_hypotheses_met",
    "LFM.C107_every_data_met"
   ],
   "note": "false: with lambda 0 and prior 1/2 every log-odds is 0, at which flip_metropolised_gibbs_numba (matrix_updates_numba.py:18-35) flips without looking at the draw; if the mirrored factors also predict at most half of the cells, lambda is set to 0 again. Then all samples are the starting factors with alternating sign whatever is drawn (C107_stuck), and for even numbers of samples all means are 0 and all MAP estimates -1 (C107_stuck_mean); the witness is data that factors of the same size predict exactly. It is not a matter of starting with lambda 0: from any lambda, if all draws of the first sweep are below a positive threshold and the starting factors and their mirror image are at chance level, the rest of the run is stuck (C107_gets_stuck); and such starting factors exist for every data set (C107_every_data_2d, _3d: six of the eight models with two factors, four with three; see C108 for the NAND models). So with default settings, for every data matrix inference learns nothing with positive probability (C107_default_probability). What holds: the lambda of a sample is 0 only if that sample is at chance level (C107_lambda_zero_partial)"
  },
  {
   "property": "C108",
   "status": "partial",
   "theorems": [
    "LFM.C108_stuck",
    "LFM.C108_stuck_mean",
    "LFM.C108_constant",
    "LFM.C108_random_start",
    "LFM.C108_hypotheses_met",
    "LFM.C108_bothSigns_met",
    "LFM.C79_odd_partial",
    "LFM.C108_unheard",
    "LFM.C108_unheard_mean",
    "LFM.C108_every_data_2d",
    "LFM.C108_every_data_3d",
    "LFM.C108_every_data_default",
    "LFM.C108_every_data_3d_met",
    "LFM.C108_random_start_2d",
    "LFM.C108_random_start_3d",
    "LFM.C108_random_default_2d",
    "LFM.C108_random_default_3d",
    "LFM.C108_random_limit",
    "LFM.C108_random_example",
    "LFM.C108_initial_values",
    "LFM.C108_random_draws_2d",
    "LFM.C108_random_draws_3d"
   ],
   "note": "false for OR-NAND and XOR-NAND: if every row of every factor has one (XOR-NAND: two) entries of either sign, no single entry changes a prediction, so all log-odds are 0 and all entries flip in every sweep, whatever data, lambda and draws (C108_stuck). For OR-NAND random starting values are of this kind with probability at least 1 - (N + D) / 2^(L-1) (C108_random_start). For every model, of two or three factors, and enough latent dimensions (OR-AND 6, XOR-AND 10, others 5 or fewer; three factors: up to 23) there are starting values with which inference sees nothing of any data (C108_every_data_2d, C108_every_data_3d; C108_every_data_default with all default settings); the general condition on starting values, checkable by one pass, is that of C108_unheard. Random starting values (the default) are of this kind with probability at least 1 - 128/9 N D L^2 (3/4)^L for every model with two factors, 1 - 1536/49 N D M L^2 (7/8)^L with three (C108_random_default_2d, C108_random_default_3d as fractions of all matrices, C108_random_draws_2d, C108_random_draws_3d as probabilities of the draws that set the initial values), which tends to 1 with growing L (C108_random_limit). What holds: with an odd number of observed cells in every row and column and up to two latent dimensions all models converge to their posterior (C79_odd_partial)"
  },
  {
   "property": "C109",
   "status": "partial",
   "theorems": [
    "LFM.C109_random_partial",
    "LFM.C109_given",
    "LFM.C109_density_wrong",
    "LFM.C109_density_unreached",
    "LFM.C109_met"
   ],
   "note": "false with a float: lines 218-219 (and 535 in add_matrix) ask for the shape (dtype) of every value before the float is recognised in line 225, which Python floats do not have, so an AttributeError is raised for every density (C109_density_wrong) and line 226, which would do what is claimed (C109_density_unreached), is never reached. What holds: without value all matrices are equally likely (C109_random_partial), with an array the matrix starts there (C109_given)"
  },
  {
   "property": "C11",
   "status": "partial",
   "theorems": [
    "LFM.C11_actual_orientation",
    "LFM.C11_orientation_partial",
    "LFM.C11_failure_partial",
    "LFM.C11_shared_child_wrong",
    "LFM.C11_failure_inverts"
   ],
   "note": "holds when at most one inverting layer is attached per data matrix and no call fails; two inverting layers on one child undo each other (witness), and a failing call can leave the data inverted (witness)"
  },
  {
   "property": "C110",
   "status": "partial",
   "theorems": [
    "LFM.C110_returns",
    "LFM.C110_same_lambda_partial",
    "LFM.C110_iff",
    "LFM.C110_overconfident",
    "LFM.C110_hypotheses_met"
   ],
   "note": "false: the code applies the sigmoid to the mean of the lambdas (machine.py:440-442) instead of averaging sigmoids. All 36 models and OR-AND-IBP, any number of factors and samples: C110_returns says what is returned, C110_iff exactly when it is the predictive probability of a cell; it is if lambda is the same in all samples. Where all samples predict the same and two lambdas differ, the probability of that value is always too large (C110_overconfident, strict concavity of the sigmoid)"
  },
  {
   "property": "C111",
   "status": "partial",
   "theorems": [
    "LFM.C111_independent_partial",
    "LFM.C111_same_partial",
    "LFM.C111_wrong",
    "LFM.C111_hypotheses_met"
   ],
   "note": "factor_mean treats entries as independent: equal to mc for every cell whose entries are independent among the samples, in particular for one sample or equal samples; false otherwise, for each of the eight models (C111_wrong: two samples in which two entries agree). Two factors, or three for OR-AND (other models with three factors: C49)"
  },
  {
   "property": "C112",
   "status": "partial",
   "theorems": [
    "LFM.C112_values_partial",
    "LFM.C112_wrong",
    "LFM.C112_posterior_exists",
    "LFM.C112_hypotheses_met"
   ],
   "note": "false: lambda is not drawn but set to the maximiser given the factors (lambda_updates_numba.py, C27, C28), so with n observed cells it is one of n + 1 numbers that are known before inference (C112_values_partial), a set that has posterior probability zero for every prior without atoms, whatever the distributions of start, draws and orders (C112_wrong). Single layers of the eight generic models, with or without annealing and clean-up"
  },
  {
   "property": "C113",
   "status": "proved",
   "theorems": [
    "LFM.C113_count_2d",
    "LFM.C113_count_3d",
    "LFM.C113_count_qL",
    "LFM.C113_output_2d",
    "LFM.C113_output_3d",
    "LFM.C113_fuzzy_2d",
    "LFM.C113_fuzzy_3d",
    "LFM.C113_fuzzy_max",
    "LFM.C113_hypotheses_met"
   ],
   "note": "evaluation and store are separate steps; that `count += 1` in a parallel loop is a reduction (a counter per thread, added up in the end) is numba's documented behaviour and trusted; the samplers' loops are C21"
  },
  {
   "property": "C114",
   "status": "partial",
   "theorems": [
    "LFM.C114_fits_partial",
    "LFM.C114_fits_iff",
    "LFM.C114_wrong",
    "LFM.C114_reads_outside",
    "LFM.C114_hypotheses_met"
   ],
   "note": "false: clean-up removes latent dimensions of a factor (machine.py:635-640, 656-658), nothing adapts the layers on top of it; they fit afterwards exactly if no dimension has been removed (C114_fits_iff, all machines). C114_wrong: a machine of two layers; C114_reads_outside: the next update of the factor on top depends on memory outside of the array below. What holds: layers whose matrix below is not a factor of a layer with clean-up always fit (C114_fits_partial)"
  },
  {
   "property": "C115",
   "status": "partial",
   "theorems": [
    "LFM.C115_unheard",
    "LFM.C115_parents_ignored",
    "LFM.C115_max_and_rejects",
    "LFM.C115_special_above_rejects",
    "LFM.C115_max_and_partial",
    "LFM.C115_special_above_partial",
    "LFM.C115_hypotheses_met",
    "LFM.C115_rejected_met"
   ],
   "note": "false: factors of qL-AND and OR-AND-IBP layers get the same sampling function with and without layers on top (matrix_update_wrappers.py:61-138), and in any schedule of updates nothing in the layers on top has an effect on them (C115_unheard). Rejected by infer: layers on top of MAX-AND factors, and MAX-AND, qL-AND, OR-AND-IBP layers on top of the eight sampled models (C115_max_and_partial, C115_special_above_partial); the eight models among themselves are C23 and C76"
  },
  {
   "property": "C116",
   "status": "proved",
   "theorems": [
    "LFM.C116_generate",
    "LFM.C116_no_factors",
    "LFM.C116_add_layer",
    "LFM.C116_density",
    "LFM.C116_outputs",
    "LFM.C116_lambda",
    "LFM.C116_sampling"
   ],
   "note": "without factors generating data raises IndexError (C116_no_factors); TypeErrors of Python and typing errors of numba are one kind of error in the model"
  },
  {
   "property": "C117",
   "status": "partial",
   "theorems": [
    "LFM.C117_wrong",
    "LFM.C117_assigned",
    "LFM.C117_shapes_partial",
    "LFM.C117_second_plain",
    "LFM.C117_reads_outside",
    "LFM.C117_hypotheses_met"
   ],
   "note": "false: nothing adapts the layer on top when columns are added or removed below; for every state with fewer than 2N latent dimensions there are draws for which one update of the first factor leaves the layer on top unfit (C117_wrong), and its lambda then depends on memory outside of its factor (C117_reads_outside). What holds: as long as the first factor of the OR-AND-IBP layer is fixed, no matrix changes its shape (C117_shapes_partial)"
  },
  {
   "property": "C118",
   "status": "partial",
   "theorems": [
    "LFM.C118_wrong",
    "LFM.C118_shape_partial",
    "LFM.C118_special",
    "LFM.C118_no_shape"
   ],
   "note": "false: the 18 models with outer operator AND, NOR or NXOR raise AttributeError, since canonise_model inverts the values of the child, which is None (auxiliary_functions.py:941, 951; machine.py:498): C118_wrong. The other 18 (C118_shape_partial), MAX-AND, OR-AND-IBP and qL-AND with two axes or more (C118_special) work as stated"
  },
  {
   "property": "C119",
   "status": "partial",
   "theorems": [
    "LFM.C119_print_step",
    "LFM.C119_infer_print_step",
    "LFM.C119_infer_never",
    "LFM.C119_window",
    "LFM.C119_anneal",
    "LFM.C119_anneal_zero",
    "LFM.C119_anneal_zero_met",
    "LFM.C119_technique",
    "LFM.C119_technique_ignored",
    "LFM.C119_axes",
    "LFM.C119_noise",
    "LFM.C119_mask"
   ],
   "note": "false for qL-AND layers, which ignore the technique (C119_technique_ignored); all other calls of the statement raise. Biased noise: shown if the first entry other than zero is not 1 or -1; later ones are treated with the probability of the entry before"
  },
  {
   "property": "C12",
   "status": "proved",
   "theorems": [
    "LFM.C12_replacement_equivalent"
   ],
   "note": "all strings"
  },
  {
   "property": "C120",
   "status": "partial",
   "theorems": [
    "LFM.C120_state",
    "LFM.C120_mean",
    "LFM.C120_mean_iff",
    "LFM.C120_mean_wrong",
    "LFM.C120_map",
    "LFM.C120_map_iff",
    "LFM.C120_map_wrong",
    "LFM.C120_technique",
    "LFM.plotFac_sampled"
   ],
   "note": "false for means: plot_matrix rescales only if some entry is negative (auxiliary_functions.py:200-202), so a factor whose entries are all 1 in at least half of the samples is shown with twice the share minus one; the shares are shown exactly if some share is below one half or all are one (C120_mean_iff). False for 'map': the threshold .5 (machine.py:250) is applied to means between -1 and 1, so an entry is shown as one only if it is 1 in more than three quarters of the samples (C120_map, C120_map_iff). 'state' is as stated (C120_state)"
  },
  {
   "property": "C121",
   "status": "partial",
   "theorems": [
    "LFM.C121_never",
    "LFM.C121_wrong",
    "LFM.C121_labels_partial",
    "LFM.C121_entries_partial",
    "LFM.C121_repeated"
   ],
   "note": "false: the call never returns, it ends with a NameError on `mut` (auxiliary_functions.py:611). What holds: the two frames computed before that line have the stated labels and entries (C121_labels_partial, C121_entries_partial); with repeated labels ValueError may be raised (C121_repeated)"
  },
  {
   "property": "C122",
   "status": "proved",
   "theorems": [
    "LFM.C122_same",
    "LFM.C122_only",
    "LFM.C122_inference",
    "LFM.C122_met"
   ],
   "note": "the formulas are compared on all families of propositions; entries outside of the shape of the data, which have no meaning, are taken to be -1, 0 or 1, too. What is the same is the machine: predictions are those of the common canonical model (C87)"
  },
  {
   "property": "C123",
   "status": "partial",
   "theorems": [
    "LFM.C123_never",
    "LFM.C123_wrong",
    "LFM.C123_too_few",
    "LFM.C123_met"
   ],
   "note": "false: none of the functions ever returns (C123_never). The first two end with a NameError on `maxmachine` (auxiliary_functions.py:304, 394; C123_wrong), or with ValueError if there is no test set (C123_too_few), the third with a NameError on `maxmachine_relevance` (254), the last with a TypeError on the argument sampling_indicator (experiments.py:138). There is nothing to prove of the rest of the claim"
  },
  {
   "property": "C124",
   "status": "partial",
   "theorems": [
    "LFM.C124_unrelated_partial",
    "LFM.C124_fixed_burn_in",
    "LFM.C124_joint_convergence",
    "LFM.C124_hypotheses_met"
   ],
   "note": "false: burn-in ends when the lambdas of all layers have converged (machine.py:622-628), so a layer added aside changes the number of sweeps of the others; C124_joint_convergence: with the same draws all entries of the old factors have the opposite sign afterwards. What holds: if the two calls make the same number of sweeps, everything in the old part is the same (C124_unrelated_partial), in particular if burn_in_max is at most burn_in_min (C124_fixed_burn_in). Not covered: annealing, fix_lbda_iters, automatic clean-up"
  },
  {
   "property": "C125",
   "status": "proved",
   "theorems": [
    "LFM.C125_continue",
    "LFM.C125_in_two_calls",
    "LFM.C125_hypotheses_met"
   ],
   "note": "draws are indexed by the number of sweeps made, so the second call takes the random numbers that follow those of the first. Not covered: annealing (a second call would anneal again), fix_lbda_iters, automatic clean-up (which acts in burn-in only)"
  },
  {
   "property": "C126",
   "status": "proved",
   "theorems": [
    "LFM.C126_one_path",
    "LFM.C126_print_step",
    "LFM.C125_hypotheses_met"
   ],
   "note": "for annealing, where burn_in_min decides the steps, and for fix_lbda_iters and automatic clean-up the first part is not claimed"
  },
  {
   "property": "C127",
   "status": "partial",
   "theorems": [
    "LFM.C127_recoded_partial",
    "LFM.C127_wrong",
    "LFM.C127_flat",
    "LFM.C127_not_proportional",
    "LFM.C127_score_difference",
    "LFM.C127_or_and_score",
    "LFM.C127_or_and_sweep",
    "LFM.C127_recoded_3d_partial",
    "LFM.C127_wrong_3d",
    "LFM.C127_flat_3d",
    "LFM.C127_hypotheses_met"
   ],
   "note": "false: a zero is a missing cell (machine.py:533-542 does not recode). For every model and any 0/1 data with a zero the likelihood of the array in the machine is not that of the data meant, up to a constant (C127_wrong); factors that predict one everywhere have the largest likelihood (C127_flat), for OR-AND no score is negative (C127_or_and_score), so every free entry at -1 turns to 1 in the next sweep (C127_or_and_sweep), and the scores differ by the part of the zeros (C127_score_difference). What holds: data that went through check_binary_coding is the data meant (C127_recoded_partial)"
  },
  {
   "property": "C128",
   "status": "partial",
   "theorems": [
    "LFM.C128_one_entry_partial",
    "LFM.C128_wrong",
    "LFM.C128_creation",
    "LFM.C128_hypotheses_met"
   ],
   "note": "false: MachineMatrix accepts an array of the right shape (machine.py:231-235, C128_creation), but infer always ends with a ValueError if it has two or more entries (machine.py:686, C128_wrong). What holds: with flags and arrays of at most one entry the matrix is held or sampled as a whole (C128_one_entry_partial). Single entries can be held by the attribute fixed_entries (C20)"
  },
  {
   "property": "C129",
   "status": "partial",
   "theorems": [
    "LFM.C129_zero",
    "LFM.C129_one",
    "LFM.C129_inside_partial",
    "LFM.C129_wrong",
    "LFM.C129_hypotheses_met"
   ],
   "note": "false as to the last sentence: outside of [0, 1] the logit is nan, all comparisons fail and no entry ever changes, without any exception (C129_wrong; matrix_updates_numba.py:24-35). The other parts are proved (C129_zero, C129_one, C129_inside_partial). Lambdas are finite; scipy.special.logit is taken to be -inf at 0, inf at 1 and nan outside"
  },
  {
   "property": "C13",
   "status": "partial",
   "theorems": [
    "LFM.C13_expected_density_partial",
    "LFM.C13_iff",
    "LFM.C13_too_small",
    "LFM.C13_xor_xor_wrong",
    "LFM.C13_unknown_rejected"
   ],
   "note": "34 of 36 models for all L, K, f; XOR-XOR and NXOR-XOR are wrong exactly for three or more factors, two or more dimensions and a density strictly between 0 and 1 (C13_iff); XOR-XOR is then too small"
  },
  {
   "property": "C130",
   "status": "proved",
   "theorems": [
    "LFM.C130_density",
    "LFM.C130_values",
    "LFM.C130_extremes",
    "LFM.C130_hypotheses_met"
   ],
   "note": "numpy's binomial with n = 1 is modelled by its inversion of one uniform draw per entry, over the reals (numpy is not part of /repo)"
  },
  {
   "property": "C131",
   "status": "proved",
   "theorems": [
    "LFM.C131_generated_2d",
    "LFM.C131_generated_3d",
    "LFM.C131_best_2d",
    "LFM.C131_best_3d",
    "LFM.C131_lambda_2d",
    "LFM.C131_lambda_3d",
    "LFM.C131_flip_2d",
    "LFM.C131_sweep_2d",
    "LFM.C131_sweep_3d",
    "LFM.C131_stay_2d",
    "LFM.C131_stay_3d",
    "LFM.C131_sweeps_2d",
    "LFM.C131_hypotheses_met"
   ],
   "note": "the data after canonise_model are reproduced by the (inverted) factors; the other theorems are about data that are reproduced by factors. Two factors up to 32767 rows and columns (int16 scores, C14). Exact flip probabilities: two factors and the default prior. One layer without parents; lambda fixed during the sweeps (its update gives the same value as long as all cells are predicted, C131_lambda_2d)"
  },
  {
   "property": "C132",
   "status": "proved",
   "theorems": [
    "LFM.C132_one_more",
    "LFM.C132_best_2d",
    "LFM.C132_best_3d",
    "LFM.C132_hypotheses_met"
   ],
   "note": "generated data: any number of factors and all 36 models; likelihoods: the eight models that layers have, two and three factors. That the sampler finds such factors is not claimed"
  },
  {
   "property": "C133",
   "status": "partial",
   "theorems": [
    "LFM.C133_or_and_partial",
    "LFM.C133_wrong",
    "LFM.C133_or_nand_reset",
    "LFM.C133_xor_reset",
    "LFM.C133_hypotheses_met"
   ],
   "note": "false for each of the seven models other than OR-AND, for both settings (C133_wrong): burn_in calls clean_up_codes whatever the model (machine.py:635-640), and a dimension that is off in one factor is not neutral there. An OR-NAND layer with a reset dimension predicts one everywhere (C133_or_nand_reset). What holds: OR-AND, if dimensions that coincide in one factor coincide in all (C133_or_and_partial)"
  },
  {
   "property": "C134",
   "status": "partial",
   "theorems": [
    "LFM.C134_every_matrix_partial",
    "LFM.C134_every_array_partial",
    "LFM.C134_unit_matrix",
    "LFM.C134_wrong",
    "LFM.C134_hypotheses_met"
   ],
   "note": "true for twelve of the 36 models, with as many dimensions as rows or columns (sharp for OR-AND: C134_unit_matrix), and for arrays of any number of dimensions (C134_every_array_partial); for the other 24 models there is a binary matrix of four rows and columns that no number of latent dimensions makes (C134_wrong, two factors)"
  },
  {
   "property": "C135",
   "status": "partial",
   "theorems": [
    "LFM.C135_result_partial",
    "LFM.C135_input",
    "LFM.C135_rejects",
    "LFM.C135_wrong",
    "LFM.C135_hypotheses_met"
   ],
   "note": "false if a file has exactly one line: np.loadtxt then returns a one-dimensional array, whose elements cannot be unpacked (experiments.py:80-88, C135_wrong). True otherwise. The program, its directory and the operating system are not modelled; the files are arguments"
  },
  {
   "property": "C136",
   "status": "proved",
   "theorems": [
    "LFM.C136_mirror",
    "LFM.C136_mean_zero",
    "LFM.C136_averages_vanish",
    "LFM.C136_flat_output",
    "LFM.C136_hypotheses_met"
   ],
   "note": "fixed strengths; convergence under the condition of C79/C80 (all states can be reached). For contrast: expectations that are not 0 for OR-AND (C92_map_hypotheses_met)"
  },
  {
   "property": "C137",
   "status": "partial",
   "theorems": [
    "LFM.C137_limit_partial",
    "LFM.C137_inner_xor",
    "LFM.C137_wrong",
    "LFM.C137_hypotheses_met"
   ],
   "note": "false: the limit takes entries for independent (machine.py:417-422). What holds: the output approaches lomProb of the posterior probabilities of the entries, with probability of a deviation of at most C/S (C137_limit_partial, two sampled factors, fixed lambdas, conditions of C80). C137_wrong: a single cell, where the limit is 1/2 and the posterior predictive probability is sigmoid(1)"
  },
  {
   "property": "C138",
   "status": "proved",
   "theorems": [
    "LFM.C138_exchange",
    "LFM.C138_same_mean",
    "LFM.C138_same_predictive",
    "LFM.C138_same_predictive_three",
    "LFM.C138_three_hypotheses_met",
    "LFM.C138_averages_meet",
    "LFM.C138_hypotheses_met"
   ],
   "note": "layers of the eight generic models with fixed strengths; averages where the configurations are linked (C80_average_iff says exactly when): rate C/(S delta^2), random orders and draws as in the code."
  },
  {
   "property": "C139",
   "status": "partial",
   "theorems": [
    "LFM.C139_limit_partial",
    "LFM.C139_any_layer_partial",
    "LFM.C139_wrong",
    "LFM.C139_hypotheses_met"
   ],
   "note": "false: entries are set to their more probable values one by one (machine.py:411-415). What holds: except with probability C/S the output is what the layer predicts from the more probable value of every entry (C139_limit_partial; C139_any_layer_partial for two or three factors), under the conditions of C80. Witness: one cell with a one, OR-AND with one latent dimension, strength 1, default prior; both entries are more likely on, so the output approaches 1, but a zero is the more probable prediction (C139_wrong), and the conditions of the limit theorem hold there (C139_hypotheses_met)"
  },
  {
   "property": "C14",
   "status": "partial",
   "theorems": [
    "LFM.C14_score_2d_wraps",
    "LFM.C14_score_2d_partial",
    "LFM.C14_int16_overflow"
   ],
   "note": "exact up to 32767 columns; C14_int16_overflow refutes the unrestricted claim (int16 return type)"
  },
  {
   "property": "C140",
   "status": "proved",
   "theorems": [
    "LFM.C140_exchange",
    "LFM.C140_same_factors",
    "LFM.C140_averages_meet",
    "LFM.C140_hypotheses_met"
   ],
   "note": "layers of the eight generic models with fixed strengths; averages where the configurations are linked (C80_average_iff says exactly when): rate C/(S delta^2), random orders and draws as in the code"
  },
  {
   "property": "C141",
   "status": "proved",
   "theorems": [
    "LFM.C141_predictions",
    "LFM.C141_outputs",
    "LFM.C141_same_evidence",
    "LFM.C141_plain",
    "LFM.C141_same_posterior",
    "LFM.C141_same_predictive",
    "LFM.C141_averages",
    "LFM.C141_hypotheses_met",
    "LFM.C141_three_wrong"
   ],
   "note": "C141_outputs is about the output functions of the code, C141_averages about runs of infer with fixed strengths (configurations linked, C80_average_iff says exactly when); the rest about the posterior that the sampler of the code has as its limit (C79). Only layers of two factors: with three, XOR is 'exactly one' and no choice of factors to invert exchanges the models (C141_three_wrong)"
  },
  {
   "property": "C142",
   "status": "proved",
   "theorems": [
    "LFM.C142_posterior",
    "LFM.C142_samples",
    "LFM.C142_hypotheses_met",
    "LFM.C142_any_prior",
    "LFM.C142_best_exists",
    "LFM.C142_any_prior_samples",
    "LFM.C142_any_prior_hypotheses_met",
    "LFM.C142_perfect",
    "LFM.C142_reproduced",
    "LFM.C142_reproduced_hypotheses_met"
   ],
   "note": "C142_samples is about runs of infer with a fixed strength where the configurations are linked (C80_average_iff says exactly when); its constant C depends on the machine, and so on the strength: nothing is said on how long a run has to be. Number of states 2^(entries of the factors)"
  },
  {
   "property": "C143",
   "status": "proved",
   "theorems": [
    "LFM.C143_odds",
    "LFM.C143_surer",
    "LFM.C143_evidence",
    "LFM.C143_samples",
    "LFM.C143_odds_three",
    "LFM.C143_samples_three",
    "LFM.C143_hypotheses_met",
    "LFM.C143_three_hypotheses_met"
   ],
   "note": "C143_samples is about runs of infer with fixed strengths where the configurations are linked (C80_average_iff says exactly when): rate C/(S delta^2), random orders and draws as in the code"
  },
  {
   "property": "C15",
   "status": "proved",
   "theorems": [
    "LFM.C15_score_3d_wraps",
    "LFM.C15_score_3d"
   ],
   "note": ""
  },
  {
   "property": "C16",
   "status": "partial",
   "theorems": [
    "LFM.C16_log_odds_2d_partial",
    "LFM.C16_log_odds_3d",
    "LFM.C16_wrong"
   ],
   "note": "two-factor part up to 32767 columns; false beyond that (C16_wrong: with 32768 columns the logit has the wrong sign)"
  },
  {
   "property": "C17",
   "status": "proved",
   "theorems": [
    "LFM.C17_flip_probability",
    "LFM.C17_reversible"
   ],
   "note": ""
  },
  {
   "property": "C18",
   "status": "proved",
   "theorems": [
    "LFM.C18_flip_versions_agree",
    "LFM.C18_gibbs_flip"
   ],
   "note": ""
  },
  {
   "property": "C19",
   "status": "partial",
   "theorems": [
    "LFM.C19_posterior_invariant_2d_partial",
    "LFM.C19_posterior_invariant_3d",
    "LFM.C19_wrong"
   ],
   "note": "two-factor part up to 32767 rows and columns; false beyond that (C19_wrong: with 32768 columns the posterior is not preserved); three-factor part complete"
  },
  {
   "property": "C20",
   "status": "proved",
   "theorems": [
    "LFM.C20_sampling_keeps"
   ],
   "note": ""
  },
  {
   "property": "C21",
   "status": "proved",
   "theorems": [
    "LFM.C21_onechild_2D",
    "LFM.C21_onechild_3D",
    "LFM.C21_onechild_oneparent_2D",
    "LFM.C21_nochild_oneparent_2D",
    "LFM.C21_nochild_twoparents_2D",
    "LFM.C21_nochild_twoparents_3D",
    "LFM.C21_onechild_twoparents_2D"
   ],
   "note": ""
  },
  {
   "property": "C22",
   "status": "partial",
   "theorems": [
    "LFM.C22_axes_2d_partial",
    "LFM.C22_axes_3d",
    "LFM.C22_wrong"
   ],
   "note": "two-factor part up to 32767 rows and columns; false beyond that (C22_wrong: int16 score)"
  },
  {
   "property": "C23",
   "status": "partial",
   "theorems": [
    "LFM.C23_onechild_oneparent_partial",
    "LFM.C23_nochild_oneparent",
    "LFM.C23_nochild_twoparents_actual",
    "LFM.C23_nochild_twoparents_partial",
    "LFM.C23_two_parents_wrong",
    "LFM.C23_onechild_twoparents_actual",
    "LFM.C23_three_factors_fail",
    "LFM.C23_hypotheses_met"
   ],
   "note": "false for two parents with different models (C23_two_parents_wrong: both use the second model) and for three-factor children (C23_three_factors_fail)"
  },
  {
   "property": "C24",
   "status": "partial",
   "theorems": [
    "LFM.C24_extra_parents_ignored",
    "LFM.C24_not_rejected",
    "LFM.C24_rejects_partial"
   ],
   "note": "the claim is false: a third parent is silently ignored; what is rejected is C24_rejects_partial"
  },
  {
   "property": "C25",
   "status": "partial",
   "theorems": [
    "LFM.C25_axes",
    "LFM.C25_assignable_iff",
    "LFM.C25_inferable_partial",
    "LFM.C25_wrong"
   ],
   "note": "exact characterisation; true for two-dimensional data and OUTER-INNER models on three-dimensional data; false otherwise (witnesses): special models on 3-dimensional data and 1- or 4-dimensional data are accepted but cannot be inferred"
  },
  {
   "property": "C26",
   "status": "proved",
   "theorems": [
    "LFM.C26_correct_predictions_2d",
    "LFM.C26_correct_predictions_3d",
    "LFM.C26_correct_predictions_qL",
    "LFM.C26_ibp_counts_as_or_and"
   ],
   "note": ""
  },
  {
   "property": "C27",
   "status": "proved",
   "theorems": [
    "LFM.C27_lambda_smoothed_accuracy_2d",
    "LFM.C27_lambda_smoothed_accuracy_3d",
    "LFM.C27_lambda_smoothed_accuracy_qL",
    "LFM.C27_zero_beta_infinite"
   ],
   "note": "C27_zero_beta_infinite covers the edge case of a zero beta prior"
  },
  {
   "property": "C28",
   "status": "proved",
   "theorems": [
    "LFM.C28_lambda_maximises_2d",
    "LFM.C28_lambda_maximises_3d"
   ],
   "note": ""
  },
  {
   "property": "C29",
   "status": "proved",
   "theorems": [
    "LFM.C29_lambda_attribution",
    "LFM.C29_other_arity_rejected"
   ],
   "note": ""
  },
  {
   "property": "C30",
   "status": "partial",
   "theorems": [
    "LFM.C30_ratio_table",
    "LFM.C30_table_current_partial",
    "LFM.C30_stale_after_assignment"
   ],
   "note": "Exactness, antisymmetry and diagonal proved. The table reflects the current lambdas after any sequence of sampler updates; false after an assignment by the user (witness)."
  },
  {
   "property": "C31",
   "status": "partial",
   "theorems": [
    "LFM.C31_score_partial",
    "LFM.C31_sweep_partial",
    "LFM.C31_sweep_hypotheses_met",
    "LFM.C31_truncated",
    "LFM.C31_wrong_column"
   ],
   "note": "False as stated: the score is truncated to an integer and mixes up columns and ranks (witnesses). Proved up to truncation for dimensions whose rank equals their column, and for the whole update of a factor if columns are sorted by lambda."
  },
  {
   "property": "C32",
   "status": "partial",
   "theorems": [
    "LFM.C32_score_Z_partial",
    "LFM.C32_score_U_partial",
    "LFM.C32_log_odds_Z_partial",
    "LFM.C32_log_odds_U_partial",
    "LFM.C32_lambda_ignored",
    "LFM.C32_fixed_ignored"
   ],
   "note": "scores are right; the code ignores lambda, the prior and fixed entries, so the law is the conditional only for lambda = 1, a uniform prior and nothing fixed (witnesses)"
  },
  {
   "property": "C33",
   "status": "partial",
   "theorems": [
    "LFM.C33_range",
    "LFM.C33_law_ignores_data",
    "LFM.C33_conditional_partial",
    "LFM.C33_wrong"
   ],
   "note": "thresholds stay in 1..5; the law is the conditional only for columns of ones, the code never reads the data (witness)"
  },
  {
   "property": "C34",
   "status": "partial",
   "theorems": [
    "LFM.C34_interval_partial",
    "LFM.C34_iff_partial",
    "LFM.C34_probability_partial",
    "LFM.C34_overflow"
   ],
   "note": "up to 127 entries; the index is an int8 and wraps around beyond (witness)"
  },
  {
   "property": "C35",
   "status": "proved",
   "theorems": [
    "LFM.C35_aligned_binary_active"
   ],
   "note": "any positive number of rows, all draws"
  },
  {
   "property": "C36",
   "status": "proved",
   "theorems": [
    "LFM.C36_prior_odds",
    "LFM.C36_new_columns",
    "LFM.C36_draw_law"
   ],
   "note": "every state reached inside the update; alpha > 0, 0 < q < 1"
  },
  {
   "property": "C37",
   "status": "partial",
   "theorems": [
    "LFM.C37_swapped",
    "LFM.C37_half_partial",
    "LFM.C37_iff"
   ],
   "note": "true for the default prior 1/2 only: the code uses q^k where (1-q)^k is needed (equivalence proved)"
  },
  {
   "property": "C38",
   "status": "partial",
   "theorems": [
    "LFM.C38_first_fixed_partial",
    "LFM.C38_wrong"
   ],
   "note": "holds if the first factor is fixed; a fixed second factor and fixed entries of the first are overwritten (witness)"
  },
  {
   "property": "C39",
   "status": "proved",
   "theorems": [
    "LFM.C39_traces",
    "LFM.C39_last",
    "LFM.C39_others",
    "LFM.C46_hypotheses_met"
   ],
   "note": "all update functions, all arguments; IBP layers included (entries that do not exist are -1)"
  },
  {
   "property": "C40",
   "status": "proved",
   "theorems": [
    "LFM.C40_sweeps",
    "LFM.C40_no_error",
    "LFM.C40_zero",
    "LFM.C40_hypotheses_met"
   ],
   "note": "all update functions and convergence histories; ZeroDivisionError for a window of zero"
  },
  {
   "property": "C41",
   "status": "partial",
   "theorems": [
    "LFM.C41_partial",
    "LFM.C41_wrong",
    "LFM.C41_window_one"
   ],
   "note": "independent of all fresh memory but the last row of the first window, which is read before it is ever written (witness)"
  },
  {
   "property": "C42",
   "status": "partial",
   "theorems": [
    "LFM.C42_partial",
    "LFM.C42_wrong",
    "LFM.C42_wrong_met"
   ],
   "note": "right if burn-in converged; at the limit the pre-burn-in sweeps are left out (for all machines with burn_in_min > 0)"
  },
  {
   "property": "C43",
   "status": "partial",
   "theorems": [
    "LFM.C43_fixed_partial",
    "LFM.C43_hypotheses_met",
    "LFM.C47_infer_binary",
    "LFM.C43_wrong"
   ],
   "note": "true unless a layer with auto_clean or auto_reset has a fixed factor: clean-up removes its columns, too (witness)"
  },
  {
   "property": "C44",
   "status": "partial",
   "theorems": [
    "LFM.C44_steps_partial",
    "LFM.C44_wrong",
    "LFM.C44_rejects",
    "LFM.C44_rejects_met",
    "LFM.C44_hypotheses_met",
    "LFM.C44_fixed_lambdas",
    "LFM.C44_fixed_hypotheses_met"
   ],
   "note": "fixed lambdas: annealing has no effect at all (C44_fixed_lambdas); equal steps proved; the last is (1 + 1/burn_in_min) times the requested value, for all inputs"
  },
  {
   "property": "C45",
   "status": "partial",
   "theorems": [
    "LFM.C45_first_call_partial",
    "LFM.C45_wrong",
    "LFM.C45_hypotheses_met",
    "LFM.C45_special_wrong",
    "LFM.C45_special_hypotheses_met"
   ],
   "note": "true of the first call with generic models; MAX-AND and qL-AND ignore the priors altogether (C45_special_wrong); later calls do not depend on the priors at all (for all machines, all update functions): the first function is kept"
  },
  {
   "property": "C46",
   "status": "partial",
   "theorems": [
    "LFM.C46_completes_partial",
    "LFM.C46_hypotheses_met",
    "LFM.C46_wrong",
    "LFM.C46_wrong_never",
    "LFM.C46_wrong_met",
    "LFM.C47_infer_binary"
   ],
   "note": "with or without annealing; completes if all sampled matrices are factors of layers; AttributeError after burn-in otherwise, for all machines"
  },
  {
   "property": "C47",
   "status": "proved",
   "theorems": [
    "LFM.C47_infer_binary",
    "LFM.C47_hypotheses_met",
    "LFM.C47_anneal_met"
   ],
   "note": "with or without annealing; single layer, any generic model, two or three factors, all draws, orders, clean-up flags and fixed entries; also shows that infer returns, that lambda is finite and that all samples are binary"
  },
  {
   "property": "C48",
   "status": "proved",
   "theorems": [
    "LFM.C48_mean_in_range",
    "LFM.C48_set_to_map",
    "LFM.C48_no_trace",
    "LFM.C48_hypotheses_met"
   ],
   "note": "all traces with at least one sample; ties give -1 (note: show('map') uses another threshold, .5 on the [-1,1] scale)"
  },
  {
   "property": "C49",
   "status": "partial",
   "theorems": [
    "LFM.C49_probabilities_partial",
    "LFM.C49_noise_formula",
    "LFM.C49_max_and_partial",
    "LFM.C49_max_factor_mean_partial",
    "LFM.C49_hypotheses_met",
    "LFM.C49_factor_mean_wrong",
    "LFM.C49_qL_wrong",
    "LFM.C49_qL_partial",
    "LFM.C49_max_wrong",
    "LFM.C49_no_samples_wrong",
    "LFM.C49_no_samples_3d",
    "LFM.C49_no_samples_met"
   ],
   "note": "all 36 operator pairs and OR-AND-IBP, any number of factors, all techniques but factor_mean with 3+ factors of other models than OR-AND (returns -1); after inference without samples factor_mean is nan for two factors (C49_no_samples_wrong); qL-AND returns -1/1, MAX-AND factor_mean up to 1.8 (witnesses)"
  },
  {
   "property": "C50",
   "status": "partial",
   "theorems": [
    "LFM.C50_layer_kept_partial",
    "LFM.C50_lazy_partial",
    "LFM.C50_ibp_wrong",
    "LFM.C50_lazy_wrong",
    "LFM.C50_hypotheses_met"
   ],
   "note": "all histories of calls; a failing call on an OR-AND-IBP layer renames its model, and lazy calls return probabilities even if the last call did not (witnesses)"
  },
  {
   "property": "C51",
   "status": "partial",
   "theorems": [
    "LFM.C51_mc_fraction_partial",
    "LFM.C51_max_and",
    "LFM.C51_max_hypotheses_met",
    "LFM.C51_hypotheses_met",
    "LFM.C49_qL_wrong",
    "LFM.C49_qL_partial"
   ],
   "note": "all operator pairs, OR-AND-IBP and MAX-AND, any number of factors and samples; qL-AND ignores the samples (witness)"
  },
  {
   "property": "C52",
   "status": "proved",
   "theorems": [
    "LFM.C52_exact_expectation",
    "LFM.C52_in_unit_interval",
    "LFM.C52_agrees_with_crisp",
    "LFM.C52_general_expectation",
    "LFM.C52_general_other_names"
   ],
   "note": "all eight two-factor kernels and the general implementation for all 36 models and any arity"
  },
  {
   "property": "C53",
   "status": "partial",
   "theorems": [
    "LFM.C53_exact_expectation_partial",
    "LFM.C53_in_unit_interval_partial",
    "LFM.C53_agrees_with_crisp_partial",
    "LFM.C53_or_xor_wrong",
    "LFM.C53_or_xor_iff"
   ],
   "note": "seven of eight models; the three-factor OR-XOR formula has two wrong signs and can return -1 (witness); it is never too large, and C53_or_xor_iff says exactly when it is right"
  },
  {
   "property": "C54",
   "status": "partial",
   "theorems": [
    "LFM.C54_return_value",
    "LFM.C54_false_certifies_partial",
    "LFM.C54_repeat",
    "LFM.C54_no_action",
    "LFM.C54_reset_reports_again",
    "LFM.C54_wrong",
    "LFM.C54_halves_partial",
    "LFM.C54_isolated_partial",
    "LFM.C54_calls",
    "LFM.C54_halves_met"
   ],
   "note": "termination and return value proved; a single call may leave a useless dimension behind (skips the column after a removed one, witness), repeating until False does not. Of the useless dimensions at most half survive a call (C54_halves_partial), none if no two are neighbours (C54_isolated_partial)"
  },
  {
   "property": "C55",
   "status": "partial",
   "theorems": [
    "LFM.C55_product_partial",
    "LFM.C55_inactive",
    "LFM.C55_hypotheses_met",
    "LFM.C55_wrong"
   ],
   "note": "true if dimensions that coincide in one factor coincide in all; otherwise the prediction can change (witness)"
  },
  {
   "property": "C56",
   "status": "partial",
   "theorems": [
    "LFM.C56_reset_partial",
    "LFM.C56_wrong",
    "LFM.C56_hypotheses_met"
   ],
   "note": "true for reset; whenever a dimension is removed the mask no longer fits (for all layers)"
  },
  {
   "property": "C57",
   "status": "proved",
   "theorems": [
    "LFM.C57_hides_balanced",
    "LFM.C57_too_few",
    "LFM.C57_hypotheses_met"
   ],
   "note": "all data, all draws; ValueError if there are too few ones or minus-ones"
  },
  {
   "property": "C58",
   "status": "proved",
   "theorems": [
    "LFM.C58_hides_observed",
    "LFM.C58_balanced",
    "LFM.C58_unbalanced_iff",
    "LFM.C58_unbalanced_raises",
    "LFM.C58_balanced_raises",
    "LFM.C58_hypotheses_met",
    "LFM.C58_raises_met"
   ],
   "note": "all tensors, all draws, both modes"
  },
  {
   "property": "C59",
   "status": "partial",
   "theorems": [
    "LFM.C59_flips_signs",
    "LFM.C59_flips_signs_biased",
    "LFM.C59_flips_bits",
    "LFM.C59_seed_ignored",
    "LFM.C59_seed_ignored_met",
    "LFM.C59_few_outcomes",
    "LFM.C59_int_wrong"
   ],
   "note": "signs proved; the result is not a function of the seed: a given seed is ignored (for every generator with two differing states), no seed means one of 10000; the 3D function leaves the coding on integer arrays"
  },
  {
   "property": "C60",
   "status": "proved",
   "theorems": [
    "LFM.C60_recodes",
    "LFM.C60_idempotent",
    "LFM.C60_hypothesis_met"
   ],
   "note": "all arrays"
  },
  {
   "property": "C61",
   "status": "proved",
   "theorems": [
    "LFM.C61_unique_ordered",
    "LFM.C61_idempotent"
   ],
   "note": "all lists"
  },
  {
   "property": "C62",
   "status": "proved",
   "theorems": [
    "LFM.C62_centers",
    "LFM.C62_hypothesis_met",
    "LFM.C62_needs_blocks"
   ],
   "note": "lists in which equal labels are adjacent, as the property says"
  },
  {
   "property": "C63",
   "status": "partial",
   "theorems": [
    "LFM.C63_checks_antichain_partial",
    "LFM.C63_disjoint_nonempty_partial",
    "LFM.C63_wrong",
    "LFM.C63_hypotheses_met"
   ],
   "note": "the function tests that no column contains another, not disjointness (witness)"
  },
  {
   "property": "C64",
   "status": "partial",
   "theorems": [
    "LFM.C64_can_return_iff",
    "LFM.C64_wrong",
    "LFM.C64_result_partial",
    "LFM.C64_terminates_partial",
    "LFM.C64_hypothesis_met"
   ],
   "note": "result proved; it can return exactly up to Sperner's bound on L (witness beyond), and then terminates with probability one"
  },
  {
   "property": "C65",
   "status": "proved",
   "theorems": [
    "LFM.C65_tensor_product",
    "LFM.C65_rejects",
    "LFM.C65_hypotheses_met"
   ],
   "note": "all matrices"
  },
  {
   "property": "C66",
   "status": "proved",
   "theorems": [
    "LFM.C66_cell",
    "LFM.C66_density",
    "LFM.C66_no_dimension"
   ],
   "note": "all sizes and densities in [0,1]; the probability is that of independent uniform draws"
  },
  {
   "property": "C67",
   "status": "partial",
   "theorems": [
    "LFM.C67_bp_exact_partial",
    "LFM.C67_bp_padded_partial",
    "LFM.C67_bp_length_wrong",
    "LFM.C67_bp_certain",
    "LFM.C67_bbp_partial",
    "LFM.C67_bbp_wrong",
    "LFM.C67_example"
   ],
   "note": "all entries that are log-ratios are right, for all parameters; the padded result is one longer than N, n=0 gives length 1 and q=1 raises ZeroDivisionError (witnesses)"
  },
  {
   "property": "C68",
   "status": "partial",
   "theorems": [
    "LFM.C68_labels_partial",
    "LFM.C68_wrong"
   ],
   "note": "labels are right; the zip object is used up by the first comprehension, so the second argument is empty whenever anything is held out (witness)"
  },
  {
   "property": "C69",
   "status": "proved",
   "theorems": [
    "LFM.C69_expit",
    "LFM.C69_inverse",
    "LFM.C69_logit_ends",
    "LFM.C69_logsumexp"
   ],
   "note": "all reals, all non-empty vectors"
  },
  {
   "property": "C70",
   "status": "proved",
   "theorems": [
    "LFM.C70_compares_halves",
    "LFM.C70_constant",
    "LFM.C70_never",
    "LFM.C70_detects",
    "LFM.C70_vectors"
   ],
   "note": "all traces (also with infinities and nan) and all eps"
  },
  {
   "property": "C71",
   "status": "proved",
   "theorems": [
    "LFM.C71_missing_pattern_unchanged"
   ],
   "note": ""
  },
  {
   "property": "C72",
   "status": "partial",
   "theorems": [
    "LFM.C72_factor_samplers",
    "LFM.QLFcts_assign_ok",
    "LFM.C72_threshold_sampler_partial",
    "LFM.C72_both_factors_fixed_wrong"
   ],
   "note": "the threshold sampler is assigned only as a side effect of assigning a factor's function (witness: both factors fixed)"
  },
  {
   "property": "C73",
   "status": "partial",
   "theorems": [
    "LFM.C73_new_columns_partial",
    "LFM.C73_one_row_partial",
    "LFM.C73_any_row_partial",
    "LFM.C73_wrong"
   ],
   "note": "the probabilities the code uses are proved for every row of every state; the prior is evaluated at L + k instead of k: right only while no column is left, and for q = 1/2 (witness)"
  },
  {
   "property": "C74",
   "status": "proved",
   "theorems": [
    "LFM.C74_old_split",
    "LFM.C74_old_split_full",
    "LFM.C74_missing_data",
    "LFM.C74_hypotheses_met"
   ],
   "note": "all tensors, all draws"
  },
  {
   "property": "C75",
   "status": "partial",
   "theorems": [
    "LFM.C75_expected_maximum_partial",
    "LFM.C75_exact",
    "LFM.C75_at_most",
    "LFM.C75_at_least",
    "LFM.C75_iff",
    "LFM.C75_iff_met",
    "LFM.C75_wrong_order",
    "LFM.C75_wrong_ties",
    "LFM.C49_max_factor_mean_partial"
   ],
   "note": "true if lambdas are ordered strictly like probability times lambda; false in general (two witnesses). C75_exact says what a cell is for all inputs; without equal products it is at most the expected maximum, and C75_iff says exactly when it is equal"
  },
  {
   "property": "C76",
   "status": "partial",
   "theorems": [
    "LFM.C76_hierarchy_posterior_partial",
    "LFM.C76_example"
   ],
   "note": "any number of layers of two and three factors in any arrangement without a layer on its own factor, any schedule of updates; missing: more than two parents (NotImplemented/ignored), two parents of different models (false, see C23), layers on top of a factor of a three-factor layer (the code fails, see C23_three_factors_fail), factors of two-factor layers with more than 32767 rows, imputed data"
  },
  {
   "property": "C77",
   "status": "partial",
   "theorems": [
    "LFM.C77_other_types",
    "LFM.C77_int8_partial",
    "LFM.C77_hypotheses_met",
    "LFM.C77_int8_wrong"
   ],
   "note": "all histories; true unless the array is int8; int8 arrays are negated once per inverting model (witness: two machines on one array)"
  },
  {
   "property": "C78",
   "status": "partial",
   "theorems": [
    "LFM.C78_samples_stationary_partial",
    "LFM.C78_mean_unbiased_partial",
    "LFM.C78_hypotheses_met"
   ],
   "note": "all hierarchies as in C76 (two- and three-factor layers), burn-in settings, sample indices and update orders; with fixed lambdas annealing has no effect (C44_fixed_lambdas); missing: sampled lambdas, automatic clean-up, the cases missing in C76"
  },
  {
   "property": "C79",
   "status": "partial",
   "theorems": [
    "LFM.C79_converges_given_partial",
    "LFM.C79_limit_given_partial",
    "LFM.C79_converges_partial",
    "LFM.C79_noTies",
    "LFM.C79_example",
    "LFM.C79_given_hypotheses_met",
    "LFM.C78_hypotheses_met",
    "LFM.C79_mixing_partial",
    "LFM.C79_mixing_iff",
    "LFM.C79_odd_partial",
    "LFM.C79_balanced",
    "LFM.C79_or_nand",
    "LFM.C79_odd_hypotheses_met",
    "LFM.C79_unobserved_actual",
    "LFM.C79_wrong",
    "LFM.C79_quiet",
    "LFM.C79_quiet_hypotheses_met"
   ],
   "note": "geometric convergence, uniformly in the start and the update order, to the posterior given whatever matrices and entries are fixed, if no sampled entry is ever indifferent. With prior 1/2 (the default) entries are indifferent at times; with random orders, as in the code, C79_mixing_iff says exactly when the samples converge. They do for odd data and up to two latent dimensions (C79_odd_partial); they do not for balanced data, whatever the model (C79_balanced), nor for OR-NAND with two or more latent dimensions, whatever the data (C79_or_nand), nor for any other model with enough latent dimensions, whatever the data (C79_quiet: from 3 for OR-XOR and NAND-XOR, from 6 for OR-AND; up to 2 they do for odd data); entries of unobserved rows alternate deterministically for ever (C79_unobserved_actual)"
  },
  {
   "property": "C80",
   "status": "partial",
   "theorems": [
    "LFM.C80_average_given_partial",
    "LFM.C80_mean_square_given_partial",
    "LFM.C80_consistent_given_partial",
    "LFM.C80_map_given_partial",
    "LFM.C80_linked_partial",
    "LFM.C80_average_iff",
    "LFM.C80_of_converge",
    "LFM.C80_linked_mean_partial",
    "LFM.C80_linked_consistent_partial",
    "LFM.C80_linked_map_partial",
    "LFM.C80_odd_partial",
    "LFM.C80_balanced",
    "LFM.C80_or_nand",
    "LFM.C80_one_entry",
    "LFM.C80_one_entry_met",
    "LFM.C80_wrong",
    "LFM.C79_given_hypotheses_met",
    "LFM.C79_odd_hypotheses_met",
    "LFM.C79_example",
    "LFM.C80_quiet",
    "LFM.C79_quiet_hypotheses_met"
   ],
   "note": "mean square error at most C/S for any function of the factors, uniformly in start, burn-in and update order, relative to the posterior given whatever matrices and entries are fixed, if no sampled entry is ever indifferent. With random update orders, as in the code, C80_average_iff says exactly when averages converge: if and only if all configurations are linked by changes that matter and changes of all free entries at once (the samples themselves need not converge: C80_one_entry). With the default prior they do for odd data and up to two latent dimensions (C80_odd_partial), they do not for balanced data (C80_balanced) nor for OR-NAND (C80_or_nand) nor for any model with enough latent dimensions, whatever the data (C80_quiet). As stated the property is wrong: a missing cell that every sample predicts to be false (C80_wrong)"
  },
  {
   "property": "C81",
   "status": "partial",
   "theorems": [
    "LFM.C81_predicts_partial",
    "LFM.C81_mc",
    "LFM.C81_mc_wrong",
    "LFM.C81_hypotheses_met",
    "LFM.C81_built_partial",
    "LFM.C81_built_hypotheses_met"
   ],
   "note": "C81_built_partial: every layer of every machine that calls have built. The others: with or without annealing; single layer of any of the eight models, two or three factors, anything fixed, all clean-up flags and draws, at least one sample; factor_mean needs two factors or OR-AND; mc raises AttributeError whenever lambda or a factor is fixed (all such machines)"
  },
  {
   "property": "C82",
   "status": "proved",
   "theorems": [
    "LFM.C82_families",
    "LFM.C82_clans",
    "LFM.C82_rejects",
    "LFM.C82_implemented"
   ],
   "note": "both lists, both modes; uniqueness by transitivity and seven small factor arrays that tell the representatives apart"
  },
  {
   "property": "C83",
   "status": "partial",
   "theorems": [
    "LFM.C83_closest_partial",
    "LFM.C83_inverts_partial",
    "LFM.C83_wrong",
    "LFM.C83_unknown_rejected",
    "LFM.C83_absurd_density",
    "LFM.C83_hypotheses_met"
   ],
   "note": "the solver is scipy's: an arbitrary function here; for 34 of the 36 models (as C13). One solution outside [0, 1] makes the function fail with TypeError, even if another is exact"
  },
  {
   "property": "C84",
   "status": "proved",
   "theorems": [
    "LFM.C84_point_estimate",
    "LFM.C84_factor_map",
    "LFM.C84_set_to_map",
    "LFM.C84_set_to_map_max",
    "LFM.C84_hypotheses_met"
   ],
   "note": "all 36 models, OR-AND-IBP and, for set_to_map, MAX-AND; any number of factors; for qL-AND see C49_qL_wrong"
  },
  {
   "property": "C85",
   "status": "partial",
   "theorems": [
    "LFM.C85_relevance_partial",
    "LFM.C85_fractions",
    "LFM.C85_ties_wrong",
    "LFM.C85_wrong",
    "LFM.C85_hypotheses_met"
   ],
   "note": "all layers, data and traces, provided the attribute `eigenvals` is set to None by hand: a layer never has it and the call raises AttributeError (C85_wrong); sum at most 1 if the parameters differ, false otherwise (C85_ties_wrong); a second call returns the old value whatever has been sampled since"
  },
  {
   "property": "C86",
   "status": "partial",
   "theorems": [
    "LFM.C86_fixed_partial",
    "LFM.C86_wrong",
    "LFM.C86_instance"
   ],
   "note": "all machines and update functions, for fix_lbda_iters up to burn_in_min; a larger value has the same effect as burn_in_min (C86_wrong, for all machines; C86_instance is a run)"
  },
  {
   "property": "C87",
   "status": "partial",
   "theorems": [
    "LFM.C87_point_estimate",
    "LFM.C87_factor_map",
    "LFM.C87_factor_mean_partial",
    "LFM.C87_factor_mean_three",
    "LFM.C87_mc",
    "LFM.C87_wrong",
    "LFM.C87_hypotheses_met"
   ],
   "note": "all 36 models; factor_mean is a probability for two factors, or three and a model treated as OR-AND, otherwise the prediction from entries all of whose samples are ones. False without the last clause: for models that invert their data every cell of the output differs from what the model asked for generates (C87_wrong)"
  },
  {
   "property": "C88",
   "status": "partial",
   "theorems": [
    "LFM.C88_accuracy_partial",
    "LFM.C88_three",
    "LFM.C88_no_test_cells",
    "LFM.C88_aliased_wrong",
    "LFM.C88_hypotheses_met"
   ],
   "note": "all 36 models, all draws, with and without annealing, two axes or three and OR-AND (C88_three for the others, where an entry counts as one only if all its samples are). An empty mask gives nan; if X and X_train are one int8 array and the model inverts its data, the result is the share of cells predicted wrong (C88_aliased_wrong)"
  },
  {
   "property": "C89",
   "status": "partial",
   "theorems": [
    "LFM.C89_unbalanced",
    "LFM.C89_balanced",
    "LFM.C89_forever",
    "LFM.C89_nothing_held_out",
    "LFM.C89_hypotheses_met"
   ],
   "note": "all tensors and draws, in exact arithmetic: ends if and only if a cell is observed (balanced: a one and a minus-one); a balanced split of fewer than 200 observed cells that fails once holds out nothing"
  },
  {
   "property": "C90",
   "status": "partial",
   "theorems": [
    "LFM.C90_table_partial",
    "LFM.C90_separate_data",
    "LFM.C90_shared_data",
    "LFM.C90_large_grid_wrong",
    "LFM.C90_default_machines",
    "LFM.C90_hypotheses_met"
   ],
   "note": "all lists of the 36 models, sizes and draws for two axes. With an int8 tensor the data are the same up to 112 experiments; beyond, experiments are run on data negated once for each inverting model that precedes them in their chunk (C90_shared_data, C90_large_grid_wrong). Without `machines` NameError"
  },
  {
   "property": "C91",
   "status": "proved",
   "theorems": [
    "LFM.C91_lambda_of_sample",
    "LFM.C91_hypotheses_met"
   ],
   "note": "machines with a single layer of the eight generic models, two or three factors, any of them fixed or free, all draws, with and without annealing and clean-ups"
  },
  {
   "property": "C92",
   "status": "partial",
   "theorems": [
    "LFM.C92_exchangeable",
    "LFM.C92_equal_means",
    "LFM.C92_means_agree_partial",
    "LFM.C92_map_one_column_partial",
    "LFM.C92_means_agree_linked_partial",
    "LFM.C92_map_linked_partial",
    "LFM.C92_linked_met",
    "LFM.C92_hypotheses_met",
    "LFM.C92_map_hypotheses_met"
   ],
   "note": "false: the posterior is invariant under swapping latent dimensions of a layer of which nothing is fixed, so expectations are equal across dimensions, averages get equal with more samples, and set_to_map gives all dimensions one column (and cannot reconstruct, e.g., the identity) with probability 1 - C/S. For hierarchies of any depth; the statements about runs need fixed lambdas and entries that are never exactly indifferent (see C79, C80), the one about set_to_map expectations other than 0"
  },
  {
   "property": "C93",
   "status": "partial",
   "theorems": [
    "LFM.C93_reconstruction",
    "LFM.C93_coding",
    "LFM.C93_missing_wrong",
    "LFM.C93_matrices_fail",
    "LFM.C93_hypotheses_met"
   ],
   "note": "all tensors with three axes and all draws; false about missing cells of tensors that have no minus one: they are taken for zeros of 0/1 coding (C93_missing_wrong, for all tensors). Matrices raise IndexError"
  },
  {
   "property": "C94",
   "status": "proved",
   "theorems": [
    "LFM.C94_missing_slices",
    "LFM.C94_hypotheses_met"
   ],
   "note": "machines with a single layer of the eight generic models whose sampling functions are not assigned yet, two or three axes (int16 scores: up to 32767 rows and columns for two axes), with or without annealing and fixed factors or entries; automatic clean-up switched off (it looks at all rows)"
  },
  {
   "property": "C95",
   "status": "proved",
   "theorems": [
    "LFM.C95_row_order",
    "LFM.C95_hypotheses_met"
   ],
   "note": "same machines as C94"
  },
  {
   "property": "C96",
   "status": "proved",
   "theorems": [
    "LFM.C96_axes_order",
    "LFM.C96_hypotheses_met"
   ],
   "note": "same machines as C94"
  },
  {
   "property": "C97",
   "status": "partial",
   "theorems": [
    "LFM.C97_ibp_infer",
    "LFM.C97_growth",
    "LFM.C97_overflows",
    "LFM.C97_wrong",
    "LFM.C97_hypotheses_met"
   ],
   "note": "false: traces have room for ten columns more than there are after burn-in, while one sweep can add two columns per row, so for 2N > L + 10 there are draws for which infer raises ValueError (C97_overflows). Proved: inference returns exactly if all samples have at most ten more columns than at the end of burn-in, and then samples are as claimed; otherwise ValueError. All draws, with and without annealing, clean-up and fixed factors (if the first factor is sampled, the second is resized even if fixed, see C38)"
  },
  {
   "property": "C98",
   "status": "partial",
   "theorems": [
    "LFM.C98_max_infer",
    "LFM.C98_annealing_raises",
    "LFM.C98_clean_misaligned",
    "LFM.C98_stale_background",
    "LFM.C98_clean_wrong",
    "LFM.C98_hypotheses_met",
    "LFM.C98_annealing_met"
   ],
   "note": "proved without annealing and clean-up. With annealing inference raises ValueError as soon as there is a burn-in turn; if clean-up removes a latent dimension, there are too many lambdas afterwards, and the next update takes a stale one for the background"
  },
  {
   "property": "C99",
   "status": "proved",
   "theorems": [
    "LFM.C99_qL_infer",
    "LFM.C99_both_factors_fixed",
    "LFM.C99_hypotheses_met"
   ],
   "note": "machines with a single layer; fixed factors are unchanged unless clean-up is on (see C43). If thresholds are inferred with both factors fixed, and have no sampler yet, infer raises ValueError as soon as there is a burn-in turn"
  }
 ]
}