{
 "claims": [
  {
   "property": "C01",
   "status": "proved",
   "theorems": [
    "Hpelm.Props.C01_bookkeeping",
    "Hpelm.Props.C01_bookkeeping_on_disk"
   ],
   "note": ""
  },
  {
   "property": "C02",
   "status": "proved",
   "theorems": [
    "Hpelm.Props.C02_merge",
    "Hpelm.Props.C02_preserve"
   ],
   "note": ""
  },
  {
   "property": "C03",
   "status": "proved",
   "theorems": [
    "Hpelm.Props.C03_predict_row",
    "Hpelm.Props.C03_predict_stack",
    "Hpelm.Props.C03_project_row",
    "Hpelm.Props.C03_project_stack"
   ],
   "note": ""
  },
  {
   "property": "C04",
   "status": "proved",
   "theorems": [
    "Hpelm.Props.C04_default_lin"
   ],
   "note": ""
  },
  {
   "property": "C05",
   "status": "proved",
   "theorems": [
    "Hpelm.Props.C05_ranges"
   ],
   "note": ""
  },
  {
   "property": "C06",
   "status": "partial",
   "theorems": [
    "Hpelm.Props.C06_accepted_usable_partial",
    "Hpelm.Props.C06_accepted_usable_refuted"
   ],
   "note": "False as stated (NumPy ufuncs are accepted but cannot be projected): refuted; the partial theorem covers every history that uses only the documented neuron names."
  },
  {
   "property": "C07",
   "status": "proved",
   "theorems": [
    "Hpelm.Props.C07_structure_invalidates"
   ],
   "note": ""
  },
  {
   "property": "C08",
   "status": "proved",
   "theorems": [
    "Hpelm.Props.C08_prune"
   ],
   "note": ""
  },
  {
   "property": "C09",
   "status": "proved",
   "theorems": [
    "Hpelm.Props.C09_batches",
    "Hpelm.Props.C09_empty_refused"
   ],
   "note": ""
  },
  {
   "property": "C10",
   "status": "proved",
   "theorems": [
    "Hpelm.Props.C10_batch_size"
   ],
   "note": ""
  },
  {
   "property": "C11",
   "status": "partial",
   "theorems": [
    "Hpelm.Props.C11_parts_partial",
    "Hpelm.Props.C11_parts_refuted"
   ],
   "note": "False as stated: with automatic class weights ('wc' without w) the weights are computed from the first part only, so parts and the whole differ (C11_parts_refuted). The partial theorem covers every other mode: any kind, given weights, any split into parts."
  },
  {
   "property": "C12",
   "status": "proved",
   "theorems": [
    "Hpelm.Props.C12_order_add_data",
    "Hpelm.Props.C12_order_train"
   ],
   "note": ""
  },
  {
   "property": "C13",
   "status": "proved",
   "theorems": [
    "Hpelm.Props.C13_forgets",
    "Hpelm.Props.C13_forgets_disk"
   ],
   "note": ""
  },
  {
   "property": "C14",
   "status": "proved",
   "theorems": [
    "Hpelm.Props.C14_ridge_optimum"
   ],
   "note": ""
  },
  {
   "property": "C15",
   "status": "proved",
   "theorems": [
    "Hpelm.Props.C15_disk_add",
    "Hpelm.Props.C15_disk_solve",
    "Hpelm.Props.C15_disk_train",
    "Hpelm.Props.C15_disk_validation",
    "Hpelm.Props.C15_files_posdef",
    "Hpelm.Props.C15_same_corr",
    "Hpelm.Props.C15_same_train",
    "Hpelm.Props.C15_same_weights"
   ],
   "note": ""
  },
  {
   "property": "C16",
   "status": "partial",
   "theorems": [
    "Hpelm.Props.C16_set_get_partial",
    "Hpelm.Props.C16_set_get_python",
    "Hpelm.Props.C16_set_get_refuted",
    "Hpelm.Props.C16_set_get_triangular"
   ],
   "note": "False for the default solver with a full symmetric HH: get_corr doubles its strict lower triangle (C16_set_get_refuted). Proved for the basic and the GPU solver, and for the default solver when HH is upper triangular."
  },
  {
   "property": "C17",
   "status": "partial",
   "theorems": [
    "Hpelm.Props.C17_full_partial",
    "Hpelm.Props.C17_full_refuted",
    "Hpelm.Props.C17_posDef"
   ],
   "note": "False: in the rank-deficient branch the default solver symmetrises a matrix that may be full already (C17_full_refuted, for every lawful numeric environment). Proved for positive definite matrices, and for upper triangular input."
  },
  {
   "property": "C18",
   "status": "proved",
   "theorems": [
    "Hpelm.Props.C18_weighted_sums",
    "Hpelm.Props.C18_weighted_sums_add_data"
   ],
   "note": ""
  },
  {
   "property": "C19",
   "status": "proved",
   "theorems": [
    "Hpelm.Props.C19_auto_weights_balance"
   ],
   "note": ""
  },
  {
   "property": "C20",
   "status": "partial",
   "theorems": [
    "Hpelm.Props.C20_length_checked",
    "Hpelm.Props.C20_shift_partial",
    "Hpelm.Props.C20_shift_refuted"
   ],
   "note": "False: a target row without or with several ones shifts the weights of all following samples (C20_shift_refuted). Proved for one-hot targets; a wrong number of weights is rejected (C20_length_checked)."
  },
  {
   "property": "C21",
   "status": "partial",
   "theorems": [
    "Hpelm.Props.C21_conflicts_rejected",
    "Hpelm.Props.C21_kind_partial",
    "Hpelm.Props.C21_kind_refuted"
   ],
   "note": "Conflicting flags are always rejected (proved). The kind is what was asked for, except when 'r' is given together with another kind: train(X, T, 'c', 'r') trains as regression without an error (C21_kind_refuted)."
  },
  {
   "property": "C22",
   "status": "partial",
   "theorems": [
    "Hpelm.Props.C22_case_partial",
    "Hpelm.Props.C22_case_refuted"
   ],
   "note": "False for V, CV and LOO, whose spelling is tested on the original arguments (C22_case_refuted). Proved for all other flags."
  },
  {
   "property": "C23",
   "status": "partial",
   "theorems": [
    "Hpelm.Props.C23_constructor_case_refuted",
    "Hpelm.Props.C23_constructor_partial",
    "Hpelm.Props.C23_constructor_train_refuted"
   ],
   "note": "False: an upper-case kind is stored as it is and never recognised, and train() resets the kind given to the constructor (both refuted). Proved for lower-case kinds until the next train()."
  },
  {
   "property": "C24",
   "status": "proved",
   "theorems": [
    "Hpelm.Props.C24_checkdata",
    "Hpelm.Props.C24_rejects"
   ],
   "note": ""
  },
  {
   "property": "C25",
   "status": "proved",
   "theorems": [
    "Hpelm.Props.C25_confusion"
   ],
   "note": ""
  },
  {
   "property": "C26",
   "status": "proved",
   "theorems": [
    "Hpelm.Props.C26_confusion_ml"
   ],
   "note": ""
  },
  {
   "property": "C27",
   "status": "proved",
   "theorems": [
    "Hpelm.Props.C27_classification_error"
   ],
   "note": ""
  },
  {
   "property": "C28",
   "status": "proved",
   "theorems": [
    "Hpelm.Props.C28_multilabel_error",
    "Hpelm.Props.C28_regression_error"
   ],
   "note": ""
  },
  {
   "property": "C29",
   "status": "proved",
   "theorems": [
    "Hpelm.Props.C29_weighted_error"
   ],
   "note": ""
  },
  {
   "property": "C30",
   "status": "partial",
   "theorems": [
    "Hpelm.Props.C30_hpelm_error_partial",
    "Hpelm.Props.C30_hpelm_error_refuted"
   ],
   "note": "False for weighted classification when some class has no samples in the range: HPELM.error is 0/0 = NaN where ELM.error skips the class (C30_hpelm_error_refuted). Proved for all kinds, ranges and batch sizes otherwise."
  },
  {
   "property": "C31",
   "status": "proved",
   "theorems": [
    "Hpelm.Props.C31_returned_size",
    "Hpelm.Props.C31_search_in_range",
    "Hpelm.Props.C31_selected_in_range",
    "Hpelm.Props.C31_train_terminates"
   ],
   "note": ""
  },
  {
   "property": "C32",
   "status": "proved",
   "theorems": [
    "Hpelm.Props.C32_best_tried_cv",
    "Hpelm.Props.C32_best_tried_loo",
    "Hpelm.Props.C32_best_tried_validation",
    "Hpelm.Props.C32_returned_loo_partial",
    "Hpelm.Props.C32_returned_partial"
   ],
   "note": "The best_tried theorems prove the property for all three searches in terms of the searches' scores. The returned theorems are corollaries stated on train(): the scores are errors of networks trained directly, under the extra hypotheses named there (ranking of the whole network, unweighted, for leave-one-out regression)."
  },
  {
   "property": "C33",
   "status": "partial",
   "theorems": [
    "Hpelm.Props.C33_near_partial",
    "Hpelm.Props.C33_unimodal_partial",
    "Hpelm.Props.C33_unimodal_refuted"
   ],
   "note": "False: the search misses the minimum of some unimodal curves (C33_unimodal_refuted). Proved: exact for every strictly unimodal curve when the number of sizes is one more than a power of two; for every number of sizes the result is within 2*log2(number of sizes)+5 of the minimum (C33_near_partial)."
  },
  {
   "property": "C34",
   "status": "proved",
   "theorems": [
    "Hpelm.Props.C34_folds_partition",
    "Hpelm.Props.C34_returned_test_error",
    "Hpelm.Props.C34_rounds_use_folds"
   ],
   "note": ""
  },
  {
   "property": "C35",
   "status": "partial",
   "theorems": [
    "Hpelm.Props.C35_cv_completes_partial",
    "Hpelm.Props.C35_small_networks_refuted"
   ],
   "note": "False: cross-validation of a network with fewer than three neurons raises IndexError (C35_small_networks_refuted). Proved for every network with at least three neurons."
  },
  {
   "property": "C36",
   "status": "partial",
   "theorems": [
    "Hpelm.Props.C36_full_size_partial",
    "Hpelm.Props.C36_selected_error_refuted"
   ],
   "note": "False: the reported test error is that of the network before pruning (C36_selected_error_refuted). Proved when the selected size is the full size."
  },
  {
   "property": "C37",
   "status": "proved",
   "theorems": [
    "Hpelm.Props.C37_loo_completes",
    "Hpelm.Props.C37_loo_training",
    "Hpelm.Props.C37_press_exact"
   ],
   "note": ""
  },
  {
   "property": "C38",
   "status": "partial",
   "theorems": [
    "Hpelm.Props.C38_cutoff_refuted",
    "Hpelm.Props.C38_loo_below_cutoff_partial",
    "Hpelm.Props.C38_loo_partial",
    "Hpelm.Props.C38_validation_below_cutoff_partial",
    "Hpelm.Props.C38_validation_completes",
    "Hpelm.Props.C38_validation_partial"
   ],
   "note": "False for 'OP' with kmax below the number of neurons if the size kmax itself is selected (C38_cutoff_refuted) and for weighted classification (C39). Proved: validation for unweighted kinds and leave-one-out for regression, for every ranking of the whole network, and for every other ranking (limited by kmax, or by the number of samples with ten or more outputs) whenever the selected size is below the limit."
  },
  {
   "property": "C39",
   "status": "partial",
   "theorems": [
    "Hpelm.Props.C39_returned_unweighted",
    "Hpelm.Props.C39_weights_lost_refuted"
   ],
   "note": "False: after structure selection the returned model is always trained without the weights (C39_returned_unweighted proves this for every run; C39_weights_lost_refuted is the witness)."
  },
  {
   "property": "C40",
   "status": "partial",
   "theorems": [
    "Hpelm.Props.C40_ranking_partial",
    "Hpelm.Props.C40_ranking_raises_refuted",
    "Hpelm.Props.C40_too_short_refuted"
   ],
   "note": "False: the ranking can raise (C40_ranking_raises_refuted) or be shorter than requested (ten or more outputs and few samples, C40_too_short_refuted). Proved: whenever a ranking is returned, its entries are distinct valid neurons, and with fewer than ten outputs it has the requested length."
  },
  {
   "property": "C41",
   "status": "proved",
   "theorems": [
    "Hpelm.Props.C41_first_pick",
    "Hpelm.Props.C41_sign_table"
   ],
   "note": ""
  },
  {
   "property": "C42",
   "status": "proved",
   "theorems": [
    "Hpelm.Props.C42_ranges"
   ],
   "note": ""
  },
  {
   "property": "C43",
   "status": "proved",
   "theorems": [
    "Hpelm.Props.C43_train"
   ],
   "note": ""
  },
  {
   "property": "C44",
   "status": "proved",
   "theorems": [
    "Hpelm.Props.C44_past_end",
    "Hpelm.Props.C44_predict"
   ],
   "note": ""
  },
  {
   "property": "C45",
   "status": "partial",
   "theorems": [
    "Hpelm.Props.C45_istart_raises",
    "Hpelm.Props.C45_project_partial",
    "Hpelm.Props.C45_project_refuted"
   ],
   "note": "False for istart > 0: every such projection into a file raises or writes to wrong rows (C45_project_refuted, C45_istart_raises). Proved for istart = 0 and all counts and batch sizes."
  },
  {
   "property": "C46",
   "status": "partial",
   "theorems": [
    "Hpelm.Props.C46_auto_weights_refuted",
    "Hpelm.Props.C46_incremental_partial",
    "Hpelm.Props.C46_part_completes",
    "Hpelm.Props.C46_solve_completes"
   ],
   "note": "False for automatic class weights, which are computed for each part (C46_auto_weights_refuted). Proved for all other modes, for any number of parts in any order of ranges."
  },
  {
   "property": "C47",
   "status": "partial",
   "theorems": [
    "Hpelm.Props.C47_creation_race_refuted",
    "Hpelm.Props.C47_existing_files",
    "Hpelm.Props.C47_mutual_exclusion",
    "Hpelm.Props.C47_no_deadlock",
    "Hpelm.Props.C47_no_lost_update_partial",
    "Hpelm.Props.C47_terminates"
   ],
   "note": "False when the files do not exist yet and two writers create them at the same time (C47_creation_race_refuted). Proved for existing files (and for any number of writers and interleavings): nothing is lost, mutual exclusion, no deadlock, termination."
  },
  {
   "property": "C48",
   "status": "partial",
   "theorems": [
    "Hpelm.Props.C48_same_subset_partial",
    "Hpelm.Props.C48_subset_partial",
    "Hpelm.Props.C48_torn_file_refuted",
    "Hpelm.Props.C48_torn_pair_refuted"
   ],
   "note": "False: a crash inside the write of a matrix leaves a torn file, a crash between the two files leaves HH and HT of different sets of writers (both refuted). Proved for crashes at all other points."
  },
  {
   "property": "C49",
   "status": "proved",
   "theorems": [
    "Hpelm.Props.C49_async_predict",
    "Hpelm.Props.C49_async_predict_ends",
    "Hpelm.Props.C49_start_fails"
   ],
   "note": ""
  },
  {
   "property": "C50",
   "status": "partial",
   "theorems": [
    "Hpelm.Props.C50_async_train_ends",
    "Hpelm.Props.C50_async_train_partial",
    "Hpelm.Props.C50_beyond_end_refuted",
    "Hpelm.Props.C50_start_fails",
    "Hpelm.Props.C50_train_async"
   ],
   "note": "False for a range that starts behind the end of the data by a batch or more: the asynchronous version hangs while the synchronous one returns (C50_beyond_end_refuted). Proved for all other calls and all interleavings."
  },
  {
   "property": "C51",
   "status": "partial",
   "theorems": [
    "Hpelm.Props.C51_candidates_trained",
    "Hpelm.Props.C51_validation_corr_partial",
    "Hpelm.Props.C51_weighted_refuted"
   ],
   "note": "False for weighted classification: the reported error depends on the batch size (C51_weighted_refuted). Proved for all other kinds."
  },
  {
   "property": "C52",
   "status": "proved",
   "theorems": [
    "Hpelm.Props.C52_load_last",
    "Hpelm.Props.C52_round_trip"
   ],
   "note": ""
  },
  {
   "property": "C53",
   "status": "partial",
   "theorems": [
    "Hpelm.Props.C53_chosen_solver_partial",
    "Hpelm.Props.C53_merge_refuted",
    "Hpelm.Props.C53_sizes_refuted",
    "Hpelm.Props.C53_solver_lost_refuted"
   ],
   "note": "False: an object created without an explicit solver loses its solver, loading into a non-empty object merges neurons, and an object of other sizes keeps its sizes (all refuted). Proved for an empty object of the same sizes with an explicitly chosen solver."
  },
  {
   "property": "C54",
   "status": "partial",
   "theorems": [
    "Hpelm.Props.C54_fed_data_lost_refuted",
    "Hpelm.Props.C54_feed_after_load_partial",
    "Hpelm.Props.C54_train_after_load_partial",
    "Hpelm.Props.C54_train_any_solver",
    "Hpelm.Props.C54_train_identical"
   ],
   "note": "Data that was fed but not solved is lost by saving (C54_fed_data_lost_refuted). Proved: train after load is identical for every kind of training and every solver (C54_train_identical, C54_train_any_solver), feeding after load gives the result of feeding a reset model."
  },
  {
   "property": "C55",
   "status": "partial",
   "theorems": [
    "Hpelm.Props.C55_crash_partial",
    "Hpelm.Props.C55_crash_refuted",
    "Hpelm.Props.C55_save_finishes"
   ],
   "note": "False: save() truncates the file before it writes, so a crash in between destroys the old model (C55_crash_refuted). Proved: outside of that window the file holds the old or the new model, and a crash-free save stores the new one."
  },
  {
   "property": "C56",
   "status": "proved",
   "theorems": [
    "Hpelm.Props.C56_matrix",
    "Hpelm.Props.C56_text",
    "Hpelm.Props.C56_vector",
    "Hpelm.Props.C56_zeros"
   ],
   "note": ""
  },
  {
   "property": "C57",
   "status": "proved",
   "theorems": [
    "Hpelm.Props.C57_batch_size",
    "Hpelm.Props.C57_parameters"
   ],
   "note": ""
  },
  {
   "property": "C58",
   "status": "partial",
   "theorems": [
    "Hpelm.Props.C58_explicit_partial",
    "Hpelm.Props.C58_not_applied_refuted",
    "Hpelm.Props.C58_repeat_refuted",
    "Hpelm.Props.C58_twice_refuted",
    "Hpelm.Props.C58_two_calls_partial"
   ],
   "note": "False: a call without parameters only computes and stores them and leaves the data as they are, repeating it raises, repeating a call with parameters normalizes again (all refuted). Proved: a call with parameters normalizes once, and computing the parameters with one call and applying them with a second one normalizes the file."
  },
  {
   "property": "C59",
   "status": "proved",
   "theorems": [
    "Hpelm.Props.C59_bounded",
    "Hpelm.Props.C59_neuron_formulas",
    "Hpelm.Props.C59_rbf_peak"
   ],
   "note": ""
  },
  {
   "property": "C60",
   "status": "partial",
   "theorems": [
    "Hpelm.Props.C60_gpu_projection",
    "Hpelm.Props.C60_kernel",
    "Hpelm.Props.C60_memory_partial",
    "Hpelm.Props.C60_memory_refuted",
    "Hpelm.Props.C60_overrun"
   ],
   "note": "The projection part is proved for all schedules. Memory safety is false for arrays whose size is not a multiple of the block size: the kernel has no bounds check and overwrites what is stored behind the array (C60_overrun holds for every such size and schedule); proved for multiples."
  },
  {
   "property": "C61",
   "status": "partial",
   "theorems": [
    "Hpelm.Props.C61_hangs",
    "Hpelm.Props.C61_rbf_param",
    "Hpelm.Props.C61_terminates_partial",
    "Hpelm.Props.C61_terminates_refuted"
   ],
   "note": "False: for coinciding data points, or a single one, the function never returns (C61_hangs). Proved otherwise."
  },
  {
   "property": "C62",
   "status": "proved",
   "theorems": [
    "Hpelm.Props.C62_sizes",
    "Hpelm.Props.C62_sizes_rounded"
   ],
   "note": ""
  },
  {
   "property": "C63",
   "status": "partial",
   "theorems": [
    "Hpelm.Props.C63_basic_refuted",
    "Hpelm.Props.C63_model_kept_partial"
   ],
   "note": "False for the basic solver, whose get_corr returns the model's own array, from which add_data then subtracts the regularisation in place (C63_basic_refuted). Proved for the default and the GPU solver."
  },
  {
   "property": "C64",
   "status": "proved",
   "theorems": [
    "Hpelm.Props.C64_outputs_independent",
    "Hpelm.Props.C64_superposition"
   ],
   "note": ""
  },
  {
   "property": "C65",
   "status": "proved",
   "theorems": [
    "Hpelm.Props.C65_neuron_order"
   ],
   "note": ""
  },
  {
   "property": "C66",
   "status": "proved",
   "theorems": [
    "Hpelm.Props.C66_more_neurons"
   ],
   "note": ""
  },
  {
   "property": "C67",
   "status": "proved",
   "theorems": [
    "Hpelm.Props.C67_regularization"
   ],
   "note": ""
  },
  {
   "property": "C68",
   "status": "proved",
   "theorems": [
    "Hpelm.Props.C68_weights_repeat"
   ],
   "note": ""
  },
  {
   "property": "C69",
   "status": "partial",
   "theorems": [
    "Hpelm.Props.C69_agrees",
    "Hpelm.Props.C69_consistent",
    "Hpelm.Props.C69_failed_call",
    "Hpelm.Props.C69_load_refuted"
   ],
   "note": "False for load: loading into a trained model with an explicitly chosen solver raises after the neurons were merged (C69_load_refuted). Proved for every other call, including exceptions inside of structure selection (V, CV, LOO). The state after a computation with NaN/inf is not modelled."
  },
  {
   "property": "C70",
   "status": "partial",
   "theorems": [
    "Hpelm.Props.C70_add_data_partial",
    "Hpelm.Props.C70_add_data_refuted"
   ],
   "note": "False: targets with a wrong number of columns raise after the inputs were accumulated, and one-column targets are broadcast to all outputs. Proved: inputs of wrong width, missing neurons and zero batch size leave no trace."
  },
  {
   "property": "C71",
   "status": "partial",
   "theorems": [
    "Hpelm.Props.C71_predict_after_error_refuted",
    "Hpelm.Props.C71_rewrite_refuted",
    "Hpelm.Props.C71_separate_files_partial"
   ],
   "note": "False: error(T, Y) followed by predict(X, Y) raises ValueError (C71_predict_after_error_refuted, and C71_rewrite_refuted for every such history). Proved for every history in which no file is both given as data and written."
  },
  {
   "property": "C72",
   "status": "partial",
   "theorems": [
    "Hpelm.Props.C72_closed_partial",
    "Hpelm.Props.C72_closed_refuted",
    "Hpelm.Props.C72_growth_refuted",
    "Hpelm.Props.C72_unfinished_refuted"
   ],
   "note": "False: a project(..., istart=1) that raises leaves its result file open after the model is deleted (C72_closed_refuted); every call adds open handles (C72_growth_refuted). Proved for every history in which calls that write files or read stored matrices meet no data-dependent exception."
  },
  {
   "property": "C73",
   "status": "partial",
   "theorems": [
    "Hpelm.Props.C73_crash_partial",
    "Hpelm.Props.C73_hang_refuted",
    "Hpelm.Props.C73_silent_loss_refuted"
   ],
   "note": "False: a dead helper process makes the call hang (C73_hang_refuted, for every call) or lose the last batch silently (C73_silent_loss_refuted). Proved for every death at every moment: termination of all executions, rows are zero or right, complete if the call returns and the writer was not killed."
  },
  {
   "property": "C74",
   "status": "partial",
   "theorems": [
    "Hpelm.Props.C74_train_crash_partial",
    "Hpelm.Props.C74_train_hang_refuted"
   ],
   "note": "False: hang (C74_train_hang_refuted, for every call with samples). Proved for every death at every moment: a returning call gives the result of add_data, batches are atomic."
  },
  {
   "property": "C75",
   "status": "partial",
   "theorems": [
    "Hpelm.Props.C75_cell_partial",
    "Hpelm.Props.C75_quiet_partial",
    "Hpelm.Props.C75_torn_pair_refuted"
   ],
   "note": "False: C75_torn_pair_refuted. Proved: every single cell is the start value plus whole contributions of a set between the finished and the started processes; and both matrices agree if no process writes during the reading."
  },
  {
   "property": "C76",
   "status": "proved",
   "theorems": [
    "Hpelm.Props.C76_sample_order"
   ],
   "note": "Both calls, all kinds, including calls that raise."
  },
  {
   "property": "C77",
   "status": "partial",
   "theorems": [
    "Hpelm.Props.C77_classes_partial",
    "Hpelm.Props.C77_labels",
    "Hpelm.Props.C77_ties_refuted",
    "Hpelm.Props.C77_weighted_partial"
   ],
   "note": "False with tied outputs (C77_ties_refuted): argmax takes the first. Proved without ties for 'c' (error and confusion) and 'wc' (error), and without restriction for 'ml' and regression."
  },
  {
   "property": "C78",
   "status": "partial",
   "theorems": [
    "Hpelm.Props.C78_confusion",
    "Hpelm.Props.C78_error_partial",
    "Hpelm.Props.C78_on_disk_partial",
    "Hpelm.Props.C78_weighted_refuted"
   ],
   "note": "The confusion matrix is additive for all kinds; the error is the weighted average for 'c', 'ml' and regression, in memory for two parts and on disk for any number of consecutive ranges. For 'wc' no such rule exists (C78_weighted_refuted)."
  },
  {
   "property": "C79",
   "status": "proved",
   "theorems": [
    "Hpelm.Props.C79_balance"
   ],
   "note": "Energy identity and the three bounds, weighted and unweighted."
  },
  {
   "property": "C80",
   "status": "proved",
   "theorems": [
    "Hpelm.Props.C80_not_below_training",
    "Hpelm.Props.C80_selection"
   ],
   "note": "IsLooError refits a model per sample, so the theorem does not mention the PRESS formula. Selection: regression with ranking of the whole network (as C38_loo_partial)."
  },
  {
   "property": "C81",
   "status": "proved",
   "theorems": [
    "Hpelm.Props.C81_stability"
   ],
   "note": "Unweighted training; both runs may use different solvers and batch sizes."
  },
  {
   "property": "C82",
   "status": "partial",
   "theorems": [
    "Hpelm.Props.C82_constructor_weights_partial",
    "Hpelm.Props.C82_constructor_weights_refuted",
    "Hpelm.Props.C82_given_weights",
    "Hpelm.Props.C82_no_weights",
    "Hpelm.Props.C82_previous_ignored",
    "Hpelm.Props.C82_wrong_count_rejected"
   ],
   "note": "Rejection, given weights, no weights without 'wc' and independence of earlier weights proved for all training paths. False for constructor weights, which `train` discards (C82_constructor_weights_refuted); they stay in force over histories without train and load (C82_constructor_weights_partial)."
  },
  {
   "property": "C83",
   "status": "proved",
   "theorems": [
    "Hpelm.Props.C83_as_trained_directly",
    "Hpelm.Props.C83_kept_neurons",
    "Hpelm.Props.C83_only_selects"
   ],
   "note": ""
  },
  {
   "property": "C84",
   "status": "partial",
   "theorems": [
    "Hpelm.Props.C84_cv_order_refuted",
    "Hpelm.Props.C84_training_order",
    "Hpelm.Props.C84_validation_order",
    "Hpelm.Props.C84_within_folds_partial"
   ],
   "note": "Proved for plain training, validation set and leave-one-out with every ranking (C84_training_order, C84_validation_order). Cross-validation depends on the order (C84_cv_order_refuted); proved for reorderings that keep every sample in its fold (C84_within_folds_partial)."
  },
  {
   "property": "C85",
   "status": "partial",
   "theorems": [
    "Hpelm.Props.C85_many_outputs_refuted",
    "Hpelm.Props.C85_mrsr",
    "Hpelm.Props.C85_optimal_pruning_partial"
   ],
   "note": "Holds for `mrsr` (fewer than ten outputs), at the level of the function and of the training call. Refuted for `mrsr2` (ten or more outputs), for every correct square root and root finder."
  },
  {
   "property": "C86",
   "status": "partial",
   "theorems": [
    "Hpelm.Props.C86_loo_completes_partial",
    "Hpelm.Props.C86_single_neuron_refuted",
    "Hpelm.Props.C86_validation_completes_partial",
    "Hpelm.Props.C86_weighted_loo_partial",
    "Hpelm.Props.C86_weighted_loo_refuted",
    "Hpelm.Props.C86_weighted_validation_partial"
   ],
   "note": "Regression, classification and multi-label classification; weighted classification with selection on a validation set; weighted leave-one-out if no class weight is less than 1 (automatic weights never are). With 'OP' whenever the ranking completes. Refuted for 'OP' with one neuron and for weighted leave-one-out with weights less than 1."
  },
  {
   "property": "C87",
   "status": "partial",
   "theorems": [
    "Hpelm.Props.C87_cross_validation_partial",
    "Hpelm.Props.C87_cutoff_refuted",
    "Hpelm.Props.C87_leave_one_out_partial",
    "Hpelm.Props.C87_loo_below_cutoff_partial",
    "Hpelm.Props.C87_validation_below_cutoff_partial",
    "Hpelm.Props.C87_validation_partial",
    "Hpelm.Props.C87_weighted_refuted"
   ],
   "note": "False with kmax below the number of neurons (C87_cutoff_refuted) and for weighted classification with a validation set (C87_weighted_refuted: the returned network is re-trained without the weights, C39). Proved: selection on a validation set (regression, classification, multi-label), by leave-one-out (regression) and by cross-validation (all kinds, class weights not negative; the neuron sets of all rounds against all neurons), for rankings of the whole network; for limited rankings whenever fewer neurons than the limit are kept."
  },
  {
   "property": "C88",
   "status": "proved",
   "theorems": [
    "Hpelm.Props.C88_gpu_batch",
    "Hpelm.Props.C88_triangle"
   ],
   "note": "Refinement of the GPU batch update, with the arrays laid out in flat device memory and cuBLAS syrk specified on column-major arrays, to the update used by all other theorems for the GPU solver. One weight per sample (the code always passes that many)."
  },
  {
   "property": "C89",
   "status": "partial",
   "theorems": [
    "Hpelm.Props.C89_forgets",
    "Hpelm.Props.C89_mixed_refuted",
    "Hpelm.Props.C89_plain_partial",
    "Hpelm.Props.C89_plain_weighted_partial",
    "Hpelm.Props.C89_weighted_refuted"
   ],
   "note": "False with structure selection (C89_mixed_refuted) and for weighted classification with samples without a class (C89_weighted_refuted). Proved for training without structure selection of every kind, in weighted classification for targets with exactly one class per sample; and that what stays never depends on data fed before."
  },
  {
   "property": "C90",
   "status": "partial",
   "theorems": [
    "Hpelm.Props.C90_load_solver_refuted",
    "Hpelm.Props.C90_options_partial",
    "Hpelm.Props.C90_precision_refuted"
   ],
   "note": "False for capitalised 'Single' and for the solver type after load; proved for all other strings and all histories."
  },
  {
   "property": "C91",
   "status": "proved",
   "theorems": [
    "Hpelm.Props.C91_feature_order",
    "Hpelm.Props.C91_ignored_features",
    "Hpelm.Props.C91_normalised",
    "Hpelm.Props.C91_only_hidden_layer",
    "Hpelm.Props.C91_origin"
   ],
   "note": "General simulation theorem and four special cases."
  },
  {
   "property": "C92",
   "status": "partial",
   "theorems": [
    "Hpelm.Props.C92_classification_refuted",
    "Hpelm.Props.C92_not_below_training",
    "Hpelm.Props.C92_regression_partial",
    "Hpelm.Props.C92_selection_partial"
   ],
   "note": "False for classification and multi-label classification (C92_classification_refuted). Proved: the statement for regression (C92_regression_partial), the exact value compared for classifiers and its relation to the training error (C92_selection_partial), and that leave-one-out errors of any unweighted kind are never below the training error (C92_not_below_training)."
  },
  {
   "property": "C93",
   "status": "proved",
   "theorems": [
    "Hpelm.Props.C93_common_factor",
    "Hpelm.Props.C93_equal_weights",
    "Hpelm.Props.C93_raised_weight"
   ],
   "note": "Proved for plain training (no structure selection) of in-memory models in exact arithmetic."
  },
  {
   "property": "C94",
   "status": "proved",
   "theorems": [
    "Hpelm.Props.C94_arguments_kept",
    "Hpelm.Props.C94_store_agrees",
    "Hpelm.Props.C94_value_results",
    "Hpelm.Props.C94_value_semantics"
   ],
   "note": "Memory model of the arrays (Model/Heap.lean), three solvers, exceptions included; also justifies the value semantics of the rest of the model. C94_store_agrees ties the in-place subtraction of the norm to ELM.storeCorr. Arrays of hidden neurons are values (add_neurons copies them)."
  },
  {
   "property": "C95",
   "status": "partial",
   "theorems": [
    "Hpelm.Props.C95_after_reset_partial",
    "Hpelm.Props.C95_corr_HH_kept_partial",
    "Hpelm.Props.C95_corr_basic_refuted",
    "Hpelm.Props.C95_corr_torn_refuted",
    "Hpelm.Props.C95_results_kept_partial",
    "Hpelm.Props.C95_weights_kept_partial",
    "Hpelm.Props.C95_weights_shared_refuted"
   ],
   "note": "False as stated: get_corr hands out the model's own HT (and HH with the basic solver), get_B the model's own weights (C95_corr_torn_refuted, C95_corr_basic_refuted, C95_weights_shared_refuted). Proved for projections, predictions, all GPU results, HH of the default solver, output weights (never changed by the model), and any array after a reset."
  },
  {
   "property": "C96",
   "status": "proved",
   "theorems": [
    "Hpelm.Props.C96_accumulated",
    "Hpelm.Props.C96_batches",
    "Hpelm.Props.C96_bitwise_refuted",
    "Hpelm.Props.C96_diagonal_positive",
    "Hpelm.Props.C96_exact_model",
    "Hpelm.Props.C96_weighted"
   ],
   "note": "C96_accumulated (no weights), C96_weighted, C96_batches (two batchings, orders and solvers), C96_diagonal_positive, C96_exact_model (exact rounding gives the exact model), C96_bitwise_refuted (bits do depend on the batches). Hidden layer outputs are taken as computed; no overflow or underflow; the square root of a class weight is exact before rounding."
  },
  {
   "property": "C97",
   "status": "proved",
   "theorems": [
    "Hpelm.Props.C97_exact_model",
    "Hpelm.Props.C97_mse",
    "Hpelm.Props.C97_predict"
   ],
   "note": "C97_predict, C97_mse, C97_exact_model. Hidden layer outputs are taken as computed; no overflow or underflow."
  },
  {
   "property": "C98",
   "status": "proved",
   "theorems": [
    "Hpelm.Props.C98_accuracy",
    "Hpelm.Props.C98_predictions",
    "Hpelm.Props.C98_two_runs",
    "Hpelm.Props.C98_unique"
   ],
   "note": "C98_unique, C98_accuracy, C98_predictions, C98_two_runs. The weights W are arbitrary, so nothing is assumed of LAPACK."
  },
  {
   "property": "C99",
   "status": "proved",
   "theorems": [
    "Hpelm.Props.C99_every_order",
    "Hpelm.Props.C99_one_after_another",
    "Hpelm.Props.C99_permutation",
    "Hpelm.Props.C99_rounded",
    "Hpelm.Props.C99_same_files_refuted"
   ],
   "note": "Any addition: M is a type with + and no laws. C99_one_after_another covers crashes outside writing; C99_permutation: all processes, existing files; C99_every_order: converse; C99_rounded: error bound; C99_same_files_refuted: the stronger claim that all executions leave the same files is false."
  },
  {
   "property": "C100",
   "status": "proved",
   "theorems": [
    "Hpelm.Props.C100_documented_calls_work"
   ],
   "note": "Training without structure selection, data in memory.  Exact arithmetic; empty-matrix behaviour of the numerical libraries is not modelled."
  },
  {
   "property": "C101",
   "status": "proved",
   "theorems": [
    "Hpelm.Props.C101_linear",
    "Hpelm.Props.C101_new_samples",
    "Hpelm.Props.C101_representable"
   ],
   "note": "Bound norm/4 attained by an example."
  },
  {
   "property": "C102",
   "status": "proved",
   "theorems": [
    "Hpelm.Props.C102_on_disk_calls_work"
   ],
   "note": "As C100, for HPELM.  For weighted classification the error needs every class among the targets (otherwise HPELM.error gives nan, see C30)."
  },
  {
   "property": "C103",
   "status": "proved",
   "theorems": [
    "Hpelm.Props.C103_description",
    "Hpelm.Props.C103_histories"
   ],
   "note": "Full. A type whose neurons were all pruned stays listed with 0 neurons (example)."
  },
  {
   "property": "C104",
   "status": "partial",
   "theorems": [
    "Hpelm.Props.C104_batches",
    "Hpelm.Props.C104_exact_model",
    "Hpelm.Props.C104_exists",
    "Hpelm.Props.C104_mean",
    "Hpelm.Props.C104_std_partial",
    "Hpelm.Props.C104_std_refuted",
    "Hpelm.Props.C104_variance"
   ],
   "note": "C104_mean, C104_variance, C104_batches hold for every column; C104_std_partial: std is a number when the variance exceeds its error bound. False in general: C104_std_refuted (three entries 0.1 in double precision give nan)."
  },
  {
   "property": "C105",
   "status": "partial",
   "theorems": [
    "Hpelm.Props.C105_divisor",
    "Hpelm.Props.C105_number_partial",
    "Hpelm.Props.C105_number_refuted"
   ],
   "note": "C105_divisor bounds the rounding error of the divisors; C105_number_partial: the errors are numbers when the divisor exceeds the bound. False in general: C105_number_refuted (0/0 in double precision with the default norm)."
  },
  {
   "property": "C106",
   "status": "partial",
   "theorems": [
    "Hpelm.Props.C106_async_count_refuted",
    "Hpelm.Props.C106_async_refuted",
    "Hpelm.Props.C106_line_partial",
    "Hpelm.Props.C106_spacing",
    "Hpelm.Props.C106_when"
   ],
   "note": "C106_when and C106_spacing hold for all loops; C106_line_partial for the loops without helper processes. False for add_data_async and predict_async: C106_async_refuted, C106_async_count_refuted."
  },
  {
   "property": "C107",
   "status": "partial",
   "theorems": [
    "Hpelm.Props.C107_recorded",
    "Hpelm.Props.C107_repeat_partial",
    "Hpelm.Props.C107_repeat_refuted",
    "Hpelm.Props.C107_rows_partial",
    "Hpelm.Props.C107_undo"
   ],
   "note": "Every crash point: each row raw or normalized once, in order of batches; undoing proved; repeating after a crash refuted."
  },
  {
   "property": "C108",
   "status": "partial",
   "theorems": [
    "Hpelm.Props.C108_one_name_refuted",
    "Hpelm.Props.C108_same_name_refuted",
    "Hpelm.Props.C108_written_partial"
   ],
   "note": "Entrywise contents of both files proved for two different names; a single name (ignored, for all inputs) and equal names refuted."
  },
  {
   "property": "C109",
   "status": "proved",
   "theorems": [
    "Hpelm.Props.C109_continue",
    "Hpelm.Props.C109_new_data"
   ],
   "note": "C109_continue (same object state as one training), C109_new_data. Automatic class weights are excluded: they are computed from the first part only (C11_parts_refuted)."
  },
  {
   "property": "C110",
   "status": "partial",
   "theorems": [
    "Hpelm.Props.C110_contents_partial",
    "Hpelm.Props.C110_previous_refuted",
    "Hpelm.Props.C110_project_contents_partial",
    "Hpelm.Props.C110_project_repeat",
    "Hpelm.Props.C110_repeat"
   ],
   "note": "C110_contents_partial, C110_repeat, C110_project_contents_partial, C110_project_repeat proved; C110_previous_refuted: the earlier result is destroyed at the start of the call."
  },
  {
   "property": "C111",
   "status": "partial",
   "theorems": [
    "Hpelm.Props.C111_add_data",
    "Hpelm.Props.C111_agrees",
    "Hpelm.Props.C111_created_refuted",
    "Hpelm.Props.C111_rejected_partial",
    "Hpelm.Props.C111_retry",
    "Hpelm.Props.C111_solve",
    "Hpelm.Props.C111_untrained_refuted",
    "Hpelm.Props.C111_validation"
   ],
   "note": "Proved: exact acceptance condition of solve_corr, necessary condition for validation_corr and add_data; a raising add_data changes no existing file and makes at most data-free ones; a repeated call is unaffected. False: no file is created by a rejected call (C111_created_refuted); solve_corr without data is refused (C111_untrained_refuted)."
  },
  {
   "property": "C112",
   "status": "partial",
   "theorems": [
    "Hpelm.Props.C112_as_printed_refuted",
    "Hpelm.Props.C112_workflow_partial"
   ],
   "note": "Proved for the workflow with the targets in the last call. False as printed: error(dataX, predictedY) raises whenever there are not as many inputs as outputs (last conjunct of C112_workflow_partial, C112_as_printed_refuted). Scripts are run one after another; concurrent writes are C47."
  },
  {
   "property": "C113",
   "status": "partial",
   "theorems": [
    "Hpelm.Props.C113_all_at_once_partial",
    "Hpelm.Props.C113_all_at_once_refuted",
    "Hpelm.Props.C113_first_alone"
   ],
   "note": "false for scripts that all start without the files (C113_all_at_once_refuted); C113_first_alone is the full property when one script runs alone first; C113_all_at_once_partial covers all interleavings without a repeated creation"
  },
  {
   "property": "C114",
   "status": "partial",
   "theorems": [
    "Hpelm.Props.C114_rerun_partial",
    "Hpelm.Props.C114_rerun_refuted"
   ],
   "note": "false for a script that dies after its first write (C114_rerun_refuted: its samples count twice); C114_rerun_partial: all deaths before the first write, all interleavings of both rounds"
  },
  {
   "property": "C115",
   "status": "proved",
   "theorems": [
    "Hpelm.Props.C115_alike",
    "Hpelm.Props.C115_duplicates",
    "Hpelm.Props.C115_predictions",
    "Hpelm.Props.C115_silent",
    "Hpelm.Props.C115_weights"
   ],
   "note": "Weights and predictions as sums of training residuals, for all solvers and weighted or unweighted training; silent, equal and nearly equal neurons."
  },
  {
   "property": "C116",
   "status": "proved",
   "theorems": [
    "Hpelm.Props.C116_bounded",
    "Hpelm.Props.C116_neurons",
    "Hpelm.Props.C116_predictions"
   ],
   "note": "exact real arithmetic; exp, tanh and sqrt are assumed to be the real functions"
  },
  {
   "property": "C117",
   "status": "partial",
   "theorems": [
    "Hpelm.Props.C117_bad_line",
    "Hpelm.Props.C117_interrupted_partial",
    "Hpelm.Props.C117_others",
    "Hpelm.Props.C117_previous_refuted",
    "Hpelm.Props.C117_rejected",
    "Hpelm.Props.C117_repeat",
    "Hpelm.Props.C117_success"
   ],
   "note": "false as wanted: a failed conversion replaces the old file by a part of the new data (C117_previous_refuted); the rest is proved"
  },
  {
   "property": "C118",
   "status": "proved",
   "theorems": [
    "Hpelm.Props.C118_demonstration"
   ],
   "note": "exact arithmetic"
  },
  {
   "property": "C119",
   "status": "partial",
   "theorems": [
    "Hpelm.Props.C119_alone_refuted",
    "Hpelm.Props.C119_array_partial",
    "Hpelm.Props.C119_array_same",
    "Hpelm.Props.C119_caller_array_refuted",
    "Hpelm.Props.C119_length",
    "Hpelm.Props.C119_list_differs_refuted",
    "Hpelm.Props.C119_list_refuted",
    "Hpelm.Props.C119_tuple_refuted"
   ],
   "note": "Holds for arrays without zeros. Refuted for lists (first column not divided), tuples (refused, but the file is marked as normalized), arrays with zeros (caller's array changed), and one parameter alone (ignored)."
  },
  {
   "property": "C120",
   "status": "proved",
   "theorems": [
    "Hpelm.Props.C120_any_weights",
    "Hpelm.Props.C120_error",
    "Hpelm.Props.C120_parameter"
   ],
   "note": "C120_any_weights is per output and for weighted training too; C120_error is for regression."
  },
  {
   "property": "C121",
   "status": "partial",
   "theorems": [
    "Hpelm.Props.C121_add_data_partial",
    "Hpelm.Props.C121_add_data_refuted",
    "Hpelm.Props.C121_error_partial",
    "Hpelm.Props.C121_error_refuted",
    "Hpelm.Props.C121_predict_partial",
    "Hpelm.Props.C121_predict_refuted",
    "Hpelm.Props.C121_train",
    "Hpelm.Props.C121_train_async"
   ],
   "note": "add_data, predict and error with a range that stops before the end; train and train_async for every negative start. False for ranges that reach the end: C121_*_refuted."
  },
  {
   "property": "C122",
   "status": "partial",
   "theorems": [
    "Hpelm.Props.C122_first",
    "Hpelm.Props.C122_second_partial",
    "Hpelm.Props.C122_third_refuted",
    "Hpelm.Props.C122_training_first"
   ],
   "note": "First pick for all data, second pick if no column ties at the start. False from the third pick on: C122_third_refuted; with ties: C85_many_outputs_refuted."
  },
  {
   "property": "C123",
   "status": "proved",
   "theorems": [
    "Hpelm.Props.C123_units"
   ],
   "note": "regression; optimal pruning with ten or more outputs under stated laws of the square root, the root finder and lu_solve"
  },
  {
   "property": "C124",
   "status": "partial",
   "theorems": [
    "Hpelm.Props.C124_created_refuted",
    "Hpelm.Props.C124_failed_partial",
    "Hpelm.Props.C124_usable_refuted"
   ],
   "note": "a failed call leaves the file open for writing and creates a missing file; other files are not affected, and the normalization itself can be repeated"
  },
  {
   "property": "C125",
   "status": "proved",
   "theorems": [
    "Hpelm.Props.C125_codes"
   ],
   "note": "flag C; the weighted and multi-label kinds compare targets with fixed numbers and are excluded"
  }
 ]
}