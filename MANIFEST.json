{
 "claims": [
  {
   "property": "C01",
   "status": "proved",
   "theorems": [
    "Gama.C01_string_round_trip"
   ],
   "note": ""
  },
  {
   "property": "C02",
   "status": "proved",
   "theorems": [
    "Gama.C02_random_creation_well_formed",
    "Gama.C02_random_creation_succeeds",
    "Gama.C02_new_individual_well_formed"
   ],
   "note": ""
  },
  {
   "property": "C03",
   "status": "proved",
   "theorems": [
    "Gama.C03_mutation_well_formed",
    "Gama.C03_mutate_offspring"
   ],
   "note": ""
  },
  {
   "property": "C04",
   "status": "proved",
   "theorems": [
    "Gama.C04_mutation_respects_max_length",
    "Gama.C04_mutate_offspring_length"
   ],
   "note": ""
  },
  {
   "property": "C05",
   "status": "partial",
   "theorems": [
    "Gama.C05_mutation_succeeds_partial",
    "Gama.C05_exact",
    "Gama.C05_false",
    "Gama.C05_over_long_raises"
   ],
   "note": "False of the code: a lone estimator with at most one changeable value at maximum length 1 has no available mutation (IndexError), and over-long individuals raise AttributeError."
  },
  {
   "property": "C06",
   "status": "proved",
   "theorems": [
    "Gama.C06_crossover_well_formed",
    "Gama.C06_mate_offspring"
   ],
   "note": ""
  },
  {
   "property": "C07",
   "status": "proved",
   "theorems": [
    "Gama.C07_first_child_within_max_length",
    "Gama.C07_error_iff"
   ],
   "note": ""
  },
  {
   "property": "C08",
   "status": "partial",
   "theorems": [
    "Gama.C08_offspring_length_partial",
    "Gama.C08_bound",
    "Gama.C08_short_partial",
    "Gama.C08_exact",
    "Gama.C08_reached",
    "Gama.C08_search_partial",
    "Gama.C08_search_short_partial",
    "Gama.C08_false"
   ],
   "note": "False of the code for maxima of three and more: mate ignores the order in which the crossover returns the children. The theorems say for which parents it fails, and how long pipelines get (two steps less than twice the maximum); with a maximum of one or two the claim holds."
  },
  {
   "property": "C09",
   "status": "proved",
   "theorems": [
    "Gama.C09_mutate_keeps_population",
    "Gama.C09_mate_keeps_population"
   ],
   "note": ""
  },
  {
   "property": "C10",
   "status": "proved",
   "theorems": [
    "Gama.C10_copy_prints_the_same"
   ],
   "note": ""
  },
  {
   "property": "C11",
   "status": "partial",
   "theorems": [
    "Gama.C11_replace_value_partial",
    "Gama.C11_at_end",
    "Gama.C11_false"
   ],
   "note": "False of the code at the position equal to the number of hyperparameters, which is accepted and changes nothing (C11_at_end)."
  },
  {
   "property": "C12",
   "status": "partial",
   "theorems": [
    "Gama.C12_replace_step_partial",
    "Gama.C12_outside",
    "Gama.C12_false"
   ],
   "note": "False of the code for positions outside the pipeline: the step, of whatever kind, is put before the first one (C12_outside)."
  },
  {
   "property": "C13",
   "status": "proved",
   "theorems": [
    "Gama.C13_retry_until_new",
    "Gama.C13_operators"
   ],
   "note": ""
  },
  {
   "property": "C14",
   "status": "proved",
   "theorems": [
    "Gama.C14_mutant_lineage",
    "Gama.C14_child_lineage",
    "Gama.C14_new_lineage"
   ],
   "note": ""
  },
  {
   "property": "C15",
   "status": "proved",
   "theorems": [
    "Gama.C15_front_is_maximal"
   ],
   "note": ""
  },
  {
   "property": "C16",
   "status": "proved",
   "theorems": [
    "Gama.C16_update_result",
    "Gama.C16_order_independent",
    "Gama.C16_wrong_arity"
   ],
   "note": ""
  },
  {
   "property": "C17",
   "status": "partial",
   "theorems": [
    "Gama.C17_selection_partial",
    "Gama.C17_negative",
    "Gama.C17_false"
   ],
   "note": "False of the code in one clause: a negative n is not rejected but gives an empty selection."
  },
  {
   "property": "C18",
   "status": "proved",
   "theorems": [
    "Gama.C18_sort_is_layering",
    "Gama.C18_sort_any_dominance"
   ],
   "note": ""
  },
  {
   "property": "C19",
   "status": "partial",
   "theorems": [
    "Gama.C19_tournament_partial",
    "Gama.C19_parents_partial",
    "Gama.C19_otherwise",
    "Gama.C19_false"
   ],
   "note": "False of the code: the first two fronts get the same rank."
  },
  {
   "property": "C20",
   "status": "proved",
   "theorems": [
    "Gama.C20_parent_pairs"
   ],
   "note": ""
  },
  {
   "property": "C21",
   "status": "proved",
   "theorems": [
    "Gama.C21_elimination",
    "Gama.C21_errors"
   ],
   "note": ""
  },
  {
   "property": "C22",
   "status": "proved",
   "theorems": [
    "Gama.C22_keeps_best"
   ],
   "note": ""
  },
  {
   "property": "C23",
   "status": "partial",
   "theorems": [
    "Gama.C23_no_loss_partial",
    "Gama.C23_otherwise",
    "Gama.C23_false"
   ],
   "note": "False of the code when the same individual is evaluated more than once without an error (refitting, a warm start that lists it twice): evaluations share a cache file, the second eviction raises and the evaluation is in no list.  C23_otherwise: nothing else is lost, and nothing is duplicated."
  },
  {
   "property": "C24",
   "status": "partial",
   "theorems": [
    "Gama.C24_cache_partial",
    "Gama.C24_otherwise",
    "Gama.C24_false"
   ],
   "note": "False of the code when the same individual is evaluated more than once without an error: both evaluations use one file.  C24_otherwise says what is read then."
  },
  {
   "property": "C25",
   "status": "proved",
   "theorems": [
    "Gama.C25_n_best"
   ],
   "note": ""
  },
  {
   "property": "C26",
   "status": "partial",
   "theorems": [
    "Gama.C26_lookup_partial",
    "Gama.C26_otherwise",
    "Gama.C26_false"
   ],
   "note": "False of the code when the same individual is evaluated more than once without an error: an exception skips the lookup update.  C26_otherwise: as many evaluations are not found as are lost."
  },
  {
   "property": "C27",
   "status": "partial",
   "theorems": [
    "Gama.C27_same_rows_partial",
    "Gama.C27_otherwise",
    "Gama.C27_false"
   ],
   "note": "False of the code across two calls of fit: each chooses new rows while old evaluations stay. C27_otherwise: over any number of fits, what is stored of an evaluation is of the rows chosen at the last fit before it was saved, so between two fits all are of the same rows."
  },
  {
   "property": "C28",
   "status": "proved",
   "theorems": [
    "Gama.C28_own_result",
    "Gama.C28_result_is_return_value"
   ],
   "note": ""
  },
  {
   "property": "C29",
   "status": "partial",
   "theorems": [
    "Gama.C29_accounted_partial",
    "Gama.C29_all_returned_partial",
    "Gama.C29_otherwise",
    "Gama.C29_false",
    "Gama.C29_false_result"
   ],
   "note": "False of the code: stopping a worker over the memory limit, or a result without an error attribute, loses the job, and waiting for it never ends.  C29_otherwise: a job that is lost is never returned."
  },
  {
   "property": "C30",
   "status": "partial",
   "theorems": [
    "Gama.C30_wait_without_jobs",
    "Gama.C30_backlog_partial",
    "Gama.C30_false"
   ],
   "note": "False of the code in one clause: a worker out of memory while receiving a job reports its previous job again, which makes job_queue_size too small."
  },
  {
   "property": "C31",
   "status": "partial",
   "theorems": [
    "Gama.C31_reported_partial",
    "Gama.C31_continues_partial",
    "Gama.C31_returned_exception_partial",
    "Gama.C31_otherwise",
    "Gama.C31_false"
   ],
   "note": "False of the code for exceptions that are no Exception, such as SystemExit.  C31_otherwise says what happens then."
  },
  {
   "property": "C32",
   "status": "proved",
   "theorems": [
    "Gama.C32_number_of_workers",
    "Gama.C32_stops_only_over_limit"
   ],
   "note": ""
  },
  {
   "property": "C33",
   "status": "partial",
   "theorems": [
    "Gama.C33_disjoint_partial",
    "Gama.C33_exact",
    "Gama.C33_false"
   ],
   "note": "False of the code: process-wide defaults replace given arguments of the same name. C33_exact says which arguments every returned job ran with."
  },
  {
   "property": "C34",
   "status": "proved",
   "theorems": [
    "Gama.C34_population"
   ],
   "note": ""
  },
  {
   "property": "C35",
   "status": "proved",
   "theorems": [
    "Gama.C35_bound",
    "Gama.C35_refused",
    "Gama.C35_terminates"
   ],
   "note": ""
  },
  {
   "property": "C36",
   "status": "partial",
   "theorems": [
    "Gama.C36_never_starves",
    "Gama.C36_never_aborts_partial",
    "Gama.C36_false",
    "Gama.C36_false_failures"
   ],
   "note": "The search never waits without a pending job, if its candidates are not the list it writes its output to (C37, C131), and does not abort if all evaluations succeed, there are four more candidates than workers and population_size is at least three. The other half is false of the code: with fewer than three individuals in the population creating offspring raises a ValueError that ends the search."
  },
  {
   "property": "C37",
   "status": "partial",
   "theorems": [
    "Gama.C37_random_search_partial",
    "Gama.C37_asha_partial",
    "Gama.C37_false",
    "Gama.C37_second_fit_fails"
   ],
   "note": "Holds of random search and ASHA; false of AsyncEA, where the list of candidates is the list that is cleared."
  },
  {
   "property": "C38",
   "status": "proved",
   "theorems": [
    "Gama.C38_reports_all",
    "Gama.C38_interrupted",
    "Gama.C38_budget",
    "Gama.C38_candidates_first"
   ],
   "note": ""
  },
  {
   "property": "C39",
   "status": "proved",
   "theorems": [
    "Gama.C39_promotions",
    "Gama.C39_best"
   ],
   "note": ""
  },
  {
   "property": "C40",
   "status": "partial",
   "theorems": [
    "Gama.C40_rows_partial",
    "Gama.C40_fractions_partial",
    "Gama.C40_default",
    "Gama.C40_resources",
    "Gama.C40_rounded_partial",
    "Gama.C40_types",
    "Gama.C40_full",
    "Gama.C40_reversed",
    "Gama.C40_extra_rung",
    "Gama.C40_top_sampled",
    "Gama.C40_false"
   ],
   "note": "In exact arithmetic C40_resources. In double precision with any logarithm off by at most one unit in the last place: all of it for numbers of rows up to a billion (there may be a rung too many), up to a fraction of 10^-11 for fractions. False of the code for fractions, exactly: from 1/729 with a factor of three, the top rung gets the largest number below one, so that full evaluations are on a sample of the rows."
  },
  {
   "property": "C41",
   "status": "partial",
   "theorems": [
    "Gama.C41_interrupted_partial",
    "Gama.C41_returned_partial",
    "Gama.C41_highest_exists",
    "Gama.C41_false",
    "Gama.C41_nothing_evaluated",
    "Gama.C41_other_exceptions",
    "Gama.C41_no_rungs"
   ],
   "note": "False of the code if nothing was evaluated yet, or on any exception other than the timeout: UnboundLocalError."
  },
  {
   "property": "C42",
   "status": "proved",
   "theorems": [
    "Gama.C42_weights"
   ],
   "note": "For a metric that gives comparable scores greater than minus infinity."
  },
  {
   "property": "C43",
   "status": "proved",
   "theorems": [
    "Gama.C43_greedy"
   ],
   "note": "For a metric that gives comparable scores greater than minus infinity."
  },
  {
   "property": "C44",
   "status": "partial",
   "theorems": [
    "Gama.C44_score_partial",
    "Gama.C44_otherwise",
    "Gama.C44_false"
   ],
   "note": "Proved if evaluations of one individual have the same predictions, there are models and time, and the metric neither raises nor gives minus infinity. False of the code if the library holds two evaluations of one individual with different predictions."
  },
  {
   "property": "C45",
   "status": "proved",
   "theorems": [
    "Gama.C45_mean",
    "Gama.C45_between",
    "Gama.C45_agree",
    "Gama.C45_probabilities",
    "Gama.C45_vote"
   ],
   "note": "Exact arithmetic."
  },
  {
   "property": "C46",
   "status": "partial",
   "theorems": [
    "Gama.C46_rows_partial",
    "Gama.C46_false",
    "Gama.C46_out_of_bounds"
   ],
   "note": "False of the code for metrics on probabilities when predictions are downsampled: labels are sampled twice."
  },
  {
   "property": "C47",
   "status": "partial",
   "theorems": [
    "Gama.C47_predict_partial",
    "Gama.C47_false",
    "Gama.C47_export_fails"
   ],
   "note": "False of the code: pickling removes the models of the ensemble in memory, after which exporting fails."
  },
  {
   "property": "C48",
   "status": "proved",
   "theorems": [
    "Gama.C48_best_fit"
   ],
   "note": ""
  },
  {
   "property": "C49",
   "status": "proved",
   "theorems": [
    "Gama.C49_accounts",
    "Gama.C49_decreases",
    "Gama.C49_finished"
   ],
   "note": "Exact arithmetic; time.time() is assumed not to go back."
  },
  {
   "property": "C50",
   "status": "partial",
   "theorems": [
    "Gama.C50_current_partial",
    "Gama.C50_during",
    "Gama.C50_false",
    "Gama.C50_stale"
   ],
   "note": "False of the code for an activity left by an exception."
  },
  {
   "property": "C51",
   "status": "proved",
   "theorems": [
    "Gama.C51_phases",
    "Gama.C51_evaluation"
   ],
   "note": "Exact arithmetic."
  },
  {
   "property": "C52",
   "status": "partial",
   "theorems": [
    "Gama.C52_default_partial",
    "Gama.C52_unusable",
    "Gama.C52_given",
    "Gama.C52_false"
   ],
   "note": "False of the code for a total time of at most five seconds: the default is zero."
  },
  {
   "property": "C53",
   "status": "partial",
   "theorems": [
    "Gama.C53_partial",
    "Gama.C53_complete",
    "Gama.C53_by_index",
    "Gama.C53_false",
    "Gama.C53_error"
   ],
   "note": "False of the code when labels are missing and y has another row index than x."
  },
  {
   "property": "C54",
   "status": "proved",
   "theorems": [
    "Gama.C54",
    "Gama.C54_which",
    "Gama.C54_only",
    "Gama.C54_left",
    "Gama.C54_steps"
   ],
   "note": ""
  },
  {
   "property": "C55",
   "status": "proved",
   "theorems": [
    "Gama.C55_named",
    "Gama.C55_last",
    "Gama.C55_unknown"
   ],
   "note": ""
  },
  {
   "property": "C56",
   "status": "partial",
   "theorems": [
    "Gama.C56_partial",
    "Gama.C56_positions",
    "Gama.C56_leak",
    "Gama.C56_prefix",
    "Gama.C56_false"
   ],
   "note": "False of the code when evaluating on a subsample: positions in the training set are used as row numbers."
  },
  {
   "property": "C57",
   "status": "proved",
   "theorems": [
    "Gama.C57"
   ],
   "note": "Assumes of scikit-learn that cross_validate returns one estimator for each fold, and that an estimator predicts each row by itself."
  },
  {
   "property": "C58",
   "status": "proved",
   "theorems": [
    "Gama.C58_scores",
    "Gama.C58_reported",
    "Gama.C58_raised",
    "Gama.C58_contained",
    "Gama.C58_outside"
   ],
   "note": "Refusing an invalid pipeline or a timeout that is not positive, an outer timeout and interrupts do raise."
  },
  {
   "property": "C59",
   "status": "proved",
   "theorems": [
    "Gama.C59_strings",
    "Gama.C59_numbers",
    "Gama.C59_decoded",
    "Gama.C59_empty",
    "Gama.C59_formats",
    "Gama.C59_number_formats"
   ],
   "note": "Assumes that a fitted model predicts labels it was trained with. Predicting for no rows raises an IndexError."
  },
  {
   "property": "C60",
   "status": "partial",
   "theorems": [
    "Gama.C60_partial",
    "Gama.C60_frames",
    "Gama.C60_single_row",
    "Gama.C60_classifier",
    "Gama.C60_lists",
    "Gama.C60_other",
    "Gama.C60_false"
   ],
   "note": "False of the code for data frames of several columns or of one row. A list is accepted only as string labels of a classifier."
  },
  {
   "property": "C61",
   "status": "partial",
   "theorems": [
    "Gama.C61_partial",
    "Gama.C61_refused",
    "Gama.C61_usable",
    "Gama.C61_false"
   ],
   "note": "False of the code for two algorithms with the same class name: their hyperparameters share values."
  },
  {
   "property": "C62",
   "status": "partial",
   "theorems": [
    "Gama.C62_partial",
    "Gama.C62_merges",
    "Gama.C62_modified",
    "Gama.C62_loses_shared",
    "Gama.C62_false"
   ],
   "note": "Proved for configurations that share no dictionary object. False of the code: the dictionaries of the first configuration are changed, and an algorithm that uses shared values loses them when the other configuration lists its own."
  },
  {
   "property": "C63",
   "status": "partial",
   "theorems": [
    "Gama.C63_partial",
    "Gama.C63_known",
    "Gama.C63_asha_partial",
    "Gama.C63_asha_default",
    "Gama.C63_asha_false"
   ],
   "note": "Proved for any sequence of updates of the defaults; false of successive halving, which forgets the user's value once a dataset is too small for it."
  },
  {
   "property": "C64",
   "status": "proved",
   "theorems": [
    "Gama.C64_refused",
    "Gama.C64_anywhere",
    "Gama.C64_untouched",
    "Gama.C64_accepted"
   ],
   "note": "A refused construction leaves the log handler registered with the logging module; the property is about the directory."
  },
  {
   "property": "C65",
   "status": "partial",
   "theorems": [
    "Gama.C65_partial",
    "Gama.C65_given",
    "Gama.C65_exact",
    "Gama.C65_false"
   ],
   "note": "False of the code on a machine with one core: half of one is zero jobs, which is refused."
  },
  {
   "property": "C66",
   "status": "proved",
   "theorems": [
    "Gama.C66_all_called",
    "Gama.C66_timeout",
    "Gama.C66_interrupt",
    "Gama.C66_order"
   ],
   "note": "For all callbacks and all outcomes of each."
  },
  {
   "property": "C67",
   "status": "proved",
   "theorems": [
    "Gama.C67_kept",
    "Gama.C67_fit",
    "Gama.C67_foreign",
    "Gama.C67_twice",
    "Gama.C67_unknown"
   ],
   "note": "For any set of log files and cached models, and for whole fits of a new instance."
  },
  {
   "property": "C68",
   "status": "partial",
   "theorems": [
    "Gama.C68_partial",
    "Gama.C68_last",
    "Gama.C68_false"
   ],
   "note": "False of the code: all instances use the settings of the one constructed last."
  },
  {
   "property": "C69",
   "status": "partial",
   "theorems": [
    "Gama.C69_partial",
    "Gama.C69_fails",
    "Gama.C69_search",
    "Gama.C69_false"
   ],
   "note": "False of the code for one metric without the length: making offspring raises IndexError for every population, and an evolutionary search submits nothing but the candidates it starts from (C69_search)."
  },
  {
   "property": "C70",
   "status": "proved",
   "theorems": [
    "Gama.C70_steps",
    "Gama.C70_names",
    "Gama.C70_estimator_last"
   ],
   "note": "For every individual of a usable search space and any fixed steps; names for fixed steps that are not decimal numbers."
  },
  {
   "property": "C71",
   "status": "partial",
   "theorems": [
    "Gama.C71_partial",
    "Gama.C71_false",
    "Gama.C71_text",
    "Gama.C71_imports",
    "Gama.C71_names_partial",
    "Gama.C71_names_false",
    "Gama.C71_private_module",
    "Gama.C71_values_partial",
    "Gama.C71_values_false",
    "Gama.C71_ensemble",
    "Gama.C71_ensemble_vars"
   ],
   "note": "Proved for individuals compiled with the preprocessing of the last fit; false for others, for classes of equal names, classes of __main__ and string values with quotes."
  },
  {
   "property": "C72",
   "status": "partial",
   "theorems": [
    "Gama.C72_partial",
    "Gama.C72_newline",
    "Gama.C72_separator",
    "Gama.C72_quote",
    "Gama.C72_false"
   ],
   "note": "False of the code: texts are written without quoting, so separators, line ends and quotation marks in error messages break the log."
  },
  {
   "property": "C73",
   "status": "proved",
   "theorems": [
    "Gama.C73_incremental",
    "Gama.C73_contents",
    "Gama.C73_complete",
    "Gama.C73_finished",
    "Gama.C73_news",
    "Gama.C73_values"
   ],
   "note": "For logs whose texts can be told apart (see C72); conversions of texts are parameters."
  },
  {
   "property": "C74",
   "status": "partial",
   "theorems": [
    "Gama.C74_partial",
    "Gama.C74_exact",
    "Gama.C74_false"
   ],
   "note": "False of the code for stream handlers of the user that have an attribute named tag: those installed before the latest construction are gone (C74_exact)."
  },
  {
   "property": "C75",
   "status": "partial",
   "theorems": [
    "Gama.C75_partial",
    "Gama.C75_search_space",
    "Gama.C75_false"
   ],
   "note": "False of the code: the printed search space is part of the line and cannot be parsed."
  },
  {
   "property": "C93",
   "status": "partial",
   "theorems": [
    "Gama.C93_contents",
    "Gama.C93_partial",
    "Gama.C93_false"
   ],
   "note": "False of the code: the log also receives what later instances log."
  },
  {
   "property": "C94",
   "status": "proved",
   "theorems": [
    "Gama.C94_phases"
   ],
   "note": ""
  },
  {
   "property": "C76",
   "status": "partial",
   "theorems": [
    "Gama.C76_partial",
    "Gama.C76_diverges",
    "Gama.C76_ends",
    "Gama.C76_false",
    "Gama.C76_other_forms"
   ],
   "note": "Proved for every file with a line before the declarations, declarations in the form GAMA expects with different names, and an @data line that ends with a line end: the declared attributes are returned. Reading ends if some line begins with @data. The full claim is false: without such a line, or if @data is the last line without a line end, the loop never ends (C76_diverges, C76_false); single-quoted names and a declaration on the first line are misread (C76_other_forms)."
  },
  {
   "property": "C77",
   "status": "partial",
   "theorems": [
    "Gama.C77_partial",
    "Gama.C77_refused",
    "Gama.C77_mode",
    "Gama.C77_separator",
    "Gama.C77_case",
    "Gama.C77_false",
    "Gama.C77_false_case"
   ],
   "note": "Proved for lower-case file names without a separator: the run is the one described by the options. Unsupported names and modes are refused. The full claim is false: a separator for a csv file is always an AttributeError (misspelled attribute), and only the lower-cased name is looked up. argparse is not modelled."
  },
  {
   "property": "C95",
   "status": "partial",
   "theorems": [
    "Gama.C95_partial",
    "Gama.C95_no_line_end",
    "Gama.C95_numbers",
    "Gama.C95_false"
   ],
   "note": "Proved for files whose first line ends with a line end. False for a file that is its header only without a line end: the last character of the last name is lost. The sniffer is a parameter."
  },
  {
   "property": "C96",
   "status": "partial",
   "theorems": [
    "Gama.C96_partial",
    "Gama.C96_exact",
    "Gama.C96_false"
   ],
   "note": "Proved in one direction for all names and in both for lower-case names. False in general: metadata of d.ARFF is read though its data is refused; names that end in .arff with capitals are the only exception (C96_exact)."
  },
  {
   "property": "C97",
   "status": "proved",
   "theorems": [
    "Gama.C97_space"
   ],
   "note": "Making an instance of a class without arguments is assumed to succeed; whether it has predict_proba is a parameter."
  },
  {
   "property": "C98",
   "status": "partial",
   "theorems": [
    "Gama.C98_weights",
    "Gama.C98_partial",
    "Gama.C98_false",
    "Gama.C98_weighted",
    "Gama.C98_averages_partial",
    "Gama.C98_measures_partial",
    "Gama.C98_exact_partial",
    "Gama.C98_samples"
   ],
   "note": "Proved for balanced targets and for score functions without a parameter labels. False in general: fit passes the whole target vector as labels, so that scikit-learn's mean has one term per row and a class is weighed by its number of rows (C98_weights). scikit-learn's averaging over a list of labels is written out from its source."
  },
  {
   "property": "C99",
   "status": "partial",
   "theorems": [
    "Gama.C99_partial",
    "Gama.C99_unsigned",
    "Gama.C99_false"
   ],
   "note": "Proved for all types except complex numbers and, before Python 3.12, unsigned and boolean columns, for which the call of is_integer on a Python int is an AttributeError."
  },
  {
   "property": "C100",
   "status": "partial",
   "theorems": [
    "Gama.C100_partial",
    "Gama.C100_exact",
    "Gama.C100_short",
    "Gama.C100_false"
   ],
   "note": "Proved if the training data was an array too. False for training data with named columns: the columns made from the array are numbered. Conversion of values is a parameter."
  },
  {
   "property": "C101",
   "status": "partial",
   "theorems": [
    "Gama.C101_partial",
    "Gama.C101_failed",
    "Gama.C101_unfitted",
    "Gama.C101_false"
   ],
   "note": "Proved if the last fit made a model. False after a failed fit: the model of the earlier fit is used with the encoding and labels of the failed one."
  },
  {
   "property": "C102",
   "status": "proved",
   "theorems": [
    "Gama.C102_export",
    "Gama.C102_edges"
   ],
   "note": "The formatter is a parameter; without it the file is written and the call fails (C102_edges)."
  },
  {
   "property": "C103",
   "status": "proved",
   "theorems": [
    "Gama.C103_columns",
    "Gama.C103_searches"
   ],
   "note": "What each field prints is a parameter; the columns of the three searches are given in full."
  },
  {
   "property": "C104",
   "status": "partial",
   "theorems": [
    "Gama.C104_partial",
    "Gama.C104_false"
   ],
   "note": "False of the code: extra fields are added to the caller's dictionary. The partial theorem says exactly when it is unchanged."
  },
  {
   "property": "C105",
   "status": "proved",
   "theorems": [
    "Gama.C105_busy"
   ],
   "note": ""
  },
  {
   "property": "C106",
   "status": "partial",
   "theorems": [
    "Gama.C106_partial",
    "Gama.C106_no_restart_partial",
    "Gama.C106_false"
   ],
   "note": "False of the code: a restart at the last evaluation leaves an empty population. Proved for the time since the last restart, with the exact size of the population."
  },
  {
   "property": "C107",
   "status": "partial",
   "theorems": [
    "Gama.C107_partial",
    "Gama.C107_otherwise",
    "Gama.C107_false"
   ],
   "note": "False of the code: evaluations under way at the restart end up in the new population. Proved for everything else. C107_otherwise: any evaluation under way at a restart can be the first of the new population."
  },
  {
   "property": "C108",
   "status": "partial",
   "theorems": [
    "Gama.C108_partial",
    "Gama.C108_false"
   ],
   "note": "False of the code: successive halving takes its candidates from the caller's list. The partial theorem says what is left."
  },
  {
   "property": "C109",
   "status": "proved",
   "theorems": [
    "Gama.C109_files",
    "Gama.C109_scores",
    "Gama.C109_target_ignored",
    "Gama.C109_failures"
   ],
   "note": "Decoding, parsing and the fitted model are parameters."
  },
  {
   "property": "C110",
   "status": "partial",
   "theorems": [
    "Gama.C110_partial",
    "Gama.C110_otherwise",
    "Gama.C110_false"
   ],
   "note": "False of the code: the encoding is not passed on for csv files. Proved for ARFF files and default encodings."
  },
  {
   "property": "C111",
   "status": "proved",
   "theorems": [
    "Gama.C111_options"
   ],
   "note": "What is detected is a parameter."
  },
  {
   "property": "C112",
   "status": "proved",
   "theorems": [
    "Gama.C112_categories",
    "Gama.C112_empty"
   ],
   "note": "Attribute names are different, which the parser ensures."
  },
  {
   "property": "C113",
   "status": "partial",
   "theorems": [
    "Gama.C113_partial",
    "Gama.C113_false"
   ],
   "note": "False of the code: log loss needs every class to occur, roc_auc is never accepted, precision and the like need labels that include 1. The partial theorem says exactly when score works. The checks of scikit-learn are transcribed."
  },
  {
   "property": "C114",
   "status": "partial",
   "theorems": [
    "Gama.C114_partial",
    "Gama.C114_false"
   ],
   "note": "False of the code if only nearest neighbors (or only polynomial features) are configured. The partial theorem is exact."
  },
  {
   "property": "C115",
   "status": "partial",
   "theorems": [
    "Gama.C115_partial",
    "Gama.C115_rows",
    "Gama.C115_false"
   ],
   "note": "False of the code: evaluations on the lower rungs of successive halving have an error but count as successful. The partial theorem says which ones count."
  },
  {
   "property": "C116",
   "status": "partial",
   "theorems": [
    "Gama.C116_partial",
    "Gama.C116_weights",
    "Gama.C116_false"
   ],
   "note": "False of the code: the scorer is given all training labels, so that right predictions of a class count as often as the class occurs. Averages of scikit-learn are transcribed."
  },
  {
   "property": "C117",
   "status": "partial",
   "theorems": [
    "Gama.C117_partial",
    "Gama.C117_kept_partial",
    "Gama.C117_one_objective_partial",
    "Gama.C117_random_partial",
    "Gama.C117_otherwise",
    "Gama.C117_false"
   ],
   "note": "False of the code with length regularisation: the best-scoring pipeline may be longer than all others, is then in the worst front and may be eliminated. Holds, of the time since the last restart, if one evaluated individual is best on every objective, with one objective, and for random search. C117_otherwise: a pipeline gets lost only at a moment when the population has outgrown its size and every other individual in it is strictly better on some objective or has the same values."
  },
  {
   "property": "C118",
   "status": "proved",
   "theorems": [
    "Gama.C118",
    "Gama.C118_expression"
   ],
   "note": "Exact: a pipeline can be created if and only if it is well formed and not longer than the maximum start length. Draws are a stream; no statement about probabilities beyond being possible."
  },
  {
   "property": "C119",
   "status": "partial",
   "theorems": [
    "Gama.C119_partial",
    "Gama.C119_single_partial",
    "Gama.C119_false"
   ],
   "note": "False of the code: another algorithm (value) is only chosen when at least two steps (hyperparameters) can be exchanged. The pipelines one mutation can make are characterised exactly."
  },
  {
   "property": "C120",
   "status": "partial",
   "theorems": [
    "Gama.C120_partial",
    "Gama.C120_default",
    "Gama.C120_stuck_partial",
    "Gama.C120_false"
   ],
   "note": "False of the code with pipelines of one step or a single preprocessing algorithm: the estimator is then never exchanged. Holds with two estimators, two preprocessing algorithms and pipelines of two steps."
  },
  {
   "property": "C121",
   "status": "proved",
   "theorems": [
    "Gama.C121"
   ],
   "note": "Exact, for parents within the maximum length (longer ones are refused, C07)."
  },
  {
   "property": "C122",
   "status": "partial",
   "theorems": [
    "Gama.C122_partial",
    "Gama.C122_stuck",
    "Gama.C122_false"
   ],
   "note": "False of the code with a maximum length of one: GaussianNB and LassoLarsCV have nothing to mutate (IndexError). Everything else holds, of the configurations as data, evaluated in the kernel."
  },
  {
   "property": "C123",
   "status": "proved",
   "theorems": [
    "Gama.C123"
   ],
   "note": "The configurations are data taken from the source; conditions on them are evaluated in the kernel, for any order of the merged values."
  },
  {
   "property": "C124",
   "status": "partial",
   "theorems": [
    "Gama.C124_partial",
    "Gama.C124_false"
   ],
   "note": "False of the code: the merge is made in place and adds f_regression to the classifier's search space. Nothing else changes."
  },
  {
   "property": "C125",
   "status": "partial",
   "theorems": [
    "Gama.C125_partial",
    "Gama.C125_ignored",
    "Gama.C125_false"
   ],
   "note": "False of the code: the checks are parsed, returned and not used."
  },
  {
   "property": "C126",
   "status": "proved",
   "theorems": [
    "Gama.C126_evolution",
    "Gama.C126_evolution_any",
    "Gama.C126_random_search",
    "Gama.C126_random_search_any",
    "Gama.C126_halving",
    "Gama.C126_halving_any",
    "Gama.C126_default"
   ],
   "note": "Of GAMA's own operators run by the search procedures. Assumes that evaluating a pipeline does not change pipelines."
  },
  {
   "property": "C127",
   "status": "partial",
   "theorems": [
    "Gama.C127_partial",
    "Gama.C127_unlimited_partial",
    "Gama.C127_two_partial",
    "Gama.C127_default_partial",
    "Gama.C127_false"
   ],
   "note": "False of the code with a maximum length of three or more: crossover makes offspring that is too long, and choosing it as a parent ends the search. It is the only way; without a maximum length, and with a maximum of two, the claim holds."
  },
  {
   "property": "C128",
   "status": "partial",
   "theorems": [
    "Gama.C128_evolution_moment_partial",
    "Gama.C128_evolution_partial",
    "Gama.C128_evolution_best_partial",
    "Gama.C128_random_search",
    "Gama.C128_random_search_moment",
    "Gama.C128_halving_partial",
    "Gama.C128_halving_stopped",
    "Gama.C128_own_exception",
    "Gama.C128_false",
    "Gama.C128_false_restart"
   ],
   "note": "Holds of random search. False of successive halving stopped by the user (UnboundLocalError instead of the results so far) and of an evolutionary search cut off just after a restart. The partial theorems say exactly when there is a pipeline. Leaving the evaluator is assumed not to raise."
  },
  {
   "property": "C129",
   "status": "partial",
   "theorems": [
    "Gama.C129_taken",
    "Gama.C129_refused",
    "Gama.C129_evolution_partial",
    "Gama.C129_warm_start",
    "Gama.C129_own_population",
    "Gama.C129_false"
   ],
   "note": "Proved for lists of the caller's own. False of evolution for the list of the last population itself (warm_start=gama._final_pop): the search clears it before it reads it, and never submits anything (C37)."
  },
  {
   "property": "C130",
   "status": "proved",
   "theorems": [
    "Gama.C130_evolution",
    "Gama.C130_random_search",
    "Gama.C130_halving",
    "Gama.C130_population"
   ],
   "note": "An evaluation returns the individual it was given, and its rung."
  },
  {
   "property": "C131",
   "status": "partial",
   "theorems": [
    "Gama.C131_evolution_partial",
    "Gama.C131_random_search",
    "Gama.C131_halving",
    "Gama.C131_second_fit",
    "Gama.C131_false"
   ],
   "note": "Proved of random search and successive halving, and of evolution if the candidates are not the list it writes its output to. False of the code for a second fit with evolution without warm_start: the list is cleared before it is read, so that the search waits for nothing at once (C37). An evaluation is taken to return the individual it was given, and its rung."
  },
  {
   "property": "C132",
   "status": "partial",
   "theorems": [
    "Gama.C132_progress_partial",
    "Gama.C132_otherwise",
    "Gama.C132_stands_still",
    "Gama.C132_false"
   ],
   "note": "Proved for fair schedules, jobs that end, and when no worker is stopped, dies or fails to receive its job, for any search that keeps the interface (all three do: eaClient_lawful, rsClient_lawful, ashaClient_lawful). Whatever happens to the workers, the search is told an outcome unless waiting raises, no worker is running any more, or everything it waits for is lost (C132_otherwise). False of the code in the last case: a worker that is stopped for its use of memory takes its job with it, and when all outstanding jobs are lost the search is told nothing any more."
  },
  {
   "property": "C133",
   "status": "proved",
   "theorems": [
    "Gama.C133_hillclimb",
    "Gama.C133_none"
   ],
   "note": "The evaluation library, its files and the ensemble composed, from the library's creation to the ensemble; beyond 10 000 rows with metrics on probabilities see C46."
  },
  {
   "property": "C134",
   "status": "proved",
   "theorems": [
    "Gama.C134_evolution",
    "Gama.C134_pipelines",
    "Gama.C134_random_search"
   ],
   "note": "Search, operators, evaluator with workers, and library run together (Model/Whole.lean). Assumed of an evaluation: its first score is the one the search is told, and predictions have as many rows as the data. Simplification: an interruption arrives before or after saving, not in the middle. This discharges for these searches the assumption of C23, C24 and C26 that individuals in one library have different ids."
  },
  {
   "property": "C135",
   "status": "proved",
   "theorems": [
    "Gama.C135_halving"
   ],
   "note": "Of the evaluations of an individual only the one on the top rung is without an error (evaluate_on_rung), so that no two that are kept share a file. Candidates are different individuals, as in C134."
  },
  {
   "property": "C136",
   "status": "proved",
   "theorems": [
    "Gama.C136_new"
   ],
   "note": "For c.maxRetry = 50, which is what GAMA passes. Candidates are different individuals, as in C134: otherwise saving an evaluation may fail, and its text is then not known as evaluated (C26)."
  },
  {
   "property": "C137",
   "status": "proved",
   "theorems": [
    "Gama.C137_evolution",
    "Gama.C137_random_search",
    "Gama.C137_halving"
   ],
   "note": "Composes C134, C135 and C133. For candidates that list an individual twice see C161."
  },
  {
   "property": "C138",
   "status": "proved",
   "theorems": [
    "Gama.C138_constructed",
    "Gama.C138_refused",
    "Gama.C138_created",
    "Gama.C138_search",
    "Gama.C138_zero"
   ],
   "note": "Composes construction, creation of pipelines and the evolutionary search."
  },
  {
   "property": "C139",
   "status": "proved",
   "theorems": [
    "Gama.C139_line_ends"
   ],
   "note": "Reading in text mode turns every line end into a newline (trusted base)."
  },
  {
   "property": "C140",
   "status": "proved",
   "theorems": [
    "Gama.C140_exported",
    "Gama.C140_values",
    "Gama.C140_rule",
    "Gama.C140_script"
   ],
   "note": "How scikit-learn's voters combine predictions is written out from its documentation (trusted base)."
  },
  {
   "property": "C141",
   "status": "proved",
   "theorems": [
    "Gama.C141_proba"
   ],
   "note": "An ensemble that was built has members with positive weights (C82_predict_partial). Members are assumed to know all classes."
  },
  {
   "property": "C142",
   "status": "partial",
   "theorems": [
    "Gama.C142_partial",
    "Gama.C142_lines",
    "Gama.C142_shown",
    "Gama.C142_unregularized",
    "Gama.C142_search_space",
    "Gama.C142_false"
   ],
   "note": "Proved for runs with one scoring metric that regularise the length and whose arguments can be read (C75). False otherwise: the text False is taken for true, so that lengths are expected of a run that does not regularise them and the report is refused with a ValueError; a printed search space of two algorithms is refused as well."
  },
  {
   "property": "C143",
   "status": "partial",
   "theorems": [
    "Gama.C143_partial",
    "Gama.C143_better",
    "Gama.C143_false",
    "Gama.C143_rows_false"
   ],
   "note": "Proved, for a kept cache and for regression or at most hillclimb_size rows: the ensemble is built from the best models of both fits together on matching rows, and these are of the second fit if enough of them are better than all of the first. Metrics on probabilities with more than 10000 rows are excluded (C46). False in full: the evaluation library is made once, so a model of the first fit stays in it with the score it had then; and for classification with more rows the rows are drawn again, so that models of the first fit have predictions for other rows than the labels they are scored on."
  },
  {
   "property": "C144",
   "status": "partial",
   "theorems": [
    "Gama.C144_partial",
    "Gama.C144_unusable",
    "Gama.C144_false"
   ],
   "note": "Proved when the cache is kept (store is all or models), with regression or at most hillclimb_size rows, and unless the metric is on probabilities and there are more than 10000 (C158). False for the default store: the first fit removes the cache directory; if it found a model, but fewer than max_models, then no ensemble of a second fit can predict, whatever that finds."
  },
  {
   "property": "C145",
   "status": "partial",
   "theorems": [
    "Gama.C145_partial",
    "Gama.C145_lost",
    "Gama.C145_false"
   ],
   "note": "Proved if the second data has as many rows or more, or the first no more than hillclimb_size. False if the first has more than hillclimb_size rows and the second fewer: the rows chosen for the first are used again, no evaluation of the second is recorded, and making the ensemble raises an IndexError."
  },
  {
   "property": "C146",
   "status": "partial",
   "theorems": [
    "Gama.C146_partial",
    "Gama.C146_raises",
    "Gama.C146_pickled",
    "Gama.C146_false"
   ],
   "note": "False of the code: evaluations have no validation_score, so printing any ensemble that has models raises an AttributeError; after pickling it prints that it has no models."
  },
  {
   "property": "C147",
   "status": "partial",
   "theorems": [
    "Gama.C147_partial",
    "Gama.C147_numbered",
    "Gama.C147_last",
    "Gama.C147_false"
   ],
   "note": "Proved for files with a header. False without one: columns are listed as texts '0', '1', ... but numbered in the table, so that no column can be asked for. The labels pandas gives are part of the trusted base."
  },
  {
   "property": "C148",
   "status": "partial",
   "theorems": [
    "Gama.C148_partial",
    "Gama.C148_single",
    "Gama.C148_constant",
    "Gama.C148_rare",
    "Gama.C148_false"
   ],
   "note": "Proved for data of less than 10000 rows, and for columns that are not encoded ordinally. False of the code for larger data: the ordinal encoder drops columns of variance up to 0.0001, for example a column with one different value in 10000. The rule of category_encoders is part of the trusted base."
  },
  {
   "property": "C149",
   "status": "partial",
   "theorems": [
    "Gama.C149_partial",
    "Gama.C149_accepted",
    "Gama.C149_refused",
    "Gama.C149_no_limit",
    "Gama.C149_missing",
    "Gama.C149_false"
   ],
   "note": "Proved exactly when labels are accepted, for any sample size. False of the code: with 10001 rows every set of labels with two or more classes is refused with a ValueError, since the rows beyond the sample of 10000 have to be at least as many as classes. The errors of StratifiedShuffleSplit are part of the trusted base."
  },
  {
   "property": "C150",
   "status": "proved",
   "theorems": [
    "Gama.C150_columns"
   ],
   "note": "That the columns of a scikit-learn classifier are for the labels it was fitted on, in increasing order (classes_), is part of the trusted base, stated as ColumnsFor."
  },
  {
   "property": "C151",
   "status": "proved",
   "theorems": [
    "Gama.C151_log_loss",
    "Gama.C151_two_labels",
    "Gama.C151_roc_auc"
   ],
   "note": "The checks the scorers of scikit-learn make (foldTakes) and what cross_validate does (CrossValidates) are part of the trusted base."
  },
  {
   "property": "C152",
   "status": "partial",
   "theorems": [
    "Gama.C152_partial",
    "Gama.C152_refused",
    "Gama.C152_false"
   ],
   "note": "Proved exactly when it holds: no label is missing, or labels are strings that are not in a column of an array. False of the code for numbers of which one is missing: the scorer is given the labels from before unlabeled rows are removed, log loss refuses them, and every evaluation fails. The check of log loss is part of the trusted base."
  },
  {
   "property": "C153",
   "status": "partial",
   "theorems": [
    "Gama.C153_alone",
    "Gama.C153_same",
    "Gama.C153_prefix",
    "Gama.C153_evolution",
    "Gama.C153_random_search",
    "Gama.C153_halving_partial",
    "Gama.C153_false"
   ],
   "note": "Proved for evolution and random search, and for successive halving if no two individuals of a rung have the same score. False of successive halving with ties: the individual to promote is the maximum of a set, whose order depends on the hashes of random (uuid4) identifiers that random_state does not determine. That operators draw all their randomness from the seeded state, and that the outcome of an evaluation is determined by its job and those before it in the process, is assumed (Planned)."
  },
  {
   "property": "C154",
   "status": "partial",
   "theorems": [
    "Gama.C154_partial",
    "Gama.C154_evaluations",
    "Gama.C154_home",
    "Gama.C154_name",
    "Gama.C154_false",
    "Gama.C154_name_false"
   ],
   "note": "Proved for directories that do not begin with ~, or with that of an unknown user (and, for the name, do not end in a slash). False of the code for ~/run: GamaReport expands ~ for evaluations.log but not for gama.log, which it looks for in a folder called ~. The functions of os.path are written out for posix, without symbolic links."
  },
  {
   "property": "C155",
   "status": "partial",
   "theorems": [
    "Gama.C155_partial",
    "Gama.C155_no_dollar",
    "Gama.C155_logs",
    "Gama.C155_false"
   ],
   "note": "Proved for output directories whose path mentions no environment variable that is set. False of the code otherwise: EvaluationLibrary expands variables in the path of the cache and Gama does not, so that models are kept elsewhere and are not removed."
  },
  {
   "property": "C156",
   "status": "partial",
   "theorems": [
    "Gama.C156_partial",
    "Gama.C156_kinds",
    "Gama.C156_too_many",
    "Gama.C156_false"
   ],
   "note": "False of the code if the maximum is a number of rows above that of the data: it is replaced by a fraction, which is refused together with a minimum that is a number of rows. Likewise when only one of the two is set, to a number of rows."
  },
  {
   "property": "C157",
   "status": "partial",
   "theorems": [
    "Gama.C157_partial",
    "Gama.C157_nothing",
    "Gama.C157_false"
   ],
   "note": "False of the code for a rung with at least as many rows as a training set has, but fewer than the data: every evaluation on it fails."
  },
  {
   "property": "C158",
   "status": "partial",
   "theorems": [
    "Gama.C158_evolution_partial",
    "Gama.C158_random_search_partial",
    "Gama.C158_raises",
    "Gama.C158_raises_random_search",
    "Gama.C158_false"
   ],
   "note": "False of the code for metrics on probabilities when hillclimb_size and the number of rows exceed 10000: labels are sampled twice (C46), and the ensemble cannot be made (IndexError) if a row is drawn that is not among the first 10000. Proved otherwise, as by default, for hillclimb_size and max_models other than 0 and candidates that list no individual twice (C161). Composes C137, C82, C45 and C141, with what these assume: there is time left for the ensemble, the metric neither raises nor gives minus infinity, and probabilities of members are distributions over the same classes."
  },
  {
   "property": "C159",
   "status": "partial",
   "theorems": [
    "Gama.C159_partial",
    "Gama.C159_none",
    "Gama.C159_few",
    "Gama.C159_raises",
    "Gama.C159_false"
   ],
   "note": "False of the code: evaluations on lower rungs are given an error, also if they succeeded, so that until an individual has been evaluated on the top rung, which takes reduction_factor to the power of the number of promotions evaluations on the lowest rung, no model is kept and predict raises a TypeError. Proved: if an evaluation on the top rung succeeded, everything is as in C158, including where that is false (C159_raises)."
  },
  {
   "property": "C160",
   "status": "partial",
   "theorems": [
    "Gama.C160_library",
    "Gama.C160_evolution_partial",
    "Gama.C160_random_search_partial",
    "Gama.C160_halving_partial",
    "Gama.C160_raises",
    "Gama.C160_raises_random_search",
    "Gama.C160_raises_halving",
    "Gama.C160_false"
   ],
   "note": "What is said of the library is proved for a library that stores predictions. False of the code as to the ensemble, for metrics on probabilities when hillclimb_size and the number of rows exceed 10000, as C158. Proved otherwise, for candidates that list no individual twice (C161). Within heapq the list is taken to hold the right items in some order. For successive halving, an evaluation has succeeded if it did so on the top rung (C159)."
  },
  {
   "property": "C161",
   "status": "partial",
   "theorems": [
    "Gama.C161_evolution_partial",
    "Gama.C161_random_search_partial",
    "Gama.C161_lost",
    "Gama.C161_false"
   ],
   "note": "False of the code: evaluations of one individual share a file, which is removed with the first of them that is dropped; the ensemble then cannot be built, and predict raises. Proved if no more evaluations succeeded than models are kept (200 by default) and unless the metric is on probabilities and there are more than 10000 rows (C158); if no individual is listed twice this is C158."
  },
  {
   "property": "C162",
   "status": "partial",
   "theorems": [
    "Gama.C162_evolution_partial",
    "Gama.C162_random_search",
    "Gama.C162_random_search_ok",
    "Gama.C162_halving",
    "Gama.C162_false"
   ],
   "note": "Proved of random search in a first fit and of successive halving that is out of time or returns. False of evolution with two objectives: with a full population a pipeline with a worse first score may replace one with a better. Proved of evolution: the scores are those of an evaluation that is best on every objective, if there is one, and the best of all if no more succeeded than the population holds. Candidates are different individuals."
  },
  {
   "property": "C163",
   "status": "partial",
   "theorems": [
    "Gama.C163_partial",
    "Gama.C163_refused",
    "Gama.C163_false"
   ],
   "note": "Proved for names that are all different. False of the code if a name repeats, of whatever kind the columns are: df[column] is then a data frame, which has no dtype, and fit raises an AttributeError. That pandas does so is part of the trusted base. What the encoders do with the columns is not modelled beyond C54."
  },
  {
   "property": "C164",
   "status": "partial",
   "theorems": [
    "Gama.C164_partial",
    "Gama.C164_exact",
    "Gama.C164_random_search",
    "Gama.C164_evolution",
    "Gama.C164_halving",
    "Gama.C164_false"
   ],
   "note": "Proved of evaluations that were begun before the deadline. False of the code: the clock is only looked at after callbacks, an evaluation that begins after the deadline is refused with a ValueError, and callbacks are not called for exceptions. Unless an evaluation begun in time comes back three seconds late, the search goes on for ever: proved of random search (also with a maximum number of evaluations), successive halving, and evolution without a maximum length with three or more in the population (C127)."
  },
  {
   "property": "C165",
   "status": "partial",
   "theorems": [
    "Gama.C165_partial",
    "Gama.C165_exact",
    "Gama.C165_second",
    "Gama.C165_false"
   ],
   "note": "Proved if nothing is drawn and no other seed given in between. False of the code: the generators of the process are seeded on construction, so that a search draws the numbers of the seed given last in the process, from where others stopped."
  },
  {
   "property": "C166",
   "status": "partial",
   "theorems": [
    "Gama.C166_partial",
    "Gama.C166_false"
   ],
   "note": "Proved exactly: if fewer instances were constructed than the interpreter has frames left. False of the code: each construction puts another partialmethod around the constructor of evaluators, and calling it takes a frame for each, so that after about a thousand every fit ends in a RecursionError. What partialmethod calls is part of the trusted base."
  },
  {
   "property": "C167",
   "status": "partial",
   "theorems": [
    "Gama.C167_partial",
    "Gama.C167_strings",
    "Gama.C167_false"
   ],
   "note": "Proved for data of which no column has to be encoded before the search, and targets or labels that are numbers. False of the code for labels that are strings: only the model is saved, which predicts their positions in the list of labels, none of them a label (C167_strings says exactly which); likewise the encoding of categorical columns is not saved."
  },
  {
   "property": "C168",
   "status": "partial",
   "theorems": [
    "Gama.C168_partial",
    "Gama.C168_raises",
    "Gama.C168_false"
   ],
   "note": "Proved for arrays and csv files, and for the columns of data frames with category type and the attributes of ARFF files that list their values. False of the code for the others (C168_raises): a column of text of a data frame that has not category type, or a string attribute of an ARFF file, is encoded by nothing, and the imputation fails in every pipeline."
  },
  {
   "property": "C169",
   "status": "proved",
   "theorems": [
    "Gama.C169_told",
    "Gama.C169_ends",
    "Gama.C169_endless",
    "Gama.C169_later",
    "Gama.C169_stopped"
   ],
   "note": ""
  },
  {
   "property": "C170",
   "status": "partial",
   "theorems": [
    "Gama.C170_partial",
    "Gama.C170_frozen",
    "Gama.C170_false"
   ],
   "note": "Proved if no score is NaN (then the best are kept, C22). False of the code otherwise: if the score of the first evaluation is NaN, it stays at the root of the heap, and the library keeps the first m evaluations, whatever follows (C170_frozen). That NaN reaches the library is by reading: explained_variance_score is NaN for residuals of both signs whose sum overflows, which takes predictions beyond 1e307; r2_score for test sets of one row, but then for all pipelines."
  },
  {
   "property": "C171",
   "status": "partial",
   "theorems": [
    "Gama.C171_partial",
    "Gama.C171_last",
    "Gama.C171_hidden",
    "Gama.C171_false"
   ],
   "note": "Proved if no score is NaN; whatever the scores are, one of the pipelines found is trained. False of the code otherwise: a pipeline found last whose score is NaN is the one trained (C171_last), and one that stands between the best and the worst of three has the worst trained (C171_hidden). The sort is that of CPython up to 3.12 for less than 64 elements; for the origin of NaN see C170."
  },
  {
   "property": "C172",
   "status": "partial",
   "theorems": [
    "Gama.C172_partial",
    "Gama.C172_exact",
    "Gama.C172_twice",
    "Gama.C172_false"
   ],
   "note": "Proved without a memory limit and while the total is within it, unless a worker runs out of memory while it receives a job; C172_exact says exactly when something is raised. False of the code: over the limit, if no worker is left that can be read, max of an empty list is a ValueError; a worker that is gone before it is stopped gives NoSuchProcess, which only __exit__ handles; one that is replaced while the use is logged gives a ValueError; and a worker that fails to receive a job reports its last one again, which is a KeyError (C172_twice)."
  },
  {
   "property": "C173",
   "status": "proved",
   "theorems": [
    "Gama.C173",
    "Gama.C173_any_file",
    "Gama.C173_refused",
    "Gama.C173_run"
   ],
   "note": "argparse is written out from CPython 3.11 for a parser of this kind (tools/diffargs.py compares the two on random command lines). C173_refused: a value that looks like an option and is not attached is an error, never something else; C173_any_file: after -- the file can have any name; C173_run: with C77, what is run."
  },
  {
   "property": "C174",
   "status": "partial",
   "theorems": [
    "Gama.C174_partial",
    "Gama.C174_text",
    "Gama.C174_otherwise",
    "Gama.C174_false"
   ],
   "note": "False of the code: a command without words, such as the empty text, is replaced by the command line of the process (C174_otherwise). Proved of commands with a word. C174_text: a text is split at white space, so that a path with a space can be given in a list of words only."
  },
  {
   "property": "C175",
   "status": "partial",
   "theorems": [
    "Gama.C175_partial",
    "Gama.C175_abbreviation",
    "Gama.C175_false"
   ],
   "note": "False of the code: argparse takes beginnings of options for the options, so that --time 30 sets the time for each pipeline and leaves that for the search as it is. Proved of words that neither are the beginning of an option nor begin with an option of one letter; C175_abbreviation says what the others with two dashes do."
  },
  {
   "property": "C176",
   "status": "partial",
   "theorems": [
    "Gama.C176_partial",
    "Gama.C176_errors",
    "Gama.C176_false"
   ],
   "note": "False of the code: a pipeline with NaN is not worse than any other, so that the only pipeline with a score may be removed instead of it. Proved: no member is removed that is better than another, and each member with NaN is among those the choice is made from."
  },
  {
   "property": "C177",
   "status": "partial",
   "theorems": [
    "Gama.C177_partial",
    "Gama.C177_otherwise",
    "Gama.C177_false"
   ],
   "note": "False of the code: pipelines with NaN are dominated by none and have the best rank. Proved: which members have a worse rank (those below a member that is below another), and that they lose to every member with NaN, whatever the crowding distances are."
  },
  {
   "property": "C178",
   "status": "proved",
   "theorems": [
    "Gama.C178_line",
    "Gama.C178_file"
   ],
   "note": "The texts of times and of numbers of megabytes are parameters without commas and ends of lines."
  },
  {
   "property": "C179",
   "status": "proved",
   "theorems": [
    "Gama.C179_parents",
    "Gama.C179_few",
    "Gama.C179_selection",
    "Gama.C179_numbers",
    "Gama.C179_distances",
    "Gama.C179_tie"
   ],
   "note": "Arithmetic is that of floats without rounding; sorting gives any reordering of the list. C179_numbers: with a stable sort and values that are numbers this is the model without NaN. C179_distances, C179_tie: a NaN at an end of a sorted front gives all between a distance of NaN, and these win or lose by their position only."
  },
  {
   "property": "C180",
   "status": "partial",
   "theorems": [
    "Gama.C180_partial",
    "Gama.C180_promotes",
    "Gama.C180_otherwise",
    "Gama.C180_false"
   ],
   "note": "False of the code if the set gives an evaluation with NaN first, which is then promoted whatever the other scores are (C180_otherwise). Proved otherwise."
  },
  {
   "property": "C181",
   "status": "proved",
   "theorems": [
    "Gama.C181_once"
   ],
   "note": "Queues deliver what is put in them once; ids are fresh."
  },
  {
   "property": "C182",
   "status": "partial",
   "theorems": [
    "Gama.C182_partial",
    "Gama.C182_exact",
    "Gama.C182_false"
   ],
   "note": "False of the code if models are to be added and with none of them the score is a number greater than minus infinity: an exception is logged and the ensemble cannot predict. C182_exact: otherwise it can, every addition is of the best by the scores that are numbers, and again of the one added last if there is none."
  },
  {
   "property": "C183",
   "status": "partial",
   "theorems": [
    "Gama.C183_partial",
    "Gama.C183_missing",
    "Gama.C183_shortened",
    "Gama.C183_stuck",
    "Gama.C183_false"
   ],
   "note": "False of the code if a line is written in part when the log is read: a line that lacks texts is refused with a ValueError; one that lacks the end of its last text is shown as it is, and updates then raise a ValueError, all of them if a further evaluation was written by then. Proved for readings at which no evaluation is written in part, where the last line end and the header may be missing."
  },
  {
   "property": "C184",
   "status": "proved",
   "theorems": [
    "Gama.C184",
    "Gama.C184_never",
    "Gama.C184_length",
    "Gama.C184_estimator",
    "Gama.C184_default",
    "Gama.fair_exists"
   ],
   "note": "C184 is the chance of any one pipeline of the search space: one over the number of lengths, one over the number of algorithms for each step and one over the number of values for each hyperparameter.  C184_never: all other pipelines have no chance.  C184_length and C184_estimator: every length and every estimator is equally likely.  C184_default: the search spaces that come with GAMA.  A chance is the share of the beginnings of the sequence of draws, each draw any number below M; M is a multiple of the numbers of candidates (fair_exists: there is one).  That Python's random.choice and random.randint are uniform and independent is assumed."
  },
  {
   "property": "C185",
   "status": "proved",
   "theorems": [
    "Gama.C185",
    "Gama.C185_enough",
    "Gama.C184_default",
    "Gama.pipelineShare_pos"
   ],
   "note": "C185 is the chance for a population of n as made by [individual() for _ in range(n)].  C185_enough: for every positive e there is a number of pipelines from which on the chance is at least 1 - e."
  },
  {
   "property": "C186",
   "status": "proved",
   "theorems": [
    "Gama.C186",
    "Gama.C186_cannot",
    "Gama.C186_near",
    "Gama.wp_offspring_first"
   ],
   "note": "The chance is ceil(cxpb * 2**53) / 2**53, as random.random gives multiples of 2**-53; C186_near: it differs from cxpb by less than 2**-53.  C186_cannot: chance nought for parents that cannot be crossed.  wp_offspring_first: the first draw decides, and without crossover the first parent is the only one.  See C184 for what a chance is."
  },
  {
   "property": "C187",
   "status": "proved",
   "theorems": [
    "Gama.C187",
    "Gama.C187_never"
   ],
   "note": "The kind of change is the origin recorded with the mutant, which is the change really made (C14).  See C184 for what a chance is."
  },
  {
   "property": "C188",
   "status": "proved",
   "theorems": [
    "Gama.C188",
    "Gama.C188_first",
    "Gama.C188_better",
    "Gama.C188_worst"
   ],
   "note": "C188 is the chance of a pair, C188_first that of the first parent, for one pair as the evolutionary search asks for.  Ranks are those of the code, where the first two fronts have the same (see C19).  See C184 for what a chance is; random.sample is taken to draw one after the other without replacement."
  },
  {
   "property": "C189",
   "status": "proved",
   "theorems": [
    "Gama.C189"
   ],
   "note": "For values without NaN."
  },
  {
   "property": "C190",
   "status": "proved",
   "theorems": [
    "Gama.C190",
    "Gama.C190_never"
   ],
   "note": "For fair draws: each number below a common multiple of the numbers of candidates equally often. For scores without NaN."
  },
  {
   "property": "C191",
   "status": "proved",
   "theorems": [
    "Gama.C191"
   ],
   "note": "For fair draws: each number below a common multiple of the numbers of candidates equally often."
  },
  {
   "property": "C192",
   "status": "proved",
   "theorems": [
    "Gama.C192"
   ],
   "note": "For fair draws: each number below a common multiple of the numbers of candidates equally often. The search space is one the search can work with (Workable)."
  },
  {
   "property": "C193",
   "status": "proved",
   "theorems": [
    "Gama.C193",
    "Gama.C193_cannot"
   ],
   "note": "For fair draws, as in C186, C191 and C192."
  },
  {
   "property": "C194",
   "status": "proved",
   "theorems": [
    "Gama.C194",
    "Gama.C194_create",
    "Gama.C194_total"
   ],
   "note": "For fair draws, as in C188 and C193; one offspring is asked for."
  },
  {
   "property": "C195",
   "status": "proved",
   "theorems": [
    "Gama.C195",
    "Gama.C195_mutate",
    "Gama.C195_mate"
   ],
   "note": "For fair draws, as in C194. Where mutation offers no change of a kind is part of the statement, see C119."
  },
  {
   "property": "C196",
   "status": "proved",
   "theorems": [
    "Gama.C196",
    "Gama.C196_mutate",
    "Gama.C196_mate",
    "Gama.C196_mutate_new",
    "Gama.C196_mutate_again",
    "Gama.C196_mate_new",
    "Gama.C196_mate_again"
   ],
   "note": "For fair draws, as in C194. The chance is that of all tries together; the set of earlier evaluations does not change between them."
  },
  {
   "property": "C197",
   "status": "proved",
   "theorems": [
    "Gama.C197",
    "Gama.C197_mutate",
    "Gama.C197_mate"
   ],
   "note": "For fair draws, as in C194. Where mutation offers no change of a kind is part of the statement, see C119."
  },
  {
   "property": "C83",
   "status": "partial",
   "theorems": [
    "Gama.C83_partial",
    "Gama.C83_strings",
    "Gama.C83_formats",
    "Gama.C83_false"
   ],
   "note": "False of the code for string labels: a missing label becomes a class, unless labels are an array with one column."
  },
  {
   "property": "C84",
   "status": "partial",
   "theorems": [
    "Gama.C84_partial",
    "Gama.C84_otherwise",
    "Gama.C84_false",
    "Gama.C84_sign_false"
   ],
   "note": "False of the code: keyword arguments of the scorer (such as average) are dropped, and score drops the sign."
  },
  {
   "property": "C85",
   "status": "partial",
   "theorems": [
    "Gama.C85_partial",
    "Gama.C85_after",
    "Gama.C85_false"
   ],
   "note": "False of the code when the failure comes after scoring."
  },
  {
   "property": "C86",
   "status": "partial",
   "theorems": [
    "Gama.C86_partial",
    "Gama.C86_exact",
    "Gama.C86_false",
    "Gama.C86_index_false"
   ],
   "note": "False of the code when a training fold has no more rows than asked for, or the index has gaps."
  },
  {
   "property": "C87",
   "status": "partial",
   "theorems": [
    "Gama.C87_partial",
    "Gama.C87_evolution",
    "Gama.C87_halving_partial",
    "Gama.C87_false",
    "Gama.C87_errors",
    "Gama.C87_errors_halving"
   ],
   "note": "Holds of evolution. False of random search, which in a second fit still reports the individuals of the first, and of random search and successive halving, which also report individuals whose evaluation had an error."
  },
  {
   "property": "C88",
   "status": "partial",
   "theorems": [
    "Gama.C88_partial",
    "Gama.C88_left",
    "Gama.C88_false"
   ],
   "note": "False of the code if the scoring, search space or pipeline length is refused: the directory is left."
  },
  {
   "property": "C89",
   "status": "partial",
   "theorems": [
    "Gama.C89_partial",
    "Gama.C89_false",
    "Gama.C89_logs"
   ],
   "note": "Holds if models are kept; false with 'nothing' (the second fit fails) and 'logs' (its models are silently not stored)."
  },
  {
   "property": "C90",
   "status": "partial",
   "theorems": [
    "Gama.C90_partial",
    "Gama.C90_refused",
    "Gama.C90_iterator",
    "Gama.C90_false"
   ],
   "note": "False of the code for iterators, of which no metric is used."
  },
  {
   "property": "C91",
   "status": "partial",
   "theorems": [
    "Gama.C91_partial",
    "Gama.C91_later",
    "Gama.C91_false"
   ],
   "note": "Holds of a first fit, and in later ones of individuals that do not go back to an earlier fit (C91_later); false of copies of individuals of an earlier fit, which keep its preprocessing."
  },
  {
   "property": "C92",
   "status": "partial",
   "theorems": [
    "Gama.C92_partial",
    "Gama.C92_exact",
    "Gama.C92_only",
    "Gama.C92_excluded",
    "Gama.C92_false"
   ],
   "note": "False of the code: what is excluded for one data set is missing in all later fits."
  },
  {
   "property": "C81",
   "status": "partial",
   "theorems": [
    "Gama.C81_limits_partial",
    "Gama.C81_capped",
    "Gama.C81_false"
   ],
   "note": "False of the code for None and for values above the defaults."
  },
  {
   "property": "C82",
   "status": "partial",
   "theorems": [
    "Gama.C82_predict_partial",
    "Gama.C82_unfitted",
    "Gama.C82_false"
   ],
   "note": "Proved if there are models and time, and the metric neither raises nor gives minus infinity. False of the code otherwise: errors while building or fitting are logged and the unfitted ensemble is returned."
  },
  {
   "property": "C78",
   "status": "proved",
   "theorems": [
    "Gama.C78_offspring"
   ],
   "note": ""
  },
  {
   "property": "C79",
   "status": "proved",
   "theorems": [
    "Gama.C79_least_crowded",
    "Gama.C79_distances"
   ],
   "note": ""
  },
  {
   "property": "C80",
   "status": "proved",
   "theorems": [
    "Gama.C80_enter_once",
    "Gama.C80_leaves_no_process"
   ],
   "note": ""
  }
 ]
}
