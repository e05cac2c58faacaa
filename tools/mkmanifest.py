"""Generate MANIFEST.json. Run from anywhere: python3 tools/mkmanifest.py"""
import json, os

HERE = os.path.dirname(os.path.abspath(__file__))
CLAIMS = []


def claim(prop, status, theorems, note=""):
    CLAIMS.append(
        {
            "property": prop,
            "status": status,
            "theorems": ["Gama." + t for t in theorems],
            "note": note,
        }
    )


claim("C01", "proved", ["C01_string_round_trip"])
claim("C02", "proved", ["C02_random_creation_well_formed", "C02_random_creation_succeeds",
      "C02_new_individual_well_formed"])
claim("C03", "proved", ["C03_mutation_well_formed", "C03_mutate_offspring"])
claim("C04", "proved", ["C04_mutation_respects_max_length", "C04_mutate_offspring_length"])
claim("C05", "partial", ["C05_mutation_succeeds_partial", "C05_exact", "C05_false", "C05_over_long_raises"],
      "False of the code: a lone estimator with at most one changeable value at maximum length 1 "
      "has no available mutation (IndexError), and over-long individuals raise AttributeError.")
claim("C06", "proved", ["C06_crossover_well_formed", "C06_mate_offspring"])
claim("C07", "proved", ["C07_first_child_within_max_length", "C07_error_iff"])
claim("C08", "partial", ["C08_offspring_length_partial", "C08_bound", "C08_short_partial", "C08_exact", "C08_reached",
      "C08_search_partial", "C08_search_short_partial", "C08_false"],
      "False of the code for maxima of three and more: mate ignores the order in which the crossover returns the children. The theorems say for which parents it fails, and how long pipelines get (two steps less than twice the maximum); with a maximum of one or two the claim holds.")
claim("C09", "proved", ["C09_mutate_keeps_population", "C09_mate_keeps_population"])
claim("C10", "proved", ["C10_copy_prints_the_same"])
claim("C11", "partial", ["C11_replace_value_partial", "C11_at_end", "C11_false"],
      "False of the code at the position equal to the number of hyperparameters, which is accepted and changes nothing (C11_at_end).")
claim("C12", "partial", ["C12_replace_step_partial", "C12_outside", "C12_false"],
      "False of the code for positions outside the pipeline: the step, of whatever kind, is put before the first one (C12_outside).")
claim("C13", "proved", ["C13_retry_until_new", "C13_operators"])
claim("C14", "proved", ["C14_mutant_lineage", "C14_child_lineage", "C14_new_lineage"])
claim("C15", "proved", ["C15_front_is_maximal"])
claim("C16", "proved", ["C16_update_result", "C16_order_independent", "C16_wrong_arity"])
claim("C17", "partial", ["C17_selection_partial", "C17_negative", "C17_false"],
      "False of the code in one clause: a negative n is not rejected but gives an empty selection.")
claim("C18", "proved", ["C18_sort_is_layering", "C18_sort_any_dominance"])
claim("C19", "partial", ["C19_tournament_partial", "C19_parents_partial", "C19_otherwise", "C19_false"],
      "False of the code: the first two fronts get the same rank.")
claim("C20", "proved", ["C20_parent_pairs"])
claim("C21", "proved", ["C21_elimination", "C21_errors"])
claim("C22", "proved", ["C22_keeps_best"])
claim("C23", "partial", ["C23_no_loss_partial", "C23_otherwise", "C23_false"],
      "False of the code when the same individual is evaluated more than once without an error (refitting, a warm start that lists it twice): "
      "evaluations share a cache file, the second eviction raises and the evaluation is in no list.  C23_otherwise: nothing else is lost, and nothing is duplicated.")
claim("C24", "partial", ["C24_cache_partial", "C24_otherwise", "C24_false"],
      "False of the code when the same individual is evaluated more than once without an error: both evaluations use "
      "one file.  C24_otherwise says what is read then.")
claim("C25", "proved", ["C25_n_best"])
claim("C26", "partial", ["C26_lookup_partial", "C26_otherwise", "C26_false"],
      "False of the code when the same individual is evaluated more than once without an error: an exception skips the "
      "lookup update.  C26_otherwise: as many evaluations are not found as are lost.")
claim("C27", "partial", ["C27_same_rows_partial", "C27_otherwise", "C27_false"],
      "False of the code across two calls of fit: each chooses new rows while old evaluations stay. C27_otherwise: over any number of fits, what is stored of an evaluation is of the rows chosen at the last fit before it was saved, so between two fits all are of the same rows.")
claim("C28", "proved", ["C28_own_result", "C28_result_is_return_value"])
claim("C29", "partial", ["C29_accounted_partial", "C29_all_returned_partial", "C29_otherwise", "C29_false", "C29_false_result"],
      "False of the code: stopping a worker over the memory limit, or a result without an error "
      "attribute, loses the job, and waiting for it never ends.  C29_otherwise: a job that is lost is never returned.")
claim("C30", "partial", ["C30_wait_without_jobs", "C30_backlog_partial", "C30_false"],
      "False of the code in one clause: a worker out of memory while receiving a job reports its "
      "previous job again, which makes job_queue_size too small.")
claim("C31", "partial", ["C31_reported_partial", "C31_continues_partial", "C31_returned_exception_partial", "C31_otherwise", "C31_false"],
      "False of the code for exceptions that are no Exception, such as SystemExit.  C31_otherwise says what happens then.")
claim("C32", "proved", ["C32_number_of_workers", "C32_stops_only_over_limit"])
claim("C33", "partial", ["C33_disjoint_partial", "C33_exact", "C33_false"],
      "False of the code: process-wide defaults replace given arguments of the same name. C33_exact says which arguments every returned job ran with.")
claim("C34", "proved", ["C34_population"])
claim("C35", "proved", ["C35_bound", "C35_refused", "C35_terminates"])
claim("C36", "partial", ["C36_never_starves", "C36_never_aborts_partial", "C36_false", "C36_false_failures"],
      "The search never waits without a pending job, if its candidates are not the list it writes its output to (C37, C131), and does not abort if all evaluations succeed, there are four more candidates than workers and population_size is at least three. The other half is false of the code: with fewer "
      "than three individuals in the population creating offspring raises a ValueError that ends the search.")
claim("C37", "partial", ["C37_random_search_partial", "C37_asha_partial", "C37_false", "C37_second_fit_fails"],
      "Holds of random search and ASHA; false of AsyncEA, where the list of candidates is the list that is cleared.")
claim("C38", "proved", ["C38_reports_all", "C38_interrupted", "C38_budget", "C38_candidates_first"])
claim("C39", "proved", ["C39_promotions", "C39_best"])
claim("C40", "partial", ["C40_rows_partial", "C40_fractions_partial", "C40_default", "C40_resources", "C40_rounded_partial",
      "C40_types", "C40_full", "C40_reversed", "C40_extra_rung", "C40_top_sampled", "C40_false"],
      "In exact arithmetic C40_resources. In double precision with any logarithm off by at most one unit in the last "
      "place: all of it for numbers of rows up to a billion (there may be a rung too many), up to a fraction of 10^-11 "
      "for fractions. False of the code for fractions, exactly: from 1/729 with a factor of three, the top rung gets "
      "the largest number below one, so that full evaluations are on a sample of the rows.")
claim("C41", "partial", ["C41_interrupted_partial", "C41_returned_partial", "C41_highest_exists", "C41_false",
      "C41_nothing_evaluated", "C41_other_exceptions", "C41_no_rungs"],
      "False of the code if nothing was evaluated yet, or on any exception other than the timeout: UnboundLocalError.")
claim("C42", "proved", ["C42_weights"], "For a metric that gives comparable scores greater than minus infinity.")
claim("C43", "proved", ["C43_greedy"], "For a metric that gives comparable scores greater than minus infinity.")
claim("C44", "partial", ["C44_score_partial", "C44_otherwise", "C44_false"],
      "Proved if evaluations of one individual have the same predictions, there are models and time, and the metric neither raises nor gives minus infinity. False of the code if the library holds two evaluations of one individual with different predictions.")
claim("C45", "proved", ["C45_mean", "C45_between", "C45_agree", "C45_probabilities", "C45_vote"], "Exact arithmetic.")
claim("C46", "partial", ["C46_rows_partial", "C46_false", "C46_out_of_bounds"],
      "False of the code for metrics on probabilities when predictions are downsampled: labels are sampled twice.")
claim("C47", "partial", ["C47_predict_partial", "C47_false", "C47_export_fails"],
      "False of the code: pickling removes the models of the ensemble in memory, after which exporting fails.")
claim("C48", "proved", ["C48_best_fit"])
claim("C49", "proved", ["C49_accounts", "C49_decreases", "C49_finished"],
      "Exact arithmetic; time.time() is assumed not to go back.")
claim("C50", "partial", ["C50_current_partial", "C50_during", "C50_false", "C50_stale"],
      "False of the code for an activity left by an exception.")
claim("C51", "proved", ["C51_phases", "C51_evaluation"], "Exact arithmetic.")
claim("C52", "partial", ["C52_default_partial", "C52_unusable", "C52_given", "C52_false"],
      "False of the code for a total time of at most five seconds: the default is zero.")
claim("C53", "partial", ["C53_partial", "C53_complete", "C53_by_index", "C53_false", "C53_error"],
      "False of the code when labels are missing and y has another row index than x.")
claim("C54", "proved", ["C54", "C54_which", "C54_only", "C54_left", "C54_steps"])
claim("C55", "proved", ["C55_named", "C55_last", "C55_unknown"])
claim("C56", "partial", ["C56_partial", "C56_positions", "C56_leak", "C56_prefix", "C56_false"],
      "False of the code when evaluating on a subsample: positions in the training set are used as row numbers.")
claim("C57", "proved", ["C57"],
      "Assumes of scikit-learn that cross_validate returns one estimator for each fold, and that an estimator predicts each row by itself.")
claim("C58", "proved", ["C58_scores", "C58_reported", "C58_raised", "C58_contained", "C58_outside"],
      "Refusing an invalid pipeline or a timeout that is not positive, an outer timeout and interrupts do raise.")
claim("C59", "proved", ["C59_strings", "C59_numbers", "C59_decoded", "C59_empty", "C59_formats", "C59_number_formats"],
      "Assumes that a fitted model predicts labels it was trained with. Predicting for no rows raises an IndexError.")
claim("C60", "partial", ["C60_partial", "C60_frames", "C60_single_row", "C60_classifier", "C60_lists", "C60_other", "C60_false"],
      "False of the code for data frames of several columns or of one row. A list is accepted only as string labels of a classifier.")
claim("C61", "partial", ["C61_partial", "C61_refused", "C61_usable", "C61_false"],
      "False of the code for two algorithms with the same class name: their hyperparameters share values.")
claim("C62", "partial", ["C62_partial", "C62_merges", "C62_modified", "C62_loses_shared", "C62_false"],
      "Proved for configurations that share no dictionary object. False of the code: the dictionaries of the first configuration are changed, and an algorithm that uses shared values loses them when the other configuration lists its own.")
claim("C63", "partial", ["C63_partial", "C63_known", "C63_asha_partial", "C63_asha_default", "C63_asha_false"],
      "Proved for any sequence of updates of the defaults; false of successive halving, which forgets the user's value once a dataset is too small for it.")
claim("C64", "proved", ["C64_refused", "C64_anywhere", "C64_untouched", "C64_accepted"],
      "A refused construction leaves the log handler registered with the logging module; the property is about the directory.")
claim("C65", "partial", ["C65_partial", "C65_given", "C65_exact", "C65_false"],
      "False of the code on a machine with one core: half of one is zero jobs, which is refused.")
claim("C66", "proved", ["C66_all_called", "C66_timeout", "C66_interrupt", "C66_order"],
      "For all callbacks and all outcomes of each.")
claim("C67", "proved", ["C67_kept", "C67_fit", "C67_foreign", "C67_twice", "C67_unknown"],
      "For any set of log files and cached models, and for whole fits of a new instance.")
claim("C68", "partial", ["C68_partial", "C68_last", "C68_false"],
      "False of the code: all instances use the settings of the one constructed last.")
claim("C69", "partial", ["C69_partial", "C69_fails", "C69_search", "C69_false"],
      "False of the code for one metric without the length: making offspring raises IndexError for every population, and an evolutionary search submits nothing but the candidates it starts from (C69_search).")
claim("C70", "proved", ["C70_steps", "C70_names", "C70_estimator_last"],
      "For every individual of a usable search space and any fixed steps; names for fixed steps that are not decimal numbers.")
claim("C71", "partial", ["C71_partial", "C71_false", "C71_text", "C71_imports", "C71_names_partial", "C71_names_false",
      "C71_private_module", "C71_values_partial", "C71_values_false", "C71_ensemble", "C71_ensemble_vars"],
      "Proved for individuals compiled with the preprocessing of the last fit; false for others, for classes of equal names, classes of __main__ and string values with quotes.")
claim("C72", "partial", ["C72_partial", "C72_newline", "C72_separator", "C72_quote", "C72_false"],
      "False of the code: texts are written without quoting, so separators, line ends and quotation marks in error messages break the log.")
claim("C73", "proved", ["C73_incremental", "C73_contents", "C73_complete", "C73_finished", "C73_news", "C73_values"],
      "For logs whose texts can be told apart (see C72); conversions of texts are parameters.")
claim("C74", "partial", ["C74_partial", "C74_exact", "C74_false"],
      "False of the code for stream handlers of the user that have an attribute named tag: those installed before the latest construction are gone (C74_exact).")
claim("C75", "partial", ["C75_partial", "C75_search_space", "C75_false"],
      "False of the code: the printed search space is part of the line and cannot be parsed.")
claim("C93", "partial", ["C93_contents", "C93_partial", "C93_false"],
      "False of the code: the log also receives what later instances log.")
claim("C94", "proved", ["C94_phases"], "")
claim("C76", "partial", ["C76_partial", "C76_diverges", "C76_ends", "C76_false", "C76_other_forms"],
      "Proved for every file with a line before the declarations, declarations in the form GAMA expects "
      "with different names, and an @data line that ends with a line end: the declared attributes are "
      "returned. Reading ends if some line begins with @data. The full claim is false: without such a line, "
      "or if @data is the last line without a line end, the loop never ends (C76_diverges, C76_false); "
      "single-quoted names and a declaration on the first line are misread (C76_other_forms).")
claim("C77", "partial", ["C77_partial", "C77_refused", "C77_mode", "C77_separator", "C77_case", "C77_false", "C77_false_case"],
      "Proved for lower-case file names without a separator: the run is the one described by the options. "
      "Unsupported names and modes are refused. The full claim is false: a separator for a csv file is always "
      "an AttributeError (misspelled attribute), and only the lower-cased name is looked up. argparse is not modelled.")
claim("C95", "partial", ["C95_partial", "C95_no_line_end", "C95_numbers", "C95_false"],
      "Proved for files whose first line ends with a line end. False for a file that is its header only without "
      "a line end: the last character of the last name is lost. The sniffer is a parameter.")
claim("C96", "partial", ["C96_partial", "C96_exact", "C96_false"],
      "Proved in one direction for all names and in both for lower-case names. False in general: metadata of "
      "d.ARFF is read though its data is refused; names that end in .arff with capitals are the only exception (C96_exact).")
claim("C97", "proved", ["C97_space"], "Making an instance of a class without arguments is assumed to succeed; whether it has predict_proba is a parameter.")
claim("C98", "partial", ["C98_weights", "C98_partial", "C98_false", "C98_weighted", "C98_averages_partial", "C98_measures_partial", "C98_exact_partial", "C98_samples"],
      "Proved for balanced targets and for score functions without a parameter labels. False in general: fit passes "
      "the whole target vector as labels, so that scikit-learn's mean has one term per row and a class is weighed by "
      "its number of rows (C98_weights). scikit-learn's averaging over a list of labels is written out from its source.")
claim("C99", "partial", ["C99_partial", "C99_unsigned", "C99_false"],
      "Proved for all types except complex numbers and, before Python 3.12, unsigned and boolean columns, for which "
      "the call of is_integer on a Python int is an AttributeError.")
claim("C100", "partial", ["C100_partial", "C100_exact", "C100_short", "C100_false"],
      "Proved if the training data was an array too. False for training data with named columns: the columns made "
      "from the array are numbered. Conversion of values is a parameter.")
claim("C101", "partial", ["C101_partial", "C101_failed", "C101_unfitted", "C101_false"],
      "Proved if the last fit made a model. False after a failed fit: the model of the earlier fit is used with the "
      "encoding and labels of the failed one.")
claim("C102", "proved", ["C102_export", "C102_edges"], "The formatter is a parameter; without it the file is written and the call fails (C102_edges).")
claim("C103", "proved", ["C103_columns", "C103_searches"], "What each field prints is a parameter; the columns of the three searches are given in full.")
claim("C104", "partial", ["C104_partial", "C104_false"],
      "False of the code: extra fields are added to the caller's dictionary. The partial theorem says exactly when it is unchanged.")
claim("C105", "proved", ["C105_busy"], "")
claim("C106", "partial", ["C106_partial", "C106_no_restart_partial", "C106_false"],
      "False of the code: a restart at the last evaluation leaves an empty population. Proved for the time since the last restart, with the exact size of the population.")
claim("C107", "partial", ["C107_partial", "C107_otherwise", "C107_false"],
      "False of the code: evaluations under way at the restart end up in the new population. Proved for everything else. C107_otherwise: any evaluation under way at a restart can be the first of the new population.")
claim("C108", "partial", ["C108_partial", "C108_false"],
      "False of the code: successive halving takes its candidates from the caller's list. The partial theorem says what is left.")
claim("C109", "proved", ["C109_files", "C109_scores", "C109_target_ignored", "C109_failures"],
      "Decoding, parsing and the fitted model are parameters.")
claim("C110", "partial", ["C110_partial", "C110_otherwise", "C110_false"],
      "False of the code: the encoding is not passed on for csv files. Proved for ARFF files and default encodings.")
claim("C111", "proved", ["C111_options"], "What is detected is a parameter.")
claim("C112", "proved", ["C112_categories", "C112_empty"], "Attribute names are different, which the parser ensures.")
claim("C113", "partial", ["C113_partial", "C113_false"],
      "False of the code: log loss needs every class to occur, roc_auc is never accepted, precision and the like need labels that include 1. The partial theorem says exactly when score works. The checks of scikit-learn are transcribed.")
claim("C114", "partial", ["C114_partial", "C114_false"],
      "False of the code if only nearest neighbors (or only polynomial features) are configured. The partial theorem is exact.")
claim("C115", "partial", ["C115_partial", "C115_rows", "C115_false"],
      "False of the code: evaluations on the lower rungs of successive halving have an error but count as successful. The partial theorem says which ones count.")
claim("C116", "partial", ["C116_partial", "C116_weights", "C116_false"],
      "False of the code: the scorer is given all training labels, so that right predictions of a class count as often as the class occurs. Averages of scikit-learn are transcribed.")
claim("C117", "partial", ["C117_partial", "C117_kept_partial", "C117_one_objective_partial", "C117_random_partial", "C117_otherwise", "C117_false"],
      "False of the code with length regularisation: the best-scoring pipeline may be longer than all others, is then in the worst front and may be eliminated. Holds, of the time since the last restart, if one evaluated individual is best on every objective, with one objective, and for random search. C117_otherwise: a pipeline gets lost only at a moment when the population has outgrown its size and every other individual in it is strictly better on some objective or has the same values.")
claim("C118", "proved", ["C118", "C118_expression"],
      "Exact: a pipeline can be created if and only if it is well formed and not longer than the maximum start length. Draws are a stream; no statement about probabilities beyond being possible.")
claim("C119", "partial", ["C119_partial", "C119_single_partial", "C119_false"],
      "False of the code: another algorithm (value) is only chosen when at least two steps (hyperparameters) can be exchanged. The pipelines one mutation can make are characterised exactly.")
claim("C120", "partial", ["C120_partial", "C120_default", "C120_stuck_partial", "C120_false"],
      "False of the code with pipelines of one step or a single preprocessing algorithm: the estimator is then never exchanged. Holds with two estimators, two preprocessing algorithms and pipelines of two steps.")
claim("C121", "proved", ["C121"],
      "Exact, for parents within the maximum length (longer ones are refused, C07).")
claim("C122", "partial", ["C122_partial", "C122_stuck", "C122_false"],
      "False of the code with a maximum length of one: GaussianNB and LassoLarsCV have nothing to mutate (IndexError). Everything else holds, of the configurations as data, evaluated in the kernel.")
claim("C123", "proved", ["C123"],
      "The configurations are data taken from the source; conditions on them are evaluated in the kernel, for any order of the merged values.")
claim("C124", "partial", ["C124_partial", "C124_false"],
      "False of the code: the merge is made in place and adds f_regression to the classifier's search space. Nothing else changes.")
claim("C125", "partial", ["C125_partial", "C125_ignored", "C125_false"],
      "False of the code: the checks are parsed, returned and not used.")
claim("C126", "proved", ["C126_evolution", "C126_evolution_any", "C126_random_search", "C126_random_search_any", "C126_halving", "C126_halving_any", "C126_default"],
      "Of GAMA's own operators run by the search procedures. Assumes that evaluating a pipeline does not change pipelines.")
claim("C127", "partial", ["C127_partial", "C127_unlimited_partial", "C127_two_partial", "C127_default_partial", "C127_false"],
      "False of the code with a maximum length of three or more: crossover makes offspring that is too long, and choosing it as a parent ends the search. It is the only way; without a maximum length, and with a maximum of two, the claim holds.")
claim("C128", "partial", ["C128_evolution_moment_partial", "C128_evolution_partial", "C128_evolution_best_partial", "C128_random_search", "C128_random_search_moment", "C128_halving_partial", "C128_halving_stopped", "C128_own_exception", "C128_false", "C128_false_restart"],
      "Holds of random search. False of successive halving stopped by the user (UnboundLocalError instead of the results so far) and of an evolutionary search cut off just after a restart. The partial theorems say exactly when there is a pipeline. Leaving the evaluator is assumed not to raise.")
claim("C129", "partial", ["C129_taken", "C129_refused", "C129_evolution_partial", "C129_warm_start",
      "C129_own_population", "C129_false"],
      "Proved for lists of the caller's own. False of evolution for the list of the last population itself "
      "(warm_start=gama._final_pop): the search clears it before it reads it, and never submits anything (C37).")
claim("C130", "proved", ["C130_evolution", "C130_random_search", "C130_halving", "C130_population"],
      "An evaluation returns the individual it was given, and its rung.")
claim("C131", "partial", ["C131_evolution_partial", "C131_random_search", "C131_halving", "C131_second_fit",
      "C131_false"],
      "Proved of random search and successive halving, and of evolution if the candidates are not the list it writes "
      "its output to. False of the code for a second fit with evolution without warm_start: the list is cleared before "
      "it is read, so that the search waits for nothing at once (C37). An evaluation is taken to return the individual "
      "it was given, and its rung.")
claim("C132", "partial", ["C132_progress_partial", "C132_otherwise", "C132_stands_still", "C132_false"],
      "Proved for fair schedules, jobs that end, and when no worker is stopped, dies or fails to receive its job, for any search that keeps the interface (all three do: eaClient_lawful, rsClient_lawful, ashaClient_lawful). Whatever happens to the workers, the search is told an outcome unless waiting raises, no worker is running any more, or everything it waits for is lost (C132_otherwise). False of the code in the last case: a worker that is stopped for its use of memory takes its job with it, and when all outstanding jobs are lost the search is told nothing any more.")
claim("C133", "proved", ["C133_hillclimb", "C133_none"],
      "The evaluation library, its files and the ensemble composed, from the library's creation to the ensemble; beyond 10 000 rows with metrics on probabilities see C46.")
claim("C134", "proved", ["C134_evolution", "C134_pipelines", "C134_random_search"],
      "Search, operators, evaluator with workers, and library run together (Model/Whole.lean). Assumed of an evaluation: its first score is the one the search is told, and predictions have as many rows as the data. Simplification: an interruption arrives before or after saving, not in the middle. This discharges for these searches the assumption of C23, C24 and C26 that individuals in one library have different ids.")
claim("C135", "proved", ["C135_halving"],
      "Of the evaluations of an individual only the one on the top rung is without an error (evaluate_on_rung), so that "
      "no two that are kept share a file. Candidates are different individuals, as in C134.")
claim("C136", "proved", ["C136_new"],
      "For c.maxRetry = 50, which is what GAMA passes. Candidates are different individuals, as in C134: otherwise saving an evaluation may fail, and its text is then not known as evaluated (C26).")
claim("C137", "proved", ["C137_evolution", "C137_random_search", "C137_halving"],
      "Composes C134, C135 and C133. For candidates that list an individual twice see C161.")
claim("C138", "proved", ["C138_constructed", "C138_refused", "C138_created", "C138_search", "C138_zero"],
      "Composes construction, creation of pipelines and the evolutionary search.")
claim("C139", "proved", ["C139_line_ends"],
      "Reading in text mode turns every line end into a newline (trusted base).")
claim("C140", "proved", ["C140_exported", "C140_values", "C140_rule", "C140_script"],
      "How scikit-learn's voters combine predictions is written out from its documentation (trusted base).")
claim("C141", "proved", ["C141_proba"],
      "An ensemble that was built has members with positive weights (C82_predict_partial). Members are assumed to know all classes.")
claim("C142", "partial", ["C142_partial", "C142_lines", "C142_shown", "C142_unregularized", "C142_search_space", "C142_false"],
      "Proved for runs with one scoring metric that regularise the length and whose arguments can be read (C75). False otherwise: the text False is taken for true, so that lengths are expected of a run that does not regularise them and the report is refused with a ValueError; a printed search space of two algorithms is refused as well.")
claim("C143", "partial", ["C143_partial", "C143_better", "C143_false", "C143_rows_false"],
      "Proved, for a kept cache and for regression or at most hillclimb_size rows: the ensemble is built from the best models of both fits together on matching rows, and these are of the second fit if enough of them are better than all of the first. Metrics on probabilities with more than 10000 rows are excluded (C46). False in full: the evaluation library is made once, so a model of the first fit stays in it with the score it had then; and for classification with more rows the rows are drawn again, so that models of the first fit have predictions for other rows than the labels they are scored on.")
claim("C144", "partial", ["C144_partial", "C144_unusable", "C144_false"],
      "Proved when the cache is kept (store is all or models), with regression or at most hillclimb_size rows, and unless the metric is on probabilities and there are more than 10000 (C158). False for the default store: the first fit removes the cache directory; if it found a model, but fewer than max_models, then no ensemble of a second fit can predict, whatever that finds.")
claim("C145", "partial", ["C145_partial", "C145_lost", "C145_false"],
      "Proved if the second data has as many rows or more, or the first no more than hillclimb_size. False if the first has more than hillclimb_size rows and the second fewer: the rows chosen for the first are used again, no evaluation of the second is recorded, and making the ensemble raises an IndexError.")
claim("C146", "partial", ["C146_partial", "C146_raises", "C146_pickled", "C146_false"],
      "False of the code: evaluations have no validation_score, so printing any ensemble that has models raises an AttributeError; after pickling it prints that it has no models.")
claim("C147", "partial", ["C147_partial", "C147_numbered", "C147_last", "C147_false"],
      "Proved for files with a header. False without one: columns are listed as texts '0', '1', ... but numbered in the table, so that no column can be asked for. The labels pandas gives are part of the trusted base.")
claim("C148", "partial", ["C148_partial", "C148_single", "C148_constant", "C148_rare", "C148_false"],
      "Proved for data of less than 10000 rows, and for columns that are not encoded ordinally. False of the code for larger data: the ordinal encoder drops columns of variance up to 0.0001, for example a column with one different value in 10000. The rule of category_encoders is part of the trusted base.")
claim("C149", "partial", ["C149_partial", "C149_accepted", "C149_refused", "C149_no_limit", "C149_missing", "C149_false"],
      "Proved exactly when labels are accepted, for any sample size. False of the code: with 10001 rows every set of labels with two or more classes is refused with a ValueError, since the rows beyond the sample of 10000 have to be at least as many as classes. The errors of StratifiedShuffleSplit are part of the trusted base.")
claim("C150", "proved", ["C150_columns"],
      "That the columns of a scikit-learn classifier are for the labels it was fitted on, in increasing order (classes_), is part of the trusted base, stated as ColumnsFor.")
claim("C151", "proved", ["C151_log_loss", "C151_two_labels", "C151_roc_auc"],
      "The checks the scorers of scikit-learn make (foldTakes) and what cross_validate does (CrossValidates) are part of the trusted base.")
claim("C152", "partial", ["C152_partial", "C152_refused", "C152_false"],
      "Proved exactly when it holds: no label is missing, or labels are strings that are not in a column of an array. False of the code for numbers of which one is missing: the scorer is given the labels from before unlabeled rows are removed, log loss refuses them, and every evaluation fails. The check of log loss is part of the trusted base.")
claim("C153", "partial", ["C153_alone", "C153_same", "C153_prefix", "C153_evolution", "C153_random_search", "C153_halving_partial", "C153_false"],
      "Proved for evolution and random search, and for successive halving if no two individuals of a rung have the same score. False of successive halving with ties: the individual to promote is the maximum of a set, whose order depends on the hashes of random (uuid4) identifiers that random_state does not determine. That operators draw all their randomness from the seeded state, and that the outcome of an evaluation is determined by its job and those before it in the process, is assumed (Planned).")
claim("C154", "partial", ["C154_partial", "C154_evaluations", "C154_home", "C154_name", "C154_false", "C154_name_false"],
      "Proved for directories that do not begin with ~, or with that of an unknown user (and, for the name, do not end in a slash). False of the code for ~/run: GamaReport expands ~ for evaluations.log but not for gama.log, which it looks for in a folder called ~. The functions of os.path are written out for posix, without symbolic links.")
claim("C155", "partial", ["C155_partial", "C155_no_dollar", "C155_logs", "C155_false"],
      "Proved for output directories whose path mentions no environment variable that is set. False of the code otherwise: EvaluationLibrary expands variables in the path of the cache and Gama does not, so that models are kept elsewhere and are not removed.")
claim("C156", "partial", ["C156_partial", "C156_kinds", "C156_too_many", "C156_false"],
      "False of the code if the maximum is a number of rows above that of the data: it is replaced by a fraction, "
      "which is refused together with a minimum that is a number of rows. Likewise when only one of the two is set, "
      "to a number of rows.")
claim("C157", "partial", ["C157_partial", "C157_nothing", "C157_false"],
      "False of the code for a rung with at least as many rows as a training set has, but fewer than the data: every "
      "evaluation on it fails.")
claim("C158", "partial", ["C158_evolution_partial", "C158_random_search_partial", "C158_raises",
                          "C158_raises_random_search", "C158_false"],
      "False of the code for metrics on probabilities when hillclimb_size and the number of rows exceed 10000: labels are "
      "sampled twice (C46), and the ensemble cannot be made (IndexError) if a row is drawn that is not among the first "
      "10000. Proved otherwise, as by default, for hillclimb_size and max_models other than 0 and candidates that list no "
      "individual twice (C161). Composes C137, C82, C45 and C141, with what these assume: there is time left for the "
      "ensemble, the metric neither raises nor gives minus infinity, and probabilities of members are distributions over "
      "the same classes.")
claim("C159", "partial", ["C159_partial", "C159_none", "C159_few", "C159_raises", "C159_false"],
      "False of the code: evaluations on lower rungs are given an error, also if they succeeded, so that until an "
      "individual has been evaluated on the top rung, which takes reduction_factor to the power of the number of promotions "
      "evaluations on the lowest rung, no model is kept and predict raises a TypeError. Proved: if an evaluation on the top "
      "rung succeeded, everything is as in C158, including where that is false (C159_raises).")
claim("C160", "partial", ["C160_library", "C160_evolution_partial", "C160_random_search_partial", "C160_halving_partial",
                          "C160_raises", "C160_raises_random_search", "C160_raises_halving", "C160_false"],
      "What is said of the library is proved for a library that stores predictions. False of the code as to the ensemble, "
      "for metrics on probabilities when hillclimb_size and the number of rows exceed 10000, as C158. Proved otherwise, "
      "for candidates that list no individual twice (C161). Within heapq the list is taken to hold the right items in some "
      "order. For successive halving, an evaluation has succeeded if it did so on the top rung (C159).")
claim("C161", "partial", ["C161_evolution_partial", "C161_random_search_partial", "C161_lost", "C161_false"],
      "False of the code: evaluations of one individual share a file, which is removed with the first of them that is "
      "dropped; the ensemble then cannot be built, and predict raises. Proved if no more evaluations succeeded than models "
      "are kept (200 by default) and unless the metric is on probabilities and there are more than 10000 rows (C158); if no "
      "individual is listed twice this is C158.")
claim("C162", "partial", ["C162_evolution_partial", "C162_random_search", "C162_random_search_ok", "C162_halving",
      "C162_false"],
      "Proved of random search in a first fit and of successive halving that is out of time or returns. False of "
      "evolution with two objectives: with a full population a pipeline with a worse first score may replace one with a "
      "better. Proved of evolution: the scores are those of an evaluation that is best on every objective, if there is "
      "one, and the best of all if no more succeeded than the population holds. Candidates are different individuals.")
claim("C163", "partial", ["C163_partial", "C163_refused", "C163_false"],
      "Proved for names that are all different. False of the code if a name repeats, of whatever kind the columns are: "
      "df[column] is then a data frame, which has no dtype, and fit raises an AttributeError. That pandas does so is "
      "part of the trusted base. What the encoders do with the columns is not modelled beyond C54.")
claim("C164", "partial", ["C164_partial", "C164_exact", "C164_random_search", "C164_evolution", "C164_halving", "C164_false"],
      "Proved of evaluations that were begun before the deadline. False of the code: the clock is only looked at after "
      "callbacks, an evaluation that begins after the deadline is refused with a ValueError, and callbacks are not called "
      "for exceptions. Unless an evaluation begun in time comes back three seconds late, the search goes on for ever: "
      "proved of random search (also with a maximum number of evaluations), successive halving, and evolution without a "
      "maximum length with three or more in the population (C127).")
claim("C165", "partial", ["C165_partial", "C165_exact", "C165_second", "C165_false"],
      "Proved if nothing is drawn and no other seed given in between. False of the code: the generators of the process "
      "are seeded on construction, so that a search draws the numbers of the seed given last in the process, from where "
      "others stopped.")
claim("C166", "partial", ["C166_partial", "C166_false"],
      "Proved exactly: if fewer instances were constructed than the interpreter has frames left. False of the code: each "
      "construction puts another partialmethod around the constructor of evaluators, and calling it takes a frame for "
      "each, so that after about a thousand every fit ends in a RecursionError. What partialmethod calls is part of the "
      "trusted base.")
claim("C167", "partial", ["C167_partial", "C167_strings", "C167_false"],
      "Proved for data of which no column has to be encoded before the search, and targets or labels that are numbers. False of the code for labels that are strings: only the model is saved, which predicts their positions in the list of labels, none of them a label (C167_strings says exactly which); likewise the encoding of categorical columns is not saved.")
claim("C168", "partial", ["C168_partial", "C168_raises", "C168_false"],
      "Proved for arrays and csv files, and for the columns of data frames with category type and the attributes of ARFF files that list their values. False of the code for the others (C168_raises): a column of text of a data frame that has not category type, or a string attribute of an ARFF file, is encoded by nothing, and the imputation fails in every pipeline.")
claim("C169", "proved", ["C169_told", "C169_ends", "C169_endless", "C169_later", "C169_stopped"],
      "")
claim("C170", "partial", ["C170_partial", "C170_frozen", "C170_false"],
      "Proved if no score is NaN (then the best are kept, C22). False of the code otherwise: if the score of the first evaluation is NaN, it stays at the root of the heap, and the library keeps the first m evaluations, whatever follows (C170_frozen). That NaN reaches the library is by reading: explained_variance_score is NaN for residuals of both signs whose sum overflows, which takes predictions beyond 1e307; r2_score for test sets of one row, but then for all pipelines.")
claim("C171", "partial", ["C171_partial", "C171_last", "C171_hidden", "C171_false"],
      "Proved if no score is NaN; whatever the scores are, one of the pipelines found is trained. False of the code otherwise: a pipeline found last whose score is NaN is the one trained (C171_last), and one that stands between the best and the worst of three has the worst trained (C171_hidden). The sort is that of CPython up to 3.12 for less than 64 elements; for the origin of NaN see C170.")
claim("C172", "partial", ["C172_partial", "C172_exact", "C172_twice", "C172_false"],
      "Proved without a memory limit and while the total is within it, unless a worker runs out of memory while it receives a job; C172_exact says exactly when something is raised. False of the code: over the limit, if no worker is left that can be read, max of an empty list is a ValueError; a worker that is gone before it is stopped gives NoSuchProcess, which only __exit__ handles; one that is replaced while the use is logged gives a ValueError; and a worker that fails to receive a job reports its last one again, which is a KeyError (C172_twice).")
claim("C173", "proved", ["C173", "C173_any_file", "C173_refused", "C173_run"],
      "argparse is written out from CPython 3.11 for a parser of this kind (tools/diffargs.py compares the two on random "
      "command lines). C173_refused: a value that looks like an option and is not attached is an error, never something "
      "else; C173_any_file: after -- the file can have any name; C173_run: with C77, what is run.")
claim("C174", "partial", ["C174_partial", "C174_text", "C174_otherwise", "C174_false"],
      "False of the code: a command without words, such as the empty text, is replaced by the command line of the process "
      "(C174_otherwise). Proved of commands with a word. C174_text: a text is split at white space, so that a path with a "
      "space can be given in a list of words only.")
claim("C175", "partial", ["C175_partial", "C175_abbreviation", "C175_false"],
      "False of the code: argparse takes beginnings of options for the options, so that --time 30 sets the time for each "
      "pipeline and leaves that for the search as it is. Proved of words that neither are the beginning of an option nor "
      "begin with an option of one letter; C175_abbreviation says what the others with two dashes do.")
claim("C176", "partial", ["C176_partial", "C176_errors", "C176_false"],
      "False of the code: a pipeline with NaN is not worse than any other, so that the only pipeline with a score may be "
      "removed instead of it. Proved: no member is removed that is better than another, and each member with NaN is "
      "among those the choice is made from.")
claim("C177", "partial", ["C177_partial", "C177_otherwise", "C177_false"],
      "False of the code: pipelines with NaN are dominated by none and have the best rank. Proved: which members have a "
      "worse rank (those below a member that is below another), and that they lose to every member with NaN, whatever the "
      "crowding distances are.")
claim("C178", "proved", ["C178_line", "C178_file"],
      "The texts of times and of numbers of megabytes are parameters without commas and ends of lines.")
claim("C179", "proved", ["C179_parents", "C179_few", "C179_selection", "C179_numbers", "C179_distances", "C179_tie"],
      "Arithmetic is that of floats without rounding; sorting gives any reordering of the list. C179_numbers: with a "
      "stable sort and values that are numbers this is the model without NaN. C179_distances, C179_tie: a NaN at an end "
      "of a sorted front gives all between a distance of NaN, and these win or lose by their position only.")
claim("C180", "partial", ["C180_partial", "C180_promotes", "C180_otherwise", "C180_false"],
      "False of the code if the set gives an evaluation with NaN first, which is then promoted whatever the other scores "
      "are (C180_otherwise). Proved otherwise.")
claim("C181", "proved", ["C181_once"], "Queues deliver what is put in them once; ids are fresh.")
claim("C182", "partial", ["C182_partial", "C182_exact", "C182_false"],
      "False of the code if models are to be added and with none of them the score is a number greater than minus infinity: "
      "an exception is logged and the ensemble cannot predict. C182_exact: otherwise it can, every addition is of the best "
      "by the scores that are numbers, and again of the one added last if there is none.")
claim("C183", "partial", ["C183_partial", "C183_missing", "C183_shortened", "C183_stuck", "C183_false"],
      "False of the code if a line is written in part when the log is read: a line that lacks texts is refused with a "
      "ValueError; one that lacks the end of its last text is shown as it is, and updates then raise a ValueError, all "
      "of them if a further evaluation was written by then. Proved for readings at which no evaluation is written in "
      "part, where the last line end and the header may be missing.")
claim("C184", "proved", ["C184", "C184_never", "C184_length", "C184_estimator", "C184_default", "fair_exists"],
  "C184 is the chance of any one pipeline of the search space: one over the number of lengths, one over the number of "
  "algorithms for each step and one over the number of values for each hyperparameter.  C184_never: all other pipelines "
  "have no chance.  C184_length and C184_estimator: every length and every estimator is equally likely.  C184_default: "
  "the search spaces that come with GAMA.  A chance is the share of the beginnings of the sequence of draws, each draw "
  "any number below M; M is a multiple of the numbers of candidates (fair_exists: there is one).  That Python's "
  "random.choice and random.randint are uniform and independent is assumed.")
claim("C185", "proved", ["C185", "C185_enough", "C184_default", "pipelineShare_pos"],
  "C185 is the chance for a population of n as made by [individual() for _ in range(n)].  C185_enough: for every "
  "positive e there is a number of pipelines from which on the chance is at least 1 - e.")
claim("C186", "proved", ["C186", "C186_cannot", "C186_near", "wp_offspring_first"],
  "The chance is ceil(cxpb * 2**53) / 2**53, as random.random gives multiples of 2**-53; C186_near: it differs from cxpb "
  "by less than 2**-53.  C186_cannot: chance nought for parents that cannot be crossed.  wp_offspring_first: the first "
  "draw decides, and without crossover the first parent is the only one.  See C184 for what a chance is.")
claim("C187", "proved", ["C187", "C187_never"],
  "The kind of change is the origin recorded with the mutant, which is the change really made (C14).  See C184 for what a "
  "chance is.")
claim("C188", "proved", ["C188", "C188_first", "C188_better", "C188_worst"],
  "C188 is the chance of a pair, C188_first that of the first parent, for one pair as the evolutionary search asks for.  "
  "Ranks are those of the code, where the first two fronts have the same (see C19).  See C184 for what a chance is; "
  "random.sample is taken to draw one after the other without replacement.")
claim("C189", "proved", ["C189"], "For values without NaN.")
claim("C190", "proved", ["C190", "C190_never"], "For fair draws: each number below a common multiple of the numbers of candidates equally often. For scores without NaN.")
claim("C191", "proved", ["C191"], "For fair draws: each number below a common multiple of the numbers of candidates equally often.")
claim("C192", "proved", ["C192"], "For fair draws: each number below a common multiple of the numbers of candidates equally often. The search space is one the search can work with (Workable).")
claim("C193", "proved", ["C193", "C193_cannot"], "For fair draws, as in C186, C191 and C192.")
claim("C194", "proved", ["C194", "C194_create", "C194_total"], "For fair draws, as in C188 and C193; one offspring is asked for.")
claim("C195", "proved", ["C195", "C195_mutate", "C195_mate"], "For fair draws, as in C194. Where mutation offers no change of a kind is part of the statement, see C119.")
claim("C196", "proved", ["C196", "C196_mutate", "C196_mate", "C196_mutate_new", "C196_mutate_again", "C196_mate_new", "C196_mate_again"], "For fair draws, as in C194. The chance is that of all tries together; the set of earlier evaluations does not change between them.")
claim("C197", "proved", ["C197", "C197_mutate", "C197_mate"], "For fair draws, as in C194. Where mutation offers no change of a kind is part of the statement, see C119.")
claim("C83", "partial", ["C83_partial", "C83_strings", "C83_formats", "C83_false"],
      "False of the code for string labels: a missing label becomes a class, unless labels are an array with one column.")
claim("C84", "partial", ["C84_partial", "C84_otherwise", "C84_false", "C84_sign_false"],
      "False of the code: keyword arguments of the scorer (such as average) are dropped, and score drops the sign.")
claim("C85", "partial", ["C85_partial", "C85_after", "C85_false"],
      "False of the code when the failure comes after scoring.")
claim("C86", "partial", ["C86_partial", "C86_exact", "C86_false", "C86_index_false"],
      "False of the code when a training fold has no more rows than asked for, or the index has gaps.")
claim("C87", "partial", ["C87_partial", "C87_evolution", "C87_halving_partial", "C87_false", "C87_errors",
      "C87_errors_halving"],
      "Holds of evolution. False of random search, which in a second fit still reports the individuals of the first, and "
      "of random search and successive halving, which also report individuals whose evaluation had an error.")
claim("C88", "partial", ["C88_partial", "C88_left", "C88_false"],
      "False of the code if the scoring, search space or pipeline length is refused: the directory is left.")
claim("C89", "partial", ["C89_partial", "C89_false", "C89_logs"],
      "Holds if models are kept; false with 'nothing' (the second fit fails) and 'logs' (its models are silently not stored).")
claim("C90", "partial", ["C90_partial", "C90_refused", "C90_iterator", "C90_false"],
      "False of the code for iterators, of which no metric is used.")
claim("C91", "partial", ["C91_partial", "C91_later", "C91_false"],
      "Holds of a first fit, and in later ones of individuals that do not go back to an earlier fit (C91_later); false of copies of individuals of an earlier fit, which keep its preprocessing.")
claim("C92", "partial", ["C92_partial", "C92_exact", "C92_only", "C92_excluded", "C92_false"],
      "False of the code: what is excluded for one data set is missing in all later fits.")
claim("C81", "partial", ["C81_limits_partial", "C81_capped", "C81_false"],
      "False of the code for None and for values above the defaults.")
claim("C82", "partial", ["C82_predict_partial", "C82_unfitted", "C82_false"],
      "Proved if there are models and time, and the metric neither raises nor gives minus infinity. False of the code otherwise: errors while building or fitting are logged and the unfitted ensemble is returned.")
claim("C78", "proved", ["C78_offspring"])
claim("C79", "proved", ["C79_least_crowded", "C79_distances"])
claim("C80", "proved", ["C80_enter_once", "C80_leaves_no_process"])

if __name__ == "__main__":
    path = os.path.join(HERE, "..", "MANIFEST.json")
    with open(path, "w") as fh:
        json.dump({"claims": CLAIMS}, fh, indent=1)
        fh.write("\n")
    # a file that prints the axioms of every theorem named in the manifest
    out = os.path.join("/tmp", "axioms.lean")
    with open(out, "w") as fh:
        fh.write("import Verif\n")
        for c in CLAIMS:
            for t in c["theorems"]:
                fh.write(f"#print axioms {t}\n")
