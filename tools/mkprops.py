#!/usr/bin/env python3
"""Writes properties.jsonl (one JSON object per line)."""
import json, os
P = []
def p(title, statement, quantifier, why, anchors):
    P.append(dict(id=f"C{len(P)+1:02d}", title=title, statement=statement,
                  quantifier=quantifier, why_tests_cant=why, anchors=anchors))

GP = "gama/genetic_programming/"
# ---------------------------------------------------------------- individuals
p("A pipeline string reads back as the same pipeline",
  "Parsing the string that an individual prints for itself, against the search space it was drawn from, gives an individual with the same steps in the same order and the same hyperparameter value for every hyperparameter; printing it again gives the same string.",
  "every search space with '('/')'/','/'='-free printed names and values, every pipeline of any length drawn from it, both strict and non-strict parsing",
  "The parser splits on characters; whether any step name, value or pipeline depth confuses it is a statement about all pipelines of a search space, tests parse a handful of strings.",
  [GP+"components/individual.py: Individual.pipeline_str, Individual.from_string", GP+"components/primitive_node.py: PrimitiveNode.__str__, PrimitiveNode.from_string, find_primitive, find_terminal", GP+"components/terminal.py: Terminal.__repr__"])
p("Randomly created pipelines are well formed",
  "Every randomly created individual consists of exactly one estimator (the final step) preceded by zero or more preprocessing steps, each step carries exactly one value from the search space for each of its declared hyperparameters, and the number of steps lies between the requested minimum and maximum.",
  "every search space in which every referenced hyperparameter has a value, every outcome of every random draw, every min/max length",
  "The set of random outcomes is unbounded; a test samples a few.",
  [GP+"operations.py: create_random_expression, random_primitive_node, random_terminals_for_primitive"])
p("Mutation yields a well-formed pipeline that differs from its parent as advertised",
  "Whenever mutation of a well-formed individual completes, the result is well formed over the same search space; the change is exactly one of: one hyperparameter value replaced by a different value, one step replaced by a different step of the same kind, one preprocessing step inserted, or a number of steps removed from the data end; the estimator is never removed.",
  "every search space, every well-formed individual, every random outcome, every max length setting",
  "Requires checking every (individual, operator, random choice) combination.",
  [GP+"mutation.py: mut_replace_terminal, mut_replace_primitive, mut_shrink, mut_insert, random_valid_mutation_in_place"])
p("Mutation respects the maximum pipeline length",
  "If max_pipeline_length is set, an individual produced by mutation never has more steps than max_pipeline_length, even if its parent did.",
  "every search space, individual (including over-long ones), random outcome and max length >= 1",
  "Requires every individual/length/random-draw combination.",
  [GP+"mutation.py: random_valid_mutation_in_place, mut_shrink, mut_insert"])
p("Mutation always succeeds on individuals the search can hold",
  "Any well-formed individual whose length is within the allowed maximum can be mutated, so that generating offspring never aborts the search.",
  "every search space, every well-formed individual and every max_pipeline_length",
  "The failing cases are isolated combinations of a step without alternatives and a tight length limit, which random sampling rarely meets.",
  [GP+"mutation.py: random_valid_mutation_in_place", GP+"operator_set.py: OperatorSet.mutate"])
p("Crossover yields well-formed pipelines and conserves genetic material",
  "Whenever crossover of two well-formed individuals completes, both results are well formed, and it either exchanged the (proper) data-side tails of both pipelines (total number of steps conserved) or exchanged exactly one pair of values of a hyperparameter both share, which differed.",
  "every pair of well-formed individuals over a common search space that share no step object (as copies do), every random outcome, every max length",
  "Requires every pair of pipelines and random outcome.",
  [GP+"crossover.py: random_crossover, crossover_primitives, crossover_terminals, _shared_terminals, _valid_crossover_functions"])
p("Crossover: the first returned individual respects the maximum length",
  "When both parents have at most max_length steps, the first individual returned by crossover has at most max_length steps; if a parent is longer, or no crossover is applicable, a ValueError is raised and neither parent is altered.",
  "every pair of individuals that share no step object (as copies do), random outcome and max length",
  "Needs every combination of two cut points and lengths.",
  [GP+"crossover.py: random_crossover"])
p("The search never evaluates a pipeline longer than max_pipeline_length",
  "When max_pipeline_length is set and the start candidates respect it, every offspring the search produces (by mutation, crossover or fresh creation) has at most max_pipeline_length steps.",
  "every population respecting the limit, every random outcome of selection, crossover and mutation",
  "Offspring length depends on random cut points and on which of the two crossover children is kept; tests inspect few offspring.",
  [GP+"operator_set.py: OperatorSet.mate, OperatorSet.mutate, OperatorSet.individual", GP+"crossover.py: random_crossover", GP+"selection.py: create_from_population", "gama/gama.py: Gama.__init__ (max_pipeline_length)"])
p("Producing offspring never alters the parents",
  "After mutating an individual or mating two individuals through the operator set, the pipelines of all individuals that existed before (the parents and every other member of the population) are exactly what they were; the offspring shares no mutable step with them.",
  "every heap of individuals, every random outcome, any sharing pattern of terminals",
  "Aliasing bugs only show when a later in-place change happens to hit a shared step; absence of sharing is a statement about all heaps.",
  [GP+"operator_set.py: OperatorSet.mate, OperatorSet.mutate", GP+"components/individual.py: Individual.copy_as_new, replace_terminal, replace_primitive", GP+"components/primitive_node.py: PrimitiveNode.copy"])
p("Copying an individual preserves its pipeline string",
  "A copy made for a new individual prints the same pipeline string as the original (so that the copy is recognised as already evaluated), has a fresh identity and no fitness, and this remains true after any number of in-place hyperparameter replacements.",
  "every individual reachable by creation, parsing and any sequence of operators",
  "Copying re-sorts hyperparameters by their printed form; whether that can change the order after values were replaced depends on all names and values.",
  [GP+"components/primitive_node.py: PrimitiveNode.__init__, PrimitiveNode.copy", GP+"components/individual.py: Individual.copy_as_new"])
p("Positional hyperparameter replacement",
  "Replacing the hyperparameter value at a valid position changes exactly that position and nothing else; a value for another hyperparameter is refused, and a position outside the individual's hyperparameters is refused, in both cases leaving the individual unchanged.",
  "every individual, every natural-number position, every new value",
  "Boundary positions of every individual; a test checks a few positions.",
  [GP+"components/individual.py: Individual.replace_terminal"])
p("Positional step replacement",
  "Replacing the step at a valid position keeps every other step, refuses a step of a different kind, and refuses positions outside the pipeline.",
  "every individual, position and replacement step",
  "Boundary positions of every individual.",
  [GP+"components/individual.py: Individual.replace_primitive"])
p("Offspring are retried until new, within the retry budget",
  "When asked for a new individual the operator set returns the first attempt whose pipeline has not been evaluated, if one of the first 50 attempts is new, and otherwise the 50th attempt; it never makes more than 50 attempts and never returns an already-evaluated pipeline while a new one was seen.",
  "every set of evaluated pipelines and every sequence of generated candidates",
  "Depends on unbounded history of evaluated pipelines and on random draws.",
  [GP+"operator_set.py: OperatorSet.try_until_new"])
p("Lineage of offspring",
  "Every individual made by crossover records the identities of exactly its two parents and origin 'cx'; every individual made by mutation records its single parent and the name of the mutation applied; every offspring has an identity different from all earlier individuals.",
  "every population and every random outcome",
  "Depends on the operator chosen at random and retries.",
  [GP+"operator_set.py: OperatorSet.mate, OperatorSet.mutate, OperatorSet.individual", "gama/search_methods/async_ea.py: AsyncEA.logger"])
# ---------------------------------------------------------------- pareto / nsga
p("A Pareto front holds exactly the non-dominated values",
  "After offering any sequence of items to a Pareto front it contains one item for each maximal value vector among the offered ones and nothing else: no member is dominated or equalled by another member and every offered item is dominated or equalled by some member.",
  "every sequence of items of any length, any number of objectives, any value function into an ordered type",
  "Holds for all insertion histories; tests use a few short ones.",
  ["gama/utilities/generic/paretofront.py: ParetoFront.update, ParetoFront.__init__"])
p("Pareto front: update result, order independence and errors",
  "update returns True exactly when the item became a member; the set of value vectors of the front does not depend on the order in which items were offered; offering an item with another number of objectives to a non-empty front is rejected and leaves the front unchanged.",
  "every front reachable by updates, every item, every permutation of offers",
  "Quantifies over permutations of unbounded histories.",
  ["gama/utilities/generic/paretofront.py: ParetoFront.update"])
p("NSGA-II selection returns the requested number by non-domination",
  "Selecting n of a population with 0 < n <= population size returns exactly n members (no member more often than it occurs in the population), and no unselected member dominates a selected member; every other n is rejected.",
  "every population, every number of objectives >= 1, every n",
  "All populations and dominance structures; tests use one or two small populations.",
  [GP+"nsga2.py: nsga2, fast_non_dominated_sort, crowding_distance_assignment, crowd_compare"])
p("Non-dominated sorting is a correct layering",
  "Non-dominated sorting places each member of the population in exactly one front; members of one front do not dominate each other, and each member of a later front is dominated by a member of the directly preceding front and by none of its own or later fronts.",
  "every finite population and strict-partial-order dominance",
  "All dominance structures.",
  [GP+"nsga2.py: fast_non_dominated_sort"])
p("NSGA-II tournaments prefer the better front",
  "When two candidates from different fronts compete in a tournament, the candidate of the better (earlier) front wins.",
  "every population with at least two fronts, every pair of members",
  "The defect only concerns the first two fronts and is invisible unless exactly such a pair is drawn and compared.",
  [GP+"nsga2.py: NSGAMeta.crowd_compare, fast_non_dominated_sort, nsga2_select"])
p("Parent pairs consist of two different individuals of the population",
  "Parent selection returns the requested number of pairs, each of two different members of the population, and refuses populations of fewer than three.",
  "every population of size >= 3, every random outcome",
  "All random outcomes.",
  [GP+"nsga2.py: nsga2_select"])
p("Survivor elimination removes a member nobody is worse than",
  "Elimination returns one member of the (non-empty) population such that no other member is worse or equal on every objective while differing on some; it never invents an individual, and asking for any other number than one is refused.",
  "every non-empty population with fitness values, every random outcome",
  "All populations and random outcomes.",
  [GP+"selection.py: eliminate_from_pareto"])
# ---------------------------------------------------------------- evaluation library
p("The evaluation library keeps the m best evaluations",
  "After any sequence of saved evaluations, the evaluations kept with their models are m error-free evaluations (all of them when there are at most m) such that every discarded error-free evaluation scores no better than every kept one; nothing with an error is ever kept.",
  "every sequence of evaluations with totally ordered scores, every m (also 0 and unlimited), every resolution of ties",
  "All histories, including score ties and evictions.",
  ["gama/utilities/evaluation_library.py: EvaluationLibrary.save_evaluation"])
p("The evaluation library never loses or duplicates an evaluation",
  "The evaluations reported by the library are exactly the evaluations saved, each as often as it was saved.",
  "every sequence of evaluations and every m",
  "All histories.",
  ["gama/utilities/evaluation_library.py: EvaluationLibrary.save_evaluation, EvaluationLibrary.evaluations"])
p("Cached models on disk are exactly those of the kept evaluations",
  "At every moment between saves, for every kept evaluation the stored predictions and models can be read back and are those of that evaluation, and the cache directory holds no other file.",
  "every sequence of evaluations",
  "All histories including evictions and repeated evaluation of the same individual.",
  ["gama/utilities/evaluation_library.py: Evaluation.to_disk, Evaluation.remove_from_disk, Evaluation.predictions, EvaluationLibrary.save_evaluation"])
p("n_best returns the best evaluations in order",
  "n_best(n) lists evaluations from best to worst; for n <= m (or unlimited m) these are the best min(n, available) error-free evaluations of all saved ones.",
  "every history, every n and m",
  "All histories.",
  ["gama/utilities/evaluation_library.py: EvaluationLibrary.n_best"])
p("An evaluated pipeline is recognised as evaluated",
  "A pipeline is reported as already evaluated exactly when an evaluation with that pipeline string was saved successfully, and the lookup returns the latest such evaluation.",
  "every history of saves",
  "All histories.",
  ["gama/utilities/evaluation_library.py: EvaluationLibrary.save_evaluation, EvaluationLibrary.lookup, is_evaluated"])
p("Stored predictions of different evaluations refer to the same rows",
  "When the library subsamples predictions, the same row indices (distinct, in range, exactly n of them) are used for every evaluation saved, and no subsampling happens when there are at most n predictions.",
  "every history of evaluations with equally many predictions, every n, every random permutation",
  "All histories and random permutations.",
  ["gama/utilities/evaluation_library.py: EvaluationLibrary.determine_sample_indices, _process_predictions"])
# ---------------------------------------------------------------- async evaluator
p("Every returned evaluation is the one of its own job, at most once",
  "Whatever the interleaving of workers, each result handed to the search is the result of executing the function and arguments of the job whose future is returned; no job is returned twice and no result is returned for a job that was not submitted.",
  "every schedule of submit/wait/worker steps/kills, any number of workers",
  "All interleavings of an unbounded number of jobs and workers.",
  ["gama/utilities/generic/async_evaluator.py: AsyncEvaluator.submit, wait_next, evaluator_daemon, AsyncFuture.execute"])
p("Every submitted job is eventually accounted for",
  "Every job handed to the evaluator is at all times queued, being processed, finished-but-not-fetched or returned, so waiting for as many results as there are unreturned jobs terminates.",
  "every schedule, including memory-limit kills and jobs with arbitrary return values",
  "Losing a job needs a specific kill or result at a specific moment.",
  ["gama/utilities/generic/async_evaluator.py: AsyncEvaluator._control_memory_usage, _stop_worker_process, evaluator_daemon"])
p("Waiting without pending jobs raises instead of blocking; job_queue_size tracks the backlog",
  "Waiting for a result while no job is unreturned raises RuntimeError; while no worker has been stopped, job_queue_size equals the number of unreturned jobs minus the number of workers.",
  "every history of submits, waits and worker steps",
  "All histories.",
  ["gama/utilities/generic/async_evaluator.py: AsyncEvaluator.wait_next, submit, job_queue_size"])
p("A failing job is reported and does not take down others",
  "If the evaluated function raises, the job's future carries the exception and no result; the worker continues with the next job and other jobs' outcomes are unaffected.",
  "every job function behaviour and schedule",
  "All exception points.",
  ["gama/utilities/generic/async_evaluator.py: AsyncFuture.execute, evaluator_daemon"])
p("Memory control stops at most one worker at a time and keeps at least one",
  "Exceeding the memory limit never leaves the evaluator without worker processes, never raises the number of workers above the configured number, and only stops a worker when the total exceeds the limit.",
  "every history of memory readings and completed jobs",
  "All histories of readings.",
  ["gama/utilities/generic/async_evaluator.py: AsyncEvaluator._control_memory_usage, _start_worker_process, _stop_worker_process"])
p("Arguments given with a job are the ones used",
  "A keyword argument explicitly supplied when submitting a job is passed to the function; process-wide defaults only fill in arguments that were not supplied.",
  "every set of defaults and job arguments",
  "All combinations of names.",
  ["gama/utilities/generic/async_evaluator.py: AsyncFuture.execute, AsyncEvaluator.defaults"])
# ---------------------------------------------------------------- search methods
p("The evolutionary population never exceeds its size and holds only error-free evaluated individuals",
  "At every moment the search may be interrupted, the reported population holds at most population_size (+1 transiently) individuals, each of which was evaluated without error.",
  "every order and outcome of evaluations, every population size, interruption at any point",
  "All evaluation orders and interruption points.",
  ["gama/search_methods/async_ea.py: async_ea, AsyncEA.search"])
p("The evolutionary search stops after max_n_evaluations",
  "With max_n_evaluations = N the search processes exactly N evaluations when not interrupted, and never more; non-positive N is refused before anything is evaluated.",
  "every order and outcome of evaluations, any N, restarts included",
  "All evaluation histories.",
  ["gama/search_methods/async_ea.py: async_ea"])
p("The evolutionary search never starves or aborts by itself",
  "Starting from at least one candidate the search can always continue: it never waits without a pending job and creating offspring never fails, whatever the evaluation outcomes.",
  "every outcome of evaluations, number of workers and number of start candidates",
  "Needs early failures of most candidates, or more workers than candidates.",
  ["gama/search_methods/async_ea.py: async_ea", GP+"nsga2.py: nsga2_select", GP+"selection.py: create_from_population"])
p("Calling fit again continues from the previous population",
  "A second fit without warm_start evaluates the individuals of the final population of the previous fit first.",
  "every final population of a previous fit and each search method",
  "Depends on two calls sharing state; whether the lists alias is a whole-program property.",
  ["gama/gama.py: Gama._search_phase", "gama/search_methods/async_ea.py: AsyncEA.search, async_ea", "gama/search_methods/random_search.py: random_search"])
p("Random search reports everything it evaluated, within its budget",
  "Random search reports exactly the individuals whose evaluation was returned, in order of completion, keeps as many jobs pending as it started with, and stops once the number of reported individuals reaches max_evaluations.",
  "every order and outcome of evaluations",
  "All evaluation histories.",
  ["gama/search_methods/random_search.py: random_search"])
p("ASHA promotes only top performers, each at most once per rung",
  "At any time the number of individuals promoted out of a rung is at most floor(size of that rung / reduction_factor), no evaluation is promoted twice, each promotion picks a best not-yet-promoted evaluation of its rung, and nothing is promoted out of the top rung.",
  "every order and outcome of evaluations, every reduction factor and number of rungs",
  "All asynchronous histories.",
  ["gama/search_methods/asha.py: asha (get_job)"])
p("ASHA resource allocation",
  "Resources per rung start at minimum_resource (scaled by the early-stopping rate), grow by the reduction factor, never exceed maximum_resource, and the top rung gets exactly maximum_resource; only top-rung evaluations count as full evaluations.",
  "every valid minimum/maximum resource and reduction factor",
  "All numeric settings.",
  ["gama/search_methods/asha.py: asha, evaluate_on_rung"])
p("ASHA reports the individuals of the highest rung reached",
  "When ASHA is interrupted or completes, it reports exactly the individuals evaluated on the highest rung on which any evaluation finished, and does not fail.",
  "every history of evaluations and every interruption point",
  "All interruption points, including before the first evaluation.",
  ["gama/search_methods/asha.py: asha, AsynchronousSuccessiveHalving.search"])
# ---------------------------------------------------------------- ensembles
p("Ensemble weights add up to the ensemble size",
  "An ensemble built with ensemble_size = s >= 1 from a non-empty set of evaluated models has positive integer weights that add up to s, over models drawn from that set.",
  "every library of models that is not empty, every scoring outcome that is comparable, every s of at least 1, if there is time left",
  "All libraries and score orders.",
  ["gama/postprocessing/ensemble.py: build_fit_ensemble, Ensemble.build_initial_ensemble, expand_ensemble, _add_model"])
p("Each ensemble expansion is greedily optimal",
  "Every model added by expansion attains the maximum, over all models of the library, of the score of the extended ensemble, the first such model in library order. The ensemble starts from the first model, or the first ten if more than ten are asked for; an individual that was evaluated several times counts as often as it is among them, and with fewer models than that all are used once.",
  "every library that is not empty and scoring function into a total order with least element -inf, if there is time left",
  "All libraries and score orders.",
  ["gama/postprocessing/ensemble.py: Ensemble.expand_ensemble, build_initial_ensemble"])
p("The incrementally tracked validation prediction is the weighted mean",
  "After building and expanding, the score reported for the ensemble is the score of the weighted mean of the member models' validation predictions.",
  "every sequence of additions, exact arithmetic",
  "All sequences of additions.",
  ["gama/postprocessing/ensemble.py: Ensemble._ensemble_validation_score, expand_ensemble, _total_fit_weights"])
p("Ensemble prediction is a convex combination of its models",
  "For every input the ensemble's (probability) prediction is the weighted mean of the predictions of the fitted models: it lies between the smallest and largest model prediction, equals the common prediction when all agree, and class probabilities still add up to one.",
  "all weights, models and inputs, exact arithmetic",
  "All weights and predictions.",
  ["gama/postprocessing/ensemble.py: Ensemble._get_weighted_mean_predictions, predict, EnsembleClassifier.predict_proba"])
p("Ensemble scoring compares predictions with the labels of the same rows",
  "When validation predictions are (down)sampled for hill climbing, the i-th label used for scoring belongs to the same training row as the i-th prediction.",
  "every data size, library sample and downsample, classification and regression, label- and probability-based metrics",
  "Needs data larger than the downsample limit and a probability metric.",
  ["gama/postprocessing/ensemble.py: Ensemble.__init__, EnsembleClassifier.__init__"])
p("Pickling an ensemble does not change it",
  "Saving (pickling) a fitted model leaves the model in memory unchanged, so that exporting code or inspecting it afterwards still works.",
  "every fitted ensemble and every order of pickle/export/predict calls",
  "Order-dependent side effect across calls.",
  ["gama/postprocessing/ensemble.py: Ensemble.__getstate__, EnsemblePostProcessing.to_code", "gama/utilities/cli.py: main"])
p("Best-fit post-processing fits the best individual found",
  "With best-fit post-processing the model trained is that of an individual with lexicographically maximal fitness in the final population; an empty population is an error.",
  "every final population",
  "All populations.",
  ["gama/postprocessing/best_fit.py: BestFitPostProcessing.post_process", "gama/gama.py: Gama.fit"])
# ---------------------------------------------------------------- time
p("Remaining time never increases and accounts for all activities",
  "Within one fit, the remaining total time is the budget minus the time spent in all activities so far; it never increases as the clock advances, and finished activities' durations no longer change.",
  "every monotone clock and every sequence of activities",
  "All clock readings.",
  ["gama/utilities/generic/timekeeper.py: TimeKeeper.total_time_remaining, start_activity", "gama/utilities/generic/stopwatch.py: Stopwatch"])
p("No activity is current after it ended",
  "Once an activity has ended, normally or by an exception, it is no longer reported as current, so its limit is no longer enforced on later calls.",
  "every sequence of activities with arbitrary outcomes",
  "Needs an exception inside an activity followed by further use.",
  ["gama/utilities/generic/timekeeper.py: TimeKeeper.start_activity", "gama/gama.py: Gama._safe_outside_call"])
p("Time budgets handed to the phases and evaluations fit the total",
  "The time limit of the search phase plus the share reserved for post-processing never exceeds the remaining time; each pipeline evaluation is given at most max_eval_time and never more than what remains until the search deadline.",
  "every total time, post-processing fraction in [0,1], evaluation start time and deadline",
  "All numeric settings and times.",
  ["gama/gama.py: Gama.fit, Gama.__init__", GP+"compilers/scikitlearn.py: evaluate_individual, evaluate_pipeline"])
p("Default max_eval_time is usable",
  "If max_eval_time is not specified, it defaults to a tenth of the total time, is positive and at most the total time, so that pipelines can be evaluated.",
  "every positive max_total_time",
  "Boundary behaviour of rounding for all integers.",
  ["gama/gama.py: Gama.__init__"])
# ---------------------------------------------------------------- data
p("Removing unlabeled rows keeps data and labels aligned",
  "After formatting, no label is missing, every labeled row is kept in order, and each kept row is still paired with its own label.",
  "every data frame, label series, row index and pattern of missing labels",
  "Depends on the row index of x and y; tests use default indices.",
  ["gama/data_formatting.py: format_x_y, remove_unlabeled_rows"])
p("Every categorical column is encoded by exactly one encoder",
  "For every data frame each categorical column is handled by exactly one of ordinal, one-hot or (regression only) target encoding, as determined by its number of distinct values; non-categorical columns by none.",
  "every table whose columns have different names, every number of factors, both task types",
  "All factor counts and their boundaries.",
  ["gama/utilities/preprocessing.py: select_categorical_columns, basic_encoding, basic_pipeline_extension"])
p("Loading a file separates exactly the target column",
  "Loading data from file with a target column returns that column as y and all other columns, in order and unchanged, as x; without a target column the last one is used; an unknown target column is refused.",
  "every table whose columns have different names and every target name",
  "All tables.",
  ["gama/data_loading.py: X_y_from_file"])
p("No training row is validated on",
  "In every fold of the cross-validation used to score a pipeline the training rows and the test rows are disjoint, also when evaluating on a subsample of the data.",
  "every data size, fold assignment and subsample",
  "Leakage depends on which row indices the sampler draws.",
  [GP+"compilers/scikitlearn.py: evaluate_pipeline"])
p("Validation predictions are out-of-fold and complete",
  "The validation prediction stored for each training row was made by the estimator of the fold in which that row was a test row, for every row, when the folds' test sets partition the rows.",
  "every partition into folds, every estimator",
  "All fold assignments.",
  [GP+"compilers/scikitlearn.py: evaluate_pipeline"])
p("Evaluations report one score per metric (plus length) and record failures",
  "Every evaluation of an individual returns, per metric, one score (minus infinity for all metrics if scoring failed), followed by minus the pipeline length when length regularisation is on, and the individual's fitness equals that tuple; failures are reported as error text rather than raised.",
  "every pipeline outcome: success, failure, timeout",
  "All outcomes and their timing.",
  [GP+"compilers/scikitlearn.py: evaluate_individual, evaluate_pipeline"])
p("Predicted labels are original labels",
  "A classifier predicts labels from the label set it was trained with, and predictions made on the internally encoded labels are mapped back to the right original labels.",
  "every label type (strings or numbers) and set of labels, in the formats accepted (a data frame with one row and a list of numbers are refused)",
  "All label sets.",
  ["gama/GamaClassifier.py: GamaClassifier._encode_labels, fit, _predict"])
p("Target formats are normalised",
  "Targets given as Series, one-column DataFrame, (N,) or (N,1) array or (N,K) indicator array yield the same label vector; of a DataFrame with several columns the first is used.",
  "every number of rows and columns",
  "All shapes including single-row and multi-column ones.",
  ["gama/data_formatting.py: format_y, format_x_y"])
# ---------------------------------------------------------------- configuration
p("The search space offers exactly what the configuration lists",
  "Every algorithm in the configuration is available exactly once, as preprocessing step or estimator according to its kind, with exactly its configured hyperparameters; each hyperparameter offers exactly the configured values, and a hyperparameter with an empty list offers the shared values of that name; anything that is neither transformer nor predictor is refused.",
  "every configuration dictionary",
  "All dictionaries.",
  ["gama/configuration/parser.py: pset_from_config"])
p("Merging configurations unions them and leaves the inputs alone",
  "Merging two configurations offers, per algorithm and hyperparameter, exactly the values offered by either, and does not modify the configurations merged.",
  "every pair of configurations",
  "All dictionaries and aliasing between input and output.",
  ["gama/configuration/parser.py: merge_configurations", "gama/logging/GamaReport.py: (module level merge)"])
p("Hyperparameter precedence",
  "For search and post-processing methods a value given by the user is used, otherwise the data-dependent default, otherwise the static default, whatever the order and number of times the defaults are recomputed.",
  "every hyperparameter table, every sequence of default updates",
  "All sequences of updates.",
  ["gama/search_methods/base_search.py: BaseSearch.hyperparameters, _overwrite_hyperparameter_default", "gama/postprocessing/base_post_processing.py: BasePostProcessing.hyperparameters"])
# ---------------------------------------------------------------- Gama object
p("Invalid construction arguments are refused and leave no trace",
  "Constructing GAMA with a non-positive max_total_time, non-positive max_eval_time or invalid n_jobs raises ValueError and leaves no output directory behind where there was none; a non-empty output directory is refused and left untouched; valid arguments are accepted.",
  "every combination of arguments (n_jobs given, for the default see C65) and every state of an output directory that can be made or listed",
  "All combinations of arguments and directory contents.",
  ["gama/gama.py: Gama.__init__, Gama.cleanup"])
p("Default n_jobs works on every machine",
  "Leaving n_jobs unspecified uses half of the available cores, -1 uses all of them and a positive number that many; construction succeeds on every machine.",
  "every number of cores >= 1",
  "Depends on the machine the test runs on.",
  ["gama/gama.py: Gama.__init__"])
p("Callbacks are all called, in order, despite failing callbacks",
  "Every evaluation is passed to every registered callback exactly once in registration order, whatever exceptions (other than the timeout signal) the callbacks raise; a timeout raised in a callback reaches the search.",
  "every list of callbacks and every outcome of each call",
  "All combinations of failing callbacks.",
  ["gama/gama.py: Gama._on_evaluation_completed, _safe_outside_call, evaluation_completed"])
p("Only what was asked for is stored",
  "After fit, the output directory holds the logs iff store is 'logs' or 'all', and the cached models iff store is 'models' or 'all'; with 'nothing' the directory is gone; cleaning up twice is harmless.",
  "every store setting and every set of log and cache files written",
  "All directory contents.",
  ["gama/gama.py: Gama.cleanup, Gama.fit"])
p("Instances do not affect each other",
  "The number of worker processes and the memory limit used by an instance are those it was constructed with, regardless of other instances constructed before or after.",
  "every sequence of constructions and fits of several instances",
  "Cross-instance history.",
  ["gama/gama.py: Gama.__init__ (AsyncEvaluator.__init__ partialmethod)"])
p("Turning off length regularisation works for every scoring",
  "The search runs with regularize_length=False just as with True, for any number of scoring metrics.",
  "every number of metrics and both regularisation settings",
  "Configuration combinations.",
  [GP+"selection.py: create_from_population", GP+"compilers/scikitlearn.py: evaluate_individual"])
# ---------------------------------------------------------------- compile / export
p("Compiled pipelines run the steps in order with unique names",
  "Compiling an individual gives a pipeline that first applies the fixed preprocessing steps in order, then the individual's steps from the data side to the estimator, which is last; all step names are different, and each step is configured with exactly the individual's hyperparameter values.",
  "every individual and list of preprocessing steps with names not being decimal numbers",
  "All pipelines lengths.",
  [GP+"compilers/scikitlearn.py: compile_individual, primitive_node_to_sklearn"])
p("Exported code describes the model that was fitted",
  "The exported script defines a pipeline with the same step names, in the same order, as the fitted pipeline (encoding and fixed steps first), and imports every class it uses.",
  "every individual and preprocessing steps",
  "All pipelines.",
  ["gama/utilities/export.py: individual_to_python, imports_and_steps_for_individual", "gama/postprocessing/best_fit.py: to_code"])
# ---------------------------------------------------------------- logging
p("The evaluation log can be read back",
  "Reading evaluations.log gives one record per evaluation, in order, with the logged fields.",
  "every sequence of evaluations with arbitrary field texts",
  "Depends on the text of error messages, which is unbounded.",
  ["gama/logging/evaluation_logger.py: EvaluationLogger.log_evaluation", "gama/logging/GamaReport.py: GamaReport.update"])
p("Reading the log incrementally gives the same report as reading it at once",
  "Updating a report any number of times while the log grows gives the same evaluations, numbering and running best as reading the complete log once.",
  "every log whose field texts contain no separator, line end or leading quotation mark (C72), and every way to cut it at record boundaries",
  "All cut points.",
  ["gama/logging/GamaReport.py: GamaReport.update"])
p("There is one console handler, with the latest verbosity",
  "After any number of constructions exactly one console log handler of GAMA is installed, having the verbosity of the latest construction, and handlers installed by the user or for files are left alone.",
  "every sequence of constructions and pre-existing handlers",
  "All handler histories.",
  ["gama/logging/utility_functions.py: register_stream_log"])
p("Hyperparameters of a run can be read back from its log",
  "The initialisation line written to the log can be parsed back into the names and values of the arguments of the run.",
  "every set of arguments",
  "Depends on the printed form of arbitrary argument values.",
  ["gama/gama.py: Gama.__init__ (INIT line)", "gama/logging/GamaReport.py: init_to_hps"])
# ---------------------------------------------------------------- loading / cli
p("Reading ARFF metadata terminates with the declared attributes",
  "Reading the attribute metadata of any ARFF file terminates and returns, in order, the declared attributes with their types.",
  "every text file",
  "Termination on all inputs cannot be tested.",
  ["gama/data_loading.py: load_feature_metadata_from_arff"])
p("Command line options reach the run",
  "Every documented command line invocation with a supported file type runs the AutoML with the given file, separator and target; unsupported ones are refused before anything is run.",
  "every combination of options and path spellings",
  "All option combinations.",
  ["gama/utilities/cli.py: main, parse_args"])
# ---------------------------------------------------------------- added while modelling
p("Offspring are made from members of the population",
  "When offspring creation returns, it returns as many individuals as asked for, all new and pairwise different; each is well formed and is a mutation of a member or a crossing of the members at two different places of the population, and no existing individual is modified.",
  "every population of well-formed individuals, every fitness, every random outcome, every crossover probability",
  "Composition of random selection, crossover and mutation over all populations.",
  ["gama/genetic_programming/selection.py: create_from_population", "gama/genetic_programming/nsga2.py: nsga2_select"])
p("When a front is cut the least crowded members are kept",
  "If only part of a front is selected, no member left out has a larger crowding distance than one that was kept, and the only best or only worst member of the front on an objective is left out only if everything kept has infinite distance too. The distance is the sum over the objectives of the gap between a member's neighbours relative to the spread of the front.",
  "every population, every number of objectives, every n",
  "All populations and value patterns (ties, infinities).",
  ["gama/genetic_programming/nsga2.py: nsga2, crowding_distance_assignment, NSGAMeta.crowd_compare"])
p("An evaluator is entered once and leaves no processes behind",
  "Entering the context of an evaluator that has been entered before raises a RuntimeError and starts nothing, whatever happened in between; leaving the context succeeds and leaves no worker process running, unless a worker survives its termination.",
  "every schedule of the evaluator, every order in which workers vanish or stop",
  "Processes can be replaced, vanish or be stopped at any moment before leaving.",
  ["gama/utilities/generic/async_evaluator.py: AsyncEvaluator.__enter__, __exit__, _stop_worker_process"])
p("The ensemble's limits on models and rows are respected",
  "`hillclimb_size` is the number of predictions used to score ensembles and `max_models` the number of models considered; `None` means all of them.",
  "every value of the two settings, every number of rows and models",
  "Needs data sets and searches larger than any test, to exceed the defaults.",
  ["gama/postprocessing/ensemble.py: EnsemblePostProcessing.__init__, build_fit_ensemble, Ensemble.__init__", "gama/gama.py: Gama.__init__ (evaluation library)"])
p("An ensemble that is returned can predict",
  "When post-processing returns an ensemble, the ensemble can make predictions.",
  "every library of evaluations (also an empty one), every ensemble size, metric and time limit",
  "Errors while building the ensemble depend on the outcome of the search and on timing.",
  ["gama/postprocessing/ensemble.py: build_fit_ensemble, Ensemble._get_weighted_mean_predictions, Ensemble.fit"])

p("Rows without label play no part in training a classifier",
  "The rows left out when fitting a classifier are exactly those whose label is missing, whatever the type of the labels.",
  "every label vector, of numbers or strings, with missing labels anywhere",
  "Depends on the interplay of label encoding and the later removal of unlabeled rows for each type of label.",
  ["gama/GamaClassifier.py: GamaClassifier.fit", "gama/data_formatting.py: format_x_y"])
p("The metric asked for is the one computed everywhere",
  "The score of predictions used for building ensembles, and the one returned by `score`, is the value of the metric named in `scoring`, with its parameters and sign, as in the search.",
  "every metric accepted, all labels and predictions",
  "Metrics differ in parameters and sign; a test covers one of them.",
  ["gama/utilities/metrics.py: Metric", "gama/gama.py: Gama.score"])
p("A failed evaluation reports no result",
  "When evaluating a pipeline fails or runs out of time, the evaluation has no predictions and no estimators and each score is minus infinity.",
  "every moment at which a failure or timeout can happen",
  "The moment of a timeout cannot be controlled by a test.",
  ["gama/genetic_programming/compilers/scikitlearn.py: evaluate_pipeline"])
p("A pipeline can be evaluated on any part of the data",
  "Evaluating a pipeline on fewer rows than the data has does not fail because of the number of rows asked for or the row index of the data.",
  "every number of rows, every fold assignment and row index",
  "Tests use a default index and few sizes.",
  ["gama/genetic_programming/compilers/scikitlearn.py: evaluate_pipeline"])

p("What a search reports was evaluated in that search",
  "The individuals a search reports are ones that were evaluated successfully during it.",
  "every outcome of the evaluations, every earlier fit",
  "Requires running fit repeatedly with all outcomes of evaluations.",
  ["gama/search_methods/random_search.py: random_search, RandomSearch", "gama/search_methods/base_search.py: BaseSearch",
   "gama/search_methods/async_ea.py: async_ea", "gama/search_methods/asha.py: asha"])
p("A construction that fails leaves no output directory",
  "If constructing GAMA raises, no output directory is left that was not there before.",
  "every combination of arguments and state of the output directory",
  "Tests try single bad arguments and do not look at the directory.",
  ["gama/gama.py: Gama.__init__"])
p("Fit can be called again",
  "After a fit another fit of the same instance works and stores its models like the first.",
  "every store setting, all models evaluated in both fits",
  "Depends on what the first fit left on disk.",
  ["gama/gama.py: Gama.fit, Gama.cleanup", "gama/utilities/evaluation_library.py: EvaluationLibrary.save_evaluation",
   "gama/utilities/generic/async_evaluator.py: AsyncEvaluator._log_memory_usage"])
p("Metrics may be given in any iterable",
  "The metrics used are those listed in `scoring`, in that order, whatever kind of iterable lists them; anything that is neither metric nor name is refused.",
  "every list of metrics and names in every kind of iterable",
  "A test covers one kind of iterable and a few metrics.",
  ["gama/utilities/metrics.py: scoring_to_metric"])

p("Individuals apply the preprocessing of the current fit",
  "Every individual made during a fit is compiled with the fixed preprocessing steps determined for the data of that fit.",
  "every sequence of fits and of individuals created and copied",
  "Requires fits on different data with the individuals of an earlier one.",
  ["gama/gama.py: Gama.fit", "gama/genetic_programming/operator_set.py: OperatorSet.individual",
   "gama/genetic_programming/components/individual.py: Individual.copy_as_new"])
p("Large data excludes only heavy algorithms, and only for that data",
  "The search space of a fit is the configured one, except that nearest neighbours is left out for more than six million cells and polynomial features for more than fifty columns if models are stored.",
  "every search space, every sequence of data sizes",
  "Data of that size is too big for unit tests.",
  ["gama/gama.py: Gama.fit"])

p("The log of a run contains what that run logged",
  "The gama.log in the output directory of an instance contains the messages of that instance and nothing else.",
  "every sequence of constructions and messages of any number of instances in one process",
  "Interleavings of any number of instances.",
  ["gama/gama.py: Gama.__init__ (log handler)", "gama/logging/utility_functions.py: register_stream_log"])
p("Phases of a run can be read back from its log",
  "The line logged when a phase ends is read back by a report as the same phase, algorithm, time stamp and duration.",
  "every time stamp, duration and one-word names of phase and algorithm",
  "Depends on splitting arbitrary texts.",
  ["gama/utilities/generic/timekeeper.py: TimeKeeper.start_activity", "gama/logging/GamaReport.py: GamaReport.__init__"])

p("The header of a csv file is the list of its column names",
  "load_csv_header of a csv file with a header returns the names on its first line, split at the separator given, else at the one detected; without a header the columns are numbered from 0.",
  "every list of names, separator and rest of the file, whatever its line ends",
  "Files with and without a final line end, and every separator.",
  ["gama/data_loading.py: load_csv_header"])

p("Metadata can be read of exactly the files whose data can be loaded",
  "load_feature_metadata_from_file accepts a file name exactly when file_to_pandas does, and reads it in the same format.",
  "every file name",
  "All spellings of names.",
  ["gama/data_loading.py: load_feature_metadata_from_file, file_to_pandas, load_csv_header"])

p("Classifiers that cannot predict probabilities are left out exactly when needed",
  "If a metric requires probabilities, the search space of a GamaClassifier contains exactly the entries given (or the default ones) that are not classifiers without predict_proba, in their order; otherwise it contains all of them.",
  "every search space and list of metrics",
  "All search spaces.",
  ["gama/GamaClassifier.py: GamaClassifier.__init__"])

p("Macro-averaged metrics weigh all classes equally",
  "The score that a pipeline evaluation reports for a macro-averaged metric is the mean of the scores of the classes, each class counting once.",
  "every target vector and every score per class",
  "All class distributions; tests use balanced or no labels.",
  ["gama/GamaClassifier.py: GamaClassifier.fit (labels of the scorer)", "gama/utilities/metrics.py: Metric"])

p("Categorical columns of arrays are recognised for every element type",
  "Converting an array to a table succeeds and marks exactly the columns of objects, and the columns of numbers with at most ten different values that are all integers, as categorical; no value changes.",
  "every table, element type and supported Python version",
  "All types and values.",
  ["gama/data_formatting.py: series_looks_categorical, infer_categoricals_inplace, numpy_to_dataframe"])

p("Arrays can be predicted like the training data",
  "An array with as many columns as the training data is turned into a table whose columns have the labels and types of the training columns and the values of the array; one with fewer columns is refused.",
  "every training table and array",
  "All combinations of training and prediction formats.",
  ["gama/gama.py: Gama._np_to_matching_dataframe, _prepare_for_prediction"])

p("Prediction uses the parts of one fit",
  "After any sequence of calls to fit, successful or not, predict uses encoding, label encoder and model of one and the same fit, or is refused.",
  "every sequence of fits, each ending at any point",
  "All sequences of failures.",
  ["gama/gama.py: Gama.fit, _prepare_for_prediction, predict", "gama/GamaClassifier.py: GamaClassifier.fit, _predict"])

p("Exporting a script writes the file named and no other",
  "export_script refuses before a fit and, if asked, when the file exists, changing nothing; otherwise it returns the code and changes exactly the file named, which holds the formatted code.",
  "every file system, file name and flag",
  "All file systems.",
  ["gama/gama.py: Gama.export_script"])

p("The evaluations log has the columns asked for",
  "The log a logger writes starts with the names of the given (or standard) fields followed by those of the extra fields, and has for each evaluation a line showing, column by column, what the field of that name gives; an extra field of the same name takes over the column.",
  "every separator, dictionaries of fields and extra fields, sequence of evaluations",
  "All sets of fields.",
  ["gama/logging/evaluation_logger.py: EvaluationLogger", "gama/search_methods/async_ea.py: AsyncEA.__init__", "gama/search_methods/asha.py: AsynchronousSuccessiveHalving.__init__"])

p("Creating a logger leaves the given dictionary alone",
  "The dictionary of fields given to an evaluation logger is the same after the logger is made.",
  "every dictionary of fields and of extra fields",
  "All combinations; a test passes one of the two.",
  ["gama/logging/evaluation_logger.py: EvaluationLogger.__init__"])

p("Successive halving keeps eight evaluations under way",
  "Whenever successive halving waits for a result exactly eight evaluations are under way, whatever failed before.",
  "every configuration, candidates, order of completion and failures",
  "All interleavings of results and failures.",
  ["gama/search_methods/asha.py: asha"])

p("A finished evolutionary search reports what succeeded",
  "If the evolutionary search has used up its evaluations and some evaluation succeeded, its output is not empty.",
  "every population size, budget, start candidates, order of completion, failures and restarts",
  "All interleavings and restart points.",
  ["gama/search_methods/async_ea.py: async_ea"])

p("A restart begins anew",
  "After a restart the population of the evolutionary search has only individuals submitted since the restart.",
  "every run with restarts at any point",
  "All interleavings: what matters is what is under way at the restart.",
  ["gama/search_methods/async_ea.py: async_ea"])

p("Searching does not change the given candidates",
  "The list of start candidates given to a search (for instance the warm start of fit) is not changed by the search.",
  "every search, list of candidates and run",
  "All runs.",
  ["gama/search_methods/asha.py: asha", "gama/gama.py: Gama.fit"])

p("Files and data frames are treated alike",
  "Predicting, predicting probabilities, scoring and fitting from a csv or ARFF file give what the functions for data frames give on the columns other than the target, in order, and the target column; the values of the target column play no part in predictions. Files of other kinds and unknown target columns are refused by all of them alike.",
  "every file, position and name of the target column, model",
  "All tables and positions of the target.",
  ["gama/gama.py: Gama.predict_from_file, score_from_file, fit_from_file", "gama/GamaClassifier.py: GamaClassifier.predict_proba_from_file", "gama/data_loading.py: file_to_pandas, X_y_from_file"])

p("The encoding given is used",
  "A file is read in the encoding given, whatever its kind.",
  "every file, encoding and kind of file",
  "All encodings and contents.",
  ["gama/data_loading.py: file_to_pandas", "gama/gama.py: Gama.fit_from_file"])

p("Options for reading csv files are respected",
  "Separator and header that are given are used; those not given are the ones detected; other options are passed on. If both are given nothing is detected.",
  "every set of options and outcome of the detection",
  "All combinations of options.",
  ["gama/data_loading.py: csv_to_pandas"])

p("ARFF columns are categorical exactly if declared so",
  "The columns read from an ARFF file are its attributes in order, and a column has category dtype exactly if the attribute lists its values.",
  "every list of attributes",
  "All declarations.",
  ["gama/data_loading.py: arff_to_pandas"])

p("A fitted classifier can be scored",
  "score works on any data with labels the classifier knows, with every metric that is accepted.",
  "every metric, set of classes, label vector and predictions",
  "Tests score on data in which all classes occur.",
  ["gama/gama.py: Gama.score", "gama/utilities/metrics.py: Metric"])

p("Large data leaves a usable search space",
  "If pipelines can be made with the search space configured, pipelines can be made with what fit leaves of it for the data at hand.",
  "every search space, size of the data and number of stored models",
  "Needs data of millions of values and all configurations.",
  ["gama/gama.py: Gama.fit", "gama/genetic_programming/operations.py: create_random_expression"])

p("Successful evaluations of a report",
  "The successful evaluations of a report are those that were logged without error.",
  "every evaluation with its outcome, every rung",
  "All moments of failure, and rungs.",
  ["gama/logging/GamaReport.py: GamaReport.successful_evaluations", "gama/search_methods/asha.py: evaluate_on_rung"])

p("Micro-averaged metrics are the share of right predictions",
  "Micro-averaged precision, recall and F1, as used to compare pipelines during search, are the share of right predictions in the fold.",
  "every training labels, fold and predictions",
  "Needs an independent calculation on unbalanced data, for all distributions of classes.",
  ["gama/GamaClassifier.py: GamaClassifier.fit", "gama/utilities/metrics.py: classification_metrics"])

p("The fitted pipeline is the best one found",
  "After a search without restart, no pipeline that was evaluated without error has a better score than the one that best-fit post-processing fits.",
  "every search, order of completion, population size and random choice",
  "Depends on which individuals are eliminated over a whole search.",
  ["gama/search_methods/async_ea.py: async_ea", "gama/genetic_programming/selection.py: eliminate_from_pareto", "gama/postprocessing/best_fit.py: BestFitPostProcessing.post_process", "gama/gama.py: Gama.fit"])

p("Every pipeline of the search space can be created",
  "For every well-formed pipeline of the search space, no longer than the maximum start length, there are random draws with which a new individual is that pipeline; no other pipeline is ever created.",
  "every search space, every pipeline and every maximum length",
  "Random sampling cannot show that each pipeline of an enormous space has positive probability.",
  ["gama/genetic_programming/operator_set.py: OperatorSet.individual", "gama/genetic_programming/operations.py: create_random_expression", "gama/genetic_programming/operations.py: random_primitive_node"])

p("A mutation can make every change it advertises",
  "For each change of a pipeline by one mutation (another algorithm for a step, another value for a hyperparameter, a step less, a step more where there is room) there are random draws with which mutation makes it.",
  "every search space, pipeline, change, maximum length and number of attempts",
  "Random sampling cannot exhaust the changes of all pipelines.",
  ["gama/genetic_programming/mutation.py: random_valid_mutation_in_place", "gama/genetic_programming/operator_set.py: OperatorSet.mutate"])

p("Search by mutation can reach every pipeline",
  "From every pipeline, repeated mutation can lead to every other pipeline of the search space that is not longer than allowed.",
  "every search space, pair of pipelines and maximum length",
  "Reachability over chains of random operations of any length.",
  ["gama/genetic_programming/mutation.py: random_valid_mutation_in_place", "gama/genetic_programming/operator_set.py: OperatorSet.mutate"])

p("Crossover can make every exchange between two parents",
  "For each exchange of data-side steps or of two values of one hyperparameter between two parents there are random draws with which mating yields that offspring; nothing else is ever yielded.",
  "every search space, pair of parents, exchange, maximum length and number of attempts",
  "Random sampling cannot exhaust the exchanges of all pairs of pipelines.",
  ["gama/genetic_programming/crossover.py: random_crossover", "gama/genetic_programming/operator_set.py: OperatorSet.mate"])

p("The default search spaces can be used",
  "With each search space that comes with GAMA (classification, with and without probabilities, regression, reports) and every maximum length, creating a pipeline and mutating a pipeline never fail.",
  "every default search space, maximum length, pipeline, order of values and random draw",
  "The spaces have more than 10^20 pipelines; a failing combination is found only by chance.",
  ["gama/configuration/classification.py: clf_config", "gama/configuration/regression.py: reg_config", "gama/configuration/parser.py: pset_from_config", "gama/genetic_programming/operator_set.py: OperatorSet.mutate"])

p("Reports read every pipeline of the default search spaces",
  "The logged form of every pipeline that can be made from a default search space is read by a report, whose search space is the two merged, as the same steps with the same values.",
  "every pipeline of the default search spaces, every order of the merged values, strict or not",
  "Tests read a few logs; all algorithms, values and combinations matter.",
  ["gama/logging/GamaReport.py: GamaReport", "gama/configuration/parser.py: merge_configurations", "gama/genetic_programming/components/individual.py: Individual.from_string"])

p("Importing the reports does not change the default search spaces",
  "What the default search spaces offer is the same before and after the reports' module is imported.",
  "every algorithm, hyperparameter and value of the default search spaces",
  "A test sees the state after its own imports; the difference shows only between processes.",
  ["gama/logging/GamaReport.py: l.13", "gama/configuration/parser.py: merge_configurations"])

p("Combinations ruled out by a check are not created",
  "A search space can rule out combinations of hyperparameter values with param_check; such combinations are not created.",
  "every search space, meaning of the checks, pipeline and random draw",
  "Whether a combination was only not drawn, or ruled out, cannot be observed by sampling.",
  ["gama/configuration/parser.py: pset_from_config", "gama/gama.py: Gama.__init__", "gama/configuration/classification.py: clf_config"])

p("All pipelines evaluated are pipelines of the search space, and stay what they are",
  "Every pipeline that a search (evolution, random search, successive halving) submits for evaluation or reports is a well-formed pipeline of the search space if the candidates it starts from are, and is still the same pipeline at any later time.",
  "every search space, candidates, settings, random draw, order of completion and moment",
  "Pipelines are mutable objects shared between parents and offspring; an alias shows only after particular sequences of operations.",
  ["gama/search_methods/async_ea.py: async_ea", "gama/search_methods/random_search.py: random_search", "gama/search_methods/asha.py: asha", "gama/genetic_programming/operator_set.py: OperatorSet"])

p("An evolutionary search does not end itself",
  "As long as waiting for evaluations does not raise and there are three pipelines to choose from when offspring is made, an evolutionary search whose candidates keep to the maximum length (two or more) does not end with an exception.",
  "every search space, candidates, maximum length, number of workers, random draw and order of completion",
  "The failing combinations need particular offspring of offspring.",
  ["gama/search_methods/async_ea.py: async_ea", "gama/genetic_programming/operator_set.py: OperatorSet.mate", "gama/genetic_programming/crossover.py: random_crossover", "gama/genetic_programming/selection.py: create_from_population"])

p("A search that is cut off leaves the best pipeline found",
  "If a search has a result when its time is up or the user interrupts it, fit goes on and trains a best one of the pipelines that the search held at that moment.",
  "every search method, settings, order of completion and moment of the interruption",
  "Interruptions arrive asynchronously, at any point of the search; tests interrupt at a few.",
  ["gama/gama.py: Gama._search_phase, fit", "gama/postprocessing/best_fit.py: post_process", "gama/search_methods/asha.py: asha", "gama/search_methods/async_ea.py: AsyncEA.search", "gama/search_methods/random_search.py: RandomSearch.search"])

p("A warm start is where the search starts",
  "Individuals given as warm_start are the first to be evaluated (by successive halving: the first on the lowest rung, last one first), whatever the instance found before; a list with anything that is no individual is refused, and an empty list means a random start.",
  "every list (the caller's own or the population kept by the instance), earlier population, search method, settings and order of completion",
  "Evaluation is asynchronous and the search may share its lists with the caller; a test sees one schedule.",
  ["gama/gama.py: Gama._search_phase, fit", "gama/search_methods/async_ea.py: async_ea", "gama/search_methods/random_search.py: random_search", "gama/search_methods/asha.py: asha"])

p("What a search is told of a pipeline is what evaluating that pipeline gave",
  "However worker processes are scheduled, crash, run out of memory or are stopped, a search only gets into states it can get into when its evaluations simply come back in some order; each outcome it is given came from evaluating that very pipeline (and rung); no pipeline comes back more often than it was submitted; and the population of an evolutionary search consists of pipelines that a worker evaluated without error.",
  "every search method, settings, number of workers, schedule of main process and workers, and loss of workers",
  "The order in which processes run is up to the operating system, and workers are lost at arbitrary moments.",
  ["gama/search_methods/async_ea.py: async_ea", "gama/search_methods/random_search.py: random_search", "gama/search_methods/asha.py: asha", "gama/utilities/generic/async_evaluator.py: AsyncEvaluator.submit, wait_next", "gama/genetic_programming/operator_set.py: OperatorSet.wait_next"])

p("A search never waits for nothing",
  "A search started from at least one candidate never asks the evaluator to wait when nothing is outstanding (which would raise), whatever happens to the workers; random search has as many evaluations under way as it had candidates, and successive halving has eight.",
  "every search method, list of candidates (at least one, for evolution and random search), also one that is the output of an earlier search, settings, number of workers, schedule of main process and workers, and loss of workers",
  "Whether something is outstanding depends on the queue size read at one moment and the order of completions.",
  ["gama/search_methods/async_ea.py: async_ea", "gama/search_methods/random_search.py: random_search", "gama/search_methods/asha.py: asha", "gama/utilities/generic/async_evaluator.py: AsyncEvaluator.wait_next, job_queue_size"])

p("A search that waits is told an outcome",
  "If evaluations end, a search that waits for an evaluation is eventually told the outcome of one, provided the main process keeps polling and the workers do not all rest while there is something to do, whatever else happens to the workers.",
  "every search method, candidates, settings, number of workers, and infinite schedule of main process and workers",
  "Progress is a property of infinite schedules; a test sees finitely many steps of one.",
  ["gama/utilities/generic/async_evaluator.py: AsyncEvaluator.wait_next, _control_memory_usage, evaluator_daemon", "gama/search_methods/async_ea.py: async_ea", "gama/search_methods/random_search.py: random_search", "gama/search_methods/asha.py: asha"])

p("An ensemble is made of the search's own results, scored on matching rows",
  "After any sequence of evaluations, the ensemble is built from the best error-free ones, at most max_models (and 200) of them, best first; each model has the estimators and predictions of its own evaluation, and predictions and labels are those of the same hillclimb_size distinct rows of the training data (all rows if there are fewer). If no evaluation gave predictions, fitting a regressor ends with a TypeError.",
  "every history of evaluations of different individuals in one fit, every hillclimb_size other than 0 and max_models, regression and classification; for metrics on probabilities, hillclimb_size up to 10 000",
  "The rows are drawn at random, and files of evaluations come and go with the order in which evaluations complete.",
  ["gama/postprocessing/ensemble.py: build_fit_ensemble, Ensemble.__init__, Ensemble.model_library", "gama/utilities/evaluation_library.py: EvaluationLibrary.save_evaluation, determine_sample_indices, n_best", "gama/GamaClassifier.py: fit", "gama/gama.py: Gama.__init__"])

p("The evaluation library holds what the search was told",
  "In a whole fit with evolution or random search, and however workers behave, the evaluation library holds exactly the evaluations whose outcome the search was told (and one more if the search was interrupted right after that one was saved): each is recorded once, with its own scores and the text of its pipeline, the models and predictions kept are those of the best ones and belong to the evaluation they are filed under, and finding a pipeline by its text finds the first such evaluation. Each is of a valid pipeline of the search space.",
  "every sequence of distinct candidates of the search space, settings, number of workers, schedule of main process and workers, loss of workers, and moment of interruption",
  "The library, the searches, the operators and the processes must be taken together; each alone relies on what the others do.",
  ["gama/gama.py: Gama._on_evaluation_completed, _search_phase", "gama/genetic_programming/operator_set.py: OperatorSet.wait_next, evaluate", "gama/utilities/evaluation_library.py: EvaluationLibrary.save_evaluation, lookup", "gama/search_methods/async_ea.py: async_ea", "gama/search_methods/random_search.py: random_search"])

p("The evaluation library holds what successive halving was told",
  "As for evolution and random search, the evaluation library holds exactly the evaluations that successive halving was told of; those kept with their models are the best of those on the top rung, each with its own; no pipeline is evaluated twice on the same rung.",
  "every candidates that are different individuals, settings, number of workers, schedule of main process and workers",
  "A pipeline is evaluated on several rungs, in an order that depends on the processes.",
  ["gama/search_methods/asha.py: asha, evaluate_on_rung", "gama/utilities/evaluation_library.py: EvaluationLibrary.save_evaluation, Evaluation.to_disk, remove_from_disk", "gama/genetic_programming/components/individual.py: Individual.__init__"])

p("Evolution does not submit what it has already evaluated",
  "The offspring that evolution submits is a valid pipeline whose text differs from that of every pipeline whose evaluation came back, unless fifty attempts at making one all gave pipelines already evaluated, in which case the last attempt is submitted.",
  "every whole fit with evolution: candidates that are different individuals, settings, schedule of main process and workers, random choices",
  "Repetitions depend on random choices and on which evaluations happen to be complete.",
  ["gama/genetic_programming/operator_set.py: OperatorSet.try_until_new, create, mate, mutate", "gama/gama.py: Gama.__init__", "gama/search_methods/async_ea.py: async_ea"])

p("The ensemble of a fit is built from the best pipelines the search was told of",
  "In a whole fit with evolution, random search or successive halving that had an error-free evaluation, the ensemble is built from the best of the evaluations the search was told of, at most max_models (and 200), best first; each with its own estimators and its own predictions on the same rows as the labels it is scored with.",
  "every whole fit: search, candidates that are different individuals, settings, number of workers, schedule of main process and workers, interruption, hillclimb_size other than 0; for metrics on probabilities hillclimb_size up to 10 000",
  "The chain from a worker's result to a member of the ensemble passes through processes, files and a bounded heap.",
  ["gama/postprocessing/ensemble.py: build_fit_ensemble, Ensemble.__init__", "gama/utilities/evaluation_library.py: EvaluationLibrary.save_evaluation, n_best", "gama/gama.py: Gama._on_evaluation_completed, fit", "gama/search_methods/async_ea.py: async_ea", "gama/search_methods/random_search.py: random_search"])

p("The maximum pipeline length asked for is the one searched with",
  "The max_pipeline_length given to the constructor is the one that the operators are made with, and pipelines that are created have at most that many steps. If none is given there is no maximum and created pipelines have at most three steps. If the search space has no preprocessing steps the maximum is one: a larger one is refused with a ValueError, and every pipeline an evolutionary search evaluates is an estimator alone. A length below one is not refused, but creating a pipeline then raises a ValueError.",
  "every combination of constructor arguments, state of the output directory, usable search space, random choices, and execution of the evolutionary search",
  "The length bounds what random choices and offspring over a whole search may give.",
  ["gama/gama.py: Gama.__init__", "gama/genetic_programming/operations.py: create_random_expression", "gama/genetic_programming/mutation.py: random_valid_mutation_in_place", "gama/search_methods/async_ea.py: async_ea"])

p("Files are read alike whatever their line ends",
  "A CSV file, an ARFF file or an evaluation log gives the same column names and types, header and report whether its lines end as on Unix, as on Windows or with a carriage return alone.",
  "every text without carriage returns of its own, written with any of the three line ends",
  "Files come from any system; tests use files of one.",
  ["gama/data_loading.py: load_csv_header, load_feature_metadata_from_arff", "gama/logging/GamaReport.py: GamaReport.update"])

p("The exported ensemble votes by the rule of the fitted one",
  "The script exported for an ensemble defines a voter over the exported pipelines of its members with their weights. Reading its voting rule off the text of the script, the voter gives for every row the class (or, for regression, the value) which the fitted ensemble predicts, ties included, whenever each exported pipeline predicts as the fitted estimators of its member do.",
  "every library with equally many estimators per model, scores of the metric, size and time for the ensemble, metric on labels or on probabilities, data, classes and predictions of the estimators",
  "The agreement is between two implementations of voting, over all weights and predictions, with ties.",
  ["gama/postprocessing/ensemble.py: EnsemblePostProcessing.to_code, EnsembleClassifier.predict, EnsembleRegressor.predict, Ensemble._get_weighted_mean_predictions"])

p("Class probabilities of an ensemble are probabilities",
  "predict_proba of a fitted ensemble gives for every row numbers between zero and one that add up to one: the weighted mean of the members' probabilities or, if the metric is on labels, each class's share of the weighted votes. predict gives the first of the classes with the largest of these numbers.",
  "every fitted ensemble, weights, classes, rows and predictions of the members",
  "For all numbers of members and classes, weights and predictions.",
  ["gama/postprocessing/ensemble.py: EnsembleClassifier.predict, EnsembleClassifier.predict_proba, Ensemble._get_weighted_mean_predictions"])

p("A report can be made of the logs of every run",
  "Of the logs of a run a report can be made. It shows the arguments of the run, the phases that ended with their algorithms, starts and durations, whether phases are missing, the search method, and every evaluation with the metrics of the run: the scoring and, if the length was regularised, the length.",
  "every run, sequence of lines logged and evaluations",
  "All combinations of arguments, lines and evaluations.",
  ["gama/logging/GamaReport.py: GamaReport.__init__, init_to_hps, GamaReport.update", "gama/gama.py: Gama.__init__"])

p("The ensemble of a later fit is made of the models of that fit",
  "When fit is called again on the same object, the ensemble is the one built from the best models that this fit found, and labels and stored predictions are of the same rows of its data.",
  "every first and second sequence of evaluations, data of equal size, hillclimb_size, max_models, metric and random draws",
  "It is about two complete fits in a row, with any evaluations in each.",
  ["gama/gama.py: Gama.__init__, Gama.fit", "gama/GamaClassifier.py: GamaClassifier.fit", "gama/utilities/evaluation_library.py: EvaluationLibrary.determine_sample_indices, save_evaluation, n_best", "gama/postprocessing/ensemble.py: Ensemble.model_library"])

p("After a later fit the ensemble can predict",
  "When fit is called again and finds a model, the ensemble it leaves can predict, whatever earlier fits found and whatever store is.",
  "every first and second sequence of evaluations, settings of store, hillclimb_size and max_models, data and metrics",
  "It is about two complete fits in a row, with the files of the first removed or kept.",
  ["gama/gama.py: Gama.fit, Gama.cleanup", "gama/utilities/evaluation_library.py: Evaluation.to_disk, Evaluation.predictions, EvaluationLibrary.save_evaluation", "gama/postprocessing/ensemble.py: build_fit_ensemble"])

p("A regressor fitted again on data of another size records what it evaluates",
  "When a regressor is fitted again, on data with any number of rows, every evaluation of both fits is in the evaluation library and its pipeline can be looked up.",
  "every first and second sequence of evaluations, numbers of rows, hillclimb_size, max_models and random draws",
  "It is about two complete fits in a row, with any evaluations in each and any numbers of rows.",
  ["gama/gama.py: Gama.fit, Gama._on_evaluation_completed", "gama/utilities/evaluation_library.py: EvaluationLibrary._process_predictions, determine_sample_indices, save_evaluation", "gama/postprocessing/ensemble.py: Ensemble.__init__"])

p("An ensemble can be printed",
  "Printing the ensemble that a fit made shows a table of its models, whenever the ensemble can predict.",
  "every metric, ensemble size, time left, library of models and data to predict for",
  "No test prints an ensemble; the claim is about every ensemble that can be built.",
  ["gama/postprocessing/ensemble.py: Ensemble.__str__, Ensemble.__getstate__, build_fit_ensemble", "gama/utilities/evaluation_library.py: Evaluation"])

p("A column listed for a csv file can be asked for as its target",
  "Each name that load_csv_header (or load_feature_metadata_from_file) lists for a csv file can be given as target column of that file: the target is then the column listed and the features are all others.",
  "every csv file, with or without a header, every list of different column names and every column",
  "Two functions read the same file in different ways; they have to agree on all files.",
  ["gama/data_loading.py: load_csv_header, csv_to_pandas, X_y_from_file", "gama/gama.py: Gama.fit_from_file"])

p("A categorical feature that takes different values is available to models",
  "After encoding, each categorical column that has two different values in the training data (a missing value being one) is still among the features, encoded; of the columns encoded ordinally only those with a single value are left out.",
  "every table, every number of rows and every column, for classification and regression",
  "Depends on the frequencies of values in columns of any length.",
  ["gama/utilities/preprocessing.py: basic_encoding, select_categorical_columns"])

p("A classifier can be fitted whatever the number of rows",
  "With the default post-processing, GamaClassifier.fit gets as far as the search for any labels (all strings or all numbers) of which each class has at least five rows, in any of the formats documented and whatever the number of rows.",
  "every list of labels, every number of rows and classes, and every format of labels",
  "The outcome depends on the number of rows compared with a sample size of 10000 that tests with small data never reach.",
  ["gama/GamaClassifier.py: GamaClassifier.fit", "gama/utilities/evaluation_library.py: EvaluationLibrary.determine_sample_indices", "gama/gama.py: Gama.__init__"])

p("The columns of predicted probabilities are for the labels in increasing order",
  "After fitting a classifier to labels of one kind (strings or numbers, some possibly missing), in any of the formats accepted, the k-th column that predict_proba returns is for the k-th of the different labels: numbers by size, strings in lexicographic order, a missing label last (if it has a column). A row for which the model chooses the k-th column is answered with that label by predict.",
  "every list of labels, every format accepted (a data frame with one row and a list without strings are refused), every model fitted on rows in which all labels occur, every prediction",
  "Users read predict_proba by position, without being told the labels of the columns; it has to hold for all label sets and formats.",
  ["gama/GamaClassifier.py: GamaClassifier.fit, GamaClassifier._predict, GamaClassifier._predict_proba", "gama/data_formatting.py: format_y"])

p("Probabilities predicted in different folds are for the same labels",
  "After an evaluation without error with log loss (the default metric), whatever the folds are and however their training rows are sampled, each row of the validation predictions has one probability for each label of the data, in increasing order of labels, given by the estimator of the fold in which the row is a test row. The same holds for the area under the curve if there are two labels, or without subsampling.",
  "every pipeline, label vector, set of folds (three or more for the area under the curve without subsampling) and sampling of their training rows",
  "It is about labels so rare that they are missing in the training rows of some fold, with predictions of different folds written into one array.",
  ["gama/genetic_programming/compilers/scikitlearn.py: evaluate_pipeline", "gama/GamaClassifier.py: GamaClassifier.fit"])

p("Rows without label do not keep pipelines from being evaluated",
  "If at least two labels are present, log loss (the default metric) can be computed in each fold whose training rows have all labels, also if other rows of the data given have no label.",
  "every list of labels of one kind, in every format, with any of them missing, and every test set",
  "It is about where the labels given, before unlabeled rows are removed, are used later on.",
  ["gama/GamaClassifier.py: GamaClassifier.fit", "gama/data_formatting.py: remove_unlabeled_rows", "gama/genetic_programming/compilers/scikitlearn.py: evaluate_pipeline"])

p("With one worker the same seed gives the same search",
  "With n_jobs=1 and a random_state, two runs of a search from the same candidates, in which no worker is lost and evaluations with the same history have the same outcome, go the same way whatever the timing: at any moment one has submitted and been told the same evaluations as the other, in the same order, and perhaps more; if both end they end in the same result.",
  "every schedule of the two processes, every number of polls in between, all candidates, operators, outcomes, callbacks and memory limits, for the three searches",
  "It compares all interleavings of two processes over searches of any length.",
  ["gama/gama.py: Gama.__init__ (random_state)", "gama/utilities/generic/async_evaluator.py: AsyncEvaluator", "gama/search_methods/async_ea.py: async_ea", "gama/search_methods/random_search.py: random_search", "gama/search_methods/asha.py: asha"])

p("A report can be made of the directory given to a run",
  "A GamaReport made with the string that was given as output_directory, in the same working directory (or any other if it is an absolute path), opens the gama.log and evaluations.log that the run wrote, and its name is the name of that directory.",
  "every path: absolute or relative, with home directories, with dots and repeated slashes; every working directory and home directory",
  "Paths are expanded in several places, by different rules; the claim is about all spellings of a path.",
  ["gama/gama.py: Gama.__init__ (output_directory)", "gama/logging/GamaReport.py: GamaReport.__init__, GamaReport.update"])

p("What a run writes is in its output directory",
  "gama.log and evaluations.log are files of the output directory, models are kept in the folder cache of it, and that folder is the one that is removed when models are not to be stored.",
  "every output directory given or made up, every environment",
  "The path of the cache is expanded once more in the evaluation library, by other rules than the output directory; whether the places agree depends on the environment.",
  ["gama/gama.py: Gama.__init__, Gama.cleanup", "gama/utilities/evaluation_library.py: EvaluationLibrary.__init__"])

p("Successive halving accepts resources that make sense",
  "Successive halving with a positive minimum and a maximum not below it, both numbers of rows or both fractions, "
  "starts its search on any data, with the rungs that follow from these resources.",
  "every minimum and maximum resource, reduction factor, early stopping rate and number of rows",
  "All settings against all data sizes; whether the resources fit the data is only known during the fit.",
  ["gama/search_methods/asha.py: AsynchronousSuccessiveHalving.__init__, dynamic_defaults, asha"])
p("Pipelines can be evaluated on every rung",
  "If resources are numbers of rows not above that of the data, and the data can be split into folds, then on every "
  "rung of successive halving the training sets can be sampled, so that evaluations do not fail for the rung they are "
  "on.",
  "every data size, fold assignment, minimum and maximum number of rows and reduction factor",
  "Whether a rung falls between the size of the training sets and that of the data depends on all of them.",
  ["gama/search_methods/asha.py: asha", "gama/genetic_programming/compilers/scikitlearn.py: evaluate_pipeline"])
p("A fit in which an evaluation succeeded gives a model that predicts",
  "With the ensemble post-processing, after a search in which at least one evaluation succeeded, however it ended, "
  "the ensemble is fitted: its members, each with a positive weight, are pipelines fitted in evaluations that "
  "succeeded and that the search was told of. For every row it gives the weighted mean of the values its members "
  "predict, and if they are classifiers a distribution over the classes and the most probable class.",
  "every search by evolution or at random, every schedule of its workers, interruption, training data, metric that "
  "gives comparable scores, and row to predict",
  "It joins the search, its workers, the library and the ensemble; the result depends on all executions of them.",
  ["gama/gama.py: Gama._search_phase, Gama.predict", "gama/postprocessing/ensemble.py: build_fit_ensemble, Ensemble.fit", "gama/utilities/evaluation_library.py: EvaluationLibrary.save_evaluation"])
p("A successive halving in which an evaluation succeeded gives a model that predicts",
  "With the ensemble post-processing, after a successive halving in which at least one evaluation succeeded, on whatever "
  "rung and however it ended, the ensemble is fitted and predicts, as after the other searches.",
  "every successive halving, schedule of its workers, interruption, training data, metric that gives comparable "
  "scores, and number of models kept",
  "A pipeline is evaluated on several rungs; which of its evaluations are kept, and whether any individual comes as far "
  "as the top rung before the time is up, depends on the whole search.",
  ["gama/search_methods/asha.py: asha, evaluate_on_rung", "gama/utilities/evaluation_library.py: EvaluationLibrary.save_evaluation, Evaluation.to_disk, Evaluation.remove_from_disk", "gama/postprocessing/ensemble.py: build_fit_ensemble"])
p("A search cut off while an evaluation is being saved leaves everything usable",
  "The exception that ends a search may arrive at any moment of the saving of an evaluation. What the library then "
  "keeps is the best of what the search was told of, with or without that evaluation; models and predictions of all "
  "it keeps can be read and are their own; at most one evaluation is in neither of its lists and at most one file is "
  "left over; and if an evaluation had succeeded, the ensemble is made from what is kept and predicts.",
  "every search, schedule of its workers, moment of the saving at which the exception arrives, and number of models "
  "kept",
  "The exception comes from another thread and may arrive between any two instructions; tests cannot place it.",
  ["gama/utilities/evaluation_library.py: EvaluationLibrary.save_evaluation, Evaluation.to_disk, Evaluation.remove_from_disk, Evaluation.estimators, Evaluation.predictions", "gama/gama.py: Gama._search_phase, Gama._safe_outside_call", "gama/postprocessing/ensemble.py: build_fit_ensemble"])
p("A warm start may list a pipeline more than once",
  "With the ensemble post-processing, after a search in which at least one evaluation succeeded, the ensemble is fitted "
  "and predicts, also if the individuals with which the search starts are not all different.",
  "every evolution and random search, list of individuals to start with, schedule of its workers, interruption, training "
  "data, metric that gives comparable scores, and number of models kept",
  "Which evaluations of an individual are dropped, and when, depends on all the others of the search.",
  ["gama/gama.py: Gama._search_phase", "gama/utilities/evaluation_library.py: EvaluationLibrary.save_evaluation, Evaluation.to_disk, Evaluation.remove_from_disk", "gama/postprocessing/ensemble.py: build_fit_ensemble"])
p("The pipeline trained by default is the best one found",
  "With the default post-processing, after a search that was not restarted, however it was cut off while it waited, "
  "fit trains a pipeline whose evaluation the search was told of, and no evaluation that the search was told of has "
  "better scores (for successive halving: none on the highest rung reached). With evolution the pipeline was evaluated "
  "without an error if any was, and fit fails only if none was; with the other searches it fails only if no evaluation "
  "came back.",
  "every search, schedule of its workers and failure of them, interruption while the search waits, scores and data",
  "Which evaluations come back before the end, and which individuals are still in the population, depends on the whole "
  "execution; the fitness by which the pipeline is chosen was set at another time than it is read.",
  ["gama/gama.py: Gama.fit, Gama._search_phase", "gama/postprocessing/best_fit.py: BestFitPostProcessing.post_process", "gama/search_methods/async_ea.py: async_ea", "gama/search_methods/random_search.py: random_search", "gama/search_methods/asha.py: asha"])

p("Columns may have any names",
  "Which columns of a data frame are to be encoded, and how, can be determined whatever the columns are called; fit does "
  "not fail for their names.",
  "every data frame, with any names of columns, classification and regression",
  "The claim is about all lists of names; that selecting a column gives something else when a name repeats is not visible "
  "in the code.",
  ["gama/utilities/preprocessing.py: select_categorical_columns, basic_encoding", "gama/gama.py: Gama.fit"])

p("A search ends although its timeout was swallowed",
  "If a callback swallows the exception that is raised when the time of the search is up, the search still ends: at the latest with the first evaluation that comes back more than three seconds after the limit.",
  "every search method, time limit, maximum time of an evaluation, moments at which evaluations begin and end, callbacks and what they swallow",
  "The exception arrives at an arbitrary moment, and the search may go on for ever.",
  ["gama/gama.py: Gama._safe_outside_call, _search_phase", "gama/genetic_programming/operator_set.py: OperatorSet.wait_next", "gama/genetic_programming/compilers/scikitlearn.py: evaluate_pipeline, evaluate_individual"])

p("The random state given is the one searched with",
  "The search of an instance that was given a random_state draws the random numbers of that seed, whatever happens in the process between its construction and its fit.",
  "every seed, and everything that is constructed, fitted or drawn in the process before and after",
  "It is about all histories of a process.",
  ["gama/gama.py: Gama.__init__ (random_state)"])

p("Any number of instances can be made in a process",
  "However many instances were constructed before in the process, an instance can be fitted.",
  "every sequence of constructions and fits in a process",
  "It is about processes of any length; a test constructs a few instances.",
  ["gama/gama.py: Gama.__init__ (AsyncEvaluator.__init__ partialmethod)", "gama/search_methods/async_ea.py: async_ea"])

p("The model saved by the command line predicts like the instance it was saved from",
  "The file the command line writes, once unpickled, predicts for every data frame what predict of the fitted instance gives for it.",
  "every fitted classifier or regressor, all columns, labels and data to predict (one row at least)",
  "Tests of the command line look whether the file was written; whether its content is all that prediction needs depends on the columns and labels of the data.",
  ["gama/utilities/cli.py: main", "gama/gama.py: Gama._prepare_for_prediction", "gama/GamaClassifier.py: GamaClassifier._predict"])

p("Text among the features is encoded before pipelines see it",
  "Whatever the features are given as (array, data frame, csv or ARFF file), each column with text has been encoded as numbers when the steps of a pipeline are fitted, so that the imputation every pipeline starts with does not fail on it.",
  "every table whose columns have different names, every format of the data, classification and regression",
  "It depends on how types are inferred or declared in each format and on the number of values of every column; tests use data frames prepared with category types.",
  ["gama/data_formatting.py: format_x_y, infer_categoricals_inplace", "gama/data_loading.py: arff_to_pandas, csv_to_pandas", "gama/utilities/preprocessing.py: basic_encoding, basic_pipeline_extension"])

p("Callbacks may register callbacks",
  "Every evaluation is told to each callback registered before it, or by a callback while it is being told, exactly once and in the order of registration, until a timeout or interrupt reaches the search; a callback, once registered, is told of all later evaluations too. If callbacks stop registering others at some point, telling an evaluation ends; if each call registers another, it does not.",
  "every list of callbacks, whatever each call does (raise, be late, register others), depending on all calls before it; any number of evaluations",
  "It is about a list iterated over while it grows; the histories of registrations and calls are unbounded.",
  ["gama/gama.py: Gama._on_evaluation_completed, evaluation_completed, _safe_outside_call"])

p("A score that is not a number does not displace better pipelines",
  "After any sequence of saved evaluations, some of which may have NaN for a score, no evaluation whose scores are numbers has been given up for one whose scores are not, or are less.",
  "every sequence of evaluations with scores of any length, every m",
  "It is about what comparisons that are always false do to a heap after any history.",
  ["gama/utilities/evaluation_library.py: Evaluation.__lt__, EvaluationLibrary.save_evaluation", "gama/genetic_programming/compilers/scikitlearn.py: evaluate_pipeline", "gama/utilities/metrics.py: Metric"])

p("A score that is not a number is not taken for the best",
  "With best-fit post-processing the pipeline trained has scores that are numbers if one of the pipelines found has, and then none of those has a greater score, although the scores of some pipelines found may be NaN.",
  "every list of less than 64 pipelines found, every scores",
  "It is about what comparisons that are always false do to sorting, for all positions of the scores that are not numbers.",
  ["gama/gama.py: Gama.fit", "gama/postprocessing/best_fit.py: BestFitPostProcessing.post_process"])

p("Waiting for a result is not ended by what happens to worker processes",
  "While evaluations are pending, waiting for the next result raises no exception (which would end the search and fit): whatever worker processes use, die of or fail to receive, they are stopped or replaced and the wait goes on.",
  "every schedule of submissions, waits, worker steps, deaths and memory readings, every number of workers, memory limit and log setting",
  "It is about processes that disappear between two statements of the main process, and all interleavings of that with memory use over the limit.",
  ["gama/utilities/generic/async_evaluator.py: AsyncEvaluator.wait_next, AsyncEvaluator._control_memory_usage, AsyncEvaluator._get_memory_usage, evaluator_daemon"])

p("What is given on the command line is what is used",
  "Whatever options are given on the command line, in whatever order and around the file name, the values used are those given last, and the documented defaults otherwise; without exactly one file name nothing is run.",
  "every list of documented options with values, each attached with = or as a word of its own that is a negative integer or a dash or does not begin with one; other words that begin with a dash are never taken for the value",
  "Tests of the command line try a few combinations; there are as many as there are lists of options and texts.",
  ["gama/utilities/cli.py: make_parser"])

p("What main does depends on the command it is given",
  "main(command) does what the words of the command say, whatever the command line of the process.",
  "every command, as a text or a list of words, and every command line of the process",
  "A test runs under one command line, that of the test runner.",
  ["gama/utilities/cli.py: main"])

p("Options that do not exist are refused",
  "A command line with a word that looks like an option and is not a documented one is refused before anything is run.",
  "every such word, at every place of every command line",
  "There is no end of misspelt options to try.",
  ["gama/utilities/cli.py: make_parser"])

p("A pipeline whose score is not a number leaves the population before those with a score",
  "When the population of the evolutionary search is full and one member is removed, it is one whose score is not a number if there is such a member; in any case no member is removed that is better than another.",
  "every population, with any scores, some of which may be NaN, and every random choice",
  "NaN makes every comparison false, so that what holds for numbers need not hold any more; tests use numbers.",
  ["gama/genetic_programming/selection.py: eliminate_from_pareto", "gama/utilities/generic/paretofront.py: ParetoFront.update", "gama/search_methods/async_ea.py: async_ea"])

p("A pipeline with a score is not passed over as a parent for one whose score is not a number",
  "In the tournaments by which parents are chosen, the rank of a pipeline whose values are numbers is no worse than that of one whose score is NaN.",
  "every population, with any scores, some of which may be NaN",
  "The ranks come from sorting the whole population with a comparison that NaN makes false.",
  ["gama/genetic_programming/nsga2.py: NSGAMeta.dominates, NSGAMeta.crowd_compare, fast_non_dominated_sort", "gama/genetic_programming/selection.py: create_from_population"])

p("The memory log can be read back",
  "Each line that is appended to memory.log has, separated by commas, the time and then the number and the memory use of the main process and of every worker process that was running; what was in the file stays.",
  "every number of readings, in every state of the evaluator, with any workers gone",
  "Which processes are running changes between readings, while the line is put together.",
  ["gama/utilities/generic/async_evaluator.py: AsyncEvaluator._log_memory_usage, AsyncEvaluator._get_memory_usage"])

p("Parents are chosen although scores are not numbers",
  "Choosing parents from a population of at least three raises no exception and gives the number of pairs asked for, each of two different members, although some scores are NaN or infinite; smaller populations are refused.",
  "every population with any values, every number of pairs, every random choice and whatever order sorting gives where comparisons are inconsistent",
  "Crowding distances divide by differences of values; that none of the divisors is zero depends on all values and on how they are sorted.",
  ["gama/genetic_programming/nsga2.py: nsga2_select, nsga2, crowding_distance_assignment, fast_non_dominated_sort"])

p("Successive halving promotes no pipeline whose score is not a number before one with a score",
  "If an evaluation of a rung that was not promoted yet has a score, then the one promoted has one, and no greater one was waiting, although other scores may be NaN.",
  "every rung with any scores, some of which may be NaN, any promotions before, every reduction factor and every order in which a set is gone through",
  "The order of a set of tuples depends on addresses and differs between runs; the claim is about all orders.",
  ["gama/search_methods/asha.py: asha (get_job)"])

p("No submitted job is run twice",
  "A job that was handed to the evaluator is taken from the queue by at most one worker, once, and run to its end at most "
  "once, also if workers are stopped for their memory use, are ended by the operating system, or fail to receive a job.",
  "all functions, numbers of workers, memory limits and schedules of the main process and the workers, with any worker "
  "stopped, ended or out of memory at any time; every job",
  "Which worker takes a job, and what has become of a job when its worker is replaced, depends on the interleaving of "
  "processes; tests see a few interleavings.",
  ["gama/utilities/generic/async_evaluator.py: AsyncEvaluator.submit, AsyncEvaluator.wait_next, AsyncEvaluator._control_memory_usage, evaluator_daemon"])

p("An ensemble can be used although scores are not numbers",
  "With ensemble post-processing, if models were stored and there is time left, the ensemble can predict and its weights "
  "add up to ensemble_size, whatever numbers, infinities or NaN the metric gives for combinations of models.",
  "for all metrics, libraries, sizes and times",
  "Metrics of the usual tests give numbers for all predictions; what matters is which combinations give none, and in which round.",
  ["gama/postprocessing/ensemble.py: build_initial_ensemble, expand_ensemble, build_fit_ensemble"])

p("A report can be updated at any moment of a run",
  "A report made of the log of a run in progress, at any moment, shows when it is updated after the run the same "
  "evaluations, individuals and running best as one made of the finished log.",
  "every log whose texts can be told apart (C72), every part of its text that may have been written at the moments of reading",
  "Which part of a line is there when the file is read depends on the timing of two processes.",
  ["gama/logging/GamaReport.py: GamaReport.update", "gama/logging/evaluation_logger.py: log_line"])

p("How likely a random pipeline is",
  "A random pipeline has every number of steps up to the greatest start length with the same chance; its estimator is each "
  "estimator of the search space with the same chance, each of its preprocessing steps each preprocessor, and each "
  "hyperparameter has each of its values, all independently of one another; no other pipeline is ever made.",
  "all search spaces that can be used and list no algorithm or value twice, all maximum lengths, and every pipeline; "
  "draws of random are uniform and independent",
  "A test sees a few random pipelines; that chances are equal is a statement about all sequences of draws.",
  ["gama/genetic_programming/operations.py: create_random_expression, random_primitive_node, random_terminals_for_primitive",
   "gama/genetic_programming/operator_set.py: OperatorSet.individual", "gama/gama.py: Gama.__init__"])

p("Enough random pipelines contain every pipeline",
  "Among n random pipelines, as a search starts from, a given pipeline of the search space is with chance 1 - (1 - q)**n, "
  "where q is the chance that one random pipeline is that one; q is positive, so with enough of them the chance is as near to "
  "certainty as one likes.",
  "all search spaces and lengths GAMA can be used with, every pipeline no longer than the greatest start length, every n",
  "It is about the share of all sequences of draws, and about arbitrarily large numbers of pipelines.",
  ["gama/gama.py: Gama._search_phase", "gama/genetic_programming/operator_set.py: OperatorSet.individual",
   "gama/genetic_programming/operations.py: create_random_expression"])

p("How often parents are crossed",
  "Two selected parents that can be crossed, because they differ in the value of a shared hyperparameter or both have two "
  "steps, are crossed with the chance given as cxpb, up to the precision of random.random; otherwise, and for all parents "
  "that cannot be crossed, the first of them is mutated.",
  "all chances of at most one, all search spaces, all parents of at most the maximum length; draws of random are uniform "
  "and independent",
  "A frequency observed in a test is not a chance; the statement is about the share of all sequences of draws.",
  ["gama/genetic_programming/selection.py: create_from_population", "gama/genetic_programming/crossover.py: "
   "_valid_crossover_functions, random_crossover", "gama/genetic_programming/operator_set.py: OperatorSet.mate"])

p("Every kind of mutation is equally likely",
  "Mutation makes every kind of change that can be made to a pipeline with the same chance: another value if there are two "
  "hyperparameters with a choice, another algorithm if there are two steps with a choice, one step more if the maximum "
  "length leaves room, fewer steps if there is more than one. No other kind of change is made.",
  "all search spaces GAMA can be used with, all pipelines of at most the maximum length none of whose mutants was "
  "evaluated before (otherwise mutation is tried again); draws of random are uniform and independent",
  "A frequency observed in a test is not a chance; the statement is about the share of all sequences of draws.",
  ["gama/genetic_programming/mutation.py: random_valid_mutation_in_place",
   "gama/genetic_programming/operator_set.py: OperatorSet.mutate"])

p("How likely each pair of parents is",
  "The first parent wins a tournament between two members of the population, the second one between two of the others, all "
  "draws being equally likely. With n in the population the chance of being the first parent is the number of others it is "
  "ahead of plus the number of others that are not ahead of it, divided by n * (n - 1), and likewise for the second among the "
  "n - 1 others. Of two members the one ahead has the greater chance, and exactly a member that all others are ahead of is "
  "never the first parent. A member is ahead of another if it is in an earlier front, the first two counting as one, or if "
  "it is in the same and less crowded.",
  "all populations of three or more with values of the same length, not NaN; every pair of members; draws of random are "
  "uniform and independent",
  "A frequency observed in a test is not a chance; the statement is about the share of all sequences of draws.",
  ["gama/genetic_programming/nsga2.py: nsga2_select, nsga2, NSGAMeta.crowd_compare",
   "gama/genetic_programming/selection.py: create_from_population"])

p("A Pareto front keeps the first of equal items",
  "After offering any sequence of items to a Pareto front, its members are exactly the items such that no "
  "item offered before is at least as good on every objective and no item offered after is better: of items "
  "with the same values, the one offered first stays.",
  "every sequence of items with values of one length, in any linear order",
  "Every sequence of offers; tests offer a few.",
  ["gama/utilities/generic/paretofront.py: ParetoFront.update, ParetoFront.__init__"])
p("Each of the worst pipelines is equally likely to leave the population",
  "If random draws are fair, elimination removes each of the worst members of the population with the same "
  "chance, members with the same fitness counting once; of members with the same fitness only the one that "
  "is first in the population can go.",
  "every evaluated population and all draws",
  "A chance is a statement about all draws together; a test sees some of them.",
  ["gama/genetic_programming/selection.py: eliminate_from_pareto", "gama/utilities/generic/paretofront.py: ParetoFront.update"])
p("How likely each child of a crossover is",
  "If random draws are fair and no child was evaluated before, mating two pipelines that can be crossed "
  "chooses between exchanging the values of a hyperparameter and exchanging steps, where both are possible, "
  "with the same chance; each pair of differing values, or each pair of places to cut, is then equally "
  "likely. The chance of any set of children follows.",
  "every two well-formed parents within the maximum length, every set of children and all draws",
  "A chance is a statement about all draws together; a test sees some of them.",
  ["gama/genetic_programming/crossover.py: random_crossover, crossover_primitives, crossover_terminals, "
   "_shared_terminals, _valid_crossover_functions", "gama/genetic_programming/operator_set.py: OperatorSet.mate"])
p("How likely each child of a mutation is",
  "If random draws are fair and no child was evaluated before, mutating a pipeline makes each possible kind of "
  "change (a value, a step, one more step, fewer steps) with the same chance. Each place where it can be made is "
  "then equally likely, then each other value, each (other) algorithm or each number of steps to remove, and each "
  "value of each hyperparameter of a new step. The chance of any set of children follows.",
  "every well-formed pipeline within the maximum length, every set of children and all draws",
  "A chance is a statement about all draws together; a test sees some of them.",
  ["gama/genetic_programming/mutation.py: random_valid_mutation_in_place, mut_replace_terminal, "
   "mut_replace_primitive, mut_insert, mut_shrink",
   "gama/genetic_programming/operations.py: random_primitive_node, random_terminals_for_primitive",
   "gama/genetic_programming/operator_set.py: OperatorSet.mutate"])
p("How likely each offspring of two parents is",
  "If random draws are fair and no child was evaluated before, an offspring of two parents that can be crossed is "
  "any set of pipelines with the chance of crossover asked for (to the precision of random.random) times the "
  "chance that crossover gives such a child, plus the rest times the chance that mutating the first parent does. "
  "If the parents cannot be crossed, it is a mutant of the first.",
  "every two well-formed parents within the maximum length, every crossover chance up to one, every set of "
  "children and all draws",
  "A chance is a statement about all draws together; a test sees some of them.",
  ["gama/genetic_programming/selection.py: create_from_population",
   "gama/genetic_programming/operator_set.py: OperatorSet.mate, OperatorSet.mutate"])
p("How likely each offspring of a population is",
  "If random draws are fair and no child was evaluated before, the offspring created of a population of at least "
  "three is in any set of pipelines with the sum, over all ordered pairs of different members, of the chance that "
  "NSGA-II's tournaments choose them as the parents times the chance that their offspring is in the set. The "
  "chances of the pairs add up to one.",
  "every population of at least three evaluated well-formed pipelines within the maximum length, every crossover "
  "chance up to one, every set of children and all draws",
  "A chance is a statement about all draws together; a test sees some of them.",
  ["gama/genetic_programming/selection.py: create_from_population",
   "gama/genetic_programming/nsga2.py: nsga2_select, nsga2"])
p("Which pipelines have a chance of being the next",
  "If random draws are fair and no child was evaluated before, the pipelines with a positive chance of being the "
  "offspring of a population are exactly those that two different members can have, where the first member is not "
  "behind all others and the second not behind all but the first: children of an exchange between the two if the "
  "crossover chance is positive, and one-change mutants of the first, of a kind that mutation offers, if crossover "
  "is not certain (to the precision of random.random) or not possible. The same holds for mutation and crossover "
  "by themselves.",
  "every population of at least three evaluated well-formed pipelines within the maximum length, every crossover "
  "chance up to one, every pipeline and all draws",
  "A chance is a statement about all draws together; that something is never drawn cannot be tested.",
  ["gama/genetic_programming/selection.py: create_from_population",
   "gama/genetic_programming/operator_set.py: OperatorSet.create, OperatorSet.mate, OperatorSet.mutate",
   "gama/genetic_programming/nsga2.py: nsga2_select"])
p("How likely each child is when some were evaluated before",
  "If random draws are fair, and a single try of mutation or crossover gives a child that was evaluated before with "
  "chance d, and a new child of some kind with chance a, then with n tries the operator gives a new child of that "
  "kind with chance a (1 + d + ... + d^(n-1)), so that new children keep their relative chances, and one that was "
  "evaluated before with chance d^n, in the proportions of a single try. The chance of an offspring of a population "
  "follows from this as it does when nothing was evaluated before.",
  "every population of at least three evaluated well-formed pipelines within the maximum length, every set of "
  "earlier evaluations, every number of tries of at least one, every crossover chance up to one and all draws",
  "A chance is a statement about all draws together; a test sees some of them.",
  ["gama/genetic_programming/operator_set.py: OperatorSet.try_until_new, OperatorSet.mate, OperatorSet.mutate",
   "gama/genetic_programming/selection.py: create_from_population"])
p("What was evaluated before rules no pipeline out",
  "If random draws are fair, the pipelines with a positive chance of being the result of mutation, of crossover, or "
  "of being the offspring of a population do not depend on what was evaluated before: a pipeline that was evaluated "
  "keeps a positive chance of being made again if it had one, and they are the pipelines described for the case "
  "that nothing was evaluated before.",
  "every population of at least three evaluated well-formed pipelines within the maximum length, every set of "
  "earlier evaluations, every number of tries of at least one, every crossover chance up to one, every pipeline "
  "and all draws",
  "A chance is a statement about all draws together; that a pipeline is never drawn, or might be, cannot be tested.",
  ["gama/genetic_programming/operator_set.py: OperatorSet.try_until_new, OperatorSet.mate, OperatorSet.mutate",
   "gama/genetic_programming/selection.py: create_from_population"])
out = os.path.join(os.path.dirname(__file__), "..", "properties.jsonl")
with open(out, "w") as f:
    for x in P:
        f.write(json.dumps(x) + "\n")
print(len(P))
for x in P: print(x["id"], x["title"])
