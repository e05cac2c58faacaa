{"id": "C01", "title": "A pipeline string reads back as the same pipeline", "statement": "Parsing the string that an individual prints for itself, against the search space it was drawn from, gives an individual with the same steps in the same order and the same hyperparameter value for every hyperparameter; printing it again gives the same string.", "quantifier": "every search space with '('/')'/','/'='-free printed names and values, every pipeline of any length drawn from it, both strict and non-strict parsing", "why_tests_cant": "The parser splits on characters; whether any step name, value or pipeline depth confuses it is a statement about all pipelines of a search space, tests parse a handful of strings.", "anchors": ["gama/genetic_programming/components/individual.py: Individual.pipeline_str, Individual.from_string", "gama/genetic_programming/components/primitive_node.py: PrimitiveNode.__str__, PrimitiveNode.from_string, find_primitive, find_terminal", "gama/genetic_programming/components/terminal.py: Terminal.__repr__"]}
{"id": "C02", "title": "Randomly created pipelines are well formed", "statement": "Every randomly created individual consists of exactly one estimator (the final step) preceded by zero or more preprocessing steps, each step carries exactly one value from the search space for each of its declared hyperparameters, and the number of steps lies between the requested minimum and maximum.", "quantifier": "every search space in which every referenced hyperparameter has a value, every outcome of every random draw, every min/max length", "why_tests_cant": "The set of random outcomes is unbounded; a test samples a few.", "anchors": ["gama/genetic_programming/operations.py: create_random_expression, random_primitive_node, random_terminals_for_primitive"]}
{"id": "C03", "title": "Mutation yields a well-formed pipeline that differs from its parent as advertised", "statement": "Whenever mutation of a well-formed individual completes, the result is well formed over the same search space; the change is exactly one of: one hyperparameter value replaced by a different value, one step replaced by a different step of the same kind, one preprocessing step inserted, or a number of steps removed from the data end; the estimator is never removed.", "quantifier": "every search space, every well-formed individual, every random outcome, every max length setting", "why_tests_cant": "Requires checking every (individual, operator, random choice) combination.", "anchors": ["gama/genetic_programming/mutation.py: mut_replace_terminal, mut_replace_primitive, mut_shrink, mut_insert, random_valid_mutation_in_place"]}
{"id": "C04", "title": "Mutation respects the maximum pipeline length", "statement": "If max_pipeline_length is set, an individual produced by mutation never has more steps than max_pipeline_length, even if its parent did.", "quantifier": "every search space, individual (including over-long ones), random outcome and max length >= 1", "why_tests_cant": "Requires every individual/length/random-draw combination.", "anchors": ["gama/genetic_programming/mutation.py: random_valid_mutation_in_place, mut_shrink, mut_insert"]}
{"id": "C05", "title": "Mutation always succeeds on individuals the search can hold", "statement": "Any well-formed individual whose length is within the allowed maximum can be mutated, so that generating offspring never aborts the search.", "quantifier": "every search space, every well-formed individual and every max_pipeline_length", "why_tests_cant": "The failing cases are isolated combinations of a step without alternatives and a tight length limit, which random sampling rarely meets.", "anchors": ["gama/genetic_programming/mutation.py: random_valid_mutation_in_place", "gama/genetic_programming/operator_set.py: OperatorSet.mutate"]}
{"id": "C06", "title": "Crossover yields well-formed pipelines and conserves genetic material", "statement": "Whenever crossover of two well-formed individuals completes, both results are well formed, and it either exchanged the (proper) data-side tails of both pipelines (total number of steps conserved) or exchanged exactly one pair of values of a hyperparameter both share, which differed.", "quantifier": "every pair of well-formed individuals over a common search space that share no step object (as copies do), every random outcome, every max length", "why_tests_cant": "Requires every pair of pipelines and random outcome.", "anchors": ["gama/genetic_programming/crossover.py: random_crossover, crossover_primitives, crossover_terminals, _shared_terminals, _valid_crossover_functions"]}
{"id": "C07", "title": "Crossover: the first returned individual respects the maximum length", "statement": "When both parents have at most max_length steps, the first individual returned by crossover has at most max_length steps; if a parent is longer, or no crossover is applicable, a ValueError is raised and neither parent is altered.", "quantifier": "every pair of individuals that share no step object (as copies do), random outcome and max length", "why_tests_cant": "Needs every combination of two cut points and lengths.", "anchors": ["gama/genetic_programming/crossover.py: random_crossover"]}
{"id": "C08", "title": "The search never evaluates a pipeline longer than max_pipeline_length", "statement": "When max_pipeline_length is set and the start candidates respect it, every offspring the search produces (by mutation, crossover or fresh creation) has at most max_pipeline_length steps.", "quantifier": "every population respecting the limit, every random outcome of selection, crossover and mutation", "why_tests_cant": "Offspring length depends on random cut points and on which of the two crossover children is kept; tests inspect few offspring.", "anchors": ["gama/genetic_programming/operator_set.py: OperatorSet.mate, OperatorSet.mutate, OperatorSet.individual", "gama/genetic_programming/crossover.py: random_crossover", "gama/genetic_programming/selection.py: create_from_population", "gama/gama.py: Gama.__init__ (max_pipeline_length)"]}
{"id": "C09", "title": "Producing offspring never alters the parents", "statement": "After mutating an individual or mating two individuals through the operator set, the pipelines of all individuals that existed before (the parents and every other member of the population) are exactly what they were; the offspring shares no mutable step with them.", "quantifier": "every heap of individuals, every random outcome, any sharing pattern of terminals", "why_tests_cant": "Aliasing bugs only show when a later in-place change happens to hit a shared step; absence of sharing is a statement about all heaps.", "anchors": ["gama/genetic_programming/operator_set.py: OperatorSet.mate, OperatorSet.mutate", "gama/genetic_programming/components/individual.py: Individual.copy_as_new, replace_terminal, replace_primitive", "gama/genetic_programming/components/primitive_node.py: PrimitiveNode.copy"]}
{"id": "C10", "title": "Copying an individual preserves its pipeline string", "statement": "A copy made for a new individual prints the same pipeline string as the original (so that the copy is recognised as already evaluated), has a fresh identity and no fitness, and this remains true after any number of in-place hyperparameter replacements.", "quantifier": "every individual reachable by creation, parsing and any sequence of operators", "why_tests_cant": "Copying re-sorts hyperparameters by their printed form; whether that can change the order after values were replaced depends on all names and values.", "anchors": ["gama/genetic_programming/components/primitive_node.py: PrimitiveNode.__init__, PrimitiveNode.copy", "gama/genetic_programming/components/individual.py: Individual.copy_as_new"]}
{"id": "C11", "title": "Positional hyperparameter replacement", "statement": "Replacing the hyperparameter value at a valid position changes exactly that position and nothing else; a value for another hyperparameter is refused, and a position outside the individual's hyperparameters is refused, in both cases leaving the individual unchanged.", "quantifier": "every individual, every natural-number position, every new value", "why_tests_cant": "Boundary positions of every individual; a test checks a few positions.", "anchors": ["gama/genetic_programming/components/individual.py: Individual.replace_terminal"]}
{"id": "C12", "title": "Positional step replacement", "statement": "Replacing the step at a valid position keeps every other step, refuses a step of a different kind, and refuses positions outside the pipeline.", "quantifier": "every individual, position and replacement step", "why_tests_cant": "Boundary positions of every individual.", "anchors": ["gama/genetic_programming/components/individual.py: Individual.replace_primitive"]}
{"id": "C13", "title": "Offspring are retried until new, within the retry budget", "statement": "When asked for a new individual the operator set returns the first attempt whose pipeline has not been evaluated, if one of the first 50 attempts is new, and otherwise the 50th attempt; it never makes more than 50 attempts and never returns an already-evaluated pipeline while a new one was seen.", "quantifier": "every set of evaluated pipelines and every sequence of generated candidates", "why_tests_cant": "Depends on unbounded history of evaluated pipelines and on random draws.", "anchors": ["gama/genetic_programming/operator_set.py: OperatorSet.try_until_new"]}
{"id": "C14", "title": "Lineage of offspring", "statement": "Every individual made by crossover records the identities of exactly its two parents and origin 'cx'; every individual made by mutation records its single parent and the name of the mutation applied; every offspring has an identity different from all earlier individuals.", "quantifier": "every population and every random outcome", "why_tests_cant": "Depends on the operator chosen at random and retries.", "anchors": ["gama/genetic_programming/operator_set.py: OperatorSet.mate, OperatorSet.mutate, OperatorSet.individual", "gama/search_methods/async_ea.py: AsyncEA.logger"]}
{"id": "C15", "title": "A Pareto front holds exactly the non-dominated values", "statement": "After offering any sequence of items to a Pareto front it contains one item for each maximal value vector among the offered ones and nothing else: no member is dominated or equalled by another member and every offered item is dominated or equalled by some member.", "quantifier": "every sequence of items of any length, any number of objectives, any value function into an ordered type", "why_tests_cant": "Holds for all insertion histories; tests use a few short ones.", "anchors": ["gama/utilities/generic/paretofront.py: ParetoFront.update, ParetoFront.__init__"]}
{"id": "C16", "title": "Pareto front: update result, order independence and errors", "statement": "update returns True exactly when the item became a member; the set of value vectors of the front does not depend on the order in which items were offered; offering an item with another number of objectives to a non-empty front is rejected and leaves the front unchanged.", "quantifier": "every front reachable by updates, every item, every permutation of offers", "why_tests_cant": "Quantifies over permutations of unbounded histories.", "anchors": ["gama/utilities/generic/paretofront.py: ParetoFront.update"]}
{"id": "C17", "title": "NSGA-II selection returns the requested number by non-domination", "statement": "Selecting n of a population with 0 < n <= population size returns exactly n members (no member more often than it occurs in the population), and no unselected member dominates a selected member; every other n is rejected.", "quantifier": "every population, every number of objectives >= 1, every n", "why_tests_cant": "All populations and dominance structures; tests use one or two small populations.", "anchors": ["gama/genetic_programming/nsga2.py: nsga2, fast_non_dominated_sort, crowding_distance_assignment, crowd_compare"]}
{"id": "C18", "title": "Non-dominated sorting is a correct layering", "statement": "Non-dominated sorting places each member of the population in exactly one front; members of one front do not dominate each other, and each member of a later front is dominated by a member of the directly preceding front and by none of its own or later fronts.", "quantifier": "every finite population and strict-partial-order dominance", "why_tests_cant": "All dominance structures.", "anchors": ["gama/genetic_programming/nsga2.py: fast_non_dominated_sort"]}
{"id": "C19", "title": "NSGA-II tournaments prefer the better front", "statement": "When two candidates from different fronts compete in a tournament, the candidate of the better (earlier) front wins.", "quantifier": "every population with at least two fronts, every pair of members", "why_tests_cant": "The defect only concerns the first two fronts and is invisible unless exactly such a pair is drawn and compared.", "anchors": ["gama/genetic_programming/nsga2.py: NSGAMeta.crowd_compare, fast_non_dominated_sort, nsga2_select"]}
{"id": "C20", "title": "Parent pairs consist of two different individuals of the population", "statement": "Parent selection returns the requested number of pairs, each of two different members of the population, and refuses populations of fewer than three.", "quantifier": "every population of size >= 3, every random outcome", "why_tests_cant": "All random outcomes.", "anchors": ["gama/genetic_programming/nsga2.py: nsga2_select"]}
{"id": "C21", "title": "Survivor elimination removes a member nobody is worse than", "statement": "Elimination returns one member of the (non-empty) population such that no other member is worse or equal on every objective while differing on some; it never invents an individual, and asking for any other number than one is refused.", "quantifier": "every non-empty population with fitness values, every random outcome", "why_tests_cant": "All populations and random outcomes.", "anchors": ["gama/genetic_programming/selection.py: eliminate_from_pareto"]}
{"id": "C22", "title": "The evaluation library keeps the m best evaluations", "statement": "After any sequence of saved evaluations, the evaluations kept with their models are m error-free evaluations (all of them when there are at most m) such that every discarded error-free evaluation scores no better than every kept one; nothing with an error is ever kept.", "quantifier": "every sequence of evaluations with totally ordered scores, every m (also 0 and unlimited), every resolution of ties", "why_tests_cant": "All histories, including score ties and evictions.", "anchors": ["gama/utilities/evaluation_library.py: EvaluationLibrary.save_evaluation"]}
{"id": "C23", "title": "The evaluation library never loses or duplicates an evaluation", "statement": "The evaluations reported by the library are exactly the evaluations saved, each as often as it was saved.", "quantifier": "every sequence of evaluations and every m", "why_tests_cant": "All histories.", "anchors": ["gama/utilities/evaluation_library.py: EvaluationLibrary.save_evaluation, EvaluationLibrary.evaluations"]}
{"id": "C24", "title": "Cached models on disk are exactly those of the kept evaluations", "statement": "At every moment between saves, for every kept evaluation the stored predictions and models can be read back and are those of that evaluation, and the cache directory holds no other file.", "quantifier": "every sequence of evaluations", "why_tests_cant": "All histories including evictions and repeated evaluation of the same individual.", "anchors": ["gama/utilities/evaluation_library.py: Evaluation.to_disk, Evaluation.remove_from_disk, Evaluation.predictions, EvaluationLibrary.save_evaluation"]}
{"id": "C25", "title": "n_best returns the best evaluations in order", "statement": "n_best(n) lists evaluations from best to worst; for n <= m (or unlimited m) these are the best min(n, available) error-free evaluations of all saved ones.", "quantifier": "every history, every n and m", "why_tests_cant": "All histories.", "anchors": ["gama/utilities/evaluation_library.py: EvaluationLibrary.n_best"]}
{"id": "C26", "title": "An evaluated pipeline is recognised as evaluated", "statement": "A pipeline is reported as already evaluated exactly when an evaluation with that pipeline string was saved successfully, and the lookup returns the latest such evaluation.", "quantifier": "every history of saves", "why_tests_cant": "All histories.", "anchors": ["gama/utilities/evaluation_library.py: EvaluationLibrary.save_evaluation, EvaluationLibrary.lookup, is_evaluated"]}
{"id": "C27", "title": "Stored predictions of different evaluations refer to the same rows", "statement": "When the library subsamples predictions, the same row indices (distinct, in range, exactly n of them) are used for every evaluation saved, and no subsampling happens when there are at most n predictions.", "quantifier": "every history of evaluations with equally many predictions, every n, every random permutation", "why_tests_cant": "All histories and random permutations.", "anchors": ["gama/utilities/evaluation_library.py: EvaluationLibrary.determine_sample_indices, _process_predictions"]}
{"id": "C28", "title": "Every returned evaluation is the one of its own job, at most once", "statement": "Whatever the interleaving of workers, each result handed to the search is the result of executing the function and arguments of the job whose future is returned; no job is returned twice and no result is returned for a job that was not submitted.", "quantifier": "every schedule of submit/wait/worker steps/kills, any number of workers", "why_tests_cant": "All interleavings of an unbounded number of jobs and workers.", "anchors": ["gama/utilities/generic/async_evaluator.py: AsyncEvaluator.submit, wait_next, evaluator_daemon, AsyncFuture.execute"]}
{"id": "C29", "title": "Every submitted job is eventually accounted for", "statement": "Every job handed to the evaluator is at all times queued, being processed, finished-but-not-fetched or returned, so waiting for as many results as there are unreturned jobs terminates.", "quantifier": "every schedule, including memory-limit kills and jobs with arbitrary return values", "why_tests_cant": "Losing a job needs a specific kill or result at a specific moment.", "anchors": ["gama/utilities/generic/async_evaluator.py: AsyncEvaluator._control_memory_usage, _stop_worker_process, evaluator_daemon"]}
{"id": "C30", "title": "Waiting without pending jobs raises instead of blocking; job_queue_size tracks the backlog", "statement": "Waiting for a result while no job is unreturned raises RuntimeError; while no worker has been stopped, job_queue_size equals the number of unreturned jobs minus the number of workers.", "quantifier": "every history of submits, waits and worker steps", "why_tests_cant": "All histories.", "anchors": ["gama/utilities/generic/async_evaluator.py: AsyncEvaluator.wait_next, submit, job_queue_size"]}
{"id": "C31", "title": "A failing job is reported and does not take down others", "statement": "If the evaluated function raises, the job's future carries the exception and no result; the worker continues with the next job and other jobs' outcomes are unaffected.", "quantifier": "every job function behaviour and schedule", "why_tests_cant": "All exception points.", "anchors": ["gama/utilities/generic/async_evaluator.py: AsyncFuture.execute, evaluator_daemon"]}
{"id": "C32", "title": "Memory control stops at most one worker at a time and keeps at least one", "statement": "Exceeding the memory limit never leaves the evaluator without worker processes, never raises the number of workers above the configured number, and only stops a worker when the total exceeds the limit.", "quantifier": "every history of memory readings and completed jobs", "why_tests_cant": "All histories of readings.", "anchors": ["gama/utilities/generic/async_evaluator.py: AsyncEvaluator._control_memory_usage, _start_worker_process, _stop_worker_process"]}
{"id": "C33", "title": "Arguments given with a job are the ones used", "statement": "A keyword argument explicitly supplied when submitting a job is passed to the function; process-wide defaults only fill in arguments that were not supplied.", "quantifier": "every set of defaults and job arguments", "why_tests_cant": "All combinations of names.", "anchors": ["gama/utilities/generic/async_evaluator.py: AsyncFuture.execute, AsyncEvaluator.defaults"]}
{"id": "C34", "title": "The evolutionary population never exceeds its size and holds only error-free evaluated individuals", "statement": "At every moment the search may be interrupted, the reported population holds at most population_size (+1 transiently) individuals, each of which was evaluated without error.", "quantifier": "every order and outcome of evaluations, every population size, interruption at any point", "why_tests_cant": "All evaluation orders and interruption points.", "anchors": ["gama/search_methods/async_ea.py: async_ea, AsyncEA.search"]}
{"id": "C35", "title": "The evolutionary search stops after max_n_evaluations", "statement": "With max_n_evaluations = N the search processes exactly N evaluations when not interrupted, and never more; non-positive N is refused before anything is evaluated.", "quantifier": "every order and outcome of evaluations, any N, restarts included", "why_tests_cant": "All evaluation histories.", "anchors": ["gama/search_methods/async_ea.py: async_ea"]}
{"id": "C36", "title": "The evolutionary search never starves or aborts by itself", "statement": "Starting from at least one candidate the search can always continue: it never waits without a pending job and creating offspring never fails, whatever the evaluation outcomes.", "quantifier": "every outcome of evaluations, number of workers and number of start candidates", "why_tests_cant": "Needs early failures of most candidates, or more workers than candidates.", "anchors": ["gama/search_methods/async_ea.py: async_ea", "gama/genetic_programming/nsga2.py: nsga2_select", "gama/genetic_programming/selection.py: create_from_population"]}
{"id": "C37", "title": "Calling fit again continues from the previous population", "statement": "A second fit without warm_start evaluates the individuals of the final population of the previous fit first.", "quantifier": "every final population of a previous fit and each search method", "why_tests_cant": "Depends on two calls sharing state; whether the lists alias is a whole-program property.", "anchors": ["gama/gama.py: Gama._search_phase", "gama/search_methods/async_ea.py: AsyncEA.search, async_ea", "gama/search_methods/random_search.py: random_search"]}
{"id": "C38", "title": "Random search reports everything it evaluated, within its budget", "statement": "Random search reports exactly the individuals whose evaluation was returned, in order of completion, keeps as many jobs pending as it started with, and stops once the number of reported individuals reaches max_evaluations.", "quantifier": "every order and outcome of evaluations", "why_tests_cant": "All evaluation histories.", "anchors": ["gama/search_methods/random_search.py: random_search"]}
{"id": "C39", "title": "ASHA promotes only top performers, each at most once per rung", "statement": "At any time the number of individuals promoted out of a rung is at most floor(size of that rung / reduction_factor), no evaluation is promoted twice, each promotion picks a best not-yet-promoted evaluation of its rung, and nothing is promoted out of the top rung.", "quantifier": "every order and outcome of evaluations, every reduction factor and number of rungs", "why_tests_cant": "All asynchronous histories.", "anchors": ["gama/search_methods/asha.py: asha (get_job)"]}
{"id": "C40", "title": "ASHA resource allocation", "statement": "Resources per rung start at minimum_resource (scaled by the early-stopping rate), grow by the reduction factor, never exceed maximum_resource, and the top rung gets exactly maximum_resource; only top-rung evaluations count as full evaluations.", "quantifier": "every valid minimum/maximum resource and reduction factor", "why_tests_cant": "All numeric settings.", "anchors": ["gama/search_methods/asha.py: asha, evaluate_on_rung"]}
{"id": "C41", "title": "ASHA reports the individuals of the highest rung reached", "statement": "When ASHA is interrupted or completes, it reports exactly the individuals evaluated on the highest rung on which any evaluation finished, and does not fail.", "quantifier": "every history of evaluations and every interruption point", "why_tests_cant": "All interruption points, including before the first evaluation.", "anchors": ["gama/search_methods/asha.py: asha, AsynchronousSuccessiveHalving.search"]}
{"id": "C42", "title": "Ensemble weights add up to the ensemble size", "statement": "An ensemble built with ensemble_size = s >= 1 from a non-empty set of evaluated models has positive integer weights that add up to s, over models drawn from that set.", "quantifier": "every library of models that is not empty, every scoring outcome that is comparable, every s of at least 1, if there is time left", "why_tests_cant": "All libraries and score orders.", "anchors": ["gama/postprocessing/ensemble.py: build_fit_ensemble, Ensemble.build_initial_ensemble, expand_ensemble, _add_model"]}
{"id": "C43", "title": "Each ensemble expansion is greedily optimal", "statement": "Every model added by expansion attains the maximum, over all models of the library, of the score of the extended ensemble, the first such model in library order. The ensemble starts from the first model, or the first ten if more than ten are asked for; an individual that was evaluated several times counts as often as it is among them, and with fewer models than that all are used once.", "quantifier": "every library that is not empty and scoring function into a total order with least element -inf, if there is time left", "why_tests_cant": "All libraries and score orders.", "anchors": ["gama/postprocessing/ensemble.py: Ensemble.expand_ensemble, build_initial_ensemble"]}
{"id": "C44", "title": "The incrementally tracked validation prediction is the weighted mean", "statement": "After building and expanding, the score reported for the ensemble is the score of the weighted mean of the member models' validation predictions.", "quantifier": "every sequence of additions, exact arithmetic", "why_tests_cant": "All sequences of additions.", "anchors": ["gama/postprocessing/ensemble.py: Ensemble._ensemble_validation_score, expand_ensemble, _total_fit_weights"]}
{"id": "C45", "title": "Ensemble prediction is a convex combination of its models", "statement": "For every input the ensemble's (probability) prediction is the weighted mean of the predictions of the fitted models: it lies between the smallest and largest model prediction, equals the common prediction when all agree, and class probabilities still add up to one.", "quantifier": "all weights, models and inputs, exact arithmetic", "why_tests_cant": "All weights and predictions.", "anchors": ["gama/postprocessing/ensemble.py: Ensemble._get_weighted_mean_predictions, predict, EnsembleClassifier.predict_proba"]}
{"id": "C46", "title": "Ensemble scoring compares predictions with the labels of the same rows", "statement": "When validation predictions are (down)sampled for hill climbing, the i-th label used for scoring belongs to the same training row as the i-th prediction.", "quantifier": "every data size, library sample and downsample, classification and regression, label- and probability-based metrics", "why_tests_cant": "Needs data larger than the downsample limit and a probability metric.", "anchors": ["gama/postprocessing/ensemble.py: Ensemble.__init__, EnsembleClassifier.__init__"]}
{"id": "C47", "title": "Pickling an ensemble does not change it", "statement": "Saving (pickling) a fitted model leaves the model in memory unchanged, so that exporting code or inspecting it afterwards still works.", "quantifier": "every fitted ensemble and every order of pickle/export/predict calls", "why_tests_cant": "Order-dependent side effect across calls.", "anchors": ["gama/postprocessing/ensemble.py: Ensemble.__getstate__, EnsemblePostProcessing.to_code", "gama/utilities/cli.py: main"]}
{"id": "C48", "title": "Best-fit post-processing fits the best individual found", "statement": "With best-fit post-processing the model trained is that of an individual with lexicographically maximal fitness in the final population; an empty population is an error.", "quantifier": "every final population", "why_tests_cant": "All populations.", "anchors": ["gama/postprocessing/best_fit.py: BestFitPostProcessing.post_process", "gama/gama.py: Gama.fit"]}
{"id": "C49", "title": "Remaining time never increases and accounts for all activities", "statement": "Within one fit, the remaining total time is the budget minus the time spent in all activities so far; it never increases as the clock advances, and finished activities' durations no longer change.", "quantifier": "every monotone clock and every sequence of activities", "why_tests_cant": "All clock readings.", "anchors": ["gama/utilities/generic/timekeeper.py: TimeKeeper.total_time_remaining, start_activity", "gama/utilities/generic/stopwatch.py: Stopwatch"]}
{"id": "C50", "title": "No activity is current after it ended", "statement": "Once an activity has ended, normally or by an exception, it is no longer reported as current, so its limit is no longer enforced on later calls.", "quantifier": "every sequence of activities with arbitrary outcomes", "why_tests_cant": "Needs an exception inside an activity followed by further use.", "anchors": ["gama/utilities/generic/timekeeper.py: TimeKeeper.start_activity", "gama/gama.py: Gama._safe_outside_call"]}
{"id": "C51", "title": "Time budgets handed to the phases and evaluations fit the total", "statement": "The time limit of the search phase plus the share reserved for post-processing never exceeds the remaining time; each pipeline evaluation is given at most max_eval_time and never more than what remains until the search deadline.", "quantifier": "every total time, post-processing fraction in [0,1], evaluation start time and deadline", "why_tests_cant": "All numeric settings and times.", "anchors": ["gama/gama.py: Gama.fit, Gama.__init__", "gama/genetic_programming/compilers/scikitlearn.py: evaluate_individual, evaluate_pipeline"]}
{"id": "C52", "title": "Default max_eval_time is usable", "statement": "If max_eval_time is not specified, it defaults to a tenth of the total time, is positive and at most the total time, so that pipelines can be evaluated.", "quantifier": "every positive max_total_time", "why_tests_cant": "Boundary behaviour of rounding for all integers.", "anchors": ["gama/gama.py: Gama.__init__"]}
{"id": "C53", "title": "Removing unlabeled rows keeps data and labels aligned", "statement": "After formatting, no label is missing, every labeled row is kept in order, and each kept row is still paired with its own label.", "quantifier": "every data frame, label series, row index and pattern of missing labels", "why_tests_cant": "Depends on the row index of x and y; tests use default indices.", "anchors": ["gama/data_formatting.py: format_x_y, remove_unlabeled_rows"]}
{"id": "C54", "title": "Every categorical column is encoded by exactly one encoder", "statement": "For every data frame each categorical column is handled by exactly one of ordinal, one-hot or (regression only) target encoding, as determined by its number of distinct values; non-categorical columns by none.", "quantifier": "every table whose columns have different names, every number of factors, both task types", "why_tests_cant": "All factor counts and their boundaries.", "anchors": ["gama/utilities/preprocessing.py: select_categorical_columns, basic_encoding, basic_pipeline_extension"]}
{"id": "C55", "title": "Loading a file separates exactly the target column", "statement": "Loading data from file with a target column returns that column as y and all other columns, in order and unchanged, as x; without a target column the last one is used; an unknown target column is refused.", "quantifier": "every table whose columns have different names and every target name", "why_tests_cant": "All tables.", "anchors": ["gama/data_loading.py: X_y_from_file"]}
{"id": "C56", "title": "No training row is validated on", "statement": "In every fold of the cross-validation used to score a pipeline the training rows and the test rows are disjoint, also when evaluating on a subsample of the data.", "quantifier": "every data size, fold assignment and subsample", "why_tests_cant": "Leakage depends on which row indices the sampler draws.", "anchors": ["gama/genetic_programming/compilers/scikitlearn.py: evaluate_pipeline"]}
{"id": "C57", "title": "Validation predictions are out-of-fold and complete", "statement": "The validation prediction stored for each training row was made by the estimator of the fold in which that row was a test row, for every row, when the folds' test sets partition the rows.", "quantifier": "every partition into folds, every estimator", "why_tests_cant": "All fold assignments.", "anchors": ["gama/genetic_programming/compilers/scikitlearn.py: evaluate_pipeline"]}
{"id": "C58", "title": "Evaluations report one score per metric (plus length) and record failures", "statement": "Every evaluation of an individual returns, per metric, one score (minus infinity for all metrics if scoring failed), followed by minus the pipeline length when length regularisation is on, and the individual's fitness equals that tuple; failures are reported as error text rather than raised.", "quantifier": "every pipeline outcome: success, failure, timeout", "why_tests_cant": "All outcomes and their timing.", "anchors": ["gama/genetic_programming/compilers/scikitlearn.py: evaluate_individual, evaluate_pipeline"]}
{"id": "C59", "title": "Predicted labels are original labels", "statement": "A classifier predicts labels from the label set it was trained with, and predictions made on the internally encoded labels are mapped back to the right original labels.", "quantifier": "every label type (strings or numbers) and set of labels, in the formats accepted (a data frame with one row and a list of numbers are refused)", "why_tests_cant": "All label sets.", "anchors": ["gama/GamaClassifier.py: GamaClassifier._encode_labels, fit, _predict"]}
{"id": "C60", "title": "Target formats are normalised", "statement": "Targets given as Series, one-column DataFrame, (N,) or (N,1) array or (N,K) indicator array yield the same label vector; of a DataFrame with several columns the first is used.", "quantifier": "every number of rows and columns", "why_tests_cant": "All shapes including single-row and multi-column ones.", "anchors": ["gama/data_formatting.py: format_y, format_x_y"]}
{"id": "C61", "title": "The search space offers exactly what the configuration lists", "statement": "Every algorithm in the configuration is available exactly once, as preprocessing step or estimator according to its kind, with exactly its configured hyperparameters; each hyperparameter offers exactly the configured values, and a hyperparameter with an empty list offers the shared values of that name; anything that is neither transformer nor predictor is refused.", "quantifier": "every configuration dictionary", "why_tests_cant": "All dictionaries.", "anchors": ["gama/configuration/parser.py: pset_from_config"]}
{"id": "C62", "title": "Merging configurations unions them and leaves the inputs alone", "statement": "Merging two configurations offers, per algorithm and hyperparameter, exactly the values offered by either, and does not modify the configurations merged.", "quantifier": "every pair of configurations", "why_tests_cant": "All dictionaries and aliasing between input and output.", "anchors": ["gama/configuration/parser.py: merge_configurations", "gama/logging/GamaReport.py: (module level merge)"]}
{"id": "C63", "title": "Hyperparameter precedence", "statement": "For search and post-processing methods a value given by the user is used, otherwise the data-dependent default, otherwise the static default, whatever the order and number of times the defaults are recomputed.", "quantifier": "every hyperparameter table, every sequence of default updates", "why_tests_cant": "All sequences of updates.", "anchors": ["gama/search_methods/base_search.py: BaseSearch.hyperparameters, _overwrite_hyperparameter_default", "gama/postprocessing/base_post_processing.py: BasePostProcessing.hyperparameters"]}
{"id": "C64", "title": "Invalid construction arguments are refused and leave no trace", "statement": "Constructing GAMA with a non-positive max_total_time, non-positive max_eval_time or invalid n_jobs raises ValueError and leaves no output directory behind where there was none; a non-empty output directory is refused and left untouched; valid arguments are accepted.", "quantifier": "every combination of arguments (n_jobs given, for the default see C65) and every state of an output directory that can be made or listed", "why_tests_cant": "All combinations of arguments and directory contents.", "anchors": ["gama/gama.py: Gama.__init__, Gama.cleanup"]}
{"id": "C65", "title": "Default n_jobs works on every machine", "statement": "Leaving n_jobs unspecified uses half of the available cores, -1 uses all of them and a positive number that many; construction succeeds on every machine.", "quantifier": "every number of cores >= 1", "why_tests_cant": "Depends on the machine the test runs on.", "anchors": ["gama/gama.py: Gama.__init__"]}
{"id": "C66", "title": "Callbacks are all called, in order, despite failing callbacks", "statement": "Every evaluation is passed to every registered callback exactly once in registration order, whatever exceptions (other than the timeout signal) the callbacks raise; a timeout raised in a callback reaches the search.", "quantifier": "every list of callbacks and every outcome of each call", "why_tests_cant": "All combinations of failing callbacks.", "anchors": ["gama/gama.py: Gama._on_evaluation_completed, _safe_outside_call, evaluation_completed"]}
{"id": "C67", "title": "Only what was asked for is stored", "statement": "After fit, the output directory holds the logs iff store is 'logs' or 'all', and the cached models iff store is 'models' or 'all'; with 'nothing' the directory is gone; cleaning up twice is harmless.", "quantifier": "every store setting and every set of log and cache files written", "why_tests_cant": "All directory contents.", "anchors": ["gama/gama.py: Gama.cleanup, Gama.fit"]}
{"id": "C68", "title": "Instances do not affect each other", "statement": "The number of worker processes and the memory limit used by an instance are those it was constructed with, regardless of other instances constructed before or after.", "quantifier": "every sequence of constructions and fits of several instances", "why_tests_cant": "Cross-instance history.", "anchors": ["gama/gama.py: Gama.__init__ (AsyncEvaluator.__init__ partialmethod)"]}
{"id": "C69", "title": "Turning off length regularisation works for every scoring", "statement": "The search runs with regularize_length=False just as with True, for any number of scoring metrics.", "quantifier": "every number of metrics and both regularisation settings", "why_tests_cant": "Configuration combinations.", "anchors": ["gama/genetic_programming/selection.py: create_from_population", "gama/genetic_programming/compilers/scikitlearn.py: evaluate_individual"]}
{"id": "C70", "title": "Compiled pipelines run the steps in order with unique names", "statement": "Compiling an individual gives a pipeline that first applies the fixed preprocessing steps in order, then the individual's steps from the data side to the estimator, which is last; all step names are different, and each step is configured with exactly the individual's hyperparameter values.", "quantifier": "every individual and list of preprocessing steps with names not being decimal numbers", "why_tests_cant": "All pipelines lengths.", "anchors": ["gama/genetic_programming/compilers/scikitlearn.py: compile_individual, primitive_node_to_sklearn"]}
{"id": "C71", "title": "Exported code describes the model that was fitted", "statement": "The exported script defines a pipeline with the same step names, in the same order, as the fitted pipeline (encoding and fixed steps first), and imports every class it uses.", "quantifier": "every individual and preprocessing steps", "why_tests_cant": "All pipelines.", "anchors": ["gama/utilities/export.py: individual_to_python, imports_and_steps_for_individual", "gama/postprocessing/best_fit.py: to_code"]}
{"id": "C72", "title": "The evaluation log can be read back", "statement": "Reading evaluations.log gives one record per evaluation, in order, with the logged fields.", "quantifier": "every sequence of evaluations with arbitrary field texts", "why_tests_cant": "Depends on the text of error messages, which is unbounded.", "anchors": ["gama/logging/evaluation_logger.py: EvaluationLogger.log_evaluation", "gama/logging/GamaReport.py: GamaReport.update"]}
{"id": "C73", "title": "Reading the log incrementally gives the same report as reading it at once", "statement": "Updating a report any number of times while the log grows gives the same evaluations, numbering and running best as reading the complete log once.", "quantifier": "every log whose field texts contain no separator, line end or leading quotation mark (C72), and every way to cut it at record boundaries", "why_tests_cant": "All cut points.", "anchors": ["gama/logging/GamaReport.py: GamaReport.update"]}
{"id": "C74", "title": "There is one console handler, with the latest verbosity", "statement": "After any number of constructions exactly one console log handler of GAMA is installed, having the verbosity of the latest construction, and handlers installed by the user or for files are left alone.", "quantifier": "every sequence of constructions and pre-existing handlers", "why_tests_cant": "All handler histories.", "anchors": ["gama/logging/utility_functions.py: register_stream_log"]}
{"id": "C75", "title": "Hyperparameters of a run can be read back from its log", "statement": "The initialisation line written to the log can be parsed back into the names and values of the arguments of the run.", "quantifier": "every set of arguments", "why_tests_cant": "Depends on the printed form of arbitrary argument values.", "anchors": ["gama/gama.py: Gama.__init__ (INIT line)", "gama/logging/GamaReport.py: init_to_hps"]}
{"id": "C76", "title": "Reading ARFF metadata terminates with the declared attributes", "statement": "Reading the attribute metadata of any ARFF file terminates and returns, in order, the declared attributes with their types.", "quantifier": "every text file", "why_tests_cant": "Termination on all inputs cannot be tested.", "anchors": ["gama/data_loading.py: load_feature_metadata_from_arff"]}
{"id": "C77", "title": "Command line options reach the run", "statement": "Every documented command line invocation with a supported file type runs the AutoML with the given file, separator and target; unsupported ones are refused before anything is run.", "quantifier": "every combination of options and path spellings", "why_tests_cant": "All option combinations.", "anchors": ["gama/utilities/cli.py: main, parse_args"]}
{"id": "C78", "title": "Offspring are made from members of the population", "statement": "When offspring creation returns, it returns as many individuals as asked for, all new and pairwise different; each is well formed and is a mutation of a member or a crossing of the members at two different places of the population, and no existing individual is modified.", "quantifier": "every population of well-formed individuals, every fitness, every random outcome, every crossover probability", "why_tests_cant": "Composition of random selection, crossover and mutation over all populations.", "anchors": ["gama/genetic_programming/selection.py: create_from_population", "gama/genetic_programming/nsga2.py: nsga2_select"]}
{"id": "C79", "title": "When a front is cut the least crowded members are kept", "statement": "If only part of a front is selected, no member left out has a larger crowding distance than one that was kept, and the only best or only worst member of the front on an objective is left out only if everything kept has infinite distance too. The distance is the sum over the objectives of the gap between a member's neighbours relative to the spread of the front.", "quantifier": "every population, every number of objectives, every n", "why_tests_cant": "All populations and value patterns (ties, infinities).", "anchors": ["gama/genetic_programming/nsga2.py: nsga2, crowding_distance_assignment, NSGAMeta.crowd_compare"]}
{"id": "C80", "title": "An evaluator is entered once and leaves no processes behind", "statement": "Entering the context of an evaluator that has been entered before raises a RuntimeError and starts nothing, whatever happened in between; leaving the context succeeds and leaves no worker process running, unless a worker survives its termination.", "quantifier": "every schedule of the evaluator, every order in which workers vanish or stop", "why_tests_cant": "Processes can be replaced, vanish or be stopped at any moment before leaving.", "anchors": ["gama/utilities/generic/async_evaluator.py: AsyncEvaluator.__enter__, __exit__, _stop_worker_process"]}
{"id": "C81", "title": "The ensemble's limits on models and rows are respected", "statement": "`hillclimb_size` is the number of predictions used to score ensembles and `max_models` the number of models considered; `None` means all of them.", "quantifier": "every value of the two settings, every number of rows and models", "why_tests_cant": "Needs data sets and searches larger than any test, to exceed the defaults.", "anchors": ["gama/postprocessing/ensemble.py: EnsemblePostProcessing.__init__, build_fit_ensemble, Ensemble.__init__", "gama/gama.py: Gama.__init__ (evaluation library)"]}
{"id": "C82", "title": "An ensemble that is returned can predict", "statement": "When post-processing returns an ensemble, the ensemble can make predictions.", "quantifier": "every library of evaluations (also an empty one), every ensemble size, metric and time limit", "why_tests_cant": "Errors while building the ensemble depend on the outcome of the search and on timing.", "anchors": ["gama/postprocessing/ensemble.py: build_fit_ensemble, Ensemble._get_weighted_mean_predictions, Ensemble.fit"]}
{"id": "C83", "title": "Rows without label play no part in training a classifier", "statement": "The rows left out when fitting a classifier are exactly those whose label is missing, whatever the type of the labels.", "quantifier": "every label vector, of numbers or strings, with missing labels anywhere", "why_tests_cant": "Depends on the interplay of label encoding and the later removal of unlabeled rows for each type of label.", "anchors": ["gama/GamaClassifier.py: GamaClassifier.fit", "gama/data_formatting.py: format_x_y"]}
{"id": "C84", "title": "The metric asked for is the one computed everywhere", "statement": "The score of predictions used for building ensembles, and the one returned by `score`, is the value of the metric named in `scoring`, with its parameters and sign, as in the search.", "quantifier": "every metric accepted, all labels and predictions", "why_tests_cant": "Metrics differ in parameters and sign; a test covers one of them.", "anchors": ["gama/utilities/metrics.py: Metric", "gama/gama.py: Gama.score"]}
{"id": "C85", "title": "A failed evaluation reports no result", "statement": "When evaluating a pipeline fails or runs out of time, the evaluation has no predictions and no estimators and each score is minus infinity.", "quantifier": "every moment at which a failure or timeout can happen", "why_tests_cant": "The moment of a timeout cannot be controlled by a test.", "anchors": ["gama/genetic_programming/compilers/scikitlearn.py: evaluate_pipeline"]}
{"id": "C86", "title": "A pipeline can be evaluated on any part of the data", "statement": "Evaluating a pipeline on fewer rows than the data has does not fail because of the number of rows asked for or the row index of the data.", "quantifier": "every number of rows, every fold assignment and row index", "why_tests_cant": "Tests use a default index and few sizes.", "anchors": ["gama/genetic_programming/compilers/scikitlearn.py: evaluate_pipeline"]}
{"id": "C87", "title": "What a search reports was evaluated in that search", "statement": "The individuals a search reports are ones that were evaluated successfully during it.", "quantifier": "every outcome of the evaluations, every earlier fit", "why_tests_cant": "Requires running fit repeatedly with all outcomes of evaluations.", "anchors": ["gama/search_methods/random_search.py: random_search, RandomSearch", "gama/search_methods/base_search.py: BaseSearch", "gama/search_methods/async_ea.py: async_ea", "gama/search_methods/asha.py: asha"]}
{"id": "C88", "title": "A construction that fails leaves no output directory", "statement": "If constructing GAMA raises, no output directory is left that was not there before.", "quantifier": "every combination of arguments and state of the output directory", "why_tests_cant": "Tests try single bad arguments and do not look at the directory.", "anchors": ["gama/gama.py: Gama.__init__"]}
{"id": "C89", "title": "Fit can be called again", "statement": "After a fit another fit of the same instance works and stores its models like the first.", "quantifier": "every store setting, all models evaluated in both fits", "why_tests_cant": "Depends on what the first fit left on disk.", "anchors": ["gama/gama.py: Gama.fit, Gama.cleanup", "gama/utilities/evaluation_library.py: EvaluationLibrary.save_evaluation", "gama/utilities/generic/async_evaluator.py: AsyncEvaluator._log_memory_usage"]}
{"id": "C90", "title": "Metrics may be given in any iterable", "statement": "The metrics used are those listed in `scoring`, in that order, whatever kind of iterable lists them; anything that is neither metric nor name is refused.", "quantifier": "every list of metrics and names in every kind of iterable", "why_tests_cant": "A test covers one kind of iterable and a few metrics.", "anchors": ["gama/utilities/metrics.py: scoring_to_metric"]}
{"id": "C91", "title": "Individuals apply the preprocessing of the current fit", "statement": "Every individual made during a fit is compiled with the fixed preprocessing steps determined for the data of that fit.", "quantifier": "every sequence of fits and of individuals created and copied", "why_tests_cant": "Requires fits on different data with the individuals of an earlier one.", "anchors": ["gama/gama.py: Gama.fit", "gama/genetic_programming/operator_set.py: OperatorSet.individual", "gama/genetic_programming/components/individual.py: Individual.copy_as_new"]}
{"id": "C92", "title": "Large data excludes only heavy algorithms, and only for that data", "statement": "The search space of a fit is the configured one, except that nearest neighbours is left out for more than six million cells and polynomial features for more than fifty columns if models are stored.", "quantifier": "every search space, every sequence of data sizes", "why_tests_cant": "Data of that size is too big for unit tests.", "anchors": ["gama/gama.py: Gama.fit"]}
{"id": "C93", "title": "The log of a run contains what that run logged", "statement": "The gama.log in the output directory of an instance contains the messages of that instance and nothing else.", "quantifier": "every sequence of constructions and messages of any number of instances in one process", "why_tests_cant": "Interleavings of any number of instances.", "anchors": ["gama/gama.py: Gama.__init__ (log handler)", "gama/logging/utility_functions.py: register_stream_log"]}
{"id": "C94", "title": "Phases of a run can be read back from its log", "statement": "The line logged when a phase ends is read back by a report as the same phase, algorithm, time stamp and duration.", "quantifier": "every time stamp, duration and one-word names of phase and algorithm", "why_tests_cant": "Depends on splitting arbitrary texts.", "anchors": ["gama/utilities/generic/timekeeper.py: TimeKeeper.start_activity", "gama/logging/GamaReport.py: GamaReport.__init__"]}
{"id": "C95", "title": "The header of a csv file is the list of its column names", "statement": "load_csv_header of a csv file with a header returns the names on its first line, split at the separator given, else at the one detected; without a header the columns are numbered from 0.", "quantifier": "every list of names, separator and rest of the file, whatever its line ends", "why_tests_cant": "Files with and without a final line end, and every separator.", "anchors": ["gama/data_loading.py: load_csv_header"]}
{"id": "C96", "title": "Metadata can be read of exactly the files whose data can be loaded", "statement": "load_feature_metadata_from_file accepts a file name exactly when file_to_pandas does, and reads it in the same format.", "quantifier": "every file name", "why_tests_cant": "All spellings of names.", "anchors": ["gama/data_loading.py: load_feature_metadata_from_file, file_to_pandas, load_csv_header"]}
{"id": "C97", "title": "Classifiers that cannot predict probabilities are left out exactly when needed", "statement": "If a metric requires probabilities, the search space of a GamaClassifier contains exactly the entries given (or the default ones) that are not classifiers without predict_proba, in their order; otherwise it contains all of them.", "quantifier": "every search space and list of metrics", "why_tests_cant": "All search spaces.", "anchors": ["gama/GamaClassifier.py: GamaClassifier.__init__"]}
{"id": "C98", "title": "Macro-averaged metrics weigh all classes equally", "statement": "The score that a pipeline evaluation reports for a macro-averaged metric is the mean of the scores of the classes, each class counting once.", "quantifier": "every target vector and every score per class", "why_tests_cant": "All class distributions; tests use balanced or no labels.", "anchors": ["gama/GamaClassifier.py: GamaClassifier.fit (labels of the scorer)", "gama/utilities/metrics.py: Metric"]}
{"id": "C99", "title": "Categorical columns of arrays are recognised for every element type", "statement": "Converting an array to a table succeeds and marks exactly the columns of objects, and the columns of numbers with at most ten different values that are all integers, as categorical; no value changes.", "quantifier": "every table, element type and supported Python version", "why_tests_cant": "All types and values.", "anchors": ["gama/data_formatting.py: series_looks_categorical, infer_categoricals_inplace, numpy_to_dataframe"]}
{"id": "C100", "title": "Arrays can be predicted like the training data", "statement": "An array with as many columns as the training data is turned into a table whose columns have the labels and types of the training columns and the values of the array; one with fewer columns is refused.", "quantifier": "every training table and array", "why_tests_cant": "All combinations of training and prediction formats.", "anchors": ["gama/gama.py: Gama._np_to_matching_dataframe, _prepare_for_prediction"]}
{"id": "C101", "title": "Prediction uses the parts of one fit", "statement": "After any sequence of calls to fit, successful or not, predict uses encoding, label encoder and model of one and the same fit, or is refused.", "quantifier": "every sequence of fits, each ending at any point", "why_tests_cant": "All sequences of failures.", "anchors": ["gama/gama.py: Gama.fit, _prepare_for_prediction, predict", "gama/GamaClassifier.py: GamaClassifier.fit, _predict"]}
{"id": "C102", "title": "Exporting a script writes the file named and no other", "statement": "export_script refuses before a fit and, if asked, when the file exists, changing nothing; otherwise it returns the code and changes exactly the file named, which holds the formatted code.", "quantifier": "every file system, file name and flag", "why_tests_cant": "All file systems.", "anchors": ["gama/gama.py: Gama.export_script"]}
{"id": "C103", "title": "The evaluations log has the columns asked for", "statement": "The log a logger writes starts with the names of the given (or standard) fields followed by those of the extra fields, and has for each evaluation a line showing, column by column, what the field of that name gives; an extra field of the same name takes over the column.", "quantifier": "every separator, dictionaries of fields and extra fields, sequence of evaluations", "why_tests_cant": "All sets of fields.", "anchors": ["gama/logging/evaluation_logger.py: EvaluationLogger", "gama/search_methods/async_ea.py: AsyncEA.__init__", "gama/search_methods/asha.py: AsynchronousSuccessiveHalving.__init__"]}
{"id": "C104", "title": "Creating a logger leaves the given dictionary alone", "statement": "The dictionary of fields given to an evaluation logger is the same after the logger is made.", "quantifier": "every dictionary of fields and of extra fields", "why_tests_cant": "All combinations; a test passes one of the two.", "anchors": ["gama/logging/evaluation_logger.py: EvaluationLogger.__init__"]}
{"id": "C105", "title": "Successive halving keeps eight evaluations under way", "statement": "Whenever successive halving waits for a result exactly eight evaluations are under way, whatever failed before.", "quantifier": "every configuration, candidates, order of completion and failures", "why_tests_cant": "All interleavings of results and failures.", "anchors": ["gama/search_methods/asha.py: asha"]}
{"id": "C106", "title": "A finished evolutionary search reports what succeeded", "statement": "If the evolutionary search has used up its evaluations and some evaluation succeeded, its output is not empty.", "quantifier": "every population size, budget, start candidates, order of completion, failures and restarts", "why_tests_cant": "All interleavings and restart points.", "anchors": ["gama/search_methods/async_ea.py: async_ea"]}
{"id": "C107", "title": "A restart begins anew", "statement": "After a restart the population of the evolutionary search has only individuals submitted since the restart.", "quantifier": "every run with restarts at any point", "why_tests_cant": "All interleavings: what matters is what is under way at the restart.", "anchors": ["gama/search_methods/async_ea.py: async_ea"]}
{"id": "C108", "title": "Searching does not change the given candidates", "statement": "The list of start candidates given to a search (for instance the warm start of fit) is not changed by the search.", "quantifier": "every search, list of candidates and run", "why_tests_cant": "All runs.", "anchors": ["gama/search_methods/asha.py: asha", "gama/gama.py: Gama.fit"]}
{"id": "C109", "title": "Files and data frames are treated alike", "statement": "Predicting, predicting probabilities, scoring and fitting from a csv or ARFF file give what the functions for data frames give on the columns other than the target, in order, and the target column; the values of the target column play no part in predictions. Files of other kinds and unknown target columns are refused by all of them alike.", "quantifier": "every file, position and name of the target column, model", "why_tests_cant": "All tables and positions of the target.", "anchors": ["gama/gama.py: Gama.predict_from_file, score_from_file, fit_from_file", "gama/GamaClassifier.py: GamaClassifier.predict_proba_from_file", "gama/data_loading.py: file_to_pandas, X_y_from_file"]}
{"id": "C110", "title": "The encoding given is used", "statement": "A file is read in the encoding given, whatever its kind.", "quantifier": "every file, encoding and kind of file", "why_tests_cant": "All encodings and contents.", "anchors": ["gama/data_loading.py: file_to_pandas", "gama/gama.py: Gama.fit_from_file"]}
{"id": "C111", "title": "Options for reading csv files are respected", "statement": "Separator and header that are given are used; those not given are the ones detected; other options are passed on. If both are given nothing is detected.", "quantifier": "every set of options and outcome of the detection", "why_tests_cant": "All combinations of options.", "anchors": ["gama/data_loading.py: csv_to_pandas"]}
{"id": "C112", "title": "ARFF columns are categorical exactly if declared so", "statement": "The columns read from an ARFF file are its attributes in order, and a column has category dtype exactly if the attribute lists its values.", "quantifier": "every list of attributes", "why_tests_cant": "All declarations.", "anchors": ["gama/data_loading.py: arff_to_pandas"]}
{"id": "C113", "title": "A fitted classifier can be scored", "statement": "score works on any data with labels the classifier knows, with every metric that is accepted.", "quantifier": "every metric, set of classes, label vector and predictions", "why_tests_cant": "Tests score on data in which all classes occur.", "anchors": ["gama/gama.py: Gama.score", "gama/utilities/metrics.py: Metric"]}
{"id": "C114", "title": "Large data leaves a usable search space", "statement": "If pipelines can be made with the search space configured, pipelines can be made with what fit leaves of it for the data at hand.", "quantifier": "every search space, size of the data and number of stored models", "why_tests_cant": "Needs data of millions of values and all configurations.", "anchors": ["gama/gama.py: Gama.fit", "gama/genetic_programming/operations.py: create_random_expression"]}
{"id": "C115", "title": "Successful evaluations of a report", "statement": "The successful evaluations of a report are those that were logged without error.", "quantifier": "every evaluation with its outcome, every rung", "why_tests_cant": "All moments of failure, and rungs.", "anchors": ["gama/logging/GamaReport.py: GamaReport.successful_evaluations", "gama/search_methods/asha.py: evaluate_on_rung"]}
{"id": "C116", "title": "Micro-averaged metrics are the share of right predictions", "statement": "Micro-averaged precision, recall and F1, as used to compare pipelines during search, are the share of right predictions in the fold.", "quantifier": "every training labels, fold and predictions", "why_tests_cant": "Needs an independent calculation on unbalanced data, for all distributions of classes.", "anchors": ["gama/GamaClassifier.py: GamaClassifier.fit", "gama/utilities/metrics.py: classification_metrics"]}
{"id": "C117", "title": "The fitted pipeline is the best one found", "statement": "After a search without restart, no pipeline that was evaluated without error has a better score than the one that best-fit post-processing fits.", "quantifier": "every search, order of completion, population size and random choice", "why_tests_cant": "Depends on which individuals are eliminated over a whole search.", "anchors": ["gama/search_methods/async_ea.py: async_ea", "gama/genetic_programming/selection.py: eliminate_from_pareto", "gama/postprocessing/best_fit.py: BestFitPostProcessing.post_process", "gama/gama.py: Gama.fit"]}
{"id": "C118", "title": "Every pipeline of the search space can be created", "statement": "For every well-formed pipeline of the search space, no longer than the maximum start length, there are random draws with which a new individual is that pipeline; no other pipeline is ever created.", "quantifier": "every search space, every pipeline and every maximum length", "why_tests_cant": "Random sampling cannot show that each pipeline of an enormous space has positive probability.", "anchors": ["gama/genetic_programming/operator_set.py: OperatorSet.individual", "gama/genetic_programming/operations.py: create_random_expression", "gama/genetic_programming/operations.py: random_primitive_node"]}
{"id": "C119", "title": "A mutation can make every change it advertises", "statement": "For each change of a pipeline by one mutation (another algorithm for a step, another value for a hyperparameter, a step less, a step more where there is room) there are random draws with which mutation makes it.", "quantifier": "every search space, pipeline, change, maximum length and number of attempts", "why_tests_cant": "Random sampling cannot exhaust the changes of all pipelines.", "anchors": ["gama/genetic_programming/mutation.py: random_valid_mutation_in_place", "gama/genetic_programming/operator_set.py: OperatorSet.mutate"]}
{"id": "C120", "title": "Search by mutation can reach every pipeline", "statement": "From every pipeline, repeated mutation can lead to every other pipeline of the search space that is not longer than allowed.", "quantifier": "every search space, pair of pipelines and maximum length", "why_tests_cant": "Reachability over chains of random operations of any length.", "anchors": ["gama/genetic_programming/mutation.py: random_valid_mutation_in_place", "gama/genetic_programming/operator_set.py: OperatorSet.mutate"]}
{"id": "C121", "title": "Crossover can make every exchange between two parents", "statement": "For each exchange of data-side steps or of two values of one hyperparameter between two parents there are random draws with which mating yields that offspring; nothing else is ever yielded.", "quantifier": "every search space, pair of parents, exchange, maximum length and number of attempts", "why_tests_cant": "Random sampling cannot exhaust the exchanges of all pairs of pipelines.", "anchors": ["gama/genetic_programming/crossover.py: random_crossover", "gama/genetic_programming/operator_set.py: OperatorSet.mate"]}
{"id": "C122", "title": "The default search spaces can be used", "statement": "With each search space that comes with GAMA (classification, with and without probabilities, regression, reports) and every maximum length, creating a pipeline and mutating a pipeline never fail.", "quantifier": "every default search space, maximum length, pipeline, order of values and random draw", "why_tests_cant": "The spaces have more than 10^20 pipelines; a failing combination is found only by chance.", "anchors": ["gama/configuration/classification.py: clf_config", "gama/configuration/regression.py: reg_config", "gama/configuration/parser.py: pset_from_config", "gama/genetic_programming/operator_set.py: OperatorSet.mutate"]}
{"id": "C123", "title": "Reports read every pipeline of the default search spaces", "statement": "The logged form of every pipeline that can be made from a default search space is read by a report, whose search space is the two merged, as the same steps with the same values.", "quantifier": "every pipeline of the default search spaces, every order of the merged values, strict or not", "why_tests_cant": "Tests read a few logs; all algorithms, values and combinations matter.", "anchors": ["gama/logging/GamaReport.py: GamaReport", "gama/configuration/parser.py: merge_configurations", "gama/genetic_programming/components/individual.py: Individual.from_string"]}
{"id": "C124", "title": "Importing the reports does not change the default search spaces", "statement": "What the default search spaces offer is the same before and after the reports' module is imported.", "quantifier": "every algorithm, hyperparameter and value of the default search spaces", "why_tests_cant": "A test sees the state after its own imports; the difference shows only between processes.", "anchors": ["gama/logging/GamaReport.py: l.13", "gama/configuration/parser.py: merge_configurations"]}
{"id": "C125", "title": "Combinations ruled out by a check are not created", "statement": "A search space can rule out combinations of hyperparameter values with param_check; such combinations are not created.", "quantifier": "every search space, meaning of the checks, pipeline and random draw", "why_tests_cant": "Whether a combination was only not drawn, or ruled out, cannot be observed by sampling.", "anchors": ["gama/configuration/parser.py: pset_from_config", "gama/gama.py: Gama.__init__", "gama/configuration/classification.py: clf_config"]}
{"id": "C126", "title": "All pipelines evaluated are pipelines of the search space, and stay what they are", "statement": "Every pipeline that a search (evolution, random search, successive halving) submits for evaluation or reports is a well-formed pipeline of the search space if the candidates it starts from are, and is still the same pipeline at any later time.", "quantifier": "every search space, candidates, settings, random draw, order of completion and moment", "why_tests_cant": "Pipelines are mutable objects shared between parents and offspring; an alias shows only after particular sequences of operations.", "anchors": ["gama/search_methods/async_ea.py: async_ea", "gama/search_methods/random_search.py: random_search", "gama/search_methods/asha.py: asha", "gama/genetic_programming/operator_set.py: OperatorSet"]}
{"id": "C127", "title": "An evolutionary search does not end itself", "statement": "As long as waiting for evaluations does not raise and there are three pipelines to choose from when offspring is made, an evolutionary search whose candidates keep to the maximum length (two or more) does not end with an exception.", "quantifier": "every search space, candidates, maximum length, number of workers, random draw and order of completion", "why_tests_cant": "The failing combinations need particular offspring of offspring.", "anchors": ["gama/search_methods/async_ea.py: async_ea", "gama/genetic_programming/operator_set.py: OperatorSet.mate", "gama/genetic_programming/crossover.py: random_crossover", "gama/genetic_programming/selection.py: create_from_population"]}
{"id": "C128", "title": "A search that is cut off leaves the best pipeline found", "statement": "If a search has a result when its time is up or the user interrupts it, fit goes on and trains a best one of the pipelines that the search held at that moment.", "quantifier": "every search method, settings, order of completion and moment of the interruption", "why_tests_cant": "Interruptions arrive asynchronously, at any point of the search; tests interrupt at a few.", "anchors": ["gama/gama.py: Gama._search_phase, fit", "gama/postprocessing/best_fit.py: post_process", "gama/search_methods/asha.py: asha", "gama/search_methods/async_ea.py: AsyncEA.search", "gama/search_methods/random_search.py: RandomSearch.search"]}
{"id": "C129", "title": "A warm start is where the search starts", "statement": "Individuals given as warm_start are the first to be evaluated (by successive halving: the first on the lowest rung, last one first), whatever the instance found before; a list with anything that is no individual is refused, and an empty list means a random start.", "quantifier": "every list (the caller's own or the population kept by the instance), earlier population, search method, settings and order of completion", "why_tests_cant": "Evaluation is asynchronous and the search may share its lists with the caller; a test sees one schedule.", "anchors": ["gama/gama.py: Gama._search_phase, fit", "gama/search_methods/async_ea.py: async_ea", "gama/search_methods/random_search.py: random_search", "gama/search_methods/asha.py: asha"]}
{"id": "C130", "title": "What a search is told of a pipeline is what evaluating that pipeline gave", "statement": "However worker processes are scheduled, crash, run out of memory or are stopped, a search only gets into states it can get into when its evaluations simply come back in some order; each outcome it is given came from evaluating that very pipeline (and rung); no pipeline comes back more often than it was submitted; and the population of an evolutionary search consists of pipelines that a worker evaluated without error.", "quantifier": "every search method, settings, number of workers, schedule of main process and workers, and loss of workers", "why_tests_cant": "The order in which processes run is up to the operating system, and workers are lost at arbitrary moments.", "anchors": ["gama/search_methods/async_ea.py: async_ea", "gama/search_methods/random_search.py: random_search", "gama/search_methods/asha.py: asha", "gama/utilities/generic/async_evaluator.py: AsyncEvaluator.submit, wait_next", "gama/genetic_programming/operator_set.py: OperatorSet.wait_next"]}
{"id": "C131", "title": "A search never waits for nothing", "statement": "A search started from at least one candidate never asks the evaluator to wait when nothing is outstanding (which would raise), whatever happens to the workers; random search has as many evaluations under way as it had candidates, and successive halving has eight.", "quantifier": "every search method, list of candidates (at least one, for evolution and random search), also one that is the output of an earlier search, settings, number of workers, schedule of main process and workers, and loss of workers", "why_tests_cant": "Whether something is outstanding depends on the queue size read at one moment and the order of completions.", "anchors": ["gama/search_methods/async_ea.py: async_ea", "gama/search_methods/random_search.py: random_search", "gama/search_methods/asha.py: asha", "gama/utilities/generic/async_evaluator.py: AsyncEvaluator.wait_next, job_queue_size"]}
{"id": "C132", "title": "A search that waits is told an outcome", "statement": "If evaluations end, a search that waits for an evaluation is eventually told the outcome of one, provided the main process keeps polling and the workers do not all rest while there is something to do, whatever else happens to the workers.", "quantifier": "every search method, candidates, settings, number of workers, and infinite schedule of main process and workers", "why_tests_cant": "Progress is a property of infinite schedules; a test sees finitely many steps of one.", "anchors": ["gama/utilities/generic/async_evaluator.py: AsyncEvaluator.wait_next, _control_memory_usage, evaluator_daemon", "gama/search_methods/async_ea.py: async_ea", "gama/search_methods/random_search.py: random_search", "gama/search_methods/asha.py: asha"]}
{"id": "C133", "title": "An ensemble is made of the search's own results, scored on matching rows", "statement": "After any sequence of evaluations, the ensemble is built from the best error-free ones, at most max_models (and 200) of them, best first; each model has the estimators and predictions of its own evaluation, and predictions and labels are those of the same hillclimb_size distinct rows of the training data (all rows if there are fewer). If no evaluation gave predictions, fitting a regressor ends with a TypeError.", "quantifier": "every history of evaluations of different individuals in one fit, every hillclimb_size other than 0 and max_models, regression and classification; for metrics on probabilities, hillclimb_size up to 10 000", "why_tests_cant": "The rows are drawn at random, and files of evaluations come and go with the order in which evaluations complete.", "anchors": ["gama/postprocessing/ensemble.py: build_fit_ensemble, Ensemble.__init__, Ensemble.model_library", "gama/utilities/evaluation_library.py: EvaluationLibrary.save_evaluation, determine_sample_indices, n_best", "gama/GamaClassifier.py: fit", "gama/gama.py: Gama.__init__"]}
{"id": "C134", "title": "The evaluation library holds what the search was told", "statement": "In a whole fit with evolution or random search, and however workers behave, the evaluation library holds exactly the evaluations whose outcome the search was told (and one more if the search was interrupted right after that one was saved): each is recorded once, with its own scores and the text of its pipeline, the models and predictions kept are those of the best ones and belong to the evaluation they are filed under, and finding a pipeline by its text finds the first such evaluation. Each is of a valid pipeline of the search space.", "quantifier": "every sequence of distinct candidates of the search space, settings, number of workers, schedule of main process and workers, loss of workers, and moment of interruption", "why_tests_cant": "The library, the searches, the operators and the processes must be taken together; each alone relies on what the others do.", "anchors": ["gama/gama.py: Gama._on_evaluation_completed, _search_phase", "gama/genetic_programming/operator_set.py: OperatorSet.wait_next, evaluate", "gama/utilities/evaluation_library.py: EvaluationLibrary.save_evaluation, lookup", "gama/search_methods/async_ea.py: async_ea", "gama/search_methods/random_search.py: random_search"]}
{"id": "C135", "title": "The evaluation library holds what successive halving was told", "statement": "As for evolution and random search, the evaluation library holds exactly the evaluations that successive halving was told of; those kept with their models are the best of those on the top rung, each with its own; no pipeline is evaluated twice on the same rung.", "quantifier": "every candidates that are different individuals, settings, number of workers, schedule of main process and workers", "why_tests_cant": "A pipeline is evaluated on several rungs, in an order that depends on the processes.", "anchors": ["gama/search_methods/asha.py: asha, evaluate_on_rung", "gama/utilities/evaluation_library.py: EvaluationLibrary.save_evaluation, Evaluation.to_disk, remove_from_disk", "gama/genetic_programming/components/individual.py: Individual.__init__"]}
{"id": "C136", "title": "Evolution does not submit what it has already evaluated", "statement": "The offspring that evolution submits is a valid pipeline whose text differs from that of every pipeline whose evaluation came back, unless fifty attempts at making one all gave pipelines already evaluated, in which case the last attempt is submitted.", "quantifier": "every whole fit with evolution: candidates that are different individuals, settings, schedule of main process and workers, random choices", "why_tests_cant": "Repetitions depend on random choices and on which evaluations happen to be complete.", "anchors": ["gama/genetic_programming/operator_set.py: OperatorSet.try_until_new, create, mate, mutate", "gama/gama.py: Gama.__init__", "gama/search_methods/async_ea.py: async_ea"]}
{"id": "C137", "title": "The ensemble of a fit is built from the best pipelines the search was told of", "statement": "In a whole fit with evolution, random search or successive halving that had an error-free evaluation, the ensemble is built from the best of the evaluations the search was told of, at most max_models (and 200), best first; each with its own estimators and its own predictions on the same rows as the labels it is scored with.", "quantifier": "every whole fit: search, candidates that are different individuals, settings, number of workers, schedule of main process and workers, interruption, hillclimb_size other than 0; for metrics on probabilities hillclimb_size up to 10 000", "why_tests_cant": "The chain from a worker's result to a member of the ensemble passes through processes, files and a bounded heap.", "anchors": ["gama/postprocessing/ensemble.py: build_fit_ensemble, Ensemble.__init__", "gama/utilities/evaluation_library.py: EvaluationLibrary.save_evaluation, n_best", "gama/gama.py: Gama._on_evaluation_completed, fit", "gama/search_methods/async_ea.py: async_ea", "gama/search_methods/random_search.py: random_search"]}
{"id": "C138", "title": "The maximum pipeline length asked for is the one searched with", "statement": "The max_pipeline_length given to the constructor is the one that the operators are made with, and pipelines that are created have at most that many steps. If none is given there is no maximum and created pipelines have at most three steps. If the search space has no preprocessing steps the maximum is one: a larger one is refused with a ValueError, and every pipeline an evolutionary search evaluates is an estimator alone. A length below one is not refused, but creating a pipeline then raises a ValueError.", "quantifier": "every combination of constructor arguments, state of the output directory, usable search space, random choices, and execution of the evolutionary search", "why_tests_cant": "The length bounds what random choices and offspring over a whole search may give.", "anchors": ["gama/gama.py: Gama.__init__", "gama/genetic_programming/operations.py: create_random_expression", "gama/genetic_programming/mutation.py: random_valid_mutation_in_place", "gama/search_methods/async_ea.py: async_ea"]}
{"id": "C139", "title": "Files are read alike whatever their line ends", "statement": "A CSV file, an ARFF file or an evaluation log gives the same column names and types, header and report whether its lines end as on Unix, as on Windows or with a carriage return alone.", "quantifier": "every text without carriage returns of its own, written with any of the three line ends", "why_tests_cant": "Files come from any system; tests use files of one.", "anchors": ["gama/data_loading.py: load_csv_header, load_feature_metadata_from_arff", "gama/logging/GamaReport.py: GamaReport.update"]}
{"id": "C140", "title": "The exported ensemble votes by the rule of the fitted one", "statement": "The script exported for an ensemble defines a voter over the exported pipelines of its members with their weights. Reading its voting rule off the text of the script, the voter gives for every row the class (or, for regression, the value) which the fitted ensemble predicts, ties included, whenever each exported pipeline predicts as the fitted estimators of its member do.", "quantifier": "every library with equally many estimators per model, scores of the metric, size and time for the ensemble, metric on labels or on probabilities, data, classes and predictions of the estimators", "why_tests_cant": "The agreement is between two implementations of voting, over all weights and predictions, with ties.", "anchors": ["gama/postprocessing/ensemble.py: EnsemblePostProcessing.to_code, EnsembleClassifier.predict, EnsembleRegressor.predict, Ensemble._get_weighted_mean_predictions"]}
{"id": "C141", "title": "Class probabilities of an ensemble are probabilities", "statement": "predict_proba of a fitted ensemble gives for every row numbers between zero and one that add up to one: the weighted mean of the members' probabilities or, if the metric is on labels, each class's share of the weighted votes. predict gives the first of the classes with the largest of these numbers.", "quantifier": "every fitted ensemble, weights, classes, rows and predictions of the members", "why_tests_cant": "For all numbers of members and classes, weights and predictions.", "anchors": ["gama/postprocessing/ensemble.py: EnsembleClassifier.predict, EnsembleClassifier.predict_proba, Ensemble._get_weighted_mean_predictions"]}
{"id": "C142", "title": "A report can be made of the logs of every run", "statement": "Of the logs of a run a report can be made. It shows the arguments of the run, the phases that ended with their algorithms, starts and durations, whether phases are missing, the search method, and every evaluation with the metrics of the run: the scoring and, if the length was regularised, the length.", "quantifier": "every run, sequence of lines logged and evaluations", "why_tests_cant": "All combinations of arguments, lines and evaluations.", "anchors": ["gama/logging/GamaReport.py: GamaReport.__init__, init_to_hps, GamaReport.update", "gama/gama.py: Gama.__init__"]}
{"id": "C143", "title": "The ensemble of a later fit is made of the models of that fit", "statement": "When fit is called again on the same object, the ensemble is the one built from the best models that this fit found, and labels and stored predictions are of the same rows of its data.", "quantifier": "every first and second sequence of evaluations, data of equal size, hillclimb_size, max_models, metric and random draws", "why_tests_cant": "It is about two complete fits in a row, with any evaluations in each.", "anchors": ["gama/gama.py: Gama.__init__, Gama.fit", "gama/GamaClassifier.py: GamaClassifier.fit", "gama/utilities/evaluation_library.py: EvaluationLibrary.determine_sample_indices, save_evaluation, n_best", "gama/postprocessing/ensemble.py: Ensemble.model_library"]}
{"id": "C144", "title": "After a later fit the ensemble can predict", "statement": "When fit is called again and finds a model, the ensemble it leaves can predict, whatever earlier fits found and whatever store is.", "quantifier": "every first and second sequence of evaluations, settings of store, hillclimb_size and max_models, data and metrics", "why_tests_cant": "It is about two complete fits in a row, with the files of the first removed or kept.", "anchors": ["gama/gama.py: Gama.fit, Gama.cleanup", "gama/utilities/evaluation_library.py: Evaluation.to_disk, Evaluation.predictions, EvaluationLibrary.save_evaluation", "gama/postprocessing/ensemble.py: build_fit_ensemble"]}
{"id": "C145", "title": "A regressor fitted again on data of another size records what it evaluates", "statement": "When a regressor is fitted again, on data with any number of rows, every evaluation of both fits is in the evaluation library and its pipeline can be looked up.", "quantifier": "every first and second sequence of evaluations, numbers of rows, hillclimb_size, max_models and random draws", "why_tests_cant": "It is about two complete fits in a row, with any evaluations in each and any numbers of rows.", "anchors": ["gama/gama.py: Gama.fit, Gama._on_evaluation_completed", "gama/utilities/evaluation_library.py: EvaluationLibrary._process_predictions, determine_sample_indices, save_evaluation", "gama/postprocessing/ensemble.py: Ensemble.__init__"]}
{"id": "C146", "title": "An ensemble can be printed", "statement": "Printing the ensemble that a fit made shows a table of its models, whenever the ensemble can predict.", "quantifier": "every metric, ensemble size, time left, library of models and data to predict for", "why_tests_cant": "No test prints an ensemble; the claim is about every ensemble that can be built.", "anchors": ["gama/postprocessing/ensemble.py: Ensemble.__str__, Ensemble.__getstate__, build_fit_ensemble", "gama/utilities/evaluation_library.py: Evaluation"]}
{"id": "C147", "title": "A column listed for a csv file can be asked for as its target", "statement": "Each name that load_csv_header (or load_feature_metadata_from_file) lists for a csv file can be given as target column of that file: the target is then the column listed and the features are all others.", "quantifier": "every csv file, with or without a header, every list of different column names and every column", "why_tests_cant": "Two functions read the same file in different ways; they have to agree on all files.", "anchors": ["gama/data_loading.py: load_csv_header, csv_to_pandas, X_y_from_file", "gama/gama.py: Gama.fit_from_file"]}
{"id": "C148", "title": "A categorical feature that takes different values is available to models", "statement": "After encoding, each categorical column that has two different values in the training data (a missing value being one) is still among the features, encoded; of the columns encoded ordinally only those with a single value are left out.", "quantifier": "every table, every number of rows and every column, for classification and regression", "why_tests_cant": "Depends on the frequencies of values in columns of any length.", "anchors": ["gama/utilities/preprocessing.py: basic_encoding, select_categorical_columns"]}
{"id": "C149", "title": "A classifier can be fitted whatever the number of rows", "statement": "With the default post-processing, GamaClassifier.fit gets as far as the search for any labels (all strings or all numbers) of which each class has at least five rows, in any of the formats documented and whatever the number of rows.", "quantifier": "every list of labels, every number of rows and classes, and every format of labels", "why_tests_cant": "The outcome depends on the number of rows compared with a sample size of 10000 that tests with small data never reach.", "anchors": ["gama/GamaClassifier.py: GamaClassifier.fit", "gama/utilities/evaluation_library.py: EvaluationLibrary.determine_sample_indices", "gama/gama.py: Gama.__init__"]}
{"id": "C150", "title": "The columns of predicted probabilities are for the labels in increasing order", "statement": "After fitting a classifier to labels of one kind (strings or numbers, some possibly missing), in any of the formats accepted, the k-th column that predict_proba returns is for the k-th of the different labels: numbers by size, strings in lexicographic order, a missing label last (if it has a column). A row for which the model chooses the k-th column is answered with that label by predict.", "quantifier": "every list of labels, every format accepted (a data frame with one row and a list without strings are refused), every model fitted on rows in which all labels occur, every prediction", "why_tests_cant": "Users read predict_proba by position, without being told the labels of the columns; it has to hold for all label sets and formats.", "anchors": ["gama/GamaClassifier.py: GamaClassifier.fit, GamaClassifier._predict, GamaClassifier._predict_proba", "gama/data_formatting.py: format_y"]}
{"id": "C151", "title": "Probabilities predicted in different folds are for the same labels", "statement": "After an evaluation without error with log loss (the default metric), whatever the folds are and however their training rows are sampled, each row of the validation predictions has one probability for each label of the data, in increasing order of labels, given by the estimator of the fold in which the row is a test row. The same holds for the area under the curve if there are two labels, or without subsampling.", "quantifier": "every pipeline, label vector, set of folds (three or more for the area under the curve without subsampling) and sampling of their training rows", "why_tests_cant": "It is about labels so rare that they are missing in the training rows of some fold, with predictions of different folds written into one array.", "anchors": ["gama/genetic_programming/compilers/scikitlearn.py: evaluate_pipeline", "gama/GamaClassifier.py: GamaClassifier.fit"]}
{"id": "C152", "title": "Rows without label do not keep pipelines from being evaluated", "statement": "If at least two labels are present, log loss (the default metric) can be computed in each fold whose training rows have all labels, also if other rows of the data given have no label.", "quantifier": "every list of labels of one kind, in every format, with any of them missing, and every test set", "why_tests_cant": "It is about where the labels given, before unlabeled rows are removed, are used later on.", "anchors": ["gama/GamaClassifier.py: GamaClassifier.fit", "gama/data_formatting.py: remove_unlabeled_rows", "gama/genetic_programming/compilers/scikitlearn.py: evaluate_pipeline"]}
{"id": "C153", "title": "With one worker the same seed gives the same search", "statement": "With n_jobs=1 and a random_state, two runs of a search from the same candidates, in which no worker is lost and evaluations with the same history have the same outcome, go the same way whatever the timing: at any moment one has submitted and been told the same evaluations as the other, in the same order, and perhaps more; if both end they end in the same result.", "quantifier": "every schedule of the two processes, every number of polls in between, all candidates, operators, outcomes, callbacks and memory limits, for the three searches", "why_tests_cant": "It compares all interleavings of two processes over searches of any length.", "anchors": ["gama/gama.py: Gama.__init__ (random_state)", "gama/utilities/generic/async_evaluator.py: AsyncEvaluator", "gama/search_methods/async_ea.py: async_ea", "gama/search_methods/random_search.py: random_search", "gama/search_methods/asha.py: asha"]}
{"id": "C154", "title": "A report can be made of the directory given to a run", "statement": "A GamaReport made with the string that was given as output_directory, in the same working directory (or any other if it is an absolute path), opens the gama.log and evaluations.log that the run wrote, and its name is the name of that directory.", "quantifier": "every path: absolute or relative, with home directories, with dots and repeated slashes; every working directory and home directory", "why_tests_cant": "Paths are expanded in several places, by different rules; the claim is about all spellings of a path.", "anchors": ["gama/gama.py: Gama.__init__ (output_directory)", "gama/logging/GamaReport.py: GamaReport.__init__, GamaReport.update"]}
{"id": "C155", "title": "What a run writes is in its output directory", "statement": "gama.log and evaluations.log are files of the output directory, models are kept in the folder cache of it, and that folder is the one that is removed when models are not to be stored.", "quantifier": "every output directory given or made up, every environment", "why_tests_cant": "The path of the cache is expanded once more in the evaluation library, by other rules than the output directory; whether the places agree depends on the environment.", "anchors": ["gama/gama.py: Gama.__init__, Gama.cleanup", "gama/utilities/evaluation_library.py: EvaluationLibrary.__init__"]}
{"id": "C156", "title": "Successive halving accepts resources that make sense", "statement": "Successive halving with a positive minimum and a maximum not below it, both numbers of rows or both fractions, starts its search on any data, with the rungs that follow from these resources.", "quantifier": "every minimum and maximum resource, reduction factor, early stopping rate and number of rows", "why_tests_cant": "All settings against all data sizes; whether the resources fit the data is only known during the fit.", "anchors": ["gama/search_methods/asha.py: AsynchronousSuccessiveHalving.__init__, dynamic_defaults, asha"]}
{"id": "C157", "title": "Pipelines can be evaluated on every rung", "statement": "If resources are numbers of rows not above that of the data, and the data can be split into folds, then on every rung of successive halving the training sets can be sampled, so that evaluations do not fail for the rung they are on.", "quantifier": "every data size, fold assignment, minimum and maximum number of rows and reduction factor", "why_tests_cant": "Whether a rung falls between the size of the training sets and that of the data depends on all of them.", "anchors": ["gama/search_methods/asha.py: asha", "gama/genetic_programming/compilers/scikitlearn.py: evaluate_pipeline"]}
{"id": "C158", "title": "A fit in which an evaluation succeeded gives a model that predicts", "statement": "With the ensemble post-processing, after a search in which at least one evaluation succeeded, however it ended, the ensemble is fitted: its members, each with a positive weight, are pipelines fitted in evaluations that succeeded and that the search was told of. For every row it gives the weighted mean of the values its members predict, and if they are classifiers a distribution over the classes and the most probable class.", "quantifier": "every search by evolution or at random, every schedule of its workers, interruption, training data, metric that gives comparable scores, and row to predict", "why_tests_cant": "It joins the search, its workers, the library and the ensemble; the result depends on all executions of them.", "anchors": ["gama/gama.py: Gama._search_phase, Gama.predict", "gama/postprocessing/ensemble.py: build_fit_ensemble, Ensemble.fit", "gama/utilities/evaluation_library.py: EvaluationLibrary.save_evaluation"]}
{"id": "C159", "title": "A successive halving in which an evaluation succeeded gives a model that predicts", "statement": "With the ensemble post-processing, after a successive halving in which at least one evaluation succeeded, on whatever rung and however it ended, the ensemble is fitted and predicts, as after the other searches.", "quantifier": "every successive halving, schedule of its workers, interruption, training data, metric that gives comparable scores, and number of models kept", "why_tests_cant": "A pipeline is evaluated on several rungs; which of its evaluations are kept, and whether any individual comes as far as the top rung before the time is up, depends on the whole search.", "anchors": ["gama/search_methods/asha.py: asha, evaluate_on_rung", "gama/utilities/evaluation_library.py: EvaluationLibrary.save_evaluation, Evaluation.to_disk, Evaluation.remove_from_disk", "gama/postprocessing/ensemble.py: build_fit_ensemble"]}
{"id": "C160", "title": "A search cut off while an evaluation is being saved leaves everything usable", "statement": "The exception that ends a search may arrive at any moment of the saving of an evaluation. What the library then keeps is the best of what the search was told of, with or without that evaluation; models and predictions of all it keeps can be read and are their own; at most one evaluation is in neither of its lists and at most one file is left over; and if an evaluation had succeeded, the ensemble is made from what is kept and predicts.", "quantifier": "every search, schedule of its workers, moment of the saving at which the exception arrives, and number of models kept", "why_tests_cant": "The exception comes from another thread and may arrive between any two instructions; tests cannot place it.", "anchors": ["gama/utilities/evaluation_library.py: EvaluationLibrary.save_evaluation, Evaluation.to_disk, Evaluation.remove_from_disk, Evaluation.estimators, Evaluation.predictions", "gama/gama.py: Gama._search_phase, Gama._safe_outside_call", "gama/postprocessing/ensemble.py: build_fit_ensemble"]}
{"id": "C161", "title": "A warm start may list a pipeline more than once", "statement": "With the ensemble post-processing, after a search in which at least one evaluation succeeded, the ensemble is fitted and predicts, also if the individuals with which the search starts are not all different.", "quantifier": "every evolution and random search, list of individuals to start with, schedule of its workers, interruption, training data, metric that gives comparable scores, and number of models kept", "why_tests_cant": "Which evaluations of an individual are dropped, and when, depends on all the others of the search.", "anchors": ["gama/gama.py: Gama._search_phase", "gama/utilities/evaluation_library.py: EvaluationLibrary.save_evaluation, Evaluation.to_disk, Evaluation.remove_from_disk", "gama/postprocessing/ensemble.py: build_fit_ensemble"]}
{"id": "C162", "title": "The pipeline trained by default is the best one found", "statement": "With the default post-processing, after a search that was not restarted, however it was cut off while it waited, fit trains a pipeline whose evaluation the search was told of, and no evaluation that the search was told of has better scores (for successive halving: none on the highest rung reached). With evolution the pipeline was evaluated without an error if any was, and fit fails only if none was; with the other searches it fails only if no evaluation came back.", "quantifier": "every search, schedule of its workers and failure of them, interruption while the search waits, scores and data", "why_tests_cant": "Which evaluations come back before the end, and which individuals are still in the population, depends on the whole execution; the fitness by which the pipeline is chosen was set at another time than it is read.", "anchors": ["gama/gama.py: Gama.fit, Gama._search_phase", "gama/postprocessing/best_fit.py: BestFitPostProcessing.post_process", "gama/search_methods/async_ea.py: async_ea", "gama/search_methods/random_search.py: random_search", "gama/search_methods/asha.py: asha"]}
{"id": "C163", "title": "Columns may have any names", "statement": "Which columns of a data frame are to be encoded, and how, can be determined whatever the columns are called; fit does not fail for their names.", "quantifier": "every data frame, with any names of columns, classification and regression", "why_tests_cant": "The claim is about all lists of names; that selecting a column gives something else when a name repeats is not visible in the code.", "anchors": ["gama/utilities/preprocessing.py: select_categorical_columns, basic_encoding", "gama/gama.py: Gama.fit"]}
{"id": "C164", "title": "A search ends although its timeout was swallowed", "statement": "If a callback swallows the exception that is raised when the time of the search is up, the search still ends: at the latest with the first evaluation that comes back more than three seconds after the limit.", "quantifier": "every search method, time limit, maximum time of an evaluation, moments at which evaluations begin and end, callbacks and what they swallow", "why_tests_cant": "The exception arrives at an arbitrary moment, and the search may go on for ever.", "anchors": ["gama/gama.py: Gama._safe_outside_call, _search_phase", "gama/genetic_programming/operator_set.py: OperatorSet.wait_next", "gama/genetic_programming/compilers/scikitlearn.py: evaluate_pipeline, evaluate_individual"]}
{"id": "C165", "title": "The random state given is the one searched with", "statement": "The search of an instance that was given a random_state draws the random numbers of that seed, whatever happens in the process between its construction and its fit.", "quantifier": "every seed, and everything that is constructed, fitted or drawn in the process before and after", "why_tests_cant": "It is about all histories of a process.", "anchors": ["gama/gama.py: Gama.__init__ (random_state)"]}
{"id": "C166", "title": "Any number of instances can be made in a process", "statement": "However many instances were constructed before in the process, an instance can be fitted.", "quantifier": "every sequence of constructions and fits in a process", "why_tests_cant": "It is about processes of any length; a test constructs a few instances.", "anchors": ["gama/gama.py: Gama.__init__ (AsyncEvaluator.__init__ partialmethod)", "gama/search_methods/async_ea.py: async_ea"]}
{"id": "C167", "title": "The model saved by the command line predicts like the instance it was saved from", "statement": "The file the command line writes, once unpickled, predicts for every data frame what predict of the fitted instance gives for it.", "quantifier": "every fitted classifier or regressor, all columns, labels and data to predict (one row at least)", "why_tests_cant": "Tests of the command line look whether the file was written; whether its content is all that prediction needs depends on the columns and labels of the data.", "anchors": ["gama/utilities/cli.py: main", "gama/gama.py: Gama._prepare_for_prediction", "gama/GamaClassifier.py: GamaClassifier._predict"]}
{"id": "C168", "title": "Text among the features is encoded before pipelines see it", "statement": "Whatever the features are given as (array, data frame, csv or ARFF file), each column with text has been encoded as numbers when the steps of a pipeline are fitted, so that the imputation every pipeline starts with does not fail on it.", "quantifier": "every table whose columns have different names, every format of the data, classification and regression", "why_tests_cant": "It depends on how types are inferred or declared in each format and on the number of values of every column; tests use data frames prepared with category types.", "anchors": ["gama/data_formatting.py: format_x_y, infer_categoricals_inplace", "gama/data_loading.py: arff_to_pandas, csv_to_pandas", "gama/utilities/preprocessing.py: basic_encoding, basic_pipeline_extension"]}
{"id": "C169", "title": "Callbacks may register callbacks", "statement": "Every evaluation is told to each callback registered before it, or by a callback while it is being told, exactly once and in the order of registration, until a timeout or interrupt reaches the search; a callback, once registered, is told of all later evaluations too. If callbacks stop registering others at some point, telling an evaluation ends; if each call registers another, it does not.", "quantifier": "every list of callbacks, whatever each call does (raise, be late, register others), depending on all calls before it; any number of evaluations", "why_tests_cant": "It is about a list iterated over while it grows; the histories of registrations and calls are unbounded.", "anchors": ["gama/gama.py: Gama._on_evaluation_completed, evaluation_completed, _safe_outside_call"]}
{"id": "C170", "title": "A score that is not a number does not displace better pipelines", "statement": "After any sequence of saved evaluations, some of which may have NaN for a score, no evaluation whose scores are numbers has been given up for one whose scores are not, or are less.", "quantifier": "every sequence of evaluations with scores of any length, every m", "why_tests_cant": "It is about what comparisons that are always false do to a heap after any history.", "anchors": ["gama/utilities/evaluation_library.py: Evaluation.__lt__, EvaluationLibrary.save_evaluation", "gama/genetic_programming/compilers/scikitlearn.py: evaluate_pipeline", "gama/utilities/metrics.py: Metric"]}
{"id": "C171", "title": "A score that is not a number is not taken for the best", "statement": "With best-fit post-processing the pipeline trained has scores that are numbers if one of the pipelines found has, and then none of those has a greater score, although the scores of some pipelines found may be NaN.", "quantifier": "every list of less than 64 pipelines found, every scores", "why_tests_cant": "It is about what comparisons that are always false do to sorting, for all positions of the scores that are not numbers.", "anchors": ["gama/gama.py: Gama.fit", "gama/postprocessing/best_fit.py: BestFitPostProcessing.post_process"]}
{"id": "C172", "title": "Waiting for a result is not ended by what happens to worker processes", "statement": "While evaluations are pending, waiting for the next result raises no exception (which would end the search and fit): whatever worker processes use, die of or fail to receive, they are stopped or replaced and the wait goes on.", "quantifier": "every schedule of submissions, waits, worker steps, deaths and memory readings, every number of workers, memory limit and log setting", "why_tests_cant": "It is about processes that disappear between two statements of the main process, and all interleavings of that with memory use over the limit.", "anchors": ["gama/utilities/generic/async_evaluator.py: AsyncEvaluator.wait_next, AsyncEvaluator._control_memory_usage, AsyncEvaluator._get_memory_usage, evaluator_daemon"]}
{"id": "C173", "title": "What is given on the command line is what is used", "statement": "Whatever options are given on the command line, in whatever order and around the file name, the values used are those given last, and the documented defaults otherwise; without exactly one file name nothing is run.", "quantifier": "every list of documented options with values, each attached with = or as a word of its own that is a negative integer or a dash or does not begin with one; other words that begin with a dash are never taken for the value", "why_tests_cant": "Tests of the command line try a few combinations; there are as many as there are lists of options and texts.", "anchors": ["gama/utilities/cli.py: make_parser"]}
{"id": "C174", "title": "What main does depends on the command it is given", "statement": "main(command) does what the words of the command say, whatever the command line of the process.", "quantifier": "every command, as a text or a list of words, and every command line of the process", "why_tests_cant": "A test runs under one command line, that of the test runner.", "anchors": ["gama/utilities/cli.py: main"]}
{"id": "C175", "title": "Options that do not exist are refused", "statement": "A command line with a word that looks like an option and is not a documented one is refused before anything is run.", "quantifier": "every such word, at every place of every command line", "why_tests_cant": "There is no end of misspelt options to try.", "anchors": ["gama/utilities/cli.py: make_parser"]}
{"id": "C176", "title": "A pipeline whose score is not a number leaves the population before those with a score", "statement": "When the population of the evolutionary search is full and one member is removed, it is one whose score is not a number if there is such a member; in any case no member is removed that is better than another.", "quantifier": "every population, with any scores, some of which may be NaN, and every random choice", "why_tests_cant": "NaN makes every comparison false, so that what holds for numbers need not hold any more; tests use numbers.", "anchors": ["gama/genetic_programming/selection.py: eliminate_from_pareto", "gama/utilities/generic/paretofront.py: ParetoFront.update", "gama/search_methods/async_ea.py: async_ea"]}
{"id": "C177", "title": "A pipeline with a score is not passed over as a parent for one whose score is not a number", "statement": "In the tournaments by which parents are chosen, the rank of a pipeline whose values are numbers is no worse than that of one whose score is NaN.", "quantifier": "every population, with any scores, some of which may be NaN", "why_tests_cant": "The ranks come from sorting the whole population with a comparison that NaN makes false.", "anchors": ["gama/genetic_programming/nsga2.py: NSGAMeta.dominates, NSGAMeta.crowd_compare, fast_non_dominated_sort", "gama/genetic_programming/selection.py: create_from_population"]}
{"id": "C178", "title": "The memory log can be read back", "statement": "Each line that is appended to memory.log has, separated by commas, the time and then the number and the memory use of the main process and of every worker process that was running; what was in the file stays.", "quantifier": "every number of readings, in every state of the evaluator, with any workers gone", "why_tests_cant": "Which processes are running changes between readings, while the line is put together.", "anchors": ["gama/utilities/generic/async_evaluator.py: AsyncEvaluator._log_memory_usage, AsyncEvaluator._get_memory_usage"]}
{"id": "C179", "title": "Parents are chosen although scores are not numbers", "statement": "Choosing parents from a population of at least three raises no exception and gives the number of pairs asked for, each of two different members, although some scores are NaN or infinite; smaller populations are refused.", "quantifier": "every population with any values, every number of pairs, every random choice and whatever order sorting gives where comparisons are inconsistent", "why_tests_cant": "Crowding distances divide by differences of values; that none of the divisors is zero depends on all values and on how they are sorted.", "anchors": ["gama/genetic_programming/nsga2.py: nsga2_select, nsga2, crowding_distance_assignment, fast_non_dominated_sort"]}
{"id": "C180", "title": "Successive halving promotes no pipeline whose score is not a number before one with a score", "statement": "If an evaluation of a rung that was not promoted yet has a score, then the one promoted has one, and no greater one was waiting, although other scores may be NaN.", "quantifier": "every rung with any scores, some of which may be NaN, any promotions before, every reduction factor and every order in which a set is gone through", "why_tests_cant": "The order of a set of tuples depends on addresses and differs between runs; the claim is about all orders.", "anchors": ["gama/search_methods/asha.py: asha (get_job)"]}
{"id": "C181", "title": "No submitted job is run twice", "statement": "A job that was handed to the evaluator is taken from the queue by at most one worker, once, and run to its end at most once, also if workers are stopped for their memory use, are ended by the operating system, or fail to receive a job.", "quantifier": "all functions, numbers of workers, memory limits and schedules of the main process and the workers, with any worker stopped, ended or out of memory at any time; every job", "why_tests_cant": "Which worker takes a job, and what has become of a job when its worker is replaced, depends on the interleaving of processes; tests see a few interleavings.", "anchors": ["gama/utilities/generic/async_evaluator.py: AsyncEvaluator.submit, AsyncEvaluator.wait_next, AsyncEvaluator._control_memory_usage, evaluator_daemon"]}
{"id": "C182", "title": "An ensemble can be used although scores are not numbers", "statement": "With ensemble post-processing, if models were stored and there is time left, the ensemble can predict and its weights add up to ensemble_size, whatever numbers, infinities or NaN the metric gives for combinations of models.", "quantifier": "for all metrics, libraries, sizes and times", "why_tests_cant": "Metrics of the usual tests give numbers for all predictions; what matters is which combinations give none, and in which round.", "anchors": ["gama/postprocessing/ensemble.py: build_initial_ensemble, expand_ensemble, build_fit_ensemble"]}
{"id": "C183", "title": "A report can be updated at any moment of a run", "statement": "A report made of the log of a run in progress, at any moment, shows when it is updated after the run the same evaluations, individuals and running best as one made of the finished log.", "quantifier": "every log whose texts can be told apart (C72), every part of its text that may have been written at the moments of reading", "why_tests_cant": "Which part of a line is there when the file is read depends on the timing of two processes.", "anchors": ["gama/logging/GamaReport.py: GamaReport.update", "gama/logging/evaluation_logger.py: log_line"]}
{"id": "C184", "title": "How likely a random pipeline is", "statement": "A random pipeline has every number of steps up to the greatest start length with the same chance; its estimator is each estimator of the search space with the same chance, each of its preprocessing steps each preprocessor, and each hyperparameter has each of its values, all independently of one another; no other pipeline is ever made.", "quantifier": "all search spaces that can be used and list no algorithm or value twice, all maximum lengths, and every pipeline; draws of random are uniform and independent", "why_tests_cant": "A test sees a few random pipelines; that chances are equal is a statement about all sequences of draws.", "anchors": ["gama/genetic_programming/operations.py: create_random_expression, random_primitive_node, random_terminals_for_primitive", "gama/genetic_programming/operator_set.py: OperatorSet.individual", "gama/gama.py: Gama.__init__"]}
{"id": "C185", "title": "Enough random pipelines contain every pipeline", "statement": "Among n random pipelines, as a search starts from, a given pipeline of the search space is with chance 1 - (1 - q)**n, where q is the chance that one random pipeline is that one; q is positive, so with enough of them the chance is as near to certainty as one likes.", "quantifier": "all search spaces and lengths GAMA can be used with, every pipeline no longer than the greatest start length, every n", "why_tests_cant": "It is about the share of all sequences of draws, and about arbitrarily large numbers of pipelines.", "anchors": ["gama/gama.py: Gama._search_phase", "gama/genetic_programming/operator_set.py: OperatorSet.individual", "gama/genetic_programming/operations.py: create_random_expression"]}
{"id": "C186", "title": "How often parents are crossed", "statement": "Two selected parents that can be crossed, because they differ in the value of a shared hyperparameter or both have two steps, are crossed with the chance given as cxpb, up to the precision of random.random; otherwise, and for all parents that cannot be crossed, the first of them is mutated.", "quantifier": "all chances of at most one, all search spaces, all parents of at most the maximum length; draws of random are uniform and independent", "why_tests_cant": "A frequency observed in a test is not a chance; the statement is about the share of all sequences of draws.", "anchors": ["gama/genetic_programming/selection.py: create_from_population", "gama/genetic_programming/crossover.py: _valid_crossover_functions, random_crossover", "gama/genetic_programming/operator_set.py: OperatorSet.mate"]}
{"id": "C187", "title": "Every kind of mutation is equally likely", "statement": "Mutation makes every kind of change that can be made to a pipeline with the same chance: another value if there are two hyperparameters with a choice, another algorithm if there are two steps with a choice, one step more if the maximum length leaves room, fewer steps if there is more than one. No other kind of change is made.", "quantifier": "all search spaces GAMA can be used with, all pipelines of at most the maximum length none of whose mutants was evaluated before (otherwise mutation is tried again); draws of random are uniform and independent", "why_tests_cant": "A frequency observed in a test is not a chance; the statement is about the share of all sequences of draws.", "anchors": ["gama/genetic_programming/mutation.py: random_valid_mutation_in_place", "gama/genetic_programming/operator_set.py: OperatorSet.mutate"]}
{"id": "C188", "title": "How likely each pair of parents is", "statement": "The first parent wins a tournament between two members of the population, the second one between two of the others, all draws being equally likely. With n in the population the chance of being the first parent is the number of others it is ahead of plus the number of others that are not ahead of it, divided by n * (n - 1), and likewise for the second among the n - 1 others. Of two members the one ahead has the greater chance, and exactly a member that all others are ahead of is never the first parent. A member is ahead of another if it is in an earlier front, the first two counting as one, or if it is in the same and less crowded.", "quantifier": "all populations of three or more with values of the same length, not NaN; every pair of members; draws of random are uniform and independent", "why_tests_cant": "A frequency observed in a test is not a chance; the statement is about the share of all sequences of draws.", "anchors": ["gama/genetic_programming/nsga2.py: nsga2_select, nsga2, NSGAMeta.crowd_compare", "gama/genetic_programming/selection.py: create_from_population"]}
{"id": "C189", "title": "A Pareto front keeps the first of equal items", "statement": "After offering any sequence of items to a Pareto front, its members are exactly the items such that no item offered before is at least as good on every objective and no item offered after is better: of items with the same values, the one offered first stays.", "quantifier": "every sequence of items with values of one length, in any linear order", "why_tests_cant": "Every sequence of offers; tests offer a few.", "anchors": ["gama/utilities/generic/paretofront.py: ParetoFront.update, ParetoFront.__init__"]}
{"id": "C190", "title": "Each of the worst pipelines is equally likely to leave the population", "statement": "If random draws are fair, elimination removes each of the worst members of the population with the same chance, members with the same fitness counting once; of members with the same fitness only the one that is first in the population can go.", "quantifier": "every evaluated population and all draws", "why_tests_cant": "A chance is a statement about all draws together; a test sees some of them.", "anchors": ["gama/genetic_programming/selection.py: eliminate_from_pareto", "gama/utilities/generic/paretofront.py: ParetoFront.update"]}
{"id": "C191", "title": "How likely each child of a crossover is", "statement": "If random draws are fair and no child was evaluated before, mating two pipelines that can be crossed chooses between exchanging the values of a hyperparameter and exchanging steps, where both are possible, with the same chance; each pair of differing values, or each pair of places to cut, is then equally likely. The chance of any set of children follows.", "quantifier": "every two well-formed parents within the maximum length, every set of children and all draws", "why_tests_cant": "A chance is a statement about all draws together; a test sees some of them.", "anchors": ["gama/genetic_programming/crossover.py: random_crossover, crossover_primitives, crossover_terminals, _shared_terminals, _valid_crossover_functions", "gama/genetic_programming/operator_set.py: OperatorSet.mate"]}
{"id": "C192", "title": "How likely each child of a mutation is", "statement": "If random draws are fair and no child was evaluated before, mutating a pipeline makes each possible kind of change (a value, a step, one more step, fewer steps) with the same chance. Each place where it can be made is then equally likely, then each other value, each (other) algorithm or each number of steps to remove, and each value of each hyperparameter of a new step. The chance of any set of children follows.", "quantifier": "every well-formed pipeline within the maximum length, every set of children and all draws", "why_tests_cant": "A chance is a statement about all draws together; a test sees some of them.", "anchors": ["gama/genetic_programming/mutation.py: random_valid_mutation_in_place, mut_replace_terminal, mut_replace_primitive, mut_insert, mut_shrink", "gama/genetic_programming/operations.py: random_primitive_node, random_terminals_for_primitive", "gama/genetic_programming/operator_set.py: OperatorSet.mutate"]}
{"id": "C193", "title": "How likely each offspring of two parents is", "statement": "If random draws are fair and no child was evaluated before, an offspring of two parents that can be crossed is any set of pipelines with the chance of crossover asked for (to the precision of random.random) times the chance that crossover gives such a child, plus the rest times the chance that mutating the first parent does. If the parents cannot be crossed, it is a mutant of the first.", "quantifier": "every two well-formed parents within the maximum length, every crossover chance up to one, every set of children and all draws", "why_tests_cant": "A chance is a statement about all draws together; a test sees some of them.", "anchors": ["gama/genetic_programming/selection.py: create_from_population", "gama/genetic_programming/operator_set.py: OperatorSet.mate, OperatorSet.mutate"]}
{"id": "C194", "title": "How likely each offspring of a population is", "statement": "If random draws are fair and no child was evaluated before, the offspring created of a population of at least three is in any set of pipelines with the sum, over all ordered pairs of different members, of the chance that NSGA-II's tournaments choose them as the parents times the chance that their offspring is in the set. The chances of the pairs add up to one.", "quantifier": "every population of at least three evaluated well-formed pipelines within the maximum length, every crossover chance up to one, every set of children and all draws", "why_tests_cant": "A chance is a statement about all draws together; a test sees some of them.", "anchors": ["gama/genetic_programming/selection.py: create_from_population", "gama/genetic_programming/nsga2.py: nsga2_select, nsga2"]}
{"id": "C195", "title": "Which pipelines have a chance of being the next", "statement": "If random draws are fair and no child was evaluated before, the pipelines with a positive chance of being the offspring of a population are exactly those that two different members can have, where the first member is not behind all others and the second not behind all but the first: children of an exchange between the two if the crossover chance is positive, and one-change mutants of the first, of a kind that mutation offers, if crossover is not certain (to the precision of random.random) or not possible. The same holds for mutation and crossover by themselves.", "quantifier": "every population of at least three evaluated well-formed pipelines within the maximum length, every crossover chance up to one, every pipeline and all draws", "why_tests_cant": "A chance is a statement about all draws together; that something is never drawn cannot be tested.", "anchors": ["gama/genetic_programming/selection.py: create_from_population", "gama/genetic_programming/operator_set.py: OperatorSet.create, OperatorSet.mate, OperatorSet.mutate", "gama/genetic_programming/nsga2.py: nsga2_select"]}
{"id": "C196", "title": "How likely each child is when some were evaluated before", "statement": "If random draws are fair, and a single try of mutation or crossover gives a child that was evaluated before with chance d, and a new child of some kind with chance a, then with n tries the operator gives a new child of that kind with chance a (1 + d + ... + d^(n-1)), so that new children keep their relative chances, and one that was evaluated before with chance d^n, in the proportions of a single try. The chance of an offspring of a population follows from this as it does when nothing was evaluated before.", "quantifier": "every population of at least three evaluated well-formed pipelines within the maximum length, every set of earlier evaluations, every number of tries of at least one, every crossover chance up to one and all draws", "why_tests_cant": "A chance is a statement about all draws together; a test sees some of them.", "anchors": ["gama/genetic_programming/operator_set.py: OperatorSet.try_until_new, OperatorSet.mate, OperatorSet.mutate", "gama/genetic_programming/selection.py: create_from_population"]}
{"id": "C197", "title": "What was evaluated before rules no pipeline out", "statement": "If random draws are fair, the pipelines with a positive chance of being the result of mutation, of crossover, or of being the offspring of a population do not depend on what was evaluated before: a pipeline that was evaluated keeps a positive chance of being made again if it had one, and they are the pipelines described for the case that nothing was evaluated before.", "quantifier": "every population of at least three evaluated well-formed pipelines within the maximum length, every set of earlier evaluations, every number of tries of at least one, every crossover chance up to one, every pipeline and all draws", "why_tests_cant": "A chance is a statement about all draws together; that a pipeline is never drawn, or might be, cannot be tested.", "anchors": ["gama/genetic_programming/operator_set.py: OperatorSet.try_until_new, OperatorSet.mate, OperatorSet.mutate", "gama/genetic_programming/selection.py: create_from_population"]}
