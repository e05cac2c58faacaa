# Formal model of GAMA in Lean 4

This file says what is modelled, how each property is proved, what is trusted,
and where the code disagrees with the property a user would expect.

## Layout

* `lean/Verif/Model/*`   – the model. Each definition cites the file and lines of
  `/repo` it mirrors and says where it simplifies.
* `lean/Verif/Spec/*`    – small specifications, written without the model's helpers.
  Later specifications stand in `namespace Spec` beside their theorems.
* `lean/Verif/Lemmas/*`  – helper lemmas (proof engineering only).
* `lean/Verif/Props/*`   – the property theorems and the witnesses (`example`) showing
  that their hypotheses are met by a non-trivial case.
* `properties.jsonl`, `MANIFEST.json` – claims and the theorems that discharge them
  (written by `tools/mkprops.py`, `tools/mkmanifest.py`).
* `seeded/LOG.jsonl`     – mutation tests of the theorems (run by `tools/mutate.py`).

Names: `Cnn_*` is a theorem for property Cnn.  `Cnn_partial` proves a part of it, with what is missing
in its comment.  `Cnn_claim` is the full statement where it is false of the code, and `Cnn_false` its
refutation with a concrete witness.

## Conventions of the model

* A Python exception is a value: functions that may raise return `Except Exn α`.
* Code that mutates objects runs in the monad `PyM` (`Model/Py`): state and exception, where a
  mutation made before an exception persists.  Theorems about it are stated with weakest
  preconditions or about the final state.
* `random` is a stream of natural numbers consumed one draw at a time; `random.choice xs` takes
  element `draw % len xs`, `random.sample` draws without replacement.  Theorems quantify over all
  streams, hence over all outcomes of all draws.  Where a theorem speaks of chances (C184 on), each
  draw is any number below `M` equally often and independently, `M` a multiple of the numbers of
  candidates (`Spec/Chance`): that `random` behaves so is assumed.  No other distributions are modelled.
* Strings that are parsed or compared are lists of characters; lower-casing is that of ASCII.
* Scores are elements of a linear order with infinities (floats without NaN) unless a theorem says
  otherwise (C170); arithmetic on predictions, times and weights is exact (rationals), i.e. float
  rounding is not modelled.
* Mutable Python objects whose aliasing matters (pipeline steps, configuration dictionaries, the
  population list) live in an explicit heap with addresses.
* Processes, queues and clocks are nondeterministic transition systems; theorems quantify over all
  schedules and all monotone clocks.  Searches are small-step machines over arbitrary evaluation
  outcomes.
* Dictionaries are association lists in insertion order; sets have an arbitrary order.
* A loop that need not end has a fuel argument, and `none` or the exception `diverge` says that it did
  not suffice.

## What is modelled

| source (`/repo/gama`) | model | not modelled |
|---|---|---|
| `genetic_programming/components/*` | `Components`, `FromString` | – |
| `genetic_programming/mutation.py`, `crossover.py`, `operations.py`, `operator_set.py` | `Operators` | logging |
| `genetic_programming/selection.py`, `nsga2.py`, `utilities/generic/paretofront.py` | `Score`, `Pareto`, `Nsga2`, `Selection`, `NanFront`, `NanCrowd` (values that are not numbers) | the pareto front's printing |
| `utilities/evaluation_library.py` | `Heapq`, `Library`, `Refit` (a second fit), `Cutoff` (saving cut off), `Nan` (scores that are not numbers), `Paths` | the pickled bytes; which rows a stratified sample has (any sample) |
| `utilities/generic/async_evaluator.py` | `Async`, `MemoryLog` | the numbers psutil reports are inputs |
| `search_methods/*` | `Search`, `Phase`, `Joint`, `Whole`, `Config` (hyperparameter tables), `Halving`, `Floats`, `NanRung` (scores that are not numbers) | logging |
| `postprocessing/*` | `NanSort` (choice among scores that are not numbers), `Ensemble`, `NanEnsemble` (scores that are not numbers), `Build`, `Trained`, `Printing`, `Export` | fitting of models is a parameter |
| `utilities/generic/timekeeper.py`, `stopwatch.py`, time budgets of `gama.py` | `Time`, `Late` (a search out of time) | process time |
| `data_formatting.py`, `utilities/preprocessing.py` | `Data`, `Predict`, `Encoding`, `Text` | what the one-hot and target encoders compute |
| `genetic_programming/compilers/scikitlearn.py` | `Evaluate`, `Export` | what estimators compute |
| `configuration/parser.py` | `Config` | – (theorems are about all configurations) |
| `configuration/classification.py`, `regression.py` | `Shipped` (written by `tools/mkshipped.py`) | `configuration/testconfiguration.py` |
| `gama.py` | `Front`, `Callbacks`, `Time`, `Late`, `Process`, `Predict`, `FromFile`, `Search`, `Phase`, `Paths` | the documentation strings |
| `GamaClassifier.py`, `GamaRegressor.py`, `utilities/metrics.py` | `Data`, `Stratify`, `Evaluate`, `Front`, `Predict`, `Scoring` | what scikit-learn's metrics compute, except averages over classes |
| `utilities/export.py`, `Gama.export_script` | `Export`, `Predict` | the formatter `black`; `individual_to_python` (unused) |
| `logging/*` | `Logs`, `Report`, `Columns`, `Scoring`, `Paths` | log levels; missing log files; conversion of columns by pandas |
| `data_loading.py` | `Data`, `Loading`, `FromFile`, `Header` | parsing of table contents by pandas and liac-arff, `csv.Sniffer` |
| `utilities/cli.py` | `CommandLine` (with `argparse`), `Loading`, `Saved` (the model it saves) | messages |

## Trusted base

* Lean 4.33.0's kernel.  Every property theorem depends at most on the axioms `propext`,
  `Classical.choice` and `Quot.sound`; `tools/mkmanifest.py` writes a file that prints the axioms of
  every theorem of the manifest.  There are no axioms of our own, no `sorry`, no `native_decide`.
* The faithfulness of the hand-written model to the Python source, which is not machine-checked.
  Python semantics of lists, dicts, strings and exceptions are transcribed by hand.
* scikit-learn, pandas, numpy, category_encoders, stopit, multiprocessing, psutil are parameters or are
  written out where their behaviour matters.  In particular:
  * *Sorting* (`sorted`, `list.sort`) is a stable insertion sort; for keys that are not ordered (C171) the algorithm of
    CPython is spelled out for less than 64 elements.  `heapq` is spelled out from CPython's
    `heapq.py`; `nlargest` is taken by its documented equivalence with sorting.
  * *Evaluation library*: every call of `save_evaluation` gets a fresh evaluation object; a file of the
    cache is its name.
  * *Asynchronous evaluation*: queues are reliable and first-in first-out, an item put is there at once,
    pickling is faithful, identifiers are fresh, process ids are not reused, defaults do not change while
    workers run, killing is atomic.  The race of a feeder thread with later changes of an object is not
    modelled.  That an operating system ever schedules a process is no part of any theorem.
  * *Searches* see the evaluator as a set of pending jobs and a nondeterministic `wait_next`; that the
    evaluator gives them no more than that is C130, for evaluations that return the individual they were
    given.  The early stopping rate of ASHA is a natural number.  Its rungs are computed exactly in `Search`, and in
    `Floats` with doubles rounded to nearest, of any exponent; there the logarithm of the C library is any
    function whose values are doubles off by at most one unit in the last place.
  * *Whole fits* (C134 - C137, C158 - C162): what successive halving evaluates is `evaluate_on_rung`, so that only
    evaluations on the top rung are without an error; an evaluation's first score is the one that the search is told, there are as
    many scores as metrics, predictions have one row per row of the data, an evaluation without an error has
    predictions and fitted estimators; an interruption arrives before or
    after an evaluation is saved.  C160 adds interruptions at any moment of saving: the states a library can be
    left in are listed statement by statement (`Model/Cutoff`); a file being written is partly written, and a
    list that `heapq` works on holds the right items in some order, which is assumed of its C implementation.  An individual has one
    fitness, the latest that came back; in the code each evaluation returns a copy that has its own, which differs only
    for successive halving, where C162 reads the fitness on the highest rung alone.
  * *Operators*: a maximum length below zero is taken as zero (no pipeline can be made with either).
  * *Text files*: reading in text mode turns every line end into a newline.
  * *Ensembles*: the score function is a parameter; its scores are comparable.
  * *Time*: `time.time()` does not go back.
  * *Processes*: `partialmethod` around a function that `partialmethod` made calls it, with one frame of the
    interpreter for each; the generators of `random` and `numpy` are taken as one.
  * *Data*: boolean indexing, reindexing and `squeeze` of pandas, `LabelEncoder` and label-based indexing
    are written out.  `drop_invariant` of the ordinal encoder of category_encoders (columns of sample
    variance up to 10e-5 are dropped) is written out with exact variances.  `read_csv` calls columns as the
    first line does, or numbers them.  `read_csv` and the ARFF reader give a file's columns different
    names; `x[name]` of a data frame with that name twice is a data frame, which has no `dtype`.  `StratifiedShuffleSplit` raises a `ValueError` for missing labels,
    for a class with one row, and if a part has fewer rows than there are classes.  A fitted model predicts labels it was trained with.  Splits are
    deterministic.
  * *Configurations*: `isinstance` on values is equality of a tag; a hyperparameter name that is both
    shared and an algorithm is simplified.
  * *Default configurations*: which classes of scikit-learn are transformers, classifiers or regressors and
    have `predict_proba`, and the numbers and texts that `np.arange` gives, are written into the model;
    checks are opaque, except the one of LinearSVC (C125), which is written out.  The order of merged
    values (`list(set(...))`) and `str(type(cls))` are arbitrary.
  * *Front end*: the parent of an existing directory exists; callbacks register callbacks only in `Callbacks` (C169).  A
    refused construction leaves the log handler registered.
  * *Paths*: `join`, `abspath`, `expanduser` and `expandvars` of `posixpath` are written out; there are no
    symbolic links, and a path with exactly two leading slashes is the same as with one.
  * *Export*: the call of a class with its arguments is recorded and does not fail; `str` of fixed
    transformers is a parameter; the name validation of scikit-learn's `Pipeline` is not modelled.
  * *Logs*: the tokenizer of pandas (`tokenizer.c`) is written out for separator `;`; file positions are
    counted in characters of the text as read; metrics are not NaN.
  * *Command line*: `argparse` is written out from CPython 3.11, for a parser with one positional argument and
    options that take one argument or none, on ASCII texts; `tools/diffargs.py` compares it with the interpreter's
    on random command lines (a test of the model, no part of any proof).
  * *Voting*: `VotingClassifier` elects the first class (in sorted order, as that of `OneHotEncoder`) with the
    largest weight of votes (`hard`) or weighted mean of probabilities (`soft`), `VotingRegressor` gives the
    weighted mean; all with exact arithmetic.  Every fitted estimator of an ensemble is assumed to know all
    classes (a probability for each); by C151 this is so for estimators from evaluations with log loss.
  * *Metrics*: the averaging of scikit-learn over a list of labels is written out from
    `precision_recall_fscore_support` and `multilabel_confusion_matrix`; the checks that `log_loss` and
    `roc_auc_score` and their scorers make on labels and numbers of columns are written out
    (`scoreTakes`, `foldTakes`).  `cross_validate` fits one estimator per fold on the training rows of the
    fold and raises what a scorer raises; the columns of its probabilities are for the labels it was fitted
    on, in increasing order.

A property counts as proved only if every hypothesis of its theorems is in its quantifier, in its note or above.  Where
the code fails outside of that, the failure is a property of its own or the status is partial: C137 leaves out
candidates listed twice (C161) and C158, C160 probability metrics with more than 10 000 rows (C46).

## Method per area

Pipelines: the heap model of nodes refines to lists of steps; every operator has a frame theorem (nothing
but the new nodes changes) and a functional specification; well-formedness is a separate predicate and is
proved closed under all random outcomes.  Strings: round trip by induction on the pipeline.  That some
outcome is possible is shown with a second set of rules (`Lemmas/Reach`): a computation that depends only
on the draws it makes can be composed from draws chosen for its parts.

Selection: non-dominated sorting by a loop invariant over the counters (fronts are the layers of the
dominance order); the Pareto front by an invariant over the sequence of updates.

Evaluation library: state machine over histories, with the heap invariant proved of CPython's algorithms.

Asynchronous evaluation: transition system of main process, queues and workers; invariants over all
traces.

Search: small-step machines, invariants over all runs; ASHA's promotion rule by an invariant over rungs.
Theorems about searches hold of arbitrary operators; `Props/Evolve` and `Props/Defaults` put in GAMA's own
operators and the default search spaces.  `Model/Phase` adds exceptions that arrive from outside.
`Model/Joint` runs a search on the transition system of the evaluator; `Lemmas/Joint` refines it to the
search alone, and `Props/Progress` shows by a measure that it goes on in fair schedules without losses;
`Props/Reproduce` shows that with one worker it is the search that evaluates each job by itself.

Ensembles, time, data: exact arithmetic, structural induction.  `Model/Build` composes the evaluation
library with the ensemble; its properties follow from those of the two.  `Model/Refit` adds a second `fit` on
the same library, with the cache kept or removed in between.  `Model/Whole` runs a search with
GAMA's operators, the evaluator and the library together; `Lemmas/Whole` shows that its states are those of
a search and a library that are told the same evaluations, so that the theorems about either apply.

Text formats (pipeline strings, logs, INIT lines, ARFF, CSV): writer and reader are modelled apart; round
trips by induction on the text, and the excluded texts shown to break by witnesses.

<!-- generated from here on by tools/mkstatus.py -->

## Disagreements

The code does not do what these properties say, or not always.

* **C05** Mutation always succeeds on individuals the search can hold. False of the code: a lone estimator with at most one changeable value at maximum length 1 has no available mutation (IndexError), and over-long individuals raise AttributeError.
* **C08** The search never evaluates a pipeline longer than max_pipeline_length. False of the code for maxima of three and more: mate ignores the order in which the crossover returns the children. The theorems say for which parents it fails, and how long pipelines get (two steps less than twice the maximum); with a maximum of one or two the claim holds.
* **C11** Positional hyperparameter replacement. False of the code at the position equal to the number of hyperparameters, which is accepted and changes nothing (C11_at_end).
* **C12** Positional step replacement. False of the code for positions outside the pipeline: the step, of whatever kind, is put before the first one (C12_outside).
* **C17** NSGA-II selection returns the requested number by non-domination. False of the code in one clause: a negative n is not rejected but gives an empty selection.
* **C19** NSGA-II tournaments prefer the better front. False of the code: the first two fronts get the same rank.
* **C23** The evaluation library never loses or duplicates an evaluation. False of the code when the same individual is evaluated more than once without an error (refitting, a warm start that lists it twice): evaluations share a cache file, the second eviction raises and the evaluation is in no list.  C23_otherwise: nothing else is lost, and nothing is duplicated.
* **C24** Cached models on disk are exactly those of the kept evaluations. False of the code when the same individual is evaluated more than once without an error: both evaluations use one file.  C24_otherwise says what is read then.
* **C26** An evaluated pipeline is recognised as evaluated. False of the code when the same individual is evaluated more than once without an error: an exception skips the lookup update.  C26_otherwise: as many evaluations are not found as are lost.
* **C27** Stored predictions of different evaluations refer to the same rows. False of the code across two calls of fit: each chooses new rows while old evaluations stay. C27_otherwise: over any number of fits, what is stored of an evaluation is of the rows chosen at the last fit before it was saved, so between two fits all are of the same rows.
* **C29** Every submitted job is eventually accounted for. False of the code: stopping a worker over the memory limit, or a result without an error attribute, loses the job, and waiting for it never ends.  C29_otherwise: a job that is lost is never returned.
* **C30** Waiting without pending jobs raises instead of blocking; job_queue_size tracks the backlog. False of the code in one clause: a worker out of memory while receiving a job reports its previous job again, which makes job_queue_size too small.
* **C31** A failing job is reported and does not take down others. False of the code for exceptions that are no Exception, such as SystemExit.  C31_otherwise says what happens then.
* **C33** Arguments given with a job are the ones used. False of the code: process-wide defaults replace given arguments of the same name. C33_exact says which arguments every returned job ran with.
* **C36** The evolutionary search never starves or aborts by itself. The search never waits without a pending job, if its candidates are not the list it writes its output to (C37, C131), and does not abort if all evaluations succeed, there are four more candidates than workers and population_size is at least three. The other half is false of the code: with fewer than three individuals in the population creating offspring raises a ValueError that ends the search.
* **C37** Calling fit again continues from the previous population. Holds of random search and ASHA; false of AsyncEA, where the list of candidates is the list that is cleared.
* **C40** ASHA resource allocation. In exact arithmetic C40_resources. In double precision with any logarithm off by at most one unit in the last place: all of it for numbers of rows up to a billion (there may be a rung too many), up to a fraction of 10^-11 for fractions. False of the code for fractions, exactly: from 1/729 with a factor of three, the top rung gets the largest number below one, so that full evaluations are on a sample of the rows.
* **C41** ASHA reports the individuals of the highest rung reached. False of the code if nothing was evaluated yet, or on any exception other than the timeout: UnboundLocalError.
* **C44** The incrementally tracked validation prediction is the weighted mean. Proved if evaluations of one individual have the same predictions, there are models and time, and the metric neither raises nor gives minus infinity. False of the code if the library holds two evaluations of one individual with different predictions.
* **C46** Ensemble scoring compares predictions with the labels of the same rows. False of the code for metrics on probabilities when predictions are downsampled: labels are sampled twice.
* **C47** Pickling an ensemble does not change it. False of the code: pickling removes the models of the ensemble in memory, after which exporting fails.
* **C50** No activity is current after it ended. False of the code for an activity left by an exception.
* **C52** Default max_eval_time is usable. False of the code for a total time of at most five seconds: the default is zero.
* **C53** Removing unlabeled rows keeps data and labels aligned. False of the code when labels are missing and y has another row index than x.
* **C56** No training row is validated on. False of the code when evaluating on a subsample: positions in the training set are used as row numbers.
* **C60** Target formats are normalised. False of the code for data frames of several columns or of one row. A list is accepted only as string labels of a classifier.
* **C61** The search space offers exactly what the configuration lists. False of the code for two algorithms with the same class name: their hyperparameters share values.
* **C62** Merging configurations unions them and leaves the inputs alone. Proved for configurations that share no dictionary object. False of the code: the dictionaries of the first configuration are changed, and an algorithm that uses shared values loses them when the other configuration lists its own.
* **C63** Hyperparameter precedence. Proved for any sequence of updates of the defaults; false of successive halving, which forgets the user's value once a dataset is too small for it.
* **C65** Default n_jobs works on every machine. False of the code on a machine with one core: half of one is zero jobs, which is refused.
* **C68** Instances do not affect each other. False of the code: all instances use the settings of the one constructed last.
* **C69** Turning off length regularisation works for every scoring. False of the code for one metric without the length: making offspring raises IndexError for every population, and an evolutionary search submits nothing but the candidates it starts from (C69_search).
* **C71** Exported code describes the model that was fitted. Proved for individuals compiled with the preprocessing of the last fit; false for others, for classes of equal names, classes of __main__ and string values with quotes.
* **C72** The evaluation log can be read back. False of the code: texts are written without quoting, so separators, line ends and quotation marks in error messages break the log.
* **C74** There is one console handler, with the latest verbosity. False of the code for stream handlers of the user that have an attribute named tag: those installed before the latest construction are gone (C74_exact).
* **C75** Hyperparameters of a run can be read back from its log. False of the code: the printed search space is part of the line and cannot be parsed.
* **C76** Reading ARFF metadata terminates with the declared attributes. Proved for every file with a line before the declarations, declarations in the form GAMA expects with different names, and an @data line that ends with a line end: the declared attributes are returned. Reading ends if some line begins with @data. The full claim is false: without such a line, or if @data is the last line without a line end, the loop never ends (C76_diverges, C76_false); single-quoted names and a declaration on the first line are misread (C76_other_forms).
* **C77** Command line options reach the run. Proved for lower-case file names without a separator: the run is the one described by the options. Unsupported names and modes are refused. The full claim is false: a separator for a csv file is always an AttributeError (misspelled attribute), and only the lower-cased name is looked up. argparse is not modelled.
* **C81** The ensemble's limits on models and rows are respected. False of the code for None and for values above the defaults.
* **C82** An ensemble that is returned can predict. Proved if there are models and time, and the metric neither raises nor gives minus infinity. False of the code otherwise: errors while building or fitting are logged and the unfitted ensemble is returned.
* **C83** Rows without label play no part in training a classifier. False of the code for string labels: a missing label becomes a class, unless labels are an array with one column.
* **C84** The metric asked for is the one computed everywhere. False of the code: keyword arguments of the scorer (such as average) are dropped, and score drops the sign.
* **C85** A failed evaluation reports no result. False of the code when the failure comes after scoring.
* **C86** A pipeline can be evaluated on any part of the data. False of the code when a training fold has no more rows than asked for, or the index has gaps.
* **C87** What a search reports was evaluated in that search. Holds of evolution. False of random search, which in a second fit still reports the individuals of the first, and of random search and successive halving, which also report individuals whose evaluation had an error.
* **C88** A construction that fails leaves no output directory. False of the code if the scoring, search space or pipeline length is refused: the directory is left.
* **C89** Fit can be called again. Holds if models are kept; false with 'nothing' (the second fit fails) and 'logs' (its models are silently not stored).
* **C90** Metrics may be given in any iterable. False of the code for iterators, of which no metric is used.
* **C91** Individuals apply the preprocessing of the current fit. Holds of a first fit, and in later ones of individuals that do not go back to an earlier fit (C91_later); false of copies of individuals of an earlier fit, which keep its preprocessing.
* **C92** Large data excludes only heavy algorithms, and only for that data. False of the code: what is excluded for one data set is missing in all later fits.
* **C93** The log of a run contains what that run logged. False of the code: the log also receives what later instances log.
* **C95** The header of a csv file is the list of its column names. Proved for files whose first line ends with a line end. False for a file that is its header only without a line end: the last character of the last name is lost. The sniffer is a parameter.
* **C96** Metadata can be read of exactly the files whose data can be loaded. Proved in one direction for all names and in both for lower-case names. False in general: metadata of d.ARFF is read though its data is refused; names that end in .arff with capitals are the only exception (C96_exact).
* **C98** Macro-averaged metrics weigh all classes equally. Proved for balanced targets and for score functions without a parameter labels. False in general: fit passes the whole target vector as labels, so that scikit-learn's mean has one term per row and a class is weighed by its number of rows (C98_weights). scikit-learn's averaging over a list of labels is written out from its source.
* **C99** Categorical columns of arrays are recognised for every element type. Proved for all types except complex numbers and, before Python 3.12, unsigned and boolean columns, for which the call of is_integer on a Python int is an AttributeError.
* **C100** Arrays can be predicted like the training data. Proved if the training data was an array too. False for training data with named columns: the columns made from the array are numbered. Conversion of values is a parameter.
* **C101** Prediction uses the parts of one fit. Proved if the last fit made a model. False after a failed fit: the model of the earlier fit is used with the encoding and labels of the failed one.
* **C104** Creating a logger leaves the given dictionary alone. False of the code: extra fields are added to the caller's dictionary. The partial theorem says exactly when it is unchanged.
* **C106** A finished evolutionary search reports what succeeded. False of the code: a restart at the last evaluation leaves an empty population. Proved for the time since the last restart, with the exact size of the population.
* **C107** A restart begins anew. False of the code: evaluations under way at the restart end up in the new population. Proved for everything else. C107_otherwise: any evaluation under way at a restart can be the first of the new population.
* **C108** Searching does not change the given candidates. False of the code: successive halving takes its candidates from the caller's list. The partial theorem says what is left.
* **C110** The encoding given is used. False of the code: the encoding is not passed on for csv files. Proved for ARFF files and default encodings.
* **C113** A fitted classifier can be scored. False of the code: log loss needs every class to occur, roc_auc is never accepted, precision and the like need labels that include 1. The partial theorem says exactly when score works. The checks of scikit-learn are transcribed.
* **C114** Large data leaves a usable search space. False of the code if only nearest neighbors (or only polynomial features) are configured. The partial theorem is exact.
* **C115** Successful evaluations of a report. False of the code: evaluations on the lower rungs of successive halving have an error but count as successful. The partial theorem says which ones count.
* **C116** Micro-averaged metrics are the share of right predictions. False of the code: the scorer is given all training labels, so that right predictions of a class count as often as the class occurs. Averages of scikit-learn are transcribed.
* **C117** The fitted pipeline is the best one found. False of the code with length regularisation: the best-scoring pipeline may be longer than all others, is then in the worst front and may be eliminated. Holds, of the time since the last restart, if one evaluated individual is best on every objective, with one objective, and for random search. C117_otherwise: a pipeline gets lost only at a moment when the population has outgrown its size and every other individual in it is strictly better on some objective or has the same values.
* **C119** A mutation can make every change it advertises. False of the code: another algorithm (value) is only chosen when at least two steps (hyperparameters) can be exchanged. The pipelines one mutation can make are characterised exactly.
* **C120** Search by mutation can reach every pipeline. False of the code with pipelines of one step or a single preprocessing algorithm: the estimator is then never exchanged. Holds with two estimators, two preprocessing algorithms and pipelines of two steps.
* **C122** The default search spaces can be used. False of the code with a maximum length of one: GaussianNB and LassoLarsCV have nothing to mutate (IndexError). Everything else holds, of the configurations as data, evaluated in the kernel.
* **C124** Importing the reports does not change the default search spaces. False of the code: the merge is made in place and adds f_regression to the classifier's search space. Nothing else changes.
* **C125** Combinations ruled out by a check are not created. False of the code: the checks are parsed, returned and not used.
* **C127** An evolutionary search does not end itself. False of the code with a maximum length of three or more: crossover makes offspring that is too long, and choosing it as a parent ends the search. It is the only way; without a maximum length, and with a maximum of two, the claim holds.
* **C128** A search that is cut off leaves the best pipeline found. Holds of random search. False of successive halving stopped by the user (UnboundLocalError instead of the results so far) and of an evolutionary search cut off just after a restart. The partial theorems say exactly when there is a pipeline. Leaving the evaluator is assumed not to raise.
* **C129** A warm start is where the search starts. Proved for lists of the caller's own. False of evolution for the list of the last population itself (warm_start=gama._final_pop): the search clears it before it reads it, and never submits anything (C37).
* **C131** A search never waits for nothing. Proved of random search and successive halving, and of evolution if the candidates are not the list it writes its output to. False of the code for a second fit with evolution without warm_start: the list is cleared before it is read, so that the search waits for nothing at once (C37). An evaluation is taken to return the individual it was given, and its rung.
* **C132** A search that waits is told an outcome. Proved for fair schedules, jobs that end, and when no worker is stopped, dies or fails to receive its job, for any search that keeps the interface (all three do: eaClient_lawful, rsClient_lawful, ashaClient_lawful). Whatever happens to the workers, the search is told an outcome unless waiting raises, no worker is running any more, or everything it waits for is lost (C132_otherwise). False of the code in the last case: a worker that is stopped for its use of memory takes its job with it, and when all outstanding jobs are lost the search is told nothing any more.
* **C142** A report can be made of the logs of every run. Proved for runs with one scoring metric that regularise the length and whose arguments can be read (C75). False otherwise: the text False is taken for true, so that lengths are expected of a run that does not regularise them and the report is refused with a ValueError; a printed search space of two algorithms is refused as well.
* **C143** The ensemble of a later fit is made of the models of that fit. Proved, for a kept cache and for regression or at most hillclimb_size rows: the ensemble is built from the best models of both fits together on matching rows, and these are of the second fit if enough of them are better than all of the first. Metrics on probabilities with more than 10000 rows are excluded (C46). False in full: the evaluation library is made once, so a model of the first fit stays in it with the score it had then; and for classification with more rows the rows are drawn again, so that models of the first fit have predictions for other rows than the labels they are scored on.
* **C144** After a later fit the ensemble can predict. Proved when the cache is kept (store is all or models), with regression or at most hillclimb_size rows, and unless the metric is on probabilities and there are more than 10000 (C158). False for the default store: the first fit removes the cache directory; if it found a model, but fewer than max_models, then no ensemble of a second fit can predict, whatever that finds.
* **C145** A regressor fitted again on data of another size records what it evaluates. Proved if the second data has as many rows or more, or the first no more than hillclimb_size. False if the first has more than hillclimb_size rows and the second fewer: the rows chosen for the first are used again, no evaluation of the second is recorded, and making the ensemble raises an IndexError.
* **C146** An ensemble can be printed. False of the code: evaluations have no validation_score, so printing any ensemble that has models raises an AttributeError; after pickling it prints that it has no models.
* **C147** A column listed for a csv file can be asked for as its target. Proved for files with a header. False without one: columns are listed as texts '0', '1', ... but numbered in the table, so that no column can be asked for. The labels pandas gives are part of the trusted base.
* **C148** A categorical feature that takes different values is available to models. Proved for data of less than 10000 rows, and for columns that are not encoded ordinally. False of the code for larger data: the ordinal encoder drops columns of variance up to 0.0001, for example a column with one different value in 10000. The rule of category_encoders is part of the trusted base.
* **C149** A classifier can be fitted whatever the number of rows. Proved exactly when labels are accepted, for any sample size. False of the code: with 10001 rows every set of labels with two or more classes is refused with a ValueError, since the rows beyond the sample of 10000 have to be at least as many as classes. The errors of StratifiedShuffleSplit are part of the trusted base.
* **C152** Rows without label do not keep pipelines from being evaluated. Proved exactly when it holds: no label is missing, or labels are strings that are not in a column of an array. False of the code for numbers of which one is missing: the scorer is given the labels from before unlabeled rows are removed, log loss refuses them, and every evaluation fails. The check of log loss is part of the trusted base.
* **C153** With one worker the same seed gives the same search. Proved for evolution and random search, and for successive halving if no two individuals of a rung have the same score. False of successive halving with ties: the individual to promote is the maximum of a set, whose order depends on the hashes of random (uuid4) identifiers that random_state does not determine. That operators draw all their randomness from the seeded state, and that the outcome of an evaluation is determined by its job and those before it in the process, is assumed (Planned).
* **C154** A report can be made of the directory given to a run. Proved for directories that do not begin with ~, or with that of an unknown user (and, for the name, do not end in a slash). False of the code for ~/run: GamaReport expands ~ for evaluations.log but not for gama.log, which it looks for in a folder called ~. The functions of os.path are written out for posix, without symbolic links.
* **C155** What a run writes is in its output directory. Proved for output directories whose path mentions no environment variable that is set. False of the code otherwise: EvaluationLibrary expands variables in the path of the cache and Gama does not, so that models are kept elsewhere and are not removed.
* **C156** Successive halving accepts resources that make sense. False of the code if the maximum is a number of rows above that of the data: it is replaced by a fraction, which is refused together with a minimum that is a number of rows. Likewise when only one of the two is set, to a number of rows.
* **C157** Pipelines can be evaluated on every rung. False of the code for a rung with at least as many rows as a training set has, but fewer than the data: every evaluation on it fails.
* **C158** A fit in which an evaluation succeeded gives a model that predicts. False of the code for metrics on probabilities when hillclimb_size and the number of rows exceed 10000: labels are sampled twice (C46), and the ensemble cannot be made (IndexError) if a row is drawn that is not among the first 10000. Proved otherwise, as by default, for hillclimb_size and max_models other than 0 and candidates that list no individual twice (C161). Composes C137, C82, C45 and C141, with what these assume: there is time left for the ensemble, the metric neither raises nor gives minus infinity, and probabilities of members are distributions over the same classes.
* **C159** A successive halving in which an evaluation succeeded gives a model that predicts. False of the code: evaluations on lower rungs are given an error, also if they succeeded, so that until an individual has been evaluated on the top rung, which takes reduction_factor to the power of the number of promotions evaluations on the lowest rung, no model is kept and predict raises a TypeError. Proved: if an evaluation on the top rung succeeded, everything is as in C158, including where that is false (C159_raises).
* **C160** A search cut off while an evaluation is being saved leaves everything usable. What is said of the library is proved for a library that stores predictions. False of the code as to the ensemble, for metrics on probabilities when hillclimb_size and the number of rows exceed 10000, as C158. Proved otherwise, for candidates that list no individual twice (C161). Within heapq the list is taken to hold the right items in some order. For successive halving, an evaluation has succeeded if it did so on the top rung (C159).
* **C161** A warm start may list a pipeline more than once. False of the code: evaluations of one individual share a file, which is removed with the first of them that is dropped; the ensemble then cannot be built, and predict raises. Proved if no more evaluations succeeded than models are kept (200 by default) and unless the metric is on probabilities and there are more than 10000 rows (C158); if no individual is listed twice this is C158.
* **C162** The pipeline trained by default is the best one found. Proved of random search in a first fit and of successive halving that is out of time or returns. False of evolution with two objectives: with a full population a pipeline with a worse first score may replace one with a better. Proved of evolution: the scores are those of an evaluation that is best on every objective, if there is one, and the best of all if no more succeeded than the population holds. Candidates are different individuals.
* **C163** Columns may have any names. Proved for names that are all different. False of the code if a name repeats, of whatever kind the columns are: df[column] is then a data frame, which has no dtype, and fit raises an AttributeError. That pandas does so is part of the trusted base. What the encoders do with the columns is not modelled beyond C54.
* **C164** A search ends although its timeout was swallowed. Proved of evaluations that were begun before the deadline. False of the code: the clock is only looked at after callbacks, an evaluation that begins after the deadline is refused with a ValueError, and callbacks are not called for exceptions. Unless an evaluation begun in time comes back three seconds late, the search goes on for ever: proved of random search (also with a maximum number of evaluations), successive halving, and evolution without a maximum length with three or more in the population (C127).
* **C165** The random state given is the one searched with. Proved if nothing is drawn and no other seed given in between. False of the code: the generators of the process are seeded on construction, so that a search draws the numbers of the seed given last in the process, from where others stopped.
* **C166** Any number of instances can be made in a process. Proved exactly: if fewer instances were constructed than the interpreter has frames left. False of the code: each construction puts another partialmethod around the constructor of evaluators, and calling it takes a frame for each, so that after about a thousand every fit ends in a RecursionError. What partialmethod calls is part of the trusted base.
* **C167** The model saved by the command line predicts like the instance it was saved from. Proved for data of which no column has to be encoded before the search, and targets or labels that are numbers. False of the code for labels that are strings: only the model is saved, which predicts their positions in the list of labels, none of them a label (C167_strings says exactly which); likewise the encoding of categorical columns is not saved.
* **C168** Text among the features is encoded before pipelines see it. Proved for arrays and csv files, and for the columns of data frames with category type and the attributes of ARFF files that list their values. False of the code for the others (C168_raises): a column of text of a data frame that has not category type, or a string attribute of an ARFF file, is encoded by nothing, and the imputation fails in every pipeline.
* **C170** A score that is not a number does not displace better pipelines. Proved if no score is NaN (then the best are kept, C22). False of the code otherwise: if the score of the first evaluation is NaN, it stays at the root of the heap, and the library keeps the first m evaluations, whatever follows (C170_frozen). That NaN reaches the library is by reading: explained_variance_score is NaN for residuals of both signs whose sum overflows, which takes predictions beyond 1e307; r2_score for test sets of one row, but then for all pipelines.
* **C171** A score that is not a number is not taken for the best. Proved if no score is NaN; whatever the scores are, one of the pipelines found is trained. False of the code otherwise: a pipeline found last whose score is NaN is the one trained (C171_last), and one that stands between the best and the worst of three has the worst trained (C171_hidden). The sort is that of CPython up to 3.12 for less than 64 elements; for the origin of NaN see C170.
* **C172** Waiting for a result is not ended by what happens to worker processes. Proved without a memory limit and while the total is within it, unless a worker runs out of memory while it receives a job; C172_exact says exactly when something is raised. False of the code: over the limit, if no worker is left that can be read, max of an empty list is a ValueError; a worker that is gone before it is stopped gives NoSuchProcess, which only __exit__ handles; one that is replaced while the use is logged gives a ValueError; and a worker that fails to receive a job reports its last one again, which is a KeyError (C172_twice).
* **C174** What main does depends on the command it is given. False of the code: a command without words, such as the empty text, is replaced by the command line of the process (C174_otherwise). Proved of commands with a word. C174_text: a text is split at white space, so that a path with a space can be given in a list of words only.
* **C175** Options that do not exist are refused. False of the code: argparse takes beginnings of options for the options, so that --time 30 sets the time for each pipeline and leaves that for the search as it is. Proved of words that neither are the beginning of an option nor begin with an option of one letter; C175_abbreviation says what the others with two dashes do.
* **C176** A pipeline whose score is not a number leaves the population before those with a score. False of the code: a pipeline with NaN is not worse than any other, so that the only pipeline with a score may be removed instead of it. Proved: no member is removed that is better than another, and each member with NaN is among those the choice is made from.
* **C177** A pipeline with a score is not passed over as a parent for one whose score is not a number. False of the code: pipelines with NaN are dominated by none and have the best rank. Proved: which members have a worse rank (those below a member that is below another), and that they lose to every member with NaN, whatever the crowding distances are.
* **C180** Successive halving promotes no pipeline whose score is not a number before one with a score. False of the code if the set gives an evaluation with NaN first, which is then promoted whatever the other scores are (C180_otherwise). Proved otherwise.
* **C182** An ensemble can be used although scores are not numbers. False of the code if models are to be added and with none of them the score is a number greater than minus infinity: an exception is logged and the ensemble cannot predict. C182_exact: otherwise it can, every addition is of the best by the scores that are numbers, and again of the one added last if there is none.
* **C183** A report can be updated at any moment of a run. False of the code if a line is written in part when the log is read: a line that lacks texts is refused with a ValueError; one that lacks the end of its last text is shown as it is, and updates then raise a ValueError, all of them if a further evaluation was written by then. Proved for readings at which no evaluation is written in part, where the last line end and the header may be missing.

## Status

| property | title | status | theorems |
|---|---|---|---|
| C01 | A pipeline string reads back as the same pipeline | proved | C01_string_round_trip |
| C02 | Randomly created pipelines are well formed | proved | C02_random_creation_well_formed, C02_random_creation_succeeds, C02_new_individual_well_formed |
| C03 | Mutation yields a well-formed pipeline that differs from its parent as advertised | proved | C03_mutation_well_formed, C03_mutate_offspring |
| C04 | Mutation respects the maximum pipeline length | proved | C04_mutation_respects_max_length, C04_mutate_offspring_length |
| C05 | Mutation always succeeds on individuals the search can hold | partial | C05_mutation_succeeds_partial, C05_exact, C05_false, C05_over_long_raises |
| C06 | Crossover yields well-formed pipelines and conserves genetic material | proved | C06_crossover_well_formed, C06_mate_offspring |
| C07 | Crossover: the first returned individual respects the maximum length | proved | C07_first_child_within_max_length, C07_error_iff |
| C08 | The search never evaluates a pipeline longer than max_pipeline_length | partial | C08_offspring_length_partial, C08_bound, C08_short_partial, C08_exact, C08_reached, C08_search_partial, C08_search_short_partial, C08_false |
| C09 | Producing offspring never alters the parents | proved | C09_mutate_keeps_population, C09_mate_keeps_population |
| C10 | Copying an individual preserves its pipeline string | proved | C10_copy_prints_the_same |
| C11 | Positional hyperparameter replacement | partial | C11_replace_value_partial, C11_at_end, C11_false |
| C12 | Positional step replacement | partial | C12_replace_step_partial, C12_outside, C12_false |
| C13 | Offspring are retried until new, within the retry budget | proved | C13_retry_until_new, C13_operators |
| C14 | Lineage of offspring | proved | C14_mutant_lineage, C14_child_lineage, C14_new_lineage |
| C15 | A Pareto front holds exactly the non-dominated values | proved | C15_front_is_maximal |
| C16 | Pareto front: update result, order independence and errors | proved | C16_update_result, C16_order_independent, C16_wrong_arity |
| C17 | NSGA-II selection returns the requested number by non-domination | partial | C17_selection_partial, C17_negative, C17_false |
| C18 | Non-dominated sorting is a correct layering | proved | C18_sort_is_layering, C18_sort_any_dominance |
| C19 | NSGA-II tournaments prefer the better front | partial | C19_tournament_partial, C19_parents_partial, C19_otherwise, C19_false |
| C20 | Parent pairs consist of two different individuals of the population | proved | C20_parent_pairs |
| C21 | Survivor elimination removes a member nobody is worse than | proved | C21_elimination, C21_errors |
| C22 | The evaluation library keeps the m best evaluations | proved | C22_keeps_best |
| C23 | The evaluation library never loses or duplicates an evaluation | partial | C23_no_loss_partial, C23_otherwise, C23_false |
| C24 | Cached models on disk are exactly those of the kept evaluations | partial | C24_cache_partial, C24_otherwise, C24_false |
| C25 | n_best returns the best evaluations in order | proved | C25_n_best |
| C26 | An evaluated pipeline is recognised as evaluated | partial | C26_lookup_partial, C26_otherwise, C26_false |
| C27 | Stored predictions of different evaluations refer to the same rows | partial | C27_same_rows_partial, C27_otherwise, C27_false |
| C28 | Every returned evaluation is the one of its own job, at most once | proved | C28_own_result, C28_result_is_return_value |
| C29 | Every submitted job is eventually accounted for | partial | C29_accounted_partial, C29_all_returned_partial, C29_otherwise, C29_false, C29_false_result |
| C30 | Waiting without pending jobs raises instead of blocking; job_queue_size tracks the backlog | partial | C30_wait_without_jobs, C30_backlog_partial, C30_false |
| C31 | A failing job is reported and does not take down others | partial | C31_reported_partial, C31_continues_partial, C31_returned_exception_partial, C31_otherwise, C31_false |
| C32 | Memory control stops at most one worker at a time and keeps at least one | proved | C32_number_of_workers, C32_stops_only_over_limit |
| C33 | Arguments given with a job are the ones used | partial | C33_disjoint_partial, C33_exact, C33_false |
| C34 | The evolutionary population never exceeds its size and holds only error-free evaluated individuals | proved | C34_population |
| C35 | The evolutionary search stops after max_n_evaluations | proved | C35_bound, C35_refused, C35_terminates |
| C36 | The evolutionary search never starves or aborts by itself | partial | C36_never_starves, C36_never_aborts_partial, C36_false, C36_false_failures |
| C37 | Calling fit again continues from the previous population | partial | C37_random_search_partial, C37_asha_partial, C37_false, C37_second_fit_fails |
| C38 | Random search reports everything it evaluated, within its budget | proved | C38_reports_all, C38_interrupted, C38_budget, C38_candidates_first |
| C39 | ASHA promotes only top performers, each at most once per rung | proved | C39_promotions, C39_best |
| C40 | ASHA resource allocation | partial | C40_rows_partial, C40_fractions_partial, C40_default, C40_resources, C40_rounded_partial, C40_types, C40_full, C40_reversed, C40_extra_rung, C40_top_sampled, C40_false |
| C41 | ASHA reports the individuals of the highest rung reached | partial | C41_interrupted_partial, C41_returned_partial, C41_highest_exists, C41_false, C41_nothing_evaluated, C41_other_exceptions, C41_no_rungs |
| C42 | Ensemble weights add up to the ensemble size | proved | C42_weights |
| C43 | Each ensemble expansion is greedily optimal | proved | C43_greedy |
| C44 | The incrementally tracked validation prediction is the weighted mean | partial | C44_score_partial, C44_otherwise, C44_false |
| C45 | Ensemble prediction is a convex combination of its models | proved | C45_mean, C45_between, C45_agree, C45_probabilities, C45_vote |
| C46 | Ensemble scoring compares predictions with the labels of the same rows | partial | C46_rows_partial, C46_false, C46_out_of_bounds |
| C47 | Pickling an ensemble does not change it | partial | C47_predict_partial, C47_false, C47_export_fails |
| C48 | Best-fit post-processing fits the best individual found | proved | C48_best_fit |
| C49 | Remaining time never increases and accounts for all activities | proved | C49_accounts, C49_decreases, C49_finished |
| C50 | No activity is current after it ended | partial | C50_current_partial, C50_during, C50_false, C50_stale |
| C51 | Time budgets handed to the phases and evaluations fit the total | proved | C51_phases, C51_evaluation |
| C52 | Default max_eval_time is usable | partial | C52_default_partial, C52_unusable, C52_given, C52_false |
| C53 | Removing unlabeled rows keeps data and labels aligned | partial | C53_partial, C53_complete, C53_by_index, C53_false, C53_error |
| C54 | Every categorical column is encoded by exactly one encoder | proved | C54, C54_which, C54_only, C54_left, C54_steps |
| C55 | Loading a file separates exactly the target column | proved | C55_named, C55_last, C55_unknown |
| C56 | No training row is validated on | partial | C56_partial, C56_positions, C56_leak, C56_prefix, C56_false |
| C57 | Validation predictions are out-of-fold and complete | proved | C57 |
| C58 | Evaluations report one score per metric (plus length) and record failures | proved | C58_scores, C58_reported, C58_raised, C58_contained, C58_outside |
| C59 | Predicted labels are original labels | proved | C59_strings, C59_numbers, C59_decoded, C59_empty, C59_formats, C59_number_formats |
| C60 | Target formats are normalised | partial | C60_partial, C60_frames, C60_single_row, C60_classifier, C60_lists, C60_other, C60_false |
| C61 | The search space offers exactly what the configuration lists | partial | C61_partial, C61_refused, C61_usable, C61_false |
| C62 | Merging configurations unions them and leaves the inputs alone | partial | C62_partial, C62_merges, C62_modified, C62_loses_shared, C62_false |
| C63 | Hyperparameter precedence | partial | C63_partial, C63_known, C63_asha_partial, C63_asha_default, C63_asha_false |
| C64 | Invalid construction arguments are refused and leave no trace | proved | C64_refused, C64_anywhere, C64_untouched, C64_accepted |
| C65 | Default n_jobs works on every machine | partial | C65_partial, C65_given, C65_exact, C65_false |
| C66 | Callbacks are all called, in order, despite failing callbacks | proved | C66_all_called, C66_timeout, C66_interrupt, C66_order |
| C67 | Only what was asked for is stored | proved | C67_kept, C67_fit, C67_foreign, C67_twice, C67_unknown |
| C68 | Instances do not affect each other | partial | C68_partial, C68_last, C68_false |
| C69 | Turning off length regularisation works for every scoring | partial | C69_partial, C69_fails, C69_search, C69_false |
| C70 | Compiled pipelines run the steps in order with unique names | proved | C70_steps, C70_names, C70_estimator_last |
| C71 | Exported code describes the model that was fitted | partial | C71_partial, C71_false, C71_text, C71_imports, C71_names_partial, C71_names_false, C71_private_module, C71_values_partial, C71_values_false, C71_ensemble, C71_ensemble_vars |
| C72 | The evaluation log can be read back | partial | C72_partial, C72_newline, C72_separator, C72_quote, C72_false |
| C73 | Reading the log incrementally gives the same report as reading it at once | proved | C73_incremental, C73_contents, C73_complete, C73_finished, C73_news, C73_values |
| C74 | There is one console handler, with the latest verbosity | partial | C74_partial, C74_exact, C74_false |
| C75 | Hyperparameters of a run can be read back from its log | partial | C75_partial, C75_search_space, C75_false |
| C76 | Reading ARFF metadata terminates with the declared attributes | partial | C76_partial, C76_diverges, C76_ends, C76_false, C76_other_forms |
| C77 | Command line options reach the run | partial | C77_partial, C77_refused, C77_mode, C77_separator, C77_case, C77_false, C77_false_case |
| C78 | Offspring are made from members of the population | proved | C78_offspring |
| C79 | When a front is cut the least crowded members are kept | proved | C79_least_crowded, C79_distances |
| C80 | An evaluator is entered once and leaves no processes behind | proved | C80_enter_once, C80_leaves_no_process |
| C81 | The ensemble's limits on models and rows are respected | partial | C81_limits_partial, C81_capped, C81_false |
| C82 | An ensemble that is returned can predict | partial | C82_predict_partial, C82_unfitted, C82_false |
| C83 | Rows without label play no part in training a classifier | partial | C83_partial, C83_strings, C83_formats, C83_false |
| C84 | The metric asked for is the one computed everywhere | partial | C84_partial, C84_otherwise, C84_false, C84_sign_false |
| C85 | A failed evaluation reports no result | partial | C85_partial, C85_after, C85_false |
| C86 | A pipeline can be evaluated on any part of the data | partial | C86_partial, C86_exact, C86_false, C86_index_false |
| C87 | What a search reports was evaluated in that search | partial | C87_partial, C87_evolution, C87_halving_partial, C87_false, C87_errors, C87_errors_halving |
| C88 | A construction that fails leaves no output directory | partial | C88_partial, C88_left, C88_false |
| C89 | Fit can be called again | partial | C89_partial, C89_false, C89_logs |
| C90 | Metrics may be given in any iterable | partial | C90_partial, C90_refused, C90_iterator, C90_false |
| C91 | Individuals apply the preprocessing of the current fit | partial | C91_partial, C91_later, C91_false |
| C92 | Large data excludes only heavy algorithms, and only for that data | partial | C92_partial, C92_exact, C92_only, C92_excluded, C92_false |
| C93 | The log of a run contains what that run logged | partial | C93_contents, C93_partial, C93_false |
| C94 | Phases of a run can be read back from its log | proved | C94_phases |
| C95 | The header of a csv file is the list of its column names | partial | C95_partial, C95_no_line_end, C95_numbers, C95_false |
| C96 | Metadata can be read of exactly the files whose data can be loaded | partial | C96_partial, C96_exact, C96_false |
| C97 | Classifiers that cannot predict probabilities are left out exactly when needed | proved | C97_space |
| C98 | Macro-averaged metrics weigh all classes equally | partial | C98_weights, C98_partial, C98_false, C98_weighted, C98_averages_partial, C98_measures_partial, C98_exact_partial, C98_samples |
| C99 | Categorical columns of arrays are recognised for every element type | partial | C99_partial, C99_unsigned, C99_false |
| C100 | Arrays can be predicted like the training data | partial | C100_partial, C100_exact, C100_short, C100_false |
| C101 | Prediction uses the parts of one fit | partial | C101_partial, C101_failed, C101_unfitted, C101_false |
| C102 | Exporting a script writes the file named and no other | proved | C102_export, C102_edges |
| C103 | The evaluations log has the columns asked for | proved | C103_columns, C103_searches |
| C104 | Creating a logger leaves the given dictionary alone | partial | C104_partial, C104_false |
| C105 | Successive halving keeps eight evaluations under way | proved | C105_busy |
| C106 | A finished evolutionary search reports what succeeded | partial | C106_partial, C106_no_restart_partial, C106_false |
| C107 | A restart begins anew | partial | C107_partial, C107_otherwise, C107_false |
| C108 | Searching does not change the given candidates | partial | C108_partial, C108_false |
| C109 | Files and data frames are treated alike | proved | C109_files, C109_scores, C109_target_ignored, C109_failures |
| C110 | The encoding given is used | partial | C110_partial, C110_otherwise, C110_false |
| C111 | Options for reading csv files are respected | proved | C111_options |
| C112 | ARFF columns are categorical exactly if declared so | proved | C112_categories, C112_empty |
| C113 | A fitted classifier can be scored | partial | C113_partial, C113_false |
| C114 | Large data leaves a usable search space | partial | C114_partial, C114_false |
| C115 | Successful evaluations of a report | partial | C115_partial, C115_rows, C115_false |
| C116 | Micro-averaged metrics are the share of right predictions | partial | C116_partial, C116_weights, C116_false |
| C117 | The fitted pipeline is the best one found | partial | C117_partial, C117_kept_partial, C117_one_objective_partial, C117_random_partial, C117_otherwise, C117_false |
| C118 | Every pipeline of the search space can be created | proved | C118, C118_expression |
| C119 | A mutation can make every change it advertises | partial | C119_partial, C119_single_partial, C119_false |
| C120 | Search by mutation can reach every pipeline | partial | C120_partial, C120_default, C120_stuck_partial, C120_false |
| C121 | Crossover can make every exchange between two parents | proved | C121 |
| C122 | The default search spaces can be used | partial | C122_partial, C122_stuck, C122_false |
| C123 | Reports read every pipeline of the default search spaces | proved | C123 |
| C124 | Importing the reports does not change the default search spaces | partial | C124_partial, C124_false |
| C125 | Combinations ruled out by a check are not created | partial | C125_partial, C125_ignored, C125_false |
| C126 | All pipelines evaluated are pipelines of the search space, and stay what they are | proved | C126_evolution, C126_evolution_any, C126_random_search, C126_random_search_any, C126_halving, C126_halving_any, C126_default |
| C127 | An evolutionary search does not end itself | partial | C127_partial, C127_unlimited_partial, C127_two_partial, C127_default_partial, C127_false |
| C128 | A search that is cut off leaves the best pipeline found | partial | C128_evolution_moment_partial, C128_evolution_partial, C128_evolution_best_partial, C128_random_search, C128_random_search_moment, C128_halving_partial, C128_halving_stopped, C128_own_exception, C128_false, C128_false_restart |
| C129 | A warm start is where the search starts | partial | C129_taken, C129_refused, C129_evolution_partial, C129_warm_start, C129_own_population, C129_false |
| C130 | What a search is told of a pipeline is what evaluating that pipeline gave | proved | C130_evolution, C130_random_search, C130_halving, C130_population |
| C131 | A search never waits for nothing | partial | C131_evolution_partial, C131_random_search, C131_halving, C131_second_fit, C131_false |
| C132 | A search that waits is told an outcome | partial | C132_progress_partial, C132_otherwise, C132_stands_still, C132_false |
| C133 | An ensemble is made of the search's own results, scored on matching rows | proved | C133_hillclimb, C133_none |
| C134 | The evaluation library holds what the search was told | proved | C134_evolution, C134_pipelines, C134_random_search |
| C135 | The evaluation library holds what successive halving was told | proved | C135_halving |
| C136 | Evolution does not submit what it has already evaluated | proved | C136_new |
| C137 | The ensemble of a fit is built from the best pipelines the search was told of | proved | C137_evolution, C137_random_search, C137_halving |
| C138 | The maximum pipeline length asked for is the one searched with | proved | C138_constructed, C138_refused, C138_created, C138_search, C138_zero |
| C139 | Files are read alike whatever their line ends | proved | C139_line_ends |
| C140 | The exported ensemble votes by the rule of the fitted one | proved | C140_exported, C140_values, C140_rule, C140_script |
| C141 | Class probabilities of an ensemble are probabilities | proved | C141_proba |
| C142 | A report can be made of the logs of every run | partial | C142_partial, C142_lines, C142_shown, C142_unregularized, C142_search_space, C142_false |
| C143 | The ensemble of a later fit is made of the models of that fit | partial | C143_partial, C143_better, C143_false, C143_rows_false |
| C144 | After a later fit the ensemble can predict | partial | C144_partial, C144_unusable, C144_false |
| C145 | A regressor fitted again on data of another size records what it evaluates | partial | C145_partial, C145_lost, C145_false |
| C146 | An ensemble can be printed | partial | C146_partial, C146_raises, C146_pickled, C146_false |
| C147 | A column listed for a csv file can be asked for as its target | partial | C147_partial, C147_numbered, C147_last, C147_false |
| C148 | A categorical feature that takes different values is available to models | partial | C148_partial, C148_single, C148_constant, C148_rare, C148_false |
| C149 | A classifier can be fitted whatever the number of rows | partial | C149_partial, C149_accepted, C149_refused, C149_no_limit, C149_missing, C149_false |
| C150 | The columns of predicted probabilities are for the labels in increasing order | proved | C150_columns |
| C151 | Probabilities predicted in different folds are for the same labels | proved | C151_log_loss, C151_two_labels, C151_roc_auc |
| C152 | Rows without label do not keep pipelines from being evaluated | partial | C152_partial, C152_refused, C152_false |
| C153 | With one worker the same seed gives the same search | partial | C153_alone, C153_same, C153_prefix, C153_evolution, C153_random_search, C153_halving_partial, C153_false |
| C154 | A report can be made of the directory given to a run | partial | C154_partial, C154_evaluations, C154_home, C154_name, C154_false, C154_name_false |
| C155 | What a run writes is in its output directory | partial | C155_partial, C155_no_dollar, C155_logs, C155_false |
| C156 | Successive halving accepts resources that make sense | partial | C156_partial, C156_kinds, C156_too_many, C156_false |
| C157 | Pipelines can be evaluated on every rung | partial | C157_partial, C157_nothing, C157_false |
| C158 | A fit in which an evaluation succeeded gives a model that predicts | partial | C158_evolution_partial, C158_random_search_partial, C158_raises, C158_raises_random_search, C158_false |
| C159 | A successive halving in which an evaluation succeeded gives a model that predicts | partial | C159_partial, C159_none, C159_few, C159_raises, C159_false |
| C160 | A search cut off while an evaluation is being saved leaves everything usable | partial | C160_library, C160_evolution_partial, C160_random_search_partial, C160_halving_partial, C160_raises, C160_raises_random_search, C160_raises_halving, C160_false |
| C161 | A warm start may list a pipeline more than once | partial | C161_evolution_partial, C161_random_search_partial, C161_lost, C161_false |
| C162 | The pipeline trained by default is the best one found | partial | C162_evolution_partial, C162_random_search, C162_random_search_ok, C162_halving, C162_false |
| C163 | Columns may have any names | partial | C163_partial, C163_refused, C163_false |
| C164 | A search ends although its timeout was swallowed | partial | C164_partial, C164_exact, C164_random_search, C164_evolution, C164_halving, C164_false |
| C165 | The random state given is the one searched with | partial | C165_partial, C165_exact, C165_second, C165_false |
| C166 | Any number of instances can be made in a process | partial | C166_partial, C166_false |
| C167 | The model saved by the command line predicts like the instance it was saved from | partial | C167_partial, C167_strings, C167_false |
| C168 | Text among the features is encoded before pipelines see it | partial | C168_partial, C168_raises, C168_false |
| C169 | Callbacks may register callbacks | proved | C169_told, C169_ends, C169_endless, C169_later, C169_stopped |
| C170 | A score that is not a number does not displace better pipelines | partial | C170_partial, C170_frozen, C170_false |
| C171 | A score that is not a number is not taken for the best | partial | C171_partial, C171_last, C171_hidden, C171_false |
| C172 | Waiting for a result is not ended by what happens to worker processes | partial | C172_partial, C172_exact, C172_twice, C172_false |
| C173 | What is given on the command line is what is used | proved | C173, C173_any_file, C173_refused, C173_run |
| C174 | What main does depends on the command it is given | partial | C174_partial, C174_text, C174_otherwise, C174_false |
| C175 | Options that do not exist are refused | partial | C175_partial, C175_abbreviation, C175_false |
| C176 | A pipeline whose score is not a number leaves the population before those with a score | partial | C176_partial, C176_errors, C176_false |
| C177 | A pipeline with a score is not passed over as a parent for one whose score is not a number | partial | C177_partial, C177_otherwise, C177_false |
| C178 | The memory log can be read back | proved | C178_line, C178_file |
| C179 | Parents are chosen although scores are not numbers | proved | C179_parents, C179_few, C179_selection, C179_numbers, C179_distances, C179_tie |
| C180 | Successive halving promotes no pipeline whose score is not a number before one with a score | partial | C180_partial, C180_promotes, C180_otherwise, C180_false |
| C181 | No submitted job is run twice | proved | C181_once |
| C182 | An ensemble can be used although scores are not numbers | partial | C182_partial, C182_exact, C182_false |
| C183 | A report can be updated at any moment of a run | partial | C183_partial, C183_missing, C183_shortened, C183_stuck, C183_false |
| C184 | How likely a random pipeline is | proved | C184, C184_never, C184_length, C184_estimator, C184_default, fair_exists |
| C185 | Enough random pipelines contain every pipeline | proved | C185, C185_enough, C184_default, pipelineShare_pos |
| C186 | How often parents are crossed | proved | C186, C186_cannot, C186_near, wp_offspring_first |
| C187 | Every kind of mutation is equally likely | proved | C187, C187_never |
| C188 | How likely each pair of parents is | proved | C188, C188_first, C188_better, C188_worst |
| C189 | A Pareto front keeps the first of equal items | proved | C189 |
| C190 | Each of the worst pipelines is equally likely to leave the population | proved | C190, C190_never |
| C191 | How likely each child of a crossover is | proved | C191 |
| C192 | How likely each child of a mutation is | proved | C192 |
| C193 | How likely each offspring of two parents is | proved | C193, C193_cannot |
| C194 | How likely each offspring of a population is | proved | C194, C194_create, C194_total |
| C195 | Which pipelines have a chance of being the next | proved | C195, C195_mutate, C195_mate |
| C196 | How likely each child is when some were evaluated before | proved | C196, C196_mutate, C196_mate, C196_mutate_new, C196_mutate_again, C196_mate_new, C196_mate_again |
| C197 | What was evaluated before rules no pipeline out | proved | C197, C197_mutate, C197_mate |
