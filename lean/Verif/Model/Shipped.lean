import Verif.Model.Config

/-! # The search spaces that come with GAMA

Written by tools/mkshipped.py from the text of gama/configuration/classification.py and
gama/configuration/regression.py.

A number is represented by its exact value times 2^80 and its text.  `np.arange(start, stop, step)` has
`ceil((stop - start) / step)` elements, the first two `start` and `start + step`, the others
`start + i * delta` with the difference `delta` of the first two, in floating point arithmetic (numpy's
`DOUBLE_fill`).  That an algorithm is a transformer, classifier or regressor and whether its instances have
`predict_proba` are facts about scikit-learn.  `modul` is the module the class is imported from. -/

namespace Gama

/-- `range` and `numpy.ndarray` as types of a sequence (`listTag` is `list`). -/
def rangeTag : Nat := 1
def arrayTag : Nat := 2

/-- The elements of `range(lo, hi)`. -/
def ints (lo hi : Nat) : List Value :=
  (List.range' lo (hi - lo)).map fun n => .atom ((n * 2 ^ 80 : Nat) : Int) (Nat.toDigits 10 n)

/-- A key of a configuration. -/
inductive ConfigKey where
  | name (s : Str)
  | cls (c : Cls)
  deriving DecidableEq

/-- `np.arange(0.05, 1.01, 0.05)` -/
def array0 : List Value :=
  [.atom 60446290980731462090752 "0.05".toList, .atom 120892581961462924181504 "0.1".toList, .atom
   181338872942194403049472 "0.15000000000000002".toList, .atom 241785163922925848363008 "0.2".toList, .atom
   302231454903657293676544 "0.25".toList, .atom 362677745884388738990080 "0.3".toList, .atom
   423124036865120251412480 "0.35000000000000003".toList, .atom 483570327845851696726016 "0.4".toList, .atom
   544016618826583142039552 "0.45".toList, .atom 604462909807314587353088 "0.5".toList, .atom
   664909200788046099775488 "0.55".toList, .atom 725355491768777612197888 "0.6000000000000001".toList, .atom
   785801782749509124620288 "0.6500000000000001".toList, .atom 846248073730240502824960
   "0.7000000000000001".toList, .atom 906694364710972015247360 "0.7500000000000001".toList, .atom
   967140655691703393452032 "0.8".toList, .atom 1027586946672434905874432 "0.8500000000000001".toList, .atom
   1088033237653166418296832 "0.9000000000000001".toList, .atom 1148479528633897796501504
   "0.9500000000000001".toList, .atom 1208925819614629174706176 "1.0".toList]

/-- `np.arange(0.0, 1.01, 0.05)` -/
def array1 : List Value :=
  [.atom 0 "0.0".toList, .atom 60446290980731462090752 "0.05".toList, .atom 120892581961462924181504
   "0.1".toList, .atom 181338872942194403049472 "0.15000000000000002".toList, .atom 241785163922925848363008
   "0.2".toList, .atom 302231454903657293676544 "0.25".toList, .atom 362677745884388806098944
   "0.30000000000000004".toList, .atom 423124036865120251412480 "0.35000000000000003".toList, .atom
   483570327845851696726016 "0.4".toList, .atom 544016618826583142039552 "0.45".toList, .atom
   604462909807314587353088 "0.5".toList, .atom 664909200788046099775488 "0.55".toList, .atom
   725355491768777612197888 "0.6000000000000001".toList, .atom 785801782749508990402560 "0.65".toList, .atom
   846248073730240502824960 "0.7000000000000001".toList, .atom 906694364710971881029632 "0.75".toList, .atom
   967140655691703393452032 "0.8".toList, .atom 1027586946672434905874432 "0.8500000000000001".toList, .atom
   1088033237653166284079104 "0.9".toList, .atom 1148479528633897796501504 "0.9500000000000001".toList,
   .atom 1208925819614629174706176 "1.0".toList]

/-- `np.arange(0, 0.05, 0.001)` -/
def array2 : List Value :=
  [.atom 0 "0.0".toList, .atom 1208925819614629199872 "0.001".toList, .atom 2417851639229258399744
   "0.002".toList, .atom 3626777458843887599616 "0.003".toList, .atom 4835703278458516799488 "0.004".toList,
   .atom 6044629098073145999360 "0.005".toList, .atom 7253554917687775199232 "0.006".toList, .atom
   8462480737302404399104 "0.007".toList, .atom 9671406556917033598976 "0.008".toList, .atom
   10880332376531663847424 "0.009000000000000001".toList, .atom 12089258196146291998720 "0.01".toList, .atom
   13298184015760920150016 "0.011".toList, .atom 14507109835375550398464 "0.012".toList, .atom
   15716035654990180646912 "0.013000000000000001".toList, .atom 16924961474604808798208 "0.014".toList,
   .atom 18133887294219436949504 "0.015".toList, .atom 19342813113834067197952 "0.016".toList, .atom
   20551738933448697446400 "0.017".toList, .atom 21760664753063327694848 "0.018000000000000002".toList,
   .atom 22969590572677953748992 "0.019".toList, .atom 24178516392292583997440 "0.02".toList, .atom
   25387442211907214245888 "0.021".toList, .atom 26596368031521840300032 "0.022".toList, .atom
   27805293851136470548480 "0.023".toList, .atom 29014219670751100796928 "0.024".toList, .atom
   30223145490365731045376 "0.025".toList, .atom 31432071309980361293824 "0.026000000000000002".toList,
   .atom 32640997129594987347968 "0.027".toList, .atom 33849922949209617596416 "0.028".toList, .atom
   35058848768824247844864 "0.029".toList, .atom 36267774588438873899008 "0.03".toList, .atom
   37476700408053504147456 "0.031".toList, .atom 38685626227668134395904 "0.032".toList, .atom
   39894552047282764644352 "0.033".toList, .atom 41103477866897394892800 "0.034".toList, .atom
   42312403686512025141248 "0.035".toList, .atom 43521329506126655389696 "0.036000000000000004".toList,
   .atom 44730255325741277249536 "0.037".toList, .atom 45939181145355907497984 "0.038".toList, .atom
   47148106964970537746432 "0.039".toList, .atom 48357032784585167994880 "0.04".toList, .atom
   49565958604199798243328 "0.041".toList, .atom 50774884423814428491776 "0.042".toList, .atom
   51983810243429058740224 "0.043000000000000003".toList, .atom 53192736063043680600064 "0.044".toList,
   .atom 54401661882658310848512 "0.045".toList, .atom 55610587702272941096960 "0.046".toList, .atom
   56819513521887571345408 "0.047".toList, .atom 58028439341502201593856 "0.048".toList, .atom
   59237365161116831842304 "0.049".toList]

/-- The hyperparameters of the algorithms: first those of `clf_config`, classification.py l.36-147, then
those of `reg_config`, regression.py l.37-136. -/
def shippedHeap : List HParams := [
  [],
  [("alpha".toList, .seq listTag []), ("fit_prior".toList, .seq listTag [])],
  [("alpha".toList, .seq listTag []), ("fit_prior".toList, .seq listTag [])],
  [("criterion".toList, .seq listTag [.str "gini".toList, .str "entropy".toList]), ("max_depth".toList, .seq
   rangeTag (ints 1 11)), ("min_samples_split".toList, .seq listTag []), ("min_samples_leaf".toList, .seq
   listTag [])],
  [("n_estimators".toList, .seq listTag [.atom 120892581961462917470617600 "100".toList]),
   ("criterion".toList, .seq listTag [.str "gini".toList, .str "entropy".toList]), ("max_features".toList,
   .seq arrayTag array0), ("min_samples_split".toList, .seq listTag []), ("min_samples_leaf".toList, .seq
   listTag []), ("bootstrap".toList, .seq listTag [.atom 1208925819614629174706176 "True".toList, .atom 0
   "False".toList])],
  [("n_estimators".toList, .seq listTag [.atom 120892581961462917470617600 "100".toList]),
   ("criterion".toList, .seq listTag [.str "gini".toList, .str "entropy".toList]), ("max_features".toList,
   .seq arrayTag array0), ("min_samples_split".toList, .seq rangeTag (ints 2 21)),
   ("min_samples_leaf".toList, .seq rangeTag (ints 1 21)), ("bootstrap".toList, .seq listTag [.atom
   1208925819614629174706176 "True".toList, .atom 0 "False".toList])],
  [("n_estimators".toList, .seq listTag [.atom 120892581961462917470617600 "100".toList]),
   ("learning_rate".toList, .seq listTag [.atom 1208925819614629199872 "0.001".toList, .atom
   12089258196146291998720 "0.01".toList, .atom 120892581961462924181504 "0.1".toList, .atom
   604462909807314587353088 "0.5".toList, .atom 1208925819614629174706176 "1.0".toList]),
   ("max_depth".toList, .seq rangeTag (ints 1 11)), ("min_samples_split".toList, .seq rangeTag (ints 2 21)),
   ("min_samples_leaf".toList, .seq rangeTag (ints 1 21)), ("subsample".toList, .seq arrayTag array0),
   ("max_features".toList, .seq arrayTag array0)],
  [("n_neighbors".toList, .seq rangeTag (ints 1 51)), ("weights".toList, .seq listTag [.str
   "uniform".toList, .str "distance".toList]), ("p".toList, .seq listTag [.atom 1208925819614629174706176
   "1".toList, .atom 2417851639229258349412352 "2".toList])],
  [("penalty".toList, .seq listTag [.str "l1".toList, .str "l2".toList]), ("loss".toList, .seq listTag [.str
   "hinge".toList, .str "squared_hinge".toList]), ("dual".toList, .seq listTag [.atom 0 "False".toList,
   .atom 1208925819614629174706176 "True".toList]), ("tol".toList, .seq listTag [.atom 12089258196146292736
   "1e-05".toList, .atom 120892581961462923264 "0.0001".toList, .atom 1208925819614629199872 "0.001".toList,
   .atom 12089258196146291998720 "0.01".toList, .atom 120892581961462924181504 "0.1".toList]), ("C".toList,
   .seq listTag [.atom 120892581961462923264 "0.0001".toList, .atom 1208925819614629199872 "0.001".toList,
   .atom 12089258196146291998720 "0.01".toList, .atom 120892581961462924181504 "0.1".toList, .atom
   604462909807314587353088 "0.5".toList, .atom 1208925819614629174706176 "1.0".toList, .atom
   6044629098073145873530880 "5.0".toList, .atom 12089258196146291747061760 "10.0".toList, .atom
   18133887294219437620592640 "15.0".toList, .atom 24178516392292583494123520 "20.0".toList, .atom
   30223145490365729367654400 "25.0".toList]), ("param_check".toList, .seq listTag [.fn 100
   "<lambda>".toList])],
  [("penalty".toList, .seq listTag [.str "l2".toList]), ("C".toList, .seq listTag [.atom
   120892581961462923264 "0.0001".toList, .atom 1208925819614629199872 "0.001".toList, .atom
   12089258196146291998720 "0.01".toList, .atom 120892581961462924181504 "0.1".toList, .atom
   604462909807314587353088 "0.5".toList, .atom 1208925819614629174706176 "1.0".toList, .atom
   6044629098073145873530880 "5.0".toList, .atom 12089258196146291747061760 "10.0".toList, .atom
   18133887294219437620592640 "15.0".toList, .atom 24178516392292583494123520 "20.0".toList, .atom
   30223145490365729367654400 "25.0".toList]), ("dual".toList, .seq listTag [.atom 0 "False".toList, .atom
   1208925819614629174706176 "True".toList]), ("solver".toList, .seq listTag [.str "lbfgs".toList])],
  [("threshold".toList, .seq arrayTag array1)],
  [("tol".toList, .seq arrayTag array1), ("whiten".toList, .seq listTag [.str "unit-variance".toList])],
  [("linkage".toList, .seq listTag [.str "ward".toList, .str "complete".toList, .str "average".toList]),
   ("affinity".toList, .seq listTag [.str "euclidean".toList, .str "l1".toList, .str "l2".toList, .str
   "manhattan".toList, .str "cosine".toList, .str "precomputed".toList]), ("param_check".toList, .seq
   listTag [.fn 101 "<lambda>".toList])],
  [],
  [],
  [("norm".toList, .seq listTag [.str "l1".toList, .str "l2".toList, .str "max".toList])],
  [("kernel".toList, .seq listTag [.str "rbf".toList, .str "cosine".toList, .str "chi2".toList, .str
   "laplacian".toList, .str "polynomial".toList, .str "poly".toList, .str "linear".toList, .str
   "additive_chi2".toList, .str "sigmoid".toList]), ("gamma".toList, .seq arrayTag array1),
   ("n_components".toList, .seq rangeTag (ints 1 11))],
  [("svd_solver".toList, .seq listTag [.str "randomized".toList]), ("iterated_power".toList, .seq rangeTag
   (ints 1 11))],
  [("degree".toList, .seq listTag [.atom 2417851639229258349412352 "2".toList]), ("include_bias".toList,
   .seq listTag [.atom 0 "False".toList]), ("interaction_only".toList, .seq listTag [.atom 0
   "False".toList])],
  [("gamma".toList, .seq arrayTag array1)],
  [],
  [],
  [("alpha".toList, .seq arrayTag array2), ("score_func".toList, .dict [("f_classif".toList, .fn 0
   "f_classif".toList)])],
  [("percentile".toList, .seq rangeTag (ints 1 100)), ("score_func".toList, .dict [("f_classif".toList, .fn
   0 "f_classif".toList)])],
  [("threshold".toList, .seq arrayTag array0)],
  [("l1_ratio".toList, .seq arrayTag array1), ("tol".toList, .seq listTag [.atom 12089258196146292736
   "1e-05".toList, .atom 120892581961462923264 "0.0001".toList, .atom 1208925819614629199872 "0.001".toList,
   .atom 12089258196146291998720 "0.01".toList, .atom 120892581961462924181504 "0.1".toList])],
  [("n_estimators".toList, .seq listTag [.atom 120892581961462917470617600 "100".toList]),
   ("max_features".toList, .seq arrayTag array0), ("min_samples_split".toList, .seq rangeTag (ints 2 21)),
   ("min_samples_leaf".toList, .seq rangeTag (ints 1 21)), ("bootstrap".toList, .seq listTag [.atom
   1208925819614629174706176 "True".toList, .atom 0 "False".toList])],
  [("n_estimators".toList, .seq listTag [.atom 120892581961462917470617600 "100".toList]), ("loss".toList,
   .seq listTag [.str "squared_error".toList, .str "absolute_error".toList, .str "huber".toList, .str
   "quantile".toList]), ("learning_rate".toList, .seq listTag [.atom 1208925819614629199872 "0.001".toList,
   .atom 12089258196146291998720 "0.01".toList, .atom 120892581961462924181504 "0.1".toList, .atom
   604462909807314587353088 "0.5".toList, .atom 1208925819614629174706176 "1.0".toList]),
   ("max_depth".toList, .seq rangeTag (ints 1 11)), ("min_samples_split".toList, .seq rangeTag (ints 2 21)),
   ("min_samples_leaf".toList, .seq rangeTag (ints 1 21)), ("subsample".toList, .seq arrayTag array0),
   ("max_features".toList, .seq arrayTag array0), ("alpha".toList, .seq listTag [.atom
   906694364710971881029632 "0.75".toList, .atom 967140655691703393452032 "0.8".toList, .atom
   1027586946672434771656704 "0.85".toList, .atom 1088033237653166284079104 "0.9".toList, .atom
   1148479528633897662283776 "0.95".toList, .atom 1196836561418482872221696 "0.99".toList])],
  [("n_estimators".toList, .seq listTag [.atom 120892581961462917470617600 "100".toList]),
   ("learning_rate".toList, .seq listTag [.atom 1208925819614629199872 "0.001".toList, .atom
   12089258196146291998720 "0.01".toList, .atom 120892581961462924181504 "0.1".toList, .atom
   604462909807314587353088 "0.5".toList, .atom 1208925819614629174706176 "1.0".toList]), ("loss".toList,
   .seq listTag [.str "linear".toList, .str "square".toList, .str "exponential".toList])],
  [("max_depth".toList, .seq rangeTag (ints 1 11)), ("min_samples_split".toList, .seq rangeTag (ints 2 21)),
   ("min_samples_leaf".toList, .seq rangeTag (ints 1 21))],
  [("n_neighbors".toList, .seq rangeTag (ints 1 101)), ("weights".toList, .seq listTag [.str
   "uniform".toList, .str "distance".toList]), ("p".toList, .seq listTag [.atom 1208925819614629174706176
   "1".toList, .atom 2417851639229258349412352 "2".toList])],
  [("normalize".toList, .seq listTag [.atom 1208925819614629174706176 "True".toList, .atom 0
   "False".toList])],
  [("loss".toList, .seq listTag [.str "epsilon_insensitive".toList, .str
   "squared_epsilon_insensitive".toList]), ("dual".toList, .seq listTag [.atom 1208925819614629174706176
   "True".toList, .atom 0 "False".toList]), ("tol".toList, .seq listTag [.atom 12089258196146292736
   "1e-05".toList, .atom 120892581961462923264 "0.0001".toList, .atom 1208925819614629199872 "0.001".toList,
   .atom 12089258196146291998720 "0.01".toList, .atom 120892581961462924181504 "0.1".toList]), ("C".toList,
   .seq listTag [.atom 120892581961462923264 "0.0001".toList, .atom 1208925819614629199872 "0.001".toList,
   .atom 12089258196146291998720 "0.01".toList, .atom 120892581961462924181504 "0.1".toList, .atom
   604462909807314587353088 "0.5".toList, .atom 1208925819614629174706176 "1.0".toList, .atom
   6044629098073145873530880 "5.0".toList, .atom 12089258196146291747061760 "10.0".toList, .atom
   18133887294219437620592640 "15.0".toList, .atom 24178516392292583494123520 "20.0".toList, .atom
   30223145490365729367654400 "25.0".toList]), ("epsilon".toList, .seq listTag [.atom 120892581961462923264
   "0.0001".toList, .atom 1208925819614629199872 "0.001".toList, .atom 12089258196146291998720
   "0.01".toList, .atom 120892581961462924181504 "0.1".toList, .atom 1208925819614629174706176
   "1.0".toList])],
  [("n_estimators".toList, .seq listTag [.atom 120892581961462917470617600 "100".toList]),
   ("max_features".toList, .seq arrayTag array0), ("min_samples_split".toList, .seq rangeTag (ints 2 21)),
   ("min_samples_leaf".toList, .seq rangeTag (ints 1 21)), ("bootstrap".toList, .seq listTag [.atom
   1208925819614629174706176 "True".toList, .atom 0 "False".toList])],
  [("threshold".toList, .seq arrayTag array1)],
  [("tol".toList, .seq arrayTag array1), ("whiten".toList, .seq listTag [.str "unit-variance".toList])],
  [("linkage".toList, .seq listTag [.str "ward".toList, .str "complete".toList, .str "average".toList]),
   ("affinity".toList, .seq listTag [.str "euclidean".toList, .str "l1".toList, .str "l2".toList, .str
   "manhattan".toList, .str "cosine".toList, .str "precomputed".toList]), ("param_check".toList, .seq
   listTag [.fn 102 "<lambda>".toList])],
  [],
  [],
  [("norm".toList, .seq listTag [.str "l1".toList, .str "l2".toList, .str "max".toList])],
  [("kernel".toList, .seq listTag [.str "rbf".toList, .str "cosine".toList, .str "chi2".toList, .str
   "laplacian".toList, .str "polynomial".toList, .str "poly".toList, .str "linear".toList, .str
   "additive_chi2".toList, .str "sigmoid".toList]), ("gamma".toList, .seq arrayTag array1),
   ("n_components".toList, .seq rangeTag (ints 1 11))],
  [("svd_solver".toList, .seq listTag [.str "randomized".toList]), ("iterated_power".toList, .seq rangeTag
   (ints 1 11))],
  [("degree".toList, .seq listTag [.atom 2417851639229258349412352 "2".toList]), ("include_bias".toList,
   .seq listTag [.atom 0 "False".toList]), ("interaction_only".toList, .seq listTag [.atom 0
   "False".toList])],
  [("gamma".toList, .seq arrayTag array1)],
  [],
  [],
  [("alpha".toList, .seq arrayTag array2), ("score_func".toList, .dict [("f_regression".toList, .fn 1
   "f_regression".toList)])],
  [("percentile".toList, .seq rangeTag (ints 1 100)), ("score_func".toList, .dict [("f_regression".toList,
   .fn 1 "f_regression".toList)])],
  [("threshold".toList, .seq arrayTag array0)]]

/-- `clf_config`, classification.py l.36-147. -/
def clfConfig : List (ConfigKey × MergeEntry) := [
  (.name "alpha".toList, .shared listTag [.atom 1208925819614629199872 "0.001".toList, .atom
   12089258196146291998720 "0.01".toList, .atom 120892581961462924181504 "0.1".toList, .atom
   1208925819614629174706176 "1.0".toList, .atom 12089258196146291747061760 "10.0".toList, .atom
   120892581961462917470617600 "100.0".toList]),
  (.name "fit_prior".toList, .shared listTag [.atom 1208925819614629174706176 "True".toList, .atom 0
   "False".toList]),
  (.name "min_samples_split".toList, .shared rangeTag (ints 2 21)),
  (.name "min_samples_leaf".toList, .shared rangeTag (ints 1 21)),
  (.cls { uid := 0, name := "GaussianNB".toList, modul := "sklearn.naive_bayes".toList, classifier := true, hasProba := true }, .ref 0),
  (.cls { uid := 1, name := "BernoulliNB".toList, modul := "sklearn.naive_bayes".toList, classifier := true, hasProba := true }, .ref 1),
  (.cls { uid := 2, name := "MultinomialNB".toList, modul := "sklearn.naive_bayes".toList, classifier := true, hasProba := true }, .ref 2),
  (.cls { uid := 3, name := "DecisionTreeClassifier".toList, modul := "sklearn.tree".toList, classifier := true, hasProba := true }, .ref 3),
  (.cls { uid := 4, name := "ExtraTreesClassifier".toList, modul := "sklearn.ensemble".toList, classifier := true, hasProba := true }, .ref 4),
  (.cls { uid := 5, name := "RandomForestClassifier".toList, modul := "sklearn.ensemble".toList, classifier := true, hasProba := true }, .ref 5),
  (.cls { uid := 6, name := "GradientBoostingClassifier".toList, modul := "sklearn.ensemble".toList, classifier := true, hasProba := true }, .ref 6),
  (.cls { uid := 7, name := "KNeighborsClassifier".toList, modul := "sklearn.neighbors".toList, classifier := true, hasProba := true }, .ref 7),
  (.cls { uid := 8, name := "LinearSVC".toList, modul := "sklearn.svm".toList, classifier := true }, .ref 8),
  (.cls { uid := 9, name := "LogisticRegression".toList, modul := "sklearn.linear_model".toList, classifier := true, hasProba := true }, .ref 9),
  (.cls { uid := 10, name := "Binarizer".toList, modul := "sklearn.preprocessing".toList, transformer := true }, .ref 10),
  (.cls { uid := 11, name := "FastICA".toList, modul := "sklearn.decomposition".toList, transformer := true }, .ref 11),
  (.cls { uid := 12, name := "FeatureAgglomeration".toList, modul := "sklearn.cluster".toList, transformer := true }, .ref 12),
  (.cls { uid := 13, name := "MaxAbsScaler".toList, modul := "sklearn.preprocessing".toList, transformer := true }, .ref 13),
  (.cls { uid := 14, name := "MinMaxScaler".toList, modul := "sklearn.preprocessing".toList, transformer := true }, .ref 14),
  (.cls { uid := 15, name := "Normalizer".toList, modul := "sklearn.preprocessing".toList, transformer := true }, .ref 15),
  (.cls { uid := 16, name := "Nystroem".toList, modul := "sklearn.kernel_approximation".toList, transformer := true }, .ref 16),
  (.cls { uid := 17, name := "PCA".toList, modul := "sklearn.decomposition".toList, transformer := true }, .ref 17),
  (.cls { uid := 18, name := "PolynomialFeatures".toList, modul := "sklearn.preprocessing".toList, transformer := true }, .ref 18),
  (.cls { uid := 19, name := "RBFSampler".toList, modul := "sklearn.kernel_approximation".toList, transformer := true }, .ref 19),
  (.cls { uid := 20, name := "RobustScaler".toList, modul := "sklearn.preprocessing".toList, transformer := true }, .ref 20),
  (.cls { uid := 21, name := "StandardScaler".toList, modul := "sklearn.preprocessing".toList, transformer := true }, .ref 21),
  (.cls { uid := 22, name := "SelectFwe".toList, modul := "sklearn.feature_selection".toList, transformer := true }, .ref 22),
  (.cls { uid := 23, name := "SelectPercentile".toList, modul := "sklearn.feature_selection".toList, transformer := true }, .ref 23),
  (.cls { uid := 24, name := "VarianceThreshold".toList, modul := "sklearn.feature_selection".toList, transformer := true }, .ref 24)]

/-- `reg_config`, regression.py l.37-136. -/
def regConfig : List (ConfigKey × MergeEntry) := [
  (.cls { uid := 25, name := "ElasticNetCV".toList, modul := "sklearn.linear_model".toList, regressor := true }, .ref 25),
  (.cls { uid := 26, name := "ExtraTreesRegressor".toList, modul := "sklearn.ensemble".toList, regressor := true }, .ref 26),
  (.cls { uid := 27, name := "GradientBoostingRegressor".toList, modul := "sklearn.ensemble".toList, regressor := true }, .ref 27),
  (.cls { uid := 28, name := "AdaBoostRegressor".toList, modul := "sklearn.ensemble".toList, regressor := true }, .ref 28),
  (.cls { uid := 29, name := "DecisionTreeRegressor".toList, modul := "sklearn.tree".toList, regressor := true }, .ref 29),
  (.cls { uid := 30, name := "KNeighborsRegressor".toList, modul := "sklearn.neighbors".toList, regressor := true }, .ref 30),
  (.cls { uid := 31, name := "LassoLarsCV".toList, modul := "sklearn.linear_model".toList, regressor := true }, .ref 31),
  (.cls { uid := 32, name := "LinearSVR".toList, modul := "sklearn.svm".toList, regressor := true }, .ref 32),
  (.cls { uid := 33, name := "RandomForestRegressor".toList, modul := "sklearn.ensemble".toList, regressor := true }, .ref 33),
  (.cls { uid := 10, name := "Binarizer".toList, modul := "sklearn.preprocessing".toList, transformer := true }, .ref 34),
  (.cls { uid := 11, name := "FastICA".toList, modul := "sklearn.decomposition".toList, transformer := true }, .ref 35),
  (.cls { uid := 12, name := "FeatureAgglomeration".toList, modul := "sklearn.cluster".toList, transformer := true }, .ref 36),
  (.cls { uid := 13, name := "MaxAbsScaler".toList, modul := "sklearn.preprocessing".toList, transformer := true }, .ref 37),
  (.cls { uid := 14, name := "MinMaxScaler".toList, modul := "sklearn.preprocessing".toList, transformer := true }, .ref 38),
  (.cls { uid := 15, name := "Normalizer".toList, modul := "sklearn.preprocessing".toList, transformer := true }, .ref 39),
  (.cls { uid := 16, name := "Nystroem".toList, modul := "sklearn.kernel_approximation".toList, transformer := true }, .ref 40),
  (.cls { uid := 17, name := "PCA".toList, modul := "sklearn.decomposition".toList, transformer := true }, .ref 41),
  (.cls { uid := 18, name := "PolynomialFeatures".toList, modul := "sklearn.preprocessing".toList, transformer := true }, .ref 42),
  (.cls { uid := 19, name := "RBFSampler".toList, modul := "sklearn.kernel_approximation".toList, transformer := true }, .ref 43),
  (.cls { uid := 20, name := "RobustScaler".toList, modul := "sklearn.preprocessing".toList, transformer := true }, .ref 44),
  (.cls { uid := 21, name := "StandardScaler".toList, modul := "sklearn.preprocessing".toList, transformer := true }, .ref 45),
  (.cls { uid := 22, name := "SelectFwe".toList, modul := "sklearn.feature_selection".toList, transformer := true }, .ref 46),
  (.cls { uid := 23, name := "SelectPercentile".toList, modul := "sklearn.feature_selection".toList, transformer := true }, .ref 47),
  (.cls { uid := 24, name := "VarianceThreshold".toList, modul := "sklearn.feature_selection".toList, transformer := true }, .ref 48)]

/-- The values of a hyperparameter as the parser sees them; iterating over a dictionary gives its keys. -/
def MergeVal.param : MergeVal → ParamVal
  | .seq tag vs => if tag = listTag then .list vs else .seq vs
  | .dict d => .seq (d.map Prod.snd)

/-- A configuration as the parser sees it: the references are followed.  `kind` is `str(type(key))` of the
classes. -/
def configEntry (kind : Nat → Str) (heap : List HParams) : ConfigKey × MergeEntry → Entry
  | (.name n, .shared _ vs) => .shared n vs
  | (.cls c, .ref r) => match heap[r]? with
    | some h => .algorithm c (kind c.uid) (h.map fun p => (p.1, p.2.param))
    | none => .unknown []
  | _ => .unknown []

def configEntries (kind : Nat → Str) (d : List (ConfigKey × MergeEntry)) (heap : List HParams) :
    List Entry := d.map (configEntry kind heap)

/-- The search space of a `GamaClassifier` for a metric that needs probabilities, GamaClassifier.py l.27-35:
classifiers without `predict_proba` are left out.  `alg()` is assumed to succeed. -/
def withProba (d : List (ConfigKey × MergeEntry)) : List (ConfigKey × MergeEntry) :=
  d.filter fun e => match e.1 with
    | .name _ => true
    | .cls c => !(c.classifier && !c.hasProba)

/-- The module level statement of GamaReport.py l.13: the merged configuration that reports use, and what
is then in the dictionaries. -/
def reportMerge : Except Exn (List (ConfigKey × MergeEntry)) × List HParams :=
  mergeConfigurations clfConfig regConfig shippedHeap

end Gama
