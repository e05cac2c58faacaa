#!/usr/bin/env python3
"""Write lean/Verif/Model/Shipped.lean: the two configurations that come with GAMA, read as text from
/repo/gama/configuration/{classification,regression}.py (the files are parsed, not run)."""
import ast, math, os
from fractions import Fraction

REPO = "/repo/gama/configuration/"
OUT = os.path.join(os.path.dirname(os.path.abspath(__file__)), "..", "lean", "Verif", "Model", "Shipped.lean")
SCALE = 2 ** 80

TRANSFORMERS = """FeatureAgglomeration MaxAbsScaler MinMaxScaler Normalizer PolynomialFeatures RobustScaler
StandardScaler Binarizer Nystroem RBFSampler PCA FastICA SelectFwe SelectPercentile VarianceThreshold""".split()
NO_PROBA = ["LinearSVC"]

uids, arrays, funcs = {}, {}, {}


def module_of(tree):
    m = {}
    for n in tree.body:
        if isinstance(n, ast.ImportFrom):
            for a in n.names:
                m[a.name] = n.module
    return m


def text(s):
    return '"%s".toList' % s


def num(x):
    k = Fraction(x) * SCALE
    assert k.denominator == 1
    return ".atom %d %s" % (k.numerator, text(str(x)))


def value(n, fns):
    if isinstance(n, ast.Constant):
        if isinstance(n.value, str):
            return ".str " + text(n.value)
        return num(n.value)
    if isinstance(n, ast.Lambda):
        u = 100 + len(fns)
        fns.append(n)
        return ".fn %d %s" % (u, text("<lambda>"))
    raise ValueError(ast.dump(n))


def const(n):
    return n.value


def arange(args):
    start, stop, step = [const(a) for a in args]
    n = math.ceil((stop - start) / step)
    first, second = float(start), float(start + step)
    delta = second - first
    return [first, second] + [first + i * delta for i in range(2, n)]


def merge_val(n, lambdas):
    """A Lean term of type MergeVal."""
    if isinstance(n, ast.List):
        return ".seq listTag [" + ", ".join(value(v, lambdas) for v in n.elts) + "]"
    if isinstance(n, ast.Call):
        if isinstance(n.func, ast.Name) and n.func.id == "range":
            a, b = [const(x) for x in n.args]
            return ".seq rangeTag (ints %d %d)" % (a, b)
        assert ast.unparse(n.func) == "np.arange"
        key = tuple(const(a) for a in n.args)
        if key not in arrays:
            arrays[key] = "array%d" % len(arrays)
        return ".seq arrayTag " + arrays[key]
    if isinstance(n, ast.Dict):
        ks = [k.id for k in n.keys]
        for k in ks:
            funcs.setdefault(k, len(funcs))
        return ".dict [" + ", ".join("(%s, .fn %d %s)" % (text(k), funcs[k], text(k)) for k in ks) + "]"
    raise ValueError(ast.dump(n))


LAMBDAS = []


def config(path, name):
    tree = ast.parse(open(REPO + path).read())
    mods = module_of(tree)
    d = [n for n in tree.body if isinstance(n, ast.Assign) and n.targets[0].id == name][0].value
    keys, heap = [], []
    for k, v in zip(d.keys, d.values):
        if isinstance(k, ast.Constant):
            mv = merge_val(v, LAMBDAS)
            assert mv.startswith(".seq ")
            keys.append((k.lineno, "(.name %s, .shared %s)" % (text(k.value), mv[5:])))
        else:
            c = k.id
            uids.setdefault(c, len(uids))
            trans = c in TRANSFORMERS
            assert trans or c.endswith(("Classifier", "Regressor", "NB", "SVC", "SVR", "CV", "LogisticRegression")), c
            clf = not trans and path.startswith("classification")
            fields = ["uid := %d" % uids[c], "name := " + text(c), "modul := " + text(mods[c])]
            if trans:
                fields.append("transformer := true")
            elif clf:
                fields.append("classifier := true")
                if c not in NO_PROBA:
                    fields.append("hasProba := true")
            else:
                fields.append("regressor := true")
            heap.append("[" + ", ".join("(%s, %s)" % (text(n.value), merge_val(w, LAMBDAS)) for n, w in zip(v.keys, v.values)) + "]")
            keys.append((k.lineno, ("(.cls { %s }, .ref REF)" % ", ".join(fields), len(heap) - 1)))
    return keys, heap, d.lineno, d.end_lineno


def wrap(s, width=108, indent="   "):
    out, line = [], ""
    lead = len(s) - len(s.lstrip())
    for w in s.lstrip().split(" "):
        if len(line) + len(w) + 1 > width:
            out.append(line)
            line = indent + w
        else:
            line = line + " " + w if line else " " * lead + w
    out.append(line)
    return "\n".join(out)


def main():
    ck, ch, c0, c1 = config("classification.py", "clf_config")
    rk, rh, r0, r1 = config("regression.py", "reg_config")

    def keys(ks, off):
        out = []
        for _, k in ks:
            out.append(wrap("  " + k) if isinstance(k, str) else "  " + k[0].replace("REF", str(k[1] + off)))
        return ",\n".join(out)

    L = []
    L.append('''import Verif.Model.Config

/-! # The search spaces that come with GAMA

Written by tools/mkshipped.py from the text of gama/configuration/classification.py and
gama/configuration/regression.py.

A number is represented by its exact value times 2^80 and its text.  `np.arange(start, stop, step)` has
`ceil((stop - start) / step)` elements, the first two `start` and `start + step`, the others
`start + i * delta` with the difference `delta` of the first two, in floating point arithmetic (numpy's
`DOUBLE_fill`).  That an algorithm is a transformer, classifier or regressor and whether its instances have
`predict_proba` are facts about scikit-learn.  `modul` is the module the class is imported from. -/

namespace Gama

/-- `range` and `numpy.ndarray` as types of a sequence (`listTag` is `list`). -/
def rangeTag : Nat := 1
def arrayTag : Nat := 2

/-- The elements of `range(lo, hi)`. -/
def ints (lo hi : Nat) : List Value :=
  (List.range' lo (hi - lo)).map fun n => .atom ((n * 2 ^ 80 : Nat) : Int) (Nat.toDigits 10 n)

/-- A key of a configuration. -/
inductive ConfigKey where
  | name (s : Str)
  | cls (c : Cls)
  deriving DecidableEq
''')
    for key, nm in arrays.items():
        L.append("/-- `np.arange(%s, %s, %s)` -/" % key)
        L.append("def %s : List Value :=\n%s\n" % (nm, wrap("  [" + ", ".join(num(x) for x in arange_of(key)) + "]")))
    L.append("/-- The hyperparameters of the algorithms: first those of `clf_config`, classification.py l.%d-%d, then\nthose of `reg_config`, regression.py l.%d-%d. -/" % (c0, c1, r0, r1))
    L.append("def shippedHeap : List HParams := [\n%s]\n" % ",\n".join(wrap("  " + h) for h in ch + rh))
    L.append("/-- `clf_config`, classification.py l.%d-%d. -/" % (c0, c1))
    L.append("def clfConfig : List (ConfigKey × MergeEntry) := [\n%s]\n" % keys(ck, 0))
    L.append("/-- `reg_config`, regression.py l.%d-%d. -/" % (r0, r1))
    L.append("def regConfig : List (ConfigKey × MergeEntry) := [\n%s]\n" % keys(rk, len(ch)))
    L.append('''/-- The values of a hyperparameter as the parser sees them; iterating over a dictionary gives its keys. -/
def MergeVal.param : MergeVal → ParamVal
  | .seq tag vs => if tag = listTag then .list vs else .seq vs
  | .dict d => .seq (d.map Prod.snd)

/-- A configuration as the parser sees it: the references are followed.  `kind` is `str(type(key))` of the
classes. -/
def configEntry (kind : Nat → Str) (heap : List HParams) : ConfigKey × MergeEntry → Entry
  | (.name n, .shared _ vs) => .shared n vs
  | (.cls c, .ref r) => match heap[r]? with
    | some h => .algorithm c (kind c.uid) (h.map fun p => (p.1, p.2.param))
    | none => .unknown []
  | _ => .unknown []

def configEntries (kind : Nat → Str) (d : List (ConfigKey × MergeEntry)) (heap : List HParams) :
    List Entry := d.map (configEntry kind heap)

/-- The search space of a `GamaClassifier` for a metric that needs probabilities, GamaClassifier.py l.27-35:
classifiers without `predict_proba` are left out.  `alg()` is assumed to succeed. -/
def withProba (d : List (ConfigKey × MergeEntry)) : List (ConfigKey × MergeEntry) :=
  d.filter fun e => match e.1 with
    | .name _ => true
    | .cls c => !(c.classifier && !c.hasProba)

/-- The module level statement of GamaReport.py l.13: the merged configuration that reports use, and what
is then in the dictionaries. -/
def reportMerge : Except Exn (List (ConfigKey × MergeEntry)) × List HParams :=
  mergeConfigurations clfConfig regConfig shippedHeap

end Gama''')
    open(OUT, "w").write("\n".join(L) + "\n")


def arange_of(key):
    start, stop, step = key
    n = math.ceil((stop - start) / step)
    first, second = float(start), float(start + step)
    delta = second - first
    return [first, second] + [first + i * delta for i in range(2, n)]


main()
