import Verif.Model.Components
import Verif.Model.Dict

/-! # Configurations

Models gama/configuration/parser.py and the hyperparameter tables of
gama/search_methods/base_search.py and gama/postprocessing/base_post_processing.py. -/

namespace Gama

/-! ### Search spaces -/

/-- The values configured for a hyperparameter of an algorithm: a list, or another sequence of values
(a range, an array). -/
inductive ParamVal where
  | list (vs : List Value)
  | seq (vs : List Value)
  deriving DecidableEq

def ParamVal.values : ParamVal → List Value
  | .list vs => vs
  | .seq vs => vs

/-- An entry of a configuration dictionary: shared values for a hyperparameter, an algorithm with its
hyperparameters (`kind` is `str(type(key))`), or something else. -/
inductive Entry where
  | shared (name : Str) (vs : List Value)
  | algorithm (c : Cls) (kind : Str) (params : List (Str × ParamVal))
  | unknown (kind : Str)
  deriving DecidableEq

/-- `<class 'str'>` -/
def strKind : Str := "<class 'str'>".toList

/-- `str(type(key))`, parser.py l.35 -/
def Entry.keyKind : Entry → Str
  | .shared _ _ => strKind
  | .algorithm _ kind _ => kind
  | .unknown kind => kind

/-- `pset[key].append(...)` for terminals -/
def addTerms (ps : PSet) (key : Str) (ts : List Terminal) : PSet :=
  { ps with terms := fun k => if k = key then ps.terms k ++ ts else ps.terms k }

/-- `pset[key].append(...)` for a primitive -/
def addPrim (ps : PSet) (key : Str) (p : Primitive) : PSet :=
  { ps with prims := fun k => if k = key then ps.prims k ++ [p] else ps.prims k }

/-- `"param_check"` -/
def paramCheck : Str := ['p', 'a', 'r', 'a', 'm', '_', 'c', 'h', 'e', 'c', 'k']

/-- `f"{key.__name__}.{name}"`, l.58 -/
def hpName (c : Cls) (name : Str) : Str := c.name ++ '.' :: name

/-- The loop l.45-67 over the (sorted) hyperparameters of an algorithm: the types of its inputs, the
primitive set and the parameter checks.  `param_values[0]` of an empty sequence is an error. -/
def parseParams (c : Cls) : List (Str × ParamVal) → List Str → PSet → List (Str × Value) →
    Except Exn (List Str × PSet × List (Str × Value))
  | [], types, ps, checks => .ok (types, ps, checks)
  | (name, v) :: rest, types, ps, checks =>
    if v = .list [] then parseParams c rest (types ++ [name]) ps checks
    else if name = paramCheck then
      match v.values with
      | [] => .error .indexError
      | f :: _ => parseParams c rest types ps (dset checks c.name f)
    else
      parseParams c rest (types ++ [hpName c name])
        (addTerms ps (hpName c name) (v.values.map fun a => ⟨a, name, hpName c name⟩)) checks

/-- The loop body l.37-104. -/
def parseEntry (e : Entry) (ps : PSet) (checks : List (Str × Value)) :
    Except Exn (PSet × List (Str × Value)) :=
  match e with
  | .shared name vs => .ok (addTerms ps name (vs.map fun a => ⟨a, name, name⟩), checks)
  | .algorithm c _ params =>
    match parseParams c (pySorted (fun a b => strLe a.1 b.1) params) [] ps checks with
    | .error x => .error x
    | .ok (types, ps', checks') =>
      if c.transformer then .ok (addPrim ps' dataTerminal ⟨types, dataTerminal, c⟩, checks')
      else if c.classifier then .ok (addPrim ps' predictionKey ⟨types, predictionKey, c⟩, checks')
      else if c.regressor then .ok (addPrim ps' predictionKey ⟨types, predictionKey, c⟩, checks')
      else .error .typeError
  | .unknown _ => .error .typeError

def parseEntries : List Entry → PSet → List (Str × Value) → Except Exn (PSet × List (Str × Value))
  | [], ps, checks => .ok (ps, checks)
  | e :: es, ps, checks =>
    match parseEntry e ps checks with
    | .error x => .error x
    | .ok (ps', checks') => parseEntries es ps' checks'

/-- `defaultdict(list)` -/
def emptyPSet : PSet := ⟨fun _ => [], fun _ => []⟩

/-- `pset_from_config`, l.9-106. -/
def psetFromConfig (cfg : List Entry) : Except Exn (PSet × List (Str × Value)) :=
  parseEntries (pySorted (fun a b => strLe a.keyKind b.keyKind) cfg).reverse emptyPSet []

/-! ### Merging -/

/-- The values of a hyperparameter in a configuration to merge: a list or other sequence (`tag` is its
type), or a dictionary. -/
inductive MergeVal where
  | seq (tag : Nat) (vs : List Value)
  | dict (d : List (Str × Value))
  deriving DecidableEq

/-- `list` as the type of a sequence. -/
def listTag : Nat := 0

abbrev HParams := List (Str × MergeVal)

/-- What a configuration to merge maps a key to: shared values, or a reference to a dictionary of
hyperparameters. -/
inductive MergeEntry where
  | shared (tag : Nat) (vs : List Value)
  | ref (r : Nat)
  deriving DecidableEq

/-- `list(set(values))`: of equal values the first.  The order is arbitrary in Python. -/
def asSet : List Value → List Value
  | [] => []
  | v :: vs => v :: (asSet vs).filter fun u => !u.pyEq v

/-- Two values of a hyperparameter, l.128-138. -/
def mergeVals (a b : MergeVal) : Except Exn MergeVal :=
  match a, b with
  | .dict d1, .dict d2 => .ok (.dict (dmerge d1 d2))
  | .seq t1 v1, .seq t2 v2 =>
    if t1 = t2 then .ok (.seq listTag (asSet (v1 ++ v2))) else .error .typeError
  | _, _ => .error .typeError

/-- The loop l.123-138: the updated dictionary; on an error it is updated up to there. -/
def mergeParams : HParams → HParams → HParams × Option Exn
  | h, [] => (h, none)
  | h, (name, v) :: rest =>
    match dget h name with
    | none => mergeParams (dset h name v) rest
    | some v1 =>
      match mergeVals v1 v with
      | .error e => (h, some e)
      | .ok w => mergeParams (dset h name w) rest

/-- Replace the dictionary a reference points to. -/
def setRef (heap : List HParams) (r : Nat) (h : HParams) : List HParams := heap.set r h

section
variable {K : Type} [DecidableEq K]

/-- The loop l.113-138; the dictionaries of hyperparameters are in a heap, because the ones of `c1`
are updated in place. -/
def mergeLoop : List (K × MergeEntry) → List (K × MergeEntry) → List HParams →
    Except Exn (List (K × MergeEntry)) × List HParams
  | merged, [], heap => (.ok merged, heap)
  | merged, (k, e2) :: rest, heap =>
    match dget merged k with
    | none => mergeLoop (dset merged k e2) rest heap
    | some (.shared t1 v1) =>
      match e2 with
      | .shared t2 v2 =>
        if t1 = listTag ∧ t2 = listTag then
          mergeLoop (dset merged k (.shared listTag (asSet (v1 ++ v2)))) rest heap
        else (.error .attributeError, heap)
      | .ref r2 =>
        match heap[r2]? with
        | some [] => mergeLoop merged rest heap
        | some _ => (.error .typeError, heap)
        | none => (.error .dangling, heap)
    | some (.ref r1) =>
      match e2 with
      | .shared _ _ => (.error .attributeError, heap)
      | .ref r2 =>
        match heap[r1]?, heap[r2]? with
        | some h1, some h2 =>
          match mergeParams h1 h2 with
          | (h, none) => mergeLoop merged rest (setRef heap r1 h)
          | (h, some e) => (.error e, setRef heap r1 h)
        | _, _ => (.error .dangling, heap)

/-- `merge_configurations`, l.109-139. -/
def mergeConfigurations (c1 c2 : List (K × MergeEntry)) (heap : List HParams) :
    Except Exn (List (K × MergeEntry)) × List HParams := mergeLoop c1 c2 heap

end

/-! ### Hyperparameters of search and post-processing methods -/

section
variable {V : Type}

/-- `_hyperparameters`: the value set by the user and the default, by name; `none` is Python's
`None`. -/
abbrev HpTable (V : Type) := List (Str × (Option V × Option V))

/-- `hyperparameters`, base_search.py l.45-48 and base_post_processing.py l.50-53. -/
def hyperparameters (t : HpTable V) : List (Str × Option V) :=
  t.map fun e => (e.1, if e.2.1.isSome then e.2.1 else e.2.2)

/-- `_overwrite_hyperparameter_default`, base_search.py l.50-52 and base_post_processing.py l.55-57. -/
def overwriteDefault (t : HpTable V) (name : Str) (value : Option V) : Except Exn (HpTable V) :=
  match dget t name with
  | none => .error .keyError
  | some (s, _) => .ok (dset t name (s, value))

/-- A sequence of updates. -/
def overwriteAll (t : HpTable V) : List (Str × Option V) → Except Exn (HpTable V)
  | [] => .ok t
  | (n, v) :: us =>
    match overwriteDefault t n v with
    | .error e => .error e
    | .ok t' => overwriteAll t' us

/-- `"maximum_resource"` -/
def maxResourceKey : Str :=
  ['m', 'a', 'x', 'i', 'm', 'u', 'm', '_', 'r', 'e', 's', 'o', 'u', 'r', 'c', 'e']

/-- `dynamic_defaults` of asha, asha.py l.67-74; `exceeds v` is `len(y) < v`. -/
def ashaDefaults (exceeds : V → Bool) (t : HpTable V) : Except Exn (HpTable V) :=
  match dget t maxResourceKey with
  | none => .error .keyError
  | some (some v, d) => if exceeds v then .ok (dset t maxResourceKey (none, d)) else .ok t
  | some (none, _) => .ok t

end

end Gama
