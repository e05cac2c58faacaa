import Verif.Model.Py
import Verif.Model.Score

/-!
# Terminals, primitives, nodes and individuals

Models `gama/genetic_programming/components/{terminal,primitive,primitive_node,individual}.py`.

`PrimitiveNode`s and `Individual`s are mutable Python objects that refer to each other,
so they live in a heap (`World`): an address is an index in the list of cells, cells are
only ever appended.  A `_data_node` is `none` for the string `DATA_TERMINAL` and the
address of the next node otherwise (the code never stores another string there).
-/

namespace Gama

/-- Comparison of strings by code points, as Python's `<=` on `str`. -/
def strLe : Str → Str → Bool
  | [], _ => true
  | _ :: _, [] => false
  | a :: as, b :: bs => if a.val < b.val then true else if b.val < a.val then false else strLe as bs

/-- A hyperparameter value.  `str` is a Python string, `fn` an object that is callable and
has a `__name__` (equality is identity, `uid`), `atom` any other object: `key` identifies its
class under Python's `==` (so `1`, `1.0` and `True` share a key) and `repr` is `str(value)`. -/
inductive Value
  | str (s : Str)
  | fn (uid : Nat) (name : Str)
  | atom (key : Int) (repr : Str)
  deriving DecidableEq, Repr

/-- Python `==` on hyperparameter values. -/
def Value.pyEq : Value → Value → Bool
  | .str s, .str t => s == t
  | .fn u _, .fn v _ => u == v
  | .atom k _, .atom l _ => k == l
  | _, _ => false

/-- `format_hyperparameter_value`, components/terminal.py l.28-34. -/
def Value.fmt : Value → Str
  | .str s => '\'' :: s ++ ['\'']
  | .fn _ name => name
  | .atom _ r => r

/-- `class Terminal`, components/terminal.py l.6-14. -/
structure Terminal where
  value : Value
  output : Str
  ident : Str
  deriving DecidableEq, Repr

/-- `Terminal.__str__`, components/terminal.py l.16-18. -/
def Terminal.str (t : Terminal) : Str := t.output ++ '=' :: t.value.fmt

/-- `Terminal.__repr__`, components/terminal.py l.20-25. -/
def Terminal.repr (t : Terminal) : Str := t.ident ++ '=' :: t.value.fmt

/-- A Python class used as algorithm; only the attributes the code looks at:
identity, `__name__`, `__module__`, the scikit-learn mixins it derives from and whether it
has `predict_proba`. -/
structure Cls where
  uid : Nat
  name : Str
  modul : Str := []
  transformer : Bool := false
  classifier : Bool := false
  regressor : Bool := false
  hasProba : Bool := false
  deriving DecidableEq, Repr

/-- `class Primitive`, components/primitive.py l.4-19. -/
structure Primitive where
  input : List Str
  output : Str
  ident : Cls
  deriving DecidableEq, Repr

/-- `Primitive.__str__` / `__repr__`, components/primitive.py l.14-19. -/
def Primitive.str (p : Primitive) : Str := p.ident.name

/-- `DATA_TERMINAL`, components/terminal.py l.3. -/
def dataTerminal : Str := ['d', 'a', 't', 'a']

/-- The key of estimators in the primitive set. -/
def predictionKey : Str := ['p', 'r', 'e', 'd', 'i', 'c', 't', 'i', 'o', 'n']

/-- The primitive set: a `defaultdict(list)` from key to primitives (keys "data" and
"prediction") or terminals (all other keys).  Simplification: primitives and terminals
are two separate maps, i.e. no hyperparameter is called "data" or "prediction". -/
structure PSet where
  prims : Str → List Primitive
  terms : Str → List Terminal

/-- `sorted(terminals, key=lambda t: str(t))`, primitive_node.py l.27. -/
def sortTerms (ts : List Terminal) : List Terminal :=
  pySorted (fun a b => strLe a.str b.str) ts

abbrev Addr := Nat

/-- The attributes of a `PrimitiveNode`, primitive_node.py l.25-27. -/
structure Cell where
  prim : Primitive
  terms : List Terminal
  data : Option Addr
  deriving DecidableEq, Repr

/-- `Individual.meta` as written by the operator set. -/
structure Meta where
  parents : List Nat := []
  origin : Option Str := none
  deriving DecidableEq, Repr

/-- The attributes of an `Individual`, individual.py l.26-30.  The identity (`_id`, a fresh
uuid) is the index of the individual in the heap; uuids are assumed not to collide.
`_to_pipeline` is not modelled here. -/
structure IndCell where
  main : Addr
  md : Meta := {}
  fitness : Option (List Score) := none
  deriving DecidableEq, Repr

/-- The heap and the state of `random`. -/
structure World where
  nodes : List Cell
  inds : List IndCell
  rnd : Stream

instance : HasRand World where
  rnd := World.rnd
  setRnd w r := { w with rnd := r }

abbrev GP := PyM World

open PyM

/-- Attribute access on a node. -/
def getNode (a : Addr) : GP Cell := ofExcept fun w =>
  match w.nodes[a]? with
  | some c => .ok c
  | none => .error .dangling

/-- Attribute assignment on a node. -/
def setNode (a : Addr) (c : Cell) : GP Unit :=
  modify fun w => { w with nodes := w.nodes.set a c }

/-- `PrimitiveNode.__init__`, primitive_node.py l.19-27: terminals are sorted. -/
def newNode (p : Primitive) (data : Option Addr) (ts : List Terminal) : GP Addr := fun w =>
  (.ok w.nodes.length, { w with nodes := w.nodes ++ [⟨p, sortTerms ts, data⟩] })

def getInd (i : Nat) : GP IndCell := ofExcept fun w =>
  match w.inds[i]? with
  | some c => .ok c
  | none => .error .dangling

def setInd (i : Nat) (c : IndCell) : GP Unit :=
  modify fun w => { w with inds := w.inds.set i c }

/-- `Individual.__init__`, individual.py l.23-30. -/
def newInd (main : Addr) : GP Nat := fun w =>
  (.ok w.inds.length, { w with inds := w.inds ++ [{ main := main }] })

/-- The while loop of `Individual.primitives` (individual.py l.68-70) from a data node on.
`fuel` bounds the number of iterations; exhausting it is non-termination. -/
def chainFrom (nodes : List Cell) : Nat → Option Addr → Except Exn (List Addr)
  | _, none => .ok []
  | 0, some _ => .error .diverge
  | fuel + 1, some a =>
    match nodes[a]? with
    | none => .error .dangling
    | some c =>
      match chainFrom nodes fuel c.data with
      | .ok l => .ok (a :: l)
      | .error e => .error e

/-- `Individual.primitives`, individual.py l.63-71.  An acyclic chain has at most as many
nodes as the heap, so more fuel is never needed. -/
def primitives (i : Nat) : GP (List Addr) := do
  let ind ← getInd i
  ofExcept fun w => chainFrom w.nodes w.nodes.length (some ind.main)

/-- The nodes at a list of addresses. -/
def getNodes : List Addr → GP (List Cell)
  | [] => pure []
  | a :: as => do
    let c ← getNode a
    let cs ← getNodes as
    pure (c :: cs)

/-- `Individual.terminals`, individual.py l.73-76. -/
def terminals (i : Nat) : GP (List Terminal) := do
  let ps ← primitives i
  let cs ← getNodes ps
  pure (cs.flatMap Cell.terms)

/-- `PrimitiveNode.__str__`, primitive_node.py l.29-39, of the chain of cells starting at
this node (the recursion over `_data_node` follows the chain). -/
def chainStr : List Cell → Str
  | [] => dataTerminal
  | c :: cs =>
    if c.terms.isEmpty then c.prim.str ++ '(' :: chainStr cs ++ [')']
    else c.prim.str ++ '(' :: chainStr cs ++ [',', ' ']
      ++ List.intercalate [',', ' '] (c.terms.map Terminal.repr) ++ [')']

/-- `Individual.pipeline_str`, individual.py l.59-61. -/
def pipelineStr (i : Nat) : GP Str := do
  let ps ← primitives i
  let cs ← getNodes ps
  pure (chainStr cs)

/-- `Individual.short_name`, individual.py l.53-57. -/
def shortName (sep : Str) (i : Nat) : GP Str := do
  let ps ← primitives i
  let cs ← getNodes ps
  pure (List.intercalate sep (cs.reverse.map fun c => c.prim.str))

/-- `PrimitiveNode.copy`, primitive_node.py l.51-61: deep for the data node (copied first),
the list of terminals is copied and sorted again by the constructor. -/
def copyNode : Nat → Addr → GP Addr
  | 0, _ => raise .diverge
  | fuel + 1, a => do
    let c ← getNode a
    match c.data with
    | none => newNode c.prim none c.terms
    | some b => do
      let b' ← copyNode fuel b
      newNode c.prim (some b') c.terms

/-- `copy` with enough fuel for every acyclic chain of the current heap. -/
def copyNodeTop (a : Addr) : GP Addr := do
  let w ← get
  copyNode w.nodes.length a

/-- `Individual.copy_as_new`, individual.py l.135-137. -/
def copyAsNew (i : Nat) : GP Nat := do
  let ind ← getInd i
  let m ← copyNodeTop ind.main
  newInd m

/-- The loop of `Individual.replace_terminal`, individual.py l.88-105, over the remaining
primitives.  Positions are natural numbers (negative Python indices are not modelled). -/
def replaceTerminalLoop (position : Nat) (new : Terminal) : List Addr → Nat → GP Unit
  | [], scan => if scan < position then raise .valueError else pure ()
  | a :: as, scan => do
    let c ← getNode a
    if scan + c.terms.length > position then
      match c.terms[position - scan]? with
      | none => raise .indexError
      | some old =>
        if old.ident ≠ new.ident then raise .valueError
        else setNode a { c with terms := c.terms.set (position - scan) new }
    else replaceTerminalLoop position new as (scan + c.terms.length)

/-- `Individual.replace_terminal`, individual.py l.78-105. -/
def replaceTerminal (i : Nat) (position : Nat) (new : Terminal) : GP Unit := do
  let ps ← primitives i
  replaceTerminalLoop position new ps 0

/-- individual.py l.122-125: the data node handed to the new primitive, a copy unless it is
the data itself. -/
def copyData : Option Addr → GP (Option Addr)
  | none => pure none
  | some d => do
    let d' ← copyNodeTop d
    pure (some d')

/-- individual.py l.130-133: hang the new primitive below the last one visited. -/
def attach (i : Nat) (new : Addr) : Option Addr → GP Unit
  | none => do
    let ind ← getInd i
    setInd i { ind with main := new }
  | some l => do
    let c ← getNode l
    setNode l { c with data := some new }

/-- The loop of `Individual.replace_primitive`, individual.py l.117-133; `last` is
`last_primitive`. -/
def replacePrimitiveLoop (i : Nat) (position : Nat) (new : Addr) :
    List Addr → Nat → Option Addr → GP Unit
  | [], _, last => attach i new last
  | a :: as, k, last =>
    if k = position then do
      let c ← getNode a
      let n ← getNode new
      if c.prim.output ≠ n.prim.output then raise .valueError
      let d ← copyData c.data
      let n ← getNode new
      setNode new { n with data := d }
      attach i new last
    else replacePrimitiveLoop i position new as (k + 1) (some a)

/-- `Individual.replace_primitive`, individual.py l.107-133. -/
def replacePrimitive (i : Nat) (position : Nat) (new : Addr) : GP Unit := do
  let ps ← primitives i
  replacePrimitiveLoop i position new ps 0 none

end Gama
