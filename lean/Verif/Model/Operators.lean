import Verif.Model.Components

/-!
# Creation, mutation, crossover and the operator set

Models `gama/genetic_programming/{operations,mutation,crossover,operator_set}.py`.
-/

namespace Gama
open PyM

/-- `random_terminals_for_primitive`, operations.py l.12-16: one random terminal per input. -/
def randomTerminals (ps : PSet) : List Str → GP (List Terminal)
  | [] => pure []
  | i :: is => do
    let t ← choice (ps.terms i)
    let ts ← randomTerminals ps is
    pure (t :: ts)

/-- `random_primitive_node`, operations.py l.19-25.  `exclude = None` never equals a primitive. -/
def randomPrimitiveNode (output : Str) (ps : PSet) (exclude : Option Primitive) : GP Addr := do
  let p ← choice ((ps.prims output).filter fun p => some p ≠ exclude)
  let ts ← randomTerminals ps p.input
  newNode p none ts

/-- The for loop of `create_random_expression`, operations.py l.37-42: `n` more nodes are
hung below `last`. -/
def extendChain (ps : PSet) : Nat → Addr → GP Unit
  | 0, _ => pure ()
  | n + 1, last => do
    let a ← randomPrimitiveNode dataTerminal ps none
    let c ← getNode last
    setNode last { c with data := some a }
    extendChain ps n a

/-- `create_random_expression`, operations.py l.28-44. -/
def createRandomExpression (ps : PSet) (minLength maxLength : Nat) : GP Addr := do
  let len ← randint minLength maxLength
  let learner ← randomPrimitiveNode predictionKey ps none
  extendChain ps (len - 1) learner
  pure learner

/-- Elements of a list with their index, as Python's `enumerate`. -/
def enum {α : Type} (l : List α) : List (Nat × α) := l.zipIdx.map fun p => (p.2, p.1)

/-- `mut_replace_terminal`, mutation.py l.14-36. -/
def mutReplaceTerminal (i : Nat) (ps : PSet) : GP Unit := do
  let ts ← terminals i
  let cands := (enum ts).filter fun it => (ps.terms it.2.ident).length > 1
  if cands.isEmpty then raise .valueError
  let (k, old) ← choice cands
  let new ← choice ((ps.terms old.ident).filter fun t => ! t.value.pyEq old.value)
  replaceTerminal i k new

/-- `mut_replace_primitive`, mutation.py l.39-63. -/
def mutReplacePrimitive (i : Nat) (ps : PSet) : GP Unit := do
  let as ← primitives i
  let cs ← getNodes as
  let cands := (enum cs).filter fun it => (ps.prims it.2.prim.output).length > 1
  if cands.isEmpty then raise .valueError
  let (k, old) ← choice cands
  let new ← randomPrimitiveNode old.prim.output ps (some old.prim)
  replacePrimitive i k new

/-- The while loop of `mut_shrink`, mutation.py l.92-97: walk `primitives_left - shrink_by`
nodes down, then cut. -/
def shrinkWalk (shrinkBy : Nat) : Nat → Addr → GP Unit
  | 0, cur => cut cur
  | left + 1, cur => do
    if left + 1 > shrinkBy then
      let c ← getNode cur
      match c.data with
      | none => raise .attributeError
      | some d => shrinkWalk shrinkBy left d
    else cut cur
where
  /-- mutation.py l.97 -/
  cut (cur : Addr) : GP Unit := do
    let c ← getNode cur
    setNode cur { c with data := none }

/-- `mut_shrink`, mutation.py l.66-97. -/
def mutShrink (i : Nat) (shrinkBy : Option Nat) : GP Unit := do
  let as ← primitives i
  let n := as.length
  match shrinkBy with
  | some k =>
    if n ≤ k then raise .valueError
    let ind ← getInd i
    shrinkWalk k (n - 1) ind.main
  | none => do
    let k ← randint 1 (n - 1)
    let ind ← getInd i
    shrinkWalk k (n - 1) ind.main

/-- `mut_insert`, mutation.py l.100-116. -/
def mutInsert (i : Nat) (ps : PSet) : GP Unit := do
  let as ← primitives i
  let parent ← choice as
  let new ← randomPrimitiveNode dataTerminal ps none
  let p ← getNode parent
  let n ← getNode new
  setNode new { n with data := p.data }
  let p ← getNode parent
  setNode parent { p with data := some new }

/-- The mutation callables of `random_valid_mutation_in_place`. -/
inductive MutFn
  | replacePrimitive | insert | shrink | replaceTerminal
  | partialShrink (by_ : Nat)
  deriving DecidableEq, Repr

/-- Calling a mutation callable. -/
def MutFn.apply (f : MutFn) (i : Nat) (ps : PSet) : GP Unit :=
  match f with
  | .replacePrimitive => mutReplacePrimitive i ps
  | .insert => mutInsert i ps
  | .shrink => mutShrink i none
  | .replaceTerminal => mutReplaceTerminal i ps
  | .partialShrink k => mutShrink i (some k)

/-- `fn.__name__`; `functools.partial` objects have no `__name__`. -/
def MutFn.name : MutFn → Except Exn Str
  | .replacePrimitive => .ok "mut_replace_primitive".toList
  | .insert => .ok "mut_insert".toList
  | .shrink => .ok "mut_shrink".toList
  | .replaceTerminal => .ok "mut_replace_terminal".toList
  | .partialShrink _ => .error .attributeError

/-- `max_length is not None and n > max_length` (mutation.py l.148, crossover.py l.30-33, l.40) -/
def exceeds (maxLength : Option Nat) (n : Nat) : Bool :=
  match maxLength with
  | some m => decide (n > m)
  | none => false

/-- `max_length is None or n < max_length`, mutation.py l.159 -/
def mayGrow (maxLength : Option Nat) (n : Nat) : Bool :=
  match maxLength with
  | some m => decide (n < m)
  | none => true

/-- The list built in `random_valid_mutation_in_place`, mutation.py l.146-168. -/
def availableMutations (ps : PSet) (maxLength : Option Nat) (cells : List Cell) : List MutFn :=
  let n := cells.length
  if exceeds maxLength n then [.partialShrink (n - maxLength.getD 0)]
  else
    (if (cells.filter fun c => (ps.prims c.prim.output).length > 1).length > 1
      then [.replacePrimitive] else [])
    ++ (if mayGrow maxLength n then [.insert] else [])
    ++ (if n > 1 then [.shrink] else [])
    ++ (if ((cells.flatMap Cell.terms).filter fun t => (ps.terms t.ident).length > 1).length > 1
      then [.replaceTerminal] else [])

/-- `random_valid_mutation_in_place`, mutation.py l.119-173. -/
def randomValidMutation (ps : PSet) (maxLength : Option Nat) (i : Nat) : GP MutFn := do
  let as ← primitives i
  let cs ← getNodes as
  let f ← choice (availableMutations ps maxLength cs)
  f.apply i ps
  pure f

/-- `_shared_terminals` with `with_indices=True, value_match="different"`,
crossover.py l.84-126 (the only way the code calls it). -/
def sharedTerminals (t1 t2 : List Terminal) : List (Nat × Terminal × Nat × Terminal) :=
  (enum t1).flatMap fun (i, a) =>
    (enum t2).filterMap fun (j, b) =>
      if a.ident = b.ident then
        if a.value.pyEq b.value then none else some (i, a, j, b)
      else none

/-- The crossover callables. -/
inductive CxFn
  | terminals | primitives
  deriving DecidableEq, Repr

/-- `_valid_crossover_functions`, crossover.py l.129-149. -/
def validCrossoverFunctions (i j : Nat) : GP (List CxFn) := do
  let t1 ← terminals i
  let t2 ← terminals j
  let p1 ← Gama.primitives i
  let p2 ← Gama.primitives j
  pure ((if (sharedTerminals t1 t2).isEmpty then [] else [.terminals])
    ++ (if p1.length ≥ 2 ∧ p2.length ≥ 2 then [.primitives] else []))

/-- `crossover_primitives`, crossover.py l.45-60 (simultaneous assignment: both right-hand
sides are read before anything is written). -/
def crossoverPrimitives (i j : Nat) : GP Unit := do
  let as ← primitives i
  let p1 ← choice as.dropLast
  let bs ← primitives j
  let p2 ← choice bs.dropLast
  let c1 ← getNode p1
  let c2 ← getNode p2
  setNode p1 { c1 with data := c2.data }
  let c2' ← getNode p2
  setNode p2 { c2' with data := c1.data }

/-- `crossover_terminals`, crossover.py l.63-81. -/
def crossoverTerminals (i j : Nat) : GP Unit := do
  let t1 ← terminals i
  let t2 ← terminals j
  let (k, a, l, b) ← choice (sharedTerminals t1 t2)
  replaceTerminal i k b
  replaceTerminal j l a

def CxFn.apply (f : CxFn) (i j : Nat) : GP Unit :=
  match f with
  | .terminals => crossoverTerminals i j
  | .primitives => crossoverPrimitives i j

/-- `random_crossover`, crossover.py l.8-42. Returns the pair in the order of the code. -/
def randomCrossover (maxLength : Option Nat) (i j : Nat) : GP (Nat × Nat) := do
  let as ← primitives i
  if exceeds maxLength as.length then raise .valueError
  let bs ← primitives j
  if exceeds maxLength bs.length then raise .valueError
  let fs ← validCrossoverFunctions i j
  if fs.length = 0 then raise .valueError
  let f ← choice fs
  f.apply i j
  let as ← primitives i
  if exceeds maxLength as.length then pure (j, i) else pure (i, j)

/-- Configuration of the operator set as made by `Gama.__init__`, gama.py l.318-336. -/
structure OpConfig where
  ps : PSet
  maxLength : Option Nat
  /-- whether a pipeline string is a key of `completed_evaluations` -/
  completed : Str → Bool
  maxRetry : Nat := 50

/-- `max_start_length`, gama.py l.318. -/
def OpConfig.maxStart (c : OpConfig) : Nat := match c.maxLength with | none => 3 | some m => m

/-- `OperatorSet.try_until_new`, operator_set.py l.52-60.  `last` is the value of the local
variable `individual` so far (unbound before the first iteration). -/
def tryUntilNew (completed : Str → Bool) (op : GP Nat) : Nat → Option Nat → GP Nat
  | 0, some ind => pure ind
  | 0, none => raise .unboundLocal
  | n + 1, _ => do
    let ind ← op
    let s ← pipelineStr ind
    if completed s then tryUntilNew completed op n (some ind) else pure ind

/-- `mate_with_log`, operator_set.py l.63-67.  The result of `self._mate` is ignored. -/
def mateWithLog (c : OpConfig) (i j : Nat) : GP Nat := do
  let n1 ← copyAsNew i
  let n2 ← copyAsNew j
  let _ ← randomCrossover c.maxLength n1 n2
  let ind ← getInd n1
  setInd n1 { ind with md := { parents := [i, j], origin := some "cx".toList } }
  pure n1

/-- `OperatorSet.mate`, operator_set.py l.62-69. -/
def opMate (c : OpConfig) (i j : Nat) : GP Nat :=
  tryUntilNew c.completed (mateWithLog c i j) c.maxRetry none

/-- `mutate_with_log`, operator_set.py l.72-76. -/
def mutateWithLog (c : OpConfig) (i : Nat) : GP Nat := do
  let n ← copyAsNew i
  let f ← randomValidMutation c.ps c.maxLength n
  match f.name with
  | .error e => raise e
  | .ok name => do
    let ind ← getInd n
    setInd n { ind with md := { parents := [i], origin := some name } }
    pure n

/-- `OperatorSet.mutate`, operator_set.py l.71-78. -/
def opMutate (c : OpConfig) (i : Nat) : GP Nat :=
  tryUntilNew c.completed (mutateWithLog c i) c.maxRetry none

/-- `OperatorSet.individual`, operator_set.py l.80-85. -/
def opIndividual (c : OpConfig) : GP Nat := do
  let m ← createRandomExpression c.ps 1 c.maxStart
  let n ← newInd m
  let ind ← getInd n
  setInd n { ind with md := { ind.md with origin := some "new".toList } }
  pure n

end Gama
