import Verif.Model.Components
import Verif.Model.Dict
import Mathlib.Data.Nat.Digits.Defs

/-!
# Compiling individuals and exporting code

Models `primitive_node_to_sklearn` and `compile_individual` of
`gama/genetic_programming/compilers/scikitlearn.py`, `gama/utilities/export.py`, `to_code` of
`gama/postprocessing/best_fit.py` and `gama/postprocessing/ensemble.py`, `Gama.export_script`, the
compile function that individuals carry along, and the exclusions of `Gama.fit` for large data.
-/

namespace Gama

/-! ### Compiling -/

/-- A digit. -/
def digitChar (d : Nat) : Char := Char.ofNat (48 + d)

/-- `str(i)` of a natural number. -/
def natStr (n : Nat) : Str :=
  if n = 0 then ['0'] else ((Nat.digits 10 n).map digitChar).reverse

/-- A transformer of the fixed preprocessing: its class and what `str` gives of a copy of which the
mapping was removed (`transformers_to_str`, export.py l.8-14).  Copying is `copy.copy`, so the
transformer itself keeps its mapping. -/
structure Transformer where
  cls : Cls
  text : Str
  deriving DecidableEq, Repr

/-- An estimator in a pipeline: made by calling a class with keyword arguments, or a fixed
preprocessing step.  Simplification: the call is recorded, and does not fail. -/
inductive Est where
  | built (cls : Cls) (params : List (Str × Value))
  | fixed (t : Transformer)
  deriving DecidableEq, Repr

/-- The class of an estimator. -/
def Est.cls : Est → Cls
  | .built c _ => c
  | .fixed t => t.cls

/-- The dictionary `{terminal.output: terminal.value for terminal in terminals}`. -/
def termDict : List Terminal → List (Str × Value) → List (Str × Value)
  | [], d => d
  | t :: ts, d => termDict ts (dset d t.output t.value)

/-- `primitive_node_to_sklearn`, compilers/scikitlearn.py l.26-30. -/
def nodeToSklearn (c : Cell) : Est := .built c.prim.ident (termDict c.terms [])

/-- `enumerate`, from `i` on, with the positions as strings. -/
def enumSteps {α : Type} (f : Cell → α) : Nat → List Cell → List (Str × α)
  | _, [] => []
  | i, c :: cs => (natStr i, f c) :: enumSteps f (i + 1) cs

/-- `compile_individual` (the steps of the pipeline) on the nodes of an individual,
compilers/scikitlearn.py l.33-44. -/
def compileNodes (pre : List (Str × Transformer)) (cs : List Cell) : List (Str × Est) :=
  let own := enumSteps nodeToSklearn 0 cs
  let all := if pre.isEmpty then own
    else own ++ (pre.map fun p => (p.1, Est.fixed p.2)).reverse
  all.reverse

/-- `compile_individual`, compilers/scikitlearn.py l.33-44. -/
def compileIndividual (pre : List (Str × Transformer)) (i : Nat) : GP (List (Str × Est)) := do
  let ps ← primitives i
  let cs ← getNodes ps
  pure (compileNodes pre cs)

/-! ### Exporting -/

/-- `s.split(sep)` on one character. -/
def splitOnChar (sep : Char) : Str → List Str
  | [] => [[]]
  | c :: s =>
    if c = sep then [] :: splitOnChar sep s
    else match splitOnChar sep s with
      | [] => [[c]]
      | p :: ps => (c :: p) :: ps

/-- `sep.join(parts)`. -/
def joinWith (sep : Str) : List Str → Str
  | [] => []
  | [p] => p
  | p :: ps => p ++ sep ++ joinWith sep ps

/-- The module named by `format_import`, export.py l.19-22. -/
def importModule (m : Str) : Str :=
  let parts := splitOnChar '.' m
  if (parts.getLastD []).head? = some '_' then joinWith ['.'] parts.dropLast else m

/-- An import statement `from <modul> import <name>`. -/
structure Import where
  modul : Str
  name : Str
  deriving DecidableEq, Repr

/-- The text of an import statement, export.py l.23 and l.49. -/
def Import.text (i : Import) : Str :=
  ['f', 'r', 'o', 'm', ' '] ++ i.modul ++ [' ', 'i', 'm', 'p', 'o', 'r', 't', ' '] ++ i.name

/-- `format_import`, export.py l.17-23. -/
def formatImport (c : Cls) : Import := ⟨importModule c.modul, c.name⟩

/-- `from numpy import nan` and `from sklearn.pipeline import Pipeline`, export.py l.42. -/
def baseImports : List Import :=
  [⟨['n', 'u', 'm', 'p', 'y'], ['n', 'a', 'n']⟩,
   ⟨['s', 'k', 'l', 'e', 'a', 'r', 'n', '.', 'p', 'i', 'p', 'e', 'l', 'i', 'n', 'e'],
    ['P', 'i', 'p', 'e', 'l', 'i', 'n', 'e']⟩]

/-- The imports for functions used as values, export.py l.48-52.  `fnModule` is the `__module__` of a
function. -/
def fnImports (fnModule : Nat → Str) (ts : List Terminal) : List Import :=
  ts.filterMap fun t =>
    match t.value with
    | .fn u name => some ⟨fnModule u, name⟩
    | _ => none

/-- `PrimitiveNode.str_nonrecursive`, primitive_node.py l.41-49. -/
def strNonrecursive (c : Cell) : Str :=
  c.prim.str ++ '(' :: joinWith [',', ' '] (c.terms.map Terminal.str) ++ [')']

/-- `imports_and_steps_for_individual`, export.py l.31-53, on the nodes of an individual that is
compiled with the preprocessing `pre`.  The imports are a set: the list has them in some order. -/
def importsAndSteps (fnModule : Nat → Str) (pre : List (Str × Transformer)) (cs : List Cell) :
    List Import × List (Str × Str) :=
  (baseImports ++ (compileNodes pre cs).map (fun s => formatImport s.2.cls)
      ++ cs.reverse.flatMap (fun c => fnImports fnModule c.terms),
   (enumSteps strNonrecursive 0 cs).reverse)

/-- `format_pipeline`, export.py l.26-28. -/
def formatPipeline (name : Str) (steps : List (Str × Str)) : Str :=
  name ++ [' ', '=', ' ', 'P', 'i', 'p', 'e', 'l', 'i', 'n', 'e', '(', '['] ++
    joinWith [',', '\n'] (steps.map fun s =>
      ['(', '\''] ++ s.1 ++ ['\'', ',', ' '] ++ s.2 ++ [')']) ++ [']', ')', '\n']

/-- The variable `pipeline`. -/
def pipelineVar : Str := ['p', 'i', 'p', 'e', 'l', 'i', 'n', 'e']

/-- What a script consists of, before it is written as text: imports in the order of the script, and
the steps of `pipeline`. -/
structure Script where
  imports : List Import
  steps : List (Str × Str)

/-- `BestFitPostProcessing.to_code` up to the text, best_fit.py l.35-42.  `order` lists the elements of
the set of imports in some order. -/
def bestFitScript (fnModule : Nat → Str) (order : List Import → List Import)
    (pre : List (Str × Transformer)) (cs : List Cell)
    (preprocessing : Option (List (Str × Transformer))) : Script :=
  let r := importsAndSteps fnModule pre cs
  match preprocessing with
  | none => ⟨order r.1, r.2⟩
  | some ts => ⟨order (r.1 ++ ts.map fun p => formatImport p.2.cls),
      (ts.map fun p => (p.1, p.2.text)) ++ r.2⟩

/-- The text of a script, best_fit.py l.42-43. -/
def Script.text (s : Script) : Str :=
  joinWith ['\n'] (s.imports.map Import.text) ++ ['\n', '\n'] ++ formatPipeline pipelineVar s.steps

/-- `Gama.export_script` without a file, gama.py l.698-708 and l.714, with best-fit
post-processing: `selected` is the individual fitted (with the preprocessing it is compiled with),
`encoding` the steps of the encoding pipeline, if there is one. -/
def exportBestFit (fnModule : Nat → Str) (order : List Import → List Import)
    (selected : Option (List (Str × Transformer) × List Cell))
    (encoding : Option (List (Str × Transformer))) (extension : List (Str × Transformer)) :
    Except Exn Script :=
  match selected with
  | none => .error .runtimeError
  | some (pre, cs) =>
    .ok (bestFitScript fnModule order pre cs (some (encoding.getD [] ++ extension)))

/-- The kind of ensemble. -/
inductive Voter where
  | classifier (probabilities : Bool)
  | regressor
  deriving DecidableEq, Repr

/-- The name of the voting class, ensemble.py l.87-92. -/
def Voter.name : Voter → Str
  | .classifier _ => ['V', 'o', 't', 'i', 'n', 'g', 'C', 'l', 'a', 's', 's', 'i', 'f', 'i', 'e', 'r']
  | .regressor => ['V', 'o', 't', 'i', 'n', 'g', 'R', 'e', 'g', 'r', 'e', 's', 's', 'o', 'r']

/-- The voting argument, ensemble.py l.109-115. -/
def Voter.voting : Voter → Str
  | .classifier true => [',', ' ', 'v', 'o', 't', 'i', 'n', 'g', '=', '\'', 's', 'o', 'f', 't', '\'']
  | .classifier false => [',', ' ', 'v', 'o', 't', 'i', 'n', 'g', '=', '\'', 'h', 'a', 'r', 'd', '\'']
  | .regressor => []

/-- `ensemble`, the variable and the name of the last step, ensemble.py l.125 and l.131. -/
def ensembleVar : Str := ['e', 'n', 's', 'e', 'm', 'b', 'l', 'e']

/-- What the script for an ensemble consists of: imports, the steps of each `pipeline_<i>`, the voting
class with its argument, the weights, and the steps of `pipeline` if that is defined. -/
structure EnsembleScript where
  imports : List Import
  pipelines : List (Str × List (Str × Str))
  voter : Voter
  members : List (Str × Str)
  weights : List Nat
  steps : Option (List (Str × Str))

/-- `pipeline_<i>`. -/
def memberVar (i : Nat) : Str := pipelineVar ++ '_' :: natStr i

/-- The module of the voting classes. -/
def ensembleModule : Str :=
  ['s', 'k', 'l', 'e', 'a', 'r', 'n', '.', 'e', 'n', 's', 'e', 'm', 'b', 'l', 'e']

/-- The pipelines of the members, ensemble.py l.99-104. -/
def memberPipelines : Nat → List (List (Str × Str)) → List (Str × List (Str × Str))
  | _, [] => []
  | i, s :: ss => (memberVar i, s) :: memberPipelines (i + 1) ss

/-- The estimators of the voter, ensemble.py l.106: a name for each member. -/
def memberNames : Nat → Nat → List (Str × Str)
  | _, 0 => []
  | i, n + 1 => (natStr i, memberVar i) :: memberNames (i + 1) n

/-- `EnsemblePostProcessing.to_code`, ensemble.py l.84-132, up to the text: `models` are the members
(the preprocessing each is compiled with, its nodes, its weight); no ensemble is refused. -/
def ensembleScript (fnModule : Nat → Str) (order : List Import → List Import) (voter : Option Voter)
    (models : List (List (Str × Transformer) × List Cell × Nat))
    (preprocessing : Option (List (Str × Transformer))) : Except Exn EnsembleScript :=
  match voter with
  | none => .error .runtimeError
  | some v =>
    let own := models.map fun m => importsAndSteps fnModule m.1 m.2.1
    let imports := [⟨ensembleModule, v.name⟩] ++ baseImports.drop 1 ++ own.flatMap Prod.fst ++
      match preprocessing with
      | none => []
      | some ts => ts.map fun p => formatImport p.2.cls
    .ok ⟨order imports, memberPipelines 0 (own.map Prod.snd), v, memberNames 0 models.length,
      models.map fun m => m.2.2,
      preprocessing.map fun ts => (ts.map fun p => (p.1, p.2.text)) ++ [(ensembleVar, ensembleVar)]⟩

/-- `str` of a list of natural numbers, as `{weights}` in ensemble.py l.125 gives it. -/
def natListStr (ns : List Nat) : Str := '[' :: joinWith [',', ' '] (ns.map natStr) ++ [']']

/-- The line that defines `ensemble`, ensemble.py l.106 and l.125. -/
def EnsembleScript.voterLine (s : EnsembleScript) : Str :=
  ensembleVar ++ [' ', '=', ' '] ++ s.voter.name ++ ['(', '['] ++
    joinWith [','] (s.members.map fun m => ['(', '\''] ++ m.1 ++ ['\'', ',', ' '] ++ m.2 ++ [')']) ++
    [']'] ++ s.voter.voting ++ [',', ' ', 'w', 'e', 'i', 'g', 'h', 't', 's', '='] ++ natListStr s.weights ++
    [')', '\n']

/-- The text of the script for an ensemble, ensemble.py l.120-132. -/
def EnsembleScript.text (s : EnsembleScript) : Str :=
  joinWith ['\n'] (s.imports.map Import.text) ++ ['\n', '\n'] ++
    joinWith ['\n', '\n'] (s.pipelines.map fun p => formatPipeline p.1 p.2) ++ ['\n'] ++ s.voterLine ++
    match s.steps with
    | none => []
    | some steps => formatPipeline pipelineVar steps

/-! ### The compile function of individuals -/

/-- The operator set and the individuals, as far as compiling goes: the preprocessing of
`_safe_compile` (`none` before the first fit), and for each individual the preprocessing steps that its
`_to_pipeline` applies. -/
structure Compiling where
  safe : Option (List (Str × Transformer))
  inds : List (List (Str × Transformer))

/-- What can happen: a fit sets `_safe_compile` (gama.py l.544-550), an individual is made
(operator_set.py l.80-85), one is copied (individual.py l.135-137, for mutation and crossover), or the
user makes one with `compile_individual`. -/
inductive CompileEvent where
  | fit (extension : List (Str × Transformer))
  | new
  | copy (i : Nat)
  | byUser

/-- One event. -/
def compileStep (s : Compiling) : CompileEvent → Compiling
  | .fit ext => ⟨some ext, s.inds⟩
  | .new => ⟨s.safe, s.inds ++ [s.safe.getD []]⟩
  | .copy i => ⟨s.safe, s.inds ++ (s.inds[i]?).toList⟩
  | .byUser => ⟨s.safe, s.inds ++ [[]]⟩

/-- Several events. -/
def compileRun (s : Compiling) : List CompileEvent → Compiling
  | [] => s
  | e :: es => compileRun (compileStep s e) es

/-! ### Exclusions for large data -/

/-- The algorithms that are excluded for large data: KNeighbors (classifier and regressor) and
PolynomialFeatures; by identity. -/
structure Heavy where
  neighbors : List Nat
  polynomial : List Nat

/-- `store_pipelines`, gama.py l.551-553: whether the evaluation library keeps models (`m` is the number
it keeps, `none` for all). -/
def storesModels : Option Nat → Bool
  | none => true
  | some k => decide (0 < k)

/-- The exclusions of `fit`, gama.py l.555-576, on the lists of predictors and preprocessors. -/
def excludeHeavy (h : Heavy) (m : Option Nat) (rows cols : Nat)
    (s : List Primitive × List Primitive) : List Primitive × List Primitive :=
  let store := storesModels m
  let pred := if store && decide (rows * cols > 6000000) then
    s.1.filter (fun p => !h.neighbors.contains p.ident.uid) else s.1
  let data := if store && decide (cols > 50) then
    s.2.filter (fun p => !h.polynomial.contains p.ident.uid) else s.2
  (pred, data)

/-- The search space of one fit after another. -/
def excludeRun (h : Heavy) (m : Option Nat) :
    List (Nat × Nat) → List Primitive × List Primitive → List Primitive × List Primitive
  | [], s => s
  | d :: ds, s => excludeRun h m ds (excludeHeavy h m d.1 d.2 s)

end Gama
