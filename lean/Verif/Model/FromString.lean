import Verif.Model.Components

/-!
# Parsing pipeline strings

Models `PrimitiveNode.from_string`, `find_primitive`, `find_terminal` (primitive_node.py
l.63-127) and `Individual.from_string` (individual.py l.139-170).
-/

namespace Gama
open PyM

/-- `s.split(c)` for a separator of one character. -/
def split1 (c : Char) : Str → List Str
  | [] => [[]]
  | x :: xs =>
    if x = c then [] :: split1 c xs
    else match split1 c xs with
      | [] => [[x]]
      | h :: t => (x :: h) :: t

/-- `s.split(ab)` for a separator of two characters (leftmost, non-overlapping). -/
def split2 (a b : Char) : Str → List Str
  | [] => [[]]
  | [x] => [[x]]
  | x :: y :: xs =>
    if x = a ∧ y = b then [] :: split2 a b xs
    else match split2 a b (y :: xs) with
      | [] => [[x]]
      | h :: t => (x :: h) :: t

/-- `string[string.index(DATA_TERMINAL) + len(DATA_TERMINAL):]`, primitive_node.py l.89-90;
`none` is the `ValueError` of `index`. -/
def afterData : Str → Option Str
  | [] => none
  | x :: xs =>
    if dataTerminal.isPrefixOf (x :: xs) then some ((x :: xs).drop dataTerminal.length)
    else afterData xs

/-- `find_primitive`, primitive_node.py l.112-118. -/
def findPrimitive (ps : PSet) (s : Str) : Except Exn Primitive :=
  match (ps.prims dataTerminal ++ ps.prims predictionKey).find? (fun p => p.str == s) with
  | some p => .ok p
  | none => .error .indexError

/-- `find_terminal`, primitive_node.py l.121-127 (the primitive set is a `defaultdict`). -/
def findTerminal (ps : PSet) (s : Str) : Except Exn Terminal :=
  match split1 '=' s with
  | [ty, _] =>
    match (ps.terms ty).find? (fun t => t.repr == s) with
    | some t => .ok t
    | none => .error .runtimeError
  | _ => .error .valueError

/-- The list comprehension of l.100-103. -/
def findTerminals (ps : PSet) : List Str → Except Exn (List Terminal)
  | [] => .ok []
  | s :: ss =>
    match findTerminal ps s with
    | .error e => .error e
    | .ok t =>
      match findTerminals ps ss with
      | .error e => .error e
      | .ok ts => .ok (t :: ts)

/-- primitive_node.py l.96-103: the terminals of one step. -/
def parseTerminals (ps : PSet) (terminalSet : Str) : Except Exn (List Terminal) :=
  if terminalSet = [] then .ok [] else findTerminals ps (split2 ',' ' ' (terminalSet.drop 2))

/-- The for loop of `from_string`, primitive_node.py l.93-107. -/
def parseLoop (ps : PSet) (strict : Bool) : List (Str × Str) → Option Addr → GP (Option Addr)
  | [], last => pure last
  | (p, t) :: rest, last =>
    match findPrimitive ps p with
    | .error e => raise e
    | .ok prim =>
      match parseTerminals ps t with
      | .error e => raise e
      | .ok ts =>
        if strict && prim.input.any (fun i => ! (ts.map Terminal.ident).contains i)
        then raise .valueError
        else do
          let a ← newNode prim last ts
          parseLoop ps strict rest (some a)

/-- `PrimitiveNode.from_string`, primitive_node.py l.63-109.  The result is `none` if no step
was read and the string `"data"` itself is returned. -/
def nodeFromString (ps : PSet) (s : Str) (strict : Bool) : GP (Option Addr) :=
  let prims := (split1 '(' s).dropLast
  match afterData s with
  | none => raise .valueError
  | some rest => parseLoop ps strict (prims.reverse.zip (split1 ')' rest).dropLast) none

/-- `Individual.from_string`, individual.py l.139-170.  Simplification: an individual made
from the bare string `"data"` would fail at its first use; here making it fails. -/
def indFromString (ps : PSet) (s : Str) (strict : Bool) : GP Nat := do
  match ← nodeFromString ps s strict with
  | none => raise .attributeError
  | some a => newInd a

end Gama
