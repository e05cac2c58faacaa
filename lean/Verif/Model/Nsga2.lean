import Verif.Model.Py
import Verif.Model.Score

/-!
# NSGA-II

Models `gama/genetic_programming/nsga2.py`.  `NSGAMeta` objects are compared by identity and
created once per population element, so they are identified with their position in the
population; their mutable attributes are functions of the position.
-/

namespace Gama
open PyM

/-- `NSGAMeta.dominates`, nsga2.py l.25-29. -/
def dominates (a b : List Score) : Bool := (a.zip b).all fun p => decide (p.2 < p.1)

/-- `itertools.combinations(P, 2)`. -/
def combinations2 {α : Type} : List α → List (α × α)
  | [] => []
  | x :: xs => xs.map (fun y => (x, y)) ++ combinations2 xs

/-- The attributes of the `NSGAMeta` objects that sorting changes, nsga2.py l.20-23. -/
structure SortState where
  rank : Nat → Nat := fun _ => 0
  dominating : Nat → List Nat := fun _ => []
  counter : Nat → Int := fun _ => 0

/-- Assigning an attribute of one object. -/
def upd {β : Type} (f : Nat → β) (i : Nat) (v : β) : Nat → β := fun j => if j = i then v else f j

/-- Loop body, nsga2.py l.123-128. -/
def countStep (dom : Nat → Nat → Bool) (s : SortState) (pq : Nat × Nat) : SortState :=
  if dom pq.1 pq.2 then
    { s with dominating := upd s.dominating pq.1 (s.dominating pq.1 ++ [pq.2])
             counter := upd s.counter pq.2 (s.counter pq.2 + 1) }
  else if dom pq.2 pq.1 then
    { s with dominating := upd s.dominating pq.2 (s.dominating pq.2 ++ [pq.1])
             counter := upd s.counter pq.1 (s.counter pq.1 + 1) }
  else s

/-- Loop body, nsga2.py l.131-133: `front` is `fronts[0]`. -/
def firstStep (sf : SortState × List Nat) (p : Nat) : SortState × List Nat :=
  if sf.1.counter p = 0 then ({ sf.1 with rank := upd sf.1.rank p 1 }, sf.2 ++ [p]) else sf

/-- Loop body, nsga2.py l.140-143: `front` is `fronts[i + 1]`. -/
def releaseStep (i : Nat) (sf : SortState × List Nat) (q : Nat) : SortState × List Nat :=
  let s := { sf.1 with counter := upd sf.1.counter q (sf.1.counter q - 1) }
  if s.counter q = 0 then ({ s with rank := upd s.rank q (i + 1) }, sf.2 ++ [q]) else (s, sf.2)

/-- The two inner for loops, nsga2.py l.138-143. -/
def releaseFront (i : Nat) (s : SortState) (front : List Nat) : SortState × List Nat :=
  front.foldl (fun sf p => (sf.1.dominating p).foldl (releaseStep i) sf) (s, [])

/-- The while loop, nsga2.py l.135-145, from `fronts[i]` on; returns `fronts[i:]`.  `fuel`
bounds the iterations, running out of it stands for non-termination. -/
def sortLoop : Nat → Nat → List Nat → SortState → Except Exn (List (List Nat) × SortState)
  | 0, _, _, _ => .error .diverge
  | fuel + 1, i, front, s =>
    if front = [] then .ok ([front], s)
    else
      let (s', next) := releaseFront i s front
      match sortLoop fuel (i + 1) next s' with
      | .error e => .error e
      | .ok (fs, s'') => .ok (front :: fs, s'')

/-- `fast_non_dominated_sort`, nsga2.py l.119-145, of `n` objects. -/
def fastNonDominatedSort (dom : Nat → Nat → Bool) (n : Nat) :
    Except Exn (List (List Nat) × SortState) :=
  let s := (combinations2 (List.range n)).foldl (countStep dom) {}
  let (s', front0) := (List.range n).foldl firstStep (s, [])
  sortLoop (n + 1) 0 front0 s'

/-- `a + b` for a distance (a non-negative number or infinity) and a finite number. -/
def distAdd : Score → ℚ → Score
  | .fin a, b => .fin (a + b)
  | d, _ => d

/-- The number behind a finite score.  Only used where the score is finite. -/
def Score.toRat : Score → ℚ
  | .fin q => q
  | _ => 0

/-- The inner for loop over consecutive triples, nsga2.py l.165-168. -/
def addGaps (val : Nat → Score) (range : ℚ) : List Nat → (Nat → Score) → (Nat → Score)
  | a :: b :: c :: rest, d =>
    addGaps val range (b :: c :: rest)
      (upd d b (distAdd (d b) (((val c).toRat - (val a).toRat) / range)))
  | _, d => d

/-- One iteration of `crowding_distance_assignment`, nsga2.py l.152-168, on an already sorted
non-empty front. -/
def crowdStep (val : Nat → Score) (front : List Nat) (d : Nat → Score) : Nat → Score :=
  match front with
  | [] => d
  | x :: _ =>
    let y := front.getLastD x
    let d := upd (upd d y .pinf) x .pinf
    if val y = val x || (val x).isInf || (val y).isInf then d
    else addGaps val ((val y).toRat - (val x).toRat) front d

/-- `crowding_distance_assignment`, nsga2.py l.148-168: the loop over the metrics
`m, m+1, …` (`k` of them left), with `I` as left by the previous sort. -/
def crowdLoop (vals : Nat → List Score) : Nat → Nat → List Nat → (Nat → Score) → (Nat → Score)
  | 0, _, _, d => d
  | k + 1, m, front, d =>
    let val := fun i => (vals i).getD m .ninf
    let sorted := pySorted (fun a b => decide (val a ≤ val b)) front
    crowdLoop vals k (m + 1) sorted (crowdStep val sorted d)

/-- `crowding_distance_assignment`, nsga2.py l.148-168.  `I[0]` fails on an empty front. -/
def crowdingDistance (vals : Nat → List Score) (front : List Nat) (d : Nat → Score) :
    Except Exn (Nat → Score) :=
  match front with
  | [] => .error .indexError
  | x :: _ => .ok (crowdLoop vals (vals x).length 0 front d)

/-- `crowd_compare(self, other) < 0`, nsga2.py l.31-36. -/
def crowdBetter (rank : Nat → Nat) (dist : Nat → Score) (a b : Nat) : Bool :=
  decide (rank a < rank b) || (decide (rank a = rank b) && decide (dist b < dist a))

/-- The while loop of `nsga2`, nsga2.py l.102-114, over the fronts from `fronts[i]` on. -/
def selectLoop (vals : Nat → List Score) (rank : Nat → Nat) (n : Int) :
    List (List Nat) → List Nat → (Nat → Score) → Except Exn (List Nat × (Nat → Score))
  | [], selection, d =>
    if (selection.length : Int) < n then .error .indexError else .ok (selection, d)
  | front :: rest, selection, d =>
    if (selection.length : Int) < n then
      match crowdingDistance vals front d with
      | .error e => .error e
      | .ok d' =>
        if ((selection.length + front.length : Nat) : Int) < n then
          selectLoop vals rank n rest (selection ++ front) d'
        else
          let s := pySorted (fun a b => !crowdBetter rank d' b a) front
          selectLoop vals rank n rest
            (selection ++ s.take (n - (selection.length : Int)).toNat) d'
    else .ok (selection, d)

/-- What `nsga2(…, return_meta=True)` returns: positions in order of selection, and the rank
and distance attributes. -/
structure Selected where
  order : List Nat
  rank : Nat → Nat
  dist : Nat → Score

/-- `nsga2` on the value vectors of the population, nsga2.py l.95-116. -/
def nsga2 (values : List (List Score)) (n : Int) : Except Exn Selected :=
  if n = 0 ∨ n > (values.length : Int) then .error .valueError
  else
    let vals := fun i => values.getD i []
    match fastNonDominatedSort (fun p q => dominates (vals p) (vals q)) values.length with
    | .error e => .error e
    | .ok (fronts, s) =>
      match selectLoop vals s.rank n fronts [] (fun _ => .fin 0) with
      | .error e => .error e
      | .ok (order, d) => .ok { order := order, rank := s.rank, dist := d }

section
variable {σ : Type} [HasRand σ]

/-- `random.sample(xs, k=k)`: `k` elements at distinct positions in any order. -/
def sample {α : Type} : Nat → List α → PyM σ (List α)
  | 0, _ => pure []
  | k + 1, xs => do
    let j ← draw
    match xs[j % xs.length]? with
    | none => raise .valueError
    | some x => do
      let rest ← sample k (xs.eraseIdx (j % xs.length))
      pure (x :: rest)

/-- The tournament of `select_one`, nsga2.py l.57. -/
def tournament (c : Selected) (a b : Nat) : Nat := if crowdBetter c.rank c.dist a b then a else b

/-- `select_one`, nsga2.py l.54-57.  Unpacking anything but two elements is a ValueError. -/
def selectOne (c : Selected) (exclude : Option Nat) : PyM σ Nat := do
  let selected ← sample 3 c.order
  match (selected.filter fun s => some s ≠ exclude).take 2 with
  | [a, b] => pure (tournament c a b)
  | _ => raise .valueError

/-- The for loop, nsga2.py l.60-63, `n` iterations. -/
def selectPairs (c : Selected) : Nat → PyM σ (List (Nat × Nat))
  | 0 => pure []
  | n + 1 => do
    let first ← selectOne c none
    let second ← selectOne c (some first)
    let rest ← selectPairs c n
    pure ((first, second) :: rest)

/-- `nsga2_select`, nsga2.py l.39-64, returning positions instead of the objects. -/
def nsga2Select (values : List (List Score)) (n : Int) : PyM σ (List (Nat × Nat)) :=
  if values.length < 3 then raise .valueError
  else match nsga2 values values.length with
    | .error e => raise e
    | .ok c => selectPairs c n.toNat
end
end Gama
