import Verif.Model.Library

/-! # What the evaluation library is supposed to hold -/

namespace Gama.Spec
open Gama

section
variable {E P K : Type}

/-- The evaluations handed to the library, numbered in the order of arrival. -/
def numbered (hist : List (EvalRec E P K)) : List (Ref E P K) :=
  hist.zipIdx.map fun p => ⟨p.2, p.1⟩

/-- `out` are the rows `idx` of `l`. -/
def RowsOf {α : Type} (idx : List Nat) (l out : List α) : Prop :=
  out.map some = idx.map fun i => l[i]?

/-- Every evaluation that has predictions has `size` of them. -/
def SameSize (size : Nat) (hist : List (EvalRec E P K)) : Prop :=
  ∀ r ∈ hist, ∀ ps, r.predictions = some ps → ps.length = size

/-- No two evaluations of the history that succeeded are of the same individual. -/
def DistinctIds (hist : List (EvalRec E P K)) : Prop :=
  ((hist.filter fun r => r.error.isNone).map EvalRec.ident).Nodup

/-- What an evaluation with predictions `ps` stores if the rows `idx` are sampled (`none`: all
rows are stored). -/
def Stored {α : Type} (idx : Option (List Nat)) (ps out : Option (List α)) : Prop :=
  match ps with
  | none => out = none
  | some l => ∃ l', out = some l' ∧
    match idx with
    | none => l' = l
    | some rows => RowsOf rows l l'

/-- `best` is a list of `n` of the items `all`, or of all of them if there are fewer, such that
no item left out has a greater key. -/
def BestOf {α K : Type} [LE K] (key : α → K) (n : Nat) (all best : List α) : Prop :=
  ∃ out, (best ++ out).Perm all ∧ best.length = min n all.length ∧
    ∀ x ∈ best, ∀ y ∈ out, key y ≤ key x

end
end Gama.Spec
