import Verif.Model.Components

/-!
# Specification vocabulary for pipelines

What a pipeline *is* for a user: a non-empty list of steps, the estimator first, then the
preprocessing steps towards the data; each step is an algorithm with hyperparameter values.
Nothing here uses the operators of the model.
-/

namespace Gama.Spec

/-- One step of a pipeline: an algorithm and its hyperparameter values. -/
structure Step where
  prim : Primitive
  terms : List Terminal
  deriving DecidableEq, Repr

/-- `Chain nodes d l`: following `_data_node` references from `d` visits exactly the nodes
`l` (address and contents) and then reaches the data. -/
def Chain (nodes : List Cell) : Option Addr → List (Addr × Step) → Prop
  | d, [] => d = none
  | d, (a, s) :: l => d = some a ∧ ∃ nxt, nodes[a]? = some ⟨s.prim, s.terms, nxt⟩ ∧ Chain nodes nxt l

/-- In world `w` the individual `i` is the pipeline `ss`, stored at the addresses `as`. -/
def IsAt (w : World) (i : Nat) (as : List Addr) (ss : List Step) : Prop :=
  as.length = ss.length ∧
  ∃ ind, w.inds[i]? = some ind ∧ Chain w.nodes (some ind.main) (as.zip ss)

/-- In world `w` the individual `i` is the pipeline `ss`. -/
def Is (w : World) (i : Nat) (ss : List Step) : Prop := ∃ as, IsAt w i as ss

/-- A step drawn from the search space: the algorithm is offered under `kind`, there is
exactly one value per declared hyperparameter, each value is offered for it, and the values
are listed in the order in which they print. -/
structure StepOk (ps : PSet) (kind : Str) (s : Step) : Prop where
  offered : s.prim ∈ ps.prims kind
  complete : (s.terms.map Terminal.ident).Perm s.prim.input
  values : ∀ t ∈ s.terms, t ∈ ps.terms t.ident
  ordered : s.terms.Pairwise fun a b => strLe a.str b.str = true

/-- A well-formed pipeline: one estimator, then only preprocessing steps. -/
def PipelineOk (ps : PSet) : List Step → Prop
  | [] => False
  | e :: pre => StepOk ps predictionKey e ∧ ∀ s ∈ pre, StepOk ps dataTerminal s

/-- A usable search space: algorithms are listed under their own kind, values under their
own hyperparameter, every declared hyperparameter has a value, hyperparameters of one
algorithm have different printed names, which contain no '=' (they are Python argument
names), and values of one hyperparameter print the same name. -/
structure PSetOk (ps : PSet) : Prop where
  kind : ∀ k p, p ∈ ps.prims k → p.output = k
  ident : ∀ k t, t ∈ ps.terms k → t.ident = k
  nonempty : ∀ k p i, p ∈ ps.prims k → i ∈ p.input → ps.terms i ≠ []
  distinct : ∀ k p, p ∈ ps.prims k → p.input.Nodup
  sameName : ∀ k t t', t ∈ ps.terms k → t' ∈ ps.terms k → t.output = t'.output
  diffName : ∀ k p i j t t', p ∈ ps.prims k → i ∈ p.input → j ∈ p.input → i ≠ j →
    t ∈ ps.terms i → t' ∈ ps.terms j → t.output ≠ t'.output
  noEq : ∀ k t, t ∈ ps.terms k → '=' ∉ t.output

/-- All hyperparameter values of a pipeline, in order. -/
def allTerms (ss : List Step) : List Terminal := ss.flatMap Step.terms

/-- The heap of `w'` extends that of `w`: every object of `w` exists unchanged in `w'`. -/
def Extends (w w' : World) : Prop := w.nodes <+: w'.nodes ∧ w.inds <+: w'.inds

end Gama.Spec
