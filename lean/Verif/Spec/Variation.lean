import Verif.Spec.Pipelines

/-!
# Specification of variation

The ways in which an offspring may differ from its parents, on lists of steps
(estimator first).
-/

namespace Gama.Spec

/-- The kinds of change a mutation makes. -/
inductive Change
  | value | step | insert | remove
  deriving DecidableEq, Repr

/-- `Mutated ps kind parent child`: the child differs from the parent by one change. -/
inductive Mutated (ps : PSet) : Change → List Step → List Step → Prop
  /-- one hyperparameter value is replaced by a different value offered for it -/
  | value (pre : List Step) (s : Step) (post : List Step) (k : Nat) (t : Terminal)
      (hk : k < s.terms.length) (offered : t ∈ ps.terms s.terms[k].ident)
      (differs : t.value.pyEq s.terms[k].value = false) :
      Mutated ps .value (pre ++ s :: post) (pre ++ { s with terms := s.terms.set k t } :: post)
  /-- one step is replaced by a different algorithm of the same kind -/
  | step (pre : List Step) (s s' : Step) (post : List Step)
      (same : s'.prim.output = s.prim.output) (differs : s'.prim ≠ s.prim) :
      Mutated ps .step (pre ++ s :: post) (pre ++ s' :: post)
  /-- one step is inserted below the estimator -/
  | insert (pre : List Step) (s' : Step) (post : List Step) (below : pre ≠ []) :
      Mutated ps .insert (pre ++ post) (pre ++ s' :: post)
  /-- steps are removed at the data end, not the estimator -/
  | remove (pre post : List Step) (keeps : pre ≠ []) (removes : post ≠ []) :
      Mutated ps .remove (pre ++ post) pre

/-- `Crossed p₁ p₂ c₁ c₂`: the children come from the parents by one exchange. -/
inductive Crossed : List Step → List Step → List Step → List Step → Prop
  /-- data-side tails are exchanged; each parent keeps its head and gives up something -/
  | tails (h₁ t₁ h₂ t₂ : List Step) (keep₁ : h₁ ≠ []) (keep₂ : h₂ ≠ [])
      (give₁ : t₁ ≠ []) (give₂ : t₂ ≠ []) :
      Crossed (h₁ ++ t₁) (h₂ ++ t₂) (h₁ ++ t₂) (h₂ ++ t₁)
  /-- two different values of one hyperparameter are exchanged -/
  | values (pre₁ : List Step) (s₁ : Step) (post₁ pre₂ : List Step) (s₂ : Step)
      (post₂ : List Step) (k₁ k₂ : Nat) (hk₁ : k₁ < s₁.terms.length) (hk₂ : k₂ < s₂.terms.length)
      (same : s₁.terms[k₁].ident = s₂.terms[k₂].ident)
      (differs : s₁.terms[k₁].value.pyEq s₂.terms[k₂].value = false) :
      Crossed (pre₁ ++ s₁ :: post₁) (pre₂ ++ s₂ :: post₂)
        (pre₁ ++ { s₁ with terms := s₁.terms.set k₁ s₂.terms[k₂] } :: post₁)
        (pre₂ ++ { s₂ with terms := s₂.terms.set k₂ s₁.terms[k₁] } :: post₂)

end Gama.Spec

namespace Gama.Spec

/-- `Fresh w w' n ss`: going from `w` to `w'` no existing object changed, and `n` is a new
individual, the pipeline `ss`, none of whose steps existed before. -/
structure Fresh (w w' : World) (n : Nat) (ss : List Step) : Prop where
  ext : Extends w w'
  new : w.inds.length ≤ n
  is : ∃ as, IsAt w' n as ss ∧ ∀ a ∈ as, w.nodes.length ≤ a

/-- The lineage recorded with an individual. -/
def HasMeta (w : World) (n : Nat) (parents : List Nat) (origin : Option Str) : Prop :=
  ∃ ind, w.inds[n]? = some ind ∧ ind.md = { parents := parents, origin := origin }

/-- `Attempts op w xs w'`: running `op` again and again from `w` gives the individuals of
`xs` (with what they print) and ends in `w'`. -/
inductive Attempts (op : GP Nat) : World → List (Nat × Str) → World → Prop
  | nil (w : World) : Attempts op w [] w
  | cons {w w' w'' : World} {n : Nat} {s : Str} {xs : List (Nat × Str)}
      (run : op w = (.ok n, w')) (print : pipelineStr n w' = (.ok s, w'))
      (rest : Attempts op w' xs w'') : Attempts op w ((n, s) :: xs) w''

end Gama.Spec
