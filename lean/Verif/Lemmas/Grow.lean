import Verif.Model.Search

/-! # Individuals are never taken away

No operation makes the list of individuals shorter, and what the operators of a search return is new. -/

namespace Gama
open PyM

/-- Individuals are added at most, and those that there were keep their fitness. -/
def Grown (w w' : World) : Prop := w.inds.map IndCell.fitness <+: w'.inds.map IndCell.fitness

theorem Grown.refl (w : World) : Grown w w := List.prefix_rfl

theorem Grown.trans {a b c : World} (h : Grown a b) (h' : Grown b c) : Grown a c := List.IsPrefix.trans h h'

theorem Grown.length {w w' : World} (h : Grown w w') : w.inds.length ≤ w'.inds.length := by
  have := List.IsPrefix.length_le h
  rwa [List.length_map, List.length_map] at this

/-- … also when an exception is raised. -/
def Grows {α : Type} (m : GP α) : Prop := ∀ w, Grown w (m w).2

section
variable {α β : Type}

theorem Grows.pure (a : α) : Grows (Pure.pure a : GP α) := fun _ => Grown.refl _

theorem Grows.raise (e : Exn) : Grows (PyM.raise e : GP α) := fun _ => Grown.refl _

theorem Grows.bind {m : GP α} {f : α → GP β} (hm : Grows m) (hf : ∀ a, Grows (f a)) :
    Grows (m >>= f) := by
  intro w
  have h1 := hm w
  rw [bind_run]
  cases hr : m w with
  | mk r w₁ =>
    rw [hr] at h1
    cases r with
    | error e => exact h1
    | ok a => exact h1.trans (hf a w₁)

theorem Grows.ite {c : Prop} [Decidable c] {m₁ m₂ : GP α} (h₁ : Grows m₁) (h₂ : Grows m₂) :
    Grows (if c then m₁ else m₂) := by
  by_cases h : c <;> simp [h, h₁, h₂]

theorem Grows.ofExcept (f : World → Except Exn α) : Grows (PyM.ofExcept f) := fun _ => Grown.refl _

theorem Grows.choice (xs : List α) : Grows (Gama.choice xs : GP α) := by
  intro w
  unfold Gama.choice
  cases xs[(HasRand.rnd w 0) % xs.length]? <;> exact Grown.refl _

theorem Grows.randint (lo hi : Nat) : Grows (Gama.randint lo hi : GP Nat) := by
  intro w
  unfold Gama.randint
  split <;> exact Grown.refl _

theorem Grows.draw : Grows (Gama.draw : GP Nat) := fun _ => Grown.refl _

theorem Grows.getNode (a : Addr) : Grows (Gama.getNode a) := Grows.ofExcept _
theorem Grows.getInd (i : Nat) : Grows (Gama.getInd i) := Grows.ofExcept _
theorem Grows.setNode (a : Addr) (c : Cell) : Grows (Gama.setNode a c) := fun _ => Grown.refl _

/-- An individual is read and then changed, but for its fitness. -/
theorem Grows.editInd (i : Nat) {g : IndCell → IndCell} (hg : ∀ c, (g c).fitness = c.fitness) :
    Grows (Gama.getInd i >>= fun c => Gama.setInd i (g c)) := by
  intro w
  rw [bind_run]
  unfold Gama.getInd PyM.ofExcept
  dsimp only
  cases h : w.inds[i]? with
  | none => exact Grown.refl _
  | some c =>
    show w.inds.map IndCell.fitness <+: (w.inds.set i (g c)).map IndCell.fitness
    rw [List.map_set, hg]
    obtain ⟨hi, hc⟩ := List.getElem?_eq_some_iff.1 h
    have : c.fitness = (w.inds.map IndCell.fitness)[i]'(by simpa using hi) := by rw [List.getElem_map, hc]
    rw [this, List.set_getElem_self]
    exact List.prefix_rfl

theorem Grows.editMeta (i : Nat) {g : IndCell → Meta} {f : Unit → GP β} (hf : ∀ u, Grows (f u)) :
    Grows (Gama.getInd i >>= fun c => Gama.setInd i { c with md := g c } >>= f) := by
  have := (Grows.editInd i (g := fun c => { c with md := g c }) fun _ => rfl).bind hf
  intro w
  have h := this w
  rw [bind_run, bind_run] at h
  rw [bind_run]
  cases hr : Gama.getInd i w with
  | mk r w₁ => rw [hr] at h; cases r <;> exact h

theorem Grows.newNode (p : Primitive) (d : Option Addr) (ts : List Terminal) :
    Grows (Gama.newNode p d ts) := by
  intro w
  exact Grown.refl _

theorem Grows.newInd (m : Addr) : Grows (Gama.newInd m) := by
  intro w
  show w.inds.map IndCell.fitness <+: (w.inds ++ _).map IndCell.fitness
  rw [List.map_append]
  exact List.prefix_append _ _

theorem Grows.primitives (i : Nat) : Grows (Gama.primitives i) :=
  (Grows.getInd i).bind fun _ => Grows.ofExcept _

theorem Grows.getNodes : ∀ as, Grows (Gama.getNodes as)
  | [] => Grows.pure _
  | a :: as => (Grows.getNode a).bind fun _ => (Grows.getNodes as).bind fun _ => Grows.pure _

theorem Grows.terminals (i : Nat) : Grows (Gama.terminals i) :=
  (Grows.primitives i).bind fun _ => (Grows.getNodes _).bind fun _ => Grows.pure _

theorem Grows.pipelineStr (i : Nat) : Grows (Gama.pipelineStr i) :=
  (Grows.primitives i).bind fun _ => (Grows.getNodes _).bind fun _ => Grows.pure _

theorem Grows.copyNode : ∀ fuel a, Grows (Gama.copyNode fuel a)
  | 0, _ => Grows.raise _
  | fuel + 1, a => (Grows.getNode a).bind fun c => by
    cases c.data with
    | none => exact Grows.newNode _ _ _
    | some b => exact (Grows.copyNode fuel b).bind fun _ => Grows.newNode _ _ _

theorem Grows.copyNodeTop (a : Addr) : Grows (Gama.copyNodeTop a) := by
  intro w
  exact Grows.copyNode w.nodes.length a w

theorem Grows.copyAsNew (i : Nat) : Grows (Gama.copyAsNew i) :=
  (Grows.getInd i).bind fun _ => (Grows.copyNodeTop _).bind fun _ => Grows.newInd _

theorem Grows.replaceTerminalLoop (pos : Nat) (t : Terminal) :
    ∀ as scan, Grows (Gama.replaceTerminalLoop pos t as scan)
  | [], scan => by
    unfold Gama.replaceTerminalLoop
    exact Grows.ite (Grows.raise _) (Grows.pure _)
  | a :: as, scan => by
    unfold Gama.replaceTerminalLoop
    refine (Grows.getNode a).bind fun c => Grows.ite ?_ (Grows.replaceTerminalLoop pos t as _)
    cases c.terms[pos - scan]? with
    | none => exact Grows.raise _
    | some old => exact Grows.ite (Grows.raise _) (Grows.setNode _ _)

theorem Grows.replaceTerminal (i pos : Nat) (t : Terminal) : Grows (Gama.replaceTerminal i pos t) :=
  (Grows.primitives i).bind fun _ => Grows.replaceTerminalLoop pos t _ _

theorem Grows.copyData : ∀ d, Grows (Gama.copyData d)
  | none => Grows.pure _
  | some d => (Grows.copyNodeTop d).bind fun _ => Grows.pure _

theorem Grows.attach (i : Nat) (new : Addr) : ∀ l, Grows (Gama.attach i new l)
  | none => Grows.editInd i (g := fun ind => { ind with main := new }) fun _ => rfl
  | some l => (Grows.getNode l).bind fun _ => Grows.setNode _ _

theorem Grows.replacePrimitiveLoop (i pos : Nat) (new : Addr) :
    ∀ as k last, Grows (Gama.replacePrimitiveLoop i pos new as k last)
  | [], k, last => Grows.attach i new last
  | a :: as, k, last => by
    unfold Gama.replacePrimitiveLoop
    refine Grows.ite ?_ (Grows.replacePrimitiveLoop i pos new as _ _)
    refine (Grows.getNode a).bind fun c => (Grows.getNode new).bind fun n => ?_
    refine Grows.ite ((Grows.raise _).bind fun _ => ?_) ?_
    all_goals
      exact (Grows.copyData _).bind fun _ => (Grows.getNode new).bind fun _ =>
        (Grows.setNode _ _).bind fun _ => Grows.attach _ _ _

theorem Grows.replacePrimitive (i pos : Nat) (new : Addr) : Grows (Gama.replacePrimitive i pos new) :=
  (Grows.primitives i).bind fun _ => Grows.replacePrimitiveLoop i pos new _ _ _

theorem Grows.randomTerminals (ps : PSet) : ∀ is, Grows (Gama.randomTerminals ps is)
  | [] => Grows.pure _
  | i :: is => (Grows.choice _).bind fun _ => (Grows.randomTerminals ps is).bind fun _ => Grows.pure _

theorem Grows.randomPrimitiveNode (out : Str) (ps : PSet) (ex : Option Primitive) :
    Grows (Gama.randomPrimitiveNode out ps ex) :=
  (Grows.choice _).bind fun _ => (Grows.randomTerminals ps _).bind fun _ => Grows.newNode _ _ _

theorem Grows.extendChain (ps : PSet) : ∀ n last, Grows (Gama.extendChain ps n last)
  | 0, _ => Grows.pure _
  | n + 1, last => (Grows.randomPrimitiveNode _ ps none).bind fun a => (Grows.getNode last).bind fun _ =>
      (Grows.setNode _ _).bind fun _ => Grows.extendChain ps n a

theorem Grows.createRandomExpression (ps : PSet) (lo hi : Nat) :
    Grows (Gama.createRandomExpression ps lo hi) :=
  (Grows.randint lo hi).bind fun _ => (Grows.randomPrimitiveNode _ ps none).bind fun _ =>
    (Grows.extendChain ps _ _).bind fun _ => Grows.pure _

theorem Grows.shrinkCut (a : Addr) : Grows (Gama.shrinkWalk.cut a) :=
  (Grows.getNode a).bind fun _ => Grows.setNode _ _

theorem Grows.shrinkWalk (k : Nat) : ∀ left a, Grows (Gama.shrinkWalk k left a)
  | 0, a => Grows.shrinkCut a
  | left + 1, a => by
    unfold Gama.shrinkWalk
    refine Grows.ite ((Grows.getNode a).bind fun c => ?_) (Grows.shrinkCut a)
    cases c.data with
    | none => exact Grows.raise _
    | some d => exact Grows.shrinkWalk k left d

theorem Grows.mutShrink (i : Nat) : ∀ k, Grows (Gama.mutShrink i k)
  | some k => (Grows.primitives i).bind fun _ =>
      Grows.ite ((Grows.raise _).bind fun _ => (Grows.getInd i).bind fun _ => Grows.shrinkWalk _ _ _)
        ((Grows.getInd i).bind fun _ => Grows.shrinkWalk _ _ _)
  | none => (Grows.primitives i).bind fun _ => (Grows.randint _ _).bind fun _ =>
      (Grows.getInd i).bind fun _ => Grows.shrinkWalk _ _ _

theorem Grows.mutInsert (i : Nat) (ps : PSet) : Grows (Gama.mutInsert i ps) :=
  (Grows.primitives i).bind fun _ => (Grows.choice _).bind fun _ =>
    (Grows.randomPrimitiveNode _ ps none).bind fun _ => (Grows.getNode _).bind fun _ =>
      (Grows.getNode _).bind fun _ => (Grows.setNode _ _).bind fun _ => (Grows.getNode _).bind fun _ =>
        Grows.setNode _ _

theorem Grows.mutReplaceTerminal (i : Nat) (ps : PSet) : Grows (Gama.mutReplaceTerminal i ps) := by
  unfold Gama.mutReplaceTerminal
  refine (Grows.terminals i).bind fun ts => Grows.ite ((Grows.raise _).bind fun _ => ?_) ?_
  all_goals
    exact (Grows.choice _).bind fun p => (Grows.choice _).bind fun _ => Grows.replaceTerminal _ _ _

theorem Grows.mutReplacePrimitive (i : Nat) (ps : PSet) : Grows (Gama.mutReplacePrimitive i ps) := by
  unfold Gama.mutReplacePrimitive
  refine (Grows.primitives i).bind fun ts => (Grows.getNodes _).bind fun cs =>
    Grows.ite ((Grows.raise _).bind fun _ => ?_) ?_
  all_goals
    exact (Grows.choice _).bind fun p => (Grows.randomPrimitiveNode _ _ _).bind fun _ =>
      Grows.replacePrimitive _ _ _

theorem Grows.mutApply (i : Nat) (ps : PSet) : ∀ f : MutFn, Grows (f.apply i ps)
  | .replacePrimitive => Grows.mutReplacePrimitive i ps
  | .insert => Grows.mutInsert i ps
  | .shrink => Grows.mutShrink i none
  | .replaceTerminal => Grows.mutReplaceTerminal i ps
  | .partialShrink k => Grows.mutShrink i (some k)

theorem Grows.randomValidMutation (ps : PSet) (m : Option Nat) (i : Nat) :
    Grows (Gama.randomValidMutation ps m i) :=
  (Grows.primitives i).bind fun _ => (Grows.getNodes _).bind fun _ => (Grows.choice _).bind fun f =>
    (Grows.mutApply i ps f).bind fun _ => Grows.pure _

theorem Grows.mutateWithLog (c : OpConfig) (i : Nat) : Grows (Gama.mutateWithLog c i) := by
  refine (Grows.copyAsNew i).bind fun n => (Grows.randomValidMutation _ _ n).bind fun f => ?_
  cases f.name with
  | error e => exact Grows.raise _
  | ok name => exact Grows.editMeta n fun _ => Grows.pure _

theorem Grows.opIndividual (c : OpConfig) : Grows (Gama.opIndividual c) :=
  (Grows.createRandomExpression _ _ _).bind fun _ => (Grows.newInd _).bind fun n =>
    Grows.editMeta n fun _ => Grows.pure _

/-! ### Rules -/

theorem Grows.validCrossoverFunctions (i j : Nat) : Grows (Gama.validCrossoverFunctions i j) :=
  (Grows.terminals i).bind fun _ => (Grows.terminals j).bind fun _ => (Grows.primitives i).bind fun _ =>
    (Grows.primitives j).bind fun _ => Grows.pure _

theorem Grows.crossoverPrimitives (i j : Nat) : Grows (Gama.crossoverPrimitives i j) :=
  (Grows.primitives i).bind fun _ => (Grows.choice _).bind fun _ => (Grows.primitives j).bind fun _ =>
    (Grows.choice _).bind fun _ => (Grows.getNode _).bind fun _ => (Grows.getNode _).bind fun _ =>
      (Grows.setNode _ _).bind fun _ => (Grows.getNode _).bind fun _ => Grows.setNode _ _

theorem Grows.crossoverTerminals (i j : Nat) : Grows (Gama.crossoverTerminals i j) :=
  (Grows.terminals i).bind fun _ => (Grows.terminals j).bind fun _ => (Grows.choice _).bind fun _ =>
    (Grows.replaceTerminal _ _ _).bind fun _ => Grows.replaceTerminal _ _ _

theorem Grows.cxApply (i j : Nat) : ∀ f : CxFn, Grows (f.apply i j)
  | .terminals => Grows.crossoverTerminals i j
  | .primitives => Grows.crossoverPrimitives i j

theorem Grows.randomCrossover (m : Option Nat) (i j : Nat) : Grows (Gama.randomCrossover m i j) := by
  unfold Gama.randomCrossover
  have last : ∀ f : CxFn, Grows (do
      f.apply i j
      let as ← Gama.primitives i
      if exceeds m as.length then Pure.pure (j, i) else Pure.pure (i, j)) := fun f =>
    (Grows.cxApply i j f).bind fun _ => (Grows.primitives i).bind fun _ =>
      Grows.ite (Grows.pure _) (Grows.pure _)
  have mid : ∀ fs : List CxFn, Grows (do
      let f ← Gama.choice fs
      f.apply i j
      let as ← Gama.primitives i
      if exceeds m as.length then Pure.pure (j, i) else Pure.pure (i, j)) := fun fs =>
    (Grows.choice _).bind fun f => last f
  refine (Grows.primitives i).bind fun as => Grows.ite ((Grows.raise _).bind fun _ => ?_) ?_
  all_goals
    refine (Grows.primitives j).bind fun bs => Grows.ite ((Grows.raise _).bind fun _ => ?_) ?_
    all_goals
      refine (Grows.validCrossoverFunctions i j).bind fun fs =>
        Grows.ite ((Grows.raise _).bind fun _ => ?_) ?_
      all_goals exact mid fs

theorem Grows.mateWithLog (c : OpConfig) (i j : Nat) : Grows (Gama.mateWithLog c i j) :=
  (Grows.copyAsNew i).bind fun n => (Grows.copyAsNew j).bind fun _ =>
    (Grows.randomCrossover _ _ _).bind fun _ => Grows.editMeta n fun _ => Grows.pure _

theorem Grows.tryUntilNew (done : Str → Bool) {op : GP Nat} (h : Grows op) :
    ∀ k last, Grows (Gama.tryUntilNew done op k last)
  | 0, some _ => Grows.pure _
  | 0, none => Grows.raise _
  | k + 1, _ => h.bind fun _ => (Grows.pipelineStr _).bind fun _ =>
      Grows.ite (Grows.tryUntilNew done h k _) (Grows.pure _)

theorem Grows.opMate (c : OpConfig) (i j : Nat) : Grows (Gama.opMate c i j) :=
  Grows.tryUntilNew _ (Grows.mateWithLog c i j) _ _

theorem Grows.opMutate (c : OpConfig) (i : Nat) : Grows (Gama.opMutate c i) :=
  Grows.tryUntilNew _ (Grows.mutateWithLog c i) _ _

/-! ### Selection -/

theorem Grows.sample : ∀ (k : Nat) (xs : List α), Grows (Gama.sample k xs : GP (List α))
  | 0, _ => Grows.pure _
  | k + 1, xs => by
    refine Grows.draw.bind fun j => ?_
    cases xs[j % xs.length]? with
    | none => exact Grows.raise _
    | some x => exact (Grows.sample k _).bind fun _ => Grows.pure _

theorem Grows.selectOne (c : Selected) (ex : Option Nat) : Grows (Gama.selectOne c ex : GP Nat) := by
  refine (Grows.sample 3 c.order).bind fun l => ?_
  split
  · exact Grows.pure _
  · exact Grows.raise _

theorem Grows.selectPairs (c : Selected) : ∀ n, Grows (Gama.selectPairs c n : GP (List (Nat × Nat)))
  | 0 => Grows.pure _
  | n + 1 => (Grows.selectOne c none).bind fun _ => (Grows.selectOne c _).bind fun _ =>
      (Grows.selectPairs c n).bind fun _ => Grows.pure _

theorem Grows.nsga2Select (values : List (List Score)) (n : Int) :
    Grows (Gama.nsga2Select values n : GP (List (Nat × Nat))) := by
  refine Grows.ite (Grows.raise _) ?_
  cases nsga2 values values.length with
  | error e => exact Grows.raise _
  | ok c => exact Grows.selectPairs c _

theorem Grows.mapGP {f : α → GP β} (h : ∀ x, Grows (f x)) : ∀ l, Grows (Gama.mapGP f l)
  | [] => Grows.pure _
  | x :: xs => (h x).bind fun _ => (Grows.mapGP h xs).bind fun _ => Grows.pure _

theorem Grows.fitnessValues (i : Nat) : Grows (Gama.fitnessValues i) := by
  refine (Grows.getInd i).bind fun ind => ?_
  cases ind.fitness with
  | none => exact Grows.raise _
  | some v => exact Grows.pure _

theorem Grows.twoMetrics (i : Nat) : Grows (Gama.twoMetrics i) := by
  refine (Grows.fitnessValues i).bind fun v => ?_
  split
  · exact Grows.pure _
  · exact Grows.raise _

theorem Grows.randomBelow (p : ℚ) : Grows (Gama.randomBelow p : GP Bool) :=
  Grows.draw.bind fun _ => Grows.pure _

theorem Grows.offspringOf (c : OpConfig) (cxpb : ℚ) (i j : Nat) : Grows (Gama.offspringOf c cxpb i j) :=
  (Grows.randomBelow cxpb).bind fun _ => Grows.ite ((Grows.validCrossoverFunctions i j).bind fun _ =>
    Grows.ite (Grows.opMate c i j) (Grows.opMutate c i)) (Grows.opMutate c i)

theorem Grows.createFromPopulation (c : OpConfig) (pop : List Nat) (n : Int) (cxpb : ℚ) :
    Grows (Gama.createFromPopulation c pop n cxpb) := by
  have rest : Grows (do
      let values ← Gama.mapGP Gama.twoMetrics pop
      let pairs ← Gama.nsga2Select values n
      Gama.mapGP (fun p => Gama.offspringOf c cxpb (pop.getD p.1 0) (pop.getD p.2 0)) pairs) :=
    (Grows.mapGP Grows.twoMetrics pop).bind fun _ => (Grows.nsga2Select _ n).bind fun _ =>
      Grows.mapGP (fun _ => Grows.offspringOf c cxpb _ _) _
  exact Grows.ite ((Grows.raise _).bind fun _ => rest) rest

theorem Grows.eliminateFromPareto (pop : List Nat) (n : Int) : Grows (Gama.eliminateFromPareto pop n) := by
  refine Grows.ite (Grows.raise _) ((Grows.ite (Grows.pure _) (Grows.mapGP Grows.fitnessValues pop)).bind
    fun values => ?_)
  dsimp only
  split
  · exact Grows.raise _
  · exact (Grows.choice _).bind fun _ => Grows.pure _

theorem Grows.firstOf {m : GP (List α)} (h : Grows m) : Grows (Gama.firstOf m) := by
  refine h.bind fun l => ?_
  cases l with
  | nil => exact Grows.raise _
  | cons x xs => exact Grows.pure _

/-! ### New individuals -/

/-- What `m` returns is an individual that did not exist before. -/
def MakesNew (m : GP Nat) : Prop :=
  ∀ w x w', m w = (.ok x, w') → w.inds.length ≤ x ∧ x < w'.inds.length

theorem MakesNew.bind {m : GP α} {f : α → GP Nat} (hm : Grows m) (hf : ∀ a, MakesNew (f a)) :
    MakesNew (m >>= f) := by
  intro w x w' h
  rw [bind_run] at h
  have h1 := (hm w).length
  cases hr : m w with
  | mk r w₁ =>
    rw [hr] at h h1
    cases r with
    | error e => cases h
    | ok a =>
      obtain ⟨a1, a2⟩ := hf a w₁ x w' h
      exact ⟨Nat.le_trans h1 a1, a2⟩

/-- What was made new is returned in the end. -/
theorem MakesNew.kept {m : GP Nat} {f : Nat → GP Nat} (hm : MakesNew m) (hg : ∀ n, Grows (f n))
    (hf : ∀ n w x w', f n w = (.ok x, w') → x = n) : MakesNew (m >>= f) := by
  intro w x w' h
  rw [bind_run] at h
  cases hr : m w with
  | mk r w₁ =>
    rw [hr] at h
    cases r with
    | error e => cases h
    | ok n =>
      obtain ⟨a1, a2⟩ := hm w n w₁ hr
      have h2 := (hg n w₁).length
      have h : f n w₁ = (.ok x, w') := h
      rw [hf n w₁ x w' h]
      rw [h] at h2
      exact ⟨a1, Nat.lt_of_lt_of_le a2 h2⟩

/-- `m` returns `n` if it returns. -/
def Returns (n : β) (m : GP β) : Prop := ∀ w x w', m w = (.ok x, w') → x = n

theorem Returns.pure (n : β) : Returns n (Pure.pure n) := by
  intro w x w' h
  cases h; rfl

theorem Returns.bind {m : GP α} {f : α → GP β} {n : β} (hf : ∀ a, Returns n (f a)) : Returns n (m >>= f) := by
  intro w x w' h
  rw [bind_run] at h
  cases hr : m w with
  | mk r w₁ =>
    rw [hr] at h
    cases r with
    | error e => cases h
    | ok a => exact hf a w₁ x w' h

theorem Returns.raise (n : β) (e : Exn) : Returns n (PyM.raise e : GP β) := by
  intro w x w' h
  cases h

theorem MakesNew.newInd (m : Addr) : MakesNew (Gama.newInd m) := by
  intro w x w' h
  rw [show Gama.newInd m w = (.ok w.inds.length, { w with inds := w.inds ++ [{ main := m }] }) from rfl,
    Prod.mk.injEq] at h
  obtain ⟨h1, rfl⟩ := h
  cases h1
  exact ⟨Nat.le_refl _, by show _ < (w.inds ++ _).length; simp⟩

theorem MakesNew.copyAsNew (i : Nat) : MakesNew (Gama.copyAsNew i) :=
  MakesNew.bind (Grows.getInd i) fun _ => MakesNew.bind (Grows.copyNodeTop _) fun _ => MakesNew.newInd _

theorem MakesNew.mateWithLog (c : OpConfig) (i j : Nat) : MakesNew (Gama.mateWithLog c i j) :=
  MakesNew.kept (MakesNew.copyAsNew i)
    (fun n => (Grows.copyAsNew j).bind fun _ => (Grows.randomCrossover _ _ _).bind fun _ =>
      Grows.editMeta n fun _ => Grows.pure _)
    fun n => Returns.bind fun _ => Returns.bind fun _ => Returns.bind fun _ => Returns.bind fun _ =>
      Returns.pure n

theorem MakesNew.mutateWithLog (c : OpConfig) (i : Nat) : MakesNew (Gama.mutateWithLog c i) := by
  refine MakesNew.kept (MakesNew.copyAsNew i) (fun n => (Grows.randomValidMutation _ _ n).bind fun f => ?_)
    (fun n => Returns.bind fun f => ?_)
  · cases f.name with
    | error e => exact Grows.raise _
    | ok name => exact Grows.editMeta n fun _ => Grows.pure _
  · cases f.name with
    | error e => exact Returns.raise _ _
    | ok name => exact Returns.bind fun _ => Returns.bind fun _ => Returns.pure n

theorem MakesNew.opIndividual (c : OpConfig) : MakesNew (Gama.opIndividual c) :=
  MakesNew.bind (Grows.createRandomExpression _ _ _) fun _ => MakesNew.kept (MakesNew.newInd _)
    (fun n => Grows.editMeta n fun _ => Grows.pure _)
    fun n => Returns.bind fun _ => Returns.bind fun _ => Returns.pure n

theorem MakesNew.tryUntilNew (done : Str → Bool) {op : GP Nat} (hg : Grows op) (h : MakesNew op) :
    ∀ k last (w₀ w : World), w₀.inds.length ≤ w.inds.length →
      (∀ n, last = some n → w₀.inds.length ≤ n ∧ n < w.inds.length) →
      ∀ x w', Gama.tryUntilNew done op k last w = (.ok x, w') → w₀.inds.length ≤ x ∧ x < w'.inds.length
  | 0, some n, w₀, w, _, hl, x, w', hr => by
    have hr : ((.ok n, w) : Except Exn Nat × World) = (.ok x, w') := hr
    cases hr
    exact hl n rfl
  | 0, none, _, _, _, _, _, _, hr => by cases hr
  | k + 1, last, w₀, w, hw, _, x, w', hr => by
    unfold Gama.tryUntilNew at hr
    cases ho : op w with
    | mk r w₁ =>
      have hg1 := (hg w).length
      rw [ho] at hg1
      cases r with
      | error e => rw [bind_error ho] at hr; cases hr
      | ok n =>
        rw [bind_ok ho] at hr
        obtain ⟨a1, a2⟩ := h w n w₁ ho
        have hp := (Grows.pipelineStr n w₁).length
        cases hs : Gama.pipelineStr n w₁ with
        | mk r w₂ =>
          rw [hs] at hp
          cases r with
          | error e => rw [bind_error hs] at hr; cases hr
          | ok s =>
            rw [bind_ok hs] at hr
            have b1 : w₀.inds.length ≤ n := Nat.le_trans hw a1
            have b2 : n < w₂.inds.length := Nat.lt_of_lt_of_le a2 hp
            split at hr
            · exact MakesNew.tryUntilNew done hg h k (some n) w₀ w₂
                (Nat.le_trans hw (Nat.le_trans hg1 hp)) (by rintro m hm; cases hm; exact ⟨b1, b2⟩) x w' hr
            · have hr : ((.ok n, w₂) : Except Exn Nat × World) = (.ok x, w') := hr
              cases hr
              exact ⟨b1, b2⟩

theorem MakesNew.opMate (c : OpConfig) (i j : Nat) : MakesNew (Gama.opMate c i j) := fun w x w' h =>
  MakesNew.tryUntilNew _ (Grows.mateWithLog c i j) (MakesNew.mateWithLog c i j) _ none w w (Nat.le_refl _)
    (fun _ hn => nomatch hn) x w' h

theorem MakesNew.opMutate (c : OpConfig) (i : Nat) : MakesNew (Gama.opMutate c i) := fun w x w' h =>
  MakesNew.tryUntilNew _ (Grows.mutateWithLog c i) (MakesNew.mutateWithLog c i) _ none w w (Nat.le_refl _)
    (fun _ hn => nomatch hn) x w' h

theorem MakesNew.ite {c : Prop} [Decidable c] {m₁ m₂ : GP Nat} (h₁ : MakesNew m₁) (h₂ : MakesNew m₂) :
    MakesNew (if c then m₁ else m₂) := by
  by_cases h : c <;> simp [h, h₁, h₂]

theorem MakesNew.offspringOf (c : OpConfig) (cxpb : ℚ) (i j : Nat) : MakesNew (Gama.offspringOf c cxpb i j) :=
  MakesNew.bind (Grows.randomBelow cxpb) fun _ => MakesNew.ite
    (MakesNew.bind (Grows.validCrossoverFunctions i j) fun _ =>
      MakesNew.ite (MakesNew.opMate c i j) (MakesNew.opMutate c i)) (MakesNew.opMutate c i)

theorem firstOf_new {f : α → GP Nat} (hg : ∀ a, Grows (f a)) (h : ∀ a, MakesNew (f a)) :
    ∀ l, MakesNew (Gama.firstOf (Gama.mapGP f l))
  | [] => by
    intro w x w' h
    cases h
  | a :: l => by
    intro w x w' hr
    unfold Gama.firstOf Gama.mapGP at hr
    cases hf : f a w with
    | mk r w₁ =>
      cases r with
      | error e => rw [bind_error (bind_error hf)] at hr; cases hr
      | ok y =>
        obtain ⟨a1, a2⟩ := h a w y w₁ hf
        have hl := (Grows.mapGP hg l w₁).length
        cases hm : Gama.mapGP f l w₁ with
        | mk r w₂ =>
          rw [hm] at hl
          cases r with
          | error e => rw [bind_error (by rw [bind_ok hf, bind_error hm])] at hr; cases hr
          | ok ys =>
            rw [bind_ok (show (f a >>= fun y => Gama.mapGP f l >>= fun ys => Pure.pure (y :: ys)) w =
              (.ok (y :: ys), w₂) by rw [bind_ok hf, bind_ok hm]; rfl)] at hr
            have hr : ((.ok y, w₂) : Except Exn Nat × World) = (.ok x, w') := hr
            cases hr
            exact ⟨a1, Nat.lt_of_lt_of_le a2 hl⟩

/-- The operators of a search make new individuals and take none away. -/
theorem gamaOps_new (c : OpConfig) (cxpb : ℚ) :
    (∀ pop, MakesNew ((gamaOps c cxpb).create pop) ∧ Grows ((gamaOps c cxpb).create pop)) ∧
    (∀ pop, Grows ((gamaOps c cxpb).eliminate pop)) ∧
    MakesNew (gamaOps c cxpb).individual ∧ Grows (gamaOps c cxpb).individual := by
  refine ⟨fun pop => ⟨?_, Grows.firstOf (Grows.createFromPopulation c pop 1 cxpb)⟩,
    fun pop => Grows.firstOf (Grows.eliminateFromPareto pop 1), MakesNew.opIndividual c, Grows.opIndividual c⟩
  show MakesNew (Gama.firstOf (Gama.createFromPopulation c pop 1 cxpb))
  intro w x w' hr
  unfold Gama.createFromPopulation at hr
  split at hr
  · cases hr
  · have hr : Gama.firstOf (do
        let values ← Gama.mapGP Gama.twoMetrics pop
        let pairs ← Gama.nsga2Select values 1
        Gama.mapGP (fun p => Gama.offspringOf c cxpb (pop.getD p.1 0) (pop.getD p.2 0)) pairs) w = (.ok x, w') := hr
    unfold Gama.firstOf at hr
    rw [bind_run, bind_run] at hr
    have g1 := Grows.mapGP Grows.twoMetrics pop w
    cases h1 : Gama.mapGP Gama.twoMetrics pop w with
    | mk r w₁ =>
      rw [h1] at hr g1
      cases r with
      | error e => cases hr
      | ok values =>
        dsimp only at hr
        rw [bind_run] at hr
        have g2 := Grows.nsga2Select values 1 w₁
        cases h2 : (Gama.nsga2Select values 1 : GP (List (Nat × Nat))) w₁ with
        | mk r w₂ =>
          rw [h2] at hr g2
          cases r with
          | error e => cases hr
          | ok pairs =>
            have := firstOf_new (fun p : Nat × Nat => Grows.offspringOf c cxpb (pop.getD p.1 0) (pop.getD p.2 0))
              (fun p => MakesNew.offspringOf c cxpb _ _) pairs w₂ x w' (by
                unfold Gama.firstOf; rw [bind_run]; exact hr)
            exact ⟨Nat.le_trans g1.length (Nat.le_trans g2.length this.1), this.2⟩

end
end Gama
