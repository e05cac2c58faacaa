import Verif.Lemmas.OpSet

/-!
Which results operators can have: a result is reached if some random draws lead to it.
-/

namespace Gama
open Spec PyM

/-- The same heap with other random draws to come. -/
def Spec.withRnd (w : World) (r : Stream) : World := { w with rnd := r }

/-- Some random draws make `m` return with a result in `Q`. -/
def Spec.Reach {α : Type} (m : GP α) (w : World) (Q : α → World → Prop) : Prop :=
  ∃ r a w', m (withRnd w r) = (.ok a, w') ∧ Q a w'

/-- Some draws, then others. -/
def draws : List Nat → Stream → Stream
  | [], r => r
  | x :: l, r => fun n => match n with | 0 => x | n + 1 => draws l r n

theorem draws_append (a b : List Nat) (r : Stream) : draws (a ++ b) r = draws a (draws b r) := by
  induction a with
  | nil => rfl
  | cons x a ih => simp only [List.cons_append, draws, ih]

theorem draws_one (r : Stream) : draws [r 0] (fun n => r (n + 1)) = r := by
  funext n; cases n <;> rfl

/-- What `m` does depends on the draws it makes only, and not on those to come. -/
def Unif {α : Type} (m : GP α) : Prop :=
  ∀ w a w', m w = (.ok a, w') → ∃ l, w.rnd = draws l w'.rnd ∧
    ∀ r, m (withRnd w (draws l r)) = (.ok a, withRnd w' r)

section
variable {α β : Type}

theorem Unif.pure (a : α) : Unif (Pure.pure a : GP α) := by
  intro w b w' h
  rw [pure_run] at h
  cases h
  exact ⟨[], rfl, fun r => rfl⟩

theorem Unif.raise (e : Exn) : Unif (PyM.raise e : GP α) := by
  intro w b w' h
  rw [raise_run] at h
  cases h

theorem Unif.bind {m : GP α} {f : α → GP β} (hm : Unif m) (hf : ∀ a, Unif (f a)) :
    Unif (m >>= f) := by
  intro w b w' h
  cases hr : m w with
  | mk r w₁ =>
    cases r with
    | error e =>
      have : (m >>= f) w = (.error e, w₁) := by
        show PyM.bind m f w = _
        simp only [PyM.bind, hr]
      rw [this] at h; cases h
    | ok a =>
      rw [bind_ok hr] at h
      obtain ⟨l₁, e₁, h₁⟩ := hm w a w₁ hr
      obtain ⟨l₂, e₂, h₂⟩ := hf a w₁ b w' h
      refine ⟨l₁ ++ l₂, by rw [e₁, e₂, draws_append], fun r => ?_⟩
      rw [draws_append, bind_ok (h₁ _)]
      exact h₂ r

theorem Unif.ite {c : Prop} [Decidable c] {m₁ m₂ : GP α} (h₁ : Unif m₁) (h₂ : Unif m₂) :
    Unif (if c then m₁ else m₂) := by
  by_cases h : c <;> simp [h, h₁, h₂]

theorem Unif.ofExcept {f : World → Except Exn α} (hf : ∀ w r, f (withRnd w r) = f w) :
    Unif (PyM.ofExcept f) := by
  intro w a w' h
  have h' : (f w, w) = (Except.ok a, w') := h
  rw [Prod.mk.injEq] at h'
  obtain ⟨h₁, rfl⟩ := h'
  refine ⟨[], rfl, fun r => ?_⟩
  show (f (withRnd w r), withRnd w r) = _
  rw [hf, h₁]

theorem Unif.modify {g : World → World} (h₁ : ∀ w r, g (withRnd w r) = withRnd (g w) r)
    (h₂ : ∀ w, (g w).rnd = w.rnd) : Unif (PyM.modify g) := by
  intro w a w' h
  rw [modify_run] at h
  cases h
  exact ⟨[], (h₂ w).symm, fun r => by rw [modify_run]; exact congrArg _ (h₁ w r)⟩

theorem Unif.choice (xs : List α) : Unif (Gama.choice xs : GP α) := by
  intro w a w' h
  unfold Gama.choice at h
  cases hx : xs[(HasRand.rnd w 0) % xs.length]? with
  | none => rw [hx] at h; cases h
  | some x =>
    rw [hx] at h
    cases h
    refine ⟨[w.rnd 0], (draws_one w.rnd).symm, fun r => ?_⟩
    unfold Gama.choice
    have : (HasRand.rnd (withRnd w (draws [w.rnd 0] r)) 0) = HasRand.rnd w 0 := rfl
    rw [this, hx]
    rfl

theorem Unif.randint (lo hi : Nat) : Unif (Gama.randint lo hi : GP Nat) := by
  intro w a w' h
  unfold Gama.randint at h
  split at h
  · cases h
  · rename_i hlt
    cases h
    refine ⟨[w.rnd 0], (draws_one w.rnd).symm, fun r => ?_⟩
    unfold Gama.randint
    rw [if_neg hlt]
    rfl

theorem Unif.getNode (a : Addr) : Unif (Gama.getNode a) := Unif.ofExcept fun _ _ => rfl
theorem Unif.getInd (i : Nat) : Unif (Gama.getInd i) := Unif.ofExcept fun _ _ => rfl
theorem Unif.setNode (a : Addr) (c : Cell) : Unif (Gama.setNode a c) :=
  Unif.modify (fun _ _ => rfl) fun _ => rfl
theorem Unif.setInd (i : Nat) (c : IndCell) : Unif (Gama.setInd i c) :=
  Unif.modify (fun _ _ => rfl) fun _ => rfl

theorem Unif.newNode (p : Primitive) (d : Option Addr) (ts : List Terminal) :
    Unif (Gama.newNode p d ts) := by
  intro w a w' h
  cases h
  exact ⟨[], rfl, fun r => rfl⟩

theorem Unif.newInd (m : Addr) : Unif (Gama.newInd m) := by
  intro w a w' h
  cases h
  exact ⟨[], rfl, fun r => rfl⟩

theorem Unif.primitives (i : Nat) : Unif (Gama.primitives i) :=
  (Unif.getInd i).bind fun _ => Unif.ofExcept fun _ _ => rfl

theorem Unif.getNodes : ∀ as, Unif (Gama.getNodes as)
  | [] => Unif.pure _
  | a :: as => (Unif.getNode a).bind fun _ => (Unif.getNodes as).bind fun _ => Unif.pure _

theorem Unif.terminals (i : Nat) : Unif (Gama.terminals i) :=
  (Unif.primitives i).bind fun _ => (Unif.getNodes _).bind fun _ => Unif.pure _

theorem Unif.pipelineStr (i : Nat) : Unif (Gama.pipelineStr i) :=
  (Unif.primitives i).bind fun _ => (Unif.getNodes _).bind fun _ => Unif.pure _

theorem Unif.copyNode : ∀ fuel a, Unif (Gama.copyNode fuel a)
  | 0, _ => Unif.raise _
  | fuel + 1, a => (Unif.getNode a).bind fun c => by
    cases c.data with
    | none => exact Unif.newNode _ _ _
    | some b => exact (Unif.copyNode fuel b).bind fun _ => Unif.newNode _ _ _

theorem Unif.copyNodeTop (a : Addr) : Unif (Gama.copyNodeTop a) := by
  intro w b w' h
  exact Unif.copyNode w.nodes.length a w b w' h

theorem Unif.copyAsNew (i : Nat) : Unif (Gama.copyAsNew i) :=
  (Unif.getInd i).bind fun _ => (Unif.copyNodeTop _).bind fun _ => Unif.newInd _

theorem Unif.replaceTerminalLoop (pos : Nat) (t : Terminal) :
    ∀ as scan, Unif (Gama.replaceTerminalLoop pos t as scan)
  | [], scan => by
    unfold Gama.replaceTerminalLoop
    exact Unif.ite (Unif.raise _) (Unif.pure _)
  | a :: as, scan => by
    unfold Gama.replaceTerminalLoop
    refine (Unif.getNode a).bind fun c => Unif.ite ?_ (Unif.replaceTerminalLoop pos t as _)
    cases c.terms[pos - scan]? with
    | none => exact Unif.raise _
    | some old => exact Unif.ite (Unif.raise _) (Unif.setNode _ _)

theorem Unif.replaceTerminal (i pos : Nat) (t : Terminal) : Unif (Gama.replaceTerminal i pos t) :=
  (Unif.primitives i).bind fun _ => Unif.replaceTerminalLoop pos t _ _

theorem Unif.copyData : ∀ d, Unif (Gama.copyData d)
  | none => Unif.pure _
  | some d => (Unif.copyNodeTop d).bind fun _ => Unif.pure _

theorem Unif.attach (i : Nat) (new : Addr) : ∀ l, Unif (Gama.attach i new l)
  | none => (Unif.getInd i).bind fun _ => Unif.setInd _ _
  | some l => (Unif.getNode l).bind fun _ => Unif.setNode _ _

theorem Unif.replacePrimitiveLoop (i pos : Nat) (new : Addr) :
    ∀ as k last, Unif (Gama.replacePrimitiveLoop i pos new as k last)
  | [], k, last => Unif.attach i new last
  | a :: as, k, last => by
    unfold Gama.replacePrimitiveLoop
    refine Unif.ite ?_ (Unif.replacePrimitiveLoop i pos new as _ _)
    refine (Unif.getNode a).bind fun c => (Unif.getNode new).bind fun n => ?_
    refine Unif.ite ((Unif.raise _).bind fun _ => ?_) ?_
    all_goals
      exact (Unif.copyData _).bind fun _ => (Unif.getNode new).bind fun _ =>
        (Unif.setNode _ _).bind fun _ => Unif.attach _ _ _

theorem Unif.replacePrimitive (i pos : Nat) (new : Addr) : Unif (Gama.replacePrimitive i pos new) :=
  (Unif.primitives i).bind fun _ => Unif.replacePrimitiveLoop i pos new _ _ _

theorem Unif.randomTerminals (ps : PSet) : ∀ is, Unif (Gama.randomTerminals ps is)
  | [] => Unif.pure _
  | i :: is => (Unif.choice _).bind fun _ => (Unif.randomTerminals ps is).bind fun _ => Unif.pure _

theorem Unif.randomPrimitiveNode (out : Str) (ps : PSet) (ex : Option Primitive) :
    Unif (Gama.randomPrimitiveNode out ps ex) :=
  (Unif.choice _).bind fun _ => (Unif.randomTerminals ps _).bind fun _ => Unif.newNode _ _ _

theorem Unif.extendChain (ps : PSet) : ∀ n last, Unif (Gama.extendChain ps n last)
  | 0, _ => Unif.pure _
  | n + 1, last => (Unif.randomPrimitiveNode _ ps none).bind fun a => (Unif.getNode last).bind fun _ =>
      (Unif.setNode _ _).bind fun _ => Unif.extendChain ps n a

theorem Unif.createRandomExpression (ps : PSet) (lo hi : Nat) :
    Unif (Gama.createRandomExpression ps lo hi) :=
  (Unif.randint lo hi).bind fun _ => (Unif.randomPrimitiveNode _ ps none).bind fun _ =>
    (Unif.extendChain ps _ _).bind fun _ => Unif.pure _

theorem Unif.shrinkCut (a : Addr) : Unif (Gama.shrinkWalk.cut a) :=
  (Unif.getNode a).bind fun _ => Unif.setNode _ _

theorem Unif.shrinkWalk (k : Nat) : ∀ left a, Unif (Gama.shrinkWalk k left a)
  | 0, a => Unif.shrinkCut a
  | left + 1, a => by
    unfold Gama.shrinkWalk
    refine Unif.ite ((Unif.getNode a).bind fun c => ?_) (Unif.shrinkCut a)
    cases c.data with
    | none => exact Unif.raise _
    | some d => exact Unif.shrinkWalk k left d

theorem Unif.mutShrink (i : Nat) : ∀ k, Unif (Gama.mutShrink i k)
  | some k => (Unif.primitives i).bind fun _ =>
      Unif.ite ((Unif.raise _).bind fun _ => (Unif.getInd i).bind fun _ => Unif.shrinkWalk _ _ _)
        ((Unif.getInd i).bind fun _ => Unif.shrinkWalk _ _ _)
  | none => (Unif.primitives i).bind fun _ => (Unif.randint _ _).bind fun _ =>
      (Unif.getInd i).bind fun _ => Unif.shrinkWalk _ _ _

theorem Unif.mutInsert (i : Nat) (ps : PSet) : Unif (Gama.mutInsert i ps) :=
  (Unif.primitives i).bind fun _ => (Unif.choice _).bind fun _ =>
    (Unif.randomPrimitiveNode _ ps none).bind fun _ => (Unif.getNode _).bind fun _ =>
      (Unif.getNode _).bind fun _ => (Unif.setNode _ _).bind fun _ => (Unif.getNode _).bind fun _ =>
        Unif.setNode _ _

theorem Unif.mutReplaceTerminal (i : Nat) (ps : PSet) : Unif (Gama.mutReplaceTerminal i ps) := by
  unfold Gama.mutReplaceTerminal
  refine (Unif.terminals i).bind fun ts => Unif.ite ((Unif.raise _).bind fun _ => ?_) ?_
  all_goals
    exact (Unif.choice _).bind fun p => (Unif.choice _).bind fun _ => Unif.replaceTerminal _ _ _

theorem Unif.mutReplacePrimitive (i : Nat) (ps : PSet) : Unif (Gama.mutReplacePrimitive i ps) := by
  unfold Gama.mutReplacePrimitive
  refine (Unif.primitives i).bind fun ts => (Unif.getNodes _).bind fun cs =>
    Unif.ite ((Unif.raise _).bind fun _ => ?_) ?_
  all_goals
    exact (Unif.choice _).bind fun p => (Unif.randomPrimitiveNode _ _ _).bind fun _ =>
      Unif.replacePrimitive _ _ _

theorem Unif.mutApply (i : Nat) (ps : PSet) : ∀ f : MutFn, Unif (f.apply i ps)
  | .replacePrimitive => Unif.mutReplacePrimitive i ps
  | .insert => Unif.mutInsert i ps
  | .shrink => Unif.mutShrink i none
  | .replaceTerminal => Unif.mutReplaceTerminal i ps
  | .partialShrink k => Unif.mutShrink i (some k)

theorem Unif.randomValidMutation (ps : PSet) (m : Option Nat) (i : Nat) :
    Unif (Gama.randomValidMutation ps m i) :=
  (Unif.primitives i).bind fun _ => (Unif.getNodes _).bind fun _ => (Unif.choice _).bind fun f =>
    (Unif.mutApply i ps f).bind fun _ => Unif.pure _

theorem Unif.mutateWithLog (c : OpConfig) (i : Nat) : Unif (Gama.mutateWithLog c i) := by
  refine (Unif.copyAsNew i).bind fun n => (Unif.randomValidMutation _ _ n).bind fun f => ?_
  cases f.name with
  | error e => exact Unif.raise _
  | ok name => exact (Unif.getInd n).bind fun _ => (Unif.setInd _ _).bind fun _ => Unif.pure _

theorem Unif.opIndividual (c : OpConfig) : Unif (Gama.opIndividual c) :=
  (Unif.createRandomExpression _ _ _).bind fun _ => (Unif.newInd _).bind fun n =>
    (Unif.getInd n).bind fun _ => (Unif.setInd _ _).bind fun _ => Unif.pure _

/-! ### Rules -/

theorem reach_bind {m : GP α} {f : α → GP β} {w : World} {Q : β → World → Prop} (hm : Unif m)
    (h : Reach m w fun a w₁ => Reach (f a) w₁ Q) : Reach (m >>= f) w Q := by
  obtain ⟨r, a, w₁, h₁, r₂, b, w₂, h₂, hQ⟩ := h
  obtain ⟨l, _, hl⟩ := hm _ _ _ h₁
  refine ⟨draws l r₂, b, w₂, ?_, hQ⟩
  have := hl r₂
  rw [show withRnd (withRnd w r) (draws l r₂) = withRnd w (draws l r₂) from rfl] at this
  rw [bind_ok this]
  exact h₂

theorem reach_mono {m : GP α} {w : World} {Q Q' : α → World → Prop} (h : Reach m w Q)
    (hQ : ∀ a w', Q a w' → Q' a w') : Reach m w Q' := by
  obtain ⟨r, a, w', h₁, h₂⟩ := h
  exact ⟨r, a, w', h₁, hQ _ _ h₂⟩

theorem reach_of_wp {m : GP α} {w : World} {Q : α → World → Prop}
    (h : wp m Q (fun _ _ => False) w) : Reach m w Q := by
  unfold wp at h
  cases hm : m w with
  | mk r w' =>
    rw [hm] at h
    cases r with
    | error e => exact h.elim
    | ok a => exact ⟨w.rnd, a, w', hm, h⟩

theorem reach_pure {a : α} {w : World} {Q : α → World → Prop} (h : Q a w) :
    Reach (Pure.pure a : GP α) w Q := reach_of_wp (by simpa using h)

theorem reach_choice {xs : List α} {x : α} {w : World} {Q : α → World → Prop} (hx : x ∈ xs)
    (hQ : ∀ r, Q x (withRnd w r)) : Reach (Gama.choice xs) w Q := by
  obtain ⟨k, hk⟩ := List.getElem?_of_mem hx
  have hlt := (List.getElem?_eq_some_iff.1 hk).1
  refine ⟨fun _ => k, x, _, ?_, hQ fun _ => k⟩
  unfold Gama.choice
  have : HasRand.rnd (withRnd w fun _ => k) 0 % xs.length = k := Nat.mod_eq_of_lt hlt
  rw [this, hk]
  rfl

theorem reach_randint {lo hi n : Nat} {w : World} {Q : Nat → World → Prop} (h₁ : lo ≤ n) (h₂ : n ≤ hi)
    (hQ : ∀ r, Q n (withRnd w r)) : Reach (Gama.randint lo hi) w Q := by
  refine ⟨fun _ => n - lo, n, _, ?_, hQ fun _ => n - lo⟩
  unfold Gama.randint
  rw [if_neg (by omega)]
  have : HasRand.rnd (withRnd w fun _ => n - lo) 0 = n - lo := rfl
  rw [this, Nat.mod_eq_of_lt (by omega)]
  have : lo + (n - lo) = n := by omega
  rw [this]
  rfl

end

/-! ### Steps -/

theorem perm_map_exists {α β : Type} (f : α → β) : ∀ (m : List β) (l : List α), (l.map f).Perm m →
    ∃ l' : List α, l'.Perm l ∧ l'.map f = m
  | [], l, h => by
    have : l = [] := by simpa using h.eq_nil
    subst this; exact ⟨[], List.Perm.refl _, rfl⟩
  | x :: m, l, h => by
    have hx : x ∈ l.map f := h.mem_iff.2 (by simp)
    obtain ⟨y, hy, rfl⟩ := List.mem_map.1 hx
    obtain ⟨a, b, rfl⟩ := List.append_of_mem hy
    have hp : (a ++ y :: b).Perm (y :: (a ++ b)) := List.perm_middle
    have h2 : ((a ++ b).map f).Perm m := by
      have := (hp.map f).symm.trans h
      simpa using this
    obtain ⟨l', h3, h4⟩ := perm_map_exists f m (a ++ b) h2
    exact ⟨y :: l', (h3.cons y).trans hp.symm, by simp [h4]⟩

theorem strLe_antisymm : ∀ a b : Str, strLe a b = true → strLe b a = true → a = b
  | [], [], _, _ => rfl
  | [], _ :: _, _, h => by simp [strLe] at h
  | _ :: _, [], h, _ => by simp [strLe] at h
  | a :: as, b :: bs, h, h' => by
    simp only [strLe] at h h'
    by_cases h1 : a.val < b.val
    · have : ¬ b.val < a.val := UInt32.lt_asymm h1
      simp [h1, this] at h'
    · by_cases h2 : b.val < a.val
      · simp [h1, h2] at h
      · have hab : a = b := Char.ext (UInt32.le_antisymm (UInt32.not_lt.1 h2) (UInt32.not_lt.1 h1))
        simp [h1, h2] at h h'
        rw [hab, strLe_antisymm as bs h h']

theorem name_eq : ∀ (a b x y : Str), '=' ∉ a → '=' ∉ b → a ++ '=' :: x = b ++ '=' :: y → a = b
  | [], [], _, _, _, _, _ => rfl
  | [], c :: bs, x, y, _, hb, h => by
    simp only [List.nil_append, List.cons_append, List.cons.injEq] at h
    exact absurd h.1 (fun e => hb (by rw [e]; simp))
  | c :: as, [], x, y, ha, _, h => by
    simp only [List.nil_append, List.cons_append, List.cons.injEq] at h
    exact absurd h.1 (fun e => ha (by simp [e]))
  | a :: as, b :: bs, x, y, ha, hb, h => by
    simp only [List.cons_append, List.cons.injEq] at h
    rw [h.1, name_eq as bs x y (fun e => ha (by simp [e])) (fun e => hb (by simp [e])) h.2]

/-- The values of a step can be drawn one for each input. -/
theorem StepOk.drawn {ps : PSet} (hps : PSetOk ps) {k : Str} {s : Step} (h : StepOk ps k s) :
    ∃ ts, List.Forall₂ (fun i t => t ∈ ps.terms i) s.prim.input ts ∧ sortTerms ts = s.terms := by
  obtain ⟨ts, hp, hm⟩ := perm_map_exists Terminal.ident s.prim.input s.terms h.complete
  refine ⟨ts, ?_, ?_⟩
  · rw [← hm]
    have hv : ∀ t ∈ ts, t ∈ ps.terms t.ident := fun t ht => h.values t (hp.mem_iff.1 ht)
    clear hm hp
    induction ts with
    | nil => exact .nil
    | cons t ts ih =>
      exact .cons (hv t (by simp)) (ih fun x hx => hv x (by simp [hx]))
  · have hnd := StepOk.names_nodup hps h
    refine List.Perm.eq_of_pairwise ?_ (sortTerms_sorted ts) h.ordered ((sortTerms_perm ts).trans hp)
    intro a b ha hb h₁ h₂
    have ha : a ∈ s.terms := ((sortTerms_perm ts).trans hp).mem_iff.1 ha
    have e := strLe_antisymm _ _ h₁ h₂
    have e' : a.output = b.output :=
      name_eq _ _ _ _ (hps.noEq _ a (h.values a ha)) (hps.noEq _ b (h.values b hb)) e
    exact List.inj_on_of_nodup_map hnd ha hb e'

theorem reach_randomTerminals {ps : PSet} : ∀ {is : List Str} {ts : List Terminal} {w : World},
    List.Forall₂ (fun i t => t ∈ ps.terms i) is ts →
    Reach (randomTerminals ps is) w fun ts' w' => ts' = ts ∧ Same w w'
  | _, _, w, .nil => reach_pure ⟨rfl, Same.refl w⟩
  | _, _, w, .cons h hf => by
    refine reach_bind (Unif.choice _) (reach_choice h fun r => ?_)
    refine reach_bind (Unif.randomTerminals ps _) (reach_mono (reach_randomTerminals hf) ?_)
    rintro _ w' ⟨rfl, hs⟩
    exact reach_pure ⟨rfl, hs⟩

theorem reach_randomPrimitiveNode {ps : PSet} (hps : PSetOk ps) {out : Str} {ex : Option Primitive}
    {s : Step} (h : StepOk ps out s) (hex : some s.prim ≠ ex) {w : World} :
    Reach (randomPrimitiveNode out ps ex) w fun a w' => a = w.nodes.length ∧
      w'.nodes = w.nodes ++ [⟨s.prim, s.terms, none⟩] ∧ w'.inds = w.inds := by
  obtain ⟨ts, hf, hts⟩ := StepOk.drawn hps h
  refine reach_bind (Unif.choice _) (reach_choice (x := s.prim) ?_ fun r => ?_)
  · simp only [List.mem_filter, decide_eq_true_eq]
    exact ⟨h.offered, hex⟩
  refine reach_bind (Unif.randomTerminals ps _) (reach_mono (reach_randomTerminals hf) ?_)
  rintro _ w' ⟨rfl, hs⟩
  refine reach_of_wp (wp_newNode ?_)
  rw [hs.1, hts]
  exact ⟨rfl, rfl, hs.2⟩

theorem reach_extendChain {ps : PSet} (hps : PSetOk ps) {d : Option Addr} :
    ∀ {ss : List Step} {last : Addr} {w : World} {pre : List (Addr × Step)} {s : Step},
    Chain w.nodes d (pre ++ [(last, s)]) → (∀ x ∈ ss, StepOk ps dataTerminal x) →
    Reach (extendChain ps ss.length last) w fun _ w' => w'.inds = w.inds ∧
      ∃ l', Chain w'.nodes d (pre ++ (last, s) :: l') ∧ steps l' = ss
  | [], last, w, pre, s, hc, _ => reach_pure ⟨rfl, [], by simpa using hc, rfl⟩
  | x :: ss, last, w, pre, s, hc, hok => by
    refine reach_bind (Unif.randomPrimitiveNode _ _ _)
      (reach_mono (reach_randomPrimitiveNode hps (hok x (by simp)) (by simp)) ?_)
    rintro a w' ⟨rfl, hn, hi⟩
    obtain ⟨n, hx⟩ := hc.cell (a := last) (s := s) (by simp)
    have hlast : w'.nodes[last]? = some ⟨s.prim, s.terms, n⟩ :=
      getElem?_prefix hx (by rw [hn]; exact List.prefix_append _ _)
    refine reach_bind (Unif.getNode _) (reach_of_wp (wp_getNode hlast ?_))
    refine reach_bind (Unif.setNode _ _) (reach_of_wp ?_)
    simp only [setNode, wp_modify]
    have hnew : w'.nodes[w.nodes.length]? = some ⟨x.prim, x.terms, none⟩ := by simp [hn]
    have hc' : Chain w'.nodes d (pre ++ (last, s) :: []) := by rw [hn]; exact hc.append_heap
    have hlt : last < w.nodes.length := hc.lt (by simp [addrs])
    have h₂ : Chain w'.nodes (some w.nodes.length) [(w.nodes.length, x)] := by
      simp only [Chain]; exact ⟨trivial, none, hnew, rfl⟩
    have hc₂ := Chain.update s hc' h₂ (by
      simp only [addrs, List.map_cons, List.map_nil, List.mem_singleton]
      exact Nat.ne_of_lt hlt)
    refine reach_mono (reach_extendChain hps (d := d) (ss := ss) (pre := pre ++ [(last, s)]) (s := x)
      (by simpa using hc₂) (fun y hy => hok y (by simp [hy]))) ?_
    rintro _ w'' ⟨hi', l', hl', hs'⟩
    exact ⟨hi'.trans hi, (w.nodes.length, x) :: l', by simpa using hl', by simp [hs']⟩

theorem reach_createRandomExpression {ps : PSet} (hps : PSetOk ps) {lo hi : Nat} {w : World}
    {ss : List Step} (hok : PipelineOk ps ss) (hlo : lo ≤ ss.length) (hhi : ss.length ≤ hi) :
    Reach (createRandomExpression ps lo hi) w fun a w' => w'.inds = w.inds ∧
      ∃ l, Chain w'.nodes (some a) l ∧ steps l = ss := by
  cases ss with
  | nil => exact hok.elim
  | cons e pre =>
    refine reach_bind (Unif.randint _ _) (reach_randint hlo hhi fun r => ?_)
    refine reach_bind (Unif.randomPrimitiveNode _ _ _)
      (reach_mono (reach_randomPrimitiveNode hps hok.1 (by simp)) ?_)
    rintro a w' ⟨rfl, hn, hi⟩
    have hnew : w'.nodes[w.nodes.length]? = some ⟨e.prim, e.terms, none⟩ := by
      rw [hn]; simp [withRnd]
    have hc : Chain w'.nodes (some w.nodes.length) ([] ++ [(w.nodes.length, e)]) := by
      simp only [Chain, List.nil_append]; exact ⟨trivial, none, hnew, rfl⟩
    refine reach_bind (Unif.extendChain _ _ _) ?_
    have := reach_extendChain hps hc hok.2
    refine reach_mono this ?_
    rintro _ w'' ⟨hi', l', hl', hs'⟩
    exact reach_pure ⟨hi'.trans hi, _, hl', by simp [hs']⟩

/-- Combining what some draws reach with what all draws guarantee. -/
theorem reach_and {α : Type} {m : GP α} {w : World} {Q : α → World → Prop}
    {Q' : Stream → α → World → Prop} {E : Stream → Exn → World → Prop} (h : Reach m w Q)
    (h' : ∀ r, wp m (Q' r) (E r) (withRnd w r)) :
    Reach m w fun a w' => Q a w' ∧ ∃ r, Q' r a w' := by
  obtain ⟨r, a, w', h₁, h₂⟩ := h
  exact ⟨r, a, w', h₁, h₂, r, wp_ok (h' r) h₁⟩

theorem reach_setMeta {n : Nat} {w : World} {ind : IndCell} {f : Meta → Meta} {ss : List Step}
    (hi : w.inds[n]? = some ind) (h : Is w n ss) :
    Reach (do let ind ← getInd n; setInd n { ind with md := f ind.md }; pure n : GP Nat) w
      fun m w' => m = n ∧ Is w' n ss := by
  refine reach_of_wp ?_
  simp only [wp_bind]
  refine wp_setMeta (f := f) hi ⟨rfl, ?_⟩
  obtain ⟨ind', l, h1, h2, h3⟩ := is_iff.1 h
  rw [hi] at h1
  injection h1 with h1
  subst h1
  have hlt := (List.getElem?_eq_some_iff.1 hi).1
  exact is_iff.2 ⟨{ ind with md := f ind.md }, l, by simp [hlt], h2, h3⟩

theorem reach_opIndividual {c : OpConfig} (hps : PSetOk c.ps) {w : World} {ss : List Step}
    (hok : PipelineOk c.ps ss) (hlen : ss.length ≤ c.maxStart) :
    Reach (opIndividual c) w fun n w' => Is w' n ss := by
  have h1 : 1 ≤ ss.length := by
    cases ss with
    | nil => exact hok.elim
    | cons e pre => simp
  refine reach_bind (Unif.createRandomExpression _ _ _)
    (reach_mono (reach_createRandomExpression hps hok h1 hlen) ?_)
  rintro a w' ⟨hi, l, hc, hs⟩
  refine reach_bind (Unif.newInd _) (reach_of_wp ?_)
  show Reach _ _ _
  refine reach_mono (reach_setMeta (f := fun m => { m with origin := some "new".toList })
    (ind := { main := a }) (ss := ss) (by simp) ?_) ?_
  · exact is_iff.2 ⟨{ main := a }, l, by simp, hc, hs⟩
  · rintro m w'' ⟨rfl, h⟩; exact h

end Gama
