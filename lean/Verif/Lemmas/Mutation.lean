import Verif.Lemmas.Ops2
import Verif.Spec.Variation

/-! Mutation operators on an individual given by its chain. -/

namespace Gama
open Spec PyM

theorem mem_enum {α : Type} {l : List α} {k : Nat} {x : α} : (k, x) ∈ enum l ↔ l[k]? = some x := by
  simp only [enum, List.mem_map, Prod.mk.injEq, Prod.exists]
  constructor
  · rintro ⟨a, b, h, rfl, rfl⟩
    exact List.mem_zipIdx_iff_getElem?.1 h
  · intro h
    exact ⟨x, k, List.mem_zipIdx_iff_getElem?.2 h, rfl, rfl⟩

/-- Outcome of an in-place operation on individual `i` whose chain was `l`. -/
structure Done (w : World) (i : Nat) (l : List (Addr × Step)) (P : List Step → Prop)
    (w' : World) : Prop where
  chain : ∃ ind' l', w'.inds[i]? = some ind' ∧ Chain w'.nodes (some ind'.main) l' ∧ P (steps l') ∧
    (∀ b ∈ addrs l', b ∈ addrs l ∨ w.nodes.length ≤ b)
  nodes : FrameN (addrs l) w.nodes w'.nodes
  inds : FrameI i w w'

/-- What is left untouched when an in-place operation raises. -/
structure Kept (w : World) (i : Nat) (l : List (Addr × Step)) (w' : World) : Prop where
  nodes : FrameN (addrs l) w.nodes w'.nodes
  inds : FrameI i w w'

theorem Kept.of_same {w w' : World} {i l} (h : Same w w') : Kept w i l w' :=
  ⟨by rw [h.1]; exact FrameN.refl _ _, FrameI.of_eq h.2⟩

/-! ### Well-formedness is kept -/

theorem StepOk.names_nodup {ps : PSet} (hps : PSetOk ps) {k : Str} {s : Step}
    (h : StepOk ps k s) : (s.terms.map Terminal.output).Nodup := by
  have hid : (s.terms.map Terminal.ident).Nodup :=
    (h.complete.nodup_iff).2 (hps.distinct k _ h.offered)
  have hinp : ∀ t ∈ s.terms, t.ident ∈ s.prim.input := fun t ht =>
    h.complete.mem_iff.1 (List.mem_map_of_mem ht)
  have hv := h.values
  unfold List.Nodup at hid ⊢
  rw [List.pairwise_map] at hid ⊢
  refine hid.imp_of_mem ?_
  intro a b ha hb hne
  exact hps.diffName k s.prim a.ident b.ident a b h.offered (hinp a ha) (hinp b hb) hne
    (hv a ha) (hv b hb)

theorem StepOk.setTerm {ps : PSet} (hps : PSetOk ps) {k : Str} {s : Step} (h : StepOk ps k s)
    {j : Nat} (hj : j < s.terms.length) {t : Terminal} (ht : t ∈ ps.terms s.terms[j].ident) :
    StepOk ps k { s with terms := s.terms.set j t } where
  offered := h.offered
  complete := by
    have : (s.terms.set j t).map Terminal.ident = s.terms.map Terminal.ident := by
      rw [List.map_set]
      apply List.ext_getElem?
      intro n
      by_cases hn : n = j
      · subst hn; simp [hj, hps.ident _ _ ht]
      · rw [List.getElem?_set_ne (Ne.symm hn)]
    show ((s.terms.set j t).map Terminal.ident).Perm s.prim.input
    rw [this]; exact h.complete
  values := by
    intro t' ht'
    rcases List.mem_or_eq_of_mem_set ht' with h' | rfl
    · exact h.values t' h'
    · rw [hps.ident _ _ ht]; exact ht
  ordered := by
    refine pairwise_congr_names ?_ (StepOk.names_nodup hps h)
      (fun t' ht' => hps.noEq _ t' (h.values t' ht')) h.ordered
    show List.Forall₂ _ s.terms (s.terms.set j t)
    rw [List.forall₂_iff_get]
    refine ⟨by simp, ?_⟩
    intro n h₁ h₂
    simp only [List.get_eq_getElem]
    by_cases hn : j = n
    · subst hn
      simp only [List.getElem_set_self]
      exact hps.sameName _ _ _ (h.values _ (List.getElem_mem hj)) ht
    · rw [List.getElem_set_ne hn]

theorem pipelineOk_append {ps : PSet} {pre post : List Step} {s : Step} :
    PipelineOk ps (pre ++ s :: post) ↔
      (pre = [] ∧ StepOk ps predictionKey s ∧ ∀ x ∈ post, StepOk ps dataTerminal x) ∨
      (pre ≠ [] ∧ PipelineOk ps pre ∧ StepOk ps dataTerminal s ∧
        ∀ x ∈ post, StepOk ps dataTerminal x) := by
  cases pre with
  | nil => simp [PipelineOk]
  | cons e pre =>
    simp only [List.cons_append, PipelineOk, List.mem_append, List.mem_cons]
    constructor
    · rintro ⟨h1, h2⟩
      exact Or.inr ⟨by simp, ⟨h1, fun x hx => h2 x (Or.inl hx)⟩, h2 s (by simp),
        fun x hx => h2 x (by simp [hx])⟩
    · rintro (⟨h, _⟩ | ⟨_, ⟨h1, h2⟩, h3, h4⟩)
      · simp at h
      · refine ⟨h1, ?_⟩
        rintro x (hx | rfl | hx)
        · exact h2 x hx
        · exact h3
        · exact h4 x hx

theorem pipelineOk_kind {ps : PSet} {ss : List Step} (h : PipelineOk ps ss) {s : Step}
    (hs : s ∈ ss) : ∃ k, StepOk ps k s := by
  cases ss with
  | nil => simp at hs
  | cons e pre =>
    rcases List.mem_cons.1 hs with rfl | hs
    · exact ⟨_, h.1⟩
    · exact ⟨_, h.2 s hs⟩

theorem map_resort {ps : PSet} {ss : List Step} (h : ∀ s ∈ ss, ∃ k, StepOk ps k s) :
    ss.map resort = ss := by
  induction ss with
  | nil => rfl
  | cons s ss ih =>
    obtain ⟨k, hk⟩ := h s (by simp)
    simp [resort_stepOk hk, ih (fun x hx => h x (by simp [hx]))]

/-- Replacing a step by one of the same kind keeps a pipeline well formed. -/
theorem pipelineOk_replace {ps : PSet} (hps : PSetOk ps) {pre post : List Step} {s s' : Step}
    (h : PipelineOk ps (pre ++ s :: post)) (hs' : StepOk ps s.prim.output s') :
    PipelineOk ps (pre ++ s' :: post) := by
  rw [pipelineOk_append] at h ⊢
  rcases h with ⟨h1, h2, h3⟩ | ⟨h1, h2, h3, h4⟩
  · rw [hps.kind _ _ h2.offered] at hs'
    exact Or.inl ⟨h1, hs', h3⟩
  · rw [hps.kind _ _ h3.offered] at hs'
    exact Or.inr ⟨h1, h2, hs', h4⟩

theorem pipelineOk_prefix {ps : PSet} {pre post : List Step}
    (h : PipelineOk ps (pre ++ post)) (hpre : pre ≠ []) : PipelineOk ps pre := by
  cases pre with
  | nil => exact absurd rfl hpre
  | cons e pre => exact ⟨h.1, fun x hx => h.2 x (by simp [hx])⟩

theorem pipelineOk_insert {ps : PSet} {pre post : List Step} {s' : Step}
    (h : PipelineOk ps (pre ++ post)) (hpre : pre ≠ []) (hs' : StepOk ps dataTerminal s') :
    PipelineOk ps (pre ++ s' :: post) := by
  cases pre with
  | nil => exact absurd rfl hpre
  | cons e pre =>
    refine ⟨h.1, ?_⟩
    intro x hx
    rcases List.mem_append.1 hx with hx | hx
    · exact h.2 x (by simp [hx])
    · rcases List.mem_cons.1 hx with rfl | hx
      · exact hs'
      · exact h.2 x (by simp [hx])

/-! ### The operators -/

section
variable {ps : PSet} {i : Nat} {w : World} {ind : IndCell} {l : List (Addr × Step)}

/-- The length effect and shape of each mutation function. -/
def mutShape (ps : PSet) (f : MutFn) (ss ss' : List Step) : Prop :=
  PipelineOk ps ss' ∧
  match f with
  | .replaceTerminal => ss'.length = ss.length ∧ Mutated ps .value ss ss'
  | .replacePrimitive => ss'.length = ss.length ∧ Mutated ps .step ss ss'
  | .insert => ss'.length = ss.length + 1 ∧ Mutated ps .insert ss ss'
  | .shrink => 1 ≤ ss'.length ∧ ss'.length < ss.length ∧ Mutated ps .remove ss ss'
  | .partialShrink k => ss' = ss.take (ss.length - k) ∧ k < ss.length

/-- The only reasons for which a mutation function raises. -/
def mutFails (ps : PSet) (f : MutFn) (ss : List Step) : Prop :=
  match f with
  | .replaceTerminal => (∀ t ∈ allTerms ss, (ps.terms t.ident).length ≤ 1) ∨
      ∃ old ∈ allTerms ss, 1 < (ps.terms old.ident).length ∧
        ∀ t ∈ ps.terms old.ident, t.value.pyEq old.value = true
  | .replacePrimitive => (∀ s ∈ ss, (ps.prims s.prim.output).length ≤ 1) ∨
      ∃ s ∈ ss, 1 < (ps.prims s.prim.output).length ∧
        ∀ p ∈ ps.prims s.prim.output, p = s.prim
  | .insert => ps.prims dataTerminal = []
  | .shrink => ss.length ≤ 1
  | .partialShrink k => ss.length ≤ k

theorem enum_filter_nil {α : Type} {l : List α} {p : α → Bool}
    (h : ((enum l).filter fun x => p x.2) = []) : ∀ x ∈ l, p x = false := by
  intro x hx
  obtain ⟨k, hk⟩ := List.getElem?_of_mem hx
  have := List.filter_eq_nil_iff.1 h (k, x) (mem_enum.2 hk)
  simpa using this

theorem allTerms_append (a b : List Step) : allTerms (a ++ b) = allTerms a ++ allTerms b := by
  simp [allTerms]

theorem wp_mutReplaceTerminal (hps : PSetOk ps)
    (hi : w.inds[i]? = some ind) (hc : Chain w.nodes (some ind.main) l)
    (hok : PipelineOk ps (steps l)) :
    wp (mutReplaceTerminal i ps)
      (fun _ w' => Done w i l (mutShape ps .replaceTerminal (steps l)) w')
      (fun _ w' => Kept w i l w' ∧ mutFails ps .replaceTerminal (steps l)) w := by
  simp only [mutReplaceTerminal, wp_bind]
  apply wp_terminals hi hc
  simp only [wp_ite]
  constructor
  · intro h
    refine ⟨Kept.of_same (Same.refl w), Or.inl ?_⟩
    intro t ht
    have := enum_filter_nil (p := fun t => decide ((ps.terms t.ident).length > 1))
      (List.isEmpty_iff.1 h) t ht
    simpa using this
  intro hemp
  simp only [wp_bind]
  apply wp_choice
  · intro h; rw [h] at hemp; simp at hemp
  rintro ⟨k, old⟩ hk
  simp only [List.mem_filter, mem_enum] at hk
  obtain ⟨hk, hlen⟩ := hk
  simp only
  apply wp_choice
  · intro h
    refine ⟨Kept.of_same (Same.advance w), Or.inr ⟨old, List.mem_of_getElem? hk, by simpa using hlen,
      ?_⟩⟩
    intro t ht
    have := List.filter_eq_nil_iff.1 h t ht
    simpa using this
  intro t ht
  simp only [List.mem_filter, Bool.not_eq_true'] at ht
  obtain ⟨ht, hdiff⟩ := ht
  have hlt := (List.getElem?_eq_some_iff.1 hk).1
  have hsame : Same w (advance (advance w)) := (Same.advance w).trans (Same.advance _)
  refine wp_replaceTerminal (l := l) (ind := ind) (by rw [hsame.2]; exact hi)
    (by rw [hsame.1]; exact hc) ?_ ?_ ?_
  · intro pre a s post j hl hpos hj
    have hold : s.terms[j] = old := by
      have h1 : (allTerms (steps l))[k]? = some s.terms[j] := by
        subst hl
        have e : steps (pre ++ (a, s) :: post) = steps pre ++ s :: steps post := by simp [steps]
        rw [hpos, e, allTerms_append, List.getElem?_append_right (Nat.le_add_right _ _),
          Nat.add_sub_cancel_left]
        simp only [allTerms, List.flatMap_cons]
        rw [List.getElem?_append_left hj, List.getElem?_eq_getElem hj]
      rw [hk] at h1
      injection h1 with h1
      exact h1.symm
    constructor
    · intro _ c hch
      subst hl
      refine ⟨⟨ind, _, ?_, hch, ?_, ?_⟩, ?_, FrameI.of_eq hsame.2⟩
      · show (advance (advance w)).inds[i]? = _
        rw [hsame.2]; exact hi
      · have hs : ∃ kd, StepOk ps kd s :=
          pipelineOk_kind hok (by simp [steps])
        obtain ⟨kd, hkd⟩ := hs
        have hst : StepOk ps kd { s with terms := s.terms.set j t } :=
          StepOk.setTerm hps hkd hj (by rw [hold]; exact ht)
        have e := hps.kind _ _ hkd.offered
        simp only [steps, List.map_append, List.map_cons] at hok ⊢
        refine ⟨?_, ?_, ?_⟩
        · exact pipelineOk_replace hps hok (by rw [e]; exact hst)
        · simp
        · exact Mutated.value _ s _ j t hj (by rw [hold]; exact ht) (by rw [hold]; exact hdiff)
      · intro b hb
        refine Or.inl ?_
        simpa [addrs] using hb
      · show FrameN _ w.nodes ((advance (advance w)).nodes.set a c)
        rw [hsame.1]
        exact FrameN.set (by simp [addrs])
    · intro hne
      rw [hold, hps.ident _ _ ht] at hne
      exact absurd rfl hne
  · intro h; omega
  · intro h; omega

theorem steps_addrs_split {l : List (Addr × Step)} {k : Nat} {s : Step}
    (h : (steps l)[k]? = some s) :
    ∃ pre a post, l = pre ++ (a, s) :: post ∧ pre.length = k := by
  simp only [steps, List.getElem?_map, Option.map_eq_some_iff] at h
  obtain ⟨⟨a, s'⟩, h, rfl⟩ := h
  obtain ⟨hlt, h⟩ := List.getElem?_eq_some_iff.1 h
  refine ⟨l.take k, a, l.drop (k + 1), ?_, by simp; omega⟩
  have h1 : l.drop k = l[k] :: l.drop (k + 1) := List.drop_eq_getElem_cons hlt
  rw [h] at h1
  rw [← h1, List.take_append_drop]

theorem wp_mutReplacePrimitive (hps : PSetOk ps)
    (hi : w.inds[i]? = some ind) (hc : Chain w.nodes (some ind.main) l)
    (hok : PipelineOk ps (steps l)) :
    wp (mutReplacePrimitive i ps)
      (fun _ w' => Done w i l (mutShape ps .replacePrimitive (steps l)) w')
      (fun _ w' => Kept w i l w' ∧ mutFails ps .replacePrimitive (steps l)) w := by
  simp only [mutReplacePrimitive, wp_bind]
  apply wp_primitives hi hc
  apply wp_getNodes (fun a s h => hc.cell h)
  intro cs hcs
  simp only [wp_ite]
  constructor
  · intro h
    refine ⟨Kept.of_same (Same.refl w), Or.inl ?_⟩
    intro s hs
    rw [← hcs] at hs
    obtain ⟨c, hc, rfl⟩ := List.mem_map.1 hs
    have := enum_filter_nil (p := fun c => decide ((ps.prims c.prim.output).length > 1))
      (List.isEmpty_iff.1 h) c hc
    simpa [cellStep] using this
  intro hemp
  simp only [wp_bind]
  apply wp_choice
  · intro h; rw [h] at hemp; simp at hemp
  rintro ⟨k, old⟩ hk
  simp only [List.mem_filter, mem_enum] at hk
  obtain ⟨hk, hlen1⟩ := hk
  have hk' : (steps l)[k]? = some (cellStep old) := by
    rw [← hcs, List.getElem?_map, hk]; rfl
  obtain ⟨pre, a, post, hl, hpre⟩ := steps_addrs_split hk'
  apply wp_randomPrimitiveNode
  · intro p ts w' hp hne hf hn hi'
    have hn : w'.nodes = w.nodes ++ [⟨p, sortTerms ts, none⟩] := hn
    have hi' : w'.inds = w.inds := hi'
    have hnew : w'.nodes[w.nodes.length]? = some ⟨p, sortTerms ts, none⟩ := by simp [hn]
    have hc' : Chain w'.nodes (some ind.main) l := by rw [hn]; exact hc.append_heap
    have hnl : w.nodes.length ∉ addrs l := fun hm => absurd (hc.lt hm) (by simp)
    have hst : StepOk ps old.prim.output ⟨p, sortTerms ts⟩ := stepOk_new hps hp hf
    refine wp_replacePrimitive (s' := ⟨p, sortTerms ts⟩) (l := l) (by rw [hi']; exact hi) hc'
      hnew hnl ?_ ?_
    · intro pre₂ b s post₂ hl₂ hlen
      have : pre₂ = pre ∧ (b, s) :: post₂ = (a, cellStep old) :: post := by
        rw [hl] at hl₂
        have := List.append_inj hl₂ (by omega)
        exact ⟨this.1.symm, this.2.symm⟩
      obtain ⟨rfl, he⟩ := this
      injection he with he1 he2
      injection he1 with he3 he4
      subst he2; subst he3; subst he4
      constructor
      · intro hbad
        exact absurd (hps.kind _ _ hp).symm hbad
      · intro _ w'' ind' l₂ h1 h2 h3 h4 h5 h6 h7 h8
        have hpost : ∀ x ∈ steps post₂, ∃ k, StepOk ps k x := fun x hx =>
          pipelineOk_kind hok (by
            rw [hl]; simp only [steps, List.map_append, List.mem_append, List.map_cons,
              List.mem_cons]; exact Or.inr (Or.inr hx))
        rw [map_resort hpost] at h3
        refine ⟨⟨ind', _, h1, h2, ?_, ?_⟩, ?_, (FrameI.of_eq hi').trans h6⟩
        · rw [hl] at hok
          simp only [steps, List.map_append, List.map_cons] at hok h3 ⊢
          rw [h3, hl]
          simp only [List.map_append, List.map_cons]
          refine ⟨pipelineOk_replace hps hok hst, by simp, ?_⟩
          exact Mutated.step _ _ _ _ (hps.kind _ _ hp) (fun e => hne (congrArg some e))
        · intro x hx
          simp only [addrs, List.map_append, List.map_cons, List.mem_append, List.mem_cons] at hx
          rw [hl]
          simp only [addrs, List.map_append, List.map_cons, List.mem_append, List.mem_cons]
          rcases hx with hx | rfl | hx
          · exact Or.inl (Or.inl hx)
          · exact Or.inr (Nat.le_refl _)
          · right
            have := h4 x hx
            rw [hn] at this
            simp only [List.length_append, List.length_cons, List.length_nil] at this
            exact Nat.le_of_lt this
        · have f0 : FrameN (addrs l) w.nodes w'.nodes := by rw [hn]; exact FrameN.append
          refine f0.trans h5 ?_
          intro x hx hxm
          rcases List.mem_cons.1 hxm with rfl | hxm
          · exact absurd hx (Nat.lt_irrefl _)
          · exact hxm
    · intro hge
      have : k < l.length := by
        have := (List.getElem?_eq_some_iff.1 hk').1
        simpa [steps] using this
      omega
  · intro w' hs h
    refine ⟨Kept.of_same ((Same.advance w).trans hs), Or.inr ⟨cellStep old, List.mem_of_getElem? hk',
      by simpa [cellStep] using hlen1, ?_⟩⟩
    rcases h with h | ⟨p, hp, j, hj, hj'⟩
    · intro p hp
      have := List.filter_eq_nil_iff.1 h p hp
      simpa [cellStep] using this
    · exact absurd hj' (hps.nonempty _ p j hp hj)

theorem wp_mutShrinkWalk
    (hi : w.inds[i]? = some ind) (hc : Chain w.nodes (some ind.main) l)
    {k : Nat} (hk1 : k < l.length) (P : List Step → Prop)
    (hP : P ((steps l).take (l.length - k))) {w₁ : World} (hs : Same w w₁) (E) :
    wp (shrinkWalk k (l.length - 1) ind.main) (fun _ w' => Done w i l P w') E w₁ := by
  cases l with
  | nil => simp at hk1
  | cons x post =>
    obtain ⟨a, s⟩ := x
    have ha : a = ind.main := by
      have := hc.1
      injection this with this
      exact this.symm
    subst ha
    apply wp_shrinkWalk (d := some ind.main) (pre := []) (post := post) (s := s)
    · rw [hs.1]; simpa using hc
    · simp
    · intro pre₂ b t post₂ c he hlen hch
      have hlen' : pre₂.length + 1 + post₂.length = post.length + 1 := by
        have := congrArg List.length he
        simp at this; omega
      have hmin : post₂.length = k := by simp at hlen hk1; omega
      simp only [List.nil_append] at he
      refine ⟨⟨ind, pre₂ ++ [(b, t)], ?_, hch, ?_, ?_⟩, ?_, FrameI.of_eq hs.2⟩
      · show w₁.inds[i]? = _
        rw [hs.2]; exact hi
      · have : (steps ((ind.main, s) :: post)).take (((ind.main, s) :: post).length - k)
            = steps (pre₂ ++ [(b, t)]) := by
          rw [he]
          simp only [steps, List.map_append, List.map_cons, List.length_append, List.length_cons]
          have e : pre₂.length + (post₂.length + 1) - k = (pre₂.map Prod.snd ++ [t]).length := by
            simp; omega
          rw [e]
          have : pre₂.map Prod.snd ++ t :: post₂.map Prod.snd
              = (pre₂.map Prod.snd ++ [t]) ++ post₂.map Prod.snd := by simp
          rw [this, List.take_left']
          · simp
          · rfl
        rw [← this]; exact hP
      · intro x hx
        left
        rw [he]
        simp only [addrs, List.map_append, List.map_cons, List.mem_append, List.mem_cons,
          List.map_nil, List.not_mem_nil, or_false] at hx ⊢
        rcases hx with hx | hx
        · exact Or.inl hx
        · exact Or.inr (Or.inl hx)
      · show FrameN _ w.nodes (w₁.nodes.set b c)
        rw [hs.1]
        refine FrameN.set ?_
        rw [he]; simp [addrs]

theorem wp_mutShrink (hi : w.inds[i]? = some ind) (hc : Chain w.nodes (some ind.main) l)
    (hok : PipelineOk ps (steps l)) :
    wp (mutShrink i none)
      (fun _ w' => Done w i l (mutShape ps .shrink (steps l)) w')
      (fun _ w' => Kept w i l w' ∧ mutFails ps .shrink (steps l)) w := by
  simp only [mutShrink, wp_bind]
  apply wp_primitives hi hc
  apply wp_randint
  · intro h
    refine ⟨Kept.of_same (Same.refl w), ?_⟩
    simp only [addrs, List.length_map] at h
    simp only [mutFails, steps, List.length_map]
    omega
  intro k h1 h2
  simp only [addrs, List.length_map] at h2
  simp only [getInd, wp_ofExcept]
  rw [show (advance w).inds = w.inds from rfl, hi]
  simp only [addrs, List.length_map]
  refine wp_mutShrinkWalk hi hc (by omega) _ ?_ (Same.advance w) _
  have hlen : (steps l).length = l.length := by simp [steps]
  have hne : (steps l).take (l.length - k) ≠ [] := by
    intro h
    have := congrArg List.length h
    simp [hlen] at this
    omega
  have hsplit := List.take_append_drop (l.length - k) (steps l)
  refine ⟨?_, ?_, ?_, ?_⟩
  · exact pipelineOk_prefix (post := (steps l).drop (l.length - k)) (by rw [hsplit]; exact hok) hne
  · simp [hlen]; omega
  · simp [hlen]; omega
  · have := Mutated.remove (ps := ps) ((steps l).take (l.length - k))
      ((steps l).drop (l.length - k)) hne (by
        intro h
        have := congrArg List.length h
        simp [hlen] at this; omega)
    rw [hsplit] at this
    exact this

theorem wp_mutPartialShrink (hi : w.inds[i]? = some ind) (hc : Chain w.nodes (some ind.main) l)
    (hok : PipelineOk ps (steps l)) {k : Nat} :
    wp (mutShrink i (some k))
      (fun _ w' => Done w i l (mutShape ps (.partialShrink k) (steps l)) w')
      (fun _ w' => Kept w i l w' ∧ mutFails ps (.partialShrink k) (steps l)) w := by
  simp only [mutShrink, wp_bind]
  apply wp_primitives hi hc
  simp only [wp_ite, addrs, List.length_map]
  constructor
  · intro h; exact ⟨Kept.of_same (Same.refl w), by simpa [mutFails, steps] using h⟩
  intro h
  simp only [wp_bind, getInd, wp_ofExcept, hi]
  refine wp_mutShrinkWalk hi hc (by omega) _ ?_ (Same.refl w) _
  have hlen : (steps l).length = l.length := by simp [steps]
  refine ⟨?_, by rw [hlen], by omega⟩
  have hne : (steps l).take (l.length - k) ≠ [] := by
    intro h'
    have := congrArg List.length h'
    simp [hlen] at this
    omega
  exact pipelineOk_prefix (post := (steps l).drop (l.length - k))
    (by rw [List.take_append_drop]; exact hok) hne

theorem wp_mutInsert (hps : PSetOk ps)
    (hi : w.inds[i]? = some ind) (hc : Chain w.nodes (some ind.main) l)
    (hok : PipelineOk ps (steps l)) :
    wp (mutInsert i ps)
      (fun _ w' => Done w i l (mutShape ps .insert (steps l)) w')
      (fun _ w' => Kept w i l w' ∧ mutFails ps .insert (steps l)) w := by
  simp only [mutInsert, wp_bind]
  apply wp_primitives hi hc
  apply wp_choice
  · intro h
    have : l = [] := by simpa [addrs] using h
    subst this
    exact absurd hok (by simp [steps, PipelineOk])
  intro parent hpar
  obtain ⟨⟨a, s⟩, hm, rfl⟩ := List.mem_map.1 hpar
  obtain ⟨pre, post, rfl⟩ := List.append_of_mem hm
  apply wp_randomPrimitiveNode
  · intro p ts w' hp _ hf hn hi'
    have hn : w'.nodes = w.nodes ++ [⟨p, sortTerms ts, none⟩] := hn
    have hi' : w'.inds = w.inds := hi'
    have hlen : (advance w).nodes.length = w.nodes.length := rfl
    rw [hlen]
    have hnew : w'.nodes[w.nodes.length]? = some ⟨p, sortTerms ts, none⟩ := by simp [hn]
    have hc' : Chain w'.nodes (some ind.main) (pre ++ (a, s) :: post) := by
      rw [hn]; exact hc.append_heap
    have hnl : w.nodes.length ∉ addrs (pre ++ (a, s) :: post) :=
      fun hm => absurd (hc.lt hm) (by simp)
    have hst : StepOk ps dataTerminal ⟨p, sortTerms ts⟩ := stepOk_new hps hp hf
    have hsuf := hc'.suffix
    simp only [Chain] at hsuf
    obtain ⟨_, n, hna, hpost⟩ := hsuf
    simp only
    apply wp_getNode hna
    apply wp_getNode hnew
    simp only [setNode, wp_modify]
    have hanew : w.nodes.length ≠ a := fun e => hnl (by rw [e]; simp [addrs])
    have hna' : (w'.nodes.set w.nodes.length ⟨p, sortTerms ts, n⟩)[a]?
        = some ⟨s.prim, s.terms, n⟩ := by
      rw [List.getElem?_set_ne hanew, hna]
    refine wp_getNode (w := { w' with nodes := w'.nodes.set w.nodes.length _ }) hna' ?_
    have c1 : Chain (w'.nodes.set w.nodes.length ⟨p, sortTerms ts, n⟩) (some ind.main)
        (pre ++ (a, s) :: post) := hc'.set_notin hnl
    have hnpost : w.nodes.length ∉ addrs post := fun hm => hnl (by
      simp only [addrs, List.map_append, List.map_cons, List.mem_append, List.mem_cons]
      exact Or.inr (Or.inr hm))
    have c2 : Chain (w'.nodes.set w.nodes.length ⟨p, sortTerms ts, n⟩) (some w.nodes.length)
        ((w.nodes.length, ⟨p, sortTerms ts⟩) :: post) := by
      simp only [Chain]
      refine ⟨trivial, n, ?_, hpost.set_notin hnpost⟩
      rw [List.getElem?_set_self (List.getElem?_eq_some_iff.1 hnew).1]
    have c3 := Chain.update (s' := s) c1 c2 (by
      simp only [addrs, List.map_cons, List.mem_cons]
      rintro (e | e)
      · exact hanew e.symm
      · exact c1.nodup_mid.2.1 e)
    refine ⟨⟨ind, _, by show w'.inds[i]? = _; rw [hi']; exact hi, c3, ?_, ?_⟩, ?_,
      FrameI.of_eq hi'⟩
    · simp only [steps, List.map_append, List.map_cons] at hok ⊢
      have e : ∀ x : List Step, List.map Prod.snd pre ++ s :: x
          = (List.map Prod.snd pre ++ [s]) ++ x := by intro x; simp
      rw [e] at hok
      rw [e, e (_ :: _)]
      refine ⟨pipelineOk_insert hok (by simp) hst, by simp; omega, ?_⟩
      exact Mutated.insert _ _ _ (by simp)
    · intro x hx
      simp only [addrs, List.map_append, List.map_cons, List.mem_append, List.mem_cons] at hx ⊢
      rcases hx with hx | rfl | rfl | hx
      · exact Or.inl (Or.inl hx)
      · exact Or.inl (Or.inr (Or.inl rfl))
      · exact Or.inr (Nat.le_refl _)
      · exact Or.inl (Or.inr (Or.inr hx))
    · have f0 : FrameN (addrs (pre ++ (a, s) :: post)) w.nodes w'.nodes := by
        rw [hn]; exact FrameN.append
      have f1 : FrameN [w.nodes.length] w'.nodes
        (w'.nodes.set w.nodes.length ⟨p, sortTerms ts, n⟩) := FrameN.set (by simp)
      have f2 := f0.trans f1 (fun x hx hxm => by
        simp at hxm; subst hxm; exact absurd hx (Nat.lt_irrefl _))
      exact f2.trans (FrameN.set (A := [a]) (by simp)) (fun x _ hxm => by
        simp at hxm; subst hxm; simp [addrs])
  · intro w' hs h
    refine ⟨Kept.of_same ((Same.advance w).trans hs), ?_⟩
    rcases h with h | ⟨p, hp, j, hj, hj'⟩
    · simpa [mutFails] using h
    · exact absurd hj' (hps.nonempty _ p j hp hj)

theorem wp_mutApply (hps : PSetOk ps)
    (hi : w.inds[i]? = some ind) (hc : Chain w.nodes (some ind.main) l)
    (hok : PipelineOk ps (steps l)) (f : MutFn) :
    wp (f.apply i ps)
      (fun _ w' => Done w i l (mutShape ps f (steps l)) w')
      (fun _ w' => Kept w i l w' ∧ mutFails ps f (steps l)) w := by
  cases f with
  | replacePrimitive => exact wp_mutReplacePrimitive hps hi hc hok
  | insert => exact wp_mutInsert hps hi hc hok
  | shrink => exact wp_mutShrink hi hc hok
  | replaceTerminal => exact wp_mutReplaceTerminal hps hi hc hok
  | partialShrink k =>
    exact wp_mutPartialShrink hi hc hok

end
end Gama
