import Verif.Lemmas.Reach2

/-!
# What the search can find (C118–C120)

Every pipeline of the search space can be created; which mutants can be made; which
pipelines can be found by mutating again and again.
-/

namespace Gama
open Spec PyM

/-! ## C118 -/

/-- **C118.** Every well-formed pipeline with a number of steps within the bounds is what
`create_random_expression` returns, for some random draws. -/
theorem C118_expression {ps : PSet} (hps : PSetOk ps) {lo hi : Nat} {w : World} {ss : List Step}
    (hok : PipelineOk ps ss) (hlo : lo ≤ ss.length) (hhi : ss.length ≤ hi) :
    Reach (createRandomExpression ps lo hi) w fun a w' =>
      ∃ l : List (Addr × Step), Chain w'.nodes (some a) l ∧ l.map Prod.snd = ss :=
  reach_mono (reach_createRandomExpression hps hok hlo hhi) fun _ _ h => h.2

/-- **C118** for the operator set, exactly: some draws create the pipeline `ss` as a new
individual if and only if `ss` is well formed and no longer than the maximum start length. -/
theorem C118 {c : OpConfig} (hps : PSetOk c.ps) {w : World} {ss : List Step} :
    Reach (opIndividual c) w (fun n w' => Fresh w w' n ss ∧ HasMeta w' n [] (some "new".toList)) ↔
      PipelineOk c.ps ss ∧ ss.length ≤ c.maxStart := by
  constructor
  · rintro ⟨r, n, w', run, h, _⟩
    obtain ⟨ss', h1, h2, h3, _⟩ := wp_ok (wp_opIndividual hps) run
    have : ss = ss' := by
      obtain ⟨as, h, _⟩ := h.is
      obtain ⟨as', h', _⟩ := h1.is
      exact Is.det ⟨as, h⟩ ⟨as', h'⟩
    subst this
    exact ⟨h2, h3⟩
  · rintro ⟨hok, hlen⟩
    refine reach_mono (reach_and (reach_opIndividual hps hok hlen)
      (fun r => wp_opIndividual (w := withRnd w r) hps)) ?_
    rintro n w' ⟨h, r, ss', h1, _, _, h2⟩
    have : ss = ss' := by
      obtain ⟨as', h', _⟩ := h1.is
      exact Is.det h ⟨as', h'⟩
    subst this
    exact ⟨⟨h1.ext, h1.new, h1.is⟩, h2⟩

example (r : Stream) :
    Reach (opIndividual ⟨Ex.space, none, fun _ => false, 50⟩) (Ex.w0 r) fun n w' => Is w' n Ex.long :=
  reach_mono ((C118 (c := ⟨Ex.space, none, fun _ => false, 50⟩) Ex.space_ok).2 ⟨Ex.long_ok, by decide⟩)
    fun _ _ ⟨h, _⟩ => ⟨_, h.is.choose_spec.1⟩

/-! ## C119 -/

/-- When a change of each kind is made at all by the code: with two steps whose algorithm can
be exchanged, two hyperparameters with another value, room for a step. -/
def Spec.Offered (ps : PSet) (maxLength : Option Nat) (ss : List Step) : Change → Prop
  | .value => 2 ≤ ((allTerms ss).filter fun t => 1 < (ps.terms t.ident).length).length
  | .step => 2 ≤ (ss.filter fun s => 1 < (ps.prims s.prim.output).length).length
  | .insert => ∀ m, maxLength = some m → ss.length < m
  | .remove => True

theorem two_of_ne {α : Type} {l : List α} {x y : α} (hx : x ∈ l) (hy : y ∈ l) (h : x ≠ y) :
    1 < l.length := by
  cases l with
  | nil => simp at hx
  | cons a l =>
    cases l with
    | nil => simp at hx hy; exact absurd (hx.trans hy.symm) h
    | cons b l => simp

theorem pyEq_refl (v : Value) : v.pyEq v = true := by cases v <;> simp [Value.pyEq]

theorem not_exceeds {m : Option Nat} {n : Nat} (h : ∀ x, m = some x → n ≤ x) :
    exceeds m n = false := by
  cases m with
  | none => rfl
  | some x => simpa [exceeds] using h x rfl

theorem mayGrow_iff {m : Option Nat} {n : Nat} :
    mayGrow m n = true ↔ ∀ x, m = some x → n < x := by
  cases m with
  | none => simp [mayGrow]
  | some x => simp [mayGrow]

theorem Unif.tryUntilNew (done : Str → Bool) {op : GP Nat} (h : Unif op) :
    ∀ k last, Unif (Gama.tryUntilNew done op k last)
  | 0, some _ => Unif.pure _
  | 0, none => Unif.raise _
  | k + 1, _ => h.bind fun _ => (Unif.pipelineStr _).bind fun _ =>
      Unif.ite (Unif.tryUntilNew done h k _) (Unif.pure _)

theorem Unif.opMutate (c : OpConfig) (i : Nat) : Unif (Gama.opMutate c i) :=
  Unif.tryUntilNew _ (Unif.mutateWithLog c i) _ _

/-- One attempt at mutation can make every offered change. -/
theorem reach_mutateWithLog {c : OpConfig} (hps : PSetOk c.ps) {w : World} {i : Nat}
    {ss ss' : List Step} {k : Change} (his : Is w i ss) (hok : PipelineOk c.ps ss)
    (hlen : ∀ x, c.maxLength = some x → ss.length ≤ x) (hok' : PipelineOk c.ps ss')
    (hm : Mutated c.ps k ss ss') (ho : Offered c.ps c.maxLength ss k) :
    Reach (mutateWithLog c i) w fun n w' => Is w' n ss' := by
  obtain ⟨ind, l, hi, hc, rfl⟩ := is_iff.1 his
  refine reach_bind (Unif.copyAsNew i) (reach_of_wp (wp_copyAsNew hi hc ?_))
  intro a l' new hc' hst _
  rw [map_resort (fun s hs => pipelineOk_kind hok hs)] at hst
  let w₁ : World := { w with nodes := w.nodes ++ new, inds := w.inds ++ [{ main := a }] }
  have hi₁ : w₁.inds[w.inds.length]? = some { main := a } := by simp [w₁]
  have hc₁ : Chain w₁.nodes (some a) l' := hc'
  have hok₁ : PipelineOk c.ps (steps l') := by rw [hst]; exact hok
  show Reach _ w₁ _
  have hne : exceeds c.maxLength (steps l).length = false := not_exceeds hlen
  have key : ∀ f : MutFn, ∀ name, f.name = .ok name →
      f ∈ availableMutations c.ps c.maxLength
        ((steps l).map fun s => (⟨s.prim, s.terms, none⟩ : Cell)) →
      (∀ r, Reach (f.apply w.inds.length c.ps) (withRnd w₁ r) fun _ w' => Is w' w.inds.length ss') →
      Reach (do
        let f ← randomValidMutation c.ps c.maxLength w.inds.length
        match f.name with
        | .error e => raise e
        | .ok name => do
          let ind ← getInd w.inds.length
          setInd w.inds.length { ind with md := { parents := [i], origin := some name } }
          pure w.inds.length) w₁ fun n w' => Is w' n ss' := by
    intro f name hname hf hr
    refine reach_bind (Unif.randomValidMutation _ _ _) ?_
    refine reach_bind (Unif.primitives _) (reach_of_wp (wp_primitives hi₁ hc₁ ?_))
    refine reach_bind (Unif.getNodes _) (reach_of_wp (wp_getNodes (fun b s h => hc₁.cell h) ?_))
    intro cs hcs
    have hav : availableMutations c.ps c.maxLength cs = availableMutations c.ps c.maxLength
        ((steps l).map fun s => (⟨s.prim, s.terms, none⟩ : Cell)) := by
      rw [← hst, ← hcs]
      simp only [availableMutations, List.length_map, List.map_map, List.flatMap_map,
        List.filter_map, Function.comp_def, cellStep]
    refine reach_bind (Unif.choice _) (reach_choice (x := f) (by rw [hav]; exact hf) fun r => ?_)
    refine reach_bind (Unif.mutApply _ _ f) (reach_mono (hr r) fun _ w₂ h => reach_pure ?_)
    rw [hname]
    obtain ⟨ind₂, _, h2, _, _⟩ := is_iff.1 h
    refine reach_mono (reach_setMeta (f := fun _ => { parents := [i], origin := some name }) h2 h) ?_
    rintro _ w₃ ⟨rfl, h3⟩
    exact h3
  generalize hss : steps l = ss at *
  cases hm with
  | value pre s post k t hk hof hd =>
    refine key .replaceTerminal _ rfl (mem_available.2 ⟨hne, ho⟩) fun r => ?_
    refine reach_mutReplaceTerminal hps hi₁ hc₁ hst hk hof hd ?_
    obtain ⟨kd, hkd⟩ := pipelineOk_kind hok (s := s) (by simp)
    refine two_of_ne hof (hkd.values _ (List.getElem_mem hk)) ?_
    intro e
    rw [e, pyEq_refl] at hd
    cases hd
  | step pre s s' post hsame hd =>
    have hk : StepOk c.ps s.prim.output s' := by
      rw [pipelineOk_append] at hok'
      rcases hok' with ⟨_, h, _⟩ | ⟨_, _, h, _⟩
      all_goals
        have := hps.kind _ _ h.offered
        rw [← hsame, this]; exact h
    obtain ⟨kd, hkd⟩ := pipelineOk_kind hok (s := s) (by simp)
    refine key .replacePrimitive _ rfl (mem_available.2 ⟨hne, ho⟩) fun r => ?_
    refine reach_mutReplacePrimitive hps hi₁ hc₁ hok₁ hst hk hd ?_
    refine two_of_ne hk.offered ?_ hd
    rw [hps.kind _ _ hkd.offered]; exact hkd.offered
  | insert pre s' post hb =>
    have hk : StepOk c.ps dataTerminal s' := by
      rw [pipelineOk_append] at hok'
      rcases hok' with ⟨h, _⟩ | ⟨_, _, h, _⟩
      · exact absurd h hb
      · exact h
    refine key .insert _ rfl (mem_available.2 ⟨hne, mayGrow_iff.2 ho⟩) fun r => ?_
    exact reach_mutInsert hps hi₁ hc₁ hst hb hk
  | remove _ post hkp hrm =>
    refine key .shrink _ rfl (mem_available.2 ⟨hne, ?_⟩) fun r => ?_
    · have h1 := List.length_pos_iff.2 hkp
      have h2 := List.length_pos_iff.2 hrm
      rw [List.length_append]; omega
    · exact reach_mutShrink hi₁ hc₁ hst hkp hrm

/-- Attempts that can give `ss'` still can when they are repeated until something new is found. -/
theorem reach_tryUntilNew {done : Str → Bool} {op : GP Nat} (hu : Unif op) {P : World → Prop}
    {ss' : List Step} (hop : ∀ w, P w → Reach op w fun n w' => Is w' n ss' ∧ P w') :
    ∀ {k : Nat} {last : Option Nat} {w : World}, P w →
      (k = 0 → ∃ n, last = some n ∧ Is w n ss') →
    Reach (tryUntilNew done op k last) w fun n w' => Is w' n ss'
  | 0, last, w, _, h0 => by
    obtain ⟨n, rfl, h⟩ := h0 rfl
    exact reach_pure h
  | k + 1, last, w, hP, _ => by
    refine reach_bind hu (reach_mono (hop w hP) ?_)
    rintro n w' ⟨h, hP'⟩
    refine reach_bind (Unif.pipelineStr n) (reach_of_wp (wp_pipelineStr h fun s => ?_))
    by_cases hc : done s = true
    · rw [if_pos hc]
      exact reach_tryUntilNew hu hop hP' fun _ => ⟨n, rfl, h⟩
    · rw [if_neg hc]
      exact reach_pure h

/-- **C119**, what holds: a well-formed individual within the maximum length has the mutant
`ss'` for some random draws if and only if `ss'` is well formed and differs by one change of a
kind that is offered. -/
theorem C119_partial {c : OpConfig} (hps : PSetOk c.ps) (hr : 0 < c.maxRetry) {w : World} {i : Nat}
    {ss : List Step} (his : Is w i ss) (hok : PipelineOk c.ps ss)
    (hlen : ∀ x, c.maxLength = some x → ss.length ≤ x) (ss' : List Step) :
    Reach (opMutate c i) w (fun n w' => Is w' n ss') ↔
      PipelineOk c.ps ss' ∧ ∃ k, Mutated c.ps k ss ss' ∧ Offered c.ps c.maxLength ss k := by
  constructor
  · rintro ⟨r, n, w', run, h⟩
    obtain ⟨ss₁, f, name, h1, h2, h3, h4, _⟩ :=
      wp_ok (wp_opMutate (w := withRnd w r) hps his hok) run
    have : ss' = ss₁ := h.det ⟨_, h1.is.choose_spec.1⟩
    subst this
    refine ⟨h2.1, f.change, mutShape_mutated h2 ?_, ?_⟩
    · intro k hk; subst hk; cases h4
    · have h3 := mem_available.1 h3
      cases f with
      | partialShrink k => cases h4
      | replacePrimitive => exact h3.2
      | replaceTerminal => exact h3.2
      | shrink => trivial
      | insert => exact mayGrow_iff.1 h3.2
  · rintro ⟨hok', k, hm, ho⟩
    refine reach_tryUntilNew (k := c.maxRetry) (last := none) (Unif.mutateWithLog c i)
      (P := fun w => Is w i ss) ?_ his
      (fun h => absurd h (by omega))
    intro w₀ hP
    refine reach_mono (reach_and (reach_mutateWithLog hps hP hok hlen hok' hm ho)
      (fun r => wp_mutateWithLog (w := withRnd w₀ r) hps hP hok)) ?_
    rintro n w' ⟨h1, r, ss₁, f, name, h2, _⟩
    exact ⟨h1, Is.mono (w := withRnd w₀ r) hP h2.ext⟩

/-- The documentation of `random_valid_mutation_in_place`: an algorithm can always be exchanged,
a hyperparameter if there is at least one, steps removed if there are two, one inserted if there
is room. -/
def C119_claim : Prop :=
  ∀ (c : OpConfig), PSetOk c.ps → 0 < c.maxRetry → ∀ (w : World) (i : Nat) (ss ss' : List Step),
    Is w i ss → PipelineOk c.ps ss → PipelineOk c.ps ss' →
    (∀ x, c.maxLength = some x → ss.length ≤ x ∧ ss'.length ≤ x) →
    (∃ k, Mutated c.ps k ss ss') → Reach (opMutate c i) w fun n w' => Is w' n ss'

/-- The estimator of a pipeline of one step is never exchanged. -/
theorem C119_single_partial {c : OpConfig} (hps : PSetOk c.ps) (hr : 0 < c.maxRetry) {w : World}
    {i : Nat} {s : Step} (his : Is w i [s]) (hok : PipelineOk c.ps [s])
    (hlen : ∀ x, c.maxLength = some x → 1 ≤ x) {s' : Step} {pre : List Step}
    (h : Reach (opMutate c i) w fun n w' => Is w' n (s' :: pre)) : s'.prim = s.prim := by
  obtain ⟨_, k, hm, ho⟩ := (C119_partial hps hr his hok hlen _).1 h
  generalize h₁ : [s] = x at hm
  generalize h₂ : s' :: pre = y at hm
  cases hm with
  | value p s₁ q k t hk _ _ =>
    cases p with
    | nil =>
      simp only [List.nil_append, List.cons.injEq] at h₁ h₂
      rw [h₂.1, h₁.1]
    | cons a p => simp at h₁
  | step p s₁ s₂ q _ _ =>
    simp only [Offered, List.filter] at ho
    split at ho <;> simp at ho
  | insert p s₁ q hb =>
    cases p with
    | nil => exact absurd rfl hb
    | cons a p =>
      simp only [List.cons_append, List.cons.injEq] at h₁ h₂
      rw [h₂.1, h₁.1]
  | remove p q h1 h2 =>
    have := congrArg List.length h₁
    have := List.length_pos_iff.2 h1
    have := List.length_pos_iff.2 h2
    simp at *
    omega

namespace Ex

/-- The other estimator. -/
def otherSingle : List Step := [⟨pDT, [alpha2, depth1]⟩]

theorem otherSingle_ok : PipelineOk space otherSingle :=
  ⟨stepOk_mk (by decide) (by decide) (by decide) (by decide), by simp⟩

theorem otherSingle_mutated : Mutated space .step single otherSingle :=
  Mutated.step [] ⟨pNB, [alpha2]⟩ ⟨pDT, [alpha2, depth1]⟩ [] rfl (by decide)

end Ex

/-- Another value for the pipeline of two steps. -/
example (r : Stream) : Reach (opMutate ⟨Ex.space, some 2, fun _ => false, 50⟩ 2) (Ex.w0 r) fun n w' =>
    Is w' n [⟨Ex.pNB, [Ex.alpha1]⟩, ⟨Ex.pPCA, [Ex.whitT]⟩] :=
  (C119_partial (c := ⟨Ex.space, some 2, fun _ => false, 50⟩) Ex.space_ok (by decide) (Ex.is_double r)
    Ex.double_ok (by intro x hx; cases hx; decide) _).2
    ⟨⟨Ex.stepOk_mk (by decide) (by decide) (by decide) (by decide), by
        intro s hs
        simp at hs
        subst hs
        exact Ex.stepOk_mk (by decide) (by decide) (by decide) (by decide)⟩,
      .value, Mutated.value (ps := Ex.space) [⟨Ex.pNB, [Ex.alpha1]⟩] ⟨Ex.pPCA, [Ex.whitF]⟩ [] 0
        Ex.whitT (by decide) (by decide) (by decide), by show 2 ≤ List.length _; decide⟩

theorem C119_false : ¬ C119_claim := by
  intro h
  have h1 := h ⟨Ex.space, none, fun _ => false, 50⟩ Ex.space_ok (by decide) (Ex.w0 fun _ => 0) 1 Ex.single
    Ex.otherSingle (Ex.is_single _) Ex.single_ok Ex.otherSingle_ok (by simp)
    ⟨_, Ex.otherSingle_mutated⟩
  have := C119_single_partial (c := ⟨Ex.space, none, fun _ => false, 50⟩) Ex.space_ok (by decide)
    (Ex.is_single _) Ex.single_ok (by simp) h1
  exact absurd this (by decide)

/-! ## C120 -/

/-- Mutating `n` times, each time the mutant of the last time. -/
def Spec.mutateMany (c : OpConfig) : Nat → Nat → GP Nat
  | 0, i => pure i
  | n + 1, i => do
    let j ← opMutate c i
    mutateMany c n j

/-- Some number of mutations of the individual `i` leads to the pipeline `ss'`. -/
def Spec.Found (c : OpConfig) (w : World) (i : Nat) (ss' : List Step) : Prop :=
  ∃ n, Reach (mutateMany c n i) w fun j w' => Is w' j ss'

theorem Unif.mutateMany (c : OpConfig) : ∀ n i, Unif (Spec.mutateMany c n i)
  | 0, _ => Unif.pure _
  | n + 1, i => (Unif.opMutate c i).bind fun j => Unif.mutateMany c n j

/-- One mutation from the pipeline `a` leads to the pipeline `b`. -/
def Leads (c : OpConfig) (a b : List Step) : Prop :=
  PipelineOk c.ps b ∧ (∀ x, c.maxLength = some x → b.length ≤ x) ∧
    ∃ k, Mutated c.ps k a b ∧ Offered c.ps c.maxLength a k

/-- Some mutations from `a` lead to `b`. -/
inductive LeadsTo (c : OpConfig) : List Step → List Step → Prop
  | refl (a : List Step) : LeadsTo c a a
  | step {a b d : List Step} (h : Leads c a b) (t : LeadsTo c b d) : LeadsTo c a d

theorem LeadsTo.trans {c : OpConfig} {a b d : List Step} (h : LeadsTo c a b) (h' : LeadsTo c b d) :
    LeadsTo c a d := by
  induction h with
  | refl => exact h'
  | step h _ ih => exact .step h (ih h')

theorem LeadsTo.found {c : OpConfig} (hps : PSetOk c.ps) (hr : 0 < c.maxRetry) {a b : List Step}
    (h : LeadsTo c a b) : ∀ {w : World} {i : Nat}, Is w i a → PipelineOk c.ps a →
    (∀ x, c.maxLength = some x → a.length ≤ x) → Found c w i b := by
  induction h with
  | refl a => intro w i his _ _; exact ⟨0, reach_pure his⟩
  | @step a b d h _ ih =>
    intro w i his hok hlen
    have h1 := (C119_partial hps hr his hok hlen b).2 ⟨h.1, h.2.2⟩
    obtain ⟨r, j, w', run, hj⟩ := h1
    obtain ⟨n, hn⟩ := ih (w := w') hj h.1 h.2.1
    refine ⟨n + 1, reach_bind (Unif.opMutate c i) ⟨r, j, w', run, hn⟩⟩

theorem exists_step {ps : PSet} (hps : PSetOk ps) {k : Str} {p : Primitive} (hp : p ∈ ps.prims k) :
    ∃ s, StepOk ps k s ∧ s.prim = p := by
  have : ∀ is : List Str, (∀ i ∈ is, ps.terms i ≠ []) →
      ∃ ts, List.Forall₂ (fun i t => t ∈ ps.terms i) is ts := by
    intro is
    induction is with
    | nil => intro _; exact ⟨[], .nil⟩
    | cons i is ih =>
      intro h
      obtain ⟨ts, hts⟩ := ih fun j hj => h j (by simp [hj])
      obtain ⟨t, ht⟩ := List.exists_mem_of_ne_nil _ (h i (by simp))
      exact ⟨t :: ts, .cons ht hts⟩
  obtain ⟨ts, hts⟩ := this p.input fun i hi => hps.nonempty _ p i hp hi
  exact ⟨⟨p, sortTerms ts⟩, stepOk_new hps hp hts, rfl⟩

theorem leads_all {c : OpConfig} (hps : PSetOk c.ps) {a b : List Step} (ha : PipelineOk c.ps a)
    (hb : PipelineOk c.ps b) (hlb : ∀ x, c.maxLength = some x → 2 ≤ x ∧ b.length ≤ x)
    {p q p' q' : Primitive} (hp : p ∈ c.ps.prims predictionKey) (hq : q ∈ c.ps.prims predictionKey)
    (hpq : p ≠ q) (hp' : p' ∈ c.ps.prims dataTerminal) (hq' : q' ∈ c.ps.prims dataTerminal)
    (hpq' : p' ≠ q') : LeadsTo c a b := by
  cases a with
  | nil => exact ha.elim
  | cons e pre =>
  cases b with
  | nil => exact hb.elim
  | cons e' pre' =>
  obtain ⟨x, hx, _⟩ := exists_step hps hp'
  have hone : ∀ {s : Step}, StepOk c.ps predictionKey s → PipelineOk c.ps [s] :=
    fun h => ⟨h, by simp⟩
  have htwo : ∀ {s : Step}, StepOk c.ps predictionKey s → PipelineOk c.ps [s, x] :=
    fun h => ⟨h, by simpa using hx⟩
  -- the estimator alone
  have s1 : LeadsTo c (e :: pre) [e] := by
    by_cases h : pre = []
    · subst h; exact .refl _
    · refine .step ⟨hone ha.1, fun m hm => ?_, .remove, ?_, trivial⟩ (.refl _)
      · have := (hlb m hm).1; simp; omega
      · exact Mutated.remove [e] pre (by simp) h
  -- with a preprocessing step
  have s2 : ∀ {s : Step}, StepOk c.ps predictionKey s → LeadsTo c [s] [s, x] := by
    intro s hs
    refine .step ⟨htwo hs, fun m hm => ?_, .insert, Mutated.insert [s] x [] (by simp), ?_⟩ (.refl _)
    · have := (hlb m hm).1; simpa using this
    · intro m hm
      have := (hlb m hm).1
      simp; omega
  -- the estimator exchanged
  have s3 : ∀ {s t : Step}, StepOk c.ps predictionKey s → StepOk c.ps predictionKey t →
      t.prim ≠ s.prim → LeadsTo c [s, x] [t, x] := by
    intro s t hs ht hne
    refine .step ⟨htwo ht, fun m hm => ?_, .step, ?_, ?_⟩ (.refl _)
    · have := (hlb m hm).1; simpa using this
    · exact Mutated.step [] s t [x] (by rw [hps.kind _ _ hs.offered, hps.kind _ _ ht.offered]) hne
    · have h1 : 1 < (c.ps.prims s.prim.output).length := by
        rw [hps.kind _ _ hs.offered]; exact two_of_ne hp hq hpq
      have h2 : 1 < (c.ps.prims x.prim.output).length := by
        rw [hps.kind _ _ hx.offered]; exact two_of_ne hp' hq' hpq'
      simp [Offered, List.filter, h1, h2]
  have s4 : LeadsTo c [e, x] [e', x] := by
    by_cases h : e'.prim = e.prim
    · obtain ⟨f, hf, hfe⟩ : ∃ f, StepOk c.ps predictionKey f ∧ f.prim ≠ e.prim := by
        by_cases h2 : p = e.prim
        · obtain ⟨f, hf, hf'⟩ := exists_step hps hq
          exact ⟨f, hf, by rw [hf', ← h2]; exact hpq.symm⟩
        · obtain ⟨f, hf, hf'⟩ := exists_step hps hp
          exact ⟨f, hf, by rw [hf']; exact h2⟩
      exact (s3 ha.1 hf hfe).trans (s3 hf hb.1 (by rw [h]; exact fun e => hfe e.symm))
    · exact s3 ha.1 hb.1 h
  have s5 : LeadsTo c [e', x] [e'] := by
    refine .step ⟨hone hb.1, fun m hm => ?_, .remove, Mutated.remove [e'] [x] (by simp) (by simp),
      trivial⟩ (.refl _)
    have := (hlb m hm).1; simp; omega
  -- the preprocessing steps of the target, one by one
  have s6 : ∀ k, k ≤ pre'.length → LeadsTo c [e'] (e' :: pre'.take k) := by
    intro k
    induction k with
    | zero => intro _; exact .refl _
    | succ k ih =>
      intro hk
      refine (ih (by omega)).trans (.step ⟨?_, ?_, .insert, ?_, ?_⟩ (.refl _))
      · exact ⟨hb.1, fun s hs => hb.2 s (List.mem_of_mem_take hs)⟩
      · intro m hm
        have := (hlb m hm).2
        simp at this ⊢; omega
      · have h1 : pre'.take (k + 1) = pre'.take k ++ [pre'[k]] := by
          rw [List.take_add_one, List.getElem?_eq_getElem (by omega)]; rfl
        have := Mutated.insert (ps := c.ps) (e' :: pre'.take k) pre'[k] [] (by simp)
        rw [List.append_nil] at this
        rw [h1]; exact this
      · intro m hm
        have := (hlb m hm).2
        simp at this ⊢; omega
  have s7 := s6 pre'.length (Nat.le_refl _)
  rw [List.take_length] at s7
  exact s1.trans ((s2 ha.1).trans (s4.trans (s5.trans s7)))

/-- **C120**, what holds: with two estimators and two preprocessing algorithms to choose from,
and room for two steps, mutation alone leads from any pipeline to any other. -/
theorem C120_partial {c : OpConfig} (hps : PSetOk c.ps) (hr : 0 < c.maxRetry)
    {p q p' q' : Primitive} (hp : p ∈ c.ps.prims predictionKey) (hq : q ∈ c.ps.prims predictionKey)
    (hpq : p ≠ q) (hp' : p' ∈ c.ps.prims dataTerminal) (hq' : q' ∈ c.ps.prims dataTerminal)
    (hpq' : p' ≠ q') {w : World} {i : Nat} {ss ss' : List Step} (his : Is w i ss)
    (hok : PipelineOk c.ps ss) (hok' : PipelineOk c.ps ss')
    (hlen : ∀ x, c.maxLength = some x → 2 ≤ x ∧ ss.length ≤ x ∧ ss'.length ≤ x) :
    Found c w i ss' :=
  (leads_all hps hok hok' (fun x h => ⟨(hlen x h).1, (hlen x h).2.2⟩) hp hq hpq hp' hq' hpq').found
    hps hr his hok fun x h => (hlen x h).2.1

/-- What the search promises: every pipeline of the search space can be found. -/
def C120_claim : Prop :=
  ∀ (c : OpConfig), PSetOk c.ps → 0 < c.maxRetry → ∀ (w : World) (i : Nat) (ss ss' : List Step),
    Is w i ss → PipelineOk c.ps ss → PipelineOk c.ps ss' →
    (∀ x, c.maxLength = some x → ss.length ≤ x ∧ ss'.length ≤ x) → Found c w i ss'

/-- When pipelines have one step only, or a single preprocessing algorithm is offered, no number
of mutations exchanges the estimator. -/
theorem C120_stuck_partial {c : OpConfig} (hps : PSetOk c.ps)
    (hc : c.maxLength = some 1 ∨ (c.ps.prims dataTerminal).length ≤ 1) :
    ∀ {n : Nat} {w w' : World} {i j : Nat} {e : Step} {pre : List Step}, Is w i (e :: pre) →
    PipelineOk c.ps (e :: pre) → (∀ x, c.maxLength = some x → (e :: pre).length ≤ x) →
    mutateMany c n i w = (.ok j, w') →
    ∃ e' pre', Is w' j (e' :: pre') ∧ e'.prim = e.prim
  | 0, w, w', i, j, e, pre, his, _, _, run => by
    have h : (Pure.pure i : GP Nat) w = (.ok j, w') := run
    rw [pure_run] at h
    cases h
    exact ⟨e, pre, his, rfl⟩
  | n + 1, w, w', i, j, e, pre, his, hok, hlen, run => by
    cases hr : opMutate c i w with
    | mk r w₁ =>
    cases r with
    | error x =>
      have : mutateMany c (n + 1) i w = (.error x, w₁) := by
        show PyM.bind _ _ w = _
        simp only [PyM.bind, hr]
      rw [this] at run; cases run
    | ok k =>
      have run' : mutateMany c n k w₁ = (.ok j, w') := by
        have := bind_ok (f := fun j => mutateMany c n j) hr
        rw [← this]; exact run
      obtain ⟨ss₁, f, name, h1, h2, h3, h4, _⟩ := wp_ok (wp_opMutate hps his hok) hr
      have his₁ : Is w₁ k ss₁ := ⟨_, h1.is.choose_spec.1⟩
      have hlen₁ : ∀ x, c.maxLength = some x → ss₁.length ≤ x := by
        intro x hx
        rw [hx] at h3
        exact mutShape_length h2 h3
      have hhead : ∃ e₁ pre₁, ss₁ = e₁ :: pre₁ ∧ e₁.prim = e.prim := by
        have hm := mutShape_mutated h2 (by rintro k rfl; simp [MutFn.name] at h4)
        generalize hx : e :: pre = x at hm
        have h3 := mem_available.1 h3
        cases f with
        | partialShrink k => cases h4
        | replacePrimitive =>
          exfalso
          have h3 := h3.2
          rcases hc with hc | hc
          · have := hlen 1 hc
            have h5 := List.length_filter_le (fun s => decide ((c.ps.prims s.prim.output).length > 1))
              (e :: pre)
            omega
          · have h5 : pre.filter (fun s => decide ((c.ps.prims s.prim.output).length > 1)) = [] := by
              rw [List.filter_eq_nil_iff]
              intro s hs
              rw [hps.kind _ _ (hok.2 s hs).offered]
              simpa using hc
            rw [List.filter_cons, h5] at h3
            split at h3 <;> simp at h3
        | replaceTerminal =>
          cases hm with
          | value p s₁ q k t hk _ _ =>
            cases p with
            | nil =>
              simp only [List.nil_append, List.cons.injEq] at hx ⊢
              exact ⟨_, _, ⟨rfl, rfl⟩, by rw [hx.1]⟩
            | cons a p =>
              simp only [List.cons_append, List.cons.injEq] at hx ⊢
              exact ⟨_, _, ⟨rfl, rfl⟩, by rw [hx.1]⟩
        | insert =>
          cases hm with
          | insert p s₁ q hb =>
            cases p with
            | nil => exact absurd rfl hb
            | cons a p =>
              simp only [List.cons_append, List.cons.injEq] at hx ⊢
              exact ⟨_, _, ⟨rfl, rfl⟩, by rw [hx.1]⟩
        | shrink =>
          cases hm with
          | remove _ q h5 h6 =>
            cases ss₁ with
            | nil => exact absurd rfl h5
            | cons a p =>
              simp only [List.cons_append, List.cons.injEq] at hx ⊢
              exact ⟨_, _, ⟨rfl, rfl⟩, by rw [hx.1]⟩
      obtain ⟨e₁, pre₁, rfl, he₁⟩ := hhead
      obtain ⟨e', pre', h5, h6⟩ := C120_stuck_partial hps hc his₁ h2.1 hlen₁ run'
      exact ⟨e', pre', h5, h6.trans he₁⟩

theorem C120_false : ¬ C120_claim := by
  intro h
  obtain ⟨n, r, j, w', run, hj⟩ := h ⟨Ex.space, some 1, fun _ => false, 50⟩ Ex.space_ok (by decide)
    (Ex.w0 fun _ => 0) 1 Ex.single Ex.otherSingle (Ex.is_single _) Ex.single_ok Ex.otherSingle_ok
    (by intro x hx; cases hx; decide)
  obtain ⟨e', pre', h1, h2⟩ := C120_stuck_partial (c := ⟨Ex.space, some 1, fun _ => false, 50⟩) Ex.space_ok
    (Or.inl rfl) (w := withRnd (Ex.w0 fun _ => 0) r) (Ex.is_single _) Ex.single_ok
    (by intro x hx; cases hx; decide) run
  have := hj.det h1
  simp only [Ex.otherSingle, List.cons.injEq] at this
  rw [← this.1] at h2
  exact absurd h2 (by decide)

example (r : Stream) : Found ⟨Ex.space, some 3, fun _ => false, 50⟩ (Ex.w0 r) 1 Ex.long :=
  C120_partial (c := ⟨Ex.space, some 3, fun _ => false, 50⟩) Ex.space_ok (by decide) (p := Ex.pNB) (q := Ex.pDT)
    (p' := Ex.pSC) (q' := Ex.pPCA) (by decide) (by decide) (by decide) (by decide) (by decide)
    (by decide) (Ex.is_single r) Ex.single_ok Ex.long_ok
    (by intro x hx; cases hx; decide)

end Gama
