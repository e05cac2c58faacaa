import Verif.Props.Space

/-!
# Properties of creating and varying pipelines (C02–C09, C14)
-/

namespace Gama
open Spec PyM

/-! ## C02 -/

/-- **C02.** Whenever a random individual is created (any search space, any draws), it is
well formed and its number of steps lies between the requested bounds. -/
theorem C02_random_creation_well_formed {ps : PSet} (hps : PSetOk ps) {lo hi : Nat}
    (hlo : 1 ≤ lo) {w w' : World} {a : Addr}
    (run : createRandomExpression ps lo hi w = (.ok a, w')) :
    ∃ l : List (Addr × Step), Chain w'.nodes (some a) l ∧ PipelineOk ps (l.map Prod.snd) ∧
      lo ≤ l.length ∧ l.length ≤ hi := by
  have h : wp (createRandomExpression ps lo hi)
      (fun a w' => ∃ l : List (Addr × Step), Chain w'.nodes (some a) l ∧
        PipelineOk ps (l.map Prod.snd) ∧ lo ≤ l.length ∧ l.length ≤ hi)
      (fun _ _ => True) w :=
    wp_createRandomExpression hps
      (fun a l w' hc hok _ _ hlen _ _ _ => ⟨l, hc, hok, hlen hlo⟩) (fun _ _ _ _ _ => trivial)
  exact wp_ok h run

/-- **C02**, existence: if both kinds of steps are offered and the bounds are consistent,
creation does not fail, whatever the draws. -/
theorem C02_random_creation_succeeds {ps : PSet} (hps : PSetOk ps) {lo hi : Nat}
    (hle : lo ≤ hi) (he : ps.prims predictionKey ≠ []) (hp : ps.prims dataTerminal ≠ [])
    (w : World) : ∃ a w', createRandomExpression ps lo hi w = (.ok a, w') := by
  have h : wp (createRandomExpression ps lo hi) (fun _ _ => True) (fun _ _ => False) w := by
    refine wp_createRandomExpression hps (fun _ _ _ _ _ _ _ _ _ _ _ => trivial) ?_
    rintro e w' _ _ (⟨h, _⟩ | ⟨h, _⟩ | ⟨_, h, _⟩)
    · omega
    · exact he h
    · exact hp h
  cases hr : createRandomExpression ps lo hi w with
  | mk r w' =>
    cases r with
    | ok a => exact ⟨a, w', rfl⟩
    | error e => exact (wp_error h hr).elim

/-- **C02** for the operator set: a new individual is fresh, well formed, and within the
maximum start length. -/
theorem C02_new_individual_well_formed {c : OpConfig} (hps : PSetOk c.ps) {w w' : World} {n : Nat}
    (run : opIndividual c w = (.ok n, w')) :
    ∃ ss, Fresh w w' n ss ∧ PipelineOk c.ps ss ∧ ss.length ≤ c.maxStart := by
  obtain ⟨ss, h1, h2, h3, _⟩ := wp_ok (wp_opIndividual hps) run
  exact ⟨ss, h1, h2, h3⟩

example (r : Stream) : ∃ a w', createRandomExpression Ex.space 2 3 (Ex.w0 r) = (.ok a, w') :=
  C02_random_creation_succeeds Ex.space_ok (by decide) (by decide) (by decide) _

/-! ## C03, C04: mutation -/

/-- The change each mutation function makes. -/
def MutFn.change : MutFn → Change
  | .replaceTerminal => .value
  | .replacePrimitive => .step
  | .insert => .insert
  | .shrink | .partialShrink _ => .remove

theorem mutShape_mutated {ps : PSet} {f : MutFn} {ss ss' : List Step}
    (h : mutShape ps f ss ss') (hk : ∀ k, f = .partialShrink k → 0 < k) :
    Mutated ps f.change ss ss' := by
  cases f with
  | replaceTerminal => exact h.2.2
  | replacePrimitive => exact h.2.2
  | insert => exact h.2.2
  | shrink => exact h.2.2.2
  | partialShrink k =>
    obtain ⟨_, rfl, hlt⟩ := h
    have := Mutated.remove (ps := ps) (ss.take (ss.length - k)) (ss.drop (ss.length - k))
      (by intro h; have := congrArg List.length h; simp at this; omega)
      (by intro h; have := congrArg List.length h; have := hk k rfl; simp at *; omega)
    rwa [List.take_append_drop] at this

theorem mem_available {ps : PSet} {m : Option Nat} {ss : List Step} {f : MutFn} :
    f ∈ availableMutations ps m (ss.map fun s => ⟨s.prim, s.terms, none⟩) ↔
      match f with
      | .partialShrink k => exceeds m ss.length = true ∧ k = ss.length - m.getD 0
      | .replacePrimitive => exceeds m ss.length = false ∧
          1 < (ss.filter fun s => (ps.prims s.prim.output).length > 1).length
      | .insert => exceeds m ss.length = false ∧ mayGrow m ss.length = true
      | .shrink => exceeds m ss.length = false ∧ 1 < ss.length
      | .replaceTerminal => exceeds m ss.length = false ∧
          1 < ((allTerms ss).filter fun t => (ps.terms t.ident).length > 1).length := by
  have hf1 : ((ss.map fun s => (⟨s.prim, s.terms, none⟩ : Cell)).filter
      fun c => (ps.prims c.prim.output).length > 1).length
      = (ss.filter fun s => (ps.prims s.prim.output).length > 1).length := by
    rw [List.filter_map, List.length_map]; rfl
  have hf2 : (ss.map fun s => (⟨s.prim, s.terms, none⟩ : Cell)).flatMap Cell.terms
      = allTerms ss := by
    rw [List.flatMap_map]; rfl
  unfold availableMutations
  simp only [List.length_map]
  rw [hf1, hf2]
  cases hx : exceeds m ss.length with
  | true => cases f <;> simp
  | false =>
    simp only [Bool.false_eq_true, if_false, List.mem_append]
    have key : ∀ (P : Prop) [Decidable P] (g : MutFn),
        (f ∈ if P then [g] else []) ↔ P ∧ f = g := by
      intro P _ g; split <;> simp_all
    rw [key, key, key, key]
    cases f <;> simp

theorem partialShrink_pos {ps : PSet} {m : Option Nat} {ss : List Step} {k : Nat}
    (h : MutFn.partialShrink k ∈
      availableMutations ps m (ss.map fun s => ⟨s.prim, s.terms, none⟩)) :
    ∃ x, m = some x ∧ x < ss.length ∧ k = ss.length - x := by
  obtain ⟨h1, h2⟩ := mem_available.1 h
  cases m with
  | none => simp [exceeds] at h1
  | some x => exact ⟨x, rfl, by simpa [exceeds] using h1, by simpa using h2⟩

/-- `random_valid_mutation_in_place` on a well-formed individual. -/
theorem wp_randomValidMutation {ps : PSet} (hps : PSetOk ps) {m : Option Nat} {w : World} {i : Nat}
    {ss : List Step} (his : Is w i ss) (hok : PipelineOk ps ss) :
    wp (randomValidMutation ps m i)
      (fun f w' => ∃ ss', Is w' i ss' ∧ mutShape ps f ss ss' ∧
        f ∈ availableMutations ps m (ss.map fun s => ⟨s.prim, s.terms, none⟩))
      (fun _ _ => True) w := by
  obtain ⟨ind, l, hi, hc, rfl⟩ := is_iff.1 his
  simp only [randomValidMutation, wp_bind]
  apply wp_primitives hi hc
  apply wp_getNodes (fun b s h => hc.cell h)
  intro cs hcs
  have hav : availableMutations ps m cs = availableMutations ps m
      ((steps l).map fun s => (⟨s.prim, s.terms, none⟩ : Cell)) := by
    rw [← hcs]
    simp only [availableMutations, List.length_map, List.map_map, List.flatMap_map,
      List.filter_map, Function.comp_def, cellStep]
  apply wp_choice
  · intro _; trivial
  intro f hf
  rw [hav] at hf
  refine wp_mono (fun _ w₂ h => ?_) (fun _ _ _ => trivial)
    (wp_mutApply (w := advance w) hps hi hc hok f)
  obtain ⟨ind', l', g1, g2, g3, _⟩ := h.chain
  exact ⟨steps l', is_iff.2 ⟨ind', l', g1, g2, rfl⟩, g3, hf⟩

/-- **C03.** Whenever mutation of a well-formed individual completes, it is well formed and
differs from what it was by exactly one of the four kinds of change. -/
theorem C03_mutation_well_formed {ps : PSet} (hps : PSetOk ps) {m : Option Nat} {w w' : World}
    {i : Nat} {f : MutFn} {ss : List Step} (his : Is w i ss) (hok : PipelineOk ps ss)
    (run : randomValidMutation ps m i w = (.ok f, w')) :
    ∃ ss', Is w' i ss' ∧ PipelineOk ps ss' ∧ ∃ kind, Mutated ps kind ss ss' := by
  obtain ⟨ss', h1, h2, h3⟩ := wp_ok (wp_randomValidMutation hps his hok) run
  refine ⟨ss', h1, h2.1, _, mutShape_mutated h2 ?_⟩
  rintro k rfl
  obtain ⟨x, _, h5, h6⟩ := partialShrink_pos h3
  omega

/-- The operator set's `mutate`, for any number of retries. -/
theorem wp_opMutate {c : OpConfig} (hps : PSetOk c.ps) {w : World} {i : Nat}
    {ss : List Step} (his : Is w i ss) (hok : PipelineOk c.ps ss) :
    wp (opMutate c i)
      (fun n w' => ∃ ss' f name, Fresh w w' n ss' ∧ mutShape c.ps f ss ss' ∧
        f ∈ availableMutations c.ps c.maxLength (ss.map fun s => ⟨s.prim, s.terms, none⟩) ∧
        f.name = .ok name ∧ HasMeta w' n [i] (some name))
      (fun e w' => Extends w w' ∧ ((c.maxRetry = 0 ∧ e = .unboundLocal) ∨
        (availableMutations c.ps c.maxLength (ss.map fun s => ⟨s.prim, s.terms, none⟩) = [] ∧
          e = .indexError) ∨
        ∃ f ∈ availableMutations c.ps c.maxLength (ss.map fun s => ⟨s.prim, s.terms, none⟩),
          mutFails c.ps f ss ∨ f.name = .error e)) w := by
  have hop : ∀ w₁, Extends w w₁ → wp (mutateWithLog c i)
      (fun n w' => Extends w w' ∧ (∃ ss' f name, Fresh w₁ w' n ss' ∧ mutShape c.ps f ss ss' ∧
        f ∈ availableMutations c.ps c.maxLength (ss.map fun s => ⟨s.prim, s.terms, none⟩) ∧
        f.name = .ok name ∧ HasMeta w' n [i] (some name)) ∧ ∃ ss, Is w' n ss)
      (fun e w' => Extends w w' ∧ ((c.maxRetry = 0 ∧ e = .unboundLocal) ∨
        (availableMutations c.ps c.maxLength (ss.map fun s => ⟨s.prim, s.terms, none⟩) = [] ∧
          e = .indexError) ∨
        ∃ f ∈ availableMutations c.ps c.maxLength (ss.map fun s => ⟨s.prim, s.terms, none⟩),
          mutFails c.ps f ss ∨ f.name = .error e)) w₁ := by
    intro w₁ hex
    refine wp_mono (fun n w' h => ?_) (fun e w' h => ?_)
      (wp_mutateWithLog hps (his.mono hex) hok)
    · refine ⟨?_, h, ?_⟩
      · obtain ⟨_, _, _, hf, _⟩ := h; exact Extends.trans hex hf.ext
      · obtain ⟨_, _, _, hf, _⟩ := h
        obtain ⟨as, h, _⟩ := hf.is
        exact ⟨_, as, h⟩
    · exact ⟨Extends.trans hex h.1, Or.inr h.2⟩
  refine wp_mono (fun n w' h => ?_) (fun e w' h => h)
    (wp_tryUntilNew (completed := c.completed) (k := c.maxRetry) hop (Extends.refl w)
      (fun h _ _ => Or.inl ⟨h, rfl⟩) (fun n h => by simp at h))
  obtain ⟨_, w₀, hw₀, ss', f, name, hf, h⟩ := h
  refine ⟨ss', f, name, ⟨Extends.trans hw₀ hf.ext, Nat.le_trans hw₀.2.length_le hf.new, ?_⟩, h⟩
  obtain ⟨as, h1, h2⟩ := hf.is
  exact ⟨as, h1, fun a ha => Nat.le_trans hw₀.1.length_le (h2 a ha)⟩

/-- **C03** for the operator set: an offspring made by mutation is fresh, well formed and
differs from its parent by exactly one kind of change. -/
theorem C03_mutate_offspring {c : OpConfig} (hps : PSetOk c.ps) {w w' : World} {i n : Nat}
    {ss : List Step} (his : Is w i ss) (hok : PipelineOk c.ps ss)
    (run : opMutate c i w = (.ok n, w')) :
    ∃ ss', Fresh w w' n ss' ∧ PipelineOk c.ps ss' ∧ ∃ kind, Mutated c.ps kind ss ss' := by
  obtain ⟨ss', f, name, h1, h2, h3, h4, _⟩ := wp_ok (wp_opMutate hps his hok) run
  exact ⟨ss', h1, h2.1, _, mutShape_mutated h2 (by rintro k rfl; simp [MutFn.name] at h4)⟩

theorem mutShape_length {ps : PSet} {f : MutFn} {m : Nat} {ss ss' : List Step}
    (h : mutShape ps f ss ss')
    (hf : f ∈ availableMutations ps (some m) (ss.map fun s => ⟨s.prim, s.terms, none⟩)) :
    ss'.length ≤ m := by
  have hf := mem_available.1 hf
  have h := h.2
  cases f <;> simp only [exceeds, mayGrow, decide_eq_true_eq, decide_eq_false_iff_not,
    Option.getD_some] at hf h
  · omega
  · omega
  · omega
  · omega
  · obtain ⟨rfl, _⟩ := h
    simp; omega

/-- **C04.** With a maximum length, a mutated individual is never longer than it, even if it
was longer before. -/
theorem C04_mutation_respects_max_length {ps : PSet} (hps : PSetOk ps) {m : Nat} {w w' : World}
    {i : Nat} {f : MutFn} {ss : List Step} (his : Is w i ss) (hok : PipelineOk ps ss)
    (run : randomValidMutation ps (some m) i w = (.ok f, w')) :
    ∃ ss', Is w' i ss' ∧ ss'.length ≤ m := by
  obtain ⟨ss', h1, h2, h3⟩ := wp_ok (wp_randomValidMutation hps his hok) run
  exact ⟨ss', h1, mutShape_length h2 h3⟩

/-- **C04** for the operator set. -/
theorem C04_mutate_offspring_length {c : OpConfig} (hps : PSetOk c.ps) {m : Nat}
    (hm : c.maxLength = some m) {w w' : World} {i n : Nat}
    {ss : List Step} (his : Is w i ss) (hok : PipelineOk c.ps ss)
    (run : opMutate c i w = (.ok n, w')) : ∃ ss', Is w' n ss' ∧ ss'.length ≤ m := by
  obtain ⟨ss', f, name, h1, h2, h3, _⟩ := wp_ok (wp_opMutate hps his hok) run
  obtain ⟨as, h, _⟩ := h1.is
  rw [hm] at h3
  exact ⟨ss', ⟨as, h⟩, mutShape_length h2 h3⟩

/-- An over-long pipeline is shortened to exactly the maximum. -/
example : ∃ w' f, randomValidMutation Ex.space (some 2) 0 (Ex.w0 (fun _ => 0)) = (.ok f, w') ∧
    Is w' 0 [⟨Ex.pDT, [Ex.alpha1, Ex.depth2]⟩, ⟨Ex.pPCA, [Ex.whitT]⟩] :=
  ⟨_, _, rfl, [0, 1], rfl, { main := 0 }, rfl, rfl, some 1, rfl, rfl, none, rfl, rfl⟩

example : ∃ w' n, opMutate { ps := Ex.space, maxLength := some 2, completed := fun _ => false } 2
    (Ex.w0 (fun _ => 0)) = (.ok n, w') := ⟨_, _, rfl⟩

/-! ## C05: can mutation fail? -/

/-- All alternatives in the search space are really different. -/
structure Distinct (ps : PSet) : Prop where
  prims : ∀ k, (ps.prims k).Nodup
  values : ∀ k, (ps.terms k).Pairwise fun a b => a.value.pyEq b.value = false

/-- The number of hyperparameter values in a pipeline for which there is an alternative. -/
def mutableValues (ps : PSet) (ss : List Step) : Nat :=
  ((allTerms ss).filter fun t => (ps.terms t.ident).length > 1).length

theorem pyEq_trans {a b c : Value} (h : a.pyEq c = true) (h' : b.pyEq c = true) :
    a.pyEq b = true := by
  cases a <;> cases c <;> simp [Value.pyEq] at h <;> cases b <;> simp [Value.pyEq] at h' ⊢ <;>
    exact h.trans h'.symm

theorem no_mutFails {ps : PSet} (hd : Distinct ps)
    {m : Option Nat} {ss : List Step} {f : MutFn}
    (hdata : ps.prims dataTerminal ≠ [] ∨ m = some 1) (hne : ss ≠ [])
    (hlen : ∀ x, m = some x → ss.length ≤ x)
    (hf : f ∈ availableMutations ps m (ss.map fun s => ⟨s.prim, s.terms, none⟩)) :
    ¬ mutFails ps f ss ∧ ∃ name, f.name = .ok name := by
  have two : ∀ {α : Type} (l : List α), 1 < l.length → ∃ a b t, l = a :: b :: t := by
    intro α l h
    match l, h with
    | a :: b :: t, _ => exact ⟨a, b, t, rfl⟩
  cases f with
  | partialShrink k =>
    obtain ⟨x, h1, h2, _⟩ := partialShrink_pos hf
    have := hlen x h1
    omega
  | insert =>
    refine ⟨?_, _, rfl⟩
    rcases hdata with h | rfl
    · exact h
    · have h := (mem_available.1 hf).2
      simp [mayGrow] at h
      exact absurd h hne
  | shrink =>
    refine ⟨?_, _, rfl⟩
    have := (mem_available.1 hf).2
    simp only [mutFails]
    omega
  | replacePrimitive =>
    refine ⟨?_, _, rfl⟩
    have hex : ∃ s ∈ ss, 1 < (ps.prims s.prim.output).length := by
      obtain ⟨a, b, t, e⟩ := two _ (mem_available.1 hf).2
      have ha : a ∈ a :: b :: t := by simp
      rw [← e, List.mem_filter] at ha
      exact ⟨a, ha.1, by simpa using ha.2⟩
    rintro (h | ⟨s, hs, h1, h2⟩)
    · obtain ⟨s, hs, h'⟩ := hex
      have := h s hs
      omega
    · have hnd := hd.prims s.prim.output
      obtain ⟨a, b, t, e⟩ := two _ h1
      rw [e] at hnd h2
      have h3 := h2 a (by simp)
      have h4 := h2 b (by simp)
      rw [h3, h4] at hnd
      simp at hnd
  | replaceTerminal =>
    refine ⟨?_, _, rfl⟩
    have hex : ∃ t ∈ allTerms ss, 1 < (ps.terms t.ident).length := by
      obtain ⟨a, b, t, e⟩ := two _ (mem_available.1 hf).2
      have ha : a ∈ a :: b :: t := by simp
      rw [← e, List.mem_filter] at ha
      exact ⟨a, ha.1, by simpa using ha.2⟩
    rintro (h | ⟨s, hs, h1, h2⟩)
    · obtain ⟨s, hs, h'⟩ := hex
      have := h s hs
      omega
    · have hnd := hd.values s.ident
      obtain ⟨a, b, t, e⟩ := two _ h1
      rw [e] at hnd h2
      have h3 := h2 a (by simp)
      have h4 := h2 b (by simp)
      have h5 := List.rel_of_pairwise_cons hnd (a' := b) (by simp)
      rw [pyEq_trans h3 h4] at h5
      simp at h5

/-- The full claim of **C05** (which is false, see the witnesses below). -/
def C05_claim : Prop := ∀ (c : OpConfig) (w : World) (i : Nat) (ss : List Step),
  PSetOk c.ps → Distinct c.ps → c.ps.prims dataTerminal ≠ [] → 0 < c.maxRetry → Is w i ss →
  PipelineOk c.ps ss → (∀ m, c.maxLength = some m → ss.length ≤ m) →
  ∃ n w', opMutate c i w = (.ok n, w')

/-- **C05**, the part that holds: mutation succeeds on every well-formed individual within
the maximum length, provided it has two steps, or may still grow, or has two
hyperparameters with alternatives.  The search space has preprocessors, or pipelines consist of an
estimator only.  Missing: single-step pipelines at a maximum length of
one with fewer than two such hyperparameters. -/
theorem C05_mutation_succeeds_partial (c : OpConfig) (w : World) (i : Nat) (ss : List Step)
    (hps : PSetOk c.ps) (hd : Distinct c.ps)
    (hdata : c.ps.prims dataTerminal ≠ [] ∨ c.maxLength = some 1) (hr : 0 < c.maxRetry) (his : Is w i ss) (hok : PipelineOk c.ps ss)
    (hlen : ∀ m, c.maxLength = some m → ss.length ≤ m)
    (hopt : 2 ≤ ss.length ∨ (∀ m, c.maxLength = some m → ss.length < m) ∨
      2 ≤ mutableValues c.ps ss) :
    ∃ n w', opMutate c i w = (.ok n, w') := by
  have hne : ss ≠ [] := by rintro rfl; exact hok.elim
  have h := wp_opMutate (c := c) hps his hok
  cases hrun : opMutate c i w with
  | mk r w' =>
    cases r with
    | ok n => exact ⟨n, w', rfl⟩
    | error e =>
      exfalso
      obtain ⟨_, h | ⟨h, _⟩ | ⟨f, hf, h⟩⟩ := wp_error h hrun
      · omega
      · have hno : exceeds c.maxLength ss.length = false := by
          cases hm : c.maxLength with
          | none => rfl
          | some m => have := hlen m hm; simp [exceeds]; omega
        have key : ∀ f, f ∉ availableMutations c.ps c.maxLength
            (ss.map fun s => ⟨s.prim, s.terms, none⟩) := by
          intro f hf; rw [h] at hf; simp at hf
        rcases hopt with ho | ho | ho
        · exact key .shrink (mem_available.2 ⟨hno, ho⟩)
        · refine key .insert (mem_available.2 ⟨hno, ?_⟩)
          cases hm : c.maxLength with
          | none => rfl
          | some m => simpa [mayGrow] using ho m hm
        · exact key .replaceTerminal (mem_available.2 ⟨hno, ho⟩)
      · obtain ⟨hn, name, hname⟩ := no_mutFails hd hdata hne hlen hf
        rcases h with h | h
        · exact hn h
        · rw [hname] at h; simp at h

/-- A search space in which the estimator has a single hyperparameter. -/
def onlyNB : PSet where
  prims k := if k = dataTerminal then [Ex.pSC] else if k = predictionKey then [Ex.pNB] else []
  terms k := if k = Ex.alphaK then [Ex.alpha1, Ex.alpha2] else []

theorem onlyNB_ok : PSetOk onlyNB where
  kind := by
    intro k p h
    simp only [onlyNB] at h
    split at h
    · next hk => simp at h; subst h; exact hk.symm
    · split at h
      · next hk => simp at h; subst h; exact hk.symm
      · simp at h
  ident := by
    intro k t h
    simp only [onlyNB] at h
    split at h
    · next hk => simp at h; rcases h with rfl | rfl <;> exact hk.symm
    · simp at h
  nonempty := by
    intro k p i h hi
    simp only [onlyNB] at h
    split at h
    · simp at h; subst h; simp [Ex.pSC] at hi
    · split at h
      · simp at h; subst h; simp [Ex.pNB] at hi; subst hi; decide
      · simp at h
  distinct := by
    intro k p h
    simp only [onlyNB] at h
    split at h
    · simp at h; subst h; decide
    · split at h
      · simp at h; subst h; decide
      · simp at h
  sameName := by
    intro k t t' h h'
    simp only [onlyNB] at h h'
    split at h
    · next hk =>
      simp [hk] at h h'
      rcases h with rfl | rfl <;> rcases h' with rfl | rfl <;> rfl
    · simp at h
  diffName := by
    intro k p i j t t' h hi hj hij ht ht'
    exfalso
    simp only [onlyNB] at h
    split at h
    · simp at h; subst h; simp [Ex.pSC] at hi
    · split at h
      · simp at h; subst h
        simp [Ex.pNB] at hi hj
        exact hij (hi.trans hj.symm)
      · simp at h
  noEq := by
    intro k t h
    simp only [onlyNB] at h
    split at h
    · simp at h; rcases h with rfl | rfl <;> decide
    · simp at h

theorem onlyNB_distinct : Distinct onlyNB where
  prims := by
    intro k
    simp only [onlyNB]
    split
    · simp
    · split <;> simp
  values := by
    intro k
    simp only [onlyNB]
    split
    · decide
    · simp

/-- **C05 is false**: with `max_pipeline_length=1` a well-formed one-step individual with one
hyperparameter that has alternatives cannot be mutated: `IndexError`. -/
theorem C05_false : ¬ C05_claim := by
  intro h
  have his : Is (Ex.w0 fun _ => 0) 1 Ex.single := Ex.is_single _
  have hok : PipelineOk onlyNB Ex.single := by
    refine ⟨⟨by decide, List.Perm.refl _, ?_, by decide⟩, by simp⟩
    intro t ht
    simp at ht
    subst ht; decide
  obtain ⟨n, w', hr⟩ := h { ps := onlyNB, maxLength := some 1, completed := fun _ => false } _ _ _ onlyNB_ok
    onlyNB_distinct (by decide) (by decide) his hok (by intro m hm; injection hm with hm; subst hm; decide)
  have : opMutate { ps := onlyNB, maxLength := some 1, completed := fun _ => false } 1 (Ex.w0 fun _ => 0) =
      (.error .indexError, (opMutate { ps := onlyNB, maxLength := some 1, completed := fun _ => false } 1
        (Ex.w0 fun _ => 0)).2) := rfl
  rw [this] at hr
  simp at hr

/-- Also, mutating an over-long individual through the operator set always raises an `AttributeError` (the name
of the applied function is read, which a `functools.partial` does not have). -/
theorem C05_over_long_raises {c : OpConfig} (hps : PSetOk c.ps) {m : Nat} (hm1 : 1 ≤ m)
    (hm : c.maxLength = some m) (hr : 0 < c.maxRetry) {w : World} {i : Nat} {ss : List Step} (his : Is w i ss)
    (hok : PipelineOk c.ps ss) (hlong : m < ss.length) :
    ∃ w', opMutate c i w = (.error .attributeError, w') := by
  have hx : exceeds c.maxLength ss.length = true := by simpa [exceeds, hm] using hlong
  cases hrun : opMutate c i w with
  | mk r w' =>
    cases r with
    | error e =>
      have havail : MutFn.partialShrink (ss.length - m) ∈ availableMutations c.ps c.maxLength
          (ss.map fun s => ⟨s.prim, s.terms, none⟩) := mem_available.2 ⟨hx, by simp [hm]⟩
      obtain ⟨_, h | ⟨h, _⟩ | ⟨f, hf, h⟩⟩ := wp_error (wp_opMutate hps his hok) hrun
      · omega
      · rw [h] at havail; simp at havail
      · have hf := mem_available.1 hf
        cases f with
        | partialShrink k =>
          have hk : k = ss.length - m := by simpa [hm] using hf.2
          rcases h with h | h
          · exact absurd (show ss.length ≤ k from h) (by omega)
          · cases h; exact ⟨w', rfl⟩
        | _ => rw [hx] at hf; exact absurd hf.1 (by simp)
    | ok n =>
      exfalso
      obtain ⟨ss', f, name, _, _, h3, h4, _⟩ := wp_ok (wp_opMutate hps his hok) hrun
      have h3 := mem_available.1 h3
      cases f <;> simp [hx, MutFn.name] at h3 h4

/-- **C05, exactly.**  Within the maximum length a mutation succeeds if the pipeline has two steps, or may grow, or has
two hyperparameters with alternatives; otherwise it raises an `IndexError`. -/
theorem C05_exact (c : OpConfig) (w : World) (i : Nat) (ss : List Step)
    (hps : PSetOk c.ps) (hd : Distinct c.ps)
    (hdata : c.ps.prims dataTerminal ≠ [] ∨ c.maxLength = some 1) (hr : 0 < c.maxRetry) (his : Is w i ss)
    (hok : PipelineOk c.ps ss) (hlen : ∀ m, c.maxLength = some m → ss.length ≤ m) :
    ((∃ n w', opMutate c i w = (.ok n, w')) ↔
      (2 ≤ ss.length ∨ (∀ m, c.maxLength = some m → ss.length < m) ∨ 2 ≤ mutableValues c.ps ss)) ∧
    ((∃ n w', opMutate c i w = (.ok n, w')) ∨ ∃ w', opMutate c i w = (.error .indexError, w')) := by
  have hne : ss ≠ [] := by rintro rfl; exact hok.elim
  have hno : exceeds c.maxLength ss.length = false := by
    cases hm : c.maxLength with
    | none => rfl
    | some m => have := hlen m hm; simp [exceeds]; omega
  refine ⟨⟨?_, C05_mutation_succeeds_partial c w i ss hps hd hdata hr his hok hlen⟩, ?_⟩
  · rintro ⟨n, w', hrun⟩
    obtain ⟨ss', f, name, _, _, h3, h4, _⟩ := wp_ok (wp_opMutate hps his hok) hrun
    have h3 := mem_available.1 h3
    cases f with
    | replacePrimitive => exact .inl (lt_of_lt_of_le h3.2 (List.length_filter_le _ _))
    | insert =>
      refine .inr (.inl fun m hm => ?_)
      have := h3.2
      rw [hm] at this
      simpa [mayGrow] using this
    | shrink => exact .inl h3.2
    | replaceTerminal => exact .inr (.inr h3.2)
    | partialShrink k => rw [hno] at h3; exact absurd h3.1 (by simp)
  · cases hrun : opMutate c i w with
    | mk r w' =>
      cases r with
      | ok n => exact .inl ⟨n, w', rfl⟩
      | error e =>
        obtain ⟨_, h | ⟨_, h⟩ | ⟨f, hf, h⟩⟩ := wp_error (wp_opMutate hps his hok) hrun
        · omega
        · subst h; exact .inr ⟨w', rfl⟩
        · obtain ⟨hn, name, hname⟩ := no_mutFails hd hdata hne hlen hf
          rcases h with h | h
          · exact absurd h hn
          · rw [hname] at h; simp at h

theorem space_distinct : Distinct Ex.space where
  prims := by
    intro k
    simp only [Ex.space]
    split
    · decide
    · split
      · decide
      · simp
  values := by
    intro k
    simp only [Ex.space]
    split
    · decide
    · split
      · decide
      · split
        · decide
        · simp

example (r : Stream) : ∃ n w',
    opMutate { ps := Ex.space, maxLength := some 3, completed := fun _ => false } 0 (Ex.w0 r) = (.ok n, w') :=
  C05_mutation_succeeds_partial _ _ _ _ Ex.space_ok space_distinct (by decide) (by decide)
    (Ex.is_long r) Ex.long_ok (by intro m hm; injection hm with hm; subst hm; decide)
    (Or.inl (by decide))

/-- `C05_exact`: one step that may not grow. -/
example : ∃ w', opMutate { ps := onlyNB, maxLength := some 1, completed := fun _ => false } 1 (Ex.w0 fun _ => 0)
    = (.error .indexError, w') := ⟨_, rfl⟩

/-! ## C06, C07: crossover -/

/-- Two individuals share no step object. -/
def Apart (w : World) (i j : Nat) : Prop :=
  i ≠ j ∧ ∀ as bs ss ts, IsAt w i as ss → IsAt w j bs ts → ∀ a ∈ as, a ∉ bs

/-- **C06.** Whenever crossover of two well-formed individuals that share no step object
completes, both are well formed and either proper data-side tails or one pair of differing
values of a shared hyperparameter were exchanged; the total number of steps is conserved. -/
theorem C06_crossover_well_formed {ps : PSet} (hps : PSetOk ps) {m : Option Nat} {w w' : World}
    {i j a b : Nat} {p₁ p₂ : List Step} (h₁ : Is w i p₁) (h₂ : Is w j p₂)
    (hap : Apart w i j) (hok₁ : PipelineOk ps p₁) (hok₂ : PipelineOk ps p₂)
    (run : randomCrossover m i j w = (.ok (a, b), w')) :
    ∃ c₁ c₂, Is w' i c₁ ∧ Is w' j c₂ ∧ PipelineOk ps c₁ ∧ PipelineOk ps c₂ ∧
      Crossed p₁ p₂ c₁ c₂ ∧ c₁.length + c₂.length = p₁.length + p₂.length := by
  obtain ⟨as₁, h₁⟩ := h₁
  obtain ⟨as₂, h₂⟩ := h₂
  have hdis := hap.2 _ _ _ _ h₁ h₂
  obtain ⟨i₁, l₁, e1, e2, rfl, rfl⟩ := isAt_iff.1 h₁
  obtain ⟨i₂, l₂, f1, f2, rfl, rfl⟩ := isAt_iff.1 h₂
  obtain ⟨h, _⟩ := wp_ok (wp_randomCrossover hps e1 f1 e2 f2 hdis hok₁ hok₂) run
  obtain ⟨ind₁, ind₂, m₁, m₂, g1, g2, g3, g4, ⟨q1, q2, q3, q4, _⟩, _⟩ := h.chain
  exact ⟨steps m₁, steps m₂, is_iff.2 ⟨_, _, g1, g3, rfl⟩, is_iff.2 ⟨_, _, g2, g4, rfl⟩, q2, q3, q1,
    by simpa [steps] using q4⟩

/-- **C07.** The first individual returned by crossover has at most `max_length` steps, the
returned pair is the two given individuals. -/
theorem C07_first_child_within_max_length {ps : PSet} (hps : PSetOk ps) {m : Nat} {w w' : World}
    {i j a b : Nat} {p₁ p₂ : List Step} (h₁ : Is w i p₁) (h₂ : Is w j p₂)
    (hap : Apart w i j) (hok₁ : PipelineOk ps p₁) (hok₂ : PipelineOk ps p₂)
    (run : randomCrossover (some m) i j w = (.ok (a, b), w')) :
    (∃ c, Is w' a c ∧ c.length ≤ m) ∧ ((a, b) = (i, j) ∨ (a, b) = (j, i)) ∧
      p₁.length ≤ m ∧ p₂.length ≤ m := by
  obtain ⟨as₁, h₁⟩ := h₁
  obtain ⟨as₂, h₂⟩ := h₂
  have hdis := hap.2 _ _ _ _ h₁ h₂
  obtain ⟨i₁, l₁, e1, e2, rfl, rfl⟩ := isAt_iff.1 h₁
  obtain ⟨i₂, l₂, f1, f2, rfl, rfl⟩ := isAt_iff.1 h₂
  obtain ⟨h, x1, x2, _⟩ := wp_ok (wp_randomCrossover hps e1 f1 e2 f2 hdis hok₁ hok₂) run
  obtain ⟨ind₁, ind₂, m₁, m₂, g1, g2, g3, g4, ⟨q1, q2, q3, q4, q5, q6⟩, _⟩ := h.chain
  have l1 : l₁.length ≤ m := by simpa [exceeds] using x1
  have l2 : l₂.length ≤ m := by simpa [exceeds] using x2
  have hb : (steps l₁).length ≤ m ∧ (steps l₂).length ≤ m := by simp [steps]; omega
  cases hx : exceeds (some m) (steps m₁).length with
  | true =>
    have hr := q5 hx
    injection hr with ha hb'
    subst ha; subst hb'
    refine ⟨⟨steps m₂, is_iff.2 ⟨_, _, g2, g4, rfl⟩, ?_⟩, Or.inr rfl, hb⟩
    simp only [exceeds, decide_eq_true_eq] at hx
    omega
  | false =>
    have hr := q6 hx
    injection hr with ha hb'
    subst ha; subst hb'
    refine ⟨⟨steps m₁, is_iff.2 ⟨_, _, g1, g3, rfl⟩, ?_⟩, Or.inl rfl, hb⟩
    simpa [exceeds] using hx

/-- What makes crossover applicable: differing values of a shared hyperparameter, or two
pipelines with at least two steps. -/
def CanCross (p₁ p₂ : List Step) : Prop :=
  (∃ a ∈ allTerms p₁, ∃ b ∈ allTerms p₂, a.ident = b.ident ∧ a.value.pyEq b.value = false) ∨
  (2 ≤ p₁.length ∧ 2 ≤ p₂.length)

theorem cxValid_ne_nil {p₁ p₂ : List Step} : cxValid p₁ p₂ ≠ [] ↔ CanCross p₁ p₂ := by
  have hsh : (sharedTerminals (allTerms p₁) (allTerms p₂)).isEmpty = false ↔
      ∃ a ∈ allTerms p₁, ∃ b ∈ allTerms p₂, a.ident = b.ident ∧ a.value.pyEq b.value = false := by
    constructor
    · intro h
      cases hs : sharedTerminals (allTerms p₁) (allTerms p₂) with
      | nil => rw [hs] at h; simp at h
      | cons x l =>
        obtain ⟨k, a, l', b⟩ := x
        have : (k, a, l', b) ∈ sharedTerminals (allTerms p₁) (allTerms p₂) := by rw [hs]; simp
        obtain ⟨h1, h2, h3, h4⟩ := mem_sharedTerminals.1 this
        exact ⟨a, List.mem_of_getElem? h1, b, List.mem_of_getElem? h2, h3, h4⟩
    · rintro ⟨a, ha, b, hb, h3, h4⟩
      obtain ⟨k, hk⟩ := List.getElem?_of_mem ha
      obtain ⟨l, hl⟩ := List.getElem?_of_mem hb
      have := mem_sharedTerminals.2 ⟨hk, hl, h3, h4⟩
      cases hs : sharedTerminals (allTerms p₁) (allTerms p₂) with
      | nil => rw [hs] at this; simp at this
      | cons x l => simp
  unfold cxValid CanCross
  rw [← hsh]
  cases (sharedTerminals (allTerms p₁) (allTerms p₂)).isEmpty <;>
    by_cases h2 : p₁.length ≥ 2 ∧ p₂.length ≥ 2 <;> simp_all

/-- **C07**, the error case: crossover raises exactly when a parent is too long or no
crossover is applicable; then it is a `ValueError` and nothing at all changed. -/
theorem C07_error_iff {ps : PSet} (hps : PSetOk ps) {m : Option Nat} {w : World}
    {i j : Nat} {p₁ p₂ : List Step} (h₁ : Is w i p₁) (h₂ : Is w j p₂)
    (hap : Apart w i j) (hok₁ : PipelineOk ps p₁) (hok₂ : PipelineOk ps p₂) :
    ((∃ x, m = some x ∧ (x < p₁.length ∨ x < p₂.length)) ∨ ¬ CanCross p₁ p₂ →
      randomCrossover m i j w = (.error .valueError, w)) ∧
    (¬ ((∃ x, m = some x ∧ (x < p₁.length ∨ x < p₂.length)) ∨ ¬ CanCross p₁ p₂) →
      ∃ r w', randomCrossover m i j w = (.ok r, w')) := by
  obtain ⟨as₁, h₁⟩ := h₁
  obtain ⟨as₂, h₂⟩ := h₂
  have hdis := hap.2 _ _ _ _ h₁ h₂
  obtain ⟨i₁, l₁, e1, e2, rfl, rfl⟩ := isAt_iff.1 h₁
  obtain ⟨i₂, l₂, f1, f2, rfl, rfl⟩ := isAt_iff.1 h₂
  have h := wp_randomCrossover (maxLength := m) hps e1 f1 e2 f2 hdis hok₁ hok₂
  have hex : ∀ n, exceeds m n = true ↔ ∃ x, m = some x ∧ x < n := by
    intro n; cases m <;> simp [exceeds]
  have hlen : ∀ l : List (Addr × Step), (steps l).length = l.length := by simp [steps]
  cases hrun : randomCrossover m i j w with
  | mk r w' =>
    cases r with
    | ok x =>
      obtain ⟨_, x1, x2, x3⟩ := wp_ok h hrun
      refine ⟨?_, fun _ => ⟨x, w', rfl⟩⟩
      rintro (⟨y, hy, h' | h'⟩ | h')
      · have := (hex l₁.length).2 ⟨y, hy, by simpa [hlen] using h'⟩
        rw [x1] at this; simp at this
      · have := (hex l₂.length).2 ⟨y, hy, by simpa [hlen] using h'⟩
        rw [x2] at this; simp at this
      · exact absurd (cxValid_ne_nil.1 x3) h'
    | error e =>
      obtain ⟨he, hw, x⟩ := wp_error h hrun
      subst he; subst hw
      refine ⟨fun _ => rfl, ?_⟩
      intro hn
      exfalso
      apply hn
      rcases x with x | x | x
      · obtain ⟨y, hy, h'⟩ := (hex _).1 x
        exact Or.inl ⟨y, hy, Or.inl (by simpa [hlen] using h')⟩
      · obtain ⟨y, hy, h'⟩ := (hex _).1 x
        exact Or.inl ⟨y, hy, Or.inr (by simpa [hlen] using h')⟩
      · exact Or.inr (fun hc => cxValid_ne_nil.2 hc x)

theorem Ex.apart (r : Stream) : Apart (Ex.w0 r) 0 2 := by
  refine ⟨by decide, ?_⟩
  intro as bs ss ts h1 h2
  have e1 : IsAt (Ex.w0 r) 0 [0, 1, 2] Ex.long := ⟨rfl, { main := 0 }, rfl, by
    simp [Chain, Ex.w0, Ex.nodes0, Ex.long]⟩
  have e2 : IsAt (Ex.w0 r) 2 [4, 5] Ex.double := ⟨rfl, { main := 4 }, rfl, by
    simp [Chain, Ex.w0, Ex.nodes0, Ex.double]⟩
  have det : ∀ {w i as ss bs ts}, IsAt w i as ss → IsAt w i bs ts → as = bs := by
    intro w i as ss bs ts h h'
    obtain ⟨ind, l, h1, h2, _, h4⟩ := isAt_iff.1 h
    obtain ⟨ind', l', h1', h2', _, h4'⟩ := isAt_iff.1 h'
    rw [h1] at h1'
    injection h1' with h1'
    subst h1'
    rw [← h4, ← h4', h2.det h2']
  rw [det h1 e1, det h2 e2]
  decide

example (r : Stream) : ∃ x w', randomCrossover (some 3) 0 2 (Ex.w0 r) = (.ok x, w') :=
  (C07_error_iff Ex.space_ok (Ex.is_long r) (Ex.is_double r) (Ex.apart r) Ex.long_ok
    Ex.double_ok).2 (by
      rintro (⟨x, hx, h⟩ | h)
      · injection hx with hx; subst hx; revert h; decide
      · exact h (Or.inr (by decide)))

/-! ## C08: length of offspring -/

/-- The operator set's `mate`, for any number of retries. -/
theorem wp_opMate {c : OpConfig} (hps : PSetOk c.ps) {w : World} {i j : Nat}
    {p₁ p₂ : List Step} (his : Is w i p₁) (hjs : Is w j p₂)
    (hok₁ : PipelineOk c.ps p₁) (hok₂ : PipelineOk c.ps p₂) :
    wp (opMate c i j)
      (fun n w' => ∃ c₁ c₂, Fresh w w' n c₁ ∧ Crossed p₁ p₂ c₁ c₂ ∧ PipelineOk c.ps c₁ ∧
        PipelineOk c.ps c₂ ∧ c₁.length + c₂.length = p₁.length + p₂.length ∧
        HasMeta w' n [i, j] (some "cx".toList))
      (fun e w' => Extends w w' ∧ ((c.maxRetry = 0 ∧ e = .unboundLocal) ∨ e = .valueError ∧
        (exceeds c.maxLength p₁.length = true ∨
        exceeds c.maxLength p₂.length = true ∨ cxValid p₁ p₂ = []))) w := by
  have hop : ∀ w₁, Extends w w₁ → wp (mateWithLog c i j)
      (fun n w' => Extends w w' ∧ (∃ c₁ c₂, Fresh w₁ w' n c₁ ∧ Crossed p₁ p₂ c₁ c₂ ∧
        PipelineOk c.ps c₁ ∧
        PipelineOk c.ps c₂ ∧ c₁.length + c₂.length = p₁.length + p₂.length ∧
        HasMeta w' n [i, j] (some "cx".toList)) ∧ ∃ ss, Is w' n ss)
      (fun e w' => Extends w w' ∧ ((c.maxRetry = 0 ∧ e = .unboundLocal) ∨ e = .valueError ∧
        (exceeds c.maxLength p₁.length = true ∨
        exceeds c.maxLength p₂.length = true ∨ cxValid p₁ p₂ = []))) w₁ := by
    intro w₁ hex
    refine wp_mono (fun n w' h => ?_) (fun e w' h => ?_)
      (wp_mateWithLog hps (his.mono hex) (hjs.mono hex) hok₁ hok₂)
    · refine ⟨?_, h, ?_⟩
      · obtain ⟨_, _, hf, _⟩ := h; exact Extends.trans hex hf.ext
      · obtain ⟨_, _, hf, _⟩ := h
        obtain ⟨as, h, _⟩ := hf.is
        exact ⟨_, as, h⟩
    · exact ⟨Extends.trans hex h.1, Or.inr h.2⟩
  refine wp_mono (fun n w' h => ?_) (fun e w' h => h)
    (wp_tryUntilNew (completed := c.completed) (k := c.maxRetry) hop (Extends.refl w)
      (fun h _ _ => Or.inl ⟨h, rfl⟩) (fun n h => by simp at h))
  obtain ⟨_, w₀, hw₀, c₁, c₂, hf, h⟩ := h
  refine ⟨c₁, c₂, ⟨Extends.trans hw₀ hf.ext, Nat.le_trans hw₀.2.length_le hf.new, ?_⟩, h⟩
  obtain ⟨as, h1, h2⟩ := hf.is
  exact ⟨as, h1, fun a ha => Nat.le_trans hw₀.1.length_le (h2 a ha)⟩

/-- **C06** for the operator set. -/
theorem C06_mate_offspring {c : OpConfig} (hps : PSetOk c.ps) {w w' : World} {i j n : Nat}
    {p₁ p₂ : List Step} (his : Is w i p₁) (hjs : Is w j p₂)
    (hok₁ : PipelineOk c.ps p₁) (hok₂ : PipelineOk c.ps p₂)
    (run : opMate c i j w = (.ok n, w')) :
    ∃ c₁ c₂, Fresh w w' n c₁ ∧ PipelineOk c.ps c₁ ∧ Crossed p₁ p₂ c₁ c₂ := by
  obtain ⟨c₁, c₂, h1, h2, h3, _⟩ := wp_ok (wp_opMate hps his hjs hok₁ hok₂) run
  exact ⟨c₁, c₂, h1, h3, h2⟩

/-- The full claim of **C08** (false because of crossover). -/
def C08_claim : Prop := ∀ (c : OpConfig) (m : Nat) (w : World), PSetOk c.ps → 1 ≤ m →
  c.maxLength = some m →
  (∀ n w', opIndividual c w = (.ok n, w') → ∃ ss, Is w' n ss ∧ ss.length ≤ m) ∧
  (∀ i ss, Is w i ss → PipelineOk c.ps ss → ss.length ≤ m →
    (∀ n w', opMutate c i w = (.ok n, w') → ∃ ss', Is w' n ss' ∧ ss'.length ≤ m) ∧
    (∀ j ts, Is w j ts → PipelineOk c.ps ts → ts.length ≤ m →
      ∀ n w', opMate c i j w = (.ok n, w') → ∃ ss', Is w' n ss' ∧ ss'.length ≤ m))

/-- **C08**, the part that holds: fresh individuals and mutants respect the maximum; a child
of crossover has at most two steps less than both parents together.  Missing: the maximum
length for crossover, which the operator set does not enforce. -/
theorem C08_offspring_length_partial (c : OpConfig) (m : Nat) (w : World) (hps : PSetOk c.ps)
    (hm : c.maxLength = some m) :
    (∀ n w', opIndividual c w = (.ok n, w') → ∃ ss, Is w' n ss ∧ ss.length ≤ m) ∧
    (∀ i ss, Is w i ss → PipelineOk c.ps ss →
      (∀ n w', opMutate c i w = (.ok n, w') → ∃ ss', Is w' n ss' ∧ ss'.length ≤ m) ∧
      (∀ j ts, Is w j ts → PipelineOk c.ps ts →
        ∀ n w', opMate c i j w = (.ok n, w') → ∃ ss', Is w' n ss' ∧
          (ss'.length = ss.length ∨ ss'.length + 2 ≤ ss.length + ts.length))) := by
  refine ⟨?_, ?_⟩
  · intro n w' hr
    obtain ⟨ss, h1, _, h3⟩ := C02_new_individual_well_formed hps hr
    obtain ⟨as, h, _⟩ := h1.is
    exact ⟨ss, ⟨as, h⟩, by simpa [OpConfig.maxStart, hm] using h3⟩
  · intro i ss his hok
    refine ⟨fun n w' hr => C04_mutate_offspring_length hps hm his hok hr, ?_⟩
    intro j ts hjs hok₂ n w' hr
    obtain ⟨c₁, c₂, h1, _, h2⟩ := C06_mate_offspring hps his hjs hok hok₂ hr
    obtain ⟨as, h, _⟩ := h1.is
    refine ⟨c₁, ⟨as, h⟩, ?_⟩
    cases h2 with
    | tails h₁ t₁ h₂ t₂ k1 k2 g1 g2 =>
      right
      have : 0 < t₁.length := List.length_pos_iff.2 g1
      have : 0 < h₂.length := List.length_pos_iff.2 k2
      simp; omega
    | values => left; simp

/-- A world with one three-step pipeline, and the draws that select the second step of one
copy and the first step of the other. -/
def cxWorld : World := ⟨[⟨Ex.pDT, [Ex.alpha1, Ex.depth2], some 1⟩, ⟨Ex.pPCA, [Ex.whitT], some 2⟩,
    ⟨Ex.pSC, [], none⟩], [{ main := 0 }], fun n => if n = 1 then 1 else 0⟩

theorem cxWorld_long : Is cxWorld 0 Ex.long :=
  ⟨[0, 1, 2], rfl, { main := 0 }, rfl, rfl, some 1, rfl, rfl, some 2, rfl, rfl, none, rfl, rfl⟩

theorem cxWorld_mate : ∃ w', opMate { ps := Ex.space, maxLength := some 3, completed := fun _ => false } 0 0
    cxWorld = (.ok 1, w') ∧ Is w' 1 [⟨Ex.pDT, [Ex.alpha1, Ex.depth2]⟩, ⟨Ex.pPCA, [Ex.whitT]⟩,
      ⟨Ex.pPCA, [Ex.whitT]⟩, ⟨Ex.pSC, []⟩] :=
  ⟨_, rfl, [5, 4, 7, 6], rfl, _, rfl, rfl, some 4, rfl, rfl, some 7, rfl, rfl, some 6, rfl, rfl,
    none, rfl, rfl⟩

/-- **C08 is false**: mating a pipeline of three steps with itself (or with an equal one) under
`max_pipeline_length=3` can give four steps. -/
theorem C08_false : ¬ C08_claim := by
  intro h
  obtain ⟨w', hrun, his'⟩ := cxWorld_mate
  obtain ⟨ss', h1, h2⟩ := ((h { ps := Ex.space, maxLength := some 3, completed := fun _ => false } 3 cxWorld
    Ex.space_ok (by decide) rfl).2 0 Ex.long cxWorld_long Ex.long_ok (by decide)).2 0 Ex.long
    cxWorld_long Ex.long_ok (by decide) _ _ hrun
  rw [h1.det his'] at h2
  exact absurd h2 (by simp)

/-! ### Cases of the theorems above -/

/-- `C02_random_creation_well_formed`, `C02_new_individual_well_formed`. -/
example (r : Stream) : ∃ a w', createRandomExpression Ex.space 2 3 (Ex.w0 r) = (.ok a, w') ∧
    ∃ l : List (Addr × Step), Chain w'.nodes (some a) l ∧ PipelineOk Ex.space (l.map Prod.snd) ∧ 2 ≤ l.length ∧ l.length ≤ 3 :=
  let ⟨a, w', h⟩ := C02_random_creation_succeeds Ex.space_ok (lo := 2) (hi := 3) (by decide) (by decide) (by decide) (Ex.w0 r)
  ⟨a, w', h, C02_random_creation_well_formed Ex.space_ok (by decide) h⟩

/-- `C03_mutation_well_formed`, `C03_mutate_offspring`, `C04_mutation_respects_max_length`,
`C04_mutate_offspring_length`: a pipeline of three steps and a limit of three. -/
example (r : Stream) : ∃ n w' ss', opMutate { ps := Ex.space, maxLength := some 3, completed := fun _ => false } 0
      (Ex.w0 r) = (.ok n, w') ∧ Is w' n ss' ∧ PipelineOk Ex.space ss' ∧ ss'.length ≤ 3 ∧
      ∃ kind, Mutated Ex.space kind Ex.long ss' := by
  obtain ⟨n, w', h⟩ := C05_mutation_succeeds_partial { ps := Ex.space, maxLength := some 3, completed := fun _ => false }
    _ _ _ Ex.space_ok space_distinct (by decide) (by decide)
    (Ex.is_long r) Ex.long_ok (by intro m hm; injection hm with hm; subst hm; decide) (Or.inl (by decide))
  obtain ⟨ss', hf, hok, hk⟩ := C03_mutate_offspring Ex.space_ok (Ex.is_long r) Ex.long_ok h
  obtain ⟨ts, ht, hl⟩ := C04_mutate_offspring_length Ex.space_ok rfl (Ex.is_long r) Ex.long_ok h
  have hs : Is w' n ss' := let ⟨as, h, _⟩ := hf.is; ⟨as, h⟩
  exact ⟨n, w', ss', h, hs, hok, hs.det ht ▸ hl, hk⟩

example (w' : World) (f : MutFn) (h : randomValidMutation Ex.space (some 2) 0 (Ex.w0 (fun _ => 0)) = (.ok f, w')) :
    (∃ ss', Is w' 0 ss' ∧ PipelineOk Ex.space ss' ∧ ∃ kind, Mutated Ex.space kind Ex.long ss') ∧
    ∃ ss', Is w' 0 ss' ∧ ss'.length ≤ 2 :=
  ⟨C03_mutation_well_formed Ex.space_ok (Ex.is_long _) Ex.long_ok h,
    C04_mutation_respects_max_length Ex.space_ok (Ex.is_long _) Ex.long_ok h⟩

/-- `C05_over_long_raises`: three steps and a limit of two. -/
example (r : Stream) : ∃ w', opMutate { ps := Ex.space, maxLength := some 2, completed := fun _ => false } 0
    (Ex.w0 r) = (.error .attributeError, w') :=
  C05_over_long_raises Ex.space_ok (by decide) rfl (by decide) (Ex.is_long r) Ex.long_ok (by decide)

/-- `C06_crossover_well_formed`, `C07_first_child_within_max_length`. -/
example (r : Stream) : ∃ a b w', randomCrossover (some 3) 0 2 (Ex.w0 r) = (.ok (a, b), w') ∧
    (∃ c₁ c₂, Is w' 0 c₁ ∧ Is w' 2 c₂ ∧ Crossed Ex.long Ex.double c₁ c₂) ∧ ∃ c, Is w' a c ∧ c.length ≤ 3 := by
  obtain ⟨⟨a, b⟩, w', h⟩ := (C07_error_iff Ex.space_ok (m := some 3) (Ex.is_long r) (Ex.is_double r) (Ex.apart r) Ex.long_ok
    Ex.double_ok).2 (by
      rintro (⟨x, hx, h⟩ | h)
      · injection hx with hx; subst hx; revert h; decide
      · exact h (Or.inr (by decide)))
  obtain ⟨c₁, c₂, h1, h2, _, _, hx, _⟩ := C06_crossover_well_formed Ex.space_ok (Ex.is_long r) (Ex.is_double r) (Ex.apart r)
    Ex.long_ok Ex.double_ok h
  exact ⟨a, b, w', h, ⟨c₁, c₂, h1, h2, hx⟩, (C07_first_child_within_max_length Ex.space_ok (Ex.is_long r) (Ex.is_double r)
    (Ex.apart r) Ex.long_ok Ex.double_ok h).1⟩

/-- `C06_mate_offspring`, `C08_offspring_length_partial`: the children of a pipeline of three steps and one of two. -/
example (r : Stream) (n : Nat) (w' : World)
    (h : opMate { ps := Ex.space, maxLength := some 3, completed := fun _ => false } 0 2 (Ex.w0 r) = (.ok n, w')) :
    (∃ c₁ c₂, Fresh (Ex.w0 r) w' n c₁ ∧ PipelineOk Ex.space c₁ ∧ Crossed Ex.long Ex.double c₁ c₂) ∧
    ∃ ss', Is w' n ss' ∧ (ss'.length = 3 ∨ ss'.length + 2 ≤ 5) :=
  ⟨C06_mate_offspring (c := { ps := Ex.space, maxLength := some 3, completed := fun _ => false }) Ex.space_ok (Ex.is_long r)
      (Ex.is_double r) Ex.long_ok Ex.double_ok h,
    ((C08_offspring_length_partial { ps := Ex.space, maxLength := some 3, completed := fun _ => false } 3 (Ex.w0 r)
      Ex.space_ok rfl).2 0 _ (Ex.is_long r) Ex.long_ok).2 2 _ (Ex.is_double r) Ex.double_ok n w' h⟩

example : ∃ n w', opMate { ps := Ex.space, maxLength := some 3, completed := fun _ => false } 0 2 (Ex.w0 fun _ => 0) =
    (.ok n, w') := ⟨_, _, rfl⟩

end Gama
