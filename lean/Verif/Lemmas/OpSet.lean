import Verif.Lemmas.Crossover

/-! The operator set: creation, mutation and mating of individuals. -/

namespace Gama
open Spec PyM

theorem steps_zip {as : List Addr} {ss : List Step} (h : as.length = ss.length) :
    steps (as.zip ss) = ss := by
  simp [steps, List.map_snd_zip (Nat.le_of_eq h.symm)]

theorem addrs_zip {as : List Addr} {ss : List Step} (h : as.length = ss.length) :
    addrs (as.zip ss) = as := by
  simp [addrs, List.map_fst_zip (Nat.le_of_eq h)]

theorem isAt_iff {w : World} {i : Nat} {as : List Addr} {ss : List Step} :
    IsAt w i as ss ↔ ∃ ind l, w.inds[i]? = some ind ∧ Chain w.nodes (some ind.main) l ∧
      steps l = ss ∧ addrs l = as := by
  constructor
  · rintro ⟨hl, ind, hi, hc⟩
    exact ⟨ind, _, hi, hc, steps_zip hl, addrs_zip hl⟩
  · rintro ⟨ind, l, hi, hc, rfl, rfl⟩
    refine ⟨by simp [addrs, steps], ind, hi, ?_⟩
    have : (addrs l).zip (steps l) = l := by
      simp [addrs, steps, List.zip_map']
    rw [this]; exact hc

theorem is_iff {w : World} {i : Nat} {ss : List Step} :
    Is w i ss ↔ ∃ ind l, w.inds[i]? = some ind ∧ Chain w.nodes (some ind.main) l ∧
      steps l = ss := by
  constructor
  · rintro ⟨as, h⟩
    obtain ⟨ind, l, h1, h2, h3, _⟩ := isAt_iff.1 h
    exact ⟨ind, l, h1, h2, h3⟩
  · rintro ⟨ind, l, h1, h2, h3⟩
    exact ⟨addrs l, isAt_iff.2 ⟨ind, l, h1, h2, h3, rfl⟩⟩

theorem Spec.Chain.prefix {h h' : List Cell} {d l} (hc : Chain h d l) (hp : h <+: h') :
    Chain h' d l := by
  obtain ⟨t, rfl⟩ := hp
  exact hc.append_heap

theorem getElem?_prefix {α : Type} {l l' : List α} {i : Nat} {x : α} (h : l[i]? = some x)
    (hp : l <+: l') : l'[i]? = some x := by
  obtain ⟨t, rfl⟩ := hp
  rw [List.getElem?_append_left (List.getElem?_eq_some_iff.1 h).1, h]

theorem Spec.IsAt.mono {w w' : World} {i as ss} (h : IsAt w i as ss) (he : Extends w w') :
    IsAt w' i as ss := by
  obtain ⟨hl, ind, hi, hc⟩ := h
  exact ⟨hl, ind, getElem?_prefix hi he.2, hc.prefix he.1⟩

theorem Spec.Is.mono {w w' : World} {i ss} (h : Is w i ss) (he : Extends w w') :
    Is w' i ss := by
  obtain ⟨as, h⟩ := h
  exact ⟨as, h.mono he⟩

theorem Spec.Is.det {w : World} {i ss ss'} (h : Is w i ss) (h' : Is w i ss') : ss = ss' := by
  obtain ⟨ind, l, h1, h2, h3⟩ := is_iff.1 h
  obtain ⟨ind', l', h1', h2', h3'⟩ := is_iff.1 h'
  rw [h1] at h1'
  injection h1' with h1'
  subst h1'
  rw [← h3, ← h3', h2.det h2']

theorem Extends.refl (w : World) : Extends w w := ⟨List.prefix_rfl, List.prefix_rfl⟩

theorem Extends.trans {a b c : World} (h : Extends a b) (h' : Extends b c) : Extends a c :=
  ⟨h.1.trans h'.1, h.2.trans h'.2⟩

theorem Extends.of_same {w w' : World} (h : Same w w') : Extends w w' := by
  unfold Extends; rw [h.1, h.2]; exact Extends.refl w

theorem inds_prefix {w w' : World} (hl : w.inds.length ≤ w'.inds.length)
    (h : ∀ j, j < w.inds.length → w'.inds[j]? = w.inds[j]?) : w.inds <+: w'.inds := by
  rw [List.prefix_iff_eq_take]
  apply List.ext_getElem?
  intro i
  by_cases hi : i < w.inds.length
  · rw [List.getElem?_take_of_lt hi, h i hi]
  · rw [List.getElem?_eq_none (by omega), List.getElem?_eq_none]
    simp; omega

/-! ### Creation -/

theorem wp_extendChain {ps : PSet} (hps : PSetOk ps) : ∀ {n : Nat} {last : Addr} {w : World}
    {pre : List (Addr × Step)} {s : Step} {d : Option Addr} {A : Nat}
    {Q : Unit → World → Prop} {E : Exn → World → Prop},
    Chain w.nodes d (pre ++ [(last, s)]) → (∀ a ∈ addrs (pre ++ [(last, s)]), A ≤ a) →
    A ≤ w.nodes.length →
    (∀ w' l', Chain w'.nodes d (pre ++ (last, s) :: l') → l'.length = n →
      (∀ x ∈ steps l', StepOk ps dataTerminal x) → (∀ a ∈ addrs l', A ≤ a) →
      (w.nodes.take A <+: w'.nodes) → w'.inds = w.inds → Q () w') →
    (∀ w', w.nodes.take A <+: w'.nodes → w'.inds = w.inds →
      (0 < n ∧ ps.prims dataTerminal = []) → E .indexError w') →
    wp (extendChain ps n last) Q E w
  | 0, last, w, pre, s, d, A, Q, E, hc, hA, _, hQ, _ => by
    simp only [extendChain, wp_pure]
    refine hQ w [] (by simpa using hc) rfl (by simp [steps]) (by simp [addrs])
      (List.take_prefix _ _) rfl
  | n + 1, last, w, pre, s, d, A, Q, E, hc, hA, hAl, hQ, hE => by
    simp only [extendChain, wp_bind]
    apply wp_randomPrimitiveNode
    · intro p ts w' hp _ hf hn hi
      have hst : StepOk ps dataTerminal ⟨p, sortTerms ts⟩ := stepOk_new hps hp hf
      obtain ⟨x, hx⟩ := hc.cell (a := last) (s := s) (by simp)
      have hlast : w'.nodes[last]? = some ⟨s.prim, s.terms, x⟩ :=
        getElem?_prefix hx (by rw [hn]; exact List.prefix_append _ _)
      apply wp_getNode hlast
      simp only [setNode, wp_modify]
      have hnew : w'.nodes[w.nodes.length]? = some ⟨p, sortTerms ts, none⟩ := by simp [hn]
      have hc' : Chain w'.nodes d (pre ++ (last, s) :: []) := by
        rw [hn]; exact hc.append_heap
      have hlt : last < w.nodes.length := hc.lt (by simp [addrs])
      have h₂ : Chain w'.nodes (some w.nodes.length) [(w.nodes.length, ⟨p, sortTerms ts⟩)] := by
        simp only [Chain]; exact ⟨trivial, none, hnew, rfl⟩
      have hc₂ := Chain.update s hc' h₂ (by
        simp only [addrs, List.map_cons, List.map_nil, List.mem_singleton]
        exact Nat.ne_of_lt hlt)
      have hA' : ∀ a ∈ addrs ((pre ++ [(last, s)]) ++ [(w.nodes.length, (⟨p, sortTerms ts⟩ : Step))]),
          A ≤ a := by
        intro a ha
        simp only [addrs, List.map_append, List.mem_append] at ha hA
        rcases ha with ha | ha
        · exact hA a ha
        · simp at ha; subst ha; exact hAl
      have htake : w.nodes.take A
          = (w'.nodes.set last ⟨s.prim, s.terms, some w.nodes.length⟩).take A := by
        rw [List.take_set, List.set_eq_of_length_le, hn, List.take_append_of_le_length hAl]
        have := hA last (by simp [addrs])
        simp; omega
      refine wp_extendChain hps (A := A) (d := d) (n := n) (pre := pre ++ [(last, s)])
        (s := ⟨p, sortTerms ts⟩)
        (w := { w' with nodes := w'.nodes.set last ⟨s.prim, s.terms, some w.nodes.length⟩ })
        ?_ hA' ?_ ?_ ?_
      · simpa using hc₂
      · simp [hn]; omega
      · intro w'' l' h1 h2 h3 h4 h5 h6
        refine hQ w'' ((w.nodes.length, ⟨p, sortTerms ts⟩) :: l') (by simpa using h1) (by simp [h2])
          ?_ ?_ ?_ (h6.trans hi)
        · intro x hx
          simp only [steps, List.map_cons, List.mem_cons] at hx
          rcases hx with rfl | hx
          · exact hst
          · exact h3 x hx
        · intro a ha
          simp only [addrs, List.map_cons, List.mem_cons] at ha
          rcases ha with rfl | ha
          · exact hAl
          · exact h4 a ha
        · rw [htake]; exact h5
      · intro w'' h1 h2 h3
        refine hE w'' ?_ (h2.trans hi) ⟨Nat.succ_pos _, h3.2⟩
        rw [htake]; exact h1
    · intro w' hs h
      refine hE w' ?_ hs.2 ⟨Nat.succ_pos _, ?_⟩
      · rw [hs.1]; exact List.take_prefix _ _
      · rcases h with h | ⟨p, hp, j, hj, hj'⟩
        · simpa using h
        · exact absurd hj' (hps.nonempty _ p j hp hj)

/-- Creation of a random expression. -/
theorem wp_createRandomExpression {ps : PSet} (hps : PSetOk ps) {lo hi : Nat} {w : World}
    {Q : Addr → World → Prop} {E : Exn → World → Prop}
    (hQ : ∀ a l w', Chain w'.nodes (some a) l → PipelineOk ps (steps l) →
      lo ≤ l.length ∨ l.length = 1 → l.length ≤ hi ∨ l.length = 1 →
      (1 ≤ lo → lo ≤ l.length ∧ l.length ≤ hi) →
      (∀ b ∈ addrs l, w.nodes.length ≤ b) →
      w.nodes <+: w'.nodes → w'.inds = w.inds → Q a w')
    (hE : ∀ e w', w.nodes <+: w'.nodes → w'.inds = w.inds →
      (hi < lo ∧ e = .valueError) ∨ (ps.prims predictionKey = [] ∧ e = .indexError) ∨
      (1 < hi ∧ ps.prims dataTerminal = [] ∧ e = .indexError) → E e w') :
    wp (createRandomExpression ps lo hi) Q E w := by
  simp only [createRandomExpression, wp_bind]
  apply wp_randint
  · intro h; exact hE _ w List.prefix_rfl rfl (Or.inl ⟨h, rfl⟩)
  intro len h1 h2
  apply wp_randomPrimitiveNode
  · intro p ts w' hp _ hf hn hi'
    have hn : w'.nodes = w.nodes ++ [⟨p, sortTerms ts, none⟩] := hn
    have hadv : (advance w).nodes.length = w.nodes.length := rfl
    rw [hadv]
    have hst : StepOk ps predictionKey ⟨p, sortTerms ts⟩ := stepOk_new hps hp hf
    have hnew : w'.nodes[w.nodes.length]? = some ⟨p, sortTerms ts, none⟩ := by simp [hn]
    have hc : Chain w'.nodes (some w.nodes.length) [(w.nodes.length, ⟨p, sortTerms ts⟩)] := by
      simp only [Chain]; exact ⟨trivial, none, hnew, rfl⟩
    have ht : w'.nodes.take w.nodes.length = w.nodes := by rw [hn]; simp
    refine wp_extendChain hps (A := w.nodes.length) (n := len - 1) (w := w') (pre := [])
      (d := some w.nodes.length) (s := ⟨p, sortTerms ts⟩) hc (by simp [addrs]) (by simp [hn])
      ?_ ?_
    · intro w'' l' g1 g2 g3 g4 g5 g6
      rw [ht] at g5
      have hll : (([] : List (Addr × Step)) ++ (w.nodes.length, (⟨p, sortTerms ts⟩ : Step)) :: l').length
          = (len - 1) + 1 := by simp [g2]
      refine hQ _ _ w'' g1 ⟨hst, g3⟩ ?_ ?_ ?_ ?_ g5 (g6.trans hi')
      · rw [hll]; omega
      · rw [hll]; omega
      · intro h; rw [hll]; omega
      · intro b hb
        simp only [addrs, List.nil_append, List.map_cons, List.mem_cons] at hb
        rcases hb with rfl | hb
        · exact Nat.le_refl _
        · exact g4 b hb
    · intro w'' g1 g2 g3
      rw [ht] at g1
      exact hE _ w'' g1 (g2.trans hi') (Or.inr (Or.inr ⟨by omega, g3.2, rfl⟩))
  · intro w' hs h
    refine hE _ w' ?_ hs.2 (Or.inr (Or.inl ⟨?_, rfl⟩))
    · rw [hs.1]; exact List.prefix_rfl
    · rcases h with h | ⟨p, hp, j, hj, hj'⟩
      · simpa using h
      · exact absurd hj' (hps.nonempty _ p j hp hj)

theorem wp_setMeta {n : Nat} {w : World} {ind : IndCell} {f : Meta → Meta}
    {Q : Nat → World → Prop} {E : Exn → World → Prop} (hi : w.inds[n]? = some ind)
    (hQ : Q n { w with inds := w.inds.set n { ind with md := f ind.md } }) :
    wp (getInd n) (fun ind s' => wp (setInd n { ind with md := f ind.md })
      (fun _ s'' => wp (pure n : GP Nat) Q E s'') E s') E w := by
  simp only [getInd, wp_ofExcept, hi, setInd, wp_modify, wp_pure]
  exact hQ

theorem wp_opIndividual {c : OpConfig} (hps : PSetOk c.ps) {w : World} :
    wp (opIndividual c)
      (fun n w' => ∃ ss, Fresh w w' n ss ∧ PipelineOk c.ps ss ∧ ss.length ≤ c.maxStart ∧
        HasMeta w' n [] (some "new".toList))
      (fun e w' => Extends w w' ∧ ((c.maxStart < 1 ∧ e = .valueError) ∨
        (c.ps.prims predictionKey = [] ∧ e = .indexError) ∨
        (1 < c.maxStart ∧ c.ps.prims dataTerminal = [] ∧ e = .indexError))) w := by
  simp only [opIndividual, wp_bind]
  apply wp_createRandomExpression hps
  · intro a l w' hc hok _ _ hlen hfr hn hi
    have hlt : w.inds.length = w'.inds.length := by rw [hi]
    refine wp_setMeta (n := w'.inds.length) (f := fun m => { m with origin := some "new".toList })
      (w := { w' with inds := w'.inds ++ [{ main := a }] }) (ind := { main := a }) (by simp) ?_
    refine ⟨steps l, ⟨⟨hn, ?_⟩, Nat.le_of_eq hlt, addrs l, ?_, hfr⟩, hok, ?_, ?_⟩
    · rw [← hi, List.set_append_right _ _ (Nat.le_refl _)]
      exact List.prefix_append _ _
    · exact isAt_iff.2 ⟨{ main := a, md := { origin := some "new".toList } }, l, by simp, hc, rfl,
        rfl⟩
    · simpa [steps] using (hlen (Nat.le_refl 1)).2
    · exact ⟨_, by simp; rfl, rfl⟩
  · intro e w' h1 h2 h3
    exact ⟨⟨h1, by rw [h2]; exact List.prefix_rfl⟩, h3⟩

/-! ### Mutation through the operator set -/

/-- What one attempt at mutation guarantees. -/
theorem wp_mutateWithLog {c : OpConfig} (hps : PSetOk c.ps) {w : World} {i : Nat}
    {ss : List Step} (his : Is w i ss) (hok : PipelineOk c.ps ss) :
    wp (mutateWithLog c i)
      (fun n w' => ∃ ss' f name, Fresh w w' n ss' ∧ mutShape c.ps f ss ss' ∧
        f ∈ availableMutations c.ps c.maxLength (ss.map fun s => ⟨s.prim, s.terms, none⟩) ∧
        f.name = .ok name ∧ HasMeta w' n [i] (some name))
      (fun e w' => Extends w w' ∧
        ((availableMutations c.ps c.maxLength (ss.map fun s => ⟨s.prim, s.terms, none⟩) = [] ∧
          e = .indexError) ∨
        ∃ f ∈ availableMutations c.ps c.maxLength (ss.map fun s => ⟨s.prim, s.terms, none⟩),
          mutFails c.ps f ss ∨ f.name = .error e)) w := by
  obtain ⟨ind, l, hi, hc, rfl⟩ := is_iff.1 his
  simp only [mutateWithLog, wp_bind]
  apply wp_copyAsNew hi hc
  intro a l' new hc' hst hfr
  rw [map_resort (fun s hs => pipelineOk_kind hok hs)] at hst
  let w₁ : World := { w with nodes := w.nodes ++ new, inds := w.inds ++ [{ main := a }] }
  have hi₁ : w₁.inds[w.inds.length]? = some { main := a } := by simp [w₁]
  have hc₁ : Chain w₁.nodes (some a) l' := hc'
  show wp _ _ _ w₁
  have hex₁ : Extends w w₁ := ⟨List.prefix_append _ _, List.prefix_append _ _⟩
  simp only [randomValidMutation, wp_bind]
  apply wp_primitives hi₁ hc₁
  apply wp_getNodes (fun b s h => hc₁.cell h)
  intro cs hcs
  have hav : availableMutations c.ps c.maxLength cs = availableMutations c.ps c.maxLength
      ((steps l).map fun s => (⟨s.prim, s.terms, none⟩ : Cell)) := by
    rw [← hst, ← hcs]
    simp only [availableMutations, List.length_map, List.map_map, List.flatMap_map,
      List.filter_map, Function.comp_def, cellStep]
  apply wp_choice
  · intro h; rw [hav] at h; exact ⟨hex₁, Or.inl ⟨h, rfl⟩⟩
  intro f hf
  rw [hav] at hf
  have hext : ∀ w₂ : World, FrameN (addrs l') w₁.nodes w₂.nodes → FrameI w.inds.length w₁ w₂ →
      Extends w w₂ := by
    intro w₂ h1 h2
    refine ⟨FrameN.prefix ?_, inds_prefix ?_ ?_⟩
    · refine FrameN.trans (h' := w₁.nodes) (A := []) FrameN.append h1 ?_
      intro b hb hm
      exact absurd (hfr b hm) (Nat.not_le.2 hb)
    · rw [h2.1]; simp [w₁]
    · intro j hj
      rw [h2.2 j (Nat.ne_of_lt hj)]
      show (w.inds ++ _)[j]? = _
      rw [List.getElem?_append_left hj]
  refine wp_mono (fun _ w₂ h => ?_) (fun e w₂ h => ?_)
    (wp_mutApply (w := advance w₁) hps hi₁ hc₁ (by rw [hst]; exact hok) f)
  · simp only [wp_pure]
    have hE₂ := hext w₂ h.nodes h.inds
    cases hname : f.name with
    | error e => exact ⟨hE₂, Or.inr ⟨f, hf, Or.inr hname⟩⟩
    | ok name =>
      obtain ⟨ind', l₂, g1, g2, g3, g4⟩ := h.chain
      simp only [wp_bind]
      refine wp_setMeta (f := fun _ => { parents := [i], origin := some name }) g1 ?_
      have hlt : w.inds.length < w₂.inds.length := (List.getElem?_eq_some_iff.1 g1).1
      rw [hst] at g3
      refine ⟨steps l₂, f, name, ⟨⟨hE₂.1, ?_⟩, Nat.le_refl _, addrs l₂, ?_, ?_⟩, g3, hf, hname, ?_⟩
      · obtain ⟨t, ht⟩ := hE₂.2
        show _ <+: w₂.inds.set _ _
        rw [← ht, List.set_append_right _ _ (Nat.le_refl _)]
        exact List.prefix_append _ _
      · exact isAt_iff.2 ⟨{ ind' with md := { parents := [i], origin := some name } }, l₂, by simp [hlt], g2, rfl, rfl⟩
      · intro b hb
        rcases g4 b hb with h | h
        · exact hfr b h
        · refine Nat.le_trans ?_ h
          show _ ≤ (w.nodes ++ new).length
          simp
      · exact ⟨{ ind' with md := { parents := [i], origin := some name } }, by simp [hlt], rfl⟩
  · rw [hst] at h
    exact ⟨hext w₂ h.1.nodes h.1.inds, Or.inr ⟨f, hf, Or.inl h.2⟩⟩

/-! ### Mating through the operator set -/

theorem wp_mateWithLog {c : OpConfig} (hps : PSetOk c.ps) {w : World} {i j : Nat}
    {p₁ p₂ : List Step} (his : Is w i p₁) (hjs : Is w j p₂)
    (hok₁ : PipelineOk c.ps p₁) (hok₂ : PipelineOk c.ps p₂) :
    wp (mateWithLog c i j)
      (fun n w' => ∃ c₁ c₂, Fresh w w' n c₁ ∧ Crossed p₁ p₂ c₁ c₂ ∧ PipelineOk c.ps c₁ ∧
        PipelineOk c.ps c₂ ∧ c₁.length + c₂.length = p₁.length + p₂.length ∧
        HasMeta w' n [i, j] (some "cx".toList))
      (fun e w' => Extends w w' ∧ e = .valueError ∧ (exceeds c.maxLength p₁.length = true ∨
        exceeds c.maxLength p₂.length = true ∨ cxValid p₁ p₂ = [])) w := by
  obtain ⟨ind₁, l₁, hi, hc₁, rfl⟩ := is_iff.1 his
  obtain ⟨ind₂, l₂, hj, hc₂, rfl⟩ := is_iff.1 hjs
  simp only [mateWithLog, wp_bind]
  apply wp_copyAsNew hi hc₁
  intro a l₁' new₁ hc₁' hst₁ hfr₁
  rw [map_resort (fun s hs => pipelineOk_kind hok₁ hs)] at hst₁
  let w₁ : World := { w with nodes := w.nodes ++ new₁, inds := w.inds ++ [{ main := a }] }
  show wp _ _ _ w₁
  have hi₁ : w₁.inds[w.inds.length]? = some { main := a } := by simp [w₁]
  have hj₁ : w₁.inds[j]? = some ind₂ := getElem?_prefix hj (List.prefix_append _ _)
  have hc₂₁ : Chain w₁.nodes (some ind₂.main) l₂ := hc₂.append_heap
  apply wp_copyAsNew hj₁ hc₂₁
  intro b l₂' new₂ hc₂' hst₂ hfr₂
  rw [map_resort (fun s hs => pipelineOk_kind hok₂ hs)] at hst₂
  let w₂ : World := { w₁ with nodes := w₁.nodes ++ new₂, inds := w₁.inds ++ [{ main := b }] }
  show wp _ _ _ w₂
  have hi₂ : w₂.inds[w.inds.length]? = some { main := a } :=
    getElem?_prefix hi₁ (List.prefix_append _ _)
  have hj₂ : w₂.inds[w₁.inds.length]? = some { main := b } := by simp [w₂]
  have hc₁₂ : Chain w₂.nodes (some a) l₁' := Chain.append_heap hc₁'
  have hex₂ : Extends w w₂ :=
    ⟨(List.prefix_append _ _).trans (List.prefix_append _ _),
      (List.prefix_append _ _).trans (List.prefix_append _ _)⟩
  have hdis : ∀ x ∈ addrs l₁', x ∉ addrs l₂' := fun x h₁ h₂ =>
    absurd (hfr₂ x h₂) (Nat.not_le.2 (hc₁'.lt h₁))
  have hlen : ∀ l : List (Addr × Step), l.length = (steps l).length := by simp [steps]
  refine wp_mono (fun r w₃ h => ?_) (fun e w₃ h => ?_)
    (wp_randomCrossover (maxLength := c.maxLength) hps hi₂ hj₂ hc₁₂ hc₂' hdis
      (by rw [hst₁]; exact hok₁) (by rw [hst₂]; exact hok₂))
  · obtain ⟨h, _, _, _⟩ := h
    obtain ⟨ind₁', ind₂', m₁, m₂, g1, g2, g3, g4, ⟨q1, q2, q3, q4, _⟩, g6, g7, g8⟩ := h.chain
    rw [hst₁, hst₂] at q1
    rw [hlen l₁', hlen l₂', hst₁, hst₂] at q4
    have hE₃ : Extends w w₃ := by
      refine ⟨FrameN.prefix ?_, inds_prefix ?_ ?_⟩
      · have f0 : FrameN [] w.nodes w₂.nodes := by
          show FrameN [] w.nodes ((w.nodes ++ new₁) ++ new₂)
          rw [List.append_assoc]
          exact FrameN.append
        refine FrameN.trans f0 h.nodes ?_
        intro x hx hm
        rcases List.mem_append.1 hm with hm | hm
        · exact absurd (hfr₁ x hm) (Nat.not_le.2 hx)
        · have := hfr₂ x hm
          have h2 : w.nodes.length ≤ w₁.nodes.length := by simp [w₁]
          exact absurd (Nat.le_trans h2 this) (Nat.not_le.2 hx)
      · rw [h.inds.1]; simp [w₂, w₁]
      · intro k hk
        have : k < w₁.inds.length := by simp [w₁]; omega
        rw [h.inds.2 k (Nat.ne_of_lt hk) (Nat.ne_of_lt this)]
        show ((w.inds ++ _) ++ _)[k]? = _
        rw [List.append_assoc, List.getElem?_append_left hk]
    refine wp_setMeta (f := fun _ => { parents := [i, j], origin := some "cx".toList }) g1 ?_
    have hlt : w.inds.length < w₃.inds.length := (List.getElem?_eq_some_iff.1 g1).1
    refine ⟨steps m₁, steps m₂, ⟨⟨hE₃.1, ?_⟩, Nat.le_refl _, addrs m₁, ?_, ?_⟩, q1, q2, q3, q4, ?_⟩
    · obtain ⟨t, ht⟩ := hE₃.2
      show _ <+: w₃.inds.set _ _
      rw [← ht, List.set_append_right _ _ (Nat.le_refl _)]
      exact List.prefix_append _ _
    · exact isAt_iff.2 ⟨{ ind₁' with md := { parents := [i, j], origin := some "cx".toList } }, m₁,
        by simp [hlt], g3, rfl, rfl⟩
    · intro x hx
      rcases List.mem_append.1 (g6 x hx) with h | h
      · exact hfr₁ x h
      · refine Nat.le_trans ?_ (hfr₂ x h)
        simp [w₁]
    · exact ⟨{ ind₁' with md := { parents := [i, j], origin := some "cx".toList } }, by simp [hlt], rfl⟩
  · obtain ⟨h1, h2, h3⟩ := h
    rw [h2]
    rw [hlen l₁', hlen l₂', hst₁, hst₂] at h3
    exact ⟨hex₂, h1, h3⟩

/-! ### Retrying -/

theorem wp_pipelineStr {i : Nat} {w : World} {ss : List Step} (h : Is w i ss)
    {Q : Str → World → Prop} {E : Exn → World → Prop} (hQ : ∀ s, Q s w) :
    wp (pipelineStr i) Q E w := by
  obtain ⟨ind, l, hi, hc, rfl⟩ := is_iff.1 h
  simp only [pipelineStr, wp_bind]
  apply wp_primitives hi hc
  apply wp_getNodes (fun b s h => hc.cell h)
  intro cs _
  exact hQ _

/-- Retrying an operation that keeps `P` of the initial world. -/
theorem wp_tryUntilNew {completed : Str → Bool} {op : GP Nat} {P : World → Prop}
    {R : World → Nat → World → Prop} {E : Exn → World → Prop}
    (hop : ∀ w, P w → wp op (fun n w' => P w' ∧ R w n w' ∧ ∃ ss, Is w' n ss)
      (fun e w' => P w' ∧ E e w') w) :
    ∀ {k : Nat} {last : Option Nat} {w : World}, P w →
      (k = 0 → last = none → P w → E .unboundLocal w) →
      (∀ n, last = some n → ∃ w₀, P w₀ ∧ R w₀ n w) →
    wp (tryUntilNew completed op k last)
      (fun n w' => P w' ∧ ∃ w₀, P w₀ ∧ R w₀ n w') (fun e w' => P w' ∧ E e w') w
  | 0, some n, w, hP, _, hl => by
    simp only [tryUntilNew, wp_pure]
    exact ⟨hP, hl n rfl⟩
  | 0, none, w, hP, h0, _ => by
    simp only [tryUntilNew, wp_raise]
    exact ⟨hP, h0 rfl rfl hP⟩
  | k + 1, last, w, hP, _, _ => by
    simp only [tryUntilNew, wp_bind]
    refine wp_mono (fun n w' h => ?_) (fun e w' h => h) (hop w hP)
    obtain ⟨hP', hR, ss, his⟩ := h
    apply wp_pipelineStr his
    intro s
    simp only [wp_ite]
    refine ⟨fun _ => ?_, fun _ => ?_⟩
    · exact wp_tryUntilNew hop hP' (fun _ h => by simp at h) (fun m hm => by
        injection hm with hm; subst hm; exact ⟨w, hP, hR⟩)
    · exact ⟨hP', w, hP, hR⟩

end Gama
