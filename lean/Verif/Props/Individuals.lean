import Verif.Props.Operators

/-!
# Properties of individuals and of the operator set (C09–C14)
-/

namespace Gama
open Spec PyM

/-! ## C09: parents are never altered -/

/-- **C09.** Mutating through the operator set — whether it returns or raises — leaves every
existing individual (pipeline, lineage, fitness) as it was. -/
theorem C09_mutate_keeps_population {c : OpConfig} (hps : PSetOk c.ps) {w w' : World} {i : Nat}
    {r : Except Exn Nat} {ss : List Step} (his : Is w i ss) (hok : PipelineOk c.ps ss)
    (run : opMutate c i w = (r, w')) :
    (∀ j ts, Is w j ts → Is w' j ts) ∧ (∀ (j : Nat) x, w.inds[j]? = some x → w'.inds[j]? = some x) ∧
    ∀ n, r = .ok n → ∃ as ss', IsAt w' n as ss' ∧
      ∀ j bs ts, IsAt w j bs ts → IsAt w' j bs ts ∧ ∀ a ∈ as, a ∉ bs := by
  have h := wp_opMutate hps his hok
  have hext : Extends w w' := by
    cases r with
    | ok n => obtain ⟨_, _, _, hf, _⟩ := wp_ok h run; exact hf.ext
    | error e => exact (wp_error h run).1
  refine ⟨fun j ts hj => hj.mono hext, fun j x hx => getElem?_prefix hx hext.2, ?_⟩
  rintro n rfl
  obtain ⟨ss', _, _, hf, _⟩ := wp_ok h run
  obtain ⟨as, h1, h2⟩ := hf.is
  refine ⟨as, ss', h1, ?_⟩
  intro j bs ts hj
  refine ⟨hj.mono hext, fun a ha hb => ?_⟩
  obtain ⟨ind, l, _, hc, _, rfl⟩ := isAt_iff.1 hj
  exact absurd (h2 a ha) (Nat.not_le.2 (hc.lt hb))

/-- **C09** for mating. -/
theorem C09_mate_keeps_population {c : OpConfig} (hps : PSetOk c.ps) {w w' : World} {i j : Nat}
    {r : Except Exn Nat} {p₁ p₂ : List Step} (his : Is w i p₁) (hjs : Is w j p₂)
    (hok₁ : PipelineOk c.ps p₁) (hok₂ : PipelineOk c.ps p₂)
    (run : opMate c i j w = (r, w')) :
    (∀ k ts, Is w k ts → Is w' k ts) ∧ (∀ (k : Nat) x, w.inds[k]? = some x → w'.inds[k]? = some x) ∧
    ∀ n, r = .ok n → ∃ as ss', IsAt w' n as ss' ∧
      ∀ k bs ts, IsAt w k bs ts → IsAt w' k bs ts ∧ ∀ a ∈ as, a ∉ bs := by
  have h := wp_opMate hps his hjs hok₁ hok₂
  have hext : Extends w w' := by
    cases r with
    | ok n => obtain ⟨_, _, hf, _⟩ := wp_ok h run; exact hf.ext
    | error e => exact (wp_error h run).1
  refine ⟨fun j ts hj => hj.mono hext, fun j x hx => getElem?_prefix hx hext.2, ?_⟩
  rintro n rfl
  obtain ⟨ss', _, hf, _⟩ := wp_ok h run
  obtain ⟨as, h1, h2⟩ := hf.is
  refine ⟨as, ss', h1, ?_⟩
  intro j bs ts hj
  refine ⟨hj.mono hext, fun a ha hb => ?_⟩
  obtain ⟨ind, l, _, hc, _, rfl⟩ := isAt_iff.1 hj
  exact absurd (h2 a ha) (Nat.not_le.2 (hc.lt hb))

/-- Mutation of the three-step pipeline runs, and leaves the other two alone. -/
example : ∃ n w', opMutate { ps := Ex.space, maxLength := none, completed := fun _ => false } 0
    (Ex.w0 fun _ => 1) = (.ok n, w') ∧ Is w' 0 Ex.long ∧ Is w' 1 Ex.single ∧ Is w' 2 Ex.double := by
  obtain ⟨n, w', hrun⟩ : ∃ n w', opMutate { ps := Ex.space, maxLength := none, completed := fun _ => false } 0
    (Ex.w0 fun _ => 1) = (.ok n, w') := ⟨_, _, rfl⟩
  have h := C09_mutate_keeps_population (c := { ps := Ex.space, maxLength := none, completed := fun _ => false })
    Ex.space_ok (Ex.is_long _) Ex.long_ok hrun
  exact ⟨n, w', hrun, h.1 _ _ (Ex.is_long _), h.1 _ _ (Ex.is_single _), h.1 _ _ (Ex.is_double _)⟩

/-! ## C10: copies print the same -/

/-- What a pipeline prints: `Algorithm(<rest of the pipeline>, h1=v1, h2=v2)`. -/
def Spec.printed : List Step → Str
  | [] => dataTerminal
  | s :: ss => s.prim.str ++ '(' ::
      (List.intercalate [',', ' '] (Spec.printed ss :: s.terms.map Terminal.repr)) ++ [')']

theorem chainStr_printed : ∀ cs : List Cell, chainStr cs = printed (cs.map cellStep)
  | [] => rfl
  | c :: cs => by
    simp only [chainStr, List.map_cons, printed, cellStep, chainStr_printed cs]
    cases h : c.terms with
    | nil => simp [List.intercalate]
    | cons t ts =>
      simp [List.intercalate]

/-- Printing an individual prints its steps and changes nothing. -/
theorem pipelineStr_is {w : World} {i : Nat} {ss : List Step} (h : Is w i ss) :
    pipelineStr i w = (.ok (printed ss), w) := by
  obtain ⟨ind, l, hi, hc, rfl⟩ := is_iff.1 h
  have : wp (pipelineStr i) (fun s w' => s = printed (steps l) ∧ w' = w) (fun _ _ => False) w := by
    simp only [pipelineStr, wp_bind]
    apply wp_primitives hi hc
    apply wp_getNodes (fun b s h => hc.cell h)
    intro cs hcs
    simp only [wp_pure]
    exact ⟨by rw [chainStr_printed, hcs], trivial⟩
  cases hr : pipelineStr i w with
  | mk r w' =>
    cases r with
    | ok s => obtain ⟨rfl, rfl⟩ := wp_ok this hr; rfl
    | error e => exact (wp_error this hr).elim

/-- A population and everything that can happen to it: individuals are created, mutated,
mated, copied, evaluated, and have hyperparameter values replaced in place; operations may
also fail halfway. -/
inductive Spec.History (ps : PSet) : World → List Nat → Prop
  | start (r : Stream) : History ps ⟨[], [], r⟩ []
  | created {w w' pop n} (c : OpConfig) (h : History ps w pop) (hc : c.ps = ps)
      (run : opIndividual c w = (.ok n, w')) : History ps w' (n :: pop)
  | mutated {w w' pop n i} (c : OpConfig) (h : History ps w pop) (hc : c.ps = ps) (hi : i ∈ pop)
      (run : opMutate c i w = (.ok n, w')) : History ps w' (n :: pop)
  | mated {w w' pop n i j} (c : OpConfig) (h : History ps w pop) (hc : c.ps = ps) (hi : i ∈ pop)
      (hj : j ∈ pop) (run : opMate c i j w = (.ok n, w')) : History ps w' (n :: pop)
  | createFailed {w w' pop e} (c : OpConfig) (h : History ps w pop) (hc : c.ps = ps)
      (run : opIndividual c w = (.error e, w')) : History ps w' pop
  | mutateFailed {w w' pop e i} (c : OpConfig) (h : History ps w pop) (hc : c.ps = ps)
      (hi : i ∈ pop) (run : opMutate c i w = (.error e, w')) : History ps w' pop
  | mateFailed {w w' pop e i j} (c : OpConfig) (h : History ps w pop) (hc : c.ps = ps)
      (hi : i ∈ pop) (hj : j ∈ pop) (run : opMate c i j w = (.error e, w')) : History ps w' pop
  | copied {w w' pop n i} (h : History ps w pop) (hi : i ∈ pop)
      (run : copyAsNew i w = (.ok n, w')) : History ps w' (n :: pop)
  | replaced {w w' pop i r} (pos : Nat) (t : Terminal) (h : History ps w pop) (hi : i ∈ pop)
      (offered : t ∈ ps.terms t.ident) (run : replaceTerminal i pos t w = (r, w')) :
      History ps w' pop
  | evaluated {w pop i ind} (fitness : List Score) (h : History ps w pop)
      (hi : w.inds[i]? = some ind) :
      History ps { w with inds := w.inds.set i { ind with fitness := some fitness } } pop

/-- The members of the population are well formed and share no steps. -/
structure PopOk (ps : PSet) (w : World) (pop : List Nat) : Prop where
  ok : ∀ i ∈ pop, ∃ ss, Is w i ss ∧ PipelineOk ps ss
  apart : ∀ i ∈ pop, ∀ j ∈ pop, i ≠ j → ∀ as bs ss ts, IsAt w i as ss → IsAt w j bs ts →
    ∀ a ∈ as, a ∉ bs

theorem Spec.IsAt.det {w : World} {i as ss bs ts} (h : IsAt w i as ss) (h' : IsAt w i bs ts) :
    as = bs ∧ ss = ts := by
  obtain ⟨ind, l, h1, h2, h3, h4⟩ := isAt_iff.1 h
  obtain ⟨ind', l', h1', h2', h3', h4'⟩ := isAt_iff.1 h'
  rw [h1] at h1'
  injection h1' with h1'
  subst h1'
  have := h2.det h2'
  subst this
  exact ⟨h4.symm.trans h4', h3.symm.trans h3'⟩

theorem PopOk.extend {ps : PSet} {w w' : World} {pop : List Nat} (h : PopOk ps w pop)
    (he : Extends w w') : PopOk ps w' pop where
  ok i hi := by obtain ⟨ss, h1, h2⟩ := h.ok i hi; exact ⟨ss, h1.mono he, h2⟩
  apart i hi j hj hij as bs ss ts h1 h2 := by
    obtain ⟨ss', ⟨as', h1'⟩, _⟩ := h.ok i hi
    obtain ⟨ts', ⟨bs', h2'⟩, _⟩ := h.ok j hj
    obtain ⟨rfl, _⟩ := h1.det (h1'.mono he)
    obtain ⟨rfl, _⟩ := h2.det (h2'.mono he)
    exact h.apart i hi j hj hij _ _ _ _ h1' h2'

theorem PopOk.fresh {ps : PSet} {w w' : World} {pop : List Nat} {n : Nat} {ss : List Step}
    (h : PopOk ps w pop) (hf : Fresh w w' n ss) (hok : PipelineOk ps ss) :
    PopOk ps w' (n :: pop) := by
  have hx := h.extend hf.ext
  obtain ⟨as, h1, h2⟩ := hf.is
  have key : ∀ j ∈ pop, ∀ bs ts, IsAt w' j bs ts → ∀ a ∈ as, a ∉ bs := by
    intro j hj bs ts hjs a ha hb
    obtain ⟨ts', ⟨bs', hj'⟩, _⟩ := h.ok j hj
    obtain ⟨rfl, _⟩ := hjs.det (hj'.mono hf.ext)
    obtain ⟨ind, l, _, hc, _, rfl⟩ := isAt_iff.1 hj'
    exact absurd (h2 a ha) (Nat.not_le.2 (hc.lt hb))
  constructor
  · intro i hi
    rcases List.mem_cons.1 hi with rfl | hi
    · exact ⟨ss, ⟨as, h1⟩, hok⟩
    · exact hx.ok i hi
  · intro i hi j hj hij as' bs' ss' ts' g1 g2
    rcases List.mem_cons.1 hi with rfl | hi
    · obtain ⟨rfl, _⟩ := g1.det h1
      rcases List.mem_cons.1 hj with rfl | hj
      · exact absurd rfl hij
      · exact key j hj _ _ g2
    · rcases List.mem_cons.1 hj with rfl | hj'
      · obtain ⟨rfl, _⟩ := g2.det h1
        intro a ha hb
        exact key i (by assumption) _ _ g1 a hb ha
      · exact hx.apart i (by assumption) j hj' hij _ _ _ _ g1 g2

/-- Copying a well-formed individual gives a fresh one with the same steps. -/
theorem copyAsNew_fresh {ps : PSet} {w : World} {i : Nat} {ss : List Step} (his : Is w i ss)
    (hok : PipelineOk ps ss) :
    ∃ n w', copyAsNew i w = (.ok n, w') ∧ Fresh w w' n ss ∧
      ∃ ind, w'.inds[n]? = some ind ∧ ind.fitness = none ∧ ind.md = {} := by
  obtain ⟨ind, l, hi, hc, rfl⟩ := is_iff.1 his
  have h : wp (copyAsNew i) (fun n w' => Fresh w w' n (steps l) ∧
      ∃ ind, w'.inds[n]? = some ind ∧ ind.fitness = none ∧ ind.md = {}) (fun _ _ => False) w := by
    apply wp_copyAsNew hi hc
    intro a l' new hc' hst hfr
    rw [map_resort (fun s hs => pipelineOk_kind hok hs)] at hst
    refine ⟨⟨⟨List.prefix_append _ _, List.prefix_append _ _⟩, Nat.le_refl _, addrs l', ?_, hfr⟩, ?_⟩
    · exact isAt_iff.2 ⟨{ main := a }, l', by simp, hc', hst, rfl⟩
    · exact ⟨{ main := a }, by simp, rfl, rfl⟩
  cases hr : copyAsNew i w with
  | mk r w' =>
    cases r with
    | ok n => obtain ⟨h1, h2⟩ := wp_ok h hr; exact ⟨n, w', rfl, h1, h2⟩
    | error e => exact (wp_error h hr).elim

/-- In-place replacement of a value: what the individual is afterwards, and what else in the
heap changed. -/
theorem wp_replaceTerminal_spec {w : World} {i : Nat} {as : List Addr} {ss : List Step}
    {new : Terminal} {pos : Nat} (his : IsAt w i as ss) :
    wp (replaceTerminal i pos new)
      (fun _ w' => w'.inds = w.inds ∧ w'.nodes.length = w.nodes.length ∧
        FrameN as w.nodes w'.nodes ∧
        ((pos = (allTerms ss).length ∧ w' = w) ∨
        ∃ pre s post k, ss = pre ++ s :: post ∧ pos = (allTerms pre).length + k ∧
          ∃ hk : k < s.terms.length, s.terms[k].ident = new.ident ∧
          IsAt w' i as (pre ++ { s with terms := s.terms.set k new } :: post)))
      (fun e w' => e = .valueError ∧ w' = w ∧
        (pos > (allTerms ss).length ∨ ∃ t, (allTerms ss)[pos]? = some t ∧ t.ident ≠ new.ident))
      w := by
  obtain ⟨ind, l, hi, hc, rfl, rfl⟩ := isAt_iff.1 his
  apply wp_replaceTerminal hi hc
  · intro pre a s post k hl hpos hk
    subst hl
    refine ⟨fun hid c hc' => ?_, fun hid => ⟨rfl, rfl, Or.inr ⟨s.terms[k], ?_, hid⟩⟩⟩
    · refine ⟨rfl, by simp, FrameN.set (by simp [addrs]), Or.inr ⟨steps pre, s, steps post, k,
        by simp [steps], hpos, hk, hid, ?_⟩⟩
      exact isAt_iff.2 ⟨ind, _, hi, hc', by simp [steps], by simp [addrs]⟩
    · have : allTerms (steps (pre ++ (a, s) :: post))
          = allTerms (steps pre) ++ (s.terms ++ allTerms (steps post)) := by
        simp [allTerms, steps]
      rw [this, hpos, List.getElem?_append_right (Nat.le_add_right _ _),
        Nat.add_sub_cancel_left, List.getElem?_append_left hk, List.getElem?_eq_getElem hk]
  · intro h
    exact ⟨rfl, rfl, FrameN.refl _ _, Or.inl ⟨h, rfl⟩⟩
  · intro h
    exact ⟨rfl, rfl, Or.inl h⟩

/-- Every member of a population is well formed, whatever happened to it. -/
theorem history_popOk {ps : PSet} (hps : PSetOk ps) {w : World} {pop : List Nat}
    (h : History ps w pop) : PopOk ps w pop := by
  induction h with
  | start r => exact ⟨by simp, by simp⟩
  | created c _ hc run ih =>
    subst hc
    obtain ⟨ss, h1, h2, _⟩ := C02_new_individual_well_formed hps run
    exact ih.fresh h1 h2
  | mutated c _ hc hi run ih =>
    subst hc
    obtain ⟨ss, g1, g2⟩ := ih.ok _ hi
    obtain ⟨ss', h1, h2, _⟩ := C03_mutate_offspring hps g1 g2 run
    exact ih.fresh h1 h2
  | mated c _ hc hi hj run ih =>
    subst hc
    obtain ⟨ss, g1, g2⟩ := ih.ok _ hi
    obtain ⟨ss', g1', g2'⟩ := ih.ok _ hj
    obtain ⟨c₁, _, h1, h2, _⟩ := C06_mate_offspring hps g1 g1' g2 g2' run
    exact ih.fresh h1 h2
  | createFailed c _ hc run ih =>
    subst hc
    exact ih.extend (wp_error (wp_opIndividual hps) run).1
  | mutateFailed c _ hc hi run ih =>
    subst hc
    obtain ⟨ss, g1, g2⟩ := ih.ok _ hi
    exact ih.extend (wp_error (wp_opMutate hps g1 g2) run).1
  | mateFailed c _ hc hi hj run ih =>
    subst hc
    obtain ⟨ss, g1, g2⟩ := ih.ok _ hi
    obtain ⟨ss', g1', g2'⟩ := ih.ok _ hj
    exact ih.extend (wp_error (wp_opMate hps g1 g1' g2 g2') run).1
  | copied _ hi run ih =>
    obtain ⟨ss, g1, g2⟩ := ih.ok _ hi
    obtain ⟨n, w', hr, hf, _⟩ := copyAsNew_fresh g1 g2
    rw [run] at hr
    injection hr with e1 e2
    injection e1 with e1
    subst e1; subst e2
    exact ih.fresh hf g2
  | @replaced w w' pop i r pos t _ hi offered run ih =>
    obtain ⟨ss, ⟨as, g1⟩, g2⟩ := ih.ok _ hi
    have hw := wp_replaceTerminal_spec (new := t) (pos := pos) g1
    cases r with
    | error e => obtain ⟨_, rfl, _⟩ := wp_error hw run; exact ih
    | ok u =>
      obtain ⟨hinds, _, hfr, hcase⟩ := wp_ok hw run
      rcases hcase with ⟨_, rfl⟩ | ⟨pre, s, post, k, rfl, hpos, hk, hid, his'⟩
      · exact ih
      have hok' : PipelineOk ps (pre ++ { s with terms := s.terms.set k t } :: post) := by
        obtain ⟨kd, hs⟩ := pipelineOk_kind g2 (s := s) (by simp)
        refine pipelineOk_replace hps g2 ?_
        have hkd : s.prim.output = kd := hps.kind _ _ hs.offered
        rw [hkd]
        exact StepOk.setTerm hps hs hk (by rw [hid]; exact offered)
      -- other members are untouched
      have hother : ∀ j ∈ pop, j ≠ i → ∀ bs ts, IsAt w j bs ts → IsAt w' j bs ts := by
        intro j hj hji bs ts hjs
        obtain ⟨ind, l, e1, e2, e3, e4⟩ := isAt_iff.1 hjs
        refine isAt_iff.2 ⟨ind, l, by rw [hinds]; exact e1, Chain.frame hfr e2 ?_, e3, e4⟩
        intro a ha hb
        rw [e4] at ha
        exact ih.apart i hi j hj (Ne.symm hji) _ _ _ _ g1 hjs a hb ha
      have hsame : ∀ j ∈ pop, ∃ bs ts ts', IsAt w j bs ts ∧ IsAt w' j bs ts' ∧
          PipelineOk ps ts' := by
        intro j hj
        by_cases hji : j = i
        · subst hji; exact ⟨as, _, _, g1, his', hok'⟩
        · obtain ⟨ts, ⟨bs, q1⟩, q2⟩ := ih.ok j hj
          exact ⟨bs, ts, ts, q1, hother j hj hji _ _ q1, q2⟩
      constructor
      · intro j hj
        obtain ⟨bs, ts, ts', _, q2, q3⟩ := hsame j hj
        exact ⟨ts', ⟨bs, q2⟩, q3⟩
      · intro j hj k' hk' hne as₁ bs₁ ss₁ ts₁ q1 q2
        obtain ⟨bs, ts, ts', r1, r2, _⟩ := hsame j hj
        obtain ⟨bs', us, us', r1', r2', _⟩ := hsame k' hk'
        obtain ⟨rfl, _⟩ := q1.det r2
        obtain ⟨rfl, _⟩ := q2.det r2'
        exact ih.apart j hj k' hk' hne _ _ _ _ r1 r1'
  | @evaluated w pop i ind fitness _ hi ih =>
    have key : ∀ j as ss, IsAt { w with inds := w.inds.set i { ind with fitness := some fitness } }
        j as ss ↔ IsAt w j as ss := by
      intro j as ss
      have hlt : i < w.inds.length := (List.getElem?_eq_some_iff.1 hi).1
      unfold IsAt
      by_cases hj : j = i
      · subst hj
        simp only [List.getElem?_set_self hlt, hi]
        constructor
        · rintro ⟨h1, x, hx, h2⟩
          injection hx with hx; subst hx
          exact ⟨h1, ind, rfl, h2⟩
        · rintro ⟨h1, x, hx, h2⟩
          injection hx with hx; subst hx
          exact ⟨h1, _, rfl, h2⟩
      · simp only [List.getElem?_set_ne (Ne.symm hj)]
    constructor
    · intro j hj
      obtain ⟨ss, ⟨as, q1⟩, q2⟩ := ih.ok j hj
      exact ⟨ss, ⟨as, (key _ _ _).2 q1⟩, q2⟩
    · intro j hj k hk hne as bs ss ts q1 q2
      exact ih.apart j hj k hk hne _ _ _ _ ((key _ _ _).1 q1) ((key _ _ _).1 q2)

/-- **C10.** Take any individual of a population with any history (creation, mutation,
crossover, copying, evaluation and in-place replacement of hyperparameter values, in any
order and number): copying it succeeds, the copy has a fresh identity, no fitness and no
lineage, it prints exactly what the original prints, and the original still prints that. -/
theorem C10_copy_prints_the_same {ps : PSet} (hps : PSetOk ps) {w : World} {pop : List Nat}
    (h : History ps w pop) {i : Nat} (hi : i ∈ pop) :
    ∃ n w' s, copyAsNew i w = (.ok n, w') ∧ w.inds.length ≤ n ∧
      (∃ ind, w'.inds[n]? = some ind ∧ ind.fitness = none ∧ ind.md = {}) ∧
      pipelineStr i w = (.ok s, w) ∧ pipelineStr n w' = (.ok s, w') ∧
      pipelineStr i w' = (.ok s, w') := by
  obtain ⟨ss, his, hok⟩ := (history_popOk hps h).ok i hi
  obtain ⟨n, w', h1, h2, h3⟩ := copyAsNew_fresh his hok
  obtain ⟨as, h4, _⟩ := h2.is
  exact ⟨n, w', printed ss, h1, h2.new, h3, pipelineStr_is his, pipelineStr_is ⟨as, h4⟩,
    pipelineStr_is (his.mono h2.ext)⟩

/-- A history that creates an individual, changes a value in place and mutates it. -/
example : ∃ w pop, History Ex.space w pop ∧ pop.length = 2 := by
  have h0 := History.start (ps := Ex.space) (fun n => if n = 1 then 1 else 0)
  have h1 := h0.created { ps := Ex.space, maxLength := none, completed := fun _ => false } rfl
    (n := 0) (w' := _) rfl
  have h2 := h1.replaced (i := 0) 1 Ex.depth2 (by simp) (by decide) (r := .ok ()) (w' := _) rfl
  have h3 := h2.mutated { ps := Ex.space, maxLength := none, completed := fun _ => false } rfl
    (i := 0) (by simp) (n := 1) (w' := _) rfl
  exact ⟨_, _, h3, rfl⟩

/-! ## C11: positional replacement of hyperparameter values -/

theorem allTerms_set (pre : List Step) (s : Step) (post : List Step) (k : Nat) (new : Terminal)
    (hk : k < s.terms.length) :
    allTerms (pre ++ { s with terms := s.terms.set k new } :: post)
      = (allTerms (pre ++ s :: post)).set ((allTerms pre).length + k) new := by
  have e : ∀ s : Step, allTerms (pre ++ s :: post)
      = allTerms pre ++ (s.terms ++ allTerms post) := by
    intro s; simp [allTerms]
  rw [e, e, List.set_append_right _ _ (Nat.le_add_right _ _), Nat.add_sub_cancel_left,
    List.set_append_left _ _ hk]

/-- The full claim of **C11** (false at one position). -/
def C11_claim : Prop := ∀ (w : World) (i : Nat) (ss : List Step) (pos : Nat) (new : Terminal),
  Is w i ss → pos ≥ (allTerms ss).length →
  ∃ e, replaceTerminal i pos new w = (.error e, w)

/-- **C11**, the part that holds: at a valid position exactly that value changes (no other
value, no algorithm, no other individual's steps); a value of another hyperparameter is
refused and so is a position *beyond* the number of hyperparameters, leaving everything
unchanged.  Missing: the position equal to the number of hyperparameters is out of range as
well, but is accepted silently (`C11_false`). -/
theorem C11_replace_value_partial {w : World} {i : Nat} {as : List Addr} {ss : List Step}
    {pos : Nat} {new : Terminal} (his : IsAt w i as ss) :
    (∀ old, (allTerms ss)[pos]? = some old → old.ident = new.ident →
      ∃ w' ss', replaceTerminal i pos new w = (.ok (), w') ∧ IsAt w' i as ss' ∧
        ss'.map Step.prim = ss.map Step.prim ∧
        ss'.map (fun s => s.terms.length) = ss.map (fun s => s.terms.length) ∧
        allTerms ss' = (allTerms ss).set pos new ∧
        w'.inds = w.inds ∧ ∀ a, a ∉ as → w'.nodes[a]? = w.nodes[a]?) ∧
    (∀ old, (allTerms ss)[pos]? = some old → old.ident ≠ new.ident →
      replaceTerminal i pos new w = (.error .valueError, w)) ∧
    (pos > (allTerms ss).length → replaceTerminal i pos new w = (.error .valueError, w)) := by
  have hw := wp_replaceTerminal_spec (new := new) (pos := pos) his
  have idx : ∀ pre s post k, ss = pre ++ s :: post → pos = (allTerms pre).length + k →
      ∀ hk : k < s.terms.length, (allTerms ss)[pos]? = some s.terms[k] := by
    intro pre s post k hl hpos hk
    have : allTerms ss = allTerms pre ++ (s.terms ++ allTerms post) := by
      simp [allTerms, hl]
    rw [this, hpos, List.getElem?_append_right (Nat.le_add_right _ _),
      Nat.add_sub_cancel_left, List.getElem?_append_left hk, List.getElem?_eq_getElem hk]
  cases hr : replaceTerminal i pos new w with
  | mk r w' =>
    cases r with
    | error e =>
      obtain ⟨rfl, rfl, hc⟩ := wp_error hw hr
      refine ⟨?_, fun _ _ _ => rfl, fun _ => rfl⟩
      intro old ho hid
      exfalso
      rcases hc with h | ⟨t, ht, hne⟩
      · rw [List.getElem?_eq_none (Nat.le_of_lt h)] at ho; simp at ho
      · rw [ho] at ht; injection ht with ht; subst ht; exact hne hid
    | ok u =>
      obtain ⟨h1, hlen, h2, hc⟩ := wp_ok hw hr
      rcases hc with ⟨hpos, rfl⟩ | ⟨pre, s, post, k, hl, hpos, hk, hid, his'⟩
      · refine ⟨fun old ho _ => ?_, fun old ho _ => ?_, fun h => by omega⟩ <;>
        · rw [List.getElem?_eq_none (Nat.le_of_eq hpos.symm)] at ho; simp at ho
      · have hix := idx pre s post k hl hpos hk
        have hlt : pos < (allTerms ss).length := (List.getElem?_eq_some_iff.1 hix).1
        refine ⟨fun old ho _ => ?_, fun old ho hne => ?_, fun h => by omega⟩
        · refine ⟨w', _, rfl, his', by simp [hl], by simp [hl], ?_, h1, fun a ha => ?_⟩
          · rw [allTerms_set _ _ _ _ _ hk, hl, hpos]
          · by_cases hlt : a < w.nodes.length
            · exact h2.2 a hlt ha
            · have hge : w.nodes.length ≤ a := Nat.not_lt.1 hlt
              rw [List.getElem?_eq_none hge, List.getElem?_eq_none (by rw [hlen]; exact hge)]
        · rw [hix] at ho; injection ho with ho; subst ho; exact absurd hid hne

/-- Replacing the second value of the three-step pipeline. -/
example (r : Stream) : ∃ w' ss', replaceTerminal 0 1 Ex.depth1 (Ex.w0 r) = (.ok (), w') ∧
    IsAt w' 0 [0, 1, 2] ss' ∧ allTerms ss' = [Ex.alpha1, Ex.depth1, Ex.whitT] := by
  obtain ⟨w', ss', h1, h2, _, _, h3, _⟩ := (C11_replace_value_partial (pos := 1)
    (new := Ex.depth1) (⟨rfl, { main := 0 }, rfl, rfl, some 1, rfl, rfl, some 2, rfl, rfl, none,
      rfl, rfl⟩ : IsAt (Ex.w0 r) 0 [0, 1, 2] Ex.long)).1 Ex.depth2 rfl rfl
  exact ⟨w', ss', h1, h2, h3⟩

/-- **C11 is false** of the code: a position equal to the number of hyperparameters (three,
positions 0 to 2) is not refused. -/
theorem C11_false : ¬ C11_claim := by
  intro h
  obtain ⟨e, he⟩ := h (Ex.w0 fun _ => 0) 0 Ex.long 3 Ex.whitF (Ex.is_long _) (by decide)
  have : replaceTerminal 0 3 Ex.whitF (Ex.w0 fun _ => 0) = (.ok (), Ex.w0 fun _ => 0) := rfl
  rw [this] at he
  simp at he

/-! ## C12: positional replacement of steps -/

/-- The full claim of **C12** (false for positions outside the pipeline). -/
def C12_claim : Prop := ∀ (w : World) (i : Nat) (as : List Addr) (ss : List Step) (pos : Nat)
  (new : Addr) (s' : Step), IsAt w i as ss → w.nodes[new]? = some ⟨s'.prim, s'.terms, none⟩ →
  new ∉ as → pos ≥ ss.length → ∃ e, replacePrimitive i pos new w = (.error e, w)

/-- **C12**, the part that holds: with a new step (not part of the pipeline) of the same
kind, exactly the step at the position is replaced; a step of another kind is refused and
nothing changes.  Missing: positions outside the pipeline are not refused (`C12_false`). -/
theorem C12_replace_step_partial {ps : PSet} {w : World} {i : Nat} {as : List Addr}
    {ss : List Step} {pos : Nat} {new : Addr} {s' : Step} (his : IsAt w i as ss)
    (hok : PipelineOk ps ss) (hnew : w.nodes[new]? = some ⟨s'.prim, s'.terms, none⟩)
    (hn : new ∉ as) :
    (∀ old, ss[pos]? = some old → old.prim.output = s'.prim.output →
      ∃ w', replacePrimitive i pos new w = (.ok (), w') ∧ Is w' i (ss.set pos s')) ∧
    (∀ old, ss[pos]? = some old → old.prim.output ≠ s'.prim.output →
      replacePrimitive i pos new w = (.error .valueError, w)) := by
  obtain ⟨ind, l, hi, hc, rfl, rfl⟩ := isAt_iff.1 his
  have hw : wp (replacePrimitive i pos new)
      (fun _ w' => l.length ≤ pos ∨ ∃ old, (steps l)[pos]? = some old ∧
        old.prim.output = s'.prim.output ∧ Is w' i ((steps l).set pos s'))
      (fun e w' => e = .valueError ∧ w' = w ∧ ∃ old, (steps l)[pos]? = some old ∧
        old.prim.output ≠ s'.prim.output) w := by
    apply wp_replacePrimitive hi hc hnew hn
    · intro pre a s post hl hlen
      have hat : (steps l)[pos]? = some s := by
        rw [hl, ← hlen]; simp [steps]
      refine ⟨fun hne => ⟨rfl, rfl, s, hat, hne⟩, ?_⟩
      intro he w' ind' l₂ h1 h2 h3 _ _ _ _ _
      right
      refine ⟨s, hat, he, is_iff.2 ⟨ind', _, h1, h2, ?_⟩⟩
      have hok' : ∀ x ∈ steps post, ∃ k, StepOk ps k x := fun x hx =>
        pipelineOk_kind hok (by rw [hl]; simp [steps] at hx ⊢; exact Or.inr (Or.inr hx))
      rw [map_resort hok'] at h3
      rw [hl, ← hlen]
      simp only [steps, List.map_append, List.map_cons] at h3 ⊢
      rw [h3, List.set_append_right _ _ (by simp)]
      simp
    · intro h _ _ _ _ _ _ _ _
      exact Or.inl h
  have hlen : (steps l).length = l.length := by simp [steps]
  cases hr : replacePrimitive i pos new w with
  | mk r w' =>
    cases r with
    | ok u =>
      have := wp_ok hw hr
      refine ⟨fun old ho he => ⟨w', rfl, ?_⟩, fun old ho he => ?_⟩
      · rcases this with h | ⟨old', _, _, h⟩
        · rw [List.getElem?_eq_none (by omega)] at ho; simp at ho
        · exact h
      · rcases this with h | ⟨old', ho', he', _⟩
        · rw [List.getElem?_eq_none (by omega)] at ho; simp at ho
        · rw [ho] at ho'; injection ho' with ho'; subst ho'; exact absurd he' he
    | error e =>
      obtain ⟨rfl, rfl, old', ho', he'⟩ := wp_error hw hr
      refine ⟨fun old ho he => ?_, fun _ _ _ => rfl⟩
      rw [ho] at ho'; injection ho' with ho'; subst ho'; exact absurd he he'

/-- Replace the middle step of the three-step pipeline by the (unattached) step at 5. -/
example (r : Stream) : ∃ w', replacePrimitive 0 1 5 (Ex.w0 r) = (.ok (), w') ∧
    Is w' 0 [⟨Ex.pDT, [Ex.alpha1, Ex.depth2]⟩, ⟨Ex.pPCA, [Ex.whitF]⟩, ⟨Ex.pSC, []⟩] :=
  (C12_replace_step_partial (w := Ex.w0 r) (i := 0) (s' := ⟨Ex.pPCA, [Ex.whitF]⟩) (ss := Ex.long)
    (as := [0, 1, 2]) ⟨rfl, { main := 0 }, rfl, rfl, some 1, rfl, rfl, some 2, rfl, rfl, none, rfl, rfl⟩ Ex.long_ok
    rfl (by decide)).1 ⟨Ex.pPCA, [Ex.whitT]⟩ rfl rfl

/-- **C12 is false** of the code: with position 7 in a three-step pipeline the step is
appended at the data end, whatever its kind. -/
theorem C12_false : ¬ C12_claim := by
  intro h
  obtain ⟨e, he⟩ := h (Ex.w0 fun _ => 0) 0 [0, 1, 2] Ex.long 7 3 ⟨Ex.pNB, [Ex.alpha2]⟩
    ⟨rfl, { main := 0 }, rfl, rfl, some 1, rfl, rfl, some 2, rfl, rfl, none, rfl, rfl⟩ rfl
    (by decide) (by decide)
  have : ∃ w', replacePrimitive 0 7 3 (Ex.w0 fun _ => 0) = (.ok (), w') ∧
      Is w' 0 (Ex.long ++ [⟨Ex.pNB, [Ex.alpha2]⟩]) :=
    ⟨_, rfl, [0, 1, 2, 3], rfl, { main := 0 }, rfl, rfl, some 1, rfl, rfl, some 2, rfl, rfl,
      some 3, rfl, rfl, none, rfl, rfl⟩
  obtain ⟨w', h1, _⟩ := this
  rw [h1] at he
  simp at he

/-! ## C13: retrying until new -/

theorem pipelineStr_world (n : Nat) (w : World) : (pipelineStr n w).2 = w := by
  have hg : ∀ as, wp (getNodes as) (fun _ w' => w' = w) (fun _ w' => w' = w) w := by
    intro as
    induction as with
    | nil => simp only [getNodes]; exact wp_pure.2 rfl
    | cons a as ih =>
      simp only [getNodes, wp_bind, getNode, wp_ofExcept]
      cases w.nodes[a]? with
      | none => trivial
      | some c =>
        refine wp_mono ?_ (fun _ _ h => h) ih
        rintro cs _ rfl
        exact wp_pure.2 rfl
  have h : wp (pipelineStr n) (fun _ w' => w' = w) (fun _ w' => w' = w) w := by
    simp only [pipelineStr, primitives, wp_bind, getInd, wp_ofExcept]
    cases w.inds[n]? with
    | none => trivial
    | some ind =>
      dsimp only
      cases chainFrom w.nodes w.nodes.length (some ind.main) with
      | error e => trivial
      | ok as =>
        refine wp_mono ?_ (fun _ _ h => h) (hg as)
        rintro cs _ rfl
        exact wp_pure.2 rfl
  cases hr : pipelineStr n w with
  | mk r w' => cases r with
    | ok s => have := wp_ok h hr; exact this
    | error e => have := wp_error h hr; exact this

theorem tryUntilNew_spec {completed : Str → Bool} {op : GP Nat} : ∀ {k : Nat} {last : Option Nat}
    {w w' : World} {r : Except Exn Nat}, tryUntilNew completed op (k + 1) last w = (r, w') →
    ∃ xs w₁, Attempts op w xs w₁ ∧ (∀ x ∈ xs, completed x.2 = true) ∧ xs.length ≤ k ∧
      ((∃ n s, r = .ok n ∧ op w₁ = (.ok n, w') ∧ pipelineStr n w' = (.ok s, w') ∧
          (completed s = false ∨ xs.length = k)) ∨
       (∃ e, r = .error e ∧ (op w₁ = (.error e, w') ∨
          ∃ n, op w₁ = (.ok n, w') ∧ pipelineStr n w' = (.error e, w'))))
  | k, last, w, w', r, h => by
    have hunf : tryUntilNew completed op (k + 1) last w =
        (PyM.bind op fun ind => PyM.bind (pipelineStr ind) fun s =>
          if completed s then tryUntilNew completed op k (some ind) else pure ind) w := rfl
    rw [hunf] at h
    unfold PyM.bind at h
    cases ho : op w with
    | mk ro wo =>
      rw [ho] at h
      cases ro with
      | error e =>
        simp only [Prod.mk.injEq] at h
        obtain ⟨rfl, rfl⟩ := h
        exact ⟨[], w, .nil w, by simp, Nat.zero_le _, Or.inr ⟨e, rfl, Or.inl ho⟩⟩
      | ok n =>
        dsimp only at h
        have hpw := pipelineStr_world n wo
        cases hp : pipelineStr n wo with
        | mk rp wp' =>
          rw [hp] at h hpw
          dsimp only at hpw
          subst hpw
          cases rp with
          | error e =>
            simp only [Prod.mk.injEq] at h
            obtain ⟨rfl, rfl⟩ := h
            exact ⟨[], w, .nil w, by simp, Nat.zero_le _,
              Or.inr ⟨e, rfl, Or.inr ⟨n, ho, hp⟩⟩⟩
          | ok s =>
            dsimp only at h
            by_cases hin : completed s = true
            · rw [if_pos hin] at h
              cases k with
              | zero =>
                have h : ((Except.ok n : Except Exn Nat), wp') = (r, w') := h
                simp only [Prod.mk.injEq] at h
                obtain ⟨rfl, rfl⟩ := h
                exact ⟨[], w, .nil w, by simp, Nat.zero_le _,
                  Or.inl ⟨n, s, rfl, ho, hp, Or.inr rfl⟩⟩
              | succ k =>
                obtain ⟨xs, w₁, h1, h2, h3, h4⟩ := tryUntilNew_spec h
                refine ⟨(n, s) :: xs, w₁, .cons ho hp h1, ?_, by simp; omega, ?_⟩
                · intro x hx
                  rcases List.mem_cons.1 hx with rfl | hx
                  · simpa using hin
                  · exact h2 x hx
                · rcases h4 with ⟨m, t, e1, e2, e3, e4⟩ | h4
                  · exact Or.inl ⟨m, t, e1, e2, e3, e4.imp id (by simp)⟩
                  · exact Or.inr h4
            · rw [if_neg hin] at h
              have h : ((Except.ok n : Except Exn Nat), wp') = (r, w') := h
              simp only [Prod.mk.injEq] at h
              obtain ⟨rfl, rfl⟩ := h
              exact ⟨[], w, .nil w, by simp, Nat.zero_le _,
                Or.inl ⟨n, s, rfl, ho, hp, Or.inl (by simpa using hin)⟩⟩

/-- **C13.** For any operation that generates candidates: the retry loop makes at most
`budget` attempts; every attempt before the last produced an already evaluated pipeline; the
result is the last attempt, which is new unless the budget is used up; an exception is that
of the last attempt. -/
theorem C13_retry_until_new {completed : Str → Bool} {op : GP Nat} {budget : Nat} (hb : 0 < budget)
    {w w' : World} {r : Except Exn Nat} (run : tryUntilNew completed op budget none w = (r, w')) :
    ∃ old w₁, Attempts op w old w₁ ∧ (∀ x ∈ old, completed x.2 = true) ∧ old.length + 1 ≤ budget ∧
      ((∃ n s, r = .ok n ∧ op w₁ = (.ok n, w') ∧ pipelineStr n w' = (.ok s, w') ∧
          (completed s = false ∨ old.length + 1 = budget)) ∨
       (∃ e, r = .error e ∧ (op w₁ = (.error e, w') ∨
          ∃ n, op w₁ = (.ok n, w') ∧ pipelineStr n w' = (.error e, w')))) := by
  obtain ⟨k, rfl⟩ : ∃ k, budget = k + 1 := ⟨budget - 1, by omega⟩
  obtain ⟨xs, w₁, h1, h2, h3, h4⟩ := tryUntilNew_spec run
  refine ⟨xs, w₁, h1, h2, by omega, ?_⟩
  rcases h4 with ⟨n, s, e1, e2, e3, e4⟩ | h4
  · exact Or.inl ⟨n, s, e1, e2, e3, e4.imp id (by omega)⟩
  · exact Or.inr h4

/-- **C13** for `mutate` and `mate` with GAMA's budget of 50: if the result was already
evaluated, then so were all 50 attempts. -/
theorem C13_operators {c : OpConfig} (hb : c.maxRetry = 50) {w w' : World} {i n : Nat} {s : Str} :
    (opMutate c i w = (.ok n, w') → pipelineStr n w' = (.ok s, w') → c.completed s = true →
      ∃ xs, xs.length = 50 ∧ Attempts (mutateWithLog c i) w xs w' ∧ ∀ x ∈ xs, c.completed x.2 = true) ∧
    (∀ j, opMate c i j w = (.ok n, w') → pipelineStr n w' = (.ok s, w') → c.completed s = true →
      ∃ xs, xs.length = 50 ∧ Attempts (mateWithLog c i j) w xs w' ∧
        ∀ x ∈ xs, c.completed x.2 = true) := by
  have snoc : ∀ {op : GP Nat} {w xs w₁ n s w'}, Attempts op w xs w₁ → op w₁ = (.ok n, w') →
      pipelineStr n w' = (.ok s, w') → Attempts op w (xs ++ [(n, s)]) w' := by
    intro op w xs w₁ n s w' h h1 h2
    induction h with
    | nil w => exact .cons h1 h2 (.nil _)
    | cons run print _ ih => exact .cons run print (ih h1)
  have key : ∀ op : GP Nat, tryUntilNew c.completed op c.maxRetry none w = (.ok n, w') →
      pipelineStr n w' = (.ok s, w') → c.completed s = true →
      ∃ xs, xs.length = 50 ∧ Attempts op w xs w' ∧ ∀ x ∈ xs, c.completed x.2 = true := by
    intro op run hp hs
    rw [hb] at run
    obtain ⟨old, w₁, h1, h2, h3, h4⟩ := C13_retry_until_new (by decide) run
    rcases h4 with ⟨m, t, e1, e2, e3, e4⟩ | ⟨e, h, _⟩
    · injection e1 with e1
      subst e1
      rw [hp] at e3
      injection e3 with e3 _
      injection e3 with e3
      subst e3
      refine ⟨old ++ [(n, s)], ?_, snoc h1 e2 hp, ?_⟩
      · rcases e4 with e4 | e4
        · rw [hs] at e4; cases e4
        · simpa using e4
      · intro x hx
        rcases List.mem_append.1 hx with hx | hx
        · exact h2 x hx
        · simp at hx; subst hx; exact hs
    · simp at h
  exact ⟨key _, fun j => key _⟩

/-- Three attempts at random creation are made when the first two were seen before. -/
example : ∃ n w', tryUntilNew (fun s => s == printed [⟨Ex.pNB, [Ex.alpha1]⟩])
    (opIndividual { ps := Ex.space, maxLength := some 1, completed := fun _ => false }) 50 none
    ⟨[], [], fun n => if n < 6 then 0 else 1⟩ = (.ok n, w') ∧ n = 2 := ⟨_, _, rfl, rfl⟩

/-! ## C14: lineage -/

/-- The names under which changes are recorded. -/
def Spec.originName : Change → Str
  | .value => "mut_replace_terminal".toList
  | .step => "mut_replace_primitive".toList
  | .insert => "mut_insert".toList
  | .remove => "mut_shrink".toList

/-- **C14.** A mutant has a new identity, records exactly its parent, and the name of the
change that was really made. -/
theorem C14_mutant_lineage {c : OpConfig} (hps : PSetOk c.ps) {w w' : World} {i n : Nat}
    {ss : List Step} (his : Is w i ss) (hok : PipelineOk c.ps ss)
    (run : opMutate c i w = (.ok n, w')) :
    w.inds.length ≤ n ∧ ∃ kind ss', Is w' n ss' ∧ Mutated c.ps kind ss ss' ∧
      HasMeta w' n [i] (some (originName kind)) := by
  obtain ⟨ss', f, name, h1, h2, h3, h4, h5⟩ := wp_ok (wp_opMutate hps his hok) run
  obtain ⟨as, h, _⟩ := h1.is
  refine ⟨h1.new, f.change, ss', ⟨as, h⟩,
    mutShape_mutated h2 (by rintro k rfl; simp [MutFn.name] at h4), ?_⟩
  cases f <;> simp only [MutFn.name, Except.ok.injEq, reduceCtorEq] at h4 <;> subst h4 <;> exact h5

/-- **C14** for crossover: a new identity, both parents in order, origin `cx`. -/
theorem C14_child_lineage {c : OpConfig} (hps : PSetOk c.ps) {w w' : World} {i j n : Nat}
    {p₁ p₂ : List Step} (his : Is w i p₁) (hjs : Is w j p₂)
    (hok₁ : PipelineOk c.ps p₁) (hok₂ : PipelineOk c.ps p₂)
    (run : opMate c i j w = (.ok n, w')) :
    w.inds.length ≤ n ∧ HasMeta w' n [i, j] (some "cx".toList) := by
  obtain ⟨_, _, h1, _, _, _, _, h6⟩ := wp_ok (wp_opMate hps his hjs hok₁ hok₂) run
  exact ⟨h1.new, h6⟩

/-- **C14** for fresh individuals: a new identity, no parents, origin `new`. -/
theorem C14_new_lineage {c : OpConfig} (hps : PSetOk c.ps) {w w' : World} {n : Nat}
    (run : opIndividual c w = (.ok n, w')) :
    w.inds.length ≤ n ∧ HasMeta w' n [] (some "new".toList) := by
  obtain ⟨_, h1, _, _, h⟩ := wp_ok (wp_opIndividual hps) run
  exact ⟨h1.new, h⟩

example : ∃ w', opMate { ps := Ex.space, maxLength := some 3, completed := fun _ => false } 0 0
    cxWorld = (.ok 1, w') ∧ HasMeta w' 1 [0, 0] (some "cx".toList) := by
  obtain ⟨w', h, _⟩ := cxWorld_mate
  exact ⟨w', h, (C14_child_lineage (c := { ps := Ex.space, maxLength := some 3, completed := fun _ => false })
    Ex.space_ok cxWorld_long cxWorld_long Ex.long_ok Ex.long_ok h).2⟩

end Gama
