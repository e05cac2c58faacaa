import Verif.Props.Asha
import Verif.Props.Search3
import Verif.Props.Selection
import Verif.Props.Operators

/-!
# Whole searches with GAMA's operators (C126, C127)

Ties together the search procedures, selection, and the operators on pipelines.
-/

namespace Gama
open PyM Spec

/-! ### Vocabulary -/

namespace Spec

/-- The individual is a well-formed pipeline of the search space. -/
def OfSpace (ps : PSet) (w : World) (x : Nat) : Prop := ∃ ss, Is w x ss ∧ PipelineOk ps ss

/-- The individual has `k` values as its fitness. -/
def Evaluated (k : Nat) (w : World) (x : Nat) : Prop := ∃ v, HasFitness w x v ∧ v.length = k

/-- Evaluating pipelines does not change pipelines, nor does it take away the values of others; a pipeline
evaluated without error gets `k` values. -/
def Honest (k : Nat) (s : Ea World Nat) (i : EaInput World) : Prop :=
  s.pc = .loop → ∀ j r w, i.wait = .completes j r w →
    (∀ y ss, Is s.world y ss → Is w y ss) ∧ (∀ y, Evaluated k s.world y → Evaluated k w y) ∧
    ∀ x score, s.pending[j % s.pending.length]? = some x → r = .result true score → Evaluated k w x

/-- Each input satisfies a condition in the state in which it is used. -/
def EvolveAlong (c : OpConfig) (cxpb : ℚ) (maxN : Option Int) (size : Nat)
    (C : Ea World Nat → EaInput World → Prop) : List ((Str → Bool) × EaInput World) → Ea World Nat → Prop
  | [], _ => True
  | (d, i) :: is, s => C s i ∧
      EvolveAlong c cxpb maxN size C is (eaStep (gamaOps { c with completed := d } cxpb) maxN size i s)

/-- Pipelines that mutation refuses: those above the maximum length, and with a maximum length of one
those with fewer than two values that have an alternative. -/
def CannotMutate (c : OpConfig) (ss : List Step) : Prop :=
  (∃ m, c.maxLength = some m ∧ m < ss.length) ∨
  (c.maxLength = some 1 ∧ ss.length = 1 ∧
    ((allTerms ss).filter fun t => (c.ps.terms t.ident).length > 1).length < 2)

/-- Why an evolutionary search that is in state `s` raises `e` in its next step. -/
inductive EndedBy (c : OpConfig) (s : Ea World Nat) (i : EaInput World) (e : Exn) : Prop
  /-- waiting for an evaluation raises: time is up, or the user interrupts -/
  | environment (h : s.pc = .loop) (hi : i.wait = .raises e)
  /-- there is nothing to wait for -/
  | starved (h : s.pc = .loop) (hp : s.pending = []) (he : e = .runtimeError)
  /-- offspring of fewer than three individuals -/
  | few (h : s.pc = .fill) (hq : i.queue ≤ 1) (hp : s.population.length < 3) (he : e = .valueError)
  /-- offspring of an individual that cannot be mutated -/
  | stuck (h : s.pc = .fill) {x : Nat} (hx : x ∈ s.population) {ss : List Step} (hs : Is s.world x ss)
      (hc : CannotMutate c ss)

/-- A search space and settings with which GAMA can be used: preprocessors are needed unless
pipelines consist of an estimator only. -/
structure Workable (c : OpConfig) : Prop where
  ok : PSetOk c.ps
  distinct : Distinct c.ps
  estimators : c.ps.prims predictionKey ≠ []
  preprocessors : c.ps.prims dataTerminal ≠ [] ∨ c.maxLength = some 1
  retry : 0 < c.maxRetry
  length : ∀ m, c.maxLength = some m → 1 ≤ m

end Spec

theorem evolveAlong_mono {c : OpConfig} {cxpb : ℚ} {maxN : Option Int} {size : Nat}
    {C D : Ea World Nat → EaInput World → Prop} (h : ∀ s i, C s i → D s i) :
    ∀ is s, EvolveAlong c cxpb maxN size C is s → EvolveAlong c cxpb maxN size D is s
  | [], _, _ => trivial
  | (_, _) :: is, _, k => ⟨h _ _ k.1, evolveAlong_mono h is _ k.2⟩

theorem evolve_induct {c : OpConfig} {cxpb : ℚ} {maxN : Option Int} {size : Nat}
    {C : Ea World Nat → EaInput World → Prop} {P : Ea World Nat → Prop}
    (hstep : ∀ d s i, P s → C s i → P (eaStep (gamaOps { c with completed := d } cxpb) maxN size i s)) :
    ∀ is s, P s → EvolveAlong c cxpb maxN size C is s → P (evolve c cxpb maxN size is s)
  | [], _, h, _ => h
  | (d, i) :: is, s, h, k => evolve_induct hstep is _ (hstep d s i h k.1) k.2

theorem evolve_append {c : OpConfig} {cxpb : ℚ} {maxN : Option Int} {size : Nat} :
    ∀ as bs s, evolve c cxpb maxN size (as ++ bs) s = evolve c cxpb maxN size bs (evolve c cxpb maxN size as s)
  | [], _, _ => rfl
  | (_, _) :: as, bs, _ => evolve_append as bs _

theorem evolveAlong_append {c : OpConfig} {cxpb : ℚ} {maxN : Option Int} {size : Nat}
    {C : Ea World Nat → EaInput World → Prop} :
    ∀ as bs s, EvolveAlong c cxpb maxN size C (as ++ bs) s ↔ EvolveAlong c cxpb maxN size C as s ∧
      EvolveAlong c cxpb maxN size C bs (evolve c cxpb maxN size as s)
  | [], _, _ => by simp [EvolveAlong, evolve]
  | (_, _) :: as, bs, _ => by
    simp only [List.cons_append, EvolveAlong, evolve, evolveAlong_append as bs, and_assoc]

/-! ### The operators do not fail but for pipelines that cannot be mutated -/

theorem evaluated_mono {k : Nat} {w w' : World} (h : Extends w w') {x : Nat} (hx : Evaluated k w x) :
    Evaluated k w' x := by
  obtain ⟨v, ⟨ind, h1, h2⟩, h3⟩ := hx
  exact ⟨v, ⟨ind, getElem?_prefix h1 h.2, h2⟩, h3⟩

theorem ofSpace_mono {ps : PSet} {w w' : World} (h : Extends w w') {x : Nat} (hx : OfSpace ps w x) :
    OfSpace ps w' x := by
  obtain ⟨ss, h1, h2⟩ := hx
  exact ⟨ss, h1.mono h, h2⟩

theorem mutate_or_cannot {c : OpConfig} (hu : Workable c) {w : World} {i : Nat} {p : List Step}
    (hi : Is w i p) (hp : PipelineOk c.ps p) :
    wp (opMutate c i) (fun _ _ => True) (fun _ _ => CannotMutate c p) w := by
  by_cases hc : CannotMutate c p
  · exact wp_mono (fun _ _ _ => trivial) (fun _ _ _ => hc) (wp_opMutate hu.ok hi hp)
  · have h1 : ∀ m, c.maxLength = some m → p.length ≤ m := by
      intro m hm
      by_contra h
      exact hc (Or.inl ⟨m, hm, by omega⟩)
    have hne : 1 ≤ p.length := by
      cases p with
      | nil => exact hp.elim
      | cons a l => simp
    obtain ⟨n, w', hr⟩ := C05_mutation_succeeds_partial c w i p hu.ok hu.distinct hu.preprocessors hu.retry
      hi hp h1 (by
        by_cases h2 : 2 ≤ p.length
        · exact Or.inl h2
        · right
          by_cases hl : c.maxLength = some 1
          · right
            by_contra h3
            exact hc (Or.inr ⟨hl, by omega, by unfold mutableValues at h3; omega⟩)
          · left
            intro m hm
            have := h1 m hm
            have : m ≠ 1 := by rintro rfl; exact hl hm
            omega)
    unfold wp
    rw [hr]
    trivial

theorem offspring_or_cannot {c : OpConfig} (hu : Workable c) {cxpb : ℚ} {w : World} {i j : Nat}
    {p q : List Step} (hi : Is w i p) (hj : Is w j q) (hp : PipelineOk c.ps p) (hq : PipelineOk c.ps q) :
    wp (offspringOf c cxpb i j) (fun _ _ => True) (fun _ _ => CannotMutate c p ∨ CannotMutate c q) w := by
  have hmut : ∀ w₁, w₁.nodes = w.nodes → w₁.inds = w.inds → wp (opMutate c i) (fun _ _ => True)
      (fun _ _ => CannotMutate c p ∨ CannotMutate c q) w₁ := fun w₁ hn hi' =>
    wp_mono (fun _ _ _ => trivial) (fun _ _ h => Or.inl h) (mutate_or_cannot hu (nodes_only hi hn hi') hp)
  unfold offspringOf
  rw [wp_bind]
  unfold randomBelow
  rw [wp_bind]
  refine wp_draw (fun d => ?_)
  refine wp_pure.2 ?_
  rw [wp_ite]
  refine ⟨fun _ => ?_, fun _ => hmut _ rfl rfl⟩
  obtain ⟨ind₁, l₁, e1, e2, rfl⟩ := is_iff.1 hi
  obtain ⟨ind₂, l₂, f1, f2, rfl⟩ := is_iff.1 hj
  rw [wp_bind]
  refine wp_validCrossoverFunctions (w := advance w) e1 f1 e2 f2 ?_
  rw [wp_ite]
  refine ⟨fun hlen => ?_, fun _ => hmut _ rfl rfl⟩
  refine wp_mono (fun _ _ _ => trivial) ?_ (wp_opMate hu.ok (nodes_only hi rfl rfl)
    (nodes_only hj rfl rfl) hp hq)
  have hlong : ∀ {ss : List Step}, exceeds c.maxLength ss.length = true → CannotMutate c ss := by
    intro ss h
    unfold exceeds at h
    cases hm : c.maxLength with
    | none => rw [hm] at h; cases h
    | some m => rw [hm] at h; exact Or.inl ⟨m, hm, of_decide_eq_true h⟩
  rintro e w' ⟨_, ⟨h, _⟩ | ⟨_, h | h | h⟩⟩
  · have := hu.retry; omega
  · exact Or.inl (hlong h)
  · exact Or.inr (hlong h)
  · rw [h] at hlen; simp at hlen

theorem twoMetrics_evaluated {k : Nat} (hk : 2 ≤ k) {w : World} {x : Nat} (h : Evaluated k w x) :
    ∃ v, twoMetrics x w = (.ok v, w) := by
  obtain ⟨v, hv, hl⟩ := h
  unfold twoMetrics
  rw [bind_ok (fitnessValues_run hv)]
  match v, hl with
  | a :: b :: _, _ => exact ⟨_, rfl⟩
  | [_], hl => simp at hl; omega
  | [], hl => simp at hl; omega

theorem mapGP_ok {α β : Type} {f : α → GP β} {w : World} : ∀ {l : List α},
    (∀ x ∈ l, ∃ y, f x w = (.ok y, w)) → ∃ ys, mapGP f l w = (.ok ys, w)
  | [], _ => ⟨[], rfl⟩
  | x :: l, h => by
    obtain ⟨y, hy⟩ := h x (by simp)
    obtain ⟨ys, hys⟩ := mapGP_ok (l := l) (fun z hz => h z (by simp [hz]))
    refine ⟨y :: ys, ?_⟩
    unfold mapGP
    rw [bind_ok hy, bind_ok hys]
    rfl

/-- Creation of one offspring from a population of evaluated pipelines. -/
theorem wp_create {c : OpConfig} (hu : Workable c) {cxpb : ℚ} {w : World} {pop : List Nat} {k : Nat}
    (hk : 2 ≤ k) (hpop : ∀ x ∈ pop, OfSpace c.ps w x) (hev : ∀ x ∈ pop, Evaluated k w x) :
    wp ((gamaOps c cxpb).create pop)
      (fun x w' => ∃ ss, Fresh w w' x ss ∧ PipelineOk c.ps ss)
      (fun e w' => Extends w w' ∧ ((pop.length < 3 ∧ e = .valueError) ∨
        ∃ x ∈ pop, ∃ ss, Is w x ss ∧ CannotMutate c ss)) w := by
  show wp (firstOf (createFromPopulation c pop 1 cxpb)) _ _ w
  unfold firstOf createFromPopulation
  rw [wp_bind, wp_ite]
  refine ⟨fun h => wp_raise.2 ⟨Extends.refl w, Or.inl ⟨h, rfl⟩⟩, fun hlen => ?_⟩
  rw [wp_bind]
  have hw : wp (mapGP twoMetrics pop) (fun vs w' => vs.length = pop.length ∧ (∀ v ∈ vs, v.length = 2) ∧ w' = w)
      (fun _ _ => False) w := by
    obtain ⟨vs, hvs⟩ := mapGP_ok (fun x hx => twoMetrics_evaluated hk (hev x hx))
    have h := mapGP_twoMetrics (pop := pop) (w := w)
    unfold wp at h ⊢
    rw [hvs] at h ⊢
    exact h
  refine wp_mono ?_ (fun _ _ h => h.elim) hw
  rintro vs w₁ ⟨h1, h2, rfl⟩
  rw [wp_bind]
  have hv : Vectors vs 2 := ⟨by decide, h2⟩
  refine wp_mono ?_ (fun _ _ h => h.elim) (wp_nsga2Select (P := Extends w₁)
    (fun _ h => h) hv 1 w₁ (Extends.refl _) (by omega))
  rintro ps w₂ ⟨⟨g2, g3⟩, hsame⟩
  obtain ⟨p, rfl⟩ : ∃ p, ps = [p] := List.length_eq_one_iff.1 g2
  obtain ⟨b1, b2, _⟩ := g3 p (by simp)
  rw [h1] at b1 b2
  have m1 : pop.getD p.1 0 ∈ pop := by
    rw [List.getD_eq_getElem _ _ b1]; exact List.getElem_mem b1
  have m2 : pop.getD p.2 0 ∈ pop := by
    rw [List.getD_eq_getElem _ _ b2]; exact List.getElem_mem b2
  obtain ⟨s1, i1, o1⟩ := hpop _ m1
  obtain ⟨s2, i2, o2⟩ := hpop _ m2
  unfold mapGP
  rw [wp_bind]
  refine wp_mono ?_ ?_ (wp_and (wp_offspringOf hu.ok (i1.mono hsame) (i2.mono hsame) o1 o2)
    (offspring_or_cannot hu (i1.mono hsame) (i2.mono hsame) o1 o2))
  · rintro x w' ⟨⟨child, hf, ho, _⟩, -⟩
    rw [wp_bind]
    refine ⟨child, ⟨Extends.trans hsame hf.ext, Nat.le_trans hsame.2.length_le hf.new, ?_⟩, ho⟩
    obtain ⟨as, ha, hb⟩ := hf.is
    exact ⟨as, ha, fun a h => Nat.le_trans hsame.1.length_le (hb a h)⟩
  · rintro e w' ⟨he, hc⟩
    refine ⟨Extends.trans hsame he, Or.inr ?_⟩
    rcases hc with hc | hc
    · exact ⟨_, m1, s1, i1, hc⟩
    · exact ⟨_, m2, s2, i2, hc⟩

theorem individual_ok {c : OpConfig} (hu : Workable c) (w : World) :
    ∃ n w', opIndividual c w = (.ok n, w') ∧ ∃ ss, Fresh w w' n ss ∧ PipelineOk c.ps ss := by
  have hw := wp_opIndividual (c := c) hu.ok (w := w)
  cases hrun : opIndividual c w with
  | mk r w' =>
    cases r with
    | ok n =>
      obtain ⟨ss, h1, h2, _⟩ := wp_ok hw hrun
      exact ⟨n, w', rfl, ss, h1, h2⟩
    | error e =>
      exfalso
      obtain ⟨_, ⟨h, _⟩ | ⟨h, _⟩ | ⟨hs, h, _⟩⟩ := wp_error hw hrun
      · unfold OpConfig.maxStart at h
        cases hl : c.maxLength with
        | none => rw [hl] at h; simp at h
        | some m => rw [hl] at h; have := hu.length m hl; simp at h; omega
      · exact hu.estimators h
      · rcases hu.preprocessors with g | g
        · exact g h
        · unfold OpConfig.maxStart at hs
          rw [g] at hs
          simp at hs

theorem eliminate_ok {c : OpConfig} {cxpb : ℚ} {w : World} {pop : List Nat} {k : Nat} (hne : pop ≠ [])
    (hev : ∀ x ∈ pop, Evaluated k w x) :
    ∃ x w', (gamaOps c cxpb).eliminate pop w = (.ok x, w') ∧ x ∈ pop ∧ Extends w w' := by
  obtain ⟨x, w', he, hx, hn, hi, _⟩ := C21_elimination (k := k) hne hev
  refine ⟨x, w', ?_, hx, hn ▸ List.prefix_rfl, hi ▸ List.prefix_rfl⟩
  show firstOf (eliminateFromPareto pop 1) w = _
  unfold firstOf
  simp only [bind, PyM.bind, he]
  rfl

/-! ### C126: searches evaluate pipelines of the search space -/

/-- What a step may do to the pipelines and their values. -/
def Keeps (k : Nat) (w w' : World) : Prop :=
  (∀ y ss, Is w y ss → Is w' y ss) ∧ ∀ y, Evaluated k w y → Evaluated k w' y

theorem Keeps.refl (k : Nat) (w : World) : Keeps k w w := ⟨fun _ _ h => h, fun _ h => h⟩

theorem Keeps.trans {k : Nat} {a b c : World} (h : Keeps k a b) (h' : Keeps k b c) : Keeps k a c :=
  ⟨fun y ss hy => h'.1 y ss (h.1 y ss hy), fun y hy => h'.2 y (h.2 y hy)⟩

theorem Keeps.of_extends {k : Nat} {w w' : World} (h : Extends w w') : Keeps k w w' :=
  ⟨fun _ _ hy => hy.mono h, fun _ hy => evaluated_mono h hy⟩

theorem Keeps.ofSpace {k : Nat} {w w' : World} (h : Keeps k w w') {ps : PSet} {x : Nat}
    (hx : OfSpace ps w x) : OfSpace ps w' x := by
  obtain ⟨ss, h1, h2⟩ := hx
  exact ⟨ss, h.1 x ss h1, h2⟩

/-- What is known of the individuals a program point carries. -/
def PcSound (ps : PSet) (k : Nat) (w : World) (pop : List Nat) : EaPc Nat → Prop
  | .start (.list l) => ∀ x ∈ l, OfSpace ps w x
  | .clear (.list l) => ∀ x ∈ l, OfSpace ps w x
  | .submit rest => ∀ x ∈ rest, OfSpace ps w x
  | .got x (.result true _) => OfSpace ps w x ∧ Evaluated k w x
  | .remove x => x ∈ pop
  | .renew _ made => ∀ x ∈ made, OfSpace ps w x
  | _ => True

/-- Before the population is emptied it is the output of earlier searches. -/
def EaPc.before : EaPc Nat → Bool
  | .start _ => true
  | .clear _ => true
  | _ => false

structure EaSound (ps : PSet) (k : Nat) (s : Ea World Nat) : Prop where
  submitted : ∀ x ∈ s.submitted, OfSpace ps s.world x
  pending : ∀ x ∈ s.pending, x ∈ s.submitted
  population : s.pc.before = false → ∀ x ∈ s.population, OfSpace ps s.world x ∧ Evaluated k s.world x
  pc : PcSound ps k s.world s.population s.pc

/-- A step with what it does to the world, and why it raises. -/
theorem sound_step {c : OpConfig} (hu : Workable c) {cxpb : ℚ} {maxN : Option Int}
    (hm : eaRefused maxN = false) {size k : Nat} (hk : 2 ≤ k)
    (s : Ea World Nat) (i : EaInput World) (h : EaSound c.ps k s) (hh : Honest k s i) :
    EaSound c.ps k (eaStep (gamaOps c cxpb) maxN size i s) ∧
    Keeps k s.world (eaStep (gamaOps c cxpb) maxN size i s).world ∧
    ∀ e, (eaStep (gamaOps c cxpb) maxN size i s).pc = .raised e → s.pc = .raised e ∨ EndedBy c s i e := by
  obtain ⟨hs, hp, hpop, hpc⟩ := h
  unfold eaStep
  cases hc : s.pc with
  | start l =>
    rw [hc] at hpc
    dsimp only
    rw [hm, if_neg (by simp)]
    refine ⟨⟨hs, hp, (fun h => by cases h), ?_⟩, Keeps.refl _ _, fun e he => by cases he⟩
    cases l <;> exact hpc
  | clear l =>
    rw [hc] at hpc
    cases l with
    | list l =>
      exact ⟨⟨hs, hp, fun _ x hx => (by cases hx), hpc⟩, Keeps.refl _ _, fun e he => by cases he⟩
    | sameAsOutput =>
      exact ⟨⟨hs, hp, fun _ x hx => (by cases hx), fun x hx => (by cases hx)⟩, Keeps.refl _ _,
        fun e he => by cases he⟩
  | submit rest =>
    rw [hc] at hpc hpop
    cases rest with
    | nil => exact ⟨⟨hs, hp, fun _ => hpop rfl, trivial⟩, Keeps.refl _ _, fun e he => by cases he⟩
    | cons x xs =>
      refine ⟨⟨fun y hy => ?_, fun y hy => ?_, fun _ => hpop rfl, fun y hy => hpc y (by simp [hy])⟩,
        Keeps.refl _ _, fun e he => by cases he⟩
      · rcases List.mem_append.1 hy with hy | hy
        · exact hs y hy
        · rw [List.mem_singleton.1 hy]; exact hpc x (by simp)
      · rcases List.mem_append.1 hy with hy | hy
        · exact List.mem_append.2 (Or.inl (hp y hy))
        · exact List.mem_append.2 (Or.inr hy)
  | loop =>
    rw [hc] at hpop
    dsimp only
    split
    · cases hw : i.wait with
      | raises e =>
        refine ⟨⟨hs, hp, fun _ => hpop rfl, trivial⟩, Keeps.refl _ _, fun e' he => Or.inr ?_⟩
        injection he with he
        subst he
        exact .environment hc hw
      | completes j r w =>
        dsimp only
        obtain ⟨k1, k2, k3⟩ := hh hc j r w hw
        have hkeep : Keeps k s.world w := ⟨k1, k2⟩
        cases ht : takePending s.pending j with
        | none =>
          refine ⟨⟨hs, hp, fun _ => hpop rfl, trivial⟩, Keeps.refl _ _, fun e' he => Or.inr ?_⟩
          injection he with he
          exact .starved hc (takePending_none ht) he.symm
        | some q =>
          obtain ⟨x, rest⟩ := q
          have hx : s.pending[j % s.pending.length]? = some x := by
            unfold takePending at ht
            cases hg : s.pending[j % s.pending.length]? with
            | none => rw [hg] at ht; cases ht
            | some y => rw [hg] at ht; cases ht; rfl
          obtain ⟨m1, -, m3⟩ := takePending_some ht
          refine ⟨⟨fun y hy => hkeep.ofSpace (hs y hy), fun y hy => hp y (m3.mem_iff.2 (by simp [hy])),
            fun _ y hy => ⟨hkeep.ofSpace (hpop rfl y hy).1, hkeep.2 y (hpop rfl y hy).2⟩, ?_⟩,
            hkeep, fun e he => by cases he⟩
          cases r with
          | failed => trivial
          | result b score =>
            cases b with
            | false => trivial
            | true => exact ⟨hkeep.ofSpace (hs x (hp x m1)), k3 x score hx rfl⟩
    · exact ⟨⟨hs, hp, fun _ => hpop rfl, trivial⟩, Keeps.refl _ _, fun e he => by cases he⟩
  | got x r =>
    rw [hc] at hpc hpop
    cases r with
    | failed => exact ⟨⟨hs, hp, fun _ => hpop rfl, trivial⟩, Keeps.refl _ _, fun e he => by cases he⟩
    | result b score =>
      cases b with
      | false => exact ⟨⟨hs, hp, fun _ => hpop rfl, trivial⟩, Keeps.refl _ _, fun e he => by cases he⟩
      | true =>
        refine ⟨⟨hs, hp, fun _ y hy => ?_, trivial⟩, Keeps.refl _ _, fun e he => by cases he⟩
        rcases List.mem_append.1 hy with hy | hy
        · exact hpop rfl y hy
        · rw [List.mem_singleton.1 hy]; exact hpc
  | full =>
    rw [hc] at hpop
    dsimp only
    split
    · rename_i hlt
      have hne : s.population ≠ [] := by
        intro he; rw [he] at hlt; simp at hlt
      obtain ⟨x, w', he, hx, hex⟩ := eliminate_ok (c := c) (cxpb := cxpb) hne (fun y hy => (hpop rfl y hy).2)
      rw [he]
      have hkeep : Keeps k s.world w' := Keeps.of_extends hex
      exact ⟨⟨fun y hy => hkeep.ofSpace (hs y hy), hp, fun _ y hy => ⟨hkeep.ofSpace (hpop rfl y hy).1,
        hkeep.2 y (hpop rfl y hy).2⟩, hx⟩, hkeep, fun e he => by cases he⟩
    · exact ⟨⟨hs, hp, fun _ => hpop rfl, trivial⟩, Keeps.refl _ _, fun e he => by cases he⟩
  | remove x =>
    rw [hc] at hpop hpc
    dsimp only
    rw [if_pos (show x ∈ s.population from hpc)]
    exact ⟨⟨hs, hp, fun _ y hy => hpop rfl y (List.mem_of_mem_erase hy), trivial⟩, Keeps.refl _ _,
      fun e he => by cases he⟩
  | fill =>
    rw [hc] at hpop
    dsimp only
    split
    · have hw := wp_create hu (cxpb := cxpb) hk (fun x hx => (hpop rfl x hx).1)
        (fun x hx => (hpop rfl x hx).2)
      cases hr : (gamaOps c cxpb).create s.population s.world with
      | mk r w' =>
        cases r with
        | error e =>
          obtain ⟨hex, hwhy⟩ := wp_error hw hr
          have hkeep : Keeps k s.world w' := Keeps.of_extends hex
          refine ⟨⟨fun y hy => hkeep.ofSpace (hs y hy), hp, fun _ y hy => ⟨hkeep.ofSpace (hpop rfl y hy).1,
            hkeep.2 y (hpop rfl y hy).2⟩, trivial⟩, hkeep, fun e' he => Or.inr ?_⟩
          injection he with he
          subst he
          rcases hwhy with ⟨h1, h2⟩ | ⟨x, hx, ss, h1, h2⟩
          · exact .few hc ‹_› h1 h2
          · exact .stuck hc hx h1 h2
        | ok x =>
          obtain ⟨ss, hf, hok⟩ := wp_ok hw hr
          have hkeep : Keeps k s.world w' := Keeps.of_extends hf.ext
          refine ⟨⟨fun y hy => ?_, fun y hy => ?_, fun _ y hy => ⟨hkeep.ofSpace (hpop rfl y hy).1,
            hkeep.2 y (hpop rfl y hy).2⟩, trivial⟩, hkeep, fun e he => by cases he⟩
          · rcases List.mem_append.1 hy with hy | hy
            · exact hkeep.ofSpace (hs y hy)
            · obtain ⟨as, ha, _⟩ := hf.is
              rw [List.mem_singleton.1 hy]; exact ⟨ss, ⟨as, ha⟩, hok⟩
          · rcases List.mem_append.1 hy with hy | hy
            · exact List.mem_append.2 (Or.inl (hp y hy))
            · exact List.mem_append.2 (Or.inr hy)
    · exact ⟨⟨hs, hp, fun _ => hpop rfl, trivial⟩, Keeps.refl _ _, fun e he => by cases he⟩
  | restart =>
    rw [hc] at hpop
    dsimp only
    split
    · exact ⟨⟨hs, hp, fun _ => hpop rfl, fun x hx => by cases hx⟩, Keeps.refl _ _, fun e he => by cases he⟩
    · exact ⟨⟨hs, hp, fun _ => hpop rfl, trivial⟩, Keeps.refl _ _, fun e he => by cases he⟩
  | renew n made =>
    rw [hc] at hpop hpc
    cases n with
    | zero => exact ⟨⟨hs, hp, (fun h => by cases h), hpc⟩, Keeps.refl _ _, fun e he => by cases he⟩
    | succ n =>
      dsimp only
      obtain ⟨x, w', he, ss, hf, hok⟩ := individual_ok hu s.world
      have he' : (gamaOps c cxpb).individual s.world = (.ok x, w') := he
      rw [he']
      have hkeep : Keeps k s.world w' := Keeps.of_extends hf.ext
      refine ⟨⟨fun y hy => hkeep.ofSpace (hs y hy), hp, fun _ y hy => ⟨hkeep.ofSpace (hpop rfl y hy).1,
        hkeep.2 y (hpop rfl y hy).2⟩, fun y hy => ?_⟩, hkeep, fun e he => by cases he⟩
      rcases List.mem_append.1 hy with hy | hy
      · exact hkeep.ofSpace (hpc y hy)
      · obtain ⟨as, ha, _⟩ := hf.is
        rw [List.mem_singleton.1 hy]; exact ⟨ss, ⟨as, ha⟩, hok⟩
  | returned =>
    exact ⟨⟨hs, hp, hpop, hpc⟩, Keeps.refl _ _, fun e he => by rw [hc] at he; cases he⟩
  | raised e =>
    exact ⟨⟨hs, hp, hpop, hpc⟩, Keeps.refl _ _, fun e' he => Or.inl (by rw [← hc]; exact he)⟩

theorem sound_start {ps : PSet} {k : Nat} {l out : List Nat} {w : World} (hl : ∀ x ∈ l, OfSpace ps w x) :
    EaSound ps k (eaStart (.list l) out w) :=
  ⟨fun x hx => (by cases hx), fun x hx => (by cases hx), fun h => (by cases h), hl⟩

theorem sound_run {c : OpConfig} (hu : Workable c) {cxpb : ℚ} {maxN : Option Int}
    (hm : eaRefused maxN = false) {size k : Nat} (hk : 2 ≤ k) :
    ∀ is s, EaSound c.ps k s → EvolveAlong c cxpb maxN size (Honest k) is s →
      EaSound c.ps k (evolve c cxpb maxN size is s) ∧ Keeps k s.world (evolve c cxpb maxN size is s).world
  | [], s, h, _ => ⟨h, Keeps.refl _ _⟩
  | (d, i) :: is, s, h, hh => by
    have hu' : Workable { c with completed := d } :=
      ⟨hu.ok, hu.distinct, hu.estimators, hu.preprocessors, hu.retry, hu.length⟩
    obtain ⟨h1, h2, _⟩ := sound_step hu' (cxpb := cxpb) hm (size := size) hk s i h hh.1
    obtain ⟨h3, h4⟩ := sound_run hu hm hk is _ h1 hh.2
    exact ⟨h3, h2.trans h4⟩

/-- **C126** for the evolutionary search: every individual it submits for evaluation, and every one in its
population, is a well-formed pipeline of the search space; and whatever an individual is at one moment, it
is ever after. -/
theorem C126_evolution {c : OpConfig} (hu : Workable c) {cxpb : ℚ} {maxN : Option Int}
    (hm : eaRefused maxN = false) {size k : Nat} (hk : 2 ≤ k) {l out : List Nat} {w : World}
    (hl : ∀ x ∈ l, OfSpace c.ps w x) (is later : List ((Str → Bool) × EaInput World))
    (hh : EvolveAlong c cxpb maxN size (Honest k) (is ++ later) (eaStart (.list l) out w)) :
    (∀ x ∈ (evolve c cxpb maxN size is (eaStart (.list l) out w)).submitted, ∃ ss, PipelineOk c.ps ss ∧
      Is (evolve c cxpb maxN size is (eaStart (.list l) out w)).world x ss ∧
      Is (evolve c cxpb maxN size (is ++ later) (eaStart (.list l) out w)).world x ss) ∧
    ((evolve c cxpb maxN size is (eaStart (.list l) out w)).pc = .returned ∨
      (∃ e, (evolve c cxpb maxN size is (eaStart (.list l) out w)).pc = .raised e) →
      ∀ x ∈ (evolve c cxpb maxN size is (eaStart (.list l) out w)).population,
        OfSpace c.ps (evolve c cxpb maxN size is (eaStart (.list l) out w)).world x) := by
  obtain ⟨h1, h2⟩ := (evolveAlong_append is later _).1 hh
  obtain ⟨h3, _⟩ := sound_run hu hm hk is _ (sound_start hl) h1
  obtain ⟨_, h4⟩ := sound_run hu hm hk later _ h3 h2
  rw [evolve_append]
  refine ⟨fun x hx => ?_, fun hpc x hx => ?_⟩
  · obtain ⟨ss, g1, g2⟩ := h3.submitted x hx
    exact ⟨ss, g2, g1, h4.1 x ss g1⟩
  · refine (h3.population ?_ x hx).1
    rcases hpc with hpc | ⟨e, hpc⟩ <;> rw [hpc] <;> rfl

/-- As `Honest`: waiting for an evaluation does not change pipelines. -/
def Spec.WaitKeeps (w : World) : Wait World → Prop
  | .raises _ => True
  | .completes _ _ w' => ∀ y ss, Is w y ss → Is w' y ss

/-- Each input satisfies a condition in the state in which it is used. -/
def Spec.RsAlong (o : SearchOps World Nat) (maxN : Option Int) (C : Rs World Nat → Wait World → Prop) :
    List (Wait World) → Rs World Nat → Prop
  | [], _ => True
  | i :: is, s => C s i ∧ RsAlong o maxN C is (rsStep o maxN i s)

structure RsSound (ps : PSet) (s : Rs World Nat) : Prop where
  submitted : ∀ x ∈ s.submitted, OfSpace ps s.world x
  pc : match s.pc with
    | .submit rest => ∀ x ∈ rest, OfSpace ps s.world x
    | _ => True

/-- What a step may do to the pipelines. -/
def KeepsAll (w w' : World) : Prop := ∀ y ss, Is w y ss → Is w' y ss

theorem KeepsAll.ofSpace {w w' : World} (h : KeepsAll w w') {ps : PSet} {x : Nat}
    (hx : OfSpace ps w x) : OfSpace ps w' x := by
  obtain ⟨ss, h1, h2⟩ := hx
  exact ⟨ss, h x ss h1, h2⟩

theorem rsSound_step {c : OpConfig} (hu : Workable c) {cxpb : ℚ} {maxN : Option Int} (s : Rs World Nat)
    (i : Wait World) (h : RsSound c.ps s) (hh : WaitKeeps s.world i) :
    RsSound c.ps (rsStep (gamaOps c cxpb) maxN i s) ∧
    KeepsAll s.world (rsStep (gamaOps c cxpb) maxN i s).world := by
  obtain ⟨hs, hpc⟩ := h
  have hid : KeepsAll s.world s.world := fun _ _ h => h
  unfold rsStep
  cases hc : s.pc with
  | submit rest =>
    rw [hc] at hpc
    cases rest with
    | nil => exact ⟨⟨hs, trivial⟩, hid⟩
    | cons x xs =>
      refine ⟨⟨fun y hy => ?_, fun y hy => hpc y (by simp [hy])⟩, hid⟩
      rcases List.mem_append.1 hy with hy | hy
      · exact hs y hy
      · rw [List.mem_singleton.1 hy]; exact hpc x (by simp)
  | loop =>
    dsimp only
    split
    · cases i with
      | raises e => exact ⟨⟨hs, trivial⟩, hid⟩
      | completes j r w =>
        dsimp only
        have hk : KeepsAll s.world w := hh
        cases takePending s.pending j with
        | none => exact ⟨⟨hs, trivial⟩, hid⟩
        | some q => exact ⟨⟨fun y hy => hk.ofSpace (hs y hy), trivial⟩, hk⟩
    · exact ⟨⟨hs, trivial⟩, hid⟩
  | got x r => cases r <;> exact ⟨⟨hs, trivial⟩, hid⟩
  | next =>
    dsimp only
    obtain ⟨x, w', he, ss, hf, hok⟩ := individual_ok hu s.world
    have he' : (gamaOps c cxpb).individual s.world = (.ok x, w') := he
    rw [he']
    have hk : KeepsAll s.world w' := fun _ _ h => h.mono hf.ext
    refine ⟨⟨fun y hy => ?_, trivial⟩, hk⟩
    rcases List.mem_append.1 hy with hy | hy
    · exact hk.ofSpace (hs y hy)
    · obtain ⟨as, ha, _⟩ := hf.is
      rw [List.mem_singleton.1 hy]; exact ⟨ss, ⟨as, ha⟩, hok⟩
  | returned => exact ⟨⟨hs, hpc⟩, hid⟩
  | raised e => exact ⟨⟨hs, hpc⟩, hid⟩

theorem rsSound_run {c : OpConfig} (hu : Workable c) {cxpb : ℚ} {maxN : Option Int} :
    ∀ is s, RsSound c.ps s → RsAlong (gamaOps c cxpb) maxN (fun s i => WaitKeeps s.world i) is s →
      RsSound c.ps (rsRun (gamaOps c cxpb) maxN is s) ∧
        KeepsAll s.world (rsRun (gamaOps c cxpb) maxN is s).world
  | [], _, h, _ => ⟨h, fun _ _ h => h⟩
  | i :: is, s, h, hh => by
    obtain ⟨h1, h2⟩ := rsSound_step hu (cxpb := cxpb) (maxN := maxN) s i h hh.1
    obtain ⟨h3, h4⟩ := rsSound_run hu is _ h1 hh.2
    exact ⟨h3, fun y ss hy => h4 y ss (h2 y ss hy)⟩

theorem rsRun_append {o : SearchOps World Nat} {maxN : Option Int} :
    ∀ as bs s, rsRun o maxN (as ++ bs) s = rsRun o maxN bs (rsRun o maxN as s)
  | [], _, _ => rfl
  | _ :: as, bs, _ => rsRun_append as bs _

theorem rsAlong_append {o : SearchOps World Nat} {maxN : Option Int} {C : Rs World Nat → Wait World → Prop} :
    ∀ as bs s, RsAlong o maxN C (as ++ bs) s ↔ RsAlong o maxN C as s ∧ RsAlong o maxN C bs (rsRun o maxN as s)
  | [], _, _ => by simp [RsAlong, rsRun]
  | _ :: as, bs, _ => by simp only [List.cons_append, RsAlong, rsRun, rsAlong_append as bs, and_assoc]

/-- **C126** for random search. -/
theorem C126_random_search {c : OpConfig} (hu : Workable c) {cxpb : ℚ} {maxN : Option Int}
    {l out : List Nat} {w : World} (hl : ∀ x ∈ l, OfSpace c.ps w x) (is later : List (Wait World))
    (hh : RsAlong (gamaOps c cxpb) maxN (fun s i => WaitKeeps s.world i) (is ++ later)
      (rsStart (.list l) out w)) :
    ∀ x ∈ (rsRun (gamaOps c cxpb) maxN is (rsStart (.list l) out w)).submitted, ∃ ss, PipelineOk c.ps ss ∧
      Is (rsRun (gamaOps c cxpb) maxN is (rsStart (.list l) out w)).world x ss ∧
      Is (rsRun (gamaOps c cxpb) maxN (is ++ later) (rsStart (.list l) out w)).world x ss := by
  obtain ⟨h1, h2⟩ := (rsAlong_append is later _).1 hh
  obtain ⟨h3, _⟩ := rsSound_run hu is _ (⟨fun x hx => (by cases hx), hl⟩ : RsSound c.ps (rsStart (.list l) out w)) h1
  obtain ⟨_, h4⟩ := rsSound_run hu later _ h3 h2
  rw [rsRun_append]
  intro x hx
  obtain ⟨ss, g1, g2⟩ := h3.submitted x hx
  exact ⟨ss, g2, g1, h4 x ss g1⟩

/-- Each input satisfies a condition in the state in which it is used. -/
def Spec.AshaAlong (o : SearchOps World Nat) (a : AshaConfig) (C : Asha World Nat → AshaInput World → Prop) :
    List (AshaInput World) → Asha World Nat → Prop
  | [], _ => True
  | i :: is, s => C s i ∧ AshaAlong o a C is (ashaStep o a i s)

/-- All individuals an ASHA search holds satisfy `Q`, those at its present point apart. -/
structure AshaIn (Q : Nat → Prop) (s : Asha World Nat) : Prop where
  submitted : ∀ x ∈ s.submitted, Q x.1
  pending : ∀ x ∈ s.pending, Q x.1
  candidates : ∀ x ∈ s.candidates, Q x
  rungs : ∀ r ∈ s.rungs, ∀ x ∈ r.2, Q x.2

/-- … and those at its present point. -/
def AshaPcIn (Q : Nat → Prop) : AshaPc Nat → Prop
  | .got x _ _ => Q x
  | .returned l => ∀ x ∈ l, Q x
  | _ => True

theorem AshaIn.mono {Q Q' : Nat → Prop} (h : ∀ x, Q x → Q' x) {s : Asha World Nat} (hs : AshaIn Q s) :
    AshaIn Q' s :=
  ⟨fun x hx => h _ (hs.submitted x hx), fun x hx => h _ (hs.pending x hx), fun x hx => h _ (hs.candidates x hx),
    fun r hr x hx => h _ (hs.rungs r hr x hx)⟩

theorem ashaReport_in {Q : Nat → Prop} {rungs : List (Nat × List (RungEntry Nat))}
    (h : ∀ r ∈ rungs, ∀ x ∈ r.2, Q x.2) (k : Nat) : AshaPcIn Q (ashaReport rungs k) := by
  unfold ashaReport
  cases hd : dget rungs k with
  | none => trivial
  | some l =>
    intro x hx
    obtain ⟨y, hy, rfl⟩ := List.mem_map.1 hx
    exact h _ (dget_mem hd) y hy

theorem ashaHandle_in {Q : Nat → Prop} {rungs : List (Nat × List (RungEntry Nat))}
    (h : ∀ r ∈ rungs, ∀ x ∈ r.2, Q x.2) (e : Exn) : AshaPcIn Q (ashaHandle rungs e) := by
  unfold ashaHandle
  split
  · split
    · exact ashaReport_in h _
    · trivial
  · trivial

theorem mem_of_takePending {α : Type} : ∀ {l : List α} {k : Nat} {x : α} {rest : List α},
    takePending l k = some (x, rest) → x ∈ l ∧ ∀ y ∈ rest, y ∈ l := by
  intro l k x rest h
  unfold takePending at h
  cases hg : l[k % l.length]? with
  | none => rw [hg] at h; cases h
  | some y =>
    rw [hg] at h
    simp only [Option.some.injEq, Prod.mk.injEq] at h
    obtain ⟨rfl, rfl⟩ := h
    exact ⟨List.mem_of_getElem? hg, fun z hz => List.mem_of_mem_eraseIdx hz⟩

theorem mem_dset {α β : Type} [DecidableEq α] {k : α} {v : β} : ∀ {d : List (α × β)} {x : α × β},
    x ∈ dset d k v → x = (k, v) ∨ x ∈ d ∨ x.2 = v
  | [], x, h => Or.inl (by simpa [dset] using h)
  | (k', v') :: d, x, h => by
    unfold dset at h
    split at h
    · rcases List.mem_cons.1 h with rfl | h
      · exact Or.inr (Or.inr rfl)
      · exact Or.inr (Or.inl (by simp [h]))
    · rcases List.mem_cons.1 h with rfl | h
      · exact Or.inr (Or.inl (by simp))
      · rcases mem_dset h with h | h | h
        · exact Or.inl h
        · exact Or.inr (Or.inl (by simp [h]))
        · exact Or.inr (Or.inr h)

theorem getJob_in {c : OpConfig} (hu : Workable c) {cxpb : ℚ} (a : AshaConfig) (k : Nat) (s : Asha World Nat)
    (h : AshaIn (OfSpace c.ps s.world) s) :
    ∃ x rung s', getJob (gamaOps c cxpb) a k s = (.ok (x, rung), s') ∧ KeepsAll s.world s'.world ∧
      OfSpace c.ps s'.world x ∧ AshaIn (OfSpace c.ps s'.world) s' := by
  unfold getJob
  cases hf : findPromotion a.rf k s.promoted s.rungs.tail with
  | some y =>
    obtain ⟨rung, y⟩ := y
    obtain ⟨inds, hm, _, hy, _⟩ := findPromotion_some hf
    exact ⟨_, _, _, rfl, fun _ _ h => h, h.rungs _ (List.mem_of_mem_tail hm) y hy,
      ⟨h.submitted, h.pending, h.candidates, h.rungs⟩⟩
  | none =>
    dsimp only
    cases hl : s.candidates.getLast? with
    | some x =>
      exact ⟨_, _, _, rfl, fun _ _ h => h, h.candidates x (List.mem_of_getLast? hl),
        ⟨h.submitted, h.pending, fun y hy => h.candidates y (List.mem_of_mem_dropLast hy), h.rungs⟩⟩
    | none =>
      dsimp only
      obtain ⟨x, w', he, ss, hf, hok⟩ := individual_ok hu s.world
      have he' : (gamaOps c cxpb).individual s.world = (.ok x, w') := he
      rw [he']
      have hk : KeepsAll s.world w' := fun _ _ h => h.mono hf.ext
      obtain ⟨as, ha, _⟩ := hf.is
      obtain ⟨h1, h2, h3, h4⟩ := h.mono (fun x hx => hk.ofSpace hx)
      exact ⟨_, _, _, rfl, hk, ⟨ss, ⟨as, ha⟩, hok⟩, ⟨h1, h2, h3, h4⟩⟩

theorem startJob_in {c : OpConfig} (hu : Workable c) {cxpb : ℚ} (a : AshaConfig) (k : Nat) (s : Asha World Nat)
    (h : AshaIn (OfSpace c.ps s.world) s) :
    ∃ r s', startJob (gamaOps c cxpb) a k s = (r, s') ∧ KeepsAll s.world s'.world ∧
      AshaIn (OfSpace c.ps s'.world) s' := by
  obtain ⟨x, rung, s', he, hk, hx, hs⟩ := getJob_in hu (cxpb := cxpb) a k s h
  have : startJob (gamaOps c cxpb) a k s =
      (if rung ∈ a.levels then
        modify fun s => { s with pending := s.pending ++ [(x, rung)], submitted := s.submitted ++ [(x, rung)] }
      else raise .keyError : PyM (Asha World Nat) Unit) s' := by
    show PyM.bind _ _ s = _
    unfold PyM.bind
    rw [he]
  rw [this]
  by_cases hr : rung ∈ a.levels
  · rw [if_pos hr]
    refine ⟨_, _, rfl, hk, ⟨fun y hy => ?_, fun y hy => ?_, hs.candidates, hs.rungs⟩⟩
    · rcases List.mem_append.1 hy with hy | hy
      · exact hs.submitted y hy
      · rw [List.mem_singleton.1 hy]; exact hx
    · rcases List.mem_append.1 hy with hy | hy
      · exact hs.pending y hy
      · rw [List.mem_singleton.1 hy]; exact hx
  · rw [if_neg hr]
    exact ⟨_, _, rfl, hk, hs⟩

theorem ashaIn_step {c : OpConfig} (hu : Workable c) {cxpb : ℚ} (a : AshaConfig) (i : AshaInput World)
    (s : Asha World Nat) (h : AshaIn (OfSpace c.ps s.world) s) (hpc : AshaPcIn (OfSpace c.ps s.world) s.pc)
    (hh : WaitKeeps s.world i.wait) :
    AshaIn (OfSpace c.ps (ashaStep (gamaOps c cxpb) a i s).world) (ashaStep (gamaOps c cxpb) a i s) ∧
    AshaPcIn (OfSpace c.ps (ashaStep (gamaOps c cxpb) a i s).world) (ashaStep (gamaOps c cxpb) a i s).pc ∧
    KeepsAll s.world (ashaStep (gamaOps c cxpb) a i s).world := by
  have hid : KeepsAll s.world s.world := fun _ _ h => h
  have hsame : ∀ pc, AshaPcIn (OfSpace c.ps s.world) pc →
      AshaIn (OfSpace c.ps s.world) { s with pc := pc } ∧ AshaPcIn (OfSpace c.ps s.world) pc ∧
        KeepsAll s.world s.world :=
    fun pc hpc => ⟨⟨h.submitted, h.pending, h.candidates, h.rungs⟩, hpc, hid⟩
  unfold ashaStep
  cases hc : s.pc with
  | starting k =>
    cases k with
    | zero => exact hsame _ trivial
    | succ k =>
      dsimp only
      obtain ⟨r, s', he, hk, hs⟩ := startJob_in hu (cxpb := cxpb) a i.pick s h
      rw [he]
      cases r with
      | error e => exact ⟨⟨hs.submitted, hs.pending, hs.candidates, hs.rungs⟩, ashaHandle_in hs.rungs e, hk⟩
      | ok _ => exact ⟨⟨hs.submitted, hs.pending, hs.candidates, hs.rungs⟩, trivial, hk⟩
  | loop =>
    dsimp only
    cases ashaMore a s with
    | error e => exact hsame _ (ashaHandle_in h.rungs e)
    | ok b =>
      cases b with
      | false =>
        dsimp only
        cases a.levels.head? with
        | none => exact hsame _ trivial
        | some top => exact hsame _ (ashaReport_in h.rungs top)
      | true =>
        dsimp only
        revert hh
        cases i.wait with
        | raises e => exact fun _ => hsame _ (ashaHandle_in h.rungs e)
        | completes j r w =>
          intro hk
          dsimp only
          cases ht : takePending s.pending j with
          | none => exact hsame _ (ashaHandle_in h.rungs _)
          | some q =>
            obtain ⟨⟨x, rung⟩, rest⟩ := q
            obtain ⟨hx, hr⟩ := mem_of_takePending ht
            have h' := h.mono (Q' := OfSpace c.ps w) (fun x hx => KeepsAll.ofSpace hk hx)
            exact ⟨⟨h'.submitted, fun y hy => h'.pending y (hr y hy), h'.candidates, h'.rungs⟩,
              h'.pending _ hx, hk⟩
  | got x rung r =>
    rw [hc] at hpc
    cases r with
    | failed => exact hsame _ trivial
    | result _ score =>
      dsimp only
      cases hd : dget s.rungs rung with
      | none => exact hsame _ (ashaHandle_in h.rungs _)
      | some l =>
        refine ⟨⟨h.submitted, h.pending, h.candidates, fun q hq y hy => ?_⟩, trivial, hid⟩
        have hv : ∀ y ∈ l ++ [(score, x)], OfSpace c.ps s.world y.2 := by
          intro y hy
          rcases List.mem_append.1 hy with hy | hy
          · exact h.rungs _ (dget_mem hd) y hy
          · rw [List.mem_singleton.1 hy]; exact hpc
        rcases mem_dset hq with rfl | hq | hq
        · exact hv y hy
        · exact h.rungs q hq y hy
        · rw [hq] at hy; exact hv y hy
  | next =>
    dsimp only
    obtain ⟨r, s', he, hk, hs⟩ := startJob_in hu (cxpb := cxpb) a i.pick s h
    rw [he]
    cases r with
    | error e => exact ⟨⟨hs.submitted, hs.pending, hs.candidates, hs.rungs⟩, ashaHandle_in hs.rungs e, hk⟩
    | ok _ => exact ⟨⟨hs.submitted, hs.pending, hs.candidates, hs.rungs⟩, trivial, hk⟩
  | returned l => rw [hc] at hpc; exact ⟨h, by rw [hc]; exact hpc, hid⟩
  | raised e => exact ⟨h, by rw [hc]; trivial, hid⟩

theorem ashaIn_run {c : OpConfig} (hu : Workable c) {cxpb : ℚ} (a : AshaConfig) :
    ∀ is s, AshaIn (OfSpace c.ps s.world) s → AshaPcIn (OfSpace c.ps s.world) s.pc →
      AshaAlong (gamaOps c cxpb) a (fun s i => WaitKeeps s.world i.wait) is s →
      AshaIn (OfSpace c.ps (ashaRun (gamaOps c cxpb) a is s).world) (ashaRun (gamaOps c cxpb) a is s) ∧
      AshaPcIn (OfSpace c.ps (ashaRun (gamaOps c cxpb) a is s).world) (ashaRun (gamaOps c cxpb) a is s).pc ∧
      KeepsAll s.world (ashaRun (gamaOps c cxpb) a is s).world
  | [], _, h, hp, _ => ⟨h, hp, fun _ _ h => h⟩
  | i :: is, s, h, hp, hh => by
    obtain ⟨h1, h2, h3⟩ := ashaIn_step hu (cxpb := cxpb) a i s h hp hh.1
    obtain ⟨g1, g2, g3⟩ := ashaIn_run hu a is _ h1 h2 hh.2
    exact ⟨g1, g2, fun y ss hy => g3 y ss (h3 y ss hy)⟩

theorem ashaRun_append {o : SearchOps World Nat} {a : AshaConfig} :
    ∀ as bs s, ashaRun o a (as ++ bs) s = ashaRun o a bs (ashaRun o a as s)
  | [], _, _ => rfl
  | _ :: as, bs, _ => ashaRun_append as bs _

theorem ashaAlong_append {o : SearchOps World Nat} {a : AshaConfig}
    {C : Asha World Nat → AshaInput World → Prop} :
    ∀ as bs s, AshaAlong o a C (as ++ bs) s ↔ AshaAlong o a C as s ∧ AshaAlong o a C bs (ashaRun o a as s)
  | [], _, _ => by simp [AshaAlong, ashaRun]
  | _ :: as, bs, _ => by simp only [List.cons_append, AshaAlong, ashaRun, ashaAlong_append as bs, and_assoc]

/-- **C126** for successive halving: also of the individuals it reports, by itself or when
interrupted. -/
theorem C126_halving {c : OpConfig} (hu : Workable c) {cxpb : ℚ} {a : AshaConfig}
    {l : List Nat} {w : World} (hl : ∀ x ∈ l, OfSpace c.ps w x) (is later : List (AshaInput World))
    (hh : AshaAlong (gamaOps c cxpb) a (fun s i => WaitKeeps s.world i.wait) (is ++ later) (ashaStart a l w))
    (x : Nat)
    (hx : (∃ rung, (x, rung) ∈ (ashaRun (gamaOps c cxpb) a is (ashaStart a l w)).submitted) ∨
      (∃ r, (ashaRun (gamaOps c cxpb) a is (ashaStart a l w)).pc = .returned r ∧ x ∈ r) ∨
      ∃ r, ashaInterrupt (ashaRun (gamaOps c cxpb) a is (ashaStart a l w)) = .returned r ∧ x ∈ r) :
    ∃ ss, PipelineOk c.ps ss ∧ Is (ashaRun (gamaOps c cxpb) a is (ashaStart a l w)).world x ss ∧
      Is (ashaRun (gamaOps c cxpb) a (is ++ later) (ashaStart a l w)).world x ss := by
  obtain ⟨h1, h2⟩ := (ashaAlong_append is later _).1 hh
  have h0 : AshaIn (OfSpace c.ps w) (ashaStart a l w) :=
    ⟨fun x hx => (by cases hx), fun x hx => (by cases hx), hl, fun r hr x hx => by
      obtain ⟨k, _, rfl⟩ := List.mem_map.1 hr
      cases hx⟩
  obtain ⟨h3, h4, _⟩ := ashaIn_run hu (cxpb := cxpb) a is (ashaStart a l w) h0 trivial h1
  obtain ⟨_, _, h5⟩ := ashaIn_run hu (cxpb := cxpb) a later _ h3 h4 h2
  rw [ashaRun_append]
  have key : OfSpace c.ps (ashaRun (gamaOps c cxpb) a is (ashaStart a l w)).world x := by
    rcases hx with ⟨rung, hx⟩ | ⟨r, hr, hx⟩ | ⟨r, hr, hx⟩
    · exact h3.submitted _ hx
    · rw [hr] at h4; exact h4 x hx
    · have h6 := ashaHandle_in h3.rungs .timeout
      unfold ashaInterrupt at hr
      rw [hr] at h6; exact h6 x hx
  obtain ⟨ss, g1, g2⟩ := key
  exact ⟨ss, g2, g1, h5 x ss g1⟩

/-! ### C127: what ends an evolutionary search -/

theorem ended_by {c : OpConfig} (hu : Workable c) {cxpb : ℚ} {maxN : Option Int}
    (hm : eaRefused maxN = false) {size k : Nat} (hk : 2 ≤ k) (e : Exn) :
    ∀ is s, EaSound c.ps k s → EvolveAlong c cxpb maxN size (Honest k) is s → s.pc ≠ .raised e →
      (evolve c cxpb maxN size is s).pc = .raised e →
      ∃ as d i bs, is = as ++ (d, i) :: bs ∧ EndedBy c (evolve c cxpb maxN size as s) i e
  | [], s, _, _, hn, hr => absurd hr hn
  | (d, i) :: is, s, h, hh, hn, hr => by
    have hu' : Workable { c with completed := d } :=
      ⟨hu.ok, hu.distinct, hu.estimators, hu.preprocessors, hu.retry, hu.length⟩
    obtain ⟨h1, _, h3⟩ := sound_step hu' (cxpb := cxpb) hm (size := size) hk s i h hh.1
    by_cases hd : (eaStep (gamaOps { c with completed := d } cxpb) maxN size i s).pc = .raised e
    · rcases h3 e hd with h4 | h4
      · exact absurd h4 hn
      · refine ⟨[], d, i, is, rfl, ?_⟩
        cases h4 with
        | environment a b => exact .environment a b
        | starved a b c => exact .starved a b c
        | few a b c d => exact .few a b c d
        | stuck a b c d => exact .stuck a b c d
    · obtain ⟨as, d', i', bs, h4, h5⟩ := ended_by hu hm hk e is _ h1 hh.2 hd hr
      exact ⟨(d, i) :: as, d', i', bs, by rw [h4]; rfl, h5⟩

/-! #### A search in which all evaluations succeed -/

namespace Ex

/-- The world after an evaluation of `x` with values `v`; `r` are the random draws to come. -/
def setFitness (w : World) (x : Nat) (v : List Score) (r : Stream) : World :=
  { w with inds := w.inds.modify x fun c => { c with fitness := some v }, rnd := r }

/-- The evaluation that comes back next, its values, and the draws to come. -/
structure Choice where
  job : Nat
  values : List Score
  draws : Stream

/-- All evaluations succeed; there are `n` workers. -/
def autoInput (n : Nat) (ch : Choice) (s : Ea World Nat) : EaInput World where
  wait := .completes ch.job (.result true (.fin 1))
    (match s.pending[ch.job % s.pending.length]? with
      | some x => setFitness s.world x ch.values ch.draws
      | none => s.world)
  queue := (s.pending.length : Int) - n
  restart := false

def auto (c : OpConfig) (cxpb : ℚ) (maxN : Option Int) (size n : Nat) :
    List Choice → Ea World Nat → List ((Str → Bool) × EaInput World)
  | [], _ => []
  | ch :: rest, s => (fun _ => false, autoInput n ch s) ::
      auto c cxpb maxN size n rest (eaStep (gamaOps { c with completed := fun _ => false } cxpb) maxN size (autoInput n ch s) s)

theorem is_setFitness {w : World} {x : Nat} {v : List Score} {r : Stream} {y : Nat} {ss : List Step}
    (h : Is w y ss) : Is (setFitness w x v r) y ss := by
  obtain ⟨as, hl, ind, h1, h2⟩ := h
  unfold setFitness
  refine ⟨as, hl, if x = y then { ind with fitness := some v } else ind, ?_, ?_⟩
  · dsimp only
    rw [List.getElem?_modify, h1]
    split <;> rfl
  · split <;> exact h2

theorem evaluated_setFitness {k : Nat} {w : World} {x : Nat} {v : List Score} (hv : v.length = k) {r : Stream}
    {y : Nat} (h : (∃ ind, w.inds[y]? = some ind) ∧ (x = y ∨ Evaluated k w y)) :
    Evaluated k (setFitness w x v r) y := by
  obtain ⟨⟨ind, hi⟩, h⟩ := h
  unfold setFitness
  by_cases hxy : x = y
  · refine ⟨v, ⟨{ ind with fitness := some v }, ?_, rfl⟩, hv⟩
    dsimp only
    rw [List.getElem?_modify, hi]
    simp only [if_pos hxy]
    rfl
  · rcases h with h | ⟨u, ⟨ind', h1, h2⟩, h3⟩
    · exact absurd h hxy
    · refine ⟨u, ⟨ind', ?_, h2⟩, h3⟩
      dsimp only
      rw [List.getElem?_modify, h1]
      simp only [if_neg hxy]
      rfl

theorem auto_honest {ps : PSet} {k n : Nat} {ch : Choice} (hv : ch.values.length = k) {s : Ea World Nat}
    (h : EaSound ps k s) : Honest k s (autoInput n ch s) := by
  intro _ j r w hw
  unfold autoInput at hw
  dsimp only at hw
  injection hw with h1 h2 h3
  subst h1 h2
  cases hx : s.pending[ch.job % s.pending.length]? with
  | none =>
    rw [hx] at h3
    subst h3
    exact ⟨fun _ _ h => h, fun _ h => h, fun x score hx' => by simp at hx'⟩
  | some x =>
    rw [hx] at h3
    subst h3
    refine ⟨fun _ _ h => is_setFitness h, fun y hy => ?_, fun x' score hx' _ => ?_⟩
    · obtain ⟨v, ⟨ind, h1, h2⟩, h3⟩ := hy
      exact evaluated_setFitness hv ⟨⟨ind, h1⟩, Or.inr ⟨v, ⟨ind, h1, h2⟩, h3⟩⟩
    · injection hx' with hx'
      subst hx'
      obtain ⟨ss, ⟨as, _, ind, h1, _⟩, _⟩ := h.submitted x (h.pending x (List.mem_of_getElem? hx))
      exact evaluated_setFitness hv ⟨⟨ind, h1⟩, Or.inl rfl⟩

theorem auto_along {c : OpConfig} (hu : Workable c) {cxpb : ℚ} {maxN : Option Int}
    (hm : eaRefused maxN = false) {size n k : Nat} (hk : 2 ≤ k) :
    ∀ (chs : List Choice) (s : Ea World Nat), (∀ ch ∈ chs, ch.values.length = k) → EaSound c.ps k s →
      EvolveAlong c cxpb maxN size (fun s i => Honest k s i ∧ Cooperative n s i)
        (auto c cxpb maxN size n chs s) s
  | [], _, _, _ => trivial
  | ch :: chs, s, hv, hs => by
    have hh := auto_honest (n := n) (hv ch (by simp)) hs
    have hu' : Workable { c with completed := fun _ => false } :=
      ⟨hu.ok, hu.distinct, hu.estimators, hu.preprocessors, hu.retry, hu.length⟩
    exact ⟨⟨hh, fun _ => ⟨_, _, _, rfl⟩, fun _ => rfl⟩,
      auto_along hu hm hk chs _ (fun c hc => hv c (by simp [hc])) (sound_step hu' hm hk s _ hs hh).1⟩

end Ex

/-- **C127, the full claim:** an evolutionary search that starts from pipelines of the search space within
the maximum length (two or more), with at least one worker, is not ended by itself as long as three
pipelines are in its population whenever offspring is made. -/
def C127_claim : Prop :=
  ∀ (c : OpConfig) (cxpb : ℚ) (maxN : Option Int) (size n k : Nat) (l out : List Nat) (w : World)
    (is : List ((Str → Bool) × EaInput World)), Workable c → (∀ m, c.maxLength = some m → 2 ≤ m) →
    eaRefused maxN = false → 2 ≤ k → 1 ≤ n → l ≠ [] →
    (∀ x ∈ l, ∃ ss, Is w x ss ∧ PipelineOk c.ps ss ∧ ∀ m, c.maxLength = some m → ss.length ≤ m) →
    EvolveAlong c cxpb maxN size (fun s i => Honest k s i ∧ Cooperative n s i ∧
      (s.pc = .fill → i.queue ≤ 1 → 3 ≤ s.population.length)) is (eaStart (.list l) out w) →
    ∀ e, (evolve c cxpb maxN size is (eaStart (.list l) out w)).pc ≠ .raised e

theorem fed_evolve {c : OpConfig} {cxpb : ℚ} {maxN : Option Int} {size n : Nat}
    {l : List Nat} (hl : l ≠ []) {out : List Nat} {w : World} {is : List ((Str → Bool) × EaInput World)}
    (hq : EvolveAlong c cxpb maxN size (QueueReading n) is (eaStart (.list l) out w))
    (hpc : (evolve c cxpb maxN size is (eaStart (.list l) out w)).pc = .loop) :
    (evolve c cxpb maxN size is (eaStart (.list l) out w)).pending ≠ [] := by
  have h := evolve_induct (P := Fed) (fun d s i h hq => fed_step _ maxN size n s i h hq) is
    (eaStart (.list l) out w) ⟨List.length_pos_iff.2 hl, rfl⟩ hq
  unfold Fed at h
  rw [hpc] at h
  exact List.length_pos_iff.1 h

/-- **C127**, what holds: the search is ended only by waiting for an evaluation raising an exception, by a
population of fewer than three, or by a member of the population that cannot be mutated. -/
theorem C127_partial {c : OpConfig} (hu : Workable c) {cxpb : ℚ} {maxN : Option Int}
    (hm : eaRefused maxN = false) {size n k : Nat} (hk : 2 ≤ k) {l out : List Nat} {w : World} (hl : l ≠ [])
    (hc : ∀ x ∈ l, OfSpace c.ps w x) {is : List ((Str → Bool) × EaInput World)}
    (hh : EvolveAlong c cxpb maxN size (fun s i => Honest k s i ∧ QueueReading n s i) is
      (eaStart (.list l) out w)) {e : Exn}
    (he : (evolve c cxpb maxN size is (eaStart (.list l) out w)).pc = .raised e) :
    ∃ as d i bs s, is = as ++ (d, i) :: bs ∧ s = evolve c cxpb maxN size as (eaStart (.list l) out w) ∧
      ((s.pc = .loop ∧ i.wait = .raises e) ∨
       (s.pc = .fill ∧ i.queue ≤ 1 ∧ s.population.length < 3 ∧ e = .valueError) ∨
       (s.pc = .fill ∧ ∃ x ∈ s.population, ∃ ss, Is s.world x ss ∧ CannotMutate c ss)) := by
  obtain ⟨as, d, i, bs, h1, h2⟩ := ended_by hu hm hk e is _ (sound_start hc)
    (evolveAlong_mono (fun _ _ h => h.1) _ _ hh) (fun h => by cases h) he
  refine ⟨as, d, i, bs, _, h1, rfl, ?_⟩
  cases h2 with
  | environment a b => exact Or.inl ⟨a, b⟩
  | starved a b _ =>
    subst h1
    exact absurd b (fed_evolve hl (evolveAlong_mono (fun _ _ h => h.2) _ _
      ((evolveAlong_append as _ _).1 hh).1) a)
  | few a b c d => exact Or.inr (Or.inl ⟨a, b, c, d⟩)
  | stuck a b c d => exact Or.inr (Or.inr ⟨a, _, b, _, c, d⟩)

/-- Without a maximum length every pipeline can be mutated. -/
theorem not_cannot {c : OpConfig} (h : c.maxLength = none) (ss : List Step) : ¬ CannotMutate c ss := by
  rintro (⟨m, hm, _⟩ | ⟨hm, _⟩) <;> rw [h] at hm <;> cases hm

/-- **C127**, what holds without a maximum length: if evaluations succeed and there are four more
candidates than workers, the search is not ended by itself. -/
theorem C127_unlimited_partial {c : OpConfig} (hu : Workable c) (hmax : c.maxLength = none) {cxpb : ℚ}
    {maxN : Option Int} (hm : eaRefused maxN = false) {size n k : Nat} (h3 : 3 ≤ size) (hk : 2 ≤ k)
    {l out : List Nat} {w : World} (hl : n + 4 ≤ l.length) (hc : ∀ x ∈ l, OfSpace c.ps w x)
    {is : List ((Str → Bool) × EaInput World)}
    (hh : EvolveAlong c cxpb maxN size (fun s i => Honest k s i ∧ Successful n size s i) is
      (eaStart (.list l) out w)) (e : Exn) :
    (evolve c cxpb maxN size is (eaStart (.list l) out w)).pc ≠ .raised e := by
  intro he
  have h := evolve_induct (c := c) (cxpb := cxpb) (maxN := maxN) (size := size)
    (C := fun s i => Honest k s i ∧ Successful n size s i) (P := fun s => EaSound c.ps k s ∧ Enough n size s)
    (fun d s i h hq => by
      have hu' : Workable { c with completed := d } :=
        ⟨hu.ok, hu.distinct, hu.estimators, hu.preprocessors, hu.retry, hu.length⟩
      refine ⟨(sound_step hu' hm hk s i h.1 hq.1).1, enough_step hm h3 s ?_ ?_ ?_ i h.2 hq.2⟩
      · intro hpc hlen
        have hpop := h.1.population (by rw [hpc]; rfl)
        have hw := wp_create hu' (cxpb := cxpb) hk (fun x hx => (hpop x hx).1) (fun x hx => (hpop x hx).2)
        cases hr : (gamaOps { c with completed := d } cxpb).create s.population s.world with
        | mk r w' =>
          cases r with
          | ok x => exact ⟨x, w', rfl⟩
          | error e =>
            obtain ⟨_, ⟨h4, _⟩ | ⟨_, _, ss, _, h4⟩⟩ := wp_error hw hr
            · omega
            · exact absurd h4 (not_cannot (c := { c with completed := d }) hmax ss)
      · intro hpc hne
        have hpop := h.1.population (by rw [hpc]; rfl)
        obtain ⟨x, w', g1, g2, _⟩ := eliminate_ok (c := { c with completed := d }) (cxpb := cxpb) hne
          (fun x hx => (hpop x hx).2)
        exact ⟨x, w', g1, g2⟩
      · obtain ⟨x, w', g1, _⟩ := individual_ok hu' s.world
        exact ⟨x, w', g1⟩)
    is (eaStart (.list l) out w) ⟨sound_start hc, hl⟩ hh
  have h := h.2
  unfold Enough at h
  rw [he] at h
  exact h

namespace Ex

/-- Six pipelines of three steps each. -/
def sixWorld : World where
  nodes := (List.range 6).flatMap fun i => [⟨pDT, [alpha1, depth2], some (3 * i + 1)⟩,
    ⟨pPCA, [whitT], some (3 * i + 2)⟩, ⟨pSC, [], none⟩]
  inds := (List.range 6).map fun i => { main := 3 * i }
  rnd := fun _ => 0

theorem is_six : ∀ x ∈ List.range 6, Is sixWorld x long := by
  intro x hx
  have hx : x < 6 := List.mem_range.1 hx
  have hx : x = 0 ∨ x = 1 ∨ x = 2 ∨ x = 3 ∨ x = 4 ∨ x = 5 := by omega
  refine ⟨[3 * x, 3 * x + 1, 3 * x + 2], rfl, { main := 3 * x }, ?_, ?_⟩
  · rcases hx with rfl | rfl | rfl | rfl | rfl | rfl <;> rfl
  · rcases hx with rfl | rfl | rfl | rfl | rfl | rfl <;> exact ⟨rfl, _, rfl, rfl, _, rfl, rfl, _, rfl, rfl⟩

/-- At most three steps. -/
def threeSteps : OpConfig := ⟨space, some 3, fun _ => false, 50⟩

theorem usable_three : Workable threeSteps :=
  ⟨space_ok, space_distinct, by decide, by decide, by decide, by intro m hm; cases hm; decide⟩

theorem usable_config : Workable Ex.config :=
  ⟨space_ok, space_distinct, by decide, by decide, by decide, by intro m hm; cases hm⟩

def pick1 (job : Nat) (draws : List Nat) : Choice := ⟨job, [.fin 1, .fin 1], fun n => draws.getD n 0⟩

/-- Six pipelines are submitted and four evaluated, offspring is made by crossover of two of them and
evaluated next, and offspring is to be made with it. -/
def overLong : List Choice :=
  List.replicate 24 (pick1 0 []) ++ List.replicate 5 (pick1 0 [0, 0, 0, 0, 0, 0, 0, 0, 1]) ++
    List.replicate 4 (pick1 2 [1])

def sixStart : Ea World Nat := eaStart (.list (List.range 6)) [] sixWorld

/-- Three are in the population whenever offspring is made. -/
def threeB (c : OpConfig) (cxpb : ℚ) (maxN : Option Int) (size : Nat) :
    List ((Str → Bool) × EaInput World) → Ea World Nat → Bool
  | [], _ => true
  | (d, i) :: is, s => (match s.pc with
      | .fill => decide (i.queue ≤ 1 → 3 ≤ s.population.length)
      | _ => true) && threeB c cxpb maxN size is (eaStep (gamaOps { c with completed := d } cxpb) maxN size i s)

theorem threeB_sound {c : OpConfig} {cxpb : ℚ} {maxN : Option Int} {size : Nat}
    {C : Ea World Nat → EaInput World → Prop} :
    ∀ is s, threeB c cxpb maxN size is s = true → EvolveAlong c cxpb maxN size C is s →
      EvolveAlong c cxpb maxN size (fun s i => C s i ∧ (s.pc = .fill → i.queue ≤ 1 → 3 ≤ s.population.length)) is s
  | [], _, _, _ => trivial
  | (d, i) :: is, s, h, hC => by
    unfold threeB at h
    rw [Bool.and_eq_true] at h
    refine ⟨⟨hC.1, fun hf => ?_⟩, threeB_sound is _ h.2 hC.2⟩
    rw [hf] at h
    exact of_decide_eq_true h.1

theorem six_space {c : OpConfig} (h : c.ps = space) : ∀ x ∈ List.range 6, OfSpace c.ps sixWorld x :=
  fun x hx => ⟨long, is_six x hx, h ▸ long_ok⟩

theorem overLong_values : ∀ ch ∈ overLong, ch.values.length = 2 := by decide +kernel

/-- Inputs of a search in which all evaluations succeed. -/
theorem auto_successful {c : OpConfig} {cxpb : ℚ} {maxN : Option Int} {size n : Nat} :
    ∀ (chs : List Choice) (s : Ea World Nat),
      EvolveAlong c cxpb maxN size (Successful n size) (auto c cxpb maxN size n chs s) s
  | [], _ => trivial
  | _ :: chs, _ => ⟨⟨fun _ => ⟨_, _, _, rfl⟩, fun _ => rfl, fun _ h => by cases h⟩, auto_successful chs _⟩

theorem evolveAlong_and {c : OpConfig} {cxpb : ℚ} {maxN : Option Int} {size : Nat}
    {C D : Ea World Nat → EaInput World → Prop} :
    ∀ is s, EvolveAlong c cxpb maxN size C is s → EvolveAlong c cxpb maxN size D is s →
      EvolveAlong c cxpb maxN size (fun s i => C s i ∧ D s i) is s
  | [], _, _, _ => trivial
  | (_, _) :: is, _, h, k => ⟨⟨h.1, k.1⟩, evolveAlong_and is _ h.2 k.2⟩

end Ex

/-- **C127 does not hold in full:** crossover makes a pipeline of more than three steps although three is the
maximum, and the search ends with a `ValueError` when it is selected for crossover again. -/
theorem C127_false : ¬ C127_claim := by
  intro h
  have hb : Ex.threeB Ex.threeSteps (1 / 5) none 50
      (Ex.auto Ex.threeSteps (1 / 5) none 50 1 Ex.overLong Ex.sixStart) Ex.sixStart = true := by
    decide +kernel
  have he : valueErrorB (evolve Ex.threeSteps (1 / 5) none 50
      (Ex.auto Ex.threeSteps (1 / 5) none 50 1 Ex.overLong Ex.sixStart) Ex.sixStart) = true := by
    decide +kernel
  refine h Ex.threeSteps (1 / 5) none 50 1 2 (List.range 6) [] Ex.sixWorld _ Ex.usable_three
    (fun m hm => by cases hm; decide) rfl (le_refl _) (le_refl _) (by decide)
    (fun x hx => ⟨Ex.long, Ex.is_six x hx, Ex.long_ok, fun m hm => by cases hm; decide⟩)
    (evolveAlong_mono (fun s i h => ⟨h.1.1, h.1.2, h.2⟩) _ _ (Ex.threeB_sound _ _ hb
      (Ex.auto_along Ex.usable_three rfl (le_refl _) Ex.overLong _ Ex.overLong_values
        (sound_start (Ex.six_space rfl)))))
    _ (valueErrorB_sound he)

/-- Hypotheses of C126 and C127 are met by 33 steps of a search from six pipelines, in which every
evaluation succeeds; offspring is made and evaluated. -/
example : EvolveAlong Ex.config (1 / 5) none 50 (Honest 2)
    (Ex.auto Ex.config (1 / 5) none 50 1 Ex.overLong Ex.sixStart) Ex.sixStart ∧
    EvolveAlong Ex.config (1 / 5) none 50 (fun s i => Honest 2 s i ∧ Successful 1 50 s i)
      (Ex.auto Ex.config (1 / 5) none 50 1 Ex.overLong Ex.sixStart) Ex.sixStart ∧
    EvolveAlong Ex.threeSteps (1 / 5) none 50 (fun s i => Honest 2 s i ∧ QueueReading 1 s i)
      (Ex.auto Ex.threeSteps (1 / 5) none 50 1 Ex.overLong Ex.sixStart) Ex.sixStart ∧
    6 < (evolve Ex.config (1 / 5) none 50
      (Ex.auto Ex.config (1 / 5) none 50 1 Ex.overLong Ex.sixStart) Ex.sixStart).submitted.length := by
  have h := Ex.auto_along Ex.usable_config (cxpb := 1 / 5) (maxN := none) rfl (size := 50) (n := 1)
    (le_refl 2) Ex.overLong Ex.sixStart Ex.overLong_values (sound_start (Ex.six_space rfl))
  have h' := Ex.auto_along Ex.usable_three (cxpb := 1 / 5) (maxN := none) rfl (size := 50) (n := 1)
    (le_refl 2) Ex.overLong Ex.sixStart Ex.overLong_values (sound_start (Ex.six_space rfl))
  have h1 := evolveAlong_mono (D := Honest 2) (fun _ _ h => h.1) _ _ h
  refine ⟨h1, Ex.evolveAlong_and _ _ h1 (Ex.auto_successful _ _),
    evolveAlong_mono (fun _ _ h => ⟨h.1, fun hf => le_of_eq (h.2.2 hf)⟩) _ _ h', by decide +kernel⟩

namespace Ex

/-- `n` steps in which evaluations return with score 1 and pipelines are left alone. -/
def calmRs (o : SearchOps World Nat) (maxN : Option Int) : Nat → Rs World Nat → List (Wait World)
  | 0, _ => []
  | n + 1, s => .completes 0 (.result true (.fin 1)) s.world ::
      calmRs o maxN n (rsStep o maxN (.completes 0 (.result true (.fin 1)) s.world) s)

theorem calmRs_keeps (o : SearchOps World Nat) (maxN : Option Int) :
    ∀ n s, RsAlong o maxN (fun s i => WaitKeeps s.world i) (calmRs o maxN n s) s
  | 0, _ => trivial
  | n + 1, _ => ⟨fun _ _ h => h, calmRs_keeps o maxN n _⟩

def calmAsha (o : SearchOps World Nat) (a : AshaConfig) : Nat → Asha World Nat → List (AshaInput World)
  | 0, _ => []
  | n + 1, s => ⟨.completes 0 (.result true (.fin 1)) s.world, 0⟩ ::
      calmAsha o a n (ashaStep o a ⟨.completes 0 (.result true (.fin 1)) s.world, 0⟩ s)

theorem calmAsha_keeps (o : SearchOps World Nat) (a : AshaConfig) :
    ∀ n s, AshaAlong o a (fun s i => WaitKeeps s.world i.wait) (calmAsha o a n s) s
  | 0, _ => trivial
  | n + 1, _ => ⟨fun _ _ h => h, calmAsha_keeps o a n _⟩

def returnedB (p : AshaPc Nat) : Bool :=
  match p with
  | .returned (_ :: _) => true
  | _ => false

end Ex

/-- Executions of random search and successive halving that meet the hypotheses of C126: new pipelines
are made after the six candidates, and halving reports some when interrupted. -/
example :
    RsAlong (gamaOps Ex.config (1 / 5)) none (fun s i => WaitKeeps s.world i)
      (Ex.calmRs (gamaOps Ex.config (1 / 5)) none 30 (rsStart (.list (List.range 6)) [] Ex.sixWorld))
      (rsStart (.list (List.range 6)) [] Ex.sixWorld) ∧
    6 < (rsRun (gamaOps Ex.config (1 / 5)) none
      (Ex.calmRs (gamaOps Ex.config (1 / 5)) none 30 (rsStart (.list (List.range 6)) [] Ex.sixWorld))
      (rsStart (.list (List.range 6)) [] Ex.sixWorld)).submitted.length ∧
    AshaAlong (gamaOps Ex.config (1 / 5)) ⟨3, 0, 3, none⟩ (fun s i => WaitKeeps s.world i.wait)
      (Ex.calmAsha (gamaOps Ex.config (1 / 5)) ⟨3, 0, 3, none⟩ 30
        (ashaStart ⟨3, 0, 3, none⟩ (List.range 6) Ex.sixWorld))
      (ashaStart ⟨3, 0, 3, none⟩ (List.range 6) Ex.sixWorld) ∧
    Ex.returnedB (ashaInterrupt (ashaRun (gamaOps Ex.config (1 / 5)) ⟨3, 0, 3, none⟩
      (Ex.calmAsha (gamaOps Ex.config (1 / 5)) ⟨3, 0, 3, none⟩ 30
        (ashaStart ⟨3, 0, 3, none⟩ (List.range 6) Ex.sixWorld))
      (ashaStart ⟨3, 0, 3, none⟩ (List.range 6) Ex.sixWorld))) = true :=
  ⟨Ex.calmRs_keeps _ _ _ _, by decide +kernel, Ex.calmAsha_keeps _ _ _ _, by decide +kernel⟩

end Gama
