import Verif.Props.Evolve
import Verif.Props.ReachMate

/-!
# How long offspring gets (C08, C127)

Crossover may give a pipeline that is longer than the maximum.  How much longer, and for which maxima it cannot happen.
-/

namespace Gama
open PyM Spec

/-- What is true of every result of a run. -/
theorem wp_of_runs {σ α : Type} {m : PyM σ α} {s : σ} {Q : α → σ → Prop} (h : ∀ a s', m s = (.ok a, s') → Q a s') :
    wp m Q (fun _ _ => True) s := by
  unfold wp
  cases hr : m s with
  | mk r s' =>
    cases r with
    | ok a => exact h a s' hr
    | error e => trivial

/-- Crossover is only done with parents that are not too long. -/
theorem wp_mateWithLog_within {c : OpConfig} (hps : PSetOk c.ps) {w : World} {i j : Nat}
    {p₁ p₂ : List Step} (his : Is w i p₁) (hjs : Is w j p₂)
    (hok₁ : PipelineOk c.ps p₁) (hok₂ : PipelineOk c.ps p₂) :
    wp (mateWithLog c i j)
      (fun _ _ => exceeds c.maxLength p₁.length = false ∧ exceeds c.maxLength p₂.length = false)
      (fun _ _ => True) w := by
  obtain ⟨ind₁, l₁, hi, hc₁, rfl⟩ := is_iff.1 his
  obtain ⟨ind₂, l₂, hj, hc₂, rfl⟩ := is_iff.1 hjs
  simp only [mateWithLog, wp_bind]
  apply wp_copyAsNew hi hc₁
  intro a l₁' new₁ hc₁' hst₁ hfr₁
  rw [map_resort (fun s hs => pipelineOk_kind hok₁ hs)] at hst₁
  let w₁ : World := { w with nodes := w.nodes ++ new₁, inds := w.inds ++ [{ main := a }] }
  show wp _ _ _ w₁
  have hi₁ : w₁.inds[w.inds.length]? = some { main := a } := by simp [w₁]
  have hj₁ : w₁.inds[j]? = some ind₂ := getElem?_prefix hj (List.prefix_append _ _)
  have hc₂₁ : Chain w₁.nodes (some ind₂.main) l₂ := hc₂.append_heap
  apply wp_copyAsNew hj₁ hc₂₁
  intro b l₂' new₂ hc₂' hst₂ hfr₂
  rw [map_resort (fun s hs => pipelineOk_kind hok₂ hs)] at hst₂
  let w₂ : World := { w₁ with nodes := w₁.nodes ++ new₂, inds := w₁.inds ++ [{ main := b }] }
  show wp _ _ _ w₂
  have hi₂ : w₂.inds[w.inds.length]? = some { main := a } :=
    getElem?_prefix hi₁ (List.prefix_append _ _)
  have hj₂ : w₂.inds[w₁.inds.length]? = some { main := b } := by simp [w₂]
  have hc₁₂ : Chain w₂.nodes (some a) l₁' := Chain.append_heap hc₁'
  have hdis : ∀ x ∈ addrs l₁', x ∉ addrs l₂' := fun x h₁ h₂ =>
    absurd (hfr₂ x h₂) (Nat.not_le.2 (hc₁'.lt h₁))
  have hlen : ∀ l : List (Addr × Step), l.length = (steps l).length := by simp [steps]
  refine wp_mono (fun r w₃ h => ?_) (fun e w₃ h => trivial)
    (wp_randomCrossover (maxLength := c.maxLength) hps hi₂ hj₂ hc₁₂ hc₂' hdis
      (by rw [hst₁]; exact hok₁) (by rw [hst₂]; exact hok₂))
  obtain ⟨h, x1, x2, _⟩ := h
  obtain ⟨ind₁', _, m₁, _, g1, _⟩ := h.chain
  rw [hlen l₁', hst₁] at x1
  rw [hlen l₂', hst₂] at x2
  exact wp_setMeta (f := fun _ => { parents := [i, j], origin := some "cx".toList }) g1 ⟨x1, x2⟩

theorem wp_opMate_within {c : OpConfig} (hps : PSetOk c.ps) {w : World} {i j : Nat}
    {p₁ p₂ : List Step} (his : Is w i p₁) (hjs : Is w j p₂)
    (hok₁ : PipelineOk c.ps p₁) (hok₂ : PipelineOk c.ps p₂) :
    wp (opMate c i j)
      (fun _ _ => exceeds c.maxLength p₁.length = false ∧ exceeds c.maxLength p₂.length = false)
      (fun _ _ => True) w := by
  have hop : ∀ w₁, Extends w w₁ → wp (mateWithLog c i j)
      (fun n w' => Extends w w' ∧
        (exceeds c.maxLength p₁.length = false ∧ exceeds c.maxLength p₂.length = false) ∧ ∃ ss, Is w' n ss)
      (fun _ w' => Extends w w' ∧ True) w₁ := by
    intro w₁ hex
    refine wp_mono (fun n w' h => ?_) (fun e w' h => ?_)
      (wp_and (wp_mateWithLog hps (his.mono hex) (hjs.mono hex) hok₁ hok₂)
        (wp_mateWithLog_within hps (his.mono hex) (hjs.mono hex) hok₁ hok₂))
    · obtain ⟨⟨_, _, hf, _⟩, h⟩ := h
      obtain ⟨as, ha, _⟩ := hf.is
      exact ⟨Extends.trans hex hf.ext, h, _, as, ha⟩
    · exact ⟨Extends.trans hex h.1.1, trivial⟩
  refine wp_mono (fun n w' h => ?_) (fun e w' h => trivial)
    (wp_tryUntilNew (completed := c.completed) (k := c.maxRetry)
      (R := fun _ _ _ => exceeds c.maxLength p₁.length = false ∧ exceeds c.maxLength p₂.length = false)
      hop (Extends.refl w) (fun h _ _ => trivial) (fun n h => by simp at h))
  obtain ⟨_, _, _, h⟩ := h
  exact h

/-- The greatest length that a pipeline can get if the maximum is `m`. -/
def Spec.reach (m : Nat) : Nat := max m (2 * m - 2)

/-- **C08**, how far it fails: mating is refused if a parent is longer than the maximum, and the child has at most two
steps less than twice the maximum (or at most the maximum, if that is more). -/
theorem C08_bound {c : OpConfig} {m : Nat} {w : World} (hps : PSetOk c.ps) (hm : c.maxLength = some m) {i j : Nat}
    {p₁ p₂ : List Step} (his : Is w i p₁) (hjs : Is w j p₂) (hok₁ : PipelineOk c.ps p₁) (hok₂ : PipelineOk c.ps p₂)
    {n : Nat} {w' : World} (run : opMate c i j w = (.ok n, w')) :
    p₁.length ≤ m ∧ p₂.length ≤ m ∧ ∃ ss, Is w' n ss ∧ ss.length ≤ reach m := by
  obtain ⟨x1, x2⟩ := wp_ok (wp_opMate_within hps his hjs hok₁ hok₂) run
  rw [hm] at x1 x2
  have l1 : p₁.length ≤ m := by simpa [exceeds] using x1
  have l2 : p₂.length ≤ m := by simpa [exceeds] using x2
  obtain ⟨ss, h1, h2⟩ := ((C08_offspring_length_partial c m w hps hm).2 i p₁ his hok₁).2 j p₂ hjs hok₂ n w' run
  refine ⟨l1, l2, ss, h1, ?_⟩
  unfold reach
  omega

/-- **C08** holds if the maximum is one or two. -/
theorem C08_short_partial (c : OpConfig) (m : Nat) (w : World) (hps : PSetOk c.ps)
    (hm : c.maxLength = some m) (h2 : m ≤ 2) :
    (∀ n w', opIndividual c w = (.ok n, w') → ∃ ss, Is w' n ss ∧ ss.length ≤ m) ∧
    (∀ i ss, Is w i ss → PipelineOk c.ps ss →
      (∀ n w', opMutate c i w = (.ok n, w') → ∃ ss', Is w' n ss' ∧ ss'.length ≤ m) ∧
      (∀ j ts, Is w j ts → PipelineOk c.ps ts →
        ∀ n w', opMate c i j w = (.ok n, w') → ∃ ss', Is w' n ss' ∧ ss'.length ≤ m)) := by
  have h := C08_offspring_length_partial c m w hps hm
  refine ⟨h.1, fun i ss his hok => ⟨(h.2 i ss his hok).1, fun j ts hjs hok' n w' run => ?_⟩⟩
  obtain ⟨_, _, ss', h1, h3⟩ := C08_bound hps hm his hjs hok hok' run
  refine ⟨ss', h1, ?_⟩
  unfold reach at h3
  omega

/-- **C08**, exactly when it fails: parents that keep to the maximum can have a child that does not if and only if they
have together at least three steps more than the maximum. -/
theorem C08_exact {c : OpConfig} {m : Nat} {w : World} (hps : PSetOk c.ps) (hm : c.maxLength = some m)
    (hr : 0 < c.maxRetry) {i j : Nat} {p₁ p₂ : List Step} (his : Is w i p₁) (hjs : Is w j p₂)
    (hok₁ : PipelineOk c.ps p₁) (hok₂ : PipelineOk c.ps p₂) (l1 : p₁.length ≤ m) (l2 : p₂.length ≤ m) :
    (∃ rnd n w' ss, opMate c i j { w with rnd := rnd } = (.ok n, w') ∧ Is w' n ss ∧ m < ss.length) ↔
      m + 3 ≤ p₁.length + p₂.length := by
  constructor
  · rintro ⟨rnd, n, w', ss, run, his', hl⟩
    obtain ⟨ss', h1, h2⟩ := ((C08_offspring_length_partial c m { w with rnd := rnd } hps hm).2 i p₁ his hok₁).2 j p₂ hjs
      hok₂ n w' run
    rw [his'.det h1] at hl
    omega
  · intro hl
    have n1 : p₁ ≠ [] := by rintro rfl; simp at hl; omega
    have n2 : p₂ ≠ [] := by rintro rfl; simp at hl; omega
    have hx : Crossed p₁ p₂ (p₁.dropLast ++ p₂.tail) (p₂.take 1 ++ [p₁.getLast n1]) := by
      have h := Crossed.tails p₁.dropLast [p₁.getLast n1] (p₂.take 1) p₂.tail
        (by intro h; have := congrArg List.length h; simp at this; omega)
        (by simpa using n2) (by simp)
        (by intro h; have := congrArg List.length h; simp at this; omega)
      rw [List.dropLast_concat_getLast] at h
      have e : p₂.take 1 ++ p₂.tail = p₂ := by cases p₂ <;> simp
      rw [e] at h
      exact h
    obtain ⟨r, n, w', run, h⟩ := (C121 hps hr his hjs hok₁ hok₂
      (fun x hx => by rw [hm] at hx; injection hx with hx; subst hx; exact ⟨l1, l2⟩) _).2 ⟨_, hx⟩
    exact ⟨r, n, w', _, run, h, by simp; omega⟩

/-- The bound is reached: parents of the greatest length can have a child of two steps less than twice that. -/
theorem C08_reached {c : OpConfig} {m : Nat} {w : World} (hps : PSetOk c.ps) (hm : c.maxLength = some m)
    (hr : 0 < c.maxRetry) (h2 : 2 ≤ m) {i j : Nat} {p₁ p₂ : List Step} (his : Is w i p₁) (hjs : Is w j p₂)
    (hok₁ : PipelineOk c.ps p₁) (hok₂ : PipelineOk c.ps p₂) (l1 : p₁.length = m) (l2 : p₂.length = m) :
    ∃ rnd n w' ss, opMate c i j { w with rnd := rnd } = (.ok n, w') ∧ Is w' n ss ∧ ss.length = 2 * m - 2 := by
  have n1 : p₁ ≠ [] := by rintro rfl; simp at l1; omega
  have n2 : p₂ ≠ [] := by rintro rfl; simp at l2; omega
  have hx : Crossed p₁ p₂ (p₁.dropLast ++ p₂.tail) (p₂.take 1 ++ [p₁.getLast n1]) := by
    have h := Crossed.tails p₁.dropLast [p₁.getLast n1] (p₂.take 1) p₂.tail
      (by intro h; have := congrArg List.length h; simp at this; omega)
      (by simpa using n2) (by simp)
      (by intro h; have := congrArg List.length h; simp at this; omega)
    rw [List.dropLast_concat_getLast] at h
    have e : p₂.take 1 ++ p₂.tail = p₂ := by cases p₂ <;> simp
    rw [e] at h
    exact h
  obtain ⟨r, n, w', run, h⟩ := (C121 hps hr his hjs hok₁ hok₂
    (fun x hx => by rw [hm] at hx; injection hx with hx; subst hx; omega) _).2 ⟨_, hx⟩
  exact ⟨r, n, w', _, run, h, by simp; omega⟩

/-! ## Whole searches -/

/-- The individual is a pipeline of at most `b` steps. -/
def Spec.Within (b : Nat) (w : World) (x : Nat) : Prop := ∃ ss, Is w x ss ∧ ss.length ≤ b

theorem Keeps.within {k : Nat} {w w' : World} (h : Keeps k w w') {b x : Nat} (hx : Within b w x) : Within b w' x := by
  obtain ⟨ss, h1, h2⟩ := hx
  exact ⟨ss, h.1 x ss h1, h2⟩

theorem wp_offspringOf_within {c : OpConfig} {m : Nat} (hps : PSetOk c.ps) (hm : c.maxLength = some m) {cxpb : ℚ}
    {w : World} {i j : Nat} {p q : List Step} (hi : Is w i p) (hj : Is w j q) (hp : PipelineOk c.ps p)
    (hq : PipelineOk c.ps q) : wp (offspringOf c cxpb i j) (fun n w' => Within (reach m) w' n) (fun _ _ => True) w := by
  have hmut : ∀ w₁, w₁.nodes = w.nodes → w₁.inds = w.inds → wp (opMutate c i)
      (fun n w' => Within (reach m) w' n) (fun _ _ => True) w₁ := fun w₁ hn hi' =>
    wp_of_runs fun n w' run => by
      obtain ⟨ss, h1, h2⟩ := C04_mutate_offspring_length hps hm (nodes_only hi hn hi') hp run
      exact ⟨ss, h1, Nat.le_trans h2 (Nat.le_max_left _ _)⟩
  unfold offspringOf
  rw [wp_bind]
  unfold randomBelow
  rw [wp_bind]
  refine wp_draw (fun d => ?_)
  refine wp_pure.2 ?_
  rw [wp_ite]
  refine ⟨fun _ => ?_, fun _ => hmut _ rfl rfl⟩
  obtain ⟨ind₁, l₁, e1, e2, rfl⟩ := is_iff.1 hi
  obtain ⟨ind₂, l₂, f1, f2, rfl⟩ := is_iff.1 hj
  rw [wp_bind]
  refine wp_validCrossoverFunctions (w := advance w) e1 f1 e2 f2 ?_
  rw [wp_ite]
  refine ⟨fun hlen => ?_, fun _ => hmut _ rfl rfl⟩
  exact wp_of_runs fun n w' run =>
    (C08_bound (w := advance w) hps hm (nodes_only hi rfl rfl) (nodes_only hj rfl rfl) hp hq run).2.2

theorem wp_create_within {c : OpConfig} (hu : Workable c) {m : Nat} (hm : c.maxLength = some m) {cxpb : ℚ} {w : World}
    {pop : List Nat} {k : Nat} (hk : 2 ≤ k) (hpop : ∀ x ∈ pop, OfSpace c.ps w x) (hev : ∀ x ∈ pop, Evaluated k w x) :
    wp ((gamaOps c cxpb).create pop) (fun x w' => Within (reach m) w' x) (fun _ _ => True) w := by
  show wp (firstOf (createFromPopulation c pop 1 cxpb)) _ _ w
  unfold firstOf createFromPopulation
  rw [wp_bind, wp_ite]
  refine ⟨fun h => wp_raise.2 trivial, fun hlen => ?_⟩
  rw [wp_bind]
  have hw : wp (mapGP twoMetrics pop) (fun vs w' => vs.length = pop.length ∧ (∀ v ∈ vs, v.length = 2) ∧ w' = w)
      (fun _ _ => False) w := by
    obtain ⟨vs, hvs⟩ := mapGP_ok (fun x hx => twoMetrics_evaluated hk (hev x hx))
    have h := mapGP_twoMetrics (pop := pop) (w := w)
    unfold wp at h ⊢
    rw [hvs] at h ⊢
    exact h
  refine wp_mono ?_ (fun _ _ h => h.elim) hw
  rintro vs w₁ ⟨h1, h2, rfl⟩
  rw [wp_bind]
  have hv : Vectors vs 2 := ⟨by decide, h2⟩
  refine wp_mono ?_ (fun _ _ h => h.elim) (wp_nsga2Select (P := Extends w₁)
    (fun _ h => h) hv 1 w₁ (Extends.refl _) (by omega))
  rintro ps w₂ ⟨⟨g2, g3⟩, hsame⟩
  obtain ⟨p, rfl⟩ : ∃ p, ps = [p] := List.length_eq_one_iff.1 g2
  obtain ⟨b1, b2, _⟩ := g3 p (by simp)
  rw [h1] at b1 b2
  have m1 : pop.getD p.1 0 ∈ pop := by
    rw [List.getD_eq_getElem _ _ b1]; exact List.getElem_mem b1
  have m2 : pop.getD p.2 0 ∈ pop := by
    rw [List.getD_eq_getElem _ _ b2]; exact List.getElem_mem b2
  obtain ⟨s1, i1, o1⟩ := hpop _ m1
  obtain ⟨s2, i2, o2⟩ := hpop _ m2
  unfold mapGP
  rw [wp_bind]
  refine wp_mono ?_ (fun _ _ h => h) (wp_offspringOf_within hu.ok hm (i1.mono hsame) (i2.mono hsame) o1 o2)
  intro x w' h
  rw [wp_bind]
  exact h

/-- What the search holds is not longer than `b`. -/
structure AllWithin (b : Nat) (s : Ea World Nat) : Prop where
  submitted : ∀ x ∈ s.submitted, Within b s.world x
  population : s.pc.before = false → ∀ x ∈ s.population, Within b s.world x
  pc : match s.pc with
    | .start (.list l) => ∀ x ∈ l, Within b s.world x
    | .clear (.list l) => ∀ x ∈ l, Within b s.world x
    | .submit rest => ∀ x ∈ rest, Within b s.world x
    | .got x _ => Within b s.world x
    | .renew _ made => ∀ x ∈ made, Within b s.world x
    | _ => True

theorem within_step {c : OpConfig} (hu : Workable c) {m : Nat} (hmx : c.maxLength = some m) {cxpb : ℚ}
    {maxN : Option Int} (hm : eaRefused maxN = false) {size k : Nat} (hk : 2 ≤ k) (s : Ea World Nat) (i : EaInput World)
    (h : EaSound c.ps k s) (hl : AllWithin (reach m) s) (hh : Honest k s i) :
    AllWithin (reach m) (eaStep (gamaOps c cxpb) maxN size i s) := by
  have hkeep := (sound_step hu (cxpb := cxpb) hm (size := size) hk s i h hh).2.1
  obtain ⟨hs, hp, hpop, hpc⟩ := h
  obtain ⟨ls, lpop, lpc⟩ := hl
  revert hkeep
  unfold eaStep
  cases hc : s.pc with
  | start l =>
    rw [hc] at lpc
    dsimp only
    rw [hm, if_neg (by simp)]
    intro _
    refine ⟨ls, (fun h => by cases h), ?_⟩
    cases l <;> exact lpc
  | clear l =>
    rw [hc] at lpc
    intro _
    cases l with
    | list l => exact ⟨ls, fun _ x hx => (by cases hx), lpc⟩
    | sameAsOutput => exact ⟨ls, fun _ x hx => (by cases hx), fun x hx => (by cases hx)⟩
  | submit rest =>
    rw [hc] at lpc lpop
    intro _
    cases rest with
    | nil => exact ⟨ls, fun _ => lpop rfl, trivial⟩
    | cons x xs =>
      refine ⟨fun y hy => ?_, fun _ => lpop rfl, fun y hy => lpc y (by simp [hy])⟩
      rcases List.mem_append.1 hy with hy | hy
      · exact ls y hy
      · rw [List.mem_singleton.1 hy]; exact lpc x (by simp)
  | loop =>
    rw [hc] at lpop
    dsimp only
    split
    · cases hw : i.wait with
      | raises e => exact fun _ => ⟨ls, fun _ => lpop rfl, trivial⟩
      | completes j r w =>
        dsimp only
        cases ht : takePending s.pending j with
        | none => exact fun _ => ⟨ls, fun _ => lpop rfl, trivial⟩
        | some q =>
          obtain ⟨x, rest⟩ := q
          obtain ⟨m1, -, m3⟩ := takePending_some ht
          intro hkeep
          exact ⟨fun y hy => hkeep.within (ls y hy), fun _ y hy => hkeep.within (lpop rfl y hy),
            hkeep.within (ls x (hp x m1))⟩
    · exact fun _ => ⟨ls, fun _ => lpop rfl, trivial⟩
  | got x r =>
    rw [hc] at lpc lpop
    intro _
    cases r with
    | failed => exact ⟨ls, fun _ => lpop rfl, trivial⟩
    | result b score =>
      cases b with
      | false => exact ⟨ls, fun _ => lpop rfl, trivial⟩
      | true =>
        refine ⟨ls, fun _ y hy => ?_, trivial⟩
        rcases List.mem_append.1 hy with hy | hy
        · exact lpop rfl y hy
        · rw [List.mem_singleton.1 hy]; exact lpc
  | full =>
    rw [hc] at lpop
    dsimp only
    split
    · cases hr : (gamaOps c cxpb).eliminate s.population s.world with
      | mk r w' =>
        cases r <;> exact fun hkeep => ⟨fun y hy => hkeep.within (ls y hy), fun _ y hy => hkeep.within (lpop rfl y hy),
          trivial⟩
    · exact fun _ => ⟨ls, fun _ => lpop rfl, trivial⟩
  | remove x =>
    rw [hc] at lpop
    dsimp only
    split
    · exact fun _ => ⟨ls, fun _ y hy => lpop rfl y (List.mem_of_mem_erase hy), trivial⟩
    · exact fun _ => ⟨ls, fun _ => lpop rfl, trivial⟩
  | fill =>
    rw [hc] at lpop hpop
    dsimp only
    split
    · have hw := wp_create_within hu hmx (cxpb := cxpb) hk (fun x hx => (hpop rfl x hx).1)
        (fun x hx => (hpop rfl x hx).2)
      cases hr : (gamaOps c cxpb).create s.population s.world with
      | mk r w' =>
        cases r with
        | error e =>
          exact fun hkeep => ⟨fun y hy => hkeep.within (ls y hy), fun _ y hy => hkeep.within (lpop rfl y hy), trivial⟩
        | ok x =>
          have hx := wp_ok hw hr
          intro hkeep
          refine ⟨fun y hy => ?_, fun _ y hy => hkeep.within (lpop rfl y hy), trivial⟩
          rcases List.mem_append.1 hy with hy | hy
          · exact hkeep.within (ls y hy)
          · rw [List.mem_singleton.1 hy]; exact hx
    · exact fun _ => ⟨ls, fun _ => lpop rfl, trivial⟩
  | restart =>
    rw [hc] at lpop
    dsimp only
    split
    · exact fun _ => ⟨ls, fun _ => lpop rfl, fun x hx => by cases hx⟩
    · exact fun _ => ⟨ls, fun _ => lpop rfl, trivial⟩
  | renew n made =>
    rw [hc] at lpop lpc
    cases n with
    | zero => exact fun _ => ⟨ls, (fun h => by cases h), lpc⟩
    | succ n =>
      dsimp only
      obtain ⟨x, w', he, _⟩ := individual_ok hu s.world
      have hx : Within (reach m) w' x := by
        obtain ⟨ss, h1, h2⟩ := (C08_offspring_length_partial c m s.world hu.ok hmx).1 x w' he
        exact ⟨ss, h1, Nat.le_trans h2 (Nat.le_max_left _ _)⟩
      have he' : (gamaOps c cxpb).individual s.world = (.ok x, w') := he
      rw [he']
      intro hkeep
      refine ⟨fun y hy => hkeep.within (ls y hy), fun _ y hy => hkeep.within (lpop rfl y hy), fun y hy => ?_⟩
      rcases List.mem_append.1 hy with hy | hy
      · exact hkeep.within (lpc y hy)
      · rw [List.mem_singleton.1 hy]; exact hx
  | returned => exact fun _ => ⟨ls, lpop, lpc⟩
  | raised e => exact fun _ => ⟨ls, lpop, lpc⟩

theorem within_run {c : OpConfig} (hu : Workable c) {m : Nat} (hmx : c.maxLength = some m) {cxpb : ℚ}
    {maxN : Option Int} (hm : eaRefused maxN = false) {size k : Nat} (hk : 2 ≤ k) :
    ∀ is s, EaSound c.ps k s → AllWithin (reach m) s → EvolveAlong c cxpb maxN size (Honest k) is s →
      AllWithin (reach m) (evolve c cxpb maxN size is s)
  | [], s, _, h, _ => h
  | (d, i) :: is, s, h, hl, hh => by
    have hu' : Workable { c with completed := d } :=
      ⟨hu.ok, hu.distinct, hu.estimators, hu.preprocessors, hu.retry, hu.length⟩
    exact within_run hu hmx hm hk is _ (sound_step hu' (cxpb := cxpb) hm (size := size) hk s i h hh.1).1
      (within_step hu' hmx (cxpb := cxpb) hm (size := size) hk s i h hl hh.1) hh.2

/-- **C08** of a whole search, how far it fails: if the start candidates keep to the maximum, every pipeline that is
evaluated has at most two steps less than twice the maximum (or at most the maximum, if that is more). -/
theorem C08_search_partial {c : OpConfig} (hu : Workable c) {m : Nat} (hmx : c.maxLength = some m) {cxpb : ℚ}
    {maxN : Option Int} (hm : eaRefused maxN = false) {size k : Nat} (hk : 2 ≤ k) {l out : List Nat} {w : World}
    (hc : ∀ x ∈ l, ∃ ss, Is w x ss ∧ PipelineOk c.ps ss ∧ ss.length ≤ m) {is : List ((Str → Bool) × EaInput World)}
    (hh : EvolveAlong c cxpb maxN size (Honest k) is (eaStart (.list l) out w)) :
    ∀ x ∈ (evolve c cxpb maxN size is (eaStart (.list l) out w)).submitted, ∃ ss,
      Is (evolve c cxpb maxN size is (eaStart (.list l) out w)).world x ss ∧ ss.length ≤ max m (2 * m - 2) :=
  (within_run hu hmx hm hk is _ (sound_start fun x hx => let ⟨ss, h1, h2, _⟩ := hc x hx; ⟨ss, h1, h2⟩)
    ⟨fun x hx => (by cases hx), fun h => (by cases h), fun x hx =>
      let ⟨ss, h1, _, h3⟩ := hc x hx; ⟨ss, h1, Nat.le_trans h3 (Nat.le_max_left _ _)⟩⟩ hh).submitted

/-- **C08** of a whole search holds if the maximum is one or two. -/
theorem C08_search_short_partial {c : OpConfig} (hu : Workable c) {m : Nat} (hmx : c.maxLength = some m) (h2 : m ≤ 2)
    {cxpb : ℚ} {maxN : Option Int} (hm : eaRefused maxN = false) {size k : Nat} (hk : 2 ≤ k) {l out : List Nat}
    {w : World} (hc : ∀ x ∈ l, ∃ ss, Is w x ss ∧ PipelineOk c.ps ss ∧ ss.length ≤ m)
    {is : List ((Str → Bool) × EaInput World)}
    (hh : EvolveAlong c cxpb maxN size (Honest k) is (eaStart (.list l) out w)) :
    ∀ x ∈ (evolve c cxpb maxN size is (eaStart (.list l) out w)).submitted, ∃ ss,
      Is (evolve c cxpb maxN size is (eaStart (.list l) out w)).world x ss ∧ ss.length ≤ m := by
  intro x hx
  obtain ⟨ss, h1, h3⟩ := C08_search_partial hu hmx hm hk hc hh x hx
  exact ⟨ss, h1, by omega⟩

/-- **C127** holds without a maximum length and with a maximum of two: under the conditions of the full claim the search
does not end with an exception. -/
theorem C127_two_partial {c : OpConfig} {cxpb : ℚ} {maxN : Option Int} {size n k : Nat} {l out : List Nat} {w : World}
    {is : List ((Str → Bool) × EaInput World)} (hu : Workable c) (h2 : c.maxLength = none ∨ c.maxLength = some 2)
    (hm : eaRefused maxN = false) (hk : 2 ≤ k) (hl : l ≠ [])
    (hc : ∀ x ∈ l, ∃ ss, Is w x ss ∧ PipelineOk c.ps ss ∧ ∀ m, c.maxLength = some m → ss.length ≤ m)
    (hh : EvolveAlong c cxpb maxN size (fun s i => Honest k s i ∧ Cooperative n s i ∧
      (s.pc = .fill → i.queue ≤ 1 → 3 ≤ s.population.length)) is (eaStart (.list l) out w)) (e : Exn) :
    (evolve c cxpb maxN size is (eaStart (.list l) out w)).pc ≠ .raised e := by
  intro he
  have hsp : ∀ x ∈ l, OfSpace c.ps w x := fun x hx => let ⟨ss, h1, h2, _⟩ := hc x hx; ⟨ss, h1, h2⟩
  obtain ⟨as, d, i, bs, s, rfl, rfl, h⟩ := C127_partial (n := n) hu hm hk hl hsp
    (evolveAlong_mono (fun s i h => ⟨h.1, fun hf => le_of_eq (h.2.1.2 hf)⟩) _ _ hh) he
  obtain ⟨h1, ⟨_, h3, h4⟩, _⟩ := (evolveAlong_append as _ _).1 hh
  rcases h with ⟨a, b⟩ | ⟨a, b, hlt, _⟩ | ⟨a, x, hx, ss, his, hcan⟩
  · obtain ⟨_, _, _, hw⟩ := h3.1 a
    rw [hw] at b
    cases b
  · have := h4 a b
    omega
  · rcases h2 with h2 | h2
    · exact not_cannot h2 ss hcan
    · have hw := (within_run hu h2 hm hk as _ (sound_start hsp)
        ⟨fun x hx => (by cases hx), fun h => (by cases h), fun x hx =>
          let ⟨ss, h1, _, h3⟩ := hc x hx; ⟨ss, h1, Nat.le_trans (h3 2 h2) (Nat.le_max_left _ _)⟩⟩
        (evolveAlong_mono (fun _ _ h => h.1) _ _ h1)).population (by rw [a]; rfl) x hx
      obtain ⟨ts, ht, hlen⟩ := hw
      rw [ht.det his] at hlen
      rcases hcan with ⟨m, hm', hlt⟩ | ⟨hm', _⟩
      · rw [h2] at hm'
        injection hm' with hm'
        subst hm'
        simp only [reach] at hlen
        omega
      · rw [h2] at hm'
        cases hm'

/-! ### Cases of the theorems above -/

/-- `C08_exact`, `C08_reached`: two copies of a pipeline of three steps, with a maximum of three. -/
example : (∃ rnd n w' ss, opMate Ex.threeSteps 0 1 { Ex.sixWorld with rnd := rnd } = (.ok n, w') ∧ Is w' n ss ∧
    3 < ss.length) ∧ ∃ rnd n w' ss, opMate Ex.threeSteps 0 1 { Ex.sixWorld with rnd := rnd } = (.ok n, w') ∧
      Is w' n ss ∧ ss.length = 4 :=
  ⟨(C08_exact Ex.space_ok rfl (by decide) (Ex.is_six 0 (by decide)) (Ex.is_six 1 (by decide)) Ex.long_ok Ex.long_ok
      (by decide) (by decide)).2 (by decide),
    C08_reached Ex.space_ok rfl (by decide) (by decide) (Ex.is_six 0 (by decide)) (Ex.is_six 1 (by decide)) Ex.long_ok
      Ex.long_ok rfl rfl⟩

namespace Ex
/-- Six pipelines of two steps each. -/
def sixDoubles : World where
  nodes := (List.range 6).flatMap fun i => [⟨pNB, [alpha1], some (2 * i + 1)⟩, ⟨pPCA, [whitF], none⟩]
  inds := (List.range 6).map fun i => { main := 2 * i }
  rnd := fun _ => 0

theorem is_sixDoubles : ∀ x ∈ List.range 6, Is sixDoubles x double := by
  intro x hx
  have hx : x < 6 := List.mem_range.1 hx
  have hx : x = 0 ∨ x = 1 ∨ x = 2 ∨ x = 3 ∨ x = 4 ∨ x = 5 := by omega
  refine ⟨[2 * x, 2 * x + 1], rfl, { main := 2 * x }, ?_, ?_⟩
  · rcases hx with rfl | rfl | rfl | rfl | rfl | rfl <;> rfl
  · rcases hx with rfl | rfl | rfl | rfl | rfl | rfl <;> exact ⟨rfl, _, rfl, rfl, _, rfl, rfl⟩

/-- At most two steps. -/
def twoSteps : OpConfig := ⟨space, some 2, fun _ => false, 50⟩

theorem usable_two : Workable twoSteps :=
  ⟨space_ok, space_distinct, by decide, by decide, by decide, by intro m hm; cases hm; decide⟩

def doublesStart : Ea World Nat := eaStart (.list (List.range 6)) [] sixDoubles

/-- The inputs of a search from them: more are submitted than there were at the start. -/
def doublesInputs : List ((Str → Bool) × EaInput World) := auto twoSteps (1 / 5) none 50 1 overLong doublesStart
end Ex

/-- `C08_bound`, `C08_short_partial`: what comes of mating two of them. -/
example {n : Nat} {w' : World} (run : opMate Ex.twoSteps 0 1 Ex.sixDoubles = (.ok n, w')) :
    ∃ ss, Is w' n ss ∧ ss.length ≤ 2 :=
  (((C08_short_partial Ex.twoSteps 2 Ex.sixDoubles Ex.space_ok rfl (by decide)).2 0 _ (Ex.is_sixDoubles 0 (by decide))
    Ex.double_ok).2 1 _ (Ex.is_sixDoubles 1 (by decide)) Ex.double_ok n w' run)

/-- `C08_search_partial`, `C08_search_short_partial`, `C127_two_partial`: a search with a maximum of two steps, in which
offspring is made. -/
example : 6 < (evolve Ex.twoSteps (1 / 5) none 50 Ex.doublesInputs Ex.doublesStart).submitted.length ∧
    (∀ x ∈ (evolve Ex.twoSteps (1 / 5) none 50 Ex.doublesInputs Ex.doublesStart).submitted, ∃ ss,
      Is (evolve Ex.twoSteps (1 / 5) none 50 Ex.doublesInputs Ex.doublesStart).world x ss ∧ ss.length ≤ 2) ∧
    ∀ e, (evolve Ex.twoSteps (1 / 5) none 50 Ex.doublesInputs Ex.doublesStart).pc ≠ .raised e := by
  have hb : Ex.threeB Ex.twoSteps (1 / 5) none 50 Ex.doublesInputs Ex.doublesStart = true := by
    decide +kernel
  have h := evolveAlong_mono (D := fun s i => Honest 2 s i ∧ Cooperative 1 s i ∧
      (s.pc = .fill → i.queue ≤ 1 → 3 ≤ s.population.length)) (fun s i h => ⟨h.1.1, h.1.2, h.2⟩) _ _
    (Ex.threeB_sound _ _ hb
      (Ex.auto_along Ex.usable_two (cxpb := 1 / 5) (maxN := none) rfl (size := 50) (n := 1) (le_refl 2) Ex.overLong
        Ex.doublesStart Ex.overLong_values
        (sound_start fun x hx => ⟨Ex.double, Ex.is_sixDoubles x hx, Ex.double_ok⟩)))
  exact ⟨by decide +kernel,
    C08_search_short_partial (k := 2) Ex.usable_two rfl (le_refl _) rfl (le_refl _)
      (fun x hx => ⟨Ex.double, Ex.is_sixDoubles x hx, Ex.double_ok, by decide⟩)
      (evolveAlong_mono (fun _ _ h => h.1) _ _ h),
    C127_two_partial Ex.usable_two (.inr rfl) rfl (le_refl _) (by decide)
      (fun x hx => ⟨Ex.double, Ex.is_sixDoubles x hx, Ex.double_ok, fun m hm => by cases hm; decide⟩) h⟩

end Gama
