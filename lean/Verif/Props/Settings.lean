import Verif.Props.Regularize

/-!
# Searches with any settings (C126, C69)

C126 for search spaces in which some pipelines, or all, cannot be made, for any number of metrics and for a maximum
number of evaluations that is refused: a search may then raise, but what it submits is of the search space.  With one
metric and without length regularisation an evolutionary search never submits offspring (C69).
-/

namespace Gama
open PyM Spec

/-! ### Operators -/

/-- Making offspring of pipelines of the search space, whatever their fitness is and whether it succeeds or not. -/
theorem wp_create_any {c : OpConfig} (hps : PSetOk c.ps) {cxpb : ℚ} {w : World} {pop : List Nat}
    (hpop : ∀ x ∈ pop, OfSpace c.ps w x) :
    wp ((gamaOps c cxpb).create pop)
      (fun x w' => ∃ ss, Fresh w w' x ss ∧ PipelineOk c.ps ss) (fun _ w' => Extends w w') w := by
  show wp (firstOf (createFromPopulation c pop 1 cxpb)) _ _ w
  unfold firstOf createFromPopulation
  rw [wp_bind, wp_ite]
  refine ⟨fun _ => wp_raise.2 (Extends.refl w), fun hlen => ?_⟩
  rw [wp_bind]
  refine wp_mono ?_ (fun _ _ h => by rw [h]; exact Extends.refl w) mapGP_twoMetrics
  rintro vs w₁ ⟨h1, h2, rfl⟩
  rw [wp_bind]
  have hv : Vectors vs 2 := ⟨by decide, h2⟩
  refine wp_mono ?_ (fun _ _ h => h.elim) (wp_nsga2Select (P := Extends w₁)
    (fun _ h => h) hv 1 w₁ (Extends.refl _) (by omega))
  rintro ps w₂ ⟨⟨g2, g3⟩, hsame⟩
  obtain ⟨p, rfl⟩ : ∃ p, ps = [p] := List.length_eq_one_iff.1 g2
  obtain ⟨b1, b2, _⟩ := g3 p (by simp)
  rw [h1] at b1 b2
  have m1 : pop.getD p.1 0 ∈ pop := by
    rw [List.getD_eq_getElem _ _ b1]; exact List.getElem_mem b1
  have m2 : pop.getD p.2 0 ∈ pop := by
    rw [List.getD_eq_getElem _ _ b2]; exact List.getElem_mem b2
  obtain ⟨s1, i1, o1⟩ := hpop _ m1
  obtain ⟨s2, i2, o2⟩ := hpop _ m2
  unfold mapGP
  rw [wp_bind]
  refine wp_mono ?_ ?_ (wp_offspringOf hps (i1.mono hsame) (i2.mono hsame) o1 o2)
  · rintro x w' ⟨child, hf, ho, _⟩
    rw [wp_bind]
    refine ⟨child, ⟨Extends.trans hsame hf.ext, Nat.le_trans hsame.2.length_le hf.new, ?_⟩, ho⟩
    obtain ⟨as, ha, hb⟩ := hf.is
    exact ⟨as, ha, fun a h => Nat.le_trans hsame.1.length_le (hb a h)⟩
  · rintro e w' he
    exact Extends.trans hsame he

/-- Making a new pipeline, whether it succeeds or not. -/
theorem individual_any {c : OpConfig} (hps : PSetOk c.ps) {cxpb : ℚ} (w : World) :
    ∃ r w', (gamaOps c cxpb).individual w = (r, w') ∧ Extends w w' ∧ ∀ x, r = .ok x → OfSpace c.ps w' x := by
  have hw := wp_opIndividual (c := c) hps (w := w)
  cases hrun : opIndividual c w with
  | mk r w' =>
    cases r with
    | ok n =>
      obtain ⟨ss, h1, h2, _⟩ := wp_ok hw hrun
      obtain ⟨as, ha, _⟩ := h1.is
      exact ⟨.ok n, w', hrun, h1.ext, fun x hx => by cases hx; exact ⟨ss, ⟨as, ha⟩, h2⟩⟩
    | error e => exact ⟨.error e, w', hrun, (wp_error hw hrun).1, (fun _ hx => by cases hx)⟩

/-! ### C126 -/

/-- A step with any settings: nothing but pipelines of the search space is submitted, and none changes. -/
theorem soundAny_step {c : OpConfig} (hps : PSetOk c.ps) {cxpb : ℚ} {maxN : Option Int}
    (hm : eaRefused maxN = false) {size k : Nat}
    (s : Ea World Nat) (i : EaInput World) (h : EaSound c.ps k s) (hh : Honest k s i) :
    EaSound c.ps k (eaStep (gamaOps c cxpb) maxN size i s) ∧
    Keeps k s.world (eaStep (gamaOps c cxpb) maxN size i s).world := by
  obtain ⟨hs, hp, hpop, hpc⟩ := h
  unfold eaStep
  cases hc : s.pc with
  | start l =>
    rw [hc] at hpc
    dsimp only
    rw [hm, if_neg (by simp)]
    refine ⟨⟨hs, hp, (fun h => by cases h), ?_⟩, Keeps.refl _ _⟩
    cases l <;> exact hpc
  | clear l =>
    rw [hc] at hpc
    cases l with
    | list l =>
      exact ⟨⟨hs, hp, fun _ x hx => (by cases hx), hpc⟩, Keeps.refl _ _⟩
    | sameAsOutput =>
      exact ⟨⟨hs, hp, fun _ x hx => (by cases hx), fun x hx => (by cases hx)⟩, Keeps.refl _ _⟩
  | submit rest =>
    rw [hc] at hpc hpop
    cases rest with
    | nil => exact ⟨⟨hs, hp, fun _ => hpop rfl, trivial⟩, Keeps.refl _ _⟩
    | cons x xs =>
      refine ⟨⟨fun y hy => ?_, fun y hy => ?_, fun _ => hpop rfl, fun y hy => hpc y (by simp [hy])⟩,
        Keeps.refl _ _⟩
      · rcases List.mem_append.1 hy with hy | hy
        · exact hs y hy
        · rw [List.mem_singleton.1 hy]; exact hpc x (by simp)
      · rcases List.mem_append.1 hy with hy | hy
        · exact List.mem_append.2 (Or.inl (hp y hy))
        · exact List.mem_append.2 (Or.inr hy)
  | loop =>
    rw [hc] at hpop
    dsimp only
    split
    · cases hw : i.wait with
      | raises e =>
        exact ⟨⟨hs, hp, fun _ => hpop rfl, trivial⟩, Keeps.refl _ _⟩
      | completes j r w =>
        dsimp only
        obtain ⟨k1, k2, k3⟩ := hh hc j r w hw
        have hkeep : Keeps k s.world w := ⟨k1, k2⟩
        cases ht : takePending s.pending j with
        | none =>
          exact ⟨⟨hs, hp, fun _ => hpop rfl, trivial⟩, Keeps.refl _ _⟩
        | some q =>
          obtain ⟨x, rest⟩ := q
          have hx : s.pending[j % s.pending.length]? = some x := by
            unfold takePending at ht
            cases hg : s.pending[j % s.pending.length]? with
            | none => rw [hg] at ht; cases ht
            | some y => rw [hg] at ht; cases ht; rfl
          obtain ⟨m1, -, m3⟩ := takePending_some ht
          refine ⟨⟨fun y hy => hkeep.ofSpace (hs y hy), fun y hy => hp y (m3.mem_iff.2 (by simp [hy])),
            fun _ y hy => ⟨hkeep.ofSpace (hpop rfl y hy).1, hkeep.2 y (hpop rfl y hy).2⟩, ?_⟩,
            hkeep⟩
          cases r with
          | failed => trivial
          | result b score =>
            cases b with
            | false => trivial
            | true => exact ⟨hkeep.ofSpace (hs x (hp x m1)), k3 x score hx rfl⟩
    · exact ⟨⟨hs, hp, fun _ => hpop rfl, trivial⟩, Keeps.refl _ _⟩
  | got x r =>
    rw [hc] at hpc hpop
    cases r with
    | failed => exact ⟨⟨hs, hp, fun _ => hpop rfl, trivial⟩, Keeps.refl _ _⟩
    | result b score =>
      cases b with
      | false => exact ⟨⟨hs, hp, fun _ => hpop rfl, trivial⟩, Keeps.refl _ _⟩
      | true =>
        refine ⟨⟨hs, hp, fun _ y hy => ?_, trivial⟩, Keeps.refl _ _⟩
        rcases List.mem_append.1 hy with hy | hy
        · exact hpop rfl y hy
        · rw [List.mem_singleton.1 hy]; exact hpc
  | full =>
    rw [hc] at hpop
    dsimp only
    split
    · rename_i hlt
      have hne : s.population ≠ [] := by
        intro he; rw [he] at hlt; simp at hlt
      obtain ⟨x, w', he, hx, hex⟩ := eliminate_ok (c := c) (cxpb := cxpb) hne (fun y hy => (hpop rfl y hy).2)
      rw [he]
      have hkeep : Keeps k s.world w' := Keeps.of_extends hex
      exact ⟨⟨fun y hy => hkeep.ofSpace (hs y hy), hp, fun _ y hy => ⟨hkeep.ofSpace (hpop rfl y hy).1,
        hkeep.2 y (hpop rfl y hy).2⟩, hx⟩, hkeep⟩
    · exact ⟨⟨hs, hp, fun _ => hpop rfl, trivial⟩, Keeps.refl _ _⟩
  | remove x =>
    rw [hc] at hpop hpc
    dsimp only
    rw [if_pos (show x ∈ s.population from hpc)]
    exact ⟨⟨hs, hp, fun _ y hy => hpop rfl y (List.mem_of_mem_erase hy), trivial⟩, Keeps.refl _ _⟩
  | fill =>
    rw [hc] at hpop
    dsimp only
    split
    · have hw := wp_create_any hps (cxpb := cxpb) (fun x hx => (hpop rfl x hx).1)
      cases hr : (gamaOps c cxpb).create s.population s.world with
      | mk r w' =>
        cases r with
        | error e =>
          have hex := wp_error hw hr
          have hkeep : Keeps k s.world w' := Keeps.of_extends hex
          exact ⟨⟨fun y hy => hkeep.ofSpace (hs y hy), hp, fun _ y hy => ⟨hkeep.ofSpace (hpop rfl y hy).1,
            hkeep.2 y (hpop rfl y hy).2⟩, trivial⟩, hkeep⟩
        | ok x =>
          obtain ⟨ss, hf, hok⟩ := wp_ok hw hr
          have hkeep : Keeps k s.world w' := Keeps.of_extends hf.ext
          refine ⟨⟨fun y hy => ?_, fun y hy => ?_, fun _ y hy => ⟨hkeep.ofSpace (hpop rfl y hy).1,
            hkeep.2 y (hpop rfl y hy).2⟩, trivial⟩, hkeep⟩
          · rcases List.mem_append.1 hy with hy | hy
            · exact hkeep.ofSpace (hs y hy)
            · obtain ⟨as, ha, _⟩ := hf.is
              rw [List.mem_singleton.1 hy]; exact ⟨ss, ⟨as, ha⟩, hok⟩
          · rcases List.mem_append.1 hy with hy | hy
            · exact List.mem_append.2 (Or.inl (hp y hy))
            · exact List.mem_append.2 (Or.inr hy)
    · exact ⟨⟨hs, hp, fun _ => hpop rfl, trivial⟩, Keeps.refl _ _⟩
  | restart =>
    rw [hc] at hpop
    dsimp only
    split
    · exact ⟨⟨hs, hp, fun _ => hpop rfl, fun x hx => by cases hx⟩, Keeps.refl _ _⟩
    · exact ⟨⟨hs, hp, fun _ => hpop rfl, trivial⟩, Keeps.refl _ _⟩
  | renew n made =>
    rw [hc] at hpop hpc
    cases n with
    | zero => exact ⟨⟨hs, hp, (fun h => by cases h), hpc⟩, Keeps.refl _ _⟩
    | succ n =>
      dsimp only
      obtain ⟨r, w', he, hex, hr⟩ := individual_any hps (cxpb := cxpb) s.world
      rw [he]
      have hkeep : Keeps k s.world w' := Keeps.of_extends hex
      cases r with
      | error e =>
        exact ⟨⟨fun y hy => hkeep.ofSpace (hs y hy), hp, fun _ y hy => ⟨hkeep.ofSpace (hpop rfl y hy).1,
          hkeep.2 y (hpop rfl y hy).2⟩, trivial⟩, hkeep⟩
      | ok x =>
        refine ⟨⟨fun y hy => hkeep.ofSpace (hs y hy), hp, fun _ y hy => ⟨hkeep.ofSpace (hpop rfl y hy).1,
          hkeep.2 y (hpop rfl y hy).2⟩, fun y hy => ?_⟩, hkeep⟩
        rcases List.mem_append.1 hy with hy | hy
        · exact hkeep.ofSpace (hpc y hy)
        · rw [List.mem_singleton.1 hy]; exact hr x rfl
  | returned =>
    exact ⟨⟨hs, hp, hpop, hpc⟩, Keeps.refl _ _⟩
  | raised e =>
    exact ⟨⟨hs, hp, hpop, hpc⟩, Keeps.refl _ _⟩

theorem soundAny_run {c : OpConfig} (hps : PSetOk c.ps) {cxpb : ℚ} {maxN : Option Int}
    (hm : eaRefused maxN = false) {size k : Nat} :
    ∀ is s, EaSound c.ps k s → EvolveAlong c cxpb maxN size (Honest k) is s →
      EaSound c.ps k (evolve c cxpb maxN size is s) ∧ Keeps k s.world (evolve c cxpb maxN size is s).world
  | [], s, h, _ => ⟨h, Keeps.refl _ _⟩
  | (d, i) :: is, s, h, hh => by
    obtain ⟨h1, h2⟩ := soundAny_step (c := { c with completed := d }) hps (cxpb := cxpb) hm (size := size) s i h hh.1
    obtain ⟨h3, h4⟩ := soundAny_run hps hm is _ h1 hh.2
    exact ⟨h3, h2.trans h4⟩

/-- A search that has raised stays as it is. -/
theorem evolve_raised {c : OpConfig} {cxpb : ℚ} {maxN : Option Int} {size : Nat} {e : Exn} :
    ∀ is (s : Ea World Nat), s.pc = .raised e → evolve c cxpb maxN size is s = s
  | [], _, _ => rfl
  | (d, i) :: is, s, h => by
    have : eaStep (gamaOps { c with completed := d } cxpb) maxN size i s = s := by
      unfold eaStep
      rw [h]
    show evolve c cxpb maxN size is (eaStep _ maxN size i s) = s
    rw [this]
    exact evolve_raised is s h

/-- **C126** for the evolutionary search in any search space that was read and with any settings: with whatever
maximum number and length of evaluations, number of metrics, and attempts.  It may raise, but every individual it
submits is a well-formed pipeline of the search space, and stays that pipeline. -/
theorem C126_evolution_any {c : OpConfig} (hps : PSetOk c.ps) {cxpb : ℚ} {maxN : Option Int} {size k : Nat}
    {l out : List Nat} {w : World} (hl : ∀ x ∈ l, OfSpace c.ps w x) (is later : List ((Str → Bool) × EaInput World))
    (hh : EvolveAlong c cxpb maxN size (Honest k) (is ++ later) (eaStart (.list l) out w)) :
    (∀ x ∈ (evolve c cxpb maxN size is (eaStart (.list l) out w)).submitted, ∃ ss, PipelineOk c.ps ss ∧
      Is (evolve c cxpb maxN size is (eaStart (.list l) out w)).world x ss ∧
      Is (evolve c cxpb maxN size (is ++ later) (eaStart (.list l) out w)).world x ss) := by
  cases hm : eaRefused maxN with
  | true =>
    cases is with
    | nil => intro x hx; cases hx
    | cons a is =>
      obtain ⟨d, i⟩ := a
      have he : evolve c cxpb maxN size ((d, i) :: is) (eaStart (.list l) out w) =
          { (eaStart (.list l) out w) with pc := .raised .valueError } := by
        show evolve c cxpb maxN size is (eaStep _ maxN size i _) = _
        have : eaStep (gamaOps { c with completed := d } cxpb) maxN size i (eaStart (.list l) out w) =
            { (eaStart (.list l) out w) with pc := .raised .valueError } := by
          show (if eaRefused maxN then _ else _) = _
          rw [hm]
          rfl
        rw [this]
        exact evolve_raised is _ rfl
      intro x hx
      rw [he] at hx
      cases hx
  | false =>
    obtain ⟨h1, h2⟩ := (evolveAlong_append is later _).1 hh
    obtain ⟨h3, _⟩ := soundAny_run hps hm is _ (sound_start hl) h1
    obtain ⟨_, h4⟩ := soundAny_run hps hm later _ h3 h2
    rw [evolve_append]
    intro x hx
    obtain ⟨ss, g1, g2⟩ := h3.submitted x hx
    exact ⟨ss, g2, g1, h4.1 x ss g1⟩

theorem rsSoundAny_step {c : OpConfig} (hps : PSetOk c.ps) {cxpb : ℚ} {maxN : Option Int} (s : Rs World Nat)
    (i : Wait World) (h : RsSound c.ps s) (hh : WaitKeeps s.world i) :
    RsSound c.ps (rsStep (gamaOps c cxpb) maxN i s) ∧
    KeepsAll s.world (rsStep (gamaOps c cxpb) maxN i s).world := by
  obtain ⟨hs, hpc⟩ := h
  have hid : KeepsAll s.world s.world := fun _ _ h => h
  unfold rsStep
  cases hc : s.pc with
  | submit rest =>
    rw [hc] at hpc
    cases rest with
    | nil => exact ⟨⟨hs, trivial⟩, hid⟩
    | cons x xs =>
      refine ⟨⟨fun y hy => ?_, fun y hy => hpc y (by simp [hy])⟩, hid⟩
      rcases List.mem_append.1 hy with hy | hy
      · exact hs y hy
      · rw [List.mem_singleton.1 hy]; exact hpc x (by simp)
  | loop =>
    dsimp only
    split
    · cases i with
      | raises e => exact ⟨⟨hs, trivial⟩, hid⟩
      | completes j r w =>
        dsimp only
        have hk : KeepsAll s.world w := hh
        cases takePending s.pending j with
        | none => exact ⟨⟨hs, trivial⟩, hid⟩
        | some q => exact ⟨⟨fun y hy => hk.ofSpace (hs y hy), trivial⟩, hk⟩
    · exact ⟨⟨hs, trivial⟩, hid⟩
  | got x r => cases r <;> exact ⟨⟨hs, trivial⟩, hid⟩
  | next =>
    dsimp only
    obtain ⟨r, w', he, hex, hr⟩ := individual_any hps (cxpb := cxpb) s.world
    rw [he]
    have hk : KeepsAll s.world w' := fun _ _ h => h.mono hex
    cases r with
    | error e => exact ⟨⟨fun y hy => hk.ofSpace (hs y hy), trivial⟩, hk⟩
    | ok x =>
      refine ⟨⟨fun y hy => ?_, trivial⟩, hk⟩
      rcases List.mem_append.1 hy with hy | hy
      · exact hk.ofSpace (hs y hy)
      · rw [List.mem_singleton.1 hy]; exact hr x rfl
  | returned => exact ⟨⟨hs, hpc⟩, hid⟩
  | raised e => exact ⟨⟨hs, hpc⟩, hid⟩

theorem rsSoundAny_run {c : OpConfig} (hps : PSetOk c.ps) {cxpb : ℚ} {maxN : Option Int} :
    ∀ is s, RsSound c.ps s → RsAlong (gamaOps c cxpb) maxN (fun s i => WaitKeeps s.world i) is s →
      RsSound c.ps (rsRun (gamaOps c cxpb) maxN is s) ∧
        KeepsAll s.world (rsRun (gamaOps c cxpb) maxN is s).world
  | [], _, h, _ => ⟨h, fun _ _ h => h⟩
  | i :: is, s, h, hh => by
    obtain ⟨h1, h2⟩ := rsSoundAny_step hps (cxpb := cxpb) (maxN := maxN) s i h hh.1
    obtain ⟨h3, h4⟩ := rsSoundAny_run hps is _ h1 hh.2
    exact ⟨h3, fun y ss hy => h4 y ss (h2 y ss hy)⟩

/-- **C126** for random search in any search space that was read, also one in which it cannot make pipelines. -/
theorem C126_random_search_any {c : OpConfig} (hps : PSetOk c.ps) {cxpb : ℚ} {maxN : Option Int}
    {l out : List Nat} {w : World} (hl : ∀ x ∈ l, OfSpace c.ps w x) (is later : List (Wait World))
    (hh : RsAlong (gamaOps c cxpb) maxN (fun s i => WaitKeeps s.world i) (is ++ later)
      (rsStart (.list l) out w)) :
    ∀ x ∈ (rsRun (gamaOps c cxpb) maxN is (rsStart (.list l) out w)).submitted, ∃ ss, PipelineOk c.ps ss ∧
      Is (rsRun (gamaOps c cxpb) maxN is (rsStart (.list l) out w)).world x ss ∧
      Is (rsRun (gamaOps c cxpb) maxN (is ++ later) (rsStart (.list l) out w)).world x ss := by
  obtain ⟨h1, h2⟩ := (rsAlong_append is later _).1 hh
  obtain ⟨h3, _⟩ := rsSoundAny_run hps is _ (⟨fun x hx => (by cases hx), hl⟩ : RsSound c.ps (rsStart (.list l) out w)) h1
  obtain ⟨_, h4⟩ := rsSoundAny_run hps later _ h3 h2
  rw [rsRun_append]
  intro x hx
  obtain ⟨ss, g1, g2⟩ := h3.submitted x hx
  exact ⟨ss, g2, g1, h4 x ss g1⟩

theorem getJobAny_in {c : OpConfig} (hps : PSetOk c.ps) {cxpb : ℚ} (a : AshaConfig) (k : Nat) (s : Asha World Nat)
    (h : AshaIn (OfSpace c.ps s.world) s) :
    ∃ r s', getJob (gamaOps c cxpb) a k s = (r, s') ∧ KeepsAll s.world s'.world ∧
      AshaIn (OfSpace c.ps s'.world) s' ∧ ∀ x rung, r = .ok (x, rung) → OfSpace c.ps s'.world x := by
  unfold getJob
  cases hf : findPromotion a.rf k s.promoted s.rungs.tail with
  | some y =>
    obtain ⟨rung, y⟩ := y
    obtain ⟨inds, hm, _, hy, _⟩ := findPromotion_some hf
    exact ⟨_, _, rfl, fun _ _ h => h, ⟨h.submitted, h.pending, h.candidates, h.rungs⟩,
      fun x r he => by cases he; exact h.rungs _ (List.mem_of_mem_tail hm) y hy⟩
  | none =>
    dsimp only
    cases hl : s.candidates.getLast? with
    | some x =>
      exact ⟨_, _, rfl, fun _ _ h => h,
        ⟨h.submitted, h.pending, fun y hy => h.candidates y (List.mem_of_mem_dropLast hy), h.rungs⟩,
        fun y r he => by cases he; exact h.candidates x (List.mem_of_getLast? hl)⟩
    | none =>
      dsimp only
      obtain ⟨r, w', he, hex, hr⟩ := individual_any hps (cxpb := cxpb) s.world
      rw [he]
      have hk : KeepsAll s.world w' := fun _ _ h => h.mono hex
      obtain ⟨h1, h2, h3, h4⟩ := h.mono (fun x hx => hk.ofSpace hx)
      cases r with
      | error e => exact ⟨_, _, rfl, hk, ⟨h1, h2, h3, h4⟩, (fun _ _ he => by cases he)⟩
      | ok x => exact ⟨_, _, rfl, hk, ⟨h1, h2, h3, h4⟩, fun y r he => by cases he; exact hr x rfl⟩

theorem startJobAny_in {c : OpConfig} (hps : PSetOk c.ps) {cxpb : ℚ} (a : AshaConfig) (k : Nat) (s : Asha World Nat)
    (h : AshaIn (OfSpace c.ps s.world) s) :
    ∃ r s', startJob (gamaOps c cxpb) a k s = (r, s') ∧ KeepsAll s.world s'.world ∧
      AshaIn (OfSpace c.ps s'.world) s' := by
  obtain ⟨r, s', he, hk, hs, hx⟩ := getJobAny_in hps (cxpb := cxpb) a k s h
  cases r with
  | error e =>
    refine ⟨.error e, s', ?_, hk, hs⟩
    show PyM.bind _ _ s = _
    unfold PyM.bind
    rw [he]
  | ok p =>
    obtain ⟨x, rung⟩ := p
    have hx := hx x rung rfl
    have : startJob (gamaOps c cxpb) a k s =
        (if rung ∈ a.levels then
          modify fun s => { s with pending := s.pending ++ [(x, rung)], submitted := s.submitted ++ [(x, rung)] }
        else raise .keyError : PyM (Asha World Nat) Unit) s' := by
      show PyM.bind _ _ s = _
      unfold PyM.bind
      rw [he]
    rw [this]
    by_cases hr : rung ∈ a.levels
    · rw [if_pos hr]
      refine ⟨_, _, rfl, hk, ⟨fun y hy => ?_, fun y hy => ?_, hs.candidates, hs.rungs⟩⟩
      · rcases List.mem_append.1 hy with hy | hy
        · exact hs.submitted y hy
        · rw [List.mem_singleton.1 hy]; exact hx
      · rcases List.mem_append.1 hy with hy | hy
        · exact hs.pending y hy
        · rw [List.mem_singleton.1 hy]; exact hx
    · rw [if_neg hr]
      exact ⟨_, _, rfl, hk, hs⟩

theorem ashaInAny_step {c : OpConfig} (hps : PSetOk c.ps) {cxpb : ℚ} (a : AshaConfig) (i : AshaInput World)
    (s : Asha World Nat) (h : AshaIn (OfSpace c.ps s.world) s) (hpc : AshaPcIn (OfSpace c.ps s.world) s.pc)
    (hh : WaitKeeps s.world i.wait) :
    AshaIn (OfSpace c.ps (ashaStep (gamaOps c cxpb) a i s).world) (ashaStep (gamaOps c cxpb) a i s) ∧
    AshaPcIn (OfSpace c.ps (ashaStep (gamaOps c cxpb) a i s).world) (ashaStep (gamaOps c cxpb) a i s).pc ∧
    KeepsAll s.world (ashaStep (gamaOps c cxpb) a i s).world := by
  have hid : KeepsAll s.world s.world := fun _ _ h => h
  have hsame : ∀ pc, AshaPcIn (OfSpace c.ps s.world) pc →
      AshaIn (OfSpace c.ps s.world) { s with pc := pc } ∧ AshaPcIn (OfSpace c.ps s.world) pc ∧
        KeepsAll s.world s.world :=
    fun pc hpc => ⟨⟨h.submitted, h.pending, h.candidates, h.rungs⟩, hpc, hid⟩
  unfold ashaStep
  cases hc : s.pc with
  | starting k =>
    cases k with
    | zero => exact hsame _ trivial
    | succ k =>
      dsimp only
      obtain ⟨r, s', he, hk, hs⟩ := startJobAny_in hps (cxpb := cxpb) a i.pick s h
      rw [he]
      cases r with
      | error e => exact ⟨⟨hs.submitted, hs.pending, hs.candidates, hs.rungs⟩, ashaHandle_in hs.rungs e, hk⟩
      | ok _ => exact ⟨⟨hs.submitted, hs.pending, hs.candidates, hs.rungs⟩, trivial, hk⟩
  | loop =>
    dsimp only
    cases ashaMore a s with
    | error e => exact hsame _ (ashaHandle_in h.rungs e)
    | ok b =>
      cases b with
      | false =>
        dsimp only
        cases a.levels.head? with
        | none => exact hsame _ trivial
        | some top => exact hsame _ (ashaReport_in h.rungs top)
      | true =>
        dsimp only
        revert hh
        cases i.wait with
        | raises e => exact fun _ => hsame _ (ashaHandle_in h.rungs e)
        | completes j r w =>
          intro hk
          dsimp only
          cases ht : takePending s.pending j with
          | none => exact hsame _ (ashaHandle_in h.rungs _)
          | some q =>
            obtain ⟨⟨x, rung⟩, rest⟩ := q
            obtain ⟨hx, hr⟩ := mem_of_takePending ht
            have h' := h.mono (Q' := OfSpace c.ps w) (fun x hx => KeepsAll.ofSpace hk hx)
            exact ⟨⟨h'.submitted, fun y hy => h'.pending y (hr y hy), h'.candidates, h'.rungs⟩,
              h'.pending _ hx, hk⟩
  | got x rung r =>
    rw [hc] at hpc
    cases r with
    | failed => exact hsame _ trivial
    | result _ score =>
      dsimp only
      cases hd : dget s.rungs rung with
      | none => exact hsame _ (ashaHandle_in h.rungs _)
      | some l =>
        refine ⟨⟨h.submitted, h.pending, h.candidates, fun q hq y hy => ?_⟩, trivial, hid⟩
        have hv : ∀ y ∈ l ++ [(score, x)], OfSpace c.ps s.world y.2 := by
          intro y hy
          rcases List.mem_append.1 hy with hy | hy
          · exact h.rungs _ (dget_mem hd) y hy
          · rw [List.mem_singleton.1 hy]; exact hpc
        rcases mem_dset hq with rfl | hq | hq
        · exact hv y hy
        · exact h.rungs q hq y hy
        · rw [hq] at hy; exact hv y hy
  | next =>
    dsimp only
    obtain ⟨r, s', he, hk, hs⟩ := startJobAny_in hps (cxpb := cxpb) a i.pick s h
    rw [he]
    cases r with
    | error e => exact ⟨⟨hs.submitted, hs.pending, hs.candidates, hs.rungs⟩, ashaHandle_in hs.rungs e, hk⟩
    | ok _ => exact ⟨⟨hs.submitted, hs.pending, hs.candidates, hs.rungs⟩, trivial, hk⟩
  | returned l => rw [hc] at hpc; exact ⟨h, by rw [hc]; exact hpc, hid⟩
  | raised e => exact ⟨h, by rw [hc]; trivial, hid⟩

theorem ashaInAny_run {c : OpConfig} (hps : PSetOk c.ps) {cxpb : ℚ} (a : AshaConfig) :
    ∀ is s, AshaIn (OfSpace c.ps s.world) s → AshaPcIn (OfSpace c.ps s.world) s.pc →
      AshaAlong (gamaOps c cxpb) a (fun s i => WaitKeeps s.world i.wait) is s →
      AshaIn (OfSpace c.ps (ashaRun (gamaOps c cxpb) a is s).world) (ashaRun (gamaOps c cxpb) a is s) ∧
      AshaPcIn (OfSpace c.ps (ashaRun (gamaOps c cxpb) a is s).world) (ashaRun (gamaOps c cxpb) a is s).pc ∧
      KeepsAll s.world (ashaRun (gamaOps c cxpb) a is s).world
  | [], _, h, hp, _ => ⟨h, hp, fun _ _ h => h⟩
  | i :: is, s, h, hp, hh => by
    obtain ⟨h1, h2, h3⟩ := ashaInAny_step hps (cxpb := cxpb) a i s h hp hh.1
    obtain ⟨g1, g2, g3⟩ := ashaInAny_run hps a is _ h1 h2 hh.2
    exact ⟨g1, g2, fun y ss hy => g3 y ss (h3 y ss hy)⟩

/-- **C126** for successive halving in any search space that was read: also of the individuals it reports, by itself or when
interrupted. -/
theorem C126_halving_any {c : OpConfig} (hps : PSetOk c.ps) {cxpb : ℚ} {a : AshaConfig}
    {l : List Nat} {w : World} (hl : ∀ x ∈ l, OfSpace c.ps w x) (is later : List (AshaInput World))
    (hh : AshaAlong (gamaOps c cxpb) a (fun s i => WaitKeeps s.world i.wait) (is ++ later) (ashaStart a l w))
    (x : Nat)
    (hx : (∃ rung, (x, rung) ∈ (ashaRun (gamaOps c cxpb) a is (ashaStart a l w)).submitted) ∨
      (∃ r, (ashaRun (gamaOps c cxpb) a is (ashaStart a l w)).pc = .returned r ∧ x ∈ r) ∨
      ∃ r, ashaInterrupt (ashaRun (gamaOps c cxpb) a is (ashaStart a l w)) = .returned r ∧ x ∈ r) :
    ∃ ss, PipelineOk c.ps ss ∧ Is (ashaRun (gamaOps c cxpb) a is (ashaStart a l w)).world x ss ∧
      Is (ashaRun (gamaOps c cxpb) a (is ++ later) (ashaStart a l w)).world x ss := by
  obtain ⟨h1, h2⟩ := (ashaAlong_append is later _).1 hh
  have h0 : AshaIn (OfSpace c.ps w) (ashaStart a l w) :=
    ⟨fun x hx => (by cases hx), fun x hx => (by cases hx), hl, fun r hr x hx => by
      obtain ⟨k, _, rfl⟩ := List.mem_map.1 hr
      cases hx⟩
  obtain ⟨h3, h4, _⟩ := ashaInAny_run hps (cxpb := cxpb) a is (ashaStart a l w) h0 trivial h1
  obtain ⟨_, _, h5⟩ := ashaInAny_run hps (cxpb := cxpb) a later _ h3 h4 h2
  rw [ashaRun_append]
  have key : OfSpace c.ps (ashaRun (gamaOps c cxpb) a is (ashaStart a l w)).world x := by
    rcases hx with ⟨rung, hx⟩ | ⟨r, hr, hx⟩ | ⟨r, hr, hx⟩
    · exact h3.submitted _ hx
    · rw [hr] at h4; exact h4 x hx
    · have h6 := ashaHandle_in h3.rungs .timeout
      unfold ashaInterrupt at hr
      rw [hr] at h6; exact h6 x hx
  obtain ⟨ss, g1, g2⟩ := key
  exact ⟨ss, g2, g1, h5 x ss g1⟩

/-! ### C69 -/

/-- Candidates are all that has been submitted. -/
def OnlyCandidates (l : List Nat) (s : Ea World Nat) : Prop :=
  match s.pc with
  | .start (.list l') => l' = l ∧ s.submitted = []
  | .clear (.list l') => l' = l ∧ s.submitted = []
  | .submit rest => s.submitted ++ rest = l
  | .renew _ _ => False
  | .start .sameAsOutput => False
  | .clear .sameAsOutput => False
  | .raised _ => s.submitted <+: l
  | _ => s.submitted = l

/-- With one value for each individual no offspring is made. -/
theorem create_one {c : OpConfig} {cxpb : ℚ} {w : World} {pop : List Nat} (hv : ∀ x ∈ pop, Evaluated 1 w x) :
    ∃ e w', (gamaOps c cxpb).create pop w = (.error e, w') ∧
      ((pop.length < 3 ∧ e = .valueError) ∨ (3 ≤ pop.length ∧ e = .indexError)) := by
  by_cases h : pop.length < 3
  · refine ⟨.valueError, w, ?_, .inl ⟨h, rfl⟩⟩
    show firstOf (createFromPopulation c pop 1 cxpb) w = _
    unfold firstOf createFromPopulation
    rw [if_pos h]
    rfl
  · exact ⟨.indexError, w, C69_fails c cxpb w pop (by omega) hv, .inr ⟨by omega, rfl⟩⟩

theorem only_step {c : OpConfig} {cxpb : ℚ} {maxN : Option Int} {size : Nat} {l : List Nat} (s : Ea World Nat)
    (i : EaInput World) (hr : i.restart = false) (h : OnlyCandidates l s)
    (hv : s.pc = .fill → ∀ x ∈ s.population, Evaluated 1 s.world x) :
    OnlyCandidates l (eaStep (gamaOps c cxpb) maxN size i s) := by
  unfold OnlyCandidates at h
  unfold eaStep
  cases hc : s.pc with
  | start cs =>
    rw [hc] at h
    cases cs with
    | sameAsOutput => exact h.elim
    | list l' =>
      dsimp only
      split
      · show s.submitted <+: l
        rw [h.2]; exact List.nil_prefix
      · exact h
  | clear cs =>
    rw [hc] at h
    cases cs with
    | sameAsOutput => exact h.elim
    | list l' =>
      obtain ⟨rfl, h2⟩ := h
      show s.submitted ++ l' = l'
      rw [h2]; rfl
  | submit rest =>
    rw [hc] at h
    dsimp only at h
    cases rest with
    | nil =>
      show s.submitted = l
      rw [← h, List.append_nil]
    | cons x xs =>
      show (s.submitted ++ [x]) ++ xs = l
      rw [← h, List.append_assoc]; rfl
  | loop =>
    rw [hc] at h
    have h' : s.submitted <+: l := by rw [show s.submitted = l from h]
    dsimp only
    split
    · cases i.wait with
      | raises e => exact h'
      | completes j r w =>
        dsimp only
        cases takePending s.pending j with
        | none => exact h'
        | some q => exact h
    · exact h
  | got x r =>
    rw [hc] at h
    cases r with
    | failed => exact h
    | result b _ => cases b <;> exact h
  | full =>
    rw [hc] at h
    have h' : s.submitted <+: l := by rw [show s.submitted = l from h]
    dsimp only
    split
    · cases (gamaOps c cxpb).eliminate s.population s.world with
      | mk r w' => cases r with
        | error e => exact h'
        | ok x => exact h
    · exact h
  | remove x =>
    rw [hc] at h
    have h' : s.submitted <+: l := by rw [show s.submitted = l from h]
    dsimp only
    split
    · exact h
    · exact h'
  | fill =>
    rw [hc] at h
    have h' : s.submitted <+: l := by rw [show s.submitted = l from h]
    dsimp only
    split
    · obtain ⟨e, w', he, _⟩ := create_one (c := c) (cxpb := cxpb) (hv hc)
      rw [he]
      exact h'
    · exact h
  | restart =>
    rw [hc] at h
    dsimp only
    rw [hr]
    exact h
  | renew n made => rw [hc] at h; exact h.elim
  | returned => rw [hc] at h; unfold OnlyCandidates; rw [hc]; exact h
  | raised e => rw [hc] at h; unfold OnlyCandidates; rw [hc]; exact h

theorem only_run {c : OpConfig} (hps : PSetOk c.ps) {cxpb : ℚ} {maxN : Option Int}
    (hm : eaRefused maxN = false) {size : Nat} {l : List Nat} :
    ∀ is s, EaSound c.ps 1 s → OnlyCandidates l s →
      EvolveAlong c cxpb maxN size (fun s i => Honest 1 s i ∧ i.restart = false) is s →
      EaSound c.ps 1 (evolve c cxpb maxN size is s) ∧ OnlyCandidates l (evolve c cxpb maxN size is s)
  | [], _, h, ho, _ => ⟨h, ho⟩
  | (d, i) :: is, s, h, ho, hh => by
    have h1 := (soundAny_step (c := { c with completed := d }) hps (cxpb := cxpb) hm (size := size) s i h hh.1.1).1
    have h2 := only_step (c := { c with completed := d }) (cxpb := cxpb) (maxN := maxN) (size := size) s i hh.1.2 ho
      (fun hf x hx => (h.population (by rw [hf]; rfl) x hx).2)
    exact only_run hps hm is _ h1 h2 hh.2

/-- **C69**, what it means for a search.  With one metric and without length regularisation, an evolutionary search
that does not start anew submits the candidates it is given and nothing else: where it would make offspring it
raises, an `IndexError` once three individuals have been evaluated. -/
theorem C69_search {c : OpConfig} (hps : PSetOk c.ps) {cxpb : ℚ} {maxN : Option Int} (hm : eaRefused maxN = false)
    {size : Nat} {l out : List Nat} {w : World} (hl : ∀ x ∈ l, OfSpace c.ps w x)
    (is : List ((Str → Bool) × EaInput World))
    (hh : EvolveAlong c cxpb maxN size (fun s i => Honest 1 s i ∧ i.restart = false) is
      (eaStart (.list l) out w)) :
    (evolve c cxpb maxN size is (eaStart (.list l) out w)).submitted <+: l ∧
    ((evolve c cxpb maxN size is (eaStart (.list l) out w)).pc = .fill → ∀ d i, i.queue ≤ 1 →
      (evolve c cxpb maxN size (is ++ [(d, i)]) (eaStart (.list l) out w)).pc =
        .raised (if (evolve c cxpb maxN size is (eaStart (.list l) out w)).population.length < 3 then .valueError
          else .indexError)) := by
  obtain ⟨h1, h2⟩ := only_run hps hm (l := l) is _ (sound_start hl) ⟨rfl, rfl⟩ hh
  simp only [evolve_append]
  generalize evolve c cxpb maxN size is (eaStart (.list l) out w) = s at h1 h2
  constructor
  · unfold OnlyCandidates at h2
    split at h2
    · rw [h2.2]; exact List.nil_prefix
    · rw [h2.2]; exact List.nil_prefix
    · exact ⟨_, h2⟩
    · exact h2.elim
    · exact h2.elim
    · exact h2.elim
    · exact h2
    · rw [h2]
  · intro hf d i hq
    obtain ⟨e, w', he, hw⟩ := create_one (c := { c with completed := d }) (cxpb := cxpb)
      (fun x hx => (h1.population (by rw [hf]; rfl) x hx).2)
    show (eaStep (gamaOps { c with completed := d } cxpb) maxN size i s).pc = _
    unfold eaStep
    rw [hf]
    dsimp only
    rw [if_pos hq, he]
    rcases hw with ⟨hn, rfl⟩ | ⟨hn, rfl⟩
    · rw [if_pos hn]
    · rw [if_neg (by omega)]

namespace Ex

theorem auto_any {c : OpConfig} (hps : PSetOk c.ps) {cxpb : ℚ} {maxN : Option Int}
    (hm : eaRefused maxN = false) {size n k : Nat} :
    ∀ (chs : List Choice) (s : Ea World Nat), (∀ ch ∈ chs, ch.values.length = k) → EaSound c.ps k s →
      EvolveAlong c cxpb maxN size (fun s i => Honest k s i ∧ i.restart = false) (auto c cxpb maxN size n chs s) s
  | [], _, _, _ => trivial
  | ch :: chs, s, hv, h => by
    have hh := auto_honest (n := n) (hv ch (by simp)) h
    refine ⟨⟨hh, rfl⟩, auto_any hps hm chs _ (fun ch h => hv ch (by simp [h])) ?_⟩
    exact (soundAny_step (c := { c with completed := fun _ => false }) hps hm s _ h hh).1

/-- Evaluations with one value. -/
def oneValue (n : Nat) : List Choice := List.replicate n ⟨0, [.fin 1], fun _ => 0⟩

def filling (p : EaPc Nat) : Bool :=
  match p with
  | .fill => true
  | _ => false

end Ex

/-- Six pipelines are submitted and four of them evaluated, with one value each, by one worker; offspring is to be
made next. -/
example : EvolveAlong Ex.config (1 / 5) none 50 (fun s i => Honest 1 s i ∧ i.restart = false)
      (Ex.auto Ex.config (1 / 5) none 50 1 (Ex.oneValue 27) Ex.sixStart) Ex.sixStart ∧
    Ex.filling (evolve Ex.config (1 / 5) none 50
      (Ex.auto Ex.config (1 / 5) none 50 1 (Ex.oneValue 27) Ex.sixStart) Ex.sixStart).pc = true ∧
    (evolve Ex.config (1 / 5) none 50
      (Ex.auto Ex.config (1 / 5) none 50 1 (Ex.oneValue 27) Ex.sixStart) Ex.sixStart).population.length = 4 :=
  ⟨Ex.auto_any Ex.space_ok rfl _ _ (fun ch h => by rw [List.eq_of_mem_replicate h]; rfl)
    (sound_start (Ex.six_space rfl)), by decide +kernel, by decide +kernel⟩

end Gama
