import Verif.Props.Whole

/-! # What follows from the library holding what a search was told: C135 - C137 -/

namespace Gama
open PyM Spec

section
variable {Fn V X Ω E P : Type}

/-! ### C136: pipelines that are new -/

/-- One attempt at making offspring of members of a population, operator_set.py l.62-78. -/
def Spec.Variation (c : OpConfig) (pop : List Nat) (op : GP Nat) : Prop :=
  (∃ i ∈ pop, op = mutateWithLog c i) ∨ ∃ i ∈ pop, ∃ j ∈ pop, op = mateWithLog c i j

/-- Evaluating a pipeline with this text gave a result. -/
def Spec.Seen (h : List (Nat × Completion)) (w : World) (text : Str) : Prop :=
  ∃ x r ss, (x, r) ∈ h ∧ r ≠ .failed ∧ Is w x ss ∧ text = printed ss

/-- Offspring that was completed before was made after 50 attempts that were. -/
def Retried (c : OpConfig) (pop : List Nat) (x : Nat) (w' : World) : Prop :=
  ∀ s, pipelineStr x w' = (.ok s, w') → c.completed s = true →
    ∃ op w₁ xs, Variation c pop op ∧ xs.length = 50 ∧ Attempts op w₁ xs w' ∧ ∀ y ∈ xs, c.completed y.2 = true

theorem wp_of_run {σ α : Type} {m : PyM σ α} {Q : α → σ → Prop} {R : Exn → σ → Prop} {w : σ}
    (h : ∀ a w', m w = (.ok a, w') → Q a w') (he : ∀ e w', m w = (.error e, w') → R e w') : wp m Q R w := by
  unfold wp
  cases hr : m w with
  | mk r w' =>
    cases r with
    | ok a => exact h a w' hr
    | error e => exact he e w' hr

theorem retried_offspring {c : OpConfig} (hb : c.maxRetry = 50) {cxpb : ℚ} {pop : List Nat} {i j : Nat}
    (hi : i ∈ pop) (hj : j ∈ pop) (w : World) :
    wp (offspringOf c cxpb i j) (fun x w' => Retried c pop x w') (fun _ _ => True) w := by
  have hmut : ∀ w, wp (opMutate c i) (fun x w' => Retried c pop x w') (fun _ _ => True) w := fun w =>
    wp_of_run (fun x w' hr s hs hc => by
      obtain ⟨xs, h1, h2, h3⟩ := (C13_operators hb).1 hr hs hc
      exact ⟨_, _, xs, Or.inl ⟨i, hi, rfl⟩, h1, h2, h3⟩) (fun _ _ _ => trivial)
  have hmate : ∀ w, wp (opMate c i j) (fun x w' => Retried c pop x w') (fun _ _ => True) w := fun w =>
    wp_of_run (fun x w' hr s hs hc => by
      obtain ⟨xs, h1, h2, h3⟩ := (C13_operators hb).2 j hr hs hc
      exact ⟨_, _, xs, Or.inr ⟨i, hi, j, hj, rfl⟩, h1, h2, h3⟩) (fun _ _ _ => trivial)
  unfold offspringOf
  rw [wp_bind]
  refine wp_of_run (fun b w' _ => ?_) (fun _ _ _ => trivial)
  cases b with
  | false => exact hmut w'
  | true =>
    show wp (PyM.bind (validCrossoverFunctions i j) fun fs => if fs.length > 0 then opMate c i j else opMutate c i)
      _ _ w'
    rw [show (PyM.bind (validCrossoverFunctions i j) fun fs => if fs.length > 0 then opMate c i j else opMutate c i)
      = (validCrossoverFunctions i j >>= fun fs => if fs.length > 0 then opMate c i j else opMutate c i) from rfl,
      wp_bind]
    refine wp_of_run (fun fs w'' _ => ?_) (fun _ _ _ => trivial)
    split
    · exact hmate w''
    · exact hmut w''

theorem retried_create {c : OpConfig} (hb : c.maxRetry = 50) {cxpb : ℚ} {w : World} {pop : List Nat} {k : Nat}
    (hk : 2 ≤ k) (hev : ∀ x ∈ pop, Evaluated k w x) :
    wp ((gamaOps c cxpb).create pop) (fun x w' => Retried c pop x w') (fun _ _ => True) w := by
  show wp (firstOf (createFromPopulation c pop 1 cxpb)) _ _ w
  unfold firstOf createFromPopulation
  rw [wp_bind, wp_ite]
  refine ⟨fun h => wp_raise.2 trivial, fun hlen => ?_⟩
  rw [wp_bind]
  have hw : wp (mapGP twoMetrics pop) (fun vs w' => vs.length = pop.length ∧ (∀ v ∈ vs, v.length = 2) ∧ w' = w)
      (fun _ _ => False) w := by
    obtain ⟨vs, hvs⟩ := mapGP_ok (fun x hx => twoMetrics_evaluated hk (hev x hx))
    have h := mapGP_twoMetrics (pop := pop) (w := w)
    unfold wp at h ⊢
    rw [hvs] at h ⊢
    exact h
  refine wp_mono ?_ (fun _ _ h => h.elim) hw
  rintro vs w₁ ⟨h1, h2, rfl⟩
  rw [wp_bind]
  have hv : Vectors vs 2 := ⟨by decide, h2⟩
  refine wp_mono ?_ (fun _ _ h => h.elim) (wp_nsga2Select (P := Extends w₁)
    (fun _ h => h) hv 1 w₁ (Extends.refl _) (by omega))
  rintro ps w₂ ⟨⟨g2, g3⟩, hsame⟩
  obtain ⟨p, rfl⟩ : ∃ p, ps = [p] := List.length_eq_one_iff.1 g2
  obtain ⟨b1, b2, _⟩ := g3 p (by simp)
  rw [h1] at b1 b2
  have m1 : pop.getD p.1 0 ∈ pop := by
    rw [List.getD_eq_getElem _ _ b1]; exact List.getElem_mem b1
  have m2 : pop.getD p.2 0 ∈ pop := by
    rw [List.getD_eq_getElem _ _ b2]; exact List.getElem_mem b2
  unfold mapGP
  rw [wp_bind]
  refine wp_mono ?_ (fun _ _ _ => trivial) (retried_offspring hb m1 m2 w₂)
  intro x w' hx
  rw [wp_bind]
  exact hx

theorem forall₂_left {α β : Type} {R : α → β → Prop} {a : List α} {b : List β} (h : List.Forall₂ R a b) :
    ∀ x ∈ a, ∃ y ∈ b, R x y := by
  induction h with
  | nil => intro x hx; cases hx
  | cons h1 _ ih =>
    intro x hx
    rcases List.mem_cons.1 hx with rfl | hx
    · exact ⟨_, by simp, h1⟩
    · obtain ⟨y, hy, hr⟩ := ih x hx
      exact ⟨y, by simp [hy], hr⟩

/-- What the library says is known is known. -/
theorem seen_iff {S I A B : Type} {U : Setup S I A B Nat Fn V X Ω E P} (hid : ∀ x, U.ident x = x)
    {D : List (Str × V)} {lib : LibConfig} {h : List (Nat × Completion)} {told : List (EvalRec E P (List Score))}
    {ps : PSet} {w : World} {s : Lib E P (List Score)} (h1 : List.Forall₂ (ToldAs U D) (results h) told)
    (h2 : LibraryOf lib told s) (h3 : ∀ r ∈ told, TextOf ps w r) (text : Str) :
    inLibrary s text = true ↔ Seen h w text := by
  have hin : inLibrary s text = true ↔ ∃ g ∈ told, g.pipeline = text := by
    rw [← h2.found]
    unfold inLibrary
    rw [Option.isSome_iff_ne_none]
  have hident : ∀ {x : Nat × Completion} {r : EvalRec E P (List Score)}, ToldAs U D x r → r.ident = x.1 := by
    intro x r ht
    obtain ⟨⟨_, _, _, _, -, -, -, h, -⟩, -⟩ := ht
    rw [h, hid]
  rw [hin]
  constructor
  · rintro ⟨g, hg, rfl⟩
    obtain ⟨x, hx, ht⟩ := forall₂_right h1 g hg
    obtain ⟨ss, -, a2, a3⟩ := h3 g hg
    unfold results at hx
    rw [List.mem_filter] at hx
    refine ⟨x.1, x.2, ss, hx.1, ?_, ?_, a3⟩
    · intro e; rw [e] at hx; exact absurd hx.2 (by decide)
    · rw [← hident ht]; exact a2
  · rintro ⟨x, r, ss, hx, hr, his, rfl⟩
    have hx : (x, r) ∈ results h := by
      unfold results
      rw [List.mem_filter]
      exact ⟨hx, by simpa using hr⟩
    obtain ⟨g, hg, ht⟩ := forall₂_left h1 _ hx
    refine ⟨g, hg, ?_⟩
    obtain ⟨ss', -, a2, a3⟩ := h3 g hg
    rw [hident ht] at a2
    have e1 := pipelineStr_is his
    rw [pipelineStr_is a2] at e1
    injection e1 with e1 _
    injection e1 with e1
    rw [a3, e1]

/-- The state of evolution and its library after any run. -/
theorem evolution_state {c : OpConfig} (hu : Workable c) (cxpb : ℚ) {maxN : Option Int}
    (hm : eaRefused maxN = false) (size : Nat) {K : Coding Fn V Nat}
    {Jb : Jobs Fn V X Ω} {report : V → Findings E P} {lib : LibConfig} (hK : Faithful K Jb)
    (ha : Agrees (evolution c cxpb maxN size K Jb report lib)) {k : Nat} (hk : 2 ≤ k)
    (hs : ScoresAre (evolution c cxpb maxN size K Jb report lib) k) {l : List Nat} (out : List Nat)
    {w : World} (hw : ∀ x ∈ l, OfSpace c.ps w x) (lib₀ : Lib E P (List Score)) (n : Nat) (limit : Option ℚ)
    (logfile : Bool) (D : List (Str × V)) (es : List (WholeEvent Bool Ω)) :
    EaSound c.ps k (wholeRun (evolution c cxpb maxN size K Jb report lib) es
      (wholeStart (eaStart (.list l) out w) lib₀ n limit logfile D)).joint.search :=
  (evolution_moves c cxpb maxN size hK ha l out w lib₀ n limit logfile D es).induct
    (Q := fun x => EaSound c.ps k x.1) (sound_start hw) fun _ _ hmv ih => (evolution_sound hu hm hk hs hmv ih).1

/-- **C136**: whenever evolution submits offspring, evaluating its pipeline has not given a result before,
unless 50 attempts at making offspring all gave pipelines of which evaluating has. -/
theorem C136_new {c : OpConfig} (hu : Workable c) (hb : c.maxRetry = 50) (cxpb : ℚ) {maxN : Option Int}
    (hm : eaRefused maxN = false) (size : Nat) {K : Coding Fn V Nat}
    {Jb : Jobs Fn V X Ω} {report : V → Findings E P} {lib : LibConfig} (hK : Faithful K Jb)
    (ha : Agrees (evolution c cxpb maxN size K Jb report lib)) {k : Nat} (hk : 2 ≤ k)
    (hs : ScoresAre (evolution c cxpb maxN size K Jb report lib) k) {l : List Nat} (hl : l.Nodup) (out : List Nat)
    {w : World} (hw : ∀ x ∈ l, OfSpace c.ps w x) {rows : Nat}
    (hrows : RowsAre (evolution c cxpb maxN size K Jb report lib) rows) {stratify : Option Nat}
    (hstrat : ∀ k, stratify = some k → k = rows) {rnd : Stream} {lib₀ : Lib E P (List Score)}
    (hlib : startLibrary lib stratify rnd = .ok lib₀) (n : Nat) (limit : Option ℚ) (logfile : Bool)
    (D : List (Str × V)) (es : List (WholeEvent Bool Ω)) (b : Bool) :
    let U := evolution c cxpb maxN size K Jb report lib
    let s := wholeRun U es (wholeStart (eaStart (.list l) out w) lib₀ n limit logfile D)
    let t := wholeStep U (.go b) s
    s.joint.search.pc = .fill → ∀ x, t.joint.search.submitted = s.joint.search.submitted ++ [x] →
    ∃ ss, PipelineOk c.ps ss ∧ Is t.joint.search.world x ss ∧
      (¬ Seen s.joint.search.history t.joint.search.world (printed ss) ∨
       ∃ op w₁ xs, Variation c s.joint.search.population op ∧ xs.length = 50 ∧
        Attempts op w₁ xs t.joint.search.world ∧
        ∀ y ∈ xs, Seen s.joint.search.history t.joint.search.world y.2) := by
  intro U s t hpc x hx
  obtain ⟨told, extra, h1, h2, h3, h4⟩ := C134_pipelines hu cxpb hm size hK ha hk hs hl out hw hrows hstrat hlib n
    limit logfile D es
  have he : extra = [] := by
    rcases h2 with h2 | ⟨_, _, _, -, -, -, -, h2⟩
    · exact h2
    · have h2 : s.joint.search.pc = _ := h2
      rw [hpc] at h2; cases h2
  subst he
  rw [List.append_nil] at h3 h4
  have hsound := evolution_state hu cxpb hm size hK ha hk hs out hw lib₀ n limit logfile D es
  have hsound : EaSound c.ps k s.joint.search := hsound
  have hpop := hsound.population (by rw [hpc]; rfl)
  have hu' : Workable { c with completed := inLibrary s.lib } :=
    ⟨hu.ok, hu.distinct, hu.estimators, hu.preprocessors, hu.retry, hu.length⟩
  have hw1 := wp_create hu' (cxpb := cxpb) hk (fun x hx => (hpop x hx).1) (fun x hx => (hpop x hx).2)
  have hw2 := retried_create (c := { c with completed := inLibrary s.lib }) hb (cxpb := cxpb) hk
    (fun x hx => (hpop x hx).2)
  have ht : t.joint.search = eaStep (gamaOps { c with completed := inLibrary s.lib } cxpb) maxN size
      ⟨.raises .runtimeError, s.joint.ev.jobQueueSize, b⟩ s.joint.search := by
    show (jointStep U.client U.coding U.jobs (.go (inLibrary s.lib, b)) s.joint).search = _
    unfold jointStep
    dsimp only
    rw [if_neg (by
      show ¬ eaWaits maxN s.joint.search = true
      unfold eaWaits; rw [hpc]; simp)]
    rfl
  unfold eaStep at ht
  rw [hpc] at ht
  dsimp only at ht
  by_cases hq : s.joint.ev.jobQueueSize ≤ 1
  · rw [if_pos hq] at ht
    cases hr : (gamaOps { c with completed := inLibrary s.lib } cxpb).create s.joint.search.population
        s.joint.search.world with
    | mk r w' =>
      rw [hr] at ht
      cases r with
      | error e =>
        dsimp only at ht
        rw [ht] at hx
        exact absurd (congrArg List.length hx) (by simp)
      | ok y =>
        dsimp only at ht
        have hxy : y = x := by
          rw [ht] at hx
          have := List.append_cancel_left hx
          injection this
        subst hxy
        obtain ⟨ss, hf, hok⟩ := wp_ok hw1 hr
        have hret := wp_ok hw2 hr
        have hworld : t.joint.search.world = w' := by rw [ht]
        rw [hworld]
        obtain ⟨as, ha', -⟩ := hf.is
        have his : Is w' y ss := ⟨as, ha'⟩
        have hkn : ∀ text, inLibrary s.lib text = true ↔ Seen s.joint.search.history w' text :=
          seen_iff (fun _ => rfl) h1 h3 (fun r hr => by
            obtain ⟨ss, a1, a2, a3⟩ := h4 r hr
            exact ⟨ss, a1, a2.mono hf.ext, a3⟩)
        refine ⟨ss, hok, his, ?_⟩
        by_cases hc : inLibrary s.lib (printed ss) = true
        · obtain ⟨op, w₁, xs, g1, g2, g3, g4⟩ := hret _ (pipelineStr_is his) hc
          exact Or.inr ⟨op, w₁, xs, g1, g2, g3, fun y hy => (hkn _).1 (g4 y hy)⟩
        · exact Or.inl fun h => hc ((hkn _).2 h)
  · rw [if_neg hq] at ht
    rw [ht] at hx
    exact absurd (congrArg List.length hx) (by simp)

/-! ### C137: the ensemble -/

/-- An evaluation without an error gives predictions, compilers/scikitlearn.py l.169-223. -/
def Spec.Predicts {S I A B J : Type} (U : Setup S I A B J Fn V X Ω E P) : Prop :=
  ∀ j kw ω v, U.jobs.call (U.coding.fn j) (U.coding.args j) kw ω = .returns v →
    ∀ v', v' = v ∨ v' = U.jobs.withoutMemoryError v → (U.report v').error = none → (U.report v').predictions ≠ none

theorem predicts_of_returned {S I A B J : Type} {U : Setup S I A B J Fn V X Ω E P} (h : Predicts U)
    {D : List (Str × V)} {j : J} {r : EvalRec E P (List Score)} (hr : Returned U D j r) (he : r.error = none) :
    r.predictions ≠ none := by
  obtain ⟨kw, ω, v, v', -, hc, hv, -, -, e, -, hp⟩ := hr
  rw [hp]
  rw [e] at he
  exact h j kw ω v hc v' (hv.imp id And.right) he

variable {α γ : Type}

/-- `ens` is the ensemble that is built from the best of the evaluations `hist`: labels and predictions are of
the same rows of the training data. -/
def Spec.EnsembleOf (metric : List α → (Nat × γ → ℚ) → Except Exn Score) (trans : P → γ → ℚ)
    (hill maxModels : Option Nat) (y : List α) (size : Int) (timeout : ℚ) (hist : List (EvalRec E P (List Score)))
    (ens : Except Exn (Ens (Nat × γ) E)) : Prop :=
  ∃ (rows : List Nat) (labels : List α) (best : List (Ref E P (List Score))) (models : List (Mdl (Nat × γ) E)),
    ens = .ok (buildFitEnsemble (metric labels) size timeout models) ∧
    rows.Nodup ∧ (∀ i ∈ rows, i < y.length) ∧ rows.length = min 10000 (min (hill.getD 10000) y.length) ∧
    RowsOf rows y labels ∧ best.Pairwise (fun a b => b.given.score ≤ a.given.score) ∧
    BestOf (fun t : Ref E P (List Score) => t.given.score) (min 200 (maxModels.getD 200)) (errorFree hist) best ∧
    List.Forall₂ (fun r m => ModelFrom trans rows r.given m) best models

theorem ensemble_of_told {S I A B J : Type} {U : Setup S I A B J Fn V X Ω E P} (hp : Predicts U)
    {D : List (Str × V)} {h : List (J × Completion)} {told extra : List (EvalRec E P (List Score))}
    (h1 : List.Forall₂ (ToldAs U D) (results h) told)
    (h2 : ∀ r ∈ extra, ∃ j, Returned U D j r) {y : List α} (h4 : SameSize y.length (told ++ extra))
    (h5 : DistinctIds (told ++ extra)) {hill maxModels : Option Nat} (hhill : hill ≠ some 0)
    {stratify : Option Nat} (hstrat : ∀ k, stratify = some k → k = y.length) {rnd : Stream}
    {lib₀ : Lib E P (List Score)} (hlib : startLibrary (gamaLibrary hill maxModels) stratify rnd = .ok lib₀)
    (hsome : stratify ≠ none ∨ ∃ x sc, (x, .result true sc) ∈ h)
    (metric : List α → (Nat × γ → ℚ) → Except Exn Score) (trans : P → γ → ℚ) (probabilities : Bool)
    {drawn : List Nat}
    (hdrawn : 10000 < min (hill.getD 10000) y.length → Drawn drawn (min (hill.getD 10000) y.length) 10000)
    (hprob : probabilities = false ∨ min (hill.getD 10000) y.length ≤ 10000) (models : Int) (timeout : ℚ) :
    EnsembleOf metric trans hill maxModels y models timeout (told ++ extra)
      (buildFromLibrary metric trans probabilities drawn models timeout (gamaLibrary hill maxModels) y
        (saveAll (gamaLibrary hill maxModels) (told ++ extra) lib₀)) := by
  have hall : ∀ g ∈ told ++ extra, ∃ j, Returned U D j g := by
    intro g hg
    rcases List.mem_append.1 hg with hg | hg
    · obtain ⟨x, -, hx⟩ := forall₂_right h1 g hg
      exact ⟨_, hx.1⟩
    · exact h2 g hg
  have hpred : ∀ g ∈ told ++ extra, g.error = none → g.predictions ≠ none := by
    intro g hg he
    obtain ⟨j, hj⟩ := hall g hg
    exact predicts_of_returned hp hj he
  obtain ⟨rows, labels, best, ms, g1, g2, g3, g4, g5, g6, g7, g8, -⟩ := C133_hillclimb metric trans hill maxModels
    hhill stratify rnd y hstrat lib₀ hlib (told ++ extra) h4 h5 hpred (by
      refine hsome.imp id ?_
      rintro ⟨x, sc, hx⟩
      have hx : (x, .result true sc) ∈ results h := by
        unfold results
        rw [List.mem_filter]
        exact ⟨hx, rfl⟩
      obtain ⟨g, hg, ht⟩ := forall₂_left h1 _ hx
      obtain ⟨-, sc', e, -⟩ := id ht
      dsimp only at e
      injection e with e _
      refine ⟨g, List.mem_append_left _ hg, hpred g (List.mem_append_left _ hg) ?_⟩
      exact Option.isNone_iff_eq_none.1 e.symm) probabilities drawn hdrawn hprob models timeout
  exact ⟨rows, labels, best, ms, g1, g2, g3, g4, g5, g6, g7, g8⟩

/-- **C137** for evolution: the ensemble is built from the best evaluations that the search was told of (and
one at which it was interrupted). -/
theorem C137_evolution (c : OpConfig) (cxpb : ℚ) (maxN : Option Int) (size : Nat) {K : Coding Fn V Nat}
    {Jb : Jobs Fn V X Ω} {report : V → Findings E P} {hill maxModels : Option Nat} (hhill : hill ≠ some 0)
    (hK : Faithful K Jb)
    (ha : Agrees (evolution c cxpb maxN size K Jb report (gamaLibrary hill maxModels)))
    (hp : Predicts (evolution c cxpb maxN size K Jb report (gamaLibrary hill maxModels)))
    {l : List Nat} (hl : l.Nodup) (out : List Nat)
    {w : World} (hw : ∀ x ∈ l, x < w.inds.length) (y : List α)
    (hrows : RowsAre (evolution c cxpb maxN size K Jb report (gamaLibrary hill maxModels)) y.length)
    {stratify : Option Nat} (hstrat : ∀ k, stratify = some k → k = y.length) {rnd : Stream}
    {lib₀ : Lib E P (List Score)} (hlib : startLibrary (gamaLibrary hill maxModels) stratify rnd = .ok lib₀)
    (n : Nat) (limit : Option ℚ) (logfile : Bool) (D : List (Str × V)) (es : List (WholeEvent Bool Ω))
    (metric : List α → (Nat × γ → ℚ) → Except Exn Score) (trans : P → γ → ℚ) (probabilities : Bool)
    (drawn : List Nat)
    (hdrawn : 10000 < min (hill.getD 10000) y.length → Drawn drawn (min (hill.getD 10000) y.length) 10000)
    (hprob : probabilities = false ∨ min (hill.getD 10000) y.length ≤ 10000)
    (models : Int) (timeout : ℚ) :
    let U := evolution c cxpb maxN size K Jb report (gamaLibrary hill maxModels)
    let s := wholeRun U es (wholeStart (eaStart (.list l) out w) lib₀ n limit logfile D)
    (stratify ≠ none ∨ ∃ x sc, (x, .result true sc) ∈ s.joint.search.history) →
    ∃ told extra, List.Forall₂ (ToldAs U D) (results s.joint.search.history) told ∧
      (extra = [] ∨ ∃ r x e, extra = [r] ∧ Returned U D x r ∧ x ∈ s.joint.search.submitted ∧
        x ∉ s.joint.search.history.map Prod.fst ∧ s.joint.search.pc = .raised e) ∧
      EnsembleOf metric trans hill maxModels y models timeout (told ++ extra)
        (buildFromLibrary metric trans probabilities drawn models timeout (gamaLibrary hill maxModels) y s.lib) := by
  intro U s hsome
  have hmoves := evolution_moves c cxpb maxN size hK ha l out w lib₀ n limit logfile D es
  have hrec : Records U D lib₀ (fun _ _ => True) s.core :=
    hmoves.induct ⟨[], [], rfl, .nil, Or.inl rfl, fun _ h => nomatch h⟩ fun x y hm ih =>
      records_move (evolveClient_lawful c cxpb maxN size) hm (fun _ _ => trivial) (fun _ _ _ _ _ => trivial) ih
  obtain ⟨told, extra, h1, h2, h3, h4, h5, -, -⟩ := evolution_library hl hw hrows hstrat hlib hmoves hrec
  refine ⟨told, extra, h1, h2, ?_⟩
  have h3 : s.lib = _ := h3
  rw [h3]
  refine ensemble_of_told hp h1 ?_ h4 h5 hhill hstrat hlib hsome metric trans probabilities hdrawn hprob models
    timeout
  intro g hg
  rcases h2 with rfl | ⟨r, x, e, rfl, hr, -⟩
  · cases hg
  · rw [List.mem_singleton.1 hg]; exact ⟨x, hr⟩

/-- **C137** for random search. -/
theorem C137_random_search (c : OpConfig) (cxpb : ℚ) (maxN : Option Int) {K : Coding Fn V Nat}
    {Jb : Jobs Fn V X Ω} {report : V → Findings E P} {hill maxModels : Option Nat} (hhill : hill ≠ some 0)
    (hK : Faithful K Jb)
    (ha : Agrees (randomSearching c cxpb maxN K Jb report (gamaLibrary hill maxModels)))
    (hp : Predicts (randomSearching c cxpb maxN K Jb report (gamaLibrary hill maxModels)))
    {l : List Nat} (hl : l.Nodup) (out : List Nat)
    {w : World} (hw : ∀ x ∈ l, x < w.inds.length) (y : List α)
    (hrows : RowsAre (randomSearching c cxpb maxN K Jb report (gamaLibrary hill maxModels)) y.length)
    {stratify : Option Nat} (hstrat : ∀ k, stratify = some k → k = y.length) {rnd : Stream}
    {lib₀ : Lib E P (List Score)} (hlib : startLibrary (gamaLibrary hill maxModels) stratify rnd = .ok lib₀)
    (n : Nat) (limit : Option ℚ) (logfile : Bool) (D : List (Str × V)) (es : List (WholeEvent Unit Ω))
    (metric : List α → (Nat × γ → ℚ) → Except Exn Score) (trans : P → γ → ℚ) (probabilities : Bool)
    (drawn : List Nat)
    (hdrawn : 10000 < min (hill.getD 10000) y.length → Drawn drawn (min (hill.getD 10000) y.length) 10000)
    (hprob : probabilities = false ∨ min (hill.getD 10000) y.length ≤ 10000)
    (models : Int) (timeout : ℚ) :
    let U := randomSearching c cxpb maxN K Jb report (gamaLibrary hill maxModels)
    let s := wholeRun U es (wholeStart (rsStart (.list l) out w) lib₀ n limit logfile D)
    (stratify ≠ none ∨ ∃ x sc, (x, .result true sc) ∈ s.joint.search.history) →
    ∃ told extra, List.Forall₂ (ToldAs U D) (results s.joint.search.history) told ∧
      (extra = [] ∨ ∃ r x e, extra = [r] ∧ Returned U D x r ∧ x ∈ s.joint.search.submitted ∧
        x ∉ s.joint.search.history.map Prod.fst ∧ s.joint.search.pc = .raised e) ∧
      EnsembleOf metric trans hill maxModels y models timeout (told ++ extra)
        (buildFromLibrary metric trans probabilities drawn models timeout (gamaLibrary hill maxModels) y s.lib) := by
  intro U s hsome
  have hmoves := random_moves c cxpb maxN hK ha l out w lib₀ n limit logfile D es
  have hrec : Records U D lib₀ (fun _ _ => True) s.core :=
    hmoves.induct ⟨[], [], rfl, .nil, Or.inl rfl, fun _ h => nomatch h⟩ fun x y hm ih =>
      records_move (rsClient_lawful (gamaOps c cxpb) maxN) hm (fun _ _ => trivial) (fun _ _ _ _ _ => trivial) ih
  obtain ⟨told, extra, h1, h2, h3, h4, h5, -, -⟩ := random_library hl hw hrows hstrat hlib hmoves hrec
  refine ⟨told, extra, h1, h2, ?_⟩
  have h3 : s.lib = _ := h3
  rw [h3]
  refine ensemble_of_told hp h1 ?_ h4 h5 hhill hstrat hlib hsome metric trans probabilities hdrawn hprob models
    timeout
  intro g hg
  rcases h2 with rfl | ⟨r, x, e, rfl, hr, -⟩
  · cases hg
  · rw [List.mem_singleton.1 hg]; exact ⟨x, hr⟩

end
end Gama
