import Verif.Lemmas.Rungs

/-! # Successive halving and the library: C135, C137; examples for C134 - C137 -/

namespace Gama
open PyM Spec

section
variable {Fn V X Ω E P : Type}

/-- The jobs and outcomes that a successive halving was told. -/
def Spec.toldOf (s : Asha World Nat) : List ((Nat × Nat) × Completion) :=
  s.history.map fun x => ((x.1, x.2.1), x.2.2)

/-- **C135.**  Whatever the schedule of the workers, whatever happens to them and wherever successive halving is
interrupted: no individual is submitted twice to the same rung, and the library holds the evaluations whose results
the search was told, in that order (and, if it was interrupted just after an evaluation was saved, that
evaluation).  None is lost, and the best of those on the top rung, which alone count as full evaluations, are kept,
each with its own models and predictions. -/
theorem C135_halving (c : OpConfig) (cxpb : ℚ) (a : AshaConfig) {K : Coding Fn V (Nat × Nat)}
    {Jb : Jobs Fn V X Ω} {report : V → Findings E P} {lib : LibConfig} (hK : Faithful K Jb)
    (ha : Agrees (halving c cxpb a K Jb report lib)) {l : List Nat} (hl : l.Nodup) {w : World}
    (hw : ∀ x ∈ l, x < w.inds.length) {rows : Nat}
    (hrows : RowsAre (halving c cxpb a K Jb report lib) rows) {stratify : Option Nat}
    (hstrat : ∀ k, stratify = some k → k = rows) {rnd : Stream} {lib₀ : Lib E P (List Score)}
    (hlib : startLibrary lib stratify rnd = .ok lib₀) (n : Nat) (limit : Option ℚ) (logfile : Bool)
    (D : List (Str × V)) (es : List (WholeEvent Nat Ω)) :
    let U := halving c cxpb a K Jb report lib
    let s := wholeRun U es (wholeStart (ashaStart a l w) lib₀ n limit logfile D)
    s.joint.search.submitted.Nodup ∧
    ∃ told extra, List.Forall₂ (ToldAs U D) (results (toldOf s.joint.search)) told ∧
      (extra = [] ∨ ∃ r j e, extra = [r] ∧ Returned U D j r ∧ j ∈ s.joint.search.submitted ∧
        j ∉ (toldOf s.joint.search).map Prod.fst ∧ s.joint.search.pc = ashaHandle s.joint.search.rungs e) ∧
      LibraryOf lib (told ++ extra) s.lib ∧
      ∀ g ∈ told ++ extra, ∃ j ∈ s.joint.search.submitted, Returned U D j g ∧
        (g.error = none → j.2 = a.maxRung) := by
  intro U s
  refine ⟨halving_once c cxpb a hK ha hl hw lib₀ n limit logfile D es, ?_⟩
  obtain ⟨told, extra, h1, h2, -, -, -, h6, h7⟩ := halving_library c cxpb a hK ha hl hw hrows hstrat hlib n limit
    logfile D es
  refine ⟨told, extra, h1, ?_, h6, ?_⟩
  · unfold toldOf
    rw [List.map_map]
    exact h2
  · intro g hg
    obtain ⟨j, hj, hr⟩ := h7 g hg
    exact ⟨j, hj, hr, (halving_oneEach c cxpb a hK).1 D j g hr⟩

/-- **C137** for successive halving. -/
theorem C137_halving {α γ : Type} (c : OpConfig) (cxpb : ℚ) (a : AshaConfig) {K : Coding Fn V (Nat × Nat)}
    {Jb : Jobs Fn V X Ω} {report : V → Findings E P} {hill maxModels : Option Nat} (hhill : hill ≠ some 0)
    (hK : Faithful K Jb) (ha : Agrees (halving c cxpb a K Jb report (gamaLibrary hill maxModels)))
    (hp : Predicts (halving c cxpb a K Jb report (gamaLibrary hill maxModels)))
    {l : List Nat} (hl : l.Nodup) {w : World} (hw : ∀ x ∈ l, x < w.inds.length) (y : List α)
    (hrows : RowsAre (halving c cxpb a K Jb report (gamaLibrary hill maxModels)) y.length)
    {stratify : Option Nat} (hstrat : ∀ k, stratify = some k → k = y.length) {rnd : Stream}
    {lib₀ : Lib E P (List Score)} (hlib : startLibrary (gamaLibrary hill maxModels) stratify rnd = .ok lib₀)
    (n : Nat) (limit : Option ℚ) (logfile : Bool) (D : List (Str × V)) (es : List (WholeEvent Nat Ω))
    (metric : List α → (Nat × γ → ℚ) → Except Exn Score) (trans : P → γ → ℚ) (probabilities : Bool)
    (drawn : List Nat)
    (hdrawn : 10000 < min (hill.getD 10000) y.length → Drawn drawn (min (hill.getD 10000) y.length) 10000)
    (hprob : probabilities = false ∨ min (hill.getD 10000) y.length ≤ 10000)
    (models : Int) (timeout : ℚ) :
    let U := halving c cxpb a K Jb report (gamaLibrary hill maxModels)
    let s := wholeRun U es (wholeStart (ashaStart a l w) lib₀ n limit logfile D)
    (stratify ≠ none ∨ ∃ j sc, (j, .result true sc) ∈ toldOf s.joint.search) →
    ∃ told extra, List.Forall₂ (ToldAs U D) (results (toldOf s.joint.search)) told ∧
      (extra = [] ∨ ∃ r j e, extra = [r] ∧ Returned U D j r ∧ j ∈ s.joint.search.submitted ∧
        j ∉ (toldOf s.joint.search).map Prod.fst ∧ s.joint.search.pc = ashaHandle s.joint.search.rungs e) ∧
      EnsembleOf metric trans hill maxModels y models timeout (told ++ extra)
        (buildFromLibrary metric trans probabilities drawn models timeout (gamaLibrary hill maxModels) y s.lib) := by
  intro U s hsome
  obtain ⟨told, extra, h1, h2, h3, h4, h5, -, h7⟩ := halving_library c cxpb a hK ha hl hw hrows hstrat hlib n limit
    logfile D es
  refine ⟨told, extra, h1, ?_, ?_⟩
  · unfold toldOf
    rw [List.map_map]
    exact h2
  have h3 : s.lib = _ := h3
  rw [h3]
  refine ensemble_of_told hp h1 ?_ h4 h5 hhill hstrat hlib hsome metric trans probabilities hdrawn hprob models
    timeout
  intro g hg
  obtain ⟨j, -, hr⟩ := h7 g (List.mem_append_right _ hg)
  exact ⟨j, hr⟩

end

namespace Ex

/-- The score of an individual on a rung. -/
def rungScore (v : Nat × Nat) : Score := .fin (v.1 + 10 * v.2)

/-- Evaluations on rung 1, which is the top rung in the examples, are without an error. -/
def rungScores : Coding Unit (Nat × Nat) (Nat × Nat) :=
  ⟨fun _ => (), fun j => [j], fun _ => [], fun _ a _ => a.headD (0, 0),
    fun v => (v, .result (rungError v.2 1 none).isNone (rungScore v))⟩

theorem rungScores_faithful : Faithful rungScores rungEvaluations where
  job _ := rfl
  read j kw ω v h := by
    have h : (Outcome.returns j : Outcome (Nat × Nat) Nat) = .returns v := h
    cases h; exact ⟨rfl, rfl⟩

/-- A model is known by its individual and rung; one row is predicted. -/
def rungReport (v : Nat × Nat) : Findings (Nat × Nat) Nat := ⟨[rungScore v], none, [v], some [v.2]⟩

/-- Three candidates are evaluated on rung 0. -/
def lowRung : List (WholeEvent Nat Unit) :=
  let round : List (WholeEvent Nat Unit) :=
    [.wait, .iterate calmReading calmReading calmReading .ok .returns, .go 0, .go 0]
  List.replicate 9 (.go 0) ++ [.worker 0 .take, .worker 1 .take, .worker 2 .take, .worker 0 (.finish ()),
    .worker 1 (.finish ()), .worker 2 (.finish ())] ++ round ++ round ++ round

/-- Then the best of them is evaluated on rung 1. -/
def promoting : List (WholeEvent Nat Unit) :=
  lowRung ++ ((List.range 8).map fun k => .worker (k + 3) .take) ++ [.worker 10 (.finish ()), .wait,
    .iterate calmReading calmReading calmReading .ok .returns, .go 0, .go 0]

def halvingIn (lib : LibConfig) : Setup (Asha World Nat) (AshaInput World) Nat Nat (Nat × Nat) Unit (Nat × Nat) Nat
    Unit (Nat × Nat) Nat :=
  halving Ex.config (1 / 5) ⟨3, 0, 1, none⟩ rungScores rungEvaluations rungReport lib

def halvingRun (lib : LibConfig) (es : List (WholeEvent Nat Unit)) :
    Whole (Asha World Nat) Unit (Nat × Nat) Nat (Nat × Nat) Nat :=
  wholeRun (halvingIn lib) es
    (wholeStart (ashaStart ⟨3, 0, 1, none⟩ (List.range 6) sixWorld) (libInit lib none fun _ => 0) 11 none false [])

theorem halving_agrees (lib : LibConfig) : Agrees (halvingIn lib) :=
  fun v => ⟨rungScore v, rfl, rfl⟩

theorem halving_rows (lib : LibConfig) : RowsAre (halvingIn lib) 1 := by
  intro j kw ω v _ ps h
  have h : some [v.2] = some ps ∨ some [v.2] = some ps := h
  rcases h with h | h <;> cases h <;> rfl

theorem halving_predicts (lib : LibConfig) : Predicts (halvingIn lib) :=
  fun _ _ _ _ _ _ _ _ h => nomatch h

theorem six_known : ∀ x ∈ List.range 6, x < sixWorld.inds.length := by decide +kernel

end Ex

/-- The hypotheses of `C135_halving` and `C137_halving` are met by this run, in which four evaluations came back,
two of them of individual 5, … -/
example := C135_halving (X := Nat) Ex.config (1 / 5) ⟨3, 0, 1, none⟩ Ex.rungScores_faithful
  (Ex.halving_agrees (gamaLibrary none none)) (List.nodup_range (n := 6)) (w := Ex.sixWorld) Ex.six_known
  (Ex.halving_rows _) (stratify := none) (fun _ h => nomatch h) (rnd := fun _ => 0) rfl 11 none false [] Ex.promoting

/-- … of which the one on rung 1 is kept. -/
example : (Ex.halvingRun (gamaLibrary none none) Ex.promoting).lib.top.map
      (fun t => (t.given.ident, t.given.estimators)) = [(5, [(5, 1)])] ∧
    (Ex.halvingRun (gamaLibrary none none) Ex.promoting).lib.other.map
      (fun t => (t.given.ident, t.given.estimators)) = [(5, [(5, 0)]), (4, [(4, 0)]), (3, [(3, 0)])] := by decide +kernel

/-! ### Evolution and random search in a case -/

namespace Ex

/-- Individuals are numbers and also their own scores. -/
def ownScore : Coding Unit Nat Nat :=
  ⟨fun _ => (), fun j => [j], fun _ => [], fun _ a _ => a.headD 0, fun v => (v, .result true (.fin v))⟩

theorem ownScore_faithful : Faithful ownScore evaluations where
  job _ := rfl
  read j kw ω v h := by
    have h : (if j = 5 then Outcome.raises 0 else Outcome.returns j : Outcome Nat Nat) = .returns v := h
    split at h
    · cases h
    · cases h; exact ⟨rfl, rfl⟩

/-- Two scores, one model, one prediction. -/
def ownReport (v : Nat) : Findings Nat Nat := ⟨[.fin v, .fin 1], none, [v], some [v]⟩

/-- One worker; five evaluations and (`offspring`) what follows. -/
def fiveRounds (offspring : List (WholeEvent Bool Unit)) : List (WholeEvent Bool Unit) :=
  let back : List (WholeEvent Bool Unit) :=
    [.wait, .worker 0 .take, .worker 0 (.finish ()), .iterate calmReading calmReading calmReading .ok .returns]
  let round : List (WholeEvent Bool Unit) := back ++ List.replicate 5 (.go false)
  List.replicate 10 (.go false) ++ round ++ round ++ round ++ round ++ back ++ offspring

def evolvingIn (lib : LibConfig) : Setup (Ea World Nat) ((Str → Bool) × EaInput World) ((Str → Bool) × Bool) Bool
    Nat Unit Nat Nat Unit Nat Nat :=
  evolution Ex.config (1 / 5) none 50 ownScore evaluations ownReport lib

def evolving (w : World) (lib : LibConfig) (es : List (WholeEvent Bool Unit)) :
    Whole (Ea World Nat) Unit Nat Nat Nat Nat :=
  wholeRun (evolvingIn lib) es
    (wholeStart (eaStart (.list (List.range 6)) [] w) (libInit lib none fun _ => 0) 1 none false [])

/-- Six pipelines, and draws that differ from one another. -/
def counting : World := { sixWorld with rnd := fun k => k }

theorem own_agrees {S I A B : Type} (C : Client S I A Nat World) (look : (Str → Bool) → B → A) (world : S → World)
    (lib : LibConfig) : Agrees (⟨C, look, world, fun x => x, ownScore, evaluations, ownReport, lib⟩ :
      Setup S I A B Nat Unit Nat Nat Unit Nat Nat) :=
  fun v => ⟨.fin v, rfl, rfl⟩

theorem own_rows {S I A B : Type} (C : Client S I A Nat World) (look : (Str → Bool) → B → A) (world : S → World)
    (lib : LibConfig) : RowsAre (⟨C, look, world, fun x => x, ownScore, evaluations, ownReport, lib⟩ :
      Setup S I A B Nat Unit Nat Nat Unit Nat Nat) 1 := by
  intro j kw ω v _ ps h
  have h : some [v] = some ps ∨ some [v] = some ps := h
  rcases h with h | h <;> cases h <;> rfl

theorem own_scores {S I A B : Type} (C : Client S I A Nat World) (look : (Str → Bool) → B → A) (world : S → World)
    (lib : LibConfig) : ScoresAre (⟨C, look, world, fun x => x, ownScore, evaluations, ownReport, lib⟩ :
      Setup S I A B Nat Unit Nat Nat Unit Nat Nat) 2 := fun _ _ _ _ _ => ⟨rfl, rfl⟩

theorem own_predicts {S I A B : Type} (C : Client S I A Nat World) (look : (Str → Bool) → B → A) (world : S → World)
    (lib : LibConfig) : Predicts (⟨C, look, world, fun x => x, ownScore, evaluations, ownReport, lib⟩ :
      Setup S I A B Nat Unit Nat Nat Unit Nat Nat) := fun _ _ _ _ _ _ _ _ h => nomatch h

/-- Random search on one worker. -/
def twoRounds : List (WholeEvent Unit Unit) :=
  let round : List (WholeEvent Unit Unit) := [.wait, .worker 0 .take, .worker 0 (.finish ()),
    .iterate calmReading calmReading calmReading .ok .returns, .go (), .go ()]
  List.replicate 8 (.go ()) ++ round ++ round

/-- Offspring is being made. -/
def fillB : EaPc Nat → Bool
  | .fill => true
  | _ => false

theorem fillB_sound {p : EaPc Nat} (h : fillB p = true) : p = .fill := by
  cases p <;> first | rfl | cases h

def randomly (lib : LibConfig) (es : List (WholeEvent Unit Unit)) : Whole (Rs World Nat) Unit Nat Nat Nat Nat :=
  wholeRun (randomSearching Ex.config (1 / 5) none ownScore evaluations ownReport lib) es
    (wholeStart (rsStart (.list (List.range 6)) [] sixWorld) (libInit lib none fun _ => 0) 1 none false [])

end Ex

/-- Five evaluations are in the library, the best two of them with models; two offspring were submitted. -/
example : (Ex.evolving Ex.counting (gamaLibrary none (some 2)) (Ex.fiveRounds [.go false, .go false, .go false])).lib.top.map
      (fun t => t.given.ident) = [3, 4] ∧
    (Ex.evolving Ex.counting (gamaLibrary none (some 2)) (Ex.fiveRounds [.go false, .go false, .go false])).lib.other.map
      (fun t => t.given.ident) = [0, 1, 2] := by decide +kernel

/-- The hypotheses of `C134_evolution` and `C134_pipelines` are met by every run of these six pipelines. -/
example := C134_evolution Ex.config (1 / 5) none 50 Ex.ownScore_faithful
  (Ex.own_agrees _ _ _ (gamaLibrary none (some 2))) (List.nodup_range (n := 6)) [] (w := Ex.counting) Ex.six_known
  (Ex.own_rows _ _ _ _) (stratify := none) (fun _ h => nomatch h) (rnd := fun _ => 0) rfl 1 none false []
  (Ex.fiveRounds [.go false, .go false, .go false])

example := C134_pipelines (c := Ex.config) Ex.usable_config (1 / 5) (maxN := none) rfl 50 Ex.ownScore_faithful
  (Ex.own_agrees _ _ _ (gamaLibrary none (some 2))) (le_refl 2) (Ex.own_scores _ _ _ _) (List.nodup_range (n := 6)) []
  (w := Ex.counting) (Ex.six_space rfl)
  (Ex.own_rows _ _ _ _) (stratify := none) (fun _ h => nomatch h) (rnd := fun _ => 0) rfl 1 none false []
  (Ex.fiveRounds [.go false, .go false, .go false])

/-- The hypotheses of `C136_new` are met where the second offspring is made.  Here the first attempt gives a new
pipeline (individual 8) … -/
example := C136_new (c := Ex.config) Ex.usable_config rfl (1 / 5) (maxN := none) rfl 50
    Ex.ownScore_faithful (Ex.own_agrees _ _ _ (gamaLibrary none (some 2))) (le_refl 2) (Ex.own_scores _ _ _ _)
    (List.nodup_range (n := 6)) [] (w := Ex.counting) (Ex.six_space rfl) (Ex.own_rows _ _ _ _) (stratify := none)
    (fun _ h => nomatch h) (rnd := fun _ => 0) rfl 1 none false [] (Ex.fiveRounds [.go false, .go false]) false
    (Ex.fillB_sound (by decide +kernel)) 8 (by decide +kernel)

/-- … and here, with at most two attempts, neither gives anything new, and the last (individual 8) is submitted. -/
example : (wholeRun (evolution { Ex.config with maxRetry := 2 } (1 / 5) none 50 Ex.ownScore Ex.evaluations Ex.ownReport
      (gamaLibrary none (some 2))) (Ex.fiveRounds [.go false, .go false])
      (wholeStart (eaStart (.list (List.range 6)) [] Ex.sixWorld) (libInit (gamaLibrary none (some 2)) none fun _ => 0)
        1 none false [])).joint.search.submitted = [0, 1, 2, 3, 4, 5, 8] := by decide +kernel

/-- The hypotheses of `C134_random_search` are met; two of the evaluations have come back. -/
example := C134_random_search (c := Ex.config) Ex.usable_config (1 / 5) none Ex.ownScore_faithful
  (Ex.own_agrees _ _ _ (gamaLibrary none (some 2))) (List.nodup_range (n := 6)) []
  (w := Ex.sixWorld) (Ex.six_space rfl)
  (Ex.own_rows _ _ _ _) (stratify := none) (fun _ h => nomatch h) (rnd := fun _ => 0) rfl 1 none false [] Ex.twoRounds

example : (Ex.randomly (gamaLibrary none (some 2)) Ex.twoRounds).lib.top.map (fun t => t.given.ident) = [0, 1] := by
  decide +kernel

/-- The hypotheses of `C137_evolution` and `C137_random_search` are met, with labels for the one row that is
predicted. -/
example := C137_evolution Ex.config (1 / 5) none 50 (hill := some 1) (maxModels := some 2) (by decide)
  Ex.ownScore_faithful (Ex.own_agrees _ _ _ _) (Ex.own_predicts _ _ _ _) (List.nodup_range (n := 6)) []
  (w := Ex.counting) Ex.six_known [(4 : ℚ)] (Ex.own_rows _ _ _ _) (stratify := none) (fun _ h => nomatch h)
  (rnd := fun _ => 0) rfl 1 none false [] (Ex.fiveRounds []) Ex.firstRow (fun (p : Nat) (_ : Unit) => (p : ℚ)) false []
  (fun h => absurd h (by decide)) (.inl rfl) 2 60 (.inr ⟨0, .fin 0, by decide +kernel⟩)

example := C137_random_search Ex.config (1 / 5) none (hill := some 1) (maxModels := some 2) (by decide)
  Ex.ownScore_faithful (Ex.own_agrees _ _ _ _) (Ex.own_predicts _ _ _ _) (List.nodup_range (n := 6)) []
  (w := Ex.sixWorld) Ex.six_known [(4 : ℚ)] (Ex.own_rows _ _ _ _) (stratify := none) (fun _ h => nomatch h)
  (rnd := fun _ => 0) rfl 1 none false [] Ex.twoRounds Ex.firstRow (fun (p : Nat) (_ : Unit) => (p : ℚ)) false []
  (fun h => absurd h (by decide)) (.inl rfl) 2 60 (.inr ⟨0, .fin 0, by decide +kernel⟩)

example := C137_halving Ex.config (1 / 5) ⟨3, 0, 1, none⟩ (hill := some 1) (maxModels := some 2) (by decide)
  Ex.rungScores_faithful (Ex.halving_agrees _) (Ex.halving_predicts _) (List.nodup_range (n := 6))
  (w := Ex.sixWorld) Ex.six_known [(4 : ℚ)] (Ex.halving_rows _) (stratify := none) (fun _ h => nomatch h)
  (rnd := fun _ => 0) rfl 11 none false [] Ex.promoting Ex.firstRow (fun (p : Nat) (_ : Unit) => (p : ℚ)) false []
  (fun h => absurd h (by decide)) (.inl rfl) 2 60 (.inr ⟨(5, 1), .fin 15, by decide +kernel⟩)

/-- The ensemble that `C137_evolution` speaks of in this case. -/
example : (match buildFromLibrary Ex.firstRow (fun (p : Nat) (_ : Unit) => (p : ℚ)) false [] 2 60
      (gamaLibrary (some 1) (some 2)) [4] (Ex.evolving Ex.counting (gamaLibrary (some 1) (some 2)) (Ex.fiveRounds [])).lib with
    | .ok e => (e.library.map fun m => (m.id, m.preds (0, ()), m.estimators), e.fit)
    | .error _ => ([], none)) = ([(4, 4, [4]), (3, 3, [3])], some [(4, 2)]) := by decide +kernel

end Gama
