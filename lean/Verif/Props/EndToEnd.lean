import Verif.Props.Whole2
import Verif.Props.Whole3
import Verif.Props.Proba

/-! # C158: from the search to predictions -/

namespace Gama
open PyM Spec

section
variable {Fn V X Ω E P α γ : Type}

/-- An evaluation without an error has fitted estimators, compilers/scikitlearn.py l.123: one for each fold. -/
def Spec.Estimates {S I A B J : Type} (U : Setup S I A B J Fn V X Ω E P) : Prop :=
  ∀ j kw ω v, U.jobs.call (U.coding.fn j) (U.coding.args j) kw ω = .returns v →
    ∀ v', v' = v ∨ v' = U.jobs.withoutMemoryError v → (U.report v').error = none → (U.report v').estimators ≠ []

theorem estimates_of_returned {S I A B J : Type} {U : Setup S I A B J Fn V X Ω E P} (h : Estimates U)
    {D : List (Str × V)} {j : J} {r : EvalRec E P (List Score)} (hr : Returned U D j r) (he : r.error = none) :
    r.estimators ≠ [] := by
  obtain ⟨kw, ω, v, v', -, hc, hv, -, -, e, hp, -⟩ := hr
  rw [hp]
  rw [e] at he
  exact h j kw ω v hc v' (hv.imp id And.right) he

theorem errorFree_given {hist : List (EvalRec E P (List Score))} {r : Ref E P (List Score)}
    (h : r ∈ errorFree hist) : r.given ∈ hist ∧ r.given.error = none := by
  unfold errorFree at h
  rw [List.mem_filter] at h
  exact ⟨numbered_given_mem h.1, Option.isNone_iff_eq_none.1 h.2⟩

theorem errorFree_ne_nil {hist : List (EvalRec E P (List Score))} {g : EvalRec E P (List Score)} (hg : g ∈ hist)
    (he : g.error = none) : errorFree hist ≠ [] := by
  rw [← numbered_map_given hist] at hg
  obtain ⟨r, hr, rfl⟩ := List.mem_map.1 hg
  refine List.ne_nil_of_mem (a := r) ?_
  unfold errorFree
  rw [List.mem_filter]
  exact ⟨hr, Option.isNone_iff_eq_none.2 he⟩

/-- The weights, all of them positive, of the estimators of an ensemble that is fitted: each was fitted in an
evaluation without an error. -/
def Spec.FittedWith (hist : List (EvalRec E P (List Score))) (s : Ens (Nat × γ) E) (l : List (E × Int)) : Prop :=
  s.fit = some l ∧ l ≠ [] ∧ ∀ e ∈ l, 0 < e.2 ∧ ∃ g ∈ hist, g.error = none ∧ e.1 ∈ g.estimators

/-- For each row the ensemble gives the weighted mean of the values predicted: `EnsembleRegressor.predict`. -/
def Spec.MeanValues (s : Ens (Nat × γ) E) (l : List (E × Int)) : Prop :=
  ∀ (ρ : Type) (value : E → ρ → ℚ), ∃ p, ensembleValues value s = .ok p ∧
    ∀ r, p r = (averageOf l fun e => value e r) ∧
      ∀ lo hi, (∀ e ∈ l, lo ≤ value e.1 r ∧ value e.1 r ≤ hi) → lo ≤ p r ∧ p r ≤ hi

/-- For each row the ensemble gives probabilities of the classes, and the first of the most probable:
`EnsembleClassifier.predict_proba` and `predict`. -/
def Spec.Distributions (s : Ens (Nat × γ) E) (l : List (E × Int)) : Prop :=
  ∀ (ρ δ : Type) [DecidableEq δ] (classes : List δ) (label : E → ρ → δ) (proba : E → ρ × δ → ℚ)
    (probabilities : Bool), classes.Nodup → (probabilities = false → ∀ e ∈ l, ∀ r, label e.1 r ∈ classes) →
    (probabilities = true → ∀ e ∈ l, ∀ r, IsDistribution classes fun c => proba e.1 (r, c)) →
    ∃ p q, ensembleProba probabilities label proba s = .ok p ∧
      ensembleLabels probabilities label proba classes s = .ok q ∧
      ∀ r, IsDistribution classes (fun c => p (r, c)) ∧ ∃ c, q r = some c ∧ FirstMax (fun c => p (r, c)) classes c

theorem fitted_of_models {score : (Nat × γ → ℚ) → Except Exn Score} {hist : List (EvalRec E P (List Score))}
    {models : List (Mdl (Nat × γ) E)} (hm : models ≠ [])
    (hes : ∀ m ∈ models, ∃ g ∈ hist, g.error = none ∧ m.estimators = g.estimators) {size : Int} {timeout : ℚ}
    (hsz : 1 ≤ size) (ht : 0 < timeout) {f : (Nat × γ → ℚ) → Score}
    (hf : ∀ p, score p = .ok (f p)) (hn : ∀ p, f p ≠ .ninf)
    (hest : ∀ g ∈ hist, g.error = none → g.estimators ≠ []) :
    ∃ l, FittedWith hist (buildFitEnsemble score size timeout models) l ∧
      MeanValues (buildFitEnsemble score size timeout models) l ∧
      Distributions (buildFitEnsemble score size timeout models) l := by
  obtain ⟨⟨l, hl, h0, hw⟩, -⟩ := C82_predict_partial f score hf hn size hsz
    models hm (fun m hm => by
      obtain ⟨g, hg, he, e⟩ := hes m hm
      rw [e]; exact hest g hg he) timeout ht
  refine ⟨l, ⟨hl, h0, fun e he => ⟨(hw e he).1, ?_⟩⟩, ?_, ?_⟩
  · obtain ⟨m, hm, hx⟩ := (hw e he).2
    obtain ⟨g, hg, he, e⟩ := hes m hm
    exact ⟨g, hg, he, e ▸ hx⟩
  · intro ρ value
    obtain ⟨p, hp, hb⟩ := C45_between value _ l hl h0 fun e he => (hw e he).1
    refine ⟨p, hp, fun r => ⟨?_, hb r⟩⟩
    have := C45_mean value _ l hl h0
    rw [hp] at this
    injection this with this
    rw [this]
    exact average_eq_mean value l r
  · intro ρ δ _ classes label proba probabilities hc hlab hprob
    obtain ⟨p, q, hp, hq, hr⟩ := C141_proba probabilities label proba classes hc _ l hl h0
      (fun e he => (hw e he).1) hlab hprob
    refine ⟨p, q, hp, hq, fun r => ?_⟩
    obtain ⟨d, hc, ⟨c, hqc⟩, -⟩ := hr r
    exact ⟨d, c, hqc, (hc c).1 hqc⟩

theorem best_ne_nil {hist : List (EvalRec E P (List Score))} {n : Nat} {best : List (Ref E P (List Score))}
    {models : List (Mdl (Nat × γ) E)} {R : Ref E P (List Score) → Mdl (Nat × γ) E → Prop}
    (h : BestOf (fun t : Ref E P (List Score) => t.given.score) n (errorFree hist) best) (hn : 0 < n)
    (h9 : List.Forall₂ R best models) {g : EvalRec E P (List Score)} (hg : g ∈ hist) (he : g.error = none) :
    models ≠ [] ∧ ∀ r ∈ best, r ∈ errorFree hist := by
  obtain ⟨out, h7, h8, -⟩ := h
  refine ⟨?_, fun r hr => h7.subset (List.mem_append_left _ hr)⟩
  rintro rfl
  have h0 : best.length = 0 := by rw [h9.length_eq]; rfl
  rw [h0] at h8
  have h2 := List.length_pos_iff.2 (errorFree_ne_nil hg he)
  omega

theorem getD_pos {maxModels : Option Nat} (hmax : maxModels ≠ some 0) : 0 < maxModels.getD 200 := by
  cases maxModels with
  | none => exact Nat.succ_pos _
  | some n => exact Nat.pos_of_ne_zero fun (h : n = 0) => hmax (by rw [h])

theorem fitted_of_ensembleOf {metric : List α → (Nat × γ → ℚ) → Except Exn Score} {trans : P → γ → ℚ}
    {hill maxModels : Option Nat} {y : List α} {size : Int} {timeout : ℚ}
    {hist : List (EvalRec E P (List Score))} {ens : Except Exn (Ens (Nat × γ) E)}
    (h : EnsembleOf metric trans hill maxModels y size timeout hist ens) (hmax : maxModels ≠ some 0)
    (hsz : 1 ≤ size) (ht : 0 < timeout) {f : List α → (Nat × γ → ℚ) → Score}
    (hf : ∀ ls p, metric ls p = .ok (f ls p)) (hn : ∀ ls p, f ls p ≠ .ninf)
    {g : EvalRec E P (List Score)} (hg : g ∈ hist) (he : g.error = none)
    (hest : ∀ g ∈ hist, g.error = none → g.estimators ≠ []) :
    ∃ s l, ens = .ok s ∧ FittedWith hist s l ∧ MeanValues s l ∧ Distributions s l := by
  obtain ⟨rows, labels, best, models, h1, -, -, -, -, -, h7, h9⟩ := h
  obtain ⟨hm, hfree⟩ := best_ne_nil h7 (by have := getD_pos hmax; omega) h9 hg he
  have hes : ∀ m ∈ models, ∃ g ∈ hist, g.error = none ∧ m.estimators = g.estimators := by
    intro m hm
    obtain ⟨r, hr, hrm⟩ := forall₂_right h9 m hm
    have := errorFree_given (hfree r hr)
    exact ⟨r.given, this.1, this.2, hrm.2.1⟩
  obtain ⟨l, hl⟩ := fitted_of_models hm hes hsz ht (hf labels) (hn labels) hest
  exact ⟨_, l, h1, hl⟩

theorem told_success {S I A B J : Type} {U : Setup S I A B J Fn V X Ω E P} {D : List (Str × V)}
    {h : List (J × Completion)} {told : List (EvalRec E P (List Score))}
    (h1 : List.Forall₂ (ToldAs U D) (results h) told) {x : J} {sc : Score}
    (hx : (x, .result true sc) ∈ h) : ∃ g ∈ told, g.error = none := by
  have hx : (x, .result true sc) ∈ results h := by
    unfold results
    rw [List.mem_filter]
    exact ⟨hx, rfl⟩
  obtain ⟨g, hg, ht⟩ := forall₂_left h1 _ hx
  obtain ⟨-, sc', e, -⟩ := id ht
  dsimp only at e
  injection e with e _
  exact ⟨g, hg, Option.isNone_iff_eq_none.1 e.symm⟩

theorem predict_of_told {S I A B J : Type} {U : Setup S I A B J Fn V X Ω E P} (hes : Estimates U)
    {D : List (Str × V)} {h : List (J × Completion)} {told extra : List (EvalRec E P (List Score))}
    (h1 : List.Forall₂ (ToldAs U D) (results h) told)
    (h2 : ∀ r ∈ extra, ∃ j, Returned U D j r)
    {metric : List α → (Nat × γ → ℚ) → Except Exn Score} {trans : P → γ → ℚ}
    {hill maxModels : Option Nat} {y : List α} {size : Int} {timeout : ℚ} {ens : Except Exn (Ens (Nat × γ) E)}
    (h3 : EnsembleOf metric trans hill maxModels y size timeout (told ++ extra) ens) (hmax : maxModels ≠ some 0)
    (hsz : 1 ≤ size) (ht : 0 < timeout) {f : List α → (Nat × γ → ℚ) → Score}
    (hf : ∀ ls p, metric ls p = .ok (f ls p)) (hn : ∀ ls p, f ls p ≠ .ninf) {x : J} {sc : Score}
    (hx : (x, .result true sc) ∈ h) :
    ∃ s l, ens = .ok s ∧ FittedWith (told ++ extra) s l ∧ MeanValues s l ∧ Distributions s l := by
  obtain ⟨g, hg, he⟩ := told_success h1 hx
  refine fitted_of_ensembleOf h3 hmax hsz ht hf hn (List.mem_append_left _ hg) he ?_
  intro g hg he
  rcases List.mem_append.1 hg with hg | hg
  · obtain ⟨x, -, hx⟩ := forall₂_right h1 g hg
    exact estimates_of_returned hes hx.1 he
  · obtain ⟨j, hj⟩ := h2 g hg
    exact estimates_of_returned hes hj he

/-- **C158** for evolution: after a search in which an evaluation succeeded, however it ended, the ensemble is
fitted and predicts.  Missing (`hprob`): metrics on probabilities with more than 10 000 rows, see `C158_raises` and
`C158_false` in `Oversized`. -/
theorem C158_evolution_partial (c : OpConfig) (cxpb : ℚ) (maxN : Option Int) (size : Nat) {K : Coding Fn V Nat}
    {Jb : Jobs Fn V X Ω} {report : V → Findings E P} {hill maxModels : Option Nat} (hhill : hill ≠ some 0)
    (hmax : maxModels ≠ some 0) (hK : Faithful K Jb)
    (ha : Agrees (evolution c cxpb maxN size K Jb report (gamaLibrary hill maxModels)))
    (hp : Predicts (evolution c cxpb maxN size K Jb report (gamaLibrary hill maxModels)))
    (hes : Estimates (evolution c cxpb maxN size K Jb report (gamaLibrary hill maxModels)))
    {l : List Nat} (hl : l.Nodup) (out : List Nat)
    {w : World} (hw : ∀ x ∈ l, x < w.inds.length) (y : List α)
    (hrows : RowsAre (evolution c cxpb maxN size K Jb report (gamaLibrary hill maxModels)) y.length)
    {stratify : Option Nat} (hstrat : ∀ k, stratify = some k → k = y.length) {rnd : Stream}
    {lib₀ : Lib E P (List Score)} (hlib : startLibrary (gamaLibrary hill maxModels) stratify rnd = .ok lib₀)
    (n : Nat) (limit : Option ℚ) (logfile : Bool) (D : List (Str × V)) (es : List (WholeEvent Bool Ω))
    {metric : List α → (Nat × γ → ℚ) → Except Exn Score} {f : List α → (Nat × γ → ℚ) → Score}
    (hf : ∀ ls p, metric ls p = .ok (f ls p)) (hn : ∀ ls p, f ls p ≠ .ninf)
    (trans : P → γ → ℚ) (probabilities : Bool) (drawn : List Nat)
    (hdrawn : 10000 < min (hill.getD 10000) y.length → Drawn drawn (min (hill.getD 10000) y.length) 10000)
    (hprob : probabilities = false ∨ min (hill.getD 10000) y.length ≤ 10000)
    {models : Int} (hsz : 1 ≤ models) {timeout : ℚ} (ht : 0 < timeout) :
    let U := evolution c cxpb maxN size K Jb report (gamaLibrary hill maxModels)
    let s := wholeRun U es (wholeStart (eaStart (.list l) out w) lib₀ n limit logfile D)
    (∃ x sc, (x, .result true sc) ∈ s.joint.search.history) →
    ∃ told extra, List.Forall₂ (ToldAs U D) (results s.joint.search.history) told ∧
      (extra = [] ∨ ∃ r x e, extra = [r] ∧ Returned U D x r ∧ x ∈ s.joint.search.submitted ∧
        x ∉ s.joint.search.history.map Prod.fst ∧ s.joint.search.pc = .raised e) ∧
      ∃ ens ms, buildFromLibrary metric trans probabilities drawn models timeout (gamaLibrary hill maxModels) y s.lib
          = .ok ens ∧
        FittedWith (told ++ extra) ens ms ∧ MeanValues ens ms ∧ Distributions ens ms := by
  intro U s hsome
  obtain ⟨told, extra, h1, h2, h3⟩ := C137_evolution c cxpb maxN size hhill hK ha hp hl out hw y hrows hstrat hlib n
    limit logfile D es metric trans probabilities drawn hdrawn hprob models timeout (.inr hsome)
  obtain ⟨x, sc, hx⟩ := hsome
  refine ⟨told, extra, h1, h2, predict_of_told hes h1 ?_ h3 hmax hsz ht hf hn hx⟩
  intro g hg
  rcases h2 with rfl | ⟨r, x, e, rfl, hr, -⟩
  · cases hg
  · rw [List.mem_singleton.1 hg]; exact ⟨x, hr⟩

/-- **C158** for random search.  Missing: as for evolution. -/
theorem C158_random_search_partial (c : OpConfig) (cxpb : ℚ) (maxN : Option Int) {K : Coding Fn V Nat}
    {Jb : Jobs Fn V X Ω} {report : V → Findings E P} {hill maxModels : Option Nat} (hhill : hill ≠ some 0)
    (hmax : maxModels ≠ some 0) (hK : Faithful K Jb)
    (ha : Agrees (randomSearching c cxpb maxN K Jb report (gamaLibrary hill maxModels)))
    (hp : Predicts (randomSearching c cxpb maxN K Jb report (gamaLibrary hill maxModels)))
    (hes : Estimates (randomSearching c cxpb maxN K Jb report (gamaLibrary hill maxModels)))
    {l : List Nat} (hl : l.Nodup) (out : List Nat)
    {w : World} (hw : ∀ x ∈ l, x < w.inds.length) (y : List α)
    (hrows : RowsAre (randomSearching c cxpb maxN K Jb report (gamaLibrary hill maxModels)) y.length)
    {stratify : Option Nat} (hstrat : ∀ k, stratify = some k → k = y.length) {rnd : Stream}
    {lib₀ : Lib E P (List Score)} (hlib : startLibrary (gamaLibrary hill maxModels) stratify rnd = .ok lib₀)
    (n : Nat) (limit : Option ℚ) (logfile : Bool) (D : List (Str × V)) (es : List (WholeEvent Unit Ω))
    {metric : List α → (Nat × γ → ℚ) → Except Exn Score} {f : List α → (Nat × γ → ℚ) → Score}
    (hf : ∀ ls p, metric ls p = .ok (f ls p)) (hn : ∀ ls p, f ls p ≠ .ninf)
    (trans : P → γ → ℚ) (probabilities : Bool) (drawn : List Nat)
    (hdrawn : 10000 < min (hill.getD 10000) y.length → Drawn drawn (min (hill.getD 10000) y.length) 10000)
    (hprob : probabilities = false ∨ min (hill.getD 10000) y.length ≤ 10000)
    {models : Int} (hsz : 1 ≤ models) {timeout : ℚ} (ht : 0 < timeout) :
    let U := randomSearching c cxpb maxN K Jb report (gamaLibrary hill maxModels)
    let s := wholeRun U es (wholeStart (rsStart (.list l) out w) lib₀ n limit logfile D)
    (∃ x sc, (x, .result true sc) ∈ s.joint.search.history) →
    ∃ told extra, List.Forall₂ (ToldAs U D) (results s.joint.search.history) told ∧
      (extra = [] ∨ ∃ r x e, extra = [r] ∧ Returned U D x r ∧ x ∈ s.joint.search.submitted ∧
        x ∉ s.joint.search.history.map Prod.fst ∧ s.joint.search.pc = .raised e) ∧
      ∃ ens ms, buildFromLibrary metric trans probabilities drawn models timeout (gamaLibrary hill maxModels) y s.lib
          = .ok ens ∧
        FittedWith (told ++ extra) ens ms ∧ MeanValues ens ms ∧ Distributions ens ms := by
  intro U s hsome
  obtain ⟨told, extra, h1, h2, h3⟩ := C137_random_search c cxpb maxN hhill hK ha hp hl out hw y hrows hstrat hlib n
    limit logfile D es metric trans probabilities drawn hdrawn hprob models timeout (.inr hsome)
  obtain ⟨x, sc, hx⟩ := hsome
  refine ⟨told, extra, h1, h2, predict_of_told hes h1 ?_ h3 hmax hsz ht hf hn hx⟩
  intro g hg
  rcases h2 with rfl | ⟨r, x, e, rfl, hr, -⟩
  · cases hg
  · rw [List.mem_singleton.1 hg]; exact ⟨x, hr⟩

end

namespace Ex

theorem own_estimates {S I A B : Type} (C : Client S I A Nat World) (look : (Str → Bool) → B → A) (world : S → World)
    (lib : LibConfig) : Estimates (⟨C, look, world, fun x => x, ownScore, evaluations, ownReport, lib⟩ :
      Setup S I A B Nat Unit Nat Nat Unit Nat Nat) := fun _ _ _ _ _ _ _ _ h => nomatch h

end Ex

/-- The hypotheses of `C158_evolution_partial` and `C158_random_search_partial` are met. -/
example := C158_evolution_partial Ex.config (1 / 5) none 50 (hill := some 1) (maxModels := some 2) (by decide) (by decide)
  Ex.ownScore_faithful (Ex.own_agrees _ _ _ _) (Ex.own_predicts _ _ _ _) (Ex.own_estimates _ _ _ _)
  (List.nodup_range (n := 6)) [] (w := Ex.counting) Ex.six_known [(4 : ℚ)] (Ex.own_rows _ _ _ _) (stratify := none)
  (fun _ h => nomatch h) (rnd := fun _ => 0) rfl 1 none false [] (Ex.fiveRounds []) (metric := Ex.firstRow)
  (fun _ _ => rfl) (fun _ _ h => nomatch h) (fun (p : Nat) (_ : Unit) => (p : ℚ)) false []
  (fun h => absurd h (by decide)) (.inl rfl) (models := 2) (by decide) (timeout := 60) (by decide)
  ⟨0, .fin 0, by decide +kernel⟩

example := C158_random_search_partial Ex.config (1 / 5) none (hill := some 1) (maxModels := some 2) (by decide) (by decide)
  Ex.ownScore_faithful (Ex.own_agrees _ _ _ _) (Ex.own_predicts _ _ _ _) (Ex.own_estimates _ _ _ _)
  (List.nodup_range (n := 6)) [] (w := Ex.sixWorld) Ex.six_known [(4 : ℚ)] (Ex.own_rows _ _ _ _) (stratify := none)
  (fun _ h => nomatch h) (rnd := fun _ => 0) rfl 1 none false [] Ex.twoRounds (metric := Ex.firstRow)
  (fun _ _ => rfl) (fun _ _ h => nomatch h) (fun (p : Nat) (_ : Unit) => (p : ℚ)) false []
  (fun h => absurd h (by decide)) (.inl rfl) (models := 2) (by decide) (timeout := 60) (by decide)
  ⟨0, .fin 0, by decide +kernel⟩

/-- What the ensemble of the first case predicts, when estimator `n` predicts `10 n`: 40 (see `Whole3`, it has
estimator 4 only). -/
example : (match buildFromLibrary Ex.firstRow (fun (p : Nat) (_ : Unit) => (p : ℚ)) false [] 2 60
      (gamaLibrary (some 1) (some 2)) [4] (Ex.evolving Ex.counting (gamaLibrary (some 1) (some 2)) (Ex.fiveRounds [])).lib with
    | .ok e => (match ensembleValues (fun (n : Nat) (_ : Unit) => 10 * (n : ℚ)) e with
      | .ok p => some (p ())
      | .error _ => none)
    | .error _ => none) = some 40 := by decide +kernel

end Gama
