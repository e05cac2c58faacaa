import Verif.Props.EndToEnd

/-! # C159: after successive halving, only what was evaluated on the top rung can be used -/

namespace Gama
open PyM Spec

section
variable {ι : Type} [DecidableEq ι]

omit [DecidableEq ι] in
theorem AshaCore.climb {c : AshaConfig} {cands : List ι} {rungs promoted : List (Nat × List (RungEntry ι))}
    {candidates : List ι} {pending submitted : List (ι × Nat)} {history rec : List (ι × Nat × Completion)}
    (h : AshaCore c cands rungs promoted candidates pending submitted history rec) (hrec : rec.Sublist history)
    (n : Nat) : (jobsOn (c.rate + n + 1) submitted).length * c.rf ^ (n + 1) ≤ (evaluatedOn c.rate rec).length := by
  have one : ∀ k, c.rate ≤ k → (jobsOn (k + 1) submitted).length * c.rf ≤ (evaluatedOn k rec).length := by
    intro k hk
    rw [h.sent k hk, List.length_map]
    exact (Nat.mul_le_mul_right _ (h.count k)).trans (Nat.div_mul_le_self _ _)
  have le : ∀ k, (evaluatedOn k rec).length ≤ (jobsOn k submitted).length := by
    intro k
    have h1 := (evaluatedOn_sublist k rec).length_le
    rw [List.length_map] at h1
    have h2 : (jobsOn k (rec.map fun x => (x.1, x.2.1))).Sublist
        (jobsOn k (pending ++ history.map fun x => (x.1, x.2.1))) := by
      unfold jobsOn
      exact (((hrec.map _).trans (List.sublist_append_right _ _)).filter _).map _
    have h3 : (jobsOn k submitted).Perm (jobsOn k (pending ++ history.map fun x => (x.1, x.2.1))) := by
      unfold jobsOn
      exact (h.jobs.filter _).map _
    rw [h3.length_eq]
    exact h1.trans h2.length_le
  induction n with
  | zero => simpa using one c.rate (Nat.le_refl _)
  | succ n ih =>
    refine Nat.le_trans ?_ ih
    rw [Nat.pow_succ, Nat.mul_comm (c.rf ^ (n + 1)), ← Nat.mul_assoc]
    exact Nat.mul_le_mul_right _ ((one _ (by omega)).trans (le _))

end

section
variable {Fn V X Ω E P α γ : Type}

/-- **C159**, the full claim, for the default settings of the ensemble: if evaluations succeed, then after a
successive halving in which one has come back the ensemble predicts. -/
def C159_claim : Prop :=
  ∀ (c : OpConfig) (cxpb : ℚ) (a : AshaConfig) (K : Coding Unit (Nat × Nat) (Nat × Nat))
    (Jb : Jobs Unit (Nat × Nat) Nat Unit) (report : Nat × Nat → Findings (Nat × Nat) Nat),
    Workable c → (∀ v, (report v).error = none) → Faithful K Jb →
    Agrees (halving c cxpb a K Jb report (gamaLibrary none none)) →
    Predicts (halving c cxpb a K Jb report (gamaLibrary none none)) →
    Estimates (halving c cxpb a K Jb report (gamaLibrary none none)) →
    ∀ (l : List Nat) (w : World), l.Nodup → (∀ x ∈ l, OfSpace c.ps w x) →
    ∀ y : List ℚ, RowsAre (halving c cxpb a K Jb report (gamaLibrary none none)) y.length →
    y.length ≤ 10000 → ∀ (n : Nat) (rnd : Stream) (es : List (WholeEvent Nat Unit))
    (f : List ℚ → (Nat × Unit → ℚ) → Score), (∀ ls p, f ls p ≠ .ninf) → ∀ (trans : Nat → Unit → ℚ) (models : Int),
    1 ≤ models → ∀ timeout : ℚ, 0 < timeout →
    let U := halving c cxpb a K Jb report (gamaLibrary none none)
    let s := wholeRun U es
      (wholeStart (ashaStart a l w) (libInit (gamaLibrary none none) none rnd) n none false [])
    (∃ j ok sc, (j, .result ok sc) ∈ toldOf s.joint.search) →
    ∃ ens, buildFromLibrary (fun ls p => .ok (f ls p)) trans false [] models timeout (gamaLibrary none none)
        y s.lib = .ok ens ∧
      ∀ value : Nat × Nat → Unit → ℚ, ∃ p, ensembleValues value ens = .ok p

/-- **C159**, what holds: after a successive halving in which an evaluation succeeded on the top rung, however it
ended, the ensemble is fitted and predicts, as C158 says of the other searches.  Missing: if evaluations succeeded
on lower rungs only, see `C159_none`, `C159_few` and `C159_false`. -/
theorem C159_partial (c : OpConfig) (cxpb : ℚ) (a : AshaConfig) {K : Coding Fn V (Nat × Nat)}
    {Jb : Jobs Fn V X Ω} {report : V → Findings E P} {hill maxModels : Option Nat} (hhill : hill ≠ some 0)
    (hmax : maxModels ≠ some 0) (hK : Faithful K Jb)
    (ha : Agrees (halving c cxpb a K Jb report (gamaLibrary hill maxModels)))
    (hp : Predicts (halving c cxpb a K Jb report (gamaLibrary hill maxModels)))
    (hes : Estimates (halving c cxpb a K Jb report (gamaLibrary hill maxModels)))
    {l : List Nat} (hl : l.Nodup) {w : World} (hw : ∀ x ∈ l, x < w.inds.length) (y : List α)
    (hrows : RowsAre (halving c cxpb a K Jb report (gamaLibrary hill maxModels)) y.length)
    {stratify : Option Nat} (hstrat : ∀ k, stratify = some k → k = y.length) {rnd : Stream}
    {lib₀ : Lib E P (List Score)} (hlib : startLibrary (gamaLibrary hill maxModels) stratify rnd = .ok lib₀)
    (n : Nat) (limit : Option ℚ) (logfile : Bool) (D : List (Str × V)) (es : List (WholeEvent Nat Ω))
    {metric : List α → (Nat × γ → ℚ) → Except Exn Score} {f : List α → (Nat × γ → ℚ) → Score}
    (hf : ∀ ls p, metric ls p = .ok (f ls p)) (hn : ∀ ls p, f ls p ≠ .ninf)
    (trans : P → γ → ℚ) (probabilities : Bool) (drawn : List Nat)
    (hdrawn : 10000 < min (hill.getD 10000) y.length → Drawn drawn (min (hill.getD 10000) y.length) 10000)
    (hprob : probabilities = false ∨ min (hill.getD 10000) y.length ≤ 10000)
    {models : Int} (hsz : 1 ≤ models) {timeout : ℚ} (ht : 0 < timeout) :
    let U := halving c cxpb a K Jb report (gamaLibrary hill maxModels)
    let s := wholeRun U es (wholeStart (ashaStart a l w) lib₀ n limit logfile D)
    (∃ j sc, (j, .result true sc) ∈ toldOf s.joint.search) →
    ∃ told extra, List.Forall₂ (ToldAs U D) (results (toldOf s.joint.search)) told ∧
      (extra = [] ∨ ∃ r j e, extra = [r] ∧ Returned U D j r ∧ j ∈ s.joint.search.submitted ∧
        j ∉ (toldOf s.joint.search).map Prod.fst ∧ s.joint.search.pc = ashaHandle s.joint.search.rungs e) ∧
      ∃ ens ms, buildFromLibrary metric trans probabilities drawn models timeout (gamaLibrary hill maxModels) y s.lib
          = .ok ens ∧
        FittedWith (told ++ extra) ens ms ∧ MeanValues ens ms ∧ Distributions ens ms := by
  intro U s hsome
  obtain ⟨told, extra, h1, h2, h3⟩ := C137_halving c cxpb a hhill hK ha hp hl hw y hrows hstrat hlib n
    limit logfile D es metric trans probabilities drawn hdrawn hprob models timeout (.inr hsome)
  obtain ⟨x, sc, hx⟩ := hsome
  refine ⟨told, extra, h1, h2, predict_of_told hes h1 ?_ h3 hmax hsz ht hf hn hx⟩
  intro g hg
  rcases h2 with rfl | ⟨r, x, e, rfl, hr, -⟩
  · cases hg
  · rw [List.mem_singleton.1 hg]; exact ⟨x, hr⟩

/-- **C159**, where it fails: if no individual came as far as the top rung, whatever was evaluated on the others, the
library keeps no model, and the ensemble does not predict. -/
theorem C159_none (c : OpConfig) (cxpb : ℚ) (a : AshaConfig) {K : Coding Fn V (Nat × Nat)}
    {Jb : Jobs Fn V X Ω} {report : V → Findings E P} {hill maxModels : Option Nat} (hK : Faithful K Jb)
    (ha : Agrees (halving c cxpb a K Jb report (gamaLibrary hill maxModels)))
    {l : List Nat} (hl : l.Nodup) {w : World} (hw : ∀ x ∈ l, x < w.inds.length) (y : List α)
    (hrows : RowsAre (halving c cxpb a K Jb report (gamaLibrary hill maxModels)) y.length)
    {stratify : Option Nat} (hstrat : ∀ k, stratify = some k → k = y.length) {rnd : Stream}
    {lib₀ : Lib E P (List Score)} (hlib : startLibrary (gamaLibrary hill maxModels) stratify rnd = .ok lib₀)
    (n : Nat) (limit : Option ℚ) (logfile : Bool) (D : List (Str × V)) (es : List (WholeEvent Nat Ω))
    (metric : List α → (Nat × γ → ℚ) → Except Exn Score)
    (trans : P → γ → ℚ) (probabilities : Bool) (drawn : List Nat) (models : Int) (timeout : ℚ) :
    let U := halving c cxpb a K Jb report (gamaLibrary hill maxModels)
    let s := wholeRun U es (wholeStart (ashaStart a l w) lib₀ n limit logfile D)
    (∀ j ∈ s.joint.search.submitted, j.2 ≠ a.maxRung) → s.lib.top = [] ∧
    ∀ ens, buildFromLibrary metric trans probabilities drawn models timeout (gamaLibrary hill maxModels) y s.lib
        = .ok ens →
      ∀ (ρ : Type) (predict : E → ρ → ℚ), weightedMeanPredictions predict ens = .error .typeError := by
  intro U s hnone
  obtain ⟨told, extra, -, -, -, -, -, h6, h7⟩ := halving_library c cxpb a hK ha hl hw hrows hstrat hlib n limit
    logfile D es
  have hfree : errorFree (told ++ extra) = [] := by
    rw [List.eq_nil_iff_forall_not_mem]
    intro r hr
    obtain ⟨h1, h2⟩ := errorFree_given hr
    obtain ⟨j, hj, hret⟩ := h7 r.given h1
    exact hnone j hj ((halving_oneEach c cxpb a hK).1 D j r.given hret h2)
  have htop : s.lib.top = [] := by
    obtain ⟨out, b1, -⟩ := h6.best _ rfl
    rw [hfree] at b1
    exact (List.append_eq_nil_iff.1 b1.eq_nil).1
  refine ⟨htop, fun ens h ρ predict => ?_⟩
  have hb : nBest (gamaLibrary hill maxModels) 200 true s.lib = [] := by
    unfold nBest
    rw [if_pos (by simp), htop]
    rfl
  unfold buildFromLibrary at h
  cases hi : ensembleInit probabilities (some 10000) drawn s.lib.sample y with
  | error e => rw [hi] at h; cases h
  | ok p =>
    obtain ⟨labels, sample⟩ := p
    rw [hi] at h
    dsimp only at h
    rw [hb] at h
    cases h
    exact C82_unfitted _ _ _ _ (Or.inl rfl) _

/-- … which is so as long as fewer than `reduction_factor ^ (number of rungs - 1)` evaluations on the lowest rung have
come back. -/
theorem C159_few (c : OpConfig) (cxpb : ℚ) (a : AshaConfig) {K : Coding Fn V (Nat × Nat)}
    {Jb : Jobs Fn V X Ω} {report : V → Findings E P} {lib : LibConfig} (hK : Faithful K Jb)
    (ha : Agrees (halving c cxpb a K Jb report lib)) (l : List Nat) (w : World)
    (lib₀ : Lib E P (List Score)) (n : Nat) (limit : Option ℚ) (logfile : Bool) (D : List (Str × V))
    (es : List (WholeEvent Nat Ω)) (hrung : a.rate < a.maxRung) :
    let s := wholeRun (halving c cxpb a K Jb report lib) es
      (wholeStart (ashaStart a l w) lib₀ n limit logfile D)
    (results (toldOf s.joint.search)).countP (fun h => h.1.2 = a.rate) < a.rf ^ (a.maxRung - a.rate) →
    ∀ j ∈ s.joint.search.submitted, j.2 ≠ a.maxRung := by
  intro s hfew
  have hok := halving_core c cxpb a hK ha l w lib₀ n limit logfile D es
  obtain ⟨p, rec, hrec, hcore⟩ := hok
  have hcore : AshaCore a l s.joint.search.rungs s.joint.search.promoted s.joint.search.candidates p
    s.joint.search.submitted s.joint.search.history rec := hcore
  have hrec : rec.Sublist s.joint.search.history := hrec
  obtain ⟨m, hm⟩ : ∃ m, a.maxRung = a.rate + m + 1 := ⟨a.maxRung - a.rate - 1, by omega⟩
  have hclimb := hcore.climb hrec m
  rw [← hm, show m + 1 = a.maxRung - a.rate by omega] at hclimb
  have hcount : ∀ h : List (Nat × Nat × Completion), (evaluatedOn a.rate h).length =
      (results (h.map fun x => ((x.1, x.2.1), x.2.2))).countP (fun h => h.1.2 = a.rate) := by
    intro h
    induction h with
    | nil => rfl
    | cons x h ih =>
      obtain ⟨i, k, r⟩ := x
      cases r with
      | failed => exact ih
      | result b sc =>
        have e : results (((i, k, .result b sc) :: h).map fun x => ((x.1, x.2.1), x.2.2)) =
            ((i, k), .result b sc) :: results (h.map fun x => ((x.1, x.2.1), x.2.2)) := rfl
        have e' : evaluatedOn a.rate ((i, k, .result b sc) :: h) =
            if k = a.rate then (sc, i) :: evaluatedOn a.rate h else evaluatedOn a.rate h := rfl
        rw [e, e', List.countP_cons, ← ih]
        by_cases hk : k = a.rate
        · rw [if_pos hk, if_pos (by simpa using hk)]; rfl
        · rw [if_neg hk, if_neg (by simpa using hk)]; rfl
  have hmono : (evaluatedOn a.rate rec).length ≤
      (results (toldOf s.joint.search)).countP (fun h => h.1.2 = a.rate) := by
    rw [hcount]
    unfold toldOf results
    exact ((hrec.map _).filter _).countP_le
  intro j hj hmax
  have hpos : 0 < (jobsOn a.maxRung s.joint.search.submitted).length := by
    refine List.length_pos_of_mem (a := j.1) ?_
    unfold jobsOn
    exact List.mem_map.2 ⟨j, List.mem_filter.2 ⟨hj, by simpa using hmax⟩, rfl⟩
  have := Nat.mul_le_mul_right (a.rf ^ (a.maxRung - a.rate)) hpos
  omega

end

namespace Ex

theorem halving_estimates (lib : LibConfig) : Estimates (halvingIn lib) :=
  fun _ _ _ _ _ _ _ _ h => nomatch h

end Ex

/-- **C159 is false**: three evaluations have succeeded on rung 0 when the search ends. -/
theorem C159_false : ¬ C159_claim := by
  intro h
  obtain ⟨ens, h1, h2⟩ := h Ex.config (1 / 5) ⟨3, 0, 1, none⟩ Ex.rungScores Ex.rungEvaluations Ex.rungReport
    Ex.usable_config (fun _ => rfl) Ex.rungScores_faithful (Ex.halving_agrees _) (Ex.halving_predicts _)
    (Ex.halving_estimates _) (List.range 6) Ex.sixWorld List.nodup_range
    (Ex.six_space rfl) [4] (Ex.halving_rows _) (by decide) 11 (fun _ => 0) Ex.lowRung
    (fun _ _ => .fin 0) (fun _ _ h => nomatch h) (fun n _ => n) 2 (by decide) 60 (by decide)
    ⟨(5, 0), false, .fin 5, by decide +kernel⟩
  have key : (match buildFromLibrary (fun (_ : List ℚ) (_ : Nat × Unit → ℚ) => .ok (.fin 0)) (fun (n : Nat) (_ : Unit) => (n : ℚ))
      false [] 2 60 (gamaLibrary none none) [(4 : ℚ)]
      (Ex.halvingRun (gamaLibrary none none) Ex.lowRung).lib with
    | .ok ens => ens.fit
    | .error _ => none) = none := by decide +kernel
  have h1 : buildFromLibrary (fun (_ : List ℚ) (_ : Nat × Unit → ℚ) => .ok (.fin 0)) (fun (n : Nat) (_ : Unit) => (n : ℚ))
      false [] 2 60 (gamaLibrary none none) [(4 : ℚ)]
      (Ex.halvingRun (gamaLibrary none none) Ex.lowRung).lib = .ok ens := h1
  rw [h1] at key
  obtain ⟨p, hp⟩ := h2 fun _ _ => 0
  unfold ensembleValues weightedMeanPredictions at hp
  dsimp only at key
  rw [key] at hp
  cases hp

/-- The hypotheses of `C159_partial` are met by a run in which an evaluation on rung 1 has come back. -/
example := C159_partial (X := Nat) Ex.config (1 / 5) ⟨3, 0, 1, none⟩ (hill := none) (maxModels := none) (by decide)
  (by decide) Ex.rungScores_faithful (Ex.halving_agrees _) (Ex.halving_predicts _) (Ex.halving_estimates _)
  (List.nodup_range (n := 6)) (w := Ex.sixWorld) Ex.six_known [(4 : ℚ)] (Ex.halving_rows _) (stratify := none)
  (fun _ h => nomatch h) (rnd := fun _ => 0) rfl 11 none false [] Ex.promoting (metric := Ex.firstRow) (fun _ _ => rfl)
  (fun _ _ h => nomatch h) (fun (p : Nat) (_ : Unit) => (p : ℚ)) false [] (fun h => absurd h (by decide)) (.inl rfl)
  (models := 2) (by decide) (timeout := 60) (by decide) ⟨(5, 1), .fin 15, by decide +kernel⟩

namespace Ex

/-- The first two of the three evaluations on rung 0. -/
def lower : List (WholeEvent Nat Unit) := lowRung.dropLast.dropLast.dropLast.dropLast

theorem lower_few : (results (toldOf (halvingRun (gamaLibrary none none) lower).joint.search)).countP
    (fun h => h.1.2 = 0) < 3 ^ (1 - 0) := by decide +kernel

end Ex

/-- The hypotheses of `C159_none` and `C159_few` are met when two evaluations have come back on the lowest of two
rungs. -/
example := C159_none (X := Nat) Ex.config (1 / 5) ⟨3, 0, 1, none⟩ (hill := none) (maxModels := none)
  Ex.rungScores_faithful (Ex.halving_agrees _) (List.nodup_range (n := 6)) (w := Ex.sixWorld) Ex.six_known [(4 : ℚ)]
  (Ex.halving_rows _) (stratify := none) (fun _ h => nomatch h) (rnd := fun _ => 0) rfl 11 none false [] Ex.lower
  Ex.firstRow (fun (p : Nat) (_ : Unit) => (p : ℚ)) false [] 2 60
  (C159_few (X := Nat) Ex.config (1 / 5) ⟨3, 0, 1, none⟩ Ex.rungScores_faithful (Ex.halving_agrees _) (List.range 6)
    Ex.sixWorld (libInit (gamaLibrary none none) none fun _ => 0) 11 none false [] Ex.lower (by decide) Ex.lower_few)

example : (results (toldOf (Ex.halvingRun (gamaLibrary none none) Ex.lower).joint.search)).length = 2 := by
  decide +kernel

end Gama
