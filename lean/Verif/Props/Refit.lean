import Verif.Model.Refit
import Verif.Props.Build

/-!
# What the ensemble of a later `fit` is made of (C143, C144)
-/

namespace Gama
open Spec PyM

section
variable {α E P K γ : Type} [LinearOrder K]

/-- The ensemble made on library `s` for the labels `y` is the one built from the best error-free
evaluations of `hist`, with labels and predictions of the same rows. -/
def Spec.BuiltFrom (metric : List α → (Nat × γ → ℚ) → Except Exn Score) (trans : P → γ → ℚ)
    (probabilities : Bool) (drawn : List Nat) (size : Int) (timeout : ℚ) (hill maxModels : Option Nat)
    (y : List α) (hist : List (EvalRec E P K)) (s : Lib E P K) : Prop :=
  ∃ (rows : List Nat) (labels : List α) (best : List (Ref E P K)) (models : List (Mdl (Nat × γ) E)),
    buildFromLibrary metric trans probabilities drawn size timeout (gamaLibrary hill maxModels) y s =
      .ok (buildFitEnsemble (metric labels) size timeout models) ∧
    (∃ ps, ensembleInit probabilities (some 10000) drawn s.sample y = .ok (labels, ps)) ∧
    rows.length = min 10000 (min (hill.getD 10000) y.length) ∧ RowsOf rows y labels ∧
    BestOf (fun t : Ref E P K => t.given.score) (min 200 (maxModels.getD 200)) (errorFree hist) best ∧
    List.Forall₂ (fun r m => ModelFrom trans rows r.given m) best models

/-- Evaluations of different individuals, with `size` predictions each unless they failed. -/
structure Spec.SoundHistory (size : Nat) (hist : List (EvalRec E P K)) : Prop where
  sizes : SameSize size hist
  distinct : DistinctIds hist
  predicted : ∀ g ∈ hist, g.error = none → g.predictions ≠ none

theorem saveAll_append' (c : LibConfig) : ∀ (a b : List (EvalRec E P K)) (s : Lib E P K),
    saveAll c (a ++ b) s = saveAll c b (saveAll c a s)
  | [], _, _ => rfl
  | _ :: a, b, s => saveAll_append' c a b _

/-- The first and the second start of a library are the same code. -/
theorem startLibrary_refit (c : LibConfig) (stratify : Option Nat) (rnd : Stream) :
    startLibrary c stratify rnd = refitLibrary c stratify (libInit c none rnd : Lib E P K) := by
  cases stratify <;> rfl

/-- Nothing is chosen again for regression, nor if all rows are used. -/
theorem refit_same {c : LibConfig} {stratify : Option Nat} {s s2 : Lib E P K} {n : Nat} (hn : c.n = some n)
    (h : ∀ k, stratify = some k → k ≤ n ∧ s.sample = .all) (hr : refitLibrary c stratify s = .ok s2) :
    s2 = s := by
  unfold refitLibrary at hr
  cases stratify with
  | none => injection hr with hr; exact hr.symm
  | some k =>
    obtain ⟨h1, h2⟩ := h k rfl
    have : determineSample c none none (some k) s = (.ok (), { s with sample := .all }) := by
      have e : ((none : Option Nat).orElse fun _ => c.n) = some n := hn
      simp only [determineSample, e]
      rw [if_neg (by omega)]
      rfl
    dsimp only at hr
    rw [this] at hr
    injection hr with hr
    rw [← hr, ← h2]

/-- **C143** in full: the ensemble of a second fit is the one built from the best models of that fit, with
labels and predictions of the same rows.  Both fits are given data of the same number of rows. -/
def C143_claim : Prop :=
  ∀ (metric : List ℚ → (Nat × Unit → ℚ) → Except Exn Score) (hill maxModels : Option Nat)
    (stratify : Option Nat) (rnd : Stream) (y : List ℚ) (hist1 hist2 : List (EvalRec Nat ℚ ℚ))
    (s : Lib Nat ℚ ℚ) (drawn : List Nat) (size : Int) (timeout : ℚ), hill ≠ some 0 →
    (∀ k, stratify = some k → k = y.length) → SoundHistory y.length (hist1 ++ hist2) →
    (∃ g ∈ hist2, g.error = none) →
    twoFits (gamaLibrary hill maxModels) stratify stratify false rnd hist1 hist2 = .ok s →
    (10000 < min (hill.getD 10000) y.length → Drawn drawn (min (hill.getD 10000) y.length) 10000) →
    BuiltFrom metric (fun p _ => p) false drawn size timeout hill maxModels y hist2 s

/-- **C143**, when no rows are left out or the task is regression: the ensemble is the one built from the
best models of both fits together, with labels and predictions of the same rows. -/
theorem C143_partial (metric : List α → (Nat × γ → ℚ) → Except Exn Score) (trans : P → γ → ℚ)
    (hill maxModels : Option Nat) (hhill : hill ≠ some 0) (stratify : Option Nat) (rnd : Stream)
    (y : List α) (hstrat : ∀ k, stratify = some k → k = y.length ∧ y.length ≤ hill.getD 10000)
    (hist1 hist2 : List (EvalRec E P K)) (hev : SoundHistory y.length (hist1 ++ hist2))
    (hsome : stratify ≠ none ∨ ∃ g ∈ hist1 ++ hist2, g.predictions ≠ none) (s : Lib E P K)
    (hs : twoFits (gamaLibrary hill maxModels) stratify stratify false rnd hist1 hist2 = .ok s)
    (probabilities : Bool) (drawn : List Nat)
    (hdrawn : 10000 < min (hill.getD 10000) y.length → Drawn drawn (min (hill.getD 10000) y.length) 10000)
    (hprob : probabilities = false ∨ min (hill.getD 10000) y.length ≤ 10000)
    (size : Int) (timeout : ℚ) :
    BuiltFrom metric trans probabilities drawn size timeout hill maxModels y (hist1 ++ hist2) s := by
  unfold twoFits at hs
  cases h0 : (startLibrary (gamaLibrary hill maxModels) stratify rnd : Except Exn (Lib E P K)) with
  | error e => rw [h0] at hs; cases hs
  | ok s0 =>
    rw [h0] at hs
    dsimp only at hs
    rw [if_neg (by decide)] at hs
    cases h2 : refitLibrary (gamaLibrary hill maxModels) stratify
        (saveAll (gamaLibrary hill maxModels) hist1 s0) with
    | error e => rw [h2] at hs; cases hs
    | ok s2 =>
      rw [h2] at hs
      dsimp only at hs
      rw [if_neg (by decide)] at hs
      injection hs with hs
      have hsize1 : SameSize y.length hist1 := fun r hr => hev.sizes r (by simp [hr])
      have hd1 : DistinctIds hist1 := hev.distinct.sublist (List.sublist_append_left _ _)
      have hsame : s2 = saveAll (gamaLibrary hill maxModels) hist1 s0 := by
        refine refit_same (n := hill.getD 10000) rfl ?_ h2
        intro k hk
        obtain ⟨rfl, hle⟩ := hstrat k hk
        refine ⟨hle, ?_⟩
        obtain ⟨hh0, hc0, hcase⟩ := startLibrary_spec (size := y.length) (fun k h => (hstrat k h).1) h0
        have hall : s0.sample = .all := by
          rcases hcase with ⟨h, _⟩ | h
          · rw [h] at hk; cases hk
          · cases hx : s0.sample with
            | notSet => rw [hx] at h; exact h.elim
            | all => rfl
            | rows idx =>
              rw [hx] at h
              obtain ⟨_, _, n, h3, h4, _⟩ := h
              injection h3 with h3
              have : (libraryLimits hill maxModels).2 = hill.getD 10000 := rfl
              omega
        obtain ⟨_, _, h⟩ := Cached.saveAll (size := y.length) hist1 [] s0 hh0 hc0 hsize1 (by simpa using hd1)
        rcases h with h | ⟨h, _⟩
        · rw [h, hall]
        · rw [hall] at h; cases h
      rw [hsame, ← saveAll_append'] at hs
      obtain ⟨rows, labels, best, models, h1, _, _, h4, h5, _, h7, h8, h9⟩ :=
        C133_hillclimb metric trans hill maxModels hhill stratify rnd y (fun k h => (hstrat k h).1) s0 h0
          (hist1 ++ hist2) hev.sizes hev.distinct hev.predicted hsome probabilities drawn hdrawn hprob size timeout
      rw [hs] at h1 h9
      exact ⟨rows, labels, best, models, h1, h9, h4, h5, h7, h8⟩

/-- Then the models are those of the second fit if enough of those are better than all of the first. -/
theorem C143_better {n : Nat} {hist1 hist2 good : List (EvalRec E P K)} {best : List (Ref E P K)}
    (hb : BestOf (fun t : Ref E P K => t.given.score) n (errorFree (hist1 ++ hist2)) best)
    (hg : good.Sublist hist2) (hn : n ≤ good.length)
    (hbetter : ∀ g ∈ good, g.error = none ∧ ∀ g1 ∈ hist1, g1.error = none → g1.score < g.score) :
    ∀ r ∈ best, r.given ∈ hist2 := by
  classical
  intro r hr
  obtain ⟨out, hp, hlen, hle⟩ := hb
  have hmem : r ∈ errorFree (hist1 ++ hist2) := hp.mem_iff.1 (List.mem_append_left _ hr)
  unfold errorFree at hmem
  rw [List.mem_filter] at hmem
  have hin := numbered_given_mem hmem.1
  have herr : r.given.error = none := by simpa using hmem.2
  rcases List.mem_append.1 hin with h1 | h2
  swap; · exact h2
  exfalso
  let q : EvalRec E P K → Bool := fun g =>
    decide (g.error = none ∧ ∀ g1 ∈ hist1, g1.error = none → g1.score < g.score)
  have hq : ∀ g, q g = true ↔ g.error = none ∧ ∀ g1 ∈ hist1, g1.error = none → g1.score < g.score := by
    intro g; simp [q]
  have hcount : n ≤ (errorFree (hist1 ++ hist2)).countP fun t => q t.given := by
    have e1 : (errorFree (hist1 ++ hist2)).countP (fun t => q t.given) =
        (numbered (hist1 ++ hist2)).countP fun t => q t.given := by
      unfold errorFree
      rw [List.countP_filter]
      refine List.countP_congr fun t _ => ?_
      constructor
      · intro h; simp only [Bool.and_eq_true] at h; exact h.1
      · intro h
        have := ((hq _).1 h).1
        simp [h, this]
    have e2 : (numbered (hist1 ++ hist2)).countP (fun t => q t.given) = (hist1 ++ hist2).countP q := by
      conv_rhs => rw [← numbered_map_given (hist1 ++ hist2)]
      rw [List.countP_map]
      rfl
    rw [e1, e2, List.countP_append]
    have h3 : good.countP q = good.length := List.countP_eq_length.2 fun g hg => (hq g).2 (hbetter g hg)
    have h4 := hg.countP_le (p := q)
    omega
  rw [← hp.countP_eq, List.countP_append] at hcount
  have hout : out.countP (fun t => q t.given) = 0 := by
    rw [List.countP_eq_zero]
    intro t ht hqt
    have := ((hq _).1 hqt).2 _ h1 herr
    exact absurd (hle r hr t ht) (not_le.2 this)
  have hlt : best.countP (fun t => q t.given) < best.length := by
    rcases Nat.lt_or_ge (best.countP fun t => q t.given) best.length with h | h
    · exact h
    · have := List.countP_eq_length.1 (le_antisymm List.countP_le_length h) r hr
      exact absurd (((hq _).1 this).2 _ h1 herr) (lt_irrefl _)
  omega

/-! ### Two fits on the same data -/

namespace Ex

def firstFit : List (EvalRec Nat ℚ ℚ) := [⟨1, ['a'], 9, none, [10], some [10, 20]⟩]
def secondFit : List (EvalRec Nat ℚ ℚ) := [⟨2, ['b'], 5, none, [20], some [30, 40]⟩]
def betterFit : List (EvalRec Nat ℚ ℚ) := [⟨3, ['c'], 11, none, [30], some [30, 40]⟩]

theorem sound_history : SoundHistory 2 (firstFit ++ secondFit) := by
  refine ⟨?_, by unfold DistinctIds; decide +kernel, ?_⟩
  · intro r hr ps hps
    simp only [firstFit, secondFit, List.cons_append, List.nil_append, List.mem_cons, List.not_mem_nil,
      or_false] at hr
    rcases hr with rfl | rfl <;> simp at hps <;> subst hps <;> rfl
  · intro g hg
    simp only [firstFit, secondFit, List.cons_append, List.nil_append, List.mem_cons, List.not_mem_nil,
      or_false] at hg
    rcases hg with rfl | rfl <;> simp

/-- The library after two fits for classification that store the predictions of one row; the rows drawn
are 0 and 1. -/
def oneRow : Lib Nat ℚ ℚ :=
  match twoFits (gamaLibrary (some 1) none) (some 2) (some 2) false (fun i => if i = 1 then 0 else 1) firstFit
    secondFit with
  | .ok s => s
  | .error _ => libInit ⟨none, none⟩ none fun _ => 0

/-- What the library of an ensemble looks like. -/
def shown (e : Except Exn (Ens (Nat × Unit) Nat)) : List (Nat × ℚ × List Nat) :=
  match e with
  | .ok e => e.library.map fun m => (m.id, m.preds (0, ()), m.estimators)
  | .error _ => []

/-- The library after two fits for regression. -/
def bothFits (hist2 : List (EvalRec Nat ℚ ℚ)) : Lib Nat ℚ ℚ :=
  saveAll (gamaLibrary none none) (firstFit ++ hist2) (libInit (gamaLibrary none none) none fun _ => 0)

end Ex

/-- The hypotheses of `C143_partial` in a case: the ensemble chooses from models of both fits. -/
example : SoundHistory [(1 : ℚ), 2].length (Ex.firstFit ++ Ex.secondFit) ∧
    twoFits (gamaLibrary none none) none none false (fun _ => 0) Ex.firstFit Ex.secondFit =
      .ok (Ex.bothFits Ex.secondFit) ∧
    Ex.shown (buildFromLibrary Ex.firstRow (fun (p : ℚ) (_ : Unit) => p) false [] 2 60 (gamaLibrary none none)
      [1, 2] (Ex.bothFits Ex.secondFit)) = [(1, 10, [10]), (2, 30, [20])] := by
  exact ⟨Ex.sound_history, rfl, by decide +kernel⟩

/-- The hypotheses of `C143_better` in a case: with room for one model, it is the better one of the
second fit. -/
example : BestOf (fun t : Ref Nat ℚ ℚ => t.given.score) 1 (errorFree (Ex.firstFit ++ Ex.betterFit))
      [⟨1, ⟨3, ['c'], 11, none, [30], some [30, 40]⟩⟩] ∧
    ∀ g ∈ Ex.betterFit, g.error = none ∧ ∀ g1 ∈ Ex.firstFit, g1.error = none → g1.score < g.score := by
  refine ⟨⟨[⟨0, ⟨1, ['a'], 9, none, [10], some [10, 20]⟩⟩], List.Perm.swap .., rfl, ?_⟩, ?_⟩
  · intro x hx y hy
    obtain rfl := List.mem_singleton.1 hx
    obtain rfl := List.mem_singleton.1 hy
    norm_num
  · intro g hg
    obtain rfl := List.mem_singleton.1 hg
    refine ⟨rfl, fun g1 hg1 _ => ?_⟩
    obtain rfl := List.mem_singleton.1 hg1
    norm_num

/-- **C143 is false**: a model of the first fit, on other data perhaps, is in the ensemble of the second
if its score was high enough then. -/
theorem C143_false : ¬ C143_claim := by
  intro h
  obtain ⟨rows, labels, best, models, h1, _, _, _, h5, h6⟩ := h Ex.firstRow none none none (fun _ => 0) [1, 2]
    Ex.firstFit Ex.secondFit (Ex.bothFits Ex.secondFit) [] 2 60 (by decide) (fun k hk => nomatch hk) Ex.sound_history
    ⟨_, List.mem_singleton.2 rfl, rfl⟩ rfl (fun h => absurd h (by decide))
  have hl : Ex.shown (buildFromLibrary Ex.firstRow (fun (p : ℚ) (_ : Unit) => p) false [] 2 60
      (gamaLibrary none none) [1, 2] (Ex.bothFits Ex.secondFit)) = [(1, 10, [10]), (2, 30, [20])] := by
    decide +kernel
  rw [h1] at hl
  have := congrArg List.length hl
  rw [Ex.shown, List.length_map, buildFitEnsemble_library, ← h6.length_eq] at this
  obtain ⟨_, _, h7, _⟩ := h5
  rw [this] at h7
  revert h7
  decide

/-- The part of C143 about rows: the labels an ensemble of a second fit is scored on and the predictions
of its models, of whichever fit, are of the same rows. -/
def C143_rows_claim : Prop :=
  ∀ (metric : List ℚ → (Nat × Unit → ℚ) → Except Exn Score) (hill maxModels : Option Nat)
    (stratify : Option Nat) (rnd : Stream) (y : List ℚ) (hist1 hist2 : List (EvalRec Nat ℚ ℚ))
    (s : Lib Nat ℚ ℚ) (drawn : List Nat) (size : Int) (timeout : ℚ), hill ≠ some 0 →
    (∀ k, stratify = some k → k = y.length) → SoundHistory y.length (hist1 ++ hist2) →
    (∃ g ∈ hist2, g.error = none) →
    twoFits (gamaLibrary hill maxModels) stratify stratify false rnd hist1 hist2 = .ok s →
    (10000 < min (hill.getD 10000) y.length → Drawn drawn (min (hill.getD 10000) y.length) 10000) →
    ∃ (rows : List Nat) (labels : List ℚ) (models : List (Mdl (Nat × Unit) Nat)),
      buildFromLibrary metric (fun p _ => p) false drawn size timeout (gamaLibrary hill maxModels) y s =
        .ok (buildFitEnsemble (metric labels) size timeout models) ∧
      (∃ ps, ensembleInit false (some 10000) drawn s.sample y = .ok (labels, ps)) ∧ RowsOf rows y labels ∧
      ∀ m ∈ models, ∃ g ∈ hist1 ++ hist2, ModelFrom (fun p _ => p) rows g m

/-- **C143 is false** in that part, too: for classification with more rows than `hillclimb_size` the rows
are drawn again in the second fit, and the models of the first keep predictions for the rows of then. -/
theorem C143_rows_false : ¬ C143_rows_claim := by
  intro h
  obtain ⟨rows, labels, models, h1, ⟨ps, h2⟩, h3, h4⟩ := h Ex.firstRow (some 1) none (some 2)
    (fun i => if i = 1 then 0 else 1) [0, 1] Ex.firstFit Ex.secondFit Ex.oneRow [] 2 60 (by decide)
    (fun k hk => by cases hk; rfl) Ex.sound_history ⟨_, List.mem_singleton.2 rfl, rfl⟩ rfl
    (fun h => absurd h (by decide))
  have hlab : (match ensembleInit false (some 10000) [] Ex.oneRow.sample [(0 : ℚ), 1] with
      | .ok (l, _) => some l
      | .error _ => none) = some [1] := by decide +kernel
  rw [h2] at hlab
  injection hlab with hlab
  subst hlab
  have hl : Ex.shown (buildFromLibrary Ex.firstRow (fun (p : ℚ) (_ : Unit) => p) false [] 2 60
      (gamaLibrary (some 1) none) [0, 1] Ex.oneRow) = [(1, 10, [10]), (2, 40, [20])] := by
    decide +kernel
  rw [h1] at hl
  rw [Ex.shown, buildFitEnsemble_library] at hl
  have hrow : rows = [1] := by
    unfold RowsOf at h3
    cases rows with
    | nil => cases h3
    | cons i rows =>
      cases rows with
      | cons j rows => exact absurd (congrArg List.length h3) (by simp)
      | nil =>
        simp only [List.map_cons, List.map_nil, List.cons.injEq, and_true] at h3
        match i, h3 with
        | 0, h3 =>
          simp only [List.getElem?_cons_zero, Option.some.injEq] at h3
          norm_num at h3
        | 1, _ => rfl
        | (i + 2), h3 => simp at h3
  subst hrow
  cases models with
  | nil => cases hl
  | cons m ms =>
    simp only [List.map_cons, List.cons.injEq, Prod.mk.injEq] at hl
    obtain ⟨⟨hid, hp, _⟩, _⟩ := hl
    obtain ⟨g, hg, hi, _, qs, hq, hr⟩ := h4 m (List.mem_cons_self ..)
    obtain ⟨p, h5, h6⟩ := hr 0 1 rfl
    have h6 := h6 ()
    simp only [Ex.firstFit, Ex.secondFit, List.cons_append, List.nil_append, List.mem_cons, List.not_mem_nil,
      or_false] at hg
    rcases hg with rfl | rfl
    · injection hq with hq
      subst hq
      simp only [List.getElem?_cons_succ, List.getElem?_cons_zero, Option.some.injEq] at h5
      rw [hp, ← h5] at h6
      norm_num at h6
    · rw [hid] at hi
      exact absurd hi (by decide)

/-! ### After the cache is removed -/

/-- Only rows and random numbers change. -/
def Resamples {β : Type} (m : PyM (Lib E P K) β) : Prop := ∀ s, Resampled s (m s).2

theorem Resampled.trans {a b c : Lib E P K} (h1 : Resampled a b) (h2 : Resampled b c) : Resampled a c := by
  obtain ⟨x, r, rfl⟩ := h1
  obtain ⟨x', r', rfl⟩ := h2
  exact ⟨x', r', rfl⟩

theorem Resamples.bind {β δ : Type} {m : PyM (Lib E P K) β} {f : β → PyM (Lib E P K) δ} (hm : Resamples m)
    (hf : ∀ b, Resamples (f b)) : Resamples (m >>= f) := by
  intro s
  have h1 := hm s
  rw [bind_run]
  cases hr : m s with
  | mk r s' =>
    rw [hr] at h1
    cases r with
    | ok b => exact h1.trans (hf b s')
    | error e => exact h1

theorem Resamples.pure {β : Type} (b : β) : Resamples (Pure.pure b : PyM (Lib E P K) β) := Resampled.refl

theorem Resamples.raise {β : Type} (e : Exn) : Resamples (PyM.raise e : PyM (Lib E P K) β) := Resampled.refl

theorem Resamples.get : Resamples (PyM.get : PyM (Lib E P K) (Lib E P K)) := Resampled.refl

theorem Resamples.setSample (x : Sample) : Resamples (Gama.setSample x : PyM (Lib E P K) Unit) :=
  fun s => ⟨x, s.rnd, rfl⟩

theorem Resamples.draw : Resamples (Gama.draw : PyM (Lib E P K) Nat) := fun s => ⟨s.sample, _, rfl⟩

theorem Resamples.sample {n k : Nat} (h : n < k) :
    Resamples (Gama.sample n (List.range k) : PyM (Lib E P K) (List Nat)) := by
  intro s
  have hw := wp_sampleRows (le_of_lt h) s
  unfold wp at hw
  cases hr : (Gama.sample n (List.range k) : PyM (Lib E P K) (List Nat)) s with
  | mk r s' =>
    rw [hr] at hw
    cases r with
    | ok b =>
      obtain ⟨_, x, rfl⟩ := hw
      exact ⟨s.sample, x, rfl⟩
    | error e => exact hw.elim

theorem Resamples.determineSample (c : LibConfig) (n size stratify : Option Nat) :
    Resamples (Gama.determineSample c n size stratify : PyM (Lib E P K) Unit) := by
  unfold Gama.determineSample
  split
  · exact Resamples.raise _
  · exact Resamples.raise _
  · split
    · exact Resamples.setSample _
    · split
      · rename_i h
        exact (Resamples.sample h).bind fun _ => Resamples.setSample _
      · exact Resamples.setSample _
  · split
    · exact Resamples.setSample _
    · split
      · rename_i h
        refine Resamples.bind ?_ fun _ => Resamples.setSample _
        unfold stratified
        refine Resamples.draw.bind fun d => ?_
        split
        · exact Resamples.raise _
        · exact Resamples.sample h
      · exact Resamples.setSample _

theorem Resamples.processPredictions (c : LibConfig) (ps : Option (List P)) :
    Resamples (Gama.processPredictions c ps : PyM (Lib E P K) (Option (List P))) := by
  unfold Gama.processPredictions
  split
  · exact Resamples.pure _
  · split
    · exact Resamples.pure _
    · refine Resamples.bind ?_ fun _ => ?_
      · unfold ensureSample
        refine Resamples.get.bind fun s => ?_
        split
        · exact Resamples.determineSample _ _ _ _
        · exact Resamples.pure _
      · unfold subsample
        refine Resamples.get.bind fun s => ?_
        split
        · split
          · exact Resamples.pure _
          · exact Resamples.raise _
        · exact Resamples.pure _

/-- No file is left, and the evaluations `old` have their data in files. -/
structure Lost (old : List (Ref E P K)) (s : Lib E P K) : Prop where
  gone : ∀ f, s.disk f = none
  before : ∀ r ∈ old, r.idx < s.next
  filed : ∀ r ∈ old, (s.cells r.idx).predictions = none ∧ (s.cells r.idx).cacheFile ≠ none

theorem Lost.resampled {old : List (Ref E P K)} {s s' : Lib E P K} (h : Lost old s) (hr : Resampled s s') :
    Lost old s' := by
  obtain ⟨x, r, rfl⟩ := hr
  exact ⟨h.gone, h.before, h.filed⟩

omit [LinearOrder K] in
theorem Lost.discard {old : List (Ref E P K)} {s : Lib E P K} (h : Lost old s) (t : Ref E P K) :
    Lost old (Gama.discard t s).2 := by
  refine ⟨h.gone, h.before, fun r hr => ?_⟩
  show (upd s.cells t.idx { s.cells t.idx with estimators := [], predictions := none } r.idx).predictions = none ∧
    (upd s.cells t.idx { s.cells t.idx with estimators := [], predictions := none } r.idx).cacheFile ≠ none
  unfold upd
  split
  · rename_i e
    rw [← e]
    exact ⟨rfl, (h.filed r hr).2⟩
  · exact h.filed r hr

omit [LinearOrder K] in
/-- A cell of none of `old` is set. -/
theorem Lost.setCell {old : List (Ref E P K)} {s : Lib E P K} (h : Lost old s) {i : Nat} (hi : ∀ r ∈ old, r.idx ≠ i)
    (x : EvalCell E P) : Lost old { s with cells := upd s.cells i x } := by
  refine ⟨h.gone, h.before, fun r hr => ?_⟩
  show (upd s.cells i x r.idx).predictions = none ∧ (upd s.cells i x r.idx).cacheFile ≠ none
  unfold upd
  rw [if_neg (hi r hr)]
  exact h.filed r hr

/-- `store` of a new evaluation without cache directory. -/
theorem Lost.store {old : List (Ref E P K)} {s : Lib E P K} (h : Lost old s) (c : LibConfig) {r : Ref E P K}
    (hr : ∀ t ∈ old, t.idx ≠ r.idx) :
    Lost old (storeGone c r s).2 ∧
      (hasRoom c.m s.top.length = true → (storeGone c r s).2.top = s.top) ∧
      (storeGone c r s).2.next = s.next := by
  have hdisk : toDiskGone r s = (.error .fileNotFound,
      { s with cells := upd s.cells r.idx { s.cells r.idx with cacheFile := some r.given.ident } }) := rfl
  unfold storeGone
  rw [bind_run]
  dsimp only [PyM.get]
  split
  · have hd := h.discard r
    refine ⟨⟨hd.gone, hd.before, hd.filed⟩, fun _ => rfl, rfl⟩
  · split
    · rw [bind_run, hdisk]
      exact ⟨h.setCell hr _, fun _ => rfl, rfl⟩
    · rename_i hroom
      refine ⟨?_, fun h => absurd h hroom, ?_⟩
      · rw [bind_run]
        have h1 : Lost old { s with top := (heappushpop (fun r => r.given.score) s.top r).2 } :=
          ⟨h.gone, h.before, h.filed⟩
        show Lost old ((afterPopGone (heappushpop (fun r => r.given.score) s.top r).1 r >>= fun _ =>
          addOther (heappushpop (fun r => r.given.score) s.top r).1)
            { s with top := (heappushpop (fun r => r.given.score) s.top r).2 }).2
        unfold afterPopGone
        split
        · have hd := h1.discard (heappushpop (fun r => r.given.score) s.top r).1
          exact ⟨hd.gone, hd.before, hd.filed⟩
        · exact h1.setCell hr _
      · rw [bind_run]
        show ((afterPopGone (heappushpop (fun r => r.given.score) s.top r).1 r >>= fun _ =>
          addOther (heappushpop (fun r => r.given.score) s.top r).1)
            { s with top := (heappushpop (fun r => r.given.score) s.top r).2 }).2.next = s.next
        unfold afterPopGone
        split
        · rfl
        · rfl

theorem Lost.save {old : List (Ref E P K)} {s : Lib E P K} (h : Lost old s) (c : LibConfig) (g : EvalRec E P K) :
    Lost old (saveEvaluationGone c g s).2 ∧
      (hasRoom c.m s.top.length = true → (saveEvaluationGone c g s).2.top = s.top) := by
  unfold saveEvaluationGone
  rw [bind_run]
  show Lost old ((processPredictions c g.predictions >>= fun ps => _) { s with next := s.next + 1 }).2 ∧ (_ →
    ((processPredictions c g.predictions >>= fun ps => _) { s with next := s.next + 1 }).2.top = s.top)
  have h1 : Lost old { s with next := s.next + 1 } :=
    ⟨h.gone, fun r hr => Nat.lt_succ_of_lt (h.before r hr), h.filed⟩
  have hp := Resamples.processPredictions c g.predictions { s with next := s.next + 1 }
  rw [bind_run]
  cases hr : processPredictions c g.predictions { s with next := s.next + 1 } with
  | mk res s1 =>
    rw [hr] at hp
    have h2 := h1.resampled hp
    have htop : s1.top = s.top := by obtain ⟨x, r, rfl⟩ := hp; rfl
    cases res with
    | error e => exact ⟨h2, fun _ => htop⟩
    | ok ps =>
      have hne : ∀ r ∈ old, r.idx ≠ s.next := fun r hr => Nat.ne_of_lt (h.before r hr)
      have h3 := h2.setCell hne ⟨g.estimators, ps, none⟩
      obtain ⟨h4, h5, _⟩ := h3.store c (r := ⟨s.next, g⟩) hne
      dsimp only
      rw [bind_run]
      show Lost old ((storeGone c ⟨s.next, g⟩ >>= fun _ => _)
          { s1 with cells := upd s1.cells s.next ⟨g.estimators, ps, none⟩ }).2 ∧ (_ →
        ((storeGone c ⟨s.next, g⟩ >>= fun _ => _)
          { s1 with cells := upd s1.cells s.next ⟨g.estimators, ps, none⟩ }).2.top = s.top)
      rw [bind_run]
      cases hs : storeGone c ⟨s.next, g⟩ { s1 with cells := upd s1.cells s.next ⟨g.estimators, ps, none⟩ } with
      | mk res s2 =>
        rw [hs] at h4 h5
        have h6 : hasRoom c.m s.top.length = true → s2.top = s.top := by
          intro hroom
          rw [← htop] at hroom ⊢
          exact h5 hroom
        cases res with
        | error e => exact ⟨h4, h6⟩
        | ok _ => exact ⟨⟨h4.gone, h4.before, h4.filed⟩, h6⟩

theorem Lost.saveAll {old : List (Ref E P K)} (c : LibConfig) : ∀ (hist : List (EvalRec E P K)) {s : Lib E P K},
    Lost old s → Lost old (saveAllGone c hist s) ∧
      (hasRoom c.m s.top.length = true → (saveAllGone c hist s).top = s.top)
  | [], _, h => ⟨h, fun _ => rfl⟩
  | g :: hist, s, h => by
    obtain ⟨h1, h2⟩ := h.save c g
    obtain ⟨h3, h4⟩ := Lost.saveAll c hist h1
    refine ⟨h3, fun hroom => ?_⟩
    have e := h2 hroom
    rw [← e] at hroom
    exact (h4 hroom).trans e

/-- The ensemble of a `fit` gives predictions. -/
def Spec.CanPredict (e : Except Exn (Ens (Nat × γ) E)) : Prop :=
  ∃ ens, e = .ok ens ∧ ∀ (δ : Type) (predict : E → δ → ℚ), ∃ p, weightedMeanPredictions predict ens = .ok p

/-- **C144** in full: after a second fit that found a model, there is an ensemble that can predict. -/
def C144_claim : Prop :=
  ∀ (f : List ℚ → (Nat × Unit → ℚ) → Score) (hill maxModels : Option Nat) (removed : Bool) (rnd : Stream)
    (y : List ℚ) (hist1 hist2 : List (EvalRec Nat ℚ ℚ)) (s : Lib Nat ℚ ℚ) (drawn : List Nat) (size : Int)
    (timeout : ℚ), (∀ l p, f l p ≠ .ninf) → hill ≠ some 0 → maxModels ≠ some 0 → 1 ≤ size → 0 < timeout →
    SoundHistory y.length (hist1 ++ hist2) →
    (∀ g ∈ hist1 ++ hist2, g.error = none → g.estimators ≠ []) → (∃ g ∈ hist2, g.error = none) →
    twoFits (gamaLibrary hill maxModels) none none removed rnd hist1 hist2 = .ok s →
    (10000 < min (hill.getD 10000) y.length → Drawn drawn (min (hill.getD 10000) y.length) 10000) →
    CanPredict (buildFromLibrary (fun l p => .ok (f l p)) (fun p _ => p) false drawn size timeout
      (gamaLibrary hill maxModels) y s)

/-- **C144** when the cache is kept (`store` is "all" or "models") and no rows are left out or the task is
regression. -/
theorem C144_partial (f : List α → (Nat × γ → ℚ) → Score) (hf : ∀ l p, f l p ≠ .ninf) (trans : P → γ → ℚ)
    (hill maxModels : Option Nat) (hhill : hill ≠ some 0) (hmax : maxModels ≠ some 0) (stratify : Option Nat)
    (rnd : Stream) (y : List α) (hstrat : ∀ k, stratify = some k → k = y.length ∧ y.length ≤ hill.getD 10000)
    (hist1 hist2 : List (EvalRec E P K)) (hev : SoundHistory y.length (hist1 ++ hist2))
    (hest : ∀ g ∈ hist1 ++ hist2, g.error = none → g.estimators ≠ [])
    (hsome : ∃ g ∈ hist1 ++ hist2, g.error = none) (s : Lib E P K)
    (hs : twoFits (gamaLibrary hill maxModels) stratify stratify false rnd hist1 hist2 = .ok s)
    (probabilities : Bool) (drawn : List Nat)
    (hdrawn : 10000 < min (hill.getD 10000) y.length → Drawn drawn (min (hill.getD 10000) y.length) 10000)
    (hprob : probabilities = false ∨ min (hill.getD 10000) y.length ≤ 10000)
    (size : Int) (hsize : 1 ≤ size) (timeout : ℚ) (ht : 0 < timeout) :
    CanPredict (buildFromLibrary (fun l p => .ok (f l p)) trans probabilities drawn size timeout
      (gamaLibrary hill maxModels) y s) := by
  obtain ⟨g, hg, hge⟩ := hsome
  obtain ⟨rows, labels, best, models, h1, _, _, _, h5, h6⟩ := C143_partial (fun l p => .ok (f l p)) trans hill
    maxModels hhill stratify rnd y hstrat hist1 hist2 hev (.inr ⟨g, hg, hev.predicted g hg hge⟩) s hs probabilities
    drawn hdrawn hprob size timeout
  obtain ⟨out, hp, hlen, _⟩ := h5
  have hne : models ≠ [] := by
    intro e
    subst e
    cases h6
    obtain ⟨i, hi⟩ := List.mem_iff_getElem?.1 hg
    have hin : (⟨i, g⟩ : Ref E P K) ∈ errorFree (hist1 ++ hist2) := by
      unfold errorFree
      rw [List.mem_filter]
      exact ⟨mem_numbered.2 hi, by simp [hge]⟩
    have hpos := List.length_pos_of_mem hin
    have hm : 0 < maxModels.getD 200 := by
      cases maxModels with
      | none => decide
      | some m =>
        have : m ≠ 0 := fun h => hmax (by rw [h])
        exact Nat.pos_of_ne_zero this
    rw [List.length_nil] at hlen
    omega
  have hme : ∀ m ∈ models, m.estimators ≠ [] := by
    intro m hm
    obtain ⟨i, hi⟩ := List.mem_iff_getElem?.1 hm
    obtain ⟨hl, e⟩ := List.getElem?_eq_some_iff.1 hi
    have hl' : i < best.length := by rw [h6.length_eq]; exact hl
    have hr := h6.get hl' hl
    rw [List.get_eq_getElem, List.get_eq_getElem, e] at hr
    rw [hr.2.1]
    have hb : best[i] ∈ errorFree (hist1 ++ hist2) :=
      hp.mem_iff.1 (List.mem_append_left _ (List.getElem_mem hl'))
    unfold errorFree at hb
    rw [List.mem_filter] at hb
    exact hest _ (numbered_given_mem hb.1) (by simpa using hb.2)
  refine ⟨_, h1, fun δ predict => ?_⟩
  exact (C82_predict_partial (f labels) (fun p => .ok (f labels p)) (fun _ => rfl) (hf labels) size hsize models hne
    hme timeout ht).2 δ predict

omit [LinearOrder K] in
theorem modelsOf_lost {old rs : List (Ref E P K)} {s : Lib E P K} (h : Lost old s) (trans : P → γ → ℚ)
    (sample : Option (List Nat)) {r : Ref E P K} (ho : r ∈ old) (hr : r ∈ rs) :
    ∃ e, modelsOf trans sample s rs = .error e := by
  induction rs with
  | nil => cases hr
  | cons t rs ih =>
    unfold modelsOf
    rcases List.mem_cons.1 hr with rfl | hr
    · have : modelOf trans sample s r = .error .fileNotFound := by
        obtain ⟨h1, h2⟩ := h.filed r ho
        unfold modelOf readPredictions
        obtain ⟨f, hf⟩ := Option.ne_none_iff_exists'.1 h2
        dsimp only
        rw [h1, hf]
        dsimp only
        rw [h.gone f]
      rw [this]
      exact ⟨_, rfl⟩
    · cases modelOf trans sample s t with
      | error e => exact ⟨e, rfl⟩
      | ok m =>
        obtain ⟨e, he⟩ := ih hr
        dsimp only
        rw [he]
        exact ⟨e, rfl⟩

/-- With one of the evaluations of the first fit among the best, there are no models to choose from. -/
theorem lost_unusable {old : List (Ref E P K)} {s : Lib E P K} (h : Lost old s) (c : LibConfig)
    {r : Ref E P K} (ho : r ∈ old) (hr : r ∈ nBest c 200 true s)
    (metric : List α → (Nat × γ → ℚ) → Except Exn Score) (trans : P → γ → ℚ) (probabilities : Bool)
    (drawn : List Nat) (size : Int) (timeout : ℚ) (y : List α) {ens : Ens (Nat × γ) E}
    (hb : buildFromLibrary metric trans probabilities drawn size timeout c y s = .ok ens) :
    ens = newEnsemble [] := by
  unfold buildFromLibrary at hb
  cases hi : ensembleInit probabilities (some 10000) drawn s.sample y with
  | error e => rw [hi] at hb; cases hb
  | ok v =>
    obtain ⟨labels, sample⟩ := v
    obtain ⟨e, he⟩ := modelsOf_lost h trans sample ho hr
    rw [hi] at hb
    dsimp only at hb
    rw [he] at hb
    injection hb with hb
    exact hb.symm

/-- What the first fit leaves, and the second makes of it, when the cache is removed in between. -/
theorem twoFits_removed {hill maxModels stratify1 stratify2 : Option Nat} {rnd : Stream} {size1 : Nat}
    {hist1 hist2 : List (EvalRec E P K)} {s : Lib E P K} (hstrat : ∀ k, stratify1 = some k → k = size1)
    (hsize : SameSize size1 hist1) (hids : DistinctIds hist1)
    (hs : twoFits (gamaLibrary hill maxModels) stratify1 stratify2 true rnd hist1 hist2 = .ok s) :
    ∃ s1 : Lib E P K, Holds (gamaLibrary hill maxModels) hist1 [] s1 ∧ Lost s1.top s ∧
      (hasRoom (gamaLibrary hill maxModels).m s1.top.length = true → s.top = s1.top) := by
  unfold twoFits at hs
  cases h0 : (startLibrary (gamaLibrary hill maxModels) stratify1 rnd : Except Exn (Lib E P K)) with
  | error e => rw [h0] at hs; cases hs
  | ok s0 =>
    rw [h0] at hs
    dsimp only at hs
    rw [if_pos rfl] at hs
    cases h2 : refitLibrary (gamaLibrary hill maxModels) stratify2
        (removeCache (saveAll (gamaLibrary hill maxModels) hist1 s0)) with
    | error e => rw [h2] at hs; cases hs
    | ok s2 =>
      rw [h2] at hs
      dsimp only at hs
      rw [if_pos rfl] at hs
      injection hs with hs
      obtain ⟨hh0, hc0, _⟩ := startLibrary_spec hstrat h0
      obtain ⟨hh, hc, _⟩ := Cached.saveAll (size := size1) hist1 [] s0 hh0 hc0 hsize (by simpa using hids)
      rw [List.nil_append] at hh hc
      generalize saveAll (gamaLibrary hill maxModels) hist1 s0 = s1 at *
      have hl : Lost s1.top (removeCache s1) := by
        refine ⟨fun _ => rfl, fun r hr => ?_, fun r hr => ?_⟩
        · have := mem_numbered.1 (hh.perm.mem_iff.1 (List.mem_append_left _ hr))
          show r.idx < s1.next
          rw [hh.next]
          exact (List.getElem?_eq_some_iff.1 this).1
        · show (s1.cells r.idx).predictions = none ∧ (s1.cells r.idx).cacheFile ≠ none
          rw [(hc.kept r hr).1]
          exact ⟨rfl, fun h => nomatch h⟩
      have hres : Resampled (removeCache s1) s2 := by
        unfold refitLibrary at h2
        cases stratify2 with
        | none => injection h2 with h2; rw [h2]; exact Resampled.refl _
        | some k =>
          have := Resamples.determineSample (gamaLibrary hill maxModels) none none (some k) (removeCache s1)
          dsimp only at h2
          cases hd : determineSample (gamaLibrary hill maxModels) none none (some k) (removeCache s1) with
          | mk r s' =>
            rw [hd] at h2 this
            cases r with
            | error e => cases h2
            | ok _ => injection h2 with h2; rw [← h2]; exact this
      obtain ⟨h3, h4⟩ := (hl.resampled hres).saveAll (gamaLibrary hill maxModels) hist2
      rw [hs] at h3 h4
      have htop : s2.top = s1.top := by obtain ⟨x, r, rfl⟩ := hres; rfl
      rw [htop] at h4
      exact ⟨s1, hh, h3, h4⟩

/-- **C144 is false** in general: with the default `store`, and a first fit that found some models, but
fewer than `max_models`, no ensemble of a second fit can predict, whatever that fit finds and whatever
data and metric are used. -/
theorem C144_unusable (metric : List α → (Nat × γ → ℚ) → Except Exn Score) (trans : P → γ → ℚ)
    (hill maxModels : Option Nat) (stratify1 stratify2 : Option Nat) (rnd : Stream) (size1 : Nat)
    (hstrat : ∀ k, stratify1 = some k → k = size1) (hist1 hist2 : List (EvalRec E P K))
    (hsize : SameSize size1 hist1) (hids : DistinctIds hist1)
    (hfound : ∃ g ∈ hist1, g.error = none) (hfew : (errorFree hist1).length < maxModels.getD 200)
    (s : Lib E P K) (hs : twoFits (gamaLibrary hill maxModels) stratify1 stratify2 true rnd hist1 hist2 = .ok s)
    (probabilities : Bool) (drawn : List Nat) (size : Int) (timeout : ℚ) (y : List α) :
    ∀ ens, buildFromLibrary metric trans probabilities drawn size timeout (gamaLibrary hill maxModels) y s = .ok ens →
      ∀ (δ : Type) (predict : E → δ → ℚ), weightedMeanPredictions predict ens = .error .typeError := by
  intro ens hb δ predict
  obtain ⟨s1, hh, hl, htop⟩ := twoFits_removed hstrat hsize hids hs
  have hp := perm_top_filter hh
  have hlen := hp.length_eq
  rw [List.length_append] at hlen
  have hcm : (gamaLibrary hill maxModels).m = some (maxModels.getD 200) := rfl
  have hroom : hasRoom (gamaLibrary hill maxModels).m s1.top.length = true := by
    rw [hcm]
    show decide (maxModels.getD 200 > s1.top.length) = true
    rw [decide_eq_true_eq]
    omega
  have ht := htop hroom
  have hout : ((s1.other ++ []).filter fun r : Ref E P K => r.given.error.isNone) = [] := by
    rw [List.filter_eq_nil_iff]
    intro r hr he
    have := (hh.best r hr (by simpa using he)).1
    rw [hcm] at this
    injection this with this
    omega
  rw [hout, List.length_nil] at hlen
  obtain ⟨g, hg, hge⟩ := hfound
  obtain ⟨i, hi⟩ := List.mem_iff_getElem?.1 hg
  have hin : (⟨i, g⟩ : Ref E P K) ∈ errorFree hist1 := by
    unfold errorFree
    rw [List.mem_filter]
    exact ⟨mem_numbered.2 hi, by simp [hge]⟩
  have hpos := List.length_pos_of_mem hin
  have hbest := (nlargest_spec (fun t : Ref E P K => t.given.score) 200 s.top).2
  obtain ⟨out, hp2, hlen2, _⟩ := hbest
  rw [ht] at hlen2 hp2
  have hn : nBest (gamaLibrary hill maxModels) 200 true s =
      nlargest (fun t : Ref E P K => t.given.score) 200 s1.top := by
    unfold nBest; rw [if_pos (by simp), ht]
  have hne : nlargest (fun t : Ref E P K => t.given.score) 200 s1.top ≠ [] := by
    intro h
    rw [h, List.length_nil] at hlen2
    omega
  obtain ⟨r, hr⟩ := List.exists_mem_of_ne_nil _ hne
  have ho : r ∈ s1.top := hp2.mem_iff.1 (List.mem_append_left _ hr)
  rw [lost_unusable hl _ ho (by rw [hn]; exact hr) metric trans probabilities drawn size timeout y hb]
  rfl

namespace Ex

/-- The library after two fits for regression with the default `store`. -/
def clearedFits : Lib Nat ℚ ℚ :=
  saveAllGone (gamaLibrary none none) secondFit (removeCache (saveAll (gamaLibrary none none) firstFit
    (libInit (gamaLibrary none none) none fun _ => 0)))

end Ex

/-- The hypotheses of `C144_unusable` in a case, and the ensemble, which is without models. -/
example : twoFits (gamaLibrary none none) none none true (fun _ => 0) Ex.firstFit Ex.secondFit = .ok Ex.clearedFits ∧
    (errorFree Ex.firstFit).length < (none : Option Nat).getD 200 ∧
    (match buildFromLibrary Ex.firstRow (fun (p : ℚ) (_ : Unit) => p) false [] 2 60 (gamaLibrary none none)
      [1, 2] Ex.clearedFits with
      | .ok e => some (e.library.length, e.fit)
      | .error _ => none) = some (0, none) := by
  exact ⟨rfl, by decide +kernel, by decide +kernel⟩

/-- With a kept cache the ensemble of the same two fits has models: `C144_partial` is not about an empty
case. -/
example : (match buildFromLibrary Ex.firstRow (fun (p : ℚ) (_ : Unit) => p) false [] 2 60 (gamaLibrary none none)
      [1, 2] (Ex.bothFits Ex.secondFit) with
      | .ok e => e.fit
      | .error _ => none) = some [(10, 2)] := by decide +kernel

/-- **C144 is false**. -/
theorem C144_false : ¬ C144_claim := by
  intro h
  obtain ⟨ens, h1, h2⟩ := h (fun _ _ => .fin 0) none none true (fun _ => 0) [1, 2] Ex.firstFit Ex.secondFit
    Ex.clearedFits [] 2 60 (fun _ _ => by simp) (by decide) (by decide) (by decide) (by norm_num) Ex.sound_history (by
      intro g hg _
      simp only [Ex.firstFit, Ex.secondFit, List.cons_append, List.nil_append, List.mem_cons, List.not_mem_nil,
        or_false] at hg
      rcases hg with rfl | rfl <;> simp) ⟨_, List.mem_singleton.2 rfl, rfl⟩ rfl (fun h => absurd h (by decide))
  obtain ⟨p, hp⟩ := h2 Unit fun _ _ => 0
  have := C144_unusable _ _ none none none none (fun _ => 0) 2 (fun k hk => nomatch hk) Ex.firstFit Ex.secondFit
    (fun r hr => Ex.sound_history.sizes r (List.mem_append_left _ hr)) (by unfold DistinctIds; decide +kernel)
    ⟨_, List.mem_singleton.2 rfl, rfl⟩ (by decide +kernel) Ex.clearedFits rfl false [] 2 60 [1, 2] ens h1 Unit
    fun _ _ => 0
  rw [this] at hp
  cases hp

end
end Gama
