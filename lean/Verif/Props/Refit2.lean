import Verif.Props.Refit

/-!
# A regressor that is fitted again, on data of another size (C145)
-/

namespace Gama
open Spec PyM

section
variable {α E P K γ : Type} [LinearOrder K]

/-- Every evaluation is in one of the two lists of the library and its pipeline can be looked up. -/
def Spec.Recorded (hist : List (EvalRec E P K)) (s : Lib E P K) : Prop :=
  ∀ r ∈ numbered hist, r ∈ s.top ++ s.other ∧ s.lookup r.given.pipeline ≠ none

/-- **C145, the full claim**: after a second fit for regression, on data of any size, the library knows the
evaluations of both fits. -/
def C145_claim : Prop :=
  ∀ (hill maxModels : Option Nat) (rnd : Stream) (size1 size2 : Nat) (hist1 hist2 : List (EvalRec Nat ℚ ℚ))
    (s : Lib Nat ℚ ℚ), hill ≠ some 0 → SameSize size1 hist1 → SameSize size2 hist2 →
    DistinctIds (hist1 ++ hist2) →
    twoFits (gamaLibrary hill maxModels) none none false rnd hist1 hist2 = .ok s →
    Recorded (hist1 ++ hist2) s

/-- The library after two fits for regression. -/
theorem twoFits_regression {c : LibConfig} {rnd : Stream} {hist1 hist2 : List (EvalRec E P K)}
    {s : Lib E P K} (hs : twoFits c none none false rnd hist1 hist2 = .ok s) :
    s = saveAll c hist2 (saveAll c hist1 (libInit c none rnd)) := by
  injection hs with hs
  exact hs.symm

/-- The library after the first fit for regression. -/
theorem firstFit_regression (c : LibConfig) (rnd : Stream) {size : Nat} {hist : List (EvalRec E P K)}
    (hsize : SameSize size hist) (hids : DistinctIds hist) :
    Holds c hist [] (saveAll c hist (libInit c none rnd)) ∧
      Cached c size hist (saveAll c hist (libInit c none rnd)) ∧
      ((saveAll c hist (libInit c none rnd)).sample = (libInit c none rnd : Lib E P K).sample ∨
        (libInit c none rnd : Lib E P K).sample = .notSet ∧
          ChosenRows c.n size (saveAll c hist (libInit c none rnd)).sample) := by
  have := Cached.saveAll (c := c) (size := size) hist [] (libInit c none rnd) (holds_init c none rnd)
    (cached_init c none rnd (fun l h => by cases h)) hsize (by simpa using hids)
  simpa using this

theorem distinctIds_left {a b : List (EvalRec E P K)} (h : DistinctIds (a ++ b)) : DistinctIds a :=
  h.sublist (List.sublist_append_left _ _)

/-- **C145** where the data of the second fit has as many rows or more, or that of the first no more than
`hillclimb_size`: the library knows the evaluations of both fits, and keeps the best of both. -/
theorem C145_partial (hill maxModels : Option Nat) (rnd : Stream) (size1 size2 : Nat)
    (hist1 hist2 : List (EvalRec E P K)) (s : Lib E P K) (h1 : SameSize size1 hist1)
    (h2 : SameSize size2 hist2) (hids : DistinctIds (hist1 ++ hist2))
    (hs : twoFits (gamaLibrary hill maxModels) none none false rnd hist1 hist2 = .ok s)
    (hle : size1 ≤ size2 ∨ size1 ≤ hill.getD 10000) :
    Recorded (hist1 ++ hist2) s ∧
      BestOf (fun t : Ref E P K => t.given.score) (maxModels.getD 200) (errorFree (hist1 ++ hist2)) s.top := by
  obtain ⟨hh, hc, hx⟩ := firstFit_regression (gamaLibrary hill maxModels) rnd h1 (distinctIds_left hids)
  have hrange : InRange size2
      (saveAll (gamaLibrary hill maxModels) hist1 (libInit (gamaLibrary hill maxModels) none rnd)).sample := by
    rcases hx with e | ⟨_, hch⟩
    · rw [e]; trivial
    · have hin := hc.range
      cases hsm : (saveAll (gamaLibrary hill maxModels) hist1
          (libInit (gamaLibrary hill maxModels) none rnd)).sample with
      | notSet => trivial
      | all => trivial
      | rows idx =>
        rw [hsm] at hch hin
        obtain ⟨_, _, n, hn, hlt, _⟩ := hch
        have hn' : hill.getD 10000 = n := by injection hn
        intro i hi
        have := hin i hi
        rcases hle with h | h
        · exact lt_of_lt_of_le this h
        · omega
  have hc2 : Cached (gamaLibrary hill maxModels) size2 hist1 _ := { hc with range := hrange }
  obtain ⟨hh3, hc3, _⟩ := Cached.saveAll hist2 hist1 _ hh hc2 h2 hids
  rw [← twoFits_regression hs] at hh3 hc3
  refine ⟨fun r hr => ⟨?_, ?_⟩, (hh3.best_of).2.1 _ rfl⟩
  · have := hh3.perm.mem_iff.2 hr
    simpa using this
  · intro hnone
    have key : ∀ (n : Nat) (r : Ref E P K), r ∈ numbered (hist1 ++ hist2) →
        (hist1 ++ hist2).length - r.idx ≤ n → s.lookup r.given.pipeline ≠ none := by
      intro n
      induction n with
      | zero =>
        intro r hr hle
        have := (List.getElem?_eq_some_iff.1 (mem_numbered.1 hr)).1
        omega
      | succ n ih =>
        intro r hr hle hnone
        by_cases hlast : ∀ r' ∈ numbered (hist1 ++ hist2), r'.given.pipeline = r.given.pipeline → r'.idx ≤ r.idx
        · have := (hc3.latest r.given.pipeline r).2 ⟨hr, rfl, hlast⟩
          rw [hnone] at this; cases this
        · push Not at hlast
          obtain ⟨r', hr', he, hlt⟩ := hlast
          have hb := (List.getElem?_eq_some_iff.1 (mem_numbered.1 hr')).1
          exact ih r' hr' (by omega) (he ▸ hnone)
    exact key _ r hr (le_refl _) hnone

theorem takeRows_error {β : Type} {l : List β} : ∀ {idx : List Nat}, (∃ i ∈ idx, l.length ≤ i) →
    takeRows l idx = .error .indexError
  | [], ⟨_, h, _⟩ => by cases h
  | i :: idx, ⟨j, hj, hle⟩ => by
    unfold takeRows
    by_cases hi : i < l.length
    · rw [List.getElem?_eq_getElem hi]
      have hj' : j ∈ idx := by
        rcases List.mem_cons.1 hj with rfl | h
        · omega
        · exact h
      rw [takeRows_error ⟨j, hj', hle⟩]
    · rw [List.getElem?_eq_none (by omega)]

/-- An evaluation with too few predictions for the rows chosen is not recorded. -/
theorem saveEvaluation_short {c : LibConfig} {s : Lib E P K} {rows : List Nat} (hrows : s.sample = .rows rows)
    (hn : c.n ≠ some 0) {g : EvalRec E P K} {l : List P} (hg : g.predictions = some l)
    (hs : ∃ i ∈ rows, l.length ≤ i) :
    saveEvaluation c g s = (.error .indexError, { s with next := s.next + 1 }) := by
  have hp : processPredictions c g.predictions { s with next := s.next + 1 } =
      (.error .indexError, { s with next := s.next + 1 }) := by
    unfold processPredictions
    rw [if_neg hn, hg]
    have e1 : ensureSample c l.length { s with next := s.next + 1 } = (.ok (), { s with next := s.next + 1 }) := by
      unfold ensureSample
      rw [bind_ok get_run]
      simp only [hrows]
      rfl
    dsimp only
    rw [bind_ok e1]
    unfold subsample
    rw [bind_ok get_run]
    simp only [hrows, takeRows_error hs]
    rfl
  unfold saveEvaluation
  rw [bind_ok get_run]
  dsimp only
  rw [bind_ok modify_run, bind_run, hp]

theorem saveAll_short {c : LibConfig} {rows : List Nat} {size : Nat} (hn : c.n ≠ some 0)
    (hs : ∃ i ∈ rows, size ≤ i) : ∀ (hist : List (EvalRec E P K)) (s : Lib E P K), s.sample = .rows rows →
    SameSize size hist → (∀ g ∈ hist, g.predictions ≠ none) →
    saveAll c hist s = { s with next := s.next + hist.length }
  | [], _, _, _, _ => rfl
  | g :: hist, s, hrows, h1, h2 => by
    obtain ⟨l, hl⟩ := Option.ne_none_iff_exists'.1 (h2 g (by simp))
    have hlen := h1 g (by simp) l hl
    unfold saveAll
    rw [saveEvaluation_short hrows hn hl (by rw [hlen]; exact hs)]
    dsimp only
    rw [saveAll_short hn hs hist { s with next := s.next + 1 } hrows (fun r hr => h1 r (by simp [hr])) (fun r hr => h2 r (by simp [hr]))]
    simp only [List.length_cons]
    congr 1
    omega

theorem ilocRows_error {β : Type} {l : List β} : ∀ {idx : List Nat}, (∃ i ∈ idx, l.length ≤ i) →
    ilocRows l idx = .error .indexError
  | [], ⟨_, h, _⟩ => by cases h
  | i :: idx, ⟨j, hj, hle⟩ => by
    unfold ilocRows
    by_cases hi : i < l.length
    · rw [List.getElem?_eq_getElem hi]
      have hj' : j ∈ idx := by
        rcases List.mem_cons.1 hj with rfl | h
        · omega
        · exact h
      rw [ilocRows_error ⟨j, hj', hle⟩]
    · rw [List.getElem?_eq_none (by omega)]

/-- **C145 is false** in general: if the first fit was on more than `hillclimb_size` rows and the second
is on fewer, the library does not take up any evaluation of the second, and making the ensemble raises
an `IndexError`. -/
theorem C145_lost (hill maxModels : Option Nat) (rnd : Stream) (size1 size2 : Nat)
    (hist1 hist2 : List (EvalRec E P K)) (s : Lib E P K) (h1 : SameSize size1 hist1)
    (h2 : SameSize size2 hist2) (hids : DistinctIds hist1) (hp1 : ∃ g ∈ hist1, g.predictions ≠ none)
    (hp2 : ∀ g ∈ hist2, g.predictions ≠ none)
    (hs : twoFits (gamaLibrary hill maxModels) none none false rnd hist1 hist2 = .ok s)
    (hless : size2 < hill.getD 10000) (hmore : hill.getD 10000 < size1) :
    (∀ r ∈ s.top ++ s.other, r ∈ numbered hist1) ∧
    (∀ k r, s.lookup k = some r → r ∈ numbered hist1) ∧
    ∀ (metric : List α → (Nat × γ → ℚ) → Except Exn Score) (trans : P → γ → ℚ) (probabilities : Bool)
      (drawn : List Nat) (size : Int) (timeout : ℚ) (y : List α), y.length = size2 →
      buildFromLibrary metric trans probabilities drawn size timeout (gamaLibrary hill maxModels) y s =
        .error .indexError := by
  obtain ⟨hh, hc, hx⟩ := firstFit_regression (gamaLibrary hill maxModels) rnd h1 hids
  have hn0 : (gamaLibrary hill maxModels).n ≠ some 0 := by
    show some (hill.getD 10000) ≠ some 0
    intro h; injection h; omega
  have e := twoFits_regression hs
  generalize saveAll (gamaLibrary hill maxModels) hist1 (libInit (gamaLibrary hill maxModels) none rnd) = s1 at *
  have hset : s1.sample ≠ .notSet := by
    intro h
    obtain ⟨g, hg, hne⟩ := hp1
    exact hne (hc.unset h hn0 g hg)
  have hch : ChosenRows (gamaLibrary hill maxModels).n size1 s1.sample := by
    rcases hx with h | ⟨_, h⟩
    · exact absurd h hset
    · exact h
  have hrows : ∃ rows, s1.sample = .rows rows ∧ ∃ i ∈ rows, size2 ≤ i := by
    cases hsm : s1.sample with
    | notSet => exact absurd hsm hset
    | all =>
      rw [hsm] at hch
      have := hch (hill.getD 10000) rfl
      omega
    | rows idx =>
      rw [hsm] at hch
      obtain ⟨hnd, _, n, hn, _, hlen⟩ := hch
      have hn' : hill.getD 10000 = n := by injection hn
      refine ⟨idx, rfl, ?_⟩
      by_contra hall
      push Not at hall
      have := (List.subperm_of_subset hnd (l₂ := List.range size2) fun i hi =>
        List.mem_range.2 (hall i hi)).length_le
      rw [List.length_range] at this
      omega
  obtain ⟨rows, hrow, hout⟩ := hrows
  rw [saveAll_short hn0 hout hist2 s1 hrow h2 hp2] at e
  subst e
  refine ⟨fun r hr => hh.perm.mem_iff.1 (by simpa using hr), fun k r hk => ((hc.latest k r).1 hk).1, ?_⟩
  intro metric trans probabilities drawn size timeout y hy
  unfold buildFromLibrary ensembleInit
  simp only [hrow, sampleFor, libraryRows]
  rw [ilocRows_error (by rw [hy]; exact hout)]

namespace Ex

/-- A fit on three rows and one on a single row. -/
def threeRows : List (EvalRec Nat ℚ ℚ) := [⟨1, ['a'], 9, none, [10], some [10, 20, 30]⟩]
def singleRow : List (EvalRec Nat ℚ ℚ) := [⟨2, ['b'], 12, none, [20], some [30]⟩]

/-- The library after both, if two rows are kept. -/
def shrunkFits : Lib Nat ℚ ℚ :=
  saveAll (gamaLibrary (some 2) none) singleRow (saveAll (gamaLibrary (some 2) none) threeRows
    (libInit (gamaLibrary (some 2) none) none (fun _ => 0)))

/-- The library after both, the other way around. -/
def grownFits : Lib Nat ℚ ℚ :=
  saveAll (gamaLibrary (some 2) none) threeRows (saveAll (gamaLibrary (some 2) none) singleRow
    (libInit (gamaLibrary (some 2) none) none (fun _ => 0)))

end Ex

/-- What C145_lost is about: only the first model is known. -/
example : twoFits (gamaLibrary (some 2) none) none none false (fun _ => 0) Ex.threeRows Ex.singleRow =
      .ok Ex.shrunkFits ∧ SameSize 3 Ex.threeRows ∧ SameSize 1 Ex.singleRow ∧
    DistinctIds (Ex.threeRows ++ Ex.singleRow) ∧ (∃ g ∈ Ex.threeRows, g.predictions ≠ none) ∧
    (∀ g ∈ Ex.singleRow, g.predictions ≠ none) ∧ 1 < (some 2).getD 10000 ∧ (some 2).getD 10000 < 3 ∧
    (Ex.shrunkFits.top ++ Ex.shrunkFits.other).map (fun r => r.given.ident) = [1] := by
  refine ⟨rfl, ?_, ?_, (by unfold DistinctIds; decide), ?_, ?_, by decide, by decide, rfl⟩
  · intro r hr ps hps
    simp only [Ex.threeRows, List.mem_singleton] at hr
    subst hr; cases hps; rfl
  · intro r hr ps hps
    simp only [Ex.singleRow, List.mem_singleton] at hr
    subst hr; cases hps; rfl
  · exact ⟨_, List.mem_singleton.2 rfl, by simp⟩
  · intro g hg
    simp only [Ex.singleRow, List.mem_singleton] at hg
    subst hg; simp

/-- What C145_partial is about: more rows in the second fit. -/
example : twoFits (gamaLibrary (some 2) none) none none false (fun _ => 0) Ex.singleRow Ex.threeRows =
      .ok Ex.grownFits ∧
    (Ex.grownFits.top ++ Ex.grownFits.other).map (fun r => r.given.ident) = [1, 2] := ⟨rfl, by decide +kernel⟩

theorem C145_false : ¬ C145_claim := by
  intro h
  have := h (some 2) none (fun _ => 0) 3 1 Ex.threeRows Ex.singleRow Ex.shrunkFits (by decide) ?_ ?_
    (by unfold DistinctIds; decide)
    rfl ⟨1, ⟨2, ['b'], 12, none, [20], some [30]⟩⟩ (by simp [numbered, Ex.threeRows, Ex.singleRow])
  · exact this.2 rfl
  · intro r hr ps hps
    simp only [Ex.threeRows, List.mem_singleton] at hr
    subst hr; cases hps; rfl
  · intro r hr ps hps
    simp only [Ex.singleRow, List.mem_singleton] at hr
    subst hr; cases hps; rfl

end
end Gama
