import Verif.Props.Cutoff

/-! # C158 and C160 for metrics on probabilities with more than 10 000 rows -/

namespace Gama
open PyM Spec

section
variable {Fn V X Ω E P α γ : Type}

theorem labelsClassifier_library {sample : Option (List Nat)} {y y₁ : List α} (h : libraryRows sample y = .ok y₁)
    (down : Option Nat) (drawn : List Nat) :
    labelsClassifier true sample down drawn y = labelsClassifier true none down drawn y₁ := by
  have h' : libraryRows none y₁ = .ok y₁ := rfl
  unfold labelsClassifier labelsBase
  rw [h, h']

/-- The ensemble cannot be made if more than 10 000 rows are stored and one is drawn whose position is not below
10 000: the labels, of which 10 000 are left, are sampled once more. -/
theorem build_raises (metric : List α → (Nat × γ → ℚ) → Except Exn Score) (trans : P → γ → ℚ)
    {hill : Option Nat} (maxModels : Option Nat) {y : List α} {s : Lib E P (List Score)}
    (hchosen : ChosenRows (some (hill.getD 10000)) y.length s.sample) {drawn : List Nat}
    (hbig : 10000 < min (hill.getD 10000) y.length) (hd : Drawn drawn (min (hill.getD 10000) y.length) 10000)
    {i : Nat} (hi : i ∈ drawn) (hle : 10000 ≤ i) (models : Int) (timeout : ℚ) :
    buildFromLibrary metric trans true drawn models timeout (gamaLibrary hill maxModels) y s
      = .error .indexError := by
  obtain ⟨sample, y₁, h1, h2, h3⟩ : ∃ sample y₁, sampleFor s.sample = .ok sample ∧
      libraryRows sample y = .ok y₁ ∧ y₁.length = min (hill.getD 10000) y.length := by
    cases hx : s.sample with
    | notSet => rw [hx] at hchosen; exact hchosen.elim
    | all =>
      rw [hx] at hchosen
      have := hchosen _ rfl
      exact ⟨none, y, rfl, rfl, by omega⟩
    | rows idx =>
      rw [hx] at hchosen
      obtain ⟨-, g2, k, g3, g4, g5⟩ := hchosen
      injection g3 with g3
      obtain ⟨r, hr, hlen⟩ := ilocRows_exists (l := y) g2
      exact ⟨some idx, r, rfl, hr, by omega⟩
  rw [← h3] at hbig hd
  have key : ensembleInit true (some 10000) drawn s.sample y = .error .indexError := by
    unfold ensembleInit
    rw [h1]
    dsimp only
    rw [h2]
    dsimp only
    rw [labelsClassifier_library h2, C46_out_of_bounds y₁ 10000 drawn hbig hd i hi hle]
  unfold buildFromLibrary
  rw [key]

/-- Rows have been chosen once an evaluation that succeeded is saved. -/
theorem chosen_of_told {S I A B J : Type} {U : Setup S I A B J Fn V X Ω E P} (hp : Predicts U)
    {D : List (Str × V)} {h : List (J × Completion)} {told extra : List (EvalRec E P (List Score))}
    (h1 : List.Forall₂ (ToldAs U D) (results h) told) {y : List α} (h4 : SameSize y.length (told ++ extra))
    (h5 : DistinctIds (told ++ extra)) {hill maxModels : Option Nat} (hhill : hill ≠ some 0)
    {stratify : Option Nat} (hstrat : ∀ k, stratify = some k → k = y.length) {rnd : Stream}
    {lib₀ : Lib E P (List Score)} (hlib : startLibrary (gamaLibrary hill maxModels) stratify rnd = .ok lib₀)
    {x : J} {sc : Score} (hx : (x, .result true sc) ∈ h) :
    ChosenRows (some (hill.getD 10000)) y.length
      (saveAll (gamaLibrary hill maxModels) (told ++ extra) lib₀).sample := by
  obtain ⟨hh0, hc0, hcase⟩ := startLibrary_spec hstrat hlib
  obtain ⟨-, hc, hs⟩ := Cached.saveAll (size := y.length) (told ++ extra) [] lib₀ hh0 hc0 h4 (by simpa using h5)
  rw [List.nil_append] at hc
  obtain ⟨g, hg, he⟩ := told_success h1 hx
  rcases hs with e | ⟨_, e⟩
  · rcases hcase with ⟨-, rfl⟩ | hch
    · exfalso
      have hns := hc.unset (by rw [e]; rfl) (gamaLibrary_n hhill) g (List.mem_append_left _ hg)
      obtain ⟨z, -, hz⟩ := forall₂_right h1 g hg
      exact predicts_of_returned hp hz.1 he hns
    · rw [e]; exact hch
  · exact e

/-- What is missing in `C158_evolution_partial`: with a metric on probabilities and more than 10 000 rows,
the ensemble cannot be made if one of the rows drawn is not among the first 10 000. -/
theorem C158_raises (c : OpConfig) (cxpb : ℚ) (maxN : Option Int) (size : Nat) {K : Coding Fn V Nat}
    {Jb : Jobs Fn V X Ω} {report : V → Findings E P} {hill maxModels : Option Nat} (hhill : hill ≠ some 0)
    (hK : Faithful K Jb)
    (ha : Agrees (evolution c cxpb maxN size K Jb report (gamaLibrary hill maxModels)))
    (hp : Predicts (evolution c cxpb maxN size K Jb report (gamaLibrary hill maxModels)))
    {l : List Nat} (hl : l.Nodup) (out : List Nat)
    {w : World} (hw : ∀ x ∈ l, x < w.inds.length) (y : List α)
    (hrows : RowsAre (evolution c cxpb maxN size K Jb report (gamaLibrary hill maxModels)) y.length)
    {stratify : Option Nat} (hstrat : ∀ k, stratify = some k → k = y.length) {rnd : Stream}
    {lib₀ : Lib E P (List Score)} (hlib : startLibrary (gamaLibrary hill maxModels) stratify rnd = .ok lib₀)
    (n : Nat) (limit : Option ℚ) (logfile : Bool) (D : List (Str × V)) (es : List (WholeEvent Bool Ω))
    (metric : List α → (Nat × γ → ℚ) → Except Exn Score) (trans : P → γ → ℚ) {drawn : List Nat}
    (hbig : 10000 < min (hill.getD 10000) y.length) (hd : Drawn drawn (min (hill.getD 10000) y.length) 10000)
    {i : Nat} (hi : i ∈ drawn) (hle : 10000 ≤ i) (models : Int) (timeout : ℚ) :
    let U := evolution c cxpb maxN size K Jb report (gamaLibrary hill maxModels)
    let s := wholeRun U es (wholeStart (eaStart (.list l) out w) lib₀ n limit logfile D)
    (∃ x sc, (x, .result true sc) ∈ s.joint.search.history) →
    buildFromLibrary metric trans true drawn models timeout (gamaLibrary hill maxModels) y s.lib
      = .error .indexError := by
  intro U s hsome
  obtain ⟨x, sc, hx⟩ := hsome
  have hmoves := evolution_moves c cxpb maxN size hK ha l out w lib₀ n limit logfile D es
  have hrec : Records U D lib₀ (fun _ _ => True) s.core :=
    hmoves.induct ⟨[], [], rfl, .nil, Or.inl rfl, fun _ h => nomatch h⟩ fun x y hm ih =>
      records_move (evolveClient_lawful c cxpb maxN size) hm (fun _ _ => trivial) (fun _ _ _ _ _ => trivial) ih
  obtain ⟨told, extra, h1, h2, h3, h4, h5, -, -⟩ := evolution_library hl hw hrows hstrat hlib hmoves hrec
  refine build_raises metric trans maxModels ?_ hbig hd hi hle models timeout
  have h3 : s.lib = _ := h3
  rw [h3]
  exact chosen_of_told hp h1 h4 h5 hhill hstrat hlib hx

/-- What is missing in `C160_evolution_partial`: likewise for a search that is cut off. -/
theorem C160_raises (c : OpConfig) (cxpb : ℚ) (maxN : Option Int) (size : Nat) {K : Coding Fn V Nat}
    {Jb : Jobs Fn V X Ω} {report : V → Findings E P} {hill maxModels : Option Nat} (hhill : hill ≠ some 0)
    (hK : Faithful K Jb)
    (ha : Agrees (evolution c cxpb maxN size K Jb report (gamaLibrary hill maxModels)))
    (hp : Predicts (evolution c cxpb maxN size K Jb report (gamaLibrary hill maxModels)))
    (hes : Estimates (evolution c cxpb maxN size K Jb report (gamaLibrary hill maxModels)))
    {l : List Nat} (hl : l.Nodup) (out : List Nat)
    {w : World} (hw : ∀ x ∈ l, x < w.inds.length) (y : List α)
    (hrows : RowsAre (evolution c cxpb maxN size K Jb report (gamaLibrary hill maxModels)) y.length)
    {stratify : Option Nat} (hstrat : ∀ k, stratify = some k → k = y.length) {rnd : Stream}
    {lib₀ : Lib E P (List Score)} (hlib : startLibrary (gamaLibrary hill maxModels) stratify rnd = .ok lib₀)
    (n : Nat) (limit : Option ℚ) (logfile : Bool) (D : List (Str × V)) (es : List (WholeEvent Bool Ω)) {e : Exn}
    {t : Whole (Ea World Nat) Fn V X E P}
    (ht : CutOff (evolution c cxpb maxN size K Jb report (gamaLibrary hill maxModels)) e
      (wholeRun (evolution c cxpb maxN size K Jb report (gamaLibrary hill maxModels)) es
        (wholeStart (eaStart (.list l) out w) lib₀ n limit logfile D)) t)
    (metric : List α → (Nat × γ → ℚ) → Except Exn Score) (trans : P → γ → ℚ) {drawn : List Nat}
    (hbig : 10000 < min (hill.getD 10000) y.length) (hd : Drawn drawn (min (hill.getD 10000) y.length) 10000)
    {i : Nat} (hi : i ∈ drawn) (hle : 10000 ≤ i) (models : Int) (timeout : ℚ)
    (hsome : ∃ x sc, (x, .result true sc) ∈ t.joint.search.history) :
    buildFromLibrary metric trans true drawn models timeout (gamaLibrary hill maxModels) y t.lib
      = .error .indexError := by
  let U := evolution c cxpb maxN size K Jb report (gamaLibrary hill maxModels)
  have hset : ∀ p q s t, U.client.setPending p s = U.client.setPending q t → p = q :=
    fun _ _ _ _ h => congrArg Ea.pending h
  have hmoves := evolution_moves c cxpb maxN size hK ha l out w lib₀ n limit logfile D es
  have hap := evolution_apart hl hw hmoves
  obtain ⟨told, r, j, h1, h2, -, -, -, -, h7, h8⟩ := cut_general (U := U) (evolveClient_lawful c cxpb maxN size) hset
    hK ha hp hes (fun _ _ _ _ _ _ _ _ _ h => h) (gamaLibrary_n hhill) hrows hstrat hlib
    (start := eaStart (.list l) out w) rfl rfl rfl n limit logfile es (List.nodup_append.1 hap.once).1 ht
  obtain ⟨x, sc, hx⟩ := hsome
  obtain ⟨g, hg, hge⟩ := told_success h1 hx
  obtain ⟨-, -, hcase⟩ := startLibrary_spec hstrat hlib
  refine build_raises metric trans maxModels ?_ hbig hd hi hle models timeout
  rcases h7 with e | ⟨-, e⟩
  · rcases hcase with ⟨-, rfl⟩ | hch
    · exfalso
      obtain ⟨z, -, hz⟩ := forall₂_right h1 g hg
      exact predicts_of_returned hp hz.1 hge (h8 (by rw [e]; rfl) g hg)
    · rw [e]; exact hch
  · exact e

end

/-- **C158**, the full claim for evolution, of which it is only asked that the ensemble is made. -/
def C158_claim : Prop :=
  ∀ (c : OpConfig) (cxpb : ℚ) (maxN : Option Int) (size : Nat) (K : Coding Unit Nat Nat) (Jb : Jobs Unit Nat Nat Unit)
    (report : Nat → Findings Nat Nat) (hill maxModels : Option Nat), hill ≠ some 0 → maxModels ≠ some 0 →
    Faithful K Jb → Agrees (evolution c cxpb maxN size K Jb report (gamaLibrary hill maxModels)) →
    Predicts (evolution c cxpb maxN size K Jb report (gamaLibrary hill maxModels)) →
    Estimates (evolution c cxpb maxN size K Jb report (gamaLibrary hill maxModels)) →
    ∀ (l : List Nat) (w : World), l.Nodup → (∀ x ∈ l, x < w.inds.length) → ∀ y : List ℚ,
    RowsAre (evolution c cxpb maxN size K Jb report (gamaLibrary hill maxModels)) y.length →
    ∀ (n : Nat) (rnd : Stream) (es : List (WholeEvent Bool Unit)) (f : List ℚ → (Nat × Unit → ℚ) → Score),
    (∀ ls p, f ls p ≠ .ninf) → ∀ (trans : Nat → Unit → ℚ) (probabilities : Bool) (drawn : List Nat),
    (10000 < min (hill.getD 10000) y.length → Drawn drawn (min (hill.getD 10000) y.length) 10000) →
    ∀ models : Int, 1 ≤ models → ∀ timeout : ℚ, 0 < timeout →
    let U := evolution c cxpb maxN size K Jb report (gamaLibrary hill maxModels)
    let s := wholeRun U es
      (wholeStart (eaStart (.list l) [] w) (libInit (gamaLibrary hill maxModels) none rnd) n none false [])
    (∃ x sc, (x, .result true sc) ∈ s.joint.search.history) →
    ∃ ens, buildFromLibrary (fun ls p => .ok (f ls p)) trans probabilities drawn models timeout
      (gamaLibrary hill maxModels) y s.lib = .ok ens

/-- **C160**, the full claim for evolution, of which it is only asked that the ensemble is made. -/
def C160_claim : Prop :=
  ∀ (c : OpConfig) (cxpb : ℚ) (maxN : Option Int) (size : Nat) (K : Coding Unit Nat Nat) (Jb : Jobs Unit Nat Nat Unit)
    (report : Nat → Findings Nat Nat) (hill maxModels : Option Nat), hill ≠ some 0 → maxModels ≠ some 0 →
    Faithful K Jb → Agrees (evolution c cxpb maxN size K Jb report (gamaLibrary hill maxModels)) →
    Predicts (evolution c cxpb maxN size K Jb report (gamaLibrary hill maxModels)) →
    Estimates (evolution c cxpb maxN size K Jb report (gamaLibrary hill maxModels)) →
    ∀ (l : List Nat) (w : World), l.Nodup → (∀ x ∈ l, x < w.inds.length) → ∀ y : List ℚ,
    RowsAre (evolution c cxpb maxN size K Jb report (gamaLibrary hill maxModels)) y.length →
    ∀ (n : Nat) (rnd : Stream) (es : List (WholeEvent Bool Unit)) (e : Exn) (t : Whole (Ea World Nat) Unit Nat Nat Nat Nat),
    CutOff (evolution c cxpb maxN size K Jb report (gamaLibrary hill maxModels)) e
      (wholeRun (evolution c cxpb maxN size K Jb report (gamaLibrary hill maxModels)) es
        (wholeStart (eaStart (.list l) [] w) (libInit (gamaLibrary hill maxModels) none rnd) n none false [])) t →
    ∀ f : List ℚ → (Nat × Unit → ℚ) → Score,
    (∀ ls p, f ls p ≠ .ninf) → ∀ (trans : Nat → Unit → ℚ) (probabilities : Bool) (drawn : List Nat),
    (10000 < min (hill.getD 10000) y.length → Drawn drawn (min (hill.getD 10000) y.length) 10000) →
    ∀ models : Int, 1 ≤ models → ∀ timeout : ℚ, 0 < timeout →
    (∃ x sc, (x, .result true sc) ∈ t.joint.search.history) →
    ∃ ens, buildFromLibrary (fun ls p => .ok (f ls p)) trans probabilities drawn models timeout
      (gamaLibrary hill maxModels) y t.lib = .ok ens

namespace Ex

/-- As `ownReport`, with predictions for 10 001 rows. -/
def manyReport (v : Nat) : Findings Nat Nat := ⟨[.fin v, .fin 1], none, [v], some (List.replicate 10001 v)⟩

def manyRows : List ℚ := List.replicate 10001 4

/-- All of the 10 001 rows but the first. -/
def allButFirst : List Nat := List.range' 1 10000

abbrev manyIn : Setup (Ea World Nat) ((Str → Bool) × EaInput World) ((Str → Bool) × Bool) Bool
    Nat Unit Nat Nat Unit Nat Nat :=
  evolution Ex.config (1 / 5) none 50 ownScore evaluations manyReport (gamaLibrary (some 10001) none)

theorem many_agrees : Agrees manyIn := fun v => ⟨.fin v, rfl, rfl⟩

theorem many_predicts : Predicts manyIn := fun _ _ _ _ _ _ _ _ h => nomatch h

theorem many_estimates : Estimates manyIn := fun _ _ _ _ _ _ _ _ h => nomatch h

theorem manyRows_length : manyRows.length = 10001 := List.length_replicate

theorem many_rows : RowsAre manyIn manyRows.length := by
  intro j kw ω v _ ps h
  have h : some (List.replicate 10001 v) = some ps ∨ some (List.replicate 10001 v) = some ps := h
  rw [manyRows_length]
  rcases h with h | h <;> rw [← Option.some.inj h] <;> exact List.length_replicate

theorem many_stored : min ((some 10001).getD 10000) manyRows.length = 10001 := by
  rw [manyRows_length]; rfl

theorem many_drawn : Drawn allButFirst (min ((some 10001).getD 10000) manyRows.length) 10000 := by
  rw [many_stored]
  refine ⟨List.nodup_range', List.length_range', fun i hi => ?_⟩
  have := List.mem_range'_1.1 hi
  omega

theorem many_last : 10000 ∈ allButFirst := List.mem_range'_1.2 ⟨by decide, by decide⟩

abbrev manyRun (es : List (WholeEvent Bool Unit)) : Whole (Ea World Nat) Unit Nat Nat Nat Nat :=
  wholeRun manyIn es (wholeStart (eaStart (.list (List.range 6)) [] counting)
    (libInit (gamaLibrary (some 10001) none) none fun _ => 0) 1 none false [])

theorem many_success : (0, .result true (.fin 0)) ∈ (manyRun (fiveRounds [])).joint.search.history := by
  decide +kernel

/-- Cut off when the file of the fourth evaluation has been opened. -/
def manyCut : Whole (Ea World Nat) Unit Nat Nat Nat Nat :=
  ⟨(wholeStep manyIn (.iterate calmReading calmReading calmReading .ok (.raisesAfter .timeout))
      (manyRun fourthBack)).joint,
    opened (gamaLibrary (some 10001) none) (evaluationOf manyIn (manyIn.world (manyRun fourthBack).joint.search) 3)
      (manyRun fourthBack).lib⟩

theorem manyCut_found : foundBy manyIn calmReading calmReading calmReading .ok (manyRun fourthBack) = some 3 := by
  decide +kernel

theorem manyCut_cut : CutOff manyIn .timeout (manyRun fourthBack) manyCut :=
  cutOff_of manyCut_found (opened_during _ _ _) .timeout

theorem manyCut_success : (0, .result true (.fin 0)) ∈ manyCut.joint.search.history := by decide +kernel

attribute [local irreducible] wholeRun buildFromLibrary in
/-- The hypotheses of `C158_raises` are met. -/
theorem many_raises :
    buildFromLibrary (fun (_ : List ℚ) (_ : Nat × Unit → ℚ) => .ok (.fin 0)) (fun (p : Nat) (_ : Unit) => (p : ℚ)) true
      allButFirst 2 60 (gamaLibrary (some 10001) none) manyRows (manyRun (fiveRounds [])).lib = .error .indexError :=
  C158_raises Ex.config (1 / 5) none 50 (hill := some 10001) (maxModels := none) (by decide)
  ownScore_faithful many_agrees many_predicts (List.nodup_range (n := 6)) [] (w := counting) six_known manyRows
  many_rows (stratify := none) (fun _ h => nomatch h) (rnd := fun _ => 0) rfl 1 none false [] (fiveRounds [])
  (fun (_ : List ℚ) (_ : Nat × Unit → ℚ) => .ok (.fin 0)) (fun (p : Nat) (_ : Unit) => (p : ℚ))
  (by rw [many_stored]; decide) many_drawn many_last (by decide) 2 60 ⟨0, .fin 0, many_success⟩

/-- The hypotheses of `C160_raises` are met. -/
theorem manyCut_raises :
    buildFromLibrary (fun (_ : List ℚ) (_ : Nat × Unit → ℚ) => .ok (.fin 0)) (fun (p : Nat) (_ : Unit) => (p : ℚ)) true
      allButFirst 2 60 (gamaLibrary (some 10001) none) manyRows manyCut.lib = .error .indexError :=
  C160_raises Ex.config (1 / 5) none 50 (hill := some 10001) (maxModels := none) (by decide)
  ownScore_faithful many_agrees many_predicts many_estimates (List.nodup_range (n := 6)) [] (w := counting) six_known
  manyRows many_rows (stratify := none) (fun _ h => nomatch h) (rnd := fun _ => 0) rfl 1 none false [] fourthBack
  manyCut_cut (fun (_ : List ℚ) (_ : Nat × Unit → ℚ) => .ok (.fin 0)) (fun (p : Nat) (_ : Unit) => (p : ℚ))
  (by rw [many_stored]; decide) many_drawn many_last (by decide) 2 60 ⟨0, .fin 0, manyCut_success⟩

end Ex

attribute [local irreducible] wholeRun buildFromLibrary in
/-- **C158 is false** of metrics on probabilities when `hillclimb_size` and the number of rows exceed 10 000. -/
theorem C158_false : ¬ C158_claim := by
  intro h
  obtain ⟨ens, h1⟩ := h Ex.config (1 / 5) none 50 Ex.ownScore Ex.evaluations Ex.manyReport (some 10001) none (by decide)
    (by decide) Ex.ownScore_faithful Ex.many_agrees Ex.many_predicts Ex.many_estimates (List.range 6) Ex.counting
    List.nodup_range Ex.six_known Ex.manyRows Ex.many_rows 1 (fun _ => 0) (Ex.fiveRounds []) (fun _ _ => .fin 0)
    (fun _ _ h => nomatch h) (fun n _ => n) true Ex.allButFirst (fun _ => Ex.many_drawn) 2 (by decide) 60 (by decide)
    ⟨0, .fin 0, Ex.many_success⟩
  have h1 : buildFromLibrary (fun (_ : List ℚ) (_ : Nat × Unit → ℚ) => .ok (.fin 0)) (fun (p : Nat) (_ : Unit) => (p : ℚ))
      true Ex.allButFirst 2 60 (gamaLibrary (some 10001) none) Ex.manyRows (Ex.manyRun (Ex.fiveRounds [])).lib = .ok ens := h1
  rw [Ex.many_raises] at h1
  cases h1

/-- **C160 is false** likewise. -/
theorem C160_false : ¬ C160_claim := by
  intro h
  obtain ⟨ens, h1⟩ := h Ex.config (1 / 5) none 50 Ex.ownScore Ex.evaluations Ex.manyReport (some 10001) none (by decide)
    (by decide) Ex.ownScore_faithful Ex.many_agrees Ex.many_predicts Ex.many_estimates (List.range 6) Ex.counting
    List.nodup_range Ex.six_known Ex.manyRows Ex.many_rows 1 (fun _ => 0) Ex.fourthBack .timeout Ex.manyCut
    Ex.manyCut_cut (fun _ _ => .fin 0)
    (fun _ _ h => nomatch h) (fun n _ => n) true Ex.allButFirst (fun _ => Ex.many_drawn) 2 (by decide) 60 (by decide)
    ⟨0, .fin 0, Ex.manyCut_success⟩
  have h1 : buildFromLibrary (fun (_ : List ℚ) (_ : Nat × Unit → ℚ) => .ok (.fin 0)) (fun (p : Nat) (_ : Unit) => (p : ℚ))
      true Ex.allButFirst 2 60 (gamaLibrary (some 10001) none) Ex.manyRows Ex.manyCut.lib = .ok ens := h1
  rw [Ex.manyCut_raises] at h1
  cases h1

end Gama
