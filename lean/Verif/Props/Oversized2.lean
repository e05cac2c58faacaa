import Verif.Props.Oversized
import Verif.Props.Rungs

/-! # C158, C159 and C160 for metrics on probabilities with more than 10 000 rows: the other searches -/

namespace Gama
open PyM Spec

section
variable {Fn V X Ω E P α γ : Type}

/-- Rows have been chosen by the time the saving of an evaluation is cut off, if one that succeeded was saved. -/
theorem chosen_of_cut {S I A B J : Type} {U : Setup S I A B J Fn V X Ω E P} (hp : Predicts U)
    {D : List (Str × V)} {h : List (J × Completion)} {told : List (EvalRec E P (List Score))}
    (h1 : List.Forall₂ (ToldAs U D) (results h) told) {hill maxModels : Option Nat} {y : List α}
    {stratify : Option Nat} (hstrat : ∀ k, stratify = some k → k = y.length) {rnd : Stream}
    {lib₀ t : Lib E P (List Score)} (hlib : startLibrary (gamaLibrary hill maxModels) stratify rnd = .ok lib₀)
    (h7 : t.sample = lib₀.sample ∨ lib₀.sample = .notSet ∧ ChosenRows (some (hill.getD 10000)) y.length t.sample)
    (h8 : t.sample = .notSet → ∀ g ∈ told, g.predictions = none)
    {x : J} {sc : Score} (hx : (x, .result true sc) ∈ h) :
    ChosenRows (some (hill.getD 10000)) y.length t.sample := by
  obtain ⟨g, hg, hge⟩ := told_success h1 hx
  obtain ⟨-, -, hcase⟩ := startLibrary_spec hstrat hlib
  rcases h7 with e | ⟨-, e⟩
  · rcases hcase with ⟨-, rfl⟩ | hch
    · exfalso
      obtain ⟨z, -, hz⟩ := forall₂_right h1 g hg
      exact predicts_of_returned hp hz.1 hge (h8 (by rw [e]; rfl) g hg)
    · rw [e]; exact hch
  · exact e

/-- What is missing in `C158_random_search_partial`. -/
theorem C158_raises_random_search (c : OpConfig) (cxpb : ℚ) (maxN : Option Int) {K : Coding Fn V Nat}
    {Jb : Jobs Fn V X Ω} {report : V → Findings E P} {hill maxModels : Option Nat} (hhill : hill ≠ some 0)
    (hK : Faithful K Jb)
    (ha : Agrees (randomSearching c cxpb maxN K Jb report (gamaLibrary hill maxModels)))
    (hp : Predicts (randomSearching c cxpb maxN K Jb report (gamaLibrary hill maxModels)))
    {l : List Nat} (hl : l.Nodup) (out : List Nat) {w : World} (hw : ∀ x ∈ l, x < w.inds.length) (y : List α)
    (hrows : RowsAre (randomSearching c cxpb maxN K Jb report (gamaLibrary hill maxModels)) y.length)
    {stratify : Option Nat} (hstrat : ∀ k, stratify = some k → k = y.length) {rnd : Stream}
    {lib₀ : Lib E P (List Score)} (hlib : startLibrary (gamaLibrary hill maxModels) stratify rnd = .ok lib₀)
    (n : Nat) (limit : Option ℚ) (logfile : Bool) (D : List (Str × V)) (es : List (WholeEvent Unit Ω))
    (metric : List α → (Nat × γ → ℚ) → Except Exn Score) (trans : P → γ → ℚ) {drawn : List Nat}
    (hbig : 10000 < min (hill.getD 10000) y.length) (hd : Drawn drawn (min (hill.getD 10000) y.length) 10000)
    {i : Nat} (hi : i ∈ drawn) (hle : 10000 ≤ i) (models : Int) (timeout : ℚ) :
    let U := randomSearching c cxpb maxN K Jb report (gamaLibrary hill maxModels)
    let s := wholeRun U es (wholeStart (rsStart (.list l) out w) lib₀ n limit logfile D)
    (∃ x sc, (x, .result true sc) ∈ s.joint.search.history) →
    buildFromLibrary metric trans true drawn models timeout (gamaLibrary hill maxModels) y s.lib
      = .error .indexError := by
  rintro U s ⟨x, sc, hx⟩
  have hmoves := random_moves c cxpb maxN hK ha l out w lib₀ n limit logfile D es
  have hrec : Records U D lib₀ (fun _ _ => True) s.core :=
    hmoves.induct ⟨[], [], rfl, .nil, Or.inl rfl, fun _ h => nomatch h⟩ fun x y hm ih =>
      records_move (rsClient_lawful (gamaOps c cxpb) maxN) hm (fun _ _ => trivial) (fun _ _ _ _ _ => trivial) ih
  obtain ⟨told, extra, h1, h2, h3, h4, h5, -, -⟩ := random_library hl hw hrows hstrat hlib hmoves hrec
  refine build_raises metric trans maxModels ?_ hbig hd hi hle models timeout
  have h3 : s.lib = _ := h3
  rw [h3]
  exact chosen_of_told hp h1 h4 h5 hhill hstrat hlib hx

/-- What is missing in `C159_partial` besides evaluations on lower rungs. -/
theorem C159_raises (c : OpConfig) (cxpb : ℚ) (a : AshaConfig) {K : Coding Fn V (Nat × Nat)}
    {Jb : Jobs Fn V X Ω} {report : V → Findings E P} {hill maxModels : Option Nat} (hhill : hill ≠ some 0)
    (hK : Faithful K Jb)
    (ha : Agrees (halving c cxpb a K Jb report (gamaLibrary hill maxModels)))
    (hp : Predicts (halving c cxpb a K Jb report (gamaLibrary hill maxModels)))
    {l : List Nat} (hl : l.Nodup) {w : World} (hw : ∀ x ∈ l, x < w.inds.length) (y : List α)
    (hrows : RowsAre (halving c cxpb a K Jb report (gamaLibrary hill maxModels)) y.length)
    {stratify : Option Nat} (hstrat : ∀ k, stratify = some k → k = y.length) {rnd : Stream}
    {lib₀ : Lib E P (List Score)} (hlib : startLibrary (gamaLibrary hill maxModels) stratify rnd = .ok lib₀)
    (n : Nat) (limit : Option ℚ) (logfile : Bool) (D : List (Str × V)) (es : List (WholeEvent Nat Ω))
    (metric : List α → (Nat × γ → ℚ) → Except Exn Score) (trans : P → γ → ℚ) {drawn : List Nat}
    (hbig : 10000 < min (hill.getD 10000) y.length) (hd : Drawn drawn (min (hill.getD 10000) y.length) 10000)
    {i : Nat} (hi : i ∈ drawn) (hle : 10000 ≤ i) (models : Int) (timeout : ℚ) :
    let U := halving c cxpb a K Jb report (gamaLibrary hill maxModels)
    let s := wholeRun U es (wholeStart (ashaStart a l w) lib₀ n limit logfile D)
    (∃ x sc, (x, .result true sc) ∈ toldOf s.joint.search) →
    buildFromLibrary metric trans true drawn models timeout (gamaLibrary hill maxModels) y s.lib
      = .error .indexError := by
  rintro U s ⟨x, sc, hx⟩
  obtain ⟨told, extra, h1, -, h3, h4, h5, -, -⟩ := halving_library c cxpb a hK ha hl hw hrows hstrat hlib n limit
    logfile D es
  refine build_raises metric trans maxModels ?_ hbig hd hi hle models timeout
  have h3 : s.lib = _ := h3
  rw [h3]
  exact chosen_of_told hp h1 h4 h5 hhill hstrat hlib hx

/-- What is missing in `C160_random_search_partial`. -/
theorem C160_raises_random_search (c : OpConfig) (cxpb : ℚ) (maxN : Option Int) {K : Coding Fn V Nat}
    {Jb : Jobs Fn V X Ω} {report : V → Findings E P} {hill maxModels : Option Nat} (hhill : hill ≠ some 0)
    (hK : Faithful K Jb)
    (ha : Agrees (randomSearching c cxpb maxN K Jb report (gamaLibrary hill maxModels)))
    (hp : Predicts (randomSearching c cxpb maxN K Jb report (gamaLibrary hill maxModels)))
    (hes : Estimates (randomSearching c cxpb maxN K Jb report (gamaLibrary hill maxModels)))
    {l : List Nat} (hl : l.Nodup) (out : List Nat) {w : World} (hw : ∀ x ∈ l, x < w.inds.length) (y : List α)
    (hrows : RowsAre (randomSearching c cxpb maxN K Jb report (gamaLibrary hill maxModels)) y.length)
    {stratify : Option Nat} (hstrat : ∀ k, stratify = some k → k = y.length) {rnd : Stream}
    {lib₀ : Lib E P (List Score)} (hlib : startLibrary (gamaLibrary hill maxModels) stratify rnd = .ok lib₀)
    (n : Nat) (limit : Option ℚ) (logfile : Bool) (D : List (Str × V)) (es : List (WholeEvent Unit Ω))
    {e : Exn} {t : Whole (Rs World Nat) Fn V X E P}
    (ht : CutOff (randomSearching c cxpb maxN K Jb report (gamaLibrary hill maxModels)) e
      (wholeRun (randomSearching c cxpb maxN K Jb report (gamaLibrary hill maxModels)) es
        (wholeStart (rsStart (.list l) out w) lib₀ n limit logfile D)) t)
    (metric : List α → (Nat × γ → ℚ) → Except Exn Score) (trans : P → γ → ℚ) {drawn : List Nat}
    (hbig : 10000 < min (hill.getD 10000) y.length) (hd : Drawn drawn (min (hill.getD 10000) y.length) 10000)
    {i : Nat} (hi : i ∈ drawn) (hle : 10000 ≤ i) (models : Int) (timeout : ℚ) :
    (∃ x sc, (x, .result true sc) ∈ t.joint.search.history) →
    buildFromLibrary metric trans true drawn models timeout (gamaLibrary hill maxModels) y t.lib
      = .error .indexError := by
  rintro ⟨x, sc, hx⟩
  let U := randomSearching c cxpb maxN K Jb report (gamaLibrary hill maxModels)
  have hset : ∀ p q s t, U.client.setPending p s = U.client.setPending q t → p = q :=
    fun _ _ _ _ h => congrArg Rs.pending h
  have hmoves := random_moves c cxpb maxN hK ha l out w lib₀ n limit logfile D es
  have hap := random_apart hl hw hmoves
  obtain ⟨told, r, j, h1, h2, -, -, -, -, h7, h8⟩ := cut_general (U := U) (rsClient_lawful (gamaOps c cxpb) maxN) hset
    hK ha hp hes (fun _ _ _ _ _ _ _ _ _ h => h) (gamaLibrary_n hhill) hrows hstrat hlib
    (start := rsStart (.list l) out w) rfl rfl rfl n limit logfile es (List.nodup_append.1 hap.once).1 ht
  exact build_raises metric trans maxModels (chosen_of_cut hp h1 hstrat hlib h7 h8 hx) hbig hd hi hle models timeout

/-- What is missing in `C160_halving_partial`. -/
theorem C160_raises_halving (c : OpConfig) (cxpb : ℚ) (a : AshaConfig) {K : Coding Fn V (Nat × Nat)}
    {Jb : Jobs Fn V X Ω} {report : V → Findings E P} {hill maxModels : Option Nat} (hhill : hill ≠ some 0)
    (hK : Faithful K Jb)
    (ha : Agrees (halving c cxpb a K Jb report (gamaLibrary hill maxModels)))
    (hp : Predicts (halving c cxpb a K Jb report (gamaLibrary hill maxModels)))
    (hes : Estimates (halving c cxpb a K Jb report (gamaLibrary hill maxModels)))
    {l : List Nat} (hl : l.Nodup) {w : World} (hw : ∀ x ∈ l, x < w.inds.length) (y : List α)
    (hrows : RowsAre (halving c cxpb a K Jb report (gamaLibrary hill maxModels)) y.length)
    {stratify : Option Nat} (hstrat : ∀ k, stratify = some k → k = y.length) {rnd : Stream}
    {lib₀ : Lib E P (List Score)} (hlib : startLibrary (gamaLibrary hill maxModels) stratify rnd = .ok lib₀)
    (n : Nat) (limit : Option ℚ) (logfile : Bool) (D : List (Str × V)) (es : List (WholeEvent Nat Ω))
    {e : Exn} {t : Whole (Asha World Nat) Fn V X E P}
    (ht : CutOff (halving c cxpb a K Jb report (gamaLibrary hill maxModels)) e
      (wholeRun (halving c cxpb a K Jb report (gamaLibrary hill maxModels)) es
        (wholeStart (ashaStart a l w) lib₀ n limit logfile D)) t)
    (metric : List α → (Nat × γ → ℚ) → Except Exn Score) (trans : P → γ → ℚ) {drawn : List Nat}
    (hbig : 10000 < min (hill.getD 10000) y.length) (hd : Drawn drawn (min (hill.getD 10000) y.length) 10000)
    {i : Nat} (hi : i ∈ drawn) (hle : 10000 ≤ i) (models : Int) (timeout : ℚ) :
    (∃ x sc, (x, .result true sc) ∈ toldOf t.joint.search) →
    buildFromLibrary metric trans true drawn models timeout (gamaLibrary hill maxModels) y t.lib
      = .error .indexError := by
  rintro ⟨x, sc, hx⟩
  let U := halving c cxpb a K Jb report (gamaLibrary hill maxModels)
  have hset : ∀ p q s t, U.client.setPending p s = U.client.setPending q t → p = q :=
    fun _ _ _ _ h => congrArg Asha.pending h
  obtain ⟨told, r, j, h1, h2, -, -, -, -, h7, h8⟩ := cut_general (U := U) (ashaClient_lawful (gamaOps c cxpb) a) hset
    hK ha hp hes (halving_oneEach c cxpb a hK).2 (gamaLibrary_n hhill) hrows hstrat hlib
    (start := ashaStart a l w) rfl rfl rfl n limit logfile es
    (halving_once c cxpb a hK ha hl hw lib₀ n limit logfile D es) ht
  exact build_raises metric trans maxModels (chosen_of_cut hp h1 hstrat hlib h7 h8 hx) hbig hd hi hle models timeout

end

namespace Ex

abbrev manyDrawn : Setup (Rs World Nat) (Wait World) Unit Unit Nat Unit Nat Nat Unit Nat Nat :=
  randomSearching Ex.config (1 / 5) none ownScore evaluations manyReport (gamaLibrary (some 10001) none)

theorem manyDrawn_agrees : Agrees manyDrawn := fun v => ⟨.fin v, rfl, rfl⟩

theorem manyDrawn_predicts : Predicts manyDrawn := fun _ _ _ _ _ _ _ _ h => nomatch h

theorem manyDrawn_estimates : Estimates manyDrawn := fun _ _ _ _ _ _ _ _ h => nomatch h

theorem manyDrawn_rows : RowsAre manyDrawn manyRows.length := by
  intro j kw ω v _ ps h
  have h : some (List.replicate 10001 v) = some ps ∨ some (List.replicate 10001 v) = some ps := h
  rw [manyRows_length]
  rcases h with h | h <;> rw [← Option.some.inj h] <;> exact List.length_replicate

abbrev manyRandom (es : List (WholeEvent Unit Unit)) : Whole (Rs World Nat) Unit Nat Nat Nat Nat :=
  wholeRun manyDrawn es (wholeStart (rsStart (.list (List.range 6)) [] sixWorld)
    (libInit (gamaLibrary (some 10001) none) none fun _ => 0) 1 none false [])

theorem manyRandom_success : (0, .result true (.fin 0)) ∈ (manyRandom twoRounds).joint.search.history := by
  decide +kernel

/-- Cut off when the file of the third evaluation has been opened. -/
def manyRandomCut : Whole (Rs World Nat) Unit Nat Nat Nat Nat :=
  ⟨(wholeStep manyDrawn (.iterate calmReading calmReading calmReading .ok (.raisesAfter .timeout))
      (manyRandom thirdBack)).joint,
    opened (gamaLibrary (some 10001) none) (evaluationOf manyDrawn (manyRandom thirdBack).joint.search.world 2)
      (manyRandom thirdBack).lib⟩

theorem manyRandomCut_found : foundBy manyDrawn calmReading calmReading calmReading .ok (manyRandom thirdBack) = some 2 := by
  decide +kernel

theorem manyRandomCut_cut : CutOff manyDrawn .timeout (manyRandom thirdBack) manyRandomCut :=
  cutOff_of manyRandomCut_found (opened_during _ _ _) .timeout

theorem manyRandomCut_success : (0, .result true (.fin 0)) ∈ manyRandomCut.joint.search.history := by decide +kernel

/-- As `rungReport`, with predictions for 10 001 rows. -/
def manyRungs (v : Nat × Nat) : Findings (Nat × Nat) Nat := ⟨[rungScore v], none, [v], some (List.replicate 10001 v.2)⟩

abbrev manyHalved : Setup (Asha World Nat) (AshaInput World) Nat Nat (Nat × Nat) Unit (Nat × Nat) Nat
    Unit (Nat × Nat) Nat :=
  halving Ex.config (1 / 5) ⟨3, 0, 1, none⟩ rungScores rungEvaluations manyRungs (gamaLibrary (some 10001) none)

theorem manyHalved_agrees : Agrees manyHalved := fun v => ⟨rungScore v, rfl, rfl⟩

theorem manyHalved_predicts : Predicts manyHalved := fun _ _ _ _ _ _ _ _ h => nomatch h

theorem manyHalved_estimates : Estimates manyHalved := fun _ _ _ _ _ _ _ _ h => nomatch h

theorem manyHalved_rows : RowsAre manyHalved manyRows.length := by
  intro j kw ω v _ ps h
  have h : some (List.replicate 10001 v.2) = some ps ∨ some (List.replicate 10001 v.2) = some ps := h
  rw [manyRows_length]
  rcases h with h | h <;> rw [← Option.some.inj h] <;> exact List.length_replicate

abbrev manyHalving (es : List (WholeEvent Nat Unit)) : Whole (Asha World Nat) Unit (Nat × Nat) Nat (Nat × Nat) Nat :=
  wholeRun manyHalved es (wholeStart (ashaStart ⟨3, 0, 1, none⟩ (List.range 6) sixWorld)
    (libInit (gamaLibrary (some 10001) none) none fun _ => 0) 11 none false [])

theorem manyHalving_success : ((5, 1), .result true (.fin 15)) ∈ toldOf (manyHalving promoting).joint.search := by
  decide +kernel

/-- After the evaluation on rung 1, one more on rung 0 is back. -/
def oneMore : List (WholeEvent Nat Unit) := promoting ++ [.worker 3 (.finish ()), .wait]

/-- Cut off when the saving of that evaluation begins. -/
def manyHalvingCut : Whole (Asha World Nat) Unit (Nat × Nat) Nat (Nat × Nat) Nat :=
  ⟨(wholeStep manyHalved (.iterate calmReading calmReading calmReading .ok (.raisesAfter .timeout))
      (manyHalving oneMore)).joint, (manyHalving oneMore).lib⟩

theorem manyHalvingCut_cut : CutOff manyHalved .timeout (manyHalving oneMore) manyHalvingCut := by
  have h : (foundBy manyHalved calmReading calmReading calmReading .ok (manyHalving oneMore)).isSome := by
    decide +kernel
  obtain ⟨j, hj⟩ := Option.isSome_iff_exists.1 h
  exact cutOff_of hj .before .timeout

theorem manyHalvingCut_success : ((5, 1), .result true (.fin 15)) ∈ toldOf manyHalvingCut.joint.search := by
  decide +kernel

end Ex

attribute [local irreducible] wholeRun buildFromLibrary in
/-- The hypotheses of `C158_raises_random_search` are met, … -/
example := C158_raises_random_search Ex.config (1 / 5) none (hill := some 10001) (maxModels := none) (by decide)
  Ex.ownScore_faithful Ex.manyDrawn_agrees Ex.manyDrawn_predicts (List.nodup_range (n := 6)) [] (w := Ex.sixWorld)
  Ex.six_known Ex.manyRows Ex.manyDrawn_rows (stratify := none) (fun _ h => nomatch h) (rnd := fun _ => 0) rfl 1 none
  false [] Ex.twoRounds (fun (_ : List ℚ) (_ : Nat × Unit → ℚ) => .ok (.fin 0)) (fun (p : Nat) (_ : Unit) => (p : ℚ))
  (by rw [Ex.many_stored]; decide) Ex.many_drawn Ex.many_last (by decide) 2 60 ⟨0, .fin 0, Ex.manyRandom_success⟩

attribute [local irreducible] wholeRun buildFromLibrary in
/-- … and those of `C160_raises_random_search`, … -/
example := C160_raises_random_search Ex.config (1 / 5) none (hill := some 10001) (maxModels := none) (by decide)
  Ex.ownScore_faithful Ex.manyDrawn_agrees Ex.manyDrawn_predicts Ex.manyDrawn_estimates (List.nodup_range (n := 6)) []
  (w := Ex.sixWorld) Ex.six_known Ex.manyRows Ex.manyDrawn_rows (stratify := none) (fun _ h => nomatch h)
  (rnd := fun _ => 0) rfl 1 none false [] Ex.thirdBack Ex.manyRandomCut_cut
  (fun (_ : List ℚ) (_ : Nat × Unit → ℚ) => .ok (.fin 0)) (fun (p : Nat) (_ : Unit) => (p : ℚ))
  (by rw [Ex.many_stored]; decide) Ex.many_drawn Ex.many_last (by decide) 2 60 ⟨0, .fin 0, Ex.manyRandomCut_success⟩

attribute [local irreducible] wholeRun buildFromLibrary in
/-- … those of `C159_raises`, … -/
example := C159_raises Ex.config (1 / 5) ⟨3, 0, 1, none⟩ (hill := some 10001) (maxModels := none) (by decide)
  Ex.rungScores_faithful Ex.manyHalved_agrees Ex.manyHalved_predicts (List.nodup_range (n := 6)) (w := Ex.sixWorld)
  Ex.six_known Ex.manyRows Ex.manyHalved_rows (stratify := none) (fun _ h => nomatch h) (rnd := fun _ => 0) rfl 11 none
  false [] Ex.promoting (fun (_ : List ℚ) (_ : Nat × Unit → ℚ) => .ok (.fin 0)) (fun (p : Nat) (_ : Unit) => (p : ℚ))
  (by rw [Ex.many_stored]; decide) Ex.many_drawn Ex.many_last (by decide) 2 60
  ⟨(5, 1), .fin 15, Ex.manyHalving_success⟩

attribute [local irreducible] wholeRun buildFromLibrary in
/-- … and those of `C160_raises_halving`. -/
example := C160_raises_halving Ex.config (1 / 5) ⟨3, 0, 1, none⟩ (hill := some 10001) (maxModels := none) (by decide)
  Ex.rungScores_faithful Ex.manyHalved_agrees Ex.manyHalved_predicts Ex.manyHalved_estimates (List.nodup_range (n := 6))
  (w := Ex.sixWorld) Ex.six_known Ex.manyRows Ex.manyHalved_rows (stratify := none) (fun _ h => nomatch h)
  (rnd := fun _ => 0) rfl 11 none false [] Ex.oneMore Ex.manyHalvingCut_cut
  (fun (_ : List ℚ) (_ : Nat × Unit → ℚ) => .ok (.fin 0)) (fun (p : Nat) (_ : Unit) => (p : ℚ))
  (by rw [Ex.many_stored]; decide) Ex.many_drawn Ex.many_last (by decide) 2 60
  ⟨(5, 1), .fin 15, Ex.manyHalvingCut_success⟩

end Gama
