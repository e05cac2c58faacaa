import Verif.Lemmas.Whole
import Verif.Props.Evolve
import Verif.Props.Build

/-! # Searches, their evaluations and the library together: C134 - C137 -/

namespace Gama
open PyM Spec

/-- What a library holds that was told the evaluations `hist`. -/
structure Spec.LibraryOf {E P K : Type} [LinearOrder K] (c : LibConfig) (hist : List (EvalRec E P K))
    (s : Lib E P K) : Prop where
  /-- nothing is lost, nothing is invented -/
  all : (s.top ++ s.other).Perm (numbered hist)
  /-- the best ones are kept -/
  best : ∀ m, c.m = some m → BestOf (fun t : Ref E P K => t.given.score) m (errorFree hist) s.top
  unlimited : c.m = none → s.top.Perm (errorFree hist)
  /-- with their models and predictions -/
  models : ∀ t ∈ s.top, readEstimators s t = .ok t.given.estimators
  predictions : ∀ t ∈ s.top, ∃ v, readPredictions s t = .ok v ∧ (c.n = some 0 → v = none) ∧
    (c.n ≠ some 0 → Stored s.sample.toRows t.given.predictions v)
  /-- the others need no memory and there are no other files -/
  released : ∀ o ∈ s.other, readEstimators s o = .ok [] ∧ readPredictions s o = .ok none
  files : ∀ f, s.disk f ≠ none ↔ ∃ t ∈ s.top, t.given.ident = f
  /-- a pipeline is found if it was evaluated, and then its last evaluation -/
  found : ∀ k, s.lookup k ≠ none ↔ ∃ g ∈ hist, g.pipeline = k
  latest : ∀ k r, s.lookup k = some r → hist[r.idx]? = some r.given ∧ r.given.pipeline = k ∧
    ∀ (j : Nat) g, hist[j]? = some g → g.pipeline = k → j ≤ r.idx

theorem libraryOf {E P K : Type} [LinearOrder K] {c : LibConfig} {size : Nat} {hist : List (EvalRec E P K)}
    {s : Lib E P K} (h : Holds c hist [] s) (k : Cached c size hist s) : LibraryOf c hist s := by
  obtain ⟨-, b2, b3⟩ := h.best_of
  have part2 : ∀ key r, s.lookup key = some r → hist[r.idx]? = some r.given ∧ r.given.pipeline = key ∧
      ∀ (j : Nat) g, hist[j]? = some g → g.pipeline = key → j ≤ r.idx := by
    intro key r hr
    obtain ⟨h1, h2, h3⟩ := (k.latest key r).1 hr
    exact ⟨mem_numbered.1 h1, h2, fun j g hj hg => h3 ⟨j, g⟩ (mem_numbered.2 hj) hg⟩
  refine ⟨by simpa using h.perm, b2, b3, ?_, ?_, ?_, ?_, ?_, part2⟩
  · intro t ht
    obtain ⟨h1, v, h2, h3⟩ := k.kept t ht
    simp [readEstimators, h1, h2]
  · intro t ht
    obtain ⟨h1, v, h2, h3⟩ := k.kept t ht
    exact ⟨v, by simp [readPredictions, h1, h2], h3⟩
  · intro o ho
    have := k.others o ho
    simp [readEstimators, readPredictions, this]
  · intro f
    refine ⟨k.only f, ?_⟩
    rintro ⟨t, ht, rfl⟩
    obtain ⟨_, v, h2, _⟩ := k.kept t ht
    rw [h2]
    simp
  · intro key
    constructor
    · intro hne
      obtain ⟨r, hr⟩ := Option.ne_none_iff_exists'.1 hne
      obtain ⟨h1, h2, _⟩ := part2 key r hr
      exact ⟨r.given, List.mem_of_getElem? h1, h2⟩
    · intro hex
      obtain ⟨r, h1, h2, h3⟩ := numbered_last hist hex
      rw [(k.latest key r).2 ⟨h1, h2, h3⟩]
      simp

section
variable {S I A B J Fn V X Ω E P : Type}

/-- Evaluations predict for `rows` rows. -/
def Spec.RowsAre (U : Setup S I A B J Fn V X Ω E P) (rows : Nat) : Prop :=
  ∀ j kw ω v, U.jobs.call (U.coding.fn j) (U.coding.args j) kw ω = .returns v → ∀ ps,
    (U.report v).predictions = some ps ∨ (U.report (U.jobs.withoutMemoryError v)).predictions = some ps →
    ps.length = rows

theorem rows_of_returned {U : Setup S I A B J Fn V X Ω E P} {rows : Nat} (h : RowsAre U rows)
    {D : List (Str × V)} {j : J} {r : EvalRec E P (List Score)} (hr : Returned U D j r) :
    ∀ ps, r.predictions = some ps → ps.length = rows := by
  obtain ⟨kw, ω, v, v', -, hc, hv, -, -, -, -, hp⟩ := hr
  intro ps hps
  rw [hp] at hps
  refine h j kw ω v hc ps ?_
  rcases hv with rfl | ⟨-, rfl⟩
  · exact Or.inl hps
  · exact Or.inr hps

/-- An individual is evaluated without an error in one job only. -/
def OneEach (U : Setup S I A B J Fn V X Ω E P) : Prop :=
  ∀ D i j r r', Returned U D i r → Returned U D j r' → r.error = none → r'.error = none → U.ident i = U.ident j →
    i = j

theorem ident_of_returned {U : Setup S I A B J Fn V X Ω E P} {D : List (Str × V)} {j : J}
    {r : EvalRec E P (List Score)} (h : Returned U D j r) : r.ident = U.ident j := by
  obtain ⟨_, _, _, _, -, -, -, h, -⟩ := h
  exact h

/-- The evaluations of different jobs that succeeded are of different individuals. -/
theorem distinct_returned {U : Setup S I A B J Fn V X Ω E P} (hid : OneEach U) {D : List (Str × V)} :
    ∀ {js : List J} {rs : List (EvalRec E P (List Score))}, List.Forall₂ (Returned U D) js rs → js.Nodup →
      DistinctIds rs := by
  intro js rs h hn
  rw [distinctIds_iff]
  induction h with
  | nil => exact .nil
  | @cons j r js rs h1 h2 ih =>
    obtain ⟨n1, n2⟩ := List.nodup_cons.1 hn
    refine List.pairwise_cons.2 ⟨fun r' hr' e e' hne => n1 ?_, ih n2⟩
    obtain ⟨j', hj', hr'⟩ := forall₂_right h2 r' hr'
    rw [ident_of_returned h1, ident_of_returned hr'] at hne
    rw [hid D j j' r r' h1 hr' e e' hne]
    exact hj'

/-- The library after a run, for searches that submit each job once. -/
theorem library_of_records {U : Setup S I A B J Fn V X Ω E P} (hid : OneEach U)
    {rows : Nat} (hrows : RowsAre U rows) {stratify : Option Nat}
    (hstrat : ∀ k, stratify = some k → k = rows) {rnd : Stream} {lib₀ : Lib E P (List Score)}
    (hlib : startLibrary U.lib stratify rnd = .ok lib₀) {D : List (Str × V)}
    {T : S → EvalRec E P (List Score) → Prop} {x : S × Lib E P (List Score)}
    (hsub : (U.client.submitted x.1).Nodup) (hperm : ((U.client.history x.1).map Prod.fst).Subperm
      (U.client.submitted x.1))
    (h : Records U D lib₀ T x) :
    ∃ told extra, List.Forall₂ (ToldAs U D) (results (U.client.history x.1)) told ∧
      (extra = [] ∨ ∃ r j, extra = [r] ∧ Returned U D j r ∧ j ∈ U.client.submitted x.1 ∧
        j ∉ (U.client.history x.1).map Prod.fst ∧
        ∃ t e, U.client.waits t = true ∧ x.1 = U.client.step (U.client.waited (.raises e)) t) ∧
      x.2 = saveAll U.lib (told ++ extra) lib₀ ∧
      SameSize rows (told ++ extra) ∧ DistinctIds (told ++ extra) ∧
      LibraryOf U.lib (told ++ extra) x.2 ∧ ∀ r ∈ told ++ extra, T x.1 r := by
  obtain ⟨told, extra, h1, h2, h3, h4⟩ := h
  have hnd : ∀ {l : List J}, l.Subperm (U.client.submitted x.1) → l.Nodup := by
    rintro l ⟨l', p, sl⟩
    exact p.nodup_iff.1 (hsub.sublist sl)
  have htold : List.Forall₂ (Returned U D) ((results (U.client.history x.1)).map Prod.fst) told :=
    List.forall₂_map_left_iff.2 (h2.imp fun _ _ h => h.1)
  have hdistinct : DistinctIds (told ++ extra) := by
    rcases h3 with rfl | ⟨r, j, rfl, hr, -, haw, -⟩
    · rw [List.append_nil]
      exact distinct_returned hid htold (List.Nodup.sublist ((results_sublist _).map _) (hnd hperm))
    · refine distinct_returned hid (forall₂_snoc htold hr) (List.Nodup.sublist ?_ (hnd haw))
      exact ((results_sublist _).map _).append (List.Sublist.refl _)
  have hsize : SameSize rows (told ++ extra) := by
    intro r hr
    rcases List.mem_append.1 hr with hr | hr
    · have : ∀ {h : List (J × Completion)} {told : List (EvalRec E P (List Score))},
          List.Forall₂ (ToldAs U D) h told → ∀ r ∈ told, ∃ j, Returned U D j r := by
        intro h told hf
        induction hf with
        | nil => intro r hr; cases hr
        | cons a _ ih =>
          intro r hr
          rcases List.mem_cons.1 hr with rfl | hr
          · exact ⟨_, a.1⟩
          · exact ih r hr
      obtain ⟨j, hj⟩ := this h2 r hr
      exact rows_of_returned hrows hj
    · rcases h3 with rfl | ⟨r', j, rfl, hr', -⟩
      · cases hr
      · rw [List.mem_singleton.1 hr]
        exact rows_of_returned hrows hr'
  obtain ⟨l1, l2, -⟩ := startLibrary_spec hstrat hlib
  obtain ⟨g1, g2, -⟩ := Cached.saveAll (told ++ extra) [] lib₀ l1 l2 hsize hdistinct
  rw [List.nil_append, ← h1] at g1 g2
  refine ⟨told, extra, h2, ?_, h1, hsize, hdistinct, libraryOf g1 g2, h4⟩
  rcases h3 with h3 | ⟨r, j, e1, e2, -, e4, e5⟩
  · exact Or.inl h3
  · refine Or.inr ⟨r, j, e1, e2, ?_, ?_, e5⟩
    · exact e4.subset (by simp)
    · have := hnd e4
      rw [List.nodup_append] at this
      intro hin
      exact this.2.2 j hin j (by simp) rfl

/-- What was told was submitted. -/
theorem history_subperm {U : Setup S I A B J Fn V X Ω E P} (hC : U.client.Lawful) {D : List (Str × V)}
    {start : S} {lib₀ : Lib E P (List Score)} (hh : U.client.history start = [])
    {x : S × Lib E P (List Score)} (h : Moves U D (start, lib₀) x) :
    ((U.client.history x.1).map Prod.fst).Subperm (U.client.submitted x.1) := by
  refine h.induct (Q := fun x => ((U.client.history x.1).map Prod.fst).Subperm (U.client.submitted x.1)) ?_ ?_
  · show ((U.client.history start).map _).Subperm _
    rw [hh]; exact List.nil_subperm
  · intro x y hm ih
    cases hm with
    | still => exact ih
    | go b q hw =>
      rename_i s l
      obtain ⟨new, n1, n2, -⟩ := hC.go (U.look (inLibrary l) b) q s [] hw
      dsimp only at ih ⊢
      rw [n1, n2]
      exact ih.trans (List.sublist_append_left _ _).subperm
    | raised e hw =>
      rename_i s l
      obtain ⟨-, r2, r3, -⟩ := hC.raises e s [] hw
      dsimp only at ih ⊢
      rw [r2, r3]; exact ih
    | failed j hw haw =>
      rename_i s l
      obtain ⟨-, c2, c3⟩ := hC.completes .failed (U.world s) s [] j [] hw
      dsimp only at ih ⊢
      rw [c2, c3, List.map_append]
      exact haw
    | saved j r sc hw haw hr hp hsc =>
      rename_i s l
      obtain ⟨-, c2, c3⟩ := hC.completes (.result r.error.isNone sc)
        (recordFitness r.ident r.score (U.world s)) s [] j [] hw
      dsimp only at ih ⊢
      rw [c2, c3, List.map_append]
      exact haw
    | interrupted j r e hw haw hr hp =>
      rename_i s l
      obtain ⟨-, r2, r3, -⟩ := hC.raises e s [] hw
      dsimp only at ih ⊢
      rw [r2, r3]; exact ih

end

section
variable {Fn V X Ω E P : Type}

/-! ### Evolution -/

/-- A move is a step of `async_ea`. -/
theorem evolution_move {c : OpConfig} {cxpb : ℚ} {maxN : Option Int} {size : Nat} {K : Coding Fn V Nat}
    {Jb : Jobs Fn V X Ω} {report : V → Findings E P} {lib : LibConfig} {D : List (Str × V)}
    {x y : Ea World Nat × Lib E P (List Score)}
    (h : Move (evolution c cxpb maxN size K Jb report lib) D x y) :
    y.1 = x.1 ∨ ∃ d i p,
      y.1 = eaStep (gamaOps { c with completed := d } cxpb) maxN size i { x.1 with pending := p } ∧
      (p = x.1.pending ∨ ∃ j, p = [j] ∧ Expected (evolution c cxpb maxN size K Jb report lib) x.1 j) ∧
      ∀ k r w, i.wait = .completes k r w → ∃ j, p = [j] ∧ ((r = .failed ∧ w = x.1.world) ∨
        ∃ rec, Returned (evolution c cxpb maxN size K Jb report lib) D j rec ∧
          w = recordFitness j rec.score x.1.world) := by
  cases h with
  | still => exact Or.inl rfl
  | go b q hw =>
    rename_i s l
    exact Or.inr ⟨inLibrary l, ⟨.raises .runtimeError, q, b⟩, s.pending, rfl, Or.inl rfl, fun _ _ _ h => by cases h⟩
  | raised e hw =>
    rename_i s l
    exact Or.inr ⟨fun _ => false, ⟨.raises e, 0, false⟩, s.pending, rfl, Or.inl rfl, fun _ _ _ h => by cases h⟩
  | failed j hw haw =>
    rename_i s l
    refine Or.inr ⟨fun _ => false, ⟨.completes 0 .failed s.world, 0, false⟩, [j], rfl, Or.inr ⟨j, rfl, haw⟩, ?_⟩
    intro _ _ _ h
    cases h
    exact ⟨j, rfl, Or.inl ⟨rfl, rfl⟩⟩
  | saved j r sc hw haw hr hp hsc =>
    rename_i s l
    refine Or.inr ⟨fun _ => false, ⟨.completes 0 (.result r.error.isNone sc)
      (recordFitness r.ident r.score s.world), 0, false⟩, [j], rfl, Or.inr ⟨j, rfl, haw⟩, ?_⟩
    intro _ _ _ h
    cases h
    refine ⟨j, rfl, Or.inr ⟨r, hr, ?_⟩⟩
    obtain ⟨_, _, _, _, -, -, -, h, -⟩ := hr
    rw [h]; rfl
  | interrupted j r e hw haw hr hp =>
    rename_i s l
    exact Or.inr ⟨fun _ => false, ⟨.raises e, 0, false⟩, s.pending, rfl, Or.inl rfl, fun _ _ _ h => by cases h⟩

theorem evolution_apart {c : OpConfig} {cxpb : ℚ} {maxN : Option Int} {size : Nat} {K : Coding Fn V Nat}
    {Jb : Jobs Fn V X Ω} {report : V → Findings E P} {lib : LibConfig} {D : List (Str × V)} {l out : List Nat}
    {w : World} (hl : l.Nodup) (hw : ∀ x ∈ l, x < w.inds.length) {lib₀ : Lib E P (List Score)}
    {x : Ea World Nat × Lib E P (List Score)}
    (h : Moves (evolution c cxpb maxN size K Jb report lib) D (eaStart (.list l) out w, lib₀) x) :
    EaApart x.1 := by
  refine h.induct (Q := fun x => EaApart x.1) ⟨hl, hw⟩ ?_
  intro x y hm ih
  rcases evolution_move hm with he | ⟨d, i, p, he, -, hi⟩
  · rw [he]; exact ih
  · rw [he]
    refine eaApart_step _ _ _ _ _ _ ⟨ih.1, ih.2⟩ ?_
    intro k r w hwait
    obtain ⟨j, -, h | ⟨rec, -, h⟩⟩ := hi k r w hwait
    · rw [h.2]
    · rw [h, recordFitness_length]

theorem evolution_moves (c : OpConfig) (cxpb : ℚ) (maxN : Option Int) (size : Nat) {K : Coding Fn V Nat}
    {Jb : Jobs Fn V X Ω} {report : V → Findings E P} {lib : LibConfig} (hK : Faithful K Jb)
    (ha : Agrees (evolution c cxpb maxN size K Jb report lib)) (l out : List Nat) (w : World)
    (lib₀ : Lib E P (List Score)) (n : Nat) (limit : Option ℚ) (logfile : Bool) (D : List (Str × V))
    (es : List (WholeEvent Bool Ω)) :
    Moves (evolution c cxpb maxN size K Jb report lib) D (eaStart (.list l) out w, lib₀)
      (wholeRun (evolution c cxpb maxN size K Jb report lib) es
        (wholeStart (eaStart (.list l) out w) lib₀ n limit logfile D)).core :=
  whole_moves (U := evolution c cxpb maxN size K Jb report lib) (evolveClient_lawful c cxpb maxN size)
    (fun _ _ _ _ h => congrArg Ea.pending h) hK ha rfl rfl rfl lib₀ n limit logfile D es

/-- What `wait_next` raising does to evolution. -/
theorem ea_raised {maxN : Option Int} {size : Nat} {o : SearchOps World Nat} {t : Ea World Nat} {e : Exn}
    (hw : eaWaits maxN t = true) : (eaStep o maxN size ⟨.raises e, 0, false⟩ t).pc = .raised e := by
  have hpc : t.pc = .loop := by
    unfold eaWaits at hw
    cases h : t.pc <;> rw [h] at hw <;> first | rfl | cases hw
  have hm : eaMore maxN t.evaluated = true := by unfold eaWaits at hw; rw [hpc] at hw; exact hw
  unfold eaStep
  dsimp only
  rw [hpc]
  dsimp only
  rw [if_pos hm]

/-- What the library holds after any run of evolution, with what is known of each record. -/
theorem evolution_library {c : OpConfig} {cxpb : ℚ} {maxN : Option Int} {size : Nat} {K : Coding Fn V Nat}
    {Jb : Jobs Fn V X Ω} {report : V → Findings E P} {lib : LibConfig} {l : List Nat} (hl : l.Nodup)
    {out : List Nat} {w : World} (hw : ∀ x ∈ l, x < w.inds.length) {rows : Nat}
    (hrows : RowsAre (evolution c cxpb maxN size K Jb report lib) rows) {stratify : Option Nat}
    (hstrat : ∀ k, stratify = some k → k = rows) {rnd : Stream} {lib₀ : Lib E P (List Score)}
    (hlib : startLibrary lib stratify rnd = .ok lib₀) {D : List (Str × V)}
    {x : Ea World Nat × Lib E P (List Score)}
    (hmoves : Moves (evolution c cxpb maxN size K Jb report lib) D (eaStart (.list l) out w, lib₀) x)
    {T : Ea World Nat → EvalRec E P (List Score) → Prop}
    (hrec : Records (evolution c cxpb maxN size K Jb report lib) D lib₀ T x) :
    ∃ told extra, List.Forall₂ (ToldAs (evolution c cxpb maxN size K Jb report lib) D)
        (results x.1.history) told ∧
      (extra = [] ∨ ∃ r y e, extra = [r] ∧ Returned (evolution c cxpb maxN size K Jb report lib) D y r ∧
        y ∈ x.1.submitted ∧ y ∉ x.1.history.map Prod.fst ∧ x.1.pc = .raised e) ∧
      x.2 = saveAll lib (told ++ extra) lib₀ ∧ SameSize rows (told ++ extra) ∧
      DistinctIds (told ++ extra) ∧ LibraryOf lib (told ++ extra) x.2 ∧ ∀ r ∈ told ++ extra, T x.1 r := by
  have hap := evolution_apart hl hw hmoves
  have hsp := history_subperm (evolveClient_lawful c cxpb maxN size) rfl hmoves
  obtain ⟨told, extra, h1, h2, h3⟩ := library_of_records (fun _ _ _ _ _ _ _ _ _ h => h) hrows hstrat hlib
    (List.nodup_append.1 hap.once).1 hsp hrec
  refine ⟨told, extra, h1, ?_, h3⟩
  rcases h2 with h2 | ⟨r, j, e1, e2, e3, e4, t, e, e5, e6⟩
  · exact Or.inl h2
  · refine Or.inr ⟨r, j, e, e1, e2, e3, e4, ?_⟩
    rw [e6]
    exact ea_raised e5

/-- **C134** for evolution.  Whatever the schedule of the workers, whatever happens to them and wherever
the search is interrupted: the library holds the evaluations whose results the search was told, in that
order, each of them what evaluating that individual returned; and, if the search was interrupted just
after an evaluation was saved, that evaluation.  None is lost, the best are kept with models and
predictions, and pipelines are found by their text. -/
theorem C134_evolution (c : OpConfig) (cxpb : ℚ) (maxN : Option Int) (size : Nat) {K : Coding Fn V Nat}
    {Jb : Jobs Fn V X Ω} {report : V → Findings E P} {lib : LibConfig} (hK : Faithful K Jb)
    (ha : Agrees (evolution c cxpb maxN size K Jb report lib)) {l : List Nat} (hl : l.Nodup) (out : List Nat)
    {w : World} (hw : ∀ x ∈ l, x < w.inds.length) {rows : Nat}
    (hrows : RowsAre (evolution c cxpb maxN size K Jb report lib) rows) {stratify : Option Nat}
    (hstrat : ∀ k, stratify = some k → k = rows) {rnd : Stream} {lib₀ : Lib E P (List Score)}
    (hlib : startLibrary lib stratify rnd = .ok lib₀) (n : Nat) (limit : Option ℚ) (logfile : Bool)
    (D : List (Str × V)) (es : List (WholeEvent Bool Ω)) :
    let U := evolution c cxpb maxN size K Jb report lib
    let s := wholeRun U es (wholeStart (eaStart (.list l) out w) lib₀ n limit logfile D)
    ∃ told extra, List.Forall₂ (ToldAs U D) (results s.joint.search.history) told ∧
      (extra = [] ∨ ∃ r x e, extra = [r] ∧ Returned U D x r ∧ x ∈ s.joint.search.submitted ∧
        x ∉ s.joint.search.history.map Prod.fst ∧ s.joint.search.pc = .raised e) ∧
      LibraryOf lib (told ++ extra) s.lib := by
  intro U s
  have hmoves := evolution_moves c cxpb maxN size hK ha l out w lib₀ n limit logfile D es
  have hrec : Records U D lib₀ (fun _ _ => True) s.core :=
    hmoves.induct ⟨[], [], rfl, .nil, Or.inl rfl, fun _ h => nomatch h⟩ fun x y hm ih =>
      records_move (evolveClient_lawful c cxpb maxN size) hm (fun _ _ => trivial) (fun _ _ _ _ _ => trivial) ih
  obtain ⟨told, extra, h1, h2, -, -, -, h3, -⟩ := evolution_library hl hw hrows hstrat hlib hmoves hrec
  exact ⟨told, extra, h1, h2, h3⟩

theorem is_recordFitness {w : World} {x : Nat} {v : List Score} {y : Nat} {ss : List Step}
    (h : Is w y ss) : Is (recordFitness x v w) y ss := by
  obtain ⟨as, hl, ind, h1, h2⟩ := h
  unfold recordFitness
  refine ⟨as, hl, if x = y then { ind with fitness := some v } else ind, ?_, ?_⟩
  · dsimp only
    rw [List.getElem?_modify, h1]
    split <;> rfl
  · split <;> exact h2

theorem evaluated_recordFitness {k : Nat} {w : World} {x : Nat} {v : List Score} (hv : v.length = k)
    {y : Nat} (h : (∃ ind, w.inds[y]? = some ind) ∧ (x = y ∨ Evaluated k w y)) :
    Evaluated k (recordFitness x v w) y := by
  obtain ⟨⟨ind, hi⟩, h⟩ := h
  unfold recordFitness
  by_cases hxy : x = y
  · refine ⟨v, ⟨{ ind with fitness := some v }, ?_, rfl⟩, hv⟩
    dsimp only
    rw [List.getElem?_modify, hi]
    simp only [if_pos hxy]
    rfl
  · rcases h with h | ⟨u, ⟨ind', h1, h2⟩, h3⟩
    · exact absurd h hxy
    · refine ⟨u, ⟨ind', ?_, h2⟩, h3⟩
      dsimp only
      rw [List.getElem?_modify, h1]
      simp only [if_neg hxy]
      rfl

/-- Evaluations give `k` scores. -/
def Spec.ScoresAre {S I A B J : Type} (U : Setup S I A B J Fn V X Ω E P) (k : Nat) : Prop :=
  ∀ j kw ω v, U.jobs.call (U.coding.fn j) (U.coding.args j) kw ω = .returns v →
    (U.report v).score.length = k ∧ (U.report (U.jobs.withoutMemoryError v)).score.length = k

theorem scores_of_returned {S I A B J : Type} {U : Setup S I A B J Fn V X Ω E P} {k : Nat}
    (h : ScoresAre U k) {D : List (Str × V)} {j : J} {r : EvalRec E P (List Score)} (hr : Returned U D j r) :
    r.score.length = k := by
  obtain ⟨kw, ω, v, v', -, hc, hv, -, hs, -⟩ := hr
  rw [hs]
  rcases hv with rfl | ⟨-, rfl⟩
  · exact (h j kw ω _ hc).1
  · exact (h j kw ω _ hc).2

/-- The text of the pipeline that the individual is. -/
def Spec.TextOf (ps : PSet) (w : World) (r : EvalRec E P (List Score)) : Prop :=
  ∃ ss, PipelineOk ps ss ∧ Is w r.ident ss ∧ r.pipeline = printed ss

theorem textOf_new {ps : PSet} {w : World} {r : EvalRec E P (List Score)} (h : OfSpace ps w r.ident)
    (hp : r.pipeline = pipelineOf r.ident w) : TextOf ps w r := by
  obtain ⟨ss, h1, h2⟩ := h
  refine ⟨ss, h2, h1, ?_⟩
  rw [hp]
  unfold pipelineOf
  rw [pipelineStr_is h1]

/-- One move keeps evolution sound. -/
theorem evolution_sound {c : OpConfig} (hu : Workable c) {cxpb : ℚ} {maxN : Option Int}
    (hm : eaRefused maxN = false) {size k : Nat} (hk : 2 ≤ k) {K : Coding Fn V Nat}
    {Jb : Jobs Fn V X Ω} {report : V → Findings E P} {lib : LibConfig}
    (hs : ScoresAre (evolution c cxpb maxN size K Jb report lib) k) {D : List (Str × V)}
    {x y : Ea World Nat × Lib E P (List Score)}
    (h : Move (evolution c cxpb maxN size K Jb report lib) D x y) (ih : EaSound c.ps k x.1) :
    EaSound c.ps k y.1 ∧ Keeps k x.1.world y.1.world := by
  rcases evolution_move h with he | ⟨d, i, p, he, hp, hi⟩
  · rw [he]; exact ⟨ih, Keeps.refl _ _⟩
  · have hu' : Workable { c with completed := d } :=
      ⟨hu.ok, hu.distinct, hu.estimators, hu.preprocessors, hu.retry, hu.length⟩
    have hsound : EaSound c.ps k { x.1 with pending := p } := by
      refine ⟨ih.submitted, ?_, ih.population, ih.pc⟩
      rcases hp with rfl | ⟨j, rfl, haw⟩
      · exact ih.pending
      · intro z hz
        rw [List.mem_singleton.1 hz]
        exact haw.subset (by simp)
    have hhonest : Honest k { x.1 with pending := p } i := by
      intro hpc kk r w hw
      obtain ⟨j, hj, ⟨hr, hw'⟩ | ⟨rec, hrec, hw'⟩⟩ := hi kk r w hw
      · subst hr
        rw [hw']
        exact ⟨fun _ _ h => h, fun _ h => h, fun _ _ _ h => by cases h⟩
      · rw [hw']
        have hlen := scores_of_returned hs hrec
        refine ⟨fun _ _ h => is_recordFitness h, fun z hz => ?_, fun z sc hz _ => ?_⟩
        · obtain ⟨v, ⟨ind, h1, h2⟩, h3⟩ := id hz
          exact evaluated_recordFitness hlen ⟨⟨ind, h1⟩, Or.inr hz⟩
        · dsimp only at hz
          rw [hj] at hz
          have hz : z = j := by
            rw [List.length_singleton, Nat.mod_one] at hz
            cases hz; rfl
          subst hz
          obtain ⟨ss, ⟨as, -, ind, h1, -⟩, -⟩ := hsound.submitted z (hsound.pending z (by rw [hj]; simp))
          exact evaluated_recordFitness hlen ⟨⟨ind, h1⟩, Or.inl rfl⟩
    obtain ⟨g1, g2, -⟩ := sound_step hu' (cxpb := cxpb) hm (size := size) hk _ i hsound hhonest
    rw [he]
    exact ⟨g1, g2⟩

/-- **C134** for evolution in a search space that can be worked with: what is more, each evaluation in the
library is of a pipeline from the search space and stored under its text; the individual still is that
pipeline at the end. -/
theorem C134_pipelines {c : OpConfig} (hu : Workable c) (cxpb : ℚ) {maxN : Option Int}
    (hm : eaRefused maxN = false) (size : Nat) {K : Coding Fn V Nat}
    {Jb : Jobs Fn V X Ω} {report : V → Findings E P} {lib : LibConfig} (hK : Faithful K Jb)
    (ha : Agrees (evolution c cxpb maxN size K Jb report lib)) {k : Nat} (hk : 2 ≤ k)
    (hs : ScoresAre (evolution c cxpb maxN size K Jb report lib) k) {l : List Nat} (hl : l.Nodup) (out : List Nat)
    {w : World} (hw : ∀ x ∈ l, OfSpace c.ps w x) {rows : Nat}
    (hrows : RowsAre (evolution c cxpb maxN size K Jb report lib) rows) {stratify : Option Nat}
    (hstrat : ∀ k, stratify = some k → k = rows) {rnd : Stream} {lib₀ : Lib E P (List Score)}
    (hlib : startLibrary lib stratify rnd = .ok lib₀) (n : Nat) (limit : Option ℚ) (logfile : Bool)
    (D : List (Str × V)) (es : List (WholeEvent Bool Ω)) :
    let U := evolution c cxpb maxN size K Jb report lib
    let s := wholeRun U es (wholeStart (eaStart (.list l) out w) lib₀ n limit logfile D)
    ∃ told extra, List.Forall₂ (ToldAs U D) (results s.joint.search.history) told ∧
      (extra = [] ∨ ∃ r x e, extra = [r] ∧ Returned U D x r ∧ x ∈ s.joint.search.submitted ∧
        x ∉ s.joint.search.history.map Prod.fst ∧ s.joint.search.pc = .raised e) ∧
      LibraryOf lib (told ++ extra) s.lib ∧
      ∀ r ∈ told ++ extra, TextOf c.ps s.joint.search.world r := by
  intro U s
  have hmoves := evolution_moves c cxpb maxN size hK ha l out w lib₀ n limit logfile D es
  have hw' : ∀ x ∈ l, x < w.inds.length := by
    intro x hx
    obtain ⟨ss, ⟨as, -, ind, h1, -⟩, -⟩ := hw x hx
    exact (List.getElem?_eq_some_iff.1 h1).1
  have hrec : EaSound c.ps k s.core.1 ∧
      Records U D lib₀ (fun s r => TextOf c.ps s.world r) s.core := by
    refine hmoves.induct (Q := fun x => EaSound c.ps k x.1 ∧ Records U D lib₀ (fun s r => TextOf c.ps s.world r) x)
      ⟨sound_start hw, [], [], rfl, .nil, Or.inl rfl, fun _ h => nomatch h⟩ ?_
    rintro x y hmv ⟨i1, i2⟩
    obtain ⟨g1, g2⟩ := evolution_sound hu hm hk hs hmv i1
    refine ⟨g1, records_move (evolveClient_lawful c cxpb maxN size) hmv ?_ ?_ i2⟩
    · rintro r ⟨ss, a1, a2, a3⟩
      exact ⟨ss, a1, g2.1 _ _ a2, a3⟩
    · intro j r haw hr hp
      have hj : r.ident = j := by
        obtain ⟨_, _, _, _, -, -, -, h, -⟩ := hr
        exact h
      have hin : j ∈ x.1.submitted := haw.subset (by simp)
      have : TextOf c.ps x.1.world r := textOf_new (by rw [hj]; exact i1.submitted j hin) (by rw [hj]; exact hp)
      obtain ⟨ss, a1, a2, a3⟩ := this
      exact ⟨ss, a1, g2.1 _ _ a2, a3⟩
  obtain ⟨told, extra, h1, h2, -, -, -, h3, h4⟩ := evolution_library hl hw' hrows hstrat hlib hmoves hrec.2
  exact ⟨told, extra, h1, h2, h3, h4⟩

/-! ### Random search -/

/-- A move is a step of `random_search`. -/
theorem random_move {c : OpConfig} {cxpb : ℚ} {maxN : Option Int} {K : Coding Fn V Nat}
    {Jb : Jobs Fn V X Ω} {report : V → Findings E P} {lib : LibConfig} {D : List (Str × V)}
    {x y : Rs World Nat × Lib E P (List Score)}
    (h : Move (randomSearching c cxpb maxN K Jb report lib) D x y) :
    y.1 = x.1 ∨ ∃ i p,
      y.1 = rsStep (gamaOps c cxpb) maxN i { x.1 with pending := p } ∧
      ∀ k r w, i = .completes k r w → w = x.1.world ∨ ∃ j v, w = recordFitness j v x.1.world := by
  cases h with
  | still => exact Or.inl rfl
  | go b q hw =>
    rename_i s l
    exact Or.inr ⟨.raises .runtimeError, s.pending, rfl, fun _ _ _ h => by cases h⟩
  | raised e hw =>
    rename_i s l
    exact Or.inr ⟨.raises e, s.pending, rfl, fun _ _ _ h => by cases h⟩
  | failed j hw haw =>
    rename_i s l
    refine Or.inr ⟨.completes 0 .failed s.world, [j], rfl, ?_⟩
    intro _ _ _ h
    cases h
    exact Or.inl rfl
  | saved j r sc hw haw hr hp hsc =>
    rename_i s l
    refine Or.inr ⟨.completes 0 (.result r.error.isNone sc) (recordFitness r.ident r.score s.world), [j], rfl, ?_⟩
    intro _ _ _ h
    cases h
    exact Or.inr ⟨_, _, rfl⟩
  | interrupted j r e hw haw hr hp =>
    rename_i s l
    exact Or.inr ⟨.raises e, s.pending, rfl, fun _ _ _ h => by cases h⟩

theorem random_apart {c : OpConfig} {cxpb : ℚ} {maxN : Option Int} {K : Coding Fn V Nat}
    {Jb : Jobs Fn V X Ω} {report : V → Findings E P} {lib : LibConfig} {D : List (Str × V)} {l out : List Nat}
    {w : World} (hl : l.Nodup) (hw : ∀ x ∈ l, x < w.inds.length) {lib₀ : Lib E P (List Score)}
    {x : Rs World Nat × Lib E P (List Score)}
    (h : Moves (randomSearching c cxpb maxN K Jb report lib) D (rsStart (.list l) out w, lib₀) x) :
    RsApart x.1 := by
  refine h.induct (Q := fun x => RsApart x.1) ⟨hl, hw⟩ ?_
  intro x y hm ih
  rcases random_move hm with he | ⟨i, p, he, hi⟩
  · rw [he]; exact ih
  · rw [he]
    refine rsApart_step _ _ _ _ _ ⟨ih.1, ih.2⟩ ?_
    intro k r w hwait
    rcases hi k r w hwait with h | ⟨j, v, h⟩
    · rw [h]
    · rw [h, recordFitness_length]

theorem random_moves (c : OpConfig) (cxpb : ℚ) (maxN : Option Int) {K : Coding Fn V Nat}
    {Jb : Jobs Fn V X Ω} {report : V → Findings E P} {lib : LibConfig} (hK : Faithful K Jb)
    (ha : Agrees (randomSearching c cxpb maxN K Jb report lib)) (l out : List Nat) (w : World)
    (lib₀ : Lib E P (List Score)) (n : Nat) (limit : Option ℚ) (logfile : Bool) (D : List (Str × V))
    (es : List (WholeEvent Unit Ω)) :
    Moves (randomSearching c cxpb maxN K Jb report lib) D (rsStart (.list l) out w, lib₀)
      (wholeRun (randomSearching c cxpb maxN K Jb report lib) es
        (wholeStart (rsStart (.list l) out w) lib₀ n limit logfile D)).core :=
  whole_moves (U := randomSearching c cxpb maxN K Jb report lib) (rsClient_lawful (gamaOps c cxpb) maxN)
    (fun _ _ _ _ h => congrArg Rs.pending h) hK ha rfl rfl rfl lib₀ n limit logfile D es

theorem rs_raised {maxN : Option Int} {o : SearchOps World Nat} {t : Rs World Nat} {e : Exn}
    (hw : rsWaits maxN t = true) : (rsStep o maxN (.raises e) t).pc = .raised e := by
  have hpc : t.pc = .loop := by
    unfold rsWaits at hw
    cases h : t.pc <;> rw [h] at hw <;> first | rfl | cases hw
  have hm : rsMore maxN t.output.length = true := by unfold rsWaits at hw; rw [hpc] at hw; exact hw
  unfold rsStep
  dsimp only
  rw [hpc]
  dsimp only
  rw [if_pos hm]

theorem random_library {c : OpConfig} {cxpb : ℚ} {maxN : Option Int} {K : Coding Fn V Nat}
    {Jb : Jobs Fn V X Ω} {report : V → Findings E P} {lib : LibConfig} {l : List Nat} (hl : l.Nodup)
    {out : List Nat} {w : World} (hw : ∀ x ∈ l, x < w.inds.length) {rows : Nat}
    (hrows : RowsAre (randomSearching c cxpb maxN K Jb report lib) rows) {stratify : Option Nat}
    (hstrat : ∀ k, stratify = some k → k = rows) {rnd : Stream} {lib₀ : Lib E P (List Score)}
    (hlib : startLibrary lib stratify rnd = .ok lib₀) {D : List (Str × V)}
    {x : Rs World Nat × Lib E P (List Score)}
    (hmoves : Moves (randomSearching c cxpb maxN K Jb report lib) D (rsStart (.list l) out w, lib₀) x)
    {T : Rs World Nat → EvalRec E P (List Score) → Prop}
    (hrec : Records (randomSearching c cxpb maxN K Jb report lib) D lib₀ T x) :
    ∃ told extra, List.Forall₂ (ToldAs (randomSearching c cxpb maxN K Jb report lib) D)
        (results x.1.history) told ∧
      (extra = [] ∨ ∃ r y e, extra = [r] ∧ Returned (randomSearching c cxpb maxN K Jb report lib) D y r ∧
        y ∈ x.1.submitted ∧ y ∉ x.1.history.map Prod.fst ∧ x.1.pc = .raised e) ∧
      x.2 = saveAll lib (told ++ extra) lib₀ ∧ SameSize rows (told ++ extra) ∧
      DistinctIds (told ++ extra) ∧ LibraryOf lib (told ++ extra) x.2 ∧ ∀ r ∈ told ++ extra, T x.1 r := by
  have hap := random_apart hl hw hmoves
  have hsp := history_subperm (rsClient_lawful (gamaOps c cxpb) maxN) rfl hmoves
  obtain ⟨told, extra, h1, h2, h3⟩ := library_of_records (fun _ _ _ _ _ _ _ _ _ h => h) hrows hstrat hlib
    (List.nodup_append.1 hap.once).1 hsp hrec
  refine ⟨told, extra, h1, ?_, h3⟩
  rcases h2 with h2 | ⟨r, j, e1, e2, e3, e4, t, e, e5, e6⟩
  · exact Or.inl h2
  · refine Or.inr ⟨r, j, e, e1, e2, e3, e4, ?_⟩
    rw [e6]
    exact rs_raised e5

/-- **C134** for random search. -/
theorem C134_random_search {c : OpConfig} (hu : Workable c) (cxpb : ℚ) (maxN : Option Int)
    {K : Coding Fn V Nat} {Jb : Jobs Fn V X Ω} {report : V → Findings E P} {lib : LibConfig}
    (hK : Faithful K Jb) (ha : Agrees (randomSearching c cxpb maxN K Jb report lib)) {l : List Nat}
    (hl : l.Nodup) (out : List Nat) {w : World} (hw : ∀ x ∈ l, OfSpace c.ps w x) {rows : Nat}
    (hrows : RowsAre (randomSearching c cxpb maxN K Jb report lib) rows) {stratify : Option Nat}
    (hstrat : ∀ k, stratify = some k → k = rows) {rnd : Stream} {lib₀ : Lib E P (List Score)}
    (hlib : startLibrary lib stratify rnd = .ok lib₀) (n : Nat) (limit : Option ℚ) (logfile : Bool)
    (D : List (Str × V)) (es : List (WholeEvent Unit Ω)) :
    let U := randomSearching c cxpb maxN K Jb report lib
    let s := wholeRun U es (wholeStart (rsStart (.list l) out w) lib₀ n limit logfile D)
    ∃ told extra, List.Forall₂ (ToldAs U D) (results s.joint.search.history) told ∧
      (extra = [] ∨ ∃ r x e, extra = [r] ∧ Returned U D x r ∧ x ∈ s.joint.search.submitted ∧
        x ∉ s.joint.search.history.map Prod.fst ∧ s.joint.search.pc = .raised e) ∧
      LibraryOf lib (told ++ extra) s.lib ∧
      ∀ r ∈ told ++ extra, TextOf c.ps s.joint.search.world r := by
  intro U s
  have hmoves := random_moves c cxpb maxN hK ha l out w lib₀ n limit logfile D es
  have hw' : ∀ x ∈ l, x < w.inds.length := by
    intro x hx
    obtain ⟨ss, ⟨as, -, ind, h1, -⟩, -⟩ := hw x hx
    exact (List.getElem?_eq_some_iff.1 h1).1
  have hrec : RsSound c.ps s.core.1 ∧
      Records U D lib₀ (fun s r => TextOf c.ps s.world r) s.core := by
    refine hmoves.induct (Q := fun x => RsSound c.ps x.1 ∧ Records U D lib₀ (fun s r => TextOf c.ps s.world r) x)
      ⟨⟨fun x hx => (by cases hx), hw⟩, [], [], rfl, .nil, Or.inl rfl, fun _ h => nomatch h⟩ ?_
    rintro x y hmv ⟨i1, i2⟩
    have hstep : RsSound c.ps y.1 ∧ ∀ z ss, Is x.1.world z ss → Is y.1.world z ss := by
      rcases random_move hmv with he | ⟨i, p, he, hi⟩
      · rw [he]; exact ⟨i1, fun _ _ h => h⟩
      · rw [he]
        refine rsSound_step hu (s := { x.1 with pending := p }) i ⟨i1.1, i1.2⟩ ?_
        cases i with
        | raises e => trivial
        | completes k r w =>
          intro z ss hz
          rcases hi k r w rfl with h | ⟨j, v, h⟩
          · rw [h]; exact hz
          · rw [h]; exact is_recordFitness hz
    obtain ⟨g1, g2⟩ := hstep
    refine ⟨g1, records_move (rsClient_lawful (gamaOps c cxpb) maxN) hmv ?_ ?_ i2⟩
    · rintro r ⟨ss, a1, a2, a3⟩
      exact ⟨ss, a1, g2 _ _ a2, a3⟩
    · intro j r haw hr hp
      have hj : r.ident = j := by
        obtain ⟨_, _, _, _, -, -, -, h, -⟩ := hr
        exact h
      have hin : j ∈ x.1.submitted := haw.subset (by simp)
      have : TextOf c.ps x.1.world r := textOf_new (by rw [hj]; exact i1.submitted j hin) (by rw [hj]; exact hp)
      obtain ⟨ss, a1, a2, a3⟩ := this
      exact ⟨ss, a1, g2 _ _ a2, a3⟩
  obtain ⟨told, extra, h1, h2, -, -, -, h3, h4⟩ := random_library hl hw' hrows hstrat hlib hmoves hrec.2
  exact ⟨told, extra, h1, h2, h3, h4⟩

end
end Gama
