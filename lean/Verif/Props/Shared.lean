import Verif.Props.EndToEnd

/-! # Individuals that are evaluated more than once, because a warm start lists them twice: C161 -/

namespace Gama
open PyM Spec

section
variable {E P K : Type} [LinearOrder K]

/-- `g` is the last evaluation without an error of individual `x`. -/
def Spec.LastOf (hist : List (EvalRec E P K)) (x : Nat) (g : EvalRec E P K) : Prop :=
  ∃ pre post, hist = pre ++ g :: post ∧ g.ident = x ∧ g.error = none ∧ ∀ h ∈ post, h.error = none → h.ident ≠ x

omit [LinearOrder K] in
theorem Spec.LastOf.mem {hist : List (EvalRec E P K)} {x : Nat} {g : EvalRec E P K} (h : LastOf hist x g) : g ∈ hist := by
  obtain ⟨pre, post, rfl, -⟩ := h
  simp

omit [LinearOrder K] in
theorem Spec.LastOf.keep {hist : List (EvalRec E P K)} {x : Nat} {g h : EvalRec E P K} (hl : LastOf hist x g)
    (hn : h.error = none → h.ident ≠ x) : LastOf (hist ++ [h]) x g := by
  obtain ⟨pre, post, rfl, h1, h2, h3⟩ := hl
  refine ⟨pre, post ++ [h], by simp, h1, h2, ?_⟩
  intro y hy
  rcases List.mem_append.1 hy with hy | hy
  · exact h3 y hy
  · rw [List.mem_singleton.1 hy]; exact hn

omit [LinearOrder K] in
theorem Spec.LastOf.new {hist : List (EvalRec E P K)} {g : EvalRec E P K} (he : g.error = none) :
    LastOf (hist ++ [g]) g.ident g :=
  ⟨hist, [], rfl, rfl, he, fun _ h => nomatch h⟩

/-- The files of the library as long as nothing was removed: that of an individual is the one of its last
evaluation. -/
structure FilesLast (c : LibConfig) (size : Nat) (hist : List (EvalRec E P K)) (s : Lib E P K) : Prop where
  kept : ∀ t ∈ s.top, s.cells t.idx = ⟨[], none, some t.given.ident⟩ ∧
    ∃ g, LastOf hist t.given.ident g ∧ ∃ v, s.disk t.given.ident = some (g.estimators, v) ∧ StoredAs c s.sample g v
  unset : s.sample = .notSet → c.n ≠ some 0 → ∀ g ∈ hist, g.predictions = none
  range : InRange size s.sample

theorem FilesLast.save {c : LibConfig} {size : Nat} {hist : List (EvalRec E P K)} {lost : List (Ref E P K)}
    {s : Lib E P K} {g : EvalRec E P K} (hh : Holds c hist lost s) (h : FilesLast c size hist s)
    (hps : ∀ l, g.predictions = some l → l.length = size)
    (hroom : g.error = none → hasRoom c.m s.top.length = true) :
    ∃ lost', Holds c (hist ++ [g]) lost' (saveEvaluation c g s).2 ∧
      FilesLast c size (hist ++ [g]) (saveEvaluation c g s).2 ∧
      ((saveEvaluation c g s).2.sample = s.sample ∨
        s.sample = .notSet ∧ ChosenRows c.n size (saveEvaluation c g s).2.sample) := by
  obtain ⟨lost', g1, -, -⟩ := hh.save (g := g) h.range hps
  obtain ⟨s2, hb, hrun⟩ := save_run (c := c) g s h.range hps
  obtain ⟨v, hcells, hv0, hv1⟩ := hb.cells
  refine ⟨lost', g1, ?_⟩
  have hidx : ∀ r ∈ s.top, r.idx ≠ s.next := by
    intro r hr
    have := numbered_lt (hh.perm.mem_iff.1 (List.mem_append_left _ hr))
    rw [hh.next]
    omega
  have hstold : ∀ x ∈ hist, ∀ v, StoredAs c s.sample x v → StoredAs c s2.sample x v := by
    intro x hx v hst
    rcases hb.sample with e | ⟨e, _⟩
    · rw [e]; exact hst
    · exact hst.resample fun hc => h.unset e hc _ hx
  have hunset : s2.sample = .notSet → c.n ≠ some 0 → ∀ x ∈ hist ++ [g], x.predictions = none := by
    intro e hc x hx
    rcases List.mem_append.1 hx with hx | hx
    · rcases hb.sample with e' | ⟨e', _⟩
      · exact h.unset (e' ▸ e) hc x hx
      · exact h.unset e' hc x hx
    · simp only [List.mem_singleton] at hx
      subst hx
      by_contra hne
      exact (hv1 hc).2 hne e
  have hcold : ∀ r ∈ s.top, s2.cells r.idx = s.cells r.idx := by
    intro r hr
    rw [hcells, upd_ne _ _ (hidx r hr)]
  have hcnew : s2.cells s.next = ⟨g.estimators, v, none⟩ := by rw [hcells, upd_same]
  by_cases he : g.error.isSome
  · rw [hrun, store_error c ⟨s.next, g⟩ s2 he]
    refine ⟨⟨?_, hunset, hb.range⟩, hb.sample⟩
    intro t ht
    dsimp only at ht ⊢
    rw [hb.top] at ht
    obtain ⟨a, x, hx, w, b, d⟩ := h.kept t ht
    refine ⟨?_, x, hx.keep fun h => ?_, w, by rw [hb.disk]; exact b, hstold x hx.mem w d⟩
    · rw [upd_ne _ _ (hidx t ht), hcold t ht]
      exact a
    · rw [h] at he; cases he
  · have he' : g.error = none := by simpa using he
    have hroom := hroom he'
    rw [← hb.top] at hroom
    obtain ⟨_, hp⟩ := heappush_spec hh.heap (⟨s.next, g⟩ : Ref E P K)
    rw [hrun, store_room c ⟨s.next, g⟩ s2 he' hroom]
    refine ⟨⟨?_, hunset, hb.range⟩, hb.sample⟩
    intro t ht
    dsimp only at ht ⊢
    rw [hb.top, hp.mem_iff, List.mem_cons] at ht
    rcases ht with rfl | ht
    · refine ⟨upd_same _ _ _, g, .new he', v, ?_, hv0, fun hc => (hv1 hc).1⟩
      rw [upd_same, hcnew]
    · obtain ⟨a, x, hx, w, b, d⟩ := h.kept t ht
      refine ⟨?_, ?_⟩
      · rw [upd_ne _ _ (hidx t ht), hcold t ht]
        exact a
      · by_cases hi : t.given.ident = g.ident
        · refine ⟨g, hi ▸ .new he', v, ?_, hv0, fun hc => (hv1 hc).1⟩
          rw [hi, upd_same, hcnew]
        · refine ⟨x, hx.keep fun _ e => hi e.symm, w, ?_, hstold x hx.mem w d⟩
          rw [upd_ne _ _ hi, hb.disk]
          exact b

theorem errorFree_append (hist : List (EvalRec E P K)) (g : EvalRec E P K) :
    errorFree (hist ++ [g]) = errorFree hist ++ if g.error.isNone then [⟨hist.length, g⟩] else [] := by
  unfold errorFree
  rw [numbered_append, List.filter_append]
  congr 1
  rw [List.filter_cons, List.filter_nil]

theorem errorFree_le (hist rs : List (EvalRec E P K)) : (errorFree hist).length ≤ (errorFree (hist ++ rs)).length := by
  induction rs generalizing hist with
  | nil => simp
  | cons g rs ih =>
    have e : hist ++ g :: rs = (hist ++ [g]) ++ rs := by simp
    rw [e]
    refine le_trans ?_ (ih _)
    rw [errorFree_append, List.length_append]
    exact Nat.le_add_right _ _

theorem Holds.top_le {c : LibConfig} {hist : List (EvalRec E P K)} {lost : List (Ref E P K)} {s : Lib E P K}
    (h : Holds c hist lost s) : s.top.length ≤ (errorFree hist).length := by
  have := (perm_top_filter h).length_eq
  rw [List.length_append] at this
  omega

theorem FilesLast.saveAll {c : LibConfig} {size : Nat} : ∀ (rs hist : List (EvalRec E P K)) (lost : List (Ref E P K))
    (s : Lib E P K), Holds c hist lost s → FilesLast c size hist s → SameSize size rs →
    (∀ m, c.m = some m → (errorFree (hist ++ rs)).length ≤ m) →
    ∃ lost', Holds c (hist ++ rs) lost' (Gama.saveAll c rs s) ∧ FilesLast c size (hist ++ rs) (Gama.saveAll c rs s) ∧
      ((Gama.saveAll c rs s).sample = s.sample ∨
        s.sample = .notSet ∧ ChosenRows c.n size (Gama.saveAll c rs s).sample)
  | [], hist, lost, s, h, h', _, _ => by
    simp only [List.append_nil, Gama.saveAll]
    exact ⟨lost, h, h', .inl trivial⟩
  | g :: rs, hist, lost, s, h, h', hs, hm => by
    have e : hist ++ g :: rs = (hist ++ [g]) ++ rs := by simp
    rw [e] at hm ⊢
    obtain ⟨lost', h1, h2, h3⟩ := h'.save h (g := g) (hs g (by simp)) (by
      intro he
      cases hc : c.m with
      | none => rfl
      | some m =>
        have h4 := hm m hc
        have h5 := errorFree_le (hist ++ [g]) rs
        rw [errorFree_append, if_pos (by rw [he]; rfl), List.length_append] at h5
        have h6 := h.top_le
        simp only [hasRoom, decide_eq_true_eq]
        simp only [List.length_singleton] at h5
        omega)
    obtain ⟨lost'', h4, h5, h6⟩ := FilesLast.saveAll rs (hist ++ [g]) lost' _ h1 h2
      (fun r hr => hs r (by simp [hr])) hm
    refine ⟨lost'', h4, h5, ?_⟩
    rcases h6 with h6 | ⟨h6, h7⟩
    · rcases h3 with h3 | ⟨h3, h3'⟩
      · exact .inl (h6.trans h3)
      · exact .inr ⟨h3, by simp only [Gama.saveAll]; rw [h6]; exact h3'⟩
    · rcases h3 with h3 | ⟨h3, h3'⟩
      · exact .inr ⟨h3 ▸ h6, h7⟩
      · exact .inr ⟨h3, h7⟩

omit [LinearOrder K] in
theorem filesLast_start {c : LibConfig} {size : Nat} {s : Lib E P K} (h : Cached c size [] s) (ht : s.top = []) :
    FilesLast c size [] s :=
  ⟨by rw [ht]; simp, h.unset, h.range⟩

variable {α γ : Type}

omit [LinearOrder K] in
/-- As `modelOf_from`, of the evaluation whose file is read. -/
theorem modelOf_file {c : LibConfig} {size : Nat} {s : Lib E P K} (hn : c.n ≠ some 0) {t : Ref E P K}
    {g : EvalRec E P K} {v : Option (List P)} (hcell : s.cells t.idx = ⟨[], none, some t.given.ident⟩)
    (hdisk : s.disk t.given.ident = some (g.estimators, v)) (hst : StoredAs c s.sample g v)
    (hid : g.ident = t.given.ident) {ps : List P}
    (hps : g.predictions = some ps) (hlen : ps.length = size) (trans : P → γ → ℚ) {drawn : List Nat}
    (hd : 10000 < (storedRows size s.sample).length →
      Drawn drawn (storedRows size s.sample).length 10000)
    (hall : ∀ i ∈ scoredRows drawn (storedRows size s.sample), i < size) :
    ∃ m, modelOf trans (predictionSample (some 10000) drawn (storedRows size s.sample).length) s t = .ok m ∧
      ModelFrom trans (scoredRows drawn (storedRows size s.sample)) g m := by
  have hst := hst.2 hn
  rw [hps] at hst
  obtain ⟨l', rfl, hrow⟩ := hst
  have hstored : ilocRows ps (storedRows size s.sample) = .ok l' := by
    cases hx : s.sample with
    | rows idx =>
      rw [hx] at hrow
      exact ilocRows_ok.2 hrow.symm
    | all => rw [hx] at hrow; rw [← hlen]; rw [show l' = ps from hrow]; exact ilocRows_range ps
    | notSet => rw [hx] at hrow; rw [← hlen]; rw [show l' = ps from hrow]; exact ilocRows_range ps
  obtain ⟨out, hout, _⟩ := ilocRows_exists (l := ps) (is := scoredRows drawn (storedRows size s.sample))
    (by rw [hlen]; exact hall)
  refine ⟨⟨t.given.ident, entry (out.map trans), g.estimators⟩, ?_, hid.symm, rfl, ps, hps, ?_⟩
  · unfold modelOf
    have hr : readPredictions s t = .ok (some l') := by simp [readPredictions, hcell, hdisk]
    have he : readEstimators s t = .ok g.estimators := by simp [readEstimators, hcell, hdisk]
    rw [hr]
    dsimp only
    rw [sampledRows_scored hd (ilocRows_map trans hstored), ilocRows_map trans hout]
    dsimp only
    rw [he]
  · intro i j hij
    have h1 := congrArg (fun x => x[i]?) (ilocRows_ok.1 hout)
    simp only [List.getElem?_map, hij, Option.map_some] at h1
    cases ho : out[i]? with
    | none => rw [ho] at h1; cases h1
    | some p =>
      rw [ho] at h1
      injection h1 with h1
      refine ⟨p, h1, fun k => ?_⟩
      show entry (out.map trans) (i, k) = trans p k
      unfold entry
      rw [List.getElem?_map, ho]
      rfl

theorem nBest_top {c : LibConfig} {s : Lib E P K} :
    nBest c 200 true s = nlargest (fun t : Ref E P K => t.given.score) 200 s.top := by
  unfold nBest; rw [if_pos (by simp)]

/-- What was evaluated fits into the library: the ensemble is made of all that succeeded (of the 200 best), but
an individual takes part with the last of its evaluations. -/
theorem shared_ensemble (metric : List α → (Nat × γ → ℚ) → Except Exn Score) (trans : P → γ → ℚ)
    (hill maxModels : Option Nat) (hhill : hill ≠ some 0) (stratify : Option Nat) (rnd : Stream)
    (y : List α) (hstrat : ∀ k, stratify = some k → k = y.length) (s0 : Lib E P K)
    (hstart : startLibrary (gamaLibrary hill maxModels) stratify rnd = .ok s0)
    (hist : List (EvalRec E P K)) (hsize : SameSize y.length hist)
    (hfew : (errorFree hist).length ≤ maxModels.getD 200)
    (hpred : ∀ g ∈ hist, g.error = none → g.predictions ≠ none)
    (hsome : stratify ≠ none ∨ ∃ g ∈ hist, g.predictions ≠ none)
    (probabilities : Bool) (drawn : List Nat)
    (hdrawn : 10000 < min (hill.getD 10000) y.length → Drawn drawn (min (hill.getD 10000) y.length) 10000)
    (hprob : probabilities = false ∨ min (hill.getD 10000) y.length ≤ 10000)
    (size : Int) (timeout : ℚ) :
    ∃ (rows : List Nat) (labels : List α) (best : List (Ref E P K)) (models : List (Mdl (Nat × γ) E)),
      buildFromLibrary metric trans probabilities drawn size timeout (gamaLibrary hill maxModels) y
          (saveAll (gamaLibrary hill maxModels) hist s0) =
        .ok (buildFitEnsemble (metric labels) size timeout models) ∧
      rows.Nodup ∧ (∀ i ∈ rows, i < y.length) ∧
      rows.length = min 10000 (min (hill.getD 10000) y.length) ∧
      RowsOf rows y labels ∧
      best.Pairwise (fun a b => b.given.score ≤ a.given.score) ∧
      BestOf (fun t : Ref E P K => t.given.score) 200 (errorFree hist) best ∧
      List.Forall₂ (fun r m => ∃ g, LastOf hist r.given.ident g ∧ ModelFrom trans rows g m) best models := by
  obtain ⟨hh0, hc0, hcase⟩ := startLibrary_spec hstrat hstart
  have hcn : (gamaLibrary hill maxModels).n = some (hill.getD 10000) := rfl
  have hcm : (gamaLibrary hill maxModels).m = some (maxModels.getD 200) := rfl
  generalize gamaLibrary hill maxModels = c at *
  have hn0 : c.n ≠ some 0 := by
    rw [hcn]
    cases hill with
    | none => decide
    | some k => intro h; exact hhill h
  have htop0 : s0.top = [] := by
    have := hh0.perm.length_eq
    simp only [numbered, List.zipIdx_nil, List.map_nil, List.length_append, List.length_nil] at this
    exact List.length_eq_zero_iff.1 (by omega)
  obtain ⟨lost, hh, hc, hs⟩ := FilesLast.saveAll (size := y.length) hist [] [] s0 hh0 (filesLast_start hc0 htop0) hsize
    (by rw [hcm, List.nil_append]; rintro m ⟨⟩; exact hfew)
  rw [List.nil_append] at hh hc
  generalize hs' : saveAll c hist s0 = s at *
  have hchosen : ChosenRows c.n y.length s.sample := by
    rcases hs with e | ⟨_, e⟩
    · rcases hcase with ⟨hst, rfl⟩ | hch
      · exfalso
        have hns : s.sample = .notSet := by rw [e]; simp [libInit, hcn]
        have hnone := hc.unset hns hn0
        rcases hsome with h | ⟨g, hg, hgp⟩
        · exact h hst
        · exact hgp (hnone g hg)
      · rw [e]; exact hch
    · exact e
  have hns : s.sample ≠ .notSet := by
    intro h; rw [h] at hchosen; exact hchosen
  obtain ⟨hbn, hbin, hblen⟩ : (storedRows y.length s.sample).Nodup ∧
      (∀ i ∈ storedRows y.length s.sample, i < y.length) ∧
      (storedRows y.length s.sample).length = min (hill.getD 10000) y.length := by
    cases hx : s.sample with
    | notSet => exact absurd hx hns
    | all =>
      rw [hx] at hchosen
      have := hchosen _ hcn
      refine ⟨List.nodup_range, fun i hi => List.mem_range.1 hi, ?_⟩
      simp only [storedRows, List.length_range]
      omega
    | rows idx =>
      rw [hx] at hchosen
      obtain ⟨h1, h2, k, h3, h4, h5⟩ := hchosen
      rw [hcn] at h3
      injection h3 with h3
      refine ⟨h1, h2, ?_⟩
      simp only [storedRows]
      omega
  rw [← hblen] at hdrawn hprob
  obtain ⟨labels, hinit, hlab⟩ := ensembleInit_scored (x := s.sample) (y := y) (probabilities := probabilities)
    hns rfl hbin hdrawn hprob
  obtain ⟨hr1, hr2, hr3⟩ := scoredRows_spec hdrawn hbn hbin
  have htop : ∀ r ∈ nBest c 200 true s, r ∈ s.top := by
    intro r hr
    rw [nBest_top] at hr
    unfold nlargest at hr
    exact (pySorted_perm _ _).mem_iff.1 (List.mem_of_mem_take hr)
  obtain ⟨models, hm1, hm2⟩ := modelsOf_from (trans := trans)
    (sample := predictionSample (some 10000) drawn (storedRows y.length s.sample).length) (s := s)
    (R := fun r m => ∃ g, LastOf hist r.given.ident g ∧
      ModelFrom trans (scoredRows drawn (storedRows y.length s.sample)) g m)
    (rs := nBest c 200 true s) (by
      intro r hr
      obtain ⟨a, g, hg, v, b, d⟩ := hc.kept r (htop r hr)
      obtain ⟨_, _, _, hid, hge, _⟩ := id hg
      have hne := hpred _ hg.mem hge
      obtain ⟨ps, hps⟩ := Option.ne_none_iff_exists'.1 hne
      obtain ⟨m, h1, h2⟩ := modelOf_file hn0 a b d hid hps (hsize _ hg.mem _ hps) trans hdrawn hr2
      exact ⟨m, h1, g, hg, h2⟩)
  refine ⟨scoredRows drawn (storedRows y.length s.sample), labels, nBest c 200 true s, models, ?_, hr1, hr2,
    by rw [hr3, hblen], (ilocRows_ok.1 hlab).symm, ?_, ?_, hm2⟩
  · unfold buildFromLibrary
    rw [hinit]
    dsimp only
    rw [hm1]
  · rw [nBest_top]
    exact (nlargest_spec _ 200 s.top).1
  · rw [nBest_top]
    have hp : s.top.Perm (errorFree hist) := by
      have hp := perm_top_filter hh
      have : ((s.other ++ lost).filter fun r : Ref E P K => r.given.error.isNone) = [] := by
        rw [List.filter_eq_nil_iff]
        intro r hr he
        have h1 := (hh.best r hr (by simpa using he)).1
        rw [hcm] at h1
        injection h1 with h1
        have h2 := hp.length_eq
        rw [List.length_append] at h2
        have h3 : 0 < ((s.other ++ lost).filter fun r : Ref E P K => r.given.error.isNone).length :=
          List.length_pos_of_mem (List.mem_filter.2 ⟨hr, he⟩)
        omega
      rw [this, List.append_nil] at hp
      exact hp
    obtain ⟨out, b1, b2, b3⟩ := (nlargest_spec (fun t : Ref E P K => t.given.score) 200 s.top).2
    exact ⟨out, b1.trans hp, by rw [b2, hp.length_eq], b3⟩

/-- If the file of a kept evaluation does not exist there is no ensemble. -/
theorem unreadable_unfitted {c : LibConfig} {s : Lib E P K} {t : Ref E P K} (ht : t ∈ nBest c 200 true s) {f : Nat}
    (hcell : s.cells t.idx = ⟨[], none, some f⟩) (hdisk : s.disk f = none)
    (metric : List α → (Nat × γ → ℚ) → Except Exn Score) (trans : P → γ → ℚ) (probabilities : Bool)
    (drawn : List Nat) (size : Int) (timeout : ℚ) (y : List α) {ens : Ens (Nat × γ) E}
    (h : buildFromLibrary metric trans probabilities drawn size timeout c y s = .ok ens) : ens.fit = none := by
  have key : ∀ sample (rs : List (Ref E P K)), t ∈ rs → ∃ e, modelsOf trans sample s rs = .error e := by
    intro sample rs
    induction rs with
    | nil => intro h; cases h
    | cons r rs ih =>
      intro h
      rcases List.mem_cons.1 h with rfl | h
      · refine ⟨.fileNotFound, ?_⟩
        have : modelOf trans sample s t = .error .fileNotFound := by
          unfold modelOf
          have hr : readPredictions s t = .error .fileNotFound := by simp [readPredictions, hcell, hdisk]
          rw [hr]
        unfold modelsOf
        rw [this]
      · obtain ⟨e, he⟩ := ih h
        unfold modelsOf
        cases modelOf trans sample s r with
        | error e' => exact ⟨e', rfl⟩
        | ok m => dsimp only; rw [he]; exact ⟨e, rfl⟩
  unfold buildFromLibrary at h
  cases hi : ensembleInit probabilities (some 10000) drawn s.sample y with
  | error e => rw [hi] at h; cases h
  | ok p =>
    obtain ⟨labels, sample⟩ := p
    rw [hi] at h
    dsimp only at h
    obtain ⟨e, he⟩ := key sample _ ht
    rw [he] at h
    cases h
    rfl

/-- **C161**, where it fails: the library is full, of two evaluations of an individual one is the worst that is
kept, and a better evaluation arrives.  The file removed is that of both, and no ensemble can be made. -/
theorem C161_lost (hill maxModels : Option Nat) (hmax : maxModels.getD 200 ≤ 200) (stratify : Option Nat)
    (rnd : Stream) (rows : Nat) (hstrat : ∀ k, stratify = some k → k = rows) (s0 : Lib E P K)
    (hstart : startLibrary (gamaLibrary hill maxModels) stratify rnd = .ok s0)
    (hist : List (EvalRec E P K)) (g : EvalRec E P K) (hsize : SameSize rows (hist ++ [g]))
    (hfull : (errorFree hist).length = maxModels.getD 200) (hg : g.error = none)
    (a b : Ref E P K) (ha : a ∈ errorFree hist) (hb : b ∈ errorFree hist) (hab : a ≠ b)
    (hid : a.given.ident = b.given.ident) (hworst : ∀ t ∈ errorFree hist, t ≠ a → a.given.score < t.given.score)
    (hbetter : a.given.score < g.score) (hgid : g.ident ≠ a.given.ident)
    (metric : List α → (Nat × γ → ℚ) → Except Exn Score) (trans : P → γ → ℚ) (probabilities : Bool)
    (drawn : List Nat) (size : Int) (timeout : ℚ) (y : List α) (ens : Ens (Nat × γ) E)
    (h : buildFromLibrary metric trans probabilities drawn size timeout (gamaLibrary hill maxModels) y
      (saveAll (gamaLibrary hill maxModels) (hist ++ [g]) s0) = .ok ens) :
    ens.fit = none ∧ ∀ (ρ : Type) (predict : E → ρ → ℚ), weightedMeanPredictions predict ens = .error .typeError := by
  have fin : ens.fit = none := by
    obtain ⟨hh0, hc0, -⟩ := startLibrary_spec hstrat hstart
    have hcm : (gamaLibrary hill maxModels).m = some (maxModels.getD 200) := rfl
    generalize gamaLibrary hill maxModels = c at *
    have htop0 : s0.top = [] := by
      have := hh0.perm.length_eq
      simp only [numbered, List.zipIdx_nil, List.map_nil, List.length_append, List.length_nil] at this
      exact List.length_eq_zero_iff.1 (by omega)
    obtain ⟨lost, hh, hc, -⟩ := FilesLast.saveAll (size := rows) hist [] [] s0 hh0 (filesLast_start hc0 htop0)
      (fun r hr => hsize r (List.mem_append_left _ hr))
      (by rw [hcm, List.nil_append]; rintro m ⟨⟩; exact hfull.le)
    rw [List.nil_append] at hh hc
    have e : saveAll c (hist ++ [g]) s0 = (saveEvaluation c g (saveAll c hist s0)).2 := by
      have : ∀ (hist : List (EvalRec E P K)) (s0 : Lib E P K),
          saveAll c (hist ++ [g]) s0 = (saveEvaluation c g (saveAll c hist s0)).2 := by
        intro hist
        induction hist with
        | nil => intro s0; rfl
        | cons x xs ih => intro s0; exact ih _
      exact this hist s0
    rw [e] at h
    clear e
    generalize saveAll c hist s0 = s at *
    have hp : s.top.Perm (errorFree hist) := by
      have hp := perm_top_filter hh
      have : ((s.other ++ lost).filter fun r : Ref E P K => r.given.error.isNone) = [] := by
        rw [List.filter_eq_nil_iff]
        intro r hr he
        have h1 := (hh.best r hr (by simpa using he)).1
        rw [hcm] at h1
        injection h1 with h1
        have h2 := hp.length_eq
        rw [List.length_append] at h2
        have h3 : 0 < ((s.other ++ lost).filter fun r : Ref E P K => r.given.error.isNone).length :=
          List.length_pos_of_mem (List.mem_filter.2 ⟨hr, he⟩)
        omega
      rw [this, List.append_nil] at hp
      exact hp
    have hat := hp.mem_iff.2 ha
    have hbt := hp.mem_iff.2 hb
    obtain ⟨s2, hbs, hrun⟩ := save_run (c := c) g s hc.range (hsize g (by simp))
    obtain ⟨v, hcells, -, -⟩ := hbs.cells
    have hidx : ∀ r ∈ s.top, r.idx ≠ s.next := by
      intro r hr
      have := numbered_lt (hh.perm.mem_iff.1 (List.mem_append_left _ hr))
      rw [hh.next]
      omega
    have hroom : hasRoom c.m s2.top.length = false := by
      rw [hcm, hbs.top, hp.length_eq, hfull]
      simp [hasRoom]
    rcases heappushpop_spec hh.heap (⟨s.next, g⟩ : Ref E P K) with ⟨-, hle⟩ | ⟨q, h', hpp, hlt, hqm, hqle, -, hperm⟩
    · exact absurd (hle a hat) (not_le.2 hbetter)
    · have hqa : q = a := by
        by_contra hne
        exact absurd (hqle a hat) (not_le.2 (hworst q (hp.mem_iff.1 hqm) hne))
      subst hqa
      have hst := store_pop c ⟨s.next, g⟩ s2 hg hroom (by rw [hbs.top]; exact hpp) hlt
      obtain ⟨ca, ga, -, va, da, -⟩ := hc.kept q hat
      obtain ⟨cb, -⟩ := hc.kept b hbt
      have hq1 : (upd s2.cells s.next ⟨[], none, some g.ident⟩ q.idx)
          = (⟨[], none, some q.given.ident⟩ : EvalCell E P) := by
        rw [upd_ne _ _ (hidx q hat), hcells, upd_ne _ _ (hidx q hat)]
        exact ca
      have hq2 : upd s2.disk g.ident (some ((s2.cells s.next).estimators, (s2.cells s.next).predictions))
          q.given.ident = some (ga.estimators, va) := by
        rw [upd_ne _ _ (Ne.symm hgid), hbs.disk]
        exact da
      dsimp only at hst
      rw [hq1] at hst
      dsimp only at hst
      rw [hq2] at hst
      dsimp only at hst
      have hbi : b.idx ≠ q.idx := by
        intro e
        have h1 := mem_numbered.1 (hh.perm.mem_iff.1 (List.mem_append_left _ hat))
        have h2 := mem_numbered.1 (hh.perm.mem_iff.1 (List.mem_append_left _ hbt))
        rw [e, h1] at h2
        injection h2 with h2
        apply hab
        cases b; cases q
        simp only at e h2
        rw [e, h2]
      have hb' : b ∈ h' := by
        have : b ∈ q :: h' := hperm.mem_iff.2 (List.mem_cons_of_mem _ hbt)
        rcases List.mem_cons.1 this with h | h
        · exact absurd h.symm hab
        · exact h
      rw [hrun, hst] at h
      dsimp only at h
      refine unreadable_unfitted (t := b) (f := b.given.ident) ?_ ?_ ?_ metric trans probabilities drawn size timeout y h
      · rw [nBest_top]
        unfold nlargest
        dsimp only
        rw [List.take_of_length_le]
        · exact (pySorted_perm _ _).mem_iff.2 hb'
        · have h1 := (pySorted_perm (fun a b : Ref E P K => decide (b.given.score ≤ a.given.score)) h').length_eq
          have h2 := hperm.length_eq
          have h3 := hp.length_eq
          simp only [List.length_cons] at h2
          omega
      · dsimp only
        rw [upd_ne _ _ hbi, upd_ne _ _ (hidx b hbt), hcells, upd_ne _ _ (hidx b hbt)]
        exact cb
      · dsimp only
        rw [hid, upd_same]
  refine ⟨fin, fun ρ predict => ?_⟩
  unfold weightedMeanPredictions
  rw [fin]

end

section
variable {Fn V X Ω E P α γ S I A B J : Type}

theorem shared_predicts {U : Setup S I A B J Fn V X Ω E P} (hp : Predicts U) (hes : Estimates U)
    {hill maxModels : Option Nat} (hhill : hill ≠ some 0) {y : List α} (hrows : RowsAre U y.length)
    {stratify : Option Nat} (hstrat : ∀ k, stratify = some k → k = y.length) {rnd : Stream}
    {lib₀ : Lib E P (List Score)} (hlib : startLibrary (gamaLibrary hill maxModels) stratify rnd = .ok lib₀)
    {D : List (Str × V)} {s : Whole S Fn V X E P}
    (hrec : Records { U with lib := gamaLibrary hill maxModels } D lib₀ (fun _ _ => True) s.core)
    (hsome : ∃ x sc, (x, .result true sc) ∈ U.client.history s.joint.search)
    {metric : List α → (Nat × γ → ℚ) → Except Exn Score} {f : List α → (Nat × γ → ℚ) → Score}
    (hf : ∀ ls p, metric ls p = .ok (f ls p)) (hn : ∀ ls p, f ls p ≠ .ninf)
    (trans : P → γ → ℚ) (probabilities : Bool) (drawn : List Nat)
    (hdrawn : 10000 < min (hill.getD 10000) y.length → Drawn drawn (min (hill.getD 10000) y.length) 10000)
    (hprob : probabilities = false ∨ min (hill.getD 10000) y.length ≤ 10000)
    {models : Int} (hsz : 1 ≤ models) {timeout : ℚ} (ht : 0 < timeout) :
    ∃ told extra, List.Forall₂ (ToldAs U D) (results (U.client.history s.joint.search)) told ∧
      (extra = [] ∨ ∃ r x, extra = [r] ∧ Returned U D x r ∧ x ∈ U.client.submitted s.joint.search ∧
        U.client.waits s.joint.search = false) ∧
      ((errorFree (told ++ extra)).length ≤ maxModels.getD 200 →
        ∃ ens ms, buildFromLibrary metric trans probabilities drawn models timeout (gamaLibrary hill maxModels) y s.lib
            = .ok ens ∧
          FittedWith (told ++ extra) ens ms ∧ MeanValues ens ms ∧ Distributions ens ms) := by
  obtain ⟨told, extra, h1, h2, h3, -⟩ := hrec
  have h2 : List.Forall₂ (ToldAs U D) (results (U.client.history s.joint.search)) told := h2
  have hall : ∀ g ∈ told ++ extra, ∃ j, Returned U D j g := by
    intro r hr
    rcases List.mem_append.1 hr with hr | hr
    · obtain ⟨x, -, hx⟩ := forall₂_right h2 r hr
      exact ⟨_, hx.1⟩
    · rcases h3 with rfl | ⟨r', j, rfl, hr', -⟩
      · cases hr
      · rw [List.mem_singleton.1 hr]
        exact ⟨_, hr'⟩
  have hsize : SameSize y.length (told ++ extra) := by
    intro r hr
    obtain ⟨j, hj⟩ := hall r hr
    exact rows_of_returned hrows hj
  have hpred : ∀ g ∈ told ++ extra, g.error = none → g.predictions ≠ none := by
    intro g hg he
    obtain ⟨j, hj⟩ := hall g hg
    exact predicts_of_returned hp hj he
  have hest : ∀ g ∈ told ++ extra, g.error = none → g.estimators ≠ [] := by
    intro g hg he
    obtain ⟨j, hj⟩ := hall g hg
    exact estimates_of_returned hes hj he
  obtain ⟨j, sc, hj⟩ := hsome
  obtain ⟨g, hg, he⟩ := told_success h2 hj
  have hg : g ∈ told ++ extra := List.mem_append_left _ hg
  have h1 : s.lib = saveAll (gamaLibrary hill maxModels) (told ++ extra) lib₀ := h1
  refine ⟨told, extra, h2, ?_, ?_⟩
  · rcases h3 with h3 | ⟨r, j, e1, e2, e3, e4, -⟩
    · exact Or.inl h3
    · exact Or.inr ⟨r, j, e1, e2, e4.subset (by simp), e3.1⟩
  rw [h1]
  intro hfew
  obtain ⟨rows, labels, best, ms, g1, -, -, -, -, -, g7, g8⟩ := shared_ensemble metric trans hill maxModels hhill stratify
    rnd y hstrat lib₀ hlib (told ++ extra) hsize hfew hpred (.inr ⟨g, hg, hpred g hg he⟩) probabilities drawn hdrawn
    hprob models timeout
  obtain ⟨hm, hfree⟩ := best_ne_nil g7 (by decide) g8 hg he
  obtain ⟨k, hk⟩ := fitted_of_models (hist := told ++ extra) hm (fun m hm => by
    obtain ⟨r, hr, x, hx, hrm⟩ := forall₂_right g8 m hm
    obtain ⟨_, _, _, _, hxe, _⟩ := id hx
    exact ⟨x, hx.mem, hxe, hrm.2.1⟩) hsz ht (hf labels) (hn labels) hest
  exact ⟨_, k, g1, hk⟩

/-- **C161**, the full claim: after an evolution in which an evaluation succeeded, the ensemble predicts, also if the
warm start lists individuals more than once. -/
def C161_claim : Prop :=
  ∀ (c : OpConfig) (cxpb : ℚ) (size : Nat) (K : Coding Unit Nat Nat) (Jb : Jobs Unit Nat Nat Unit)
    (report : Nat → Findings Nat Nat) (maxModels : Nat),
    Workable c → 0 < maxModels → Faithful K Jb →
    Agrees (evolution c cxpb none size K Jb report (gamaLibrary none (some maxModels))) →
    Predicts (evolution c cxpb none size K Jb report (gamaLibrary none (some maxModels))) →
    Estimates (evolution c cxpb none size K Jb report (gamaLibrary none (some maxModels))) →
    ∀ (l : List Nat) (w : World), (∀ x ∈ l, OfSpace c.ps w x) →
    ∀ y : List ℚ, RowsAre (evolution c cxpb none size K Jb report (gamaLibrary none (some maxModels))) y.length →
    y.length ≤ 10000 → ∀ (n : Nat) (rnd : Stream) (es : List (WholeEvent Bool Unit))
    (f : List ℚ → (Nat × Unit → ℚ) → Score), (∀ ls p, f ls p ≠ .ninf) → ∀ (trans : Nat → Unit → ℚ) (models : Int),
    1 ≤ models → ∀ timeout : ℚ, 0 < timeout →
    let U := evolution c cxpb none size K Jb report (gamaLibrary none (some maxModels))
    let s := wholeRun U es
      (wholeStart (eaStart (.list l) [] w) (libInit (gamaLibrary none (some maxModels)) none rnd) n none false [])
    (∃ x sc, (x, .result true sc) ∈ s.joint.search.history) →
    ∃ ens, buildFromLibrary (fun ls p => .ok (f ls p)) trans false [] models timeout (gamaLibrary none (some maxModels))
        y s.lib = .ok ens ∧
      ∀ value : Nat → Unit → ℚ, ∃ p, ensembleValues value ens = .ok p

/-- **C161**, what holds, for evolution: the ensemble predicts, as C158 says, if the warm start lists no individual
twice; and if it does, as long as no more evaluations succeeded than models are kept.  Missing: otherwise an
evaluation that is dropped takes the file of the other evaluation with it, see `C161_lost` and `C161_false`. -/
theorem C161_evolution_partial (c : OpConfig) (cxpb : ℚ) (maxN : Option Int) (size : Nat) {K : Coding Fn V Nat}
    {Jb : Jobs Fn V X Ω} {report : V → Findings E P} {hill maxModels : Option Nat} (hhill : hill ≠ some 0)
    (hK : Faithful K Jb)
    (ha : Agrees (evolution c cxpb maxN size K Jb report (gamaLibrary hill maxModels)))
    (hp : Predicts (evolution c cxpb maxN size K Jb report (gamaLibrary hill maxModels)))
    (hes : Estimates (evolution c cxpb maxN size K Jb report (gamaLibrary hill maxModels)))
    (l out : List Nat) (w : World) (y : List α)
    (hrows : RowsAre (evolution c cxpb maxN size K Jb report (gamaLibrary hill maxModels)) y.length)
    {stratify : Option Nat} (hstrat : ∀ k, stratify = some k → k = y.length) {rnd : Stream}
    {lib₀ : Lib E P (List Score)} (hlib : startLibrary (gamaLibrary hill maxModels) stratify rnd = .ok lib₀)
    (n : Nat) (limit : Option ℚ) (logfile : Bool) (D : List (Str × V)) (es : List (WholeEvent Bool Ω))
    {metric : List α → (Nat × γ → ℚ) → Except Exn Score} {f : List α → (Nat × γ → ℚ) → Score}
    (hf : ∀ ls p, metric ls p = .ok (f ls p)) (hn : ∀ ls p, f ls p ≠ .ninf)
    (trans : P → γ → ℚ) (probabilities : Bool) (drawn : List Nat)
    (hdrawn : 10000 < min (hill.getD 10000) y.length → Drawn drawn (min (hill.getD 10000) y.length) 10000)
    (hprob : probabilities = false ∨ min (hill.getD 10000) y.length ≤ 10000)
    {models : Int} (hsz : 1 ≤ models) {timeout : ℚ} (ht : 0 < timeout) :
    let U := evolution c cxpb maxN size K Jb report (gamaLibrary hill maxModels)
    let s := wholeRun U es (wholeStart (eaStart (.list l) out w) lib₀ n limit logfile D)
    (∃ x sc, (x, .result true sc) ∈ s.joint.search.history) →
    ∃ told extra, List.Forall₂ (ToldAs U D) (results s.joint.search.history) told ∧
      (extra = [] ∨ ∃ r x, extra = [r] ∧ Returned U D x r ∧ x ∈ s.joint.search.submitted ∧
        eaWaits maxN s.joint.search = false) ∧
      ((errorFree (told ++ extra)).length ≤ maxModels.getD 200 →
        ∃ ens ms, buildFromLibrary metric trans probabilities drawn models timeout (gamaLibrary hill maxModels) y s.lib
            = .ok ens ∧
          FittedWith (told ++ extra) ens ms ∧ MeanValues ens ms ∧ Distributions ens ms) := by
  intro U s hsome
  have hmoves := evolution_moves c cxpb maxN size hK ha l out w lib₀ n limit logfile D es
  have hrec : Records U D lib₀ (fun _ _ => True) s.core :=
    hmoves.induct ⟨[], [], rfl, .nil, Or.inl rfl, fun _ h => nomatch h⟩ fun x y hm ih =>
      records_move (evolveClient_lawful c cxpb maxN size) hm (fun _ _ => trivial) (fun _ _ _ _ _ => trivial) ih
  exact shared_predicts hp hes hhill hrows hstrat hlib hrec hsome hf hn trans probabilities drawn hdrawn hprob hsz ht

/-- **C161**, what holds, for random search. -/
theorem C161_random_search_partial (c : OpConfig) (cxpb : ℚ) (maxN : Option Int) {K : Coding Fn V Nat}
    {Jb : Jobs Fn V X Ω} {report : V → Findings E P} {hill maxModels : Option Nat} (hhill : hill ≠ some 0)
    (hK : Faithful K Jb)
    (ha : Agrees (randomSearching c cxpb maxN K Jb report (gamaLibrary hill maxModels)))
    (hp : Predicts (randomSearching c cxpb maxN K Jb report (gamaLibrary hill maxModels)))
    (hes : Estimates (randomSearching c cxpb maxN K Jb report (gamaLibrary hill maxModels)))
    (l out : List Nat) (w : World) (y : List α)
    (hrows : RowsAre (randomSearching c cxpb maxN K Jb report (gamaLibrary hill maxModels)) y.length)
    {stratify : Option Nat} (hstrat : ∀ k, stratify = some k → k = y.length) {rnd : Stream}
    {lib₀ : Lib E P (List Score)} (hlib : startLibrary (gamaLibrary hill maxModels) stratify rnd = .ok lib₀)
    (n : Nat) (limit : Option ℚ) (logfile : Bool) (D : List (Str × V)) (es : List (WholeEvent Unit Ω))
    {metric : List α → (Nat × γ → ℚ) → Except Exn Score} {f : List α → (Nat × γ → ℚ) → Score}
    (hf : ∀ ls p, metric ls p = .ok (f ls p)) (hn : ∀ ls p, f ls p ≠ .ninf)
    (trans : P → γ → ℚ) (probabilities : Bool) (drawn : List Nat)
    (hdrawn : 10000 < min (hill.getD 10000) y.length → Drawn drawn (min (hill.getD 10000) y.length) 10000)
    (hprob : probabilities = false ∨ min (hill.getD 10000) y.length ≤ 10000)
    {models : Int} (hsz : 1 ≤ models) {timeout : ℚ} (ht : 0 < timeout) :
    let U := randomSearching c cxpb maxN K Jb report (gamaLibrary hill maxModels)
    let s := wholeRun U es (wholeStart (rsStart (.list l) out w) lib₀ n limit logfile D)
    (∃ x sc, (x, .result true sc) ∈ s.joint.search.history) →
    ∃ told extra, List.Forall₂ (ToldAs U D) (results s.joint.search.history) told ∧
      (extra = [] ∨ ∃ r x, extra = [r] ∧ Returned U D x r ∧ x ∈ s.joint.search.submitted ∧
        rsWaits maxN s.joint.search = false) ∧
      ((errorFree (told ++ extra)).length ≤ maxModels.getD 200 →
        ∃ ens ms, buildFromLibrary metric trans probabilities drawn models timeout (gamaLibrary hill maxModels) y s.lib
            = .ok ens ∧
          FittedWith (told ++ extra) ens ms ∧ MeanValues ens ms ∧ Distributions ens ms) := by
  intro U s hsome
  have hmoves := random_moves c cxpb maxN hK ha l out w lib₀ n limit logfile D es
  have hrec : Records U D lib₀ (fun _ _ => True) s.core :=
    hmoves.induct ⟨[], [], rfl, .nil, Or.inl rfl, fun _ h => nomatch h⟩ fun x y hm ih =>
      records_move (rsClient_lawful (gamaOps c cxpb) maxN) hm (fun _ _ => trivial) (fun _ _ _ _ _ => trivial) ih
  exact shared_predicts hp hes hhill hrows hstrat hlib hrec hsome hf hn trans probabilities drawn hdrawn hprob hsz ht

end

namespace Ex

/-- A warm start that lists individual 0 twice. -/
def listedTwice : List Nat := [0, 0, 1, 2, 3, 4]

def twiceIn (lib : LibConfig) (es : List (WholeEvent Bool Unit)) : Whole (Ea World Nat) Unit Nat Nat Nat Nat :=
  wholeRun (evolvingIn lib) es
    (wholeStart (eaStart (.list listedTwice) [] sixWorld) (libInit lib none fun _ => 0) 1 none false [])

/-- Three evaluations come back. -/
def threeRounds : List (WholeEvent Bool Unit) :=
  let round : List (WholeEvent Bool Unit) :=
    [.wait, .worker 0 .take, .worker 0 (.finish ()), .iterate calmReading calmReading calmReading .ok .returns] ++
      List.replicate 5 (.go false)
  List.replicate 10 (.go false) ++ round ++ round ++ round

theorem twice_space : ∀ x ∈ listedTwice, OfSpace Ex.config.ps sixWorld x := by
  intro x hx
  refine six_space rfl x ?_
  revert x
  decide

end Ex

/-- **C161 is false**: of two evaluations of the same individual the first is dropped for a better one, and its file
with it, which is also that of the second. -/
theorem C161_false : ¬ C161_claim := by
  intro h
  obtain ⟨ens, h1, h2⟩ := h Ex.config (1 / 5) 50 Ex.ownScore Ex.evaluations Ex.ownReport 2
    Ex.usable_config (by decide) Ex.ownScore_faithful (Ex.own_agrees _ _ _ _) (Ex.own_predicts _ _ _ _)
    (Ex.own_estimates _ _ _ _) Ex.listedTwice Ex.sixWorld Ex.twice_space [4] (Ex.own_rows _ _ _ _) (by decide) 1 (fun _ => 0)
    Ex.threeRounds (fun _ _ => .fin 0) (fun _ _ h => nomatch h) (fun n _ => n) 2 (by decide) 60 (by decide)
    ⟨0, .fin 0, by decide +kernel⟩
  have key : (match buildFromLibrary (fun (_ : List ℚ) (_ : Nat × Unit → ℚ) => .ok (.fin 0)) (fun (n : Nat) (_ : Unit) => (n : ℚ))
      false [] 2 60 (gamaLibrary none (some 2)) [(4 : ℚ)] (Ex.twiceIn (gamaLibrary none (some 2)) Ex.threeRounds).lib with
    | .ok ens => ens.fit
    | .error _ => none) = none := by decide +kernel
  have h1 : buildFromLibrary (fun (_ : List ℚ) (_ : Nat × Unit → ℚ) => .ok (.fin 0)) (fun (n : Nat) (_ : Unit) => (n : ℚ))
      false [] 2 60 (gamaLibrary none (some 2)) [(4 : ℚ)]
      (Ex.twiceIn (gamaLibrary none (some 2)) Ex.threeRounds).lib = .ok ens := h1
  rw [h1] at key
  obtain ⟨p, hp⟩ := h2 fun _ _ => 0
  unfold ensembleValues weightedMeanPredictions at hp
  dsimp only at key
  rw [key] at hp
  cases hp

/-- The hypotheses of `C161_evolution_partial` and `C161_random_search_partial` are met by runs with 200 models kept
in which three, or two, evaluations succeeded, two of them of individual 0. -/
example := C161_evolution_partial Ex.config (1 / 5) none 50 (hill := none) (maxModels := none) (by decide)
  Ex.ownScore_faithful (Ex.own_agrees _ _ _ _) (Ex.own_predicts _ _ _ _) (Ex.own_estimates _ _ _ _)
  Ex.listedTwice [] Ex.sixWorld [(4 : ℚ)] (Ex.own_rows _ _ _ _) (stratify := none) (fun _ h => nomatch h)
  (rnd := fun _ => 0) rfl 1 none false [] Ex.threeRounds (metric := Ex.firstRow) (fun _ _ => rfl)
  (fun _ _ h => nomatch h) (fun (p : Nat) (_ : Unit) => (p : ℚ)) false [] (fun h => absurd h (by decide)) (.inl rfl)
  (models := 2) (by decide) (timeout := 60) (by decide) ⟨0, .fin 0, by decide +kernel⟩

example := C161_random_search_partial Ex.config (1 / 5) none (hill := none) (maxModels := none) (by decide)
  Ex.ownScore_faithful (Ex.own_agrees _ _ _ _) (Ex.own_predicts _ _ _ _) (Ex.own_estimates _ _ _ _)
  Ex.listedTwice [] Ex.sixWorld [(4 : ℚ)] (Ex.own_rows _ _ _ _) (stratify := none) (fun _ h => nomatch h)
  (rnd := fun _ => 0) rfl 1 none false [] Ex.twoRounds (metric := Ex.firstRow) (fun _ _ => rfl)
  (fun _ _ h => nomatch h) (fun (p : Nat) (_ : Unit) => (p : ℚ)) false [] (fun h => absurd h (by decide)) (.inl rfl)
  (models := 2) (by decide) (timeout := 60) (by decide) ⟨0, .fin 0, by decide +kernel⟩

example : (Ex.twiceIn (gamaLibrary none none) Ex.threeRounds).lib.top.map (fun t => t.given.ident) = [0, 0, 1] := by
  decide +kernel

namespace Ex

/-- Individual 0 is evaluated twice, at first badly and then well; the others once. -/
def manyEvals : List (EvalRec Nat Nat Nat) :=
  (List.range 200).map fun i => ⟨i % 199, [], i, none, [i], some [i]⟩

def worstOfMany : Ref Nat Nat Nat := ⟨0, ⟨0, [], 0, none, [0], some [0]⟩⟩
def bestOfMany : Ref Nat Nat Nat := ⟨199, ⟨0, [], 199, none, [199], some [199]⟩⟩

theorem many_errorFree : errorFree manyEvals = numbered manyEvals := by
  unfold errorFree
  rw [List.filter_eq_self]
  intro r hr
  have := numbered_given_mem hr
  obtain ⟨i, -, e⟩ := List.mem_map.1 this
  rw [← e]
  rfl

theorem mem_many {t : Ref Nat Nat Nat} (h : t ∈ numbered manyEvals) :
    t.given = ⟨t.idx % 199, [], t.idx, none, [t.idx], some [t.idx]⟩ := by
  have h1 : t.idx < 200 := by
    have := numbered_lt h
    simpa [manyEvals] using this
  rw [mem_numbered] at h
  unfold manyEvals at h
  rw [List.getElem?_map, List.getElem?_range h1] at h
  simp only [Option.map_some, Option.some.injEq] at h
  exact h.symm

end Ex

/-- The hypotheses of `C161_lost` are met with the default settings: after 200 evaluations, all of which are kept, one
more arrives. -/
example := C161_lost none none (le_refl 200) none (fun _ => 0) 1 (fun _ h => nomatch h)
  (libInit (gamaLibrary none none) none fun _ => 0) rfl Ex.manyEvals ⟨500, [], 300, none, [500], some [500]⟩
  (by
    intro r hr ps hps
    rcases List.mem_append.1 hr with hr | hr
    · obtain ⟨i, -, e⟩ := List.mem_map.1 hr
      rw [← e] at hps
      cases hps; rfl
    · rw [List.mem_singleton.1 hr] at hps
      cases hps; rfl)
  (by rw [Ex.many_errorFree]; simp [numbered, Ex.manyEvals]) rfl Ex.worstOfMany Ex.bestOfMany
  (by rw [Ex.many_errorFree, mem_numbered]; simp [Ex.manyEvals, Ex.worstOfMany])
  (by rw [Ex.many_errorFree, mem_numbered]; simp [Ex.manyEvals, Ex.bestOfMany])
  (by intro h; have := congrArg Ref.idx h; cases this) rfl
  (by
    intro t ht hne
    rw [Ex.many_errorFree] at ht
    have e := Ex.mem_many ht
    rw [e]
    show 0 < t.idx
    refine Nat.pos_of_ne_zero fun h0 => hne ?_
    cases t
    simp only at h0 e
    rw [e, h0]
    rfl)
  (by decide) (by decide) Ex.firstRow (fun (p : Nat) (_ : Unit) => (p : ℚ)) false [] 2 60 [4]

end Gama
