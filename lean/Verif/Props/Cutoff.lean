import Verif.Model.Cutoff
import Verif.Props.EndToEnd
import Verif.Props.Rungs

/-!
# A search that is cut off in the middle of saving an evaluation (C160)
-/

namespace Gama
open Spec PyM

section
variable {E P K : Type} [LinearOrder K]

/-! ## The library -/

/-- The state `t` of a library that has saved `hist` and was left in the middle of saving `g`.  What it
keeps is the best of `hist`, or the best of `hist` and `g`; of all of these at most one evaluation is in
neither of its lists; of everything it keeps models and predictions can be read, and are those of that
evaluation; at most one file is not of an evaluation that is kept. -/
structure Spec.LeftOff (c : LibConfig) (hist : List (EvalRec E P K)) (g : EvalRec E P K) (t : Lib E P K) :
    Prop where
  best : ∃ h, (h = hist ∨ h = hist ++ [g]) ∧ (∀ m, c.m = some m →
    BestOf (fun r : Ref E P K => r.given.score) m (errorFree h) t.top) ∧
    (c.m = none → t.top.Perm (errorFree h))
  lost : ∃ l : List (Ref E P K), l.length ≤ 1 ∧ (t.top ++ (t.other ++ l)).Perm (numbered (hist ++ [g]))
  read : ∀ r ∈ t.top, readEstimators t r = .ok r.given.estimators ∧
    ∃ v, readPredictions t r = .ok v ∧ Stored t.sample.toRows r.given.predictions v
  files : ∃ stray : Nat, ∀ f, t.disk f ≠ none → f = stray ∨ ∃ r ∈ t.top, r.given.ident = f

theorem bestOf_holds {c : LibConfig} {hist : List (EvalRec E P K)} {s : Lib E P K} (hh : Holds c hist [] s) :
    (∀ m, c.m = some m → BestOf (fun r : Ref E P K => r.given.score) m (errorFree hist) s.top) ∧
    (c.m = none → s.top.Perm (errorFree hist)) := by
  have hp := perm_top_filter hh
  constructor
  · intro m hcm
    have hroom := hh.room _ hcm
    refine ⟨_, hp, ?_, ?_⟩
    · have hl := hp.length_eq
      rw [List.length_append] at hl
      by_cases hfull : s.top.length = m
      · omega
      · have : ((s.other ++ []).filter fun r : Ref E P K => r.given.error.isNone) = [] := by
          rw [List.filter_eq_nil_iff]
          intro r hr he
          have := (hh.best r hr (by simpa using he)).1
          rw [hcm] at this
          injection this with this
          exact hfull this.symm
        rw [this] at hl
        simp only [List.length_nil, Nat.add_zero] at hl
        omega
    · intro x hx z hz
      rw [List.mem_filter] at hz
      exact (hh.best z hz.1 (by simpa using hz.2)).2 x hx
  · intro hcm
    have : ((s.other ++ []).filter fun r : Ref E P K => r.given.error.isNone) = [] := by
      rw [List.filter_eq_nil_iff]
      intro r hr he
      have := (hh.best r hr (by simpa using he)).1
      rw [hcm] at this; cases this
    rw [this, List.append_nil] at hp
    exact hp

theorem BestOf.perm {α : Type} {key : α → K} {n : Nat} {all a b : List α} (h : BestOf key n all a)
    (hp : b.Perm a) : BestOf key n all b := by
  obtain ⟨o, h1, h2, h3⟩ := h
  exact ⟨o, (hp.append_right o).trans h1, hp.length_eq.trans h2, fun x hx => h3 x (hp.mem_iff.1 hx)⟩

/-- Models and predictions of `r` can be read. -/
def Reads (c : LibConfig) (x : Sample) (t : Lib E P K) (r : Ref E P K) : Prop :=
  readEstimators t r = .ok r.given.estimators ∧ ∃ v, readPredictions t r = .ok v ∧ StoredAs c x r.given v

omit [LinearOrder K] in
theorem reads_file {c : LibConfig} {x : Sample} {t : Lib E P K} {r : Ref E P K} {v : Option (List P)}
    (h1 : t.cells r.idx = ⟨[], none, some r.given.ident⟩)
    (h2 : t.disk r.given.ident = some (r.given.estimators, v)) (h3 : StoredAs c x r.given v) :
    Reads c x t r := by
  refine ⟨by simp [readEstimators, h1, h2], v, by simp [readPredictions, h1, h2], h3⟩

omit [LinearOrder K] in
theorem reads_memory {c : LibConfig} {x : Sample} {t : Lib E P K} {r : Ref E P K} {v : Option (List P)}
    {f : Option Nat} (h1 : t.cells r.idx = ⟨r.given.estimators, v, f⟩) (h3 : StoredAs c x r.given v)
    (he : f = none ∨ r.given.estimators ≠ []) (hv : f = none ∨ v ≠ none) : Reads c x t r := by
  refine ⟨?_, v, ?_, h3⟩
  · unfold readEstimators
    rw [h1]
    dsimp only
    rcases he with rfl | he
    · cases r.given.estimators <;> rfl
    · cases hx : r.given.estimators with
      | nil => exact absurd hx he
      | cons a l => rfl
  · unfold readPredictions
    rw [h1]
    dsimp only
    rcases hv with rfl | hv
    · cases v <;> rfl
    · cases v with
      | none => exact absurd rfl hv
      | some l => rfl

omit [LinearOrder K] in
theorem reads_half {c : LibConfig} {x : Sample} {t : Lib E P K} {r : Ref E P K} {v : Option (List P)}
    (h1 : t.cells r.idx = ⟨[], v, some r.given.ident⟩)
    (h2 : t.disk r.given.ident = some (r.given.estimators, v)) (h3 : StoredAs c x r.given v) :
    Reads c x t r := by
  refine ⟨by simp [readEstimators, h1, h2], v, ?_, h3⟩
  unfold readPredictions
  rw [h1]
  cases v with
  | none => simp [h2]
  | some l => rfl

theorem Spec.LeftOff.congr {c : LibConfig} {hist : List (EvalRec E P K)} {g : EvalRec E P K} {t t' : Lib E P K}
    (h : LeftOff c hist g t) (h1 : t'.top = t.top) (h2 : t'.other = t.other) (h3 : t'.cells = t.cells)
    (h4 : t'.disk = t.disk) (h5 : t'.sample = t.sample) : LeftOff c hist g t' := by
  obtain ⟨a, b, d, e⟩ := h
  refine ⟨by rw [h1]; exact a, by rw [h1, h2]; exact b, ?_, by rw [h1, h4]; exact e⟩
  unfold readEstimators readPredictions at d ⊢
  rw [h1, h3, h4, h5]
  exact d

/-- A library that has saved everything. -/
theorem leftOff_saved {c : LibConfig} {size : Nat} {hist : List (EvalRec E P K)} {g : EvalRec E P K}
    {t : Lib E P K} (hn : c.n ≠ some 0) (hh : Holds c (hist ++ [g]) [] t) (hc : Cached c size (hist ++ [g]) t) :
    LeftOff c hist g t := by
  refine ⟨⟨_, Or.inr rfl, bestOf_holds hh⟩, ⟨[], by simp, hh.perm⟩, ?_, 0, fun f hf => Or.inr (hc.only f hf)⟩
  intro r hr
  obtain ⟨h1, v, h2, h3⟩ := hc.kept r hr
  obtain ⟨g1, v', g2, g3⟩ := reads_file h1 h2 h3
  exact ⟨g1, v', g2, g3.2 hn⟩

theorem toDisk_run (r : Ref E P K) (s : Lib E P K) : (toDisk r s).2 = { s with
    disk := upd s.disk r.given.ident (some ((s.cells r.idx).estimators, (s.cells r.idx).predictions))
    cells := upd s.cells r.idx ⟨[], none, some r.given.ident⟩ } := rfl

/-- The part of the library that an evaluation on its way does not touch. -/
structure Beside (s : Lib E P K) (r : Ref E P K) (t : Lib E P K) : Prop where
  other : t.other = s.other
  sample : t.sample = s.sample
  cells : ∀ i, i ≠ r.idx → t.cells i = s.cells i
  disk : ∀ f, f ≠ r.given.ident → t.disk f = s.disk f

omit [LinearOrder K] in
theorem untouched_toDisk {r : Ref E P K} {s t : Lib E P K} (h : DuringToDisk r s t) :
    Beside s r t ∧ t.top = s.top := by
  cases h with
  | before => exact ⟨⟨rfl, rfl, fun _ _ => rfl, fun _ _ => rfl⟩, rfl⟩
  | named d => exact ⟨⟨rfl, rfl, fun _ h => upd_ne _ _ h, fun _ h => upd_ne _ _ h⟩, rfl⟩
  | halfCleared => exact ⟨⟨rfl, rfl, fun _ h => upd_ne _ _ h, fun _ h => upd_ne _ _ h⟩, rfl⟩
  | done => exact ⟨⟨rfl, rfl, fun _ h => upd_ne _ _ h, fun _ h => upd_ne _ _ h⟩, rfl⟩

omit [LinearOrder K] in
theorem untouched_discard {r : Ref E P K} {s t : Lib E P K} (h : DuringDiscard r s t) :
    Beside s r t ∧ t.top = s.top ∧ t.disk = s.disk := by
  cases h with
  | before => exact ⟨⟨rfl, rfl, fun _ _ => rfl, fun _ _ => rfl⟩, rfl, rfl⟩
  | half => exact ⟨⟨rfl, rfl, fun _ h => upd_ne _ _ h, fun _ _ => rfl⟩, rfl, rfl⟩
  | done => exact ⟨⟨rfl, rfl, fun _ h => upd_ne _ _ h, fun _ _ => rfl⟩, rfl, rfl⟩

omit [LinearOrder K] in
/-- While it is written, an evaluation can be read. -/
theorem reads_toDisk {c : LibConfig} {x : Sample} {r : Ref E P K} {s t : Lib E P K} {v : Option (List P)}
    (h : DuringToDisk r s t) (h1 : s.cells r.idx = ⟨r.given.estimators, v, none⟩) (h3 : StoredAs c x r.given v)
    (he : r.given.estimators ≠ []) (hv : v ≠ none) : Reads c x t r := by
  cases h with
  | before => exact reads_memory h1 h3 (.inl rfl) (.inl rfl)
  | named d =>
    refine reads_memory (f := some r.given.ident) ?_ h3 (.inr he) (.inr hv)
    dsimp only
    rw [upd_same, h1]
  | halfCleared =>
    refine reads_half (v := v) ?_ ?_ h3
    · dsimp only; rw [upd_same, h1]
    · dsimp only; rw [upd_same, h1]
  | done =>
    refine reads_file (v := v) ?_ ?_ h3
    · exact upd_same _ _ _
    · show upd s.disk _ _ _ = _
      rw [upd_same, h1]

omit [LinearOrder K] in
theorem during_remove {q : Ref E P K} {s t : Lib E P K} (h : DuringRemove q s t)
    (hq : s.cells q.idx = ⟨[], none, some q.given.ident⟩) :
    t.top = s.top ∧ t.other = s.other ∧ t.sample = s.sample ∧ (∀ i, i ≠ q.idx → t.cells i = s.cells i) ∧
      ∀ f, f ≠ q.given.ident → t.disk f = s.disk f := by
  cases h with
  | before => exact ⟨rfl, rfl, rfl, fun _ _ => rfl, fun _ _ => rfl⟩
  | gone f hf =>
    rw [hq] at hf
    cases hf
    exact ⟨rfl, rfl, rfl, fun _ _ => rfl, fun _ h => upd_ne _ _ h⟩
  | done =>
    have e : removeFromDisk q s =
      match (s.cells q.idx).cacheFile with
      | none => (.error .fileNotFound, s)
      | some f =>
        match s.disk f with
        | none => (.error .fileNotFound, s)
        | some _ => (.ok (), { s with
            disk := upd s.disk f none, cells := upd s.cells q.idx { s.cells q.idx with cacheFile := none } }) := by
      unfold removeFromDisk
      rw [bind_ok (show getCell q.idx s = (.ok (s.cells q.idx), s) from rfl)]
      cases (s.cells q.idx).cacheFile with
      | none => rfl
      | some f =>
        dsimp only
        rw [bind_ok get_run]
        cases s.disk f <;> rfl
    rw [e, hq]
    dsimp only
    cases s.disk q.given.ident with
    | none => exact ⟨rfl, rfl, rfl, fun _ _ => rfl, fun _ _ => rfl⟩
    | some d => exact ⟨rfl, rfl, rfl, fun _ h => upd_ne _ _ h, fun _ h => upd_ne _ _ h⟩

theorem leftOff_store {c : LibConfig} {size : Nat} {hist : List (EvalRec E P K)} {s s2 t : Lib E P K}
    {g : EvalRec E P K} (hh : Holds c hist [] s) (h : Cached c size hist s)
    (hps : ∀ l, g.predictions = some l → l.length = size) (hd : DistinctIds (hist ++ [g]))
    (hn : c.n ≠ some 0) (hg : g.error = none → g.estimators ≠ [] ∧ g.predictions ≠ none)
    (hb : BeforeStore c size g s s2)
    (hrun : saveEvaluation c g s = match store c ⟨s.next, g⟩ s2 with
        | (.ok _, s3) => (.ok (), { s3 with
            lookup := fun k => if k = g.pipeline then some ⟨s.next, g⟩ else s3.lookup k })
        | (.error e, s3) => (.error e, s3))
    (ht : DuringStore c ⟨s.next, g⟩ s2 t) : LeftOff c hist g t ∧ t.sample = s2.sample := by
  obtain ⟨v, hcells, hv0, hv1⟩ := hb.cells
  obtain ⟨f1, f2, f3, -⟩ := Cached.save hh h hps hd
  have hnum : numbered (hist ++ [g]) = numbered hist ++ [⟨s.next, g⟩] := by
    rw [numbered_append, hh.next]
  have hold : ∀ r, r ∈ s.top ∨ r ∈ s.other → r ∈ numbered hist := by
    intro r hr
    have := hh.perm.mem_iff (a := r)
    simp only [List.append_nil, List.mem_append] at this
    exact this.1 hr
  have hidx : ∀ r, r ∈ s.top ∨ r ∈ s.other → r.idx ≠ s.next := by
    intro r hr
    have := numbered_lt (hold r hr)
    rw [hh.next]
    omega
  have hident : g.error = none → ∀ r ∈ s.top, r.given.ident ≠ g.ident := by
    intro he r hr e
    have h1 : r ∈ numbered (hist ++ [g]) := by rw [hnum]; exact List.mem_append_left _ (hold r (.inl hr))
    have h2 : (⟨s.next, g⟩ : Ref E P K) ∈ numbered (hist ++ [g]) := by rw [hnum]; simp
    have := DistinctIds.eq hd h1 h2 (hh.noerr r hr) he e
    exact hidx r (.inl hr) (by rw [this])
  have hstold : ∀ r, r ∈ s.top → ∀ v, StoredAs c s.sample r.given v → StoredAs c s2.sample r.given v := by
    intro r hr v hst
    rcases hb.sample with e | ⟨e, _⟩
    · rw [e]; exact hst
    · exact hst.resample fun hc => h.unset e hc _ (numbered_given_mem (hold r (.inl hr)))
  have hstnew : StoredAs c s2.sample g v := ⟨hv0, fun hc => (hv1 hc).1⟩
  have hcold : ∀ r, r ∈ s.top → s2.cells r.idx = s.cells r.idx := by
    intro r hr
    rw [hcells, upd_ne _ _ (hidx r (.inl hr))]
  have hcnew : s2.cells s.next = ⟨g.estimators, v, none⟩ := by rw [hcells, upd_same]
  -- the old evaluations can be read
  have readOld : ∀ {t : Lib E P K} {r : Ref E P K}, r ∈ s.top → t.cells r.idx = s2.cells r.idx →
      t.disk r.given.ident = s2.disk r.given.ident → Reads c s2.sample t r := by
    intro t r hr h1 h2
    obtain ⟨a, w, b, d⟩ := h.kept r hr
    refine reads_file (v := w) ?_ ?_ (hstold r hr w d)
    · rw [h1, hcold r hr]; exact a
    · rw [h2, hb.disk]; exact b
  have stored : ∀ {t : Lib E P K}, t.sample = s2.sample → (∀ r ∈ t.top, Reads c s2.sample t r) →
      ∀ r ∈ t.top, readEstimators t r = .ok r.given.estimators ∧
        ∃ v, readPredictions t r = .ok v ∧ Stored t.sample.toRows r.given.predictions v := by
    intro t e hr r hrt
    obtain ⟨g1, v', g2, g3⟩ := hr r hrt
    exact ⟨g1, v', g2, by rw [e]; exact g3.2 hn⟩
  have lostOf : ∀ {t : Lib E P K} (l : List (Ref E P K)), l.length ≤ 1 → t.other = s.other →
      (t.top ++ l).Perm (⟨s.next, g⟩ :: s.top) →
      ∃ l : List (Ref E P K), l.length ≤ 1 ∧ (t.top ++ (t.other ++ l)).Perm (numbered (hist ++ [g])) := by
    intro t l hl ho hp
    refine ⟨l, hl, ?_⟩
    rw [hnum, ho]
    have hperm : (s.top ++ s.other).Perm (numbered hist) := by simpa using hh.perm
    have e1 : (t.top ++ (s.other ++ l)).Perm ((t.top ++ l) ++ s.other) := by
      rw [List.append_assoc]; exact List.perm_append_comm.append_left _
    have e2 : ((⟨s.next, g⟩ :: s.top) ++ s.other).Perm ((⟨s.next, g⟩ : Ref E P K) :: numbered hist) := by
      rw [List.cons_append]; exact hperm.cons _
    exact (e1.trans (hp.append_right _)).trans (e2.trans (List.perm_append_singleton _ _).symm)
  -- what is kept is what was kept before
  have same : ∀ {t : Lib E P K}, Beside s2 ⟨s.next, g⟩ t → g.error = none ∨ t.disk = s2.disk → t.top.Perm s.top →
      LeftOff c hist g t ∧ t.sample = s2.sample := by
    intro t u hdisk hp
    refine ⟨⟨⟨hist, Or.inl rfl, ?_⟩, ?_, ?_, g.ident, ?_⟩, u.sample⟩
    · obtain ⟨b1, b2⟩ := bestOf_holds hh
      exact ⟨fun m hm => BestOf.perm (b1 m hm) hp, fun hm => hp.trans (b2 hm)⟩
    · refine lostOf [⟨s.next, g⟩] (by simp) (u.other.trans hb.other) ?_
      exact (List.perm_append_singleton _ _).trans (hp.cons _)
    · refine stored u.sample fun r hr => ?_
      have hr := hp.mem_iff.1 hr
      refine readOld hr (u.cells _ (hidx r (.inl hr))) ?_
      rcases hdisk with he | hdisk
      · exact u.disk _ (hident he r hr)
      · rw [hdisk]
    · intro f hf
      by_cases e : f = g.ident
      · exact Or.inl e
      · rw [u.disk f e, hb.disk] at hf
        obtain ⟨r, hr, e⟩ := h.only f hf
        exact Or.inr ⟨r, hp.mem_iff.2 hr, e⟩
  -- the end of the saving
  have whole : LeftOff c hist g (store c ⟨s.next, g⟩ s2).2 ∧
      (store c ⟨s.next, g⟩ s2).2.top = (saveEvaluation c g s).2.top := by
    have := leftOff_saved hn f2 f3
    rw [hrun] at this ⊢
    cases hr : store c ⟨s.next, g⟩ s2 with
    | mk o s3 =>
      rw [hr] at this
      cases o with
      | ok a => exact ⟨this.congr rfl rfl rfl rfl rfl, rfl⟩
      | error e => exact ⟨this, rfl⟩
  -- what is kept is what is kept afterwards
  have later : ∀ {t : Lib E P K} (l : List (Ref E P K)), l.length ≤ 1 → t.other = s.other →
      t.sample = s2.sample → t.top.Perm (saveEvaluation c g s).2.top →
      (t.top ++ l).Perm (⟨s.next, g⟩ :: s.top) → (∀ r ∈ t.top, Reads c s2.sample t r) →
      (∃ stray : Nat, ∀ f, t.disk f ≠ none → f = stray ∨ ∃ r ∈ t.top, r.given.ident = f) →
      LeftOff c hist g t ∧ t.sample = s2.sample := by
    intro t l hl ho hs hp hp2 hr hf
    refine ⟨⟨⟨hist ++ [g], Or.inr rfl, ?_⟩, lostOf l hl ho hp2, stored hs hr, hf⟩, hs⟩
    obtain ⟨b1, b2⟩ := bestOf_holds f2
    exact ⟨fun m hm => BestOf.perm (b1 m hm) hp, fun hm => hp.trans (b2 hm)⟩
  -- the evaluation is in the place of another one
  have pop : ∀ {q : Ref E P K} {h' : List (Ref E P K)}, g.error = none → hasRoom c.m s2.top.length = false →
      heappushpop (fun r : Ref E P K => r.given.score) s2.top ⟨s.next, g⟩ = (q, h') →
      q.given.score < g.score → q ∈ s.top → (q :: h').Perm (⟨s.next, g⟩ :: s.top) →
      h' = (saveEvaluation c g s).2.top ∧ (∀ t ∈ h', t ≠ ⟨s.next, g⟩ → t ∈ s.top) ∧
      (∀ t ∈ h', t.given.ident ≠ q.given.ident) ∧ (∀ t ∈ h', t.idx ≠ q.idx) := by
    intro q h' he hroom hpp hlt hqm hp
    have hmem : ∀ x ∈ q :: h', x ∈ numbered (hist ++ [g]) := by
      intro x hx
      rw [hp.mem_iff, List.mem_cons] at hx
      rw [hnum]
      rcases hx with rfl | hx
      · simp
      · exact List.mem_append_left _ (hold x (.inl hx))
    have hnd : (q :: h').Nodup := by
      rw [hp.nodup_iff]
      have h1 : (numbered (hist ++ [g])).Nodup := numbered_nodup _
      rw [hnum] at h1
      have h2 : (⟨s.next, g⟩ :: (s.top ++ (s.other ++ []))).Nodup := by
        rw [((hh.perm.cons _).trans (List.perm_append_singleton _ _).symm).nodup_iff]
        exact h1
      rw [← List.cons_append] at h2
      exact (List.nodup_append.1 h2).1
    have hfree : ∀ x ∈ q :: h', x.given.error = none := by
      intro x hx
      rw [hp.mem_iff, List.mem_cons] at hx
      rcases hx with rfl | hx
      · exact he
      · exact hh.noerr x hx
    have hid : ∀ t ∈ h', t.given.ident ≠ q.given.ident := by
      intro t ht e
      have hx : t ≠ q := by
        rintro rfl
        exact (List.nodup_cons.1 hnd).1 ht
      exact hx (DistinctIds.eq hd (hmem t (by simp [ht])) (hmem q (by simp)) (hfree t (by simp [ht]))
        (hfree q (by simp)) e)
    refine ⟨?_, ?_, hid, ?_⟩
    · rw [← whole.2]
      have := store_pop c ⟨s.next, g⟩ s2 he hroom hpp hlt
      dsimp only at this
      rw [this]
      split
      · rfl
      · split <;> rfl
    · intro t ht hne
      have : t ∈ q :: h' := List.mem_cons_of_mem _ ht
      rw [hp.mem_iff, List.mem_cons] at this
      exact this.resolve_left hne
    · intro t ht e
      have h1 := mem_numbered.1 (hmem t (by simp [ht]))
      have h2 := mem_numbered.1 (hmem q (by simp))
      rw [e, h2] at h1
      apply hid t ht
      injection h1 with h1
      rw [h1]
  have vsome : g.error = none → v ≠ none := by
    intro he e
    have := (hv1 hn).1
    cases hp : g.predictions with
    | none => exact (hg he).2 hp
    | some l =>
      rw [hp] at this
      obtain ⟨l', e', -⟩ := this
      rw [e] at e'; cases e'
  have self : Beside s2 ⟨s.next, g⟩ s2 := ⟨rfl, rfl, fun _ _ => rfl, fun _ _ => rfl⟩
  cases ht with
  | before => exact same self (.inr rfl) (by rw [hb.top])
  | done =>
    exact ⟨whole.1, KeepsSample.store c _ s2⟩
  | error he hs =>
    obtain ⟨u, e, d⟩ := untouched_discard hs
    exact same u (.inr d) (by rw [e, hb.top])
  | room he hroom hs =>
    obtain ⟨u, e⟩ := untouched_toDisk hs
    exact same u (.inl he) (by rw [e, hb.top])
  | push h' he hroom hp =>
    rw [hb.top] at hp
    have hu := (untouched_toDisk (DuringToDisk.done (r := (⟨s.next, g⟩ : Ref E P K)) (s := s2))).1
    refine later [] (by simp) hb.other rfl ?_ (by simpa using hp) ?_ ⟨0, ?_⟩
    · rw [← whole.2, store_room c ⟨s.next, g⟩ s2 he hroom]
      rw [hb.top]
      exact hp.trans (heappush_spec hh.heap (⟨s.next, g⟩ : Ref E P K)).2.symm
    · intro r hr
      rcases List.mem_cons.1 (hp.mem_iff.1 hr) with rfl | hr
      · refine reads_file (v := v) (upd_same _ _ _) ?_ hstnew
        show upd s2.disk _ _ _ = _
        rw [upd_same]
        dsimp only
        rw [hcnew]
      · exact readOld hr (hu.cells _ (hidx r (.inl hr))) (hu.disk _ (hident he r hr))
    · intro f hf
      refine Or.inr ?_
      by_cases e : f = g.ident
      · exact ⟨⟨s.next, g⟩, hp.mem_iff.2 (by simp), e.symm⟩
      · have := hu.disk f e
        rw [show (toDisk ⟨s.next, g⟩ s2).2.disk f = s2.disk f from this, hb.disk] at hf
        obtain ⟨r, hr, e⟩ := h.only f hf
        exact ⟨r, hp.mem_iff.2 (by simp [hr]), e⟩
  | pushpop h' he hroom hp =>
    rcases heappushpop_spec hh.heap (⟨s.next, g⟩ : Ref E P K) with
      ⟨hpp, _⟩ | ⟨q, h'', hpp, hlt, hqm, _, _, hp'⟩
    · rw [hb.top, hpp] at hp
      exact same ⟨rfl, rfl, fun _ _ => rfl, fun _ _ => rfl⟩ (.inr rfl) hp
    · rw [← hb.top] at hpp
      obtain ⟨p1, p2, p3, p4⟩ := pop he hroom hpp hlt hqm hp'
      rw [hpp] at hp
      refine later [q] (by simp) hb.other rfl (p1 ▸ hp) ?_ ?_ ⟨q.given.ident, ?_⟩
      · exact ((List.perm_append_singleton _ _).trans (hp.cons _)).trans hp'
      · intro r hr
        by_cases e : r = ⟨s.next, g⟩
        · subst e
          exact reads_memory hcnew hstnew (.inl rfl) (.inl rfl)
        · exact readOld (p2 r (hp.mem_iff.1 hr) e) rfl rfl
      · intro f hf
        dsimp only at hf
        rw [hb.disk] at hf
        obtain ⟨r, hr, e⟩ := h.only f hf
        have : r ∈ q :: h'' := hp'.mem_iff.2 (by simp [hr])
        rcases List.mem_cons.1 this with rfl | hr
        · exact Or.inl e.symm
        · exact Or.inr ⟨r, hp.mem_iff.2 hr, e⟩
  | back he hroom heq hs =>
    rcases heappushpop_spec hh.heap (⟨s.next, g⟩ : Ref E P K) with
      ⟨hpp, _⟩ | ⟨q, h'', hpp, hlt, hqm, _, _, hp'⟩
    · rw [hb.top, hpp] at hs
      obtain ⟨u, e, d⟩ := untouched_discard hs
      exact same ⟨u.other, u.sample, u.cells, u.disk⟩ (.inr d) (by rw [e])
    · rw [hb.top, hpp] at heq
      exact absurd heq (ne_of_lt hlt)
  | replace he hroom hne hs =>
    rcases heappushpop_spec hh.heap (⟨s.next, g⟩ : Ref E P K) with
      ⟨hpp, _⟩ | ⟨q, h'', hpp, hlt, hqm, _, _, hp'⟩
    · rw [hb.top, hpp] at hne
      exact absurd rfl hne
    · rw [← hb.top] at hpp
      obtain ⟨p1, p2, p3, p4⟩ := pop he hroom hpp hlt hqm hp'
      rw [hpp] at hs
      obtain ⟨u, e⟩ := untouched_toDisk hs
      dsimp only at e
      refine later [q] (by simp) (u.other.trans hb.other) u.sample (by rw [e, p1]) ?_ ?_ ⟨q.given.ident, ?_⟩
      · rw [e]; exact (List.perm_append_singleton _ _).trans hp'
      · intro r hr
        rw [e] at hr
        by_cases e' : r = ⟨s.next, g⟩
        · subst e'
          exact reads_toDisk hs hcnew hstnew (hg he).1 (vsome he)
        · have hr := p2 r hr e'
          exact readOld hr (u.cells _ (hidx r (.inl hr))) (u.disk _ (hident he r hr))
      · intro f hf
        rw [e]
        by_cases e' : f = g.ident
        · have : (⟨s.next, g⟩ : Ref E P K) ∈ q :: h'' := hp'.mem_iff.2 (by simp)
          rcases List.mem_cons.1 this with e'' | hr
          · exact absurd rfl (hidx _ (.inl (e'' ▸ hqm)))
          · exact Or.inr ⟨_, hr, e'.symm⟩
        · rw [u.disk f e'] at hf
          dsimp only at hf
          rw [hb.disk] at hf
          obtain ⟨r, hr, e⟩ := h.only f hf
          have : r ∈ q :: h'' := hp'.mem_iff.2 (by simp [hr])
          rcases List.mem_cons.1 this with rfl | hr
          · exact Or.inl e.symm
          · exact Or.inr ⟨r, hr, e⟩
  | remove he hroom hne hs =>
    rcases heappushpop_spec hh.heap (⟨s.next, g⟩ : Ref E P K) with
      ⟨hpp, _⟩ | ⟨q, h'', hpp, hlt, hqm, _, _, hp'⟩
    · rw [hb.top, hpp] at hne
      exact absurd rfl hne
    · rw [← hb.top] at hpp
      obtain ⟨p1, p2, p3, p4⟩ := pop he hroom hpp hlt hqm hp'
      rw [hpp] at hs
      dsimp only at hs
      have hcq : (toDisk ⟨s.next, g⟩ { s2 with top := h'' }).2.cells q.idx =
          (⟨[], none, some q.given.ident⟩ : EvalCell E P) := by
        show upd s2.cells s.next _ q.idx = _
        rw [upd_ne _ _ (hidx q (.inl hqm)), hcold q hqm]
        exact (h.kept q hqm).1
      obtain ⟨r1, r2, r3, r4, r5⟩ := during_remove hs hcq
      have hu := (untouched_toDisk (DuringToDisk.done (r := (⟨s.next, g⟩ : Ref E P K))
        (s := { s2 with top := h'' }))).1
      have e : t.top = h'' := r1
      refine later [q] (by simp) (r2.trans hb.other) r3 (by rw [e, p1]) ?_ ?_ ⟨q.given.ident, ?_⟩
      · rw [e]; exact (List.perm_append_singleton _ _).trans hp'
      · intro r hr
        rw [e] at hr
        have e1 := r4 _ (p4 r hr)
        have e2 := r5 _ (p3 r hr)
        by_cases e' : r = ⟨s.next, g⟩
        · subst e'
          refine reads_file (v := v) ?_ ?_ hstnew
          · rw [e1]; exact upd_same _ _ _
          · rw [e2]
            show upd s2.disk _ _ _ = _
            rw [upd_same]
            dsimp only
            rw [hcnew]
        · have hr := p2 r hr e'
          exact readOld hr (e1.trans (hu.cells _ (hidx r (.inl hr)))) (e2.trans (hu.disk _ (hident he r hr)))
      · intro f hf
        rw [e]
        by_cases eq : f = q.given.ident
        · exact Or.inl eq
        rw [r5 f eq] at hf
        by_cases e' : f = g.ident
        · have : (⟨s.next, g⟩ : Ref E P K) ∈ q :: h'' := hp'.mem_iff.2 (by simp)
          rcases List.mem_cons.1 this with e'' | hr
          · exact absurd rfl (hidx _ (.inl (e'' ▸ hqm)))
          · exact Or.inr ⟨_, hr, e'.symm⟩
        · rw [hu.disk f e'] at hf
          dsimp only at hf
          rw [hb.disk] at hf
          obtain ⟨r, hr, e⟩ := h.only f hf
          have : r ∈ q :: h'' := hp'.mem_iff.2 (by simp [hr])
          rcases List.mem_cons.1 this with rfl | hr
          · exact Or.inl e.symm
          · exact Or.inr ⟨r, hr, e⟩

/-- What is left of a library, wherever the saving is cut off, with the rows. -/
theorem leftOff_save {c : LibConfig} {size : Nat} {hist : List (EvalRec E P K)} {s t : Lib E P K}
    {g : EvalRec E P K} (hh : Holds c hist [] s) (h : Cached c size hist s)
    (hps : ∀ l, g.predictions = some l → l.length = size) (hd : DistinctIds (hist ++ [g]))
    (hn : c.n ≠ some 0) (hg : g.error = none → g.estimators ≠ [] ∧ g.predictions ≠ none)
    (ht : DuringSave c g s t) : LeftOff c hist g t ∧ (t.sample = s.sample ∨
        s.sample = .notSet ∧ ChosenRows c.n size t.sample) := by
  have hwp := wp_processPredictions (c := c) (ps := g.predictions)
    ({ s with next := s.next + 1 } : Lib E P K) h.range hps
  obtain ⟨s2, hb, hrun⟩ := save_run (c := c) g s h.range hps
  have start : LeftOff c hist g s2 := (leftOff_store hh h hps hd hn hg hb hrun .before).1
  -- nothing but the rows has changed
  have early : ∀ {t : Lib E P K}, t.top = s.top → t.other = s.other → t.cells = s.cells → t.disk = s.disk →
      (t.sample = s.sample ∨ s.sample = .notSet ∧ ChosenRows c.n size t.sample) → LeftOff c hist g t := by
    intro t h1 h2 h3 h4 h5
    refine ⟨?_, by rw [h1, h2, ← hb.top, ← hb.other]; exact start.lost, ?_, ?_⟩
    · refine ⟨hist, Or.inl rfl, ?_⟩
      rw [h1]
      exact bestOf_holds hh
    · rw [h1]
      intro r hr
      obtain ⟨a, w, b, d⟩ := h.kept r hr
      have hd : StoredAs c t.sample r.given w := by
        rcases h5 with e | ⟨e, _⟩
        · rw [e]; exact d
        · refine d.resample fun hc => h.unset e hc _ (numbered_given_mem ?_)
          exact hh.perm.mem_iff.1 (List.mem_append_left _ hr)
      obtain ⟨g1, v', g2, g3⟩ := reads_file (t := t) (by rw [h3]; exact a) (by rw [h4]; exact b) hd
      exact ⟨g1, v', g2, g3.2 hn⟩
    · rw [h1, h4]
      exact ⟨0, fun f hf => Or.inr (h.only f hf)⟩
  cases ht with
  | before => exact ⟨early rfl rfl rfl rfl (.inl rfl), .inl rfl⟩
  | drawing rnd => exact ⟨early rfl rfl rfl rfl (.inl rfl), .inl rfl⟩
  | processed =>
    cases hr : processPredictions c g.predictions ({ s with next := s.next + 1 } : Lib E P K) with
    | mk o s1 =>
      cases o with
      | error e => exact absurd (wp_error hwp hr) id
      | ok v =>
        obtain ⟨⟨x, rnd, rfl⟩, h2, h3, -⟩ := wp_ok hwp hr
        exact ⟨early rfl rfl rfl rfl h3, h3⟩
  | store ps s1 t hr hs =>
    obtain ⟨⟨x, rnd, rfl⟩, h2, h3, h4, h5⟩ := wp_ok hwp hr
    have hb' : BeforeStore c size g s { s with
        next := s.next + 1, sample := x, rnd := rnd, cells := upd s.cells s.next ⟨g.estimators, ps, none⟩ } :=
      ⟨rfl, rfl, rfl, rfl, rfl, h2, h3, ps, rfl, h4, h5⟩
    have hrun' : saveEvaluation c g s = match store c ⟨s.next, g⟩ ({ s with
        next := s.next + 1, sample := x, rnd := rnd, cells := upd s.cells s.next ⟨g.estimators, ps, none⟩ } :
          Lib E P K) with
        | (.ok _, s3) => (.ok (), { s3 with
            lookup := fun k => if k = g.pipeline then some ⟨s.next, g⟩ else s3.lookup k })
        | (.error e, s3) => (.error e, s3) := by
      unfold saveEvaluation
      rw [bind_ok get_run]
      dsimp only
      rw [bind_ok modify_run, bind_ok hr]
      unfold setCell
      rw [bind_ok modify_run, bind_run]
      dsimp only
      split <;> rename_i heq <;> rw [heq] <;> rfl
    obtain ⟨a, b⟩ := leftOff_store hh h hps hd hn hg hb' hrun' hs
    exact ⟨a, by rw [b]; exact h3⟩
  | done =>
    obtain ⟨-, f2, f3, f4⟩ := Cached.save hh h hps hd
    exact ⟨leftOff_saved hn f2 f3, f4⟩

/-- **C160** for the library: wherever the saving of an evaluation is cut off, whatever was saved before,
what is kept is the best of what was saved, with or without that evaluation, and can be read; at most one
evaluation is missing and at most one file is left over. -/
theorem C160_library (c : LibConfig) (hn : c.n ≠ some 0) {size : Nat} {stratify : Option Nat}
    (hstrat : ∀ k, stratify = some k → k = size) {rnd : Stream} {s0 : Lib E P K}
    (hlib : startLibrary c stratify rnd = .ok s0) (hist : List (EvalRec E P K)) (g : EvalRec E P K)
    (hsize : SameSize size (hist ++ [g])) (hids : DistinctIds (hist ++ [g]))
    (hg : g.error = none → g.estimators ≠ [] ∧ g.predictions ≠ none) {t : Lib E P K}
    (ht : DuringSave c g (saveAll c hist s0) t) : LeftOff c hist g t := by
  obtain ⟨l1, l2, -⟩ := startLibrary_spec hstrat hlib
  have hd : DistinctIds hist := hids.sublist (List.sublist_append_left _ _)
  obtain ⟨g1, g2, -⟩ := Cached.saveAll hist [] s0 l1 l2 (fun r hr => hsize r (by simp [hr])) (by simpa using hd)
  rw [List.nil_append] at g1 g2
  exact (leftOff_save g1 g2 (hsize g (by simp)) hids hn hg ht).1

/-! ## The ensemble -/

variable {α γ : Type}

omit [LinearOrder K] in
theorem modelOf_read {size : Nat} {s : Lib E P K} {t : Ref E P K} {v : Option (List P)}
    (he : readEstimators s t = .ok t.given.estimators) (hv : readPredictions s t = .ok v)
    (hst : Stored s.sample.toRows t.given.predictions v) {ps : List P}
    (hps : t.given.predictions = some ps) (hlen : ps.length = size) (trans : P → γ → ℚ) {drawn : List Nat}
    (hd : 10000 < (storedRows size s.sample).length →
      Drawn drawn (storedRows size s.sample).length 10000)
    (hall : ∀ i ∈ scoredRows drawn (storedRows size s.sample), i < size) :
    ∃ m, modelOf trans (predictionSample (some 10000) drawn (storedRows size s.sample).length) s t = .ok m ∧
      ModelFrom trans (scoredRows drawn (storedRows size s.sample)) t.given m := by
  rw [hps] at hst
  obtain ⟨l', rfl, hrow⟩ := hst
  have hstored : ilocRows ps (storedRows size s.sample) = .ok l' := by
    cases hx : s.sample with
    | rows idx =>
      rw [hx] at hrow
      exact ilocRows_ok.2 hrow.symm
    | all => rw [hx] at hrow; rw [← hlen]; rw [show l' = ps from hrow]; exact ilocRows_range ps
    | notSet => rw [hx] at hrow; rw [← hlen]; rw [show l' = ps from hrow]; exact ilocRows_range ps
  obtain ⟨out, hout, _⟩ := ilocRows_exists (l := ps) (is := scoredRows drawn (storedRows size s.sample))
    (by rw [hlen]; exact hall)
  refine ⟨⟨t.given.ident, entry (out.map trans), t.given.estimators⟩, ?_, rfl, rfl, ps, hps, ?_⟩
  · unfold modelOf
    rw [hv]
    dsimp only
    rw [sampledRows_scored hd (ilocRows_map trans hstored), ilocRows_map trans hout]
    dsimp only
    rw [he]
  · intro i j hij
    have h1 := congrArg (fun x => x[i]?) (ilocRows_ok.1 hout)
    simp only [List.getElem?_map, hij, Option.map_some] at h1
    cases ho : out[i]? with
    | none => rw [ho] at h1; cases h1
    | some p =>
      rw [ho] at h1
      injection h1 with h1
      refine ⟨p, h1, fun k => ?_⟩
      show entry (out.map trans) (i, k) = trans p k
      unfold entry
      rw [List.getElem?_map, ho]
      rfl

/-- An ensemble is made from any library that keeps the best evaluations and can read them. -/
theorem ensemble_of_kept (metric : List α → (Nat × γ → ℚ) → Except Exn Score) (trans : P → γ → ℚ)
    {hill maxModels : Option Nat} {y : List α} {hist : List (EvalRec E P (List Score))}
    (hsize : SameSize y.length hist) (hpred : ∀ g ∈ hist, g.error = none → g.predictions ≠ none)
    (probabilities : Bool) {drawn : List Nat}
    (hdrawn : 10000 < min (hill.getD 10000) y.length → Drawn drawn (min (hill.getD 10000) y.length) 10000)
    (hprob : probabilities = false ∨ min (hill.getD 10000) y.length ≤ 10000)
    (size : Int) (timeout : ℚ) {s : Lib E P (List Score)}
    (hchosen : ChosenRows (some (hill.getD 10000)) y.length s.sample)
    (hbest : BestOf (fun t : Ref E P (List Score) => t.given.score) (maxModels.getD 200) (errorFree hist) s.top)
    (hread : ∀ r ∈ s.top, readEstimators s r = .ok r.given.estimators ∧
      ∃ v, readPredictions s r = .ok v ∧ Stored s.sample.toRows r.given.predictions v) :
    EnsembleOf metric trans hill maxModels y size timeout hist
      (buildFromLibrary metric trans probabilities drawn size timeout (gamaLibrary hill maxModels) y s) := by
  have hns : s.sample ≠ .notSet := by
    intro h; rw [h] at hchosen; exact hchosen
  obtain ⟨hbn, hbin, hblen⟩ : (storedRows y.length s.sample).Nodup ∧
      (∀ i ∈ storedRows y.length s.sample, i < y.length) ∧
      (storedRows y.length s.sample).length = min (hill.getD 10000) y.length := by
    cases hx : s.sample with
    | notSet => exact absurd hx hns
    | all =>
      rw [hx] at hchosen
      have := hchosen _ rfl
      refine ⟨List.nodup_range, fun i hi => List.mem_range.1 hi, ?_⟩
      simp only [storedRows, List.length_range]
      omega
    | rows idx =>
      rw [hx] at hchosen
      obtain ⟨h1, h2, k, h3, h4, h5⟩ := hchosen
      injection h3 with h3
      refine ⟨h1, h2, ?_⟩
      simp only [storedRows]
      omega
  rw [← hblen] at hdrawn hprob
  obtain ⟨labels, hinit, hlab⟩ := ensembleInit_scored (x := s.sample) (y := y) (probabilities := probabilities)
    hns rfl hbin hdrawn hprob
  obtain ⟨hr1, hr2, hr3⟩ := scoredRows_spec hdrawn hbn hbin
  have hnb : nBest (gamaLibrary hill maxModels) 200 true s =
      nlargest (fun t : Ref E P (List Score) => t.given.score) 200 s.top := by
    unfold nBest; rw [if_pos (by simp)]
  have htop : ∀ r ∈ nBest (gamaLibrary hill maxModels) 200 true s, r ∈ s.top := by
    intro r hr
    rw [hnb] at hr
    unfold nlargest at hr
    exact (pySorted_perm _ _).mem_iff.1 (List.mem_of_mem_take hr)
  have hfree : ∀ r ∈ s.top, r ∈ errorFree hist := by
    obtain ⟨o, h1, -⟩ := hbest
    exact fun r hr => h1.mem_iff.1 (List.mem_append_left _ hr)
  obtain ⟨models, hm1, hm2⟩ := modelsOf_from (trans := trans)
    (sample := predictionSample (some 10000) drawn (storedRows y.length s.sample).length) (s := s)
    (R := fun r m => ModelFrom trans (scoredRows drawn (storedRows y.length s.sample)) r.given m)
    (rs := nBest (gamaLibrary hill maxModels) 200 true s) (by
      intro r hr
      have ht := htop r hr
      obtain ⟨hg, he⟩ := errorFree_given (hfree r ht)
      obtain ⟨ps, hps⟩ := Option.ne_none_iff_exists'.1 (hpred _ hg he)
      obtain ⟨h1, v, h2, h3⟩ := hread r ht
      exact modelOf_read h1 h2 h3 hps (hsize _ hg _ hps) trans hdrawn hr2)
  refine ⟨scoredRows drawn (storedRows y.length s.sample), labels, nBest (gamaLibrary hill maxModels) 200 true s,
    models, ?_, hr1, hr2, by rw [hr3, hblen], (ilocRows_ok.1 hlab).symm, ?_, ?_, hm2⟩
  · unfold buildFromLibrary
    rw [hinit]
    dsimp only
    rw [hm1]
  · rw [hnb]
    exact (nlargest_spec _ 200 s.top).1
  · rw [hnb]
    exact BestOf.both hbest (nlargest_spec _ 200 s.top).2

end

section
variable {S I A B J Fn V X Ω E P α γ : Type}

/-- The evaluation that was being saved. -/
theorem cutOff_cases {U : Setup S I A B J Fn V X Ω E P} (hC : U.client.Lawful)
    (hset : ∀ p q s t, U.client.setPending p s = U.client.setPending q t → p = q)
    (hK : Faithful U.coding U.jobs) {D : List (Str × V)} {start : S}
    (hs : U.client.setPending [] start = start) (hh : U.client.history start = [])
    (hsub : U.client.submitted start = []) {e : Exn} {s t : Whole S Fn V X E P}
    (h : JointOK U.client U.coding U.jobs D (fun _ _ _ => True) start s.joint) (ht : CutOff U e s t) :
    ∃ j r, U.client.waits s.joint.search = true ∧ Expected U s.joint.search j ∧ Returned U D j r ∧
      DuringSave U.lib r s.lib t.lib ∧
      t.joint.search = U.client.step (U.client.waited (.raises e)) s.joint.search := by
  obtain ⟨r₁, r₂, r₃, o, f, ev, v, lib, hr, hf, hd⟩ := ht
  obtain ⟨⟨tr, hg⟩, hcoded, hwait, -⟩ := id h
  have hk := iterate_cases hg r₁ r₂ r₃ o
  rw [hr] at hk
  dsimp only at hk
  rcases hk with ⟨h1, -⟩ | ⟨e, h1, -⟩ | ⟨f', m, pre, post, h1, h2, h3, h4, h5, e1, e2, e3, h6⟩
  · cases h1
  · cases h1
  · cases h1
    have hws := hwait h3
    have hm : Coded U.coding m := hcoded (f.id, m) (by rw [h4]; simp)
    obtain ⟨j, j1, j2, j3⟩ := hm
    have hin : j ∈ pendingJobs U.coding s.joint.ev := by
      unfold pendingJobs
      refine List.mem_map.2 ⟨(f.id, m), by rw [h4]; simp, ?_⟩
      dsimp only
      rw [j1, j2, j3]; exact hK.job j
    have haw := awaited_of_ok hC hset hs hh hsub h hws hin
    rcases returned_of_reports hK j1 j2 j3 h6 (U.world s.joint.search) with ⟨a1, -⟩ | ⟨v', a1, a2, a3, a4⟩
    · rw [a1] at hf; cases hf
    · rw [a1] at hf
      cases hf
      refine ⟨j, _, hws, haw, a4, hd, ?_⟩
      unfold wholeStep
      dsimp only
      rw [hr]
      dsimp only [afterCallback]
      unfold jointStep
      dsimp only
      rw [hr]
      rfl

/-- What a search that is cut off leaves, for searches that submit each individual once: `told` is what it was
told, `r` the evaluation that was being saved. -/
theorem cut_general {U : Setup S I A B J Fn V X Ω E P} (hC : U.client.Lawful)
    (hset : ∀ p q s t, U.client.setPending p s = U.client.setPending q t → p = q)
    (hK : Faithful U.coding U.jobs) (ha : Agrees U) (hp : Predicts U) (hes : Estimates U)
    (hid : OneEach U) (hn : U.lib.n ≠ some 0)
    {rows : Nat} (hrows : RowsAre U rows) {stratify : Option Nat}
    (hstrat : ∀ k, stratify = some k → k = rows) {rnd : Stream} {lib₀ : Lib E P (List Score)}
    (hlib : startLibrary U.lib stratify rnd = .ok lib₀) {D : List (Str × V)} {start : S}
    (hs : U.client.setPending [] start = start) (hh : U.client.history start = [])
    (hsub : U.client.submitted start = []) (n : Nat) (limit : Option ℚ) (logfile : Bool)
    (es : List (WholeEvent B Ω)) {e : Exn} {t : Whole S Fn V X E P}
    (hnd : (U.client.submitted (wholeRun U es (wholeStart start lib₀ n limit logfile D)).joint.search).Nodup)
    (ht : CutOff U e (wholeRun U es (wholeStart start lib₀ n limit logfile D)) t) :
    ∃ told r j, List.Forall₂ (ToldAs U D) (results (U.client.history t.joint.search)) told ∧
      Returned U D j r ∧ j ∈ U.client.submitted t.joint.search ∧
      j ∉ (U.client.history t.joint.search).map Prod.fst ∧ SameSize rows (told ++ [r]) ∧
      LeftOff U.lib told r t.lib ∧
      (t.lib.sample = lib₀.sample ∨ lib₀.sample = .notSet ∧ ChosenRows U.lib.n rows t.lib.sample) ∧
      (t.lib.sample = .notSet → ∀ g ∈ told, g.predictions = none) := by
  have hok := whole_ok hC hset hK ha hs hh hsub lib₀ n limit logfile D es
  have hmoves := whole_moves hC hset hK ha hs hh hsub lib₀ n limit logfile D es
  obtain ⟨j, r, hws, hexp, hret, hdur, hstep⟩ := cutOff_cases hC hset hK hs hh hsub hok ht
  have hrec : Records U D lib₀ (fun _ _ => True) (wholeRun U es (wholeStart start lib₀ n limit logfile D)).core :=
    hmoves.induct ⟨[], [], rfl, by
        show List.Forall₂ _ (results (U.client.history start)) []
        rw [hh]; exact .nil, Or.inl rfl, fun _ h => nomatch h⟩ fun x y hm ih =>
      records_move hC hm (fun _ _ => trivial) (fun _ _ _ _ _ => trivial) ih
  generalize wholeRun U es (wholeStart start lib₀ n limit logfile D) = s at *
  obtain ⟨told, extra, h1, h2, h3, -⟩ := hrec
  have hx : extra = [] := by
    rcases h3 with h3 | ⟨_, _, -, -, h3, -⟩
    · exact h3
    · have := h3.1
      rw [show U.client.waits s.core.1 = true from hws] at this; cases this
  subst hx
  rw [List.append_nil] at h1
  have h1 : s.lib = saveAll U.lib told lib₀ := h1
  obtain ⟨-, r2, r3, -⟩ := hC.raises e s.joint.search [] hws
  have hhist : U.client.history t.joint.search = U.client.history s.joint.search := by rw [hstep, r3]
  have hsubm : U.client.submitted t.joint.search = U.client.submitted s.joint.search := by rw [hstep, r2]
  have hnodup : ((U.client.history s.joint.search).map Prod.fst ++ [j]).Nodup := by
    obtain ⟨l', p, sl⟩ := id hexp
    exact p.nodup_iff.1 (hnd.sublist sl)
  have hdistinct : DistinctIds (told ++ [r]) := by
    have htold : List.Forall₂ (Returned U D) ((results (U.client.history s.joint.search)).map Prod.fst) told :=
      List.forall₂_map_left_iff.2 (h2.imp fun _ _ h => h.1)
    refine distinct_returned hid (forall₂_snoc htold hret) (List.Nodup.sublist ?_ hnodup)
    exact ((results_sublist _).map _).append (List.Sublist.refl _)
  have hsize : SameSize rows (told ++ [r]) := by
    intro g hg
    rcases List.mem_append.1 hg with hg | hg
    · obtain ⟨x, -, hx⟩ := forall₂_right h2 g hg
      exact rows_of_returned hrows hx.1
    · rw [List.mem_singleton.1 hg]
      exact rows_of_returned hrows hret
  obtain ⟨l1, l2, -⟩ := startLibrary_spec hstrat hlib
  have hd : DistinctIds told := hdistinct.sublist (List.sublist_append_left _ _)
  obtain ⟨g1, g2, g3⟩ := Cached.saveAll told [] lib₀ l1 l2 (fun r hr => hsize r (by simp [hr])) (by simpa using hd)
  rw [List.nil_append, ← h1] at g1 g2
  rw [← h1] at g3
  obtain ⟨left, hsample⟩ := leftOff_save g1 g2 (hsize r (by simp)) hdistinct hn
    (fun he => ⟨estimates_of_returned hes hret he, predicts_of_returned hp hret he⟩) hdur
  refine ⟨told, r, j, ?_, hret, ?_, ?_, hsize, left, ?_, ?_⟩
  · rw [hhist]; exact h2
  · rw [hsubm]
    exact hexp.subset (by simp)
  · rw [hhist]
    intro hin
    rw [List.nodup_append] at hnodup
    exact hnodup.2.2 j hin j (by simp) rfl
  · rcases hsample with e1 | ⟨e1, e2⟩
    · rw [e1]; exact g3
    · rcases g3 with e3 | ⟨e3, -⟩
      · exact Or.inr ⟨e3 ▸ e1, e2⟩
      · exact Or.inr ⟨e3, e2⟩
  · intro hns
    have : s.lib.sample = .notSet := by
      rcases hsample with e1 | ⟨e1, -⟩
      · rw [← e1]; exact hns
      · exact e1
    exact g2.unset this hn

/-- The ensemble that is made of what a search that is cut off leaves. -/
theorem cut_ensemble {U : Setup S I A B J Fn V X Ω E P} (hp : Predicts U) (hes : Estimates U)
    {D : List (Str × V)} {h : List (J × Completion)} {told : List (EvalRec E P (List Score))}
    {r : EvalRec E P (List Score)} {j : J} (h1 : List.Forall₂ (ToldAs U D) (results h) told)
    (hret : Returned U D j r) {hill maxModels : Option Nat} (hhill : hill ≠ some 0) (hmax : maxModels ≠ some 0)
    {y : List α} (hsize : SameSize y.length (told ++ [r]))
    {t : Lib E P (List Score)} (left : LeftOff (gamaLibrary hill maxModels) told r t)
    {stratify : Option Nat} (hstrat : ∀ k, stratify = some k → k = y.length) {rnd : Stream}
    {lib₀ : Lib E P (List Score)} (hlib : startLibrary (gamaLibrary hill maxModels) stratify rnd = .ok lib₀)
    (hsample : t.sample = lib₀.sample ∨ lib₀.sample = .notSet ∧
      ChosenRows (gamaLibrary hill maxModels).n y.length t.sample)
    (hunset : t.sample = .notSet → ∀ g ∈ told, g.predictions = none) {x : J} {sc : Score}
    (hx : (x, .result true sc) ∈ h)
    {metric : List α → (Nat × γ → ℚ) → Except Exn Score} {f : List α → (Nat × γ → ℚ) → Score}
    (hf : ∀ ls p, metric ls p = .ok (f ls p)) (hn : ∀ ls p, f ls p ≠ .ninf)
    (trans : P → γ → ℚ) (probabilities : Bool) {drawn : List Nat}
    (hdrawn : 10000 < min (hill.getD 10000) y.length → Drawn drawn (min (hill.getD 10000) y.length) 10000)
    (hprob : probabilities = false ∨ min (hill.getD 10000) y.length ≤ 10000)
    {models : Int} (hsz : 1 ≤ models) {timeout : ℚ} (ht : 0 < timeout) :
    ∃ hist, (hist = told ∨ hist = told ++ [r]) ∧
      EnsembleOf metric trans hill maxModels y models timeout hist
        (buildFromLibrary metric trans probabilities drawn models timeout (gamaLibrary hill maxModels) y t) ∧
      ∃ ens ms, buildFromLibrary metric trans probabilities drawn models timeout (gamaLibrary hill maxModels) y t
          = .ok ens ∧ FittedWith hist ens ms ∧ MeanValues ens ms ∧ Distributions ens ms := by
  have hall : ∀ g ∈ told ++ [r], ∃ j, Returned U D j g := by
    intro g hg
    rcases List.mem_append.1 hg with hg | hg
    · obtain ⟨x, -, hx⟩ := forall₂_right h1 g hg
      exact ⟨_, hx.1⟩
    · rw [List.mem_singleton.1 hg]; exact ⟨j, hret⟩
  obtain ⟨g, hg, hge⟩ := told_success h1 hx
  obtain ⟨-, -, hcase⟩ := startLibrary_spec hstrat hlib
  have hchosen : ChosenRows (some (hill.getD 10000)) y.length t.sample := by
    rcases hsample with e | ⟨-, e⟩
    · rcases hcase with ⟨-, rfl⟩ | hch
      · exfalso
        have hns : t.sample = .notSet := by rw [e]; rfl
        have := hunset hns g hg
        obtain ⟨j, hj⟩ := hall g (List.mem_append_left _ hg)
        exact predicts_of_returned hp hj hge this
      · rw [e]; exact hch
    · exact e
  obtain ⟨hist, hhist, hbest, -⟩ := left.best
  have hsub : ∀ g ∈ hist, g ∈ told ++ [r] := by
    rcases hhist with rfl | rfl
    · exact fun g hg => List.mem_append_left _ hg
    · exact fun g hg => hg
  have hens := ensemble_of_kept metric trans (hill := hill) (maxModels := maxModels) (y := y) (hist := hist)
    (fun g hg => hsize g (hsub g hg)) (fun g hg he => by
      obtain ⟨j, hj⟩ := hall g (hsub g hg)
      exact predicts_of_returned hp hj he) probabilities hdrawn hprob models timeout hchosen
    (hbest _ rfl) left.read
  refine ⟨hist, hhist, hens, fitted_of_ensembleOf hens hmax hsz ht hf hn (g := g) ?_ hge ?_⟩
  · rcases hhist with rfl | rfl
    · exact hg
    · exact List.mem_append_left _ hg
  · intro g hg he
    obtain ⟨j, hj⟩ := hall g (hsub g hg)
    exact estimates_of_returned hes hj he

theorem gamaLibrary_n {hill maxModels : Option Nat} (h : hill ≠ some 0) : (gamaLibrary hill maxModels).n ≠ some 0 := by
  show some (hill.getD 10000) ≠ some 0
  cases hill with
  | none => decide
  | some k => exact fun e => h (by rw [← e]; rfl)

/-- **C160** for evolution: wherever it is cut off, also in the middle of saving an evaluation, the library has the
best of what the search was told, with or without that evaluation, everything that it keeps can be read, and if an
evaluation succeeded, the ensemble is made of that and predicts.  Missing (`hprob`): metrics on probabilities with more
than 10 000 rows, see `C160_raises` and `C160_false` in `Oversized`. -/
theorem C160_evolution_partial (c : OpConfig) (cxpb : ℚ) (maxN : Option Int) (size : Nat) {K : Coding Fn V Nat}
    {Jb : Jobs Fn V X Ω} {report : V → Findings E P} {hill maxModels : Option Nat} (hhill : hill ≠ some 0)
    (hmax : maxModels ≠ some 0) (hK : Faithful K Jb)
    (ha : Agrees (evolution c cxpb maxN size K Jb report (gamaLibrary hill maxModels)))
    (hp : Predicts (evolution c cxpb maxN size K Jb report (gamaLibrary hill maxModels)))
    (hes : Estimates (evolution c cxpb maxN size K Jb report (gamaLibrary hill maxModels)))
    {l : List Nat} (hl : l.Nodup) (out : List Nat)
    {w : World} (hw : ∀ x ∈ l, x < w.inds.length) (y : List α)
    (hrows : RowsAre (evolution c cxpb maxN size K Jb report (gamaLibrary hill maxModels)) y.length)
    {stratify : Option Nat} (hstrat : ∀ k, stratify = some k → k = y.length) {rnd : Stream}
    {lib₀ : Lib E P (List Score)} (hlib : startLibrary (gamaLibrary hill maxModels) stratify rnd = .ok lib₀)
    (n : Nat) (limit : Option ℚ) (logfile : Bool) (D : List (Str × V)) (es : List (WholeEvent Bool Ω)) {e : Exn}
    {t : Whole (Ea World Nat) Fn V X E P}
    (ht : CutOff (evolution c cxpb maxN size K Jb report (gamaLibrary hill maxModels)) e
      (wholeRun (evolution c cxpb maxN size K Jb report (gamaLibrary hill maxModels)) es
        (wholeStart (eaStart (.list l) out w) lib₀ n limit logfile D)) t)
    {metric : List α → (Nat × γ → ℚ) → Except Exn Score} {f : List α → (Nat × γ → ℚ) → Score}
    (hf : ∀ ls p, metric ls p = .ok (f ls p)) (hn : ∀ ls p, f ls p ≠ .ninf)
    (trans : P → γ → ℚ) (probabilities : Bool) {drawn : List Nat}
    (hdrawn : 10000 < min (hill.getD 10000) y.length → Drawn drawn (min (hill.getD 10000) y.length) 10000)
    (hprob : probabilities = false ∨ min (hill.getD 10000) y.length ≤ 10000)
    {models : Int} (hsz : 1 ≤ models) {timeout : ℚ} (htime : 0 < timeout) :
    let U := evolution c cxpb maxN size K Jb report (gamaLibrary hill maxModels)
    t.joint.search.pc = .raised e ∧
    ∃ told r x, List.Forall₂ (ToldAs U D) (results t.joint.search.history) told ∧
      Returned U D x r ∧ x ∈ t.joint.search.submitted ∧ x ∉ t.joint.search.history.map Prod.fst ∧
      LeftOff U.lib told r t.lib ∧
      ((∃ x sc, (x, .result true sc) ∈ t.joint.search.history) →
        ∃ hist, (hist = told ∨ hist = told ++ [r]) ∧
          EnsembleOf metric trans hill maxModels y models timeout hist
            (buildFromLibrary metric trans probabilities drawn models timeout (gamaLibrary hill maxModels) y t.lib) ∧
          ∃ ens ms, buildFromLibrary metric trans probabilities drawn models timeout (gamaLibrary hill maxModels) y
              t.lib = .ok ens ∧ FittedWith hist ens ms ∧ MeanValues ens ms ∧ Distributions ens ms) := by
  intro U
  have hC := evolveClient_lawful c cxpb maxN size
  have hset : ∀ p q s t, U.client.setPending p s = U.client.setPending q t → p = q :=
    fun _ _ _ _ h => congrArg Ea.pending h
  have hmoves := evolution_moves c cxpb maxN size hK ha l out w lib₀ n limit logfile D es
  have hok := whole_ok (U := U) hC hset hK ha (start := eaStart (.list l) out w) rfl rfl rfl lib₀ n limit logfile D es
  have hap := evolution_apart hl hw hmoves
  obtain ⟨_, _, hws, -, -, -, hstep⟩ := cutOff_cases (U := U) hC hset hK rfl rfl rfl hok ht
  obtain ⟨told, r, j, h1, h2, h3, h4, h5, h6, h7, h8⟩ := cut_general (U := U) hC hset hK ha hp hes (fun _ _ _ _ _ _ _ _ _ h => h)
    (gamaLibrary_n hhill) hrows hstrat hlib (start := eaStart (.list l) out w) rfl rfl rfl n limit logfile es
    (List.nodup_append.1 hap.once).1 ht
  refine ⟨by rw [hstep]; exact ea_raised hws, told, r, j, h1, h2, h3, h4, h6, ?_⟩
  rintro ⟨x, sc, hx⟩
  exact cut_ensemble hp hes h1 h2 hhill hmax h5 h6 hstrat hlib h7 h8 hx hf hn trans probabilities hdrawn hprob hsz htime

/-- **C160** for random search.  Missing: as for evolution. -/
theorem C160_random_search_partial (c : OpConfig) (cxpb : ℚ) (maxN : Option Int) {K : Coding Fn V Nat}
    {Jb : Jobs Fn V X Ω} {report : V → Findings E P} {hill maxModels : Option Nat} (hhill : hill ≠ some 0)
    (hmax : maxModels ≠ some 0) (hK : Faithful K Jb)
    (ha : Agrees (randomSearching c cxpb maxN K Jb report (gamaLibrary hill maxModels)))
    (hp : Predicts (randomSearching c cxpb maxN K Jb report (gamaLibrary hill maxModels)))
    (hes : Estimates (randomSearching c cxpb maxN K Jb report (gamaLibrary hill maxModels)))
    {l : List Nat} (hl : l.Nodup) (out : List Nat)
    {w : World} (hw : ∀ x ∈ l, x < w.inds.length) (y : List α)
    (hrows : RowsAre (randomSearching c cxpb maxN K Jb report (gamaLibrary hill maxModels)) y.length)
    {stratify : Option Nat} (hstrat : ∀ k, stratify = some k → k = y.length) {rnd : Stream}
    {lib₀ : Lib E P (List Score)} (hlib : startLibrary (gamaLibrary hill maxModels) stratify rnd = .ok lib₀)
    (n : Nat) (limit : Option ℚ) (logfile : Bool) (D : List (Str × V)) (es : List (WholeEvent Unit Ω)) {e : Exn}
    {t : Whole (Rs World Nat) Fn V X E P}
    (ht : CutOff (randomSearching c cxpb maxN K Jb report (gamaLibrary hill maxModels)) e
      (wholeRun (randomSearching c cxpb maxN K Jb report (gamaLibrary hill maxModels)) es
        (wholeStart (rsStart (.list l) out w) lib₀ n limit logfile D)) t)
    {metric : List α → (Nat × γ → ℚ) → Except Exn Score} {f : List α → (Nat × γ → ℚ) → Score}
    (hf : ∀ ls p, metric ls p = .ok (f ls p)) (hn : ∀ ls p, f ls p ≠ .ninf)
    (trans : P → γ → ℚ) (probabilities : Bool) {drawn : List Nat}
    (hdrawn : 10000 < min (hill.getD 10000) y.length → Drawn drawn (min (hill.getD 10000) y.length) 10000)
    (hprob : probabilities = false ∨ min (hill.getD 10000) y.length ≤ 10000)
    {models : Int} (hsz : 1 ≤ models) {timeout : ℚ} (htime : 0 < timeout) :
    let U := randomSearching c cxpb maxN K Jb report (gamaLibrary hill maxModels)
    t.joint.search.pc = .raised e ∧
    ∃ told r x, List.Forall₂ (ToldAs U D) (results t.joint.search.history) told ∧
      Returned U D x r ∧ x ∈ t.joint.search.submitted ∧ x ∉ t.joint.search.history.map Prod.fst ∧
      LeftOff U.lib told r t.lib ∧
      ((∃ x sc, (x, .result true sc) ∈ t.joint.search.history) →
        ∃ hist, (hist = told ∨ hist = told ++ [r]) ∧
          EnsembleOf metric trans hill maxModels y models timeout hist
            (buildFromLibrary metric trans probabilities drawn models timeout (gamaLibrary hill maxModels) y t.lib) ∧
          ∃ ens ms, buildFromLibrary metric trans probabilities drawn models timeout (gamaLibrary hill maxModels) y
              t.lib = .ok ens ∧ FittedWith hist ens ms ∧ MeanValues ens ms ∧ Distributions ens ms) := by
  intro U
  have hC := rsClient_lawful (gamaOps c cxpb) maxN
  have hset : ∀ p q s t, U.client.setPending p s = U.client.setPending q t → p = q :=
    fun _ _ _ _ h => congrArg Rs.pending h
  have hmoves := random_moves c cxpb maxN hK ha l out w lib₀ n limit logfile D es
  have hok := whole_ok (U := U) hC hset hK ha (start := rsStart (.list l) out w) rfl rfl rfl lib₀ n limit logfile D es
  have hap := random_apart hl hw hmoves
  obtain ⟨_, _, hws, -, -, -, hstep⟩ := cutOff_cases (U := U) hC hset hK rfl rfl rfl hok ht
  obtain ⟨told, r, j, h1, h2, h3, h4, h5, h6, h7, h8⟩ := cut_general (U := U) hC hset hK ha hp hes (fun _ _ _ _ _ _ _ _ _ h => h)
    (gamaLibrary_n hhill) hrows hstrat hlib (start := rsStart (.list l) out w) rfl rfl rfl n limit logfile es
    (List.nodup_append.1 hap.once).1 ht
  refine ⟨by rw [hstep]; exact rs_raised hws, told, r, j, h1, h2, h3, h4, h6, ?_⟩
  rintro ⟨x, sc, hx⟩
  exact cut_ensemble hp hes h1 h2 hhill hmax h5 h6 hstrat hlib h7 h8 hx hf hn trans probabilities hdrawn hprob hsz htime

/-- **C160** for successive halving; only evaluations on the top rung count.  Missing: as for evolution. -/
theorem C160_halving_partial (c : OpConfig) (cxpb : ℚ) (a : AshaConfig) {K : Coding Fn V (Nat × Nat)}
    {Jb : Jobs Fn V X Ω} {report : V → Findings E P} {hill maxModels : Option Nat} (hhill : hill ≠ some 0)
    (hmax : maxModels ≠ some 0) (hK : Faithful K Jb)
    (ha : Agrees (halving c cxpb a K Jb report (gamaLibrary hill maxModels)))
    (hp : Predicts (halving c cxpb a K Jb report (gamaLibrary hill maxModels)))
    (hes : Estimates (halving c cxpb a K Jb report (gamaLibrary hill maxModels)))
    {l : List Nat} (hl : l.Nodup)
    {w : World} (hw : ∀ x ∈ l, x < w.inds.length) (y : List α)
    (hrows : RowsAre (halving c cxpb a K Jb report (gamaLibrary hill maxModels)) y.length)
    {stratify : Option Nat} (hstrat : ∀ k, stratify = some k → k = y.length) {rnd : Stream}
    {lib₀ : Lib E P (List Score)} (hlib : startLibrary (gamaLibrary hill maxModels) stratify rnd = .ok lib₀)
    (n : Nat) (limit : Option ℚ) (logfile : Bool) (D : List (Str × V)) (es : List (WholeEvent Nat Ω)) {e : Exn}
    {t : Whole (Asha World Nat) Fn V X E P}
    (ht : CutOff (halving c cxpb a K Jb report (gamaLibrary hill maxModels)) e
      (wholeRun (halving c cxpb a K Jb report (gamaLibrary hill maxModels)) es
        (wholeStart (ashaStart a l w) lib₀ n limit logfile D)) t)
    {metric : List α → (Nat × γ → ℚ) → Except Exn Score} {f : List α → (Nat × γ → ℚ) → Score}
    (hf : ∀ ls p, metric ls p = .ok (f ls p)) (hn : ∀ ls p, f ls p ≠ .ninf)
    (trans : P → γ → ℚ) (probabilities : Bool) {drawn : List Nat}
    (hdrawn : 10000 < min (hill.getD 10000) y.length → Drawn drawn (min (hill.getD 10000) y.length) 10000)
    (hprob : probabilities = false ∨ min (hill.getD 10000) y.length ≤ 10000)
    {models : Int} (hsz : 1 ≤ models) {timeout : ℚ} (htime : 0 < timeout) :
    let U := halving c cxpb a K Jb report (gamaLibrary hill maxModels)
    t.joint.search.pc = ashaHandle t.joint.search.rungs e ∧
    ∃ told r x, List.Forall₂ (ToldAs U D) (results (toldOf t.joint.search)) told ∧
      Returned U D x r ∧ x ∈ t.joint.search.submitted ∧ x ∉ (toldOf t.joint.search).map Prod.fst ∧
      LeftOff U.lib told r t.lib ∧
      ((∃ x sc, (x, .result true sc) ∈ toldOf t.joint.search) →
        ∃ hist, (hist = told ∨ hist = told ++ [r]) ∧
          EnsembleOf metric trans hill maxModels y models timeout hist
            (buildFromLibrary metric trans probabilities drawn models timeout (gamaLibrary hill maxModels) y t.lib) ∧
          ∃ ens ms, buildFromLibrary metric trans probabilities drawn models timeout (gamaLibrary hill maxModels) y
              t.lib = .ok ens ∧ FittedWith hist ens ms ∧ MeanValues ens ms ∧ Distributions ens ms) := by
  intro U
  have hC := ashaClient_lawful (gamaOps c cxpb) a
  have hset : ∀ p q s t, U.client.setPending p s = U.client.setPending q t → p = q :=
    fun _ _ _ _ h => congrArg Asha.pending h
  have hok := whole_ok (U := U) hC hset hK ha (start := ashaStart a l w) rfl rfl rfl lib₀ n limit logfile D es
  obtain ⟨_, _, hws, -, -, -, hstep⟩ := cutOff_cases (U := U) hC hset hK rfl rfl rfl hok ht
  obtain ⟨told, r, j, h1, h2, h3, h4, h5, h6, h7, h8⟩ := cut_general (U := U) hC hset hK ha hp hes (halving_oneEach c cxpb a hK).2
    (gamaLibrary_n hhill) hrows hstrat hlib (start := ashaStart a l w) rfl rfl rfl n limit logfile es
    (halving_once c cxpb a hK ha hl hw lib₀ n limit logfile D es) ht
  refine ⟨by rw [hstep]; exact asha_raised hws, told, r, j, h1, h2, h3, h4, h6, ?_⟩
  rintro ⟨x, sc, hx⟩
  exact cut_ensemble hp hes h1 h2 hhill hmax h5 h6 hstrat hlib h7 h8 hx hf hn trans probabilities hdrawn hprob hsz htime

/-- The future that an iteration finds. -/
def foundBy (U : Setup S I A B J Fn V X Ω E P) (r₁ r₂ r₃ : Readings) (o : StopOutcome) (s : Whole S Fn V X E P) :
    Option V :=
  match asyncStep U.jobs s.joint.ev (.iterate r₁ r₂ r₃ o) with
  | (.returned f, _) => f.result
  | _ => none

theorem cutOff_of {U : Setup S I A B J Fn V X Ω E P} {r₁ r₂ r₃ : Readings} {o : StopOutcome}
    {s : Whole S Fn V X E P} {v : V} (h : foundBy U r₁ r₂ r₃ o s = some v) {t : Lib E P (List Score)}
    (hd : DuringSave U.lib (evaluationOf U (U.world s.joint.search) v) s.lib t) (e : Exn) :
    CutOff U e s ⟨(wholeStep U (.iterate r₁ r₂ r₃ o (.raisesAfter e)) s).joint, t⟩ := by
  unfold foundBy at h
  cases hr : asyncStep U.jobs s.joint.ev (.iterate r₁ r₂ r₃ o) with
  | mk ob ev =>
    rw [hr] at h
    cases ob with
    | returned f => exact .mk r₁ r₂ r₃ o f ev v t hr h hd
    | _ => cases h

/-- The library when the file of an evaluation for which there is room has been opened. -/
def opened {K : Type} [LinearOrder K] (c : LibConfig) (g : EvalRec E P K) (s : Lib E P K) : Lib E P K :=
  match processPredictions c g.predictions { s with next := s.next + 1 } with
  | (.ok ps, s1) =>
    if g.error = none ∧ hasRoom c.m s1.top.length = true then
      { s1 with
        cells := upd s1.cells s.next ⟨g.estimators, ps, some g.ident⟩
        disk := upd s1.disk g.ident none }
    else s
  | _ => s

theorem upd_upd {β : Type} (f : Nat → β) (i : Nat) (a b : β) : upd (upd f i a) i b = upd f i b := by
  funext j
  by_cases h : j = i
  · rw [h, upd_same, upd_same]
  · rw [upd_ne _ _ h, upd_ne _ _ h, upd_ne _ _ h]

theorem opened_during {K : Type} [LinearOrder K] (c : LibConfig) (g : EvalRec E P K) (s : Lib E P K) :
    DuringSave c g s (opened c g s) := by
  unfold opened
  cases hr : processPredictions c g.predictions ({ s with next := s.next + 1 } : Lib E P K) with
  | mk o s1 =>
    cases o with
    | error e => exact .before
    | ok ps =>
      dsimp only
      by_cases h : g.error = none ∧ hasRoom c.m s1.top.length = true
      · rw [if_pos h]
        have := DuringToDisk.named (r := (⟨s.next, g⟩ : Ref E P K))
          (s := { s1 with cells := upd s1.cells s.next ⟨g.estimators, ps, none⟩ }) none
        dsimp only at this
        rw [upd_same, upd_upd] at this
        exact .store ps s1 _ hr (.room h.1 h.2 this)
      · rw [if_neg h]; exact .before

/-- The library when an evaluation has taken the place of another one and its file has been opened. -/
def replacing {K : Type} [LinearOrder K] (c : LibConfig) (g : EvalRec E P K) (s : Lib E P K) : Lib E P K :=
  match processPredictions c g.predictions { s with next := s.next + 1 } with
  | (.ok ps, s1) =>
    let pop := heappushpop (fun r : Ref E P K => r.given.score) s1.top ⟨s.next, g⟩
    if g.error = none ∧ hasRoom c.m s1.top.length = false ∧ pop.1.given.score ≠ g.score then
      { s1 with
        top := pop.2
        cells := upd s1.cells s.next ⟨g.estimators, ps, some g.ident⟩
        disk := upd s1.disk g.ident none }
    else s
  | _ => s

theorem replacing_during {K : Type} [LinearOrder K] (c : LibConfig) (g : EvalRec E P K) (s : Lib E P K) :
    DuringSave c g s (replacing c g s) := by
  unfold replacing
  cases hr : processPredictions c g.predictions ({ s with next := s.next + 1 } : Lib E P K) with
  | mk o s1 =>
    cases o with
    | error e => exact .before
    | ok ps =>
      dsimp only
      by_cases h : g.error = none ∧ hasRoom c.m s1.top.length = false ∧
          (heappushpop (fun r : Ref E P K => r.given.score) s1.top ⟨s.next, g⟩).1.given.score ≠ g.score
      · rw [if_pos h]
        have := DuringToDisk.named (r := (⟨s.next, g⟩ : Ref E P K))
          (s := { s1 with cells := upd s1.cells s.next ⟨g.estimators, ps, none⟩
                          top := (heappushpop (fun r : Ref E P K => r.given.score) s1.top ⟨s.next, g⟩).2 }) none
        dsimp only at this
        rw [upd_same, upd_upd] at this
        exact .store ps s1 _ hr (.replace h.1 h.2.1 h.2.2 this)
      · rw [if_neg h]; exact .before

end

namespace Ex

/-- Three candidates have been evaluated on rung 0, and the evaluation of the best of them on rung 1 is back. -/
def promoted : List (WholeEvent Nat Unit) :=
  lowRung ++ ((List.range 8).map fun k => .worker (k + 3) .take) ++ [.worker 10 (.finish ()), .wait]

/-- Cut off when the file of that evaluation has been opened. -/
def offHalving : Whole (Asha World Nat) Unit (Nat × Nat) Nat (Nat × Nat) Nat :=
  let s := halvingRun (gamaLibrary none none) promoted
  ⟨(wholeStep (halvingIn (gamaLibrary none none))
      (.iterate calmReading calmReading calmReading .ok (.raisesAfter .timeout)) s).joint,
    opened (gamaLibrary none none) (evaluationOf (halvingIn (gamaLibrary none none)) s.joint.search.world (5, 1)) s.lib⟩

theorem cutHalving_cut : CutOff (halvingIn (gamaLibrary none none)) .timeout
    (halvingRun (gamaLibrary none none) promoted) offHalving := by
  have h : foundBy (halvingIn (gamaLibrary none none)) calmReading calmReading calmReading .ok
      (halvingRun (gamaLibrary none none) promoted) = some (5, 1) := by decide +kernel
  exact cutOff_of h (opened_during _ _ _) .timeout

end Ex

/-- The hypotheses of `C160_halving_partial` are met. -/
example := C160_halving_partial (X := Nat) Ex.config (1 / 5) ⟨3, 0, 1, none⟩ (hill := none) (maxModels := none) (by decide)
  (by decide) Ex.rungScores_faithful (Ex.halving_agrees _) (Ex.halving_predicts _) (Ex.halving_estimates _)
  (List.nodup_range (n := 6)) (w := Ex.sixWorld) Ex.six_known [(4 : ℚ)] (Ex.halving_rows _) (stratify := none)
  (fun _ h => nomatch h) (rnd := fun _ => 0) rfl 11 none false [] Ex.promoted Ex.cutHalving_cut (metric := Ex.firstRow)
  (fun _ _ => rfl) (fun _ _ h => nomatch h) (fun (p : Nat) (_ : Unit) => (p : ℚ)) false (drawn := [])
  (fun h => absurd h (by decide)) (.inl rfl) (models := 2) (by decide) (timeout := 60) (by decide)

/-- There the evaluation is not among those kept, and there is no file. -/
example : Ex.offHalving.lib.top.length = 0 ∧ Ex.offHalving.lib.disk 5 = none ∧
    Ex.offHalving.lib.other.map (fun t => (t.given.ident, t.given.estimators)) =
      [(5, [(5, 0)]), (4, [(4, 0)]), (3, [(3, 0)])] := by decide +kernel

namespace Ex

/-- Three evaluations of an evolution have been told, and the fourth is back. -/
def fourthBack : List (WholeEvent Bool Unit) :=
  let back : List (WholeEvent Bool Unit) :=
    [.wait, .worker 0 .take, .worker 0 (.finish ()), .iterate calmReading calmReading calmReading .ok .returns]
  let round : List (WholeEvent Bool Unit) := back ++ List.replicate 5 (.go false)
  List.replicate 10 (.go false) ++ round ++ round ++ round ++ [.wait, .worker 0 .take, .worker 0 (.finish ())]

/-- Two evaluations are kept, and the fourth is better than one of them. -/
def cutEvolving : Whole (Ea World Nat) Unit Nat Nat Nat Nat :=
  ⟨(wholeStep (evolvingIn (gamaLibrary (some 1) (some 2)))
      (.iterate calmReading calmReading calmReading .ok (.raisesAfter .timeout))
      (evolving counting (gamaLibrary (some 1) (some 2)) fourthBack)).joint,
    replacing (gamaLibrary (some 1) (some 2)) (evaluationOf (evolvingIn (gamaLibrary (some 1) (some 2)))
      ((evolvingIn (gamaLibrary (some 1) (some 2))).world
        (evolving counting (gamaLibrary (some 1) (some 2)) fourthBack).joint.search) 3)
      (evolving counting (gamaLibrary (some 1) (some 2)) fourthBack).lib⟩

theorem cutEvolving_found : foundBy (evolvingIn (gamaLibrary (some 1) (some 2))) calmReading calmReading calmReading .ok
    (evolving counting (gamaLibrary (some 1) (some 2)) fourthBack) = some 3 := by decide +kernel

theorem cutEvolving_cut : CutOff (evolvingIn (gamaLibrary (some 1) (some 2))) .timeout
    (evolving counting (gamaLibrary (some 1) (some 2)) fourthBack) cutEvolving :=
  cutOff_of cutEvolving_found (replacing_during _ _ _) .timeout

/-- Likewise of a random search. -/
def thirdBack : List (WholeEvent Unit Unit) := twoRounds ++ [.wait, .worker 0 .take, .worker 0 (.finish ())]

def cutRandom : Whole (Rs World Nat) Unit Nat Nat Nat Nat :=
  ⟨(wholeStep (randomSearching Ex.config (1 / 5) none ownScore evaluations ownReport (gamaLibrary (some 1) (some 2)))
      (.iterate calmReading calmReading calmReading .ok (.raisesAfter .timeout))
      (randomly (gamaLibrary (some 1) (some 2)) thirdBack)).joint,
    replacing (gamaLibrary (some 1) (some 2)) (evaluationOf
      (randomSearching Ex.config (1 / 5) none ownScore evaluations ownReport (gamaLibrary (some 1) (some 2)))
      (randomly (gamaLibrary (some 1) (some 2)) thirdBack).joint.search.world 2)
      (randomly (gamaLibrary (some 1) (some 2)) thirdBack).lib⟩

theorem cutRandom_found : foundBy
    (randomSearching Ex.config (1 / 5) none ownScore evaluations ownReport (gamaLibrary (some 1) (some 2)))
    calmReading calmReading calmReading .ok (randomly (gamaLibrary (some 1) (some 2)) thirdBack) = some 2 := by
  decide +kernel

theorem cutRandom_cut : CutOff
    (randomSearching Ex.config (1 / 5) none ownScore evaluations ownReport (gamaLibrary (some 1) (some 2))) .timeout
    (randomly (gamaLibrary (some 1) (some 2)) thirdBack) cutRandom :=
  cutOff_of cutRandom_found (replacing_during _ _ _) .timeout

end Ex

/-- The hypotheses of `C160_evolution_partial` and `C160_random_search_partial` are met. -/
example := C160_evolution_partial Ex.config (1 / 5) none 50 (hill := some 1) (maxModels := some 2) (by decide) (by decide)
  Ex.ownScore_faithful (Ex.own_agrees _ _ _ _) (Ex.own_predicts _ _ _ _) (Ex.own_estimates _ _ _ _)
  (List.nodup_range (n := 6)) [] (w := Ex.counting) Ex.six_known [(4 : ℚ)] (Ex.own_rows _ _ _ _) (stratify := none)
  (fun _ h => nomatch h) (rnd := fun _ => 0) rfl 1 none false [] Ex.fourthBack Ex.cutEvolving_cut (metric := Ex.firstRow)
  (fun _ _ => rfl) (fun _ _ h => nomatch h) (fun (p : Nat) (_ : Unit) => (p : ℚ)) false (drawn := [])
  (fun h => absurd h (by decide)) (.inl rfl) (models := 2) (by decide) (timeout := 60) (by decide)

example := C160_random_search_partial Ex.config (1 / 5) none (hill := some 1) (maxModels := some 2) (by decide) (by decide)
  Ex.ownScore_faithful (Ex.own_agrees _ _ _ _) (Ex.own_predicts _ _ _ _) (Ex.own_estimates _ _ _ _)
  (List.nodup_range (n := 6)) [] (w := Ex.sixWorld) Ex.six_known [(4 : ℚ)] (Ex.own_rows _ _ _ _) (stratify := none)
  (fun _ h => nomatch h) (rnd := fun _ => 0) rfl 1 none false [] Ex.thirdBack Ex.cutRandom_cut (metric := Ex.firstRow)
  (fun _ _ => rfl) (fun _ _ h => nomatch h) (fun (p : Nat) (_ : Unit) => (p : ℚ)) false (drawn := [])
  (fun h => absurd h (by decide)) (.inl rfl) (models := 2) (by decide) (timeout := 60) (by decide)

/-- In the first case the fourth evaluation has taken the place of the second, whose file is still there, and is read
from memory, as its own file cannot be read. -/
example : Ex.cutEvolving.lib.top.map (fun t => (t.given.ident, match readEstimators Ex.cutEvolving.lib t with
      | .ok e => e
      | .error _ => [])) = [(2, [2]), (3, [3])] ∧
    Ex.cutEvolving.lib.disk 1 = some ([1], some [1]) ∧ Ex.cutEvolving.lib.disk 3 = none ∧
    Ex.cutEvolving.lib.other.map (fun t => t.given.ident) = [0] := by decide +kernel

/-- The hypotheses of `C160_library` are met. -/
example := C160_library (gamaLibrary (some 1) (some 2)) (by decide) (size := 3) (stratify := none) (fun _ h => nomatch h)
  (rnd := fun _ => 1) rfl Ex.fourEvals ⟨5, ['z'], 8, none, [50], some [8, 8, 8]⟩
  (by
    intro r hr ps hps
    simp only [Ex.fourEvals, List.cons_append, List.nil_append, List.mem_cons, List.not_mem_nil, or_false] at hr
    rcases hr with rfl | rfl | rfl | rfl | rfl <;> cases hps <;> rfl) (by simp [DistinctIds, Ex.fourEvals])
  (fun _ => ⟨by simp, by simp⟩) (replacing_during _ _ _)

end Gama
