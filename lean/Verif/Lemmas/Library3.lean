import Verif.Lemmas.Library2

/-! # The cache of the evaluation library, if no individual is saved twice -/

namespace Gama
open PyM Spec

section
variable {E P K : Type} [LinearOrder K]

/-- What an evaluation stores, given the rows sampled. -/
def StoredAs (c : LibConfig) (x : Sample) (g : EvalRec E P K) (v : Option (List P)) : Prop :=
  (c.n = some 0 → v = none) ∧ (c.n ≠ some 0 → Stored x.toRows g.predictions v)

/-- The files and objects of the library; `Q` says what is stored of an evaluation. -/
structure CachedBy (Q : Ref E P K → Option (List P) → Prop) (c : LibConfig) (size : Nat)
    (hist : List (EvalRec E P K)) (s : Lib E P K) : Prop where
  kept : ∀ t ∈ s.top, s.cells t.idx = ⟨[], none, some t.given.ident⟩ ∧
    ∃ v, s.disk t.given.ident = some (t.given.estimators, v) ∧ Q t v
  only : ∀ f, s.disk f ≠ none → ∃ t ∈ s.top, t.given.ident = f
  others : ∀ o ∈ s.other, s.cells o.idx = ⟨[], none, none⟩
  unset : s.sample = .notSet → c.n ≠ some 0 → ∀ g ∈ hist, g.predictions = none
  range : InRange size s.sample
  latest : ∀ k r, s.lookup k = some r ↔ r ∈ numbered hist ∧ r.given.pipeline = k ∧
    ∀ r' ∈ numbered hist, r'.given.pipeline = k → r'.idx ≤ r.idx

/-- The files and objects of the library, if all that is stored is of the rows now chosen. -/
abbrev Cached (c : LibConfig) (size : Nat) (hist : List (EvalRec E P K)) (s : Lib E P K) : Prop :=
  CachedBy (fun t v => StoredAs c s.sample t.given v) c size hist s

theorem StoredAs.resample {c : LibConfig} {x y : Sample} {g : EvalRec E P K}
    {v : Option (List P)} (h : StoredAs c x g v) (hg : c.n ≠ some 0 → g.predictions = none) :
    StoredAs c y g v := by
  refine ⟨h.1, fun hc => ?_⟩
  have := h.2 hc
  rw [hg hc] at this ⊢
  exact this

theorem numbered_given_mem {hist : List (EvalRec E P K)} {r : Ref E P K} (h : r ∈ numbered hist) :
    r.given ∈ hist := List.mem_of_getElem? (mem_numbered.1 h)

omit [LinearOrder K] in
theorem distinctIds_iff {hist : List (EvalRec E P K)} : DistinctIds hist ↔
    hist.Pairwise fun a b => a.error = none → b.error = none → a.ident ≠ b.ident := by
  unfold DistinctIds List.Nodup
  rw [List.pairwise_map, List.pairwise_filter]
  simp only [Option.isNone_iff_eq_none]

omit [LinearOrder K] in
theorem Spec.DistinctIds.sublist {a b : List (EvalRec E P K)} (h : DistinctIds b) (hs : a.Sublist b) : DistinctIds a :=
  distinctIds_iff.2 ((distinctIds_iff.1 h).sublist hs)

omit [LinearOrder K] in
/-- As long as no individual is evaluated twice. -/
theorem distinctIds_of_nodup {hist : List (EvalRec E P K)} (h : (hist.map EvalRec.ident).Nodup) : DistinctIds hist :=
  List.Nodup.sublist (List.filter_sublist.map _) h

/-- In a history without repeated individuals an individual determines its evaluation. -/
theorem DistinctIds.eq {hist : List (EvalRec E P K)} (hd : DistinctIds hist) {a b : Ref E P K}
    (ha : a ∈ numbered hist) (hb : b ∈ numbered hist) (hae : a.given.error = none) (hbe : b.given.error = none)
    (h : a.given.ident = b.given.ident) : a = b := by
  have ha' := mem_numbered.1 ha
  have hb' := mem_numbered.1 hb
  obtain ⟨h1, h2⟩ := List.getElem?_eq_some_iff.1 ha'
  obtain ⟨h3, h4⟩ := List.getElem?_eq_some_iff.1 hb'
  have key := List.pairwise_iff_getElem.1 (distinctIds_iff.1 hd)
  have hi : a.idx = b.idx := by
    rcases Nat.lt_trichotomy a.idx b.idx with hlt | e | hlt
    · exact absurd (by rw [h2, h4]; exact h) (key _ _ h1 h3 hlt (by rw [h2]; exact hae) (by rw [h4]; exact hbe))
    · exact e
    · exact absurd (by rw [h2, h4]; exact h.symm) (key _ _ h3 h1 hlt (by rw [h4]; exact hbe) (by rw [h2]; exact hae))
  cases a; cases b
  simp only at hi h2 h4
  subst hi
  rw [h2] at h4
  simp [h4]

theorem numbered_nodup (hist : List (EvalRec E P K)) : (numbered hist).Nodup := by
  have : ((numbered hist).map Ref.idx).Nodup := by
    have e : (numbered hist).map Ref.idx = List.range' 0 hist.length := by
      unfold numbered
      rw [List.map_map]
      have : (Ref.idx ∘ fun p : EvalRec E P K × Nat => (⟨p.2, p.1⟩ : Ref E P K)) = Prod.snd := rfl
      rw [this, List.zipIdx_map_snd]
    rw [e]
    exact List.nodup_range'
  exact List.Nodup.of_map _ this

theorem CachedBy.save {Q : Ref E P K → Option (List P) → Prop}
    {Q' : Sample → Ref E P K → Option (List P) → Prop} {c : LibConfig} {size : Nat}
    {hist : List (EvalRec E P K)} {s : Lib E P K} {g : EvalRec E P K} (hh : Holds c hist [] s)
    (h : CachedBy Q c size hist s)
    (hps : ∀ l, g.predictions = some l → l.length = size) (hd : DistinctIds (hist ++ [g]))
    (hkeep : ∀ x, x = s.sample ∨ s.sample = .notSet ∧ ChosenRows c.n size x →
      ∀ t ∈ s.top, ∀ v, Q t v → Q' x t v)
    (hnew : ∀ x, x = s.sample ∨ s.sample = .notSet ∧ ChosenRows c.n size x →
      ∀ v, StoredAs c x g v → (c.n ≠ some 0 → g.predictions ≠ none → x ≠ .notSet) →
        Q' x ⟨s.next, g⟩ v) :
    (saveEvaluation c g s).1 = .ok () ∧ Holds c (hist ++ [g]) [] (saveEvaluation c g s).2 ∧
      CachedBy (Q' (saveEvaluation c g s).2.sample) c size (hist ++ [g]) (saveEvaluation c g s).2 ∧
      ((saveEvaluation c g s).2.sample = s.sample ∨
        s.sample = .notSet ∧ ChosenRows c.n size (saveEvaluation c g s).2.sample) := by
  obtain ⟨s2, hb, hrun⟩ := save_run (c := c) g s h.range hps
  obtain ⟨v, hcells, hv0, hv1⟩ := hb.cells
  have hnum : numbered (hist ++ [g]) = numbered hist ++ [⟨s.next, g⟩] := by
    rw [numbered_append, hh.next]
  have hold : ∀ r, r ∈ s.top ∨ r ∈ s.other → r ∈ numbered hist := by
    intro r hr
    have := hh.perm.mem_iff (a := r)
    simp only [List.append_nil, List.mem_append] at this
    exact this.1 hr
  have hidx : ∀ r, r ∈ s.top ∨ r ∈ s.other → r.idx ≠ s.next := by
    intro r hr
    have := numbered_lt (hold r hr)
    rw [hh.next]
    omega
  have hident : g.error = none → ∀ r ∈ s.top, r.given.ident ≠ g.ident := by
    intro he r hr e
    have h1 : r ∈ numbered (hist ++ [g]) := by rw [hnum]; exact List.mem_append_left _ (hold r (.inl hr))
    have h2 : (⟨s.next, g⟩ : Ref E P K) ∈ numbered (hist ++ [g]) := by rw [hnum]; simp
    have := DistinctIds.eq hd h1 h2 (hh.noerr r hr) he e
    exact hidx r (.inl hr) (by rw [this])
  -- what is stored for the old and the new evaluations
  have hstold : ∀ r, r ∈ s.top → ∀ v, Q r v → Q' s2.sample r v := hkeep _ hb.sample
  have hstnew : Q' s2.sample ⟨s.next, g⟩ v :=
    hnew _ hb.sample v ⟨hv0, fun hc => (hv1 hc).1⟩ fun hc => (hv1 hc).2
  have hunset : s2.sample = .notSet → c.n ≠ some 0 → ∀ x ∈ hist ++ [g], x.predictions = none := by
    intro e hc x hx
    rcases List.mem_append.1 hx with hx | hx
    · rcases hb.sample with e' | ⟨e', _⟩
      · exact h.unset (e' ▸ e) hc x hx
      · exact h.unset e' hc x hx
    · simp only [List.mem_singleton] at hx
      subst hx
      by_contra hne
      exact (hv1 hc).2 hne e
  have hlatest : ∀ k r, (if k = g.pipeline then some ⟨s.next, g⟩ else s.lookup k) = some r ↔
      r ∈ numbered (hist ++ [g]) ∧ r.given.pipeline = k ∧
      ∀ r' ∈ numbered (hist ++ [g]), r'.given.pipeline = k → r'.idx ≤ r.idx := by
    intro k r
    rw [hnum]
    by_cases hk : k = g.pipeline
    · rw [if_pos hk]
      constructor
      · intro e
        cases e
        refine ⟨by simp, hk.symm, ?_⟩
        intro r' hr' _
        rcases List.mem_append.1 hr' with hr' | hr'
        · have := numbered_lt hr'
          have hn := hh.next
          dsimp only
          omega
        · simp only [List.mem_singleton] at hr'; rw [hr']
      · rintro ⟨hr, _, hmax⟩
        rcases List.mem_append.1 hr with hr | hr
        · have h1 := hmax ⟨s.next, g⟩ (by simp) hk.symm
          have := numbered_lt hr
          have hn := hh.next
          dsimp only at h1
          omega
        · simp only [List.mem_singleton] at hr; rw [hr]
    · rw [if_neg hk, h.latest]
      constructor
      · rintro ⟨h1, h2, h3⟩
        refine ⟨List.mem_append_left _ h1, h2, ?_⟩
        intro r' hr' hp
        rcases List.mem_append.1 hr' with hr' | hr'
        · exact h3 r' hr' hp
        · simp only [List.mem_singleton] at hr'
          subst hr'
          exact absurd hp.symm hk
      · rintro ⟨h1, h2, h3⟩
        rcases List.mem_append.1 h1 with h1 | h1
        · exact ⟨h1, h2, fun r' hr' => h3 r' (List.mem_append_left _ hr')⟩
        · simp only [List.mem_singleton] at h1
          subst h1
          exact absurd h2.symm hk
  -- assembling the result
  have finish : ∀ s3 : Lib E P K, store c ⟨s.next, g⟩ s2 = (.ok (), s3) → s3.lookup = s.lookup →
      s3.sample = s2.sample →
      (∀ t ∈ s3.top, s3.cells t.idx = ⟨[], none, some t.given.ident⟩ ∧
        ∃ v, s3.disk t.given.ident = some (t.given.estimators, v) ∧ Q' s2.sample t v) →
      (∀ f, s3.disk f ≠ none → ∃ t ∈ s3.top, t.given.ident = f) →
      (∀ o ∈ s3.other, s3.cells o.idx = ⟨[], none, none⟩) →
      (saveEvaluation c g s).1 = .ok () ∧ Holds c (hist ++ [g]) [] (saveEvaluation c g s).2 ∧
      CachedBy (Q' (saveEvaluation c g s).2.sample) c size (hist ++ [g]) (saveEvaluation c g s).2 ∧
      ((saveEvaluation c g s).2.sample = s.sample ∨
        s.sample = .notSet ∧ ChosenRows c.n size (saveEvaluation c g s).2.sample) := by
    intro s3 hst hl hsm h1 h2 h3
    obtain ⟨lost', g1, g2⟩ := hh.store (g := g) hb.top hb.other hb.next
    rw [hst] at g1 g2
    have hl0 := g2 rfl
    subst hl0
    rw [hrun, hst]
    refine ⟨rfl, g1.of_same rfl rfl rfl, ⟨?_, h2, h3, ?_, ?_, ?_⟩, ?_⟩
    · intro t ht
      obtain ⟨a, w, b, d⟩ := h1 t ht
      exact ⟨a, w, b, hsm ▸ d⟩
    · exact fun e => hunset (hsm ▸ e)
    · exact hsm ▸ hb.range
    · intro k r
      dsimp only
      rw [hl]
      exact hlatest k r
    · dsimp only
      rw [hsm]
      exact hb.sample
  have hcold : ∀ r, r ∈ s.top ∨ r ∈ s.other → s2.cells r.idx = s.cells r.idx := by
    intro r hr
    rw [hcells, upd_ne _ _ (hidx r hr)]
  have hcnew : s2.cells s.next = ⟨g.estimators, v, none⟩ := by rw [hcells, upd_same]
  -- the evaluation goes to the other evaluations
  have toOther : store c ⟨s.next, g⟩ s2 = (.ok (), { s2 with
      cells := upd s2.cells s.next ⟨[], none, (s2.cells s.next).cacheFile⟩, other := s2.other ++ [⟨s.next, g⟩] }) →
      (saveEvaluation c g s).1 = .ok () ∧ Holds c (hist ++ [g]) [] (saveEvaluation c g s).2 ∧
      CachedBy (Q' (saveEvaluation c g s).2.sample) c size (hist ++ [g]) (saveEvaluation c g s).2 ∧
      ((saveEvaluation c g s).2.sample = s.sample ∨
        s.sample = .notSet ∧ ChosenRows c.n size (saveEvaluation c g s).2.sample) := by
    intro hst
    refine finish _ hst hb.lookup rfl ?_ ?_ ?_
    · intro t ht
      dsimp only at ht ⊢
      rw [hb.top] at ht
      obtain ⟨a, w, b, d⟩ := h.kept t ht
      refine ⟨?_, w, by rw [hb.disk]; exact b, hstold t ht w d⟩
      rw [upd_ne _ _ (hidx t (.inl ht)), hcold t (.inl ht)]
      exact a
    · intro f hf
      dsimp only at hf ⊢
      rw [hb.disk] at hf
      rw [hb.top]
      exact h.only f hf
    · intro o ho
      dsimp only at ho ⊢
      rw [hb.other] at ho
      rcases List.mem_append.1 ho with ho | ho
      · rw [upd_ne _ _ (hidx o (.inr ho)), hcold o (.inr ho)]
        exact h.others o ho
      · simp only [List.mem_singleton] at ho
        subst ho
        dsimp only
        rw [upd_same, hcnew]
  by_cases he : g.error.isSome
  · exact toOther (store_error c _ s2 he)
  have he' : g.error = none := by simpa using he
  cases hroom : hasRoom c.m s2.top.length with
  | true =>
    have hst := store_room c ⟨s.next, g⟩ s2 he' hroom
    obtain ⟨_, hp⟩ := heappush_spec hh.heap (⟨s.next, g⟩ : Ref E P K)
    refine finish _ hst hb.lookup rfl ?_ ?_ ?_
    · intro t ht
      dsimp only at ht ⊢
      rw [hb.top, hp.mem_iff, List.mem_cons] at ht
      rcases ht with rfl | ht
      · refine ⟨upd_same _ _ _, v, ?_, hstnew⟩
        rw [upd_same, hcnew]
      · obtain ⟨a, w, b, d⟩ := h.kept t ht
        refine ⟨?_, w, ?_, hstold t ht w d⟩
        · rw [upd_ne _ _ (hidx t (.inl ht)), hcold t (.inl ht)]
          exact a
        · rw [upd_ne _ _ (hident he' t ht), hb.disk]
          exact b
    · intro f hf
      dsimp only at hf ⊢
      rw [hb.top]
      by_cases hfg : f = g.ident
      · exact ⟨⟨s.next, g⟩, hp.mem_iff.2 (by simp), hfg.symm⟩
      · rw [upd_ne _ _ hfg, hb.disk] at hf
        obtain ⟨t, ht, e⟩ := h.only f hf
        exact ⟨t, hp.mem_iff.2 (by simp [ht]), e⟩
    · intro o ho
      dsimp only at ho ⊢
      rw [hb.other] at ho
      rw [upd_ne _ _ (hidx o (.inr ho)), hcold o (.inr ho)]
      exact h.others o ho
  | false =>
    rcases heappushpop_spec hh.heap (⟨s.next, g⟩ : Ref E P K) with
      ⟨hpp, _⟩ | ⟨q, h', hpp, hlt, hqm, _, _, hp⟩
    · exact toOther (store_back c ⟨s.next, g⟩ s2 he' hroom (by rw [hb.top]; exact hpp))
    · have hst := store_pop c ⟨s.next, g⟩ s2 he' hroom (by rw [hb.top]; exact hpp) hlt
      obtain ⟨qa, qw, qb, _⟩ := h.kept q hqm
      have hq1 : (upd s2.cells s.next ⟨[], none, some g.ident⟩ q.idx)
          = (⟨[], none, some q.given.ident⟩ : EvalCell E P) := by
        rw [upd_ne _ _ (hidx q (.inl hqm)), hcold q (.inl hqm)]
        exact qa
      have hq2 : upd s2.disk g.ident (some ((s2.cells s.next).estimators, (s2.cells s.next).predictions))
          q.given.ident = some (q.given.estimators, qw) := by
        rw [upd_ne _ _ (hident he' q hqm), hb.disk]
        exact qb
      dsimp only at hst
      rw [hq1] at hst
      dsimp only at hst
      rw [hq2] at hst
      dsimp only at hst
      have hne : ∀ t ∈ h', t.idx ≠ q.idx ∧ t.given.ident ≠ q.given.ident := by
        intro t ht
        have hnd : (q :: h').Nodup := by
          rw [hp.nodup_iff]
          have h1 : (numbered (hist ++ [g])).Nodup := numbered_nodup _
          rw [hnum] at h1
          have h2 : (⟨s.next, g⟩ :: (s.top ++ (s.other ++ []))).Nodup := by
            rw [((hh.perm.cons _).trans (List.perm_append_singleton _ _).symm).nodup_iff]
            exact h1
          rw [← List.cons_append] at h2
          exact (List.nodup_append.1 h2).1
        have hmem : ∀ x ∈ q :: h', x ∈ numbered (hist ++ [g]) := by
          intro x hx
          rw [hp.mem_iff, List.mem_cons] at hx
          rw [hnum]
          rcases hx with rfl | hx
          · simp
          · exact List.mem_append_left _ (hold x (.inl hx))
        have hfree : ∀ x ∈ q :: h', x.given.error = none := by
          intro x hx
          rw [hp.mem_iff, List.mem_cons] at hx
          rcases hx with rfl | hx
          · exact he'
          · exact hh.noerr x hx
        have hx : t ≠ q := by
          rintro rfl
          exact (List.nodup_cons.1 hnd).1 ht
        have hi : t.given.ident ≠ q.given.ident := fun e =>
          hx (DistinctIds.eq hd (hmem t (by simp [ht])) (hmem q (by simp)) (hfree t (by simp [ht]))
            (hfree q (by simp)) e)
        refine ⟨?_, hi⟩
        intro e
        have h1 := mem_numbered.1 (hmem t (by simp [ht]))
        have h2 := mem_numbered.1 (hmem q (by simp))
        rw [e, h2] at h1
        apply hi
        injection h1 with h1
        rw [h1]
      refine finish _ hst hb.lookup rfl ?_ ?_ ?_
      · intro t ht
        dsimp only at ht ⊢
        obtain ⟨n1, n2⟩ := hne t ht
        rw [upd_ne _ _ n1, upd_ne _ _ n2]
        have : t ∈ q :: h' := List.mem_cons_of_mem _ ht
        rw [hp.mem_iff, List.mem_cons] at this
        rcases this with rfl | ht
        · refine ⟨upd_same _ _ _, v, ?_, hstnew⟩
          rw [upd_same, hcnew]
        · obtain ⟨a, w, b, d⟩ := h.kept t ht
          refine ⟨?_, w, ?_, hstold t ht w d⟩
          · rw [upd_ne _ _ (hidx t (.inl ht)), hcold t (.inl ht)]
            exact a
          · rw [upd_ne _ _ (hident he' t ht), hb.disk]
            exact b
      · intro f hf
        dsimp only at hf ⊢
        by_cases hfq : f = q.given.ident
        · rw [hfq, upd_same] at hf; exact absurd rfl hf
        · rw [upd_ne _ _ hfq] at hf
          have : ∃ t ∈ (⟨s.next, g⟩ : Ref E P K) :: s.top, t.given.ident = f := by
            by_cases hfg : f = g.ident
            · exact ⟨⟨s.next, g⟩, by simp, hfg.symm⟩
            · rw [upd_ne _ _ hfg, hb.disk] at hf
              obtain ⟨t, ht, e⟩ := h.only f hf
              exact ⟨t, by simp [ht], e⟩
          obtain ⟨t, ht, e⟩ := this
          rw [← hp.mem_iff, List.mem_cons] at ht
          rcases ht with rfl | ht
          · exact absurd e.symm hfq
          · exact ⟨t, ht, e⟩
      · intro o ho
        dsimp only at ho ⊢
        rw [hb.other] at ho
        rcases List.mem_append.1 ho with ho | ho
        · by_cases hoq : o.idx = q.idx
          · rw [hoq, upd_same]
          · rw [upd_ne _ _ hoq, upd_ne _ _ (hidx o (.inr ho)), hcold o (.inr ho)]
            exact h.others o ho
        · simp only [List.mem_singleton] at ho
          subst ho
          rw [upd_same]

theorem Cached.save {c : LibConfig} {size : Nat} {hist : List (EvalRec E P K)} {s : Lib E P K}
    {g : EvalRec E P K} (hh : Holds c hist [] s) (h : Cached c size hist s)
    (hps : ∀ l, g.predictions = some l → l.length = size) (hd : DistinctIds (hist ++ [g])) :
    (saveEvaluation c g s).1 = .ok () ∧ Holds c (hist ++ [g]) [] (saveEvaluation c g s).2 ∧
      Cached c size (hist ++ [g]) (saveEvaluation c g s).2 ∧
      ((saveEvaluation c g s).2.sample = s.sample ∨
        s.sample = .notSet ∧ ChosenRows c.n size (saveEvaluation c g s).2.sample) := by
  refine CachedBy.save (Q' := fun x t v => StoredAs c x t.given v) hh h hps hd ?_ (fun x _ v hv _ => hv)
  rintro x (rfl | ⟨e, _⟩) r hr v hst
  · exact hst
  · refine hst.resample fun hc => h.unset e hc _ (numbered_given_mem ?_)
    have := hh.perm.mem_iff (a := r)
    simp only [List.append_nil, List.mem_append] at this
    exact this.1 (.inl hr)

theorem Cached.saveAll {c : LibConfig} {size : Nat} : ∀ (rs hist : List (EvalRec E P K))
    (s : Lib E P K), Holds c hist [] s → Cached c size hist s → SameSize size rs →
    DistinctIds (hist ++ rs) →
    Holds c (hist ++ rs) [] (Gama.saveAll c rs s) ∧ Cached c size (hist ++ rs) (Gama.saveAll c rs s) ∧
      ((Gama.saveAll c rs s).sample = s.sample ∨
        s.sample = .notSet ∧ ChosenRows c.n size (Gama.saveAll c rs s).sample)
  | [], hist, s, h, h', _, _ => by
    simp only [List.append_nil, Gama.saveAll]
    exact ⟨h, h', .inl trivial⟩
  | g :: rs, hist, s, h, h', hs, hd => by
    have e : hist ++ g :: rs = (hist ++ [g]) ++ rs := by simp
    rw [e] at hd ⊢
    have hd1 : DistinctIds (hist ++ [g]) := hd.sublist (List.sublist_append_left _ _)
    obtain ⟨_, h1, h2, h3⟩ := h'.save h (hs g (by simp)) hd1
    obtain ⟨h4, h5, h6⟩ := Cached.saveAll rs (hist ++ [g]) _ h1 h2
      (fun r hr => hs r (by simp [hr])) hd
    refine ⟨h4, h5, ?_⟩
    rcases h6 with h6 | ⟨h6, h7⟩
    · rcases h3 with h3 | ⟨h3, h3'⟩
      · exact .inl (h6.trans h3)
      · exact .inr ⟨h3, by simp only [Gama.saveAll]; rw [h6]; exact h3'⟩
    · rcases h3 with h3 | ⟨h3, h3'⟩
      · exact .inr ⟨h3 ▸ h6, h7⟩
      · exact .inr ⟨h3, h7⟩

theorem cached_init (c : LibConfig) (sample : Option (List Nat)) (rnd : Stream) {size : Nat}
    (h : ∀ l, sample = some l → ∀ i ∈ l, i < size) :
    Cached c size [] (libInit c sample rnd : Lib E P K) := by
  refine ⟨by simp [libInit], by simp [libInit], by simp [libInit], by simp, ?_, ?_⟩
  · cases sample with
    | some l => exact h l rfl
    | none => cases hc : c.n <;> simp [libInit, hc, InRange]
  · intro k r
    simp [libInit, numbered]

end
end Gama
