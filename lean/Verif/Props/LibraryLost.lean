import Verif.Props.Library

/-!
# What happens to an individual that is saved more than once (C23, C24, C26)

`C23_no_loss_partial`, `C24_cache_partial` and `C26_lookup_partial` ask that no individual is saved twice without an
error.  The theorems here say what is true without that.
-/

namespace Gama
open PyM Spec

section
variable {E P K : Type} [LinearOrder K]

/-- Another evaluation of the individual of `x` was removed from those kept. -/
def Spec.Displaced (other : List (Ref E P K)) (x : Ref E P K) : Prop :=
  ∃ o ∈ other, o.given.error = none ∧ o.given.ident = x.given.ident

/-- Of every evaluation it is known where it is; `lost` are those that are in no list, `missed` those that are not
looked up. -/
structure Traced (c : LibConfig) (hist : List (EvalRec E P K)) (lost missed : List (Ref E P K)) (s : Lib E P K) : Prop where
  perm : (s.top ++ (s.other ++ lost)).Perm (numbered hist)
  cells : ∀ t ∈ s.top, s.cells t.idx = ⟨[], none, some t.given.ident⟩
  gone : ∀ t ∈ s.top, s.disk t.given.ident = none → Displaced s.other t
  why : ∀ x ∈ lost, x.given.error = none ∧ Displaced s.other x
  files : ∀ f d, s.disk f = some d → ∃ u ∈ numbered hist, u.given.ident = f ∧ u.given.error = none ∧
    d.1 = u.given.estimators ∧ StoredAs c s.sample u.given d.2
  unset : s.sample = .notSet → c.n ≠ some 0 → ∀ g ∈ hist, g.predictions = none
  count : missed.length = lost.length
  miss : ∀ x ∈ missed, x ∈ numbered hist ∧ x.given.error = none
  latest : ∀ k r, s.lookup k = some r ↔ (r ∈ numbered hist ∧ r ∉ missed) ∧ r.given.pipeline = k ∧
    ∀ r' ∈ numbered hist, r' ∉ missed → r'.given.pipeline = k → r'.idx ≤ r.idx

omit [LinearOrder K] in
theorem Spec.Displaced.mono {a b : List (Ref E P K)} {x : Ref E P K} (h : Displaced a x) (hs : ∀ o ∈ a, o ∈ b) :
    Displaced b x := by
  obtain ⟨o, ho, h⟩ := h
  exact ⟨o, hs o ho, h⟩

/-- The lookup after a save that succeeds. -/
theorem latest_add {hist : List (EvalRec E P K)} {missed : List (Ref E P K)} {look : Str → Option (Ref E P K)} {n : Nat}
    {g : EvalRec E P K} (hn : n = hist.length) (hm : ∀ x ∈ missed, x ∈ numbered hist)
    (h : ∀ k r, look k = some r ↔ (r ∈ numbered hist ∧ r ∉ missed) ∧ r.given.pipeline = k ∧
      ∀ r' ∈ numbered hist, r' ∉ missed → r'.given.pipeline = k → r'.idx ≤ r.idx) (k : Str) (r : Ref E P K) :
    (if k = g.pipeline then some ⟨n, g⟩ else look k) = some r ↔
      (r ∈ numbered (hist ++ [g]) ∧ r ∉ missed) ∧ r.given.pipeline = k ∧
      ∀ r' ∈ numbered (hist ++ [g]), r' ∉ missed → r'.given.pipeline = k → r'.idx ≤ r.idx := by
  have hnew : (⟨n, g⟩ : Ref E P K) ∉ missed := fun hx => by
    have := numbered_lt (hm _ hx)
    dsimp only at this
    omega
  rw [numbered_append, ← hn]
  by_cases hk : k = g.pipeline
  · rw [if_pos hk]
    constructor
    · intro e
      cases e
      refine ⟨⟨by simp, hnew⟩, hk.symm, fun r' hr' _ _ => ?_⟩
      rcases List.mem_append.1 hr' with hr' | hr'
      · have := numbered_lt hr'
        dsimp only
        omega
      · simp only [List.mem_singleton] at hr'; rw [hr']
    · rintro ⟨⟨hr, _⟩, _, hmax⟩
      rcases List.mem_append.1 hr with hr | hr
      · have h1 := hmax ⟨n, g⟩ (by simp) hnew hk.symm
        have := numbered_lt hr
        dsimp only at h1
        omega
      · simp only [List.mem_singleton] at hr; rw [hr]
  · rw [if_neg hk, h]
    constructor
    · rintro ⟨⟨h1, h1'⟩, h2, h3⟩
      refine ⟨⟨List.mem_append_left _ h1, h1'⟩, h2, fun r' hr' hm' hp => ?_⟩
      rcases List.mem_append.1 hr' with hr' | hr'
      · exact h3 r' hr' hm' hp
      · simp only [List.mem_singleton] at hr'
        subst hr'
        exact absurd hp.symm hk
    · rintro ⟨⟨h1, h1'⟩, h2, h3⟩
      rcases List.mem_append.1 h1 with h1 | h1
      · exact ⟨⟨h1, h1'⟩, h2, fun r' hr' => h3 r' (List.mem_append_left _ hr')⟩
      · simp only [List.mem_singleton] at h1
        subst h1
        exact absurd h2.symm hk

/-- The lookup after a save that raises. -/
theorem latest_keep {hist : List (EvalRec E P K)} {missed : List (Ref E P K)} {look : Str → Option (Ref E P K)} {n : Nat}
    {g : EvalRec E P K} (hn : n = hist.length)
    (h : ∀ k r, look k = some r ↔ (r ∈ numbered hist ∧ r ∉ missed) ∧ r.given.pipeline = k ∧
      ∀ r' ∈ numbered hist, r' ∉ missed → r'.given.pipeline = k → r'.idx ≤ r.idx) (k : Str) (r : Ref E P K) :
    look k = some r ↔
      (r ∈ numbered (hist ++ [g]) ∧ r ∉ ⟨n, g⟩ :: missed) ∧ r.given.pipeline = k ∧
      ∀ r' ∈ numbered (hist ++ [g]), r' ∉ ⟨n, g⟩ :: missed → r'.given.pipeline = k → r'.idx ≤ r.idx := by
  have key : ∀ r : Ref E P K, (r ∈ numbered (hist ++ [g]) ∧ r ∉ ⟨n, g⟩ :: missed) ↔ (r ∈ numbered hist ∧ r ∉ missed) := by
    intro r
    rw [numbered_append, ← hn, List.mem_append, List.mem_singleton, List.mem_cons]
    constructor
    · rintro ⟨h1 | h1, h2⟩
      · exact ⟨h1, fun hx => h2 (.inr hx)⟩
      · exact absurd (.inl h1) h2
    · rintro ⟨h1, h2⟩
      refine ⟨.inl h1, ?_⟩
      rintro (h3 | h3)
      · have := numbered_lt h1
        rw [h3] at this
        dsimp only at this
        omega
      · exact h2 h3
  rw [h, key]
  refine and_congr Iff.rfl (and_congr Iff.rfl ⟨fun h3 r' hr' hm' => ?_, fun h3 r' hr' hm' => ?_⟩)
  · exact h3 r' ((key r').1 ⟨hr', hm'⟩).1 ((key r').1 ⟨hr', hm'⟩).2
  · exact h3 r' ((key r').2 ⟨hr', hm'⟩).1 ((key r').2 ⟨hr', hm'⟩).2

theorem Traced.save {c : LibConfig} {size : Nat} {hist : List (EvalRec E P K)} {l lost missed : List (Ref E P K)}
    {s : Lib E P K} {g : EvalRec E P K} (hh : Holds c hist l s) (h : Traced c hist lost missed s)
    (hrg : InRange size s.sample) (hps : ∀ l, g.predictions = some l → l.length = size) :
    ∃ lost' missed', Traced c (hist ++ [g]) lost' missed' (saveEvaluation c g s).2 := by
  obtain ⟨s2, hb, hrun⟩ := save_run (c := c) g s hrg hps
  obtain ⟨v, hcells, hv0, hv1⟩ := hb.cells
  have hnum : numbered (hist ++ [g]) = numbered hist ++ [⟨s.next, g⟩] := by
    rw [numbered_append, hh.next]
  have hsub : ∀ r ∈ numbered hist, r ∈ numbered (hist ++ [g]) := fun r hr => by
    rw [hnum]; exact List.mem_append_left _ hr
  have hself : (⟨s.next, g⟩ : Ref E P K) ∈ numbered (hist ++ [g]) := by rw [hnum]; simp
  have hperm : ∀ x : List (Ref E P K), x.Perm (⟨s.next, g⟩ :: (s.top ++ (s.other ++ lost))) →
      x.Perm (numbered (hist ++ [g])) := fun x hx => by
    rw [hnum]
    exact hx.trans ((h.perm.cons _).trans (List.perm_append_singleton _ _).symm)
  have hold : ∀ r ∈ s.top, r.idx ≠ s.next := by
    intro r hr
    have := numbered_lt (h.perm.mem_iff.1 (List.mem_append_left _ hr))
    rw [hh.next]
    omega
  have hcold : ∀ r ∈ s.top, s2.cells r.idx = ⟨[], none, some r.given.ident⟩ := by
    intro r hr
    rw [hcells, upd_ne _ _ (hold r hr)]
    exact h.cells r hr
  have hcnew : s2.cells s.next = ⟨g.estimators, v, none⟩ := by rw [hcells, upd_same]
  have hstnew : StoredAs c s2.sample g v := ⟨hv0, fun hc => (hv1 hc).1⟩
  have hstold : ∀ r ∈ numbered hist, ∀ v, StoredAs c s.sample r.given v → StoredAs c s2.sample r.given v := by
    intro r hr v hst
    rcases hb.sample with e | ⟨e, _⟩
    · rw [e]; exact hst
    · exact hst.resample fun hc => h.unset e hc _ (numbered_given_mem hr)
  have hunset : s2.sample = .notSet → c.n ≠ some 0 → ∀ x ∈ hist ++ [g], x.predictions = none := by
    intro e hc x hx
    rcases List.mem_append.1 hx with hx | hx
    · rcases hb.sample with e' | ⟨e', _⟩
      · exact h.unset (e' ▸ e) hc x hx
      · exact h.unset e' hc x hx
    · simp only [List.mem_singleton] at hx
      subst hx
      by_contra hne
      exact (hv1 hc).2 hne e
  have hfold : ∀ f d, s2.disk f = some d → ∃ u ∈ numbered (hist ++ [g]), u.given.ident = f ∧ u.given.error = none ∧
      d.1 = u.given.estimators ∧ StoredAs c s2.sample u.given d.2 := by
    intro f d hd
    rw [hb.disk] at hd
    obtain ⟨u, hu, h1, h2, h3, h4⟩ := h.files f d hd
    exact ⟨u, hsub u hu, h1, h2, h3, hstold u hu _ h4⟩
  have hfnew : g.error = none → ∀ f d, upd s2.disk g.ident (some ((s2.cells s.next).estimators,
      (s2.cells s.next).predictions)) f = some d → ∃ u ∈ numbered (hist ++ [g]), u.given.ident = f ∧
      u.given.error = none ∧ d.1 = u.given.estimators ∧ StoredAs c s2.sample u.given d.2 := by
    intro he f d hd
    by_cases hf : f = g.ident
    · rw [hf, upd_same, hcnew] at hd
      injection hd with hd
      subst hd
      exact ⟨⟨s.next, g⟩, hself, hf.symm, he, rfl, hstnew⟩
    · rw [upd_ne _ _ hf] at hd
      exact hfold f d hd
  have hmiss : ∀ x ∈ missed, x ∈ numbered (hist ++ [g]) ∧ x.given.error = none := fun x hx =>
    ⟨hsub x (h.miss x hx).1, (h.miss x hx).2⟩
  have hadd := latest_add (g := g) hh.next (fun x hx => (h.miss x hx).1) h.latest
  -- the evaluation goes to the other evaluations
  have toOther : store c ⟨s.next, g⟩ s2 = (.ok (), { s2 with
      cells := upd s2.cells s.next ⟨[], none, (s2.cells s.next).cacheFile⟩, other := s2.other ++ [⟨s.next, g⟩] }) →
      ∃ lost' missed', Traced c (hist ++ [g]) lost' missed' (saveEvaluation c g s).2 := by
    intro hst
    rw [hrun, hst]
    refine ⟨lost, missed, ⟨?_, ?_, ?_, ?_, hfold, hunset, h.count, hmiss, ?_⟩⟩
    · dsimp only
      rw [hb.top, hb.other]
      refine hperm _ ?_
      have e : s.top ++ ((s.other ++ [⟨s.next, g⟩]) ++ lost) = (s.top ++ s.other) ++ ⟨s.next, g⟩ :: lost := by simp
      rw [e]
      refine List.perm_middle.trans ?_
      simp
    · intro t ht
      dsimp only at ht ⊢
      rw [hb.top] at ht
      rw [upd_ne _ _ (hold t ht)]
      exact hcold t ht
    · intro t ht hd
      dsimp only at ht hd ⊢
      rw [hb.top] at ht
      rw [hb.disk] at hd
      rw [hb.other]
      exact (h.gone t ht hd).mono fun o ho => List.mem_append_left _ ho
    · intro x hx
      dsimp only
      rw [hb.other]
      exact ⟨(h.why x hx).1, (h.why x hx).2.mono fun o ho => List.mem_append_left _ ho⟩
    · intro k r
      dsimp only
      rw [hb.lookup]
      exact hadd k r
  by_cases he : g.error.isSome
  · exact toOther (store_error c _ s2 he)
  have he' : g.error = none := by simpa using he
  cases hroom : hasRoom c.m s2.top.length with
  | true =>
    have hst := store_room c ⟨s.next, g⟩ s2 he' hroom
    obtain ⟨_, hp⟩ := heappush_spec hh.heap (⟨s.next, g⟩ : Ref E P K)
    rw [hrun, hst]
    refine ⟨lost, missed, ⟨?_, ?_, ?_, ?_, hfnew he', hunset, h.count, hmiss, ?_⟩⟩
    · dsimp only
      rw [hb.top, hb.other]
      exact hperm _ (hp.append_right _)
    · intro t ht
      dsimp only at ht ⊢
      rw [hb.top, hp.mem_iff, List.mem_cons] at ht
      rcases ht with rfl | ht
      · exact upd_same _ _ _
      · rw [upd_ne _ _ (hold t ht)]
        exact hcold t ht
    · intro t ht hd
      dsimp only at ht hd ⊢
      rw [hb.top, hp.mem_iff, List.mem_cons] at ht
      rw [hb.other]
      by_cases hi : t.given.ident = g.ident
      · rw [hi, upd_same] at hd
        cases hd
      · rw [upd_ne _ _ hi, hb.disk] at hd
        rcases ht with rfl | ht
        · exact absurd rfl hi
        · exact h.gone t ht hd
    · intro x hx
      dsimp only
      rw [hb.other]
      exact h.why x hx
    · intro k r
      dsimp only
      rw [hb.lookup]
      exact hadd k r
  | false =>
    rcases heappushpop_spec hh.heap (⟨s.next, g⟩ : Ref E P K) with
      ⟨hpp, _⟩ | ⟨q, h', hpp, hlt, hqm, _, _, hp⟩
    · exact toOther (store_back c ⟨s.next, g⟩ s2 he' hroom (by rw [hb.top]; exact hpp))
    · have hst := store_pop c ⟨s.next, g⟩ s2 he' hroom (by rw [hb.top]; exact hpp) hlt
      have hq1 : (upd s2.cells s.next ⟨[], none, some g.ident⟩ q.idx)
          = (⟨[], none, some q.given.ident⟩ : EvalCell E P) := by
        rw [upd_ne _ _ (hold q hqm)]
        exact hcold q hqm
      have hqe : q.given.error = none := hh.noerr q hqm
      have htop : ∀ t ∈ h', t = ⟨s.next, g⟩ ∨ t ∈ s.top := fun t ht =>
        List.mem_cons.1 (hp.mem_iff.1 (List.mem_cons_of_mem _ ht))
      have hnq : ∀ t ∈ h', t.idx ≠ q.idx := by
        have hnd : ((q :: h').map Ref.idx).Nodup := by
          rw [(hp.map Ref.idx).nodup_iff, List.map_cons, List.nodup_cons]
          refine ⟨fun hx => ?_, ?_⟩
          · obtain ⟨t, ht, e⟩ := List.mem_map.1 hx
            exact hold t ht e
          · have hn := h.perm.map Ref.idx
            rw [List.map_append] at hn
            have hnn : ((numbered hist).map Ref.idx).Nodup := by
              have e : (numbered hist).map Ref.idx = List.range' 0 hist.length := by
                unfold numbered
                rw [List.map_map]
                have : (Ref.idx ∘ fun p : EvalRec E P K × Nat => (⟨p.2, p.1⟩ : Ref E P K)) = Prod.snd := rfl
                rw [this, List.zipIdx_map_snd]
              rw [e]
              exact List.nodup_range'
            exact (List.nodup_append.1 (hn.nodup_iff.2 hnn)).1
        intro t ht e
        rw [List.map_cons, List.nodup_cons] at hnd
        exact hnd.1 (e ▸ List.mem_map_of_mem ht)
      have hctop : ∀ t ∈ h', upd s2.cells s.next ⟨[], none, some g.ident⟩ t.idx = ⟨[], none, some t.given.ident⟩ := by
        intro t ht
        rcases htop t ht with rfl | ht
        · exact upd_same _ _ _
        · rw [upd_ne _ _ (hold t ht)]
          exact hcold t ht
      have hpq : ∀ other' lost' : List (Ref E P K), (other' ++ lost').Perm (q :: (s.other ++ lost)) →
          (h' ++ (other' ++ lost')).Perm (numbered (hist ++ [g])) := by
        intro other' lost' hol
        refine hperm _ ((hol.append_left h').trans (List.perm_middle.trans ?_))
        rw [← List.cons_append]
        exact hp.append_right _
      have hgone : ∀ t ∈ h', upd s2.disk g.ident (some ((s2.cells s.next).estimators, (s2.cells s.next).predictions))
          t.given.ident = none → Displaced s.other t := by
        intro t ht hd
        by_cases hi : t.given.ident = g.ident
        · rw [hi, upd_same] at hd
          cases hd
        · rw [upd_ne _ _ hi, hb.disk] at hd
          rcases htop t ht with rfl | ht
          · exact absurd rfl hi
          · exact h.gone t ht hd
      dsimp only at hst
      rw [hq1] at hst
      dsimp only at hst
      cases hdq : upd s2.disk g.ident (some ((s2.cells s.next).estimators, (s2.cells s.next).predictions))
          q.given.ident with
      | none =>
        rw [hdq] at hst
        dsimp only at hst
        rw [hrun, hst]
        have hdis : Displaced s.other q := by
          by_cases hi : q.given.ident = g.ident
          · rw [hi, upd_same] at hdq
            cases hdq
          · rw [upd_ne _ _ hi, hb.disk] at hdq
            exact h.gone q hqm hdq
        refine ⟨q :: lost, ⟨s.next, g⟩ :: missed, ⟨?_, hctop, ?_, ?_, hfnew he', hunset, ?_, ?_, ?_⟩⟩
        · dsimp only
          rw [hb.other]
          exact hpq _ _ List.perm_middle
        · intro t ht hd
          dsimp only at ht hd ⊢
          rw [hb.other]
          exact hgone t ht hd
        · intro x hx
          dsimp only
          rw [hb.other]
          rcases List.mem_cons.1 hx with rfl | hx
          · exact ⟨hqe, hdis⟩
          · exact h.why x hx
        · rw [List.length_cons, List.length_cons, h.count]
        · intro x hx
          rcases List.mem_cons.1 hx with rfl | hx
          · exact ⟨hself, he'⟩
          · exact hmiss x hx
        · intro k r
          dsimp only
          rw [hb.lookup]
          exact latest_keep hh.next h.latest k r
      | some d0 =>
        rw [hdq] at hst
        dsimp only at hst
        rw [hrun, hst]
        refine ⟨lost, missed, ⟨?_, ?_, ?_, ?_, ?_, hunset, h.count, hmiss, ?_⟩⟩
        · dsimp only
          rw [hb.other]
          refine hpq _ _ ?_
          have e : s.other ++ [q] ++ lost = s.other ++ q :: lost := by simp
          rw [e]
          exact List.perm_middle
        · intro t ht
          dsimp only at ht ⊢
          rw [upd_ne _ _ (hnq t ht)]
          exact hctop t ht
        · intro t ht hd
          dsimp only at ht hd ⊢
          rw [hb.other]
          by_cases hi : t.given.ident = q.given.ident
          · exact ⟨q, by simp, hqe, hi.symm⟩
          · rw [upd_ne _ _ hi] at hd
            exact (hgone t ht hd).mono fun o ho => List.mem_append_left _ ho
        · intro x hx
          dsimp only
          rw [hb.other]
          exact ⟨(h.why x hx).1, (h.why x hx).2.mono fun o ho => List.mem_append_left _ ho⟩
        · intro f d hd
          dsimp only at hd ⊢
          by_cases hi : f = q.given.ident
          · rw [hi, upd_same] at hd
            cases hd
          · rw [upd_ne _ _ hi] at hd
            exact hfnew he' f d hd
        · intro k r
          dsimp only
          rw [hb.lookup]
          exact hadd k r

theorem Traced.saveAll {c : LibConfig} {size : Nat} : ∀ (rs hist : List (EvalRec E P K)) (l lost missed : List (Ref E P K))
    (s : Lib E P K), Holds c hist l s → Traced c hist lost missed s → InRange size s.sample → SameSize size rs →
    ∃ lost' missed', Traced c (hist ++ rs) lost' missed' (Gama.saveAll c rs s)
  | [], hist, l, lost, missed, s, _, h, _, _ => ⟨lost, missed, by simpa [Gama.saveAll] using h⟩
  | g :: rs, hist, l, lost, missed, s, hh, h, hr, hs => by
    obtain ⟨l', h1, h2, _⟩ := hh.save (g := g) hr (hs g (by simp))
    obtain ⟨lost', missed', h3⟩ := h.save hh hr (hs g (by simp))
    obtain ⟨lost'', missed'', h4⟩ := Traced.saveAll rs (hist ++ [g]) l' lost' missed' _ h1 h3 h2
      (fun r hr => hs r (by simp [hr]))
    exact ⟨lost'', missed'', by simpa [Gama.saveAll] using h4⟩

omit [LinearOrder K] in
theorem traced_init (c : LibConfig) (sample : Option (List Nat)) (rnd : Stream) :
    Traced c [] [] [] (libInit c sample rnd : Lib E P K) :=
  ⟨by simp [libInit, numbered], by simp [libInit], by simp [libInit], by simp, by simp [libInit], by simp, rfl,
    by simp, by simp [libInit, numbered]⟩

theorem traced_all (c : LibConfig) (sample : Option (List Nat)) (rnd : Stream) (size : Nat)
    (hist : List (EvalRec E P K)) (hsize : SameSize size hist) (hsample : ∀ l, sample = some l → ∀ i ∈ l, i < size) :
    ∃ lost missed, Traced c hist lost missed (Gama.saveAll c hist (libInit c sample rnd)) := by
  have := Traced.saveAll (size := size) hist [] [] [] [] (libInit c sample rnd) (holds_init c sample rnd)
    (traced_init c sample rnd) (cached_init (E := E) (P := P) (K := K) c sample rnd hsample).range hsize
  simpa using this

/-- **C23**, whatever is saved: no evaluation is reported twice, none that failed is lost, and one that succeeded is
lost only if another evaluation of the same individual, which is reported, was removed from those kept. -/
theorem C23_otherwise (c : LibConfig) (sample : Option (List Nat)) (rnd : Stream) (size : Nat)
    (hist : List (EvalRec E P K)) (hsize : SameSize size hist) (hsample : ∀ l, sample = some l → ∀ i ∈ l, i < size) :
    let s := saveAll c hist (libInit c sample rnd)
    ∃ lost, (s.top ++ (s.other ++ lost)).Perm (numbered hist) ∧
      ∀ x ∈ lost, x.given.error = none ∧
        ∃ o ∈ s.other, o.idx ≠ x.idx ∧ o.given.error = none ∧ o.given.ident = x.given.ident := by
  intro s
  obtain ⟨lost, missed, h⟩ := traced_all c sample rnd size hist hsize hsample
  refine ⟨lost, h.perm, fun x hx => ⟨(h.why x hx).1, ?_⟩⟩
  obtain ⟨o, ho, h1, h2⟩ := (h.why x hx).2
  refine ⟨o, ho, fun e => ?_, h1, h2⟩
  have hnd := h.perm.nodup_iff.2 (numbered_nodup hist)
  have hox : o = x := by
    have a := mem_numbered.1 (h.perm.mem_iff.1 (List.mem_append_right _ (List.mem_append_left _ ho)))
    have b := mem_numbered.1 (h.perm.mem_iff.1 (List.mem_append_right _ (List.mem_append_right _ hx)))
    rw [e, b] at a
    injection a with a
    cases o; cases x
    simp only at e a
    rw [e, a]
  have := (List.nodup_append.1 (List.nodup_append.1 hnd).2.1).2.2 o ho x hx
  exact this hox

/-- **C24**, whatever is saved: what a file holds are the models and predictions of some evaluation of that individual
that succeeded; reading a kept evaluation gives these, or its file is gone, and then another evaluation of the same
individual was removed from those kept. -/
theorem C24_otherwise (c : LibConfig) (sample : Option (List Nat)) (rnd : Stream) (size : Nat)
    (hist : List (EvalRec E P K)) (hsize : SameSize size hist) (hsample : ∀ l, sample = some l → ∀ i ∈ l, i < size) :
    let s := saveAll c hist (libInit c sample rnd)
    ∀ t ∈ s.top,
      (readEstimators s t = .error .fileNotFound ∧ readPredictions s t = .error .fileNotFound ∧
        ∃ o ∈ s.other, o.given.error = none ∧ o.given.ident = t.given.ident) ∨
      ∃ g ∈ hist, g.ident = t.given.ident ∧ g.error = none ∧ readEstimators s t = .ok g.estimators ∧
        ∃ v, readPredictions s t = .ok v ∧ (c.n = some 0 → v = none) ∧
          (c.n ≠ some 0 → Stored s.sample.toRows g.predictions v) := by
  intro s t ht
  obtain ⟨lost, missed, h⟩ := traced_all c sample rnd size hist hsize hsample
  have hc : s.cells t.idx = ⟨[], none, some t.given.ident⟩ := h.cells t ht
  cases hd : s.disk t.given.ident with
  | none =>
    refine .inl ⟨?_, ?_, h.gone t ht hd⟩
    · simp [readEstimators, hc, hd]
    · simp [readPredictions, hc, hd]
  | some d =>
    obtain ⟨u, hu, h1, h2, h3, h4⟩ := h.files _ d hd
    refine .inr ⟨u.given, numbered_given_mem hu, h1, h2, ?_, d.2, ?_, h4.1, h4.2⟩
    · simp [readEstimators, hc, hd, h3]
    · simp [readPredictions, hc, hd]

/-- **C26**, whatever is saved: an evaluation that failed is always found; the lookup gives the latest evaluation with
the pipeline but those during whose saving another one was lost, one for each that was lost. -/
theorem C26_otherwise (c : LibConfig) (sample : Option (List Nat)) (rnd : Stream) (size : Nat)
    (hist : List (EvalRec E P K)) (hsize : SameSize size hist) (hsample : ∀ l, sample = some l → ∀ i ∈ l, i < size) :
    let s := saveAll c hist (libInit c sample rnd)
    ∃ missed : List (Ref E P K), (s.top ++ s.other).length + missed.length = hist.length ∧
      (∀ x ∈ missed, hist[x.idx]? = some x.given ∧ x.given.error = none) ∧
      ∀ k r, s.lookup k = some r ↔ (hist[r.idx]? = some r.given ∧ r ∉ missed) ∧ r.given.pipeline = k ∧
        ∀ j g, hist[j]? = some g → ⟨j, g⟩ ∉ missed → g.pipeline = k → j ≤ r.idx := by
  intro s
  obtain ⟨lost, missed, h⟩ := traced_all c sample rnd size hist hsize hsample
  refine ⟨missed, ?_, fun x hx => ⟨mem_numbered.1 (h.miss x hx).1, (h.miss x hx).2⟩, fun k r => ?_⟩
  · have this : (s.top ++ (s.other ++ lost)).length = (numbered hist).length := h.perm.length_eq
    have hn : (numbered hist).length = hist.length := by simp [numbered]
    rw [hn] at this
    rw [h.count]
    simp only [List.length_append] at this ⊢
    omega
  · rw [h.latest, mem_numbered]
    refine and_congr Iff.rfl (and_congr Iff.rfl ⟨fun h3 j g hj hm hk => ?_, fun h3 r' hr' hm hk => ?_⟩)
    · exact h3 ⟨j, g⟩ (mem_numbered.2 hj) hm hk
    · exact h3 r'.idx r'.given (mem_numbered.1 hr') hm hk

end

/-- Individual 1 is saved twice and removed twice: the second time it is lost, and the evaluation saved then (number 3) is
not found. -/
example : let s := saveAll Ex.lib2 Ex.pushedOut (libInit Ex.lib2 none fun _ => 1)
    SameSize 2 Ex.pushedOut ∧ (s.top ++ s.other).map (fun r => r.idx) = [2, 3, 0] ∧
      (s.lookup (Ex.ev 4 8 40 41).pipeline).isNone :=
  ⟨Ex.twice_size, by decide +kernel, by decide +kernel⟩

end Gama
