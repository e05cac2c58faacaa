import Verif.Lemmas.Library

/-! # Invariants of the evaluation library -/

namespace Gama
open PyM Spec

section
variable {E P K : Type} [LinearOrder K]

theorem numbered_append (hist : List (EvalRec E P K)) (g : EvalRec E P K) :
    numbered (hist ++ [g]) = numbered hist ++ [⟨hist.length, g⟩] := by
  simp [numbered, List.zipIdx_append]

theorem mem_numbered {hist : List (EvalRec E P K)} {r : Ref E P K} :
    r ∈ numbered hist ↔ hist[r.idx]? = some r.given := by
  unfold numbered
  rw [List.mem_map]
  constructor
  · rintro ⟨⟨a, i⟩, h, rfl⟩
    exact List.mem_zipIdx_iff_getElem?.1 h
  · intro h
    exact ⟨(r.given, r.idx), List.mem_zipIdx_iff_getElem?.2 h, rfl⟩

theorem numbered_lt {hist : List (EvalRec E P K)} {r : Ref E P K} (h : r ∈ numbered hist) :
    r.idx < hist.length := by
  rw [mem_numbered] at h
  exact (List.getElem?_eq_some_iff.1 h).1

theorem numbered_map_given (hist : List (EvalRec E P K)) :
    (numbered hist).map Ref.given = hist := by
  simp [numbered, List.map_map, Function.comp_def]

/-- The state when `store` is called. -/
structure BeforeStore (c : LibConfig) (size : Nat) (g : EvalRec E P K) (s s2 : Lib E P K) : Prop where
  top : s2.top = s.top
  other : s2.other = s.other
  lookup : s2.lookup = s.lookup
  disk : s2.disk = s.disk
  next : s2.next = s.next + 1
  range : InRange size s2.sample
  sample : s2.sample = s.sample ∨ s.sample = .notSet ∧ ChosenRows c.n size s2.sample
  cells : ∃ v, s2.cells = upd s.cells s.next ⟨g.estimators, v, none⟩ ∧
    (c.n = some 0 → v = none) ∧ (c.n ≠ some 0 → Stored s2.sample.toRows g.predictions v ∧
      (g.predictions ≠ none → s2.sample ≠ .notSet))

theorem save_run {c : LibConfig} {size : Nat} (g : EvalRec E P K) (s : Lib E P K)
    (hs : InRange size s.sample) (hps : ∀ l, g.predictions = some l → l.length = size) :
    ∃ s2, BeforeStore c size g s s2 ∧
      saveEvaluation c g s = match store c ⟨s.next, g⟩ s2 with
        | (.ok _, s3) => (.ok (), { s3 with
            lookup := fun k => if k = g.pipeline then some ⟨s.next, g⟩ else s3.lookup k })
        | (.error e, s3) => (.error e, s3) := by
  have h := wp_processPredictions (c := c) (ps := g.predictions)
    ({ s with next := s.next + 1 } : Lib E P K) hs hps
  cases hr : processPredictions c g.predictions ({ s with next := s.next + 1 } : Lib E P K) with
  | mk r s1 =>
    cases r with
    | error e => exact absurd (wp_error h hr) id
    | ok v =>
      obtain ⟨⟨x, rnd, rfl⟩, h2, h3, h4, h5⟩ := wp_ok h hr
      refine ⟨{ s with next := s.next + 1, sample := x, rnd := rnd, cells := upd s.cells s.next ⟨g.estimators, v, none⟩ },
        ⟨rfl, rfl, rfl, rfl, rfl, h2, h3, v, rfl, h4, h5⟩, ?_⟩
      unfold saveEvaluation
      rw [bind_ok get_run]
      dsimp only
      rw [bind_ok modify_run, bind_ok hr]
      unfold setCell
      rw [bind_ok modify_run, bind_run]
      dsimp only
      split <;> rename_i heq <;> rw [heq] <;> rfl

/-! ## What is kept -/

/-- The library after the history `hist`; `lost` are evaluations that are in no list. -/
structure Holds (c : LibConfig) (hist : List (EvalRec E P K)) (lost : List (Ref E P K))
    (s : Lib E P K) : Prop where
  next : s.next = hist.length
  heap : IsHeap (fun r : Ref E P K => r.given.score) s.top
  perm : (s.top ++ (s.other ++ lost)).Perm (numbered hist)
  noerr : ∀ r ∈ s.top, r.given.error = none
  room : ∀ m, c.m = some m → s.top.length ≤ m
  best : ∀ r ∈ s.other ++ lost, r.given.error = none →
    c.m = some s.top.length ∧ ∀ t ∈ s.top, r.given.score ≤ t.given.score

theorem Holds.of_same {c : LibConfig} {hist : List (EvalRec E P K)} {lost : List (Ref E P K)}
    {s s' : Lib E P K} (h : Holds c hist lost s) (h1 : s'.top = s.top) (h2 : s'.other = s.other)
    (h3 : s'.next = s.next) : Holds c hist lost s' :=
  ⟨h3 ▸ h.next, h1 ▸ h.heap, by rw [h1, h2]; exact h.perm, h1 ▸ h.noerr, h1 ▸ h.room,
    by rw [h1, h2]; exact h.best⟩

/-- `store` of the next evaluation; `q` is what the heap gives back. -/
theorem Holds.store {c : LibConfig} {hist : List (EvalRec E P K)} {lost : List (Ref E P K)}
    {s s2 : Lib E P K} {g : EvalRec E P K} (h : Holds c hist lost s)
    (h1 : s2.top = s.top) (h2 : s2.other = s.other) (h3 : s2.next = s.next + 1) :
    ∃ lost', Holds c (hist ++ [g]) lost' (store c ⟨s.next, g⟩ s2).2 ∧
      ((store c ⟨s.next, g⟩ s2).1 = .ok () → lost' = lost) := by
  have hnum : numbered (hist ++ [g]) = numbered hist ++ [⟨s.next, g⟩] := by
    rw [numbered_append, h.next]
  have hperm : ∀ (top other : List (Ref E P K)) (new : List (Ref E P K)),
      (top ++ (other ++ new)).Perm (⟨s.next, g⟩ :: (s.top ++ (s.other ++ lost))) →
      (top ++ (other ++ new)).Perm (numbered (hist ++ [g])) := by
    intro top other new hp
    rw [hnum]
    exact hp.trans ((h.perm.cons _).trans (List.perm_append_singleton _ _).symm)
  have hother : ∀ x : List (Ref E P K), ∀ r, (x ++ ((s.other ++ [r]) ++ lost)).Perm (r :: (x ++ (s.other ++ lost))) := by
    intro x r
    have e : x ++ ((s.other ++ [r]) ++ lost) = (x ++ s.other) ++ r :: lost := by simp
    rw [e]
    refine List.perm_middle.trans ?_
    simp
  by_cases he : g.error.isSome
  · rw [store_error c _ s2 he]
    refine ⟨lost, ⟨?_, ?_, ?_, ?_, ?_, ?_⟩, fun _ => rfl⟩
    · simp [h3, h.next]
    · simpa [h1] using h.heap
    · dsimp only
      rw [h1, h2]
      exact hperm _ _ _ (hother _ _)
    · simpa [h1] using h.noerr
    · simpa [h1] using h.room
    · intro r hr hre
      dsimp only at hr ⊢
      rw [h1]
      rw [h2] at hr
      simp only [List.mem_append, List.mem_singleton] at hr
      rcases hr with (hr | rfl) | hr
      · exact h.best r (by simp [hr]) hre
      · exact absurd he (by show ¬ g.error.isSome = true; rw [show g.error = none from hre]; simp)
      · exact h.best r (by simp [hr]) hre
  · have he' : g.error = none := by simpa using he
    cases hroom : hasRoom c.m s2.top.length with
    | true =>
      rw [store_room c ⟨s.next, g⟩ s2 he' hroom]
      obtain ⟨hh, hp⟩ := heappush_spec h.heap (⟨s.next, g⟩ : Ref E P K)
      refine ⟨lost, ⟨?_, ?_, ?_, ?_, ?_, ?_⟩, fun _ => rfl⟩
      · simp [h3, h.next]
      · dsimp only; rw [h1]; exact hh
      · dsimp only
        rw [h1, h2]
        exact hperm _ _ _ (hp.append_right _)
      · intro r hr
        dsimp only at hr
        rw [h1, hp.mem_iff, List.mem_cons] at hr
        rcases hr with rfl | hr
        · exact he'
        · exact h.noerr r hr
      · intro m hm
        dsimp only
        rw [h1, hp.length_eq]
        simp [hasRoom, hm, h1] at hroom
        simp only [List.length_cons]
        omega
      · intro r hr hre
        dsimp only at hr ⊢
        rw [h2] at hr
        have := (h.best r hr hre).1
        simp [hasRoom, this, h1] at hroom
    | false =>
      have hm : c.m = some s.top.length := by
        cases hm : c.m with
        | none => simp [hasRoom, hm] at hroom
        | some m =>
          have := h.room m hm
          simp [hasRoom, hm, h1] at hroom
          rw [show m = s.top.length by omega]
      rcases heappushpop_spec h.heap (⟨s.next, g⟩ : Ref E P K) with ⟨hpp, hle⟩ | ⟨q, h', hpp, hlt, hqm, hqle, hh, hp⟩
      · rw [store_back c ⟨s.next, g⟩ s2 he' hroom (by rw [h1]; exact hpp)]
        refine ⟨lost, ⟨?_, ?_, ?_, ?_, ?_, ?_⟩, fun _ => rfl⟩
        · simp [h3, h.next]
        · simpa [h1] using h.heap
        · dsimp only
          rw [h1, h2]
          exact hperm _ _ _ (hother _ _)
        · simpa [h1] using h.noerr
        · simpa [h1] using h.room
        · intro r hr hre
          dsimp only at hr ⊢
          rw [h1]
          rw [h2] at hr
          simp only [List.mem_append, List.mem_singleton] at hr
          rcases hr with (hr | rfl) | hr
          · exact h.best r (by simp [hr]) hre
          · exact ⟨hm, hle⟩
          · exact h.best r (by simp [hr]) hre
      · have hlen : h'.length = s.top.length := by
          have := hp.length_eq; simpa using this
        have core : ∀ other' lost' : List (Ref E P K),
            (other' ++ lost').Perm (q :: (s.other ++ lost)) →
            ∀ s' : Lib E P K, s'.top = h' → s'.other = other' → s'.next = s.next + 1 →
            Holds c (hist ++ [g]) lost' s' := by
          intro other' lost' hol s' e1 e2 e3
          refine ⟨?_, ?_, ?_, ?_, ?_, ?_⟩
          · simp [e3, h.next]
          · rw [e1]; exact hh
          · rw [e1, e2]
            refine hperm _ _ _ ?_
            refine (hol.append_left h').trans ?_
            refine List.perm_middle.trans ?_
            rw [← List.cons_append]
            exact hp.append_right _
          · intro r hr
            rw [e1] at hr
            have : r ∈ q :: h' := List.mem_cons_of_mem _ hr
            rw [hp.mem_iff, List.mem_cons] at this
            rcases this with rfl | hr
            · exact he'
            · exact h.noerr r hr
          · intro m hm'
            rw [e1, hlen]
            exact h.room m hm'
          · intro r hr hre
            rw [e1, hlen]
            refine ⟨hm, ?_⟩
            rw [e2, hol.mem_iff, List.mem_cons] at hr
            have hrq : r.given.score ≤ q.given.score := by
              rcases hr with rfl | hr
              · exact le_refl _
              · exact (h.best r hr hre).2 q hqm
            intro t ht
            have : t ∈ q :: h' := List.mem_cons_of_mem _ ht
            rw [hp.mem_iff, List.mem_cons] at this
            rcases this with rfl | ht
            · exact le_trans hrq (le_of_lt hlt)
            · exact le_trans hrq (hqle t ht)
        have hrun := store_pop c ⟨s.next, g⟩ s2 he' hroom (by rw [h1]; exact hpp) hlt
        have hcons : (s.other ++ q :: lost).Perm (q :: (s.other ++ lost)) := List.perm_middle
        rw [hrun]
        split
        · exact ⟨q :: lost, core _ _ hcons _ rfl h2 h3, fun h => nomatch h⟩
        · split
          · exact ⟨q :: lost, core _ _ hcons _ rfl h2 h3, fun h => nomatch h⟩
          · refine ⟨lost, core (s.other ++ [q]) lost (by simpa using hcons) _ rfl (by dsimp only; rw [h2]) h3, fun _ => rfl⟩

theorem Holds.save {c : LibConfig} {size : Nat} {hist : List (EvalRec E P K)}
    {lost : List (Ref E P K)} {s : Lib E P K} {g : EvalRec E P K} (h : Holds c hist lost s)
    (hs : InRange size s.sample) (hps : ∀ l, g.predictions = some l → l.length = size) :
    ∃ lost', Holds c (hist ++ [g]) lost' (saveEvaluation c g s).2 ∧
      InRange size (saveEvaluation c g s).2.sample ∧
      ((saveEvaluation c g s).1 = .ok () → lost' = lost) := by
  obtain ⟨s2, hb, hrun⟩ := save_run (c := c) g s hs hps
  obtain ⟨lost', h1, h2⟩ := h.store (g := g) hb.top hb.other hb.next
  have hsm : (Gama.store c ⟨s.next, g⟩ s2).2.sample = s2.sample := by
    have : wp (Gama.store c ⟨s.next, g⟩) (fun _ s' => s'.sample = s2.sample)
        (fun _ s' => s'.sample = s2.sample) s2 := by
      by_cases he : g.error.isSome
      · unfold wp; rw [store_error c _ s2 he]
      · have he' : g.error = none := by simpa using he
        cases hroom : hasRoom c.m s2.top.length with
        | true => unfold wp; rw [store_room c ⟨s.next, g⟩ s2 he' hroom]
        | false =>
          rcases heappushpop_spec (hb.top.symm ▸ h.heap : IsHeap _ s2.top) (⟨s.next, g⟩ : Ref E P K) with
            ⟨hpp, _⟩ | ⟨q, h', hpp, hlt, _⟩
          · unfold wp; rw [store_back c ⟨s.next, g⟩ s2 he' hroom hpp]
          · have := store_pop c ⟨s.next, g⟩ s2 he' hroom hpp hlt
            unfold wp
            rw [this]
            split <;> rename_i heq <;> split at heq <;> (try split at heq) <;> cases heq <;> rfl
    unfold wp at this
    split at this <;> rename_i heq <;> rw [heq] <;> exact this
  rw [hrun]
  cases hst : Gama.store c ⟨s.next, g⟩ s2 with
  | mk r s3 =>
    rw [hst] at h1 h2 hsm
    cases r with
    | error e => exact ⟨lost', h1, hsm ▸ hb.range, fun h => nomatch h⟩
    | ok u => exact ⟨lost', h1.of_same rfl rfl rfl, hsm ▸ hb.range, fun _ => h2 rfl⟩

theorem Holds.saveAll {c : LibConfig} {size : Nat} : ∀ (rs hist : List (EvalRec E P K))
    (lost : List (Ref E P K)) (s : Lib E P K), Holds c hist lost s → InRange size s.sample →
    SameSize size rs → ∃ lost', Holds c (hist ++ rs) lost' (Gama.saveAll c rs s)
  | [], hist, lost, s, h, _, _ => ⟨lost, by simpa [Gama.saveAll] using h⟩
  | g :: rs, hist, lost, s, h, hr, hs => by
    obtain ⟨lost', h1, h2, _⟩ := h.save (g := g) hr (hs g (by simp))
    obtain ⟨lost'', h3⟩ := Holds.saveAll rs (hist ++ [g]) lost' _ h1 h2
      (fun r hr => hs r (by simp [hr]))
    exact ⟨lost'', by simpa [Gama.saveAll] using h3⟩

theorem holds_init (c : LibConfig) (sample : Option (List Nat)) (rnd : Stream) :
    Holds c [] [] (libInit c sample rnd : Lib E P K) :=
  ⟨rfl, isHeap_nil, by simp [libInit, numbered], by simp [libInit], by simp [libInit],
    by simp [libInit]⟩

end
end Gama
