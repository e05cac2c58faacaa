import Verif.Props.Build

/-!
# The rows of stored predictions, over any number of fits (C27)

Each `fit` of a classifier chooses rows anew.  The evaluations between two fits are of the same rows.
-/

namespace Gama
open PyM Spec

section
variable {E P K : Type} [LinearOrder K]

/-- The evaluations saved. -/
def Spec.savedIn : List (LibEvent E P K) → List (EvalRec E P K)
  | [] => []
  | .save g :: es => g :: savedIn es
  | .fit _ :: es => savedIn es

/-- How often `fit` was called. -/
def Spec.fitsIn : List (LibEvent E P K) → Nat
  | [] => 0
  | .save _ :: es => fitsIn es
  | .fit _ :: es => fitsIn es + 1

omit [LinearOrder K] in
theorem savedIn_append (a b : List (LibEvent E P K)) : savedIn (a ++ b) = savedIn a ++ savedIn b := by
  induction a with
  | nil => rfl
  | cons e a ih => cases e <;> simp [savedIn, ih]

omit [LinearOrder K] in
theorem fitsIn_append (a b : List (LibEvent E P K)) : fitsIn (a ++ b) = fitsIn a + fitsIn b := by
  induction a with
  | nil => simp [fitsIn]
  | cons e a ih => cases e <;> simp [fitsIn, ih] <;> omega

/-- `n` rows out of `size`, or all of them. -/
def Spec.RowChoice (n size : Nat) (rows : List Nat) : Prop :=
  rows.Nodup ∧ (∀ i ∈ rows, i < size) ∧ rows.length = min n size

/-- The rows of a sample. -/
def pickRows (size : Nat) (x : Sample) : List Nat := x.toRows.getD (List.range size)

theorem pickRows_good {n size : Nat} {x : Sample} (h : ChosenRows (some n) size x) :
    RowChoice n size (pickRows size x) := by
  cases x with
  | notSet => exact absurd h id
  | all =>
    have : size ≤ n := h n rfl
    exact ⟨List.nodup_range, fun i hi => List.mem_range.1 hi, by simp [pickRows, Sample.toRows]; omega⟩
  | rows idx =>
    obtain ⟨h1, h2, k, hk, hlt, hl⟩ := h
    cases hk
    exact ⟨h1, h2, by simp [pickRows, Sample.toRows]; omega⟩

theorem rowsOf_range {α : Type} (l : List α) : RowsOf (List.range l.length) l l := by
  unfold RowsOf
  apply List.ext_getElem?
  intro i
  rw [List.getElem?_map, List.getElem?_map]
  by_cases hi : i < l.length
  · rw [List.getElem?_eq_getElem hi, List.getElem?_eq_getElem (by simpa using hi)]
    simp [List.getElem?_eq_getElem hi]
  · rw [List.getElem?_eq_none (by omega), List.getElem?_eq_none (by simp; omega)]
    rfl

/-- What is stored of an evaluation is of the rows chosen at the last fit before it was saved. -/
def OfItsFit (rows : Nat → List Nat) (done : List (LibEvent E P K)) (t : Ref E P K) (v : Option (List P)) :
    Prop :=
  ∃ before after, done = before ++ .save t.given :: after ∧
    ∀ l, t.given.predictions = some l → ∃ l', v = some l' ∧ RowsOf (rows (fitsIn before)) l l'

omit [LinearOrder K] in
theorem OfItsFit.more {rows : Nat → List Nat} {done more : List (LibEvent E P K)} {t : Ref E P K}
    {v : Option (List P)} (h : OfItsFit rows done t v) : OfItsFit rows (done ++ more) t v := by
  obtain ⟨b, a, e, h⟩ := h
  exact ⟨b, a ++ more, by rw [e]; simp, h⟩

/-- What holds of the library after the events `done`. -/
structure RowsKept (c : LibConfig) (n size : Nat) (done : List (LibEvent E P K)) (rows : Nat → List Nat)
    (s : Lib E P K) : Prop where
  holds : Holds c (savedIn done) [] s
  cached : CachedBy (OfItsFit rows done) c size (savedIn done) s
  now : s.sample = .notSet ∧ fitsIn done = 0 ∨
    s.sample ≠ .notSet ∧ rows (fitsIn done) = pickRows size s.sample
  good : ∀ j, RowChoice n size (rows j)

theorem RowsKept.save {c : LibConfig} {n size : Nat} (hn : c.n = some n) (hn0 : n ≠ 0)
    {done : List (LibEvent E P K)} {rows : Nat → List Nat} {s : Lib E P K}
    (h : RowsKept c n size done rows s) {g : EvalRec E P K}
    (hps : ∀ l, g.predictions = some l → l.length = size) (hd : DistinctIds (savedIn done ++ [g])) :
    ∃ rows', RowsKept c n size (done ++ [.save g]) rows' (saveEvaluation c g s).2 := by
  classical
  have hc0 : c.n ≠ some 0 := by rw [hn]; simpa using hn0
  let rows' : Sample → Nat → List Nat := fun x =>
    if s.sample = .notSet ∧ x ≠ .notSet then fun _ => pickRows size x else rows
  have hmem : ∀ t ∈ s.top, t.given ∈ savedIn done := fun t ht =>
    numbered_given_mem (h.holds.perm.mem_iff.1 (List.mem_append_left _ ht))
  obtain ⟨_, h1, h2, h3⟩ := CachedBy.save (Q' := fun x => OfItsFit (rows' x) (done ++ [.save g])) h.holds
    h.cached hps hd
    (by
      intro x _ t ht v hq
      by_cases hx : s.sample = .notSet ∧ x ≠ .notSet
      · obtain ⟨b, a, e, _⟩ := hq
        refine OfItsFit.more ⟨b, a, e, fun l hl => ?_⟩
        rw [h.cached.unset hx.1 hc0 _ (hmem t ht)] at hl
        cases hl
      · have : rows' x = rows := if_neg hx
        rw [this]
        exact hq.more)
    (by
      intro x hx v hv hset
      refine ⟨done, [], rfl, fun l hl => ?_⟩
      have hset' := hset hc0 (by dsimp only at hl; rw [hl]; simp)
      have hst := hv.2 hc0
      dsimp only at hl
      rw [hl] at hst
      obtain ⟨l', e, hrow⟩ := hst
      refine ⟨l', e, ?_⟩
      have hr : rows' x (fitsIn done) = pickRows size x := by
        by_cases hs : s.sample = .notSet
        · have : rows' x = fun _ => pickRows size x := if_pos ⟨hs, hset'⟩
          rw [this]
        · have : rows' x = rows := if_neg fun hh => hs hh.1
          rw [this]
          rcases hx with rfl | ⟨hx, _⟩
          · exact (h.now.resolve_left fun hh => hs hh.1).2
          · exact absurd hx hs
      rw [hr]
      unfold pickRows
      cases hrows : x.toRows with
      | none =>
        rw [hrows] at hrow
        dsimp only at hrow
        subst hrow
        rw [← hps _ hl]
        exact rowsOf_range _
      | some r => rw [hrows] at hrow; exact hrow)
  have hfits : fitsIn (done ++ [.save g]) = fitsIn done := by rw [fitsIn_append]; rfl
  have hsaved : savedIn (done ++ [.save g]) = savedIn done ++ [g] := by rw [savedIn_append]; rfl
  refine ⟨rows' (saveEvaluation c g s).2.sample, by rw [hsaved]; exact h1, by rw [hsaved]; exact h2, ?_, ?_⟩
  · rw [hfits]
    by_cases hx : (saveEvaluation c g s).2.sample = .notSet
    · left
      refine ⟨hx, ?_⟩
      rcases h3 with h3 | ⟨_, h3⟩
      · rcases h.now with hh | hh
        · exact hh.2
        · exact absurd (h3 ▸ hx) hh.1
      · rw [hx] at h3; exact absurd h3 id
    · right
      refine ⟨hx, ?_⟩
      by_cases hs : s.sample = .notSet
      · have : rows' (saveEvaluation c g s).2.sample = fun _ => pickRows size (saveEvaluation c g s).2.sample :=
          if_pos ⟨hs, hx⟩
        rw [this]
      · have : rows' (saveEvaluation c g s).2.sample = rows := if_neg fun hh => hs hh.1
        rw [this]
        rcases h3 with h3 | ⟨h3, _⟩
        · rw [h3]; exact (h.now.resolve_left fun hh => hs hh.1).2
        · exact absurd h3 hs
  · intro j
    by_cases hx : s.sample = .notSet ∧ (saveEvaluation c g s).2.sample ≠ .notSet
    · have : rows' (saveEvaluation c g s).2.sample = fun _ => pickRows size (saveEvaluation c g s).2.sample :=
        if_pos hx
      rw [this]
      rcases h3 with h3 | ⟨_, h3⟩
      · exact absurd (h3.trans hx.1) hx.2
      · rw [hn] at h3; exact pickRows_good h3
    · have : rows' (saveEvaluation c g s).2.sample = rows := if_neg hx
      rw [this]
      exact h.good j

theorem wp_fitRows (c : LibConfig) (k : Nat) (s : Lib E P K) :
    wp (determineSample c none none (some k)) (fun _ (s' : Lib E P K) =>
      Resampled s s' ∧ ChosenRows c.n k s'.sample) (fun _ s' => ∃ r, s' = { s with rnd := r }) s := by
  simp only [determineSample]
  have hn : ((none : Option Nat).orElse fun _ => c.n) = c.n := rfl
  rw [hn]
  cases hc : c.n with
  | none => exact ⟨⟨_, _, rfl⟩, by intro k hk; cases hk⟩
  | some n =>
    dsimp only
    by_cases hlt : n < k
    · rw [if_pos hlt, wp_bind]
      unfold stratified
      rw [wp_bind]
      refine wp_draw fun d => ?_
      by_cases hd : d % 2 = 0
      · rw [if_pos hd]; exact ⟨_, rfl⟩
      · rw [if_neg hd]
        refine wp_mono ?_ (fun _ _ h => h.elim) (wp_sampleRows (le_of_lt hlt) _)
        rintro r s' ⟨⟨h1, h2, h3⟩, x, rfl⟩
        exact ⟨⟨_, _, rfl⟩, h2, h3, n, rfl, hlt, h1⟩
    · rw [if_neg hlt]
      refine ⟨⟨_, _, rfl⟩, ?_⟩
      intro k hk; cases hk; omega

theorem RowsKept.fit {c : LibConfig} {n size : Nat} (hn : c.n = some n) {done : List (LibEvent E P K)}
    {rows : Nat → List Nat} {s s' : Lib E P K} (h : RowsKept c n size done rows s) (hr : Resampled s s')
    (hch : ChosenRows c.n size s'.sample) : ∃ rows', RowsKept c n size (done ++ [.fit size]) rows' s' := by
  obtain ⟨x, r, rfl⟩ := hr
  have hfits : fitsIn (done ++ [LibEvent.fit size]) = fitsIn done + 1 := by rw [fitsIn_append]; rfl
  have hsaved : savedIn (done ++ [LibEvent.fit size]) = savedIn done := by rw [savedIn_append]; simp [savedIn]
  have hne : x ≠ .notSet := by
    rintro rfl
    exact hch
  refine ⟨fun j => if j = fitsIn done + 1 then pickRows size x else rows j, ?_, ?_, ?_, ?_⟩
  · rw [hsaved]; exact h.holds.of_same rfl rfl rfl
  · rw [hsaved]
    refine ⟨fun t ht => ?_, h.cached.only, h.cached.others, fun e => absurd e hne, hch.inRange, h.cached.latest⟩
    obtain ⟨h1, v, h2, b, a, e, h3⟩ := h.cached.kept t ht
    refine ⟨h1, v, h2, OfItsFit.more ⟨b, a, e, ?_⟩⟩
    have : fitsIn b ≠ fitsIn done + 1 := by
      rw [e, fitsIn_append]; omega
    simpa only [if_neg this] using h3
  · right
    refine ⟨hne, ?_⟩
    rw [hfits, if_pos rfl]
  · intro j
    show RowChoice n size (if j = fitsIn done + 1 then pickRows size x else rows j)
    split
    · rw [hn] at hch; exact pickRows_good hch
    · exact h.good j

theorem rowsKept_run {c : LibConfig} {n size : Nat} (hn : c.n = some n) (hn0 : n ≠ 0) :
    ∀ (es done : List (LibEvent E P K)) (rows : Nat → List Nat) (s : Lib E P K),
    RowsKept c n size done rows s → (∀ k, .fit k ∈ es → k = size) →
    SameSize size (savedIn es) → DistinctIds (savedIn (done ++ es)) →
    ∃ rows', (∀ j, RowChoice n size (rows' j)) ∧ ∀ t ∈ (runEvents c es s).top,
      (runEvents c es s).cells t.idx = ⟨[], none, some t.given.ident⟩ ∧
      ∃ v, (runEvents c es s).disk t.given.ident = some (t.given.estimators, v) ∧
        OfItsFit rows' (done ++ es) t v
  | [], done, rows, s, h, _, _, _ => ⟨rows, h.good, by rw [List.append_nil]; exact h.cached.kept⟩
  | .save g :: es, done, rows, s, h, hf, hs, hd => by
    have e : done ++ .save g :: es = (done ++ [.save g]) ++ es := by simp
    rw [e] at hd ⊢
    obtain ⟨rows', h'⟩ := h.save hn hn0 (g := g) (hs g (by simp [savedIn])) (by
      rw [savedIn_append, savedIn_append] at hd
      exact hd.sublist (List.sublist_append_left _ _))
    exact rowsKept_run hn hn0 es _ rows' _ h' (fun k hk => hf k (by simp [hk]))
      (fun r hr => hs r (by simp [savedIn, hr])) hd
  | .fit k :: es, done, rows, s, h, hf, hs, hd => by
    obtain rfl := hf k (by simp)
    have e : done ++ .fit k :: es = (done ++ [.fit k]) ++ es := by simp
    have key := wp_fitRows c k s
    unfold runEvents
    cases hr : determineSample c none none (some k) s with
    | mk r s' =>
      cases r with
      | error ex =>
        obtain ⟨r, rfl⟩ := wp_error key hr
        refine ⟨rows, h.good, fun t ht => ?_⟩
        obtain ⟨h1, v, h2, h3⟩ := h.cached.kept t ht
        exact ⟨h1, v, h2, h3.more⟩
      | ok a =>
        obtain ⟨h1, h2⟩ := wp_ok key hr
        obtain ⟨rows', h'⟩ := h.fit hn h1 h2
        rw [e] at hd ⊢
        exact rowsKept_run hn hn0 es _ rows' _ h' (fun k hk => hf k (by simp [hk])) hs hd

/-- **C27**, how it fails over several calls of `fit` on data of one size: for each of them rows are
chosen, as many as asked for (or all), and what is stored of an evaluation is of the rows chosen at the
last fit before it was saved.  So between two fits all are of the same rows. -/
theorem C27_otherwise (c : LibConfig) (rnd : Stream) (size n : Nat) (hn : c.n = some n) (hn0 : n ≠ 0)
    (es : List (LibEvent E P K)) (hfit : ∀ k, .fit k ∈ es → k = size) (hsize : SameSize size (savedIn es))
    (hids : DistinctIds (savedIn es)) :
    let s := runEvents c es (libInit c none rnd)
    ∃ rows : Nat → List Nat, (∀ j, RowChoice n size (rows j)) ∧
      ∀ t ∈ s.top, ∀ l, t.given.predictions = some l →
        ∃ before after l', es = before ++ .save t.given :: after ∧
          readPredictions s t = .ok (some l') ∧ RowsOf (rows (fitsIn before)) l l' := by
  intro s
  have hstart : RowsKept c n size ([] : List (LibEvent E P K)) (fun _ => List.range (min n size))
      (libInit c none rnd) := by
    have hc := cached_init (E := E) (P := P) (K := K) c none rnd (size := size) (fun l h => by cases h)
    refine ⟨holds_init c none rnd, ⟨by simp [libInit], hc.only, hc.others, hc.unset, hc.range, hc.latest⟩,
      Or.inl ⟨by simp [libInit, hn], rfl⟩, fun _ => ⟨List.nodup_range, ?_, by simp⟩⟩
    intro i hi
    have := List.mem_range.1 hi
    omega
  obtain ⟨rows, h1, h2⟩ := rowsKept_run hn hn0 es [] _ _ hstart hfit hsize (by simpa using hids)
  refine ⟨rows, h1, fun t ht l hl => ?_⟩
  obtain ⟨hcell, v, hdisk, b, a, e, h3⟩ := h2 t ht
  obtain ⟨l', rfl, hrow⟩ := h3 l hl
  refine ⟨b, a, l', by simpa using e, ?_, hrow⟩
  unfold readPredictions
  show (let c := s.cells t.idx; _) = _
  have hcell' : s.cells t.idx = ⟨[], none, some t.given.ident⟩ := hcell
  have hdisk' : s.disk t.given.ident = some (t.given.estimators, some l') := hdisk
  dsimp only
  rw [hcell']
  dsimp only
  rw [hdisk']

/-- Two fits on two rows, of which one is kept, with two evaluations after the first and one after the
second. -/
def Ex.threeSaves : List (LibEvent Nat Nat Nat) :=
  [.fit 2, .save (Ex.ev 1 5 10 11), .save (Ex.ev 3 7 30 31), .fit 2, .save (Ex.ev 2 6 20 21)]

example : DistinctIds (savedIn Ex.threeSaves) ∧ SameSize 2 (savedIn Ex.threeSaves) ∧
    (∀ k, .fit k ∈ Ex.threeSaves → k = 2) ∧
    (runEvents ⟨some 3, some 1⟩ Ex.threeSaves (libInit ⟨some 3, some 1⟩ none fun i => if i = 1 then 0 else 1)).top.map
      (readPredictions (runEvents ⟨some 3, some 1⟩ Ex.threeSaves
        (libInit ⟨some 3, some 1⟩ none fun i => if i = 1 then 0 else 1))) =
      [.ok (some [10]), .ok (some [30]), .ok (some [21])] := by
  refine ⟨by unfold DistinctIds; decide, ?_, ?_, rfl⟩
  · intro r hr ps hps
    simp only [savedIn, Ex.threeSaves, List.mem_cons, List.not_mem_nil, or_false] at hr
    rcases hr with rfl | rfl | rfl <;> (cases hps; rfl)
  · intro k hk
    simpa [Ex.threeSaves] using hk

end
end Gama
