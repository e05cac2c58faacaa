import Verif.Spec.Library
import Verif.Lemmas.Heapq
import Verif.Lemmas.Sample
import Verif.Lemmas.Nsga2

/-! # Lemmas about the evaluation library -/

namespace Gama
open PyM Spec

section
variable {E P K : Type} [LinearOrder K]

/-- The rows chosen are `n` distinct rows, and none are chosen only if there are at most `n`. -/
def ChosenRows (n : Option Nat) (size : Nat) : Sample → Prop
  | .notSet => False
  | .all => ∀ k, n = some k → size ≤ k
  | .rows idx => idx.Nodup ∧ (∀ i ∈ idx, i < size) ∧ ∃ k, n = some k ∧ k < size ∧ idx.length = k

def InRange (size : Nat) : Sample → Prop
  | .rows idx => ∀ i ∈ idx, i < size
  | _ => True

theorem ChosenRows.inRange {n : Option Nat} {size : Nat} {x : Sample} (h : ChosenRows n size x) :
    InRange size x := by
  cases x with
  | rows idx => exact h.2.1
  | _ => trivial

def Sample.toRows : Sample → Option (List Nat)
  | .rows idx => some idx
  | _ => none

/-- The state `s` with another sample and random stream. -/
def Resampled (s s' : Lib E P K) : Prop := ∃ x r, s' = { s with sample := x, rnd := r }

theorem Resampled.refl (s : Lib E P K) : Resampled s s := ⟨s.sample, s.rnd, rfl⟩

theorem wp_sampleRows {n size : Nat} (h : n ≤ size) (s : Lib E P K) :
    wp (sample n (List.range size))
      (fun r s' => (r.length = n ∧ r.Nodup ∧ ∀ i ∈ r, i < size) ∧ ∃ x, s' = { s with rnd := x })
      (fun _ _ => False) s := by
  refine wp_mono ?_ (fun _ _ h => h) (wp_sample (P := fun s' => ∃ x, s' = { s with rnd := x })
    ?_ n (List.range size) s ⟨s.rnd, rfl⟩ (by simpa using h))
  · rintro r s' ⟨⟨h1, rest, h2⟩, h3⟩
    refine ⟨⟨h1, ?_, ?_⟩, h3⟩
    · have : (r ++ rest).Nodup := h2.nodup_iff.2 List.nodup_range
      exact (List.nodup_append.1 this).1
    · intro i hi
      have := h2.mem_iff.1 (List.mem_append_left rest hi)
      simpa using this
  · rintro s' ⟨x, rfl⟩
    exact ⟨_, rfl⟩

theorem takeRows_ok {α : Type} {l : List α} : ∀ {idx : List Nat}, (∀ i ∈ idx, i < l.length) →
    ∃ out, takeRows l idx = .ok out ∧ RowsOf idx l out
  | [], _ => ⟨[], rfl, rfl⟩
  | i :: idx, h => by
    obtain ⟨out, h1, h2⟩ := takeRows_ok (idx := idx) fun j hj => h j (by simp [hj])
    have hi := h i (by simp)
    refine ⟨l[i] :: out, ?_, ?_⟩
    · simp [takeRows, List.getElem?_eq_getElem hi, h1]
    · unfold RowsOf at *
      simp [h2, List.getElem?_eq_getElem hi]

theorem wp_subsample {ps : List P} (s : Lib E P K) (h : InRange ps.length s.sample)  :
    wp (subsample ps) (fun v s' => s' = s ∧ Stored s.sample.toRows (some ps) v)
      (fun _ _ => False) s := by
  unfold subsample
  rw [wp_bind, wp_get]
  cases hx : s.sample with
  | rows idx =>
    rw [hx] at h
    obtain ⟨out, h1, h2⟩ := takeRows_ok h
    simp only [h1]
    exact ⟨rfl, out, rfl, h2⟩
  | notSet => exact ⟨rfl, ps, rfl, rfl⟩
  | all => exact ⟨rfl, ps, rfl, rfl⟩

theorem wp_ensureSample {c : LibConfig} {size : Nat} (s : Lib E P K) (h : InRange size s.sample) :
    wp (ensureSample c size) (fun _ s' => Resampled s s' ∧ s'.sample ≠ .notSet ∧
        InRange size s'.sample ∧
        (s'.sample = s.sample ∨ s.sample = .notSet ∧ ChosenRows c.n size s'.sample))
      (fun _ _ => False) s := by
  unfold ensureSample
  rw [wp_bind, wp_get]
  cases hx : s.sample with
  | rows idx =>
    rw [hx] at h
    refine ⟨Resampled.refl s, by rw [hx]; simp, by rw [hx]; exact h, .inl hx⟩
  | all => exact ⟨Resampled.refl s, by rw [hx]; simp, by rw [hx]; trivial, .inl hx⟩
  | notSet =>
    simp only [determineSample]
    have hn : (c.n.orElse fun _ => c.n) = c.n := by cases c.n <;> rfl
    rw [hn]
    cases hc : c.n with
    | none =>
      exact ⟨⟨_, _, rfl⟩, by simp, by trivial, .inr ⟨trivial, by intro k hk; cases hk⟩⟩
    | some n =>
      dsimp only
      by_cases hlt : n < size
      · rw [if_pos hlt, wp_bind]
        refine wp_mono ?_ (fun _ _ h => h) (wp_sampleRows (le_of_lt hlt) s)
        rintro r s' ⟨⟨h1, h2, h3⟩, x, rfl⟩
        refine ⟨⟨_, _, rfl⟩, by simp, h3, by exact .inr ⟨trivial, h2, h3, n, rfl, hlt, h1⟩⟩
      · rw [if_neg hlt]
        refine ⟨⟨_, _, rfl⟩, by simp, trivial, .inr ⟨trivial, ?_⟩⟩
        intro k hk; cases hk; omega

/-- What processing the predictions of an evaluation does. -/
theorem wp_processPredictions {c : LibConfig} {size : Nat} {ps : Option (List P)} (s : Lib E P K)
    (hs : InRange size s.sample) (hps : ∀ l, ps = some l → l.length = size) :
    wp (processPredictions c ps) (fun v s' => Resampled s s' ∧ InRange size s'.sample ∧
        (s'.sample = s.sample ∨ s.sample = .notSet ∧ ChosenRows c.n size s'.sample) ∧
        (c.n = some 0 → v = none) ∧
        (c.n ≠ some 0 → Stored s'.sample.toRows ps v ∧ (ps ≠ none → s'.sample ≠ .notSet)))
      (fun _ _ => False) s := by
  unfold processPredictions
  by_cases hc : c.n = some 0
  · rw [if_pos hc]
    exact ⟨Resampled.refl s, hs, .inl rfl, fun _ => rfl, fun h => absurd hc h⟩
  · rw [if_neg hc]
    cases ps with
    | none =>
      exact ⟨Resampled.refl s, hs, .inl rfl, fun _ => rfl, fun _ => ⟨rfl, fun h => absurd rfl h⟩⟩
    | some l =>
      have hl := hps l rfl
      subst hl
      dsimp only
      rw [wp_bind]
      refine wp_mono ?_ (fun _ _ h => h) (wp_ensureSample s hs)
      rintro _ s1 ⟨h1, h2, h3, h4⟩
      refine wp_mono ?_ (fun _ _ h => h) (wp_subsample s1 h3)
      rintro v s2 ⟨rfl, h5⟩
      exact ⟨h1, h3, h4, fun h => absurd h hc, fun _ => ⟨h5, fun _ => h2⟩⟩

/-! ## Storing -/

variable (c : LibConfig) (r : Ref E P K) (s : Lib E P K)

theorem store_error (h : r.given.error.isSome) :
    store c r s = (.ok (), { s with
      cells := upd s.cells r.idx ⟨[], none, (s.cells r.idx).cacheFile⟩, other := s.other ++ [r] }) := by
  unfold store
  rw [bind_ok get_run, if_pos h]
  rfl

theorem store_room (h : r.given.error = none) (hr : hasRoom c.m s.top.length = true) :
    store c r s = (.ok (), { s with
      disk := upd s.disk r.given.ident
        (some ((s.cells r.idx).estimators, (s.cells r.idx).predictions))
      cells := upd s.cells r.idx ⟨[], none, some r.given.ident⟩
      top := heappush (fun r => r.given.score) s.top r }) := by
  unfold store
  rw [bind_ok get_run, if_neg (by simp [h]), if_pos hr]
  rfl

theorem store_back (h : r.given.error = none) (hr : hasRoom c.m s.top.length = false)
    (hp : heappushpop (fun r => r.given.score) s.top r = (r, s.top)) :
    store c r s = (.ok (), { s with
      cells := upd s.cells r.idx ⟨[], none, (s.cells r.idx).cacheFile⟩, other := s.other ++ [r] }) := by
  unfold store
  rw [bind_ok get_run, if_neg (by simp [h]), if_neg (by simp [hr])]
  simp only [hp]
  rw [bind_ok modify_run]
  unfold afterPop
  rw [if_pos rfl]
  rfl

theorem store_pop {q : Ref E P K} {h' : List (Ref E P K)} (h : r.given.error = none)
    (hr : hasRoom c.m s.top.length = false)
    (hp : heappushpop (fun r => r.given.score) s.top r = (q, h'))
    (hq : q.given.score < r.given.score) :
    let d := upd s.disk r.given.ident
        (some ((s.cells r.idx).estimators, (s.cells r.idx).predictions))
    let cs := upd s.cells r.idx ⟨[], none, some r.given.ident⟩
    store c r s =
      match (cs q.idx).cacheFile with
      | none => (.error .fileNotFound, { s with top := h', disk := d, cells := cs })
      | some f =>
        match d f with
        | none => (.error .fileNotFound, { s with top := h', disk := d, cells := cs })
        | some _ => (.ok (), { s with
            top := h', disk := upd d f none
            cells := upd cs q.idx { cs q.idx with cacheFile := none }
            other := s.other ++ [q] }) := by
  intro d cs
  unfold store
  rw [bind_ok get_run, if_neg (by simp [h]), if_neg (by simp [hr])]
  simp only [hp]
  rw [bind_ok modify_run]
  unfold afterPop
  rw [if_neg (ne_of_lt hq)]
  have e1 : ∀ s0 : Lib E P K, toDisk r s0 = (.ok (), { s0 with
      disk := upd s0.disk r.given.ident
        (some ((s0.cells r.idx).estimators, (s0.cells r.idx).predictions))
      cells := upd s0.cells r.idx ⟨[], none, some r.given.ident⟩ }) := fun _ => rfl
  have e2 : ∀ s0 : Lib E P K, removeFromDisk q s0 =
      match (s0.cells q.idx).cacheFile with
      | none => (.error .fileNotFound, s0)
      | some f => match s0.disk f with
        | none => (.error .fileNotFound, s0)
        | some _ => (.ok (), { s0 with disk := upd s0.disk f none, cells := upd s0.cells q.idx { s0.cells q.idx with cacheFile := none } }) := by
    intro s0
    unfold removeFromDisk
    rw [bind_ok (show getCell q.idx s0 = (.ok (s0.cells q.idx), s0) from rfl)]
    cases (s0.cells q.idx).cacheFile with
    | none => rfl
    | some f =>
      dsimp only
      rw [bind_ok get_run]
      cases s0.disk f <;> rfl
  rw [bind_run, bind_ok (e1 _), e2]
  dsimp only
  cases hcs : (cs q.idx).cacheFile with
  | none => rfl
  | some f =>
    dsimp only [d]
    cases hd : upd s.disk r.given.ident
      (some ((s.cells r.idx).estimators, (s.cells r.idx).predictions)) f <;> rfl

end
end Gama
