import Verif.Props.Logs

/-!
# Reports on searches that are over (C73)
-/

namespace Gama
open Spec

section
variable {M I : Type} [LinearOrder M]

theorem derive_incomplete (r : Report M I) (b : Bool) :
    derive { r with incomplete := b } = { derive r with incomplete := b } := rfl

theorem update_incomplete (C : Conversions M I) (file : Str) (b : Bool) (r : Report M I) :
    update C file true { r with incomplete := b } =
      ((update C file true r).1, { (update C file true r).2 with incomplete := b }) := by
  unfold update
  dsimp only
  simp only [Bool.not_true, Bool.false_and]
  cases (readLog file r.tell).2.2 with
  | error e => rfl
  | ok records =>
    cases records with
    | nil => rfl
    | cons first rest =>
      dsimp only
      by_cases hl : first.length ≠ (readLog file r.tell).2.1.length
      · simp [hl]
      · simp only [hl, if_false]
        cases convertRows C r.metrics (readLog file r.tell).2.1 0 (first :: rest) with
        | error e => rfl
        | ok new => rfl

/-- **C73, a search that is over.**  A report constructed after the end of the search reads the log
all the same: its contents are those of a report that was kept up to date during the search. -/
theorem C73_finished {E : Type} (C : Conversions M I) (fields : LogFields E) (m : Nat)
    (pieces : List (List E)) (hp : pieces ≠ []) (h : CleanLog fields pieces.flatten)
    (r r' : Report M I)
    (hr : updates C true (newReport true m) (snapshots fields [] pieces) = .ok r)
    (hr' : updates C true (newReport false m) [logOf fields pieces.flatten] = .ok r') :
    r'.rows = r.rows ∧ r'.individuals = r.individuals ∧ r'.cummax = r.cummax ∧
      r'.relativeEnd = r.relativeEnd := by
  rw [C73_incremental C fields m pieces hp h] at hr
  have hi := update_incomplete C (logOf fields pieces.flatten) false (newReport true m)
  have hn : ({ newReport true m with incomplete := false } : Report M I) = newReport false m := rfl
  rw [hn] at hi
  unfold updates at hr hr'
  rw [hi] at hr'
  cases hu : update C (logOf fields pieces.flatten) true (newReport true m) with
  | mk x t =>
    rw [hu] at hr hr'
    cases x with
    | error e => cases hr
    | ok u =>
      simp only [updates, Except.ok.injEq] at hr hr'
      subst hr; subst hr'
      exact ⟨rfl, rfl, rfl, rfl⟩

/-- **C73, news.**  `update` says whether there was something new, and reading a log without new
evaluations changes nothing in the report but the position. -/
theorem C73_news (C : Conversions M I) (file : Str) (force : Bool) (r r' : Report M I) (b : Bool)
    (h : update C file force r = (.ok b, r')) :
    (b = false → r'.rows = r.rows ∧ r'.individuals = r.individuals ∧ r'.cummax = r.cummax) ∧
    (b = true → r.rows.length < r'.rows.length) := by
  have hlen : ∀ (header : List Str) (recs : List (List Str)) (n : Nat) new,
      convertRows C r.metrics header n recs = .ok new → new.length = recs.length := by
    intro header recs
    induction recs with
    | nil => intro n new hc; simp [convertRows] at hc; subst hc; rfl
    | cons x xs ih =>
      intro n new hc
      unfold convertRows at hc
      cases h1 : convertRow C r.metrics header n x with
      | error e => rw [h1] at hc; cases hc
      | ok y =>
        cases h2 : convertRows C r.metrics header (n + 1) xs with
        | error e => rw [h1, h2] at hc; cases hc
        | ok ys =>
          rw [h1, h2] at hc
          have : new = y :: ys := (Except.ok.inj hc).symm
          rw [this]
          simp [ih _ _ h2]
  unfold update at h
  split at h
  · simp only [Prod.mk.injEq, Except.ok.injEq] at h
    obtain ⟨rfl, rfl⟩ := h
    exact ⟨fun _ => ⟨rfl, rfl, rfl⟩, fun hb => by cases hb⟩
  · dsimp only at h
    split at h
    · cases h
    · simp only [Prod.mk.injEq, Except.ok.injEq] at h
      obtain ⟨rfl, rfl⟩ := h
      exact ⟨fun _ => ⟨rfl, rfl, rfl⟩, fun hb => by cases hb⟩
    · split at h
      · cases h
      · split at h
        · simp at h
        · rename_i new hc
          simp only [Prod.mk.injEq, Except.ok.injEq] at h
          obtain ⟨rfl, rfl⟩ := h
          refine ⟨(fun hb => by cases hb), fun _ => ?_⟩
          have hl := hlen _ _ _ _ hc
          have hd : ∀ t : Report M I, (derive t).rows = t.rows := fun _ => rfl
          rw [hd]
          dsimp only
          unfold appendRows
          cases r.rows with
          | nil => simp [hl]
          | cons a l => simp [hl]

end

/-- The report of a search that was over, with three evaluations in its log. -/
example : ∃ r, updates lengthConversions true (newReport false 1)
    [logOf reportFields [(['a'], ['x']), (['b'], ['y', 'z']), (['c'], ['x'])]] = .ok r ∧
    r.rows.map (fun x => x.n) = [0, 1, 2] := by
  refine ⟨_, rfl, ?_⟩
  decide +kernel

end Gama
