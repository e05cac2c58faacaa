import Verif.Model.Report
import Verif.Props.Reading

/-!
# Making a report of the logs of a run (C142)
-/

namespace Gama
open Spec

namespace Spec

/-- The line logged when a phase ends. -/
structure PhaseLine where
  time : Str
  place : Str
  name : Str
  details : List Str
  seconds : Str

/-- A line of `gama.log`: the construction of an instance, the end of a phase, or something else. -/
inductive LogEntry
  | init (front cls : Str) (args : List (Str × ArgText))
  | stop (p : PhaseLine)
  | other (text : Str)

def LogEntry.line : LogEntry → Str
  | .init front cls args => initLine front cls args
  | .stop p => stopLine p.time p.place p.name p.details p.seconds
  | .other t => t ++ ['\n']

/-- The text of `gama.log`. -/
def gamaText (entries : List LogEntry) : Str := entries.flatMap LogEntry.line

/-- The entry is one line, which a report takes for what it is. -/
structure OneLine (x : LogEntry) : Prop where
  single : ∃ t, x.line = t ++ ['\n'] ∧ '\n' ∉ t ∧ '\r' ∉ t
  is_init : (∃ f c a, x = .init f c a) ↔ "INIT:".toList <:+: x.line
  is_stop : (∃ p, x = .stop p) ↔ "STOP:".toList <:+: x.line

/-- The arguments can be read back from their line, see C75. -/
structure ReadableArgs (front cls : Str) (args : List (Str × ArgText)) : Prop where
  front_free : '(' ∉ front
  cls_free : '(' ∉ cls
  nonempty : args ≠ []
  distinct : ((named args).map Prod.fst).Nodup
  plain : ∀ a ∈ args, PlainArg a
  last : ∀ a, args.getLast? = some a → ∃ t, a.2 = .plain t

/-- What the entry says can be read from its line. -/
def ReadableEntry (stamp seconds : Str → Except Exn ℚ) : LogEntry → Prop
  | .init front cls args => ReadableArgs front cls args
  | .stop p => PhaseTexts p.time p.place p.name p.details p.seconds ∧
      (∃ t, stamp p.time = .ok t) ∧ ∃ d, seconds p.seconds = .ok d
  | .other _ => True

/-- The phases that ended, in order. -/
def stops (entries : List LogEntry) : List PhaseLine :=
  entries.filterMap fun x => match x with
    | .stop p => some p
    | _ => none

/-- The arguments of the last construction logged. -/
def lastInit : List LogEntry → Option (List (Str × ArgText))
  | [] => none
  | x :: xs => match lastInit xs, x with
    | some a, _ => some a
    | none, .init _ _ a => some a
    | none, _ => none

/-- A phase is reported with its name, its algorithm, and the time it started and took. -/
def Reported (stamp seconds : Str → Except Exn ℚ) (p : PhaseLine) (q : PhaseRow) : Prop :=
  q.phase = p.name ∧ q.algorithm = joinWith [','] p.details ∧
    stamp p.time = .ok (q.start + q.duration) ∧ seconds p.seconds = .ok q.duration

/-- The logs of a run with one scoring metric, whose texts can be read: its arguments, and for every
evaluation the score and, if the length was regularised, the length. -/
structure RunLogs {M I E : Type} (C : Conversions M I) (stamp seconds : Str → Except Exn ℚ)
    (entries : List LogEntry) (args : List (Str × ArgText)) (scoring search : Str) (regularized : Bool)
    (fields : LogFields E) (es : List E) : Prop where
  lines : ∀ x ∈ entries, OneLine x ∧ ReadableEntry stamp seconds x
  init : lastInit entries = some args
  scoring : ("scoring".toList, scoring) ∈ named args
  regularize : ("regularize_length".toList,
    if regularized then "True".toList else "False".toList) ∈ named args
  search : ("search".toList, search) ∈ named args
  columns : (fields.map Prod.fst).Nodup
  clean : CleanLog fields es
  scores : ∃ f, ("score".toList, f) ∈ fields ∧ ∀ e ∈ es, ∃ s, C.scores (f e) = .ok s ∧
    s.length = if regularized then 2 else 1
  start : ∃ f, ("t_start".toList, f) ∈ fields ∧ ∀ e ∈ es, ∃ s, C.start (f e) = .ok s
  duration : ∃ f, ("t_wallclock".toList, f) ∈ fields ∧ ∀ e ∈ es, ∃ s, C.duration (f e) = .ok s
  pipeline : ∃ f, ("pipeline".toList, f) ∈ fields ∧ ∀ e ∈ es, ∃ s, C.pipeline (f e) = .ok s
  id : ∃ f, ("id".toList, f) ∈ fields

end Spec

/-! ### Lines -/

theorem readlines_line (t rest : Str) (h : '\n' ∉ t) :
    readlines (t ++ '\n' :: rest) = (t ++ ['\n']) :: readlines rest := by
  induction t with
  | nil => simp [readlines]
  | cons c t ih =>
    simp only [List.mem_cons, not_or] at h
    have hc : c ≠ '\n' := fun e => h.1 e.symm
    simp only [List.cons_append, readlines, hc, if_false, ih h.2]

/-- **C142**, the lines of a log: together they are the text of the log, also where its last line was not finished; each
line is some characters, then a line end, only the last may lack its line end. -/
theorem C142_lines : ∀ s : Str, (readlines s).flatten = s ∧
    ∀ pre l post, readlines s = pre ++ l :: post →
      ∃ t, '\n' ∉ t ∧ (l = t ++ ['\n'] ∨ (l = t ∧ t ≠ [] ∧ post = []))
  | [] => ⟨rfl, fun pre l post h => by
      have : readlines [] = [] := rfl
      rw [this] at h
      simp at h⟩
  | c :: s => by
    obtain ⟨ih1, ih2⟩ := C142_lines s
    by_cases hc : c = '\n'
    · subst hc
      have e : readlines ('\n' :: s) = ['\n'] :: readlines s := by simp [readlines]
      refine ⟨by rw [e, List.flatten_cons, ih1]; rfl, fun pre l post h => ?_⟩
      rw [e] at h
      cases pre with
      | nil =>
        obtain ⟨rfl, rfl⟩ := List.cons.inj h
        exact ⟨[], by simp, Or.inl rfl⟩
      | cons p pre => exact ih2 pre l post (List.cons.inj h).2
    · cases hs : readlines s with
      | nil =>
        rw [hs] at ih1
        have e : readlines (c :: s) = [[c]] := by simp [readlines, hc, hs]
        refine ⟨by rw [e, ← ih1]; rfl, fun pre l post h => ?_⟩
        rw [e] at h
        cases pre with
        | nil =>
          obtain ⟨rfl, rfl⟩ := List.cons.inj h
          exact ⟨[c], by simpa using Ne.symm hc, Or.inr ⟨rfl, by simp, rfl⟩⟩
        | cons p pre => simp at h
      | cons a ls =>
        have e : readlines (c :: s) = (c :: a) :: ls := by simp [readlines, hc, hs]
        refine ⟨by rw [e, ← ih1, hs]; rfl, fun pre l post h => ?_⟩
        rw [e] at h
        cases pre with
        | nil =>
          obtain ⟨rfl, rfl⟩ := List.cons.inj h
          obtain ⟨t, ht, h⟩ := ih2 [] a ls hs
          refine ⟨c :: t, by simp [ht, Ne.symm hc], ?_⟩
          rcases h with rfl | ⟨rfl, _, h⟩
          · exact Or.inl rfl
          · exact Or.inr ⟨rfl, by simp, h⟩
        | cons p pre => exact ih2 (a :: pre) l post (by rw [hs, (List.cons.inj h).2]; rfl)

/-- A log whose last line was not finished. -/
example : readlines "a\nbc".toList = ["a\n".toList, "bc".toList] := by decide

theorem readlines_entries {entries : List LogEntry} (h : ∀ x ∈ entries, OneLine x) :
    readlines (universal (gamaText entries)) = entries.map LogEntry.line := by
  have hr : '\r' ∉ gamaText entries := by
    intro hm
    obtain ⟨x, hx, hc⟩ := List.mem_flatMap.1 hm
    obtain ⟨t, e, _, h2⟩ := (h x hx).single
    rw [e] at hc
    rcases List.mem_append.1 hc with hc | hc
    · exact h2 hc
    · simp at hc
  rw [universal_id _ hr]
  clear hr
  induction entries with
  | nil => rfl
  | cons x xs ih =>
    obtain ⟨t, e, h1, _⟩ := (h x (by simp)).single
    have : gamaText (x :: xs) = t ++ '\n' :: gamaText xs := by
      show x.line ++ gamaText xs = _
      rw [e]; simp
    rw [this, readlines_line _ _ h1, ih fun y hy => h y (by simp [hy]), List.map_cons, e]

theorem afterPrefix_iff (tok s : Str) : (afterPrefix tok s).isSome = true ↔ tok <+: s := by
  induction tok generalizing s with
  | nil => simp [afterPrefix]
  | cons a t ih =>
    cases s with
    | nil => simp [afterPrefix]
    | cons c s =>
      simp only [afterPrefix]
      by_cases hc : a = c
      · subst hc
        rw [if_pos rfl, ih, List.cons_prefix_cons]
        simp
      · rw [if_neg hc, List.cons_prefix_cons]
        simp [hc]

theorem occursIn_iff (tok s : Str) : occursIn tok s = true ↔ tok <:+: s := by
  induction s with
  | nil => rw [occursIn, afterPrefix_iff]; simp
  | cons c s ih =>
    rw [occursIn, Bool.or_eq_true, afterPrefix_iff, ih, List.infix_cons_iff]

theorem initMark_eq : "INIT:".toList = initMark := by decide +kernel
theorem stopMark_eq : "STOP:".toList = stopMark := by decide +kernel

/-- What a line does to the facts found so far. -/
theorem scanLine_entry {stamp seconds : Str → Except Exn ℚ} {x : LogEntry} (h : OneLine x)
    (hx : ReadableEntry stamp seconds x) (f : LogFacts) :
    ∃ f', scanLine stamp seconds f x.line = .ok f' ∧
      f'.hyperparameters = ((lastInit [x]).map named).or f.hyperparameters ∧
      ∃ qs, f'.phases = f.phases ++ qs ∧ List.Forall₂ (Reported stamp seconds) (stops [x]) qs := by
  have hi := h.is_init
  have hs := h.is_stop
  rw [initMark_eq, ← occursIn_iff] at hi
  rw [stopMark_eq, ← occursIn_iff] at hs
  cases x with
  | init front cls args =>
    have h1 : occursIn initMark (LogEntry.init front cls args).line = true := hi.1 ⟨_, _, _, rfl⟩
    have h2 : occursIn stopMark (LogEntry.init front cls args).line = false := by
      rw [← Bool.not_eq_true, ← hs]
      rintro ⟨p, hp⟩
      cases hp
    have h3 : initToHps (LogEntry.init front cls args).line = .ok (named args) :=
      C75_partial front cls args hx.front_free hx.cls_free hx.nonempty hx.distinct hx.plain hx.last
    refine ⟨⟨some (named args), f.phases⟩, ?_, rfl, [], by simp, .nil⟩
    unfold scanLine
    rw [h1, h2, h3]
    rfl
  | stop p =>
    have h1 : occursIn initMark (LogEntry.stop p).line = false := by
      rw [← Bool.not_eq_true, ← hi]
      rintro ⟨_, _, _, hp⟩
      cases hp
    have h2 : occursIn stopMark (LogEntry.stop p).line = true := hs.1 ⟨_, rfl⟩
    obtain ⟨h3, ⟨t, ht⟩, d, hd⟩ := hx
    have h4 : readStop (LogEntry.stop p).line = _ := C94_phases _ _ _ _ _ h3
    refine ⟨⟨f.hyperparameters, f.phases ++ [⟨p.name, joinWith [','] p.details, t - d, d⟩]⟩, ?_, ?_,
      [⟨p.name, joinWith [','] p.details, t - d, d⟩], rfl, .cons ⟨rfl, rfl, ?_, hd⟩ .nil⟩
    · unfold scanLine
      rw [h1, h2, h4]
      simp only [bind, Except.bind, ht, hd, Bool.false_eq_true, if_false, if_true]
    · rfl
    · rw [ht, sub_add_cancel]
  | other t =>
    have h1 : occursIn initMark (LogEntry.other t).line = false := by
      rw [← Bool.not_eq_true, ← hi]
      rintro ⟨_, _, _, hp⟩
      cases hp
    have h2 : occursIn stopMark (LogEntry.other t).line = false := by
      rw [← Bool.not_eq_true, ← hs]
      rintro ⟨p, hp⟩
      cases hp
    refine ⟨f, ?_, rfl, [], by simp, .nil⟩
    unfold scanLine
    rw [h1, h2]
    rfl

theorem lastInit_cons (x : LogEntry) (xs : List LogEntry) :
    lastInit (x :: xs) = (lastInit xs).or (lastInit [x]) := by
  cases h : lastInit xs with
  | some a => simp [lastInit, h]
  | none => cases x <;> simp [lastInit, h]

theorem stops_cons (x : LogEntry) (xs : List LogEntry) : stops (x :: xs) = stops [x] ++ stops xs := by
  unfold stops
  rw [← List.filterMap_append]; rfl

theorem scanLines_entries {stamp seconds : Str → Except Exn ℚ} {entries : List LogEntry}
    (h : ∀ x ∈ entries, OneLine x ∧ ReadableEntry stamp seconds x) (f : LogFacts) :
    ∃ f', scanLines stamp seconds f (entries.map LogEntry.line) = .ok f' ∧
      f'.hyperparameters = ((lastInit entries).map named).or f.hyperparameters ∧
      ∃ qs, f'.phases = f.phases ++ qs ∧ List.Forall₂ (Reported stamp seconds) (stops entries) qs := by
  induction entries generalizing f with
  | nil => exact ⟨f, rfl, rfl, [], by simp, .nil⟩
  | cons x xs ih =>
    obtain ⟨f1, e1, e2, q1, e3, e4⟩ := scanLine_entry (h x (by simp)).1 (h x (by simp)).2 f
    obtain ⟨f2, g1, g2, q2, g3, g4⟩ := ih (fun y hy => h y (by simp [hy])) f1
    refine ⟨f2, ?_, ?_, q1 ++ q2, ?_, ?_⟩
    · simp only [List.map_cons, scanLines, e1, bind, Except.bind, g1]
    · rw [g2, e2, lastInit_cons x xs]
      generalize lastInit xs = a
      generalize lastInit [x] = b
      cases a <;> cases b <;> rfl
    · rw [g3, e3, List.append_assoc]
    · rw [stops_cons]
      exact List.rel_append e4 g4

/-! ### The evaluations -/

section
variable {M I : Type}

theorem convertRow_succeeds {C : Conversions M I} {m n : Nat} {header r : List Str} {t1 t2 t3 t4 t5 : Str}
    {s : List M} {a b : ℚ} {i : I}
    (h1 : column header "score".toList r = .ok t1) (h2 : column header "t_start".toList r = .ok t2)
    (h3 : column header "t_wallclock".toList r = .ok t3)
    (h4 : column header "pipeline".toList r = .ok t4) (h5 : column header "id".toList r = .ok t5)
    (k1 : C.scores t1 = .ok s) (k2 : C.start t2 = .ok a) (k3 : C.duration t3 = .ok b)
    (k4 : C.pipeline t4 = .ok i) :
    convertRow C m header n r =
      if s.length = m then .ok (⟨r, n, s, a, b⟩, (t5, i)) else .error .valueError := by
  have e1 : "score".toList = ['s', 'c', 'o', 'r', 'e'] := by decide +kernel
  have e2 : "t_start".toList = ['t', '_', 's', 't', 'a', 'r', 't'] := by decide +kernel
  have e3 : "t_wallclock".toList = ['t', '_', 'w', 'a', 'l', 'l', 'c', 'l', 'o', 'c', 'k'] := by decide +kernel
  have e4 : "pipeline".toList = ['p', 'i', 'p', 'e', 'l', 'i', 'n', 'e'] := by decide +kernel
  have e5 : "id".toList = ['i', 'd'] := by decide +kernel
  rw [e1] at h1; rw [e2] at h2; rw [e3] at h3; rw [e4] at h4; rw [e5] at h5
  unfold convertRow
  simp only [bind, Except.bind, h1, h2, h3, h4, h5, k1, k2, k3, k4]
  by_cases hm : s.length = m
  · simp [hm]
  · simp [hm]

variable {E : Type} {C : Conversions M I} {stamp seconds : Str → Except Exn ℚ}
  {entries : List LogEntry} {args : List (Str × ArgText)} {scoring search : Str} {regularized : Bool}
  {fields : LogFields E} {es : List E}

theorem logs_row (h : RunLogs C stamp seconds entries args scoring search regularized fields es)
    (m n : Nat) {e : E} (he : e ∈ es) :
    (m = (if regularized then 2 else 1) →
      ∃ x, convertRow C m (fields.map Prod.fst) n (record fields e) = .ok x) ∧
    (m ≠ (if regularized then 2 else 1) →
      convertRow C m (fields.map Prod.fst) n (record fields e) = .error .valueError) := by
  obtain ⟨f1, m1, h1⟩ := h.scores
  obtain ⟨f2, m2, h2⟩ := h.start
  obtain ⟨f3, m3, h3⟩ := h.duration
  obtain ⟨f4, m4, h4⟩ := h.pipeline
  obtain ⟨f5, m5⟩ := h.id
  obtain ⟨s, k1, hl⟩ := h1 e he
  obtain ⟨a, k2⟩ := h2 e he
  obtain ⟨b, k3⟩ := h3 e he
  obtain ⟨i, k4⟩ := h4 e he
  have := convertRow_succeeds (m := m) (n := n) (column_named h.columns m1 e) (column_named h.columns m2 e)
    (column_named h.columns m3 e) (column_named h.columns m4 e) (column_named h.columns m5 e) k1 k2 k3 k4
  rw [this, hl]
  constructor
  · rintro rfl; exact ⟨_, if_pos rfl⟩
  · intro hm; exact if_neg fun e => hm e.symm

theorem convertRows_succeeds {m : Nat} {header : List Str} {rs : List (List Str)}
    (h : ∀ r ∈ rs, ∀ n, ∃ x, convertRow C m header n r = .ok x) (n : Nat) :
    ∃ xs, convertRows C m header n rs = .ok xs := by
  induction rs generalizing n with
  | nil => exact ⟨[], rfl⟩
  | cons r rs ih =>
    obtain ⟨x, hx⟩ := h r (by simp) n
    obtain ⟨xs, hxs⟩ := ih (fun r' hr' => h r' (by simp [hr'])) (n + 1)
    exact ⟨x :: xs, by simp only [convertRows, bind, Except.bind, hx, hxs]⟩

section
variable [LinearOrder M]

/-- The first reading of a log whose rows can be read. -/
theorem update_new (hc : CleanLog fields es) (m : Nat) (inc : Bool)
    {xs : List (ReportRow M × (Str × I))}
    (hx : convertRows C m (fields.map Prod.fst) 0 (es.map (record fields)) = .ok xs) :
    ∃ b r, update C (logOf fields es) true (newReport inc m) = (.ok b, r) ∧
      r.incomplete = inc ∧ r.rows = xs.map Prod.fst ∧ r.individuals = dmerge [] (xs.map Prod.snd) := by
  unfold update
  have ht : (newReport inc m : Report M I).tell = 0 := rfl
  rw [ht, readLog_first hc]
  simp only [Bool.not_true, Bool.false_and, Bool.false_eq_true, if_false]
  cases es with
  | nil =>
    simp only [List.map_nil, convertRows, Except.ok.injEq] at hx
    subst hx
    exact ⟨_, _, rfl, rfl, rfl, rfl⟩
  | cons e es =>
    simp only [List.map_cons]
    rw [if_neg (by simp [record])]
    have hm : (newReport inc m : Report M I).metrics = m := rfl
    simp only [hm]
    rw [List.map_cons] at hx
    rw [hx]
    exact ⟨_, _, rfl, rfl, rfl, rfl⟩

/-- The first reading of a log of which the first row cannot be read. -/
theorem update_refused (hc : CleanLog fields es) (m : Nat) (inc : Bool) (hne : es ≠ [])
    (hx : ∀ e ∈ es, convertRow C m (fields.map Prod.fst) 0 (record fields e) = .error .valueError) :
    ∃ r, update C (logOf fields es) true (newReport inc m) = (.error .valueError, r) := by
  unfold update
  have ht : (newReport inc m : Report M I).tell = 0 := rfl
  rw [ht, readLog_first hc]
  simp only [Bool.not_true, Bool.false_and, Bool.false_eq_true, if_false]
  obtain ⟨e, es', rfl⟩ := List.exists_cons_of_ne_nil hne
  simp only [List.map_cons]
  rw [if_neg (by simp [record])]
  have hm : (newReport inc m : Report M I).metrics = m := rfl
  simp only [hm, convertRows, hx e (by simp), bind, Except.bind]
  exact ⟨_, rfl⟩

end

end

/-! ### C142 -/

theorem lastInit_readable {stamp seconds : Str → Except Exn ℚ} {entries : List LogEntry}
    {args : List (Str × ArgText)} (h : lastInit entries = some args)
    (hr : ∀ x ∈ entries, OneLine x ∧ ReadableEntry stamp seconds x) :
    ∃ front cls, ReadableArgs front cls args := by
  induction entries with
  | nil => cases h
  | cons x xs ih =>
    rw [lastInit_cons] at h
    cases hx : lastInit xs with
    | some a =>
      rw [hx] at h
      cases h
      exact ih hx fun y hy => hr y (by simp [hy])
    | none =>
      rw [hx] at h
      cases x with
      | init front cls a =>
        cases h
        exact ⟨front, cls, (hr (.init front cls args) (by simp)).2⟩
      | stop p => cases h
      | other t => cases h

theorem hpGet_named {args : List (Str × ArgText)} (hn : ((named args).map Prod.fst).Nodup) {k v : Str}
    (h : (k, v) ∈ named args) : hpGet (named args) k = .ok v := by
  unfold hpGet
  rw [dget_of_mem hn h]

theorem hpGet_mem {hps : List (Str × Str)} {k v : Str} (h : hpGet hps k = .ok v) : (k, v) ∈ hps := by
  unfold hpGet at h
  cases e : dget hps k with
  | none => rw [e] at h; cases h
  | some w => rw [e] at h; cases h; exact dget_mem e

theorem splitOnChar_ne (sep : Char) (s : Str) : splitOnChar sep s ≠ [] := by
  cases s with
  | nil => simp [splitOnChar]
  | cons c s =>
    simp only [splitOnChar]
    split
    · simp
    · split <;> simp

theorem splitOnChar_without (sep : Char) : ∀ (s : Str), ∀ m ∈ splitOnChar sep s, sep ∉ m := by
  intro s
  induction s with
  | nil => simp [splitOnChar]
  | cons c s ih =>
    simp only [splitOnChar]
    split
    · intro m hm
      rcases List.mem_cons.1 hm with rfl | hm
      · simp
      · exact ih m hm
    · rename_i hc
      split
      · rename_i e
        exact absurd e (splitOnChar_ne sep s)
      · rename_i p ps e
        rw [e] at ih
        intro m hm
        rcases List.mem_cons.1 hm with rfl | hm
        · have := ih p (by simp)
          simp only [List.mem_cons, not_or]
          exact ⟨fun e => hc e.symm, this⟩
        · exact ih m (by simp [hm])

theorem splitOnChar_joined (sep : Char) : ∀ (s : Str), List.intercalate [sep] (splitOnChar sep s) = s := by
  intro s
  induction s with
  | nil => simp [splitOnChar, List.intercalate]
  | cons c s ih =>
    simp only [splitOnChar]
    obtain ⟨p, ps, e⟩ : ∃ p ps, splitOnChar sep s = p :: ps := by
      cases e : splitOnChar sep s with
      | nil => exact absurd e (splitOnChar_ne sep s)
      | cons p ps => exact ⟨p, ps, rfl⟩
    rw [e] at ih ⊢
    split
    · rename_i hc
      rw [← ih, hc]
      cases ps <;> simp [List.intercalate, List.intersperse]
    · rw [← ih]
      cases ps <;> simp [List.intercalate, List.intersperse]

theorem named_plain {args : List (Str × ArgText)} (h : ∀ a ∈ args, PlainArg a) {k v : Str}
    (hkv : (k, v) ∈ named args) : PlainText v := by
  obtain ⟨a, ha, hkv⟩ := List.mem_flatMap.1 hkv
  obtain ⟨k', v'⟩ := a
  obtain ⟨h1, h2⟩ := h _ ha
  cases v' with
  | plain t =>
    simp only [List.mem_singleton] at hkv
    cases hkv
    exact h2
  | config n hps =>
    rcases List.mem_cons.1 hkv with e | hkv
    · cases e; exact h2.1
    · exact (h2.2 _ hkv).2

section
variable {M I : Type} [LinearOrder M] {E : Type} {C : Conversions M I} {stamp seconds : Str → Except Exn ℚ}
  {entries : List LogEntry} {args : List (Str × ArgText)} {scoring search : Str} {regularized : Bool}
  {fields : LogFields E} {es : List E}

/-- What is left of `makeReport` once the lines of `gama.log` are read. -/
theorem makeReport_logs
    (h : RunLogs C stamp seconds entries args scoring search regularized fields es) :
    ∃ qs, List.Forall₂ (Reported stamp seconds) (stops entries) qs ∧
      makeReport C stamp seconds (gamaText entries) (logOf fields es) =
        match update C (logOf fields es) true (newReport (decide ((stops entries).length < 3)) 2) with
        | (.error e, _) => .error e
        | (.ok _, r) => .ok ⟨named args, qs, [scoring, "length".toList], r, search⟩ := by
  obtain ⟨f, e1, e2, qs, e3, e4⟩ := scanLines_entries h.lines ⟨none, []⟩
  obtain ⟨front, cls, ha⟩ := lastInit_readable h.init h.lines
  refine ⟨qs, e4, ?_⟩
  have k1 := hpGet_named ha.distinct h.scoring
  have k2 := hpGet_named ha.distinct h.regularize
  have k3 := hpGet_named ha.distinct h.search
  have c1 : "scoring".toList = ['s', 'c', 'o', 'r', 'i', 'n', 'g'] := by decide +kernel
  have c2 : "regularize_length".toList =
    ['r', 'e', 'g', 'u', 'l', 'a', 'r', 'i', 'z', 'e', '_', 'l', 'e', 'n', 'g', 't', 'h'] := by decide +kernel
  have c3 : "search".toList = ['s', 'e', 'a', 'r', 'c', 'h'] := by decide +kernel
  have c4 : "length".toList = ['l', 'e', 'n', 'g', 't', 'h'] := by decide +kernel
  rw [c1] at k1; rw [c2] at k2; rw [c3] at k3
  have hm : reportMetrics scoring (if regularized then "True".toList else "False".toList)
      = [scoring, "length".toList] := by
    unfold reportMetrics
    rw [splitOnChar_free _ _ (named_plain ha.plain h.scoring).2.2.1, if_pos (by cases regularized <;> decide +kernel), c4]
    rfl
  have hp : f.phases.length = (stops entries).length := by
    rw [e3, List.nil_append, e4.length_eq]
  have hq : f.phases = qs := by rw [e3, List.nil_append]
  rw [h.init] at e2
  unfold makeReport
  rw [readlines_entries fun x hx => (h.lines x hx).1]
  have hl : [scoring, "length".toList].length = 2 := rfl
  simp only [e1, bind, Except.bind, e2, Option.map_some, Option.some_or, k1, k2, hm, hp, hl]
  rcases update C (logOf fields es) true
      (newReport (decide ((stops entries).length < 3)) 2) with ⟨res, r⟩
  cases res with
  | error e => rfl
  | ok b => simp only [k3, hq]

/-- The full claim: a report can be made of the logs of every such run, showing the metrics of the
run. -/
def C142_claim : Prop := ∀ (E : Type) (C : Conversions Nat Str) (stamp seconds : Str → Except Exn ℚ)
  (entries : List LogEntry) (args : List (Str × ArgText)) (scoring search : Str) (regularized : Bool)
  (fields : LogFields E) (es : List E),
  RunLogs C stamp seconds entries args scoring search regularized fields es →
  ∃ r, makeReport C stamp seconds (gamaText entries) (logOf fields es) = .ok r ∧
    r.metrics = scoring :: if regularized then ["length".toList] else []

/-- **C142, the part that holds.**  Of the logs of a run with one scoring metric that regularises the
length, and whose arguments can be read (C75), a report can be made.  It shows the arguments, the
phases that ended with their algorithms, starts and durations, whether there were fewer than three of
them, the search, the metrics, and every evaluation with its score and length.
Missing: runs that do not regularise the length, see below. -/
theorem C142_partial
    (h : RunLogs C stamp seconds entries args scoring search true fields es) :
    ∃ r, makeReport C stamp seconds (gamaText entries) (logOf fields es) = .ok r ∧
      r.hyperparameters = named args ∧
      List.Forall₂ (Reported stamp seconds) (stops entries) r.phases ∧
      (r.evaluations.incomplete = true ↔ (stops entries).length < 3) ∧
      r.search = search ∧
      r.metrics = [scoring, "length".toList] ∧
      r.evaluations.rows.map (fun x => x.record) = es.map (record fields) ∧
      ∀ i e, es[(i : Nat)]? = some e → ∃ x, r.evaluations.rows[i]? = some x ∧ x.n = i ∧
        ∀ f, ("score".toList, f) ∈ fields → C.scores (f e) = .ok x.metrics := by
  obtain ⟨qs, hq, hm⟩ := makeReport_logs h
  obtain ⟨xs, hxs⟩ := convertRows_succeeds (C := C) (m := 2) (header := fields.map Prod.fst)
    (rs := es.map (record fields)) (by
      intro r hr n
      obtain ⟨e, he, rfl⟩ := List.mem_map.1 hr
      exact (logs_row h 2 n he).1 rfl) 0
  obtain ⟨b, r, hu, h1, h2, _⟩ := update_new h.clean 2 (decide ((stops entries).length < 3)) hxs
  rw [hu] at hm
  refine ⟨_, hm, rfl, hq, ?_, rfl, rfl, ?_, ?_⟩
  · show r.incomplete = true ↔ _
    rw [h1, decide_eq_true_eq]
  · show r.rows.map _ = _
    rw [h2, List.map_map]
    have := (convertRows_ok C 2 _ 0 _ _ hxs).1
    simpa [Function.comp_def] using this
  · intro i e he
    have hn := convertRows_n C 2 _ 0 _ _ hxs
    obtain ⟨x, hx, k, hk⟩ := forall₂_getElem (convertRows_each hxs) (i := i) (a := record fields e)
      (by rw [List.getElem?_map, he]; rfl)
    refine ⟨x.1, ?_, ?_, ?_⟩
    · show r.rows[i]? = _
      rw [h2, List.getElem?_map, hx]; rfl
    · have := congrArg (fun l => l[i]?) hn
      simp only [List.getElem?_map, hx] at this
      have hi : i < (es.map (record fields)).length := by
        rw [List.length_map]
        exact (List.getElem?_eq_some_iff.1 he).1
      rw [List.getElem?_range' hi] at this
      simpa using this
    · intro f hf
      exact (convertRow_parts hk).1 _ (column_named h.columns hf e)

/-- **C142: what a report shows was logged.**  Of whatever logs a report is made, it has arguments, and
among them are the search it shows, the metrics it shows (separated by commas), and whether to
regularise. -/
theorem C142_shown {gamaLog evaluationsLog : Str} {r : RunReport M I}
    (h : makeReport C stamp seconds gamaLog evaluationsLog = .ok r) :
    ("search".toList, r.search) ∈ r.hyperparameters ∧
    ∃ ms regularize, ("scoring".toList, List.intercalate [','] ms) ∈ r.hyperparameters ∧ (∀ m ∈ ms, ',' ∉ m) ∧
      ("regularize_length".toList, regularize) ∈ r.hyperparameters ∧
      r.metrics = ms ++ if regularize = [] then [] else ["length".toList] := by
  have c1 : "scoring".toList = ['s', 'c', 'o', 'r', 'i', 'n', 'g'] := by decide +kernel
  have c2 : "regularize_length".toList =
    ['r', 'e', 'g', 'u', 'l', 'a', 'r', 'i', 'z', 'e', '_', 'l', 'e', 'n', 'g', 't', 'h'] := by decide +kernel
  have c3 : "search".toList = ['s', 'e', 'a', 'r', 'c', 'h'] := by decide +kernel
  have c4 : "length".toList = ['l', 'e', 'n', 'g', 't', 'h'] := by decide +kernel
  rw [c1, c2, c3, c4]
  unfold makeReport at h
  simp only [bind, Except.bind] at h
  split at h
  · cases h
  · rename_i facts _
    cases hh : facts.hyperparameters with
    | none => rw [hh] at h; cases h
    | some hps =>
      rw [hh] at h
      dsimp only at h
      cases hs : hpGet hps ['s', 'c', 'o', 'r', 'i', 'n', 'g'] with
      | error e => rw [hs] at h; cases h
      | ok scoring =>
        rw [hs] at h
        dsimp only at h
        cases hr : hpGet hps ['r', 'e', 'g', 'u', 'l', 'a', 'r', 'i', 'z', 'e', '_', 'l', 'e', 'n', 'g', 't', 'h'] with
        | error e => rw [hr] at h; cases h
        | ok regularize =>
          rw [hr] at h
          dsimp only at h
          split at h
          · cases h
          · cases hq : hpGet hps ['s', 'e', 'a', 'r', 'c', 'h'] with
            | error e => rw [hq] at h; cases h
            | ok search =>
              rw [hq] at h
              cases h
              refine ⟨hpGet_mem hq, splitOnChar ',' scoring, regularize, ?_, splitOnChar_without _ _, hpGet_mem hr, ?_⟩
              · rw [splitOnChar_joined]; exact hpGet_mem hs
              · show reportMetrics scoring regularize = _
                unfold reportMetrics
                by_cases e : regularize = [] <;> simp [e]

/-- **C142 fails without regularisation.**  The report takes the text `False` for true and expects
lengths: as soon as one evaluation was logged, no report can be made of a run that does not regularise
the length. -/
theorem C142_unregularized
    (h : RunLogs C stamp seconds entries args scoring search false fields es) (hne : es ≠ []) :
    makeReport C stamp seconds (gamaText entries) (logOf fields es) = .error .valueError := by
  obtain ⟨qs, _, hm⟩ := makeReport_logs h
  obtain ⟨r, hu⟩ := update_refused (C := C) h.clean 2 (decide ((stops entries).length < 3)) hne
    fun e he => (logs_row h 2 0 he).2 (by decide)
  rw [hm, hu]

/-- **C142 fails for printed search spaces.**  If the log has a line with the arguments of a
construction among which is a printed search space of two or more algorithms (see C75), after lines
that can be read, no report can be made, whatever else was logged. -/
theorem C142_search_space (pre post : List LogEntry) (front cls : Str) (evaluationsLog : Str)
    (h : ∀ x ∈ pre, OneLine x ∧ ReadableEntry stamp seconds x)
    (h1 : OneLine (.init front cls args)) (h2 : ∀ x ∈ post, OneLine x)
    (hf : '(' ∉ front) (hc : '(' ∉ cls) (hk : ∀ a ∈ args, PlainText a.1)
    (hb : ∀ a ∈ args, equals a.2.text ≤ breaks a.2.text)
    (hs : ∃ a ∈ args, equals a.2.text < breaks a.2.text) :
    makeReport C stamp seconds (gamaText (pre ++ .init front cls args :: post)) evaluationsLog
      = .error .valueError := by
  obtain ⟨a, ha, hs⟩ := hs
  have hl : readlines (universal (gamaText (pre ++ .init front cls args :: post)))
      = (pre ++ .init front cls args :: post).map LogEntry.line := by
    apply readlines_entries
    intro x hx
    rcases List.mem_append.1 hx with hx | hx
    · exact (h x hx).1
    · rcases List.mem_cons.1 hx with rfl | hx
      · exact h1
      · exact h2 x hx
  have hscan : scanLines stamp seconds ⟨none, []⟩
      ((pre ++ .init front cls args :: post).map LogEntry.line) = .error .valueError := by
    generalize (⟨none, []⟩ : LogFacts) = f
    clear hl
    induction pre generalizing f with
    | nil =>
      have hi : occursIn initMark (LogEntry.init front cls args).line = true := by
        rw [occursIn_iff, ← initMark_eq]
        exact h1.is_init.1 ⟨_, _, _, rfl⟩
      have he : initToHps (LogEntry.init front cls args).line = .error .valueError :=
        C75_search_space front cls args hf hc hk hb a ha hs
      simp only [List.nil_append, List.map_cons, scanLines, scanLine, hi, he, bind, Except.bind,
        if_true, Except.map]
    | cons x pre ih =>
      obtain ⟨f1, e1, -⟩ := scanLine_entry (h x (by simp)).1 (h x (by simp)).2 f
      simp only [List.cons_append, List.map_cons, scanLines, e1, bind, Except.bind]
      exact ih (fun y hy => h y (by simp [hy])) f1
  unfold makeReport
  rw [hl, hscan]
  rfl

end

/-! ### Cases -/

namespace Ex

/-- The arguments of a run: a metric, whether the length is regularised, a configured search, and what
is stored. -/
def runArgs (regularize : Str) : List (Str × ArgText) :=
  [("scoring".toList, .plain "accuracy".toList), ("regularize_length".toList, .plain regularize),
   ("search".toList, .config "AsyncEA".toList [("population_size".toList, "50".toList)]),
   ("store".toList, .plain "logs".toList)]

/-- The log of a run that has finished its preprocessing. -/
def runEntries (regularize : Str) : List LogEntry :=
  [.other "[20-06 11:28 - gama.gama] Using GAMA version 23.0.".toList,
   .init "[20-06 11:28 - gama.gama] ".toList "GamaClassifier".toList (runArgs regularize),
   .other "[20-06 11:28 - gama.t] START: preprocessing default".toList,
   .stop ⟨"20-06 11:28".toList, "gama.t".toList, "preprocessing".toList, ["default".toList], "0.5".toList⟩]

/-- Scores: one number per character. -/
def runConversions : Conversions Nat Str where
  scores s := .ok (s.map fun c => c.toNat)
  start _ := .ok 1
  duration _ := .ok 1
  pipeline s := .ok s

theorem run_entries (b : Bool) :
    ∀ x ∈ runEntries (if b then "True".toList else "False".toList),
      OneLine x ∧ ReadableEntry (fun _ => .ok 9) (fun _ => .ok 4) x := by
  intro x hx
  simp only [runEntries, List.mem_cons, List.not_mem_nil, or_false] at hx
  rcases hx with rfl | rfl | rfl | rfl
  · refine ⟨⟨⟨_, rfl, by decide +kernel, by decide +kernel⟩, ?_, ?_⟩, trivial⟩
    · refine iff_of_false (by rintro ⟨_, _, _, h⟩; cases h) ?_
      revert b; decide +kernel
    · refine iff_of_false (by rintro ⟨_, h⟩; cases h) ?_
      revert b; decide +kernel
  · refine ⟨⟨⟨(LogEntry.init "[20-06 11:28 - gama.gama] ".toList "GamaClassifier".toList
      (runArgs (if b then "True".toList else "False".toList))).line.dropLast, ?_, ?_, ?_⟩, ?_, ?_⟩, ?_⟩
    · revert b; decide +kernel
    · revert b; decide +kernel
    · revert b; decide +kernel
    · refine iff_of_true ⟨_, _, _, rfl⟩ ?_
      revert b; decide +kernel
    · refine iff_of_false (by rintro ⟨_, h⟩; cases h) ?_
      revert b; decide +kernel
    · refine ⟨by decide +kernel, by decide +kernel, by simp [runArgs], ?_, ?_, ?_⟩
      · revert b; decide +kernel
      · intro a ha
        simp only [runArgs, List.mem_cons, List.not_mem_nil, or_false] at ha
        rcases ha with rfl | rfl | rfl | rfl
        · exact ⟨by unfold PlainText; decide +kernel, by show PlainText _; unfold PlainText; decide +kernel⟩
        · refine ⟨by unfold PlainText; dsimp only; decide +kernel, ?_⟩
          show PlainText _
          unfold PlainText
          revert b; decide +kernel
        · refine ⟨by unfold PlainText; decide +kernel, by unfold PlainText; decide +kernel, ?_⟩
          intro kv hkv
          rw [List.mem_singleton] at hkv
          subst hkv
          constructor <;> (unfold PlainText; decide +kernel)
        · exact ⟨by unfold PlainText; decide +kernel, by show PlainText _; unfold PlainText; decide +kernel⟩
      · intro a ha
        cases ha
        exact ⟨_, rfl⟩
  · refine ⟨⟨⟨_, rfl, by decide +kernel, by decide +kernel⟩, ?_, ?_⟩, trivial⟩
    · refine iff_of_false (by rintro ⟨_, _, _, h⟩; cases h) ?_
      revert b; decide +kernel
    · refine iff_of_false (by rintro ⟨_, h⟩; cases h) ?_
      revert b; decide +kernel
  · refine ⟨⟨⟨(LogEntry.stop ⟨"20-06 11:28".toList, "gama.t".toList, "preprocessing".toList,
      ["default".toList], "0.5".toList⟩).line.dropLast, ?_, ?_, ?_⟩, ?_, ?_⟩, ?_, ⟨_, rfl⟩, ⟨_, rfl⟩⟩
    · decide +kernel
    · decide +kernel
    · decide +kernel
    · refine iff_of_false (by rintro ⟨_, _, _, h⟩; cases h) ?_
      decide +kernel
    · exact iff_of_true ⟨_, rfl⟩ (by decide +kernel)
    · exact ⟨by decide +kernel, by decide +kernel, by decide +kernel, by decide +kernel,
        by decide +kernel, by decide +kernel, by decide +kernel⟩

/-- The evaluations of the run. -/
def runEvaluations (b : Bool) : List (Str × Str) :=
  if b then [("a".toList, "87".toList), ("b".toList, "95".toList)]
  else [("a".toList, "8".toList), ("b".toList, "9".toList)]

theorem run_logs (b : Bool) :
    RunLogs runConversions (fun _ => .ok 9) (fun _ => .ok 4)
      (runEntries (if b then "True".toList else "False".toList))
      (runArgs (if b then "True".toList else "False".toList)) "accuracy".toList "AsyncEA".toList b
      reportFields (runEvaluations b) where
  lines := run_entries b
  init := rfl
  scoring := by revert b; decide +kernel
  regularize := by revert b; decide +kernel
  search := by revert b; decide +kernel
  columns := by decide +kernel
  clean := by
    refine ⟨by simp [reportFields], by simp [reportFields, Readable], ?_, ?_⟩
    · cases b <;> simp [runEvaluations, reportFields, Readable]
    · cases b <;> simp [runEvaluations, reportFields, record, StartsVisibly]
  scores := by
    refine ⟨fun e => e.2, by simp [reportFields], ?_⟩
    intro e he
    refine ⟨_, rfl, ?_⟩
    revert e b; decide +kernel
  start := ⟨fun _ => ['1'], by simp [reportFields], fun _ _ => ⟨_, rfl⟩⟩
  duration := ⟨fun _ => ['1'], by simp [reportFields], fun _ _ => ⟨_, rfl⟩⟩
  pipeline := ⟨fun _ => ['P'], by simp [reportFields], fun _ _ => ⟨_, rfl⟩⟩
  id := ⟨fun e => e.1, by simp [reportFields]⟩

end Ex

/-- A case of `C142_search_space`: the search space printed is `{A: {}, B: {}}`. -/
example : (∀ a ∈ sampleSpaceInit, PlainText a.1) ∧
    (∀ a ∈ sampleSpaceInit, equals a.2.text ≤ breaks a.2.text) ∧
    (∃ a ∈ sampleSpaceInit, equals a.2.text < breaks a.2.text) ∧
    OneLine (.init "[20-06 11:28 - gama.gama] ".toList "GamaClassifier".toList sampleSpaceInit) := by
  refine ⟨by simp [sampleSpaceInit, PlainText], by decide, by decide,
    ⟨(LogEntry.init "[20-06 11:28 - gama.gama] ".toList "GamaClassifier".toList sampleSpaceInit).line.dropLast,
      by decide +kernel, by decide +kernel, by decide +kernel⟩,
    iff_of_true ⟨_, _, _, rfl⟩ (by decide +kernel),
    iff_of_false (by rintro ⟨_, h⟩; cases h) (by decide +kernel)⟩

/-- A case of C142. -/
example : ∃ r, makeReport Ex.runConversions (fun _ => .ok 9) (fun _ => .ok 4)
    (gamaText (Ex.runEntries "True".toList)) (logOf reportFields (Ex.runEvaluations true)) = .ok r ∧
      r.search = "AsyncEA".toList ∧ r.phases.length = 1 := by
  obtain ⟨r, h1, _, h2, _, h3, _⟩ := C142_partial (Ex.run_logs true)
  exact ⟨r, h1, h3, h2.length_eq.symm⟩

/-- What the report of these logs shows is among the arguments logged. -/
example : ∃ r, makeReport Ex.runConversions (fun _ => .ok 9) (fun _ => .ok 4)
    (gamaText (Ex.runEntries "True".toList)) (logOf reportFields (Ex.runEvaluations true)) = .ok r ∧
      ("search".toList, "AsyncEA".toList) ∈ r.hyperparameters := by
  obtain ⟨r, h1, _, _, _, h3, _⟩ := C142_partial (Ex.run_logs true)
  exact ⟨r, h1, h3 ▸ (C142_shown h1).1⟩

/-- **C142 is false of the code.** -/
theorem C142_false : ¬ C142_claim := by
  intro h
  obtain ⟨r, hr, -⟩ := h _ _ _ _ _ _ _ _ _ _ _ (Ex.run_logs false)
  rw [C142_unregularized (Ex.run_logs false) (by simp [Ex.runEvaluations])] at hr
  cases hr

end Gama
