import Verif.Model.Front
import Verif.Props.Selection
import Verif.Props.Search2
import Mathlib.Tactic.NormNum
import Mathlib.Data.List.Basic
import Mathlib.Data.List.Nodup

/-! # Construction, output directory and callbacks (C64–C69, C88–C90) -/

namespace Gama

namespace Spec

/-- Arguments that are documented as invalid. -/
def BadArgs (a : InitArgs) : Prop :=
  a.maxTotalTime = none ∨ (∃ t, a.maxTotalTime = some t ∧ t ≤ 0) ∨
  (∃ t, a.maxEvalTime = some t ∧ t ≤ 0) ∨ ∃ n, a.nJobs = some n ∧ n ≠ -1 ∧ n ≤ 0

/-- Arguments that are documented as valid, apart from `n_jobs`. -/
structure GoodArgs (a : InitArgs) : Prop where
  preset : a.presetKnown = true
  total : ∃ t, a.maxTotalTime = some t ∧ 0 < t
  eval : ∀ t, a.maxEvalTime = some t → 0 < t
  scoring : a.scoringError = none
  space : a.spaceError = none
  length : a.preprocessing = true ∨ a.maxLength = none ∨ a.maxLength = some 1

/-- A directory that may be used: not there (but its parent is), or empty. -/
def Usable (p : Place) : Prop := p = .missing true ∨ p = .dir []

/-- A file name of a log. -/
def LogName (n : Str) : Prop := ∃ stem, n = stem ++ ['.', 'l', 'o', 'g']

/-- Something gama puts in its directory: log files and the folder of cached models. -/
def Ours (e : Str × Item) : Prop :=
  (LogName e.1 ∧ e.2 = .file) ∨ (e.1 = ['c', 'a', 'c', 'h', 'e'] ∧ ∃ names, e.2 = .folder names)

end Spec

/-! ### Construction -/

theorem open_usable {p : Place} (h : Spec.Usable p) : openDirectory p = .ok (.dir []) := by
  rcases h with rfl | rfl <;> rfl

theorem touch_first (a : InitArgs) : (if a.logs then touch gamaLog (.dir []) else (.ok (), .dir [])) =
    ((.ok () : Except Exn Unit), Place.dir (if a.logs then [(gamaLog, .file)] else [])) := by
  cases a.logs <;> rfl

theorem refused_of_bad {a : InitArgs} (hb : Spec.BadArgs a) : refused a = true := by
  unfold refused
  rcases hb with h | ⟨t, h, ht⟩ | ⟨t, h, ht⟩ | ⟨n, h, h1, h2⟩
  · rw [h]; simp
  · rw [h]; simp [ht]
  · rw [h]; simp [ht]
  · have hj : resolveJobs a = n := by unfold resolveJobs; rw [h]; simp [h1]
    rw [hj]
    by_cases h0 : n = 0
    · simp [h0]
    · have : n < -1 := by omega
      simp [this]

/-- C64: invalid arguments are refused with a `ValueError` and no directory is left. -/
theorem C64_refused (a : InitArgs) (p : Place) (hp : Spec.Usable p) (ha : a.presetKnown = true)
    (hb : Spec.BadArgs a) : gamaInit a p = (.error .valueError, .missing true) := by
  unfold gamaInit
  rw [if_pos ha, open_usable hp]
  dsimp only
  rw [touch_first]
  dsimp only
  rw [if_pos (refused_of_bad hb)]
  cases a.logs <;> decide

/-- C64, wherever the directory is to be and whatever the preset: invalid arguments are refused, and nothing is
left where there was nothing.  A directory that is there stays as it is, or, if it was empty, is removed.  The error
is a `ValueError`, unless the directory cannot be made or listed. -/
theorem C64_anywhere (a : InitArgs) (p : Place) (hb : Spec.BadArgs a) :
    ∃ e p', gamaInit a p = (.error e, p') ∧ (∀ b, p = .missing b → p' = .missing b) ∧
      (p' = p ∨ (p = .dir [] ∧ p' = .missing true)) ∧
      (e = .valueError ∨ (p = .missing false ∧ e = .fileNotFound) ∨ (p = .regular ∧ e = .osError)) := by
  by_cases ha : a.presetKnown = true
  · rcases p with b | _ | (_ | ⟨x, es⟩)
    · cases b with
      | true => exact ⟨_, _, C64_refused a _ (Or.inl rfl) ha hb, fun b h => by cases h; rfl, .inl rfl, .inl rfl⟩
      | false =>
        refine ⟨.fileNotFound, .missing false, ?_, fun _ h => h, .inl rfl, .inr (.inl ⟨rfl, rfl⟩)⟩
        unfold gamaInit
        rw [if_pos ha]
        rfl
    · refine ⟨.osError, .regular, ?_, fun _ h => h, .inl rfl, .inr (.inr ⟨rfl, rfl⟩)⟩
      unfold gamaInit
      rw [if_pos ha]
      rfl
    · exact ⟨_, _, C64_refused a _ (Or.inr rfl) ha hb, (fun _ h => nomatch h), .inr ⟨rfl, rfl⟩, .inl rfl⟩
    · refine ⟨.valueError, .dir (x :: es), ?_, fun _ h => h, .inl rfl, .inl rfl⟩
      unfold gamaInit
      rw [if_pos ha]
      rfl
  · refine ⟨.valueError, p, ?_, fun _ h => h, .inl rfl, .inl rfl⟩
    unfold gamaInit
    rw [if_neg ha]

/-- C64: a directory that is not empty is refused and left as it is, whatever the arguments. -/
theorem C64_untouched (a : InitArgs) (es : List (Str × Item)) (hne : es ≠ []) :
    gamaInit a (.dir es) = (.error .valueError, .dir es) := by
  unfold gamaInit
  by_cases ha : a.presetKnown = true
  · rw [if_pos ha]
    cases es with
    | nil => exact absurd rfl hne
    | cons e es => rfl
  · rw [if_neg ha]

theorem not_refused {a : InitArgs} (hg : Spec.GoodArgs a) (hj : 0 < resolveJobs a) :
    refused a = false := by
  obtain ⟨t, ht, h0⟩ := hg.total
  unfold refused
  rw [ht]
  have h1 : ¬ t ≤ 0 := by omega
  have h2 : ¬ resolveJobs a < -1 := by omega
  have h3 : resolveJobs a ≠ 0 := by omega
  simp only [h1, h2, h3, decide_false, Bool.or_false, Bool.false_or]
  cases he : a.maxEvalTime with
  | none => rfl
  | some e =>
    have := hg.eval e he
    simp; omega

/-- With good arguments and a positive number of jobs, construction succeeds. -/
theorem init_ok {a : InitArgs} (p : Place) (hp : Spec.Usable p) (hg : Spec.GoodArgs a)
    (hj : 0 < resolveJobs a) : ∃ i es, gamaInit a p = (.ok i, .dir es) ∧
      i.nJobs = resolveJobs a ∧ some i.maxTotalTime = a.maxTotalTime ∧
      (∀ t, a.maxEvalTime = some t → i.maxEvalTime = min t i.maxTotalTime) ∧
      (∀ e ∈ es, Spec.Ours e) := by
  obtain ⟨t, ht, h0⟩ := hg.total
  have hev : ∃ e, maxEvalTime (some t) a.maxEvalTime = .ok e ∧
      ∀ t', a.maxEvalTime = some t' → e = min t' t := by
    unfold maxEvalTime
    dsimp only
    rw [if_neg (by omega)]
    cases he : a.maxEvalTime with
    | none => exact ⟨_, rfl, nofun⟩
    | some e =>
      dsimp only
      rw [if_neg (by have := hg.eval e he; omega)]
      refine ⟨_, rfl, ?_⟩
      intro t' h'
      cases h'
      by_cases h : t < e
      · rw [if_pos h, min_eq_right (by omega)]
      · rw [if_neg h, min_eq_left (by omega)]
  obtain ⟨e, he, hmin⟩ := hev
  have hlen : ∃ len, resolveLength a = .ok len := by
    unfold resolveLength
    rcases hg.length with h | h | h
    · rw [if_pos h]; exact ⟨_, rfl⟩
    · rw [h]; split <;> exact ⟨_, rfl⟩
    · rw [h]; split <;> exact ⟨_, rfl⟩
  obtain ⟨len, hlen⟩ := hlen
  have hours : ∀ x ∈ dset (if (dget (if a.logs then [(gamaLog, Item.file)] else []) cacheName).isSome
      then (if a.logs then [(gamaLog, Item.file)] else [])
      else dset (if a.logs then [(gamaLog, Item.file)] else []) cacheName (.folder []))
      evaluationsLog .file, Spec.Ours x := by
    have h1 : Spec.LogName gamaLog := ⟨['g', 'a', 'm', 'a'], rfl⟩
    have h2 : Spec.LogName evaluationsLog := ⟨['e', 'v', 'a', 'l', 'u', 'a', 't', 'i', 'o', 'n', 's'], rfl⟩
    cases a.logs
    · intro x hx
      have hx' : x ∈ [(cacheName, Item.folder []), (evaluationsLog, Item.file)] := hx
      simp only [List.mem_cons, List.not_mem_nil, or_false] at hx'
      rcases hx' with rfl | rfl
      · exact Or.inr ⟨rfl, [], rfl⟩
      · exact Or.inl ⟨h2, rfl⟩
    · intro x hx
      have hx' : x ∈ [(gamaLog, Item.file), (cacheName, Item.folder []), (evaluationsLog, Item.file)] := hx
      simp only [List.mem_cons, List.not_mem_nil, or_false] at hx'
      rcases hx' with rfl | rfl | rfl
      · exact Or.inl ⟨h1, rfl⟩
      · exact Or.inr ⟨rfl, [], rfl⟩
      · exact Or.inl ⟨h2, rfl⟩
  refine ⟨⟨resolveJobs a, t, e, len, len.getD 3⟩, _, ?_, rfl, ht.symm, hmin, hours⟩
  unfold gamaInit
  rw [if_pos hg.preset, open_usable hp]
  dsimp only
  rw [touch_first]
  dsimp only
  rw [if_neg (by rw [not_refused hg hj]; simp), ht]
  dsimp only
  rw [he]
  dsimp only
  unfold initRest
  rw [hg.scoring, hg.space, hlen]

/-- C64: valid arguments are accepted, and are the ones the instance is constructed with. -/
theorem C64_accepted (a : InitArgs) (p : Place) (hp : Spec.Usable p) (hg : Spec.GoodArgs a) (n : Int)
    (hn : a.nJobs = some n) (hv : n = -1 ∨ 0 < n) (hc : 0 < a.cpus) :
    ∃ i es, gamaInit a p = (.ok i, .dir es) ∧
      i.nJobs = (if n = -1 then (a.cpus : Int) else n) ∧ some i.maxTotalTime = a.maxTotalTime ∧
      (∀ t, a.maxEvalTime = some t → i.maxEvalTime = min t i.maxTotalTime) ∧
      (∀ e ∈ es, Spec.Ours e) := by
  have hj : resolveJobs a = if n = -1 then (a.cpus : Int) else n := by
    unfold resolveJobs; rw [hn]
  rw [← hj]
  refine init_ok p hp hg ?_
  rw [hj]
  by_cases h : n = -1
  · rw [if_pos h]; omega
  · rw [if_neg h]; rcases hv with h' | h'
    · exact absurd h' h
    · exact h'

/-- One hour with two jobs; and a bad number of jobs. -/
def sampleArgs : InitArgs :=
  { presetKnown := true, nJobs := some 2, maxTotalTime := some 3600, maxEvalTime := some 60,
    logs := true, scoringError := none, spaceError := none, preprocessing := true,
    maxLength := none, cpus := 4 }

example : Spec.GoodArgs sampleArgs :=
  ⟨rfl, ⟨3600, rfl, by omega⟩, fun t h => by cases h; omega, rfl, rfl, Or.inl rfl⟩

example : Spec.BadArgs { sampleArgs with nJobs := some 0 } :=
  Or.inr (Or.inr (Or.inr ⟨0, rfl, by omega, by omega⟩))

/-- The full claim C65. -/
def C65_claim : Prop :=
  ∀ (a : InitArgs) (p : Place), Spec.Usable p → Spec.GoodArgs a → a.nJobs = none → 1 ≤ a.cpus →
    ∃ i p', gamaInit a p = (.ok i, p') ∧ i.nJobs = (a.cpus : Int) / 2

/-- C65 on machines with at least two cores. -/
theorem C65_partial (a : InitArgs) (p : Place) (hp : Spec.Usable p) (hg : Spec.GoodArgs a)
    (hn : a.nJobs = none) (hc : 2 ≤ a.cpus) :
    ∃ i p', gamaInit a p = (.ok i, p') ∧ i.nJobs = (a.cpus : Int) / 2 ∧ 1 ≤ i.nJobs := by
  have hj : resolveJobs a = (a.cpus : Int) / 2 := by unfold resolveJobs; rw [hn]
  obtain ⟨i, es, h1, h2, _⟩ := init_ok p hp hg (by rw [hj]; omega)
  refine ⟨i, _, h1, by rw [h2, hj], ?_⟩
  rw [h2, hj]; omega

/-- C65, the other values: `-1` stands for all cores, and a positive number is the number of jobs. -/
theorem C65_given (a : InitArgs) (p : Place) (hp : Spec.Usable p) (hg : Spec.GoodArgs a) :
    (a.nJobs = some (-1) → 1 ≤ a.cpus → ∃ i p', gamaInit a p = (.ok i, p') ∧ i.nJobs = a.cpus) ∧
    (∀ n, a.nJobs = some n → 1 ≤ n → ∃ i p', gamaInit a p = (.ok i, p') ∧ i.nJobs = n) := by
  constructor
  · intro hn hc
    have hj : resolveJobs a = a.cpus := by unfold resolveJobs; rw [hn]; rfl
    obtain ⟨i, es, h1, h2, _⟩ := init_ok p hp hg (by rw [hj]; omega)
    exact ⟨i, _, h1, by rw [h2, hj]⟩
  · intro n hn h0
    have hj : resolveJobs a = n := by
      unfold resolveJobs
      rw [hn]
      exact if_neg (by omega)
    obtain ⟨i, es, h1, h2, _⟩ := init_ok p hp hg (by rw [hj]; omega)
    exact ⟨i, _, h1, by rw [h2, hj]⟩

/-- On a machine with one core the default is zero jobs, which is refused. -/
theorem C65_false : ¬ C65_claim := by
  intro h
  obtain ⟨i, p', h1, _⟩ := h { sampleArgs with nJobs := none, cpus := 1 } (.missing true) (Or.inl rfl)
    ⟨rfl, ⟨3600, rfl, by omega⟩, fun t h => by cases h; omega, rfl, rfl, Or.inl rfl⟩ rfl (by decide)
  revert h1
  have : gamaInit { sampleArgs with nJobs := none, cpus := 1 } (.missing true) =
      (.error .valueError, .missing true) := by decide
  rw [this]
  intro h1
  cases h1

/-- The full claim C88: a construction that fails leaves no output directory that was not there. -/
def C88_claim : Prop :=
  ∀ (a : InitArgs) (p p' : Place) (e : Exn), gamaInit a p = (.error e, p') →
    p' = p ∨ p' = .missing true

/-- C88 unless it is the scoring, the search space or the pipeline length that is refused. -/
theorem C88_partial (a : InitArgs) (p p' : Place) (e : Exn) (hs : a.scoringError = none)
    (hc : a.spaceError = none)
    (hl : a.preprocessing = true ∨ a.maxLength = none ∨ ∃ n, a.maxLength = some n ∧ n ≤ 1)
    (h : gamaInit a p = (.error e, p')) : p' = p ∨ p' = .missing true := by
  unfold gamaInit at h
  by_cases ha : a.presetKnown = true
  · rw [if_pos ha] at h
    have hcase : Spec.Usable p ∨ ∃ e', openDirectory p = .error e' := by
      unfold Spec.Usable
      cases p with
      | missing b => cases b <;> simp [openDirectory]
      | regular => simp [openDirectory]
      | dir es => cases es <;> simp [openDirectory]
    rcases hcase with hu | ⟨e', he'⟩
    · rw [open_usable hu] at h
      dsimp only at h
      rw [touch_first] at h
      dsimp only at h
      by_cases hr : refused a = true
      · rw [if_pos hr] at h
        right
        cases hlg : a.logs
        · rw [hlg] at h
          have : cleanup .all (.dir (if false = true then [(gamaLog, Item.file)] else [])) =
              (.ok (), .missing true) := by decide
          rw [this] at h
          cases h
          rfl
        · rw [hlg] at h
          have : cleanup .all (.dir (if true = true then [(gamaLog, Item.file)] else [])) =
              (.ok (), .missing true) := by decide
          rw [this] at h
          cases h
          rfl
      · rw [if_neg hr] at h
        exfalso
        have hr' : refused a = false := by simpa using hr
        unfold refused at hr'
        cases ht : a.maxTotalTime with
        | none => rw [ht] at hr'; simp at hr'
        | some t =>
          rw [ht] at hr' h
          simp only [Bool.or_eq_false_iff, decide_eq_false_iff_not] at hr'
          obtain ⟨⟨⟨h1, h2⟩, _⟩, _⟩ := hr'
          have hev : ∃ e, maxEvalTime (some t) a.maxEvalTime = .ok e := by
            unfold maxEvalTime
            dsimp only
            rw [if_neg h1]
            cases he : a.maxEvalTime with
            | none => exact ⟨_, rfl⟩
            | some e =>
              rw [he] at h2
              dsimp only
              rw [if_neg (of_decide_eq_false h2)]
              exact ⟨_, rfl⟩
          obtain ⟨ev, hev⟩ := hev
          dsimp only at h
          rw [hev] at h
          dsimp only at h
          unfold initRest at h
          rw [hs, hc] at h
          dsimp only at h
          have hlen : ∃ len, resolveLength a = .ok len := by
            unfold resolveLength
            rcases hl with h | h | ⟨n, h, hn⟩
            · rw [if_pos h]; exact ⟨_, rfl⟩
            · rw [h]; split <;> exact ⟨_, rfl⟩
            · rw [h]
              split
              · exact ⟨_, rfl⟩
              · dsimp only; rw [if_neg (by omega)]; exact ⟨_, rfl⟩
          obtain ⟨len, hlen⟩ := hlen
          rw [hlen] at h
          cases h
    · rw [he'] at h
      cases h
      exact Or.inl rfl
  · rw [if_neg ha] at h
    cases h
    exact Or.inl rfl

/-- A metric that is not known is refused after the directory was made. -/
theorem C88_false : ¬ C88_claim := by
  intro h
  have := h { sampleArgs with scoringError := some .valueError } (.missing true)
    (.dir [(gamaLog, .file)]) .valueError (by decide)
  simp at this

/-! ### Callbacks -/

section
variable {C : Type}

/-- C66: if no callback times out or interrupts, all are called, in order, whatever they raise. -/
theorem C66_all_called (call : C → CallEnd) (late : C → Bool) (cbs : List C)
    (h : ∀ cb ∈ cbs, (call cb = .returns ∨ call cb = .raises) ∧ late cb = false) :
    onWait call late cbs true = (cbs, .ok ()) := by
  unfold onWait
  rw [if_pos rfl]
  induction cbs with
  | nil => rfl
  | cons cb cbs ih =>
    obtain ⟨h1, h2⟩ := h cb List.mem_cons_self
    have hs : safeOutsideCall (call cb) (late cb) = .ok () := by
      rcases h1 with h1 | h1 <;> rw [h1, h2] <;> rfl
    unfold onEvaluation
    rw [hs]
    dsimp only
    rw [ih fun x hx => h x (List.mem_cons_of_mem _ hx)]

/-- C66: a timeout raised by a callback, or noticed after it, reaches the search; the callbacks up to
that one were called, in order. -/
theorem C66_timeout (call : C → CallEnd) (late : C → Bool) (pre post : List C) (cb : C)
    (h : ∀ x ∈ pre, (call x = .returns ∨ call x = .raises) ∧ late x = false)
    (hcb : call cb = .timeout ∨ (call cb ≠ .interrupt ∧ late cb = true)) :
    onWait call late (pre ++ cb :: post) true = (pre ++ [cb], .error .timeout) := by
  unfold onWait
  rw [if_pos rfl]
  induction pre with
  | nil =>
    have hs : safeOutsideCall (call cb) (late cb) = .error .timeout := by
      rcases hcb with h | ⟨h, h'⟩
      · rw [h]; rfl
      · rw [h']; cases hc : call cb <;> simp_all [safeOutsideCall]
    rw [List.nil_append]
    unfold onEvaluation
    rw [hs]
    rfl
  | cons x pre ih =>
    obtain ⟨h1, h2⟩ := h x List.mem_cons_self
    have hs : safeOutsideCall (call x) (late x) = .ok () := by
      rcases h1 with h1 | h1 <;> rw [h1, h2] <;> rfl
    rw [List.cons_append]
    unfold onEvaluation
    rw [hs]
    dsimp only
    rw [ih fun y hy => h y (List.mem_cons_of_mem _ hy)]
    rfl

/-- C66: a keyboard interrupt in a callback reaches the search too. -/
theorem C66_interrupt (call : C → CallEnd) (late : C → Bool) (pre post : List C) (cb : C)
    (h : ∀ x ∈ pre, (call x = .returns ∨ call x = .raises) ∧ late x = false)
    (hcb : call cb = .interrupt) :
    onWait call late (pre ++ cb :: post) true = (pre ++ [cb], .error .keyboardInterrupt) := by
  unfold onWait
  rw [if_pos rfl]
  induction pre with
  | nil =>
    rw [List.nil_append]
    unfold onEvaluation
    rw [hcb]
    rfl
  | cons x pre ih =>
    obtain ⟨h1, h2⟩ := h x List.mem_cons_self
    have hs : safeOutsideCall (call x) (late x) = .ok () := by
      rcases h1 with h1 | h1 <;> rw [h1, h2] <;> rfl
    rw [List.cons_append]
    unfold onEvaluation
    rw [hs]
    dsimp only
    rw [ih fun y hy => h y (List.mem_cons_of_mem _ hy)]
    rfl

/-- C66: in any case the callbacks called are the first ones, in order. -/
theorem C66_order (call : C → CallEnd) (late : C → Bool) (cbs : List C) (result : Bool) :
    (onWait call late cbs result).1 <+: cbs := by
  unfold onWait
  cases result
  · exact List.nil_prefix
  · rw [if_pos rfl]
    induction cbs with
    | nil => exact List.nil_prefix
    | cons cb cbs ih =>
      unfold onEvaluation
      cases safeOutsideCall (call cb) (late cb) with
      | error e => exact List.prefix_cons_iff.2 (Or.inr ⟨[], rfl, List.nil_prefix⟩)
      | ok u => exact List.prefix_cons_iff.2 (Or.inr ⟨_, rfl, ih⟩)

end

/-- Three callbacks of which the second raises. -/
example : onWait (fun n : Nat => if n = 1 then .raises else .returns) (fun _ => false) [0, 1, 2] true =
    ([0, 1, 2], .ok ()) :=
  C66_all_called _ _ _ (by decide)

/-! ### Files -/

theorem isLog_iff {n : Str} : isLog n = true ↔ Spec.LogName n := by
  unfold isLog Spec.LogName
  rw [List.isSuffixOf_iff_suffix]
  constructor
  · rintro ⟨s, h⟩; exact ⟨s, h.symm⟩
  · rintro ⟨s, h⟩; exact ⟨s, h.symm⟩

theorem cache_not_log : ¬ Spec.LogName cacheName := by
  rw [← isLog_iff]; decide

theorem ddel_filter {V : Type} {es : List (Str × V)} (hd : DictOK es) (n : Str) :
    ddel es n = es.filter fun e => decide (e.1 ≠ n) := by
  induction es with
  | nil => rfl
  | cons e es ih =>
    obtain ⟨m, v⟩ := e
    obtain ⟨h1, h2⟩ : m ∉ es.map Prod.fst ∧ DictOK es := List.nodup_cons.1 hd
    unfold ddel
    by_cases h : m = n
    · subst h
      rw [if_pos rfl, List.filter_cons_of_neg (by simp)]
      rw [List.filter_eq_self.2]
      intro a ha
      have : a.1 ≠ m := fun e => h1 (e ▸ List.mem_map.2 ⟨a, ha, rfl⟩)
      simp [this]
    · rw [if_neg h, List.filter_cons_of_pos (by simp [h]), ih h2]

theorem dictOK_filter {V : Type} {es : List (Str × V)} (hd : DictOK es) (f : Str × V → Bool) :
    DictOK (es.filter f) := by
  unfold DictOK at *
  exact hd.sublist (List.filter_sublist.map _)

theorem removeLogs_ok : ∀ (l es : List (Str × Item)), DictOK es →
    (∀ e ∈ l, Spec.LogName e.1 → e.2 = .file) →
    removeLogs l es = (.ok (), es.filter fun e => decide (¬ (isLog e.1 = true ∧ e.1 ∈ l.map Prod.fst))) := by
  intro l
  induction l with
  | nil =>
    intro es _ _
    unfold removeLogs
    rw [List.filter_eq_self.2]
    intro a _
    simp
  | cons x l ih =>
    obtain ⟨n, i⟩ := x
    intro es hd hf
    unfold removeLogs
    by_cases hn : isLog n = true
    · rw [if_pos hn]
      have hi : i = .file := hf (n, i) List.mem_cons_self (isLog_iff.1 hn)
      rw [hi]
      dsimp only
      rw [ddel_filter hd, ih _ (dictOK_filter hd _) fun e he => hf e (List.mem_cons_of_mem _ he)]
      rw [List.filter_filter]
      congr 1
      apply List.filter_congr
      intro a _
      by_cases ha : a.1 = n
      · simp [ha, hn]
      · cases isLog a.1 <;> simp [ha]
    · rw [if_neg hn, ih _ hd fun e he => hf e (List.mem_cons_of_mem _ he)]
      congr 1
      apply List.filter_congr
      intro a _
      by_cases ha : a.1 = n
      · simp [ha, hn]
      · cases isLog a.1 <;> simp [ha]

theorem removeLogs_self {es : List (Str × Item)} (hd : DictOK es)
    (hf : ∀ e ∈ es, Spec.LogName e.1 → e.2 = .file) :
    removeLogs es es = (.ok (), es.filter fun e => !isLog e.1) := by
  rw [removeLogs_ok es es hd hf]
  congr 1
  apply List.filter_congr
  intro a ha
  have : a.1 ∈ es.map Prod.fst := List.mem_map.2 ⟨a, ha, rfl⟩
  cases isLog a.1 <;> simp_all

/-- A directory in which logs are files and the cache is a folder, each name once: what else is in it
does not matter. -/
structure Spec.Tidy (es : List (Str × Item)) : Prop where
  names : DictOK es
  logs : ∀ e ∈ es, Spec.LogName e.1 → e.2 = .file
  cache : ∀ e ∈ es, e.1 = ['c', 'a', 'c', 'h', 'e'] → ∃ names, e.2 = .folder names

theorem drop_cache {es : List (Str × Item)} (ht : Spec.Tidy es) :
    (match dget es cacheName with
      | some .file => (.error .osError, Place.dir es)
      | c => ((.ok () : Except Exn Unit), Place.dir (if c.isSome then ddel es cacheName else es))) =
    (.ok (), .dir (es.filter fun e => decide (e.1 ≠ cacheName))) := by
  cases hc : dget es cacheName with
  | none =>
    dsimp only
    rw [if_neg (by simp), List.filter_eq_self.2]
    intro a ha
    have : a.1 ≠ cacheName := fun e => dget_eq_none.1 hc (e ▸ List.mem_map.2 ⟨a, ha, rfl⟩)
    simp [this]
  | some i =>
    obtain ⟨names, hi⟩ := ht.cache _ (dget_mem hc) rfl
    cases hi
    dsimp only
    rw [if_pos (by simp), ddel_filter ht.names]

theorem cleanup_evaluations {es : List (Str × Item)} (ht : Spec.Tidy es) :
    cleanup .evaluations (.dir es) =
      (.ok (), .dir (es.filter fun e => decide (e.1 ≠ cacheName))) := by
  have := drop_cache ht
  unfold cleanup
  dsimp only
  rw [if_pos rfl]
  dsimp only
  rw [if_neg (by decide)]
  cases hc : dget es cacheName with
  | none => rw [hc] at this; simpa using this
  | some i =>
    obtain ⟨names, hi⟩ := ht.cache _ (dget_mem hc) rfl
    cases hi
    rw [hc] at this
    simpa using this

theorem cleanup_logs {es : List (Str × Item)} (ht : Spec.Tidy es) :
    cleanup .logs (.dir es) = (.ok (), .dir (es.filter fun e => !isLog e.1)) := by
  unfold cleanup
  dsimp only
  rw [if_neg (by decide), removeLogs_self ht.names ht.logs]
  simp

theorem tidy_filter {es : List (Str × Item)} (ht : Spec.Tidy es) (f : Str × Item → Bool) :
    Spec.Tidy (es.filter f) :=
  ⟨dictOK_filter ht.names f, fun e he => ht.logs e (List.mem_filter.1 he).1,
    fun e he => ht.cache e (List.mem_filter.1 he).1⟩

theorem cleanup_all {es : List (Str × Item)} (ht : Spec.Tidy es) :
    cleanup .all (.dir es) =
      if es.filter (fun e => decide (e.1 ≠ cacheName) && !isLog e.1) = [] then (.ok (), .missing true)
      else (.error .osError, .dir (es.filter fun e => decide (e.1 ≠ cacheName) && !isLog e.1)) := by
  have := drop_cache (tidy_filter ht fun e => !isLog e.1)
  rw [List.filter_filter] at this
  unfold cleanup
  dsimp only
  rw [if_neg (by decide), removeLogs_self ht.names ht.logs]
  dsimp only
  rw [if_neg (by decide)]
  cases hc : dget (es.filter fun e => !isLog e.1) cacheName with
  | none =>
    rw [hc] at this
    have h2 : es.filter (fun e => !isLog e.1) =
        es.filter (fun e => decide (e.1 ≠ cacheName) && !isLog e.1) := by simpa using this
    rw [← h2]
    rfl
  | some i =>
    obtain ⟨names, hi⟩ := (tidy_filter ht fun e => !isLog e.1).cache _ (dget_mem hc) rfl
    cases hi
    rw [hc] at this
    have h2 : ddel (es.filter fun e => !isLog e.1) cacheName =
        es.filter (fun e => decide (e.1 ≠ cacheName) && !isLog e.1) := by simpa using this
    rw [← h2]
    rfl

theorem tidy_of_ours {es : List (Str × Item)} (hd : DictOK es) (ho : ∀ e ∈ es, Spec.Ours e) :
    Spec.Tidy es := by
  refine ⟨hd, ?_, ?_⟩
  · intro e he hl
    rcases ho e he with ⟨_, h⟩ | ⟨h, _⟩
    · exact h
    · exfalso
      rw [h] at hl
      exact cache_not_log hl
  · intro e he hc
    rcases ho e he with ⟨h, _⟩ | ⟨_, h⟩
    · exfalso
      rw [hc] at h
      exact cache_not_log h
    · exact h

/-- C67: what is left in the directory after fit.  Logs iff `store` is 'logs' or 'all', cached models
iff it is 'models' or 'all'; with 'nothing' there is no directory. -/
theorem C67_kept (store : Store) (hs : store ≠ .other) (es : List (Str × Item)) (hd : DictOK es)
    (ho : ∀ e ∈ es, Spec.Ours e) :
    ∃ p, fitCleanup store (.dir es) = (.ok (), p) ∧
      (store = .nothing → p = .missing true) ∧
      (store ≠ .nothing → ∃ es', p = .dir es' ∧
        ∀ e, e ∈ es' ↔ e ∈ es ∧ ((Spec.LogName e.1 ∧ (store = .logs ∨ store = .all)) ∨
          (e.1 = ['c', 'a', 'c', 'h', 'e'] ∧ (store = .models ∨ store = .all)))) := by
  have ht := tidy_of_ours hd ho
  have either : ∀ e ∈ es, Spec.LogName e.1 ∨ e.1 = ['c', 'a', 'c', 'h', 'e'] := by
    intro e he
    rcases ho e he with ⟨h, _⟩ | ⟨h, _⟩
    · exact Or.inl h
    · exact Or.inr h
  have notboth : ∀ e : Str × Item, Spec.LogName e.1 → e.1 ≠ ['c', 'a', 'c', 'h', 'e'] := by
    intro e h h'
    rw [h'] at h
    exact cache_not_log h
  cases store with
  | other => exact absurd rfl hs
  | nothing =>
    refine ⟨.missing true, ?_, fun _ => rfl, fun h => absurd rfl h⟩
    unfold fitCleanup
    dsimp only
    rw [cleanup_all ht, if_pos]
    rw [List.filter_eq_nil_iff]
    intro e he h
    simp only [Bool.and_eq_true, decide_eq_true_eq, Bool.not_eq_true'] at h
    rcases either e he with h' | h'
    · rw [isLog_iff.2 h'] at h; cases h.2
    · exact h.1 h'
  | models =>
    refine ⟨_, cleanup_logs ht, (fun h => by cases h), fun _ => ⟨_, rfl, ?_⟩⟩
    intro e
    rw [List.mem_filter]
    constructor
    · rintro ⟨he, h⟩
      refine ⟨he, Or.inr ⟨?_, Or.inl rfl⟩⟩
      rcases either e he with h' | h'
      · rw [isLog_iff.2 h'] at h; cases h
      · exact h'
    · rintro ⟨he, ⟨_, h | h⟩ | ⟨h, _⟩⟩
      · cases h
      · cases h
      · refine ⟨he, ?_⟩
        cases hl : isLog e.1
        · rfl
        · exact absurd h (notboth e (isLog_iff.1 hl))
  | logs =>
    refine ⟨_, cleanup_evaluations ht, (fun h => by cases h), fun _ => ⟨_, rfl, ?_⟩⟩
    intro e
    rw [List.mem_filter]
    constructor
    · rintro ⟨he, h⟩
      refine ⟨he, Or.inl ⟨?_, Or.inl rfl⟩⟩
      rcases either e he with h' | h'
      · exact h'
      · exact absurd h' (of_decide_eq_true h)
    · rintro ⟨he, ⟨h, _⟩ | ⟨_, h | h⟩⟩
      · exact ⟨he, decide_eq_true (notboth e h)⟩
      · cases h
      · cases h
  | all =>
    refine ⟨.dir es, rfl, (fun h => by cases h), fun _ => ⟨es, rfl, ?_⟩⟩
    intro e
    constructor
    · intro he
      refine ⟨he, ?_⟩
      rcases either e he with h | h
      · exact Or.inl ⟨h, Or.inr rfl⟩
      · exact Or.inr ⟨h, Or.inr rfl⟩
    · rintro ⟨he, _⟩; exact he

/-- C67: anything else in the directory is left alone; with 'nothing' the directory is then not
removed, and fit fails. -/
theorem C67_foreign (store : Store) (es : List (Str × Item)) (ht : Spec.Tidy es) (e : Str × Item)
    (he : e ∈ es) (hl : ¬ Spec.LogName e.1) (hc : e.1 ≠ ['c', 'a', 'c', 'h', 'e']) :
    ∃ r es', fitCleanup store (.dir es) = (r, .dir es') ∧ e ∈ es' ∧
      (store = .nothing → r = .error .osError) := by
  have hl' : isLog e.1 = false := by
    cases h : isLog e.1
    · rfl
    · exact absurd (isLog_iff.1 h) hl
  cases store with
  | other => exact ⟨_, es, rfl, he, nofun⟩
  | all => exact ⟨_, es, rfl, he, nofun⟩
  | logs =>
    exact ⟨_, _, cleanup_evaluations ht, List.mem_filter.2 ⟨he, decide_eq_true hc⟩, nofun⟩
  | models => exact ⟨_, _, cleanup_logs ht, List.mem_filter.2 ⟨he, by simp [hl']⟩, nofun⟩
  | nothing =>
    have hm : e ∈ es.filter fun e => decide (e.1 ≠ cacheName) && !isLog e.1 :=
      List.mem_filter.2 ⟨he, by
        have : e.1 ≠ cacheName := hc
        simp [this, hl']⟩
    have hne : es.filter (fun e => decide (e.1 ≠ cacheName) && !isLog e.1) ≠ [] := by
      intro h0; rw [h0] at hm; cases hm
    have := cleanup_all ht
    rw [if_neg hne] at this
    exact ⟨_, _, this, hm, fun _ => rfl⟩

/-- C67: cleaning up a second time changes nothing and does not fail. -/
theorem C67_twice (which : Which) (p p' : Place) (hp : ∀ es, p = .dir es → Spec.Tidy es)
    (h : cleanup which p = (.ok (), p')) : cleanup which p' = (.ok (), p') := by
  cases p with
  | missing b => cases h; rfl
  | regular =>
    cases which with
    | evaluations => cases h; rfl
    | logs => cases h
    | all => cases h
  | dir es =>
    have ht := hp es rfl
    cases which with
    | evaluations =>
      rw [cleanup_evaluations ht] at h
      cases h
      rw [cleanup_evaluations (tidy_filter ht _), List.filter_filter]
      simp
    | logs =>
      rw [cleanup_logs ht] at h
      cases h
      rw [cleanup_logs (tidy_filter ht _), List.filter_filter]
      simp
    | all =>
      rw [cleanup_all ht] at h
      split at h
      · cases h; rfl
      · cases h

/-- C67: a setting that is not documented fails after the search, with everything stored. -/
theorem C67_unknown (p : Place) : fitCleanup .other p = (.error .keyError, p) := rfl

/-- A directory with a log and a cached model. -/
example : Spec.Tidy [(gamaLog, .file), (cacheName, .folder [['m']])] ∧
    ∀ e ∈ [(gamaLog, Item.file), (cacheName, .folder [['m']])], Spec.Ours e := by
  have ho : ∀ e ∈ [(gamaLog, Item.file), (cacheName, .folder [['m']])], Spec.Ours e := by
    intro e he
    simp only [List.mem_cons, List.not_mem_nil, or_false] at he
    rcases he with rfl | rfl
    · exact Or.inl ⟨⟨['g', 'a', 'm', 'a'], rfl⟩, rfl⟩
    · exact Or.inr ⟨rfl, _, rfl⟩
  exact ⟨tidy_of_ours (by unfold DictOK; decide) ho, ho⟩

/-! ### Fitting again -/

/-- The full claim C89: after a fit, another one works and stores its models just the same. -/
def C89_claim : Prop :=
  ∀ (a : InitArgs) (p p1 p2 : Place) (i : Instance) (store : Store) (m1 m2 s1 : List Str),
    store ≠ .other → gamaInit a p = (.ok i, p1) → fitFiles store m1 p1 = (.ok s1, p2) →
    ∃ p3, fitFiles store m2 p2 = (.ok m2, p3)

/-- Three claims would do; what is asked of the directory for a fit. -/
structure Spec.Ready (es : List (Str × Item)) : Prop where
  names : DictOK es
  ours : ∀ e ∈ es, Spec.Ours e
  cache : ∃ names, (['c', 'a', 'c', 'h', 'e'], Item.folder names) ∈ es

/-- Opening a log for writing where only logs and the cache are. -/
theorem touch_ours {es : List (Str × Item)} (ho : ∀ e ∈ es, Spec.Ours e) {n : Str}
    (hn : Spec.LogName n) : touch n (.dir es) = (.ok (), .dir (dset es n .file)) := by
  have hcn : n ≠ cacheName := fun e => cache_not_log (e ▸ hn)
  unfold touch
  dsimp only
  cases hg : dget es n with
  | none => rfl
  | some i =>
    cases i with
    | file => rfl
    | folder names =>
      exfalso
      rcases ho _ (dget_mem hg) with ⟨_, h'⟩ | ⟨h', _⟩
      · cases h'
      · exact hcn h'

theorem ours_dset {es : List (Str × Item)} (hd : DictOK es) (ho : ∀ e ∈ es, Spec.Ours e) {n : Str}
    (hn : Spec.LogName n) : ∀ e ∈ dset es n Item.file, Spec.Ours e := by
  intro e he
  have hg := dget_of_mem (hd.dset n Item.file) (k := e.1) (v := e.2) he
  rw [dget_dset] at hg
  by_cases hne : n = e.1
  · rw [if_pos hne] at hg
    exact Or.inl ⟨hne ▸ hn, (Option.some.inj hg).symm⟩
  · rw [if_neg hne] at hg
    exact ho e (dget_mem hg)

theorem ready_touch {es : List (Str × Item)} (h : Spec.Ready es) {n : Str} (hn : Spec.LogName n) :
    touch n (.dir es) = (.ok (), .dir (dset es n .file)) ∧ Spec.Ready (dset es n .file) := by
  have hcn : n ≠ cacheName := fun e => cache_not_log (e ▸ hn)
  refine ⟨touch_ours h.ours hn, h.names.dset _ _, ours_dset h.names h.ours hn, ?_⟩
  obtain ⟨names, hm⟩ := h.cache
  refine ⟨names, ?_⟩
  apply dget_mem
  rw [dget_dset]
  exact (if_neg hcn).trans (dget_of_mem h.names hm)

theorem ready_cache {es : List (Str × Item)} (h : Spec.Ready es) (m : Str) :
    ∃ es', cacheEvaluation m (.dir es) = (.ok (), .dir es') ∧ Spec.Ready es' := by
  obtain ⟨names, hm⟩ := h.cache
  have hg : dget es cacheName = some (.folder names) := dget_of_mem h.names hm
  refine ⟨dset es cacheName (.folder (names ++ [m])), ?_, ?_⟩
  · unfold cacheEvaluation
    dsimp only
    rw [hg]
  · refine ⟨h.names.dset _ _, ?_, ?_⟩
    · intro e he
      have hg' := dget_of_mem (h.names.dset cacheName (Item.folder (names ++ [m])))
        (k := e.1) (v := e.2) he
      rw [dget_dset] at hg'
      by_cases hne : cacheName = e.1
      · rw [if_pos hne] at hg'
        exact Or.inr ⟨hne.symm, _, (Option.some.inj hg').symm⟩
      · rw [if_neg hne] at hg'
        exact h.ours e (dget_mem hg')
    · exact ⟨_, dget_mem (by rw [dget_dset]; exact if_pos rfl)⟩

theorem ready_writes : ∀ (ms : List Str) (es : List (Str × Item)), Spec.Ready es →
    ∃ es', fitWrites ms (.dir es) = (ms, .dir es') ∧ Spec.Ready es' := by
  intro ms
  induction ms with
  | nil => intro es h; exact ⟨es, rfl, h⟩
  | cons m ms ih =>
    intro es h
    obtain ⟨es1, h1, r1⟩ := ready_cache h m
    obtain ⟨h2, r2⟩ := ready_touch r1 (n := evaluationsLog)
      ⟨['e', 'v', 'a', 'l', 'u', 'a', 't', 'i', 'o', 'n', 's'], rfl⟩
    obtain ⟨es3, h3, r3⟩ := ih _ r2
    refine ⟨es3, ?_, r3⟩
    unfold fitWrites
    rw [h1]
    dsimp only
    rw [h2]
    dsimp only
    rw [h3]

theorem ready_fit (store : Store) (ms : List Str) (es : List (Str × Item)) (h : Spec.Ready es) :
    ∃ es', (Spec.Ready es' ∧ fitWrites ms (.dir (dset es memoryLog .file)) = (ms, .dir es')) ∧
      fitFiles store ms (.dir es) =
        match fitCleanup store (.dir es') with
        | (.error e, p) => (.error e, p)
        | (.ok _, p) => (.ok ms, p) := by
  obtain ⟨h1, r1⟩ := ready_touch h (n := memoryLog) ⟨['m', 'e', 'm', 'o', 'r', 'y'], rfl⟩
  obtain ⟨es2, h2, r2⟩ := ready_writes ms _ r1
  refine ⟨es2, ⟨r2, h2⟩, ?_⟩
  unfold fitFiles
  rw [h1]
  dsimp only
  rw [h2]
  rfl

theorem init_ready {a : InitArgs} {p p1 : Place} {i : Instance} (h : gamaInit a p = (.ok i, p1)) :
    ∃ es, p1 = .dir es ∧ Spec.Ready es := by
  unfold gamaInit at h
  split at h
  · have hcase : Spec.Usable p ∨ ∃ e', openDirectory p = .error e' := by
      unfold Spec.Usable
      cases p with
      | missing b => cases b <;> simp [openDirectory]
      | regular => simp [openDirectory]
      | dir es => cases es <;> simp [openDirectory]
    rcases hcase with hu | ⟨e', he'⟩
    · rw [open_usable hu] at h
      dsimp only at h
      rw [touch_first] at h
      dsimp only at h
      by_cases hr : refused a = true
      · rw [if_pos hr] at h
        split at h <;> cases h
      · rw [if_neg hr] at h
        cases ht : a.maxTotalTime with
        | none => rw [ht] at h; cases h
        | some t =>
          rw [ht] at h
          dsimp only at h
          cases hev : maxEvalTime (some t) a.maxEvalTime with
          | error e => rw [hev] at h; cases h
          | ok ev =>
            rw [hev] at h
            dsimp only at h
            unfold initRest at h
            cases hs : a.scoringError with
            | some e => rw [hs] at h; cases h
            | none =>
              rw [hs] at h
              dsimp only at h
              cases hc : a.spaceError with
              | some e => rw [hc] at h; cases h
              | none =>
                rw [hc] at h
                dsimp only at h
                cases hl : resolveLength a with
                | error e => rw [hl] at h; cases h
                | ok len =>
                  rw [hl] at h
                  cases h
                  refine ⟨_, rfl, ?_⟩
                  have h1 : Spec.LogName gamaLog := ⟨['g', 'a', 'm', 'a'], rfl⟩
                  have h2 : Spec.LogName evaluationsLog :=
                    ⟨['e', 'v', 'a', 'l', 'u', 'a', 't', 'i', 'o', 'n', 's'], rfl⟩
                  cases a.logs
                  · refine ⟨?_, ?_, ⟨[], ?_⟩⟩
                    · unfold DictOK; decide
                    · intro x hx
                      have hx' : x ∈ [(cacheName, Item.folder []), (evaluationsLog, Item.file)] := hx
                      simp only [List.mem_cons, List.not_mem_nil, or_false] at hx'
                      rcases hx' with rfl | rfl
                      · exact Or.inr ⟨rfl, [], rfl⟩
                      · exact Or.inl ⟨h2, rfl⟩
                    · decide
                  · refine ⟨?_, ?_, ⟨[], ?_⟩⟩
                    · unfold DictOK; decide
                    · intro x hx
                      have hx' : x ∈ [(gamaLog, Item.file), (cacheName, Item.folder []),
                        (evaluationsLog, Item.file)] := hx
                      simp only [List.mem_cons, List.not_mem_nil, or_false] at hx'
                      rcases hx' with rfl | rfl | rfl
                      · exact Or.inl ⟨h1, rfl⟩
                      · exact Or.inr ⟨rfl, [], rfl⟩
                      · exact Or.inl ⟨h2, rfl⟩
                    · decide
    · rw [he'] at h; cases h
  · cases h

/-- The directory has the log files `logs`, and `models` in the cache. -/
def Has (es : List (Str × Item)) (logs models : List Str) : Prop :=
  (∀ n ∈ logs, dget es n = some .file) ∧ dget es cacheName = some (.folder models)

theorem has_touch {es : List (Str × Item)} {logs models : List Str} (h : Has es logs models) {n : Str}
    (hn : n ≠ cacheName) : Has (dset es n .file) (n :: logs) models := by
  refine ⟨fun m hm => ?_, ?_⟩
  · rw [dget_dset]
    by_cases e : n = m
    · rw [if_pos e]
    · rw [if_neg e]
      rcases List.mem_cons.1 hm with hm | hm
      · exact absurd hm.symm e
      · exact h.1 m hm
  · rw [dget_dset, if_neg hn]; exact h.2

theorem has_cache {es : List (Str × Item)} {logs models : List Str} (h : Has es logs models)
    (hl : ∀ n ∈ logs, n ≠ cacheName) (m : Str) :
    cacheEvaluation m (.dir es) = (.ok (), .dir (dset es cacheName (.folder (models ++ [m])))) ∧
    Has (dset es cacheName (.folder (models ++ [m]))) logs (models ++ [m]) := by
  refine ⟨?_, fun n hn => ?_, ?_⟩
  · unfold cacheEvaluation
    dsimp only
    rw [h.2]
  · rw [dget_dset, if_neg (fun e => hl n hn e.symm)]; exact h.1 n hn
  · rw [dget_dset, if_pos rfl]

theorem has_writes : ∀ (ms : List Str) (es : List (Str × Item)) (logs models : List Str), Spec.Ready es →
    Has es logs models → (∀ n ∈ logs, n ≠ cacheName) →
    ∃ es', fitWrites ms (.dir es) = (ms, .dir es') ∧ Has es' logs (models ++ ms) := by
  intro ms
  induction ms with
  | nil => intro es logs models _ h _; exact ⟨es, rfl, by rw [List.append_nil]; exact h⟩
  | cons m ms ih =>
    intro es logs models hr h hl
    obtain ⟨es1, h1, r1⟩ := ready_cache hr m
    obtain ⟨c1, c2⟩ := has_cache h hl m
    rw [c1] at h1
    cases h1
    obtain ⟨h2, r2⟩ := ready_touch r1 (n := evaluationsLog)
      ⟨['e', 'v', 'a', 'l', 'u', 'a', 't', 'i', 'o', 'n', 's'], rfl⟩
    have t := has_touch c2 (n := evaluationsLog) (by decide)
    obtain ⟨es3, h3, r3⟩ := ih _ logs (models ++ [m]) r2 ⟨fun n hn => t.1 n (List.mem_cons_of_mem _ hn), t.2⟩ hl
    refine ⟨es3, ?_, by rw [List.append_assoc] at r3; exact r3⟩
    unfold fitWrites
    rw [c1]
    dsimp only
    rw [h2]
    dsimp only
    rw [h3]

/-- A new instance has made its cache and its logs. -/
theorem init_has {a : InitArgs} {p p1 : Place} {i : Instance} (h : gamaInit a p = (.ok i, p1)) :
    ∃ es, p1 = .dir es ∧ Has es (evaluationsLog :: if a.logs then [gamaLog] else []) [] := by
  unfold gamaInit at h
  split at h
  · have hcase : Spec.Usable p ∨ ∃ e', openDirectory p = .error e' := by
      unfold Spec.Usable
      cases p with
      | missing b => cases b <;> simp [openDirectory]
      | regular => simp [openDirectory]
      | dir es => cases es <;> simp [openDirectory]
    rcases hcase with hu | ⟨e', he'⟩
    · rw [open_usable hu] at h
      dsimp only at h
      rw [touch_first] at h
      dsimp only at h
      by_cases hr : refused a = true
      · rw [if_pos hr] at h
        split at h <;> cases h
      · rw [if_neg hr] at h
        cases ht : a.maxTotalTime with
        | none => rw [ht] at h; cases h
        | some t =>
          rw [ht] at h
          dsimp only at h
          cases hev : maxEvalTime (some t) a.maxEvalTime with
          | error e => rw [hev] at h; cases h
          | ok ev =>
            rw [hev] at h
            dsimp only at h
            unfold initRest at h
            cases hs : a.scoringError with
            | some e => rw [hs] at h; cases h
            | none =>
              rw [hs] at h
              dsimp only at h
              cases hc : a.spaceError with
              | some e => rw [hc] at h; cases h
              | none =>
                rw [hc] at h
                dsimp only at h
                cases hl : resolveLength a with
                | error e => rw [hl] at h; cases h
                | ok len =>
                  rw [hl] at h
                  cases h
                  refine ⟨_, rfl, ?_⟩
                  cases a.logs
                  · refine ⟨?_, by decide⟩
                    decide
                  · refine ⟨?_, by decide⟩
                    decide
    · rw [he'] at h; cases h
  · cases h

/-- C67 for a whole fit of a new instance: it stores all models it is asked to, and then keeps what
`store` says: all logs or none, all models stored or none. -/
theorem C67_fit (a : InitArgs) (p p1 : Place) (i : Instance) (h : gamaInit a p = (.ok i, p1))
    (store : Store) (hs : store ≠ .other) (ms : List Str) :
    ∃ p2, fitFiles store ms p1 = (.ok ms, p2) ∧
      (store = .nothing → p2 = .missing true) ∧
      (store ≠ .nothing → ∃ es, p2 = .dir es ∧
        ((∃ e ∈ es, Spec.LogName e.1) ↔ store = .logs ∨ store = .all) ∧
        ((∃ e ∈ es, e.1 = ['c', 'a', 'c', 'h', 'e']) ↔ store = .models ∨ store = .all) ∧
        (store = .logs ∨ store = .all → (a.logs = true → ("gama.log".toList, .file) ∈ es) ∧
          ("evaluations.log".toList, .file) ∈ es ∧ ("memory.log".toList, .file) ∈ es) ∧
        (store = .models ∨ store = .all → ("cache".toList, .folder ms) ∈ es)) := by
  obtain ⟨es, rfl, hr⟩ := init_ready h
  obtain ⟨es0, e0, hh⟩ := init_has h
  cases e0
  obtain ⟨es', ⟨hr', hwr⟩, hf⟩ := ready_fit store ms es hr
  obtain ⟨p2, hc, h1, h2⟩ := C67_kept store hs es' hr'.names hr'.ours
  -- what the fit writes
  have hw : Has es' (memoryLog :: evaluationsLog :: if a.logs then [gamaLog] else []) ms := by
    obtain ⟨t1, r1⟩ := ready_touch hr (n := memoryLog) ⟨['m', 'e', 'm', 'o', 'r', 'y'], rfl⟩
    obtain ⟨es2, w1, w2⟩ := has_writes ms _ _ _ r1 (has_touch hh (n := memoryLog) (by decide)) (by
      cases a.logs <;> decide)
    rw [hwr] at w1
    cases w1
    exact w2
  rw [hc] at hf
  refine ⟨p2, hf, h1, ?_⟩
  intro hne
  obtain ⟨es2, rfl, hm⟩ := h2 hne
  have hlog : ∀ n, Spec.LogName n → dget es' n = some .file → store = .logs ∨ store = .all → (n, Item.file) ∈ es2 :=
    fun n hn hg hst => (hm _).2 ⟨dget_mem hg, Or.inl ⟨hn, hst⟩⟩
  have l1 : Spec.LogName memoryLog := ⟨['m', 'e', 'm', 'o', 'r', 'y'], rfl⟩
  have l2 : Spec.LogName evaluationsLog := ⟨['e', 'v', 'a', 'l', 'u', 'a', 't', 'i', 'o', 'n', 's'], rfl⟩
  have l3 : Spec.LogName gamaLog := ⟨['g', 'a', 'm', 'a'], rfl⟩
  refine ⟨es2, rfl, ⟨?_, fun hst => ?_⟩, ⟨?_, fun hst => ?_⟩, fun hst => ⟨fun hl => ?_, ?_, ?_⟩, fun hst => ?_⟩
  · rintro ⟨e, he, hl⟩
    rcases ((hm e).1 he).2 with ⟨_, h⟩ | ⟨h, _⟩
    · exact h
    · exfalso; rw [h] at hl; exact cache_not_log hl
  · exact ⟨_, hlog memoryLog l1 (hw.1 _ (List.mem_cons_self ..)) hst, l1⟩
  · rintro ⟨e, he, hl⟩
    rcases ((hm e).1 he).2 with ⟨h, _⟩ | ⟨_, h⟩
    · exfalso; rw [hl] at h; exact cache_not_log h
    · exact h
  · exact ⟨_, (hm _).2 ⟨dget_mem hw.2, Or.inr ⟨rfl, hst⟩⟩, rfl⟩
  · exact hlog gamaLog l3 (hw.1 _ (by rw [hl]; exact by simp)) hst
  · exact hlog evaluationsLog l2 (hw.1 _ (by simp)) hst
  · exact hlog memoryLog l1 (hw.1 _ (List.mem_cons_self ..)) hst
  · exact (hm _).2 ⟨dget_mem hw.2, Or.inr ⟨rfl, hst⟩⟩

/-- C89 with 'all' or 'models'. -/
theorem C89_partial (a : InitArgs) (p p1 p2 : Place) (i : Instance) (store : Store)
    (m1 m2 s1 : List Str) (hs : store = .all ∨ store = .models) (h : gamaInit a p = (.ok i, p1))
    (hf : fitFiles store m1 p1 = (.ok s1, p2)) : ∃ p3, fitFiles store m2 p2 = (.ok m2, p3) := by
  obtain ⟨es, rfl, hr⟩ := init_ready h
  obtain ⟨es', ⟨hr', -⟩, hf'⟩ := ready_fit store m1 es hr
  have hso : store ≠ .other := by rcases hs with rfl | rfl <;> simp
  have hsn : store ≠ .nothing := by rcases hs with rfl | rfl <;> simp
  obtain ⟨q, hc, _, h2⟩ := C67_kept store hso es' hr'.names hr'.ours
  rw [hc] at hf'
  dsimp only at hf'
  rw [hf] at hf'
  injection hf' with e1 e2
  obtain ⟨es2, hq, hm⟩ := h2 hsn
  rw [hq] at e2
  subst e2
  have hcd : DictOK es2 := by
    rcases hs with rfl | rfl
    · have : Place.dir es' = Place.dir es2 := by rw [← hq]; exact congrArg Prod.snd hc
      cases this
      exact hr'.names
    · have h3 := cleanup_logs (tidy_of_ours hr'.names hr'.ours)
      have h4 : fitCleanup .models (.dir es') = cleanup .logs (.dir es') := rfl
      rw [h4, h3, hq] at hc
      injection hc with _ h5
      injection h5 with h6
      rw [← h6]
      exact dictOK_filter hr'.names _
  have hr2 : Spec.Ready es2 := by
    refine ⟨hcd, fun e he => hr'.ours e ((hm e).1 he).1, ?_⟩
    obtain ⟨names, hin⟩ := hr'.cache
    exact ⟨names, (hm _).2 ⟨hin, Or.inr ⟨rfl, hs.symm⟩⟩⟩
  obtain ⟨es3, ⟨hr3, -⟩, hf3⟩ := ready_fit store m2 es2 hr2
  obtain ⟨q3, hc3, _⟩ := C67_kept store hso es3 hr3.names hr3.ours
  rw [hc3] at hf3
  exact ⟨q3, hf3⟩

/-- A first fit that keeps its models, and what the second one finds. -/
example : gamaInit sampleArgs (.missing true) = (.ok ⟨2, 3600, 60, none, 3⟩,
      .dir [(gamaLog, .file), (cacheName, .folder []), (evaluationsLog, .file)]) ∧
    fitFiles .models [['m']] (.dir [(gamaLog, .file), (cacheName, .folder []), (evaluationsLog, .file)]) =
      (.ok [['m']], .dir [(cacheName, .folder [['m']])]) := by decide

/-- With 'nothing' the directory is gone after the first fit, so that a second one fails when it
wants to write the memory log. -/
theorem C89_false : ¬ C89_claim := by
  intro h
  obtain ⟨p3, h3⟩ := h { sampleArgs with logs := false } (.missing true)
    (.dir [(cacheName, .folder []), (evaluationsLog, .file)]) (.missing true)
    ⟨2, 3600, 60, none, 3⟩ .nothing [] [] [] (by decide) (by decide) (by decide)
  cases h3

/-- With 'logs' a second fit does not fail, but stores none of its models, whatever they are. -/
theorem C89_logs (a : InitArgs) (p p1 p2 : Place) (i : Instance) (m1 m2 s1 : List Str)
    (h : gamaInit a p = (.ok i, p1)) (hf : fitFiles .logs m1 p1 = (.ok s1, p2)) :
    ∃ p3, fitFiles .logs m2 p2 = (.ok [], p3) := by
  obtain ⟨es, rfl, hr⟩ := init_ready h
  obtain ⟨es', ⟨hr', -⟩, hf'⟩ := ready_fit .logs m1 es hr
  have h4 : fitCleanup .logs (.dir es') = cleanup .evaluations (.dir es') := rfl
  rw [h4, cleanup_evaluations (tidy_of_ours hr'.names hr'.ours), hf] at hf'
  injection hf' with e1 e2
  subst e2
  -- a directory without cache
  have writes : ∀ (ms : List Str) (ds : List (Str × Item)), DictOK ds → (∀ e ∈ ds, Spec.Ours e) →
      dget ds cacheName = none → ∃ ds', fitWrites ms (.dir ds) = ([], .dir ds') ∧ DictOK ds' ∧
        (∀ e ∈ ds', Spec.Ours e) ∧ dget ds' cacheName = none := by
    intro ms
    induction ms with
    | nil => intro ds h1 h2 h3; exact ⟨ds, rfl, h1, h2, h3⟩
    | cons m ms ih =>
      intro ds h1 h2 h3
      have hc : cacheEvaluation m (.dir ds) = (.error .fileNotFound, .dir ds) := by
        unfold cacheEvaluation
        dsimp only
        rw [h3]
      have hn : Spec.LogName evaluationsLog :=
        ⟨['e', 'v', 'a', 'l', 'u', 'a', 't', 'i', 'o', 'n', 's'], rfl⟩
      have hto := touch_ours h2 hn
      obtain ⟨ds', g1, g2⟩ := ih (dset ds evaluationsLog .file) (h1.dset _ _) (ours_dset h1 h2 hn)
        (by rw [dget_dset, if_neg (by decide)]; exact h3)
      refine ⟨ds', ?_, g2⟩
      unfold fitWrites
      rw [hc]
      dsimp only
      rw [hto]
      exact g1
  have hd0 := dictOK_filter hr'.names fun e : Str × Item => decide (e.1 ≠ cacheName)
  have ho0 : ∀ e ∈ es'.filter fun e : Str × Item => decide (e.1 ≠ cacheName), Spec.Ours e :=
    fun e he => hr'.ours e (List.mem_filter.1 he).1
  have hn0 : dget (es'.filter fun e : Str × Item => decide (e.1 ≠ cacheName)) cacheName = none := by
    rw [dget_eq_none]
    intro hin
    obtain ⟨e, he, hen⟩ := List.mem_map.1 hin
    exact of_decide_eq_true (List.mem_filter.1 he).2 hen
  generalize es'.filter (fun e : Str × Item => decide (e.1 ≠ cacheName)) = ds at hd0 ho0 hn0
  have hn : Spec.LogName memoryLog := ⟨['m', 'e', 'm', 'o', 'r', 'y'], rfl⟩
  have hto := touch_ours ho0 hn
  obtain ⟨ds', g1, g2, g3, g4⟩ := writes m2 (dset ds memoryLog .file) (hd0.dset _ _)
    (ours_dset hd0 ho0 hn) (by rw [dget_dset, if_neg (by decide)]; exact hn0)
  refine ⟨.dir (ds'.filter fun e => decide (e.1 ≠ cacheName)), ?_⟩
  unfold fitFiles
  rw [hto]
  dsimp only
  rw [g1]
  dsimp only
  rw [show fitCleanup .logs (.dir ds') = cleanup .evaluations (.dir ds') from rfl,
    cleanup_evaluations (tidy_of_ours g2 g3)]

/-! ### Several instances -/

/-- What an instance was constructed with, by the events before. -/
def Spec.builtWith (i : Nat) : List GamaEvent → Option (Int × Option Nat)
  | [] => none
  | .construct j n m :: es =>
    match Spec.builtWith i es with
    | some r => some r
    | none => if j = i then some (n, m) else none
  | .fit _ :: es => Spec.builtWith i es

/-- The full claim C68: each fit makes its evaluator with the workers and memory limit of the
instance. -/
def C68_claim : Prop :=
  ∀ (before after : List GamaEvent) (i : Nat) (w : Int) (m : Option Nat),
    Spec.builtWith i before = some (w, m) →
    ∃ used, (evaluatorRun none (before ++ .fit i :: after))[(before.filter fun e =>
        match e with | .fit _ => true | _ => false).length]? = some (i, some used) ∧
      used.workers = w ∧ used.memory = m

theorem evaluatorRun_at (d : Option EvaluatorArgs) (before after : List GamaEvent) (i : Nat) :
    (evaluatorRun d (before ++ .fit i :: after))[(before.filter fun e =>
        match e with | .fit _ => true | _ => false).length]? =
      some (i, (before.foldl (fun d e => match e with
        | .construct j n m => some ⟨n, m, j⟩
        | .fit _ => d) d)) := by
  induction before generalizing d with
  | nil => rfl
  | cons e before ih =>
    cases e with
    | construct j n m =>
      simp only [List.cons_append, evaluatorRun, List.foldl_cons]
      rw [List.filter_cons_of_neg (by simp)]
      exact ih _
    | fit j =>
      simp only [List.cons_append, evaluatorRun, List.foldl_cons]
      rw [List.filter_cons_of_pos (by simp)]
      simp only [List.length_cons, List.getElem?_cons_succ]
      exact ih _

/-- C68 for the instance constructed last. -/
theorem C68_partial (before between after : List GamaEvent) (i : Nat) (w : Int) (m : Option Nat)
    (hb : ∀ e ∈ between, ∃ j, e = .fit j) :
    (evaluatorRun none ((before ++ .construct i w m :: between) ++ .fit i :: after))[
        ((before ++ .construct i w m :: between).filter fun e =>
          match e with | .fit _ => true | _ => false).length]? = some (i, some ⟨w, m, i⟩) := by
  rw [evaluatorRun_at, List.foldl_append, List.foldl_cons]
  have : ∀ (l : List GamaEvent) (d : Option EvaluatorArgs), (∀ e ∈ l, ∃ j, e = .fit j) →
      l.foldl (fun d e => match e with
        | .construct j n m => some ⟨n, m, j⟩
        | .fit _ => d) d = d := by
    intro l
    induction l with
    | nil => intro d _; rfl
    | cons e l ih =>
      intro d h
      obtain ⟨j, rfl⟩ := h e List.mem_cons_self
      exact ih d fun e he => h e (List.mem_cons_of_mem _ he)
  rw [this between _ hb]

/-- Two instances, of which the second is fitted twice. -/
example : evaluatorRun none [.construct 0 1 none, .construct 1 8 (some 100), .fit 1, .fit 1] =
    [(1, some ⟨8, some 100, 1⟩), (1, some ⟨8, some 100, 1⟩)] := by decide

/-- The evaluator of the first instance has the settings of the second. -/
theorem C68_false : ¬ C68_claim := by
  intro h
  obtain ⟨used, h1, h2, _⟩ := h [.construct 0 1 none, .construct 1 8 none] [] 0 1 none (by decide)
  have : (evaluatorRun none ([.construct 0 1 none, .construct 1 8 none] ++ .fit 0 :: []))[
      ([GamaEvent.construct 0 1 none, .construct 1 8 none].filter fun e =>
        match e with | .fit _ => true | _ => false).length]? = some (0, some ⟨8, none, 1⟩) := by decide
  rw [this] at h1
  cases h1
  revert h2
  decide

/-! ### Metrics -/

section
variable {α M : Type}

/-- The full claim C90: the metrics used are the ones listed, whatever they are listed in. -/
def C90_claim : Prop :=
  ∀ (α M : Type) (valid : α → Bool) (conv : α → Except Exn M) (l : List α) (s : Iterable' α) (ms : List M),
    s = .many l ∨ s = .once l → (∀ x ∈ l, valid x = true) → l.mapM conv = .ok ms →
    (scoringToMetric valid conv s).1 = .ok ms

/-- C90 for lists, tuples and sets; the result is the same when they are looked at again. -/
theorem C90_partial (valid : α → Bool) (conv : α → Except Exn M) (l : List α)
    (hv : ∀ x ∈ l, valid x = true) :
    scoringToMetric valid conv (.many l) = (l.mapM conv, .many l) := by
  unfold scoringToMetric
  exact if_pos (List.all_eq_true.2 hv)

/-- C90: something else than metrics and names is refused. -/
theorem C90_refused (valid : α → Bool) (conv : α → Except Exn M) (l : List α) (s : Iterable' α)
    (hs : s = .many l ∨ s = .once l) (x : α) (hx : x ∈ l) (hv : valid x = false) :
    (scoringToMetric valid conv s).1 = .error .typeError := by
  have hn : ¬ (l.all valid = true) := by
    intro h
    rw [List.all_eq_true.1 h x hx] at hv
    cases hv
  unfold scoringToMetric
  rcases hs with rfl | rfl <;> exact congrArg Prod.fst (if_neg hn)

/-- With an iterator no metric is used, whatever it lists. -/
theorem C90_iterator (valid : α → Bool) (conv : α → Except Exn M) (l : List α)
    (hv : ∀ x ∈ l, valid x = true) : (scoringToMetric valid conv (.once l)).1 = .ok [] := by
  unfold scoringToMetric
  exact congrArg Prod.fst (if_pos (List.all_eq_true.2 hv))

end

theorem C90_false : ¬ C90_claim := by
  intro h
  have := h Unit Unit (fun _ => true) (fun u => .ok u) [()] (.once [()]) [()] (Or.inr rfl)
    (fun _ _ => rfl) rfl
  rw [C90_iterator _ _ _ (fun _ _ => rfl)] at this
  cases this

/-! ### Cases of the theorems above -/

/-- `C64_refused`, `C64_untouched`, `C64_accepted`. -/
example : gamaInit { sampleArgs with nJobs := some 0 } (.dir []) = (.error .valueError, .missing true) ∧
    gamaInit sampleArgs (.dir [(['n'], .file)]) = (.error .valueError, .dir [(['n'], .file)]) :=
  ⟨C64_refused _ _ (.inr rfl) rfl (Or.inr (Or.inr (Or.inr ⟨0, rfl, by omega, by omega⟩))), C64_untouched _ _ (by simp)⟩

example : ∃ i es, gamaInit { sampleArgs with nJobs := some (-1) } (.missing true) = (.ok i, .dir es) ∧ i.nJobs = 4 :=
  let ⟨i, es, h, hn, _⟩ := C64_accepted { sampleArgs with nJobs := some (-1) } (.missing true) (.inl rfl)
    ⟨rfl, ⟨3600, rfl, by omega⟩, fun t h => by cases h; omega, rfl, rfl, Or.inl rfl⟩ (-1) rfl (.inl rfl) (by decide)
  ⟨i, es, h, hn⟩

/-- `C65_partial`: half of the four cores when no number is given. -/
example : ∃ i p', gamaInit { sampleArgs with nJobs := none } (.missing true) = (.ok i, p') ∧ i.nJobs = 2 :=
  let ⟨i, p', h, hn, _⟩ := C65_partial { sampleArgs with nJobs := none } (.missing true) (.inl rfl)
    ⟨rfl, ⟨3600, rfl, by omega⟩, fun t h => by cases h; omega, rfl, rfl, Or.inl rfl⟩ rfl (by decide)
  ⟨i, p', h, hn⟩

/-- `C65_given`: all of the cores. -/
example : ∃ i p', gamaInit { sampleArgs with nJobs := some (-1) } (.missing true) = (.ok i, p') ∧ i.nJobs = 4 :=
  (C65_given { sampleArgs with nJobs := some (-1) } (.missing true) (.inl rfl)
    ⟨rfl, ⟨3600, rfl, by omega⟩, fun t h => by cases h; omega, rfl, rfl, Or.inl rfl⟩).1 rfl (by decide)

/-- `C88_partial`: what a refused constructor leaves. -/
example (p' : Place) (h : gamaInit { sampleArgs with nJobs := some 0 } (.dir []) = (.error .valueError, p')) :
    p' = .dir [] ∨ p' = .missing true :=
  C88_partial _ _ _ _ rfl rfl (.inl rfl) h

/-- `C66_timeout`, `C66_interrupt`, `C66_order`: the second of three callbacks. -/
example : onWait (fun n : Nat => if n = 1 then .timeout else .returns) (fun _ => false) [0, 1, 2] true =
      ([0, 1], .error .timeout) ∧
    onWait (fun n : Nat => if n = 1 then .interrupt else .raises) (fun _ => false) [0, 1, 2] true =
      ([0, 1], .error .keyboardInterrupt) :=
  ⟨C66_timeout _ _ [0] [2] 1 (by decide) (.inl rfl), C66_interrupt _ _ [0] [2] 1 (by decide) rfl⟩

/-- `C67_kept`, `C67_foreign`. -/
example : ∃ p, fitCleanup .logs (.dir [(gamaLog, .file), (cacheName, .folder [['m']])]) = (.ok (), p) ∧
    ∃ es', p = .dir es' ∧ (gamaLog, .file) ∈ es' ∧ (cacheName, .folder [['m']]) ∉ es' := by
  obtain ⟨p, h, _, hk⟩ := C67_kept .logs nofun [(gamaLog, .file), (cacheName, .folder [['m']])]
    (by unfold DictOK; decide) (by
      intro e he
      simp only [List.mem_cons, List.not_mem_nil, or_false] at he
      rcases he with rfl | rfl
      · exact Or.inl ⟨⟨['g', 'a', 'm', 'a'], rfl⟩, rfl⟩
      · exact Or.inr ⟨rfl, _, rfl⟩)
  obtain ⟨es', hp, hm⟩ := hk nofun
  refine ⟨p, h, es', hp, (hm _).2 ⟨by simp, .inl ⟨⟨['g', 'a', 'm', 'a'], rfl⟩, .inl rfl⟩⟩, fun hc => ?_⟩
  rcases ((hm _).1 hc).2 with ⟨⟨stem, hl⟩, _⟩ | ⟨_, hs⟩
  · exact absurd (congrArg List.getLast? hl) (by rw [List.getLast?_append]; exact (by decide : ¬ some 'e' = some 'g'))
  · rcases hs with hs | hs <;> cases hs

example : ∃ r es', fitCleanup .nothing (.dir [(['n'], .file)]) = (r, .dir es') ∧ (['n'], Item.file) ∈ es' ∧
    r = .error .osError := by
  obtain ⟨r, es', h, he, hr⟩ := C67_foreign .nothing [(['n'], .file)]
    ⟨by unfold DictOK; decide, by simp, by simp⟩ (['n'], .file) (by simp)
    (fun ⟨stem, hl⟩ => absurd (congrArg List.getLast? hl) (by rw [List.getLast?_append]; exact (by decide : ¬ some 'n' = some 'g'))) (by decide)
  exact ⟨r, es', h, he, hr rfl⟩

/-- `C67_fit`, `C89_partial`, `C89_logs`: two fits that keep models, and two that keep logs. -/
example : ∃ p1 p2 p3, fitFiles .models [['m']] p1 = (.ok [['m']], p2) ∧ fitFiles .models [['k']] p2 = (.ok [['k']], p3) :=
  have h : gamaInit sampleArgs (.missing true) = (.ok ⟨2, 3600, 60, none, 3⟩,
      .dir [(gamaLog, .file), (cacheName, .folder []), (evaluationsLog, .file)]) := by decide
  let ⟨p2, h2, _⟩ := C67_fit _ _ _ _ h .models nofun [['m']]
  let ⟨p3, h3⟩ := C89_partial _ _ _ _ _ .models _ [['k']] _ (.inr rfl) h h2
  ⟨_, p2, p3, h2, h3⟩

example : ∃ p1 p2 p3, fitFiles .logs [['m']] p1 = (.ok [['m']], p2) ∧ fitFiles .logs [['k']] p2 = (.ok [], p3) :=
  have h : gamaInit sampleArgs (.missing true) = (.ok ⟨2, 3600, 60, none, 3⟩,
      .dir [(gamaLog, .file), (cacheName, .folder []), (evaluationsLog, .file)]) := by decide
  let ⟨p2, h2, _⟩ := C67_fit _ _ _ _ h .logs nofun [['m']]
  let ⟨p3, h3⟩ := C89_logs _ _ _ _ _ _ [['k']] _ h h2
  ⟨_, p2, p3, h2, h3⟩

/-- `C68_partial`: another instance made and fitted before. -/
example : (evaluatorRun none (([.construct 0 1 none, .fit 0] ++ .construct 1 8 (some 100) :: [.fit 0]) ++ .fit 1 :: []))[
    (2 : Nat)]? = some (1, some ⟨8, some 100, 1⟩) :=
  C68_partial [.construct 0 1 none, .fit 0] [.fit 0] [] 1 8 (some 100) (by simp)

/-- `C90_partial`, `C90_refused`, `C90_iterator`: names are valid, even ones convert. -/
example : scoringToMetric (fun _ => true) (fun n : Nat => if n % 2 = 0 then .ok n else .error .keyError) (.many [2, 4]) =
      (.ok [2, 4], .many [2, 4]) ∧
    (scoringToMetric (fun n => n != 3) (fun n : Nat => (.ok n : Except Exn Nat)) (.once [2, 3])).1 = .error .typeError ∧
    (scoringToMetric (fun _ => true) (fun n : Nat => (.ok n : Except Exn Nat)) (.once [2, 4])).1 = .ok [] :=
  ⟨C90_partial _ _ _ (by simp), C90_refused _ _ [2, 3] _ (.inr rfl) 3 (by simp) rfl, C90_iterator _ _ _ (by simp)⟩

end Gama
