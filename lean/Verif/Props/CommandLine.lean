import Verif.Model.CommandLine
import Verif.Props.Loading

/-! # C173–C175: how the command line is read -/

namespace Gama
open Spec

namespace Spec

/-- What a user can give on the command line, as documented by the help texts of `make_parser`.  Numbers come with their
spelling; `joined` means that the value is attached with `=`. -/
inductive Given
  | file (s : Str)
  | separator (joined : Bool) (s : Str)
  | target (joined : Bool) (s : Str)
  | outputFile (joined : Bool) (s : Str)
  | exportPython (joined : Bool) (s : Str)
  | mode (joined : Bool) (s : Str)
  | metric (joined : Bool) (s : Str)
  | long
  | timeLimit (joined : Bool) (s : Str) (n : Int)
  | evalTime (joined : Bool) (s : Str) (n : Int)
  | nJobs (joined : Bool) (s : Str) (n : Int)
  | outdir (joined : Bool) (s : Str)
  | verbose
  | dryRun

/-- An option and its value, as words. -/
def spelt (name : Str) (joined : Bool) (value : Str) : List Str :=
  if joined then [name ++ '=' :: value] else [name, value]

/-- The words of the command line. -/
def Given.words : Given → List Str
  | .file s => [s]
  | .separator j s => spelt ['-', 's', 'e', 'p'] j s
  | .target j s => spelt ['-', '-', 't', 'a', 'r', 'g', 'e', 't'] j s
  | .outputFile j s => spelt ['-', 'o'] j s
  | .exportPython j s => spelt ['-', 'p', 'y'] j s
  | .mode j s => spelt ['-', '-', 'm', 'o', 'd', 'e'] j s
  | .metric j s => spelt ['-', 'm'] j s
  | .long => [['-', '-', 'l', 'o', 'n', 'g']]
  | .timeLimit j s _ => spelt ['-', 't'] j s
  | .evalTime j s _ => spelt ['-', '-', 't', 'i', 'm', 'e', '_', 'p', 'i', 'p', 'e', 'l', 'i', 'n', 'e'] j s
  | .nJobs j s _ => spelt ['-', 'n'] j s
  | .outdir j s => spelt ['-', 'o', 'u', 't', 'd', 'i', 'r'] j s
  | .verbose => [['-', 'v']]
  | .dryRun => [['-', 'd', 'r', 'y']]

/-- What is meant by it. -/
def Given.set (a : CliArgs) : Given → CliArgs
  | .file s => { a with inputFile := s }
  | .separator _ s => { a with separator := some s }
  | .target _ s => { a with target := some s }
  | .outputFile _ s => { a with outputFile := s }
  | .exportPython _ s => { a with exportPython := some s }
  | .mode _ s => { a with mode := some s }
  | .metric _ s => { a with metric := some s }
  | .long => { a with preferShort := false }
  | .timeLimit _ _ n => { a with timeLimit := n }
  | .evalTime _ _ n => { a with evalTime := n }
  | .nJobs _ _ n => { a with nJobs := n }
  | .outdir _ s => { a with outdir := some s }
  | .verbose => { a with verbose := true }
  | .dryRun => { a with dryRun := true }

/-- The documented defaults: `gama_model.pkl`, 60 and 5 minutes, one job, short pipelines preferred. -/
def byDefault : CliArgs :=
  ⟨[], none, none, ['g', 'a', 'm', 'a', '_', 'm', 'o', 'd', 'e', 'l', '.', 'p', 'k', 'l'], none, none, none, true, 60, 5, 1,
    none, false, false⟩

/-- The number with these decimal digits. -/
def decimalValue (ds : Str) : Nat := ds.foldl (fun n c => 10 * n + (c.toNat - 48)) 0

/-- Decimal digits, at least one. -/
def Digits (ds : Str) : Prop := ds ≠ [] ∧ ∀ c ∈ ds, c.isDigit = true

/-- `s` is a decimal spelling of `n`. -/
def IsNumber (s : Str) (n : Int) : Prop :=
  ∃ ds, Digits ds ∧ ((s = ds ∧ n = (decimalValue ds : Int)) ∨ (s = '-' :: ds ∧ n = -(decimalValue ds : Int)))

/-- A word that does not begin with a dash, but for a dash alone and negative numbers. -/
def PlainWord (s : Str) : Prop :=
  s = ['-'] ∨ s.head? ≠ some '-' ∨ ∃ ds, Digits ds ∧ s = '-' :: ds

/-- A value is attached, or is a plain word. -/
def Tellable (joined : Bool) (s : Str) : Prop := joined = true ∨ PlainWord s

/-- Every value is attached or a plain word, and numbers are numbers. -/
def Given.Fine : Given → Prop
  | .file s => PlainWord s
  | .separator j s | .target j s | .outputFile j s | .exportPython j s | .mode j s | .metric j s | .outdir j s => Tellable j s
  | .timeLimit _ s n | .evalTime _ s n | .nJobs _ s n => IsNumber s n
  | .long | .verbose | .dryRun => True

/-- It is a file name. -/
def Given.isFile : Given → Bool
  | .file _ => true
  | _ => false

end Spec

/-! ### Words -/

theorem partitionEq_append {name v : Str} (h : '=' ∉ name) : partitionEq (name ++ '=' :: v) = (name, some v) := by
  induction name with
  | nil => simp [partitionEq]
  | cons c name ih =>
    simp only [List.mem_cons, not_or] at h
    simp [partitionEq, ih h.2, Ne.symm h.1]

theorem partitionEq_none {s : Str} (h : '=' ∉ s) : partitionEq s = (s, none) := by
  induction s with
  | nil => rfl
  | cons c s ih =>
    simp only [List.mem_cons, not_or] at h
    simp [partitionEq, ih h.2, Ne.symm h.1]

theorem names_no_eq : ∀ x ∈ optionStrings, '=' ∉ x.1 := by decide

theorem optionNamed_none_of {s : Str} (h : ∀ x ∈ optionStrings, x.1 ≠ s) : optionNamed s = none := by
  unfold optionNamed
  rw [List.find?_eq_none.2 (by simpa using h)]
  rfl

theorem optionNamed_mem {s : Str} {o : CliOpt} (h : optionNamed s = some o) : (s, o) ∈ optionStrings := by
  unfold optionNamed at h
  obtain ⟨x, hx, rfl⟩ := Option.map_eq_some_iff.1 h
  have h1 := List.find?_some hx
  have h2 := List.mem_of_find?_eq_some hx
  have h1 : x.1 = s := by simpa using h1
  rw [← h1]
  exact h2

/-- A value attached with `=`. -/
theorem parseOptional_joined {name : Str} {o : CliOpt} (h : optionNamed name = some o) (v : Str) :
    parseOptional (name ++ '=' :: v) = .ok (.option ⟨o, name, true, some v⟩) := by
  have hmem := optionNamed_mem h
  have heq := names_no_eq _ hmem
  have hhead : name.head? = some '-' ∧ 2 ≤ name.length := by
    revert hmem
    have : ∀ x ∈ optionStrings, x.1.head? = some '-' ∧ 2 ≤ x.1.length := by decide
    exact this _
  unfold parseOptional
  have h1 : (name ++ '=' :: v).head? = some '-' := by
    cases name with
    | nil => simp at hhead
    | cons c t => simpa using hhead.1
  have h2 : optionNamed (name ++ '=' :: v) = none := by
    refine optionNamed_none_of fun x hx e => names_no_eq x hx ?_
    rw [e]; simp
  have h3 : (name ++ '=' :: v).length ≠ 1 := by simp; omega
  rw [if_neg (by simpa using h1), h2]
  dsimp only
  unfold parseDashed
  rw [if_neg h3, partitionEq_append heq]
  dsimp only
  rw [h]

theorem parseOptional_name {name : Str} {o : CliOpt} (h : optionNamed name = some o) :
    parseOptional name = .ok (.option ⟨o, name, false, none⟩) := by
  have hmem := optionNamed_mem h
  have hhead : name.head? = some '-' := by
    have : ∀ x ∈ optionStrings, x.1.head? = some '-' := by decide
    exact this _ hmem
  unfold parseOptional
  rw [if_neg (by simpa using hhead), h]

theorem isDigit_ne {c d : Char} (hc : c.isDigit = true) (hd : d.isDigit = false) : c ≠ d := by
  rintro rfl
  rw [hc] at hd
  cases hd

theorem optionTuples_digit {d : Char} {ds : Str} (hd : d.isDigit = true) : optionTuples ('-' :: d :: ds) = [] := by
  have hne : ∀ e : Char, e.isDigit = false → d ≠ e := fun e he => isDigit_ne hd he
  have hne' : ∀ e : Char, e.isDigit = false → e ≠ d := fun e he => (isDigit_ne hd he).symm
  unfold optionTuples
  have h0 : startsWith ['-', '-'] ('-' :: d :: ds) = false := by
    simp [startsWith, afterPrefix, (hne' '-' (by decide))]
  rw [h0]
  simp only [Bool.false_eq_true, if_false]
  rw [List.filterMap_eq_nil_iff]
  intro x hx
  have h2 : ∀ x ∈ optionStrings, ∃ c t, x.1 = '-' :: c :: t ∧ c.isDigit = false := by
    have : ∀ x ∈ optionStrings, (match x.1 with
      | '-' :: c :: _ => !c.isDigit
      | _ => false) = true := by decide
    intro x hx
    have := this x hx
    split at this
    · rename_i c t e
      exact ⟨c, t, e, by simpa using this⟩
    · cases this
  obtain ⟨c, t, e, hc⟩ := h2 x hx
  rw [e, if_neg (by simp [hne' c hc]), if_neg (by simp [startsWith, afterPrefix, hne c hc])]

theorem dropWhile_all {s : Str} {p : Char → Bool} (h : ∀ c ∈ s, p c = true) : s.dropWhile p = [] := by
  induction s with
  | nil => rfl
  | cons c s ih =>
    rw [List.dropWhile_cons, h c (by simp), if_pos rfl]
    exact ih fun c hc => h c (by simp [hc])

theorem parseOptional_plain {s : Str} (h : PlainWord s) : parseOptional s = .ok (.arg s) := by
  unfold parseOptional
  rcases h with rfl | h | ⟨ds, ⟨hne, hds⟩, rfl⟩
  · decide
  · rw [if_pos h]
  · rw [if_neg (by simp)]
    obtain ⟨d, t, rfl⟩ := List.exists_cons_of_ne_nil hne
    have hd : d.isDigit = true := hds d (by simp)
    have h1 : optionNamed ('-' :: d :: t) = none := by
      refine optionNamed_none_of fun x hx e => ?_
      have : ∀ x ∈ optionStrings, (match x.1 with
        | '-' :: c :: _ => !c.isDigit
        | _ => false) = true := by decide
      have := this x hx
      rw [e] at this
      simp [hd] at this
    rw [h1]
    dsimp only
    unfold parseDashed
    have heq : '=' ∉ ('-' :: d :: t) := by
      intro hm
      rcases List.mem_cons.1 hm with e | hm
      · cases e
      · have := hds _ hm
        exact absurd this (by decide)
    rw [if_neg (by simp), partitionEq_none heq, optionTuples_digit hd]
    dsimp only
    have hlast : ((d :: t).getLast? = some '\n') ↔ False := by
      refine ⟨fun e => ?_, False.elim⟩
      have := hds _ (List.mem_of_getLast? e)
      exact absurd this (by decide)
    have hdrop : (d :: t).dropWhile Char.isDigit = [] := by
      exact dropWhile_all hds
    have hneg : negativeNumber ('-' :: d :: t) = true := by
      unfold negativeNumber
      simp only [hlast, if_false, hdrop]
      rfl
    rw [hneg]
    rfl

theorem plain_ne_dashes {s : Str} (h : PlainWord s) : s ≠ ['-', '-'] := by
  rintro rfl
  rcases h with h | h | ⟨ds, hds, h⟩
  · cases h
  · exact h rfl
  · cases h
    exact absurd (hds.2 '-' (by simp)) (by decide)

theorem classify_cons {s : Str} {t : Tok} {rest : List Str} {ts : List Tok} (hs : s ≠ ['-', '-'])
    (h : parseOptional s = .ok t) (hr : classify rest = .ok ts) : classify (s :: rest) = .ok (t :: ts) := by
  rw [classify, if_neg hs, h]
  dsimp only
  rw [hr]

/-! ### Numbers -/

theorem digitsFrom_digits : ∀ (ds : Str) (n : Nat), (∀ c ∈ ds, c.isDigit = true) →
    digitsFrom n ds = some (ds.foldl (fun n c => 10 * n + (c.toNat - 48)) n)
  | [], n, _ => rfl
  | c :: ds, n, h => by
    have hc := h c (by simp)
    have h_ : c ≠ '_' := isDigit_ne hc (by decide)
    have : digitsFrom n (c :: ds) = if c.isDigit then digitsFrom (10 * n + digitValue c) ds else none := by
      conv_lhs => unfold digitsFrom
      split
      · rename_i e; cases e
      · rename_i e; cases e; exact absurd rfl h_
      · rename_i e; cases e; rfl
    rw [this, hc, if_pos rfl, digitsFrom_digits ds _ fun c hc => h c (by simp [hc])]
    rfl

theorem natOf_digits {ds : Str} (h : Digits ds) : natOf ds = some (decimalValue ds) := by
  obtain ⟨c, t, rfl⟩ := List.exists_cons_of_ne_nil h.1
  rw [natOf, h.2 c (by simp), if_pos rfl, digitsFrom_digits _ _ fun c hc => h.2 c (by simp [hc])]
  simp [decimalValue, digitValue]

theorem digit_no_space {c : Char} (h : c.isDigit = true) : isCSpace c = false := by
  unfold isCSpace
  have h1 : c ≠ ' ' := isDigit_ne h (by decide)
  have h2 : 48 ≤ c.toNat := by
    simp [Char.isDigit] at h
    exact h.1
  simp [h1]
  omega

theorem trim_id {s : Str} (h1 : ∀ d, s.head? = some d → isCSpace d = false)
    (h2 : ∀ d, s.getLast? = some d → isCSpace d = false) :
    ((s.dropWhile isCSpace).reverse.dropWhile isCSpace).reverse = s := by
  have e1 : s.dropWhile isCSpace = s := by
    cases s with
    | nil => rfl
    | cons a t => rw [List.dropWhile_cons, h1 a rfl]; rfl
  rw [e1]
  have e2 : s.reverse.dropWhile isCSpace = s.reverse := by
    cases hr : s.reverse with
    | nil => rfl
    | cons a t =>
      have : s.getLast? = some a := by
        rw [← List.head?_reverse, hr]; rfl
      rw [List.dropWhile_cons, h2 a this]; rfl
  rw [e2, List.reverse_reverse]

theorem intOf_number {s : Str} {n : Int} (h : IsNumber s n) : intOf s = some n := by
  obtain ⟨ds, hds, h⟩ := h
  obtain ⟨c, t, rfl⟩ := List.exists_cons_of_ne_nil hds.1
  have hc := hds.2 c (by simp)
  have hlast : ∀ d, (c :: t).getLast? = some d → isCSpace d = false := fun d hd =>
    digit_no_space (hds.2 d (List.mem_of_getLast? hd))
  unfold intOf
  rcases h with ⟨rfl, rfl⟩ | ⟨rfl, rfl⟩
  · rw [trim_id (fun d hd => by cases hd; exact digit_no_space hc) hlast]
    have h1 : c ≠ '-' := isDigit_ne hc (by decide)
    have h2 : c ≠ '+' := isDigit_ne hc (by decide)
    split
    · rename_i e; cases e; exact absurd rfl h1
    · rename_i e; cases e; exact absurd rfl h2
    · rw [natOf_digits hds]; rfl
  · rw [trim_id (fun d hd => by cases hd; decide) (fun d hd => hlast d (by simpa using hd))]
    show Option.map _ (natOf (c :: t)) = _
    rw [natOf_digits hds]; rfl

theorem number_plain {s : Str} {n : Int} (h : IsNumber s n) : PlainWord s := by
  obtain ⟨ds, hds, h⟩ := h
  rcases h with ⟨rfl, -⟩ | ⟨rfl, -⟩
  · refine .inr (.inl ?_)
    obtain ⟨c, t, rfl⟩ := List.exists_cons_of_ne_nil hds.1
    have := isDigit_ne (hds.2 c (by simp)) (d := '-') (by decide)
    simpa using this
  · exact .inr (.inr ⟨ds, hds, rfl⟩)

/-! ### What is read -/

/-- The option word of a given thing, and the word after it. -/
def optionTok (o : CliOpt) (name : Str) (joined : Bool) (v : Str) : List Tok :=
  if joined then [.option ⟨o, name, true, some v⟩] else [.option ⟨o, name, false, none⟩, .arg v]

theorem classify_spelt {name : Str} {o : CliOpt} (h : optionNamed name = some o) {j : Bool} {v : Str}
    (hv : Tellable j v) {rest : List Str} {ts : List Tok} (hr : classify rest = .ok ts) :
    classify (spelt name j v ++ rest) = .ok (optionTok o name j v ++ ts) := by
  have hd : name ≠ ['-', '-'] := by
    rintro rfl
    rw [show optionNamed ['-', '-'] = none by decide] at h
    cases h
  have hd' : name ++ '=' :: v ≠ ['-', '-'] := by
    intro e
    have : '=' ∈ (['-', '-'] : Str) := by rw [← e]; simp
    exact absurd this (by decide)
  cases j with
  | true => exact classify_cons hd' (parseOptional_joined h v) hr
  | false =>
    rcases hv with hv | hv
    · cases hv
    · exact classify_cons hd (parseOptional_name h) (classify_cons (plain_ne_dashes hv) (parseOptional_plain hv) hr)

theorem classify_flag {name : Str} {o : CliOpt} (h : optionNamed name = some o) {rest : List Str} {ts : List Tok}
    (hr : classify rest = .ok ts) : classify ([name] ++ rest) = .ok ([.option ⟨o, name, false, none⟩] ++ ts) := by
  have hd : name ≠ ['-', '-'] := by
    rintro rfl
    rw [show optionNamed ['-', '-'] = none by decide] at h
    cases h
  exact classify_cons hd (parseOptional_name h) hr

theorem argLoop_spelt {o : CliOpt} (ho : o.takesArg = true) (name : Str) {j : Bool} {v : Str} {p : Parsing} {a : CliArgs}
    (ha : takeAction p.args o (some v) = .ok a) (ts : List Tok) :
    argLoop (optionTok o name j v ++ ts) p = argLoop ts { p with args := a } := by
  cases j with
  | true =>
    have hs : settle ⟨o, name, true, some v⟩ = .ok ⟨[(o, some v)], [], none⟩ := by
      simp [settle, settleAttached, ho]
    show argLoop (.option ⟨o, name, true, some v⟩ :: ts) p = _
    rw [argLoop, hs]
    simp [takeActions, ha]
  | false =>
    have hs : settle ⟨o, name, false, none⟩ = .ok ⟨[], [], some o⟩ := by
      simp [settle, settlePlain, ho]
    show argLoop (.option ⟨o, name, false, none⟩ :: .arg v :: ts) p = _
    rw [argLoop, hs]
    simp [takeActions, ha]

theorem argLoop_flag {o : CliOpt} (ho : o.takesArg = false) (name : Str) {p : Parsing} {a : CliArgs}
    (ha : takeAction p.args o none = .ok a) (ts : List Tok) :
    argLoop ([.option ⟨o, name, false, none⟩] ++ ts) p = argLoop ts { p with args := a } := by
  have hs : settle ⟨o, name, false, none⟩ = .ok ⟨[(o, none)], [], none⟩ := by
    simp [settle, settlePlain, ho]
  show argLoop (.option ⟨o, name, false, none⟩ :: ts) p = _
  rw [argLoop, hs]
  simp [takeActions, ha]

theorem argLoop_arg (s : Str) {ts : List Tok} (h : ts.head? ≠ some .dashes) (p : Parsing) :
    argLoop (.arg s :: ts) p = if p.seen then argLoop ts { p with extras := p.extras ++ [s] }
      else argLoop ts { p with args := { p.args with inputFile := s }, seen := true } := by
  cases ts with
  | nil => rfl
  | cons t ts =>
    cases t with
    | dashes => exact absurd rfl h
    | _ => rfl

/-- What the words of one given thing do: they are classified, and do what is meant. -/
structure Does (g : Given) (ts : List Tok) : Prop where
  words : ∀ {rest rs}, classify rest = .ok rs → classify (g.words ++ rest) = .ok (ts ++ rs)
  nodash : ∀ {rs : List Tok}, rs.head? ≠ some .dashes → (ts ++ rs).head? ≠ some .dashes
  effect : ∀ (p : Parsing) {rs : List Tok}, (g.isFile = true → rs.head? ≠ some .dashes) → argLoop (ts ++ rs) p
    = argLoop rs (if g.isFile && p.seen then { p with extras := p.extras ++ g.words }
        else { p with args := g.set p.args, seen := p.seen || g.isFile })

theorem optionTok_nodash (o : CliOpt) (name : Str) (j : Bool) (v : Str) (rs : List Tok) :
    (optionTok o name j v ++ rs).head? ≠ some .dashes := by
  cases j <;> simp [optionTok]

theorem does_spelt {g : Given} {o : CliOpt} {name v : Str} {j : Bool} (hw : g.words = spelt name j v)
    (hf : g.isFile = false) (h : optionNamed name = some o) (ho : o.takesArg = true) (hv : Tellable j v)
    (ha : ∀ a, takeAction a o (some v) = .ok (g.set a)) : Does g (optionTok o name j v) where
  words hr := by rw [hw]; exact classify_spelt h hv hr
  nodash _ := optionTok_nodash _ _ _ _ _
  effect p rs _ := by
    rw [argLoop_spelt ho name (ha p.args) rs, hf]
    simp

theorem does_flag {g : Given} {o : CliOpt} {name : Str} (hw : g.words = [name])
    (hf : g.isFile = false) (h : optionNamed name = some o) (ho : o.takesArg = false)
    (ha : ∀ a, takeAction a o none = .ok (g.set a)) : Does g [.option ⟨o, name, false, none⟩] where
  words hr := by rw [hw]; exact classify_flag h hr
  nodash _ := by simp
  effect p rs _ := by
    rw [argLoop_flag ho name (ha p.args) rs, hf]
    simp

theorem does_file {s : Str} (hs : PlainWord s) : Does (.file s) [.arg s] where
  words hr := classify_cons (plain_ne_dashes hs) (parseOptional_plain hs) hr
  nodash _ := by simp
  effect p rs h := by
    show argLoop (.arg s :: rs) p = _
    rw [argLoop_arg s (h rfl)]
    cases hp : p.seen <;> simp [Given.isFile, Given.words, Given.set]

theorem does {g : Given} (h : g.Fine) : ∃ ts, Does g ts := by
  cases g with
  | file s => exact ⟨_, does_file h⟩
  | separator j s => exact ⟨_, does_spelt rfl rfl (o := .separator) (by decide) rfl h fun _ => rfl⟩
  | target j s => exact ⟨_, does_spelt rfl rfl (o := .target) (by decide) rfl h fun _ => rfl⟩
  | outputFile j s => exact ⟨_, does_spelt rfl rfl (o := .outputFile) (by decide) rfl h fun _ => rfl⟩
  | exportPython j s => exact ⟨_, does_spelt rfl rfl (o := .exportPython) (by decide) rfl h fun _ => rfl⟩
  | mode j s => exact ⟨_, does_spelt rfl rfl (o := .mode) (by decide) rfl h fun _ => rfl⟩
  | metric j s => exact ⟨_, does_spelt rfl rfl (o := .metric) (by decide) rfl h fun _ => rfl⟩
  | outdir j s => exact ⟨_, does_spelt rfl rfl (o := .outdir) (by decide) rfl h fun _ => rfl⟩
  | timeLimit j s n =>
    exact ⟨_, does_spelt rfl rfl (o := .timeLimit) (by decide) rfl (.inr (number_plain h)) fun a => by
      simp [takeAction, intOf_number h, Given.set]⟩
  | evalTime j s n =>
    exact ⟨_, does_spelt rfl rfl (o := .evalTime) (by decide) rfl (.inr (number_plain h)) fun a => by
      simp [takeAction, intOf_number h, Given.set]⟩
  | nJobs j s n =>
    exact ⟨_, does_spelt rfl rfl (o := .nJobs) (by decide) rfl (.inr (number_plain h)) fun a => by
      simp [takeAction, intOf_number h, Given.set]⟩
  | long => exact ⟨_, does_flag rfl rfl (o := .long) (by decide) rfl fun _ => rfl⟩
  | verbose => exact ⟨_, does_flag rfl rfl (o := .verbose) (by decide) rfl fun _ => rfl⟩
  | dryRun => exact ⟨_, does_flag rfl rfl (o := .dryRun) (by decide) rfl fun _ => rfl⟩

theorem file_words {g : Given} (h : g.isFile = true) : g.words ≠ [] := by
  cases g <;> simp_all [Given.isFile, Given.words]

/-- The words of a list of given things, from any state. -/
theorem parse_given : ∀ (gs : List Given), (∀ g ∈ gs, g.Fine) → ∃ ts, classify (gs.flatMap Given.words) = .ok ts ∧
    ts.head? ≠ some .dashes ∧ ∀ p : Parsing, ∃ q, argLoop ts p = .ok q ∧
      q.seen = (p.seen || gs.any Given.isFile) ∧
      (p.extras = [] → (q.extras = [] ↔ gs.countP Given.isFile ≤ if p.seen then 0 else 1)) ∧
      (p.extras ≠ [] → q.extras ≠ []) ∧ (q.extras = [] → q.args = gs.foldl Given.set p.args)
  | [], _ => ⟨[], rfl, by simp, fun p => ⟨p, rfl, by simp, by simp, fun h => h, fun _ => rfl⟩⟩
  | g :: gs, h => by
    obtain ⟨ts, h1, h2, h3⟩ := parse_given gs fun g hg => h g (by simp [hg])
    obtain ⟨t, ht⟩ := does (h g (by simp))
    refine ⟨t ++ ts, ht.words h1, ht.nodash h2, fun p => ?_⟩
    rw [ht.effect p fun _ => h2]
    by_cases hf : (g.isFile && p.seen) = true
    · rw [if_pos hf]
      obtain ⟨q, e, hs, he, hx, ha⟩ := h3 { p with extras := p.extras ++ g.words }
      simp only [Bool.and_eq_true] at hf
      have hne : p.extras ++ g.words ≠ [] := by simp [file_words hf.1]
      refine ⟨q, e, by rw [hs]; simp [hf.2], fun _ => ?_, fun _ => hx hne, fun hq => absurd hq (hx hne)⟩
      simp [hx hne, hf.2, hf.1]
    · rw [if_neg hf]
      obtain ⟨q, e, hs, he, hx, ha⟩ := h3 { p with args := g.set p.args, seen := p.seen || g.isFile }
      refine ⟨q, e, by rw [hs]; simp [Bool.or_assoc], fun hp => ?_, hx, ha⟩
      rw [he hp]
      cases hg : g.isFile <;> cases hp' : p.seen <;> simp_all

/-- **C173.**  Whatever is given on the command line, in whatever order, is what is used: every value is the one given last,
or the documented default.  One file name must be given, or nothing is run. -/
theorem C173 (gs : List Given) (h : ∀ g ∈ gs, g.Fine) :
    parseArgs (gs.flatMap Given.words)
      = if gs.countP Given.isFile = 1 then .ok (gs.foldl Given.set byDefault) else .error .usage := by
  obtain ⟨ts, h1, -, h3⟩ := parse_given gs h
  obtain ⟨q, e, hs, he, -, ha⟩ := h3 ⟨parserDefaults, false, []⟩
  unfold parseArgs
  rw [h1]
  dsimp only
  rw [e]
  dsimp only
  have he := he rfl
  simp only [Bool.false_eq_true, if_false, Bool.false_or] at he hs
  by_cases hc : gs.countP Given.isFile = 1
  · have hany : gs.any Given.isFile = true := by
      obtain ⟨g, hg, hg'⟩ := List.countP_pos_iff.1 (by omega : 0 < gs.countP Given.isFile)
      exact List.any_eq_true.2 ⟨g, hg, hg'⟩
    have hq := he.2 (by omega)
    rw [if_pos hc, hs, hany, hq, ha hq]
    rfl
  · rw [if_neg hc]
    by_cases h0 : gs.countP Given.isFile = 0
    · have hany : gs.any Given.isFile = false := by
        rw [List.any_eq_false]
        intro g hg
        exact List.countP_eq_zero.1 h0 g hg
      rw [hs, hany]
      rfl
    · have hq : q.extras ≠ [] := fun hq => by
        have := he.1 hq
        omega
      have hany : gs.any Given.isFile = true := by
        obtain ⟨g, hg, hg'⟩ := List.countP_pos_iff.1 (by omega : 0 < gs.countP Given.isFile)
        exact List.any_eq_true.2 ⟨g, hg, hg'⟩
      rw [hs, hany]
      simp [hq]

/-- Options, and then other words. -/
theorem parse_options : ∀ (gs : List Given), (∀ g ∈ gs, g.Fine) → gs.countP Given.isFile = 0 → ∀ {rest : List Str}
    {rs : List Tok}, classify rest = .ok rs → ∃ ts, classify (gs.flatMap Given.words ++ rest) = .ok (ts ++ rs) ∧
      ∀ p : Parsing, argLoop (ts ++ rs) p = argLoop rs { p with args := gs.foldl Given.set p.args }
  | [], _, _, rest, rs, hr => ⟨[], hr, fun _ => rfl⟩
  | g :: gs, h, h0, rest, rs, hr => by
    have hg : g.isFile = false := by
      cases hg : g.isFile with
      | false => rfl
      | true => simp [hg] at h0
    obtain ⟨ts, h1, h2⟩ := parse_options gs (fun g hg => h g (by simp [hg])) (by simpa [hg] using h0) hr
    obtain ⟨t, ht⟩ := does (h g (by simp))
    refine ⟨t ++ ts, ?_, fun p => ?_⟩
    · rw [List.flatMap_cons, List.append_assoc, List.append_assoc]
      exact ht.words h1
    · rw [List.append_assoc, ht.effect p fun hf => absurd hf (by rw [hg]; decide), hg]
      simp [h2]

/-- **C173, any file.**  After `--` the file can have any name. -/
theorem C173_any_file (gs : List Given) (h : ∀ g ∈ gs, g.Fine) (h0 : gs.countP Given.isFile = 0) (s : Str) :
    parseArgs (gs.flatMap Given.words ++ [['-', '-'], s]) = .ok { gs.foldl Given.set byDefault with inputFile := s } := by
  obtain ⟨ts, h1, h2⟩ := parse_options gs h h0 (rest := [['-', '-'], s]) (rs := [.dashes, .arg s]) rfl
  unfold parseArgs
  rw [h1]
  dsimp only
  rw [h2]
  rfl

/-! ### Words that are refused -/

/-- What is left over stays left over. -/
theorem extras_grow (ts : List Tok) (p q : Parsing) (h : argLoop ts p = .ok q) (hp : p.extras ≠ []) : q.extras ≠ [] := by
  fun_induction argLoop ts p <;> simp_all

/-- A word taken for an unknown option is left over. -/
theorem unknown_left (ts : List Tok) (p q : Parsing) (s : Str) (hs : .unknown s ∈ ts) (h : argLoop ts p = .ok q) :
    q.extras ≠ [] := by
  fun_induction argLoop ts p with
  | case1 p => simp at hs
  | case2 p s' rest ih =>
    exact extras_grow _ _ _ h (by simp)
  | _ => simp_all

/-- Somewhere an option that takes an argument is followed by no argument. -/
inductive Lacking : List Tok → Prop
  | here {o : CliOpt} {name : Str} {t : Tok} {ts : List Tok} (ho : o.takesArg = true) (ht : ∀ v, t ≠ .arg v) :
    Lacking (.option ⟨o, name, false, none⟩ :: t :: ts)
  | there {t : Tok} {ts : List Tok} (h : Lacking ts) : Lacking (t :: ts)

theorem Lacking.tail {t : Tok} {ts : List Tok} (h : Lacking (t :: ts)) (ht : ∀ f, t ≠ .option f) : Lacking ts := by
  cases h with
  | here => exact absurd rfl (ht _)
  | there h => exact h

theorem Lacking.option {f : Found} {ts : List Tok} (h : Lacking (.option f :: ts)) :
    (∃ o name, o.takesArg = true ∧ f = ⟨o, name, false, none⟩ ∧ ∀ v rest, ts ≠ .arg v :: rest) ∨ Lacking ts := by
  cases h with
  | here ho ht => exact .inl ⟨_, _, ho, rfl, fun v rest e => ht v (List.cons.inj e).1⟩
  | there h => exact .inr h

theorem lacking_refused (ts : List Tok) (p q : Parsing) (h : argLoop ts p = .ok q) : ¬ Lacking ts := by
  fun_induction argLoop ts p with
  | case1 => intro hl; cases hl
  | case2 _ _ _ ih | case5 _ _ _ _ _ ih | case6 _ _ _ _ _ ih | case9 _ _ _ ih =>
    intro hl
    exact ih h (hl.tail fun _ e => nomatch e)
  | case3 _ _ _ _ ih | case4 _ _ _ _ ih | case7 _ _ _ _ ih | case8 _ _ _ _ ih =>
    intro hl
    exact ih h ((hl.tail fun _ e => nomatch e).tail fun _ e => nomatch e)
  | case12 _ _ _ _ hs hw _ _ ih =>
    intro hl
    rcases hl.option with ⟨o, name, ho, rfl, -⟩ | hl
    · simp only [settle, settlePlain, ho, if_true, Except.ok.injEq] at hs
      rw [← hs] at hw
      cases hw
    · exact ih h hl
  | case14 _ _ _ _ _ _ _ _ _ _ ih =>
    intro hl
    rcases hl.option with ⟨o, name, ho, rfl, hne⟩ | hl
    · exact hne _ _ rfl
    · exact ih h (hl.tail fun _ e => nomatch e)
  | _ => cases h

theorem classify_split : ∀ {pre rest : List Str} {ts : List Tok}, ['-', '-'] ∉ pre → classify (pre ++ rest) = .ok ts →
    ∃ t1 t2, ts = t1 ++ t2 ∧ classify rest = .ok t2
  | [], rest, ts, _, h => ⟨[], ts, rfl, h⟩
  | s :: pre, rest, ts, hn, h => by
    simp only [List.mem_cons, not_or] at hn
    rw [List.cons_append, classify, if_neg (Ne.symm hn.1)] at h
    cases hs : parseOptional s with
    | error e => rw [hs] at h; cases h
    | ok t =>
      rw [hs] at h
      dsimp only at h
      cases hr : classify (pre ++ rest) with
      | error e => rw [hr] at h; cases h
      | ok ts' =>
        rw [hr] at h
        cases h
        obtain ⟨t1, t2, rfl, h2⟩ := classify_split hn.2 hr
        exact ⟨t :: t1, t2, rfl, h2⟩

theorem lacking_append : ∀ (a : List Tok) {b : List Tok}, Lacking b → Lacking (a ++ b)
  | [], _, h => h
  | _ :: a, _, h => .there (lacking_append a h)

/-- A word that begins with a dash, and neither is a number nor has a space, is not taken for a value. -/
theorem dashed_no_arg {c : Char} {t : Str} (hc : c.isDigit = false) (hdot : c ≠ '.') (hsp : ' ' ∉ '-' :: c :: t) (v : Str) :
    parseOptional ('-' :: c :: t) ≠ .ok (.arg v) := by
  unfold parseOptional
  rw [if_neg (by simp)]
  cases hn : optionNamed ('-' :: c :: t) with
  | some o => simp
  | none =>
    dsimp only
    unfold parseDashed
    rw [if_neg (by simp)]
    split
    · simp
    · split
      · simp
      · simp
      · have hneg : negativeNumber ('-' :: c :: t) = false := by
          unfold negativeNumber
          dsimp only
          have key : ∀ u : Str, (u = [] ∨ u.head? = some c) →
              (match u.dropWhile Char.isDigit with
              | [] => !u.isEmpty
              | '.' :: d => !d.isEmpty && d.all Char.isDigit
              | _ => false) = false := by
            intro u hu
            cases u with
            | nil => rfl
            | cons x u =>
              have hx : x = c := by simpa using hu
              subst hx
              rw [List.dropWhile_cons, hc]
              simp only [Bool.false_eq_true, if_false]
              split
              · rename_i e; cases e
              · rename_i e; cases e; exact absurd rfl hdot
              · rfl
          refine key _ ?_
          split
          · cases t with
            | nil => exact .inl rfl
            | cons d t => exact .inr rfl
          · exact .inr rfl
        rw [hneg]
        simp [hsp]

namespace Spec

/-- A word that looks like an option: it begins with a dash, is no number and has no space. -/
def OptionLike (s : Str) : Prop :=
  ' ' ∉ s ∧ ∃ c t, s = '-' :: c :: t ∧ c.isDigit = false ∧ c ≠ '.'

/-- The spellings of the options that take a value, as documented. -/
def valued : List Str :=
  [['-', 's', 'e', 'p'], ['-', '-', 't', 'a', 'r', 'g', 'e', 't'], ['-', 'o'], ['-', 'p', 'y'], ['-', '-', 'm', 'o', 'd', 'e'],
   ['-', 'm'], ['-', 't'], ['-', '-', 't', 'i', 'm', 'e', '_', 'p', 'i', 'p', 'e', 'l', 'i', 'n', 'e'], ['-', 'n'],
   ['-', 'o', 'u', 't', 'd', 'i', 'r']]

/-- The spellings of the other options. -/
def unvalued : List Str :=
  [['-', 'h'], ['-', '-', 'h', 'e', 'l', 'p'], ['-', '-', 'l', 'o', 'n', 'g'], ['-', 'v'], ['-', 'd', 'r', 'y']]

end Spec

theorem valued_named : ∀ name ∈ valued, ∃ o, optionNamed name = some o ∧ o.takesArg = true := by
  have : ∀ name ∈ valued, ((optionNamed name).map CliOpt.takesArg) = some true := by decide
  intro name h
  simpa using this name h

/-- **C173, other values.**  A value that begins with a dash and is no number is never taken for something else: unless it
is attached to its option, nothing is run. -/
theorem C173_refused {pre post : List Str} {name v : Str} (hpre : ['-', '-'] ∉ pre) (hname : name ∈ valued)
    (hv : OptionLike v) : ∃ e, parseArgs (pre ++ name :: v :: post) = .error e := by
  obtain ⟨o, ho, hta⟩ := valued_named name hname
  cases hp : parseArgs (pre ++ name :: v :: post) with
  | error e => exact ⟨e, rfl⟩
  | ok a =>
    exfalso
    unfold parseArgs at hp
    cases hc : classify (pre ++ name :: v :: post) with
    | error e => rw [hc] at hp; cases hp
    | ok ts =>
      rw [hc] at hp
      dsimp only at hp
      cases hl : argLoop ts ⟨parserDefaults, false, []⟩ with
      | error e => rw [hl] at hp; cases hp
      | ok q =>
        refine lacking_refused _ _ _ hl ?_
        obtain ⟨t1, t2, rfl, h2⟩ := classify_split hpre hc
        refine lacking_append t1 ?_
        have hd : name ≠ ['-', '-'] := by
          rintro rfl
          rw [show optionNamed ['-', '-'] = none by decide] at ho
          cases ho
        rw [classify, if_neg hd, parseOptional_name ho] at h2
        dsimp only at h2
        obtain ⟨hsp, c, t, rfl, hcd, hdot⟩ := hv
        cases hr : classify (('-' :: c :: t) :: post) with
        | error e => rw [hr] at h2; cases h2
        | ok t3 =>
          rw [hr] at h2
          cases h2
          rw [classify] at hr
          split at hr
          · cases hr
            exact .here hta fun v e => nomatch e
          · cases hw : parseOptional ('-' :: c :: t) with
            | error e => rw [hw] at hr; cases hr
            | ok w =>
              rw [hw] at hr
              dsimp only at hr
              cases hx : classify post with
              | error e => rw [hx] at hr; cases hr
              | ok t4 =>
                rw [hx] at hr
                cases hr
                refine .here hta fun v e => ?_
                rw [e] at hw
                exact dashed_no_arg hcd hdot hsp v hw

/-! ### `main` -/

/-- **C174**, the full claim: what `main` does depends on the command it is given and on nothing else. -/
def C174_claim : Prop := ∀ (w : CliWorld) (c : Command) (argv argv' : List Str), cliCommand w c argv = cliCommand w c argv'

namespace Spec

/-- White space of ASCII, the separators 28 to 31 included. -/
def White (c : Char) : Prop := c.toNat ∈ [9, 10, 11, 12, 13, 28, 29, 30, 31, 32]

/-- The command has a word. -/
def HasWord : Command → Prop
  | .text s => ∃ c ∈ s, ¬ White c
  | .words l => l ≠ []

end Spec

theorem isPySpace_iff (c : Char) : isPySpace c = true ↔ White c := by
  have h : c = ' ' ↔ c.toNat = 32 := ⟨fun h => by rw [h]; rfl, fun h => Char.toNat_inj.1 h⟩
  simp only [isPySpace, White, h, Bool.or_eq_true, Bool.and_eq_true, decide_eq_true_eq, List.mem_cons, List.not_mem_nil,
    or_false]
  omega

theorem isPySpace_false {c : Char} (h : ¬ White c) : isPySpace c = false := by
  cases hc : isPySpace c with
  | false => rfl
  | true => exact absurd ((isPySpace_iff c).1 hc) h

theorem pySplitGo_ne_nil : ∀ (s w : Str), w ≠ [] ∨ (∃ c ∈ s, isPySpace c = false) → pySplitGo w s ≠ []
  | [], w, h => by
    rcases h with h | ⟨c, h, -⟩
    · simp [pySplitGo, h]
    · cases h
  | c :: s, w, h => by
    rw [pySplitGo]
    by_cases hc : isPySpace c = true
    · rw [if_pos hc]
      split
      · rename_i hw
        refine pySplitGo_ne_nil s [] (.inr ?_)
        rcases h with h | ⟨d, hd, he⟩
        · simp at hw; exact absurd hw h
        · rcases List.mem_cons.1 hd with rfl | hd
          · rw [hc] at he; cases he
          · exact ⟨d, hd, he⟩
      · simp
    · rw [if_neg hc]
      exact pySplitGo_ne_nil s (c :: w) (.inl (by simp))

theorem own_ne_nil {c : Command} (h : HasWord c) : c.own ≠ [] := by
  cases c with
  | text s =>
    obtain ⟨c, hc, hw⟩ := h
    exact pySplitGo_ne_nil s [] (.inr ⟨c, hc, isPySpace_false hw⟩)
  | words l => exact h

/-- **C174, the part that holds**: of commands that have a word. -/
theorem C174_partial (w : CliWorld) {c : Command} (h : HasWord c) (argv argv' : List Str) :
    cliCommand w c argv = cliCommand w c argv' := by
  have h := own_ne_nil h
  have : commandWords c argv = commandWords c argv' := by
    unfold commandWords
    simp [h]
  unfold cliCommand
  rw [this]

theorem pySplitGo_nil : ∀ s : Str, (∀ c ∈ s, isPySpace c = true) → pySplitGo [] s = []
  | [], _ => rfl
  | c :: s, h => by
    rw [pySplitGo, if_pos (h c (by simp)), List.isEmpty_nil, if_pos rfl]
    exact pySplitGo_nil s fun c hc => h c (by simp [hc])

/-- **C174, otherwise**: `main` does what the command line of the process says. -/
theorem C174_otherwise (w : CliWorld) {c : Command} (h : ¬ HasWord c) (argv : List Str) :
    cliCommand w c argv = cliCommand w (.words argv) argv := by
  have h0 : c.own = [] := by
    cases c with
    | text s =>
      refine pySplitGo_nil s fun c hc => ?_
      by_contra hw
      exact h ⟨c, hc, fun hw' => hw ((isPySpace_iff c).2 hw')⟩
    | words l => exact Classical.not_not.1 h
  have h1 : commandWords c argv = argv := by simp [commandWords, h0]
  have h2 : commandWords (.words argv) argv = argv := by
    unfold commandWords
    split <;> rfl
  unfold cliCommand
  rw [h1, h2]

theorem pySplitGo_word : ∀ (u w s : Str), (∀ c ∈ u, isPySpace c = false) → pySplitGo w (u ++ s) = pySplitGo (u.reverse ++ w) s
  | [], w, s, _ => rfl
  | c :: u, w, s, h => by
    rw [List.cons_append, pySplitGo, if_neg (by rw [h c (by simp)]; decide),
      pySplitGo_word u (c :: w) s fun c hc => h c (by simp [hc])]
    simp

namespace Spec

/-- Words with a space after each. -/
def spaced (ws : List Str) : Str := ws.flatMap fun w => w ++ [' ']

end Spec

theorem pySplit_spaced : ∀ (ws : List Str), (∀ w ∈ ws, w ≠ [] ∧ ∀ c ∈ w, isPySpace c = false) → pySplit (spaced ws) = ws
  | [], _ => rfl
  | w :: ws, h => by
    obtain ⟨hne, hsp⟩ := h w (by simp)
    have e : spaced (w :: ws) = w ++ ' ' :: spaced ws := by simp [spaced]
    unfold pySplit
    rw [e, pySplitGo_word w [] _ hsp, pySplitGo, if_pos (by decide), if_neg (by simpa using hne)]
    have := pySplit_spaced ws fun w hw => h w (by simp [hw])
    unfold pySplit at this
    rw [this]
    simp

/-- **C174, texts.**  A text means the words in it. -/
theorem C174_text (w : CliWorld) (ws : List Str) (h : ∀ w ∈ ws, w ≠ [] ∧ ∀ c ∈ w, ¬ White c) (argv : List Str) :
    cliCommand w (.text (spaced ws)) argv = cliCommand w (.words ws) argv := by
  have : (Command.text (spaced ws)).own = (Command.words ws).own :=
    pySplit_spaced ws fun w hw => ⟨(h w hw).1, fun c hc => isPySpace_false ((h w hw).2 c hc)⟩
  unfold cliCommand commandWords
  rw [this]

/-- **C173, what is run**: with C77, what is given is what is run. -/
theorem C173_run (w : CliWorld) {gs : List Given} (h : ∀ g ∈ gs, g.Fine) (hone : gs.countP Given.isFile = 1)
    (argv : List Str) :
    cliCommand w (.words (gs.flatMap Given.words)) argv = .ok (cliMain w (gs.foldl Given.set byDefault)) := by
  have hne : gs.flatMap Given.words ≠ [] := by
    intro e
    obtain ⟨g, hg, hg'⟩ := List.countP_pos_iff.1 (by omega : 0 < gs.countP Given.isFile)
    exact file_words hg' (List.flatMap_eq_nil_iff.1 e g hg)
  have hw : commandWords (.words (gs.flatMap Given.words)) argv = gs.flatMap Given.words := by
    unfold commandWords Command.own
    dsimp only
    rw [if_neg (by simpa using hne)]
  unfold cliCommand
  rw [hw, C173 gs h, if_pos hone]

/-! ### Abbreviations -/

namespace Spec

/-- The documented spellings. -/
def spellings : List Str := valued ++ unvalued

/-- Not an option as documented, alone or with a value attached. -/
def Undocumented (s : Str) : Prop :=
  OptionLike s ∧ s ∉ spellings ∧ ∀ name ∈ spellings, ¬ (name ++ ['=']) <+: s

/-- The part before the first `=`. -/
def beforeEq (s : Str) : Str := s.takeWhile (· ≠ '=')

/-- Neither the beginning of a documented option nor one of a single letter with something attached. -/
def Unlike (s : Str) : Prop :=
  (∀ name ∈ spellings, ¬ beforeEq s <+: name) ∧ ∀ name ∈ spellings, name.length = 2 → ¬ name <+: s

end Spec

/-- **C175**, the full claim: a command line with a word that looks like an option and is none is refused. -/
def C175_claim : Prop := ∀ (pre post : List Str) (s : Str), ['-', '-'] ∉ pre → Undocumented s →
  ∃ e, parseArgs (pre ++ s :: post) = .error e

theorem mem_spellings : ∀ x ∈ optionStrings, x.1 ∈ spellings := by decide

theorem named_of_spelling : ∀ name ∈ spellings, ∃ o, (name, o) ∈ optionStrings ∧ optionNamed name = some o := by
  have : ∀ name ∈ spellings, (optionNamed name).isSome = true := by decide
  intro name h
  obtain ⟨o, ho⟩ := Option.isSome_iff_exists.1 (this name h)
  exact ⟨o, optionNamed_mem ho, ho⟩

theorem partitionEq_fst : ∀ s : Str, (partitionEq s).1 = beforeEq s
  | [] => rfl
  | c :: s => by
    unfold partitionEq beforeEq
    by_cases hc : c = '='
    · simp [hc]
    · simp only [hc, if_false]
      rw [partitionEq_fst s, List.takeWhile_cons]
      simp [hc, beforeEq]

theorem partitionEq_snd : ∀ (s v : Str), (partitionEq s).2 = some v → s = beforeEq s ++ '=' :: v
  | [], v, h => by cases h
  | c :: s, v, h => by
    unfold partitionEq at h
    by_cases hc : c = '='
    · subst hc
      simp only [if_true, Option.some.injEq] at h
      simp [beforeEq, h]
    · simp only [hc, if_false] at h
      have := partitionEq_snd s v h
      unfold beforeEq
      rw [List.takeWhile_cons]
      simp only [ne_eq, hc, not_false_eq_true, decide_true, if_true, List.cons_append]
      exact congrArg _ this

/-- **C175, the part that holds**: unless it is the beginning of an option or begins with an option of one letter. -/
theorem C175_partial {pre post : List Str} {s : Str} (hpre : ['-', '-'] ∉ pre) (hs : Undocumented s) (hu : Unlike s) :
    ∃ e, parseArgs (pre ++ s :: post) = .error e := by
  cases hp : parseArgs (pre ++ s :: post) with
  | error e => exact ⟨e, rfl⟩
  | ok a =>
    exfalso
    obtain ⟨⟨hsp, c, t, rfl, hc, hdot⟩, hnot, heq⟩ := hs
    have hnamed : ∀ u, u ∉ spellings → optionNamed u = none := fun u hu' =>
      optionNamed_none_of fun x hx e => hu' (e ▸ mem_spellings x hx)
    have hbefore : beforeEq ('-' :: c :: t) ∉ spellings := fun h => hu.1 _ h (List.prefix_refl _)
    have hdd : ('-' :: c :: t) ≠ ['-', '-'] := by
      intro e
      rw [e] at hu
      exact hu.1 ['-', '-', 'l', 'o', 'n', 'g'] (by decide) (by decide)
    have htuples : optionTuples ('-' :: c :: t) = [] := by
      unfold optionTuples
      split
      · rw [List.filterMap_eq_nil_iff]
        intro x hx
        rw [if_neg]
        intro h
        rw [partitionEq_fst, startsWith_iff] at h
        obtain ⟨r, hr⟩ := h
        exact hu.1 _ (mem_spellings x hx) ⟨r, hr.symm⟩
      · rw [List.filterMap_eq_nil_iff]
        intro x hx
        rw [if_neg, if_neg]
        · intro h
          rw [startsWith_iff] at h
          obtain ⟨r, hr⟩ := h
          refine hu.1 _ (mem_spellings x hx) ?_
          refine (List.takeWhile_prefix _).trans ⟨r, hr.symm⟩
        · intro h
          refine hu.2 _ (mem_spellings x hx) (by rw [h]; simp) ?_
          rw [h]
          exact List.take_prefix _ _
    have hparse : parseOptional ('-' :: c :: t) = .ok (.unknown ('-' :: c :: t)) := by
      have hno := dashed_no_arg hc hdot hsp
      unfold parseOptional at hno ⊢
      rw [if_neg (by simp), hnamed _ hnot] at hno ⊢
      dsimp only at hno ⊢
      unfold parseDashed at hno ⊢
      rw [if_neg (by simp)] at hno ⊢
      rw [partitionEq_fst, hnamed _ hbefore, htuples] at hno ⊢
      cases hsnd : (partitionEq ('-' :: c :: t)).2 <;> rw [hsnd] at hno <;> dsimp only at hno ⊢ <;>
      · split
        · rename_i h1
          rw [if_pos h1] at hno
          exact absurd rfl (hno _)
        · rfl
    unfold parseArgs at hp
    cases hcl : classify (pre ++ ('-' :: c :: t) :: post) with
    | error e => rw [hcl] at hp; cases hp
    | ok ts =>
      rw [hcl] at hp
      dsimp only at hp
      cases hl : argLoop ts ⟨parserDefaults, false, []⟩ with
      | error e => rw [hl] at hp; cases hp
      | ok q =>
        obtain ⟨t1, t2, rfl, h2⟩ := classify_split hpre hcl
        have hmem : Tok.unknown ('-' :: c :: t) ∈ t1 ++ t2 := by
          rw [classify, if_neg hdd, hparse] at h2
          dsimp only at h2
          cases hr : classify post with
          | error e => rw [hr] at h2; cases h2
          | ok t3 =>
            rw [hr] at h2
            cases h2
            simp
        have := unknown_left _ _ _ _ hmem hl
        rw [hl] at hp
        dsimp only at hp
        rw [if_pos this] at hp
        split at hp <;> cases hp

theorem filterMap_same {α β : Type} {f g : α → Option β} : ∀ {l : List α}, (∀ x ∈ l, f x = g x) →
    l.filterMap f = l.filterMap g
  | [], _ => rfl
  | x :: l, h => by
    rw [List.filterMap_cons, List.filterMap_cons, h x (by simp), filterMap_same fun x hx => h x (by simp [hx])]

theorem classify_congr {s s' : Str} (hs : s ≠ ['-', '-']) (hs' : s' ≠ ['-', '-']) (h : parseOptional s = parseOptional s')
    (post : List Str) : ∀ {pre : List Str}, ['-', '-'] ∉ pre → classify (pre ++ s :: post) = classify (pre ++ s' :: post)
  | [], _ => by
    rw [List.nil_append, List.nil_append, classify, classify, if_neg hs, if_neg hs', h]
  | x :: pre, hn => by
    simp only [List.mem_cons, not_or] at hn
    rw [List.cons_append, List.cons_append, classify, classify, if_neg (Ne.symm hn.1), if_neg (Ne.symm hn.1),
      classify_congr hs hs' h post hn.2]

/-- **C175, abbreviations.**  The beginning of a documented option with two dashes, if of no other, is that option. -/
theorem C175_abbreviation {pre post : List Str} {s name : Str} (hpre : ['-', '-'] ∉ pre) (hn : name ∈ spellings)
    (hs : ['-', '-'] <+: s) (hp : s <+: name) (hone : ∀ n ∈ spellings, s <+: n → n = name) :
    parseArgs (pre ++ s :: post) = parseArgs (pre ++ name :: post) := by
  obtain ⟨o, hmem, ho⟩ := named_of_spelling name hn
  have hdn : name ≠ ['-', '-'] := by
    rintro rfl
    exact absurd hn (by decide)
  have hds : s ≠ ['-', '-'] := by
    rintro rfl
    have h1 := hone ['-', '-', 'l', 'o', 'n', 'g'] (by decide) (by decide)
    have h2 := hone ['-', '-', 'm', 'o', 'd', 'e'] (by decide) (by decide)
    rw [← h2] at h1
    exact absurd h1 (by decide)
  have heq : parseOptional s = parseOptional name := by
    rw [parseOptional_name ho]
    obtain ⟨r, rfl⟩ := hs
    by_cases hsn : ['-', '-'] ++ r ∈ spellings
    · have := hone _ hsn (List.prefix_refl _)
      rw [this]
      exact parseOptional_name ho
    · have h0 : '=' ∉ ['-', '-'] ++ r := fun h => names_no_eq _ hmem (hp.subset h)
      unfold parseOptional
      rw [if_neg (by simp), optionNamed_none_of fun x hx e => hsn (by rw [← e]; exact mem_spellings x hx)]
      dsimp only
      unfold parseDashed
      rw [if_neg (by simp), partitionEq_none h0]
      dsimp only
      have ht : optionTuples (['-', '-'] ++ r) = [⟨o, name, false, none⟩] := by
        unfold optionTuples
        rw [if_pos (by rw [startsWith_iff]; exact ⟨r, rfl⟩), partitionEq_none h0]
        have h1 : ∀ n ∈ optionStrings, (optionStrings.filterMap fun x =>
            if x.1 = n.1 then some (⟨x.2, x.1, false, none⟩ : Found) else none) = [⟨n.2, n.1, false, none⟩] := by decide
        rw [← h1 _ hmem]
        refine filterMap_same fun x hx => ?_
        have : startsWith (['-', '-'] ++ r) x.1 = true ↔ x.1 = name := by
          rw [startsWith_iff]
          constructor
          · rintro ⟨q, hq⟩
            exact hone _ (mem_spellings x hx) ⟨q, hq.symm⟩
          · rintro e
            obtain ⟨q, hq⟩ := hp
            exact ⟨q, by rw [e, hq]⟩
        by_cases hx' : x.1 = name
        · rw [if_pos (this.2 hx'), if_pos hx']; rfl
        · rw [if_neg fun h => hx' (this.1 h), if_neg hx']
      rw [ht]
  unfold parseArgs
  rw [classify_congr hds hdn heq post hpre]

namespace Ex

/-- `d.csv --time 7` -/
def timeSeven : List Str := [['d', '.', 'c', 's', 'v'], ['-', '-', 't', 'i', 'm', 'e'], ['7']]

end Ex

/-- **C175 is false**: `--time` is taken for `--time_pipeline`. -/
theorem C175_false : ¬ C175_claim := by
  intro h
  obtain ⟨e, he⟩ := h [['d', '.', 'c', 's', 'v']] [['7']] ['-', '-', 't', 'i', 'm', 'e'] (by decide)
    ⟨⟨by decide, _, _, rfl, by decide, by decide⟩, by decide, by decide⟩
  have : (parseArgs Ex.timeSeven).toOption.isSome = true := by decide +kernel
  have he : parseArgs Ex.timeSeven = .error e := he
  rw [he] at this
  cases this

/-- The time for a pipeline is seven minutes then, and that for the search is the default. -/
example : (parseArgs Ex.timeSeven).toOption.map (fun a => (a.evalTime, a.timeLimit)) = some (7, 60) := by decide +kernel

/-- **C174 is false**: the empty command is replaced by the command line of the process. -/
theorem C174_false : ¬ C174_claim := by
  intro h
  have h := h ⟨fun _ => false, fun _ _ _ => .ok true, fun _ _ => .ok (), .ok (), fun _ => .ok (), fun _ => .ok (), .ok ()⟩
    (.words []) [['d', '.', 'c', 's', 'v']] []
  have h1 := congrArg (fun r => (Except.toOption r).isSome) h
  exact absurd h1 (by decide +kernel)

namespace Ex

/-- `-t 30 d.csv --long -n -1 -o=-m.pkl -o x.pkl` -/
def someGiven : List Given :=
  [.timeLimit false ['3', '0'] 30, .file ['d', '.', 'c', 's', 'v'], .long, .nJobs false ['-', '1'] (-1),
    .outputFile true ['-', 'm', '.', 'p', 'k', 'l'], .outputFile false ['x', '.', 'p', 'k', 'l']]

theorem someGiven_fine : ∀ g ∈ someGiven, g.Fine := by
  intro g hg
  simp only [someGiven, List.mem_cons, List.not_mem_nil, or_false] at hg
  rcases hg with rfl | rfl | rfl | rfl | rfl | rfl
  · exact ⟨['3', '0'], ⟨by decide, by decide⟩, .inl ⟨rfl, by decide⟩⟩
  · exact .inr (.inl (by decide))
  · trivial
  · exact ⟨['1'], ⟨by decide, by decide⟩, .inr ⟨rfl, by decide⟩⟩
  · exact .inl rfl
  · exact .inr (.inr (.inl (by decide)))

end Ex

/-- The hypotheses of `C173` are met. -/
example : parseArgs (Ex.someGiven.flatMap Given.words)
    = .ok { byDefault with
        inputFile := ['d', '.', 'c', 's', 'v'], timeLimit := 30, preferShort := false, nJobs := -1
        outputFile := ['x', '.', 'p', 'k', 'l'] } :=
  C173 Ex.someGiven Ex.someGiven_fine

/-- Those of `C173_any_file` are met by `-v -- -x.csv`. -/
example : parseArgs [['-', 'v'], ['-', '-'], ['-', 'x', '.', 'c', 's', 'v']]
    = .ok { byDefault with verbose := true, inputFile := ['-', 'x', '.', 'c', 's', 'v'] } :=
  C173_any_file [.verbose] (fun g hg => by rw [List.mem_singleton.1 hg]; trivial) rfl _

/-- Those of `C173_refused` are met by `d.csv -o -m.pkl`. -/
example : ∃ e, parseArgs [['d', '.', 'c', 's', 'v'], ['-', 'o'], ['-', 'm', '.', 'p', 'k', 'l']] = .error e :=
  C173_refused (pre := [['d', '.', 'c', 's', 'v']]) (post := []) (by decide) (by decide)
    ⟨by decide, _, _, rfl, by decide, by decide⟩

/-- Those of `C175_partial` are met by `d.csv --jobs 3`, … -/
example : ∃ e, parseArgs [['d', '.', 'c', 's', 'v'], ['-', '-', 'j', 'o', 'b', 's'], ['3']] = .error e :=
  C175_partial (pre := [['d', '.', 'c', 's', 'v']]) (post := [['3']]) (by decide)
    ⟨⟨by decide, _, _, rfl, by decide, by decide⟩, by decide, by decide⟩ ⟨by decide, by decide⟩

/-- … and those of `C175_abbreviation` by `d.csv --time 7`. -/
example : parseArgs Ex.timeSeven = parseArgs [['d', '.', 'c', 's', 'v'],
    ['-', '-', 't', 'i', 'm', 'e', '_', 'p', 'i', 'p', 'e', 'l', 'i', 'n', 'e'], ['7']] :=
  C175_abbreviation (pre := [['d', '.', 'c', 's', 'v']]) (post := [['7']]) (by decide) (by decide) (by decide) (by decide)
    (by decide)

/-- `main("")` and `main("d.csv -v")`. -/
example : ¬ HasWord (.text []) ∧ HasWord (.text ['d', '.', 'c', 's', 'v', ' ', '-', 'v']) :=
  ⟨(fun ⟨_, h, _⟩ => nomatch h), 'd', by decide, by unfold White; decide⟩

/-- A path with a space cannot be given in a text: it is two words, and quotes do not help. -/
example : (Command.text ['"', 'm', 'y', ' ', 'd', '.', 'c', 's', 'v', '"']).own = [['"', 'm', 'y'], ['d', '.', 'c', 's', 'v', '"']] := by
  decide +kernel

end Gama
