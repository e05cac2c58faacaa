import Verif.Model.Logs

/-!
# Properties of logs and reports (C72–C75 and later ones)
-/

namespace Gama

namespace Spec

/-- A text that stays one field when written between separators. -/
def Readable (t : Str) : Prop := ';' ∉ t ∧ '\n' ∉ t ∧ '\r' ∉ t ∧ t.head? ≠ some '"'

/-- A text whose line is not taken for a blank one. -/
def StartsVisibly (t : Str) : Prop := ∃ c, t.head? = some c ∧ c ≠ ' ' ∧ c ≠ '\t'

/-- The record of an evaluation. -/
def record {E : Type} (fields : LogFields E) (e : E) : List Str := fields.map fun f => f.2 e

/-- A logger and evaluations whose texts can be told apart in the file: column names and field texts
stay one field each, and no line is blank. -/
structure CleanLog {E : Type} (fields : LogFields E) (es : List E) : Prop where
  nonempty : fields ≠ []
  names : ∀ f ∈ fields, Readable f.1
  texts : ∀ e ∈ es, ∀ f ∈ fields, Readable (f.2 e)
  visible : ∀ e ∈ es, ∀ t, (record fields e).head? = some t → StartsVisibly t

/-- The log with the given evaluations, written by a fresh logger. -/
def logOf {E : Type} (fields : LogFields E) (es : List E) : Str :=
  logAll [';'] fields (loggerInit [';'] fields none []).2 es

end Spec

open Spec

theorem joinWith_cons2 (sep p q : Str) (ps : List Str) :
    joinWith sep (p :: q :: ps) = p ++ sep ++ joinWith sep (q :: ps) := rfl

theorem csv_inField (t : Str) (h1 : ';' ∉ t) (h2 : '\n' ∉ t) (rest f : Str) (row : List Str)
    (acc : List (List Str)) :
    csvGo (t ++ rest) .inField f row acc = csvGo rest .inField (f ++ t) row acc := by
  induction t generalizing f with
  | nil => simp
  | cons c t ih =>
    simp only [List.mem_cons, not_or] at h1 h2
    have a : c ≠ '\n' := fun e => h2.1 e.symm
    have b : c ≠ ';' := fun e => h1.1 e.symm
    simp only [List.cons_append, csvGo, a, b, if_false]
    rw [ih h1.2 h2.2]; simp

/-- What the tokenizer does at the end of a record. -/
def afterLine (rest : Str) (row : List Str) (acc : List (List Str)) :
    Except Exn (List (List Str)) :=
  match endLine row acc with
  | .ok acc' => csvGo rest .startRecord [] [] acc'
  | .error e => .error e

theorem csv_field_sep (t : Str) (h : Readable t) (rest : Str) (row : List Str)
    (acc : List (List Str)) :
    csvGo (t ++ ';' :: rest) .startField [] row acc
      = csvGo rest .startField [] (row ++ [t]) acc := by
  obtain ⟨h1, h2, _, h4⟩ := h
  cases t with
  | nil => simp [csvGo]
  | cons c t =>
    simp only [List.mem_cons, not_or] at h1 h2
    have a : c ≠ '\n' := fun e => h2.1 e.symm
    have b : c ≠ ';' := fun e => h1.1 e.symm
    have d : c ≠ '"' := fun e => h4 (by simp [e])
    simp only [List.cons_append, csvGo, a, b, d, if_false]
    rw [csv_inField t h1.2 h2.2]
    simp [csvGo]

theorem csv_field_end (t : Str) (h : Readable t) (rest : Str) (row : List Str)
    (acc : List (List Str)) :
    csvGo (t ++ '\n' :: rest) .startField [] row acc = afterLine rest (row ++ [t]) acc := by
  obtain ⟨h1, h2, _, h4⟩ := h
  cases t with
  | nil =>
    simp only [List.nil_append, csvGo, if_true, afterLine]
    generalize endLine _ acc = x
    cases x <;> rfl
  | cons c t =>
    simp only [List.mem_cons, not_or] at h1 h2
    have a : c ≠ '\n' := fun e => h2.1 e.symm
    have b : c ≠ ';' := fun e => h1.1 e.symm
    have d : c ≠ '"' := fun e => h4 (by simp [e])
    simp only [List.cons_append, csvGo, a, b, d, if_false]
    rw [csv_inField t h1.2 h2.2]
    simp only [csvGo, if_true, afterLine, List.nil_append, List.singleton_append]
    generalize endLine _ acc = x
    cases x <;> rfl

theorem csv_fields (ts : List Str) (hne : ts ≠ []) (h : ∀ t ∈ ts, Readable t) (rest : Str)
    (row : List Str) (acc : List (List Str)) :
    csvGo (joinWith [';'] ts ++ '\n' :: rest) .startField [] row acc
      = afterLine rest (row ++ ts) acc := by
  induction ts generalizing row with
  | nil => exact absurd rfl hne
  | cons t ts ih =>
    cases ts with
    | nil => exact csv_field_end t (h t (by simp)) rest row acc
    | cons u us =>
      rw [joinWith_cons2]
      simp only [List.append_assoc, List.cons_append, List.nil_append]
      rw [csv_field_sep t (h t (by simp)), ih (by simp) (fun x hx => h x (by simp [hx]))]
      simp

/-- The beginning of a line that is not blank. -/
theorem csv_start (s : Str) (c : Char) (hc : s.head? = some c) (h1 : c ≠ ' ') (h2 : c ≠ '\t')
    (h3 : c ≠ '\n') (acc : List (List Str)) :
    csvGo s .startRecord [] [] acc = csvGo s .startField [] [] acc := by
  cases s with
  | nil => simp at hc
  | cons d s =>
    simp only [List.head?_cons, Option.some.injEq] at hc; subst hc
    simp [csvGo, h1, h2, h3, isBlank]

theorem csv_line (ts : List Str) (h : ∀ t ∈ ts, Readable t) (hne : ts ≠ [])
    (hv : ∀ t, ts.head? = some t → StartsVisibly t) (rest : Str) (acc : List (List Str)) :
    csvGo (joinWith [';'] ts ++ '\n' :: rest) .startRecord [] [] acc = afterLine rest ts acc := by
  obtain ⟨t, us, rfl⟩ := List.exists_cons_of_ne_nil hne
  obtain ⟨c, hc, hc1, hc2⟩ := hv t rfl
  have hc3 : c ≠ '\n' := by
    rintro rfl
    obtain ⟨s, rfl⟩ : ∃ s, t = '\n' :: s := by
      cases t with
      | nil => simp at hc
      | cons x s => simp at hc; exact ⟨s, by rw [hc]⟩
    exact (h _ List.mem_cons_self).2.1 List.mem_cons_self
  rw [csv_start _ c ?_ hc1 hc2 hc3, csv_fields _ hne h]
  · simp
  · cases us with
    | nil => cases t with
      | nil => simp at hc
      | cons x s => simpa [joinWith] using hc
    | cons u us =>
      rw [joinWith_cons2]
      cases t with
      | nil => simp at hc
      | cons x s => simpa using hc

/-- The lines of some records. -/
def linesOf (recs : List (List Str)) : Str := recs.flatMap fun r => joinWith [';'] r ++ ['\n']

theorem endLine_same (row : List Str) (acc : List (List Str)) (w : Nat) (hr : row.length = w)
    (ha : ∀ r ∈ acc, r.length = w) : endLine row acc = .ok (acc ++ [row]) := by
  cases acc with
  | nil => rfl
  | cons a acc =>
    have : a.length = w := ha a (by simp)
    simp [endLine, hr, this]

theorem csv_lines (recs : List (List Str)) (w : Nat) (acc : List (List Str))
    (ha : ∀ r ∈ acc, r.length = w)
    (hr : ∀ r ∈ recs, r.length = w ∧ r ≠ [] ∧ (∀ t ∈ r, Readable t) ∧
      ∀ t, r.head? = some t → StartsVisibly t) :
    csvGo (linesOf recs) .startRecord [] [] acc = .ok (acc ++ recs) := by
  induction recs generalizing acc with
  | nil => simp [linesOf, csvGo]
  | cons r recs ih =>
    obtain ⟨h1, h2, h3, h4⟩ := hr r (by simp)
    have e : linesOf (r :: recs) = joinWith [';'] r ++ '\n' :: linesOf recs := by
      simp [linesOf]
    rw [e, csv_line r h3 h2 h4]
    unfold afterLine
    rw [endLine_same r acc w h1 ha]
    dsimp only
    rw [ih (acc ++ [r]) ?_ (fun x hx => hr x (by simp [hx]))]
    · simp
    · intro x hx
      rcases List.mem_append.1 hx with hx | hx
      · exact ha x hx
      · simp at hx; rw [hx]; exact h1

theorem logAll_eq {E : Type} (fields : LogFields E) (file : Str) (es : List E) :
    logAll [';'] fields file es = file ++ linesOf (es.map (record fields)) := by
  induction es generalizing file with
  | nil => simp [logAll, linesOf]
  | cons e es ih =>
    have : logAll [';'] fields file (e :: es)
        = logAll [';'] fields (logEvaluation [';'] fields file e) es := rfl
    rw [this, ih]
    simp [logEvaluation, logLine, linesOf, record]

theorem universal_id (s : Str) (h : '\r' ∉ s) : universal s = s := by
  induction s with
  | nil => rfl
  | cons c s ih =>
    simp only [List.mem_cons, not_or] at h
    have a : c ≠ '\r' := fun e => h.1 e.symm
    cases s with
    | nil => simp [universal, a]
    | cons d s => rw [universal]; simp only [a, if_false, ih h.2]

theorem not_mem_joinWith (c : Char) (sep : Str) (hs : c ∉ sep) (ts : List Str)
    (h : ∀ t ∈ ts, c ∉ t) : c ∉ joinWith sep ts := by
  induction ts with
  | nil => simp [joinWith]
  | cons t ts ih =>
    cases ts with
    | nil => exact h t (by simp)
    | cons u us =>
      rw [joinWith_cons2]
      simp only [List.mem_append, not_or]
      exact ⟨⟨h t (by simp), hs⟩, ih fun x hx => h x (by simp [hx])⟩

theorem readline_line (s rest : Str) (h : '\n' ∉ s) :
    readline (s ++ '\n' :: rest) = s ++ ['\n'] := by
  induction s with
  | nil => simp [readline]
  | cons c s ih =>
    simp only [List.mem_cons, not_or] at h
    have a : c ≠ '\n' := fun e => h.1 e.symm
    simp [readline, a, ih h.2]

theorem splitOnChar_cons_ne (sep c : Char) (s : Str) (h : c ≠ sep) :
    ∃ p ps, splitOnChar sep s = p :: ps ∧ splitOnChar sep (c :: s) = (c :: p) :: ps := by
  have hne : splitOnChar sep s ≠ [] := by
    cases s with
    | nil => simp [splitOnChar]
    | cons d s =>
      simp only [splitOnChar]
      split_ifs
      · simp
      · split <;> simp
  obtain ⟨p, ps, e⟩ := List.exists_cons_of_ne_nil hne
  exact ⟨p, ps, e, by simp [splitOnChar, h, e]⟩

theorem splitOnChar_free (sep : Char) (s : Str) (h : sep ∉ s) : splitOnChar sep s = [s] := by
  induction s with
  | nil => rfl
  | cons c s ih =>
    simp only [List.mem_cons, not_or] at h
    obtain ⟨p, ps, e1, e2⟩ := splitOnChar_cons_ne sep c s (fun e => h.1 e.symm)
    rw [ih h.2] at e1
    simp only [List.cons.injEq] at e1
    rw [e2, ← e1.1, ← e1.2]

theorem splitOnChar_append (sep : Char) (a b : Str) (h : sep ∉ a) :
    splitOnChar sep (a ++ sep :: b) = a :: splitOnChar sep b := by
  induction a with
  | nil => simp [splitOnChar]
  | cons c a ih =>
    simp only [List.mem_cons, not_or] at h
    obtain ⟨p, ps, e1, e2⟩ := splitOnChar_cons_ne sep c (a ++ sep :: b) (fun e => h.1 e.symm)
    rw [ih h.2] at e1
    simp only [List.cons.injEq] at e1
    rw [List.cons_append, e2, ← e1.1, ← e1.2]

theorem splitOnChar_join (sep : Char) (ts : List Str) (hne : ts ≠ []) (h : ∀ t ∈ ts, sep ∉ t) :
    splitOnChar sep (joinWith [sep] ts) = ts := by
  induction ts with
  | nil => exact absurd rfl hne
  | cons t ts ih =>
    cases ts with
    | nil => exact splitOnChar_free sep t (h t (by simp))
    | cons u us =>
      rw [joinWith_cons2]
      simp only [List.append_assoc, List.singleton_append]
      rw [splitOnChar_append sep t _ (h t (by simp)), ih (by simp) fun x hx => h x (by simp [hx])]

/-- The text of the header. -/
def headerText {E : Type} (fields : LogFields E) : Str := joinWith [';'] (fields.map Prod.fst)

theorem logOf_eq {E : Type} (fields : LogFields E) (es : List E) :
    logOf fields es = headerText fields ++ '\n' :: linesOf (es.map (record fields)) := by
  unfold logOf
  rw [logAll_eq]
  simp [loggerInit, logLine, headerText]

section
variable {E : Type} {fields : LogFields E} {es : List E}

theorem header_no_newline (h : CleanLog fields es) : '\n' ∉ headerText fields := by
  refine not_mem_joinWith _ _ (by decide) _ ?_
  intro t ht
  obtain ⟨f, hf, rfl⟩ := List.mem_map.1 ht
  exact (h.names f hf).2.1

theorem log_no_return (h : CleanLog fields es) : '\r' ∉ logOf fields es := by
  rw [logOf_eq]
  have a : '\r' ∉ headerText fields := by
    refine not_mem_joinWith _ _ (by decide) _ ?_
    intro t ht
    obtain ⟨f, hf, rfl⟩ := List.mem_map.1 ht
    exact (h.names f hf).2.2.1
  have b : '\r' ∉ linesOf (es.map (record fields)) := by
    intro hm
    obtain ⟨r, hr, hm⟩ := List.mem_flatMap.1 hm
    obtain ⟨e, he, rfl⟩ := List.mem_map.1 hr
    rcases List.mem_append.1 hm with hm | hm
    · refine not_mem_joinWith _ _ (by decide) _ ?_ hm
      intro t ht
      obtain ⟨f, hf, rfl⟩ := List.mem_map.1 ht
      exact (h.texts e he f hf).2.2.1
    · simp at hm
  simp [a, b]

theorem log_header (h : CleanLog fields es) :
    readline (universal (logOf fields es)) = headerText fields ++ ['\n'] := by
  rw [universal_id _ (log_no_return h), logOf_eq, readline_line _ _ (header_no_newline h)]

theorem clean_records (h : CleanLog fields es) : ∀ r ∈ es.map (record fields),
    r.length = fields.length ∧ r ≠ [] ∧ (∀ t ∈ r, Readable t) ∧
      ∀ t, r.head? = some t → StartsVisibly t := by
  intro r hr
  obtain ⟨e, he, rfl⟩ := List.mem_map.1 hr
  refine ⟨by simp [record], ?_, ?_, h.visible e he⟩
  · intro hn
    exact h.nonempty (List.map_eq_nil_iff.1 hn)
  · intro t ht
    obtain ⟨f, hf, rfl⟩ := List.mem_map.1 ht
    exact h.texts e he f hf

theorem header_split (h : CleanLog fields es) :
    splitOnChar ';' (headerText fields) = fields.map Prod.fst :=
  splitOnChar_join _ _ (by simpa using h.nonempty) (by
    intro t ht
    obtain ⟨f, hf, rfl⟩ := List.mem_map.1 ht
    exact (h.names f hf).1)

/-- Reading a clean log from the end of its first evaluations on. -/
theorem readLog_from (a b : List E) (h : CleanLog fields (a ++ b)) :
    readLog (logOf fields (a ++ b)) (logOf fields a).length
      = ((logOf fields a).length, fields.map Prod.fst, .ok (b.map (record fields))) := by
  unfold readLog
  dsimp only
  rw [log_header h]
  have hl : max (logOf fields a).length (headerText fields ++ ['\n']).length
      = (logOf fields a).length := by
    rw [logOf_eq]; simp
  rw [hl]
  have hd : (headerText fields ++ ['\n']).dropLast = headerText fields := by simp
  rw [hd, header_split h, universal_id _ (log_no_return h)]
  have e : logOf fields (a ++ b) = logOf fields a ++ linesOf (b.map (record fields)) := by
    rw [logOf_eq, logOf_eq]; simp [linesOf]
  rw [e, List.drop_left]
  unfold readCsv
  rw [csv_lines _ fields.length [] (by simp)
    (fun r hr => clean_records h r (by
      rw [List.map_append]; exact List.mem_append_right _ hr))]
  simp

end

/-- Reading a clean log for the first time. -/
theorem readLog_first {E : Type} {fields : LogFields E} {es : List E} (h : CleanLog fields es) :
    readLog (logOf fields es) 0
      = ((headerText fields).length + 1, fields.map Prod.fst, .ok (es.map (record fields))) := by
  have := readLog_from [] es (fields := fields) (by simpa using h)
  have e : (logOf fields ([] : List E)).length = (headerText fields).length + 1 := by
    rw [logOf_eq]; simp [linesOf]
  rw [e] at this
  rw [← this]
  unfold readLog
  dsimp only
  rw [List.nil_append, log_header h]
  simp

/-! ### C72 -/

/-- The full claim: whatever the texts are, the log reads back as it was logged. -/
def C72_claim : Prop := ∀ (E : Type) (fields : LogFields E) (es : List E), fields ≠ [] →
  (readLog (logOf fields es) 0).2 = (fields.map Prod.fst, .ok (es.map (record fields)))

/-- **C72, the part that holds.**  Reading the log gives the column names and one record per
evaluation, in order, with the logged texts, provided that no text contains the separator, a line
end, or begins with a quotation mark, and no line is blank.  Missing: other texts, see below. -/
theorem C72_partial {E : Type} (fields : LogFields E) (es : List E) (h : CleanLog fields es) :
    (readLog (logOf fields es) 0).2 = (fields.map Prod.fst, .ok (es.map (record fields))) := by
  rw [readLog_first h]

/-- Two columns, and evaluations that are their two texts. -/
def pairFields : LogFields (Str × Str) :=
  [(['i', 'd'], fun e => e.1), (['e', 'r', 'r', 'o', 'r'], fun e => e.2)]

example : CleanLog pairFields [(['a'], ['N', 'o', 'n', 'e']), (['b'], [])] := by
  refine ⟨by simp [pairFields], ?_, ?_, ?_⟩
  · simp [pairFields, Readable]
  · simp [pairFields, Readable]
  · simp [pairFields, record, StartsVisibly]

example : readLog (logOf pairFields [(['a'], ['N', 'o', 'n', 'e']), (['b'], [])]) 0
    = (9, [['i', 'd'], ['e', 'r', 'r', 'o', 'r']],
        .ok [[['a'], ['N', 'o', 'n', 'e']], [['b'], []]]) := by decide +kernel

/-- An error message of two lines gives two records instead of one. -/
theorem C72_newline : (readLog (logOf pairFields [(['a'], ['x', '\n', 'y'])]) 0).2
    = ([['i', 'd'], ['e', 'r', 'r', 'o', 'r']], .ok [[['a'], ['x']], [['y'], []]]) := by
  decide +kernel

/-- A separator in the error message of the second evaluation makes the log unreadable. -/
theorem C72_separator :
    (readLog (logOf pairFields [(['a'], ['x']), (['b'], ['y', ';', 'z'])]) 0).2.2
      = .error .valueError := by
  decide +kernel

/-- Quotation marks around the error message are lost, and an unclosed one makes the log
unreadable. -/
theorem C72_quote :
    (readLog (logOf pairFields [(['a'], ['"', 'x', '"'])]) 0).2.2 = .ok [[['a'], ['x']]] ∧
    (readLog (logOf pairFields [(['a'], ['"', 'x'])]) 0).2.2 = .error .valueError := by
  decide +kernel

/-- **C72 is false of the code**: texts are written without quoting. -/
theorem C72_false : ¬ C72_claim := by
  intro h
  have := h _ pairFields [(['a'], ['x', '\n', 'y'])] (by simp [pairFields])
  rw [C72_newline] at this
  revert this
  decide +kernel

/-! ### C73 -/

namespace Spec

/-- The texts of the log each time it is looked at, given the evaluations logged in between. -/
def snapshots {E : Type} (fields : LogFields E) (before : List E) : List (List E) → List Str
  | [] => []
  | c :: cs => logOf fields (before ++ c) :: snapshots fields (before ++ c) cs

end Spec

section
variable {M I : Type} [LinearOrder M]

theorem convertRow_shift (C : Conversions M I) (m : Nat) (header : List Str) (n k : Nat)
    (r : List Str) : convertRow C m header (n + k) r
      = (convertRow C m header n r).map fun x =>
          (⟨x.1.record, x.1.n + k, x.1.metrics, x.1.start, x.1.duration⟩, x.2) := by
  unfold convertRow
  simp only [bind, Except.bind]
  repeat' (first | rfl | split)

theorem convertRows_shift (C : Conversions M I) (m : Nat) (header : List Str) (n k : Nat)
    (rs : List (List Str)) : convertRows C m header (n + k) rs
      = (convertRows C m header n rs).map fun xs => xs.map fun x =>
          (⟨x.1.record, x.1.n + k, x.1.metrics, x.1.start, x.1.duration⟩, x.2) := by
  induction rs generalizing n with
  | nil => rfl
  | cons r rs ih =>
    have e : n + k + 1 = (n + 1) + k := by omega
    simp only [convertRows, bind, Except.bind]
    rw [convertRow_shift, e, ih]
    cases convertRow C m header n r with
    | error _ => rfl
    | ok x =>
      cases convertRows C m header (n + 1) rs with
      | error _ => rfl
      | ok xs => rfl

theorem convertRows_append (C : Conversions M I) (m : Nat) (header : List Str) (n : Nat)
    (as bs : List (List Str)) : convertRows C m header n (as ++ bs)
      = (convertRows C m header n as).bind fun xs =>
          (convertRows C m header (n + as.length) bs).map fun ys => xs ++ ys := by
  induction as generalizing n with
  | nil =>
    simp only [List.nil_append, convertRows, Except.bind, List.length_nil, Nat.add_zero]
    cases convertRows C m header n bs <;> rfl
  | cons a as ih =>
    have e : n + 1 + as.length = n + (a :: as).length := by simp; omega
    simp only [List.cons_append, convertRows, bind, Except.bind]
    cases convertRow C m header n a with
    | error _ => rfl
    | ok x =>
      dsimp only
      rw [ih, e]
      cases convertRows C m header (n + 1) as with
      | error _ => rfl
      | ok xs =>
        simp only [Except.bind]
        cases convertRows C m header (n + (a :: as).length) bs <;> rfl

theorem convertRows_n (C : Conversions M I) (m : Nat) (header : List Str) (n : Nat)
    (rs : List (List Str)) (xs : List (ReportRow M × (Str × I)))
    (h : convertRows C m header n rs = .ok xs) :
    (xs.map fun x => x.1.n) = List.range' n rs.length := by
  induction rs generalizing n xs with
  | nil => simp only [convertRows, Except.ok.injEq] at h; subst h; rfl
  | cons r rs ih =>
    simp only [convertRows, bind, Except.bind] at h
    cases hx : convertRow C m header n r with
    | error _ => rw [hx] at h; simp at h
    | ok x =>
      rw [hx] at h
      dsimp only at h
      cases hy : convertRows C m header (n + 1) rs with
      | error _ => rw [hy] at h; simp at h
      | ok ys =>
        rw [hy] at h
        simp only [Except.ok.injEq] at h
        subst h
        have hn : x.1.n = n := by
          unfold convertRow at hx
          simp only [bind, Except.bind] at hx
          repeat' split at hx
          all_goals first | contradiction | skip
          all_goals (simp only [Except.ok.injEq] at hx; subst hx; rfl)
        simp [hn, ih _ _ hy, List.range'_succ]

theorem maxNat_range' (n k : Nat) : maxNat (List.range' n (k + 1)) = n + k := by
  induction k generalizing n with
  | zero => simp [maxNat]
  | succ k ih =>
    rw [List.range'_succ, maxNat, ih]; omega

/-- The report after successfully reading some records. -/
def reportOf (metrics tell : Nat) (xs : List (ReportRow M × (Str × I))) : Report M I :=
  match xs with
  | [] => ⟨true, metrics, tell, [], [], [], []⟩
  | _ :: _ => derive ⟨true, metrics, tell, xs.map Prod.fst, dmerge [] (xs.map Prod.snd), [], []⟩

theorem reportOf_parts (m t : Nat) (xs : List (ReportRow M × (Str × I))) :
    (reportOf m t xs).incomplete = true ∧ (reportOf m t xs).metrics = m ∧
    (reportOf m t xs).tell = t ∧ (reportOf m t xs).rows = xs.map Prod.fst ∧
    (reportOf m t xs).individuals = dmerge [] (xs.map Prod.snd) := by
  cases xs <;> simp [reportOf, derive, dmerge]

theorem appendRows_eq (C : Conversions M I) (m : Nat) (header : List Str) (as : List (List Str))
    (xs ys : List (ReportRow M × (Str × I))) (hx : convertRows C m header 0 as = .ok xs) :
    appendRows (xs.map Prod.fst) (ys.map Prod.fst)
      = xs.map Prod.fst ++ (ys.map fun x => (⟨x.1.record, x.1.n + as.length, x.1.metrics,
          x.1.start, x.1.duration⟩ : ReportRow M)) := by
  have hn := convertRows_n C m header 0 as xs hx
  have hl : xs.length = as.length := by simpa using congrArg List.length hn
  cases xs with
  | nil =>
    have : as.length = 0 := by simpa using hl.symm
    simp [appendRows, this, Function.comp_def]
  | cons x xs =>
    obtain ⟨k, hk⟩ : ∃ k, as.length = k + 1 := ⟨xs.length, by simpa using hl.symm⟩
    have hm : maxNat (((x :: xs).map Prod.fst).map fun y => y.n) + 1 = as.length := by
      rw [List.map_map]
      have : ((fun y : ReportRow M => y.n) ∘ (Prod.fst : ReportRow M × (Str × I) → _))
          = fun x => x.1.n := rfl
      rw [this, hn, hk, maxNat_range']; omega
    rw [← hm]
    simp [appendRows, Function.comp_def]

theorem update_step {E : Type} (C : Conversions M I) (fields : LogFields E) (m t : Nat)
    (a c : List E) (force : Bool) (h : CleanLog fields (a ++ c))
    (xs : List (ReportRow M × (Str × I)))
    (hx : convertRows C m (fields.map Prod.fst) 0 (a.map (record fields)) = .ok xs)
    (hr : readLog (logOf fields (a ++ c)) t
      = ((logOf fields a).length, fields.map Prod.fst, .ok (c.map (record fields)))) :
    match convertRows C m (fields.map Prod.fst) 0 ((a ++ c).map (record fields)) with
    | .ok ys => ∃ b, update C (logOf fields (a ++ c)) force (reportOf m t xs)
        = (.ok b, reportOf m (logOf fields (a ++ c)).length ys)
    | .error e => ∃ r, update C (logOf fields (a ++ c)) force (reportOf m t xs) = (.error e, r) := by
  obtain ⟨p1, p2, p3, p4, p5⟩ := reportOf_parts m t xs
  rw [List.map_append, convertRows_append, hx]
  simp only [Except.bind, Nat.zero_add]
  unfold update
  rw [p1, p3, hr]
  simp only [Bool.not_true, Bool.and_false, Bool.false_eq_true, if_false]
  cases c with
  | nil =>
    simp only [List.map_nil, convertRows, Except.map, List.append_nil]
    exact ⟨false, by cases xs <;> simp [reportOf, derive]⟩
  | cons e c =>
    simp only [List.map_cons]
    have hl : (record fields e).length = (fields.map Prod.fst).length := by simp [record]
    rw [if_neg (by simp [record])]
    rw [p2]
    have hz := convertRows_shift C m (fields.map Prod.fst) 0 (a.map (record fields)).length
      (record fields e :: c.map (record fields))
    rw [Nat.zero_add] at hz
    rw [hz]
    cases hy : convertRows C m (fields.map Prod.fst) 0
        (record fields e :: c.map (record fields)) with
    | error e' => exact ⟨_, rfl⟩
    | ok ys =>
      have hne : ys ≠ [] := by
        rintro rfl
        have := congrArg List.length (convertRows_n C m _ 0 _ _ hy)
        simp at this
      refine ⟨true, ?_⟩
      dsimp only [Except.map]
      rw [p4, p5, appendRows_eq C m _ _ xs ys hx, universal_id _ (log_no_return h)]
      obtain ⟨y, ys', rfl⟩ := List.exists_cons_of_ne_nil hne
      cases xs with
      | nil => simp [reportOf, derive, dmerge, p1, Function.comp_def]
      | cons x xs => simp [reportOf, derive, dmerge, p1, Function.comp_def, List.foldl_append]

theorem updates_from {E : Type} (C : Conversions M I) (fields : LogFields E) (m t : Nat)
    (a : List E) (cs : List (List E)) (force : Bool) (h : CleanLog fields (a ++ cs.flatten))
    (xs : List (ReportRow M × (Str × I)))
    (hx : convertRows C m (fields.map Prod.fst) 0 (a.map (record fields)) = .ok xs)
    (hr : ∀ c, CleanLog fields (a ++ c) → readLog (logOf fields (a ++ c)) t
      = ((logOf fields a).length, fields.map Prod.fst, .ok (c.map (record fields))))
    (hcs : cs ≠ []) :
    updates C force (reportOf m t xs) (snapshots fields a cs)
      = (convertRows C m (fields.map Prod.fst) 0 ((a ++ cs.flatten).map (record fields))).map
          fun ys => reportOf m (logOf fields (a ++ cs.flatten)).length ys := by
  induction cs generalizing a t xs force with
  | nil => exact absurd rfl hcs
  | cons c cs ih =>
    have hc : CleanLog fields (a ++ c) :=
      ⟨h.nonempty, h.names, fun e he => h.texts e (by
        rw [List.flatten_cons, ← List.append_assoc]; exact List.mem_append_left _ he),
       fun e he => h.visible e (by
        rw [List.flatten_cons, ← List.append_assoc]; exact List.mem_append_left _ he)⟩
    have step := update_step C fields m t a c force hc xs hx (hr c hc)
    have assoc : a ++ (c :: cs).flatten = (a ++ c) ++ cs.flatten := by simp
    simp only [snapshots, updates]
    cases hy : convertRows C m (fields.map Prod.fst) 0 ((a ++ c).map (record fields)) with
    | error e =>
      rw [hy] at step
      obtain ⟨r, hr'⟩ := step
      rw [hr', assoc, List.map_append (l₁ := a ++ c), convertRows_append, hy]
      rfl
    | ok ys =>
      rw [hy] at step
      obtain ⟨b, hb⟩ := step
      rw [hb]
      dsimp only
      by_cases hn : cs = []
      · subst hn
        simp only [snapshots, updates, List.flatten_cons, List.flatten_nil, List.append_nil]
        rw [hy]; rfl
      · rw [assoc] at h ⊢
        exact ih (logOf fields (a ++ c)).length (a ++ c) false h ys hy
          (fun d hd => readLog_from (a ++ c) d hd) hn

/-- **C73.**  For every log whose texts can be told apart (C72) and every way to cut it into pieces
of whole records: a report constructed when the first piece was there and updated after each further
piece is the same as one constructed when all were there -- rows with their numbering, individuals,
running best, relative ends and position -- and if a record cannot be converted, both raise the same
exception. -/
theorem C73_incremental {E : Type} (C : Conversions M I) (fields : LogFields E) (m : Nat)
    (pieces : List (List E)) (hp : pieces ≠ []) (h : CleanLog fields pieces.flatten) :
    updates C true (newReport true m) (snapshots fields [] pieces)
      = updates C true (newReport true m) [logOf fields pieces.flatten] := by
  have hread : ∀ c, CleanLog fields ([] ++ c) → readLog (logOf fields ([] ++ c)) 0
      = ((logOf fields ([] : List E)).length, fields.map Prod.fst, .ok (c.map (record fields))) := by
    intro c hc
    rw [List.nil_append] at hc ⊢
    rw [readLog_first hc, logOf_eq]
    simp [linesOf]
  have h0 : (newReport true m : Report M I) = reportOf m 0 [] := rfl
  have key := fun cs hcs h => updates_from C fields m 0 [] cs true h [] rfl hread hcs
  rw [h0, key pieces hp (by simpa using h)]
  have := key [pieces.flatten] (by simp) (by simpa using h)
  simp only [snapshots, List.nil_append, List.flatten_cons, List.flatten_nil,
    List.append_nil] at this
  rw [this]
  simp

end

namespace Spec

/-- `best` is the running maximum of `col`. -/
def RunningBest {M : Type} [LinearOrder M] (col best : List M) : Prop :=
  best.length = col.length ∧ ∀ i b, best[i]? = some b →
    b ∈ col.take (i + 1) ∧ ∀ x ∈ col.take (i + 1), x ≤ b

/-- `m` is the least of some numbers. -/
def Least (m : ℚ) (xs : List ℚ) : Prop := m ∈ xs ∧ ∀ x ∈ xs, m ≤ x

end Spec

section
variable {M I : Type} [LinearOrder M]

theorem runningMax_some (b : M) (l : List M) : (runningMax (some b) l).length = l.length ∧
    ∀ i y, (runningMax (some b) l)[i]? = some y →
      (y = b ∨ y ∈ l.take (i + 1)) ∧ b ≤ y ∧ ∀ x ∈ l.take (i + 1), x ≤ y := by
  induction l generalizing b with
  | nil => simp [runningMax]
  | cons m l ih =>
    obtain ⟨h1, h2⟩ := ih (max b m)
    refine ⟨by simp [runningMax, h1], ?_⟩
    intro i y hy
    simp only [runningMax] at hy
    cases i with
    | zero =>
      simp only [List.getElem?_cons_zero, Option.some.injEq] at hy
      subst hy
      refine ⟨?_, le_max_left _ _, by simp⟩
      rcases max_choice b m with e | e <;> simp [e]
    | succ i =>
      simp only [List.getElem?_cons_succ] at hy
      obtain ⟨a1, a2, a3⟩ := h2 i y hy
      refine ⟨?_, le_trans (le_max_left _ _) a2, ?_⟩
      · rcases a1 with e | e
        · rcases max_choice b m with e' | e'
          · exact .inl (e.trans e')
          · exact .inr (by simp [e, e'])
        · exact .inr (by simp [e])
      · intro x hx
        simp only [List.take_succ_cons, List.mem_cons] at hx
        rcases hx with rfl | hx
        · exact le_trans (le_max_right _ _) a2
        · exact a3 x hx

theorem runningMax_spec (l : List M) : RunningBest l (runningMax none l) := by
  cases l with
  | nil => simp [RunningBest, runningMax]
  | cons m l =>
    obtain ⟨h1, h2⟩ := runningMax_some m l
    refine ⟨by simp [runningMax, h1], ?_⟩
    intro i y hy
    simp only [runningMax] at hy
    cases i with
    | zero =>
      simp only [List.getElem?_cons_zero, Option.some.injEq] at hy
      subst hy
      simp
    | succ i =>
      simp only [List.getElem?_cons_succ] at hy
      obtain ⟨a1, a2, a3⟩ := h2 i y hy
      refine ⟨?_, ?_⟩
      · rcases a1 with e | e <;> simp [e]
      · intro x hx
        simp only [List.take_succ_cons, List.mem_cons] at hx
        rcases hx with rfl | hx
        · exact a2
        · exact a3 x hx

omit [LinearOrder M] in
theorem minOf_spec (m : ℚ) (xs : List ℚ) : Least (minOf m xs) (m :: xs) := by
  induction xs generalizing m with
  | nil => simp [minOf, Least]
  | cons x xs ih =>
    obtain ⟨h1, h2⟩ := ih (min m x)
    refine ⟨?_, ?_⟩
    · rcases List.mem_cons.1 h1 with e | e
      · simp only [minOf]
        rw [e]
        rcases min_choice m x with e' | e' <;> simp [e']
      · simp only [minOf]; simp [e]
    · intro y hy
      have hb := h2 (min m x) (by simp)
      simp only [minOf]
      rcases List.mem_cons.1 hy with e | hy
      · rw [e]; exact le_trans hb (min_le_left _ _)
      · rcases List.mem_cons.1 hy with e | hy
        · rw [e]; exact le_trans hb (min_le_right _ _)
        · exact h2 y (by simp [hy])

theorem convertRow_ok (C : Conversions M I) (m : Nat) (header : List Str) (n : Nat)
    (r : List Str) (x : ReportRow M × (Str × I)) (h : convertRow C m header n r = .ok x) :
    x.1.record = r ∧ x.1.metrics.length = m ∧ x.1.n = n := by
  unfold convertRow at h
  simp only [bind, Except.bind] at h
  repeat' split at h
  all_goals first | contradiction | skip
  all_goals (simp only [Except.ok.injEq] at h; subst h; refine ⟨rfl, ?_, rfl⟩; simp_all)

theorem convertRows_ok (C : Conversions M I) (m : Nat) (header : List Str) (n : Nat)
    (rs : List (List Str)) (xs : List (ReportRow M × (Str × I)))
    (h : convertRows C m header n rs = .ok xs) :
    (xs.map fun x => x.1.record) = rs ∧ ∀ x ∈ xs, x.1.metrics.length = m := by
  induction rs generalizing n xs with
  | nil => simp only [convertRows, Except.ok.injEq] at h; subst h; simp
  | cons r rs ih =>
    simp only [convertRows, bind, Except.bind] at h
    cases hx : convertRow C m header n r with
    | error _ => rw [hx] at h; simp at h
    | ok x =>
      rw [hx] at h
      dsimp only at h
      cases hy : convertRows C m header (n + 1) rs with
      | error _ => rw [hy] at h; simp at h
      | ok ys =>
        rw [hy] at h
        simp only [Except.ok.injEq] at h
        subst h
        obtain ⟨a, b, _⟩ := convertRow_ok C m header n r x hx
        obtain ⟨c, d⟩ := ih _ _ hy
        refine ⟨by simp [a, c], ?_⟩
        intro z hz
        rcases List.mem_cons.1 hz with e | hz
        · rw [e]; exact b
        · exact d z hz

/-- **C73, what a report contains.**  However the log was read, a report has one row per evaluation,
in order, with the texts logged, numbered from 0; for each metric the running best; and relative to
the earliest start, when each evaluation ended. -/
theorem C73_contents {E : Type} (C : Conversions M I) (fields : LogFields E) (m : Nat)
    (pieces : List (List E)) (hp : pieces ≠ []) (h : CleanLog fields pieces.flatten)
    (r : Report M I)
    (hr : updates C true (newReport true m) (snapshots fields [] pieces) = .ok r) :
    r.rows.map (fun x => x.record) = pieces.flatten.map (record fields) ∧
    r.rows.map (fun x => x.n) = List.range pieces.flatten.length ∧
    (pieces.flatten ≠ [] → ∀ k < m, ∃ best, r.cummax[k]? = some best ∧
      RunningBest (r.rows.filterMap fun x => x.metrics[k]?) best ∧
      best.length = pieces.flatten.length) ∧
    (pieces.flatten ≠ [] → ∃ first, Least first (r.rows.map fun x => x.start) ∧
      r.relativeEnd = r.rows.map fun x => x.start + x.duration - first) := by
  have hread : ∀ c, CleanLog fields ([] ++ c) → readLog (logOf fields ([] ++ c)) 0
      = ((logOf fields ([] : List E)).length, fields.map Prod.fst, .ok (c.map (record fields))) := by
    intro c hc
    rw [List.nil_append] at hc ⊢
    rw [readLog_first hc, logOf_eq]
    simp [linesOf]
  have h0 : (newReport true m : Report M I) = reportOf m 0 [] := rfl
  rw [h0, updates_from C fields m 0 [] pieces true (by simpa using h) [] rfl hread hp,
    List.nil_append] at hr
  cases hx : convertRows C m (fields.map Prod.fst) 0 (pieces.flatten.map (record fields)) with
  | error e => rw [hx] at hr; simp [Except.map] at hr
  | ok xs =>
    rw [hx] at hr
    simp only [Except.map, Except.ok.injEq] at hr
    obtain ⟨_, _, _, p4, _⟩ := reportOf_parts m (logOf fields pieces.flatten).length xs
    rw [hr] at p4
    obtain ⟨c1, c2⟩ := convertRows_ok C m _ 0 _ _ hx
    have c3 := convertRows_n C m _ 0 _ _ hx
    have hlen : xs.length = pieces.flatten.length := by
      have := congrArg List.length c1
      rwa [List.length_map, List.length_map] at this
    refine ⟨?_, ?_, ?_, ?_⟩
    · rw [p4, List.map_map]; exact c1
    · rw [p4, List.map_map, List.range_eq_range']
      simpa [Function.comp_def] using c3
    · intro hne k hk
      cases xs with
      | nil => exact absurd (List.length_eq_zero_iff.1 hlen.symm) hne
      | cons x xs =>
        have hc : r.cummax = (List.range m).map fun k => runningMax none (metricColumn k r.rows) := by
          rw [← hr]; simp [reportOf, derive]
        refine ⟨runningMax none (metricColumn k r.rows), by rw [hc]; simp [hk], runningMax_spec _, ?_⟩
        rw [(runningMax_spec _).1, ← hlen, p4]
        have : ∀ zs : List (ReportRow M × (Str × I)), (∀ z ∈ zs, z.1.metrics.length = m) →
            (metricColumn k (zs.map Prod.fst)).length = zs.length := by
          intro zs hz
          induction zs with
          | nil => rfl
          | cons z zs ih =>
            have hk' : k < z.1.metrics.length := by rw [hz z (by simp)]; exact hk
            have := ih fun y hy => hz y (by simp [hy])
            simp only [metricColumn, List.map_cons, List.filterMap_cons,
              List.getElem?_eq_getElem hk', List.length_cons] at this ⊢
            omega
        exact this _ c2
    · intro hne
      cases xs with
      | nil => exact absurd (List.length_eq_zero_iff.1 hlen.symm) hne
      | cons x xs =>
        refine ⟨minOf x.1.start ((xs.map Prod.fst).map fun z => z.start), ?_, ?_⟩
        · rw [p4, List.map_cons, List.map_cons]
          exact minOf_spec _ _
        · rw [p4, ← hr]
          simp [reportOf, derive]

/-- A report on a search that was over when it was constructed does not change afterwards. -/
theorem C73_complete (C : Conversions M I) (file : Str) (r : Report M I)
    (h : r.incomplete = false) : update C file false r = (.ok false, r) := by
  simp [update, h]

end

/-- Conversions for the example: a score is the length of its text, times are 1. -/
def lengthConversions : Conversions Nat Str where
  scores s := .ok [s.length]
  start _ := .ok 1
  duration _ := .ok 1
  pipeline s := .ok s

/-- The columns a report needs. -/
def reportFields : LogFields (Str × Str) :=
  [(['i', 'd'], fun e => e.1), (['t', '_', 's', 't', 'a', 'r', 't'], fun _ => ['1']),
   (['t', '_', 'w', 'a', 'l', 'l', 'c', 'l', 'o', 'c', 'k'], fun _ => ['1']),
   (['s', 'c', 'o', 'r', 'e'], fun e => e.2),
   (['p', 'i', 'p', 'e', 'l', 'i', 'n', 'e'], fun _ => ['P'])]

theorem reportFields_clean :
    CleanLog reportFields ([[(['a'], ['1', '2'])], [(['b'], ['1']), (['c'], ['1', '2', '3'])]] :
      List (List (Str × Str))).flatten := by
  refine ⟨by simp [reportFields], ?_, ?_, ?_⟩
  · simp [reportFields, Readable]
  · simp [reportFields, Readable]
  · simp [reportFields, record, StartsVisibly]

example : ∃ r, updates lengthConversions true (newReport true 1)
      (snapshots reportFields [] [[(['a'], ['1', '2'])], [(['b'], ['1']), (['c'], ['1', '2', '3'])]])
    = .ok r ∧ r.cummax = [[2, 2, 3]] ∧ r.rows.map (fun x => x.n) = [0, 1, 2] := by
  refine ⟨_, rfl, ?_, ?_⟩ <;> decide +kernel

/-! ### C74 -/

namespace Spec

/-- The handlers that `register_stream_log` takes for its own. -/
def Console (h : Handler) : Bool := h.tag && h.stream

/-- The latest construction: name and verbosity. -/
def latest : List HandlerEvent → Option (Nat × Nat)
  | [] => none
  | .construct id v _ _ :: es => some ((latest es).getD (id, v))
  | .add _ :: es => latest es

/-- The handlers others than GAMA's console that were installed, in order. -/
def installed : List HandlerEvent → List Handler
  | [] => []
  | .construct id _ true d :: es => ⟨id, false, true, debugLevel, some d⟩ :: installed es
  | .construct _ _ false _ :: es => installed es
  | .add h :: es => h :: installed es

end Spec

theorem register_others (id v : Nat) (hs : List Handler) :
    (registerStreamLog id v hs).filter (fun h => !Console h) = hs.filter (fun h => !Console h) := by
  unfold registerStreamLog
  split_ifs with h
  · simp [Console]
  · simp [Console]

theorem register_console (id v : Nat) (hs : List Handler) :
    (registerStreamLog id v hs).filter Console = [⟨id, true, true, v, none⟩] := by
  unfold registerStreamLog
  split_ifs with h
  · simp [Console]
  · have : hs.filter Console = [] := by
      rw [List.filter_eq_nil_iff]
      intro x hx hc
      apply h
      refine List.length_pos_of_mem (a := x) (List.mem_filter.2 ⟨hx, ?_⟩)
      simp only [Console, Bool.and_eq_true] at hc
      exact hc.1
    simp only [List.filter_append, this]
    simp [Console]

/-- The full claim: one console handler of GAMA with the latest verbosity, and all handlers the user
installed still there. -/
def C74_claim : Prop := ∀ (hs : List Handler) (es : List HandlerEvent) (h : Handler),
  (h ∈ hs ∨ HandlerEvent.add h ∈ es) → h ∈ handlerRun hs es

/-- **C74, the part that holds.**  Whatever handlers were there, after any sequence of constructions
and handlers added by the user:
* if the handlers of the user are not both stream handlers and have an attribute `tag`, then exactly
  one such handler is there after the first construction, of the latest construction and with its
  verbosity;
* all other handlers are there, in the order in which they were installed.
Missing: handlers of the user that are stream handlers with an attribute `tag`. -/
theorem C74_partial (hs : List Handler) (es : List HandlerEvent) :
    (handlerRun hs es).filter (fun h => !Console h)
      = (hs ++ installed es).filter (fun h => !Console h) ∧
    ((∀ h, HandlerEvent.add h ∈ es → Console h = false) →
      (handlerRun hs es).filter Console = match latest es with
        | some (id, v) => [⟨id, true, true, v, none⟩]
        | none => hs.filter Console) := by
  induction es generalizing hs with
  | nil => simp [handlerRun, installed, latest]
  | cons e es ih =>
    have hrun : handlerRun hs (e :: es) = handlerRun (handlerStep hs e) es := rfl
    rw [hrun]
    obtain ⟨i1, i2⟩ := ih (handlerStep hs e)
    refine ⟨?_, ?_⟩
    · rw [i1]
      cases e with
      | add h => simp [handlerStep, installed]
      | construct id v st d =>
        cases st with
        | false =>
          simp [handlerStep, initHandlers, installed, List.filter_append, register_others]
        | true =>
          simp only [handlerStep, initHandlers, installed, List.filter_append, register_others,
            if_true]
          simp [List.filter_cons, Console]
    · intro hu
      rw [i2 fun h hh => hu h (by simp [hh])]
      cases e with
      | add h =>
        have hc := hu h (by simp)
        simp only [latest, handlerStep]
        cases latest es with
        | none => simp [hc]
        | some x => rfl
      | construct id v st d =>
        have hcon : (handlerStep hs (.construct id v st d)).filter Console
            = [⟨id, true, true, v, none⟩] := by
          cases st with
          | false => simpa [handlerStep, initHandlers] using register_console id v hs
          | true =>
            simp only [handlerStep, initHandlers, if_true, List.filter_append, register_console]
            simp [Console]
        simp only [latest]
        cases latest es with
        | none => simpa using hcon
        | some x => rfl

/-- A user's file handler, two constructions. -/
example : handlerRun [⟨7, false, true, 0, none⟩] [.construct 1 30 true 5, .construct 2 20 false 6]
    = [⟨7, false, true, 0, none⟩, ⟨1, false, true, 10, some 5⟩, ⟨2, true, true, 20, none⟩] := by
  decide

/-- **C74 is false of the code**: a stream handler of the user that happens to have an attribute
`tag` is removed. -/
theorem C74_false : ¬ C74_claim := by
  intro h
  have := h [⟨7, true, true, 0, none⟩] [.construct 1 30 false 5] ⟨7, true, true, 0, none⟩
    (.inl (by simp))
  revert this
  decide

/-! ### C75 -/

namespace Spec

/-- A text without the characters `init_to_hps` takes as punctuation. -/
def PlainText (t : Str) : Prop := '(' ∉ t ∧ ')' ∉ t ∧ ',' ∉ t ∧ '=' ∉ t

/-- Arguments that print without nested punctuation. -/
def PlainArg (a : Str × ArgText) : Prop := PlainText a.1 ∧ match a.2 with
  | .plain t => PlainText t
  | .config n hps => PlainText n ∧ ∀ kv ∈ hps, PlainText kv.1 ∧ PlainText kv.2

/-- Names and values of the arguments, those of nested configurations included. -/
def named (args : List (Str × ArgText)) : List (Str × Str) := args.flatMap fun a => match a.2 with
  | .plain t => [(a.1, t)]
  | .config n hps => (a.1, n) :: hps

end Spec

theorem replaceTwo_free (a b : Char) (s t : Str) (h : a ∉ s) :
    replaceTwo a b (s ++ t) = s ++ replaceTwo a b t := by
  induction s with
  | nil => rfl
  | cons c s ih =>
    simp only [List.mem_cons, not_or] at h
    have hc : c ≠ a := fun e => h.1 e.symm
    cases hst : s ++ t with
    | nil =>
      obtain ⟨rfl, rfl⟩ := List.append_eq_nil_iff.1 hst
      simp [replaceTwo]
    | cons d r =>
      rw [List.cons_append, hst, replaceTwo]
      simp only [hc, false_and, if_false]
      rw [← hst, ih h.2]; rfl

theorem replaceTwo_hit (a b : Char) (s t : Str) (h : a ∉ s) :
    replaceTwo a b (s ++ a :: b :: t) = s ++ ',' :: replaceTwo a b t := by
  rw [replaceTwo_free a b s _ h]
  simp [replaceTwo]

theorem replaceTwo_miss (a b : Char) (s t : Str) (h : a ∉ s) (ht : t.head? ≠ some b) :
    replaceTwo a b (s ++ a :: t) = s ++ a :: replaceTwo a b t := by
  rw [replaceTwo_free a b s _ h]
  cases t with
  | nil => simp [replaceTwo]
  | cons d t =>
    have : d ≠ b := fun e => ht (by simp [e])
    rw [replaceTwo]
    simp [this]

theorem joinWith_append (sep : Str) (as bs : List Str) (ha : as ≠ []) (hb : bs ≠ []) :
    joinWith sep (as ++ bs) = joinWith sep as ++ sep ++ joinWith sep bs := by
  induction as with
  | nil => exact absurd rfl ha
  | cons a as ih =>
    cases as with
    | nil =>
      obtain ⟨b, bs', rfl⟩ := List.exists_cons_of_ne_nil hb
      rfl
    | cons c cs =>
      rw [List.cons_append, List.cons_append, joinWith_cons2, joinWith_cons2, ← List.cons_append,
        ih (by simp)]
      simp

theorem joinWith_head (sep : Str) (t : Str) (ts : List Str) (h : t ≠ []) :
    (joinWith sep (t :: ts)).head? = t.head? := by
  cases ts with
  | nil => rfl
  | cons u us =>
    rw [joinWith_cons2]
    obtain ⟨c, s, rfl⟩ := List.exists_cons_of_ne_nil h
    rfl

/-- The text of an argument after replacing `()`. -/
def argText1 : ArgText → Str
  | .plain t => t
  | .config n [] => n ++ [',']
  | .config n (h :: hs) => n ++ '(' :: joinWith [','] ((h :: hs).map keyValue) ++ [')']

/-- The text of an argument after replacing all parentheses. -/
def argText3 : ArgText → Str
  | .plain t => t
  | .config n [] => n ++ [',']
  | .config n (h :: hs) => n ++ ',' :: joinWith [','] ((h :: hs).map keyValue) ++ [',']

theorem keyValue_free (c : Char) (hc : c ≠ '=') (k v : Str) (hk : c ∉ k) (hv : c ∉ v) :
    c ∉ keyValue (k, v) := by
  simp [keyValue, hk, hv, hc]

theorem keyValue_head (c : Char) (hc : c ≠ '=') (k v : Str) (hk : c ∉ k) (s : Str) :
    (keyValue (k, v) ++ s).head? ≠ some c := by
  unfold keyValue
  cases k with
  | nil => simpa using fun e => hc e.symm
  | cons d k =>
    simp only [List.mem_cons, not_or] at hk
    simpa using fun e => hk.1 e.symm

theorem hps_free (c : Char) (hc : c ≠ '=') (hc' : c ≠ ',') (hps : List (Str × Str))
    (h : ∀ kv ∈ hps, c ∉ kv.1 ∧ c ∉ kv.2) : c ∉ joinWith [','] (hps.map keyValue) := by
  refine not_mem_joinWith _ _ (by simpa using hc') _ ?_
  intro t ht
  obtain ⟨kv, hkv, rfl⟩ := List.mem_map.1 ht
  exact keyValue_free c hc kv.1 kv.2 (h kv hkv).1 (h kv hkv).2

theorem pass1_arg (a : Str × ArgText) (h : PlainArg a) (rest : Str) :
    replaceTwo '(' ')' (keyValue (a.1, a.2.text) ++ rest)
      = keyValue (a.1, argText1 a.2) ++ replaceTwo '(' ')' rest := by
  obtain ⟨k, v⟩ := a
  obtain ⟨hk, hv⟩ := h
  cases v with
  | plain t =>
    exact replaceTwo_free _ _ _ _ (keyValue_free _ (by decide) _ _ hk.1 hv.1)
  | config n hps =>
    obtain ⟨hn, hh⟩ := hv
    have hkn : '(' ∉ keyValue (k, n) := keyValue_free _ (by decide) _ _ hk.1 hn.1
    cases hps with
    | nil =>
      have e1 : keyValue (k, ArgText.text (.config n [])) ++ rest
          = keyValue (k, n) ++ '(' :: ')' :: rest := by
        simp [keyValue, ArgText.text, joinWith]
      rw [e1, replaceTwo_hit _ _ _ _ hkn]
      simp [keyValue, argText1]
    | cons kv hps =>
      have hfree : '(' ∉ joinWith [','] ((kv :: hps).map keyValue) ++ [')'] := by
        simp only [List.mem_append, not_or]
        exact ⟨hps_free _ (by decide) (by decide) _ fun x hx => ⟨(hh x hx).1.1, (hh x hx).2.1⟩,
          by decide⟩
      have e1 : keyValue (k, ArgText.text (.config n (kv :: hps))) ++ rest
          = keyValue (k, n) ++ '(' :: ((joinWith [','] ((kv :: hps).map keyValue) ++ [')']) ++ rest)
          := by simp [keyValue, ArgText.text]
      rw [e1, replaceTwo_miss _ _ _ _ hkn, replaceTwo_free _ _ _ _ hfree]
      · simp [keyValue, argText1]
      · rw [List.append_assoc, List.map_cons]
        have hne : keyValue kv ≠ [] := by simp [keyValue]
        rw [List.head?_append, joinWith_head _ _ _ hne]
        have := keyValue_head ')' (by decide) kv.1 kv.2 (hh kv (by simp)).1.2.1 []
        rw [List.append_nil] at this
        cases hx : (keyValue kv).head? with
        | none => exact absurd (List.head?_eq_none_iff.1 hx) hne
        | some c => rw [hx] at this; simpa using this

theorem pass1 (args : List (Str × ArgText)) (h : ∀ a ∈ args, PlainArg a) :
    replaceTwo '(' ')' (argumentsText args)
      = joinWith [','] (args.map fun a => keyValue (a.1, argText1 a.2)) := by
  induction args with
  | nil => rfl
  | cons a args ih =>
    have ha := h a (by simp)
    have ih := ih fun x hx => h x (by simp [hx])
    cases args with
    | nil =>
      have := pass1_arg a ha []
      simpa [argumentsText, joinWith, replaceTwo] using this
    | cons b bs =>
      unfold argumentsText at ih ⊢
      rw [List.map_cons, List.map_cons, joinWith_cons2, List.append_assoc, pass1_arg a ha,
        List.singleton_append, List.map_cons, List.map_cons, joinWith_cons2]
      have : ∀ s, replaceTwo '(' ')' (',' :: s) = ',' :: replaceTwo '(' ')' s := by
        intro s
        exact replaceTwo_free '(' ')' [','] s (by decide)
      rw [this]
      rw [List.map_cons, List.map_cons] at ih
      rw [ih]
      simp

theorem map_joinWith (f : Char → Char) (sep : Str) (ts : List Str) :
    (joinWith sep ts).map f = joinWith (sep.map f) (ts.map fun t => t.map f) := by
  induction ts with
  | nil => rfl
  | cons t ts ih =>
    cases ts with
    | nil => rfl
    | cons u us =>
      rw [joinWith_cons2]
      simp only [List.map_append, ih, List.map_cons]
      rfl

theorem replaceOne_free (a : Char) (s : Str) (h : a ∉ s) : replaceOne a s = s := by
  induction s with
  | nil => rfl
  | cons c s ih =>
    simp only [List.mem_cons, not_or] at h
    have : c ≠ a := fun e => h.1 e.symm
    have ih := ih h.2
    unfold replaceOne at ih ⊢
    simp [this, ih]

theorem replaceOne_append (a : Char) (s t : Str) :
    replaceOne a (s ++ t) = replaceOne a s ++ replaceOne a t := by simp [replaceOne]

theorem replaceOne_cons (a c : Char) (s : Str) :
    replaceOne a (c :: s) = (if c = a then ',' else c) :: replaceOne a s := rfl

theorem pass3_arg (a : Str × ArgText) (h : PlainArg a) :
    replaceOne ')' (replaceOne '(' (keyValue (a.1, argText1 a.2)))
      = keyValue (a.1, argText3 a.2) := by
  obtain ⟨k, v⟩ := a
  obtain ⟨hk, hv⟩ := h
  have k1 := replaceOne_free _ _ hk.1
  have k2 := replaceOne_free _ _ hk.2.1
  cases v with
  | plain t =>
    simp [keyValue, argText1, argText3, replaceOne_append, replaceOne_cons, k1, k2,
      replaceOne_free _ _ hv.1, replaceOne_free _ _ hv.2.1]
  | config n hps =>
    obtain ⟨hn, hh⟩ := hv
    have n1 := replaceOne_free _ _ hn.1
    have n2 := replaceOne_free _ _ hn.2.1
    cases hps with
    | nil =>
      have d0 : ∀ c, replaceOne c [] = [] := fun _ => rfl
      simp [keyValue, argText1, argText3, replaceOne_append, replaceOne_cons, k1, k2, n1, n2, d0]
    | cons kv hps =>
      have j1 := replaceOne_free _ _ (hps_free '(' (by decide) (by decide) _
        fun x hx => ⟨(hh x hx).1.1, (hh x hx).2.1⟩)
      have j2 := replaceOne_free _ _ (hps_free ')' (by decide) (by decide) _
        fun x hx => ⟨(hh x hx).1.2.1, (hh x hx).2.2.1⟩)
      have d0 : ∀ c, replaceOne c [] = [] := fun _ => rfl
      simp only [keyValue, argText1, argText3, List.append_assoc, replaceOne_append,
        replaceOne_cons, List.cons_append, k1, k2, n1, n2, j1, j2, d0]
      simp

theorem pass3 (args : List (Str × ArgText)) (h : ∀ a ∈ args, PlainArg a) :
    replaceOne ')' (replaceOne '(' (replaceTwo '(' ')' (argumentsText args)))
      = joinWith [','] (args.map fun a => keyValue (a.1, argText3 a.2)) := by
  rw [pass1 args h]
  have m1 : ∀ (c : Char) ts, replaceOne c (joinWith [','] ts)
      = joinWith [','] (ts.map (replaceOne c)) := by
    intro c ts
    unfold replaceOne
    rw [map_joinWith]
    simp
  rw [m1 '(' _, m1 ')' _, List.map_map, List.map_map]
  congr 1
  apply List.map_congr_left
  intro a ha
  exact pass3_arg a (h a ha)

/-- Collapsing the double comma after a nested configuration. -/
theorem pass4_hps (hs : List Str) (hne : hs ≠ []) (hfree : ∀ t ∈ hs, ',' ∉ t)
    (hnil : ∀ t ∈ hs, t ≠ []) (rest : Str) :
    replaceTwo ',' ',' (joinWith [','] hs ++ ',' :: ',' :: rest)
      = joinWith [','] hs ++ ',' :: replaceTwo ',' ',' rest := by
  induction hs with
  | nil => exact absurd rfl hne
  | cons t ts ih =>
    have ht := hfree t (by simp)
    cases ts with
    | nil => exact replaceTwo_hit _ _ _ _ ht
    | cons u us =>
      rw [joinWith_cons2, List.append_assoc, List.append_assoc, List.singleton_append,
        List.append_assoc, replaceTwo_miss _ _ _ _ ht,
        ih (by simp) (fun x hx => hfree x (by simp [hx])) fun x hx => hnil x (by simp [hx])]
      · simp
      · have hu := hfree u (by simp)
        have hu' := hnil u (by simp)
        rw [List.head?_append, joinWith_head _ _ _ hu']
        obtain ⟨c, s, rfl⟩ := List.exists_cons_of_ne_nil hu'
        simp only [List.mem_cons, not_or] at hu
        simpa using fun e : c = ',' => hu.1 e.symm

theorem named_cons (a : Str × ArgText) (args : List (Str × ArgText)) :
    named (a :: args) = named [a] ++ named args := by simp [named]

theorem named_ne (a : Str × ArgText) (args : List (Str × ArgText)) : named (a :: args) ≠ [] := by
  obtain ⟨k, v⟩ := a
  cases v <;> simp [named]

theorem pass4 (args : List (Str × ArgText)) (h : ∀ a ∈ args, PlainArg a)
    (hl : ∀ a, args.getLast? = some a → ∃ t, a.2 = .plain t) :
    replaceTwo ',' ',' (joinWith [','] (args.map fun a => keyValue (a.1, argText3 a.2)))
      = joinWith [','] ((named args).map keyValue) := by
  induction args with
  | nil => rfl
  | cons a args ih =>
    have ha := h a (by simp)
    cases args with
    | nil =>
      obtain ⟨t, ht⟩ := hl a rfl
      obtain ⟨k, v⟩ := a
      dsimp only at ht; subst ht
      have : ',' ∉ keyValue (k, t) := keyValue_free _ (by decide) _ _ ha.1.2.2.1 ha.2.2.2.1
      have e := replaceTwo_free ',' ',' _ [] this
      simpa [named, joinWith, argText3, replaceTwo] using e
    | cons b bs =>
      have hb := h b (by simp)
      have ih := ih (fun x hx => h x (by simp [hx])) fun x hx => hl x (by simpa using hx)
      obtain ⟨k, v⟩ := a
      obtain ⟨hk, hv⟩ := ha
      have hhead : (joinWith [','] ((b :: bs).map fun a => keyValue (a.1, argText3 a.2))).head?
          ≠ some ',' := by
        rw [List.map_cons, joinWith_head _ _ _ (by simp [keyValue])]
        have := keyValue_head ',' (by decide) b.1 (argText3 b.2) hb.1.2.2.1 []
        rwa [List.append_nil] at this
      rw [List.map_cons, List.map_cons, joinWith_cons2, List.append_assoc, List.singleton_append,
        named_cons, List.map_append]
      rw [List.map_cons] at ih hhead
      rw [joinWith_append _ _ _ (by simpa using named_ne (k, v) []) (by simpa using named_ne b bs),
        ← ih]
      cases v with
      | plain t =>
        have ht : PlainText t := hv
        have : ',' ∉ keyValue (k, t) := keyValue_free _ (by decide) _ _ hk.2.2.1 ht.2.2.1
        have e0 : argText3 (.plain t) = t := rfl
        dsimp only
        rw [e0, replaceTwo_miss _ _ _ _ this hhead]
        simp [named, joinWith]
      | config n hps =>
        obtain ⟨hn, hh⟩ := hv
        have hkn : ',' ∉ keyValue (k, n) := keyValue_free _ (by decide) _ _ hk.2.2.1 hn.2.2.1
        cases hps with
        | nil =>
          have e1 : ∀ R, keyValue (k, argText3 (.config n [])) ++ ',' :: R
              = keyValue (k, n) ++ ',' :: ',' :: R := by
            intro R; simp [keyValue, argText3]
          dsimp only
          rw [e1, replaceTwo_hit _ _ _ _ hkn]
          simp [named, joinWith]
        | cons kv hps =>
          have e1 : ∀ R, keyValue (k, argText3 (.config n (kv :: hps))) ++ ',' :: R
              = keyValue (k, n) ++ ',' :: (joinWith [','] ((kv :: hps).map keyValue)
                  ++ ',' :: ',' :: R) := by
            intro R; simp [keyValue, argText3]
          have free : ∀ t ∈ (kv :: hps).map keyValue, ',' ∉ t := by
            intro t ht
            obtain ⟨x, hx, rfl⟩ := List.mem_map.1 ht
            exact keyValue_free _ (by decide) _ _ (hh x hx).1.2.2.1 (hh x hx).2.2.2.1
          dsimp only
          rw [e1, replaceTwo_miss _ _ _ _ hkn, pass4_hps _ (by simp) free]
          · have e2 : named [(k, ArgText.config n (kv :: hps))] = [(k, n)] ++ (kv :: hps) := by
              simp [named]
            rw [e2, List.map_append, joinWith_append _ _ _ (by simp) (by simp)]
            simp [joinWith]
          · intro t ht
            obtain ⟨x, _, rfl⟩ := List.mem_map.1 ht
            simp [keyValue]
          · rw [List.map_cons, List.head?_append, joinWith_head _ _ _ (by simp [keyValue])]
            have := keyValue_head ',' (by decide) kv.1 kv.2 (hh kv (by simp)).1.2.2.1 []
            rw [List.append_nil] at this
            cases hx : (keyValue kv).head? with
            | none => simp [keyValue] at hx
            | some c => rw [hx] at this; simpa using this

theorem flattenArgs_eq (args : List (Str × ArgText)) (h : ∀ a ∈ args, PlainArg a)
    (hl : ∀ a, args.getLast? = some a → ∃ t, a.2 = .plain t) :
    flattenArgs (argumentsText args) = joinWith [','] ((named args).map keyValue) := by
  unfold flattenArgs
  rw [pass3 args h, pass4 args h hl]

theorem pairsToDict_ok (kvs : List (Str × Str)) (d : List (Str × Str))
    (h : ∀ kv ∈ kvs, '=' ∉ kv.1 ∧ '=' ∉ kv.2) :
    pairsToDict (kvs.map keyValue) d = .ok (dmerge d kvs) := by
  induction kvs generalizing d with
  | nil => rfl
  | cons kv kvs ih =>
    obtain ⟨h1, h2⟩ := h kv (by simp)
    have : splitOnChar '=' (keyValue kv) = [kv.1, kv.2] := by
      unfold keyValue
      rw [splitOnChar_append _ _ _ h1, splitOnChar_free _ _ h2]
    simp only [List.map_cons, pairsToDict, this]
    rw [ih _ fun x hx => h x (by simp [hx])]
    rfl

theorem dset_absent {V : Type} (d : List (Str × V)) (k : Str) (v : V) (h : k ∉ d.map Prod.fst) :
    dset d k v = d ++ [(k, v)] := by
  induction d with
  | nil => rfl
  | cons x d ih =>
    simp only [List.map_cons, List.mem_cons, not_or] at h
    have : x.1 ≠ k := fun e => h.1 e.symm
    simp [dset, this, ih h.2]

theorem dmerge_new {V : Type} (d kvs : List (Str × V))
    (h : ((d ++ kvs).map Prod.fst).Nodup) : dmerge d kvs = d ++ kvs := by
  induction kvs generalizing d with
  | nil => simp [dmerge]
  | cons kv kvs ih =>
    have hk : kv.1 ∉ d.map Prod.fst := by
      intro hm
      rw [List.map_append, List.map_cons, List.nodup_append] at h
      exact h.2.2 _ hm _ (by simp) rfl
    have : dmerge d (kv :: kvs) = dmerge (dset d kv.1 kv.2) kvs := rfl
    rw [this, dset_absent d kv.1 kv.2 hk, ih]
    · simp
    · simpa using h

theorem afterFirst_eq (c : Char) (s t : Str) (h : c ∉ s) : afterFirst c (s ++ c :: t) = t := by
  unfold afterFirst
  rw [if_pos (by simp)]
  have : (s ++ c :: t).dropWhile (fun x => decide (x ≠ c)) = c :: t := by
    induction s with
    | nil => simp
    | cons d s ih =>
      simp only [List.mem_cons, not_or] at h
      have : d ≠ c := fun e => h.1 e.symm
      simpa [List.dropWhile_cons, this] using ih h.2
  rw [this]; rfl

theorem beforeLast_eq (c : Char) (s t : Str) (h : c ∉ t) : beforeLast c (s ++ c :: t) = s := by
  have hr : (s ++ c :: t).reverse = t.reverse ++ c :: s.reverse := by simp
  have := afterFirst_eq c t.reverse s.reverse (by simpa using h)
  unfold afterFirst at this
  rw [if_pos (by simp)] at this
  unfold beforeLast
  rw [if_pos (by simp), hr, this, List.reverse_reverse]

/-- What `init_to_hps` works on. -/
theorem initLine_arguments (front cls : Str) (args : List (Str × ArgText)) (hf : '(' ∉ front)
    (hc : '(' ∉ cls) :
    beforeLast ')' (afterFirst '(' (initLine front cls args)) = argumentsText args := by
  have e : initLine front cls args
      = (front ++ ['I', 'N', 'I', 'T', ':'] ++ cls) ++ '(' :: (argumentsText args ++ ')' :: ['\n']) := by
    simp [initLine]
  rw [e, afterFirst_eq, beforeLast_eq _ _ _ (by decide)]
  simp [hf, hc]

/-- The full claim: arguments with different names are read back, whatever their values print as. -/
def C75_claim : Prop := ∀ (front cls : Str) (args : List (Str × ArgText)), '(' ∉ front → '(' ∉ cls →
  args ≠ [] → ((named args).map Prod.fst).Nodup → (∀ a ∈ args, PlainText a.1) →
  initToHps (initLine front cls args) = .ok (named args)

/-- **C75, the part that holds.**  If no name and no value contains a parenthesis, comma or equality
sign -- configured objects `Name(hp=value,…)` excepted, other than as the last argument -- the line is
read back as names and values, in order, the hyperparameters of configured objects included.
Missing: other values, see below. -/
theorem C75_partial (front cls : Str) (args : List (Str × ArgText)) (hf : '(' ∉ front)
    (hc : '(' ∉ cls) (hne : args ≠ []) (hn : ((named args).map Prod.fst).Nodup)
    (h : ∀ a ∈ args, PlainArg a) (hl : ∀ a, args.getLast? = some a → ∃ t, a.2 = .plain t) :
    initToHps (initLine front cls args) = .ok (named args) := by
  have hplain : ∀ kv ∈ named args, PlainText kv.1 ∧ PlainText kv.2 := by
    intro kv hkv
    obtain ⟨a, ha, hkv⟩ := List.mem_flatMap.1 hkv
    obtain ⟨k, v⟩ := a
    obtain ⟨h1, h2⟩ := h _ ha
    cases v with
    | plain t =>
      simp only [List.mem_singleton] at hkv
      subst hkv
      exact ⟨h1, h2⟩
    | config n hps =>
      rcases List.mem_cons.1 hkv with e | hkv
      · subst e; exact ⟨h1, h2.1⟩
      · exact h2.2 kv hkv
  unfold initToHps
  rw [initLine_arguments front cls args hf hc, flattenArgs_eq args h hl, splitOnChar_join]
  · rw [pairsToDict_ok _ _ fun kv hkv => ⟨(hplain kv hkv).1.2.2.2, (hplain kv hkv).2.2.2.2⟩,
      dmerge_new [] _ (by simpa using hn)]
    rfl
  · obtain ⟨a, as, rfl⟩ := List.exists_cons_of_ne_nil hne
    simpa using named_ne a as
  · intro t ht
    obtain ⟨kv, hkv, rfl⟩ := List.mem_map.1 ht
    exact keyValue_free _ (by decide) _ _ (hplain kv hkv).1.2.2.1 (hplain kv hkv).2.2.2.1

/-- Two arguments, one of them configured. -/
def sampleInit : List (Str × ArgText) :=
  [(['s'], .config ['A'] [(['p'], ['5']), (['q'], ['7'])]), (['t'], .plain ['x'])]

example : (∀ a ∈ sampleInit, PlainArg a) ∧ ((named sampleInit).map Prod.fst).Nodup ∧
    (∀ a, sampleInit.getLast? = some a → ∃ t, a.2 = .plain t) := by
  refine ⟨?_, by decide, ?_⟩
  · simp only [sampleInit, PlainArg, PlainText, List.mem_cons, List.not_mem_nil, or_false]
    rintro a (rfl | rfl)
    · refine ⟨by decide, by decide, ?_⟩
      intro kv hkv
      simp only [List.mem_cons, List.not_mem_nil, or_false] at hkv
      rcases hkv with e | e <;> subst e <;> decide
    · decide
  · simp [sampleInit]

example : initToHps (initLine ['['] ['G'] sampleInit)
    = .ok [(['s'], ['A']), (['p'], ['5']), (['q'], ['7']), (['t'], ['x'])] := by decide +kernel

namespace Spec

/-- The punctuation that `init_to_hps` turns into separators. -/
def Punct (c : Char) : Bool := c = ',' || c = '(' || c = ')'

/-- How often punctuation is directly followed by something else. -/
def breaks : Str → Nat
  | [] => 0
  | [_] => 0
  | c :: d :: s => (if Punct c && !Punct d then 1 else 0) + breaks (d :: s)

/-- How often the equality sign occurs. -/
def equals (s : Str) : Nat := s.count '='

end Spec

theorem breaks_cons2 (c d : Char) (s : Str) :
    breaks (c :: d :: s) = (if Punct c && !Punct d then 1 else 0) + breaks (d :: s) := rfl

/-- Only the kind of the characters counts. -/
theorem breaks_congr (s t : Str) (h : s.map Punct = t.map Punct) : breaks s = breaks t := by
  induction s generalizing t with
  | nil =>
    cases t with
    | nil => rfl
    | cons _ _ => simp at h
  | cons c s ih =>
    cases t with
    | nil => simp at h
    | cons d t =>
      simp only [List.map_cons, List.cons.injEq] at h
      cases s with
      | nil =>
        cases t with
        | nil => rfl
        | cons _ _ => simp at h
      | cons c' s =>
        cases t with
        | nil => simp at h
        | cons d' t =>
          have hh := h.2
          simp only [List.map_cons, List.cons.injEq] at hh
          rw [breaks_cons2, breaks_cons2, ih (d' :: t) h.2, h.1, hh.1]

theorem breaks_replaceOne (a : Char) (ha : Punct a = true) (s : Str) :
    breaks (replaceOne a s) = breaks s := by
  apply breaks_congr
  unfold replaceOne
  rw [List.map_map]
  apply List.map_congr_left
  intro c _
  by_cases h : c = a
  · have hp : Punct ',' = true := by decide
    simp only [Function.comp, h, if_true, ha, hp]
  · simp [h]

theorem breaks_replaceTwo (a b : Char) (ha : Punct a = true) (hb : Punct b = true) (s : Str)
    (x : Char) : breaks (x :: replaceTwo a b s) = breaks (x :: s) := by
  have main : ∀ n (s : Str), s.length ≤ n → ∀ x, breaks (x :: replaceTwo a b s) = breaks (x :: s) := by
    intro n
    induction n with
    | zero =>
      intro s hs x
      rw [List.length_eq_zero_iff.1 (Nat.le_zero.1 hs)]; rfl
    | succ n ih =>
      intro s hs x
      match s with
      | [] => rfl
      | [c] => rfl
      | c :: d :: s =>
        rw [replaceTwo]
        split_ifs with h
        · obtain ⟨rfl, rfl⟩ := h
          rw [breaks_cons2, ih s (by simp at hs; omega), breaks_cons2, breaks_cons2]
          have e : breaks (',' :: s) = breaks (d :: s) := by
            apply breaks_congr
            have hp : Punct ',' = true := by decide
            rw [List.map_cons, List.map_cons, hb, hp]
          have hp : Punct ',' = true := by decide
          rw [e, ha, hb, hp]
          simp
        · rw [breaks_cons2, ih (d :: s) (by simp at hs ⊢; omega), ← breaks_cons2]
  exact main s.length s le_rfl x

theorem equals_replaceOne (a : Char) (ha : a ≠ '=') (s : Str) :
    equals (replaceOne a s) = equals s := by
  unfold equals replaceOne
  induction s with
  | nil => rfl
  | cons c s ih =>
    simp only [List.map_cons, List.count_cons, ih]
    by_cases h : c = a
    · subst h; simp [ha]
    · simp [h]

theorem equals_replaceTwo (a b : Char) (ha : a ≠ '=') (hb : b ≠ '=') (s : Str) :
    equals (replaceTwo a b s) = equals s := by
  have main : ∀ n (s : Str), s.length ≤ n → equals (replaceTwo a b s) = equals s := by
    intro n
    induction n with
    | zero =>
      intro s hs
      rw [List.length_eq_zero_iff.1 (Nat.le_zero.1 hs)]; rfl
    | succ n ih =>
      intro s hs
      match s with
      | [] => rfl
      | [c] => rfl
      | c :: d :: s =>
        rw [replaceTwo]
        split_ifs with h
        · obtain ⟨rfl, rfl⟩ := h
          have := ih s (by simp at hs; omega)
          unfold equals at this ⊢
          simp [List.count_cons, ha, hb, this]
        · have := ih (d :: s) (by simp at hs ⊢; omega)
          unfold equals at this ⊢
          rw [List.count_cons, this, ← List.count_cons]
  exact main s.length s le_rfl

theorem breaks_flatten (s : Str) : breaks (flattenArgs s) = breaks s := by
  have pre : ∀ t, breaks t = breaks ('x' :: t) := by
    intro t
    cases t with
    | nil => rfl
    | cons d t =>
      have hp : Punct 'x' = false := by decide
      rw [breaks_cons2, hp]; simp
  unfold flattenArgs
  rw [pre, breaks_replaceTwo _ _ (by decide) (by decide), ← pre, breaks_replaceOne _ (by decide),
    breaks_replaceOne _ (by decide), pre, breaks_replaceTwo _ _ (by decide) (by decide), ← pre]

theorem equals_flatten (s : Str) : equals (flattenArgs s) = equals s := by
  unfold flattenArgs
  rw [equals_replaceTwo _ _ (by decide) (by decide), equals_replaceOne _ (by decide),
    equals_replaceOne _ (by decide), equals_replaceTwo _ _ (by decide) (by decide)]

theorem no_paren_replaceTwo (p : Char) (hp : p ≠ ',') (a b : Char) (s : Str) (h : p ∉ s) :
    p ∉ replaceTwo a b s := by
  have main : ∀ n (s : Str), s.length ≤ n → p ∉ s → p ∉ replaceTwo a b s := by
    intro n
    induction n with
    | zero =>
      intro s hs _
      rw [List.length_eq_zero_iff.1 (Nat.le_zero.1 hs)]; simp [replaceTwo]
    | succ n ih =>
      intro s hs h
      match s with
      | [] => simp [replaceTwo]
      | [c] => simpa [replaceTwo] using h
      | c :: d :: s =>
        simp only [List.mem_cons, not_or] at h
        rw [replaceTwo]
        split_ifs
        · simp only [List.mem_cons, not_or]
          exact ⟨hp, ih s (by simp at hs; omega) h.2.2⟩
        · simp only [List.mem_cons, not_or]
          exact ⟨h.1, ih (d :: s) (by simp at hs ⊢; omega) (by simp [h.2.1, h.2.2])⟩
  exact main s.length s le_rfl h

theorem flatten_no_paren (s : Str) : '(' ∉ flattenArgs s ∧ ')' ∉ flattenArgs s := by
  unfold flattenArgs
  have hit : ∀ (a : Char) t, a ≠ ',' → a ∉ replaceOne a t := by
    intro a t ha hm
    obtain ⟨c, _, hc⟩ := List.mem_map.1 hm
    by_cases h : c = a
    · rw [if_pos h] at hc; exact ha hc.symm
    · rw [if_neg h] at hc; exact h hc
  have keep : ∀ (p a : Char) t, p ≠ ',' → p ∉ t → p ∉ replaceOne a t := by
    intro p a t hp ht hm
    obtain ⟨c, hc', hc⟩ := List.mem_map.1 hm
    by_cases h : c = a
    · rw [if_pos h] at hc; exact hp hc.symm
    · rw [if_neg h] at hc; exact ht (hc ▸ hc')
  exact ⟨no_paren_replaceTwo _ (by decide) _ _ _
      (keep _ _ _ (by decide) (hit _ _ (by decide))),
    no_paren_replaceTwo _ (by decide) _ _ _ (hit _ _ (by decide))⟩

theorem breaks_le_commas (s : Str) (h1 : '(' ∉ s) (h2 : ')' ∉ s) : breaks s ≤ s.count ',' := by
  induction s with
  | nil => simp [breaks]
  | cons c s ih =>
    cases s with
    | nil => simp [breaks]
    | cons d s =>
      have ih := ih (fun h => h1 (List.mem_cons_of_mem _ h)) fun h => h2 (List.mem_cons_of_mem _ h)
      have hc1 : c ≠ '(' := fun e => h1 (by simp [e])
      have hc2 : c ≠ ')' := fun e => h2 (by simp [e])
      rw [breaks_cons2, List.count_cons]
      by_cases hc : c = ','
      · subst hc
        have : (if (Punct ',' && !Punct d) = true then 1 else 0) ≤ 1 := by split_ifs <;> simp
        simp only [beq_self_eq_true, if_true]
        omega
      · have : Punct c = false := by simp [Punct, hc, hc1, hc2]
        simp only [this, Bool.false_and, Bool.false_eq_true, if_false]
        omega

theorem splitOnChar_length (sep : Char) (s : Str) :
    (splitOnChar sep s).length = s.count sep + 1 := by
  induction s with
  | nil => rfl
  | cons c s ih =>
    by_cases h : c = sep
    · subst h
      simp [splitOnChar, ih]
    · obtain ⟨p, ps, e1, e2⟩ := splitOnChar_cons_ne sep c s h
      rw [e2, List.count_cons]
      rw [e1] at ih
      simpa [h] using ih

theorem splitOnChar_count (sep x : Char) (hx : x ≠ sep) (s : Str) :
    ((splitOnChar sep s).map fun p => p.count x).sum = s.count x := by
  induction s with
  | nil => rfl
  | cons c s ih =>
    by_cases h : c = sep
    · subst h
      have hx' : ¬ c = x := fun e => hx e.symm
      simp [splitOnChar, ih, List.count_cons, hx']
    · obtain ⟨p, ps, e1, e2⟩ := splitOnChar_cons_ne sep c s h
      rw [e2, List.count_cons, ← ih, e1]
      simp only [List.map_cons, List.sum_cons, List.count_cons]
      omega

theorem pairsToDict_count (ps : List Str) (d r : List (Str × Str))
    (h : pairsToDict ps d = .ok r) : (ps.map fun p => p.count '=').sum = ps.length := by
  induction ps generalizing d with
  | nil => rfl
  | cons p ps ih =>
    simp only [pairsToDict] at h
    split at h
    · rename_i k v hkv
      have hl := splitOnChar_length '=' p
      rw [hkv] at hl
      have := ih _ h
      simp only [List.length_cons, List.length_nil] at hl
      simp only [List.map_cons, List.sum_cons, List.length_cons, this]
      omega
    · cases h

theorem pairsToDict_error (ps : List Str) (d : List (Str × Str)) (e : Exn)
    (h : pairsToDict ps d = .error e) : e = .valueError := by
  induction ps generalizing d with
  | nil => cases h
  | cons p ps ih =>
    simp only [pairsToDict] at h
    split at h
    · exact ih _ h
    · cases h; rfl

/-- More breaks than equality signs cannot be read. -/
theorem initToHps_fails (front cls : Str) (args : List (Str × ArgText)) (hf : '(' ∉ front)
    (hc : '(' ∉ cls) (h : equals (argumentsText args) ≤ breaks (argumentsText args)) :
    initToHps (initLine front cls args) = .error .valueError := by
  unfold initToHps
  rw [initLine_arguments front cls args hf hc]
  cases hr : pairsToDict (splitOnChar ',' (flattenArgs (argumentsText args))) [] with
  | error e => rw [pairsToDict_error _ _ _ hr]
  | ok r =>
    exfalso
    have c1 := pairsToDict_count _ _ _ hr
    rw [splitOnChar_count ',' '=' (by decide), splitOnChar_length] at c1
    have c2 := equals_flatten (argumentsText args)
    unfold equals at c2 h
    obtain ⟨p1, p2⟩ := flatten_no_paren (argumentsText args)
    have c3 := breaks_le_commas (flattenArgs (argumentsText args)) p1 p2
    have c4 := breaks_flatten (argumentsText args)
    omega

theorem breaks_append (s t : Str) : breaks s + breaks t ≤ breaks (s ++ t) := by
  induction s with
  | nil => simp [breaks]
  | cons c s ih =>
    cases s with
    | nil =>
      cases t with
      | nil => simp [breaks]
      | cons d t =>
        have : ([c] : Str) ++ d :: t = c :: d :: t := rfl
        rw [this, breaks_cons2]
        simp [breaks]
    | cons d s =>
      have : (c :: d :: s) ++ t = c :: d :: (s ++ t) := rfl
      rw [this, breaks_cons2, breaks_cons2]
      have : (d :: s) ++ t = d :: (s ++ t) := rfl
      rw [this] at ih
      omega

theorem breaks_join (args : List (Str × ArgText)) (hne : args ≠ [])
    (hk : ∀ a ∈ args, ∀ c, Punct c = true → c ∉ a.1) :
    args.length + ((args.map fun a => breaks a.2.text).sum) ≤ breaks (argumentsText args) + 1 := by
  induction args with
  | nil => exact absurd rfl hne
  | cons a args ih =>
    have hval : ∀ b : Str × ArgText, breaks b.2.text ≤ breaks (keyValue (b.1, b.2.text)) := by
      intro b
      have e : keyValue (b.1, b.2.text) = (b.1 ++ ['=']) ++ b.2.text := by simp [keyValue]
      rw [e]
      have := breaks_append (b.1 ++ ['=']) b.2.text
      omega
    cases args with
    | nil =>
      have := hval a
      simp [argumentsText, joinWith]
      omega
    | cons b bs =>
      have ih := ih (by simp) fun x hx => hk x (by simp [hx])
      have hb := hk b (by simp)
      unfold argumentsText at ih ⊢
      rw [List.map_cons (f := fun a : Str × ArgText => keyValue (a.1, a.2.text)),
        List.map_cons (f := fun a : Str × ArgText => keyValue (a.1, a.2.text)), joinWith_cons2,
        List.append_assoc]
      rw [List.map_cons (f := fun a : Str × ArgText => keyValue (a.1, a.2.text))] at ih
      have h1 := breaks_append (keyValue (a.1, a.2.text)) ([','] ++
        joinWith [','] (keyValue (b.1, b.2.text) :: bs.map fun a => keyValue (a.1, a.2.text)))
      have h2 : breaks ([','] ++
          joinWith [','] (keyValue (b.1, b.2.text) :: bs.map fun a => keyValue (a.1, a.2.text)))
          = 1 + breaks (joinWith [','] (keyValue (b.1, b.2.text)
              :: bs.map fun a => keyValue (a.1, a.2.text))) := by
        have hh := joinWith_head [','] (keyValue (b.1, b.2.text))
          (bs.map fun a => keyValue (a.1, a.2.text)) (by simp [keyValue])
        cases hj : joinWith [','] (keyValue (b.1, b.2.text)
            :: bs.map fun a => keyValue (a.1, a.2.text)) with
        | nil => rw [hj] at hh; simp [keyValue] at hh
        | cons d s =>
          rw [hj] at hh
          have hd : Punct d = false := by
            by_contra hp
            simp only [Bool.not_eq_false] at hp
            have hd' := hb d hp
            unfold keyValue at hh
            cases hb1 : b.1 with
            | nil =>
              rw [hb1] at hh
              simp only [List.nil_append, List.head?_cons, Option.some.injEq] at hh
              subst hh
              exact absurd hp (by decide)
            | cons x xs =>
              rw [hb1] at hh hd'
              simp only [List.cons_append, List.head?_cons, Option.some.injEq] at hh
              subst hh
              exact hd' (by simp)
          have : ([','] : Str) ++ d :: s = ',' :: d :: s := rfl
          have hp : Punct ',' = true := by decide
          rw [this, breaks_cons2, hd, hp]
          simp
      have h3 := hval a
      simp only [List.map_cons, List.sum_cons, List.length_cons] at ih ⊢
      rw [h2] at h1
      omega

theorem equals_join (args : List (Str × ArgText)) (hk : ∀ a ∈ args, '=' ∉ a.1) :
    equals (argumentsText args) = args.length + (args.map fun a => equals a.2.text).sum := by
  have hval : ∀ a ∈ args, equals (keyValue (a.1, a.2.text)) = 1 + equals a.2.text := by
    intro a ha
    unfold equals keyValue
    rw [List.count_append, List.count_eq_zero.2 (hk a ha), List.count_cons]
    simp; omega
  induction args with
  | nil => rfl
  | cons a args ih =>
    have ih := ih (fun x hx => hk x (by simp [hx])) fun x hx => hval x (by simp [hx])
    have h1 := hval a (by simp)
    cases args with
    | nil =>
      simp [argumentsText, joinWith]
      omega
    | cons b bs =>
      unfold argumentsText at ih ⊢
      rw [List.map_cons (f := fun a : Str × ArgText => keyValue (a.1, a.2.text)),
        List.map_cons (f := fun a : Str × ArgText => keyValue (a.1, a.2.text)), joinWith_cons2]
      rw [List.map_cons (f := fun a : Str × ArgText => keyValue (a.1, a.2.text))] at ih
      have e : ∀ s t : Str, equals (s ++ [','] ++ t) = equals s + equals t := by
        intro s t; simp [equals, List.count_append, List.count_cons]
      rw [e, h1, ih]
      simp only [List.map_cons, List.sum_cons, List.length_cons]
      omega

theorem sum_lt_of (args : List (Str × ArgText))
    (h : ∀ a ∈ args, equals a.2.text ≤ breaks a.2.text) (a : Str × ArgText) (ha : a ∈ args)
    (hs : equals a.2.text < breaks a.2.text) :
    (args.map fun a => equals a.2.text).sum < (args.map fun a => breaks a.2.text).sum := by
  have le : ∀ l : List (Str × ArgText), (∀ x ∈ l, equals x.2.text ≤ breaks x.2.text) →
      (l.map fun a => equals a.2.text).sum ≤ (l.map fun a => breaks a.2.text).sum := by
    intro l hl
    induction l with
    | nil => simp
    | cons x l ih =>
      have h1 := hl x (by simp)
      have h2 := ih fun y hy => hl y (by simp [hy])
      simp only [List.map_cons, List.sum_cons]; omega
  induction args with
  | nil => simp at ha
  | cons x args ih =>
    simp only [List.map_cons, List.sum_cons]
    rcases List.mem_cons.1 ha with e | ha
    · subst e
      have := le args fun y hy => h y (by simp [hy])
      omega
    · have := ih (fun y hy => h y (by simp [hy])) ha
      have := h x (by simp)
      omega

/-- **C75 fails whenever the search space is printed.**  If no value has more equality signs than
punctuation marks followed by something else, and one value has fewer -- as a dictionary of two
algorithms has, printed `{…, …}` without any equality sign -- the line cannot be read: `init_to_hps`
raises a ValueError.  `Gama.__init__` leaves out `config`, the former name of the search space, but
not `search_space`. -/
theorem C75_search_space (front cls : Str) (args : List (Str × ArgText)) (hf : '(' ∉ front)
    (hc : '(' ∉ cls) (hk : ∀ a ∈ args, PlainText a.1)
    (h : ∀ a ∈ args, equals a.2.text ≤ breaks a.2.text) (a : Str × ArgText) (ha : a ∈ args)
    (hs : equals a.2.text < breaks a.2.text) :
    initToHps (initLine front cls args) = .error .valueError := by
  apply initToHps_fails front cls args hf hc
  have h1 := breaks_join args (List.ne_nil_of_mem ha) (by
    intro b hb c hc'
    obtain ⟨k1, k2, k3, _⟩ := hk b hb
    simp only [Punct, Bool.or_eq_true, decide_eq_true_eq] at hc'
    rcases hc' with (rfl | rfl) | rfl
    · exact k3
    · exact k1
    · exact k2)
  have h2 := equals_join args fun b hb => (hk b hb).2.2.2
  have h3 := sum_lt_of args h a ha hs
  omega

/-- A search space of two algorithms, `{A: {}, B: {}}`, and a configured search. -/
def sampleSpaceInit : List (Str × ArgText) :=
  [(['s', 'p'], .plain ['{', 'A', ':', ' ', '{', '}', ',', ' ', 'B', ':', ' ', '{', '}', '}']),
   (['s'], .config ['A'] [(['p'], ['5']), (['q'], ['7'])]), (['t'], .plain ['x'])]

example : (∀ a ∈ sampleSpaceInit, PlainText a.1) ∧
    (∀ a ∈ sampleSpaceInit, equals a.2.text ≤ breaks a.2.text) ∧
    ∃ a ∈ sampleSpaceInit, equals a.2.text < breaks a.2.text := by
  refine ⟨by simp [sampleSpaceInit, PlainText], by decide, by decide⟩

/-- **C75 is false of the code.** -/
theorem C75_false : ¬ C75_claim := by
  intro h
  have := h [] ['G'] sampleSpaceInit (by simp) (by decide) (by simp [sampleSpaceInit]) (by decide)
    (by simp [sampleSpaceInit, PlainText])
  rw [C75_search_space [] ['G'] sampleSpaceInit (by simp) (by decide)
    (by simp [sampleSpaceInit, PlainText]) (by decide)
    (['s', 'p'], .plain ['{', 'A', ':', ' ', '{', '}', ',', ' ', 'B', ':', ' ', '{', '}', '}'])
    (by simp [sampleSpaceInit]) (by decide)] at this
  simp at this

/-! ### C93 -/

namespace Spec
variable {Msg : Type}

/-- All messages, with the instance they come from. -/
def messages : List (FileLogEvent Msg) → List (Nat × Msg)
  | [] => []
  | .construct _ _ :: es => messages es
  | .message d m :: es => (d, m) :: messages es

/-- The messages since an instance that stores its log was constructed. -/
def since (d : Nat) : List (FileLogEvent Msg) → List (Nat × Msg)
  | [] => []
  | .construct true d' :: es => if d' = d then messages es else since d es
  | .construct false _ :: es => since d es
  | .message _ _ :: es => since d es

/-- The messages of one instance. -/
def own (d : Nat) (es : List (FileLogEvent Msg)) : List (Nat × Msg) :=
  (since d es).filter fun x => x.1 = d

/-- Each directory is used for one instance: it has to be empty. -/
def OncePerDirectory : List (FileLogEvent Msg) → Prop
  | [] => True
  | .construct _ d :: es => (∀ st, FileLogEvent.construct st d ∉ es) ∧ OncePerDirectory es
  | .message _ _ :: es => OncePerDirectory es

end Spec

/-- How many handlers write to the log of a directory. -/
def writers (d : Nat) (hs : List Handler) : List Handler := hs.filter fun h => h.dir = some d

theorem writers_register (d id v : Nat) (hs : List Handler)
    (h : ∀ x ∈ hs, Console x = true → x.dir = none) :
    writers d (registerStreamLog id v hs) = writers d hs := by
  unfold writers registerStreamLog
  split_ifs with hc
  · simp only [List.filter_append, List.filter_filter]
    have : ∀ x ∈ hs, (decide (x.dir = some d) && !(x.tag && x.stream)) = decide (x.dir = some d) := by
      intro x hx
      by_cases hcx : Console x = true
      · have := h x hx hcx; simp [this]
      · simp only [Console, Bool.not_eq_true] at hcx; simp [hcx]
    rw [List.filter_congr this]; simp
  · simp

theorem writers_init (d id v d' : Nat) (st : Bool) (hs : List Handler)
    (h : ∀ x ∈ hs, Console x = true → x.dir = none) :
    writers d (initHandlers id v st d' hs)
      = writers d hs ++ (if st = true ∧ d' = d then [⟨id, false, true, debugLevel, some d'⟩] else []) := by
  unfold initHandlers
  cases st with
  | false => simpa using writers_register d id v hs h
  | true =>
    have e := writers_register d id v hs h
    unfold writers at e ⊢
    simp only [if_true, List.filter_append, e]
    by_cases hd : d' = d <;> simp [hd]

theorem console_init (id v d : Nat) (st : Bool) (hs : List Handler)
    (h : ∀ x ∈ hs, Console x = true → x.dir = none) :
    ∀ x ∈ initHandlers id v st d hs, Console x = true → x.dir = none := by
  have hr : ∀ x ∈ registerStreamLog id v hs, Console x = true → x.dir = none := by
    intro x hx hc
    unfold registerStreamLog at hx
    split_ifs at hx
    · rcases List.mem_append.1 hx with hx | hx
      · exact h x (List.mem_filter.1 hx).1 hc
      · simp only [List.mem_singleton] at hx; rw [hx]
    · rcases List.mem_append.1 hx with hx | hx
      · exact h x hx hc
      · simp only [List.mem_singleton] at hx; rw [hx]
  intro x hx hc
  unfold initHandlers at hx
  cases st with
  | false => exact hr x (by simpa using hx) hc
  | true =>
    simp only [if_true] at hx
    rcases List.mem_append.1 hx with hx | hx
    · exact hr x hx hc
    · simp only [List.mem_singleton] at hx
      rw [hx] at hc
      simp [Console] at hc

section
variable {Msg : Type}

theorem files_after (d : Nat) (es : List (FileLogEvent Msg)) (s : FileLogs Msg)
    (hc : ∀ x ∈ s.handlers, Console x = true → x.dir = none)
    (ho : OncePerDirectory es) :
    ((writers d s.handlers).length = 0 → (fileLogRun s es).files d = s.files d ++ since d es) ∧
    ((writers d s.handlers).length = 1 → (∀ st, FileLogEvent.construct st d ∉ es) →
      (fileLogRun s es).files d = s.files d ++ messages es) := by
  induction es generalizing s with
  | nil => simp [fileLogRun, since, messages]
  | cons e es ih =>
    have hrun : fileLogRun s (e :: es) = fileLogRun (fileLogStep s e) es := rfl
    rw [hrun]
    cases e with
    | construct st d' =>
      obtain ⟨hn, ho'⟩ := ho
      obtain ⟨i1, i2⟩ := ih (fileLogStep s (.construct st d')) (console_init _ _ _ _ _ hc) ho'
      have hw := writers_init d d' 0 d' st s.handlers hc
      have hf : (fileLogStep s (.construct st d')).files = s.files := rfl
      have hh : (fileLogStep s (.construct st d')).handlers = initHandlers d' 0 st d' s.handlers := rfl
      rw [hf, hh, hw] at i1 i2
      refine ⟨?_, ?_⟩
      · intro h0
        cases st with
        | false =>
          have := i1 (by simp [h0])
          simpa [since] using this
        | true =>
          by_cases hd : d' = d
          · subst hd
            have := i2 (by simp [h0]) hn
            simpa [since] using this
          · have := i1 (by simp [h0, hd])
            simpa [since, hd] using this
      · intro h1 hno
        have hd : ¬ (st = true ∧ d' = d) := by
          rintro ⟨rfl, rfl⟩
          exact hno true (by simp)
        have := i2 (by simp [h1, hd]) fun st' hm => hno st' (by simp [hm])
        simpa [messages] using this
    | message d' m =>
      obtain ⟨i1, i2⟩ := ih (fileLogStep s (.message d' m)) hc ho
      have hf : (fileLogStep s (.message d' m)).files d
          = s.files d ++ (writers d s.handlers).map fun _ => (d', m) := rfl
      have hh : (fileLogStep s (.message d' m)).handlers = s.handlers := rfl
      rw [hf, hh] at i1 i2
      refine ⟨?_, ?_⟩
      · intro h0
        have := i1 h0
        rw [List.length_eq_zero_iff.1 h0] at this
        simpa [since] using this
      · intro h1 hno
        have := i2 h1 fun st hm => hno st (by simp [hm])
        obtain ⟨w, hw⟩ := List.length_eq_one_iff.1 h1
        rw [hw] at this
        simpa [messages] using this

/-- The full claim: the log of a run contains the messages of that run and nothing else. -/
def C93_claim : Prop := ∀ (es : List (FileLogEvent Nat)) (d : Nat), OncePerDirectory es →
  (fileLogRun ⟨[], fun _ => []⟩ es).files d = own d es

/-- **C93, what a log contains.**  Starting without log handlers, the log of an instance contains
exactly the messages of all instances since its construction, in order. -/
theorem C93_contents (es : List (FileLogEvent Msg)) (d : Nat) (h : OncePerDirectory es) :
    (fileLogRun ⟨[], fun _ => []⟩ es).files d = since d es := by
  have := (files_after d es ⟨[], fun _ => []⟩ (by simp) h).1 (by simp [writers])
  simpa using this

/-- **C93, the part that holds.**  The log of an instance contains exactly its messages, if no other
instance logs anything after its construction.  Missing: later use of other instances, see below. -/
theorem C93_partial (es : List (FileLogEvent Msg)) (d : Nat) (h : OncePerDirectory es)
    (ho : ∀ x ∈ since d es, x.1 = d) :
    (fileLogRun ⟨[], fun _ => []⟩ es).files d = own d es := by
  rw [C93_contents es d h]
  unfold own
  rw [List.filter_eq_self.2]
  intro x hx
  simpa using ho x hx

end

example : OncePerDirectory [FileLogEvent.construct true 1, .message 1 7, .construct true 2] ∧
    (∀ x ∈ since 1 [FileLogEvent.construct true 1, .message 1 7, .construct true 2], x.1 = 1) ∧
    own 1 [FileLogEvent.construct true 1, .message 1 7, .construct true 2] = [(1, 7)] := by
  refine ⟨?_, by decide, by decide⟩
  simp [OncePerDirectory]

/-- **C93 is false of the code**: the file handler of an instance stays installed, so its log also
receives what later instances log. -/
theorem C93_false : ¬ C93_claim := by
  intro h
  have := h [.construct true 1, .construct true 2, .message 2 7] 1 (by simp [OncePerDirectory])
  rw [C93_contents _ _ (by simp [OncePerDirectory])] at this
  revert this
  decide

/-! ### C94 -/

theorem afterPrefix_mem (tok s : Str) (h : (afterPrefix tok s).isSome) : ∀ c ∈ tok, c ∈ s := by
  induction tok generalizing s with
  | nil => simp
  | cons a t ih =>
    cases s with
    | nil => simp [afterPrefix] at h
    | cons c s =>
      simp only [afterPrefix] at h
      split_ifs at h with hc
      · subst hc
        intro x hx
        rcases List.mem_cons.1 hx with e | hx
        · simp [e]
        · exact List.mem_cons_of_mem _ (ih s h x hx)
      · simp at h

theorem afterPrefix_self (tok s : Str) : afterPrefix tok (tok ++ s) = some s := by
  induction tok with
  | nil => rfl
  | cons a t ih => simp [afterPrefix, ih]

theorem splitGo_skip (tok a s : Str) : splitGo tok (a ++ s) a.length = splitGo tok s 0 := by
  induction a with
  | nil => rfl
  | cons c a ih => simpa [splitGo] using ih

theorem splitOnStr_absent (tok s : Str) (c : Char) (hc : c ∈ tok) (h : c ∉ s) :
    splitOnStr tok s = [s] := by
  unfold splitOnStr
  induction s with
  | nil => rfl
  | cons d s ih =>
    have hn : (afterPrefix tok (d :: s)).isSome = false := by
      by_contra hp
      simp only [Bool.not_eq_false] at hp
      exact h (afterPrefix_mem tok _ hp c hc)
    simp only [List.mem_cons, not_or] at h
    simp only [splitGo, hn, Bool.false_eq_true, if_false, ih h.2]

theorem splitOnStr_first (t0 x : Char) (hx : t0 ≠ x) (ts a b : Str) (h : ¬ [t0, x] <:+: a) :
    splitOnStr (t0 :: x :: ts) (a ++ (t0 :: x :: ts) ++ b)
      = a :: splitOnStr (t0 :: x :: ts) b := by
  unfold splitOnStr
  induction a with
  | nil =>
    rw [List.nil_append]
    have hp : (afterPrefix (t0 :: x :: ts) (t0 :: x :: ts ++ b)).isSome = true := by
      rw [afterPrefix_self]; rfl
    have e : (t0 :: x :: ts) ++ b = t0 :: ((x :: ts) ++ b) := rfl
    rw [e] at hp ⊢
    rw [splitGo]
    have hp' : (afterPrefix (t0 :: x :: ts) (t0 :: ((x :: ts) ++ b))).isSome = true := hp
    simp only [hp', if_true]
    have := splitGo_skip (t0 :: x :: ts) (x :: ts) b
    simp only [List.length_cons] at this ⊢
    rw [show ts.length + 1 + 1 - 1 = ts.length + 1 from rfl, this]
  | cons c a ih =>
    have hn : (afterPrefix (t0 :: x :: ts) (c :: (a ++ (t0 :: x :: ts) ++ b))).isSome = false := by
      simp only [afterPrefix]
      split_ifs with h1
      · subst h1
        cases a with
        | nil =>
          have : ([] ++ (t0 :: x :: ts) ++ b : Str) = t0 :: (x :: ts ++ b) := rfl
          rw [this]
          simp only [afterPrefix]
          rw [if_neg fun e => hx e.symm]; rfl
        | cons d a =>
          have : ((d :: a) ++ (t0 :: x :: ts) ++ b : Str) = d :: (a ++ (t0 :: x :: ts) ++ b) := rfl
          rw [this]
          simp only [afterPrefix]
          rw [if_neg]
          · rfl
          · intro e
            subst e
            exact h ⟨[], a, by simp⟩
      · rfl
    have ih := ih fun hh => h (hh.trans (List.suffix_cons c a).isInfix)
    have e : (c :: a) ++ (t0 :: x :: ts) ++ b = c :: (a ++ (t0 :: x :: ts) ++ b) := rfl
    rw [e, splitGo]
    simp only [hn, Bool.false_eq_true, if_false, ih]

namespace Spec

/-- The texts of a finished phase: a time stamp and the name of a logger, one-word names of phase and
algorithms, a number. -/
structure PhaseTexts (time place name : Str) (details : List Str) (seconds : Str) : Prop where
  time_S : 'S' ∉ time
  time_dash : ¬ [' ', '-'] <:+: time
  place_S : 'S' ∉ place
  place_space : ' ' ∉ place
  name_space : ' ' ∉ name ∧ ':' ∉ name
  details_space : ∀ t ∈ details, ' ' ∉ t ∧ ':' ∉ t
  seconds_space : ' ' ∉ seconds ∧ ':' ∉ seconds

end Spec

/-- **C94.**  The line logged when a phase ends is read back as the phase, the algorithms, the time
stamp and the duration. -/
theorem C94_phases (time place name : Str) (details : List Str) (seconds : Str)
    (h : PhaseTexts time place name details seconds) :
    readStop (stopLine time place name details seconds)
      = .ok (name, joinWith [','] details, time, seconds) := by
  have hjs : ' ' ∉ joinWith [','] details :=
    not_mem_joinWith _ _ (by decide) _ fun t ht => (h.details_space t ht).1
  have hjc : ':' ∉ joinWith [','] details :=
    not_mem_joinWith _ _ (by decide) _ fun t ht => (h.details_space t ht).2
  have hinf : ¬ [' ', 'S'] <:+: '[' :: time ++ dashToken ++ place ++ [']'] := by
    rintro hh
    have := hh.subset (show 'S' ∈ [' ', 'S'] by simp)
    simp [dashToken, h.time_S, h.place_S] at this
  have e1 : stopLine time place name details seconds
      = ('[' :: time ++ dashToken ++ place ++ [']']) ++ stopToken
        ++ (name ++ ' ' :: (joinWith [','] details ++ ' ' :: (['a', 'f', 't', 'e', 'r'] ++ ' ' ::
          (seconds ++ ['s', '.', '\n'])))) := by
    simp [stopLine]
  have e2 : splitOnStr stopToken (stopLine time place name details seconds)
      = [('[' :: time ++ dashToken ++ place ++ [']']),
         (name ++ ' ' :: (joinWith [','] details ++ ' ' :: (['a', 'f', 't', 'e', 'r'] ++ ' ' ::
          (seconds ++ ['s', '.', '\n']))))] := by
    rw [e1]
    unfold stopToken
    rw [splitOnStr_first ' ' 'S' (by decide) _ _ _ hinf,
      splitOnStr_absent _ _ ':' (by decide)]
    simp [h.name_space.2, hjc, h.seconds_space.2]
  have e3 : ((('[' :: time ++ dashToken ++ place ++ [']']).drop 1).dropLast)
      = time ++ dashToken ++ place := by
    have : ('[' :: time ++ dashToken ++ place ++ [']']).drop 1
        = (time ++ dashToken ++ place) ++ [']'] := by simp
    rw [this, List.dropLast_concat]
  have e4 : splitOnStr dashToken (time ++ dashToken ++ place) = [time, place] := by
    unfold dashToken
    rw [splitOnStr_first ' ' '-' (by decide) _ _ _ h.time_dash,
      splitOnStr_absent _ _ ' ' (by decide) h.place_space]
  have e5 : splitOnChar ' ' (name ++ ' ' :: (joinWith [','] details ++ ' ' ::
      (['a', 'f', 't', 'e', 'r'] ++ ' ' :: (seconds ++ ['s', '.', '\n']))))
      = [name, joinWith [','] details, ['a', 'f', 't', 'e', 'r'], seconds ++ ['s', '.', '\n']] := by
    rw [splitOnChar_append _ _ _ h.name_space.1, splitOnChar_append _ _ _ hjs,
      splitOnChar_append _ _ _ (by decide), splitOnChar_free]
    simp [h.seconds_space.1]
  unfold readStop
  rw [e2]
  dsimp only
  rw [e3, e4]
  dsimp only
  rw [e5]
  have e6 : (seconds ++ ['s', '.', '\n']).dropLast.dropLast.dropLast = seconds := by
    have a1 : seconds ++ ['s', '.', '\n'] = ((seconds ++ ['s']) ++ ['.']) ++ ['\n'] := by simp
    rw [a1, List.dropLast_concat, List.dropLast_concat, List.dropLast_concat]
  simp only [e6]

example : PhaseTexts ['2', '0', '-', '0', '6', ' ', '1', '1', ':', '2', '8'] ['g', '.', 't']
    ['s', 'e', 'a', 'r', 'c', 'h'] [['R', 'S']] ['0', '.', '1'] :=
  ⟨by decide, by decide, by decide, by decide, by decide, by decide, by decide⟩

example : readStop (stopLine ['2', '0', '-', '0', '6', ' ', '1', '1', ':', '2', '8'] ['g', '.', 't']
    ['s', 'e', 'a', 'r', 'c', 'h'] [['R', 'S']] ['0', '.', '1'])
      = .ok (['s', 'e', 'a', 'r', 'c', 'h'], ['R', 'S'],
          ['2', '0', '-', '0', '6', ' ', '1', '1', ':', '2', '8'], ['0', '.', '1']) := by
  decide +kernel

/-! ### Cases of the theorems above -/

theorem Ex.reportFields_clean : CleanLog reportFields
    [[(['a'], ['1', '2'])], [(['b'], ['1']), (['c'], ['1', '2', '3'])]].flatten := by
  refine ⟨by simp [reportFields], ?_, ?_, ?_⟩
  · simp [reportFields, Readable]
  · simp [reportFields, Readable]
  · simp [reportFields, record, StartsVisibly]

/-- `C73_incremental`, `C73_contents`: a log read after one line and after three. -/
example : updates lengthConversions true (newReport true 1)
      (snapshots reportFields [] [[(['a'], ['1', '2'])], [(['b'], ['1']), (['c'], ['1', '2', '3'])]]) =
    updates lengthConversions true (newReport true 1)
      [logOf reportFields [(['a'], ['1', '2']), (['b'], ['1']), (['c'], ['1', '2', '3'])]] :=
  C73_incremental lengthConversions reportFields 1 _ (by simp) Ex.reportFields_clean

example (r : Report Nat Str) (h : updates lengthConversions true (newReport true 1)
      (snapshots reportFields [] [[(['a'], ['1', '2'])], [(['b'], ['1']), (['c'], ['1', '2', '3'])]]) = .ok r) :
    r.rows.map (fun x => x.n) = [0, 1, 2] ∧ ∃ best, r.cummax[(0 : Nat)]? = some best ∧ best.length = 3 :=
  have hc := C73_contents lengthConversions reportFields 1 _ (by simp) Ex.reportFields_clean r h
  let ⟨best, hb, _, hl⟩ := hc.2.2.1 (by simp) 0 (by decide)
  ⟨hc.2.1, best, hb, hl⟩

/-- `C73_complete`: a report of a run that ended. -/
example (file : Str) : update lengthConversions file false { newReport (M := Nat) (I := Str) true 1 with incomplete := false } =
    (.ok false, { newReport true 1 with incomplete := false }) :=
  C73_complete _ _ _ rfl

end Gama
