import Verif.Props.Logs

/-! # Reading a log while a line of it is written: C183 -/

namespace Gama

namespace Spec

/-- A text of the log at a moment between two evaluations: the header may not be written yet or in part, and the last
line may lack its line end. -/
def Between {E : Type} (fields : LogFields E) (es : List E) (file : Str) : Prop :=
  (es = [] ∧ file <+: logOf fields es) ∨ file = logOf fields es ∨ (es ≠ [] ∧ logOf fields es = file ++ ['\n'])

/-- Texts of a log that grows from the evaluations `a` to the evaluations `z`. -/
inductive Growing {E : Type} (fields : LogFields E) : List E → List Str → List E → Prop
  | done (a) : Growing fields a [] a
  | next (a c file files z) : Between fields (a ++ c) file → Growing fields (a ++ c) files z →
      Growing fields a (file :: files) z

/-- What is to be seen of a report: everything but the position in the file. -/
def visible {M I : Type} (r : Report M I) : Report M I := { r with tell := 0 }

end Spec

open Spec

/-! ## The tokenizer -/

theorem csv_newline_end : ∀ (s : Str) (st : CsvState) (f : Str) (row : List Str) (acc : List (List Str)),
    csvGo (s ++ ['\n']) st f row acc = csvGo s st f row acc
  | [], st, f, row, acc => by
    cases st with
    | startRecord => simp [csvGo]
    | blankLine => simp [csvGo]
    | inQuoted => simp [csvGo]
    | startField =>
      simp only [List.nil_append, csvGo, if_true]
      cases endLine (row ++ [f]) acc <;> simp
    | inField =>
      simp only [List.nil_append, csvGo, if_true]
      cases endLine (row ++ [f]) acc <;> simp
    | quoteInQuoted =>
      simp only [List.nil_append, csvGo, if_true]
      cases endLine (row ++ [f]) acc <;> simp
  | c :: s, st, f, row, acc => by
    cases st <;> simp only [List.cons_append, csvGo, csv_newline_end s]

theorem csv_newline_start (s : Str) : readCsv ('\n' :: s) = readCsv s := by
  simp [readCsv, csvGo]

theorem readline_prefix : ∀ (s t : Str), s <+: t → '\n' ∉ s → readline s = s
  | [], _, _, _ => rfl
  | c :: s, t, _, h => by
    simp only [List.mem_cons, not_or] at h
    unfold readline
    rw [if_neg (Ne.symm h.1), readline_prefix s s List.prefix_rfl h.2]

/-! ## One reading -/

/-- A position from which reading a log gives what comes after the evaluations `a`. -/
def Position {E : Type} (fields : LogFields E) (a : List E) (t : Nat) : Prop :=
  t ≤ (logOf fields a).length ∧ ((logOf fields a).length ≤ t + 1 ∨ a = [])

theorem logOf_append {E : Type} (fields : LogFields E) (a c : List E) :
    logOf fields (a ++ c) = logOf fields a ++ linesOf (c.map (record fields)) := by
  rw [logOf_eq, logOf_eq]; simp [linesOf]

theorem logOf_last {E : Type} (fields : LogFields E) (a : List E) : ∃ s, logOf fields a = s ++ ['\n'] := by
  rcases List.eq_nil_or_concat a with rfl | ⟨b, e, rfl⟩
  · exact ⟨headerText fields, by rw [logOf_eq]; simp [linesOf]⟩
  · refine ⟨logOf fields b ++ joinWith [';'] (record fields e), ?_⟩
    rw [List.concat_eq_append, logOf_append]
    simp [linesOf]

/-- Reading the log at such a moment. -/
theorem readLog_between {E : Type} {fields : LogFields E} {a c : List E} (h : CleanLog fields (a ++ c)) {t : Nat}
    (ht : Position fields a t) {file : Str} (hf : Between fields (a ++ c) file) :
    ∃ start header, readLog file t = (start, header, .ok (c.map (record fields))) ∧
      (c ≠ [] → header = fields.map Prod.fst) ∧ Position fields a start ∧
      universal file = file ∧ (c ≠ [] → Position fields (a ++ c) file.length) := by
  have hnr : '\r' ∉ logOf fields (a ++ c) := log_no_return h
  have hsub : ∀ x ∈ file, x ∈ logOf fields (a ++ c) := by
    intro x hx
    rcases hf with ⟨_, hp⟩ | hp | ⟨_, hp⟩
    · exact hp.subset hx
    · rw [← hp]; exact hx
    · rw [hp]; simp [hx]
  have hu : universal file = file := universal_id _ fun hx => hnr (hsub _ hx)
  have hheader : (headerText fields ++ ['\n']).length = (logOf fields ([] : List E)).length := by
    rw [logOf_eq]; simp [linesOf]
  have hle : (logOf fields ([] : List E)).length ≤ (logOf fields a).length := by
    rw [logOf_eq, logOf_eq]; simp [linesOf]
  -- the header is there in full
  have main : ∀ rest, file = headerText fields ++ '\n' :: rest →
      (file = logOf fields (a ++ c) ∨ logOf fields (a ++ c) = file ++ ['\n']) →
      ∃ start header, readLog file t = (start, header, .ok (c.map (record fields))) ∧
      (c ≠ [] → header = fields.map Prod.fst) ∧ Position fields a start ∧
      universal file = file ∧ (c ≠ [] → Position fields (a ++ c) file.length) := by
    intro rest hrest hfile
    have hline : readline file = headerText fields ++ ['\n'] := by
      rw [hrest, readline_line _ _ (header_no_newline h)]
    have hpos : Position fields a (max t (headerText fields ++ ['\n']).length) ∧
        (logOf fields a).length ≤ max t (headerText fields ++ ['\n']).length + 1 := by
      rw [hheader]
      obtain ⟨h1, h2⟩ := ht
      rcases h2 with h2 | rfl
      · exact ⟨⟨by omega, Or.inl (by omega)⟩, by omega⟩
      · exact ⟨⟨by omega, Or.inr rfl⟩, by omega⟩
    refine ⟨max t (headerText fields ++ ['\n']).length, fields.map Prod.fst, ?_, fun _ => rfl, hpos.1, hu, fun _ => ?_⟩
    · unfold readLog
      dsimp only
      rw [hu, hline]
      have hd : (headerText fields ++ ['\n']).dropLast = headerText fields := by simp
      rw [hd, header_split h]
      congr 2
      -- from a position at the end of `a`
      have hcsv : readCsv (linesOf (c.map (record fields))) = .ok (c.map (record fields)) := by
        unfold readCsv
        rw [csv_lines _ fields.length [] (by simp)
          (fun r hr => clean_records h r (by
            rw [List.map_append]; exact List.mem_append_right _ hr))]
        simp
      generalize max t (headerText fields ++ ['\n']).length = s at hpos
      have hdrop : readCsv ((logOf fields (a ++ c)).drop s) = .ok (c.map (record fields)) := by
        rw [logOf_append]
        obtain ⟨⟨h1, _⟩, h2⟩ := hpos
        rcases Nat.lt_or_ge s (logOf fields a).length with hlt | hge
        · obtain ⟨w, hw⟩ := logOf_last fields a
          have hs : s = w.length := by rw [hw] at hlt h2; simp at hlt h2; omega
          rw [hw, hs, List.append_assoc, List.drop_left]
          exact (csv_newline_start _).trans hcsv
        · have hs : s = (logOf fields a).length := by omega
          rw [hs, List.drop_left]
          exact hcsv
      rcases hfile with hfile | hfile
      · rw [hfile]; exact hdrop
      · rcases Nat.lt_or_ge file.length s with hlt | hge
        · have hc : c = [] := by
            have hl : (logOf fields (a ++ c)).length = file.length + 1 := by rw [hfile]; simp
            have hl' := congrArg List.length (logOf_append fields a c)
            rw [List.length_append] at hl'
            have : (linesOf (c.map (record fields))).length = 0 := by
              have := hpos.1.1
              omega
            cases c with
            | nil => rfl
            | cons e c => simp [linesOf] at this
          rw [hc, List.drop_eq_nil_of_le (by omega)]
          rfl
        · rw [hfile, List.drop_append_of_le_length hge] at hdrop
          rw [← hdrop]
          exact (csv_newline_end _ _ _ _ _).symm
    · rcases hfile with hfile | hfile
      · rw [hfile]; exact ⟨le_refl _, Or.inl (by omega)⟩
      · have hl : (logOf fields (a ++ c)).length = file.length + 1 := by rw [hfile]; simp
        exact ⟨by omega, Or.inl (by omega)⟩
  rcases hf with ⟨hn, hp⟩ | hp | ⟨hn, hp⟩
  · obtain ⟨rfl, rfl⟩ := List.append_eq_nil_iff.1 hn
    by_cases hnl : '\n' ∈ file
    · -- the header line is complete
      have hfull : file = logOf fields ([] ++ [] : List E) := by
        obtain ⟨rest, hrest⟩ := hp
        have e : logOf fields ([] : List E) = headerText fields ++ ['\n'] := by rw [logOf_eq]; simp [linesOf]
        cases hr : rest with
        | nil => rw [hr, List.append_nil] at hrest; exact hrest
        | cons x xs =>
          exfalso
          rw [List.append_nil, e] at hrest
          have hmem : file <+: headerText fields := by
            refine List.prefix_of_prefix_length_le ⟨rest, hrest⟩ (List.prefix_append _ _) ?_
            have := congrArg List.length hrest
            rw [hr] at this
            simp at this
            omega
          exact header_no_newline h (hmem.subset hnl)
      exact main [] (by rw [hfull, List.append_nil, logOf_eq]; simp [linesOf]) (Or.inl hfull)
    · refine ⟨max t file.length, splitOnChar ';' file.dropLast, ?_, fun hc => absurd rfl hc, ?_, hu,
        fun hc => absurd rfl hc⟩
      · unfold readLog
        dsimp only
        rw [hu, readline_prefix file file List.prefix_rfl hnl, List.drop_eq_nil_of_le (by omega)]
        rfl
      · have := hp.length_le
        rw [List.append_nil] at this
        exact ⟨by have := ht.1; omega, Or.inr rfl⟩
  · exact main _ (by rw [hp, logOf_eq]) (Or.inl hp)
  · obtain ⟨z, e, hz⟩ : ∃ z e, a ++ c = z ++ [e] := by
      rcases List.eq_nil_or_concat (a ++ c) with h0 | ⟨z, e, h0⟩
      · exact absurd h0 hn
      · exact ⟨z, e, by rw [h0, List.concat_eq_append]⟩
    have hrest : file = headerText fields ++ '\n' :: (linesOf (z.map (record fields)) ++ joinWith [';'] (record fields e)) := by
      rw [hz, logOf_append, logOf_eq] at hp
      have : headerText fields ++ '\n' :: linesOf (z.map (record fields)) ++ linesOf ([e].map (record fields)) =
          (headerText fields ++ '\n' :: (linesOf (z.map (record fields)) ++ joinWith [';'] (record fields e))) ++ ['\n'] := by
        simp [linesOf]
      rw [this] at hp
      exact (List.append_cancel_right hp).symm
    exact main _ hrest (Or.inr hp)

section
variable {M I : Type} [LinearOrder M]

/-- One update on what was read so far, as `update_step`. -/
theorem update_read {E : Type} (C : Conversions M I) (fields : LogFields E) (m t start : Nat) (header : List Str)
    (a c : List E) (force : Bool) (file : Str) (xs : List (ReportRow M × (Str × I)))
    (hx : convertRows C m (fields.map Prod.fst) 0 (a.map (record fields)) = .ok xs)
    (hr : readLog file t = (start, header, .ok (c.map (record fields))))
    (hh : c ≠ [] → header = fields.map Prod.fst) :
    match convertRows C m (fields.map Prod.fst) 0 ((a ++ c).map (record fields)) with
    | .ok ys => ∃ b, update C file force (reportOf m t xs)
        = (.ok b, reportOf m (if c.length = 0 then start else (universal file).length) ys)
    | .error e => ∃ r, update C file force (reportOf m t xs) = (.error e, r) := by
  obtain ⟨p1, p2, p3, p4, p5⟩ := reportOf_parts m t xs
  rw [List.map_append, convertRows_append, hx]
  simp only [Except.bind, Nat.zero_add]
  unfold update
  rw [p1, p3, hr]
  simp only [Bool.not_true, Bool.and_false, Bool.false_eq_true, if_false]
  cases c with
  | nil =>
    simp only [List.map_nil, convertRows, Except.map, List.append_nil]
    exact ⟨false, by cases xs <;> simp [reportOf, derive]⟩
  | cons e c =>
    rw [hh (by simp)]
    simp only [List.map_cons]
    rw [if_neg (by simp [record])]
    rw [p2]
    have hz := convertRows_shift C m (fields.map Prod.fst) 0 (a.map (record fields)).length
      (record fields e :: c.map (record fields))
    rw [Nat.zero_add] at hz
    rw [hz]
    cases hy : convertRows C m (fields.map Prod.fst) 0
        (record fields e :: c.map (record fields)) with
    | error e' => exact ⟨_, rfl⟩
    | ok ys =>
      have hne : ys ≠ [] := by
        rintro rfl
        have := congrArg List.length (convertRows_n C m _ 0 _ _ hy)
        simp at this
      refine ⟨true, ?_⟩
      dsimp only [Except.map]
      rw [p4, p5, appendRows_eq C m _ _ xs ys hx, if_neg (by simp)]
      obtain ⟨y, ys', rfl⟩ := List.exists_cons_of_ne_nil hne
      cases xs with
      | nil => simp [reportOf, derive, dmerge, Function.comp_def]
      | cons x xs => simp [reportOf, derive, dmerge, Function.comp_def, List.foldl_append]

theorem clean_prefix {E : Type} {fields : LogFields E} {a b : List E} (h : CleanLog fields (a ++ b)) :
    CleanLog fields a :=
  ⟨h.nonempty, h.names, fun e he => h.texts e (List.mem_append_left _ he),
    fun e he => h.visible e (List.mem_append_left _ he)⟩

theorem growing_prefix {E : Type} {fields : LogFields E} {a : List E} {files : List Str} {z : List E}
    (h : Growing fields a files z) : ∃ b, z = a ++ b := by
  induction h with
  | done a => exact ⟨[], by simp⟩
  | next a c file files z _ _ ih =>
    obtain ⟨b, hb⟩ := ih
    exact ⟨c ++ b, by rw [hb, List.append_assoc]⟩

theorem updates_growing {E : Type} (C : Conversions M I) (fields : LogFields E) (m : Nat) {a : List E}
    {files : List Str} {z : List E} (hg : Growing fields a files z) :
    ∀ (t : Nat) (force : Bool) (xs : List (ReportRow M × (Str × I))), CleanLog fields z → Position fields a t →
    convertRows C m (fields.map Prod.fst) 0 (a.map (record fields)) = .ok xs →
    match convertRows C m (fields.map Prod.fst) 0 (z.map (record fields)) with
    | .ok ys => ∃ t', updates C force (reportOf m t xs) files = .ok (reportOf m t' ys)
    | .error e => updates C force (reportOf m t xs) files = .error e := by
  induction hg with
  | done a =>
    intro t force xs _ _ hx
    rw [hx]
    exact ⟨t, rfl⟩
  | next a c file files z hb hg ih =>
    intro t force xs hz ht hx
    obtain ⟨b, rfl⟩ := growing_prefix hg
    have hc := clean_prefix hz
    obtain ⟨start, header, h1, h2, h3, h4, h5⟩ := readLog_between hc ht hb
    have step := update_read C fields m t start header a c force file xs hx h1 h2
    rw [h4] at step
    unfold updates
    cases hy : convertRows C m (fields.map Prod.fst) 0 ((a ++ c).map (record fields)) with
    | error e =>
      rw [hy] at step
      obtain ⟨r, hr⟩ := step
      rw [hr]
      rw [List.map_append (l₁ := a ++ c), convertRows_append, hy]
      rfl
    | ok ys =>
      rw [hy] at step
      obtain ⟨bb, hr⟩ := step
      rw [hr]
      refine ih _ false ys hz ?_ hy
      by_cases h0 : c.length = 0
      · rw [if_pos h0]
        have : c = [] := List.length_eq_zero_iff.1 h0
        rw [this, List.append_nil]
        exact h3
      · rw [if_neg h0]
        exact h5 fun e => h0 (by rw [e]; rfl)

theorem visible_reportOf (m t t' : Nat) (xs : List (ReportRow M × (Str × I))) :
    visible (reportOf m t xs) = visible (reportOf m t' xs) := by
  cases xs <;> rfl

/-! ## C183 -/

/-- **C183** in full: whatever part of a log could be read at some moment, a report that was made then and is updated
when the log is finished shows what one made of the finished log does. -/
def C183_claim : Prop :=
  ∀ (M I E : Type) (_ : LinearOrder M) (C : Conversions M I) (fields : LogFields E) (m : Nat) (es : List E) (file : Str),
    CleanLog fields es → file <+: logOf fields es →
    (updates C true (newReport true m) [file, logOf fields es]).map visible
      = (updates C true (newReport true m) [logOf fields es]).map visible

/-- **C183** where it holds: at all moments of reading no evaluation was written in part; the line of the last one may
lack its line end, and the header may be written in part.  The report then shows what one made of the whole log does,
and if a record cannot be converted both raise the same exception. -/
theorem C183_partial {E : Type} (C : Conversions M I) (fields : LogFields E) (m : Nat) (es : List E) (files : List Str)
    (h : CleanLog fields es) (hg : Growing fields [] files es) :
    (updates C true (newReport true m) files).map visible
      = (updates C true (newReport true m) [logOf fields es]).map visible := by
  have h0 : (newReport true m : Report M I) = reportOf m 0 [] := rfl
  have hp : Position fields ([] : List E) 0 := ⟨by omega, Or.inr rfl⟩
  have h1 := updates_growing C fields m hg 0 true [] h hp rfl
  have h2 := updates_growing C fields m (.next [] es (logOf fields es) [] es (Or.inr (Or.inl rfl)) (.done es))
    0 true [] h hp rfl
  rw [h0]
  cases hz : convertRows C m (fields.map Prod.fst) 0 (es.map (record fields)) with
  | error e =>
    rw [hz] at h1 h2
    rw [h1, h2]
  | ok ys =>
    rw [hz] at h1 h2
    obtain ⟨t1, h1⟩ := h1
    obtain ⟨t2, h2⟩ := h2
    rw [h1, h2]
    exact congrArg Except.ok (visible_reportOf m t1 t2 ys)

end

/-- The log as it is while the evaluation after `a` is written, of whose line some texts are there and of the next one the
beginning `p`. -/
def Spec.halfLog {E : Type} (fields : LogFields E) (a : List E) (init : List Str) (p : Str) : Str :=
  logOf fields a ++ joinWith [';'] (init ++ [p])

theorem half_texts {E : Type} {fields : LogFields E} {a b : List E} {e : E} (h : CleanLog fields (a ++ e :: b))
    {init rest : List Str} {p q : Str} (he : record fields e = init ++ (p ++ q) :: rest) (hp : init = [] → p ≠ []) :
    (∀ t ∈ init ++ [p], Readable t) ∧ ∀ t, (init ++ [p]).head? = some t → StartsVisibly t := by
  have hmem : e ∈ a ++ e :: b := by simp
  have htexts : ∀ t ∈ record fields e, Readable t := by
    intro t ht
    obtain ⟨f, hf, rfl⟩ := List.mem_map.1 ht
    exact h.texts e hmem f hf
  have hv := h.visible e hmem
  rw [he] at htexts hv
  refine ⟨fun t ht => ?_, fun t ht => ?_⟩
  · rcases List.mem_append.1 ht with ht | ht
    · exact htexts t (by simp [ht])
    · rw [List.mem_singleton] at ht
      subst ht
      obtain ⟨h1, h2, h3, h4⟩ := htexts (t ++ q) (by simp)
      simp only [List.mem_append, not_or] at h1 h2 h3
      refine ⟨h1.1, h2.1, h3.1, ?_⟩
      cases t with
      | nil => simp
      | cons x t => simpa using h4
  · cases init with
    | nil =>
      obtain rfl : p = t := by simpa using ht
      obtain ⟨c, hc⟩ := hv (p ++ q) rfl
      cases p with
      | nil => exact absurd rfl (hp rfl)
      | cons x p => exact ⟨c, by simpa using hc⟩
    | cons x xs => exact hv t (by simpa using ht)

theorem half_universal {E : Type} {fields : LogFields E} {a b : List E} {e : E} (h : CleanLog fields (a ++ e :: b))
    {init : List Str} {p : Str} (ht : ∀ t ∈ init ++ [p], Readable t) :
    universal (halfLog fields a init p) = halfLog fields a init p := by
  refine universal_id _ fun hr => ?_
  rcases List.mem_append.1 hr with hr | hr
  · exact log_no_return (clean_prefix h) hr
  · exact not_mem_joinWith _ _ (by decide) _ (fun t hm => (ht t hm).2.2.1) hr

/-- Reading a log of which the last line was not written in full. -/
theorem readLog_half {E : Type} {fields : LogFields E} {a d b : List E} {e : E} (h : CleanLog fields (a ++ d ++ e :: b))
    {init rest : List Str} {p q : Str} (he : record fields e = init ++ (p ++ q) :: rest) (hp : init = [] → p ≠ [])
    (hd : d ≠ [] → rest = []) :
    readLog (halfLog fields (a ++ d) init p) (logOf fields a).length =
      ((logOf fields a).length, fields.map Prod.fst, .ok (d.map (record fields) ++ [init ++ [p]])) := by
  obtain ⟨ht, hv⟩ := half_texts h he hp
  have hc := clean_prefix h
  unfold readLog
  dsimp only
  rw [half_universal h ht]
  have hline : readline (halfLog fields (a ++ d) init p) = headerText fields ++ ['\n'] := by
    unfold halfLog
    rw [logOf_eq, List.append_assoc, List.cons_append, readline_line _ _ (header_no_newline h)]
  rw [hline]
  have hl : max (logOf fields a).length (headerText fields ++ ['\n']).length = (logOf fields a).length := by
    rw [logOf_eq]; simp
  have hdl : (headerText fields ++ ['\n']).dropLast = headerText fields := by simp
  rw [hl, hdl, header_split h]
  congr 2
  unfold halfLog
  rw [logOf_append, List.append_assoc, List.drop_left]
  unfold readCsv
  rw [← csv_newline_end]
  have e1 : linesOf (d.map (record fields)) ++ joinWith [';'] (init ++ [p]) ++ ['\n'] =
      linesOf (d.map (record fields) ++ [init ++ [p]]) := by simp [linesOf]
  rw [e1]
  have hlen : (record fields e).length = fields.length := by simp [record]
  rw [csv_lines _ (init ++ [p]).length [] (by simp) ?_]
  · simp
  · intro r hr
    rcases List.mem_append.1 hr with hr | hr
    · have hne : d ≠ [] := by rintro rfl; simp at hr
      obtain ⟨h1, h2⟩ := clean_records hc r (by rw [List.map_append]; exact List.mem_append_right _ hr)
      refine ⟨?_, h2⟩
      rw [h1, ← hlen, he, hd hne]
      simp
    · rw [List.mem_singleton.1 hr]
      exact ⟨rfl, by simp, ht, hv⟩

section
variable {M I : Type} [LinearOrder M]

/-- **C183**, otherwise: an evaluation of whose line texts are missing, if it is the only new one, is refused with a
ValueError; the report forgets of it what was read. -/
theorem C183_missing {E : Type} (C : Conversions M I) (fields : LogFields E) (a b : List E) (e : E)
    (h : CleanLog fields (a ++ e :: b)) (init rest : List Str) (p q : Str)
    (he : record fields e = init ++ (p ++ q) :: rest) (hp : init = [] → p ≠ []) (hrest : rest ≠ [])
    (r : Report M I) (hr : r.incomplete = true) (ht : r.tell = (logOf fields a).length) (force : Bool) :
    update C (halfLog fields a init p) force r =
      (.error .valueError, { r with tell := (halfLog fields a init p).length }) := by
  have hread := readLog_half (a := a) (d := []) (by simpa using h) he hp (fun hd => absurd rfl hd)
  rw [List.append_nil] at hread
  unfold update
  rw [hr, ht, hread]
  simp only [Bool.not_true, Bool.and_false, Bool.false_eq_true, if_false, List.map_nil, List.nil_append]
  have hlen : (record fields e).length = fields.length := by simp [record]
  rw [he] at hlen
  have hne : (init ++ [p]).length ≠ (fields.map Prod.fst).length := by
    have := List.length_pos_iff.2 hrest
    simp at hlen ⊢
    omega
  rw [if_pos hne, half_universal h (half_texts h he hp).1]

/-- **C183**, otherwise: an evaluation of whose last text only the beginning was written is shown with that. -/
theorem C183_shortened {E : Type} (fields : LogFields E) (a d b : List E) (e : E)
    (h : CleanLog fields (a ++ d ++ e :: b)) (init : List Str) (p q : Str)
    (he : record fields e = init ++ [p ++ q]) (hp : init = [] → p ≠ []) :
    readLog (halfLog fields (a ++ d) init p) (logOf fields a).length =
      ((logOf fields a).length, fields.map Prod.fst, .ok (d.map (record fields) ++ [init ++ [p]])) :=
  readLog_half h he hp fun _ => rfl

/-- **C183**, otherwise: after the report was updated while the last text of an evaluation was written, updating it raises
a ValueError.  If there are further evaluations then, the report does not change, so that all updates from then on raise
this exception; otherwise the rest of the text is skipped. -/
theorem C183_stuck {E : Type} (C : Conversions M I) (fields : LogFields E) (a b : List E) (e : E)
    (h : CleanLog fields (a ++ e :: b)) (init : List Str) (p q : Str)
    (he : record fields e = init ++ [p ++ q]) (hi : init ≠ []) (hq : StartsVisibly q) (hq' : q.head? ≠ some '"')
    (r : Report M I) (hr : r.incomplete = true) (ht : r.tell = (halfLog fields a init p).length) (force : Bool) :
    update C (logOf fields (a ++ e :: b)) force r =
      (.error .valueError, if b = [] then { r with tell := (logOf fields (a ++ e :: b)).length } else r) := by
  have hlen : (record fields e).length = fields.length := by simp [record]
  have hmem : e ∈ a ++ e :: b := by simp
  have hqr : Readable q := by
    have : Readable (p ++ q) := by
      have hx : p ++ q ∈ record fields e := by rw [he]; simp
      obtain ⟨f, hf, hx⟩ := List.mem_map.1 hx
      rw [← hx]
      exact h.texts e hmem f hf
    obtain ⟨h1, h2, h3, _⟩ := this
    simp only [List.mem_append, not_or] at h1 h2 h3
    exact ⟨h1.2, h2.2, h3.2, hq'⟩
  have hjoin : joinWith [';'] (init ++ [p ++ q]) = joinWith [';'] (init ++ [p]) ++ q := by
    clear he ht
    induction init with
    | nil => exact absurd rfl hi
    | cons x xs ih =>
      cases xs with
      | nil => simp [joinWith]
      | cons y ys =>
        have := ih (by simp)
        simp only [List.cons_append] at this ⊢
        rw [joinWith_cons2, this, joinWith_cons2]
        simp
  have htext : logOf fields (a ++ e :: b) =
      halfLog fields a init p ++ (joinWith [';'] [q] ++ '\n' :: linesOf (b.map (record fields))) := by
    rw [logOf_append]
    unfold halfLog
    have : linesOf ((e :: b).map (record fields)) =
        joinWith [';'] (record fields e) ++ '\n' :: linesOf (b.map (record fields)) := by simp [linesOf]
    rw [this, he, hjoin]
    simp [joinWith]
  have hhead : (headerText fields ++ ['\n']).length ≤ (halfLog fields a init p).length := by
    unfold halfLog
    rw [logOf_eq]
    simp
  have hwide : 1 < fields.length := by
    rw [← hlen, he]
    have := List.length_pos_iff.2 hi
    simp
    omega
  have hcsv : csvGo (joinWith [';'] [q] ++ '\n' :: linesOf (b.map (record fields))) .startRecord [] [] [] =
      if b = [] then .ok [[q]] else .error .valueError := by
    rw [csv_line [q] (by simpa using hqr) (by simp) (by simpa using hq)]
    unfold afterLine
    have : endLine [q] [] = .ok [[q]] := rfl
    rw [this]
    dsimp only
    cases b with
    | nil => rfl
    | cons x b =>
      rw [if_neg (by simp)]
      have hx : linesOf ((x :: b).map (record fields)) =
        joinWith [';'] (record fields x) ++ '\n' :: linesOf (b.map (record fields)) := by simp [linesOf]
      obtain ⟨h1, h2, h3, h4⟩ := clean_records h (record fields x) (by simp)
      rw [hx, csv_line _ h3 h2 h4]
      unfold afterLine
      have : endLine (record fields x) [[q]] = .error .valueError := by
        simp only [endLine]
        rw [if_pos (by rw [h1]; simpa using hwide)]
      rw [this]
  have hread : readLog (logOf fields (a ++ e :: b)) (halfLog fields a init p).length =
      ((halfLog fields a init p).length, fields.map Prod.fst, if b = [] then .ok [[q]] else .error .valueError) := by
    unfold readLog
    dsimp only
    rw [log_header h, universal_id _ (log_no_return h), Nat.max_eq_left hhead]
    have hd : (headerText fields ++ ['\n']).dropLast = headerText fields := by simp
    rw [hd, header_split h]
    have hdrop : (logOf fields (a ++ e :: b)).drop (halfLog fields a init p).length =
        joinWith [';'] [q] ++ '\n' :: linesOf (b.map (record fields)) := by rw [htext, List.drop_left]
    rw [hdrop]
    unfold readCsv
    rw [hcsv]
  unfold update
  rw [hr, ht, hread]
  simp only [Bool.not_true, Bool.and_false, Bool.false_eq_true, if_false]
  by_cases hb : b = []
  · rw [if_pos hb, if_pos hb]
    dsimp only
    rw [if_pos (by simp; omega), universal_id _ (log_no_return h)]
  · rw [if_neg hb, if_neg hb]
    dsimp only
    rw [← ht, ← hr]

end

/-- A log read three times: within the header, after an evaluation without its line end, and when it is finished. -/
example : Growing reportFields [] [['i', 'd', ';', 't'], (logOf reportFields [(['a'], ['1', '2'])]).dropLast,
    logOf reportFields [(['a'], ['1', '2']), (['b'], ['1'])]] [(['a'], ['1', '2']), (['b'], ['1'])] :=
  .next [] [] _ _ _ (Or.inl ⟨rfl, by decide⟩)
    (.next [] [(['a'], ['1', '2'])] _ _ _ (Or.inr (Or.inr ⟨by simp, by decide⟩))
      (.next [(['a'], ['1', '2'])] [(['b'], ['1'])] _ _ _ (Or.inr (Or.inl rfl)) (.done _)))

/-- The hypotheses of `C183_stuck` in a case: the first of two evaluations is cut off before its last text. -/
example : record reportFields (['a'], ['1', '2']) = [['a'], ['1'], ['1'], ['1', '2']] ++ [[] ++ ['P']] ∧
    StartsVisibly ['P'] ∧ (['P'] : Str).head? ≠ some '"' := by
  refine ⟨rfl, ⟨'P', rfl, by decide, by decide⟩, by decide⟩

/-- Two evaluations, the first cut off before its last text. -/
example : halfLog reportFields [] [['a'], ['1'], ['1'], ['1', '2']] [] ++ ['P', '\n', 'b', ';', '1', ';', '1', ';', '1', ';', 'P', '\n'] =
    logOf reportFields [(['a'], ['1', '2']), (['b'], ['1'])] := by decide

/-- **C183 is false**: if the log is read while the last text of a line is written, the next update raises. -/
theorem C183_false : ¬ C183_claim := by
  intro h
  have hc : CleanLog reportFields [(['a'], ['1', '2']), (['b'], ['1'])] := by
    refine ⟨by simp [reportFields], ?_, ?_, ?_⟩
    · simp [reportFields, Readable]
    · simp [reportFields, Readable]
    · simp [reportFields, record, StartsVisibly]
  have := h Nat Str (Str × Str) inferInstance lengthConversions reportFields 1 [(['a'], ['1', '2']), (['b'], ['1'])]
    (halfLog reportFields [] [['a'], ['1'], ['1'], ['1', '2']] []) hc (by decide)
  have e1 : (updates lengthConversions true (newReport true 1)
      [halfLog reportFields [] [['a'], ['1'], ['1'], ['1', '2']] [],
        logOf reportFields [(['a'], ['1', '2']), (['b'], ['1'])]]).isOk = false := by decide +kernel
  have e2 : (updates lengthConversions true (newReport true 1)
      [logOf reportFields [(['a'], ['1', '2']), (['b'], ['1'])]]).isOk = true := by decide +kernel
  cases h1 : updates lengthConversions true (newReport true 1)
      [halfLog reportFields [] [['a'], ['1'], ['1'], ['1', '2']] [],
        logOf reportFields [(['a'], ['1', '2']), (['b'], ['1'])]] with
  | ok x => rw [h1] at e1; cases e1
  | error x =>
    cases h2 : updates lengthConversions true (newReport true 1)
      [logOf reportFields [(['a'], ['1', '2']), (['b'], ['1'])]] with
    | error x => rw [h2] at e2; cases e2
    | ok y => rw [h1, h2] at this; cases this

end Gama
