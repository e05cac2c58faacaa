import Verif.Props.Data

/-! # Labels in every format (C59, C60, C83) -/

namespace Gama

namespace Spec

/-- The formats in which labels can be given one for each row: a Series, an array, an array with one
column, a data frame with one column, a list. -/
inductive Format where
  | series | array | column | frame | list
  deriving DecidableEq

/-- Labels given in a format. -/
def given (f : Format) (v : List Label) : Target :=
  match f with
  | .series => .series v
  | .array => .array1 v
  | .column => .array2 (v.map fun c => [c]) 1
  | .frame => .frame (v.map fun c => [c]) 1
  | .list => .list v

end Spec

open Spec

theorem squeeze_column (v : List Label) (h : v.length ≠ 1) :
    squeezeFrame (v.map fun c => [c]) 1 = .series v := by
  unfold squeezeFrame
  rw [if_pos rfl]
  match v with
  | [] => rfl
  | [c] => exact absurd rfl h
  | c :: d :: l => exact congrArg YOut.series (firstColumn_single (c :: d :: l))

theorem encoderInput_given (f : Format) (v : List Label) (h : f = .frame → v.length ≠ 1) :
    encoderInput (given f v) = .ok v := by
  cases f with
  | series => rfl
  | array => rfl
  | list => rfl
  | column => simp [given, encoderInput, firstColumn_single]
  | frame => simp only [given, encoderInput, squeeze_column v (h rfl)]

theorem seesStrings_given (f : Format) (v : List Label) (h : f = .frame → v.length ≠ 1) :
    seesStrings (given f v) = (decide (f ≠ .column) && v.any Label.isStr) := by
  cases f with
  | series => rfl
  | array => rfl
  | list => rfl
  | column => rfl
  | frame =>
    simp only [given, seesStrings, squeeze_column v (h rfl)]
    rfl

theorem formatY_given (f : Format) (v : List Label) (h : f = .frame → v.length ≠ 1) :
    formatY (given f v) = if f = .list then .error .typeError else .ok (.series v) := by
  cases f with
  | series => rfl
  | array => rfl
  | list => rfl
  | column => simp [given, formatY, firstColumn_single]
  | frame => simp only [given, formatY, squeeze_column v (h rfl)]; rfl

/-- What a classifier hands on: encoded labels if it sees strings, else what it was given. -/
theorem classifierFit_given (f : Format) (v : List Label) (h : f = .frame → v.length ≠ 1) {classes : List Label}
    (hc : labelClasses v = .ok classes) :
    (f ≠ .column → v.any Label.isStr = true →
      ∃ enc, encodeLabels classes v = .ok enc ∧ classifierFit (given f v) = .ok (classes, .array1 enc)) ∧
    ((f = .column ∨ v.any Label.isStr = false) → classifierFit (given f v) = .ok (classes, given f v)) := by
  constructor
  · intro hf hs
    obtain ⟨enc, e1, _⟩ := encode_decode classes v fun c hm => ((classes_mem hc).2 c).2 hm
    refine ⟨enc, e1, ?_⟩
    simp [classifierFit, encoderInput_given f v h, hc, seesStrings_given f v h, hf, hs, e1]
  · intro hf
    have : seesStrings (given f v) = false := by
      rw [seesStrings_given f v h]
      rcases hf with rfl | hf
      · rfl
      · rw [hf, Bool.and_false]
    simp [classifierFit, encoderInput_given f v h, hc, this]

theorem classes_of_strings {v : List Label} (hs : ∀ c ∈ v, ∃ s, c = .str s) :
    ∃ classes, labelClasses v = .ok classes := by
  have hnum : numsOf v = [] := by
    cases h : numsOf v with
    | nil => rfl
    | cons q l =>
      have : q ∈ numsOf v := by rw [h]; exact List.mem_cons_self
      obtain ⟨s, e⟩ := hs _ (mem_numsOf.1 this)
      cases e
  unfold labelClasses
  dsimp only
  cases h : strsOf v with
  | nil => exact ⟨_, rfl⟩
  | cons s ss => rw [hnum]; exact ⟨_, rfl⟩

/-- Decoding goes row by row. -/
theorem decodeLabels_rows (classes : List Label) : ∀ (w v : List Label), decodeLabels classes w = .ok v →
    List.Forall₂ (fun c d => decodeOne classes c = .ok d) w v := by
  intro w
  induction w with
  | nil => intro v h; cases h; exact .nil
  | cons c w ih =>
    intro v h
    unfold decodeLabels at h
    cases h1 : decodeOne classes c with
    | error e => rw [h1] at h; cases h
    | ok d =>
      cases h2 : decodeLabels classes w with
      | error e => rw [h1, h2] at h; cases h
      | ok l =>
        rw [h1, h2] at h
        cases h
        exact .cons h1 (ih l h2)

theorem decodeLabels_of (classes : List Label) (f : Label → Label) :
    ∀ l : List Label, (∀ c ∈ l, decodeOne classes c = .ok (f c)) → decodeLabels classes l = .ok (l.map f) := by
  intro l
  induction l with
  | nil => intro _; rfl
  | cons c l ih =>
    intro h
    unfold decodeLabels
    rw [h c List.mem_cons_self, ih fun d hd => h d (List.mem_cons_of_mem _ hd)]
    rfl

theorem forall₂_get {α β : Type} {R : α → β → Prop} {l : List α} {l' : List β} (h : List.Forall₂ R l l') :
    ∀ (j : Nat) (a : α) (b : β), l[j]? = some a → l'[j]? = some b → R a b := by
  induction h with
  | nil => intro j a b h; simp at h
  | cons hr _ ih =>
    intro j a b ha hb
    cases j with
    | zero => simp at ha hb; subst ha; subst hb; exact hr
    | succ j => exact ih j a b (by simpa using ha) (by simpa using hb)

/-- One decoding for all targets of the training rows. -/
theorem decode_function {classes w v : List Label} (h : decodeLabels classes w = .ok v) :
    ∃ f : Label → Label, (∀ c ∈ w, decodeOne classes c = .ok (f c)) ∧
      ∀ (j : Nat) (c d : Label), w[j]? = some c → v[j]? = some d → d = f c := by
  have hr := decodeLabels_rows classes w v h
  refine ⟨fun c => match decodeOne classes c with | .ok d => d | .error _ => c, ?_, ?_⟩
  · intro c hc
    obtain ⟨j, hj, e⟩ := List.mem_iff_getElem.1 hc
    have hl : j < v.length := by rw [← hr.length_eq]; exact hj
    have := forall₂_get hr j c v[j] (by rw [← e]; exact List.getElem?_eq_getElem hj)
      (List.getElem?_eq_getElem hl)
    dsimp only
    rw [this]
  · intro j c d hc hd
    have := forall₂_get hr j c d hc hd
    dsimp only
    rw [this]

/-- What a fitted classifier returns for predicted targets `pred` when models were trained on the
targets `w` of rows with labels `v`: for each prediction, the label of every row with that target. -/
def Spec.Answers (classes w v : List Label) : Prop :=
  w.length = v.length ∧
  ∀ pred : List Label, pred ≠ [] → (∀ c ∈ pred, c ∈ w) →
    ∃ out, classifierPredict classes pred = .ok out ∧ out.length = pred.length ∧
      ∀ i (hi : i < pred.length) (ho : i < out.length) (j : Nat) (d : Label),
        w[j]? = some pred[i] → v[j]? = some d → out[i] = d

theorem answers_same {classes v : List Label} (h : ∀ c ∈ v, c ∈ classes) : Answers classes v v := by
  refine ⟨rfl, fun pred hp hm => ⟨pred, ?_, rfl, ?_⟩⟩
  · cases pred with
    | nil => exact absurd rfl hp
    | cons c l =>
      unfold classifierPredict
      dsimp only
      rw [if_pos (h c (hm c List.mem_cons_self))]
  · intro i hi ho j d h1 h2
    rw [h1] at h2
    exact Option.some.inj h2

theorem answers_decoded {classes w v : List Label} (h : decodeLabels classes w = .ok v)
    (hw : ∀ c ∈ w, c ∉ classes) : Answers classes w v := by
  obtain ⟨f, hf, hg⟩ := decode_function h
  refine ⟨(decodeLabels_rows classes w v h).length_eq, fun pred hp hm => ⟨pred.map f, ?_, List.length_map _, ?_⟩⟩
  · cases pred with
    | nil => exact absurd rfl hp
    | cons c l =>
      unfold classifierPredict
      dsimp only
      rw [if_neg (hw c (hm c List.mem_cons_self))]
      exact decodeLabels_of classes f _ fun d hd => hf d (hm d hd)
  · intro i hi ho j d h1 h2
    rw [List.getElem_map]
    exact (hg j _ d h1 h2).symm

/-- **C59 for string labels in every format.**  The targets `w` that models are trained on are one for
each label given, and whatever targets a model predicts, the user gets the labels of the rows that had
these targets.  (A data frame with a single row is refused, see `C60_single_row`.) -/
theorem C59_formats (f : Format) (v : List Label) (hs : ∀ c ∈ v, ∃ s, c = .str s) (hv : v ≠ [])
    (h : f = .frame → v.length ≠ 1) :
    ∃ classes y' w, classifierFit (given f v) = .ok (classes, y') ∧ formatY y' = .ok (.series w) ∧
      (∀ c, c ∈ classes ↔ c ∈ v) ∧ Answers classes w v := by
  obtain ⟨classes, hc⟩ := classes_of_strings hs
  have hm := (classes_mem hc).2
  obtain ⟨h1, h2⟩ := classifierFit_given f v h hc
  by_cases hf : f = .column
  · refine ⟨classes, _, v, h2 (.inl hf), ?_, hm, answers_same fun c => (hm c).2⟩
    rw [formatY_given f v h, if_neg (by rw [hf]; decide)]
  · have hany : v.any Label.isStr = true := by
      cases v with
      | nil => exact absurd rfl hv
      | cons c l =>
        obtain ⟨s, e⟩ := hs c List.mem_cons_self
        rw [e]; rfl
    obtain ⟨enc, e1, e2⟩ := h1 hf hany
    obtain ⟨l, d1, _, d3, d4⟩ := encode_decode classes v fun c hc => (hm c).2 hc
    rw [e1] at d1
    cases d1
    refine ⟨classes, _, enc, e2, rfl, hm, answers_decoded d3 fun c hc hcl => ?_⟩
    obtain ⟨i, e, _⟩ := d4 c hc
    obtain ⟨s, e'⟩ := hs c ((hm c).1 hcl)
    rw [e'] at e
    cases e

/-- **C59 for numbers in every format but a list.** -/
theorem C59_number_formats (f : Format) (v : List Label) (hn : ∀ c ∈ v, ∃ q, c = .num q)
    (h : f = .frame → v.length ≠ 1) (hf : f ≠ .list) :
    ∃ classes y' w, classifierFit (given f v) = .ok (classes, y') ∧ formatY y' = .ok (.series w) ∧
      (∀ c, c ∈ classes ↔ c ∈ v) ∧ Answers classes w v := by
  have hstr : strsOf v = [] := by
    cases e : strsOf v with
    | nil => rfl
    | cons q l =>
      have : q ∈ strsOf v := by rw [e]; exact List.mem_cons_self
      obtain ⟨s, e⟩ := hn _ (mem_strsOf.1 this)
      cases e
  have hany : v.any Label.isStr = false := by
    rw [List.any_eq_false]
    intro c hc
    obtain ⟨q, e⟩ := hn c hc
    rw [e]; exact nofun
  have hc : ∃ classes, labelClasses v = .ok classes := by
    unfold labelClasses
    dsimp only
    rw [hstr]
    exact ⟨_, rfl⟩
  obtain ⟨classes, hc⟩ := hc
  have hm := (classes_mem hc).2
  refine ⟨classes, _, v, (classifierFit_given f v h hc).2 (.inr hany), ?_, hm, answers_same fun c => (hm c).2⟩
  rw [formatY_given f v h, if_neg hf]

example : classifierFit (given .frame [.num 3, .num 1]) =
    .ok ([.num 1, .num 3], .frame [[.num 3], [.num 1]] 1) := by rfl

/-- **C60 for lists.**  A list is accepted as labels of a classifier only if one of them is a string (it
is then encoded before it is formatted); otherwise, and for a regressor always, it is a `TypeError`. -/
theorem C60_lists (v : List Label) :
    formatY (.list v) = .error .typeError ∧
    (∀ classes y', classifierFit (.list v) = .ok (classes, y') →
      ((∃ w, formatY y' = .ok w) ↔ ∃ s, Label.str s ∈ v) ∧
      ((¬ ∃ s, Label.str s ∈ v) → formatY y' = .error .typeError)) ∧
    ((∀ c ∈ v, ∃ s, c = .str s) → ∃ r, classifierFit (.list v) = .ok r) := by
  have key : v.any Label.isStr = true ↔ ∃ s, Label.str s ∈ v := by
    rw [List.any_eq_true]
    constructor
    · rintro ⟨c, hc, e⟩
      cases c with
      | str s => exact ⟨s, hc⟩
      | num q => cases e
      | nan => cases e
    · rintro ⟨s, hs⟩
      exact ⟨_, hs, rfl⟩
  refine ⟨rfl, fun classes y' h => ?_, fun hs => ?_⟩
  · cases hc : labelClasses v with
    | error e =>
      unfold classifierFit encoderInput at h
      dsimp only at h
      rw [hc] at h
      cases h
    | ok cl =>
      obtain ⟨h1, h2⟩ := classifierFit_given .list v nofun hc
      by_cases ha : v.any Label.isStr = true
      · obtain ⟨enc, _, e2⟩ := h1 (by decide) ha
        have e2 : classifierFit (.list v) = _ := e2
        rw [h] at e2
        cases e2
        exact ⟨⟨fun _ => key.1 ha, fun _ => ⟨_, rfl⟩⟩, fun hn => absurd (key.1 ha) hn⟩
      · have e2 : classifierFit (.list v) = _ := h2 (.inr (Bool.eq_false_iff.2 ha))
        rw [h] at e2
        cases e2
        refine ⟨⟨?_, fun hn => absurd (key.2 hn) ha⟩, fun _ => rfl⟩
        rintro ⟨w, hw⟩
        cases hw
  · obtain ⟨classes, hc⟩ := classes_of_strings hs
    obtain ⟨h1, h2⟩ := classifierFit_given .list v nofun hc
    by_cases ha : v.any Label.isStr = true
    · obtain ⟨enc, _, e2⟩ := h1 (by decide) ha
      exact ⟨_, e2⟩
    · exact ⟨_, h2 (.inr (Bool.eq_false_iff.2 ha))⟩

/-- Anything else given as `y` is a `TypeError` for a classifier and for a regressor, and an array without
columns a `ValueError`. -/
theorem C60_other : formatY .other = .error .typeError ∧ classifierFit .other = .error .typeError ∧
    ∀ rows, formatY (.array2 rows 0) = .error .valueError := ⟨rfl, rfl, fun _ => rfl⟩

/-- **C83 in every format.**  The rows ignored are those without label, unless labels are strings that
the classifier sees; it does not see them in an array with one column. -/
theorem C83_formats (f : Format) (v classes : List Label) (y' : Target) (v' : List Label)
    (h : f = .frame → v.length ≠ 1)
    (h1 : classifierFit (given f v) = .ok (classes, y')) (h2 : formatY y' = .ok (.series v')) :
    v'.length = v.length ∧
    ((f = .column ∨ ∀ s, Label.str s ∉ v) → v'.map Label.isNull = v.map Label.isNull) ∧
    (f ≠ .column → (∃ s, Label.str s ∈ v) → ∀ c ∈ v', c.isNull = false) := by
  cases hc : labelClasses v with
  | error e =>
    unfold classifierFit at h1
    rw [encoderInput_given f v h] at h1
    dsimp only at h1
    rw [hc] at h1
    cases h1
  | ok cl =>
    obtain ⟨k1, k2⟩ := classifierFit_given f v h hc
    by_cases hf : f = .column ∨ v.any Label.isStr = false
    · rw [h1] at k2
      have := k2 hf
      cases this
      rw [formatY_given f v h] at h2
      split at h2
      · cases h2
      · cases h2
        refine ⟨rfl, fun _ => rfl, fun hf' hs => ?_⟩
        obtain ⟨s, hs⟩ := hs
        rcases hf with hf | hf
        · exact absurd hf hf'
        · exact absurd (List.any_eq_true.2 ⟨_, hs, rfl⟩) (by rw [hf]; decide)
    · rw [not_or, Bool.not_eq_false] at hf
      obtain ⟨enc, e1, e2⟩ := k1 hf.1 hf.2
      rw [h1] at e2
      cases e2
      cases h2
      obtain ⟨l, d1, d2, d3, d4⟩ := encode_decode _ v fun c hc' => ((classes_mem hc).2 c).2 hc'
      rw [e1] at d1
      cases d1
      refine ⟨d2, fun hor => ?_, fun _ _ c hc' => ?_⟩
      · rcases hor with hor | hor
        · exact absurd hor hf.1
        · obtain ⟨c, hc', e⟩ := List.any_eq_true.1 hf.2
          cases c with
          | str s => exact absurd hc' (hor s)
          | num q => cases e
          | nan => cases e
      · obtain ⟨i, rfl, _⟩ := d4 c hc'
        rfl

/-- String labels with one missing: as a Series the missing label is class 1, as an array with one
column it stays missing. -/
example :
    classifierFit (given .series [.str ['a'], .nan]) = .ok ([.str ['a'], .nan], .array1 [.num 0, .num 1]) ∧
    classifierFit (given .column [.str ['a'], .nan]) =
      .ok ([.str ['a'], .nan], .array2 [[.str ['a']], [.nan]] 1) ∧
    formatY (.array2 [[.str ['a']], [.nan]] 1) = .ok (.series [.str ['a'], .nan]) := by
  refine ⟨?_, ?_, ?_⟩ <;> rfl

example :
    classifierFit (given .list [.str ['b'], .str ['a']]) =
      .ok ([.str ['a'], .str ['b']], .array1 [.num 1, .num 0]) ∧
    classifierFit (given .list [.num 3, .num 1]) = .ok ([.num 1, .num 3], .list [.num 3, .num 1]) := by
  constructor
  · rfl
  · rfl

end Gama
