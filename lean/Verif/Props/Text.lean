import Verif.Model.Text
import Verif.Props.Data

/-! # C168: columns of text -/

namespace Gama
open Spec

/-- A table as pandas makes it of an array, a csv file or an ARFF file: names are different, and a column with text has
type `object`. -/
def Spec.AsRead (t : List RawColumn) : Prop :=
  (t.map RawColumn.name).Nodup ∧ ∀ c ∈ t, c.text = true → c.data.dtype = .object

/-- The text of every column has become numbers before the steps of a pipeline see it. -/
def C168_claim : Prop :=
  ∀ (python312 classification : Bool) (s : Source) (t t' : List RawColumn), AsRead t →
    sourceTable python312 s t = .ok t' → imputeFit classification t' = .ok ()

/-- The types of data with which columns of text are known to be categorical. -/
def Spec.Announced (s : Source) (t : List RawColumn) : Prop :=
  match s with
  | .array => True
  | .csv => True
  | .arff nominal => ∀ c ∈ t, c.text = true → c.name ∈ nominal
  | .frame => ∀ c ∈ t, c.text = false ∨ c.data.dtype = .category

theorem inferRaw_mem {v : Bool} : ∀ {t t' : List RawColumn}, inferRaw v t = .ok t' →
    t'.map RawColumn.name = t.map RawColumn.name ∧
    ∀ c' ∈ t', ∃ c ∈ t, c'.name = c.name ∧ c'.text = c.text ∧
      ∃ b, looksCategorical v c.data = .ok b ∧ c'.data.dtype = (if b then DType.category else c.data.dtype)
  | [], t', h => by
    cases h
    exact ⟨rfl, fun c hc => nomatch hc⟩
  | c :: cs, t', h => by
    unfold inferRaw at h
    cases hb : looksCategorical v c.data with
    | error e => rw [hb] at h; cases h
    | ok b =>
      rw [hb] at h
      cases hr : inferRaw v cs with
      | error e => rw [hr] at h; cases h
      | ok cs' =>
        rw [hr] at h
        simp only [Except.ok.injEq] at h
        subst h
        obtain ⟨h1, h2⟩ := inferRaw_mem hr
        refine ⟨?_, ?_⟩
        · cases b <;> simp [h1]
        · intro c' hc'
          rcases List.mem_cons.1 hc' with rfl | hc'
          · refine ⟨c, List.mem_cons_self, ?_, ?_, b, hb, ?_⟩ <;> cases b <;> rfl
          · obtain ⟨d, hd, h⟩ := h2 c' hc'
            exact ⟨d, List.mem_cons_of_mem _ hd, h⟩

theorem nodup_names {t : List RawColumn} {c d : RawColumn} (h : (t.map RawColumn.name).Nodup) (hc : c ∈ t) (hd : d ∈ t)
    (e : c.name = d.name) : c = d := List.inj_on_of_nodup_map h hc hd e

/-- A categorical column is encoded by one of the three encoders. -/
theorem seen_encoded {cls : Bool} {t : List RawColumn} (hn : (t.map RawColumn.name).Nodup) {c : RawColumn} (hc : c ∈ t)
    (hcat : c.data.dtype = .category) :
    c.name ∈ ordinalColumns (t.map RawColumn.seen) cls ∨ c.name ∈ oneHotColumns (t.map RawColumn.seen) ∨
      c.name ∈ targetColumns (t.map RawColumn.seen) cls := by
  have hs : c.seen ∈ t.map RawColumn.seen := List.mem_map_of_mem hc
  have hk : c.seen.categorical = true := by simp [RawColumn.seen, hcat]
  have sel : ∀ (df : List Column) (a b : Option Nat), c.seen ∈ df → (∀ n, a = some n → n ≤ c.seen.factors) →
      (∀ n, b = some n → c.seen.factors ≤ n) → c.name ∈ selectColumns df a b := by
    intro df a b hm ha hb
    unfold selectColumns
    refine List.mem_map.2 ⟨c.seen, List.mem_filter.2 ⟨hm, ?_⟩, rfl⟩
    rw [hk]
    cases a <;> cases b <;> simp_all
  by_cases h2 : c.seen.factors ≤ 2
  · left
    exact List.mem_append_left _ (sel _ _ _ hs (fun n e => nomatch e) (fun n e => by cases e; exact h2))
  · by_cases h10 : c.seen.factors ≤ 10
    · right; left
      exact sel _ _ _ hs (fun n e => by cases e; omega) (fun n e => by cases e; exact h10)
    · cases cls with
      | true =>
        left
        have hm : c.name ∈ selectColumns (t.map RawColumn.seen) (some 11) none :=
          sel _ _ _ hs (fun n e => by cases e; omega) (fun n e => nomatch e)
        exact List.mem_append_right _ (by rw [if_pos rfl]; exact hm)
      | false =>
        by_cases ho : c.name ∈ ordinalColumns (t.map RawColumn.seen) false
        · exact .inl ho
        · by_cases hh : c.name ∈ oneHotColumns (t.map RawColumn.seen)
          · exact .inr (.inl hh)
          · right; right
            have hm : c.seen ∈ encodedTable (t.map RawColumn.seen) false → c.name ∈
                selectColumns (encodedTable (t.map RawColumn.seen) false) (some 11) none := fun hm =>
              sel _ _ _ hm (fun n e => by cases e; omega) (fun n e => nomatch e)
            unfold targetColumns
            rw [if_neg (by simp)]
            refine hm ?_
            unfold encodedTable
            refine List.mem_filter.2 ⟨hs, ?_⟩
            have e : c.seen.name = c.name := rfl
            simp [e, ho, hh]

theorem imputeFit_ok {cls : Bool} {t : List RawColumn} (hn : (t.map RawColumn.name).Nodup)
    (h : ∀ c ∈ t, c.text = true → c.data.dtype = .category) : imputeFit cls t = .ok () := by
  unfold imputeFit
  rw [if_pos]
  rw [List.isEmpty_iff]
  unfold textAtImputation
  refine List.filter_eq_nil_iff.2 fun c hc => ?_
  intro hb
  simp only [Bool.and_eq_true, Bool.not_eq_true', List.contains_eq_mem, decide_eq_false_iff_not] at hb
  obtain ⟨⟨⟨ht, h1⟩, h2⟩, h3⟩ := hb
  rcases seen_encoded (cls := cls) hn hc (h c hc ht) with h' | h' | h'
  · exact h1 h'
  · exact h2 h'
  · exact h3 h'

theorem selectColumns_mem {df : List Column} {a b : Option Nat} {n : Str} (h : n ∈ selectColumns df a b) :
    ∃ c ∈ df, c.name = n ∧ c.categorical = true := by
  unfold selectColumns at h
  obtain ⟨c, hc, rfl⟩ := List.mem_map.1 h
  obtain ⟨h1, h2⟩ := List.mem_filter.1 hc
  simp only [Bool.and_eq_true] at h2
  exact ⟨c, h1, rfl, h2.1.1⟩

/-- A column with text that has not category type is refused by the imputation. -/
theorem imputeFit_raises {cls : Bool} {t : List RawColumn} (hn : (t.map RawColumn.name).Nodup) {c : RawColumn}
    (hc : c ∈ t) (ht : c.text = true) (hcat : c.data.dtype ≠ .category) : imputeFit cls t = .error .valueError := by
  have key : ∀ d ∈ t.map RawColumn.seen, d.name = c.name → d.categorical = true → False := by
    intro d hd e hk
    obtain ⟨r, hr, rfl⟩ := List.mem_map.1 hd
    have := nodup_names hn hr hc e
    subst this
    simp [RawColumn.seen] at hk
    exact hcat hk
  have sel : ∀ a b, c.name ∉ selectColumns (t.map RawColumn.seen) a b := by
    intro a b h
    obtain ⟨d, hd, e, hk⟩ := selectColumns_mem h
    exact key d hd e hk
  unfold imputeFit
  rw [if_neg]
  rw [List.isEmpty_iff]
  intro hnil
  have hm : c ∈ textAtImputation cls t := by
    unfold textAtImputation
    refine List.mem_filter.2 ⟨hc, ?_⟩
    simp only [Bool.and_eq_true, Bool.not_eq_true', List.contains_eq_mem, decide_eq_false_iff_not]
    refine ⟨⟨⟨ht, ?_⟩, sel _ _⟩, ?_⟩
    · unfold ordinalColumns
      intro h
      rcases List.mem_append.1 h with h | h
      · exact sel _ _ h
      · cases cls with
        | true => rw [if_pos rfl] at h; exact sel _ _ h
        | false => cases h
    · unfold targetColumns
      cases cls with
      | true => intro h; cases h
      | false =>
        rw [if_neg (by simp)]
        intro h
        obtain ⟨d, hd, e, hk⟩ := selectColumns_mem h
        exact key d (List.mem_filter.1 hd).1 e hk
  rw [hnil] at hm
  cases hm

theorem arff_names (nominal : List Str) (t : List RawColumn) :
    (t.map fun c => if nominal.contains c.name then { c with data := { c.data with dtype := .category } } else c).map
      RawColumn.name = t.map RawColumn.name := by
  rw [List.map_map]
  refine List.map_congr_left fun c _ => ?_
  simp only [Function.comp]
  split <;> rfl

/-- **C168**, where it holds: the columns of text of arrays and csv files, and those of ARFF files and data frames that
are declared to be categorical, have become numbers when the steps of a pipeline see them. -/
theorem C168_partial (python312 classification : Bool) (s : Source) (t t' : List RawColumn)
    (hr : s = .frame ∨ ∀ c ∈ t, c.text = true → c.data.dtype = .object) (hn : (t.map RawColumn.name).Nodup)
    (ha : Announced s t) (h : sourceTable python312 s t = .ok t') : imputeFit classification t' = .ok () := by
  have inferred : (∀ c ∈ t, c.text = true → c.data.dtype = .object) → inferRaw python312 t = .ok t' →
      imputeFit classification t' = .ok () := by
    intro hr h
    obtain ⟨h1, h2⟩ := inferRaw_mem h
    refine imputeFit_ok (h1 ▸ hn) fun c' hc' ht => ?_
    obtain ⟨c, hc, _, e2, b, hb, e3⟩ := h2 c' hc'
    have ho := hr c hc (e2 ▸ ht)
    have : b = true := by
      unfold looksCategorical at hb
      rw [if_pos ho] at hb
      cases hb; rfl
    rw [e3, this]; rfl
  cases s with
  | array => exact inferred (hr.resolve_left (by simp)) h
  | csv => exact inferred (hr.resolve_left (by simp)) h
  | arff nominal =>
    simp only [sourceTable, Except.ok.injEq] at h
    subst h
    refine imputeFit_ok (by rw [arff_names]; exact hn) fun c' hc' ht => ?_
    obtain ⟨c, hc, rfl⟩ := List.mem_map.1 hc'
    by_cases hm : nominal.contains c.name = true
    · rw [if_pos hm]
    · rw [if_neg hm] at ht
      exact absurd (by simpa using ha c hc ht) (by simpa using hm)
  | frame =>
    simp only [sourceTable, Except.ok.injEq] at h
    subst h
    refine imputeFit_ok hn fun c hc ht => ?_
    rcases ha c hc with h | h
    · rw [h] at ht; cases ht
    · exact h

/-- **C168**, where it fails: a column of text of a data frame that has not category type, or an attribute of an ARFF
file that is text without listing its values, keeps every pipeline from being fitted, for classification and
regression. -/
theorem C168_raises (python312 classification : Bool) (s : Source) (t t' : List RawColumn)
    (hn : (t.map RawColumn.name).Nodup) (c : RawColumn) (hc : c ∈ t) (ht : c.text = true)
    (hs : (s = .frame ∨ ∃ nominal, s = .arff nominal ∧ c.name ∉ nominal) ∧ c.data.dtype ≠ .category)
    (h : sourceTable python312 s t = .ok t') : imputeFit classification t' = .error .valueError := by
  obtain ⟨hs, hcat⟩ := hs
  rcases hs with rfl | ⟨nominal, rfl, hm⟩
  · simp only [sourceTable, Except.ok.injEq] at h
    subst h
    exact imputeFit_raises hn hc ht hcat
  · simp only [sourceTable, Except.ok.injEq] at h
    subst h
    refine imputeFit_raises (c := c) (by rw [arff_names]; exact hn) (List.mem_map.2 ⟨c, hc, ?_⟩) ht hcat
    rw [if_neg (by simpa using hm)]

namespace Ex

/-- A column of text and one of numbers, as read. -/
def cities : List RawColumn :=
  [⟨"city".toList, ⟨.object, [some 0, some 1, some 2, none]⟩, true⟩, ⟨"age".toList, ⟨.float, [some (1/2), none, some 3, some 4]⟩, false⟩]

theorem cities_read : AsRead cities := ⟨by decide, by decide⟩

end Ex

/-- **C168 is false**: in a data frame, columns of text are only encoded if they have category type. -/
theorem C168_false : ¬ C168_claim := by
  intro h
  have := h true true .frame Ex.cities Ex.cities Ex.cities_read rfl
  rw [C168_raises true true .frame Ex.cities Ex.cities Ex.cities_read.1 _ List.mem_cons_self rfl ⟨.inl rfl, by decide⟩ rfl] at this
  cases this

/-- `C168_partial`: the same columns in a csv file are encoded. -/
example : ∃ t', sourceTable true .csv Ex.cities = .ok t' ∧ imputeFit false t' = .ok () := by
  have h : ∃ t', sourceTable true .csv Ex.cities = .ok t' := by
    have e : (match sourceTable true .csv Ex.cities with | .ok _ => true | .error _ => false) = true := by decide +kernel
    split at e
    · exact ⟨_, ‹_›⟩
    · cases e
  obtain ⟨t', h⟩ := h
  exact ⟨t', h, C168_partial true false .csv Ex.cities _ (.inr Ex.cities_read.2) Ex.cities_read.1 trivial h⟩

/-- `C168_partial`: so they are in an ARFF file that lists the cities. -/
example : ∃ t', sourceTable true (.arff ["city".toList]) Ex.cities = .ok t' ∧ imputeFit true t' = .ok () :=
  ⟨_, rfl, C168_partial true true (.arff ["city".toList]) Ex.cities _ (.inr Ex.cities_read.2) Ex.cities_read.1
    (show ∀ c ∈ Ex.cities, c.text = true → c.name ∈ ["city".toList] by decide) rfl⟩

/-- `C168_raises`: not in one in which the attribute is a string. -/
example : ∃ t', sourceTable true (.arff []) Ex.cities = .ok t' ∧ imputeFit true t' = .error .valueError :=
  ⟨_, rfl, C168_raises true true (.arff []) Ex.cities _ Ex.cities_read.1 _ List.mem_cons_self rfl
    ⟨.inr ⟨[], rfl, by decide⟩, by decide⟩ rfl⟩

end Gama
