import Verif.Model.Columns

/-!
# The columns of the evaluation log (C103, C104)
-/

namespace Gama

namespace Spec

/-- The names of the columns of a log: those of the fields, and those of the extra fields that are
not among them. -/
def columnNames {K : Type} [DecidableEq K] (fields extra : List K) : List K := fields ++ extra.filter fun k => k ∉ fields

/-- The text of a file of separated values with the given rows. -/
def fileOf (sep : Str) : List (List Str) → Str
  | [] => []
  | row :: rows => joinWith sep row ++ ['\n'] ++ fileOf sep rows

/-- What is shown of an evaluation in column `k`: an extra field goes before a standard one. -/
def Shows {E : Type} (fields extra : LogFields E) (k : Str) (f : E → Str) : Prop :=
  (k, f) ∈ extra ∨ ((∀ g, (k, g) ∉ extra) ∧ (k, f) ∈ fields)

/-- A file without quoting in which row after row belongs to the columns: the texts of an evaluation
are those of the fields, column by column. -/
def LogText {E : Type} (sep : Str) (fields extra : LogFields E) (es : List E) (file : Str) : Prop :=
  ∃ getters : List (E → Str),
    List.Forall₂ (Shows fields extra) (columnNames (fields.map Prod.fst) (extra.map Prod.fst)) getters ∧
    file = fileOf sep (columnNames (fields.map Prod.fst) (extra.map Prod.fst) ::
      es.map fun e => getters.map fun g => g e)

end Spec

open Spec

theorem keys_dset_eq {K V : Type} [DecidableEq K] (d : List (K × V)) (k : K) (v : V) :
    (dset d k v).map Prod.fst = if k ∈ d.map Prod.fst then d.map Prod.fst else d.map Prod.fst ++ [k] := by
  induction d with
  | nil => simp [dset]
  | cons x d ih =>
    obtain ⟨a, w⟩ := x
    by_cases h : a = k
    · subst h; simp [dset]
    · have h' : k ≠ a := fun e => h e.symm
      simp only [dset, h, if_false, List.map_cons, ih, List.mem_cons, h', false_or]
      split <;> simp

theorem keys_dmerge_eq {K V : Type} [DecidableEq K] (a b : List (K × V)) (hb : DictOK b) :
    (dmerge a b).map Prod.fst = columnNames (a.map Prod.fst) (b.map Prod.fst) := by
  unfold columnNames
  induction b generalizing a with
  | nil => simp [dmerge]
  | cons x b ih =>
    obtain ⟨k, v⟩ := x
    have hb' : k ∉ b.map Prod.fst ∧ (b.map Prod.fst).Nodup := by
      have : (k :: b.map Prod.fst).Nodup := hb
      exact List.nodup_cons.1 this
    have e : dmerge a ((k, v) :: b) = dmerge (dset a k v) b := rfl
    rw [e, ih _ hb'.2, keys_dset_eq]
    by_cases hk : k ∈ a.map Prod.fst
    · rw [if_pos hk, List.map_cons, List.filter_cons_of_neg (by simpa using hk)]
    · rw [if_neg hk]
      have hf : (b.map Prod.fst).filter (fun j => decide (j ∉ a.map Prod.fst ++ [k])) =
          (b.map Prod.fst).filter (fun j => decide (j ∉ a.map Prod.fst)) := by
        refine List.filter_congr fun j hj => ?_
        have : j ≠ k := by rintro rfl; exact hb'.1 hj
        simp [this]
      rw [hf, List.map_cons, List.filter_cons_of_pos (by simpa using hk)]
      simp

theorem logAll_fileOf {E : Type} (sep : Str) (fields : LogFields E) (es : List E) (file : Str) :
    logAll sep fields file es = file ++ fileOf sep (es.map fun e => fields.map fun f => f.2 e) := by
  induction es generalizing file with
  | nil => simp [logAll, fileOf]
  | cons e es ih =>
    have : logAll sep fields file (e :: es) = logAll sep fields (logEvaluation sep fields file e) es := rfl
    rw [this, ih]
    simp [logEvaluation, logLine, fileOf]

theorem forall₂_map_pair {α β : Type} {R : α → β → Prop} (l : List (α × β)) (h : ∀ x ∈ l, R x.1 x.2) :
    List.Forall₂ R (l.map Prod.fst) (l.map Prod.snd) := by
  induction l with
  | nil => exact List.Forall₂.nil
  | cons x l ih =>
    exact List.Forall₂.cons (h x (by simp)) (ih fun y hy => h y (by simp [hy]))

/-- **C103.** A log has one column for each field and each extra field, in this order, with their
names in the first line; each evaluation has one line, in the order in which they were logged, with
its text in each column, and for a name given twice the extra field is used. -/
theorem C103_columns {E : Type} (sep : Str) (default : LogFields E) (fields extra : Option (LogFields E))
    (hf : DictOK (fields.getD default)) (he : DictOK (extra.getD [])) (es : List E) :
    LogText sep (fields.getD default) (extra.getD []) es
      (logAll sep (loggerCreate sep default fields extra []).1
        (loggerCreate sep default fields extra []).2.1 es) := by
  have hall : (loggerCreate sep default fields extra []).1 =
      dmerge (fields.getD default) (extra.getD []) := by
    cases extra <;> simp [loggerCreate, loggerInit, dmerge]
  have hfile : (loggerCreate sep default fields extra []).2.1 =
      joinWith sep ((dmerge (fields.getD default) (extra.getD [])).map Prod.fst) ++ ['\n'] := by
    cases extra <;> simp [loggerCreate, loggerInit, dmerge, logLine]
  rw [hall, hfile]
  generalize fields.getD default = F at *
  generalize extra.getD [] = X at *
  refine ⟨(dmerge F X).map Prod.snd, ?_, ?_⟩
  · have hk := keys_dmerge_eq F X he
    rw [← hk]
    refine forall₂_map_pair _ fun x hx => ?_
    obtain ⟨k, f⟩ := x
    have hg := dget_of_mem (hf.dmerge (b := X)) hx
    rw [dget_dmerge he] at hg
    cases hx' : dget X k with
    | some v =>
      rw [hx'] at hg
      simp only [Option.some.injEq] at hg
      subst hg
      exact Or.inl (dget_mem hx')
    | none =>
      rw [hx'] at hg
      refine Or.inr ⟨fun g hm => ?_, dget_mem hg⟩
      exact dget_eq_none.1 hx' (List.mem_map.2 ⟨_, hm, rfl⟩)
  · rw [logAll_fileOf]
    simp only [fileOf, keys_dmerge_eq F X he, List.map_map, Function.comp_def]

/-- The fields of a search after the standard ones. -/
theorem C103_searches (es : List LogEval) (sep : Str) :
    (logAll sep (loggerCreate sep standardFields none (some eaFields) []).1
        (loggerCreate sep standardFields none (some eaFields) []).2.1 es =
      fileOf sep ((["id", "pid", "t_start", "t_wallclock", "t_process", "score", "pipeline", "error",
          "parent0", "parent1", "origin"].map String.toList) ::
        es.map fun e => [e.id, e.pid, e.tStart, e.tWallclock, e.tProcess, e.score, e.pipeline, e.error,
          ((e.parents.getD [])[0]?).getD [], ((e.parents.getD [])[1]?).getD [],
          e.origin.getD "unknown".toList])) ∧
    (logAll sep (loggerCreate sep standardFields none (some ashaFields) []).1
        (loggerCreate sep standardFields none (some ashaFields) []).2.1 es =
      fileOf sep ((["id", "pid", "t_start", "t_wallclock", "t_process", "score", "pipeline", "error",
          "rung", "subsample"].map String.toList) ::
        es.map fun e => [e.id, e.pid, e.tStart, e.tWallclock, e.tProcess, e.score, e.pipeline, e.error,
          e.rung.getD "unknown".toList, e.subsample.getD "unknown".toList])) := by
  have m1 : dmerge standardFields eaFields = standardFields ++ eaFields :=
    rfl
  have m2 : dmerge standardFields ashaFields = standardFields ++ ashaFields :=
    rfl
  have gp : ∀ n (e : LogEval), getParent n e = ((e.parents.getD [])[n]?).getD [] := by
    intro n e
    unfold getParent
    split
    · simp [List.getD]
    · rename_i h
      rw [List.getElem?_eq_none (by omega)]; rfl
  constructor
  · simp only [loggerCreate, loggerInit, Option.getD_none, m1]
    rw [logAll_fileOf]
    simp [logLine, fileOf, standardFields, eaFields, gp, unknownText]
  · simp only [loggerCreate, loggerInit, Option.getD_none, m2]
    rw [logAll_fileOf]
    simp [logLine, fileOf, standardFields, ashaFields, unknownText]

/-- An individual made from two parents: the log names both. -/
example : (eaFields.map fun f => f.2 ⟨['7'], ['1'], [], [], [], [], [], [],
    some [['4'], ['5']], some "cx".toList, none, none⟩) = [['4'], ['5'], "cx".toList] := by decide +kernel

example : DictOK standardFields ∧ DictOK eaFields ∧ DictOK ashaFields := by
  refine ⟨?_, ?_, ?_⟩ <;> unfold DictOK <;> decide +kernel

/-- A custom field of the same name as a standard one replaces it in place. -/
example : columnNames ["id".toList, "pid".toList] ["pid".toList, "z".toList] =
    ["id".toList, "pid".toList, "z".toList] := by decide +kernel

/-! ### C104 -/

/-- **C104, the full claim:** creating a logger leaves the given dictionary of fields alone. -/
def C104_claim : Prop :=
  ∀ (sep : Str) (default : LogFields LogEval) (fields : LogFields LogEval)
    (extra : Option (LogFields LogEval)) (file : Str),
    ((loggerCreate sep default (some fields) extra file).2.2.map fun d => d.map Prod.fst) =
      some (fields.map Prod.fst)

/-- **C104** fails if there are extra fields: they are added to the given dictionary. -/
theorem C104_false : ¬ C104_claim := by
  intro h
  have := h [';'] standardFields standardFields (some eaFields) []
  revert this
  decide +kernel

/-- **C104** where it holds: exactly if each extra field is in the dictionary already, the same. -/
theorem C104_partial {E : Type} (sep : Str) (default fields : LogFields E)
    (extra : Option (LogFields E)) (he : DictOK (extra.getD [])) (hf : DictOK fields) (file : Str) :
    (loggerCreate sep default (some fields) extra file).2.2 = some fields ↔
      ∀ kf ∈ extra.getD [], kf ∈ fields := by
  have hall : (loggerCreate sep default (some fields) extra file).2.2 =
      some (dmerge fields (extra.getD [])) := by
    cases extra <;> simp [loggerCreate, loggerInit, dmerge]
  rw [hall]
  constructor
  · intro h kf hkf
    obtain ⟨k, f⟩ := kf
    have h' : dmerge fields (extra.getD []) = fields := Option.some.inj h
    have : dget (dmerge fields (extra.getD [])) k = some f := by
      rw [dget_dmerge he, dget_of_mem he hkf]
    rw [h'] at this
    exact dget_mem this
  · intro h
    congr 1
    generalize extra.getD [] = X at *
    clear hall
    have same : ∀ (d : LogFields E) (k : Str) (f : E → Str), DictOK d → (k, f) ∈ d → dset d k f = d := by
      intro d
      induction d with
      | nil => intro k f _ hm; cases hm
      | cons x d ih =>
        intro k f hd hm
        have hd' : x.1 ∉ d.map Prod.fst ∧ (d.map Prod.fst).Nodup := by
          have : (x.1 :: d.map Prod.fst).Nodup := hd
          exact List.nodup_cons.1 this
        rcases List.mem_cons.1 hm with e | hm'
        · subst e; simp [dset]
        · have : x.1 ≠ k := by
            rintro rfl
            exact hd'.1 (List.mem_map.2 ⟨_, hm', rfl⟩)
          obtain ⟨a, w⟩ := x
          simp only [dset, this, if_false]
          rw [ih k f hd'.2 hm']
    induction X with
    | nil => rfl
    | cons x X ih =>
      have e : dmerge fields (x :: X) = dmerge (dset fields x.1 x.2) X := rfl
      rw [e, same fields x.1 x.2 hf (h x (by simp))]
      have he' : (x.1 :: X.map Prod.fst).Nodup := he
      exact ih (List.nodup_cons.1 he').2 fun y hy => h y (by simp [hy])

example : ∀ kf ∈ (none : Option (LogFields LogEval)).getD [], kf ∈ standardFields := by
  intro kf h; cases h

end Gama
