import Verif.Model.Header
import Verif.Props.Data
import Verif.Props.Loading

/-! # C147: a column listed for a file can be asked for as target -/

namespace Gama

/-- The full claim: for a csv file with the fields `names` on its first line, each name that
`load_csv_header` lists can be given as target; the target is then the column listed there and the
other columns are the features. -/
def C147_claim : Prop := ∀ (path : Str) (sep : Char) (header : Bool) (names : List Str) (rest : Str)
    (columns : List Nat) (listed : List Str),
  (∃ q, path = q ++ ['.', 'c', 's', 'v']) → names ≠ [] → names.Nodup →
  (∀ n ∈ names, '\n' ∉ n ∧ '\r' ∉ n ∧ sep ∉ n) → sep ≠ '\n' → sep ≠ '\r' →
  columns.length = names.length →
  csvHeader path (sep, header) none (joinWith [sep] names ++ '\n' :: rest) = .ok listed →
  ∀ (i : Nat) (name : Str) (column : Nat), listed[i]? = some name → columns[i]? = some column →
    ∃ x, csvXy header names columns (some name) = .ok (x, column) ∧ x.map Prod.snd = columns.eraseIdx i

theorem csvXy_named {V : Type} (names : List Str) (columns : List V) (hn : names.Nodup)
    (hl : columns.length = names.length) (i : Nat) (name : Str) (column : V)
    (h1 : names[i]? = some name) (h2 : columns[i]? = some column) :
    ∃ x, csvXy true names columns (some name) = .ok (x, column) ∧ x.map Prod.snd = columns.eraseIdx i ∧
      x.map Prod.fst = (names.eraseIdx i).map .name := by
  obtain ⟨hi, e1⟩ := List.getElem?_eq_some_iff.1 h1
  obtain ⟨hj, e2⟩ := List.getElem?_eq_some_iff.1 h2
  have en : names = names.take i ++ name :: names.drop (i + 1) := by
    rw [← e1, List.getElem_cons_drop, List.take_append_drop]
  have ec : columns = columns.take i ++ column :: columns.drop (i + 1) := by
    rw [← e2, List.getElem_cons_drop, List.take_append_drop]
  have ez : (csvLabels true names).zip columns =
      ((names.take i).map ColName.name).zip (columns.take i) ++ (.name name, column) ::
        ((names.drop (i + 1)).map ColName.name).zip (columns.drop (i + 1)) := by
    unfold csvLabels
    rw [if_pos rfl]
    conv_lhs => rw [en, ec]
    rw [List.map_append, List.map_cons, List.zip_append (by simp [hl]), List.zip_cons_cons]
  have hnd : (((csvLabels true names).zip columns).map Prod.fst).Nodup := by
    rw [List.map_fst_zip (by simp [csvLabels, hl])]
    unfold csvLabels
    rw [if_pos rfl]
    exact hn.map fun a b e => ColName.name.inj e
  refine ⟨((names.take i).map ColName.name).zip (columns.take i) ++
    ((names.drop (i + 1)).map ColName.name).zip (columns.drop (i + 1)), ?_, ?_, ?_⟩
  · unfold csvXy
    rw [ez] at hnd ⊢
    exact C55_named _ _ _ _ hnd
  · rw [List.map_append, List.map_snd_zip (by simp [hl]), List.map_snd_zip (by simp [hl]),
      List.eraseIdx_eq_take_drop_succ]
  · rw [List.map_append, List.map_fst_zip (by simp [hl]), List.map_fst_zip (by simp [hl]),
      List.eraseIdx_eq_take_drop_succ, List.map_append]

/-- **C147, the part that holds**: for files with a header. -/
theorem C147_partial (path : Str) (sep : Char) (names : List Str) (rest : Str) {V : Type}
    (columns : List V) (listed : List Str) (hp : ∃ q, path = q ++ ['.', 'c', 's', 'v']) (hne : names ≠ [])
    (hn : names.Nodup) (h : ∀ n ∈ names, '\n' ∉ n ∧ '\r' ∉ n ∧ sep ∉ n) (hs : sep ≠ '\n') (hs' : sep ≠ '\r')
    (hl : columns.length = names.length)
    (hh : csvHeader path (sep, true) none (joinWith [sep] names ++ '\n' :: rest) = .ok listed)
    (i : Nat) (name : Str) (column : V) (h1 : listed[i]? = some name) (h2 : columns[i]? = some column) :
    ∃ x, csvXy true names columns (some name) = .ok (x, column) ∧ x.map Prod.snd = columns.eraseIdx i := by
  have := C95_partial path sep none names rest hp hne h hs hs'
  rw [Option.getD_none, hh] at this
  cases this
  obtain ⟨x, e, e', _⟩ := csvXy_named names columns hn hl i name column h1 h2
  exact ⟨x, e, e'⟩

example : csvXy true [['a'], ['b'], ['c']] [10, 20, 30] (some ['b']) =
    .ok ([(.name ['a'], 10), (.name ['c'], 30)], 20) := by decide +kernel

/-- **In a file without a header no column can be asked for**: the columns listed as texts `0`, `1`, ...
are numbers in the table.  Only the last column can be had as target, by asking for none. -/
theorem C147_numbered {V : Type} (fields : List Str) (columns : List V) (name : Str) :
    csvXy false fields columns (some name) = .error .valueError := by
  refine (C55_unknown _ _).2 fun h => ?_
  obtain ⟨c, hc, e⟩ := List.mem_map.1 h
  have := (List.of_mem_zip hc).1
  unfold csvLabels at this
  rw [if_neg (by decide)] at this
  obtain ⟨n, _, e'⟩ := List.mem_map.1 this
  rw [e] at e'
  cases e'

/-- **Without a name it is the last column**, with and without a header. -/
theorem C147_last {V : Type} (header : Bool) (fields : List Str) (columns : List V) (column : V)
    (hl : (columns ++ [column]).length = fields.length) :
    ∃ x, csvXy header fields (columns ++ [column]) none = .ok (x, column) ∧ x.map Prod.snd = columns := by
  have hlen : (csvLabels header fields).length = columns.length + 1 := by
    rw [List.length_append] at hl
    cases header <;> simp [csvLabels, ← hl]
  have hne : csvLabels header fields ≠ [] := fun e => by rw [e] at hlen; cases hlen
  have e : csvLabels header fields = (csvLabels header fields).dropLast ++ [(csvLabels header fields).getLast hne] :=
    (List.dropLast_append_getLast hne).symm
  have hd : (csvLabels header fields).dropLast.length = columns.length := by
    rw [List.length_dropLast, hlen]; rfl
  refine ⟨(csvLabels header fields).dropLast.zip columns, ?_, List.map_snd_zip (by omega)⟩
  unfold csvXy
  rw [e, List.zip_append hd]
  rw [List.dropLast_concat]
  exact C55_last _ _ _

/-- `5,7` and then `6,8`: the columns are listed as `0` and `1`, but `1` is not found. -/
theorem C147_false : ¬ C147_claim := by
  intro h
  obtain ⟨x, e, _⟩ := h ['d', '.', 'c', 's', 'v'] ',' false [['5'], ['7']] ['6', ',', '8', '\n'] [0, 1]
    [['0'], ['1']] ⟨['d'], rfl⟩ (by decide) (by decide) (by decide) (by decide) (by decide) rfl
    (by decide +kernel) 1 ['1'] 1 rfl rfl
  rw [C147_numbered] at e
  cases e

/-! ### Cases of the theorems above -/

/-- `C147_partial`: the second name of a header of three asks for the second column. -/
example (listed : List Str) (h : csvHeader ['d', '.', 'c', 's', 'v'] (',', true) none
      (joinWith [','] [['a'], ['b'], ['c']] ++ '\n' :: []) = .ok listed) (h1 : listed[(1 : Nat)]? = some ['b']) :
    ∃ x, csvXy true [['a'], ['b'], ['c']] ([10, 20, 30] : List Nat) (some ['b']) = .ok (x, 20) ∧ x.map Prod.snd = [10, 30] :=
  C147_partial (V := Nat) _ ',' [['a'], ['b'], ['c']] [] ([10, 20, 30] : List Nat) listed ⟨['d'], rfl⟩ (by simp) (by decide) (by decide) (by decide) (by decide) rfl h 1 _ _ h1 rfl

example : csvHeader ['d', '.', 'c', 's', 'v'] (',', true) none
      (joinWith [','] [['a'], ['b'], ['c']] ++ '\n' :: []) = .ok [['a'], ['b'], ['c']] := by decide +kernel

/-- `C147_numbered`, `C147_last`. -/
example : csvXy false [['1'], ['2']] [10, 20] (some ['2']) = .error .valueError ∧
    ∃ x, csvXy false [['1'], ['2']] [10, 20] none = .ok (x, 20) ∧ x.map Prod.snd = [10] :=
  ⟨C147_numbered _ _ _, C147_last false _ [10] 20 rfl⟩

end Gama
