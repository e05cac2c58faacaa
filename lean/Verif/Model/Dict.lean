import Verif.Model.Py

/-!
# Python dictionaries

Insertion-ordered association lists, as dictionaries have been since Python 3.7.  Nothing here
models a function of `/repo`.
-/

namespace Gama

section
variable {K V : Type} [DecidableEq K]

/-- `d.get(k)` -/
def dget : List (K × V) → K → Option V
  | [], _ => none
  | (k', v) :: d, k => if k' = k then some v else dget d k

/-- `d[k] = v`: replaces in place, or appends. -/
def dset : List (K × V) → K → V → List (K × V)
  | [], k, v => [(k, v)]
  | (k', v') :: d, k, v => if k' = k then (k', v) :: d else (k', v') :: dset d k v

/-- `del d[k]` / `d.pop(k)`, without the KeyError -/
def ddel : List (K × V) → K → List (K × V)
  | [], _ => []
  | (k', v) :: d, k => if k' = k then d else (k', v) :: ddel d k

/-- `{**a, **b}`, `a.update(b)` -/
def dmerge (a b : List (K × V)) : List (K × V) := b.foldl (fun d kv => dset d kv.1 kv.2) a

/-- keys occur once -/
def DictOK (d : List (K × V)) : Prop := (d.map Prod.fst).Nodup

theorem dget_dset (d : List (K × V)) (k k' : K) (v : V) :
    dget (dset d k v) k' = if k = k' then some v else dget d k' := by
  induction d with
  | nil => simp [dset, dget]
  | cons x d ih =>
    obtain ⟨a, w⟩ := x
    by_cases h : a = k
    · subst h
      by_cases h' : a = k' <;> simp [dset, dget, h']
    · by_cases h' : a = k'
      · subst h'
        have h2 : k ≠ a := fun e => h e.symm
        simp [dset, dget, h, h2]
      · simp [dset, dget, h, h', ih]

theorem dget_eq_none {d : List (K × V)} {k : K} : dget d k = none ↔ k ∉ d.map Prod.fst := by
  induction d with
  | nil => simp [dget]
  | cons x d ih =>
    obtain ⟨a, w⟩ := x
    by_cases h : a = k
    · simp [dget, h]
    · have h2 : k ≠ a := fun e => h e.symm
      simp only [dget, h, if_false, ih]
      simp [h2]

theorem dget_mem {d : List (K × V)} {k : K} {v : V} (h : dget d k = some v) : (k, v) ∈ d := by
  induction d with
  | nil => simp [dget] at h
  | cons x d ih =>
    obtain ⟨a, w⟩ := x
    by_cases h' : a = k
    · simp only [dget, h', if_true, Option.some.injEq] at h
      subst h; subst h'; simp
    · simp only [dget, h', if_false] at h
      exact List.mem_cons_of_mem _ (ih h)

theorem dget_of_mem {d : List (K × V)} (hd : DictOK d) {k : K} {v : V} (h : (k, v) ∈ d) :
    dget d k = some v := by
  induction d with
  | nil => simp at h
  | cons x d ih =>
    obtain ⟨a, w⟩ := x
    have hd' : a ∉ d.map Prod.fst ∧ (d.map Prod.fst).Nodup := by
      have : (a :: d.map Prod.fst).Nodup := hd
      exact List.nodup_cons.1 this
    rcases List.mem_cons.1 h with e | h
    · injection e with e1 e2
      subst e1; subst e2
      simp [dget]
    · have : a ≠ k := by
        rintro rfl
        exact hd'.1 (List.mem_map.2 ⟨_, h, rfl⟩)
      simp only [dget, this, if_false]
      exact ih hd'.2 h

theorem mem_keys_dset {d : List (K × V)} {k k' : K} {v : V} :
    k' ∈ (dset d k v).map Prod.fst ↔ k' = k ∨ k' ∈ d.map Prod.fst := by
  induction d with
  | nil => simp [dset]
  | cons x d ih =>
    obtain ⟨a, w⟩ := x
    by_cases h : a = k
    · subst h; simp [dset]
    · simp only [dset, h, if_false, List.map_cons, List.mem_cons, ih]
      constructor
      · rintro (e | e | e)
        · exact Or.inr (Or.inl e)
        · exact Or.inl e
        · exact Or.inr (Or.inr e)
      · rintro (e | e | e)
        · exact Or.inr (Or.inl e)
        · exact Or.inl e
        · exact Or.inr (Or.inr e)

theorem DictOK.dset {d : List (K × V)} (hd : DictOK d) (k : K) (v : V) :
    DictOK (Gama.dset d k v) := by
  induction d with
  | nil => simp [Gama.dset, DictOK]
  | cons x d ih =>
    obtain ⟨a, w⟩ := x
    have hd' : a ∉ d.map Prod.fst ∧ (d.map Prod.fst).Nodup := by
      have : (a :: d.map Prod.fst).Nodup := hd
      exact List.nodup_cons.1 this
    by_cases h : a = k
    · simp only [Gama.dset, h, if_true]
      subst h
      exact hd
    · simp only [Gama.dset, h, if_false]
      show (a :: (Gama.dset d k v).map Prod.fst).Nodup
      refine List.nodup_cons.2 ⟨?_, ih hd'.2⟩
      rw [mem_keys_dset]
      rintro (e | hm)
      · exact h e
      · exact hd'.1 hm

theorem DictOK.dmerge {a b : List (K × V)} (ha : DictOK a) : DictOK (Gama.dmerge a b) := by
  unfold Gama.dmerge
  induction b generalizing a with
  | nil => exact ha
  | cons x b ih => exact ih (ha.dset _ _)

/-- In `{**a, **b}` the entries of `b` win. -/
theorem dget_dmerge {a b : List (K × V)} (hb : DictOK b) (k : K) :
    dget (dmerge a b) k = match dget b k with | some v => some v | none => dget a k := by
  unfold dmerge
  induction b generalizing a with
  | nil => simp [dget]
  | cons x b ih =>
    obtain ⟨k', v⟩ := x
    have hb' : k' ∉ b.map Prod.fst ∧ (b.map Prod.fst).Nodup := by
      have : (k' :: b.map Prod.fst).Nodup := hb
      exact List.nodup_cons.1 this
    rw [List.foldl_cons, ih hb'.2]
    by_cases h : k' = k
    · subst h
      have : dget b k' = none := dget_eq_none.2 hb'.1
      simp [this, dget, dget_dset]
    · simp only [dget, h, if_false, dget_dset]

end
end Gama
