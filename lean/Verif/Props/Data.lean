import Verif.Model.Data
import Mathlib.Tactic.NormNum
import Mathlib.Tactic.Ring
import Mathlib.Data.List.Basic
import Mathlib.Data.List.Nodup
import Mathlib.Data.Rat.Cast.Order

/-! # Data (C53, C54, C55, C59, C60, C83) -/

namespace Gama

namespace Spec

/-- Pair rows with labels by position and keep the pairs that have a label. -/
def labeledPairs {α : Type} (x : Indexed α) (y : Indexed Label) : List ((Nat × α) × (Nat × Label)) :=
  (x.zip y).filter fun p => decide (p.2.2 ≠ .nan)

end Spec

/-! ## C53: rows without label -/

theorem isNull_iff (c : Label) : c.isNull = true ↔ c = .nan := by cases c <;> simp [Label.isNull]

theorem keepRows_self (y : Indexed Label) :
    keepRows y (y.map fun e => !e.2.isNull) = y.filter fun e => decide (e.2 ≠ .nan) := by
  induction y with
  | nil => rfl
  | cons e y ih =>
    cases h : e.2.isNull
    · have hne : e.2 ≠ .nan := fun c => by rw [c] at h; cases h
      simp only [List.map_cons, h, Bool.not_false, keepRows]
      rw [List.filter_cons_of_pos (by simpa using hne), ih]
    · have he : e.2 = .nan := (isNull_iff _).1 h
      simp only [List.map_cons, h, Bool.not_true, keepRows]
      rw [List.filter_cons_of_neg (by simpa using he), ih]

theorem keepRows_pair {α : Type} (x : Indexed α) (y : Indexed Label) (hl : x.length = y.length) :
    keepRows x (y.map fun e => !e.2.isNull) = (Spec.labeledPairs x y).map Prod.fst ∧
    keepRows y (y.map fun e => !e.2.isNull) = (Spec.labeledPairs x y).map Prod.snd := by
  induction y generalizing x with
  | nil =>
    cases x with
    | nil => exact ⟨rfl, rfl⟩
    | cons a x => cases hl
  | cons e y ih =>
    cases x with
    | nil => cases hl
    | cons a x =>
      have hl' : x.length = y.length := Nat.succ.inj hl
      obtain ⟨h1, h2⟩ := ih x hl'
      unfold Spec.labeledPairs at h1 h2 ⊢
      cases h : e.2.isNull
      · have hne : e.2 ≠ .nan := fun c => by rw [c] at h; cases h
        simp only [List.map_cons, h, Bool.not_false, keepRows, List.zip_cons_cons]
        rw [List.filter_cons_of_pos (by simpa using hne)]
        simp only [List.map_cons, h1, h2, and_self]
      · have he : e.2 = .nan := (isNull_iff _).1 h
        simp only [List.map_cons, h, Bool.not_true, keepRows, List.zip_cons_cons]
        rw [List.filter_cons_of_neg (by simpa using he)]
        exact ⟨h1, h2⟩

theorem zip_fst_snd {α β : Type} (l : List (α × β)) :
    (l.map Prod.fst).zip (l.map Prod.snd) = l := by
  induction l with
  | nil => rfl
  | cons a l ih => simp [ih]

theorem all_labeled {α : Type} (x : Indexed α) (y : Indexed Label) (hl : x.length = y.length)
    (h : y.any (fun e => e.2.isNull) = false) :
    (Spec.labeledPairs x y).map Prod.fst = x ∧ (Spec.labeledPairs x y).map Prod.snd = y := by
  induction y generalizing x with
  | nil =>
    cases x with
    | nil => exact ⟨rfl, rfl⟩
    | cons a x => cases hl
  | cons e y ih =>
    cases x with
    | nil => cases hl
    | cons a x =>
      rw [List.any_cons, Bool.or_eq_false_iff] at h
      obtain ⟨h1, h2⟩ := ih x (Nat.succ.inj hl) h.2
      unfold Spec.labeledPairs at h1 h2 ⊢
      have hne : e.2 ≠ .nan := fun c => by rw [c] at h; cases h.1
      rw [List.zip_cons_cons, List.filter_cons_of_pos (by simpa using hne)]
      simp only [List.map_cons, h1, h2, and_self]

/-- What C53 claims of a table and its labels. -/
def C53_holds {α : Type} (x : Indexed α) (y : Indexed Label) : Prop :=
  ∃ x' y', removeUnlabeled x y = .ok (x', y') ∧ x'.length = y'.length ∧
    (∀ e ∈ y', e.2 ≠ .nan) ∧ x'.zip y' = Spec.labeledPairs x y

def C53_claim : Prop :=
  ∀ (α : Type) (x : Indexed α) (y : Indexed Label), x.length = y.length → C53_holds x y

theorem labeledPairs_labeled {α : Type} {x : Indexed α} {y : Indexed Label} :
    ∀ e ∈ (Spec.labeledPairs x y).map Prod.snd, e.2 ≠ .nan := by
  intro e he
  obtain ⟨p, hp, rfl⟩ := List.mem_map.1 he
  have := (List.mem_filter.1 hp).2
  simpa using this

/-- C53 holds when `x` and `y` have the same row index (in the same order), which may be any index,
also one with repetitions.  The general claim is false, see `C53_false`. -/
theorem C53_partial {α : Type} (x : Indexed α) (y : Indexed Label)
    (hi : x.map Prod.fst = y.map Prod.fst) : C53_holds x y := by
  have hl : x.length = y.length := by
    have := congrArg List.length hi
    simpa using this
  cases h : y.any fun e => e.2.isNull
  · obtain ⟨h1, h2⟩ := all_labeled x y hl h
    refine ⟨x, y, ?_, hl, ?_, ?_⟩
    · unfold removeUnlabeled
      rw [h]; rfl
    · have c := labeledPairs_labeled (x := x) (y := y)
      rwa [h2] at c
    · have c := zip_fst_snd (Spec.labeledPairs x y)
      rwa [h1, h2] at c
  · obtain ⟨h1, h2⟩ := keepRows_pair x y hl
    refine ⟨_, _, ?_, ?_, labeledPairs_labeled (x := x) (y := y), zip_fst_snd _⟩
    · unfold removeUnlabeled
      rw [h]
      simp only [if_true]
      have ex : locMask x (y.map fun e => (e.1, !e.2.isNull)) =
          .ok ((Spec.labeledPairs x y).map Prod.fst) := by
        unfold locMask
        rw [if_pos (by simp only [hi, List.map_map]; rfl), List.map_map]
        exact congrArg _ h1
      have ey : locMask y (y.map fun e => (e.1, !e.2.isNull)) =
          .ok ((Spec.labeledPairs x y).map Prod.snd) := by
        unfold locMask
        rw [if_pos (by simp only [List.map_map]; rfl), List.map_map]
        exact congrArg _ h2
      rw [ex, ey]
    · simp

example : C53_holds [(7, 'a'), (3, 'b'), (7, 'c')] [(7, .num 1), (3, .nan), (7, .str ['s'])] :=
  C53_partial _ _ rfl

/-- When no label is missing nothing changes, whatever the indices. -/
theorem C53_complete {α : Type} (x : Indexed α) (y : Indexed Label) (h : ∀ e ∈ y, e.2 ≠ .nan) :
    removeUnlabeled x y = .ok (x, y) := by
  have h' : y.any (fun e => e.2.isNull) = false := by
    rw [List.any_eq_false]
    intro e he c
    exact h e he ((isNull_iff _).1 c)
  unfold removeUnlabeled
  rw [h']; rfl

example : removeUnlabeled [(0, 'a'), (1, 'b')] [(1, .num 4), (0, .num 5)] =
    .ok ([(0, 'a'), (1, 'b')], [(1, .num 4), (0, .num 5)]) :=
  C53_complete _ _ (by simp)

/-- With the rows of `y` in another order the wrong row of `x` is dropped: rows are otherwise paired
with labels by position, and `'b'`, at the position of the label 5, is lost. -/
theorem C53_false : ¬ C53_claim := by
  intro h
  obtain ⟨x', y', h1, _, _, h4⟩ := h Char [(0, 'a'), (1, 'b')] [(1, .nan), (0, .num 5)] rfl
  have e : removeUnlabeled [(0, 'a'), (1, 'b')] [(1, .nan), (0, .num 5)] =
      .ok ([(0, 'a')], [(0, .num 5)]) := by decide +kernel
  rw [e] at h1
  cases h1
  revert h4
  decide +kernel

/-- With labels in `x` that `y` does not have, an error is raised. -/
theorem C53_error : removeUnlabeled [(0, 'a'), (1, 'b')] [(1, .nan), (2, .num 5)] =
    .error .indexError := by decide +kernel

theorem seriesAt_iff {mask : Indexed Bool} (hn : (mask.map Prod.fst).Nodup) {i : Nat} {b : Bool} :
    seriesAt mask i = some b ↔ (i, b) ∈ mask := by
  induction mask with
  | nil => simp [seriesAt]
  | cons e mask ih =>
    obtain ⟨j, c⟩ := e
    rw [List.map_cons, List.nodup_cons] at hn
    unfold seriesAt
    by_cases hj : j = i
    · rw [if_pos hj]
      subst hj
      constructor
      · intro h
        cases h
        exact List.mem_cons_self
      · intro h
        rcases List.mem_cons.1 h with h | h
        · cases h; rfl
        · exact absurd (List.mem_map.2 ⟨_, h, rfl⟩) hn.1
    · rw [if_neg hj, ih hn.2, List.mem_cons]
      constructor
      · exact Or.inr
      · rintro (h | h)
        · cases h; exact absurd rfl hj
        · exact h

theorem reindex_ok {mask : Indexed Bool} {is : List Nat} (h : ∀ i ∈ is, i ∈ mask.map Prod.fst) :
    ∃ bs, reindex mask is = .ok bs ∧ bs.map some = is.map (seriesAt mask) := by
  induction is with
  | nil => exact ⟨[], rfl, rfl⟩
  | cons i is ih =>
    obtain ⟨bs, h1, h2⟩ := ih fun j hj => h j (List.mem_cons_of_mem _ hj)
    have : ∃ b, seriesAt mask i = some b := by
      have hi := h i List.mem_cons_self
      clear h ih h1 h2
      induction mask with
      | nil => cases hi
      | cons e mask ih =>
        unfold seriesAt
        by_cases he : e.1 = i
        · exact ⟨e.2, by rw [if_pos he]⟩
        · rw [if_neg he]
          rw [List.map_cons, List.mem_cons] at hi
          exact ih (hi.resolve_left fun c => he c.symm)
    obtain ⟨b, hb⟩ := this
    refine ⟨b :: bs, ?_, ?_⟩
    · unfold reindex
      rw [hb, h1]
    · simp [hb, h2]

theorem keepRows_filter {α : Type} (x : Indexed α) (f : Nat → Option Bool) (bs : List Bool)
    (h : bs.map some = (x.map Prod.fst).map f) :
    keepRows x bs = x.filter fun e => decide (f e.1 = some true) := by
  induction x generalizing bs with
  | nil =>
    cases bs <;> rfl
  | cons e x ih =>
    cases bs with
    | nil => cases h
    | cons b bs =>
      simp only [List.map_cons, List.cons.injEq] at h
      cases b
      · rw [List.filter_cons_of_neg (by simp [← h.1])]
        exact ih bs h.2
      · rw [List.filter_cons_of_pos (by simp [← h.1])]
        exact congrArg _ (ih bs h.2)

/-- What happens in general when labels are missing and `y` has an index without repetitions that has
all labels of that of `x`: rows are matched to labels by index. -/
theorem C53_by_index {α : Type} (x : Indexed α) (y : Indexed Label)
    (hn : (y.map Prod.fst).Nodup) (hs : ∀ i ∈ x.map Prod.fst, i ∈ y.map Prod.fst)
    (hm : ∃ e ∈ y, e.2 = .nan) :
    ∃ x' y', removeUnlabeled x y = .ok (x', y') ∧
      y' = (y.filter fun e => decide (e.2 ≠ .nan)) ∧
      x' = (x.filter fun e => decide (∃ c ∈ y, c.1 = e.1 ∧ c.2 ≠ .nan)) := by
  let mask : Indexed Bool := y.map fun e => (e.1, !e.2.isNull)
  have hmask : mask.map Prod.fst = y.map Prod.fst := by simp only [mask, List.map_map]; rfl
  have hany : y.any (fun e => e.2.isNull) = true := by
    obtain ⟨e, he, h⟩ := hm
    exact List.any_eq_true.2 ⟨e, he, (isNull_iff _).2 h⟩
  have hmem : ∀ i, (i, true) ∈ mask ↔ ∃ c ∈ y, c.1 = i ∧ c.2 ≠ .nan := by
    intro i
    simp only [mask, List.mem_map, Prod.mk.injEq]
    constructor
    · rintro ⟨c, hc, h1, h2⟩
      refine ⟨c, hc, h1, fun h => ?_⟩
      rw [(isNull_iff _).2 h] at h2
      cases h2
    · rintro ⟨c, hc, h1, h2⟩
      refine ⟨c, hc, h1, ?_⟩
      cases h : c.2.isNull
      · rfl
      · exact absurd ((isNull_iff _).1 h) h2
  have key : ∀ bs : List Bool, bs.map some = (x.map Prod.fst).map (seriesAt mask) →
      keepRows x bs = x.filter fun e => decide (∃ c ∈ y, c.1 = e.1 ∧ c.2 ≠ .nan) := by
    intro bs hb
    rw [keepRows_filter x _ bs hb]
    refine List.filter_congr fun e _ => ?_
    exact decide_eq_decide.2 ((seriesAt_iff (by rwa [hmask])).trans (hmem _))
  have hx : ∃ x', locMask x mask = .ok x' ∧
      x' = x.filter fun e => decide (∃ c ∈ y, c.1 = e.1 ∧ c.2 ≠ .nan) := by
    unfold locMask
    by_cases hi : x.map Prod.fst = mask.map Prod.fst
    · rw [if_pos hi]
      refine ⟨_, rfl, key _ ?_⟩
      rw [hi]
      have hn' : (mask.map Prod.fst).Nodup := by rwa [hmask]
      have : ∀ m : Indexed Bool, (∀ e ∈ m, e ∈ mask) →
          (m.map Prod.snd).map some = (m.map Prod.fst).map (seriesAt mask) := by
        intro m
        induction m with
        | nil => intro _; rfl
        | cons e m ih =>
          intro h
          simp only [List.map_cons]
          rw [(seriesAt_iff hn' (i := e.1) (b := e.2)).2 (h e List.mem_cons_self),
            ih fun c hc => h c (List.mem_cons_of_mem _ hc)]
      exact this mask fun _ h => h
    · rw [if_neg hi, if_pos (by rwa [hmask])]
      obtain ⟨bs, h1, h2⟩ := reindex_ok (mask := mask) (is := x.map Prod.fst)
        (by rw [hmask]; exact hs)
      rw [h1]
      exact ⟨_, rfl, key bs h2⟩
  obtain ⟨x', hx1, hx2⟩ := hx
  have hy : locMask y mask = .ok (y.filter fun e => decide (e.2 ≠ .nan)) := by
    unfold locMask
    rw [if_pos hmask.symm]
    have := keepRows_self y
    rw [show mask.map Prod.snd = y.map fun e => !e.2.isNull by simp only [mask, List.map_map]; rfl,
      this]
  refine ⟨x', _, ?_, rfl, hx2⟩
  unfold removeUnlabeled
  rw [hany]
  simp only [if_true]
  rw [show locMask x (y.map fun e => (e.1, !e.2.isNull)) = .ok x' from hx1,
    show locMask y (y.map fun e => (e.1, !e.2.isNull)) = _ from hy]

/-! ## C54: encoders -/

theorem mem_select {df : List Column} {minF maxF : Option Nat} {s : Str} :
    s ∈ selectColumns df minF maxF ↔ ∃ c ∈ df, c.name = s ∧ c.categorical = true ∧
      (∀ n, minF = some n → n ≤ c.factors) ∧ (∀ n, maxF = some n → c.factors ≤ n) := by
  unfold selectColumns
  simp only [List.mem_map, List.mem_filter, Bool.and_eq_true]
  constructor
  · rintro ⟨c, ⟨hc, ⟨h1, h2⟩, h3⟩, rfl⟩
    refine ⟨c, hc, rfl, h1, ?_, ?_⟩
    · rintro n rfl; simpa using h2
    · rintro n rfl; simpa using h3
  · rintro ⟨c, hc, rfl, h1, h2, h3⟩
    refine ⟨c, ⟨hc, ⟨h1, ?_⟩, ?_⟩, rfl⟩
    · cases minF with
      | none => rfl
      | some n => simpa using h2 n rfl
    · cases maxF with
      | none => rfl
      | some n => simpa using h3 n rfl

theorem select_nodup {df : List Column} (hd : (df.map Column.name).Nodup) (a b : Option Nat) :
    (selectColumns df a b).Nodup :=
  hd.sublist (List.Sublist.map _ List.filter_sublist)

theorem unique_column {df : List Column} (hd : (df.map Column.name).Nodup) {c d : Column}
    (hc : c ∈ df) (hdm : d ∈ df) (h : c.name = d.name) : c = d :=
  List.inj_on_of_nodup_map hd hc hdm h

theorem ordinal_true (df : List Column) : ordinalColumns df true =
    selectColumns df none (some 2) ++ selectColumns df (some 11) none := rfl

theorem ordinal_false (df : List Column) : ordinalColumns df false =
    selectColumns df none (some 2) := List.append_nil _

theorem target_true (df : List Column) : targetColumns df true = [] := rfl

theorem target_false (df : List Column) : targetColumns df false =
    selectColumns (encodedTable df false) (some 11) none := rfl

theorem mem_ordinal {df : List Column} (hd : (df.map Column.name).Nodup) {c : Column} (hc : c ∈ df)
    (cl : Bool) : c.name ∈ ordinalColumns df cl ↔
      c.categorical = true ∧ (c.factors ≤ 2 ∨ (cl = true ∧ 11 ≤ c.factors)) := by
  have low : c.name ∈ selectColumns df none (some 2) ↔ c.categorical = true ∧ c.factors ≤ 2 := by
    constructor
    · intro h
      obtain ⟨d, hd', h1, h2, _, h4⟩ := mem_select.1 h
      cases unique_column hd hc hd' h1.symm
      exact ⟨h2, h4 2 rfl⟩
    · rintro ⟨h1, h2⟩
      exact mem_select.2 ⟨c, hc, rfl, h1, nofun, by rintro n ⟨⟩; exact h2⟩
  have high : c.name ∈ selectColumns df (some 11) none ↔ c.categorical = true ∧ 11 ≤ c.factors := by
    constructor
    · intro h
      obtain ⟨d, hd', h1, h2, h3, _⟩ := mem_select.1 h
      cases unique_column hd hc hd' h1.symm
      exact ⟨h2, h3 11 rfl⟩
    · rintro ⟨h1, h2⟩
      exact mem_select.2 ⟨c, hc, rfl, h1, by rintro n ⟨⟩; exact h2, nofun⟩
  cases cl
  · rw [ordinal_false, low]
    simp
  · rw [ordinal_true, List.mem_append, low, high]
    simp only [true_and]
    exact and_or_left.symm

theorem mem_oneHot {df : List Column} (hd : (df.map Column.name).Nodup) {c : Column} (hc : c ∈ df) :
    c.name ∈ oneHotColumns df ↔ c.categorical = true ∧ 3 ≤ c.factors ∧ c.factors ≤ 10 := by
  unfold oneHotColumns
  constructor
  · intro h
    obtain ⟨d, hd', h1, h2, h3, h4⟩ := mem_select.1 h
    cases unique_column hd hc hd' h1.symm
    exact ⟨h2, h3 3 rfl, h4 10 rfl⟩
  · rintro ⟨h1, h2, h3⟩
    exact mem_select.2 ⟨c, hc, rfl, h1, by rintro n ⟨⟩; exact h2, by rintro n ⟨⟩; exact h3⟩

theorem mem_target {df : List Column} (hd : (df.map Column.name).Nodup) {c : Column} (hc : c ∈ df)
    (cl : Bool) : c.name ∈ targetColumns df cl ↔
      c.categorical = true ∧ cl = false ∧ 11 ≤ c.factors := by
  unfold targetColumns
  cases cl
  · rw [if_neg (by simp)]
    constructor
    · intro h
      obtain ⟨d, hd', h1, h2, h3, _⟩ := mem_select.1 h
      cases unique_column hd hc (List.mem_filter.1 hd').1 h1.symm
      exact ⟨h2, rfl, h3 11 rfl⟩
    · rintro ⟨h1, _, h2⟩
      refine mem_select.2 ⟨c, ?_, rfl, h1, by rintro n ⟨⟩; exact h2, nofun⟩
      unfold encodedTable
      refine List.mem_filter.2 ⟨hc, ?_⟩
      have n1 : ¬ c.name ∈ ordinalColumns df false := by
        rw [mem_ordinal hd hc]
        rintro ⟨_, h | ⟨h, _⟩⟩
        · omega
        · cases h
      have n2 : ¬ c.name ∈ oneHotColumns df := by
        rw [mem_oneHot hd hc]
        rintro ⟨_, _, h⟩
        omega
      simp [n1, n2]
  · simp

/-- C54: which encoder handles a column. -/
theorem C54_which (df : List Column) (hd : (df.map Column.name).Nodup) (classification : Bool)
    (c : Column) (hc : c ∈ df) :
    (c.name ∈ ordinalColumns df classification ↔
      c.categorical = true ∧ (c.factors ≤ 2 ∨ (classification = true ∧ 11 ≤ c.factors))) ∧
    (c.name ∈ oneHotColumns df ↔ c.categorical = true ∧ 3 ≤ c.factors ∧ c.factors ≤ 10) ∧
    (c.name ∈ targetColumns df classification ↔
      c.categorical = true ∧ classification = false ∧ 11 ≤ c.factors) :=
  ⟨mem_ordinal hd hc _, mem_oneHot hd hc, mem_target hd hc _⟩

/-- C54: what is still categorical after encoding is target encoded by the pipelines; columns that are not
categorical are passed on. -/
theorem C54_left (df : List Column) (hd : (df.map Column.name).Nodup) (classification : Bool) :
    (∀ c ∈ encodedTable df classification, c.categorical = true → c.name ∈ targetColumns df classification) ∧
    (∀ c ∈ df, c.categorical = false → c ∈ encodedTable df classification) := by
  unfold encodedTable
  constructor
  · intro c hc hcat
    obtain ⟨hm, hno⟩ := List.mem_filter.1 hc
    simp only [Bool.and_eq_true, Bool.not_eq_true', List.contains_eq_mem, decide_eq_false_iff_not] at hno
    rw [mem_ordinal hd hm, mem_oneHot hd hm] at hno
    rw [mem_target hd hm]
    refine ⟨hcat, ?_, ?_⟩
    · cases classification with
      | false => rfl
      | true =>
        exfalso
        by_cases h1 : c.factors ≤ 2
        · exact hno.1 ⟨hcat, .inl h1⟩
        · by_cases h2 : 11 ≤ c.factors
          · exact hno.1 ⟨hcat, .inr ⟨rfl, h2⟩⟩
          · exact hno.2 ⟨hcat, by omega, by omega⟩
    · by_contra h2
      by_cases h1 : c.factors ≤ 2
      · exact hno.1 ⟨hcat, .inl h1⟩
      · exact hno.2 ⟨hcat, by omega, by omega⟩
  · intro c hc hcat
    refine List.mem_filter.2 ⟨hc, ?_⟩
    simp only [Bool.and_eq_true, Bool.not_eq_true', List.contains_eq_mem, decide_eq_false_iff_not]
    rw [mem_ordinal hd hc, mem_oneHot hd hc]
    exact ⟨fun h => by simp [hcat] at h, fun h => by simp [hcat] at h⟩

/-- C54: a categorical column occurs exactly once among the columns to encode, others do not. -/
theorem C54 (df : List Column) (hd : (df.map Column.name).Nodup) (classification : Bool)
    (c : Column) (hc : c ∈ df) :
    (ordinalColumns df classification ++ oneHotColumns df ++ targetColumns df classification).count
      c.name = if c.categorical then 1 else 0 := by
  have cnt : ∀ (l : List Str), l.Nodup → l.count c.name = if c.name ∈ l then 1 else 0 :=
    fun l h => h.count
  have nd1 : (ordinalColumns df classification).Nodup := by
    cases classification
    · rw [ordinal_false]
      exact select_nodup hd _ _
    · rw [ordinal_true]
      refine List.nodup_append.2 ⟨select_nodup hd _ _, select_nodup hd _ _, ?_⟩
      · intro s h1 t h2 e
        subst e
        obtain ⟨d, hd', e1, _, _, h4⟩ := mem_select.1 h1
        obtain ⟨d', hd'', e2, _, h3, _⟩ := mem_select.1 h2
        cases unique_column hd hd' hd'' (e1.trans e2.symm)
        have a := h4 2 rfl
        have b := h3 11 rfl
        omega
  have nd2 : (oneHotColumns df).Nodup := select_nodup hd _ _
  have nd3 : (targetColumns df classification).Nodup := by
    cases classification
    · rw [target_false]
      exact select_nodup (hd.sublist (List.Sublist.map _ List.filter_sublist)) _ _
    · exact List.nodup_nil
  rw [List.count_append, List.count_append, cnt _ nd1, cnt _ nd2, cnt _ nd3]
  simp only [mem_ordinal hd hc, mem_oneHot hd hc, mem_target hd hc]
  cases c.categorical <;> cases classification <;> simp <;> split_ifs <;> omega

example : (ordinalColumns [⟨['a'], true, 2⟩, ⟨['b'], true, 10⟩, ⟨['c'], true, 11⟩, ⟨['d'], false, 5⟩]
    false, oneHotColumns [⟨['a'], true, 2⟩, ⟨['b'], true, 10⟩, ⟨['c'], true, 11⟩, ⟨['d'], false, 5⟩],
    targetColumns [⟨['a'], true, 2⟩, ⟨['b'], true, 10⟩, ⟨['c'], true, 11⟩, ⟨['d'], false, 5⟩] false) =
    ([['a']], [['b']], [['c']]) := by decide +kernel

/-- C54: no other name is ever encoded. -/
theorem C54_only (df : List Column) (classification : Bool) (s : Str)
    (h : s ∈ ordinalColumns df classification ++ oneHotColumns df ++ targetColumns df classification) :
    ∃ c ∈ df, c.name = s ∧ c.categorical = true := by
  rw [List.mem_append, List.mem_append] at h
  rcases h with (h | h) | h
  · cases classification
    · rw [ordinal_false] at h
      obtain ⟨c, hc, h1, h2, _⟩ := mem_select.1 h; exact ⟨c, hc, h1, h2⟩
    · rw [ordinal_true] at h
      rcases List.mem_append.1 h with h | h <;>
        (obtain ⟨c, hc, h1, h2, _⟩ := mem_select.1 h; exact ⟨c, hc, h1, h2⟩)
  · obtain ⟨c, hc, h1, h2, _⟩ := mem_select.1 h; exact ⟨c, hc, h1, h2⟩
  · cases classification
    · rw [target_false] at h
      obtain ⟨c, hc, h1, h2, _⟩ := mem_select.1 h
      exact ⟨c, (List.mem_filter.1 hc).1, h1, h2⟩
    · cases h

/-- C54: whatever a table leaves to the pipelines, these have the step that encodes it: the steps are the
target encoder, present whenever some column is left to it, then the imputation, which is always the last. -/
theorem C54_steps (classification : Bool) :
    (∀ df : List Column, targetColumns df classification ≠ [] →
      "target_enc".toList ∈ extensionSteps classification) ∧
    ("target_enc".toList ∈ extensionSteps classification ↔ classification = false) ∧
    (extensionSteps classification).getLast? = some "imputation".toList ∧
    (extensionSteps classification).Nodup ∧
    (∀ s ∈ extensionSteps classification, s = "target_enc".toList ∨ s = "imputation".toList) := by
  refine ⟨fun df h => ?_, ?_⟩
  · cases classification
    · decide
    · exact absurd rfl h
  · cases classification <;> decide

example : targetColumns [⟨['c'], true, 11⟩] false ≠ [] := by decide +kernel

/-! ## C55: the target column of a file -/

theorem find_mid {K V : Type} [DecidableEq K] {l1 l2 : List (K × V)} {s : K} {v : V}
    (hn : s ∉ l1.map Prod.fst) :
    (l1 ++ (s, v) :: l2).find? (fun c => decide (c.1 = s)) = some (s, v) := by
  induction l1 with
  | nil => simp
  | cons e l1 ih =>
    rw [List.map_cons, List.mem_cons, not_or] at hn
    rw [List.cons_append, List.find?_cons_of_neg (by simpa using fun c => hn.1 c.symm)]
    exact ih hn.2

theorem filter_none {K V : Type} [DecidableEq K] {l : List (K × V)} {s : K} (hn : s ∉ l.map Prod.fst) :
    l.filter (fun c => decide (c.1 ≠ s)) = l := by
  rw [List.filter_eq_self]
  intro c hc
  simp only [ne_eq, decide_not, Bool.not_eq_eq_eq_not, Bool.not_true, decide_eq_false_iff_not]
  rintro rfl
  exact hn (List.mem_map.2 ⟨c, hc, rfl⟩)

/-- C55: a named target column, wherever it is, is taken out and the others are kept in order. -/
theorem C55_named {K V : Type} [DecidableEq K] (l1 l2 : List (K × V)) (s : K) (v : V)
    (hn : ((l1 ++ (s, v) :: l2).map Prod.fst).Nodup) :
    splitTable (l1 ++ (s, v) :: l2) (some s) = .ok (l1 ++ l2, v) := by
  rw [List.map_append, List.map_cons, List.nodup_append] at hn
  obtain ⟨_, h2, h3⟩ := hn
  have n1 : s ∉ l1.map Prod.fst := fun h => h3 s h s List.mem_cons_self rfl
  have n2 : s ∉ l2.map Prod.fst := (List.nodup_cons.1 h2).1
  simp only [splitTable, find_mid n1]
  rw [List.filter_append, List.filter_cons_of_neg (by simp), filter_none n1, filter_none n2]

example : splitTable [(['a'], 1), (['b'], 2), (['c'], 3)] (some ['b']) =
    .ok ([(['a'], 1), (['c'], 3)], 2) := C55_named [(['a'], 1)] [(['c'], 3)] ['b'] 2 (by decide)

/-- C55: without a name it is the last one. -/
theorem C55_last {K V : Type} [DecidableEq K] (l : List (K × V)) (s : K) (v : V) :
    splitTable (l ++ [(s, v)]) none = .ok (l, v) := by
  simp [splitTable]

/-- C55: an unknown name is refused (and so is a table without columns). -/
theorem C55_unknown {K V : Type} [DecidableEq K] (l : List (K × V)) (s : K) :
    splitTable l (some s) = .error .valueError ↔ s ∉ l.map Prod.fst := by
  constructor
  · intro h hs
    obtain ⟨c, hc, rfl⟩ := List.mem_map.1 hs
    have : ∃ d, l.find? (fun d => decide (d.1 = c.1)) = some d := by
      cases h' : l.find? (fun d => decide (d.1 = c.1)) with
      | some d => exact ⟨d, rfl⟩
      | none =>
        rw [List.find?_eq_none] at h'
        exact absurd (decide_eq_true rfl) (h' c hc)
    obtain ⟨d, hd⟩ := this
    simp [splitTable, hd] at h
  · intro h
    have : l.find? (fun d => decide (d.1 = s)) = none := by
      rw [List.find?_eq_none]
      intro d hd
      simp only [decide_eq_true_eq]
      rintro rfl
      exact h (List.mem_map.2 ⟨d, hd, rfl⟩)
    simp [splitTable, this]

example : splitTable [(['a'], 1), (['b'], 2)] (some ['B']) = .error .valueError :=
  (C55_unknown _ _).2 (by decide)

/-! ## C59: labels -/

theorem position_iff {α : Type} [DecidableEq α] {x : α} {l : List α} :
    x ∈ l → ∃ i, position x l = some i ∧ l[i]? = some x := by
  induction l with
  | nil => intro h; cases h
  | cons y ys ih =>
    intro h
    unfold position
    by_cases e : x = y
    · exact ⟨0, by rw [if_pos e], by simp [e]⟩
    · rw [if_neg e]
      obtain ⟨i, h1, h2⟩ := ih ((List.mem_cons.1 h).resolve_left e)
      exact ⟨i + 1, by rw [h1]; rfl, by simpa using h2⟩

theorem decodeOne_nat (classes : List Label) (i : Nat) (c : Label) (h : classes[i]? = some c) :
    decodeOne classes (.num (i : ℚ)) = .ok c := by
  have h1 : ((i : ℚ)).den = 1 := Rat.den_natCast i
  have h2 : ((i : ℚ)).num = (i : Int) := Rat.num_natCast i
  simp only [decodeOne, h1, h2]
  simp [h]

theorem encode_decode (classes : List Label) (v : List Label) (h : ∀ c ∈ v, c ∈ classes) :
    ∃ l, encodeLabels classes v = .ok l ∧ l.length = v.length ∧ decodeLabels classes l = .ok v ∧
      ∀ c ∈ l, ∃ i : Nat, c = .num i ∧ i < classes.length := by
  induction v with
  | nil => exact ⟨[], rfl, rfl, rfl, by simp⟩
  | cons c v ih =>
    obtain ⟨l, h1, h2, h3, h4⟩ := ih fun d hd => h d (List.mem_cons_of_mem _ hd)
    obtain ⟨i, p1, p2⟩ := position_iff (h c List.mem_cons_self)
    refine ⟨.num i :: l, ?_, by simp [h2], ?_, ?_⟩
    · unfold encodeLabels; rw [p1, h1]
    · unfold decodeLabels
      rw [decodeOne_nat classes i c p2, h3]
    · intro d hd
      rcases List.mem_cons.1 hd with rfl | hd
      · exact ⟨i, rfl, (List.getElem?_eq_some_iff.1 p2).1⟩
      · exact h4 d hd

theorem mem_distinct {α : Type} [DecidableEq α] {x : α} {l : List α} : x ∈ distinct l ↔ x ∈ l := by
  induction l with
  | nil => rfl
  | cons y l ih =>
    unfold distinct
    by_cases h : y ∈ l
    · rw [if_pos h, ih, List.mem_cons]
      constructor
      · exact Or.inr
      · rintro (rfl | h')
        · exact h
        · exact h'
    · rw [if_neg h, List.mem_cons, List.mem_cons, ih]

theorem nodup_distinct {α : Type} [DecidableEq α] (l : List α) : (distinct l).Nodup := by
  induction l with
  | nil => exact List.nodup_nil
  | cons y l ih =>
    unfold distinct
    by_cases h : y ∈ l
    · rw [if_pos h]; exact ih
    · rw [if_neg h]
      exact List.nodup_cons.2 ⟨fun c => h (mem_distinct.1 c), ih⟩

theorem mem_strsOf {s : Str} {v : List Label} : s ∈ strsOf v ↔ Label.str s ∈ v := by
  induction v with
  | nil => simp [strsOf]
  | cons c v ih => cases c <;> simp [strsOf, ih]

theorem mem_numsOf {q : ℚ} {v : List Label} : q ∈ numsOf v ↔ Label.num q ∈ v := by
  induction v with
  | nil => simp [numsOf]
  | cons c v ih => cases c <;> simp [numsOf, ih]

/-- The classes are the labels, each once. -/
theorem classes_mem {v classes : List Label} (h : labelClasses v = .ok classes) :
    classes.Nodup ∧ ∀ c, c ∈ classes ↔ c ∈ v := by
  have nans : ∀ c, (c ∈ (if v.any Label.isNull then [Label.nan] else [])) ↔ c = .nan ∧ c ∈ v := by
    intro c
    cases hv : v.any Label.isNull
    · constructor
      · intro h; cases h
      · rintro ⟨rfl, h⟩
        rw [List.any_eq_false] at hv
        exact absurd rfl (hv _ h)
    · obtain ⟨d, hd, hd'⟩ := List.any_eq_true.1 hv
      have : d = .nan := (isNull_iff d).1 hd'
      subst this
      constructor
      · intro h
        rw [List.mem_singleton.1 h]
        exact ⟨rfl, hd⟩
      · rintro ⟨rfl, _⟩
        exact List.mem_singleton.2 rfl
  have nansNodup : (if v.any Label.isNull then [Label.nan] else []).Nodup := by
    split
    · exact List.nodup_singleton _
    · exact List.nodup_nil
  unfold labelClasses at h
  dsimp only at h
  cases hs : strsOf v with
  | nil =>
    rw [hs] at h
    cases h
    constructor
    · refine List.nodup_append.2 ⟨?_, nansNodup, ?_⟩
      · refine (List.Nodup.map ?_ ((pySorted_perm _ _).nodup_iff.2 (nodup_distinct _)))
        intro a b e; cases e; rfl
      · intro a ha b hb e
        obtain ⟨q, _, rfl⟩ := List.mem_map.1 ha
        rw [((nans b).1 hb).1] at e
        cases e
    · intro c
      rw [List.mem_append, nans, List.mem_map]
      constructor
      · rintro (⟨q, hq, rfl⟩ | h)
        · exact mem_numsOf.1 (mem_distinct.1 ((pySorted_perm _ _).mem_iff.1 hq))
        · exact h.2
      · intro hc
        cases c with
        | num q =>
          exact Or.inl ⟨q, (pySorted_perm _ _).mem_iff.2 (mem_distinct.2 (mem_numsOf.2 hc)), rfl⟩
        | str s =>
          have := mem_strsOf.2 hc
          rw [hs] at this
          cases this
        | nan => exact Or.inr ⟨rfl, hc⟩
  | cons s ss =>
    cases hn : numsOf v with
    | cons n ns => rw [hs, hn] at h; cases h
    | nil =>
      rw [hs, hn] at h
      dsimp only at h
      rw [← hs] at h
      cases h
      constructor
      · refine List.nodup_append.2 ⟨?_, nansNodup, ?_⟩
        · refine (List.Nodup.map ?_ ((pySorted_perm _ _).nodup_iff.2 (nodup_distinct _)))
          intro a b e; cases e; rfl
        · intro a ha b hb e
          obtain ⟨q, _, rfl⟩ := List.mem_map.1 ha
          rw [((nans b).1 hb).1] at e
          cases e
      · intro c
        rw [List.mem_append, nans, List.mem_map]
        constructor
        · rintro (⟨q, hq, rfl⟩ | h)
          · exact mem_strsOf.1 (mem_distinct.1 ((pySorted_perm _ _).mem_iff.1 hq))
          · exact h.2
        · intro hc
          cases c with
          | str q =>
            exact Or.inl ⟨q, (pySorted_perm _ _).mem_iff.2 (mem_distinct.2 (mem_strsOf.2 hc)), rfl⟩
          | num q =>
            have := mem_numsOf.2 hc
            rw [hn] at this
            cases this
          | nan => exact Or.inr ⟨rfl, hc⟩

theorem decode_range (classes : List Label) (pred : List Nat) (hp : ∀ i ∈ pred, i < classes.length) :
    ∃ out, decodeLabels classes (pred.map fun i : Nat => Label.num (i : ℚ)) = .ok out ∧
      out.map some = pred.map fun i => classes[i]? := by
  induction pred with
  | nil => exact ⟨[], rfl, rfl⟩
  | cons i pred ih =>
    obtain ⟨out, h1, h2⟩ := ih fun j hj => hp j (List.mem_cons_of_mem _ hj)
    have hi := hp i List.mem_cons_self
    refine ⟨classes[i] :: out, ?_, ?_⟩
    · rw [List.map_cons]
      unfold decodeLabels
      rw [decodeOne_nat classes i _ (List.getElem?_eq_getElem hi), h1]
    · simp [h2, List.getElem?_eq_getElem hi]

/-- C59, strings: the labels handed to training are positions in the list of the different labels,
which decode to the labels given; positions predicted are mapped to the labels at these positions. -/
theorem C59_strings (v : List Label) (hs : ∀ c ∈ v, ∃ s, c = .str s) (hv : v ≠ []) :
    ∃ classes enc, classifierFit (.series v) = .ok (classes, .array1 enc) ∧
      classifierFit (.array1 v) = .ok (classes, .array1 enc) ∧
      classes.Nodup ∧ (∀ c, c ∈ classes ↔ c ∈ v) ∧
      (∀ c ∈ enc, ∃ i : Nat, c = .num i ∧ i < classes.length) ∧
      classifierPredict classes enc = .ok v ∧
      ∀ pred : List Nat, pred ≠ [] → (∀ i ∈ pred, i < classes.length) →
        ∃ out, classifierPredict classes (pred.map fun i : Nat => Label.num (i : ℚ)) = .ok out ∧
          out.map some = (pred.map fun i => classes[i]?) ∧ ∀ c ∈ out, c ∈ v := by
  have hnum : numsOf v = [] := by
    cases h : numsOf v with
    | nil => rfl
    | cons q l =>
      have : q ∈ numsOf v := by rw [h]; exact List.mem_cons_self
      obtain ⟨s, e⟩ := hs _ (mem_numsOf.1 this)
      cases e
  have hok : ∃ classes, labelClasses v = .ok classes := by
    unfold labelClasses
    dsimp only
    cases h : strsOf v with
    | nil => exact ⟨_, rfl⟩
    | cons s ss => rw [hnum]; exact ⟨_, rfl⟩
  obtain ⟨classes, hc⟩ := hok
  obtain ⟨hnd, hmem⟩ := classes_mem hc
  obtain ⟨enc, e1, e2, e3, e4⟩ := encode_decode classes v fun c h => (hmem c).2 h
  have hany : v.any Label.isStr = true := by
    cases v with
    | nil => exact absurd rfl hv
    | cons c v =>
      obtain ⟨s, rfl⟩ := hs c List.mem_cons_self
      rfl
  have notin : ∀ i : Nat, Label.num (i : ℚ) ∉ classes := by
    intro i h
    obtain ⟨s, e⟩ := hs _ ((hmem _).1 h)
    cases e
  have hpred : ∀ l : List Label, l ≠ [] → (∀ c ∈ l, ∃ i : Nat, c = .num (i : ℚ)) →
      classifierPredict classes l = decodeLabels classes l := by
    intro l hl hi
    cases l with
    | nil => exact absurd rfl hl
    | cons c l =>
      obtain ⟨i, rfl⟩ := hi c List.mem_cons_self
      unfold classifierPredict
      dsimp only
      rw [if_neg (notin i)]
  refine ⟨classes, enc, ?_, ?_, hnd, hmem, e4, ?_, ?_⟩
  · simp [classifierFit, encoderInput, hc, seesStrings, hany, e1]
  · simp [classifierFit, encoderInput, hc, seesStrings, hany, e1]
  · rw [hpred enc ?_ ?_, e3]
    · intro h; rw [h] at e2; exact hv (List.length_eq_zero_iff.1 e2.symm)
    · intro c h
      obtain ⟨i, h1, _⟩ := e4 c h
      exact ⟨i, h1⟩
  · intro pred hp hr
    obtain ⟨out, o1, o2⟩ := decode_range classes pred hr
    refine ⟨out, ?_, o2, ?_⟩
    · rw [hpred _ (by simpa using hp) ?_, o1]
      intro c h
      obtain ⟨i, _, rfl⟩ := List.mem_map.1 h
      exact ⟨i, rfl⟩
    · intro c h
      have : some c ∈ pred.map fun i => classes[i]? := by
        rw [← o2]; exact List.mem_map.2 ⟨c, h, rfl⟩
      obtain ⟨i, _, hi⟩ := List.mem_map.1 this
      exact (hmem c).1 (List.mem_of_getElem? hi)

example : classifierFit (.series [.str ['b'], .str ['a'], .str ['b']]) =
    .ok ([.str ['a'], .str ['b']], .array1 [.num 1, .num 0, .num 1]) ∧
    classifierPredict [.str ['a'], .str ['b']] [.num 1, .num 1] = .ok [.str ['b'], .str ['b']] :=
  ⟨rfl, rfl⟩

/-- C59, numbers: labels are handed on as they are and so are predictions, which are labels seen. -/
theorem C59_numbers (v : List Label) (hs : ∀ c ∈ v, ∃ q, c = .num q) :
    ∃ classes, classifierFit (.series v) = .ok (classes, .series v) ∧
      classifierFit (.array1 v) = .ok (classes, .array1 v) ∧
      (∀ c, c ∈ classes ↔ c ∈ v) ∧
      ∀ pred : List Label, pred ≠ [] → (∀ c ∈ pred, c ∈ v) →
        classifierPredict classes pred = .ok pred := by
  have hstr : strsOf v = [] := by
    cases h : strsOf v with
    | nil => rfl
    | cons q l =>
      have : q ∈ strsOf v := by rw [h]; exact List.mem_cons_self
      obtain ⟨s, e⟩ := hs _ (mem_strsOf.1 this)
      cases e
  have hok : ∃ classes, labelClasses v = .ok classes := by
    unfold labelClasses
    dsimp only
    rw [hstr]
    exact ⟨_, rfl⟩
  obtain ⟨classes, hc⟩ := hok
  obtain ⟨_, hmem⟩ := classes_mem hc
  have hany : v.any Label.isStr = false := by
    rw [List.any_eq_false]
    intro c h
    obtain ⟨q, rfl⟩ := hs c h
    simp [Label.isStr]
  refine ⟨classes, ?_, ?_, hmem, ?_⟩
  · simp [classifierFit, encoderInput, hc, seesStrings, hany]
  · simp [classifierFit, encoderInput, hc, seesStrings, hany]
  · intro pred hp hr
    cases pred with
    | nil => exact absurd rfl hp
    | cons c l =>
      unfold classifierPredict
      dsimp only
      rw [if_pos ((hmem c).2 (hr c List.mem_cons_self))]

/-- C59: labels predicted by a model that decodes them itself (an ensemble) are left alone. -/
theorem C59_decoded (classes pred : List Label) (hp : pred ≠ []) (h : ∀ c ∈ pred, c ∈ classes) :
    classifierPredict classes pred = .ok pred := by
  cases pred with
  | nil => exact absurd rfl hp
  | cons c l =>
    unfold classifierPredict
    dsimp only
    rw [if_pos (h c List.mem_cons_self)]

/-- Predicting for no rows is an error. -/
theorem C59_empty (classes : List Label) : classifierPredict classes [] = .error .indexError := rfl

/-! ## C60: target formats -/

/-- The rows of an indicator matrix with `k` columns. -/
def Spec.oneHot (k i : Nat) : List Label :=
  (List.range k).map fun j => .num (if j = i then 1 else 0)

def C60_claim : Prop :=
  (∀ v : List Label, formatY (.series v) = .ok (.series v) ∧ formatY (.array1 v) = .ok (.series v) ∧
    formatY (.array2 (v.map fun c => [c]) 1) = .ok (.series v) ∧
    formatY (.frame (v.map fun c => [c]) 1) = .ok (.series v)) ∧
  (∀ (k : Nat) (v : List Nat), 1 < k → (∀ i ∈ v, i < k) →
    formatY (.array2 (v.map (Spec.oneHot k)) k) = .ok (.series (v.map fun i : Nat => Label.num (i : ℚ)))) ∧
  (∀ (k : Nat) (rows : List (List Label)), 1 ≤ k → (∀ r ∈ rows, r.length = k) →
    formatY (.frame rows k) = .ok (.series (rows.map fun r => r.headD .nan)))

theorem rowNums_map (l : List ℚ) : rowNums (l.map .num) = some l := by
  induction l with
  | nil => rfl
  | cons q l ih => simp [rowNums, ih]

theorem argmax_indicator (f : Nat → ℚ) (i : Nat) (hf : ∀ j, f j = if j = i then 1 else 0) :
    ∀ (n start best : Nat), best < start →
      (best ≠ i → start ≤ i ∧ i < start + n) →
      argmaxFrom start best (f best) ((List.range' start n).map f) = i := by
  intro n
  induction n with
  | zero =>
    intro start best hb h
    rw [List.range'_zero, List.map_nil]
    unfold argmaxFrom
    by_cases e : best = i
    · exact e
    · have := h e; omega
  | succ n ih =>
    intro start best hb h
    rw [List.range'_succ, List.map_cons]
    unfold argmaxFrom
    by_cases e : best = i
    · have hlt : ¬ f best < f start := by
        rw [hf best, hf start, if_pos e, if_neg (by omega)]; norm_num
      rw [if_neg hlt]
      exact ih (start + 1) best (by omega) fun c => absurd e c
    · obtain ⟨h1, h2⟩ := h e
      by_cases es : start = i
      · have hlt : f best < f start := by
          rw [hf best, hf start, if_neg e, if_pos es]; norm_num
        rw [if_pos hlt]
        exact ih (start + 1) start (by omega) fun c => absurd es c
      · have hlt : ¬ f best < f start := by
          rw [hf best, hf start, if_neg e, if_neg es]; norm_num
        rw [if_neg hlt]
        exact ih (start + 1) best (by omega) fun _ => by omega

theorem argmaxRow_oneHot {k i : Nat} (hi : i < k) : argmaxRow (Spec.oneHot k i) = .ok i := by
  unfold argmaxRow
  have e : Spec.oneHot k i = ((List.range k).map fun j => if j = i then (1 : ℚ) else 0).map .num := by
    unfold Spec.oneHot; rw [List.map_map]; rfl
  rw [e, rowNums_map]
  cases k with
  | zero => omega
  | succ k =>
    rw [List.range_eq_range', List.range'_succ, List.map_cons]
    dsimp only
    refine congrArg _ (argmax_indicator (fun j => if j = i then 1 else 0) i (fun j => rfl) k 1 0
      (by omega) ?_)
    intro h; omega

theorem argmaxRows_oneHot (k : Nat) (v : List Nat) (hv : ∀ i ∈ v, i < k) :
    argmaxRows (v.map (Spec.oneHot k)) = .ok (v.map fun i : Nat => Label.num (i : ℚ)) := by
  induction v with
  | nil => rfl
  | cons i v ih =>
    rw [List.map_cons]
    unfold argmaxRows
    rw [argmaxRow_oneHot (hv i List.mem_cons_self), ih fun j hj => hv j (List.mem_cons_of_mem _ hj)]
    rfl

theorem firstColumn_single (v : List Label) : firstColumn (v.map fun c => [c]) = v := by
  unfold firstColumn
  rw [List.map_map]
  exact List.map_id v

/-- C60 but for data frames with several columns and for one-column data frames with one row. -/
theorem C60_partial :
    (∀ v : List Label, formatY (.series v) = .ok (.series v) ∧ formatY (.array1 v) = .ok (.series v) ∧
      formatY (.array2 (v.map fun c => [c]) 1) = .ok (.series v) ∧
      (v.length ≠ 1 → formatY (.frame (v.map fun c => [c]) 1) = .ok (.series v))) ∧
    (∀ (k : Nat) (v : List Nat), 1 < k → (∀ i ∈ v, i < k) →
      formatY (.array2 (v.map (Spec.oneHot k)) k) = .ok (.series (v.map fun i : Nat => Label.num (i : ℚ)))) := by
  constructor
  · intro v
    refine ⟨rfl, rfl, ?_, ?_⟩
    · simp [formatY, firstColumn_single]
    · intro h
      unfold formatY squeezeFrame
      dsimp only
      rw [if_pos rfl]
      match v with
      | [] => rfl
      | [c] => exact absurd rfl h
      | c :: d :: l => exact congrArg (fun x => Except.ok (YOut.series x)) (firstColumn_single (c :: d :: l))
  · intro k v hk hv
    unfold formatY
    dsimp only
    rw [if_pos hk, argmaxRows_oneHot k v hv]

example : formatY (.array2 [[.num 0, .num 1], [.num 1, .num 0]] 2) = .ok (.series [.num 1, .num 0]) := by
  decide +kernel

/-- A data frame with two columns stays one: its first column is not used as the target. -/
theorem C60_false : ¬ C60_claim := by
  rintro ⟨_, _, h⟩
  have := h 2 [[.num 1, .num 2], [.num 3, .num 4]] (by decide) (by simp)
  revert this
  decide +kernel

/-- In general: a data frame of several columns with other than one row is handed on as it is. -/
theorem C60_frames (rows : List (List Label)) (k : Nat) (hk : k ≠ 1) (hr : rows.length ≠ 1) :
    formatY (.frame rows k) = .ok (.frame rows k) := by
  unfold formatY squeezeFrame
  dsimp only
  rw [if_neg hk]
  match rows with
  | [] => rfl
  | [r] => exact absurd rfl hr
  | _ :: _ :: _ => rfl

/-- A single row of one column becomes a scalar, one of several columns a Series of that row. -/
theorem C60_single_row (c : Label) (r : List Label) (k : Nat) (hk : k ≠ 1) :
    formatY (.frame [[c]] 1) = .ok (.scalar c) ∧ formatY (.frame [r] k) = .ok (.series r) := by
  refine ⟨rfl, ?_⟩
  unfold formatY squeezeFrame
  dsimp only
  rw [if_neg hk]

/-- A classifier refuses indicator arrays and data frames with several columns. -/
theorem C60_classifier (rows : List (List Label)) (k : Nat) (hk : k ≠ 1) :
    classifierFit (.array2 rows k) = .error .valueError ∧
    (rows.length ≠ 1 → classifierFit (.frame rows k) = .error .valueError) := by
  constructor
  · simp [classifierFit, encoderInput, hk]
  · intro hr
    unfold classifierFit encoderInput squeezeFrame
    dsimp only
    rw [if_neg hk]
    match rows with
    | [] => rfl
    | [r] => exact absurd rfl hr
    | _ :: _ :: _ => rfl

/-! ## C83: rows without label are ignored by a classifier -/

/-- The labels without which a row is ignored when training a classifier are those that were missing. -/
def C83_claim : Prop :=
  ∀ (v classes : List Label) (y' : Target) (v' : List Label),
    classifierFit (.series v) = .ok (classes, y') → formatY y' = .ok (.series v') →
    v'.map Label.isNull = v.map Label.isNull

/-- C83 for labels that are not strings. -/
theorem C83_partial (v classes : List Label) (y' : Target) (v' : List Label)
    (hs : ∀ s, Label.str s ∉ v)
    (h1 : classifierFit (.series v) = .ok (classes, y')) (h2 : formatY y' = .ok (.series v')) :
    v'.map Label.isNull = v.map Label.isNull := by
  have hany : v.any Label.isStr = false := by
    rw [List.any_eq_false]
    intro c h
    cases c with
    | str s => exact absurd h (hs s)
    | num q => simp [Label.isStr]
    | nan => simp [Label.isStr]
  have hsee : seesStrings (.series v) = v.any Label.isStr := rfl
  unfold classifierFit encoderInput at h1
  dsimp only at h1
  rw [hsee] at h1
  cases hc : labelClasses v with
  | error e => rw [hc] at h1; cases h1
  | ok cl =>
    simp only [hc, hany] at h1
    cases h1
    cases h2
    rfl

example : ([Label.num 1, .nan, .num 2].map Label.isNull) = [false, true, false] ∧
    classifierFit (.series [.num 1, .nan, .num 2]) =
      .ok ([.num 1, .num 2, .nan], .series [.num 1, .nan, .num 2]) := by
  constructor
  · rfl
  · rfl

/-- With string labels a missing label is turned into a class of its own. -/
theorem C83_false : ¬ C83_claim := by
  intro h
  have := h [.str ['a'], .nan] [.str ['a'], .nan] (.array1 [.num 0, .num 1]) [.num 0, .num 1]
    (by rfl) rfl
  cases this

/-- In general no row is ignored when labels are strings. -/
theorem C83_strings (v classes : List Label) (y' : Target) (v' : List Label) (s : Str)
    (hs : Label.str s ∈ v) (h1 : classifierFit (.series v) = .ok (classes, y'))
    (h2 : formatY y' = .ok (.series v')) : v'.length = v.length ∧ ∀ c ∈ v', c ≠ .nan := by
  have hany : v.any Label.isStr = true := List.any_eq_true.2 ⟨_, hs, rfl⟩
  have hsee : seesStrings (.series v) = v.any Label.isStr := rfl
  unfold classifierFit encoderInput at h1
  dsimp only at h1
  rw [hsee] at h1
  cases hc : labelClasses v with
  | error e => rw [hc] at h1; cases h1
  | ok cl =>
    simp only [hc, hany] at h1
    obtain ⟨l, e1, e2, _, e4⟩ := encode_decode cl v fun c h => ((classes_mem hc).2 c).2 h
    simp only [if_true, e1] at h1
    cases h1
    cases h2
    refine ⟨e2, fun c h => ?_⟩
    obtain ⟨i, rfl, _⟩ := e4 c h
    exact nofun

/-! ### Cases of the theorems above -/

/-- `C53_by_index`: rows in another order than labels. -/
example : ∃ x' y', removeUnlabeled [(0, 'a'), (1, 'b'), (2, 'c')] [(2, .num 4), (1, .nan), (0, .num 5)] =
      .ok (x', y') ∧ x' = [(0, 'a'), (2, 'c')] ∧ y' = [(2, .num 4), (0, .num 5)] := by
  obtain ⟨x', y', h, rfl, rfl⟩ := C53_by_index [(0, 'a'), (1, 'b'), (2, 'c')]
    [(2, .num 4), (1, .nan), (0, .num 5)] (by decide) (by decide) ⟨(1, .nan), by simp, rfl⟩
  exact ⟨_, _, h, by decide +kernel, by decide +kernel⟩

/-- `C54_which`, `C54_left`, `C54_only`: a column of 11 categories in classification. -/
example : ['c'] ∈ ordinalColumns [⟨['a'], false, 5⟩, ⟨['c'], true, 11⟩] true ∧
    (⟨['a'], false, 5⟩ : Column) ∈ encodedTable [⟨['a'], false, 5⟩, ⟨['c'], true, 11⟩] true ∧
    ∃ c ∈ [(⟨['a'], false, 5⟩ : Column), ⟨['c'], true, 11⟩], c.name = ['c'] ∧ c.categorical = true :=
  have h : ['c'] ∈ ordinalColumns [⟨['a'], false, 5⟩, ⟨['c'], true, 11⟩] true :=
    (C54_which _ (by decide) true ⟨['c'], true, 11⟩ (by simp)).1.2 ⟨rfl, .inr ⟨rfl, by decide⟩⟩
  ⟨h, (C54_left _ (by decide) true).2 _ (by simp) rfl,
    C54_only _ true _ (List.mem_append_left _ (List.mem_append_left _ h))⟩

/-- `C59_numbers`, `C59_decoded`: labels 3 and 5. -/
example : ∃ classes, classifierFit (.series [.num 3, .num 5, .num 3]) =
      .ok (classes, .series [.num 3, .num 5, .num 3]) ∧
    classifierPredict classes [.num 5, .num 5] = .ok [.num 5, .num 5] := by
  obtain ⟨classes, h, _, _, hp⟩ := C59_numbers [.num 3, .num 5, .num 3] (by simp)
  exact ⟨classes, h, hp _ (by simp) (by simp)⟩

example : classifierPredict [.str ['a'], .str ['b']] [.str ['b']] = .ok [.str ['b']] :=
  C59_decoded _ _ (by simp) (by simp)

/-- `C60_frames`, `C60_single_row`, `C60_classifier`: two columns of two rows, and a single row. -/
example : formatY (.frame [[.num 0, .num 1], [.num 1, .num 0]] 2) =
      .ok (.frame [[.num 0, .num 1], [.num 1, .num 0]] 2) ∧
    formatY (.frame [[.num 0, .num 1]] 2) = .ok (.series [.num 0, .num 1]) ∧
    classifierFit (.array2 [[.num 0, .num 1], [.num 1, .num 0]] 2) = .error .valueError :=
  ⟨C60_frames _ 2 (by decide) (by decide), (C60_single_row (.num 0) [.num 0, .num 1] 2 (by decide)).2,
    (C60_classifier _ 2 (by decide)).1⟩

/-- `C83_strings`: a missing label among strings. -/
example : ∀ c ∈ [Label.num 0, .num 1], c ≠ .nan :=
  (C83_strings [.str ['a'], .nan] [.str ['a'], .nan] (.array1 [.num 0, .num 1]) [.num 0, .num 1] ['a'] (by simp)
    rfl rfl).2

end Gama
