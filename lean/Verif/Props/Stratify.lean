import Verif.Model.Stratify
import Verif.Props.Formats
import Mathlib.Data.List.Perm.Subperm

/-! # C149: a classifier accepts labels whatever the number of rows -/

namespace Gama
open Spec

/-! ### Encoding keeps classes apart -/

theorem encodeLabels_map (classes : List Label) : ∀ (v l : List Label), encodeLabels classes v = .ok l →
    l = v.map fun c => Label.num (((position c classes).getD 0 : Nat) : ℚ) := by
  intro v
  induction v with
  | nil => intro l h; cases h; rfl
  | cons c v ih =>
    intro l h
    unfold encodeLabels at h
    cases hp : position c classes with
    | none => rw [hp] at h; cases h
    | some i =>
      rw [hp] at h
      cases h2 : encodeLabels classes v with
      | error e => rw [h2] at h; cases h
      | ok l' =>
        rw [h2] at h
        cases h
        rw [List.map_cons, hp, ← ih l' h2]
        rfl

theorem position_getD_inj {classes : List Label} {c d : Label} (hc : c ∈ classes) (hd : d ∈ classes)
    (h : Label.num (((position c classes).getD 0 : Nat) : ℚ) = .num (((position d classes).getD 0 : Nat) : ℚ)) :
    c = d := by
  obtain ⟨i, e1, f1⟩ := position_iff hc
  obtain ⟨j, e2, f2⟩ := position_iff hd
  rw [e1, e2] at h
  have h : (i : ℚ) = (j : ℚ) := Label.num.inj h
  have h : i = j := by exact_mod_cast h
  rw [h, f2] at f1
  exact (Option.some.inj f1).symm

section
variable {α β : Type} [DecidableEq α] [DecidableEq β]

theorem distinct_map {e : α → β} : ∀ (v : List α), (∀ c ∈ v, ∀ d ∈ v, e c = e d → c = d) →
    distinct (v.map e) = (distinct v).map e := by
  intro v
  induction v with
  | nil => intro _; rfl
  | cons c v ih =>
    intro h
    have ih := ih fun a ha b hb => h a (List.mem_cons_of_mem _ ha) b (List.mem_cons_of_mem _ hb)
    have hm : e c ∈ v.map e ↔ c ∈ v := by
      constructor
      · intro hm
        obtain ⟨d, hd, ed⟩ := List.mem_map.1 hm
        rw [← h d (List.mem_cons_of_mem _ hd) c List.mem_cons_self ed]
        exact hd
      · intro hm
        exact List.mem_map.2 ⟨c, hm, rfl⟩
    rw [List.map_cons]
    unfold distinct
    by_cases hc : c ∈ v
    · rw [if_pos hc, if_pos (hm.2 hc), ih]
    · rw [if_neg hc, if_neg (fun a => hc (hm.1 a)), ih, List.map_cons]

theorem count_map_on {e : α → β} (c : α) : ∀ (v : List α), (∀ d ∈ v, e d = e c → d = c) →
    (v.map e).count (e c) = v.count c := by
  intro v
  induction v with
  | nil => intro _; rfl
  | cons d v ih =>
    intro h
    have ih := ih fun a ha => h a (List.mem_cons_of_mem _ ha)
    rw [List.map_cons, List.count_cons, List.count_cons, ih]
    by_cases hd : d = c
    · simp [hd]
    · have : e d ≠ e c := fun a => hd (h d List.mem_cons_self a)
      simp [hd, this]

end

/-- Whether rows can be chosen depends on the classes of labels, not on what the labels are. -/
theorem splitStratified_map (n : Nat) (v : List Label) (e : Label → Label)
    (hi : ∀ c ∈ v, ∀ d ∈ v, e c = e d → c = d) (h1 : ∀ c ∈ v, c.isNull = false)
    (h2 : ∀ c ∈ v, (e c).isNull = false) : splitStratified n (v.map e) = splitStratified n v := by
  have a1 : v.any Label.isNull = false := by
    rw [List.any_eq_false]; intro c hc; rw [h1 c hc]; decide
  have a2 : (v.map e).any Label.isNull = false := by
    rw [List.any_eq_false]
    intro d hd
    obtain ⟨c, hc, rfl⟩ := List.mem_map.1 hd
    rw [h2 c hc]; decide
  have a3 : (distinct (v.map e)).any (fun c => decide ((v.map e).count c < 2)) =
      (distinct v).any (fun c => decide (v.count c < 2)) := by
    rw [distinct_map v hi, List.any_map, Bool.eq_iff_iff, List.any_eq_true, List.any_eq_true]
    constructor
    · rintro ⟨c, hc, h⟩
      refine ⟨c, hc, ?_⟩
      rw [Function.comp, count_map_on c v fun d hd ed => hi d hd c (mem_distinct.1 hc) ed] at h
      exact h
    · rintro ⟨c, hc, h⟩
      refine ⟨c, hc, ?_⟩
      rw [Function.comp, count_map_on c v fun d hd ed => hi d hd c (mem_distinct.1 hc) ed]
      exact h
  have a4 : (distinct (v.map e)).length = (distinct v).length := by
    rw [distinct_map v hi, List.length_map]
  unfold splitStratified
  rw [List.length_map, a1, a2, a3, a4]

/-- What is needed for choosing `n` rows, with `cs` a list of the classes. -/
theorem splitStratified_ok (n : Nat) (v cs : List Label) (hcs : cs.Nodup) (hm : ∀ c, c ∈ cs ↔ c ∈ v) :
    splitStratified n v = .ok () ↔ 0 < n ∧ n < v.length ∧ (∀ c ∈ v, c.isNull = false) ∧
      (∀ c ∈ v, 2 ≤ v.count c) ∧ cs.length ≤ n ∧ cs.length ≤ v.length - n := by
  have hl : (distinct v).length = cs.length := by
    refine le_antisymm ?_ ?_
    · exact (List.subperm_of_subset (nodup_distinct v) fun c hc => (hm c).2 (mem_distinct.1 hc)).length_le
    · exact (List.subperm_of_subset hcs fun c hc => mem_distinct.2 ((hm c).1 hc)).length_le
  unfold splitStratified
  rw [hl]
  constructor
  · intro h
    split at h
    · cases h
    · rename_i h1
      split at h
      · cases h
      · rename_i h2
        split at h
        · cases h
        · rename_i h3
          split at h
          · cases h
          · rename_i h4
            split at h
            · cases h
            · rename_i h5
              refine ⟨by omega, by omega, ?_, ?_, by omega, by omega⟩
              · intro c hc
                rw [Bool.not_eq_true, List.any_eq_false] at h2
                simpa using h2 c hc
              · intro c hc
                rw [Bool.not_eq_true, List.any_eq_false] at h3
                have := h3 c (mem_distinct.2 hc)
                simpa using this
  · rintro ⟨h1, h2, h3, h4, h5, h6⟩
    have a1 : v.any Label.isNull = false := by
      rw [List.any_eq_false]; intro c hc; rw [h3 c hc]; decide
    have a2 : (distinct v).any (fun c => decide (v.count c < 2)) = false := by
      rw [List.any_eq_false]
      intro c hc
      have := h4 c (mem_distinct.1 hc)
      simpa using this
    rw [if_neg (by omega), a1, a2]
    simp only [Bool.false_eq_true, if_false]
    rw [if_neg (by omega), if_neg (by omega)]

theorem splitStratified_error {n : Nat} {v : List Label} (h : splitStratified n v ≠ .ok ()) :
    splitStratified n v = .error .valueError := by
  unfold splitStratified at h ⊢
  split
  · rfl
  · split
    · rfl
    · split
      · rfl
      · split
        · rfl
        · split
          · rfl
          · rename_i h1 h2 h3 h4 h5
            rw [if_neg h1, if_neg h2, if_neg h3, if_neg h4, if_neg h5] at h
            exact absurd rfl h

theorem stratifyLabels_given (f : Format) (v : List Label) : stratifyLabels (given f v) = v := by
  cases f with
  | series => rfl
  | array => rfl
  | list => rfl
  | column => exact firstColumn_single v
  | frame => exact firstColumn_single v

namespace Spec

/-- Labels that are all strings or all numbers, so none is missing. -/
def Labels (v : List Label) : Prop := (∀ c ∈ v, ∃ s, c = .str s) ∨ ∀ c ∈ v, ∃ q, c = .num q

/-- A list of the classes of labels. -/
def Classes (v cs : List Label) : Prop := cs.Nodup ∧ ∀ c, c ∈ cs ↔ c ∈ v

end Spec

theorem labels_present {v : List Label} (h : Labels v) : ∀ c ∈ v, c.isNull = false := by
  intro c hc
  rcases h with h | h
  · obtain ⟨s, rfl⟩ := h c hc; rfl
  · obtain ⟨s, rfl⟩ := h c hc; rfl

theorem labels_classes {v : List Label} (h : Labels v) : ∃ classes, labelClasses v = .ok classes := by
  rcases h with h | h
  · exact classes_of_strings h
  · have hstr : strsOf v = [] := by
      cases e : strsOf v with
      | nil => rfl
      | cons q l =>
        have : q ∈ strsOf v := by rw [e]; exact List.mem_cons_self
        obtain ⟨s, e⟩ := h _ (mem_strsOf.1 this)
        cases e
    unfold labelClasses
    dsimp only
    rw [hstr]
    exact ⟨_, rfl⟩

/-- What choosing rows for the labels handed on comes to. -/
theorem classifierStart_given (f : Format) (v : List Label) (h : f = .frame → v.length ≠ 1) (hv : Labels v)
    (n : Option Nat) : ∃ r, classifierFit (given f v) = .ok r ∧
      (∀ e, chooseStratified n v = .error e → classifierStart n (given f v) = .error e) ∧
      (chooseStratified n v = .ok () → classifierStart n (given f v) = .ok r) := by
  obtain ⟨classes, hc⟩ := labels_classes hv
  have hm := (classes_mem hc).2
  obtain ⟨k1, k2⟩ := classifierFit_given f v h hc
  by_cases hs : f = .column ∨ v.any Label.isStr = false
  · refine ⟨_, k2 hs, ?_⟩
    unfold classifierStart
    rw [k2 hs]
    dsimp only
    rw [stratifyLabels_given]
    exact ⟨fun e he => by rw [he], fun he => by rw [he]⟩
  · rw [not_or, Bool.not_eq_false] at hs
    obtain ⟨enc, e1, e2⟩ := k1 hs.1 hs.2
    refine ⟨_, e2, ?_⟩
    have he := encodeLabels_map classes v enc e1
    have : chooseStratified n enc = chooseStratified n v := by
      unfold chooseStratified
      cases n with
      | none => rfl
      | some n =>
        dsimp only
        rw [he, List.length_map]
        by_cases hn : n < v.length
        · rw [if_pos hn, if_pos hn]
          exact splitStratified_map n v _
            (fun c hc d hd e => position_getD_inj ((hm c).2 hc) ((hm d).2 hd) e) (labels_present hv)
            fun _ _ => rfl
        · rw [if_neg hn, if_neg hn]
    unfold classifierStart
    rw [e2, ← this]
    dsimp only [stratifyLabels]
    exact ⟨fun e he => by rw [he], fun he => by rw [he]⟩

/-- The full claim: a classifier (with the default post-processing) accepts any labels of which each
class has at least five rows, in any format. -/
def C149_claim : Prop := ∀ (f : Format) (v : List Label), (f = .frame → v.length ≠ 1) → Labels v →
  (∀ c ∈ v, 5 ≤ v.count c) → ∃ r, classifierStart bestFitSample (given f v) = .ok r

/-- **C149, exactly when labels are accepted**, where `n` rows are to be chosen and `cs` are the
classes: there are at most `n` rows; or each class has two rows, there are at most `n` classes, and at least
as many rows more than `n` as there are classes.  Else it is a `ValueError`. -/
theorem C149_partial (f : Format) (v cs : List Label) (n : Nat) (h : f = .frame → v.length ≠ 1)
    (hv : Labels v) (hcs : Classes v cs) :
    ((∃ r, classifierStart (some n) (given f v) = .ok r) ↔
      v.length ≤ n ∨ (0 < n ∧ (∀ c ∈ v, 2 ≤ v.count c) ∧ cs.length ≤ n ∧ n + cs.length ≤ v.length)) ∧
    ((¬ ∃ r, classifierStart (some n) (given f v) = .ok r) →
      classifierStart (some n) (given f v) = .error .valueError) := by
  obtain ⟨r, _, e, e'⟩ := classifierStart_given f v h hv (some n)
  unfold chooseStratified at e e'
  dsimp only at e e'
  by_cases hn : n < v.length
  · rw [if_pos hn] at e e'
    have key := splitStratified_ok n v cs hcs.1 hcs.2
    by_cases hok : splitStratified n v = .ok ()
    · obtain ⟨a1, _, _, a4, a5, a6⟩ := key.1 hok
      rw [e' hok]
      exact ⟨⟨fun _ => .inr ⟨a1, a4, a5, by omega⟩, fun _ => ⟨r, rfl⟩⟩, fun hno => absurd ⟨r, rfl⟩ hno⟩
    · rw [e _ (splitStratified_error hok)]
      refine ⟨⟨?_, ?_⟩, fun _ => rfl⟩
      · rintro ⟨_, e'⟩; cases e'
      · rintro (a | ⟨a1, a2, a3, a4⟩)
        · omega
        · exact absurd (key.2 ⟨a1, hn, labels_present hv, a2, a3, by omega⟩) hok
  · rw [if_neg hn] at e'
    rw [e' rfl]
    exact ⟨⟨fun _ => .inl (by omega), fun _ => ⟨r, rfl⟩⟩, fun hno => absurd ⟨r, rfl⟩ hno⟩

/-- **With few rows any labels are accepted**, and so are they with the default of 10000 if there are at
least as many rows beyond 10000 as classes. -/
theorem C149_accepted (f : Format) (v cs : List Label) (h : f = .frame → v.length ≠ 1) (hv : Labels v)
    (hcs : Classes v cs) :
    (v.length ≤ 10000 → ∃ r, classifierStart bestFitSample (given f v) = .ok r) ∧
    ((∀ c ∈ v, 2 ≤ v.count c) → cs.length ≤ 10000 → 10000 + cs.length ≤ v.length →
      ∃ r, classifierStart bestFitSample (given f v) = .ok r) := by
  have key := (C149_partial f v cs 10000 h hv hcs).1
  exact ⟨fun hl => key.2 (.inl hl), fun h1 h2 h3 => key.2 (.inr ⟨by decide, h1, h2, h3⟩)⟩

/-- **With 10001 rows no labels of two or more classes are accepted.** -/
theorem C149_refused (f : Format) (v cs : List Label) (hv : Labels v) (hcs : Classes v cs)
    (hl : v.length = 10001) (h2 : 2 ≤ cs.length) :
    classifierStart bestFitSample (given f v) = .error .valueError := by
  have key := C149_partial f v cs 10000 (by omega) hv hcs
  refine key.2 fun hex => ?_
  rcases key.1.1 hex with a | ⟨_, _, _, a⟩ <;> omega

/-- **With `hillclimb_size=None` no rows are chosen, and all labels are accepted.** -/
theorem C149_no_limit (f : Format) (v : List Label) (h : f = .frame → v.length ≠ 1) (hv : Labels v) :
    ∃ r, classifierStart none (given f v) = .ok r := by
  obtain ⟨r, _, _, e⟩ := classifierStart_given f v h hv none
  exact ⟨r, e rfl⟩

/-- Beside it: one class has one row only. -/
example : ∃ r, classifierStart none (given .series [.num 0, .num 1, .num 0]) = .ok r :=
  C149_no_limit _ _ (by decide) (.inr (by
    intro c hc
    simp only [List.mem_cons, List.not_mem_nil, or_false] at hc
    rcases hc with rfl | rfl | rfl <;> exact ⟨_, rfl⟩))

/-- **Beyond the rows to be chosen a missing label is refused** (numbers, or an array with one column),
instead of its row being ignored. -/
theorem C149_missing (f : Format) (v : List Label) (n : Nat) (h : f = .frame → v.length ≠ 1)
    (hmiss : Label.nan ∈ v) (hs : f = .column ∨ ∀ s, Label.str s ∉ v) (hn : n < v.length) :
    ∃ e, classifierStart (some n) (given f v) = .error e := by
  cases hc : labelClasses v with
  | error e =>
    refine ⟨e, ?_⟩
    unfold classifierStart classifierFit
    rw [encoderInput_given f v h]
    dsimp only
    rw [hc]
  | ok classes =>
    have hs' : f = .column ∨ v.any Label.isStr = false := by
      rcases hs with hs | hs
      · exact .inl hs
      · right
        rw [List.any_eq_false]
        intro c hc
        cases c with
        | str s => exact absurd hc (hs s)
        | num q => exact nofun
        | nan => exact nofun
    have hno : splitStratified n v ≠ .ok () := fun e => by
      have := (splitStratified_ok n v (distinct v) (nodup_distinct v) fun c => mem_distinct).1 e
      have := this.2.2.1 _ hmiss
      cases this
    refine ⟨.valueError, ?_⟩
    unfold classifierStart
    rw [(classifierFit_given f v h hc).2 hs']
    dsimp only
    rw [stratifyLabels_given]
    unfold chooseStratified
    dsimp only
    rw [if_pos hn, splitStratified_error hno]

/-- **C149 is false of the code**: 10001 rows of two classes. -/
theorem C149_false : ¬ C149_claim := by
  intro h
  let v : List Label := List.replicate 5000 (.num 0) ++ List.replicate 5001 (.num 1)
  have hlen : v.length = 10001 := by
    show (List.replicate 5000 (Label.num 0) ++ List.replicate 5001 (Label.num 1)).length = 10001
    rw [List.length_append, List.length_replicate, List.length_replicate]
  have hmem : ∀ c, c ∈ v ↔ c = .num 0 ∨ c = .num 1 := by
    intro c
    show c ∈ List.replicate 5000 (Label.num 0) ++ List.replicate 5001 (Label.num 1) ↔ _
    rw [List.mem_append, List.mem_replicate, List.mem_replicate]
    constructor
    · rintro (⟨_, a⟩ | ⟨_, a⟩)
      · exact .inl a
      · exact .inr a
    · rintro (a | a)
      · exact .inl ⟨by decide, a⟩
      · exact .inr ⟨by decide, a⟩
  have hv : Labels v := by
    right
    intro c hc
    rcases (hmem c).1 hc with e | e
    · exact ⟨_, e⟩
    · exact ⟨_, e⟩
  have hcount : ∀ c ∈ v, 5 ≤ v.count c := by
    intro c hc
    show 5 ≤ (List.replicate 5000 (Label.num 0) ++ List.replicate 5001 (Label.num 1)).count c
    rw [List.count_append, List.count_replicate, List.count_replicate]
    rcases (hmem c).1 hc with e | e
    · rw [e, if_pos (by decide)]
      omega
    · rw [e, if_pos (c := (Label.num 1 == Label.num 1) = true) (by decide)]
      omega
  obtain ⟨r, e⟩ := h .series v (by simp) hv hcount
  rw [C149_refused .series v [.num 0, .num 1] hv ⟨by decide, fun c => by rw [hmem]; simp⟩ hlen (by decide)] at e
  cases e

/-- Choosing 2 of 3 rows of two classes is refused, 2 of 4 rows not. -/
example :
    classifierStart (some 2) (given .series [.num 0, .num 0, .num 1, .num 1]) =
      .ok ([.num 0, .num 1], .series [.num 0, .num 0, .num 1, .num 1]) ∧
    classifierStart (some 2) (given .series [.num 0, .num 0, .num 1]) = .error .valueError ∧
    classifierStart (some 3) (given .series [.num 0, .num 0, .num 1, .num 1]) = .error .valueError ∧
    classifierStart (some 3) (given .series [.num 0, .num 0, .nan]) =
      .ok ([.num 0, .nan], .series [.num 0, .num 0, .nan]) := by
  refine ⟨?_, ?_, ?_, ?_⟩ <;> rfl

/-! ### Cases of the theorems above -/

/-- `C149_partial`: of four rows of two classes three cannot be sampled by class, two can. -/
example : (∃ r, classifierStart (some 2) (given .series [.num 0, .num 0, .num 1, .num 1]) = .ok r) ∧
    classifierStart (some 3) (given .series [.num 0, .num 0, .num 1, .num 1]) = .error .valueError :=
  have hl : Labels [.num 0, .num 0, .num 1, .num 1] := .inr (by simp)
  have hc : Classes [.num 0, .num 0, .num 1, .num 1] [.num 0, .num 1] := ⟨by decide, by simp⟩
  ⟨(C149_partial .series _ _ 2 nofun hl hc).1.2 (.inr (by decide)),
   (C149_partial .series _ _ 3 nofun hl hc).2 fun h => by
     rcases (C149_partial .series _ _ 3 nofun hl hc).1.1 h with h | h
     · exact absurd h (by decide)
     · exact absurd h.2.2.2 (by decide)⟩

/-- `C149_accepted`, `C149_refused`: ten thousand rows, and one row more. -/
example : (∃ r, classifierStart bestFitSample (given .series (List.replicate 5000 (.num 0) ++ List.replicate 5000 (.num 1))) =
      .ok r) ∧
    classifierStart bestFitSample (given .series (List.replicate 5000 (.num 0) ++ List.replicate 5001 (.num 1))) =
      .error .valueError :=
  have hl : ∀ k, Labels (List.replicate 5000 (.num 0) ++ List.replicate k (.num 1)) := fun k => .inr fun c hc => by
    rcases List.mem_append.1 hc with h | h
    · exact ⟨0, List.eq_of_mem_replicate h⟩
    · exact ⟨1, List.eq_of_mem_replicate h⟩
  have hc : ∀ k, k ≠ 0 → Classes (List.replicate 5000 (.num 0) ++ List.replicate k (.num 1)) [.num 0, .num 1] :=
    fun k hk => ⟨by decide, fun c => by
      rw [List.mem_append, List.mem_replicate, List.mem_replicate, List.mem_cons, List.mem_singleton]
      exact ⟨fun h => h.elim (fun h => .inl ⟨by decide, h⟩) fun h => .inr ⟨hk, h⟩,
        fun h => h.elim (fun h => .inl h.2) fun h => .inr h.2⟩⟩
  ⟨(C149_accepted .series _ _ nofun (hl _) (hc _ (by decide))).1
      (by rw [List.length_append, List.length_replicate, List.length_replicate]),
   C149_refused .series _ _ (hl _) (hc _ (by decide))
      (by rw [List.length_append, List.length_replicate, List.length_replicate]) (by decide)⟩

end Gama
