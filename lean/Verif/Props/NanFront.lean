import Verif.Model.NanFront
import Verif.Lemmas.Nsga2
import Verif.Props.Nsga2

/-! # C176, C177: scores that are not numbers in the population of the evolutionary search -/

namespace Gama
open Spec

/-- `v` is worse than or as good as `u` on every objective, and all values are numbers. -/
def Spec.FloatBelow (v u : List (Option Score)) : Prop :=
  List.Forall₂ (fun a b => ∃ x y, a = some x ∧ b = some y ∧ x ≤ y) v u

/-- All values are numbers. -/
def Spec.AllNumbers (v : List (Option Score)) : Prop := ∀ a ∈ v, a ≠ none

/-- `u` is better than `v` on every objective, and all values are numbers. -/
def Spec.FloatAbove (u v : List (Option Score)) : Prop :=
  List.Forall₂ (fun a b => ∃ x y, a = some x ∧ b = some y ∧ y < x) u v

theorem floatLe_iff (a b : Option Score) : floatLe a b = true ↔ ∃ x y, a = some x ∧ b = some y ∧ x ≤ y := by
  cases a <;> cases b <;> simp [floatLe]

theorem floatGt_iff (a b : Option Score) : floatGt a b = true ↔ ∃ x y, a = some x ∧ b = some y ∧ y < x := by
  cases a <;> cases b <;> simp [floatGt]

theorem floatAllLe_iff {a b : List (Option Score)} (h : a.length = b.length) :
    floatAllLe a b = true ↔ FloatBelow a b := by
  unfold floatAllLe FloatBelow
  induction a generalizing b with
  | nil => cases b with
    | nil => simp
    | cons => simp at h
  | cons x a ih => cases b with
    | nil => simp at h
    | cons y b =>
      simp only [List.zip_cons_cons, List.all_cons, Bool.and_eq_true, List.forall₂_cons, floatLe_iff,
        ih (by simpa using h)]

theorem floatDominates_iff {a b : List (Option Score)} (h : a.length = b.length) :
    floatDominates a b = true ↔ FloatAbove a b := by
  unfold floatDominates FloatAbove
  induction a generalizing b with
  | nil => cases b with
    | nil => simp
    | cons => simp at h
  | cons x a ih => cases b with
    | nil => simp at h
    | cons y b =>
      simp only [List.zip_cons_cons, List.all_cons, Bool.and_eq_true, List.forall₂_cons, floatGt_iff,
        ih (by simpa using h)]

theorem Spec.FloatBelow.trans {a b c : List (Option Score)} (h : FloatBelow a b) (h' : FloatBelow b c) :
    FloatBelow a c := by
  unfold FloatBelow at *
  induction h generalizing c with
  | nil => exact h'
  | cons h _ ih => cases h' with
    | cons h1 h2 =>
      obtain ⟨x, y, rfl, rfl, hxy⟩ := h
      obtain ⟨y', z, he, rfl, hyz⟩ := h1
      injection he with he
      subst he
      exact .cons ⟨x, z, rfl, rfl, le_trans hxy hyz⟩ (ih h2)

theorem Spec.FloatAbove.trans {a b c : List (Option Score)} (h : FloatAbove a b) (h' : FloatAbove b c) :
    FloatAbove a c := by
  unfold FloatAbove at *
  induction h generalizing c with
  | nil => exact h'
  | cons h _ ih => cases h' with
    | cons h1 h2 =>
      obtain ⟨x, y, rfl, rfl, hxy⟩ := h
      obtain ⟨y', z, he, rfl, hyz⟩ := h1
      injection he with he
      subst he
      exact .cons ⟨x, z, rfl, rfl, lt_trans hyz hxy⟩ (ih h2)

theorem Spec.FloatAbove.irrefl {a : List (Option Score)} (hne : a ≠ []) : ¬ FloatAbove a a := by
  intro h
  cases h with
  | nil => exact hne rfl
  | cons h _ =>
    obtain ⟨x, y, h1, h2, h3⟩ := h
    rw [h1] at h2
    injection h2 with h2
    subst h2
    exact lt_irrefl _ h3

theorem Spec.FloatBelow.antisymm {a b : List (Option Score)} (h : FloatBelow a b) (h' : FloatBelow b a) : a = b := by
  unfold FloatBelow at *
  induction h with
  | nil => rfl
  | cons h _ ih => cases h' with
    | cons h1 h2 =>
      obtain ⟨x, y, rfl, rfl, hxy⟩ := h
      obtain ⟨y', x', he, he', hyx⟩ := h1
      injection he with he
      injection he' with he'
      subst he; subst he'
      rw [le_antisymm hxy hyx, ih h2]

theorem Spec.FloatBelow.numbers {a b : List (Option Score)} (h : FloatBelow a b) : AllNumbers a ∧ AllNumbers b := by
  unfold FloatBelow at h
  unfold AllNumbers
  induction h with
  | nil => simp
  | cons h _ ih =>
    obtain ⟨x, y, rfl, rfl, _⟩ := h
    constructor
    · intro o ho
      rcases List.mem_cons.1 ho with rfl | ho
      · simp
      · exact ih.1 o ho
    · intro o ho
      rcases List.mem_cons.1 ho with rfl | ho
      · simp
      · exact ih.2 o ho

theorem floatBelow_inverse {a b : List (Option Score)} :
    FloatBelow (floatInverse a) (floatInverse b) ↔ FloatBelow b a := by
  unfold FloatBelow floatInverse
  rw [List.forall₂_map_left_iff, List.forall₂_map_right_iff]
  have key : ∀ o o' : Option Score, (∃ x y, (o.map fun x => -x) = some x ∧ (o'.map fun x => -x) = some y ∧ x ≤ y) ↔
      ∃ x y, o' = some x ∧ o = some y ∧ x ≤ y := by
    intro o o'
    cases o with
    | none => simp
    | some p =>
      cases o' with
      | none => simp
      | some q => simp [Score.neg_le_neg_iff]
  simp only [key]
  exact ⟨fun h => h.flip, fun h => h.flip⟩

/-! ## The front -/

variable {val : Nat → List (Option Score)}

theorem floatScan_eq {new : Nat} : ∀ (l : List Nat), floatScan val new l =
    if l.any (fun old => floatAllLe (val new) (val old)) then none
    else some (l.filter fun old => floatAllLe (val old) (val new))
  | [] => rfl
  | old :: rest => by
    rw [floatScan, floatScan_eq rest, List.any_cons]
    by_cases h : floatAllLe (val new) (val old) = true
    · simp [h]
    · simp only [h, Bool.false_eq_true, if_false, Bool.false_or]
      by_cases h2 : (rest.any fun old => floatAllLe (val new) (val old)) = true
      · simp [h2]
      · simp only [h2, Bool.false_eq_true, if_false]
        by_cases h3 : floatAllLe (val old) (val new) = true
        · rw [List.filter_cons, if_pos h3, if_pos h3]
        · rw [List.filter_cons, if_neg h3, if_neg h3]

theorem count_foldl_erase (x : Nat) : ∀ (rm l : List Nat), (rm.foldl List.erase l).count x = l.count x - rm.count x
  | [], l => by simp
  | y :: rm, l => by
    rw [List.foldl_cons, count_foldl_erase x rm]
    by_cases h : y = x
    · subst h
      rw [List.count_erase_self, List.count_cons_self]; omega
    · rw [List.count_erase_of_ne (Ne.symm h), List.count_cons_of_ne h]

theorem mem_foldl_erase_filter {p : Nat → Bool} {l : List Nat} {x : Nat} :
    x ∈ (l.filter p).foldl List.erase l ↔ x ∈ l ∧ p x = false := by
  rw [← List.count_pos_iff, count_foldl_erase]
  cases hp : p x with
  | true =>
    rw [List.count_filter hp]
    simp
  | false =>
    have : (l.filter p).count x = 0 := by
      rw [List.count_eq_zero]
      intro hm
      have := (List.mem_filter.1 hm).2
      rw [hp] at this
      exact Bool.false_ne_true this
    rw [this, Nat.sub_zero, List.count_pos_iff]
    simp

/-- What is in a front after some were offered. -/
structure FloatFront (val : Nat → List (Option Score)) (offered front : List Nat) : Prop where
  sub : ∀ x ∈ front, x ∈ offered
  anti : ∀ x ∈ front, ∀ y ∈ front, FloatBelow (val x) (val y) → val x = val y
  covers : ∀ x ∈ offered, x ∈ front ∨ ∃ y ∈ front, FloatBelow (val x) (val y)

theorem floatUpdate_spec {k : Nat} {offered front : List Nat} (hf : FloatFront val offered front) {new : Nat}
    (hk : ∀ x ∈ offered, (val x).length = k) (hn : (val new).length = k) :
    ∃ front', floatUpdate val front new = .ok front' ∧ FloatFront val (new :: offered) front' := by
  cases front with
  | nil =>
    refine ⟨[new], rfl, ?_, ?_, ?_⟩
    · intro x hx; rw [List.mem_singleton.1 hx]; exact List.mem_cons_self
    · intro x hx y hy _; rw [List.mem_singleton.1 hx, List.mem_singleton.1 hy]
    · intro x hx
      rcases List.mem_cons.1 hx with rfl | hx
      · exact .inl (List.mem_singleton.2 rfl)
      · rcases hf.covers x hx with h | ⟨y, h, _⟩ <;> exact absurd h List.not_mem_nil
  | cons first rest =>
    have hlen : ∀ x ∈ first :: rest, (val x).length = (val new).length := fun x hx =>
      (hk x (hf.sub x hx)).trans hn.symm
    have hle : ∀ x ∈ first :: rest, (floatAllLe (val new) (val x) = true ↔ FloatBelow (val new) (val x)) :=
      fun x hx => floatAllLe_iff (hlen x hx).symm
    have hge : ∀ x ∈ first :: rest, (floatAllLe (val x) (val new) = true ↔ FloatBelow (val x) (val new)) :=
      fun x hx => floatAllLe_iff (hlen x hx)
    unfold floatUpdate
    dsimp only
    rw [if_neg (by simpa using hlen first List.mem_cons_self), floatScan_eq]
    by_cases hany : ((first :: rest).any fun old => floatAllLe (val new) (val old)) = true
    · rw [if_pos hany]
      refine ⟨_, rfl, fun x hx => List.mem_cons_of_mem _ (hf.sub x hx), hf.anti, ?_⟩
      intro x hx
      rcases List.mem_cons.1 hx with rfl | hx
      · obtain ⟨y, hy, h⟩ := List.any_eq_true.1 hany
        exact .inr ⟨y, hy, (hle y hy).1 h⟩
      · exact hf.covers x hx
    · rw [if_neg hany]
      have hnot : ∀ y ∈ first :: rest, ¬ FloatBelow (val new) (val y) := fun y hy h =>
        hany (List.any_eq_true.2 ⟨y, hy, (hle y hy).2 h⟩)
      refine ⟨_, rfl, ?_, ?_, ?_⟩
      · intro x hx
        rcases List.mem_append.1 hx with hx | hx
        · exact List.mem_cons_of_mem _ (hf.sub x (mem_foldl_erase_filter.1 hx).1)
        · rw [List.mem_singleton.1 hx]; exact List.mem_cons_self
      · intro x hx y hy hb
        rcases List.mem_append.1 hx with hx | hx <;> rcases List.mem_append.1 hy with hy | hy
        · exact hf.anti x (mem_foldl_erase_filter.1 hx).1 y (mem_foldl_erase_filter.1 hy).1 hb
        · rw [List.mem_singleton.1 hy] at hb
          have h1 := mem_foldl_erase_filter.1 hx
          rw [(hge x h1.1).2 hb] at h1
          exact absurd h1.2 (by simp)
        · rw [List.mem_singleton.1 hx] at hb
          exact absurd hb (hnot y (mem_foldl_erase_filter.1 hy).1)
        · rw [List.mem_singleton.1 hx, List.mem_singleton.1 hy]
      · have keep : ∀ y ∈ first :: rest, y ∈ ((first :: rest).filter fun old =>
            floatAllLe (val old) (val new)).foldl List.erase (first :: rest) ++ [new] ∨ FloatBelow (val y) (val new) := by
          intro y hy
          by_cases h : floatAllLe (val y) (val new) = true
          · exact .inr ((hge y hy).1 h)
          · exact .inl (List.mem_append_left _ (mem_foldl_erase_filter.2 ⟨hy, by simpa using h⟩))
        have hnew : new ∈ ((first :: rest).filter fun old =>
            floatAllLe (val old) (val new)).foldl List.erase (first :: rest) ++ [new] :=
          List.mem_append_right _ (List.mem_singleton.2 rfl)
        intro x hx
        rcases List.mem_cons.1 hx with rfl | hx
        · exact .inl hnew
        · rcases hf.covers x hx with h | ⟨y, hy, hb⟩
          · rcases keep x h with h | h
            · exact .inl h
            · exact .inr ⟨new, hnew, h⟩
          · rcases keep y hy with h | h
            · exact .inr ⟨y, h, hb⟩
            · exact .inr ⟨new, hnew, hb.trans h⟩

theorem floatOffer_spec {k : Nat} : ∀ (items : List Nat) {offered front : List Nat},
    FloatFront val offered front → (∀ x ∈ offered, (val x).length = k) → (∀ x ∈ items, (val x).length = k) →
    ∃ front', floatOffer val items front = .ok front' ∧ FloatFront val (items.reverse ++ offered) front'
  | [], _, front, hf, _, _ => ⟨front, rfl, by simpa using hf⟩
  | x :: items, offered, front, hf, ho, hi => by
    obtain ⟨front₁, h1, h2⟩ := floatUpdate_spec hf ho (hi x List.mem_cons_self)
    obtain ⟨front', h3, h4⟩ := floatOffer_spec items h2
      (by intro y hy; rcases List.mem_cons.1 hy with rfl | hy
          · exact hi y List.mem_cons_self
          · exact ho y hy)
      (fun y hy => hi y (List.mem_cons_of_mem _ hy))
    refine ⟨front', ?_, by simpa using h4⟩
    rw [floatOffer, h1]
    exact h3

/-! ## Elimination -/

/-- The full claim of **C176**: while the score of some member is not a number, no member all of whose values are
numbers is removed. -/
def C176_claim : Prop :=
  ∀ (fit : Nat → List (Option Score)) (pop : List Nat) (k r : Nat), (∀ i ∈ pop, (fit i).length = k) →
    (∃ i ∈ pop, ¬ AllNumbers (fit i)) → ∀ x, floatEliminate fit pop 1 r = .ok [x] → ¬ AllNumbers (fit x)

theorem eliminate_front {fit : Nat → List (Option Score)} {pop : List Nat} {k : Nat} (hne : pop ≠ [])
    (hk : ∀ i ∈ pop, (fit i).length = k) :
    ∃ front, front ≠ [] ∧ FloatFront (fun i => floatInverse (fit i)) pop front ∧
      ∀ r, ∃ x ∈ front, floatEliminate fit pop 1 r = .ok [x] ∧ front[r % front.length]? = some x := by
  obtain ⟨front, h1, h2⟩ := floatOffer_spec (val := fun i => floatInverse (fit i)) (k := k) pop (offered := [])
    (front := []) ⟨by simp, by simp, by simp⟩ (by simp) (fun i hi => by simpa [floatInverse] using hk i hi)
  have h2' : FloatFront (fun i => floatInverse (fit i)) pop front :=
    ⟨fun x hx => by simpa using h2.sub x hx, h2.anti, fun x hx => h2.covers x (by simpa using hx)⟩
  have hfne : front ≠ [] := by
    rintro rfl
    obtain ⟨p, hp⟩ := List.exists_mem_of_ne_nil _ hne
    rcases h2'.covers p hp with h | ⟨y, h, _⟩ <;> exact absurd h List.not_mem_nil
  refine ⟨front, hfne, h2', fun r => ?_⟩
  have hlt : r % front.length < front.length := Nat.mod_lt _ (List.length_pos_of_ne_nil hfne)
  refine ⟨front[r % front.length], List.getElem_mem hlt, ?_, List.getElem?_eq_getElem hlt⟩
  unfold floatEliminate
  rw [if_neg (by simp), h1]
  dsimp only
  rw [List.getElem?_eq_getElem hlt]

/-- **C176**, what is true: from a non-empty population one member is removed, and every member that is worse or
equal on every objective has the same values; every member whose values are not all numbers, and every member of
which no member is strictly worse, may be the one that is removed (is removed for some random number). -/
theorem C176_partial {fit : Nat → List (Option Score)} {pop : List Nat} {k : Nat} (hne : pop ≠ [])
    (hk : ∀ i ∈ pop, (fit i).length = k) :
    (∀ r, ∃ x ∈ pop, floatEliminate fit pop 1 r = .ok [x] ∧ ∀ y ∈ pop, FloatBelow (fit y) (fit x) → fit y = fit x) ∧
    (∀ x ∈ pop, ¬ AllNumbers (fit x) → ∃ r, floatEliminate fit pop 1 r = .ok [x]) ∧
    (∀ x ∈ pop, (∀ y ∈ pop, FloatBelow (fit y) (fit x) → y = x) → ∃ r, floatEliminate fit pop 1 r = .ok [x]) := by
  obtain ⟨front, hfne, hf, hr⟩ := eliminate_front hne hk
  have pick : ∀ x ∈ front, ∃ r, floatEliminate fit pop 1 r = .ok [x] := by
    intro x hx
    obtain ⟨j, hj, rfl⟩ := List.getElem_of_mem hx
    obtain ⟨y, _, h1, h2⟩ := hr j
    refine ⟨j, ?_⟩
    rw [Nat.mod_eq_of_lt hj, List.getElem?_eq_getElem hj] at h2
    injection h2 with h2
    rw [h2]
    exact h1
  refine ⟨fun r => ?_, fun x hx hnan => ?_, fun x hx hmin => ?_⟩
  · obtain ⟨x, hx, h1, _⟩ := hr r
    refine ⟨x, hf.sub x hx, h1, fun y hy hb => ?_⟩
    have hb' : FloatBelow (floatInverse (fit x)) (floatInverse (fit y)) := floatBelow_inverse.2 hb
    rcases hf.covers y hy with hyf | ⟨z, hz, hyz⟩
    · have := hf.anti x hx y hyf hb'
      refine FloatBelow.antisymm hb (floatBelow_inverse.1 ?_)
      rw [← this]; rw [← this] at hb'; exact hb'
    · have he := hf.anti x hx z hz (hb'.trans hyz)
      rw [← he] at hyz
      exact FloatBelow.antisymm hb (floatBelow_inverse.1 hyz)
  · rcases hf.covers x hx with h | ⟨y, _, hb⟩
    · exact pick x h
    · exact absurd (floatBelow_inverse.1 hb).numbers.2 hnan
  · rcases hf.covers x hx with h | ⟨y, hy, hb⟩
    · exact pick x h
    · rw [← hmin y (hf.sub y hy) (floatBelow_inverse.1 hb)]
      exact pick y hy

/-- Nobody is removed from an empty population, and never more or less than one. -/
theorem C176_errors (fit : Nat → List (Option Score)) (pop : List Nat) (n : Int) (r : Nat) :
    floatEliminate fit [] 1 r = .error .indexError ∧ (n ≠ 1 → floatEliminate fit pop n r = .error .notImplemented) :=
  ⟨rfl, fun h => by unfold floatEliminate; rw [if_pos h]⟩

namespace Ex
/-- Three pipelines of equal length: with a good score, with a lower one, and with NaN. -/
def floatFit : Nat → List (Option Score)
  | 0 => [some (.fin 9), some (.fin (-1))]
  | 1 => [some (.fin 5), some (.fin (-1))]
  | _ => [none, some (.fin (-1))]
end Ex

/-- The best pipeline, the only one with a score, is removed and the one with NaN stays. -/
theorem C176_false : ¬ C176_claim := by
  intro h
  have h1 := h Ex.floatFit [0, 2] 2 0 (by decide) ⟨2, by decide, fun h => h none (by decide) rfl⟩ 0 (by rfl)
  refine h1 ?_
  unfold AllNumbers
  decide

/-- With a worse one present the best is not removed. -/
example : ∀ r, floatEliminate Ex.floatFit [0, 1, 2] 1 r ≠ .ok [0] := by
  intro r hr
  obtain ⟨x, _, h1, h2⟩ := (C176_partial (fit := Ex.floatFit) (pop := [0, 1, 2]) (k := 2) (by decide) (by decide)).1 r
  rw [hr] at h1
  injection h1 with h1
  injection h1 with h1
  subst h1
  have := h2 1 (by decide) (.cons ⟨.fin 5, .fin 9, rfl, rfl, by decide⟩ (.cons ⟨.fin (-1), .fin (-1), rfl, rfl, le_rfl⟩ .nil))
  exact absurd this (by decide)

example : ∃ r, floatEliminate Ex.floatFit [0, 1, 2] 1 r = .ok [2] :=
  (C176_partial (fit := Ex.floatFit) (pop := [0, 1, 2]) (k := 2) (by decide) (by decide)).2.1 2 (by decide)
    fun h => h none (by decide) rfl

/-! ## Parents -/

/-- The full claim of **C177**: a member all of whose values are numbers does not lose a tournament to one whose score
is not a number for its rank. -/
def C177_claim : Prop :=
  ∀ (values : List (List (Option Score))) (k : Nat), k ≠ 0 → (∀ v ∈ values, v.length = k) → ∀ rank,
    floatRanks values = .ok rank → ∀ a b, a < values.length → b < values.length →
      AllNumbers (values.getD a []) → ¬ AllNumbers (values.getD b []) → ¬ rank b < rank a

theorem floatSort_spec {values : List (List (Option Score))} {k : Nat} (hk0 : k ≠ 0)
    (hk : ∀ v ∈ values, v.length = k) :
    ∃ fronts s, fastNonDominatedSort (fun p q => floatDominates (values.getD p []) (values.getD q [])) values.length =
        .ok (fronts, s) ∧
      Layering (fun p q => p < values.length ∧ q < values.length ∧ FloatAbove (values.getD p []) (values.getD q []))
        values.length fronts ∧
      (∀ x, InFront fronts 0 x → s.rank x = 1) ∧ (∀ j x, InFront fronts (j + 1) x → s.rank x = j + 1) := by
  have hlen : ∀ p, p < values.length → (values.getD p []).length = k := by
    intro p hp
    rw [List.getD_eq_getElem?_getD, List.getElem?_eq_getElem hp]
    exact hk _ (List.getElem_mem hp)
  have hiff : ∀ p q, (decide (p < values.length) && decide (q < values.length) &&
      floatDominates (values.getD p []) (values.getD q [])) = true ↔
      (p < values.length ∧ q < values.length ∧ FloatAbove (values.getD p []) (values.getD q [])) := by
    intro p q
    simp only [Bool.and_eq_true, decide_eq_true_eq, and_assoc]
    constructor
    · rintro ⟨h1, h2, h3⟩
      exact ⟨h1, h2, (floatDominates_iff ((hlen p h1).trans (hlen q h2).symm)).1 h3⟩
    · rintro ⟨h1, h2, h3⟩
      exact ⟨h1, h2, (floatDominates_iff ((hlen p h1).trans (hlen q h2).symm)).2 h3⟩
  obtain ⟨fronts, s, h1, h2, h3, h4⟩ := fastNonDominatedSort_spec
    (dom := fun p q => decide (p < values.length) && decide (q < values.length) &&
      floatDominates (values.getD p []) (values.getD q [])) values.length
    (fun p => by
      by_contra h
      obtain ⟨hp, _, hd⟩ := (hiff p p).1 (by simpa using h)
      refine FloatAbove.irrefl ?_ hd
      intro he
      have := hlen p hp
      rw [he] at this
      exact hk0 this.symm)
    (fun p q r a b => by
      obtain ⟨x1, x2, x3⟩ := (hiff p q).1 a
      obtain ⟨y1, y2, y3⟩ := (hiff q r).1 b
      exact (hiff p r).2 ⟨x1, y2, x3.trans y3⟩)
  refine ⟨fronts, s, ?_, ?_, h3, h4⟩
  · rw [fastNonDominatedSort_congr (d' := fun p q => decide (p < values.length) && decide (q < values.length) &&
      floatDominates (values.getD p []) (values.getD q [])) (fun p q hp hq => by simp [hp, hq]), h1]
  · refine ⟨h2.partition, ?_, ?_, ?_⟩
    · intro j x y hx hy hd; exact h2.apart j x y hx hy ((hiff x y).2 hd)
    · intro j x hx
      obtain ⟨y, hy, hd⟩ := h2.below j x hx
      exact ⟨y, hy, (hiff y x).1 hd⟩
    · intro j x y hx hy hd; exact h2.above j x y hx hy ((hiff y x).2 hd)

theorem floatRanks_spec {values : List (List (Option Score))} {k : Nat} (hk0 : k ≠ 0)
    (hk : ∀ v ∈ values, v.length = k) :
    ∃ fronts rank, floatRanks values = .ok rank ∧
      Layering (fun p q => p < values.length ∧ q < values.length ∧ FloatAbove (values.getD p []) (values.getD q []))
        values.length fronts ∧
      (∀ x, InFront fronts 0 x → rank x = 1) ∧ (∀ j x, InFront fronts (j + 1) x → rank x = j + 1) := by
  obtain ⟨fronts, s, h1, h2⟩ := floatSort_spec hk0 hk
  exact ⟨fronts, s.rank, by unfold floatRanks; rw [h1], h2⟩

/-- **C177**, what is true: the ranks of any population are found; every member whose score is not a number has the
best rank, one; a member has another rank than one exactly if a member is better than a member that is better than
it (on every objective), and only then it can lose to one whose score is not a number for its rank. -/
theorem C177_partial {values : List (List (Option Score))} {k : Nat} (hk0 : k ≠ 0)
    (hk : ∀ v ∈ values, v.length = k) :
    ∃ rank, floatRanks values = .ok rank ∧ ∀ x < values.length, 1 ≤ rank x ∧
      (¬ AllNumbers (values.getD x []) → rank x = 1) ∧
      (1 < rank x ↔ ∃ y z, y < values.length ∧ z < values.length ∧ FloatAbove (values.getD y []) (values.getD x []) ∧
        FloatAbove (values.getD z []) (values.getD y [])) := by
  obtain ⟨fronts, rank, h1, hL, h3, h4⟩ := floatRanks_spec hk0 hk
  have habove : ∀ {u v : List (Option Score)}, FloatAbove u v → AllNumbers v := by
    intro u v h
    unfold FloatAbove at h
    unfold AllNumbers
    induction h with
    | nil => simp
    | cons h _ ih =>
      obtain ⟨x, y, _, rfl, _⟩ := h
      intro o ho
      rcases List.mem_cons.1 ho with rfl | ho
      · simp
      · exact ih o ho
  refine ⟨rank, h1, fun x hx => ?_⟩
  obtain ⟨j, hj⟩ := (Layering.mem_iff hL x).1 hx
  have hpos : 1 ≤ rank x := by
    cases j with
    | zero => rw [h3 x hj]
    | succ j => rw [h4 j x hj]; omega
  have hiff : 1 < rank x ↔ ∃ y z, y < values.length ∧ z < values.length ∧
      FloatAbove (values.getD y []) (values.getD x []) ∧ FloatAbove (values.getD z []) (values.getD y []) := by
    constructor
    · intro hr
      match j, hj with
      | 0, hj => rw [h3 x hj] at hr; omega
      | 1, hj => rw [h4 0 x hj] at hr; omega
      | j + 2, hj =>
        obtain ⟨y, hy, hd⟩ := hL.below (j + 1) x hj
        obtain ⟨z, _, hd'⟩ := hL.below j y hy
        exact ⟨y, z, hd.1, hd'.1, hd.2.2, hd'.2.2⟩
    · rintro ⟨y, z, hy, hz, hd, hd'⟩
      obtain ⟨i, hij, hi⟩ := hL.above j x y hj hy ⟨hy, hx, hd⟩
      obtain ⟨i', hij', hi'⟩ := hL.above i y z hi hz ⟨hz, hy, hd'⟩
      obtain ⟨j', rfl⟩ : ∃ j', j = j' + 2 := ⟨j - 2, by omega⟩
      rw [h4 (j' + 1) x hj]; omega
  refine ⟨hpos, fun hnan => ?_, hiff⟩
  by_contra hne
  obtain ⟨y, z, _, _, hd, _⟩ := hiff.1 (by omega)
  exact hnan (habove hd)

/-- Where a member whose score is not a number meets one of another rank than one, it wins, however their distances
compare. -/
theorem C177_otherwise {values : List (List (Option Score))} {k : Nat} (hk0 : k ≠ 0)
    (hk : ∀ v ∈ values, v.length = k) {rank : Nat → Nat} (hr : floatRanks values = .ok rank) (wider : Nat → Nat → Bool)
    {a b : Nat} (ha : a < values.length) (hb : b < values.length) (hnan : ¬ AllNumbers (values.getD a []))
    (hchain : ∃ y z, y < values.length ∧ z < values.length ∧ FloatAbove (values.getD y []) (values.getD b []) ∧
      FloatAbove (values.getD z []) (values.getD y [])) :
    floatTournament rank wider a b = a ∧ floatTournament rank wider b a = a := by
  obtain ⟨rank', h1, h2⟩ := C177_partial hk0 hk
  rw [hr] at h1
  injection h1 with h1
  subst h1
  have hra := (h2 a ha).2.1 hnan
  have hrb := (h2 b hb).2.2.2 hchain
  unfold floatTournament floatBetter
  constructor
  · rw [hra]; simp [hrb]
  · have h3 : ¬ rank b < rank a := by omega
    have h4 : rank b ≠ rank a := by omega
    simp [h3, h4]

namespace Ex
/-- Three scores, each with a length that agrees with it, and NaN. -/
def floatValues : List (List (Option Score)) :=
  [[some (.fin 9), some (.fin (-1))], [some (.fin 5), some (.fin (-2))], [some (.fin 1), some (.fin (-3))],
   [none, some (.fin (-3))]]

theorem floatChain : ∃ y z, y < floatValues.length ∧ z < floatValues.length ∧
    FloatAbove (floatValues.getD y []) (floatValues.getD 2 []) ∧
    FloatAbove (floatValues.getD z []) (floatValues.getD y []) :=
  ⟨1, 0, by decide, by decide,
    .cons ⟨.fin 5, .fin 1, rfl, rfl, by decide⟩ (.cons ⟨.fin (-2), .fin (-3), rfl, rfl, by decide⟩ .nil),
    .cons ⟨.fin 9, .fin 5, rfl, rfl, by decide⟩ (.cons ⟨.fin (-1), .fin (-2), rfl, rfl, by decide⟩ .nil)⟩
end Ex

theorem C177_false : ¬ C177_claim := by
  intro h
  obtain ⟨rank, h1, h2⟩ := C177_partial (values := Ex.floatValues) (k := 2) (by decide) (by decide)
  have hn : ¬ AllNumbers (Ex.floatValues.getD 3 []) := fun h => h none (by decide) rfl
  have := h Ex.floatValues 2 (by decide) (by decide) rank h1 2 3 (by decide) (by decide)
    (by unfold AllNumbers; decide) hn
  have h3 := (h2 3 (by decide)).2.1 hn
  have h4 := (h2 2 (by decide)).2.2.2 Ex.floatChain
  omega

example (rank : Nat → Nat) (hr : floatRanks Ex.floatValues = .ok rank) (wider : Nat → Nat → Bool) :
    floatTournament rank wider 3 2 = 3 :=
  (C177_otherwise (k := 2) (by decide) (by decide) hr wider (by decide) (by decide)
    (fun h => h none (by decide) rfl) Ex.floatChain).1

end Gama
