import Verif.Model.Nan
import Verif.Lemmas.Heapq
import Verif.Spec.Library
import Mathlib.Data.List.Lex
import Mathlib.Data.Rat.Defs

/-! # C170: scores that are not numbers -/

namespace Gama
open Spec

section
variable {α K : Type} [LinearOrder K]

/-- All entries of the score are numbers. -/
def Spec.IsNumeric (x : NanEval K) : Prop := ∀ v ∈ x.score, v ≠ none

/-- The score as a tuple of numbers, NaN left out; tuples are compared lexicographically. -/
def Spec.numbers (x : NanEval K) : List K := x.score.filterMap id

/-- The evaluations that ended without an error. -/
def Spec.withoutError (hist : List (NanEval K)) : List (NanEval K) := hist.filter fun x => !x.error

/-- No evaluation whose score is a number is given up for one whose score is not, or is less. -/
def C170_claim : Prop :=
  ∀ (m : Option Nat) (hist : List (NanEval ℚ)), (∀ x ∈ hist, x.score ≠ []) →
    ∀ t ∈ (nanSaveAll m hist).top, ∀ y ∈ (nanSaveAll m hist).other, y.error = false → IsNumeric y →
      IsNumeric t ∧ numbers y ≤ numbers t

theorem nanLt_numeric : ∀ (a b : List K), nanLt (a.map some) (b.map some) = decide (a < b)
  | [], [] => by simp [nanLt]
  | [], b :: bs => by simp [nanLt]
  | a :: as, [] => by simp [nanLt]
  | a :: as, b :: bs => by
    simp only [List.map_cons, nanLt, nanLt_numeric as bs]
    by_cases h : a = b
    · subst h; simp
    · rw [if_neg h]
      simp [List.cons_lt_cons_iff, h]

omit [LinearOrder K] in
theorem numeric_map {x : NanEval K} (h : IsNumeric x) : x.score = (numbers x).map some := by
  unfold Spec.numbers
  unfold Spec.IsNumeric at h
  generalize x.score = l at h ⊢
  induction l with
  | nil => rfl
  | cons v vs ih =>
    cases v with
    | none => exact absurd rfl (h none List.mem_cons_self)
    | some k =>
      rw [List.filterMap_cons_some (show id (some k) = some k from rfl), List.map_cons,
        ← ih fun w hw => h w (List.mem_cons_of_mem _ hw)]

theorem lt_numeric {a b : NanEval K} (ha : IsNumeric a) (hb : IsNumeric b) :
    NanEval.lt a b = decide (numbers a < numbers b) := by
  unfold NanEval.lt
  rw [numeric_map ha, numeric_map hb, nanLt_numeric]

end

section
variable {α K : Type} [LinearOrder K] {lt : α → α → Bool} {key : α → K} {P : α → Prop}

theorem siftDownBy_eq (hl : ∀ a b, P a → P b → lt a b = decide (key a < key b)) {x : α} (hx : P x) :
    ∀ (fuel : Nat) (h : List α) (pos : Nat), (∀ a ∈ h, P a) → siftDownBy lt fuel h pos x = siftDown key fuel h pos x
  | 0, _, _, _ => rfl
  | fuel + 1, h, pos, hh => by
    unfold siftDownBy siftDown
    by_cases hp : 0 < pos
    · rw [if_pos hp, if_pos hp]
      cases hg : h[(pos - 1) / 2]? with
      | none => rfl
      | some p =>
        have hP := hh p (List.mem_of_getElem? hg)
        dsimp only
        rw [hl x p hx hP]
        simp only [decide_eq_true_eq]
        rw [siftDownBy_eq hl hx fuel (h.set pos p) ((pos - 1) / 2) fun a ha => ?_]
        rcases List.mem_or_eq_of_mem_set ha with h' | rfl
        · exact hh a h'
        · exact hP
    · rw [if_neg hp, if_neg hp]

theorem siftHoleBy_eq (hl : ∀ a b, P a → P b → lt a b = decide (key a < key b)) :
    ∀ (fuel : Nat) (h : List α) (pos : Nat), (∀ a ∈ h, P a) →
      siftHoleBy lt fuel h pos = siftHole key fuel h pos ∧ ∀ a ∈ (siftHole key fuel h pos).1, P a
  | 0, _, _, hh => ⟨rfl, hh⟩
  | fuel + 1, h, pos, hh => by
    have hset : ∀ v, P v → ∀ a ∈ h.set pos v, P a := by
      intro v hv a ha
      rcases List.mem_or_eq_of_mem_set ha with h' | rfl
      · exact hh a h'
      · exact hv
    unfold siftHoleBy siftHole
    cases hg : h[2 * pos + 1]? with
    | none => exact ⟨rfl, hh⟩
    | some l =>
      have hPl := hh l (List.mem_of_getElem? hg)
      cases hg' : h[2 * pos + 2]? with
      | none => exact siftHoleBy_eq hl fuel _ _ (hset l hPl)
      | some r =>
        have hPr := hh r (List.mem_of_getElem? hg')
        dsimp only
        rw [hl l r hPl hPr]
        simp only [decide_eq_true_eq]
        by_cases hlr : key l < key r
        · rw [if_pos hlr, if_pos hlr]; exact siftHoleBy_eq hl fuel _ _ (hset l hPl)
        · rw [if_neg hlr, if_neg hlr]; exact siftHoleBy_eq hl fuel _ _ (hset r hPr)

theorem heappushBy_eq (hl : ∀ a b, P a → P b → lt a b = decide (key a < key b)) {h : List α} {x : α}
    (hh : ∀ a ∈ h, P a) (hx : P x) : heappushBy lt h x = heappush key h x := by
  unfold heappushBy heappush
  refine siftDownBy_eq hl hx _ _ _ fun a ha => ?_
  rcases List.mem_append.1 ha with h' | h'
  · exact hh a h'
  · cases List.mem_singleton.1 h'; exact hx

theorem heappushpopBy_eq (hl : ∀ a b, P a → P b → lt a b = decide (key a < key b)) {h : List α} {x : α}
    (hh : ∀ a ∈ h, P a) (hx : P x) : heappushpopBy lt h x = heappushpop key h x := by
  cases h with
  | nil => rfl
  | cons r t =>
    unfold heappushpopBy heappushpop
    dsimp only
    rw [hl r x (hh r List.mem_cons_self) hx]
    simp only [decide_eq_true_eq]
    by_cases hr : key r < key x
    · rw [if_pos hr, if_pos hr]
      obtain ⟨e1, e2⟩ := siftHoleBy_eq hl (r :: t).length (r :: t) 0 hh
      rw [e1]
      unfold siftUp
      dsimp only
      rw [siftDownBy_eq hl hx _ _ _ e2]
    · rw [if_neg hr, if_neg hr]

end

section
variable {K : Type} [LinearOrder K]

omit [LinearOrder K] in
theorem withoutError_append (l : List (NanEval K)) (x : NanEval K) :
    withoutError (l ++ [x]) = if x.error then withoutError l else withoutError l ++ [x] := by
  unfold Spec.withoutError
  rw [List.filter_append]
  cases h : x.error <;> simp [h]

theorem nanSaveAll_snoc (m : Option Nat) (l : List (NanEval K)) (x : NanEval K) :
    nanSaveAll m (l ++ [x]) = nanSave m (nanSaveAll m l) x := by
  simp [nanSaveAll, List.foldl_append]

@[elab_as_elim]
theorem snoc_rec {α : Type} {P : List α → Prop} (h0 : P []) (hs : ∀ l x, P l → P (l ++ [x])) (l : List α) : P l := by
  rw [← List.reverse_reverse l]
  induction l.reverse with
  | nil => exact h0
  | cons x r ih => rw [List.reverse_cons]; exact hs _ _ ih

/-- **C170**, where it holds: if all scores are numbers, the evaluations kept are the `m` best that ended without an
error, or all of them. -/
theorem C170_partial (m : Option Nat) (hist : List (NanEval K)) (hn : ∀ x ∈ hist, IsNumeric x) :
    (∀ k, m = some k → BestOf numbers k (withoutError hist) (nanSaveAll m hist).top) ∧
    (m = none → (nanSaveAll m hist).top.Perm (withoutError hist)) ∧
    ((nanSaveAll m hist).top ++ (nanSaveAll m hist).other).Perm hist := by
  suffices H : IsHeap numbers (nanSaveAll m hist).top ∧
      (∀ t ∈ (nanSaveAll m hist).top, t.error = false) ∧
      ((nanSaveAll m hist).top ++ (nanSaveAll m hist).other).Perm hist ∧
      (∀ k, m = some k → (nanSaveAll m hist).top.length ≤ k) ∧
      (∀ y ∈ (nanSaveAll m hist).other, y.error = false → (∃ k, m = some k ∧ (nanSaveAll m hist).top.length = k) ∧
        ∀ t ∈ (nanSaveAll m hist).top, numbers y ≤ numbers t) by
    obtain ⟨_, h2, h3, h4, h5⟩ := H
    have hp : ((nanSaveAll m hist).top ++ withoutError (nanSaveAll m hist).other).Perm (withoutError hist) := by
      have := h3.filter fun x => !x.error
      rw [List.filter_append, List.filter_eq_self.2 fun t ht => by simp [h2 t ht]] at this
      exact this
    refine ⟨fun k hk => ⟨_, hp, ?_, fun t ht y hy => ?_⟩, fun hm => ?_, h3⟩
    · have hl := hp.length_eq
      rw [List.length_append] at hl
      have h4' := h4 k hk
      cases hf : withoutError (nanSaveAll m hist).other with
      | nil => rw [hf] at hl; simp at hl; omega
      | cons y ys =>
        have hy : y ∈ withoutError (nanSaveAll m hist).other := by rw [hf]; simp
        obtain ⟨hy1, hy2⟩ := List.mem_filter.1 hy
        obtain ⟨⟨k', e, hl'⟩, _⟩ := h5 y hy1 (by simpa using hy2)
        rw [hk] at e; cases e
        omega
    · obtain ⟨hy1, hy2⟩ := List.mem_filter.1 hy
      exact (h5 y hy1 (by simpa using hy2)).2 t ht
    · have hnil : withoutError (nanSaveAll m hist).other = [] := by
        refine List.filter_eq_nil_iff.2 fun y hy he => ?_
        obtain ⟨⟨k, e, _⟩, _⟩ := h5 y hy (by simpa using he)
        rw [hm] at e; cases e
      rw [hnil, List.append_nil] at hp
      exact hp
  induction hist using snoc_rec with
  | h0 =>
    exact ⟨isHeap_nil, fun t ht => (by cases ht), List.Perm.refl _, fun k _ => Nat.zero_le _, fun y hy => (by cases hy)⟩
  | hs l x ih =>
    obtain ⟨h1, h2, h3, h4, h5⟩ := ih fun y hy => hn y (List.mem_append_left _ hy)
    have hx : IsNumeric x := hn x (by simp)
    have htop : ∀ a ∈ (nanSaveAll m l).top, IsNumeric a := fun a ha =>
      hn a (List.mem_append_left _ (h3.mem_iff.1 (List.mem_append_left _ ha)))
    rw [nanSaveAll_snoc]
    unfold nanSave
    cases he : x.error with
    | true =>
      simp only [if_true]
      refine ⟨h1, h2, ?_, h4, fun y hy hye => ?_⟩
      · rw [← List.append_assoc]
        exact h3.append_right [x]
      · rcases List.mem_append.1 hy with hy | hy
        · exact h5 y hy hye
        · cases List.mem_singleton.1 hy
          rw [he] at hye; cases hye
    | false =>
      simp only [Bool.false_eq_true, if_false]
      by_cases hr : hasRoom m (nanSaveAll m l).top.length = true
      · rw [if_pos hr]
        rw [heappushBy_eq (key := numbers) (fun a b ha hb => (lt_numeric ha hb).trans (decide_eq_decide.2 Iff.rfl)) htop hx]
        obtain ⟨g1, g2⟩ := heappush_spec h1 x
        refine ⟨g1, fun t ht => ?_, ?_, fun k hk => ?_, fun y hy hye => ?_⟩
        · rcases List.mem_cons.1 (g2.mem_iff.1 ht) with rfl | ht
          · exact he
          · exact h2 t ht
        · refine (g2.append_right _).trans ?_
          exact (h3.cons x).trans (List.perm_append_singleton x l).symm
        · rw [g2.length_eq]
          rw [hk] at hr
          simp [hasRoom] at hr
          rw [hk]
          simp
          omega
        · obtain ⟨⟨k, hk, hl⟩, _⟩ := h5 y hy hye
          rw [hk] at hr hl
          simp [hasRoom] at hr
          omega
      · rw [if_neg hr]
        rw [heappushpopBy_eq (key := numbers) (fun a b ha hb => (lt_numeric ha hb).trans (decide_eq_decide.2 Iff.rfl)) htop hx]
        have hfull : ∃ k, m = some k ∧ (nanSaveAll m l).top.length = k := by
          cases hm : m with
          | none => rw [hm] at hr; simp [hasRoom] at hr
          | some k =>
            refine ⟨k, rfl, ?_⟩
            have := h4 k hm
            rw [hm] at hr this
            simp [hasRoom] at hr
            omega
        rcases heappushpop_spec h1 x with ⟨e, hmin⟩ | ⟨r, h', e, hlt, hrm, hmin, hh', hperm⟩
        · rw [e]
          refine ⟨h1, h2, ?_, h4, fun y hy hye => ?_⟩
          · rw [← List.append_assoc]
            exact h3.append_right [x]
          · rcases List.mem_append.1 hy with hy | hy
            · exact h5 y hy hye
            · cases List.mem_singleton.1 hy
              exact ⟨hfull, hmin⟩
        · rw [e]
          have hlen : h'.length = (nanSaveAll m l).top.length := by
            have := hperm.length_eq
            simpa using this
          have hmem : ∀ a ∈ h', a = x ∨ a ∈ (nanSaveAll m l).top := fun a ha =>
            List.mem_cons.1 (hperm.mem_iff.1 (List.mem_cons_of_mem _ ha))
          refine ⟨hh', fun t ht => ?_, ?_, fun k hk => by rw [hlen]; exact h4 k hk, fun y hy hye => ⟨?_, fun t ht => ?_⟩⟩
          · rcases hmem t ht with rfl | ht
            · exact he
            · exact h2 t ht
          · have : (h' ++ ((nanSaveAll m l).other ++ [r])).Perm ((r :: h') ++ (nanSaveAll m l).other) := by
              rw [← List.append_assoc]
              exact List.perm_append_singleton r _
            refine this.trans ((hperm.append_right _).trans ?_)
            exact (h3.cons x).trans (List.perm_append_singleton x l).symm
          · rw [hlen]; exact hfull
          · rcases List.mem_append.1 hy with hy | hy
            · obtain ⟨_, hb⟩ := h5 y hy hye
              rcases hmem t ht with rfl | ht
              · exact le_trans (hb r hrm) (le_of_lt hlt)
              · exact hb t ht
            · cases List.mem_singleton.1 hy
              rcases hmem t ht with rfl | ht
              · exact le_of_lt hlt
              · exact hmin t ht

/-! ### A first score that is not a number -/

theorem nanLt_nan_left (as bs : List (Option K)) : nanLt (none :: as) bs = false := by
  cases bs with
  | nil => rfl
  | cons b bs => cases b <;> rfl

theorem nanLt_nan_right (a : Option K) (as bs : List (Option K)) : nanLt (a :: as) (none :: bs) = false := by
  cases a <;> rfl

theorem siftDownBy_root {α : Type} {lt : α → α → Bool} {x r : α} (hlt : lt x r = false) :
    ∀ (fuel : Nat) (h : List α) (pos : Nat), 0 < pos → h[0]? = some r → (siftDownBy lt fuel h pos x)[0]? = some r
  | 0, h, pos, hp, h0 => by
    unfold siftDownBy
    rw [List.getElem?_set_ne (by omega)]
    exact h0
  | fuel + 1, h, pos, hp, h0 => by
    unfold siftDownBy
    rw [if_pos hp]
    have hset : ∀ v, (h.set pos v)[0]? = some r := fun v => by rw [List.getElem?_set_ne (by omega)]; exact h0
    cases hg : h[(pos - 1) / 2]? with
    | none => exact hset x
    | some p =>
      dsimp only
      by_cases hq : (pos - 1) / 2 = 0
      · rw [hq, h0] at hg
        cases hg
        rw [hlt, if_neg (by simp)]
        exact hset x
      · split
        · exact siftDownBy_root hlt fuel _ _ (by omega) (hset p)
        · exact hset x

theorem siftDownBy_perm {α : Type} {lt : α → α → Bool} {x : α} :
    ∀ (fuel : Nat) (h : List α) (pos : Nat), pos < h.length → (siftDownBy lt fuel h pos x).Perm (h.set pos x)
  | 0, h, pos, hp => List.Perm.refl _
  | fuel + 1, h, pos, hp => by
    unfold siftDownBy
    by_cases h0 : 0 < pos
    · rw [if_pos h0]
      cases hg : h[(pos - 1) / 2]? with
      | none => exact List.Perm.refl _
      | some p =>
        dsimp only
        split
        · have hj : (pos - 1) / 2 < h.length := by omega
          refine (siftDownBy_perm fuel (h.set pos p) ((pos - 1) / 2) (by simpa using hj)).trans ?_
          have hv : h[(pos - 1) / 2] = p := by
            rw [List.getElem?_eq_getElem hj] at hg; exact Option.some.inj hg
          subst hv
          have e := set_set_perm hp hj (by omega) h[(pos - 1) / 2] x
          rwa [set_same (by omega) (List.getElem?_eq_getElem hj)] at e
        · exact List.Perm.refl _
    · rw [if_neg h0]

/-- **C170**, what a score that is not a number does: if the main score of the first evaluation saved is NaN, the
evaluations kept are the first `m` that ended without an error, whatever follows. -/
theorem C170_frozen (m : Nat) (hm : 0 < m) (first : NanEval K) (rest : List (NanEval K)) (he : first.error = false)
    (hnan : ∃ s, first.score = none :: s) (hs : ∀ x ∈ rest, x.score ≠ []) :
    (nanSaveAll (some m) (first :: rest)).top.Perm ((withoutError (first :: rest)).take m) := by
  obtain ⟨s, hsc⟩ := hnan
  have hleft : ∀ x : NanEval K, NanEval.lt first x = false := fun x => by
    unfold NanEval.lt; rw [hsc]; exact nanLt_nan_left _ _
  have hright : ∀ x : NanEval K, x.score ≠ [] → NanEval.lt x first = false := fun x hx => by
    unfold NanEval.lt
    rw [hsc]
    cases hxs : x.score with
    | nil => exact absurd hxs hx
    | cons a as => exact nanLt_nan_right _ _ _
  suffices H : (nanSaveAll (some m) (first :: rest)).top[0]? = some first ∧
      (nanSaveAll (some m) (first :: rest)).top.Perm ((withoutError (first :: rest)).take m) from H.2
  induction rest using snoc_rec with
  | h0 =>
    have e : nanSaveAll (some m) [first] = ⟨[first], []⟩ := by
      unfold nanSaveAll
      simp only [List.foldl_cons, List.foldl_nil]
      unfold nanSave
      rw [he]
      simp only [Bool.false_eq_true, if_false]
      rw [if_pos (by simpa [hasRoom] using hm)]
      rfl
    have e' : withoutError [first] = [first] := by unfold Spec.withoutError; simp [he]
    rw [e, e']
    refine ⟨rfl, ?_⟩
    rw [List.take_of_length_le (by simp; omega)]
  | hs l x ih =>
    obtain ⟨h0, hp⟩ := ih fun y hy => hs y (List.mem_append_left _ hy)
    have hx := hs x (by simp)
    rw [← List.cons_append, nanSaveAll_snoc, withoutError_append]
    unfold nanSave
    cases hxe : x.error with
    | true => simp only [if_true]; exact ⟨h0, hp⟩
    | false =>
      simp only [Bool.false_eq_true, if_false]
      have hlen := hp.length_eq
      rw [List.length_take] at hlen
      have hpos : 0 < (nanSaveAll (some m) (first :: l)).top.length := by
        rcases Nat.eq_zero_or_pos (nanSaveAll (some m) (first :: l)).top.length with h | h
        · rw [List.eq_nil_of_length_eq_zero h] at h0; cases h0
        · exact h
      by_cases hr : hasRoom (some m) (nanSaveAll (some m) (first :: l)).top.length = true
      · rw [if_pos hr]
        simp [hasRoom] at hr
        refine ⟨?_, ?_⟩
        · refine siftDownBy_root (hright x hx) _ _ _ hpos ?_
          rw [List.getElem?_append_left hpos]
          exact h0
        · unfold heappushBy
          refine (siftDownBy_perm _ _ _ (by simp)).trans ?_
          rw [show ((nanSaveAll (some m) (first :: l)).top ++ [x]).set (nanSaveAll (some m) (first :: l)).top.length x =
            (nanSaveAll (some m) (first :: l)).top ++ [x] by simp]
          rw [List.take_of_length_le (by simp; omega)]
          rw [List.take_of_length_le (by omega)] at hp
          exact hp.append_right [x]
      · rw [if_neg hr]
        simp [hasRoom] at hr
        have hpop : heappushpopBy NanEval.lt (nanSaveAll (some m) (first :: l)).top x =
            (x, (nanSaveAll (some m) (first :: l)).top) := by
          cases ht : (nanSaveAll (some m) (first :: l)).top with
          | nil => rfl
          | cons r t =>
            rw [ht] at h0
            cases h0
            unfold heappushpopBy
            dsimp only
            rw [hleft x, if_neg (by simp)]
        rw [hpop]
        refine ⟨h0, ?_⟩
        rw [List.take_append_of_le_length (by omega)]
        exact hp

end

namespace Ex

/-- An evaluation with the score NaN and length one, then one with 9/10. -/
def nanFirst : List (NanEval ℚ) := [⟨0, [none, some (-1)], false⟩, ⟨1, [some (9/10), some (-2)], false⟩]

/-- Three evaluations without an error and one with. -/
def threeNumbers : List (NanEval ℚ) :=
  [⟨0, [some (1/2), some (-1)], false⟩, ⟨1, [], true⟩, ⟨2, [some (9/10), some (-2)], false⟩, ⟨3, [some (1/2), some (-3)], false⟩]

end Ex

/-- **C170 is false**: of two evaluations, the first of which has not a number for its score, that one is kept. -/
theorem C170_false : ¬ C170_claim := by
  intro h
  have := h (some 1) Ex.nanFirst (by decide) ⟨0, [none, some (-1)], false⟩ (by decide +kernel)
    ⟨1, [some (9/10), some (-2)], false⟩ (by decide +kernel) rfl (by unfold Spec.IsNumeric; decide)
  exact this.1 none (by decide) rfl

/-- `C170_partial`: three evaluations, of which the best two are kept. -/
example : BestOf numbers 2 (withoutError Ex.threeNumbers) (nanSaveAll (some 2) Ex.threeNumbers).top :=
  (C170_partial (some 2) Ex.threeNumbers (by unfold Spec.IsNumeric; decide)).1 2 rfl

/-- `C170_frozen`: whatever is evaluated later, with a library of 200 models. -/
example (rest : List (NanEval ℚ)) (hs : ∀ x ∈ rest, x.score ≠ []) :
    (nanSaveAll (some 200) (⟨0, [none, some (-1)], false⟩ :: rest)).top.Perm
      ((withoutError (⟨0, [none, some (-1)], false⟩ :: rest)).take 200) :=
  C170_frozen 200 (by omega) _ rest rfl ⟨_, rfl⟩ hs

end Gama
