import Verif.Model.NanRung
import Verif.Spec.Sort
import Mathlib.Data.List.Perm.Basic

/-! # C180: scores that are not numbers on a rung of successive halving -/

namespace Gama
open Spec

/-- The evaluations of the rung that may be promoted. -/
def Spec.Waiting (individuals promoted : List RungScore) (x : RungScore) : Prop := x ∈ individuals ∧ x ∉ promoted

/-- `x` has a score, and no evaluation that may be promoted has a greater one. -/
def Spec.BestScored (individuals promoted : List RungScore) (x : RungScore) : Prop :=
  ∃ s, x.score = some s ∧ ∀ y, Waiting individuals promoted y → ∀ t, y.score = some t → t ≤ s

/-- The full claim of **C180**: if some evaluation that may be promoted has a score, the one promoted has the best. -/
def C180_claim : Prop :=
  ∀ (rf : Nat) (ord : List RungScore → List RungScore), (∀ l, (ord l).Perm l) →
    ∀ (individuals promoted : List RungScore), (∃ y, Waiting individuals promoted y ∧ y.score ≠ none) →
      ∀ x, rungPromotion rf ord individuals promoted = some x → BestScored individuals promoted x

theorem maxScore_mem : ∀ (xs : List RungScore) (best : RungScore), maxScore best xs = best ∨ maxScore best xs ∈ xs
  | [], _ => .inl rfl
  | x :: xs, best => by
    rw [maxScore]
    rcases maxScore_mem xs (if floatGt x.score best.score then x else best) with h | h
    · rw [h]
      split
      · exact .inr List.mem_cons_self
      · exact .inl rfl
    · exact .inr (List.mem_cons_of_mem _ h)

theorem maxScore_some : ∀ (xs : List RungScore) (best : RungScore) (s : Score), best.score = some s →
    ∃ t, (maxScore best xs).score = some t ∧ s ≤ t ∧ ∀ y ∈ xs, ∀ u, y.score = some u → u ≤ t
  | [], best, s, h => ⟨s, h, le_rfl, by simp⟩
  | x :: xs, best, s, h => by
    rw [maxScore]
    cases hx : x.score with
    | none =>
      have : floatGt none best.score = false := rfl
      rw [this, if_neg Bool.false_ne_true]
      obtain ⟨t, h1, h2, h3⟩ := maxScore_some xs best s h
      refine ⟨t, h1, h2, fun y hy u hu => ?_⟩
      rcases List.mem_cons.1 hy with rfl | hy
      · rw [hx] at hu; cases hu
      · exact h3 y hy u hu
    | some v =>
      rw [h]
      have hg : floatGt (some v) (some s) = decide (s < v) := rfl
      rw [hg]
      by_cases hsv : s < v
      · rw [if_pos (by simpa using hsv)]
        obtain ⟨t, h1, h2, h3⟩ := maxScore_some xs x v hx
        refine ⟨t, h1, le_trans (le_of_lt hsv) h2, fun y hy u hu => ?_⟩
        rcases List.mem_cons.1 hy with rfl | hy
        · rw [hx] at hu; injection hu with hu; rw [← hu]; exact h2
        · exact h3 y hy u hu
      · rw [if_neg (by simpa using hsv)]
        obtain ⟨t, h1, h2, h3⟩ := maxScore_some xs best s h
        refine ⟨t, h1, h2, fun y hy u hu => ?_⟩
        rcases List.mem_cons.1 hy with rfl | hy
        · rw [hx] at hu; injection hu with hu; rw [← hu]; exact le_trans (not_lt.1 hsv) h2
        · exact h3 y hy u hu

theorem maxScore_none : ∀ (xs : List RungScore) (best : RungScore), best.score = none → maxScore best xs = best
  | [], _, _ => rfl
  | x :: xs, best, h => by
    have hg : floatGt x.score best.score = false := by rw [h]; cases x.score <;> rfl
    rw [maxScore, hg, if_neg Bool.false_ne_true, maxScore_none xs best h]

theorem rungPromotion_cases {rf : Nat} {ord : List RungScore → List RungScore} {individuals promoted : List RungScore}
    {x : RungScore} (h : rungPromotion rf ord individuals promoted = some x) :
    promoted.length < individuals.length / rf ∧
      ∃ y ys, ord (individuals.filter fun x => x ∉ promoted) = y :: ys ∧ x = maxScore y ys := by
  unfold rungPromotion at h
  split at h
  · rename_i hlt
    refine ⟨by omega, ?_⟩
    split at h
    · cases h
    · rename_i y ys he
      injection h with h
      exact ⟨y, ys, he, h.symm⟩
  · cases h

/-- **C180**, what is true: the evaluation promoted is one of the rung that was not promoted before, and the number of
those promoted stays at most the part of the rung that is to be promoted.  If the first evaluation that the set gives
has a score, then the one promoted has one, and none that may be promoted has a greater. -/
theorem C180_partial {rf : Nat} {ord : List RungScore → List RungScore} (ho : ∀ l, (ord l).Perm l)
    {individuals promoted : List RungScore} {x : RungScore}
    (h : rungPromotion rf ord individuals promoted = some x) :
    Waiting individuals promoted x ∧ (promoted ++ [x]).length ≤ individuals.length / rf ∧
      ((∃ y s, (ord (individuals.filter fun x => x ∉ promoted)).head? = some y ∧ y.score = some s) →
        BestScored individuals promoted x) := by
  obtain ⟨hlt, y, ys, he, rfl⟩ := rungPromotion_cases h
  have hmem : ∀ z, z ∈ y :: ys ↔ Waiting individuals promoted z := by
    intro z
    rw [← he, (ho _).mem_iff, List.mem_filter]
    simp [Waiting]
  refine ⟨(hmem _).1 ?_, by rw [List.length_append, List.length_singleton]; omega, ?_⟩
  · rcases maxScore_mem ys y with h' | h'
    · rw [h']; exact List.mem_cons_self
    · exact List.mem_cons_of_mem _ h'
  · rintro ⟨y', s, hy', hs⟩
    rw [he] at hy'
    injection hy' with hy'
    subst hy'
    obtain ⟨t, h1, h2, h3⟩ := maxScore_some ys _ s hs
    refine ⟨t, h1, fun z hz u hu => ?_⟩
    rcases List.mem_cons.1 ((hmem z).2 hz) with rfl | hz
    · rw [hs] at hu; injection hu with hu; rw [← hu]; exact h2
    · exact h3 z hz u hu

/-- If the first one's score is not a number it is promoted, whatever the scores of the others. -/
theorem C180_otherwise {rf : Nat} {ord : List RungScore → List RungScore} {individuals promoted : List RungScore}
    {y : RungScore} (hlt : promoted.length < individuals.length / rf)
    (hy : (ord (individuals.filter fun x => x ∉ promoted)).head? = some y) (hn : y.score = none) :
    rungPromotion rf ord individuals promoted = some y := by
  unfold rungPromotion
  rw [if_pos (by omega)]
  cases he : ord (individuals.filter fun x => x ∉ promoted) with
  | nil => rw [he] at hy; cases hy
  | cons z zs =>
    rw [he] at hy
    injection hy with hy
    subst hy
    show some (maxScore z zs) = some z
    rw [maxScore_none zs z hn]

/-- An evaluation is promoted whenever more are to be, and there is one that was not. -/
theorem C180_promotes {rf : Nat} {ord : List RungScore → List RungScore} (ho : ∀ l, (ord l).Perm l)
    {individuals promoted : List RungScore} :
    (rungPromotion rf ord individuals promoted).isSome ↔
      promoted.length < individuals.length / rf ∧ ∃ y, Waiting individuals promoted y := by
  constructor
  · intro h
    obtain ⟨x, hx⟩ := Option.isSome_iff_exists.1 h
    exact ⟨(rungPromotion_cases hx).1, x, (C180_partial ho hx).1⟩
  · rintro ⟨hlt, y, hy⟩
    unfold rungPromotion
    rw [if_pos (by omega)]
    have hm : y ∈ ord (individuals.filter fun x => x ∉ promoted) := by
      rw [(ho _).mem_iff, List.mem_filter]
      exact ⟨hy.1, by simpa using hy.2⟩
    cases he : ord (individuals.filter fun x => x ∉ promoted) with
    | nil => rw [he] at hm; exact absurd hm List.not_mem_nil
    | cons z zs => rfl

namespace Ex
/-- Three evaluations, one with NaN. -/
def nanRung : List RungScore := [⟨0, none⟩, ⟨1, some (.fin 5)⟩, ⟨2, some (.fin 9)⟩]
end Ex

/-- The set gives the evaluation with NaN first: it is promoted. -/
theorem C180_false : ¬ C180_claim := by
  intro h
  obtain ⟨s, hs, _⟩ := h 3 id (fun l => .refl l) Ex.nanRung [] ⟨⟨2, some (.fin 9)⟩, ⟨by decide, by decide⟩, by decide⟩
    ⟨0, none⟩ (C180_otherwise (by decide) rfl rfl)
  cases hs

/-- In the other order the best one is. -/
example : ∃ x, rungPromotion 3 List.reverse Ex.nanRung [] = some x ∧ BestScored Ex.nanRung [] x := by
  have hi : (rungPromotion 3 List.reverse Ex.nanRung []).isSome :=
    (C180_promotes (ord := List.reverse) List.reverse_perm).2 ⟨by decide, ⟨0, none⟩, by decide, by decide⟩
  obtain ⟨x, hx⟩ := Option.isSome_iff_exists.1 hi
  exact ⟨x, hx, (C180_partial List.reverse_perm hx).2.2 ⟨⟨2, some (.fin 9)⟩, .fin 9, rfl, rfl⟩⟩

end Gama
