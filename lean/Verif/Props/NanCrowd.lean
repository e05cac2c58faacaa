import Verif.Model.NanCrowd
import Verif.Props.NanFront

/-! # C179: parents are chosen where scores are not numbers -/

namespace Gama
open Spec PyM

/-- `sorted` gives the elements it was given, in some order. -/
def Spec.Reorders (srt : (Nat → Nat → Bool) → List Nat → List Nat) : Prop := ∀ lt l, (srt lt l).Perm l

theorem floatSub_zero {a b : Option Score} (h : floatSub a b = some (.fin 0)) : floatEq a b = true := by
  unfold floatSub floatNeg at h
  match a, b with
  | none, none | none, some _ | some _, none => simp [floatAdd] at h
  | some (.fin x), some (.fin y) =>
    have h' : some (Score.fin (x + -y)) = some (Score.fin 0) := h
    have : x + -y = 0 := by simpa using h'
    have hxy : x = y := by linarith
    simp [floatEq, hxy]
  | some .pinf, some .pinf | some .pinf, some .ninf | some .pinf, some (.fin _) | some .ninf, some .pinf
  | some .ninf, some .ninf | some .ninf, some (.fin _) | some (.fin _), some .pinf | some (.fin _), some .ninf =>
    exact absurd h (by intro h; cases h)

theorem floatDiv_ok (a : Option Score) {b : Option Score} (h : b ≠ some (.fin 0)) : ∃ c, floatDiv a b = .ok c := by
  unfold floatDiv
  split
  · exact absurd rfl h
  all_goals exact ⟨_, rfl⟩

theorem floatGaps_ok {val : Nat → Option Score} {range : Option Score} (h : range ≠ some (.fin 0)) :
    ∀ (l : List Nat) (d : Nat → Option Score), ∃ d', floatGaps val range l d = .ok d'
  | [], d => ⟨d, rfl⟩
  | [_], d => ⟨d, rfl⟩
  | [_, _], d => ⟨d, rfl⟩
  | a :: b :: c :: rest, d => by
    obtain ⟨g, hg⟩ := floatDiv_ok (floatSub (val c) (val a)) h
    obtain ⟨d', hd⟩ := floatGaps_ok h (b :: c :: rest) (upd d b (floatAdd (d b) g))
    refine ⟨d', ?_⟩
    rw [floatGaps, hg]
    exact hd

theorem floatCrowdStep_ok {val : Nat → Option Score} {l : List Nat} (hl : l ≠ []) (d : Nat → Option Score) :
    ∃ d', floatCrowdStep val l d = .ok d' := by
  obtain ⟨x, l, rfl⟩ := List.exists_cons_of_ne_nil hl
  unfold floatCrowdStep
  dsimp only
  split
  · exact ⟨_, rfl⟩
  · rename_i h
    simp only [Bool.or_eq_true, not_or] at h
    exact floatGaps_ok (fun h0 => h.1.1 (floatSub_zero h0)) _ _

theorem floatCrowdLoop_ok {srt : (Nat → Nat → Bool) → List Nat → List Nat} (hs : Reorders srt)
    {vals : Nat → List (Option Score)} : ∀ (k m : Nat) (l : List Nat) (d : Nat → Option Score), l ≠ [] →
    ∃ d', floatCrowdLoop srt vals k m l d = .ok d'
  | 0, _, _, d, _ => ⟨d, rfl⟩
  | k + 1, m, l, d, hl => by
    have hne : srt (fun a b => floatLt ((vals a).getD m none) ((vals b).getD m none)) l ≠ [] := fun h =>
      hl (List.Perm.nil_eq (h ▸ hs _ l)).symm
    obtain ⟨d₁, h1⟩ := floatCrowdStep_ok (val := fun i => (vals i).getD m none) hne d
    obtain ⟨d', h2⟩ := floatCrowdLoop_ok hs k (m + 1) _ d₁ hne
    refine ⟨d', ?_⟩
    rw [floatCrowdLoop]
    dsimp only
    rw [h1]
    exact h2

theorem floatSelectLoop_ok {srt : (Nat → Nat → Bool) → List Nat → List Nat} (hs : Reorders srt)
    {vals : Nat → List (Option Score)} {rank : Nat → Nat} {n : Nat} :
    ∀ (fronts : List (List Nat)) (sel : List Nat) (d : Nat → Option Score), Gapless fronts → sel.length ≤ n →
    n ≤ sel.length + fronts.flatten.length →
    ∃ order d', floatSelectLoop srt vals rank n fronts sel d = .ok (order, d') ∧ order.length = n ∧
      ∃ rest, (order ++ rest).Perm (sel ++ fronts.flatten)
  | [], sel, d, _, h1, h2 => by
    simp at h2
    refine ⟨sel, d, ?_, by omega, [], by simp⟩
    unfold floatSelectLoop
    rw [if_neg (by omega)]
  | f :: fs, sel, d, hg, h1, h2 => by
    by_cases hlt : sel.length < n
    · have hf : f ≠ [] := by
        intro hf
        rw [hf, List.flatten_cons, hg.1 hf] at h2
        simp at h2; omega
      obtain ⟨x, f', rfl⟩ := List.exists_cons_of_ne_nil hf
      obtain ⟨d₁, hcd⟩ : ∃ d₁, floatCrowding srt vals (x :: f') d = .ok d₁ :=
        floatCrowdLoop_ok hs (vals x).length 0 (x :: f') d hf
      by_cases hfit : sel.length + (x :: f').length < n
      · obtain ⟨order, d', g1, g2, rest, g3⟩ := floatSelectLoop_ok (vals := vals) (rank := rank) (n := n) hs fs
          (sel ++ (x :: f')) d₁ hg.2 (by rw [List.length_append]; omega)
          (by rw [List.flatten_cons, List.length_append] at h2; rw [List.length_append]; omega)
        refine ⟨order, d', ?_, g2, rest, by simpa using g3⟩
        unfold floatSelectLoop
        rw [if_pos hlt, hcd]
        dsimp only
        rw [if_pos hfit]
        exact g1
      · generalize hS : srt (floatBetter rank (floatWider d₁)) (x :: f') = S
        have hperm : S.Perm (x :: f') := hS ▸ hs _ _
        have htake : (sel ++ S.take (n - sel.length)).length = n := by
          rw [List.length_append, List.length_take, hperm.length_eq]; omega
        have hend : ∀ fs, floatSelectLoop srt vals rank n fs (sel ++ S.take (n - sel.length)) d₁
            = .ok (sel ++ S.take (n - sel.length), d₁) := by
          intro fs
          cases fs <;> (unfold floatSelectLoop; rw [if_neg (by omega)])
        refine ⟨_, d₁, ?_, htake, S.drop (n - sel.length) ++ fs.flatten, ?_⟩
        · unfold floatSelectLoop
          rw [if_pos hlt, hcd]
          dsimp only
          rw [if_neg hfit, hS]
          exact hend fs
        · rw [List.append_assoc, ← List.append_assoc (S.take _), List.take_append_drop, List.flatten_cons]
          exact (hperm.append_right _).append_left _
    · refine ⟨sel, d, ?_, by omega, (f :: fs).flatten, .refl _⟩
      unfold floatSelectLoop
      rw [if_neg (by omega)]

/-- Selection of any number of members succeeds and selects that many different members. -/
theorem floatNsga2_ok {srt : (Nat → Nat → Bool) → List Nat → List Nat} (hs : Reorders srt)
    {values : List (List (Option Score))} {k : Nat} (hk0 : k ≠ 0) (hk : ∀ v ∈ values, v.length = k) {n : Nat}
    (hn0 : n ≠ 0) (hn : n ≤ values.length) :
    ∃ order rank d, floatNsga2 srt values n = .ok (order, rank, d) ∧ floatRanks values = .ok rank ∧ order.length = n ∧
      order.Nodup ∧ ∀ x ∈ order, x < values.length := by
  obtain ⟨fronts, s, h1, hL, _⟩ := floatSort_spec hk0 hk
  have hflen : fronts.flatten.length = values.length := by rw [hL.partition.length_eq, List.length_range]
  obtain ⟨order, d, h2, h3, rest, h4⟩ := floatSelectLoop_ok (vals := fun i => values.getD i []) (rank := s.rank)
    (n := n) hs fronts [] (fun _ => some (.fin 0)) (Layering.gapless hL.below) (by simp) (by simp [hflen]; exact hn)
  have hp : (order ++ rest).Perm (List.range values.length) := h4.trans (by simpa using hL.partition)
  refine ⟨order, s.rank, d, ?_, ?_, h3, (List.nodup_append.1 (hp.nodup_iff.2 List.nodup_range)).1,
    fun x hx => List.mem_range.1 (hp.mem_iff.1 (List.mem_append_left _ hx))⟩
  · unfold floatNsga2
    rw [if_neg (by omega)]
    dsimp only
    rw [h1]
    dsimp only
    rw [h2]
  · unfold floatRanks
    rw [h1]

section
variable {σ : Type} [HasRand σ]

theorem wp_floatSelectOne {order : List Nat} {rank : Nat → Nat} {d : Nat → Option Score} (hnd : order.Nodup)
    (hlen : 3 ≤ order.length) (exclude : Option Nat) (s : σ) :
    wp (floatSelectOne order rank d exclude) (fun x _ => x ∈ order ∧ some x ≠ exclude ∧
      ∃ y ∈ order, y ≠ x ∧ some y ≠ exclude ∧ rank x ≤ rank y) (fun _ _ => False) s := by
  unfold floatSelectOne
  rw [wp_bind]
  refine wp_mono ?_ (fun _ _ h => h) (wp_sample (P := fun _ : σ => True) (fun _ _ => trivial) 3 order s trivial hlen)
  rintro r s' ⟨⟨h1, rest, h2⟩, _⟩
  obtain ⟨a, b, e, rfl⟩ : ∃ a b e, r = [a, b, e] := by
    match r, h1 with
    | [a, b, e], _ => exact ⟨a, b, e, rfl⟩
  have hnd' : [a, b, e].Nodup := (List.nodup_append.1 (h2.nodup_iff.2 hnd)).1
  have hm : ∀ x ∈ [a, b, e], x ∈ order := fun x hx => h2.mem_iff.1 (List.mem_append_left _ hx)
  have hkey : ∃ x y, ([a, b, e].filter fun s => some s ≠ exclude).take 2 = [x, y] ∧
      x ∈ [a, b, e] ∧ y ∈ [a, b, e] ∧ some x ≠ exclude ∧ some y ≠ exclude ∧ x ≠ y := by
    simp only [List.nodup_cons, List.mem_cons, List.not_mem_nil, or_false, not_or] at hnd'
    by_cases ha : some a = exclude
    · subst ha
      have hb : b ≠ a := fun h => hnd'.1.1 h.symm
      have hd : e ≠ a := fun h => hnd'.1.2 h.symm
      exact ⟨b, e, by simp [hb, hd], by simp, by simp, by simpa using hb, by simpa using hd, hnd'.2.1⟩
    · by_cases hb : some b = exclude
      · subst hb
        have hd : e ≠ b := fun h => hnd'.2.1 h.symm
        exact ⟨a, e, by simp [hd, hnd'.1.1], by simp, by simp, ha, by simpa using hd, hnd'.1.2⟩
      · exact ⟨a, b, by simp [ha, hb], by simp, by simp, ha, hb, hnd'.1.1⟩
  obtain ⟨x, y, h, hx, hy, hx', hy', hxy⟩ := hkey
  rw [h]
  refine wp_pure.2 ?_
  unfold floatTournament
  split
  · rename_i hc
    unfold floatBetter at hc
    simp only [Bool.or_eq_true, Bool.and_eq_true, decide_eq_true_eq] at hc
    exact ⟨hm x hx, hx', y, hm y hy, hxy.symm, hy', by omega⟩
  · rename_i hc
    unfold floatBetter at hc
    simp only [Bool.or_eq_true, Bool.and_eq_true, decide_eq_true_eq, not_or, not_and] at hc
    exact ⟨hm y hy, hy', x, hm x hx, hxy, hx', by omega⟩

theorem wp_floatPairs {order : List Nat} {rank : Nat → Nat} {d : Nat → Option Score} (hnd : order.Nodup)
    (hlen : 3 ≤ order.length) : ∀ (n : Nat) (s : σ), wp (floatPairs order rank d n)
      (fun ps _ => ps.length = n ∧ ∀ p ∈ ps, p.1 ∈ order ∧ p.2 ∈ order ∧ p.1 ≠ p.2 ∧
        (∃ y ∈ order, y ≠ p.1 ∧ rank p.1 ≤ rank y) ∧ ∃ y ∈ order, y ≠ p.1 ∧ y ≠ p.2 ∧ rank p.2 ≤ rank y)
      (fun _ _ => False) s
  | 0, s => ⟨rfl, by simp⟩
  | n + 1, s => by
    unfold floatPairs
    rw [wp_bind]
    refine wp_mono ?_ (fun _ _ h => h) (wp_floatSelectOne hnd hlen none s)
    rintro x s₁ ⟨hx, _, u, hu, hux, _, hur⟩
    rw [wp_bind]
    refine wp_mono ?_ (fun _ _ h => h) (wp_floatSelectOne hnd hlen (some x) s₁)
    rintro y s₂ ⟨hy, hne, v, hv, hvy, hvx, hvr⟩
    rw [wp_bind]
    refine wp_mono ?_ (fun _ _ h => h) (wp_floatPairs hnd hlen n s₂)
    rintro ps s₃ ⟨h1, h2⟩
    refine wp_pure.2 ⟨by simp [h1], ?_⟩
    intro p hp
    rcases List.mem_cons.1 hp with rfl | hp
    · exact ⟨hx, hy, fun h => hne (by simp only at h; rw [h]), ⟨u, hu, hux, hur⟩, v, hv, fun h => hvx (by rw [h]), hvy,
        hvr⟩
    · exact h2 p hp

/-- **C179.** From a population of at least three, whose values may be NaN or infinite, the number of pairs of parents
asked for is chosen, without an exception; each pair is of two different members.  Each parent was preferred to
another member (the second to one that is not the first parent), which is not of better rank. -/
theorem C179_parents {srt : (Nat → Nat → Bool) → List Nat → List Nat} (hs : Reorders srt)
    {values : List (List (Option Score))} {k : Nat} (hk0 : k ≠ 0) (hk : ∀ v ∈ values, v.length = k) (n : Nat) (s : σ)
    (hlen : 3 ≤ values.length) :
    ∃ ps s' rank, floatNsga2Select srt values n s = (.ok ps, s') ∧ floatRanks values = .ok rank ∧ ps.length = n ∧
      ∀ p ∈ ps, p.1 < values.length ∧ p.2 < values.length ∧ p.1 ≠ p.2 ∧
        (∃ y < values.length, y ≠ p.1 ∧ rank p.1 ≤ rank y) ∧
        ∃ y < values.length, y ≠ p.1 ∧ y ≠ p.2 ∧ rank p.2 ≤ rank y := by
  obtain ⟨order, rank, d, h1, h2, h3, h4, h5⟩ := floatNsga2_ok hs hk0 hk (n := values.length) (by omega) le_rfl
  have hw := wp_floatPairs (rank := rank) (d := d) h4 (by omega) n s
  cases hr : (floatPairs order rank d n : PyM σ _) s with
  | mk r s' =>
    cases r with
    | error e => exact (wp_error hw hr).elim
    | ok ps =>
      obtain ⟨g1, g2⟩ := wp_ok hw hr
      refine ⟨ps, s', rank, ?_, h2, g1, fun p hp => ?_⟩
      · unfold floatNsga2Select
        rw [if_neg (by omega), h1]
        exact hr
      · obtain ⟨a1, a2, a3, ⟨y, b1, b2, b3⟩, z, c1, c2, c3, c4⟩ := g2 p hp
        exact ⟨h5 _ a1, h5 _ a2, a3, ⟨y, h5 _ b1, b2, b3⟩, z, h5 _ c1, c2, c3, c4⟩

/-- Smaller populations are refused. -/
theorem C179_few (srt : (Nat → Nat → Bool) → List Nat → List Nat) (values : List (List (Option Score))) (n : Nat)
    (s : σ) (hlen : values.length < 3) : floatNsga2Select srt values n s = (.error .valueError, s) := by
  unfold floatNsga2Select
  rw [if_pos hlen]
  rfl

end

/-- Selection, as C17: as many different members as asked for. -/
theorem C179_selection {srt : (Nat → Nat → Bool) → List Nat → List Nat} (hs : Reorders srt)
    {values : List (List (Option Score))} {k : Nat} (hk0 : k ≠ 0) (hk : ∀ v ∈ values, v.length = k) {n : Nat} :
    (n ≠ 0 → n ≤ values.length → ∃ order rank d, floatNsga2 srt values n = .ok (order, rank, d) ∧ order.length = n ∧
      order.Nodup ∧ ∀ x ∈ order, x < values.length) ∧
    (n = 0 ∨ values.length < n → floatNsga2 srt values n = .error .valueError) := by
  refine ⟨fun h0 h => ?_, fun h => by unfold floatNsga2; rw [if_pos h]⟩
  obtain ⟨order, rank, d, h1, _, h3⟩ := floatNsga2_ok hs hk0 hk h0 h
  exact ⟨order, rank, d, h1, h3⟩

/-- Four members, one with NaN for its score, sorted by insertion of each before the first it is not greater than. -/
example (s : Stream) : ∃ ps s', floatNsga2Select (fun lt => pySorted fun a b => !lt b a) Ex.floatValues 5 s =
    (.ok ps, s') ∧ ps.length = 5 := by
  obtain ⟨ps, s', _, h, _, h', _⟩ := C179_parents (srt := fun lt => pySorted fun a b => !lt b a)
    (fun _ _ => pySorted_perm _ _) (values := Ex.floatValues) (k := 2) (by decide) (by decide) 5 s (by decide)
  exact ⟨ps, s', h, h'⟩

example : ∃ order rank d, floatNsga2 (fun lt => pySorted fun a b => !lt b a) Ex.floatValues 3 = .ok (order, rank, d) ∧
    order.length = 3 := by
  obtain ⟨order, rank, d, h1, h2, _⟩ := (C179_selection (srt := fun lt => pySorted fun a b => !lt b a)
    (fun _ _ => pySorted_perm _ _) (values := Ex.floatValues) (k := 2) (by decide) (by decide) (n := 3)).1 (by decide)
    (by decide)
  exact ⟨order, rank, d, h1, h2⟩

end Gama
