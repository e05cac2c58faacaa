import Verif.Model.Nsga2
import Verif.Spec.Sort
import Mathlib.Data.List.Count
import Mathlib.Data.List.Range
import Mathlib.Data.List.Nodup

/-! # Lemmas about the non-dominated sort -/

namespace Gama
open Spec

theorem upd_same {β : Type} (f : Nat → β) (i : Nat) (v : β) : upd f i v i = v := by simp [upd]

theorem upd_ne {β : Type} (f : Nat → β) {i j : Nat} (v : β) (h : j ≠ i) : upd f i v j = f j := by
  simp [upd, h]

/-! ## Counting -/

/-- Processing the pairs of `l`: counters and dominating lists, for an asymmetric relation. -/
theorem foldl_countStep {dom : Nat → Nat → Bool}
    (hasym : ∀ p q, dom p q = true → dom q p = false) :
    ∀ (l : List (Nat × Nat)) (s : SortState),
    (l.foldl (countStep dom) s).rank = s.rank ∧
    (∀ q, (l.foldl (countStep dom) s).counter q = s.counter q
      + (l.countP (fun pq => (pq.2 == q && dom pq.1 pq.2) || (pq.1 == q && dom pq.2 pq.1)) : Nat)) ∧
    (∀ p, (l.foldl (countStep dom) s).dominating p = s.dominating p
      ++ l.filterMap (fun pq => if pq.1 = p ∧ dom pq.1 pq.2 = true then some pq.2
          else if pq.2 = p ∧ dom pq.2 pq.1 = true then some pq.1 else none))
  | [], s => by simp
  | (p, q) :: l, s => by
    obtain ⟨h1, h2, h3⟩ := foldl_countStep hasym l (countStep dom s (p, q))
    simp only [List.foldl_cons]
    refine ⟨h1.trans ?_, fun x => (h2 x).trans ?_, fun x => (h3 x).trans ?_⟩
    · unfold countStep; split <;> [rfl; (split <;> rfl)]
    · rw [List.countP_cons]
      unfold countStep
      dsimp only
      by_cases hpq : dom p q = true
      · have hqp := hasym p q hpq
        by_cases hx : q = x
        · subst hx; simp [hpq, upd_same]; omega
        · have : x ≠ q := fun h => hx h.symm
          simp [hpq, upd_ne _ _ this, hx, hqp]
      · by_cases hqp : dom q p = true
        · by_cases hx : p = x
          · subst hx; simp [hqp, hpq, upd_same]; omega
          · have : x ≠ p := fun h => hx h.symm
            simp [hpq, hqp, upd_ne _ _ this, hx]
        · simp [hpq, hqp]
    · unfold countStep
      dsimp only
      by_cases hpq : dom p q = true
      · have hqp := hasym p q hpq
        by_cases hx : p = x
        · subst hx; simp [hpq, upd_same]
        · have : x ≠ p := fun h => hx h.symm
          simp [hpq, upd_ne _ _ this, hx, hqp]
      · by_cases hqp : dom q p = true
        · by_cases hx : q = x
          · subst hx; simp [hqp, hpq, upd_same]
          · have : x ≠ q := fun h => hx h.symm
            simp [hpq, hqp, upd_ne _ _ this, hx]
        · simp [hpq, hqp]

/-- Over all pairs, `x` is counted once per dominator. -/
theorem countP_combinations2 {dom : Nat → Nat → Bool} (hirr : ∀ p, dom p p = false)
    (hasym : ∀ p q, dom p q = true → dom q p = false) (x : Nat) :
    ∀ l : List Nat, l.Nodup → x ∈ l →
    (combinations2 l).countP (fun pq => (pq.2 == x && dom pq.1 pq.2) || (pq.1 == x && dom pq.2 pq.1))
      = l.countP (fun p => dom p x) := by
  have hnot : ∀ l : List Nat, x ∉ l → (combinations2 l).countP
      (fun pq => (pq.2 == x && dom pq.1 pq.2) || (pq.1 == x && dom pq.2 pq.1)) = 0 := by
    intro l
    induction l with
    | nil => simp [combinations2]
    | cons a l ih =>
      intro hx
      simp only [List.mem_cons, not_or] at hx
      rw [combinations2, List.countP_append, ih hx.2, List.countP_map, Nat.add_zero,
        List.countP_eq_zero]
      intro b hb
      have h1 : b ≠ x := fun h => hx.2 (h ▸ hb)
      have h2 : a ≠ x := fun h => hx.1 h.symm
      simp [h1, h2]
  intro l
  induction l with
  | nil => simp
  | cons a l ih =>
    intro hnd hx
    obtain ⟨ha, hnd⟩ := List.nodup_cons.1 hnd
    rw [combinations2, List.countP_append, List.countP_map, List.countP_cons]
    rcases List.mem_cons.1 hx with rfl | hx
    · rw [hnot l ha]
      simp only [hirr, Bool.false_eq_true, if_false, Nat.add_zero]
      refine List.countP_congr (fun b hb => ?_)
      have h1 : b ≠ x := fun h => ha (h ▸ hb)
      simp [h1]
    · rw [ih hnd hx, Nat.add_comm]
      congr 1
      have hax : a ≠ x := fun h => ha (h ▸ hx)
      have : ((fun pq : Nat × Nat => (pq.2 == x && dom pq.1 pq.2) || (pq.1 == x && dom pq.2 pq.1)) ∘
          fun y => (a, y)) = fun y => y == x && dom a x := by
        funext y
        by_cases hy : y = x
        · subst hy; simp [hax]
        · have h1 : (y == x) = false := by simpa using hy
          have h2 : (a == x) = false := by simpa using hax
          simp [h1, h2]
      rw [this]
      by_cases hd : dom a x = true
      · have hc := List.count_eq_one_of_mem hnd hx
        simp only [hd, Bool.and_true, if_true]
        exact hc
      · simp [hd]

/-- Over all pairs, the dominating list of `x` holds each member it dominates once. -/
theorem filterMap_combinations2 {dom : Nat → Nat → Bool} (hirr : ∀ p, dom p p = false)
    (hasym : ∀ p q, dom p q = true → dom q p = false) (x : Nat) :
    ∀ l : List Nat, l.Nodup → ∀ L, L = (combinations2 l).filterMap (fun pq =>
        if pq.1 = x ∧ dom pq.1 pq.2 = true then some pq.2
        else if pq.2 = x ∧ dom pq.2 pq.1 = true then some pq.1 else none) →
      L.Nodup ∧ ∀ y, y ∈ L ↔ x ∈ l ∧ y ∈ l ∧ dom x y = true := by
  intro l
  induction l with
  | nil => intro _ L hL; subst hL; simp [combinations2]
  | cons a l ih =>
    intro hnd0 L hL
    obtain ⟨ha, hnd⟩ := List.nodup_cons.1 hnd0
    clear hnd0
    obtain ⟨ih1, ih2⟩ := ih hnd _ rfl
    rw [combinations2, List.filterMap_append, List.filterMap_map] at hL
    by_cases hax : a = x
    · subst hax
      have e1 : l.filterMap ((fun pq : Nat × Nat =>
          if pq.1 = a ∧ dom pq.1 pq.2 = true then some pq.2
          else if pq.2 = a ∧ dom pq.2 pq.1 = true then some pq.1 else none) ∘ fun y => (a, y))
          = l.filter (fun y => dom a y) := by
        rw [← List.filterMap_eq_filter]
        refine List.filterMap_congr (fun y hy => ?_)
        have : y ≠ a := fun h => ha (h ▸ hy)
        by_cases hd : dom a y = true
        · simp [hd, Option.guard]
        · simp [hd, Option.guard, this]
      have e2 : (combinations2 l).filterMap (fun pq =>
          if pq.1 = a ∧ dom pq.1 pq.2 = true then some pq.2
          else if pq.2 = a ∧ dom pq.2 pq.1 = true then some pq.1 else none) = [] := by
        rw [List.eq_nil_iff_forall_not_mem]
        intro y hy
        exact ha ((ih2 y).1 hy).1
      rw [e1, e2, List.append_nil] at hL
      subst hL
      refine ⟨hnd.filter _, fun y => ?_⟩
      simp only [List.mem_filter, List.mem_cons, true_or, true_and]
      constructor
      · rintro ⟨h1, h2⟩; exact ⟨Or.inr h1, h2⟩
      · rintro ⟨rfl | h1, h2⟩
        · rw [hirr] at h2; simp at h2
        · exact ⟨h1, h2⟩
    · have e1 : l.filterMap ((fun pq : Nat × Nat =>
          if pq.1 = x ∧ dom pq.1 pq.2 = true then some pq.2
          else if pq.2 = x ∧ dom pq.2 pq.1 = true then some pq.1 else none) ∘ fun y => (a, y))
          = if x ∈ l ∧ dom x a = true then [a] else [] := by
        clear ih ih1 ih2 hL
        induction l with
        | nil => simp
        | cons b l ihl =>
          obtain ⟨hb, hnd⟩ := List.nodup_cons.1 hnd
          simp only [List.mem_cons, not_or] at ha
          rw [List.filterMap_cons, ihl ha.2 hnd]
          by_cases hbx : b = x
          · subst hbx
            by_cases hd : dom b a = true <;> simp [hax, hd, hb]
          · have : x ≠ b := fun h => hbx h.symm
            simp [hax, hbx, this]
      rw [e1] at hL
      subst hL
      by_cases hc : x ∈ l ∧ dom x a = true
      · rw [if_pos hc]
        refine ⟨?_, fun y => ?_⟩
        · rw [List.singleton_append, List.nodup_cons]
          exact ⟨fun h => ha ((ih2 a).1 h).2.1, ih1⟩
        · rw [List.singleton_append, List.mem_cons, ih2]
          simp only [List.mem_cons, hc.1, or_true, true_and]
          constructor
          · rintro (rfl | h)
            · exact ⟨Or.inl rfl, hc.2⟩
            · exact ⟨Or.inr h.1, h.2⟩
          · rintro ⟨rfl | h, h'⟩
            · exact Or.inl rfl
            · exact Or.inr ⟨h, h'⟩
      · rw [if_neg hc]
        refine ⟨ih1, fun y => ?_⟩
        rw [List.nil_append, ih2]
        have hxa : x ≠ a := fun h => hax h.symm
        simp only [List.mem_cons, hxa, false_or]
        constructor
        · rintro ⟨h1, h2, h3⟩; exact ⟨h1, Or.inr h2, h3⟩
        · rintro ⟨h1, rfl | h2, h3⟩
          · exact absurd ⟨h1, h3⟩ hc
          · exact ⟨h1, h2, h3⟩

/-! ## The first front -/

theorem foldl_firstStep : ∀ (l : List Nat) (s : SortState) (f : List Nat),
    ∃ s', l.foldl firstStep (s, f) = (s', f ++ l.filter (fun p => decide (s.counter p = 0))) ∧
      s'.counter = s.counter ∧ s'.dominating = s.dominating ∧
      ∀ x, s'.rank x = if x ∈ l ∧ s.counter x = 0 then 1 else s.rank x
  | [], s, f => ⟨s, by simp, rfl, rfl, by simp⟩
  | p :: l, s, f => by
    rw [List.foldl_cons]
    by_cases hp : s.counter p = 0
    · obtain ⟨s', h1, h2, h3, h4⟩ := foldl_firstStep l { s with rank := upd s.rank p 1 } (f ++ [p])
      refine ⟨s', ?_, h2, h3, fun x => ?_⟩
      · rw [show firstStep (s, f) p = ({ s with rank := upd s.rank p 1 }, f ++ [p]) by
          simp [firstStep, hp], h1]
        simp [hp]
      · rw [h4 x]
        by_cases hxl : x ∈ l
        · by_cases hxp : x = p
          · subst hxp; simp [hxl, hp]
          · simp [hxl, hxp, upd_ne]
        · by_cases hxp : x = p
          · subst hxp; simp [hxl, hp, upd_same]
          · simp [hxl, hxp, upd_ne]
    · obtain ⟨s', h1, h2, h3, h4⟩ := foldl_firstStep l s f
      refine ⟨s', ?_, h2, h3, fun x => ?_⟩
      · rw [show firstStep (s, f) p = (s, f) by simp [firstStep, hp], h1]
        simp [hp]
      · rw [h4 x]
        by_cases hxp : x = p
        · subst hxp; simp [hp]
        · simp [hxp]

/-! ## Releasing the members dominated by a front -/

theorem foldl_releaseStep (i : Nat) : ∀ (E : List Nat) (s : SortState) (f : List Nat),
    (∀ q, (E.count q : Int) ≤ s.counter q) →
    ∃ s' g, E.foldl (releaseStep i) (s, f) = (s', f ++ g) ∧ g.Nodup ∧
      (∀ q, q ∈ g ↔ q ∈ E ∧ s.counter q = E.count q) ∧
      (∀ q, s'.counter q = s.counter q - E.count q) ∧ s'.dominating = s.dominating ∧
      (∀ q, s'.rank q = if q ∈ g then i + 1 else s.rank q)
  | [], s, f, _ => ⟨s, [], by simp, by simp, by simp, by simp, rfl, by simp⟩
  | e :: E, s, f, h => by
    have hle : ∀ q, (E.count q : Int) ≤ upd s.counter e (s.counter e - 1) q := by
      intro q
      by_cases hq : q = e
      · subst hq; rw [upd_same]; have := h q; rw [List.count_cons_self] at this; push_cast at this
        omega
      · rw [upd_ne _ _ hq]; have := h q
        rwa [List.count_cons_of_ne (fun h => hq h.symm)] at this
    rw [List.foldl_cons]
    by_cases h0 : s.counter e - 1 = 0
    · have hE : e ∉ E := by
        intro hm
        have h1 := hle e
        rw [upd_same, h0] at h1
        have := List.count_pos_iff.2 hm
        omega
      obtain ⟨s', g, g1, g2, g3, g4, g5, g6⟩ := foldl_releaseStep i E
        { s with counter := upd s.counter e (s.counter e - 1), rank := upd s.rank e (i + 1) }
        (f ++ [e]) hle
      dsimp only at g3 g4 g5 g6
      refine ⟨s', e :: g, ?_, ?_, ?_, ?_, g5, ?_⟩
      · rw [show releaseStep i (s, f) e = ({ s with
            counter := upd s.counter e (s.counter e - 1), rank := upd s.rank e (i + 1) }, f ++ [e]) by
          simp [releaseStep, upd_same, h0], g1]
        simp
      · rw [List.nodup_cons]
        exact ⟨fun hm => hE ((g3 e).1 hm).1, g2⟩
      · intro q
        rw [List.mem_cons, g3, List.mem_cons]
        by_cases hq : q = e
        · subst hq
          simp only [true_or, true_and, true_iff, List.count_cons_self, List.count_eq_zero.2 hE]
          omega
        · simp only [hq, false_or, upd_ne _ _ hq,
            List.count_cons_of_ne (fun h : e = q => hq h.symm)]
      · intro q
        rw [g4]
        by_cases hq : q = e
        · subst hq; rw [upd_same, List.count_cons_self]; push_cast; omega
        · rw [upd_ne _ _ hq, List.count_cons_of_ne (fun h => hq h.symm)]
      · intro q
        rw [g6]
        by_cases hq : q = e
        · subst hq
          simp [upd_same]
        · simp [hq, upd_ne]
    · obtain ⟨s', g, g1, g2, g3, g4, g5, g6⟩ := foldl_releaseStep i E
        { s with counter := upd s.counter e (s.counter e - 1) } f hle
      dsimp only at g3 g4 g5 g6
      refine ⟨s', g, ?_, g2, ?_, ?_, g5, g6⟩
      · rw [show releaseStep i (s, f) e = ({ s with
            counter := upd s.counter e (s.counter e - 1) }, f) by
          simp [releaseStep, upd_same, h0], g1]
      · intro q
        rw [g3, List.mem_cons]
        by_cases hq : q = e
        · subst hq
          rw [upd_same, List.count_cons_self]
          push_cast
          constructor
          · rintro ⟨h1, h2⟩; exact ⟨Or.inl rfl, by omega⟩
          · rintro ⟨_, h2⟩
            have h3 : s.counter q - 1 = (E.count q : Int) := by omega
            refine ⟨?_, h3⟩
            by_contra hn
            rw [List.count_eq_zero.2 hn] at h3
            exact h0 (by simpa using h3)
        · simp only [hq, false_or, upd_ne _ _ hq,
            List.count_cons_of_ne (fun h : e = q => hq h.symm)]
      · intro q
        rw [g4]
        by_cases hq : q = e
        · subst hq; rw [upd_same, List.count_cons_self]; push_cast; omega
        · rw [upd_ne _ _ hq, List.count_cons_of_ne (fun h => hq h.symm)]

theorem releaseStep_dominating (i : Nat) (sf : SortState × List Nat) (q : Nat) :
    (releaseStep i sf q).1.dominating = sf.1.dominating := by
  unfold releaseStep; dsimp only; split <;> rfl

theorem foldl_releaseStep_dominating (i : Nat) (E : List Nat) (sf : SortState × List Nat) :
    (E.foldl (releaseStep i) sf).1.dominating = sf.1.dominating := by
  induction E generalizing sf with
  | nil => rfl
  | cons e E ih => rw [List.foldl_cons, ih, releaseStep_dominating]

theorem foldl_release_flat (i : Nat) (dl : Nat → List Nat) : ∀ (front : List Nat)
    (sf : SortState × List Nat), sf.1.dominating = dl →
    front.foldl (fun sf p => (sf.1.dominating p).foldl (releaseStep i) sf) sf
      = (front.flatMap dl).foldl (releaseStep i) sf
  | [], _, _ => rfl
  | p :: front, sf, h => by
    rw [List.foldl_cons, foldl_release_flat i dl front, List.flatMap_cons, List.foldl_append, h]
    rw [foldl_releaseStep_dominating, h]

theorem releaseFront_eq (i : Nat) (s : SortState) (front : List Nat) :
    releaseFront i s front = (front.flatMap s.dominating).foldl (releaseStep i) (s, []) :=
  foldl_release_flat i s.dominating front (s, []) rfl

theorem count_flatMap_nodup (dl : Nat → List Nat) (hdl : ∀ p, (dl p).Nodup) (q : Nat) :
    ∀ front : List Nat, (front.flatMap dl).count q = front.countP (fun p => decide (q ∈ dl p))
  | [] => by simp
  | p :: front => by
    rw [List.flatMap_cons, List.count_append, count_flatMap_nodup dl hdl q front, List.countP_cons,
      Nat.add_comm]
    congr 1
    by_cases hq : q ∈ dl p
    · rw [List.count_eq_one_of_mem (hdl p) hq]; simp [hq]
    · rw [List.count_eq_zero.2 hq]; simp [hq]

/-! ## The while loop -/

/-- Invariant at the head of the while loop: `done` are the members of the fronts before the
current one. -/
structure LoopInv (dom : Nat → Nat → Bool) (n : Nat) (done front : List Nat) (s : SortState) :
    Prop where
  nodup : (done ++ front).Nodup
  range : ∀ x ∈ done ++ front, x < n
  counter : ∀ q, q < n →
    s.counter q = ((List.range n).countP (fun p => dom p q && decide (p ∉ done)) : Nat)
  outside : ∀ q, ¬ q < n → s.counter q = 0
  dlist : ∀ p, (s.dominating p).Nodup ∧
    ∀ q, q ∈ s.dominating p ↔ p < n ∧ q < n ∧ dom p q = true
  /-- placed exactly when all dominators are done -/
  placed : ∀ q, q < n → (q ∈ done ++ front ↔ ∀ p, p < n → dom p q = true → p ∈ done)

theorem LoopInv.step {dom : Nat → Nat → Bool} {n : Nat} {done front : List Nat} {s : SortState}
    (h : LoopInv dom n done front s) (i : Nat) :
    ∃ s' next, releaseFront i s front = (s', next) ∧ LoopInv dom n (done ++ front) next s' ∧
      (∀ q ∈ next, ∃ p ∈ front, dom p q = true) ∧
      (∀ q, s'.rank q = if q ∈ next then i + 1 else s.rank q) := by
  have hfr : ∀ x ∈ front, x < n := fun x hx => h.range x (by simp [hx])
  have hcount : ∀ q, q < n → (front.flatMap s.dominating).count q
      = front.countP (fun p => dom p q) := by
    intro q hq
    rw [count_flatMap_nodup s.dominating (fun p => (h.dlist p).1)]
    refine List.countP_congr (fun p hp => ?_)
    rw [decide_eq_true_iff, (h.dlist p).2 q]
    simp [hfr p hp, hq]
  have hmem : ∀ q, q ∈ front.flatMap s.dominating ↔ q < n ∧ ∃ p ∈ front, dom p q = true := by
    intro q
    rw [List.mem_flatMap]
    constructor
    · rintro ⟨p, hp, hq⟩
      obtain ⟨_, h2, h3⟩ := ((h.dlist p).2 q).1 hq
      exact ⟨h2, p, hp, h3⟩
    · rintro ⟨hq, p, hp, hd⟩
      exact ⟨p, hp, ((h.dlist p).2 q).2 ⟨hfr p hp, hq, hd⟩⟩
  -- splitting the unprocessed dominators
  have hsplit : ∀ q, (List.range n).countP (fun p => dom p q && decide (p ∉ done))
      = (List.range n).countP (fun p => dom p q && decide (p ∉ done ++ front))
        + front.countP (fun p => dom p q) := by
    intro q
    have e1 : front.countP (fun p => dom p q)
        = (List.range n).countP (fun p => dom p q && decide (p ∈ front)) := by
      have hfn : front.Nodup := (List.nodup_append.1 h.nodup).2.1
      rw [List.countP_eq_length_filter, List.countP_eq_length_filter]
      refine List.Perm.length_eq ?_
      refine (List.perm_ext_iff_of_nodup (hfn.filter _) (List.nodup_range.filter _)).2 (fun p => ?_)
      simp only [List.mem_filter, List.mem_range, Bool.and_eq_true, decide_eq_true_eq]
      constructor
      · rintro ⟨h1, h2⟩; exact ⟨hfr p h1, h2, h1⟩
      · rintro ⟨_, h2, h3⟩; exact ⟨h3, h2⟩
    rw [e1]
    clear e1
    have hdisj : ∀ p, p ∈ front → p ∉ done := fun p hp hd =>
      (List.nodup_append.1 h.nodup).2.2 p hd p hp rfl
    generalize List.range n = R
    induction R with
    | nil => simp
    | cons p R ih =>
      simp only [List.countP_cons, ih]
      by_cases hd : dom p q = true <;> by_cases hf : p ∈ front <;> by_cases hdn : p ∈ done <;>
        simp [hd, hf, hdn]
      all_goals first | omega | exact absurd hdn (hdisj p hf)
  have hle : ∀ q, ((front.flatMap s.dominating).count q : Int) ≤ s.counter q := by
    intro q
    by_cases hq : q < n
    · rw [hcount q hq, h.counter q hq, hsplit q]; omega
    · have : q ∉ front.flatMap s.dominating := fun hm => hq ((hmem q).1 hm).1
      rw [List.count_eq_zero.2 this, h.outside q hq]; simp
  obtain ⟨s', next, g1, g2, g3, g4, g5, g6⟩ := foldl_releaseStep i _ s [] hle
  rw [List.nil_append] at g1
  have hnext : ∀ q, q ∈ next ↔ q < n ∧ (∃ p ∈ front, dom p q = true) ∧
      ∀ p, p < n → dom p q = true → p ∈ done ++ front := by
    intro q
    rw [g3, hmem]
    constructor
    · rintro ⟨⟨hq, hp⟩, he⟩
      refine ⟨hq, hp, fun p hpn hd => ?_⟩
      rw [hcount q hq, h.counter q hq, hsplit q] at he
      have h0 : (List.range n).countP (fun p => dom p q && decide (p ∉ done ++ front)) = 0 := by
        omega
      have := (List.countP_eq_zero.1 h0) p (List.mem_range.2 hpn)
      simp only [hd, Bool.true_and, decide_eq_true_eq, not_not] at this
      exact this
    · rintro ⟨hq, hp, hall⟩
      refine ⟨⟨hq, hp⟩, ?_⟩
      rw [hcount q hq, h.counter q hq, hsplit q]
      have h0 : (List.range n).countP (fun p => dom p q && decide (p ∉ done ++ front)) = 0 := by
        rw [List.countP_eq_zero]
        intro p hp
        by_cases hd : dom p q = true
        · have := hall p (List.mem_range.1 hp) hd
          simp [hd, List.mem_append.1 this]
        · simp [hd]
      omega
  have hnew : ∀ q ∈ next, q ∉ done ++ front := by
    intro q hq hm
    obtain ⟨hqn, ⟨p, hp, hd⟩, _⟩ := (hnext q).1 hq
    have hpd := (h.placed q hqn).1 hm p (hfr p hp) hd
    exact (List.nodup_append.1 h.nodup).2.2 p hpd p hp rfl
  refine ⟨s', next, (releaseFront_eq i s front).trans g1, ?_, ?_, g6⟩
  · refine ⟨?_, ?_, ?_, ?_, ?_, ?_⟩
    · rw [List.nodup_append]
      exact ⟨h.nodup, g2, fun a ha b hb he => hnew b hb (he ▸ ha)⟩
    · intro x hx
      rcases List.mem_append.1 hx with hx | hx
      · exact h.range x hx
      · exact ((hnext x).1 hx).1
    · intro q hq
      rw [g4, hcount q hq, h.counter q hq, hsplit q]; omega
    · intro q hq
      have : q ∉ front.flatMap s.dominating := fun hm => hq ((hmem q).1 hm).1
      rw [g4, List.count_eq_zero.2 this, h.outside q hq]; simp
    · rw [g5]; exact h.dlist
    · intro q hq
      rw [List.mem_append, hnext]
      constructor
      · rintro (hm | ⟨_, _, hall⟩)
        · intro p hp hd; exact List.mem_append_left _ ((h.placed q hq).1 hm p hp hd)
        · exact hall
      · intro hall
        by_cases hp : ∃ p ∈ front, dom p q = true
        · exact Or.inr ⟨hq, hp, hall⟩
        · left
          rw [h.placed q hq]
          intro p hpn hd
          rcases List.mem_append.1 (hall p hpn hd) with h1 | h1
          · exact h1
          · exact absurd ⟨p, h1, hd⟩ hp
  · intro q hq
    exact ((hnext q).1 hq).2.1

/-- When the current front is empty everything has been placed. -/
theorem LoopInv.exhausted {dom : Nat → Nat → Bool} {n : Nat} {done : List Nat} {s : SortState}
    (hirr : ∀ p, dom p p = false)
    (htr : ∀ p q r, dom p q = true → dom q r = true → dom p r = true)
    (h : LoopInv dom n done [] s) : ∀ q, q < n → q ∈ done := by
  have key : ∀ m q, q < n → (List.range n).countP (fun p => dom p q) = m → q ∈ done := by
    intro m
    induction m using Nat.strongRecOn with
    | _ m ih =>
      intro q hq hm
      have := (h.placed q hq).2 (fun p hp hd => by
        refine ih ((List.range n).countP (fun r => dom r p)) ?_ p hp rfl
        rw [← hm]
        -- fewer dominators
        rw [List.countP_eq_length_filter, List.countP_eq_length_filter]
        have hsub : (p :: (List.range n).filter (fun r => dom r p)) ⊆
            (List.range n).filter (fun r => dom r q) := by
          intro x hx
          rcases List.mem_cons.1 hx with rfl | hx
          · simp [hp, hd]
          · simp only [List.mem_filter, List.mem_range] at hx ⊢
            exact ⟨hx.1, htr _ _ _ hx.2 hd⟩
        have hnd : (p :: (List.range n).filter (fun r => dom r p)).Nodup := by
          rw [List.nodup_cons]
          refine ⟨?_, List.nodup_range.filter _⟩
          simp [hirr]
        have := (List.subperm_of_subset hnd hsub).length_le
        rw [List.length_cons] at this
        omega)
      simpa using this
  exact fun q hq => key _ q hq rfl

/-- What the loop returns from its head, given the layers so far. -/
theorem sortLoop_spec {dom : Nat → Nat → Bool} {n : Nat}
    (hirr : ∀ p, dom p p = false)
    (htr : ∀ p q r, dom p q = true → dom q r = true → dom p r = true) :
    ∀ fuel i done front s, LoopInv dom n done front s → n < fuel + done.length →
    ∃ fs s', sortLoop fuel i front s = .ok (front :: fs, s') ∧
      (∀ q, q < n → q ∈ done ++ (front :: fs).flatten) ∧
      (done ++ (front :: fs).flatten).Nodup ∧
      (∀ x ∈ done ++ (front :: fs).flatten, x < n) ∧
      (∀ j x, InFront (front :: fs) (j + 1) x → ∃ y, InFront (front :: fs) j y ∧ dom y x = true) ∧
      (∀ j x y, InFront (front :: fs) j x → y < n → dom y x = true →
        y ∈ done ∨ ∃ i, i < j ∧ InFront (front :: fs) i y) ∧
      (∀ j x, InFront fs j x → s'.rank x = i + j + 1) ∧
      (∀ x, x ∈ done ++ front → s'.rank x = s.rank x) := by
  intro fuel
  induction fuel with
  | zero =>
    intro i done front s h hf
    exfalso
    have : done.length ≤ n := by
      have h1 : done.Nodup := (List.nodup_append.1 h.nodup).1
      have h2 : done ⊆ List.range n := fun x hx => List.mem_range.2 (h.range x (by simp [hx]))
      simpa using (List.subperm_of_subset h1 h2).length_le
    omega
  | succ fuel ih =>
    intro i done front s h hf
    by_cases hfr : front = []
    · subst hfr
      have hex := h.exhausted hirr htr
      refine ⟨[], s, by simp [sortLoop], ?_, ?_, ?_, ?_, ?_, ?_, ?_⟩
      · intro q hq; simpa using hex q hq
      · simpa using h.nodup
      · intro x hx; exact h.range x (by simpa using hx)
      · rintro j x ⟨f, hfj, hx⟩; simp at hfj
      · rintro j x y ⟨f, hfj, hx⟩ _ _
        cases j with
        | zero => simp at hfj; subst hfj; simp at hx
        | succ j => simp at hfj
      · rintro j x ⟨f, hfj, hx⟩; simp at hfj
      · intro x _; rfl
    · obtain ⟨s₁, next, h1, h2, h3, h4⟩ := h.step i
      have hlen : n < fuel + (done ++ front).length := by
        have : 0 < front.length := List.length_pos_iff.2 hfr
        rw [List.length_append]; omega
      obtain ⟨fs, s', g1, g2, g3, g4, g5, g6, g7, g8⟩ := ih (i + 1) (done ++ front) next s₁ h2 hlen
      refine ⟨next :: fs, s', ?_, ?_, ?_, ?_, ?_, ?_, ?_, ?_⟩
      · simp [sortLoop, hfr, h1, g1]
      · intro q hq; simpa using g2 q hq
      · simpa using g3
      · intro x hx; exact g4 x (by simpa using hx)
      · rintro j x ⟨f, hfj, hx⟩
        cases j with
        | zero =>
          simp at hfj; subst hfj
          obtain ⟨p, hp, hd⟩ := h3 x hx
          exact ⟨p, ⟨front, rfl, hp⟩, hd⟩
        | succ j =>
          obtain ⟨y, ⟨f', hf', hy⟩, hd⟩ := g5 j x ⟨f, by simpa using hfj, hx⟩
          exact ⟨y, ⟨f', by simpa using hf', hy⟩, hd⟩
      · rintro j x y ⟨f, hfj, hx⟩ hy hd
        cases j with
        | zero =>
          simp at hfj; subst hfj
          exact Or.inl ((h.placed x (h.range x (by simp [hx]))).1 (by simp [hx]) y hy hd)
        | succ j =>
          rcases g6 j x y ⟨f, by simpa using hfj, hx⟩ hy hd with h' | ⟨i', hi', f', hf', hy'⟩
          · rcases List.mem_append.1 h' with h' | h'
            · exact Or.inl h'
            · exact Or.inr ⟨0, by omega, front, rfl, h'⟩
          · exact Or.inr ⟨i' + 1, by omega, f', by simpa using hf', hy'⟩
      · rintro j x ⟨f, hfj, hx⟩
        cases j with
        | zero =>
          simp at hfj; subst hfj
          rw [g8 x (by simp [hx]), h4, if_pos hx]
        | succ j =>
          rw [g7 j x ⟨f, by simpa using hfj, hx⟩]; omega
      · intro x hx
        rw [g8 x (List.mem_append_left _ hx), h4, if_neg]
        intro hn
        exact (List.nodup_append.1 h2.nodup).2.2 x hx x hn rfl

/-- The sort terminates with a layering; ranks are 1 on the first front and `j` on the
`j`-th front for `j ≥ 1`. -/
theorem fastNonDominatedSort_spec {dom : Nat → Nat → Bool} (n : Nat)
    (hirr : ∀ p, dom p p = false)
    (htr : ∀ p q r, dom p q = true → dom q r = true → dom p r = true) :
    ∃ fronts s, fastNonDominatedSort dom n = .ok (fronts, s) ∧
      Layering (fun p q => dom p q = true) n fronts ∧
      (∀ x, InFront fronts 0 x → s.rank x = 1) ∧
      (∀ j x, InFront fronts (j + 1) x → s.rank x = j + 1) := by
  have hasym : ∀ p q, dom p q = true → dom q p = false := by
    intro p q h1
    by_contra h2
    have := htr p q p h1 (by simpa using h2)
    rw [hirr] at this; simp at this
  obtain ⟨c1, c2, c3⟩ := foldl_countStep hasym (combinations2 (List.range n)) {}
  obtain ⟨s₁, f1, f2, f3, f4⟩ := foldl_firstStep (List.range n)
    ((combinations2 (List.range n)).foldl (countStep dom) {}) []
  generalize hs0 : (combinations2 (List.range n)).foldl (countStep dom) {} = s0 at c1 c2 c3 f1 f2 f3 f4
  have hcnt : ∀ q, q < n → s0.counter q = ((List.range n).countP (fun p => dom p q) : Nat) := by
    intro q hq
    rw [c2 q, countP_combinations2 hirr hasym q _ List.nodup_range (List.mem_range.2 hq)]
    simp
  have hcnt' : ∀ q, ¬ q < n → s0.counter q = 0 := by
    intro q hq
    rw [c2 q]
    have : (combinations2 (List.range n)).countP
        (fun pq => (pq.2 == q && dom pq.1 pq.2) || (pq.1 == q && dom pq.2 pq.1)) = 0 := by
      have hmem : ∀ (l : List Nat) pq, pq ∈ combinations2 l → pq.1 ∈ l ∧ pq.2 ∈ l := by
        intro l
        induction l with
        | nil => simp [combinations2]
        | cons a l ih =>
          intro pq hpq
          rw [combinations2, List.mem_append] at hpq
          rcases hpq with h | h
          · obtain ⟨y, hy, rfl⟩ := List.mem_map.1 h
            simp [hy]
          · exact ⟨List.mem_cons_of_mem _ (ih pq h).1, List.mem_cons_of_mem _ (ih pq h).2⟩
      rw [List.countP_eq_zero]
      intro pq hpq
      obtain ⟨m1, m2⟩ := hmem _ pq hpq
      rw [List.mem_range] at m1 m2
      have n1 : pq.1 ≠ q := fun h => hq (h ▸ m1)
      have n2 : pq.2 ≠ q := fun h => hq (h ▸ m2)
      simp [n1, n2]
    rw [this]; rfl
  have hinv : LoopInv dom n [] ((List.range n).filter (fun p => decide (s0.counter p = 0))) s₁ := by
    refine ⟨?_, ?_, ?_, ?_, ?_, ?_⟩
    · simpa using List.nodup_range.filter _
    · intro x hx
      simp at hx; exact hx.1
    · intro q hq
      rw [f2, hcnt q hq]
      congr 1
      refine List.countP_congr (fun p _ => ?_)
      simp
    · intro q hq; rw [f2]; exact hcnt' q hq
    · intro p
      rw [f3]
      have := filterMap_combinations2 hirr hasym p (List.range n) List.nodup_range _ rfl
      rw [c3 p]
      simpa [List.mem_range] using this
    · intro q hq
      simp only [List.nil_append, List.mem_filter, List.mem_range, hq, true_and, decide_eq_true_eq,
        List.not_mem_nil, hcnt q hq]
      constructor
      · intro h0 p hp hd
        have := List.countP_eq_zero.1 (Int.ofNat_eq_zero.1 h0) p (List.mem_range.2 hp)
        exact this hd
      · intro hall
        have : (List.range n).countP (fun p => dom p q) = 0 := by
          rw [List.countP_eq_zero]
          intro p hp hd
          exact hall p (List.mem_range.1 hp) hd
        rw [this]; rfl
  obtain ⟨fs, s', g1, g2, g3, g4, g5, g6, g7, g8⟩ := sortLoop_spec hirr htr (n + 1) 0 [] _ s₁ hinv
    (by simp)
  rw [List.nil_append] at f1 g3
  refine ⟨_, s', ?_, ⟨?_, ?_, g5, ?_⟩, ?_, ?_⟩
  · unfold fastNonDominatedSort
    simp only [hs0, f1]
    exact g1
  · refine (List.perm_ext_iff_of_nodup g3 List.nodup_range).2 (fun x => ?_)
    rw [List.mem_range]
    exact ⟨fun h => g4 x (by simpa using h), fun h => by simpa using g2 x h⟩
  · rintro j x y hx hy hd
    obtain ⟨f, hf, hxf⟩ := hx
    have hxn : x < n := g4 x (by
      rw [List.nil_append, List.mem_flatten]; exact ⟨f, List.mem_of_getElem? hf, hxf⟩)
    rcases g6 j y x hy hxn hd with h | ⟨i, hi, f', hf', hxf'⟩
    · simp at h
    · -- x would be in two fronts
      have hpw := (List.nodup_flatten.1 g3).2
      rw [List.pairwise_iff_getElem] at hpw
      obtain ⟨b1, e1⟩ := List.getElem?_eq_some_iff.1 hf'
      obtain ⟨b2, e2⟩ := List.getElem?_eq_some_iff.1 hf
      have := hpw i j b1 b2 hi
      rw [e1, e2] at this
      exact this hxf' hxf
  · intro j x y hx hy hd
    rcases g6 j x y hx hy hd with h | h
    · simp at h
    · exact h
  · rintro x ⟨f, hf, hx⟩
    simp at hf; subst hf
    rw [g8 x (by simpa using hx), f4]
    simp at hx
    simp [hx]
  · rintro j x ⟨f, hf, hx⟩
    have := g7 j x ⟨f, by simpa using hf, hx⟩
    omega

end Gama
