import Verif.Model.NanSort
import Verif.Props.Nan
import Mathlib.Data.List.Lex
import Mathlib.Data.Rat.Defs

/-! # C171: scores that are not numbers when the pipeline to train is chosen -/

namespace Gama
open Spec

section
variable {α ι K : Type} [LinearOrder K]

/-- **C171, the claim.**  The pipeline trained has a score that is a number if one of those found has, and none found
has a greater one. -/
def C171_claim : Prop :=
  ∀ (values : Nat → List (Option ℚ)) (pop : List Nat), pop.length < 64 → (∀ x ∈ pop, values x ≠ []) →
    ∀ x, nanBestFit values pop = .ok x → ∀ y ∈ pop, none ∉ values y →
      none ∉ values x ∧ (values y).filterMap id ≤ (values x).filterMap id

theorem upRun_eq (lt : α → α → Bool) : ∀ (prev : α) (l : List α), (upRun lt prev l).1 ++ (upRun lt prev l).2 = l
  | _, [] => rfl
  | prev, x :: xs => by
    unfold upRun
    split
    · rfl
    · simp [upRun_eq lt x xs]

theorem downRun_eq (lt : α → α → Bool) : ∀ (prev : α) (l : List α),
    (downRun lt prev l).1 ++ (downRun lt prev l).2 = l
  | _, [] => rfl
  | prev, x :: xs => by
    unfold downRun
    split
    · simp [downRun_eq lt x xs]
    · rfl

theorem firstRun_two (lt : α → α → Bool) (x y : α) (ys : List α) :
    firstRun lt (x :: y :: ys) = if lt y x = true then ((x :: y :: (downRun lt y ys).1).reverse, (downRun lt y ys).2)
      else (x :: y :: (upRun lt y ys).1, (upRun lt y ys).2) := rfl

theorem firstRun_perm (lt : α → α → Bool) (l : List α) : ((firstRun lt l).1 ++ (firstRun lt l).2).Perm l := by
  match l with
  | [] => exact .refl _
  | [x] => exact .refl _
  | x :: y :: ys =>
    rw [firstRun_two]
    split
    · refine ((List.reverse_perm _).append_right _).trans ?_
      simp only [List.cons_append, downRun_eq]
      exact .refl _
    · simp only [List.cons_append, upRun_eq]
      exact .refl _

theorem binaryInsert_perm (lt : α → α → Bool) (s : List α) (p : α) : (binaryInsert lt s p).Perm (p :: s) := by
  unfold binaryInsert
  refine List.perm_middle.trans ?_
  rw [List.take_append_drop]

theorem foldl_insert_perm (lt : α → α → Bool) : ∀ (rest s : List α), (rest.foldl (binaryInsert lt) s).Perm (s ++ rest)
  | [], s => by simp
  | x :: xs, s => by
    refine (foldl_insert_perm lt xs _).trans ?_
    refine ((binaryInsert_perm lt s x).append_right _).trans ?_
    exact List.perm_middle.symm

theorem binarySort_perm (lt : α → α → Bool) (l : List α) : (binarySort lt l).Perm l :=
  (foldl_insert_perm lt _ _).trans (firstRun_perm lt l)

/-! ## Sorting by numbers -/

/-- The comparison is that of keys. -/
def ByKey {L : Type} [LinearOrder L] (key : α → L) (lt : α → α → Bool) (l : List α) : Prop :=
  ∀ x ∈ l, ∀ y ∈ l, lt x y = decide (key x < key y)

theorem ByKey.sub {L : Type} [LinearOrder L] {key : α → L} {lt : α → α → Bool} {l l' : List α}
    (h : ByKey key lt l) (hs : l' ⊆ l) : ByKey key lt l' := fun x hx y hy => h x (hs hx) y (hs hy)

theorem upRun_sorted {L : Type} [LinearOrder L] {key : α → L} {lt : α → α → Bool} :
    ∀ {prev : α} {l : List α}, ByKey key lt (prev :: l) →
      (prev :: (upRun lt prev l).1).Pairwise (fun a b => key a ≤ key b)
  | prev, [], _ => by simp [upRun]
  | prev, x :: xs, h => by
    unfold upRun
    split
    · simp
    · next hc =>
      have ih := upRun_sorted (h.sub (l' := x :: xs) (by simp))
      have hle : key prev ≤ key x := by
        rw [h x (by simp) prev (by simp)] at hc
        simpa using hc
      refine List.pairwise_cons.2 ⟨fun z hz => ?_, ih⟩
      rcases List.mem_cons.1 hz with rfl | hz
      · exact hle
      · exact hle.trans ((List.pairwise_cons.1 ih).1 z hz)

theorem downRun_sorted {L : Type} [LinearOrder L] {key : α → L} {lt : α → α → Bool} :
    ∀ {prev : α} {l : List α}, ByKey key lt (prev :: l) →
      (prev :: (downRun lt prev l).1).Pairwise (fun a b => key b ≤ key a)
  | prev, [], _ => by simp [downRun]
  | prev, x :: xs, h => by
    unfold downRun
    split
    · next hc =>
      have ih := downRun_sorted (h.sub (l' := x :: xs) (by simp))
      have hle : key x ≤ key prev := by
        rw [h x (by simp) prev (by simp)] at hc
        exact (of_decide_eq_true hc).le
      refine List.pairwise_cons.2 ⟨fun z hz => ?_, ih⟩
      rcases List.mem_cons.1 hz with rfl | hz
      · exact hle
      · exact ((List.pairwise_cons.1 ih).1 z hz).trans hle
    · simp

theorem firstRun_sorted {L : Type} [LinearOrder L] {key : α → L} {lt : α → α → Bool} {l : List α}
    (h : ByKey key lt l) : (firstRun lt l).1.Pairwise (fun a b => key a ≤ key b) := by
  match l with
  | [] => simp [firstRun]
  | [x] => simp [firstRun]
  | x :: y :: ys =>
    have hxy := h y (by simp) x (by simp)
    rw [firstRun_two]
    split
    · next hc =>
      rw [List.pairwise_reverse]
      have ih := downRun_sorted (h.sub (l' := y :: ys) (by simp))
      have hle : key y ≤ key x := by rw [hxy] at hc; exact (of_decide_eq_true hc).le
      refine List.pairwise_cons.2 ⟨fun z hz => ?_, ih⟩
      rcases List.mem_cons.1 hz with rfl | hz
      · exact hle
      · exact ((List.pairwise_cons.1 ih).1 z hz).trans hle
    · next hc =>
      have ih := upRun_sorted (h.sub (l' := y :: ys) (by simp))
      have hle : key x ≤ key y := by rw [hxy] at hc; simpa using hc
      refine List.pairwise_cons.2 ⟨fun z hz => ?_, ih⟩
      rcases List.mem_cons.1 hz with rfl | hz
      · exact hle
      · exact hle.trans ((List.pairwise_cons.1 ih).1 z hz)

theorem binaryPlace_spec {L : Type} [LinearOrder L] {key : α → L} {lt : α → α → Bool} {s : List α} {p : α}
    (h : ByKey key lt (p :: s)) (hs : s.Pairwise (fun a b => key a ≤ key b)) :
    ∀ (fuel l r : Nat), r - l ≤ fuel → l ≤ r → r ≤ s.length →
      (∀ i (hi : i < s.length), i < l → key s[i] ≤ key p) → (∀ i (hi : i < s.length), r ≤ i → key p ≤ key s[i]) →
      binaryPlace lt s p fuel l r ≤ s.length ∧
      (∀ i (hi : i < s.length), i < binaryPlace lt s p fuel l r → key s[i] ≤ key p) ∧
      (∀ i (hi : i < s.length), binaryPlace lt s p fuel l r ≤ i → key p ≤ key s[i])
  | 0, l, r, hf, hlr, hr, h1, h2 => by
    have : l = r := by omega
    subst this
    exact ⟨hr, h1, h2⟩
  | fuel + 1, l, r, hf, hlr, hr, h1, h2 => by
    unfold binaryPlace
    by_cases hlt : l < r
    · rw [if_pos hlt]
      have hm : l + (r - l) / 2 < s.length := by omega
      rw [List.getElem?_eq_getElem hm]
      dsimp only
      have hmono : ∀ i j (hi : i < s.length) (hj : j < s.length), i ≤ j → key s[i] ≤ key s[j] := by
        intro i j hi hj hij
        rcases Nat.lt_or_eq_of_le hij with hij | rfl
        · exact List.pairwise_iff_getElem.1 hs i j hi hj hij
        · exact le_rfl
      have hk := h p (by simp) s[l + (r - l) / 2] (List.mem_cons_of_mem _ (List.getElem_mem hm))
      split
      · next hc =>
        rw [hk] at hc
        refine binaryPlace_spec h hs fuel l (l + (r - l) / 2) (by omega) (by omega) (by omega) h1 fun i hi hri => ?_
        exact (of_decide_eq_true hc).le.trans (hmono _ _ hm hi hri)
      · next hc =>
        rw [hk] at hc
        refine binaryPlace_spec h hs fuel (l + (r - l) / 2 + 1) r (by omega) (by omega) hr (fun i hi hli => ?_) h2
        have : key s[l + (r - l) / 2] ≤ key p := by simpa using hc
        exact (hmono _ _ hi hm (by omega)).trans this
    · rw [if_neg hlt]
      have : l = r := by omega
      subst this
      exact ⟨hr, h1, h2⟩

theorem binaryInsert_sorted {L : Type} [LinearOrder L] {key : α → L} {lt : α → α → Bool} {s : List α} {p : α}
    (h : ByKey key lt (p :: s)) (hs : s.Pairwise (fun a b => key a ≤ key b)) :
    (binaryInsert lt s p).Pairwise (fun a b => key a ≤ key b) := by
  obtain ⟨h0, h1, h2⟩ := binaryPlace_spec h hs s.length 0 s.length (by omega) (by omega) le_rfl
    (fun i _ hi => absurd hi (by omega)) (fun i hi hi' => absurd hi (by omega))
  unfold binaryInsert
  dsimp only
  generalize binaryPlace lt s p s.length 0 s.length = l at h0 h1 h2
  have ht : ∀ a ∈ s.take l, key a ≤ key p := by
    intro a ha
    obtain ⟨i, hi, rfl⟩ := List.mem_iff_getElem.1 ha
    rw [List.length_take] at hi
    rw [List.getElem_take]
    exact h1 i (by omega) (by omega)
  have hd : ∀ a ∈ s.drop l, key p ≤ key a := by
    intro a ha
    obtain ⟨i, hi, rfl⟩ := List.mem_iff_getElem.1 ha
    rw [List.length_drop] at hi
    rw [List.getElem_drop]
    exact h2 _ (by omega) (by omega)
  refine List.pairwise_append.2 ⟨hs.sublist (List.take_sublist _ _),
    List.pairwise_cons.2 ⟨hd, hs.sublist (List.drop_sublist _ _)⟩, fun a ha b hb => ?_⟩
  rcases List.mem_cons.1 hb with rfl | hb
  · exact ht a ha
  · exact (ht a ha).trans (hd b hb)

theorem foldl_insert_sorted {L : Type} [LinearOrder L] {key : α → L} {lt : α → α → Bool} :
    ∀ {rest s : List α}, ByKey key lt (s ++ rest) → s.Pairwise (fun a b => key a ≤ key b) →
      (rest.foldl (binaryInsert lt) s).Pairwise (fun a b => key a ≤ key b)
  | [], s, _, hs => hs
  | x :: xs, s, h, hs => by
    refine foldl_insert_sorted (rest := xs) (s := binaryInsert lt s x) (h.sub fun a ha => ?_)
      (binaryInsert_sorted (h.sub fun a ha => ?_) hs)
    · rcases List.mem_append.1 ha with ha | ha
      · have := (binaryInsert_perm lt s x).subset ha
        rcases List.mem_cons.1 this with rfl | ha
        · simp
        · simp [ha]
      · simp [ha]
    · rcases List.mem_cons.1 ha with rfl | ha
      · simp
      · simp [ha]

theorem binarySort_sorted {L : Type} [LinearOrder L] {key : α → L} {lt : α → α → Bool} {l : List α}
    (h : ByKey key lt l) : (binarySort lt l).Pairwise (fun a b => key a ≤ key b) :=
  foldl_insert_sorted (h.sub (firstRun_perm lt l).subset) (firstRun_sorted h)

omit [LinearOrder K] in
theorem map_some_numbers : ∀ {v : List (Option K)}, none ∉ v → v = (v.filterMap id).map some
  | [], _ => rfl
  | none :: v, h => absurd (List.mem_cons_self ..) h
  | some a :: v, h => by
    rw [List.filterMap_cons_some (by rfl), List.map_cons, ← map_some_numbers fun hm => h (List.mem_cons_of_mem _ hm)]

theorem byKey_numbers {values : ι → List (Option K)} {pop : List ι} (hn : ∀ x ∈ pop, none ∉ values x) :
    ByKey (fun x => (values x).filterMap id) (fun a b => nanLt (values a) (values b)) pop := by
  intro x hx y hy
  dsimp only
  conv_lhs => rw [map_some_numbers (hn x hx), map_some_numbers (hn y hy)]
  exact (nanLt_numeric (K := K) _ _).trans (decide_eq_decide.2 Iff.rfl)

/-- **C171 (partial).**  If all scores are numbers, a pipeline with the greatest score is trained.  Whatever the scores
are, one of the pipelines found is, if any was found.  (Lists of less than 64, see `Model/NanSort`.) -/
theorem C171_partial (values : ι → List (Option K)) (pop : List ι) :
    (pop = [] → nanBestFit values pop = .error .indexError) ∧
    (pop ≠ [] → ∃ x ∈ pop, nanBestFit values pop = .ok x ∧
      ((∀ y ∈ pop, none ∉ values y) → ∀ y ∈ pop, (values y).filterMap id ≤ (values x).filterMap id)) := by
  have hp := binarySort_perm (fun a b => nanLt (values a) (values b)) pop
  constructor
  · rintro rfl; rfl
  · intro hne
    unfold nanBestFit
    cases hr : (binarySort (fun a b => nanLt (values a) (values b)) pop).reverse with
    | nil =>
      rw [List.reverse_eq_nil_iff] at hr
      rw [hr] at hp
      exact absurd hp.nil_eq.symm hne
    | cons x xs =>
      have hp' := (List.reverse_perm _).trans hp
      rw [hr] at hp'
      refine ⟨x, hp'.subset (by simp), rfl, fun hn y hy => ?_⟩
      have hs := binarySort_sorted (byKey_numbers hn)
      rw [← List.pairwise_reverse, hr] at hs
      rcases List.mem_cons.1 (hp'.symm.subset hy) with rfl | hy
      · exact le_rfl
      · exact (List.pairwise_cons.1 hs).1 y hy

/-! ## The last one -/

theorem downRun_none {lt : α → α → Bool} {z : α} (hz : ∀ y, lt z y = false) : ∀ (prev : α) (l : List α),
    ∃ l', (downRun lt prev (l ++ [z])).2 = l' ++ [z]
  | prev, [] => by
    refine ⟨[], ?_⟩
    unfold downRun
    simp [hz]
  | prev, x :: xs => by
    rw [List.cons_append]
    unfold downRun
    split
    · exact downRun_none hz x xs
    · exact ⟨x :: xs, rfl⟩

theorem upRun_none {lt : α → α → Bool} {z : α} : ∀ (prev : α) (l : List α),
    (∃ r, (upRun lt prev (l ++ [z])).1 = r ++ [z] ∧ (upRun lt prev (l ++ [z])).2 = []) ∨
    ∃ l', (upRun lt prev (l ++ [z])).2 = l' ++ [z]
  | prev, [] => by
    rw [List.nil_append]
    unfold upRun
    split
    · exact .inr ⟨[], rfl⟩
    · exact .inl ⟨[], by simp [upRun], by simp [upRun]⟩
  | prev, x :: xs => by
    rw [List.cons_append]
    unfold upRun
    split
    · exact .inr ⟨x :: xs, rfl⟩
    · rcases upRun_none (lt := lt) (z := z) x xs with ⟨r, h1, h2⟩ | ⟨l', h⟩
      · exact .inl ⟨x :: r, by simp [h1], h2⟩
      · exact .inr ⟨l', h⟩

theorem firstRun_none {lt : α → α → Bool} {z : α} (hz : ∀ y, lt z y = false) (l : List α) :
    (∃ r, (firstRun lt (l ++ [z])).1 = r ++ [z] ∧ (firstRun lt (l ++ [z])).2 = []) ∨
    ∃ l', (firstRun lt (l ++ [z])).2 = l' ++ [z] := by
  match l with
  | [] => exact .inl ⟨[], rfl, rfl⟩
  | [x] =>
    refine .inl ⟨[x], ?_, ?_⟩ <;> simp [firstRun, hz, upRun]
  | x :: y :: ys =>
    simp only [List.cons_append]
    rw [firstRun_two]
    split
    · exact .inr (downRun_none hz y ys)
    · rcases upRun_none (lt := lt) (z := z) y ys with ⟨r, h1, h2⟩ | ⟨l', h⟩
      · exact .inl ⟨x :: y :: r, by simp [h1], h2⟩
      · exact .inr ⟨l', h⟩

theorem binaryPlace_end {lt : α → α → Bool} {z : α} (hz : ∀ y, lt z y = false) (s : List α) :
    ∀ (fuel l : Nat), s.length - l ≤ fuel → l ≤ s.length → binaryPlace lt s z fuel l s.length = s.length
  | 0, l, h, hl => by unfold binaryPlace; omega
  | fuel + 1, l, h, hl => by
    unfold binaryPlace
    by_cases hlt : l < s.length
    · rw [if_pos hlt, List.getElem?_eq_getElem (show l + (s.length - l) / 2 < s.length by omega)]
      dsimp only
      rw [hz, if_neg (by simp)]
      exact binaryPlace_end hz s fuel _ (by omega) (by omega)
    · rw [if_neg hlt]; omega

theorem binarySort_last {lt : α → α → Bool} {z : α} (hz : ∀ y, lt z y = false) (l : List α) :
    ∃ l', binarySort lt (l ++ [z]) = l' ++ [z] := by
  unfold binarySort
  rcases firstRun_none hz l with ⟨r, h1, h2⟩ | ⟨l', h⟩
  · rw [h1, h2]; exact ⟨r, rfl⟩
  · rw [h, List.foldl_append]
    simp only [List.foldl_cons, List.foldl_nil]
    unfold binaryInsert
    dsimp only
    rw [binaryPlace_end hz _ _ 0 (by omega) (by omega)]
    exact ⟨_, by rw [List.take_length, List.drop_length]⟩

/-- **C171, what happens instead.**  If the score of the pipeline found last is not a number, that pipeline is trained,
however good the others are. -/
theorem C171_last (values : ι → List (Option K)) (others : List ι) (z : ι) (hz : ∃ s, values z = none :: s) :
    nanBestFit values (others ++ [z]) = .ok z := by
  obtain ⟨s, hs⟩ := hz
  obtain ⟨l', h⟩ := binarySort_last (lt := fun a b => nanLt (values a) (values b)) (z := z)
    (fun y => by rw [hs]; exact nanLt_nan_left _ _) others
  unfold nanBestFit
  rw [h, List.reverse_append]
  rfl

/-- **C171, one is enough.**  A pipeline whose score is not a number also hides the best pipeline, by standing between it
and the worst one: the worst is trained. -/
theorem C171_hidden (values : ι → List (Option K)) (best nan worst : ι) (hn : ∃ s, values nan = none :: s)
    (hw : values worst ≠ []) :
    nanBestFit values [best, nan, worst] = .ok worst := by
  obtain ⟨s, hs⟩ := hn
  have h1 : nanLt (values nan) (values best) = false := by rw [hs]; exact nanLt_nan_left _ _
  have h2 : nanLt (values worst) (values nan) = false := by
    rw [hs]
    cases hwv : values worst with
    | nil => exact absurd hwv hw
    | cons a as => exact nanLt_nan_right _ _ _
  simp [nanBestFit, binarySort, firstRun, upRun, h1, h2]

end

namespace Ex

/-- Scores of three pipelines, of which the second is not a number. -/
def hidingScores : Nat → List (Option ℚ)
  | 0 => [some (9 / 10), some (-2)]
  | 1 => [none, some (-2)]
  | _ => [some (1 / 10), some (-2)]

end Ex

/-- **C171 is false.**  Of three pipelines the worst is trained. -/
theorem C171_false : ¬ C171_claim := by
  intro h
  have := h Ex.hidingScores [0, 1, 2] (by decide) (by decide) 2 (by rfl) 0 (by decide) (by decide)
  exact absurd this.2 (by decide +kernel)

/-- `C171_partial`: of the pipelines with numbers the best one. -/
example : (nanBestFit Ex.hidingScores [2, 0, 2]).toOption = some 0 := by decide +kernel

/-- `C171_last`: with 50 pipelines, as the default size of a population. -/
example (others : List Nat) (_ : others.length = 49) : nanBestFit Ex.hidingScores (others ++ [1]) = .ok 1 :=
  C171_last _ _ _ ⟨_, rfl⟩

/-- `C171_hidden` -/
example : nanBestFit Ex.hidingScores [0, 1, 2] = .ok 2 := C171_hidden _ _ _ _ ⟨_, rfl⟩ (by decide)

end Gama
