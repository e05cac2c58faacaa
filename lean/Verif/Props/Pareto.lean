import Verif.Model.Pareto
import Verif.Spec.Pareto
import Mathlib.Data.List.Pairwise

/-!
# Pareto fronts (C15, C16)
-/

namespace Gama
open Spec PyM

section
variable {α S : Type} [DecidableEq α] [LinearOrder S]

theorem allLe_iff {a b : List S} (h : a.length = b.length) : allLe a b = true ↔ Below a b := by
  unfold allLe Below
  induction a generalizing b with
  | nil => cases b with
    | nil => simp
    | cons => simp at h
  | cons x a ih => cases b with
    | nil => simp at h
    | cons y b =>
      simp only [List.zip_cons_cons, List.all_cons, Bool.and_eq_true, decide_eq_true_eq,
        List.forall₂_cons, ih (by simpa using h)]

theorem Spec.Below.refl (a : List S) : Below a a := by
  unfold Below
  induction a with
  | nil => exact .nil
  | cons x a ih => exact .cons le_rfl ih

theorem Spec.Below.trans {a b c : List S} (h : Below a b) (h' : Below b c) : Below a c := by
  unfold Below at *
  induction h generalizing c with
  | nil => exact h'
  | cons h _ ih => cases h' with
    | cons h1 h2 => exact .cons (le_trans h h1) (ih h2)

theorem Spec.Below.antisymm {a b : List S} (h : Below a b) (h' : Below b a) : a = b := by
  unfold Below at *
  induction h with
  | nil => rfl
  | cons h _ ih => cases h' with
    | cons h1 h2 => rw [le_antisymm h h1, ih h2]

/-- What a front is after some items were offered. -/
structure IsFront (val : α → List S) (offered front : List α) : Prop where
  /-- members were offered -/
  sub : ∀ x ∈ front, x ∈ offered
  /-- no member is dominated or equalled by another member -/
  anti : front.Pairwise fun x y => ¬ Below (val x) (val y) ∧ ¬ Below (val y) (val x)
  /-- every offered item is dominated or equalled by a member -/
  covers : ∀ x ∈ offered, ∃ y ∈ front, Below (val x) (val y)

theorem paretoScan_none {val : α → List S} {new : α} : ∀ {l : List α},
    (∀ x ∈ l, (val x).length = (val new).length) →
    (paretoScan val new l = none ↔ ∃ x ∈ l, Below (val new) (val x))
  | [], _ => by simp [paretoScan]
  | x :: l, h => by
    have ih := paretoScan_none (l := l) (fun y hy => h y (by simp [hy]))
    have hx := allLe_iff (h x (by simp)).symm
    simp only [paretoScan]
    by_cases hb : Below (val new) (val x)
    · rw [if_pos (hx.2 hb)]; simp [hb]
    · rw [if_neg (fun h => hb (hx.1 h))]
      cases hs : paretoScan val new l with
      | none => simp [ih.1 hs]
      | some rm =>
        have : ¬ ∃ x ∈ l, Below (val new) (val x) := fun h => by rw [ih.2 h] at hs; simp at hs
        simp only [List.mem_cons, exists_eq_or_imp, hb, false_or, this, iff_false]
        split <;> simp

theorem paretoScan_some {val : α → List S} {new : α} : ∀ {l rm : List α},
    (∀ x ∈ l, (val x).length = (val new).length) → paretoScan val new l = some rm →
    rm.Sublist l ∧ rm = l.filter (fun x => allLe (val x) (val new))
  | [], rm, _, h => by simp [paretoScan] at h; subst h; simp
  | x :: l, rm, hlen, h => by
    simp only [paretoScan] at h
    split at h
    · simp at h
    · cases hs : paretoScan val new l with
      | none => rw [hs] at h; simp at h
      | some rm' =>
        rw [hs] at h
        obtain ⟨h1, h2⟩ := paretoScan_some (fun y hy => hlen y (by simp [hy])) hs
        dsimp only at h
        split at h
        · next hx =>
          injection h with h; subst h
          exact ⟨h1.cons_cons x, by simp [hx, h2]⟩
        · next hx =>
          injection h with h; subst h
          exact ⟨h1.cons x, by simp [hx, h2]⟩

theorem mem_foldl_erase {l rm : List α} (hl : l.Nodup) {x : α} :
    x ∈ rm.foldl List.erase l ↔ x ∈ l ∧ x ∉ rm := by
  induction rm generalizing l with
  | nil => simp
  | cons r rm ih =>
    rw [List.foldl_cons, ih (hl.erase r), hl.mem_erase_iff]
    simp only [List.mem_cons, not_or]
    constructor
    · rintro ⟨⟨h1, h2⟩, h3⟩; exact ⟨h2, h1, h3⟩
    · rintro ⟨h1, h2, h3⟩; exact ⟨⟨h2, h1⟩, h3⟩

theorem foldl_erase_sublist {l rm : List α} : (rm.foldl List.erase l).Sublist l := by
  induction rm generalizing l with
  | nil => simp
  | cons r rm ih => exact ih.trans List.erase_sublist

theorem IsFront.nodup {val : α → List S} {offered front : List α} (h : IsFront val offered front) :
    front.Nodup := by
  refine h.anti.imp ?_
  rintro a b h rfl
  exact h.1 (Below.refl _)

theorem IsFront.ne {val : α → List S} {offered front : List α} (h : IsFront val offered front)
    {x y : α} (hx : x ∈ front) (hy : y ∈ front) (hxy : x ≠ y) : ¬ Below (val x) (val y) := by
  haveI : Std.Symm (fun x y => ¬ Below (val x) (val y) ∧ ¬ Below (val y) (val x)) :=
    ⟨fun _ _ h => ⟨h.2, h.1⟩⟩
  exact (h.anti.forall hx hy hxy).1

/-- What one `update` does to a front. -/
theorem paretoUpdate_spec {b : Bool} {val : α → List S} {offered front : List α} {new : α}
    (hf : IsFront val offered front) (hlen : ∀ x ∈ front, (val x).length = (val new).length) :
    ∃ r front', paretoUpdate b val new front = (.ok r, front') ∧
      IsFront val (new :: offered) front' ∧ (r = true ↔ ¬ ∃ x ∈ front, Below (val new) (val x)) ∧
      (r = true → front'.getLast? = some new ∧
        ∀ x ∈ front', x = new ∨ (x ∈ front ∧ ¬ Below (val x) (val new))) ∧
      (r = false → front' = front) := by
  cases hfr : front with
  | nil =>
    subst hfr
    refine ⟨true, [new], rfl, ⟨by simp, by simp, ?_⟩, by simp, by simp, by simp⟩
    intro x hx
    rcases List.mem_cons.1 hx with rfl | hx
    · exact ⟨x, by simp, Below.refl _⟩
    · obtain ⟨y, hy, _⟩ := hf.covers x hx; simp at hy
  | cons f0 rest =>
    rw [← hfr]
    have hscan := paretoScan_none hlen
    have hrun : paretoUpdate b val new front =
        (match paretoScan val new front with
        | none => (.ok false, front)
        | some rm => (.ok true, rm.foldl List.erase front ++ [new])) := by
      have h0 : (val f0).length = (val new).length := hlen f0 (by rw [hfr]; simp)
      unfold paretoUpdate
      rw [bind_ok get_run, hfr]
      simp only [h0, ne_eq, not_true_eq_false, if_false]
      cases paretoScan val new (f0 :: rest) <;> rfl
    cases hs : paretoScan val new front with
    | none =>
      obtain ⟨y, hy, hby⟩ := hscan.1 hs
      rw [hs] at hrun
      refine ⟨false, front, hrun, ⟨fun x hx => by simp [hf.sub x hx], hf.anti, ?_⟩, ?_, by simp,
        by simp⟩
      · intro x hx
        rcases List.mem_cons.1 hx with rfl | hx
        · exact ⟨y, hy, hby⟩
        · exact hf.covers x hx
      · simp; exact ⟨y, hy, hby⟩
    | some rm =>
      obtain ⟨_, hrm⟩ := paretoScan_some hlen hs
      have hnone : ¬ ∃ x ∈ front, Below (val new) (val x) := fun h => by
        rw [hscan.2 h] at hs; simp at hs
      rw [hs] at hrun
      have hmem : ∀ x, x ∈ rm.foldl List.erase front ↔ x ∈ front ∧ ¬ Below (val x) (val new) := by
        intro x
        rw [mem_foldl_erase hf.nodup, hrm, List.mem_filter]
        constructor
        · rintro ⟨h1, h2⟩
          refine ⟨h1, fun h => h2 ⟨h1, (allLe_iff (hlen x h1)).2 h⟩⟩
        · rintro ⟨h1, h2⟩
          exact ⟨h1, fun h => h2 ((allLe_iff (hlen x h1)).1 h.2)⟩
      refine ⟨true, _, hrun, ⟨?_, ?_, ?_⟩, by simpa using hnone, fun _ => ⟨by simp, ?_⟩, by simp⟩
      · intro x hx
        rcases List.mem_append.1 hx with hx | hx
        · simp [hf.sub x ((hmem x).1 hx).1]
        · simp at hx; simp [hx]
      · rw [List.pairwise_append]
        refine ⟨hf.anti.sublist foldl_erase_sublist, by simp, ?_⟩
        intro x hx y hy
        simp at hy; subst hy
        exact ⟨((hmem x).1 hx).2, fun h => hnone ⟨x, ((hmem x).1 hx).1, h⟩⟩
      · intro x hx
        rcases List.mem_cons.1 hx with rfl | hx
        · exact ⟨x, by simp, Below.refl _⟩
        · obtain ⟨y, hy, hby⟩ := hf.covers x hx
          by_cases hyn : Below (val y) (val new)
          · exact ⟨new, by simp, hby.trans hyn⟩
          · exact ⟨y, List.mem_append_left _ ((hmem y).2 ⟨hy, hyn⟩), hby⟩
      · intro x hx
        rcases List.mem_append.1 hx with hx | hx
        · exact Or.inr ((hmem x).1 hx)
        · simp at hx; exact Or.inl hx

/-- Offering a list of items of one arity to a front. -/
theorem paretoOffer_spec {b : Bool} {val : α → List S} {k : Nat} : ∀ {items offered front : List α},
    IsFront val offered front → (∀ x ∈ offered, (val x).length = k) →
    (∀ x ∈ items, (val x).length = k) →
    ∃ front', paretoOffer b val items front = (.ok (), front') ∧
      IsFront val (items.reverse ++ offered) front'
  | [], offered, front, hf, _, _ => ⟨front, rfl, by simpa using hf⟩
  | x :: items, offered, front, hf, ho, hi => by
    obtain ⟨r, front₁, h1, h2, _⟩ := paretoUpdate_spec (b := b) (new := x) hf
      (fun y hy => (ho y (hf.sub y hy)).trans (hi x (by simp)).symm)
    obtain ⟨front', h3, h4⟩ := paretoOffer_spec (b := b) (items := items) (k := k) h2
      (by intro y hy; rcases List.mem_cons.1 hy with rfl | hy
          · exact hi y (by simp)
          · exact ho y hy)
      (fun y hy => hi y (by simp [hy]))
    refine ⟨front', ?_, by simpa using h4⟩
    exact (bind_ok h1).trans h3

/-- **C15.** After offering any list of items with the same number of objectives to an empty
front: (1) every member was offered, (2) no member is dominated or equalled by another
member, (3) every offered item is dominated or equalled by some member, and hence (4) the
values of the members are exactly the maximal values offered, (5) each once. -/
theorem C15_front_is_maximal {b : Bool} {val : α → List S} {k : Nat} (items : List α)
    (hk : ∀ x ∈ items, (val x).length = k) :
    ∃ front, paretoOffer b val items [] = (.ok (), front) ∧
      (∀ x ∈ front, x ∈ items) ∧
      (front.Pairwise fun x y => ¬ Below (val x) (val y) ∧ ¬ Below (val y) (val x)) ∧
      (∀ x ∈ items, ∃ y ∈ front, Below (val x) (val y)) ∧
      (∀ v, v ∈ front.map val ↔
        v ∈ items.map val ∧ ∀ x ∈ items, Below v (val x) → val x = v) ∧
      (front.map val).Nodup := by
  obtain ⟨front, h1, h2⟩ := paretoOffer_spec (b := b) (val := val) (k := k) (items := items)
    (offered := []) (front := []) ⟨by simp, by simp, by simp⟩ (by simp) hk
  have hsub : ∀ x ∈ front, x ∈ items := fun x hx => by simpa using h2.sub x hx
  have hcov : ∀ x ∈ items, ∃ y ∈ front, Below (val x) (val y) :=
    fun x hx => h2.covers x (by simpa using hx)
  have hanti : ∀ x ∈ front, ∀ y ∈ front, Below (val x) (val y) → val x = val y := by
    intro x hx y hy hb
    by_cases hxy : x = y
    · rw [hxy]
    · exact absurd hb (h2.ne hx hy hxy)
  refine ⟨front, h1, hsub, h2.anti, hcov, ?_, ?_⟩
  · intro v
    constructor
    · intro hv
      obtain ⟨y, hy, rfl⟩ := List.mem_map.1 hv
      refine ⟨List.mem_map.2 ⟨y, hsub y hy, rfl⟩, ?_⟩
      intro x hx hb
      obtain ⟨z, hz, hbz⟩ := hcov x hx
      have := hanti y hy z hz (hb.trans hbz)
      rw [← this] at hbz
      exact hbz.antisymm hb
    · rintro ⟨hv, hmax⟩
      obtain ⟨x, hx, rfl⟩ := List.mem_map.1 hv
      obtain ⟨y, hy, hb⟩ := hcov x hx
      exact List.mem_map.2 ⟨y, hy, hmax y (hsub y hy) hb⟩
  · rw [List.Nodup, List.pairwise_map]
    refine h2.anti.imp ?_
    rintro a c h e
    rw [e] at h
    exact h.1 (Below.refl _)

/-- A front reachable by offering items. -/
def Reached (b : Bool) (val : α → List S) (items front : List α) : Prop :=
  paretoOffer b val items [] = (.ok (), front)

/-- **C16**, order independence: offering the same items in any other order gives a front
with the same value vectors. -/
theorem C16_order_independent {b : Bool} {val : α → List S} {k : Nat} {items items' : List α}
    (hk : ∀ x ∈ items, (val x).length = k) (hperm : items.Perm items') {front front' : List α}
    (h : Reached b val items front) (h' : Reached b val items' front') :
    (front.map val).Perm (front'.map val) := by
  obtain ⟨f, h1, _, _, _, h2, h3⟩ := C15_front_is_maximal (b := b) items hk
  obtain ⟨f', h1', _, _, _, h2', h3'⟩ := C15_front_is_maximal (b := b) items'
    (fun x hx => hk x (hperm.mem_iff.2 hx))
  unfold Reached at h h'
  rw [h1] at h; rw [h1'] at h'
  injection h with _ h; injection h' with _ h'
  subst h; subst h'
  refine (List.perm_ext_iff_of_nodup h3 h3').2 (fun v => ?_)
  rw [h2, h2']
  simp only [(hperm.map val).mem_iff, hperm.mem_iff]

/-- **C16**, result of `update`: on any front reached by offering items, an item with the
right number of objectives is accepted (`True`) exactly when no member dominates or equals
it; then it is the newest member and exactly the members it dominates or equals are gone;
otherwise (`False`) the front is unchanged. -/
theorem C16_update_result {b : Bool} {val : α → List S} {k : Nat} {items front : List α}
    (hk : ∀ x ∈ items, (val x).length = k) (h : Reached b val items front) {new : α}
    (hnew : (val new).length = k) :
    ∃ r front', paretoUpdate b val new front = (.ok r, front') ∧
      (r = true ↔ ¬ ∃ x ∈ front, Below (val new) (val x)) ∧
      (r = true → new ∈ front' ∧
        ∀ x, x ∈ front' ↔ x = new ∨ (x ∈ front ∧ ¬ Below (val x) (val new))) ∧
      (r = false → front' = front) := by
  obtain ⟨f, h1, h2⟩ := paretoOffer_spec (b := b) (val := val) (k := k) (items := items)
    (offered := []) (front := []) ⟨by simp, by simp, by simp⟩ (by simp) hk
  unfold Reached at h
  rw [h1] at h
  injection h with _ h
  subst h
  have hlen : ∀ x ∈ f, (val x).length = (val new).length := fun x hx =>
    (hk x (by simpa using h2.sub x hx)).trans hnew.symm
  obtain ⟨r, front', g1, g2, g3, g4, g5⟩ := paretoUpdate_spec (b := b) (new := new) h2 hlen
  refine ⟨r, front', g1, g3, fun hr => ⟨?_, ?_⟩, g5⟩
  · exact List.mem_of_getLast? (g4 hr).1
  · intro x
    refine ⟨(g4 hr).2 x, ?_⟩
    rintro (rfl | ⟨hx, hb⟩)
    · exact List.mem_of_getLast? (g4 hr).1
    · obtain ⟨y, hy, hby⟩ := g2.covers x (List.mem_cons_of_mem _ (h2.sub x hx))
      rcases (g4 hr).2 y hy with rfl | ⟨hy', _⟩
      · exact absurd hby hb
      · -- two members of the old front
        by_cases hxy : x = y
        · subst hxy; exact hy
        · exact absurd hby (h2.ne hx hy' hxy)

/-- **C16**, errors: an item with another number of objectives is rejected by a non-empty
front, which stays as it is. -/
theorem C16_wrong_arity {b : Bool} {val : α → List S} {k : Nat} {items front : List α}
    (hk : ∀ x ∈ items, (val x).length = k) (h : Reached b val items front) (hne : front ≠ [])
    {new : α} (hnew : (val new).length ≠ k) :
    ∃ e, paretoUpdate b val new front = (.error e, front) ∧ (e = .valueError ∨ e = .typeError) := by
  obtain ⟨f, h1, hsub, _⟩ := C15_front_is_maximal (b := b) items hk
  unfold Reached at h
  rw [h1] at h
  injection h with _ h
  subst h
  cases hf : f with
  | nil => exact absurd hf hne
  | cons f0 rest =>
    have h0 : (val f0).length ≠ (val new).length := by
      rw [hk f0 (hsub f0 (by rw [hf]; simp))]; exact Ne.symm hnew
    refine ⟨if b then .valueError else .typeError, ?_, ?_⟩
    · unfold paretoUpdate
      rw [bind_ok get_run]
      simp only [if_pos h0]
      rfl
    · cases b <;> simp

end

/-- Five offers, two of which survive. -/
example : ∃ front, paretoOffer true (fun x : List Nat => x) [[1, 2], [2, 1], [1, 1], [3, 1], [1, 2]]
    [] = (.ok (), front) ∧ front = [[1, 2], [3, 1]] := ⟨_, rfl, rfl⟩

example : (paretoUpdate true (fun x : List Nat => x) [1] [[1, 2]]) = (.error .valueError, [[1, 2]]) :=
  rfl

/-! ### Cases of the theorems above -/

/-- `C15_front_is_maximal`, `C16_order_independent`, `C16_update_result`, `C16_wrong_arity`: the five vectors of the first
example, the same from behind, one more vector, and one of another length. -/
example : ∃ front front', paretoOffer true (fun x : List Nat => x) [[1, 2], [2, 1], [1, 1], [3, 1], [1, 2]] [] = (.ok (), front) ∧
    paretoOffer true (fun x : List Nat => x) [[1, 2], [3, 1], [1, 1], [2, 1], [1, 2]] [] = (.ok (), front') ∧
    (front.map fun x => x).Nodup ∧ (front.map fun x => x).Perm (front'.map fun x => x) ∧
    (∃ r f, paretoUpdate true (fun x : List Nat => x) [2, 2] front = (.ok r, f) ∧
      (r = true ↔ ¬ ∃ x ∈ front, Below [2, 2] x)) ∧
    ∃ e, paretoUpdate true (fun x : List Nat => x) [1] front = (.error e, front) :=
  have hk : ∀ x ∈ [[1, 2], [2, 1], [1, 1], [3, 1], [1, 2]], x.length = 2 := by decide
  have hk' : ∀ x ∈ [[1, 2], [3, 1], [1, 1], [2, 1], [1, 2]], x.length = 2 := by decide
  let ⟨front, h, _, _, hc, _, hn⟩ := C15_front_is_maximal (b := true) (val := fun x : List Nat => x) _ hk
  let ⟨front', h', _⟩ := C15_front_is_maximal (b := true) (val := fun x : List Nat => x) _ hk'
  have hne : front ≠ [] := fun he => by
    obtain ⟨y, hy, _⟩ := hc [1, 2] (by decide)
    rw [he] at hy
    cases hy
  ⟨front, front', h, h', hn, C16_order_independent hk (by decide) h h',
    let ⟨r, f, hu, hr, _⟩ := C16_update_result hk h (new := [2, 2]) rfl
    ⟨r, f, hu, hr⟩,
    let ⟨e, he, _⟩ := C16_wrong_arity hk h hne (new := [1]) (by decide)
    ⟨e, he⟩⟩

end Gama
