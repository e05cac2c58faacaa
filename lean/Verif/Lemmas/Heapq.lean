import Verif.Model.Heapq
import Mathlib.Data.List.Perm.Basic

/-! # heapq keeps the heap property, the items, and the smallest item in front -/

namespace Gama

section
variable {α K : Type} [LinearOrder K] {key : α → K}

/-- Every item is at least its parent. -/
def IsHeap (key : α → K) (h : List α) : Prop :=
  ∀ i a p, 0 < i → h[i]? = some a → h[(i - 1) / 2]? = some p → key p ≤ key a

theorem set_perm_cons {l : List α} {i : Nat} (hi : i < l.length) (a : α) :
    (l.set i a).Perm (a :: l.eraseIdx i) := by
  have := List.getElem_cons_eraseIdx_perm (l := l.set i a) (n := i) (by simpa using hi)
  rw [List.eraseIdx_set_eq] at this
  simpa using this.symm

theorem set_set_perm {l : List α} {i j : Nat} (hi : i < l.length) (hj : j < l.length)
    (hij : i ≠ j) (a b : α) : ((l.set i a).set j b).Perm ((l.set i b).set j a) := by
  have key : ∀ a b : α, ((l.set i a).set j b).Perm
      (b :: a :: (l.eraseIdx j).eraseIdx (if i < j then i else i - 1)) := by
    intro a b
    refine (set_perm_cons (by simpa using hj) b).trans (List.Perm.cons _ ?_)
    by_cases h : i < j
    · rw [if_pos h, List.eraseIdx_set_gt h]
      exact set_perm_cons (by rw [List.length_eraseIdx]; split <;> omega) a
    · have h' : j < i := by omega
      rw [if_neg h, List.eraseIdx_set_lt h']
      exact set_perm_cons (by rw [List.length_eraseIdx]; split <;> omega) a
  exact (key a b).trans ((List.Perm.swap _ _ _).trans (key b a).symm)

theorem set_same {l : List α} {i j : Nat} {x v : α} (hij : i ≠ j) (hv : l[j]? = some v) :
    (l.set i x).set j v = l.set i x := by
  apply List.ext_getElem?
  intro k
  rw [List.getElem?_set]
  split
  next h =>
    subst h
    obtain ⟨hj, hv'⟩ := List.getElem?_eq_some_iff.1 hv
    rw [if_pos (by simpa using hj), List.getElem?_set, if_neg hij, hv]
  next h => rfl

theorem siftDown_spec (x : α) : ∀ (fuel : Nat) (h : List α) (pos : Nat), pos ≤ fuel →
    pos < h.length →
    (∀ i a p, 0 < i → i ≠ pos → (i - 1) / 2 ≠ pos → h[i]? = some a →
      h[(i - 1) / 2]? = some p → key p ≤ key a) →
    (∀ i a, 0 < i → (i - 1) / 2 = pos → h[i]? = some a → key x ≤ key a ∧
      ∀ p, 0 < pos → h[(pos - 1) / 2]? = some p → key p ≤ key a) →
    IsHeap key (siftDown key fuel h pos x) ∧ (siftDown key fuel h pos x).Perm (h.set pos x) := by
  have stop : ∀ (h : List α) (pos : Nat), pos < h.length →
      (∀ i a p, 0 < i → i ≠ pos → (i - 1) / 2 ≠ pos → h[i]? = some a →
        h[(i - 1) / 2]? = some p → key p ≤ key a) →
      (∀ i a, 0 < i → (i - 1) / 2 = pos → h[i]? = some a → key x ≤ key a) →
      (∀ p, 0 < pos → h[(pos - 1) / 2]? = some p → key p ≤ key x) →
      IsHeap key (h.set pos x) := by
    intro h pos hpos hA hB hC i a p hi ha hp
    rw [List.getElem?_set] at ha hp
    by_cases h1 : pos = i
    · subst h1
      rw [if_pos rfl, if_pos hpos] at ha
      rw [if_neg (by omega)] at hp
      cases ha
      exact hC p hi hp
    · rw [if_neg h1] at ha
      by_cases h2 : pos = (i - 1) / 2
      · rw [if_pos h2, if_pos hpos] at hp
        cases hp
        exact hB i a hi h2.symm ha
      · rw [if_neg h2] at hp
        exact hA i a p hi (fun e => h1 e.symm) (fun e => h2 e.symm) ha hp
  intro fuel
  induction fuel with
  | zero =>
    intro h pos hf hpos hA hB
    have h0 : pos = 0 := by omega
    refine ⟨?_, List.Perm.refl _⟩
    exact stop h pos hpos hA (fun i a hi hp ha => (hB i a hi hp ha).1) (fun p h1 => by omega)
  | succ fuel ih =>
    intro h pos hf hpos hA hB
    have hstop : (∀ p, 0 < pos → h[(pos - 1) / 2]? = some p → key p ≤ key x) →
        IsHeap key (h.set pos x) :=
      stop h pos hpos hA (fun i a hi hp ha => (hB i a hi hp ha).1)
    simp only [siftDown]
    split
    next h0 =>
      split
      next hn =>
        rw [List.getElem?_eq_none_iff] at hn
        omega
      next q hq =>
        split
        next hlt =>
          have hle := le_of_lt hlt
          have := ih (h.set pos q) ((pos - 1) / 2) (by omega) (by rw [List.length_set]; omega) ?_ ?_
          · refine ⟨this.1, this.2.trans ?_⟩
            have e := (set_same (l := h) (x := x) (i := pos) (j := (pos - 1) / 2) (by omega) hq).symm
            rw [e]
            exact set_set_perm hpos (by omega) (by omega) q x
          · intro i a p hi h1 h2 ha hp
            rw [List.getElem?_set] at ha hp
            rw [if_neg (by rintro rfl; exact h2 rfl)] at ha
            by_cases h3 : pos = (i - 1) / 2
            · rw [if_pos h3, if_pos hpos] at hp
              cases hp
              exact (hB i a hi h3.symm ha).2 _ h0 hq
            · rw [if_neg h3] at hp
              exact hA i a p hi (by rintro rfl; exact h2 rfl) (fun e => h3 e.symm) ha hp
          · intro i a hi h1 ha
            have hg : ∀ g, 0 < (pos - 1) / 2 →
                (h.set pos q)[((pos - 1) / 2 - 1) / 2]? = some g → key g ≤ key q := by
              intro g hg0 hg
              rw [List.getElem?_set, if_neg (by omega)] at hg
              exact hA _ _ _ hg0 (by omega) (by omega) hq hg
            have hqa : key q ≤ key a := by
              rw [List.getElem?_set] at ha
              by_cases h3 : pos = i
              · rw [if_pos h3, if_pos hpos] at ha
                cases ha; exact le_refl _
              · rw [if_neg h3] at ha
                exact hA i a q hi (fun e => h3 e.symm) (by omega) ha (by rw [h1]; exact hq)
            exact ⟨le_trans hle hqa, fun g hg0 hgg => le_trans (hg g hg0 hgg) hqa⟩
        next hnlt =>
          refine ⟨hstop ?_, List.Perm.refl _⟩
          intro p _ hp
          rw [hq] at hp; cases hp
          exact not_lt.1 hnlt
    next h0 => exact ⟨hstop fun p h1 => absurd h1 h0, List.Perm.refl _⟩

/-- Heap order away from a hole; the children of the hole are at least its parent. -/
def HoleAt (key : α → K) (h : List α) (pos : Nat) : Prop :=
  (∀ i a p, 0 < i → i ≠ pos → (i - 1) / 2 ≠ pos → h[i]? = some a →
    h[(i - 1) / 2]? = some p → key p ≤ key a) ∧
  (∀ i a p, 0 < i → 0 < pos → (i - 1) / 2 = pos → h[i]? = some a →
    h[(pos - 1) / 2]? = some p → key p ≤ key a)

theorem HoleAt.down {h : List α} {pos c : Nat} {v : α} (hh : HoleAt key h pos)
    (hpos : pos < h.length) (hc : 0 < c) (hpc : (c - 1) / 2 = pos) (hv : h[c]? = some v)
    (hmin : ∀ i a, 0 < i → (i - 1) / 2 = pos → h[i]? = some a → key v ≤ key a) :
    HoleAt key (h.set pos v) c := by
  constructor
  · intro i a p hi h1 h2 ha hp
    rw [List.getElem?_set] at ha hp
    by_cases h3 : pos = i
    · subst h3
      rw [if_pos rfl, if_pos hpos] at ha
      rw [if_neg (by omega)] at hp
      cases ha
      exact hh.2 c v p hc hi hpc hv hp
    · rw [if_neg h3] at ha
      by_cases h4 : pos = (i - 1) / 2
      · rw [if_pos h4, if_pos hpos] at hp
        cases hp
        exact hmin i a hi h4.symm ha
      · rw [if_neg h4] at hp
        exact hh.1 i a p hi (fun e => h3 e.symm) (fun e => h4 e.symm) ha hp
  · intro i a p hi _ h1 ha hp
    rw [List.getElem?_set] at ha hp
    rw [if_neg (by omega)] at ha
    rw [hpc, if_pos rfl, if_pos hpos] at hp
    cases hp
    exact hh.1 i a v hi (by omega) (by omega) ha (by rw [h1]; exact hv)

theorem siftHole_spec (x : α) : ∀ (fuel : Nat) (h : List α) (pos : Nat),
    pos < h.length → h.length ≤ fuel + pos → HoleAt key h pos →
    let r := siftHole key fuel h pos
    r.2 < r.1.length ∧ HoleAt key r.1 r.2 ∧ r.1[2 * r.2 + 1]? = none ∧
      (r.1.set r.2 x).Perm (h.set pos x) := by
  intro fuel
  induction fuel with
  | zero => intro h pos hpos hf; omega
  | succ fuel ih =>
    intro h pos hpos hf hh
    have step : ∀ c v, 0 < c → (c - 1) / 2 = pos → h[c]? = some v →
        (∀ i a, 0 < i → (i - 1) / 2 = pos → h[i]? = some a → key v ≤ key a) →
        let r := siftHole key fuel (h.set pos v) c
        r.2 < r.1.length ∧ HoleAt key r.1 r.2 ∧ r.1[2 * r.2 + 1]? = none ∧
          (r.1.set r.2 x).Perm (h.set pos x) := by
      intro c v hc hpc hv hmin
      have hcl : c < h.length := by
        by_contra hcl
        rw [List.getElem?_eq_none_iff.2 (by omega)] at hv
        cases hv
      have := ih (h.set pos v) c (by simpa using hcl) (by simp; omega)
        (hh.down hpos hc hpc hv hmin)
      refine ⟨this.1, this.2.1, this.2.2.1, this.2.2.2.trans ?_⟩
      have e := (set_same (l := h) (x := x) (i := pos) (j := c) (by omega) hv).symm
      rw [e]
      exact set_set_perm hpos hcl (by omega) v x
    simp only [siftHole]
    split
    next hn =>
      exact ⟨hpos, hh, hn, List.Perm.refl _⟩
    next l hl hr =>
      refine step (2 * pos + 1) l (by omega) (by omega) hl ?_
      intro i a hi hp ha
      have : i = 2 * pos + 1 ∨ i = 2 * pos + 2 := by omega
      rcases this with rfl | rfl
      · rw [hl] at ha; cases ha; exact le_refl _
      · rw [hr] at ha; cases ha
    next l r hl hr =>
      split
      next hlt =>
        refine step (2 * pos + 1) l (by omega) (by omega) hl ?_
        intro i a hi hp ha
        have : i = 2 * pos + 1 ∨ i = 2 * pos + 2 := by omega
        rcases this with rfl | rfl
        · rw [hl] at ha; cases ha; exact le_refl _
        · rw [hr] at ha; cases ha; exact le_of_lt hlt
      next hlt =>
        refine step (2 * pos + 2) r (by omega) (by omega) hr ?_
        intro i a hi hp ha
        have : i = 2 * pos + 1 ∨ i = 2 * pos + 2 := by omega
        rcases this with rfl | rfl
        · rw [hl] at ha; cases ha; exact not_lt.1 hlt
        · rw [hr] at ha; cases ha; exact le_refl _

theorem IsHeap.head_le {h : List α} {r : α} (hh : IsHeap key (r :: h)) :
    ∀ a ∈ r :: h, key r ≤ key a := by
  have : ∀ n i : Nat, i ≤ n → ∀ a, (r :: h)[i]? = some a → key r ≤ key a := by
    intro n
    induction n with
    | zero =>
      intro i hi a ha
      have : i = 0 := by omega
      subst this
      simp at ha; rw [ha]
    | succ n ih =>
      intro i hi a ha
      by_cases h0 : i = 0
      · subst h0; simp at ha; rw [ha]
      · have hil : i < (r :: h).length := by
          by_contra hcl
          rw [List.getElem?_eq_none_iff.2 (by omega)] at ha
          cases ha
        have hp : (i - 1) / 2 < (r :: h).length := by omega
        have hq := List.getElem?_eq_getElem hp
        exact le_trans (ih _ (by omega) _ hq) (hh i a _ (by omega) ha hq)
  intro a ha
  obtain ⟨i, hi⟩ := List.getElem?_of_mem ha
  exact this i i (Nat.le_refl _) a hi

theorem isHeap_nil : IsHeap key ([] : List α) := by
  intro i a p _ ha
  simp at ha

theorem heappush_spec {h : List α} (hh : IsHeap key h) (x : α) :
    IsHeap key (heappush key h x) ∧ (heappush key h x).Perm (x :: h) := by
  have := siftDown_spec (key := key) x h.length (h ++ [x]) h.length (Nat.le_refl _) (by simp) ?_ ?_
  · refine ⟨this.1, this.2.trans ?_⟩
    have e : (h ++ [x]).set h.length x = h ++ [x] := by simp
    rw [e]
    exact List.perm_append_singleton x h
  · intro i a p hi h1 h2 ha hp
    have hil : i < h.length := by
      have : i < (h ++ [x]).length := by
        by_contra hc
        rw [List.getElem?_eq_none_iff.2 (by omega)] at ha; cases ha
      simp at this; omega
    rw [List.getElem?_append_left hil] at ha
    rw [List.getElem?_append_left (by omega)] at hp
    exact hh i a p hi ha hp
  · intro i a hi hp ha
    have : i < (h ++ [x]).length := by
      by_contra hc
      rw [List.getElem?_eq_none_iff.2 (by omega)] at ha; cases ha
    simp at this; omega

/-- What `heappushpop` does: the new item comes back unless it is greater than the smallest;
then the smallest comes back and the new item takes its place. -/
theorem heappushpop_spec {h : List α} (hh : IsHeap key h) (x : α) :
    (heappushpop key h x = (x, h) ∧ ∀ a ∈ h, key x ≤ key a) ∨
    (∃ r h', heappushpop key h x = (r, h') ∧ key r < key x ∧ r ∈ h ∧ (∀ a ∈ h, key r ≤ key a) ∧
      IsHeap key h' ∧ (r :: h').Perm (x :: h)) := by
  cases h with
  | nil => left; simp [heappushpop]
  | cons r t =>
    simp only [heappushpop]
    split
    next hlt =>
      right
      refine ⟨r, _, rfl, hlt, by simp, hh.head_le, ?_⟩
      have h1 := siftHole_spec (key := key) x (r :: t).length (r :: t) 0 (by simp) (by simp)
        ⟨fun i a p hi _ _ ha hp => hh i a p hi ha hp, fun i a p _ h0 => by omega⟩
      obtain ⟨hlen, hhole, hleaf, hperm⟩ := h1
      have h2 := siftDown_spec (key := key) x
        (siftHole key (r :: t).length (r :: t) 0).2 (siftHole key (r :: t).length (r :: t) 0).1
        (siftHole key (r :: t).length (r :: t) 0).2 (Nat.le_refl _) hlen hhole.1 ?_
      · refine ⟨h2.1, ?_⟩
        have : (siftUp key (r :: t) x).Perm (x :: t) := h2.2.trans hperm
        exact (this.cons r).trans (List.Perm.swap _ _ _)
      · intro i a hi hp ha
        exfalso
        rw [List.getElem?_eq_none_iff] at hleaf
        have : i < (siftHole key (r :: t).length (r :: t) 0).1.length := by
          by_contra hc
          rw [List.getElem?_eq_none_iff.2 (by omega)] at ha; cases ha
        omega
    next hlt =>
      left
      refine ⟨rfl, fun a ha => le_trans (not_lt.1 hlt) (hh.head_le a ha)⟩

end
end Gama
