import Verif.Model.Config
import Mathlib.Data.List.Basic
import Mathlib.Data.List.Nodup
import Mathlib.Data.List.Perm.Basic

/-! # Merging configurations (C62) and hyperparameter precedence (C63) -/

namespace Gama

namespace Spec

section
variable {K : Type} [DecidableEq K]

/-- The values that are met when iterating over what is listed; those of a dictionary are its keys. -/
def Holds : MergeVal → Value → Prop
  | .seq _ vs, v => ∃ u ∈ vs, u.pyEq v = true
  | .dict d, v => ∃ k ∈ d.map Prod.fst, v = .str k

/-- A dictionary of hyperparameters lists a value for a hyperparameter. -/
def Lists (h : HParams) (n : Str) (v : Value) : Prop :=
  ∃ w, dget h n = some w ∧ Holds w v

/-- A configuration lists a value for a hyperparameter of an algorithm. -/
def Offers (heap : List HParams) (c : List (K × MergeEntry)) (k : K) (n : Str) (v : Value) : Prop :=
  ∃ r h, dget c k = some (.ref r) ∧ heap[r]? = some h ∧ Lists h n v

/-- A configuration lists a value for a shared hyperparameter. -/
def OffersShared (c : List (K × MergeEntry)) (k : K) (v : Value) : Prop :=
  ∃ t vs, dget c k = some (.shared t vs) ∧ ∃ u ∈ vs, u.pyEq v = true

/-- The dictionaries a configuration refers to. -/
def refs : List (K × MergeEntry) → List Nat
  | [] => []
  | (_, .ref r) :: c => r :: refs c
  | (_, .shared _ _) :: c => refs c

/-- Two configurations whose keys occur once and which have their own dictionaries. -/
structure Mergeable (c1 c2 : List (K × MergeEntry)) (heap : List HParams) : Prop where
  keys1 : DictOK c1
  keys2 : DictOK c2
  apart : (refs c1 ++ refs c2).Nodup
  dicts : ∀ (r : Nat) (h : HParams), heap[r]? = some h → DictOK h

/-- A value the search space of a configuration offers: one listed, or one listed for the shared
hyperparameter of that name when the list is empty. -/
def InSpace (key : Str → K) (heap : List HParams) (c : List (K × MergeEntry)) (k : K) (n : Str)
    (v : Value) : Prop :=
  Offers heap c k n v ∨
    (∃ r h, dget c k = some (.ref r) ∧ heap[r]? = some h ∧ dget h n = some (.seq listTag [])) ∧
      OffersShared c (key n) v

end

end Spec

section
variable {K : Type} [DecidableEq K]

theorem pyEq_eq {a b : Value} (h : a.pyEq b = true) (w : Value) : a.pyEq w = b.pyEq w := by
  cases a <;> cases b <;> simp [Value.pyEq] at h <;> cases w <;> simp [Value.pyEq, h]

theorem mem_asSet {l : List Value} {v : Value} :
    (∃ u ∈ asSet l, u.pyEq v = true) ↔ ∃ u ∈ l, u.pyEq v = true := by
  induction l with
  | nil => simp [asSet]
  | cons x l ih =>
    unfold asSet
    constructor
    · rintro ⟨u, hu, e⟩
      rcases List.mem_cons.1 hu with rfl | hu
      · exact ⟨u, List.mem_cons_self, e⟩
      · obtain ⟨w, hw, e'⟩ := ih.1 ⟨u, (List.mem_filter.1 hu).1, e⟩
        exact ⟨w, List.mem_cons_of_mem _ hw, e'⟩
    · rintro ⟨u, hu, e⟩
      rcases List.mem_cons.1 hu with rfl | hu
      · exact ⟨u, List.mem_cons_self, e⟩
      · obtain ⟨w, hw, e'⟩ := ih.2 ⟨u, hu, e⟩
        by_cases hx : w.pyEq x = true
        · exact ⟨x, List.mem_cons_self, by rw [← pyEq_eq hx]; exact e'⟩
        · exact ⟨w, List.mem_cons_of_mem _ (List.mem_filter.2 ⟨hw, by simpa using hx⟩), e'⟩

theorem lists_dset {h : HParams} {n n' : Str} {w : MergeVal} {v : Value} :
    Spec.Lists (dset h n w) n' v ↔
      (n = n' ∧ Spec.Holds w v) ∨ (n ≠ n' ∧ Spec.Lists h n' v) := by
  unfold Spec.Lists
  rw [dget_dset]
  by_cases e : n = n'
  · simp [e]
  · simp [e]

theorem lists_cons {h : HParams} {n n' : Str} {w : MergeVal} {v : Value} :
    Spec.Lists ((n, w) :: h) n' v ↔
      (n = n' ∧ Spec.Holds w v) ∨ (n ≠ n' ∧ Spec.Lists h n' v) := by
  unfold Spec.Lists
  simp only [dget]
  by_cases e : n = n'
  · simp [e]
  · simp [e]

theorem not_lists {h : HParams} {n : Str} {v : Value} (hn : n ∉ h.map Prod.fst) :
    ¬ Spec.Lists h n v := by
  rintro ⟨w, e, _⟩
  rw [dget_eq_none.2 hn] at e
  cases e

theorem mem_keys_dmerge {V : Type} : ∀ (b a : List (Str × V)) (k : Str),
    k ∈ (dmerge a b).map Prod.fst ↔ k ∈ a.map Prod.fst ∨ k ∈ b.map Prod.fst := by
  intro b
  induction b with
  | nil => intro a k; simp [dmerge]
  | cons x b ih =>
    intro a k
    have : dmerge a (x :: b) = dmerge (dset a x.1 x.2) b := rfl
    rw [this, ih, mem_keys_dset]
    simp only [List.map_cons, List.mem_cons]
    tauto

theorem mergeVals_lists {a b w : MergeVal} (h : mergeVals a b = .ok w) (v : Value) :
    Spec.Holds w v ↔ Spec.Holds a v ∨ Spec.Holds b v := by
  cases a with
  | dict d1 =>
    cases b with
    | dict d2 =>
      cases h
      unfold Spec.Holds
      simp only [mem_keys_dmerge]
      constructor
      · rintro ⟨k, h1 | h1, h2⟩
        · exact Or.inl ⟨k, h1, h2⟩
        · exact Or.inr ⟨k, h1, h2⟩
      · rintro (⟨k, h1, h2⟩ | ⟨k, h1, h2⟩)
        · exact ⟨k, Or.inl h1, h2⟩
        · exact ⟨k, Or.inr h1, h2⟩
    | seq t2 v2 => cases h
  | seq t1 v1 =>
    cases b with
    | dict d2 => cases h
    | seq t2 v2 =>
      unfold mergeVals at h
      dsimp only at h
      by_cases e : t1 = t2
      · rw [if_pos e] at h
        cases h
        show (∃ u ∈ asSet (v1 ++ v2), u.pyEq v = true) ↔
            (∃ u ∈ v1, u.pyEq v = true) ∨ ∃ u ∈ v2, u.pyEq v = true
        rw [mem_asSet]
        simp only [List.mem_append]
        constructor
        · rintro ⟨u, h1 | h1, h2⟩
          · exact Or.inl ⟨u, h1, h2⟩
          · exact Or.inr ⟨u, h1, h2⟩
        · rintro (⟨u, h1, h2⟩ | ⟨u, h1, h2⟩)
          · exact ⟨u, Or.inl h1, h2⟩
          · exact ⟨u, Or.inr h1, h2⟩
      · rw [if_neg e] at h; cases h

theorem mergeParams_lists : ∀ (h2 : HParams), DictOK h2 → ∀ (h1 h : HParams),
    mergeParams h1 h2 = (h, none) → (DictOK h1 → DictOK h) ∧
    ∀ n v, Spec.Lists h n v ↔ Spec.Lists h1 n v ∨ Spec.Lists h2 n v := by
  intro h2
  induction h2 with
  | nil =>
    intro _ h1 h e
    cases e
    exact ⟨id, fun n v => by simp [Spec.Lists, dget]⟩
  | cons p h2 ih =>
    obtain ⟨m, w⟩ := p
    intro hd h1 h e
    have hd' : m ∉ h2.map Prod.fst ∧ DictOK h2 := List.nodup_cons.1 hd
    unfold mergeParams at e
    cases hg : dget h1 m with
    | none =>
      rw [hg] at e
      dsimp only at e
      obtain ⟨i1, i2⟩ := ih hd'.2 _ _ e
      refine ⟨fun hh => i1 (hh.dset _ _), ?_⟩
      intro n v
      rw [i2, lists_dset, lists_cons]
      by_cases hmn : m = n
      · subst hmn
        have e1 : ¬ Spec.Lists h1 m v := by
          rintro ⟨w, e, _⟩; rw [hg] at e; cases e
        have e2 : ¬ Spec.Lists h2 m v := not_lists hd'.1
        simp [e1, e2]
      · simp [hmn]
    | some w1 =>
      rw [hg] at e
      dsimp only at e
      cases hm : mergeVals w1 w with
      | error x => rw [hm] at e; cases e
      | ok w2 =>
        rw [hm] at e
        dsimp only at e
        obtain ⟨i1, i2⟩ := ih hd'.2 _ _ e
        refine ⟨fun hh => i1 (hh.dset _ _), ?_⟩
        intro n v
        rw [i2, lists_dset, lists_cons]
        by_cases hmn : m = n
        · subst hmn
          have e2 : ¬ Spec.Lists h2 m v := not_lists hd'.1
          have e1 : Spec.Lists h1 m v ↔ Spec.Holds w1 v := by
            unfold Spec.Lists; rw [hg]; simp
          rw [mergeVals_lists hm v, e1]
          simp [e2]
        · simp [hmn]

omit [DecidableEq K] in
theorem mem_refs {c : List (K × MergeEntry)} {r : Nat} :
    r ∈ Spec.refs c ↔ ∃ k, (k, MergeEntry.ref r) ∈ c := by
  induction c with
  | nil => simp [Spec.refs]
  | cons p c ih =>
    obtain ⟨k, e⟩ := p
    cases e with
    | shared t vs => simp [Spec.refs, ih]
    | ref r' =>
      simp only [Spec.refs, List.mem_cons, ih]
      constructor
      · rintro (rfl | ⟨k', h⟩)
        · exact ⟨k, Or.inl rfl⟩
        · exact ⟨k', Or.inr h⟩
      · rintro ⟨k', h | h⟩
        · cases h; exact Or.inl rfl
        · exact Or.inr ⟨k', h⟩

theorem refs_dset_new {c : List (K × MergeEntry)} {k : K} (h : dget c k = none) (e : MergeEntry) :
    Spec.refs (dset c k e) = Spec.refs c ++ Spec.refs [(k, e)] := by
  induction c with
  | nil => cases e <;> rfl
  | cons p c ih =>
    obtain ⟨k', e'⟩ := p
    simp only [dget] at h
    by_cases hk : k' = k
    · simp [hk] at h
    · simp only [hk, if_false] at h
      simp only [dset, hk, if_false]
      cases e' <;> simp [Spec.refs, ih h]

theorem refs_dset_shared {c : List (K × MergeEntry)} {k : K} {t : Nat} {vs : List Value}
    (h : dget c k = some (.shared t vs)) (t' : Nat) (vs' : List Value) :
    Spec.refs (dset c k (.shared t' vs')) = Spec.refs c := by
  induction c with
  | nil => cases h
  | cons p c ih =>
    obtain ⟨k', e'⟩ := p
    simp only [dget] at h
    by_cases hk : k' = k
    · simp only [hk, if_true, Option.some.injEq] at h
      subst h
      simp [dset, hk, Spec.refs]
    · simp only [hk, if_false] at h
      simp only [dset, hk, if_false]
      cases e' <;> simp [Spec.refs, ih h]

/-- In a configuration with distinct references, different keys have different dictionaries. -/
theorem refs_inj {c : List (K × MergeEntry)} (hn : (Spec.refs c).Nodup) {k k' : K} {r : Nat}
    (h : dget c k = some (.ref r)) (h' : dget c k' = some (.ref r)) : k = k' := by
  induction c with
  | nil => cases h
  | cons p c ih =>
    obtain ⟨a, e⟩ := p
    simp only [dget] at h h'
    by_cases h1 : a = k <;> by_cases h2 : a = k'
    · rw [← h1, h2]
    · simp only [h1, if_true, Option.some.injEq] at h
      simp only [h2, if_false] at h'
      subst h
      exact absurd (mem_refs.2 ⟨_, dget_mem h'⟩) (List.nodup_cons.1 hn).1
    · simp only [h2, if_true, Option.some.injEq] at h'
      simp only [h1, if_false] at h
      subst h'
      exact absurd (mem_refs.2 ⟨_, dget_mem h⟩) (List.nodup_cons.1 hn).1
    · simp only [h1, if_false] at h
      simp only [h2, if_false] at h'
      refine ih ?_ h h'
      cases e with
      | shared t vs => exact hn
      | ref r' => exact (List.nodup_cons.1 hn).2

theorem offers_set {heap : List HParams} {c : List (K × MergeEntry)} {r : Nat} {h : HParams} {k : K}
    {n : Str} {v : Value} (hr : dget c k ≠ some (.ref r)) :
    Spec.Offers (setRef heap r h) c k n v ↔ Spec.Offers heap c k n v := by
  unfold Spec.Offers setRef
  constructor
  · rintro ⟨r', h', e1, e2, e3⟩
    have : r ≠ r' := fun e => hr (e ▸ e1)
    rw [List.getElem?_set_ne this] at e2
    exact ⟨r', h', e1, e2, e3⟩
  · rintro ⟨r', h', e1, e2, e3⟩
    have : r ≠ r' := fun e => hr (e ▸ e1)
    refine ⟨r', h', e1, ?_, e3⟩
    rw [List.getElem?_set_ne this]
    exact e2

theorem offers_cons {heap : List HParams} {c : List (K × MergeEntry)} {k k' : K} {e : MergeEntry}
    {n : Str} {v : Value} : Spec.Offers heap ((k, e) :: c) k' n v ↔
      (k = k' ∧ ∃ r h, e = .ref r ∧ heap[r]? = some h ∧ Spec.Lists h n v) ∨
      (k ≠ k' ∧ Spec.Offers heap c k' n v) := by
  unfold Spec.Offers
  simp only [dget]
  by_cases h : k = k'
  · simp [h]
  · simp [h]

theorem offers_dset {heap : List HParams} {c : List (K × MergeEntry)} {k k' : K} {e : MergeEntry}
    {n : Str} {v : Value} : Spec.Offers heap (dset c k e) k' n v ↔
      (k = k' ∧ ∃ r h, e = .ref r ∧ heap[r]? = some h ∧ Spec.Lists h n v) ∨
      (k ≠ k' ∧ Spec.Offers heap c k' n v) := by
  unfold Spec.Offers
  rw [dget_dset]
  by_cases h : k = k'
  · simp [h]
  · simp [h]

theorem shared_cons {c : List (K × MergeEntry)} {k k' : K} {e : MergeEntry} {v : Value} :
    Spec.OffersShared ((k, e) :: c) k' v ↔
      (k = k' ∧ ∃ t vs, e = .shared t vs ∧ ∃ u ∈ vs, u.pyEq v = true) ∨
      (k ≠ k' ∧ Spec.OffersShared c k' v) := by
  unfold Spec.OffersShared
  simp only [dget]
  by_cases h : k = k'
  · simp [h]
  · simp [h]

theorem shared_dset {c : List (K × MergeEntry)} {k k' : K} {e : MergeEntry} {v : Value} :
    Spec.OffersShared (dset c k e) k' v ↔
      (k = k' ∧ ∃ t vs, e = .shared t vs ∧ ∃ u ∈ vs, u.pyEq v = true) ∨
      (k ≠ k' ∧ Spec.OffersShared c k' v) := by
  unfold Spec.OffersShared
  rw [dget_dset]
  by_cases h : k = k'
  · simp [h]
  · simp [h]

/-- What one run of the loop does. -/
theorem mergeLoop_spec : ∀ (c2 merged : List (K × MergeEntry)) (heap : List HParams)
    (m : List (K × MergeEntry)) (heap' : List HParams), Spec.Mergeable merged c2 heap →
    mergeLoop merged c2 heap = (.ok m, heap') →
    DictOK m ∧
    (∀ k, k ∈ m.map Prod.fst ↔ k ∈ merged.map Prod.fst ∨ k ∈ c2.map Prod.fst) ∧
    (∀ k n v, Spec.Offers heap' m k n v ↔ Spec.Offers heap merged k n v ∨ Spec.Offers heap c2 k n v) ∧
    (∀ k v, Spec.OffersShared m k v ↔ Spec.OffersShared merged k v ∨ Spec.OffersShared c2 k v) ∧
    (∀ r : Nat, (∀ k, dget merged k = some (.ref r) → k ∉ c2.map Prod.fst) → heap'[r]? = heap[r]?) ∧
    (∀ k r, dget merged k = some (.ref r) → dget m k = some (.ref r)) := by
  intro c2
  induction c2 with
  | nil =>
    intro merged heap m heap' hm h
    cases h
    refine ⟨hm.keys1, by simp, ?_, ?_, ?_, ?_⟩
    · intro k n v; simp [Spec.Offers, dget]
    · intro k v; simp [Spec.OffersShared, dget]
    · intros; rfl
    · intro k r h; exact h
  | cons p c2 ih =>
    obtain ⟨k, e2⟩ := p
    intro merged heap m heap' hm h
    obtain ⟨hk2, hd2⟩ : k ∉ c2.map Prod.fst ∧ DictOK c2 := List.nodup_cons.1 hm.keys2
    unfold mergeLoop at h
    cases hg : dget merged k with
    | none =>
      rw [hg] at h
      dsimp only at h
      have hm' : Spec.Mergeable (dset merged k e2) c2 heap := by
        refine ⟨hm.keys1.dset _ _, hd2, ?_, hm.dicts⟩
        rw [refs_dset_new hg]
        have := hm.apart
        cases e2 with
        | shared t vs => simpa [Spec.refs] using this
        | ref r => simpa [Spec.refs, List.append_assoc] using this
      obtain ⟨j1, j2, j3, j4, j6, j7⟩ := ih _ _ _ _ hm' h
      have nok : ∀ (k' : K), k' ≠ k → (dget (dset merged k e2) k' = dget merged k') := by
        intro k' hne; rw [dget_dset, if_neg (Ne.symm hne)]
      refine ⟨j1, ?_, ?_, ?_, ?_, ?_⟩
      · intro k'
        rw [j2, mem_keys_dset]
        simp only [List.map_cons, List.mem_cons]
        tauto
      · intro k' n v
        rw [j3, offers_dset, offers_cons]
        by_cases hkk : k = k'
        · subst hkk
          have e1 : ¬ Spec.Offers heap merged k n v := by
            rintro ⟨r, hh, e, _⟩; rw [hg] at e; cases e
          have e2' : ¬ Spec.Offers heap c2 k n v := by
            rintro ⟨r, hh, e, _⟩; rw [dget_eq_none.2 hk2] at e; cases e
          simp [e1, e2']
        · simp [hkk]
      · intro k' v
        rw [j4, shared_dset, shared_cons]
        by_cases hkk : k = k'
        · subst hkk
          have e1 : ¬ Spec.OffersShared merged k v := by
            rintro ⟨r, hh, e, _⟩; rw [hg] at e; cases e
          have e2' : ¬ Spec.OffersShared c2 k v := by
            rintro ⟨r, hh, e, _⟩; rw [dget_eq_none.2 hk2] at e; cases e
          simp [e1, e2']
        · simp [hkk]
      · intro r hr
        refine j6 r ?_
        intro k' hk'
        by_cases hkk : k' = k
        · rw [hkk]; exact hk2
        · rw [nok k' hkk] at hk'
          exact fun hin => hr k' hk' (List.mem_cons_of_mem _ hin)
      · intro k' r hr
        have hne : k' ≠ k := by rintro rfl; rw [hg] at hr; cases hr
        exact j7 k' r (by rw [nok k' hne]; exact hr)
    | some x =>
      rw [hg] at h
      cases x with
      | shared t1 v1 =>
        cases e2 with
        | ref r2 =>
          dsimp only at h
          cases hr2 : heap[r2]? with
          | none => rw [hr2] at h; cases h
          | some d =>
            cases d with
            | cons x d => rw [hr2] at h; cases h
            | nil =>
              rw [hr2] at h
              dsimp only at h
              have hm' : Spec.Mergeable merged c2 heap := by
                refine ⟨hm.keys1, hd2, ?_, hm.dicts⟩
                obtain ⟨ap1, ap2, ap3⟩ := List.nodup_append.1 hm.apart
                have ap2 : (r2 :: Spec.refs c2).Nodup := ap2
                exact List.nodup_append.2 ⟨ap1, (List.nodup_cons.1 ap2).2,
                  fun a ha b hb => ap3 a ha b (List.mem_cons_of_mem r2 hb)⟩
              obtain ⟨j1, j2, j3, j4, j6, j7⟩ := ih _ _ _ _ hm' h
              refine ⟨j1, ?_, ?_, ?_, ?_, j7⟩
              · intro k'
                rw [j2]
                simp only [List.map_cons, List.mem_cons]
                have : k ∈ merged.map Prod.fst := by
                  by_contra hc
                  rw [dget_eq_none.2 hc] at hg
                  cases hg
                constructor
                · tauto
                · rintro (a | rfl | a)
                  · exact .inl a
                  · exact .inl this
                  · exact .inr a
              · intro k' n v
                rw [j3, offers_cons]
                by_cases hkk : k = k'
                · subst hkk
                  have e2' : ¬ Spec.Offers heap c2 k n v := by
                    rintro ⟨r, hh, e, _⟩; rw [dget_eq_none.2 hk2] at e; cases e
                  have e3 : ¬ ∃ r h, MergeEntry.ref r2 = .ref r ∧ heap[r]? = some h ∧ Spec.Lists h n v := by
                    rintro ⟨r, hh, e, e4, e5⟩
                    cases e
                    rw [hr2] at e4
                    cases e4
                    simp [Spec.Lists, dget] at e5
                  constructor
                  · rintro (a | a)
                    · exact .inl a
                    · exact absurd a e2'
                  · rintro (a | ⟨_, a⟩ | ⟨a, _⟩)
                    · exact .inl a
                    · exact absurd a e3
                    · exact absurd rfl a
                · simp [hkk]
              · intro k' v
                rw [j4, shared_cons]
                by_cases hkk : k = k'
                · subst hkk
                  have e2' : ¬ Spec.OffersShared c2 k v := by
                    rintro ⟨r, hh, e, _⟩; rw [dget_eq_none.2 hk2] at e; cases e
                  have e3 : ¬ ∃ t vs, MergeEntry.ref r2 = .shared t vs ∧ ∃ u ∈ vs, u.pyEq v = true := by
                    rintro ⟨t, vs, e, _⟩; cases e
                  constructor
                  · rintro (a | a)
                    · exact .inl a
                    · exact absurd a e2'
                  · rintro (a | ⟨_, a⟩ | ⟨a, _⟩)
                    · exact .inl a
                    · exact absurd a e3
                    · exact absurd rfl a
                · simp [hkk]
              · intro r hr
                exact j6 r fun k' hk' hin => hr k' hk' (List.mem_cons_of_mem _ hin)
        | shared t2 v2 =>
          dsimp only at h
          by_cases hl : t1 = listTag ∧ t2 = listTag
          · rw [if_pos hl] at h
            have hm' : Spec.Mergeable (dset merged k (.shared listTag (asSet (v1 ++ v2)))) c2 heap := by
              refine ⟨hm.keys1.dset _ _, hd2, ?_, hm.dicts⟩
              rw [refs_dset_shared hg]
              exact hm.apart
            obtain ⟨j1, j2, j3, j4, j6, j7⟩ := ih _ _ _ _ hm' h
            refine ⟨j1, ?_, ?_, ?_, ?_, ?_⟩
            · intro k'
              rw [j2, mem_keys_dset]
              simp only [List.map_cons, List.mem_cons]
              tauto
            · intro k' n v
              rw [j3, offers_dset, offers_cons]
              by_cases hkk : k = k'
              · subst hkk
                have e1 : ¬ Spec.Offers heap merged k n v := by
                  rintro ⟨r, hh, e, _⟩; rw [hg] at e; cases e
                have e2' : ¬ Spec.Offers heap c2 k n v := by
                  rintro ⟨r, hh, e, _⟩; rw [dget_eq_none.2 hk2] at e; cases e
                simp [e1, e2']
              · simp [hkk]
            · intro k' v
              rw [j4, shared_dset, shared_cons]
              by_cases hkk : k = k'
              · subst hkk
                have e2' : ¬ Spec.OffersShared c2 k v := by
                  rintro ⟨r, hh, e, _⟩; rw [dget_eq_none.2 hk2] at e; cases e
                have e1 : Spec.OffersShared merged k v ↔ ∃ u ∈ v1, u.pyEq v = true := by
                  unfold Spec.OffersShared
                  rw [hg]
                  constructor
                  · rintro ⟨t, vs, e, hu⟩; cases e; exact hu
                  · intro hu; exact ⟨_, _, rfl, hu⟩
                rw [e1]
                have e3 := mem_asSet (l := v1 ++ v2) (v := v)
                simp only [List.mem_append] at e3
                constructor
                · rintro ((⟨_, t, vs, e, hu⟩ | ⟨hne, _⟩) | hc)
                  · cases e
                    obtain ⟨u, h1 | h1, h2⟩ := e3.1 hu
                    · exact Or.inl ⟨u, h1, h2⟩
                    · exact Or.inr (Or.inl ⟨rfl, _, _, rfl, u, h1, h2⟩)
                  · exact absurd rfl hne
                  · exact absurd hc e2'
                · rintro (⟨u, h1, h2⟩ | ⟨_, t, vs, e, u, h1, h2⟩ | ⟨hne, _⟩)
                  · exact Or.inl (Or.inl ⟨rfl, _, _, rfl, e3.2 ⟨u, Or.inl h1, h2⟩⟩)
                  · cases e
                    exact Or.inl (Or.inl ⟨rfl, _, _, rfl, e3.2 ⟨u, Or.inr h1, h2⟩⟩)
                  · exact absurd rfl hne
              · simp [hkk]
            · intro r hr
              refine j6 r ?_
              intro k' hk'
              rw [dget_dset] at hk'
              by_cases hkk : k = k'
              · rw [if_pos hkk] at hk'; cases hk'
              · rw [if_neg hkk] at hk'
                exact fun hin => hr k' hk' (List.mem_cons_of_mem _ hin)
            · intro k' r hr
              have hne : k ≠ k' := by rintro rfl; rw [hg] at hr; cases hr
              exact j7 k' r (by rw [dget_dset, if_neg hne]; exact hr)
          · rw [if_neg hl] at h; cases h
      | ref r1 =>
        cases e2 with
        | shared t2 v2 => cases h
        | ref r2 =>
          dsimp only at h
          cases hh1 : heap[r1]? with
          | none => rw [hh1] at h; cases h
          | some h1 =>
            cases hh2 : heap[r2]? with
            | none => rw [hh1, hh2] at h; cases h
            | some h2 =>
              rw [hh1, hh2] at h
              dsimp only at h
              rcases hmp : mergeParams h1 h2 with ⟨hh, _ | x⟩
              · rw [hmp] at h
                dsimp only at h
                obtain ⟨l1, l2⟩ := mergeParams_lists h2 (hm.dicts _ _ hh2) _ _ hmp
                have hmem1 : r1 ∈ Spec.refs merged := mem_refs.2 ⟨k, dget_mem hg⟩
                have hap : (Spec.refs merged ++ r2 :: Spec.refs c2).Nodup := hm.apart
                obtain ⟨ap1, ap2, ap3⟩ := List.nodup_append.1 hap
                have hlt : r1 < heap.length := by
                  by_contra hge
                  rw [List.getElem?_eq_none (Nat.le_of_not_lt hge)] at hh1
                  cases hh1
                have hm' : Spec.Mergeable merged c2 (setRef heap r1 hh) := by
                  refine ⟨hm.keys1, hd2, ?_, ?_⟩
                  · refine List.nodup_append.2 ⟨ap1, (List.nodup_cons.1 ap2).2, ?_⟩
                    intro a ha b hb
                    exact ap3 a ha b (List.mem_cons_of_mem _ hb)
                  · intro r h' hr
                    unfold setRef at hr
                    by_cases e : r1 = r
                    · subst e
                      rw [List.getElem?_set_self hlt] at hr
                      cases hr
                      exact l1 (hm.dicts _ _ hh1)
                    · rw [List.getElem?_set_ne e] at hr
                      exact hm.dicts _ _ hr
                obtain ⟨j1, j2, j3, j4, j6, j7⟩ := ih _ _ _ _ hm' h
                have hnr : ∀ k', dget c2 k' ≠ some (.ref r1) := by
                  intro k' e
                  exact ap3 r1 hmem1 r1 (List.mem_cons_of_mem _ (mem_refs.2 ⟨_, dget_mem e⟩)) rfl
                refine ⟨j1, ?_, ?_, ?_, ?_, ?_⟩
                · intro k'
                  rw [j2]
                  simp only [List.map_cons, List.mem_cons]
                  have hkm : k ∈ merged.map Prod.fst := List.mem_map.2 ⟨_, dget_mem hg, rfl⟩
                  constructor
                  · rintro (a | a)
                    · exact Or.inl a
                    · exact Or.inr (Or.inr a)
                  · rintro (a | rfl | a)
                    · exact Or.inl a
                    · exact Or.inl hkm
                    · exact Or.inr a
                · intro k' n v
                  rw [j3, offers_set (hnr k'), offers_cons]
                  by_cases hkk : k = k'
                  · subst hkk
                    have e2' : ¬ Spec.Offers heap c2 k n v := by
                      rintro ⟨r, hh, e, _⟩; rw [dget_eq_none.2 hk2] at e; cases e
                    have f1 : Spec.Offers (setRef heap r1 hh) merged k n v ↔ Spec.Lists hh n v := by
                      unfold Spec.Offers
                      rw [hg]
                      constructor
                      · rintro ⟨r, h', e, e', hl⟩
                        cases e
                        unfold setRef at e'
                        rw [List.getElem?_set_self hlt] at e'
                        cases e'
                        exact hl
                      · intro hl
                        exact ⟨r1, hh, rfl, by unfold setRef; rw [List.getElem?_set_self hlt], hl⟩
                    have f2 : Spec.Offers heap merged k n v ↔ Spec.Lists h1 n v := by
                      unfold Spec.Offers
                      rw [hg]
                      constructor
                      · rintro ⟨r, h', e, e', hl⟩
                        cases e
                        rw [hh1] at e'
                        cases e'
                        exact hl
                      · intro hl; exact ⟨r1, h1, rfl, hh1, hl⟩
                    have f3 : (∃ r h, MergeEntry.ref r2 = .ref r ∧ heap[r]? = some h ∧ Spec.Lists h n v)
                        ↔ Spec.Lists h2 n v := by
                      constructor
                      · rintro ⟨r, h', e, e', hl⟩
                        cases e
                        rw [hh2] at e'
                        cases e'
                        exact hl
                      · intro hl; exact ⟨r2, h2, rfl, hh2, hl⟩
                    rw [f1, f2, f3, l2]
                    simp [e2']
                  · have : dget merged k' ≠ some (.ref r1) := fun e => hkk (refs_inj ap1 hg e)
                    rw [offers_set this]
                    simp [hkk]
                · intro k' v
                  rw [j4, shared_cons]
                  by_cases hkk : k = k'
                  · subst hkk
                    have e1 : ¬ Spec.OffersShared merged k v := by
                      rintro ⟨t, vs, e, _⟩; rw [hg] at e; cases e
                    have e2' : ¬ Spec.OffersShared c2 k v := by
                      rintro ⟨t, vs, e, _⟩; rw [dget_eq_none.2 hk2] at e; cases e
                    simp [e1, e2']
                  · simp [hkk]
                · intro r hr
                  have hne : r1 ≠ r := by
                    rintro rfl
                    exact hr k hg List.mem_cons_self
                  rw [j6 r fun k' hk' hin => hr k' hk' (List.mem_cons_of_mem _ hin)]
                  unfold setRef
                  rw [List.getElem?_set_ne hne]
                · intro k' r hr; exact j7 k' r hr
              · rw [hmp] at h; cases h

/-- C62: what is listed is what either configuration lists, algorithm by algorithm; the dictionaries
of the second configuration are as before, and so are those of the first for the algorithms they do
not have in common. -/
theorem C62_partial (c1 c2 : List (K × MergeEntry)) (heap : List HParams) (hm : Spec.Mergeable c1 c2 heap)
    (m : List (K × MergeEntry)) (heap' : List HParams)
    (h : mergeConfigurations c1 c2 heap = (.ok m, heap')) :
    (∀ k, k ∈ m.map Prod.fst ↔ k ∈ c1.map Prod.fst ∨ k ∈ c2.map Prod.fst) ∧
    (∀ k n v, Spec.Offers heap' m k n v ↔ Spec.Offers heap c1 k n v ∨ Spec.Offers heap c2 k n v) ∧
    (∀ k v, Spec.OffersShared m k v ↔ Spec.OffersShared c1 k v ∨ Spec.OffersShared c2 k v) ∧
    (∀ r ∈ Spec.refs c2, heap'[r]? = heap[r]?) ∧
    (∀ k r, dget c1 k = some (.ref r) → k ∉ c2.map Prod.fst → heap'[r]? = heap[r]?) := by
  obtain ⟨_, j2, j3, j4, j5, _⟩ := mergeLoop_spec c2 c1 heap m heap' hm h
  obtain ⟨ap1, ap2, ap3⟩ := List.nodup_append.1 hm.apart
  refine ⟨j2, j3, j4, ?_, ?_⟩
  · intro r hr
    refine j5 r fun k hk => ?_
    exact absurd rfl (ap3 r (mem_refs.2 ⟨k, dget_mem hk⟩) r hr)
  · intro k r hk hnot
    refine j5 r fun k' hk' => ?_
    rw [← refs_inj ap1 hk hk']
    exact hnot

/-- C62: for the algorithms in common, the first configuration becomes the merged one. -/
theorem C62_modified (c1 c2 : List (K × MergeEntry)) (heap : List HParams)
    (hm : Spec.Mergeable c1 c2 heap) (m : List (K × MergeEntry)) (heap' : List HParams)
    (h : mergeConfigurations c1 c2 heap = (.ok m, heap')) (k : K) (r : Nat)
    (hk : dget c1 k = some (.ref r)) (n : Str) (v : Value) :
    Spec.Offers heap' c1 k n v ↔ Spec.Offers heap c1 k n v ∨ Spec.Offers heap c2 k n v := by
  obtain ⟨_, _, j3, _, _, j6⟩ := mergeLoop_spec c2 c1 heap m heap' hm h
  rw [← j3 k n v]
  unfold Spec.Offers
  rw [hk, j6 k r hk]

/-- C62: merging succeeds when common keys are of the same sort and common hyperparameters of the
same type. -/
theorem C62_merges (c1 c2 : List (K × MergeEntry)) (heap : List HParams)
    (hm : Spec.Mergeable c1 c2 heap)
    (hlive : ∀ r ∈ Spec.refs c1 ++ Spec.refs c2, r < heap.length)
    (hshared : ∀ k t vs e, dget c1 k = some (.shared t vs) → dget c2 k = some e →
      t = listTag ∧ ∃ ws, e = .shared listTag ws)
    (hrefs : ∀ k r e, dget c1 k = some (.ref r) → dget c2 k = some e → ∃ r', e = .ref r')
    (htypes : ∀ k r r' h h' n a b, dget c1 k = some (.ref r) → dget c2 k = some (.ref r') →
      heap[r]? = some h → heap[r']? = some h' → dget h n = some a → dget h' n = some b →
      (∃ t vs ws, a = .seq t vs ∧ b = .seq t ws) ∨ ∃ d d', a = .dict d ∧ b = .dict d') :
    ∃ m heap', mergeConfigurations c1 c2 heap = (.ok m, heap') := by
  have params : ∀ (h2 h1 : HParams), DictOK h2 →
      (∀ n a b, dget h1 n = some a → dget h2 n = some b →
        (∃ t vs ws, a = .seq t vs ∧ b = .seq t ws) ∨ ∃ d d', a = .dict d ∧ b = .dict d') →
      ∃ h, mergeParams h1 h2 = (h, none) := by
    intro h2
    induction h2 with
    | nil => intro h1 _ _; exact ⟨h1, rfl⟩
    | cons p h2 ih =>
      obtain ⟨n, b⟩ := p
      intro h1 hd ht
      obtain ⟨hn, hd'⟩ : n ∉ h2.map Prod.fst ∧ DictOK h2 := List.nodup_cons.1 hd
      have step : ∀ w, ∃ h, mergeParams (dset h1 n w) h2 = (h, none) := by
        intro w
        refine ih _ hd' ?_
        intro n' a b' ha hb
        have hne : n ≠ n' := by
          rintro rfl
          rw [dget_eq_none.2 hn] at hb
          cases hb
        rw [dget_dset, if_neg hne] at ha
        exact ht n' a b' ha (by simp only [dget, hne, if_false]; exact hb)
      unfold mergeParams
      cases hg : dget h1 n with
      | none => exact step b
      | some a =>
        have := ht n a b hg (by simp [dget])
        rcases this with ⟨t, vs, ws, rfl, rfl⟩ | ⟨d, d', rfl, rfl⟩
        · simp only [mergeVals, if_true]; exact step _
        · simp only [mergeVals]; exact step _
  have main : ∀ (c2 merged : List (K × MergeEntry)) (heap : List HParams),
      Spec.Mergeable merged c2 heap → (∀ r ∈ Spec.refs merged ++ Spec.refs c2, r < heap.length) →
      (∀ k t vs e, dget merged k = some (.shared t vs) → dget c2 k = some e →
        t = listTag ∧ ∃ ws, e = .shared listTag ws) →
      (∀ k r e, dget merged k = some (.ref r) → dget c2 k = some e → ∃ r', e = .ref r') →
      (∀ k r r' h h' n a b, dget merged k = some (.ref r) → dget c2 k = some (.ref r') →
        heap[r]? = some h → heap[r']? = some h' → dget h n = some a → dget h' n = some b →
        (∃ t vs ws, a = .seq t vs ∧ b = .seq t ws) ∨ ∃ d d', a = .dict d ∧ b = .dict d') →
      ∃ m heap', mergeLoop merged c2 heap = (.ok m, heap') := by
    intro c2
    induction c2 with
    | nil => intro merged heap _ _ _ _ _; exact ⟨merged, heap, rfl⟩
    | cons p c2 ih =>
      obtain ⟨k, e2⟩ := p
      intro merged heap hm hlive hshared hrefs htypes
      obtain ⟨hk2, hd2⟩ : k ∉ c2.map Prod.fst ∧ DictOK c2 := List.nodup_cons.1 hm.keys2
      have later : ∀ {k' e}, dget c2 k' = some e → k ≠ k' ∧ dget ((k, e2) :: c2) k' = some e := by
        intro k' e he
        have hne : k ≠ k' := by
          rintro rfl
          rw [dget_eq_none.2 hk2] at he
          cases he
        exact ⟨hne, by simp only [dget, hne, if_false]; exact he⟩
      have here : dget ((k, e2) :: c2) k = some e2 := by simp [dget]
      have cont : ∀ e, Spec.Mergeable (dset merged k e) c2 heap →
          (∀ r ∈ Spec.refs (dset merged k e) ++ Spec.refs c2, r < heap.length) →
          ∃ m heap', mergeLoop (dset merged k e) c2 heap = (.ok m, heap') := by
        intro e hm' hl'
        refine ih _ _ hm' hl' ?_ ?_ ?_
        · intro k' t vs e' h1 h2
          obtain ⟨hne, h3⟩ := later h2
          rw [dget_dset, if_neg hne] at h1
          exact hshared k' t vs e' h1 h3
        · intro k' r e' h1 h2
          obtain ⟨hne, h3⟩ := later h2
          rw [dget_dset, if_neg hne] at h1
          exact hrefs k' r e' h1 h3
        · intro k' r r' h h' n a b h1 h2
          obtain ⟨hne, h3⟩ := later h2
          rw [dget_dset, if_neg hne] at h1
          exact htypes k' r r' h h' n a b h1 h3
      unfold mergeLoop
      cases hg : dget merged k with
      | none =>
        dsimp only
        refine cont e2 ?_ ?_
        · refine ⟨hm.keys1.dset _ _, hd2, ?_, hm.dicts⟩
          rw [refs_dset_new hg]
          have := hm.apart
          cases e2 with
          | shared t vs => simpa [Spec.refs] using this
          | ref r => simpa [Spec.refs, List.append_assoc] using this
        · rw [refs_dset_new hg]
          cases e2 with
          | shared t vs => simpa [Spec.refs] using hlive
          | ref r => simpa [Spec.refs, List.append_assoc] using hlive
      | some x =>
        cases x with
        | shared t1 v1 =>
          obtain ⟨rfl, ws, rfl⟩ := hshared k t1 v1 e2 hg here
          dsimp only
          rw [if_pos ⟨rfl, rfl⟩]
          refine cont _ ?_ ?_
          · refine ⟨hm.keys1.dset _ _, hd2, ?_, hm.dicts⟩
            rw [refs_dset_shared hg]
            exact hm.apart
          · rw [refs_dset_shared hg]
            exact hlive
        | ref r1 =>
          obtain ⟨r2, rfl⟩ := hrefs k r1 e2 hg here
          have hmem1 : r1 ∈ Spec.refs merged := mem_refs.2 ⟨k, dget_mem hg⟩
          have hap : (Spec.refs merged ++ r2 :: Spec.refs c2).Nodup := hm.apart
          obtain ⟨ap1, ap2, ap3⟩ := List.nodup_append.1 hap
          have hl1 : r1 < heap.length := hlive r1 (List.mem_append_left _ hmem1)
          have hl2 : r2 < heap.length :=
            hlive r2 (List.mem_append_right _ (by simp [Spec.refs]))
          have hh1 : heap[r1]? = some heap[r1] := List.getElem?_eq_getElem hl1
          have hh2 : heap[r2]? = some heap[r2] := List.getElem?_eq_getElem hl2
          obtain ⟨h, hp⟩ := params heap[r2] heap[r1] (hm.dicts _ _ hh2)
            (fun n a b => htypes k r1 r2 _ _ n a b hg here hh1 hh2)
          dsimp only
          rw [hh1, hh2]
          dsimp only
          rw [hp]
          dsimp only
          obtain ⟨l1, _⟩ := mergeParams_lists _ (hm.dicts _ _ hh2) _ _ hp
          refine ih _ _ ?_ ?_ ?_ ?_ ?_
          · refine ⟨hm.keys1, hd2, ?_, ?_⟩
            · refine List.nodup_append.2 ⟨ap1, (List.nodup_cons.1 ap2).2, ?_⟩
              intro a ha b hb
              exact ap3 a ha b (List.mem_cons_of_mem _ hb)
            · intro r h' hr
              unfold setRef at hr
              by_cases e : r1 = r
              · subst e
                rw [List.getElem?_set_self hl1] at hr
                cases hr
                exact l1 (hm.dicts _ _ hh1)
              · rw [List.getElem?_set_ne e] at hr
                exact hm.dicts _ _ hr
          · intro r hr
            unfold setRef
            rw [List.length_set]
            refine hlive r ?_
            rcases List.mem_append.1 hr with a | a
            · exact List.mem_append_left _ a
            · exact List.mem_append_right _ (by simp [Spec.refs, a])
          · intro k' t vs e' h1 h2; exact hshared k' t vs e' h1 (later h2).2
          · intro k' r e' h1 h2; exact hrefs k' r e' h1 (later h2).2
          · intro k' r r' h h' n a b h1 h2 h3 h4
            obtain ⟨hne, h5⟩ := later h2
            have n1 : r1 ≠ r := by rintro rfl; exact hne (refs_inj ap1 hg h1)
            have n2 : r1 ≠ r' :=
              ap3 r1 hmem1 r' (List.mem_cons_of_mem _ (mem_refs.2 ⟨_, dget_mem h2⟩))
            unfold setRef at h3 h4
            rw [List.getElem?_set_ne n1] at h3
            rw [List.getElem?_set_ne n2] at h4
            exact htypes k' r r' h h' n a b h1 h5 h3 h4
  exact main c2 c1 heap hm hlive hshared hrefs htypes

end

/-- The full claim C62. -/
def C62_claim : Prop :=
  ∀ (c1 c2 : List ((Str ⊕ Nat) × MergeEntry)) (heap : List HParams), Spec.Mergeable c1 c2 heap →
    ∀ m heap', mergeConfigurations c1 c2 heap = (.ok m, heap') →
      (∀ k n v, Spec.InSpace Sum.inl heap' m k n v ↔
        Spec.InSpace Sum.inl heap c1 k n v ∨ Spec.InSpace Sum.inl heap c2 k n v) ∧
      ∀ r ∈ Spec.refs c1, heap'[r]? = heap[r]?

/-- Two configurations of one algorithm, with different values of one hyperparameter. -/
def mergeSample1 : List ((Str ⊕ Nat) × MergeEntry) := [(.inr 0, .ref 0)]
def mergeSample2 : List ((Str ⊕ Nat) × MergeEntry) := [(.inr 0, .ref 1)]
def mergeHeap : List HParams :=
  [[(['a'], .seq listTag [.atom 1 ['1']])], [(['a'], .seq listTag [.atom 2 ['2']])]]

theorem mergeSample_ok : Spec.Mergeable mergeSample1 mergeSample2 mergeHeap := by
  refine ⟨by unfold DictOK; decide, by unfold DictOK; decide, by decide, ?_⟩
  intro r h hr
  have := List.mem_of_getElem? hr
  simp [mergeHeap] at this
  rcases this with rfl | rfl <;> (unfold DictOK; decide)

example : ∃ m heap', mergeConfigurations mergeSample1 mergeSample2 mergeHeap = (.ok m, heap') :=
  ⟨_, _, rfl⟩

/-- Merging changes the first configuration. -/
theorem C62_false : ¬ C62_claim := by
  intro h
  have := (h mergeSample1 mergeSample2 mergeHeap mergeSample_ok _ _ rfl).2 0 (by decide)
  revert this
  decide

/-- An algorithm with the shared values of `a` in one configuration and values of its own in the
other. -/
def sharedSample1 : List ((Str ⊕ Nat) × MergeEntry) :=
  [(.inl ['a'], .shared listTag [.atom 1 ['1']]), (.inr 0, .ref 0)]
def sharedHeap : List HParams :=
  [[(['a'], .seq listTag [])], [(['a'], .seq listTag [.atom 2 ['2']])]]

/-- Merging loses the shared values: value 1 is offered by the first configuration, but not by the
merged one. -/
theorem C62_loses_shared : Spec.Mergeable sharedSample1 mergeSample2 sharedHeap ∧
    ∃ m heap', mergeConfigurations sharedSample1 mergeSample2 sharedHeap = (.ok m, heap') ∧
      Spec.InSpace Sum.inl sharedHeap sharedSample1 (.inr 0) ['a'] (.atom 1 ['1']) ∧
      ¬ Spec.InSpace Sum.inl heap' m (.inr 0) ['a'] (.atom 1 ['1']) := by
  refine ⟨?_, _, _, rfl, ?_, ?_⟩
  · refine ⟨by unfold DictOK; decide, by unfold DictOK; decide, by decide, ?_⟩
    intro r h hr
    have := List.mem_of_getElem? hr
    simp [sharedHeap] at this
    rcases this with rfl | rfl <;> (unfold DictOK; decide)
  · right
    exact ⟨⟨0, _, rfl, rfl, rfl⟩, ⟨_, _, rfl, _, List.mem_cons_self, rfl⟩⟩
  · rintro (⟨r, h, e1, e2, t, e3, hu⟩ | ⟨⟨r, h, e1, e2, e3⟩, _⟩)
    · have e1' : MergeEntry.ref 0 = .ref r := Option.some.inj e1
      cases e1'
      have e2' : ([(['a'], .seq listTag [.atom 2 ['2']])] : HParams) = h := Option.some.inj e2
      subst e2'
      have e3' : MergeVal.seq listTag [.atom 2 ['2']] = t := Option.some.inj e3
      subst e3'
      obtain ⟨u, hu, hv⟩ := hu
      cases List.mem_singleton.1 hu
      revert hv
      decide
    · have e1' : MergeEntry.ref 0 = .ref r := Option.some.inj e1
      cases e1'
      have e2' : ([(['a'], .seq listTag [.atom 2 ['2']])] : HParams) = h := Option.some.inj e2
      subst e2'
      have e3' : MergeVal.seq listTag [.atom 2 ['2']] = .seq listTag [] := Option.some.inj e3
      cases e3'

/-! ### Precedence -/

section
variable {V : Type}

/-- The value documented: the user's, else the last data-dependent default, else the static one. -/
def Spec.documented (user : Option V) (updates : List (Option V)) (static : Option V) : Option V :=
  match user with
  | some v => some v
  | none => updates.getLastD static

theorem dget_hyperparameters (t : HpTable V) (n : Str) : dget (hyperparameters t) n =
    (dget t n).map fun e => if e.1.isSome then e.1 else e.2 := by
  induction t with
  | nil => rfl
  | cons p t ih =>
    unfold hyperparameters at ih ⊢
    obtain ⟨m, e⟩ := p
    simp only [List.map_cons, dget]
    by_cases h : m = n
    · simp [h]
    · simp only [h, if_false]; exact ih

theorem overwriteAll_get : ∀ (us : List (Str × Option V)) (t t' : HpTable V),
    overwriteAll t us = .ok t' → ∀ n u d, dget t n = some (u, d) →
    dget t' n = some (u, ((us.filter fun x => decide (x.1 = n)).map Prod.snd).getLastD d) := by
  intro us
  induction us with
  | nil => intro t t' h n u d hn; cases h; exact hn
  | cons x us ih =>
    obtain ⟨m, w⟩ := x
    intro t t' h n u d hn
    unfold overwriteAll at h
    unfold overwriteDefault at h
    cases hg : dget t m with
    | none => rw [hg] at h; cases h
    | some p =>
      obtain ⟨s, d'⟩ := p
      rw [hg] at h
      dsimp only at h
      by_cases hmn : m = n
      · subst hmn
        rw [hn] at hg
        cases hg
        have := ih _ _ h m u w (by rw [dget_dset, if_pos rfl])
        rw [this]
        rw [List.filter_cons_of_pos (by simp), List.map_cons, List.getLastD_cons]
      · have := ih _ _ h n u d (by rw [dget_dset, if_neg hmn]; exact hn)
        rw [this]
        simp [hmn]

/-- C63: whatever the data-dependent defaults are set to, in any order and any number of times, the
value used is the documented one. -/
theorem C63_partial (t t' : HpTable V) (updates : List (Str × Option V))
    (h : overwriteAll t updates = .ok t') (n : Str) (user static : Option V)
    (hn : dget t n = some (user, static)) :
    dget (hyperparameters t') n = some (Spec.documented user
      ((updates.filter fun x => decide (x.1 = n)).map Prod.snd) static) := by
  rw [dget_hyperparameters, overwriteAll_get updates t t' h n user static hn]
  cases user with
  | none => simp [Spec.documented]
  | some v => simp [Spec.documented]

/-- C63: a default can be set exactly for the hyperparameters there are. -/
theorem C63_known (t : HpTable V) (updates : List (Str × Option V)) :
    (∃ t', overwriteAll t updates = .ok t') ↔ ∀ x ∈ updates, x.1 ∈ t.map Prod.fst := by
  induction updates generalizing t with
  | nil => exact ⟨fun _ x hx => (by cases hx), fun _ => ⟨t, rfl⟩⟩
  | cons x us ih =>
    obtain ⟨m, w⟩ := x
    unfold overwriteAll overwriteDefault
    cases hg : dget t m with
    | none =>
      dsimp only
      constructor
      · rintro ⟨t', h⟩; cases h
      · intro h
        exact absurd (h (m, w) List.mem_cons_self) (dget_eq_none.1 hg)
    | some p =>
      obtain ⟨s, d⟩ := p
      dsimp only
      rw [ih]
      have hm : m ∈ t.map Prod.fst := List.mem_map.2 ⟨_, dget_mem hg, rfl⟩
      have hkeys : ∀ k, k ∈ (dset t m (s, w)).map Prod.fst ↔ k ∈ t.map Prod.fst := by
        intro k
        rw [mem_keys_dset]
        exact ⟨fun h => h.elim (fun e => e ▸ hm) id, Or.inr⟩
      constructor
      · intro h y hy
        rcases List.mem_cons.1 hy with rfl | hy
        · exact hm
        · exact (hkeys _).1 (h y hy)
      · intro h y hy
        exact (hkeys _).2 (h y (List.mem_cons_of_mem _ hy))

end

/-- A method with one hyperparameter set by the user and one left to its defaults. -/
example : ∃ t', overwriteAll ([(['a'], (some 1, some 2)), (['b'], (none, some 3))] : HpTable Nat)
    [(['a'], some 5), (['b'], some 6), (['b'], some 7)] = .ok t' ∧
    hyperparameters t' = [(['a'], some 1), (['b'], some 7)] := ⟨_, rfl, rfl⟩

/-- The claim C63 for successive halving: the size given by the user is used for every dataset it
fits, whatever was fitted before. -/
def C63_asha_claim : Prop :=
  ∀ (t : HpTable Nat) (u : Nat) (d : Option Nat) (rows : List Nat) (last : Nat),
    dget t maxResourceKey = some (some u, d) → u ≤ last →
    ∀ t' , (rows ++ [last]).foldlM (m := Except Exn)
      (fun t rows => ashaDefaults (fun v => decide (rows < v)) t) t = .ok t' →
    dget (hyperparameters t') maxResourceKey = some (some u)

/-- A size that was too large for one dataset is not used for later ones either. -/
theorem C63_asha_false : ¬ C63_asha_claim := by
  intro h
  have := h [(maxResourceKey, (some 100, some 1))] 100 (some 1) [50] 200 (by decide) (by decide)
    [(maxResourceKey, (none, some 1))] (by decide +kernel)
  revert this
  decide

/-- C63 for successive halving: the size given is used when it fits all the datasets so far. -/
theorem C63_asha_partial (t : HpTable Nat) (u : Nat) (d : Option Nat) (rows : List Nat)
    (ht : dget t maxResourceKey = some (some u, d)) (hr : ∀ r ∈ rows, u ≤ r) :
    rows.foldlM (m := Except Exn) (fun t rows => ashaDefaults (fun v => decide (rows < v)) t) t = .ok t ∧
      dget (hyperparameters t) maxResourceKey = some (some u) := by
  constructor
  · induction rows with
    | nil => rfl
    | cons r rows ih =>
      rw [List.foldlM_cons]
      have h1 : ¬ r < u := Nat.not_lt.2 (hr r List.mem_cons_self)
      have : ashaDefaults (fun v => decide (r < v)) t = .ok t := by
        unfold ashaDefaults
        rw [ht]
        simp [h1]
      rw [this]
      exact ih fun x hx => hr x (List.mem_cons_of_mem _ hx)
  · rw [dget_hyperparameters, ht]
    rfl

/-- C63 for successive halving: a size that does not fit is replaced by the default, and all other
hyperparameters are left alone. -/
theorem C63_asha_default (t t' : HpTable Nat) (u : Nat) (d : Option Nat) (rows : Nat)
    (ht : dget t maxResourceKey = some (some u, d)) (hr : rows < u)
    (h : ashaDefaults (fun v => decide (rows < v)) t = .ok t') :
    dget (hyperparameters t') maxResourceKey = some d ∧
    ∀ n, n ≠ maxResourceKey → dget (hyperparameters t') n = dget (hyperparameters t) n := by
  unfold ashaDefaults at h
  rw [ht] at h
  simp only [hr, decide_true, if_true] at h
  cases h
  constructor
  · rw [dget_hyperparameters, dget_dset, if_pos rfl]
    rfl
  · intro n hn
    rw [dget_hyperparameters, dget_hyperparameters, dget_dset, if_neg (Ne.symm hn)]

/-! ### Cases of the theorems above -/

theorem Ex.mergeable : Spec.Mergeable mergeSample1 mergeSample2 mergeHeap :=
  ⟨by unfold DictOK; decide, by unfold DictOK; decide, by decide, fun r h hr => by
    have : h ∈ mergeHeap := List.mem_of_getElem? hr
    simp only [mergeHeap, List.mem_cons, List.not_mem_nil, or_false] at this
    rcases this with rfl | rfl <;> (unfold DictOK; decide)⟩

/-- `C62_partial`, `C62_modified`: both values are offered by the result, and by the first argument. -/
example : ∃ m heap', mergeConfigurations mergeSample1 mergeSample2 mergeHeap = (.ok m, heap') ∧
    Spec.Offers heap' m (.inr 0) ['a'] (.atom 1 ['1']) ∧ Spec.Offers heap' m (.inr 0) ['a'] (.atom 2 ['2']) ∧
    Spec.Offers heap' mergeSample1 (.inr 0) ['a'] (.atom 2 ['2']) :=
  have h1 : Spec.Offers mergeHeap mergeSample1 (.inr 0) ['a'] (.atom 1 ['1']) :=
    ⟨0, _, rfl, rfl, _, rfl, _, List.mem_singleton.2 rfl, by decide⟩
  have h2 : Spec.Offers mergeHeap mergeSample2 (.inr 0) ['a'] (.atom 2 ['2']) :=
    ⟨1, _, rfl, rfl, _, rfl, _, List.mem_singleton.2 rfl, by decide⟩
  have h : mergeConfigurations mergeSample1 mergeSample2 mergeHeap = (.ok _, _) := rfl
  ⟨_, _, h, ((C62_partial _ _ _ Ex.mergeable _ _ h).2.1 _ _ _).2 (.inl h1),
    ((C62_partial _ _ _ Ex.mergeable _ _ h).2.1 _ _ _).2 (.inr h2),
    (C62_modified _ _ _ Ex.mergeable _ _ h (.inr 0) 0 rfl _ _).2 (.inr h2)⟩

/-- `C63_asha_partial`, `C63_asha_default`: a limit of a hundred rows on data of more rows, and of fewer. -/
example : [200, 100].foldlM (m := Except Exn) (fun t rows => ashaDefaults (fun v => decide (rows < v)) t)
      [(maxResourceKey, (some 100, none))] = .ok [(maxResourceKey, (some 100, none))] :=
  (C63_asha_partial [(maxResourceKey, (some 100, none))] 100 none [200, 100] rfl (by decide)).1

example : ∃ t', ashaDefaults (fun v => decide (50 < v)) [(maxResourceKey, (some 100, some 7))] = .ok t' ∧
    dget (hyperparameters t') maxResourceKey = some (some 7) :=
  ⟨_, rfl, (C63_asha_default [(maxResourceKey, (some 100, some 7))] _ 100 (some 7) 50 rfl (by decide) rfl).1⟩

end Gama
