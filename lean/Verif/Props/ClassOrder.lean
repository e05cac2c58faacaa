import Verif.Props.Formats
import Mathlib.Data.List.Sort

/-! # The order of the columns of `predict_proba` (C150) -/

namespace Gama

namespace Spec

/-- A string is before another one: it is a proper beginning of it, or has the smaller character at
the first place where they differ. -/
def StrBefore (a b : Str) : Prop :=
  (∃ c r, b = a ++ c :: r) ∨ ∃ p x y r s, a = p ++ x :: r ∧ b = p ++ y :: s ∧ x.toNat < y.toNat

/-- The order of labels: numbers by size, strings as in a dictionary, a missing label last. -/
inductive Before : Label → Label → Prop
  | num {a b : ℚ} : a < b → Before (.num a) (.num b)
  | str {a b : Str} : StrBefore a b → Before (.str a) (.str b)
  | missing {c : Label} : c ≠ .nan → Before c .nan

/-- Labels of one kind, some possibly missing. -/
def OneKind (v : List Label) : Prop :=
  (∀ c ∈ v, c = .nan ∨ ∃ s, c = .str s) ∨ ∀ c ∈ v, c = .nan ∨ ∃ q, c = .num q

/-- What scikit-learn promises about the columns of the probabilities predicted by a classifier: they
are for the labels it was fitted on, in increasing order (`classes_`). -/
def ColumnsFor (trained cols : List Label) : Prop := cols.Pairwise Before ∧ ∀ c, c ∈ cols ↔ c ∈ trained

/-- The labels training sees: rows without label are ignored. -/
def present (w : List Label) : List Label := w.filter fun c => !c.isNull

end Spec

open Spec

theorem labelStrLe_before : ∀ a b : Str, StrBefore a b ↔ labelStrLe a b = true ∧ a ≠ b
  | [], [] => by
    constructor
    · rintro (⟨c, r, h⟩ | ⟨p, x, y, r, s, h, _⟩)
      · exact absurd (congrArg List.length h) (by simp)
      · exact absurd (congrArg List.length h) (by simp)
    · exact fun h => absurd rfl h.2
  | [], b :: bs => ⟨fun _ => ⟨rfl, nofun⟩, fun _ => .inl ⟨b, bs, rfl⟩⟩
  | a :: as, [] => by
    constructor
    · rintro (⟨c, r, h⟩ | ⟨p, x, y, r, s, _, h, _⟩)
      · exact absurd (congrArg List.length h) (by simp)
      · exact absurd (congrArg List.length h) (by simp)
    · exact fun h => absurd h.1 (by simp [labelStrLe])
  | a :: as, b :: bs => by
    by_cases e : a = b
    · subst e
      have ih := labelStrLe_before as bs
      simp only [labelStrLe, if_pos, ne_eq, List.cons.injEq, true_and]
      rw [← ne_eq, ← ih]
      constructor
      · rintro (⟨c, r, h⟩ | ⟨p, x, y, r, s, h1, h2, h⟩)
        · exact .inl ⟨c, r, (List.cons.inj h).2⟩
        · cases p with
          | nil =>
            rw [← (List.cons.inj h1).1, ← (List.cons.inj h2).1] at h
            exact absurd h (Nat.lt_irrefl _)
          | cons q p => exact .inr ⟨p, x, y, r, s, (List.cons.inj h1).2, (List.cons.inj h2).2, h⟩
      · rintro (⟨c, r, h⟩ | ⟨p, x, y, r, s, h1, h2, h⟩)
        · exact .inl ⟨c, r, by rw [h]; rfl⟩
        · exact .inr ⟨a :: p, x, y, r, s, by rw [h1]; rfl, by rw [h2]; rfl, h⟩
    · simp only [labelStrLe, if_neg e, decide_eq_true_eq]
      constructor
      · intro h
        refine ⟨?_, fun he => e (List.cons.inj he).1⟩
        rcases h with ⟨c, r, h⟩ | ⟨p, x, y, r, s, h1, h2, h⟩
        · exact absurd (List.cons.inj h).1.symm e
        · cases p with
          | nil =>
            rw [(List.cons.inj h1).1, (List.cons.inj h2).1]
            exact h
          | cons q p => exact absurd ((List.cons.inj h1).1.trans (List.cons.inj h2).1.symm) e
      · exact fun h => .inr ⟨[], a, b, as, bs, rfl, rfl, h.1⟩

theorem labelStrLe_total : ∀ a b : Str, (labelStrLe a b || labelStrLe b a) = true
  | [], _ => by simp [labelStrLe]
  | _ :: _, [] => by simp [labelStrLe]
  | a :: as, b :: bs => by
    by_cases e : a = b
    · subst e
      simpa [labelStrLe] using labelStrLe_total as bs
    · have : a.toNat ≠ b.toNat := fun h => e (Char.ext (UInt32.toNat_inj.1 h))
      simp only [labelStrLe, if_neg e, if_neg (Ne.symm e), Bool.or_eq_true, decide_eq_true_eq]
      omega

theorem labelStrLe_trans : ∀ a b c : Str, labelStrLe a b = true → labelStrLe b c = true → labelStrLe a c = true
  | [], _, _, _, _ => by simp [labelStrLe]
  | _ :: _, [], _, h, _ => by simp [labelStrLe] at h
  | _ :: _, _ :: _, [], _, h => by simp [labelStrLe] at h
  | a :: as, b :: bs, c :: cs, h₁, h₂ => by
    simp only [labelStrLe] at *
    by_cases hab : a = b
    · subst hab
      by_cases hbc : a = c
      · subst hbc
        rw [if_pos rfl] at *
        exact labelStrLe_trans as bs cs h₁ h₂
      · rw [if_neg hbc] at *
        exact h₂
    · rw [if_neg hab, decide_eq_true_eq] at h₁
      by_cases hbc : b = c
      · subst hbc
        rw [if_neg hab, decide_eq_true_eq]
        exact h₁
      · rw [if_neg hbc, decide_eq_true_eq] at h₂
        have : a ≠ c := by
          rintro rfl
          omega
        rw [if_neg this, decide_eq_true_eq]
        omega

theorem labelStrLe_antisymm : ∀ a b : Str, labelStrLe a b = true → labelStrLe b a = true → a = b
  | [], [], _, _ => rfl
  | [], _ :: _, _, h => by simp [labelStrLe] at h
  | _ :: _, [], h, _ => by simp [labelStrLe] at h
  | a :: as, b :: bs, h₁, h₂ => by
    simp only [labelStrLe] at *
    by_cases hab : a = b
    · subst hab
      rw [if_pos rfl] at *
      rw [labelStrLe_antisymm as bs h₁ h₂]
    · rw [if_neg hab, decide_eq_true_eq] at h₁
      rw [if_neg (Ne.symm hab), decide_eq_true_eq] at h₂
      omega

theorem before_asymm {a b : Label} (h : Before a b) : ¬ Before b a := by
  intro h'
  cases h with
  | num h => cases h' with | num h' => exact absurd h' (not_lt.2 h.le)
  | str h => cases h' with
    | str h' =>
      rw [labelStrLe_before] at h h'
      exact h.2 (labelStrLe_antisymm _ _ h.1 h'.1)
  | missing h => cases h' with | missing h' => exact h' rfl

theorem before_nodup {l : List Label} (h : l.Pairwise Before) : l.Nodup :=
  h.imp fun {a b} hab e => by subst e; exact before_asymm hab hab

/-- Labels can be listed in order in one way only. -/
theorem before_unique {l₁ l₂ : List Label} (h₁ : l₁.Pairwise Before) (h₂ : l₂.Pairwise Before)
    (h : ∀ c, c ∈ l₁ ↔ c ∈ l₂) : l₁ = l₂ :=
  List.Perm.eq_of_pairwise (fun _ _ _ _ h h' => absurd h' (before_asymm h)) h₁ h₂
    ((List.perm_ext_iff_of_nodup (before_nodup h₁) (before_nodup h₂)).2 h)

theorem classes_ordered {v classes : List Label} (h : labelClasses v = .ok classes) : classes.Pairwise Before := by
  have tail : (if v.any Label.isNull then [Label.nan] else []).Pairwise Before := by
    split
    · exact List.pairwise_singleton _ _
    · exact .nil
  have last : ∀ c ∈ (if v.any Label.isNull then [Label.nan] else []), c = .nan := by
    intro c hc
    split at hc
    · exact List.mem_singleton.1 hc
    · cases hc
  unfold labelClasses at h
  dsimp only at h
  cases hs : strsOf v with
  | nil =>
    rw [hs] at h
    cases h
    refine List.pairwise_append.2 ⟨?_, tail, ?_⟩
    · rw [List.pairwise_map]
      have h1 := pySorted_sorted (le := fun a b : ℚ => decide (a ≤ b))
        (fun a b c h h' => decide_eq_true ((of_decide_eq_true h).trans (of_decide_eq_true h')))
        (fun a b => by simpa using le_total a b) (distinct (numsOf v))
      have h2 : (pySorted (fun a b : ℚ => decide (a ≤ b)) (distinct (numsOf v))).Nodup :=
        (pySorted_perm _ _).nodup_iff.2 (nodup_distinct _)
      exact (h1.and h2).imp fun {a b} hab => .num (lt_of_le_of_ne (of_decide_eq_true hab.1) hab.2)
    · intro a ha b hb
      obtain ⟨q, _, rfl⟩ := List.mem_map.1 ha
      rw [last b hb]
      exact .missing nofun
  | cons s ss =>
    cases hn : numsOf v with
    | cons n ns => rw [hs, hn] at h; cases h
    | nil =>
      rw [hs, hn] at h
      cases h
      refine List.pairwise_append.2 ⟨?_, tail, ?_⟩
      · rw [List.pairwise_map]
        have h1 := pySorted_sorted labelStrLe_trans labelStrLe_total (distinct (s :: ss))
        have h2 : (pySorted labelStrLe (distinct (s :: ss))).Nodup :=
          (pySorted_perm _ _).nodup_iff.2 (nodup_distinct _)
        exact (h1.and h2).imp fun {a b} hab => .str ((labelStrLe_before a b).2 hab)
      · intro a ha b hb
        obtain ⟨q, _, rfl⟩ := List.mem_map.1 ha
        rw [last b hb]
        exact .missing nofun

theorem kind_classes {v : List Label} (h : OneKind v) : ∃ classes, labelClasses v = .ok classes := by
  unfold labelClasses
  dsimp only
  cases hs : strsOf v with
  | nil => exact ⟨_, rfl⟩
  | cons s ss =>
    cases hn : numsOf v with
    | nil => exact ⟨_, rfl⟩
    | cons q qs =>
      have h1 : Label.str s ∈ v := mem_strsOf.1 (by rw [hs]; exact List.mem_cons_self)
      have h2 : Label.num q ∈ v := mem_numsOf.1 (by rw [hn]; exact List.mem_cons_self)
      rcases h with h | h
      · rcases h _ h2 with e | ⟨_, e⟩ <;> cases e
      · rcases h _ h1 with e | ⟨_, e⟩ <;> cases e

theorem mem_present {w : List Label} {c : Label} : c ∈ present w ↔ c ∈ w ∧ c ≠ .nan := by
  unfold present
  rw [List.mem_filter]
  cases c <;> simp [Label.isNull]

/-- The positions of the classes, in order. -/
theorem positions_ordered (m : Nat) :
    ((List.range m).map fun i : Nat => Label.num (i : ℚ)).Pairwise Before := by
  rw [List.pairwise_map]
  exact List.pairwise_lt_range.imp fun {a b} h => .num (by exact_mod_cast h)

/-- The labels handed on are the positions of all classes. -/
theorem encoded_positions {v classes enc : List Label} (hc : labelClasses v = .ok classes)
    (he : encodeLabels classes v = .ok enc) (c : Label) :
    c ∈ enc ↔ c ∈ (List.range classes.length).map fun i : Nat => Label.num (i : ℚ) := by
  obtain ⟨hnd, hm⟩ := classes_mem hc
  obtain ⟨enc', e1, el, e2, e3⟩ := encode_decode classes v fun c h => (hm c).2 h
  rw [he] at e1
  cases e1
  rw [List.mem_map]
  constructor
  · intro h
    obtain ⟨i, rfl, hi⟩ := e3 c h
    exact ⟨i, List.mem_range.2 hi, rfl⟩
  · rintro ⟨i, hi, rfl⟩
    rw [List.mem_range] at hi
    have hv : classes[i] ∈ v := (hm _).1 (List.getElem_mem hi)
    obtain ⟨j, hj, hjv⟩ := List.getElem_of_mem hv
    have f := decodeLabels_rows classes enc v e2
    have hj' : j < enc.length := by omega
    have hd := f.get hj' hj
    rw [List.get_eq_getElem, List.get_eq_getElem, hjv] at hd
    obtain ⟨k, hk, hkl⟩ := e3 _ (List.getElem_mem hj')
    rw [hk, decodeOne_nat classes k _ (List.getElem?_eq_getElem hkl)] at hd
    have : k = i := (List.Nodup.getElem_inj_iff hnd).1 (Except.ok.inj hd)
    subst this
    rw [← hk]
    exact List.getElem_mem hj'

/-- C150: the columns of the probabilities a fitted classifier predicts are for the labels given, in
increasing order: column `k` is for the `k`-th label, and a row for which the model chooses column
`k` is answered with that label.  (A missing label is last, and has a column only where it is
treated as a label, see C83.) -/
theorem C150_columns (f : Format) (v : List Label) (hv : OneKind v) (h : f = .frame → v.length ≠ 1)
    (hl : f = .list → ∃ s, Label.str s ∈ v) :
    ∃ classes y' w, classifierFit (given f v) = .ok (classes, y') ∧ formatY y' = .ok (.series w) ∧
      classes.Pairwise Before ∧ (∀ c, c ∈ classes ↔ c ∈ v) ∧
      ∀ cols, ColumnsFor (present w) cols →
        cols.length ≤ classes.length ∧ (Label.nan ∉ v → cols.length = classes.length) ∧
        (∀ d, d ∈ classes.drop cols.length → d = .nan) ∧
        ∀ pred, pred ≠ [] → (∀ c ∈ pred, c ∈ cols) →
          ∃ out, classifierPredict classes pred = .ok out ∧ out.length = pred.length ∧
            ∀ i k : Nat, i < pred.length → k < cols.length → pred[i]? = cols[k]? → out[i]? = classes[k]? := by
  obtain ⟨classes, hc⟩ := kind_classes hv
  obtain ⟨hnd, hm⟩ := classes_mem hc
  have hord := classes_ordered hc
  by_cases hs : f ≠ .column ∧ v.any Label.isStr = true
  · obtain ⟨enc, he, hfit⟩ := (classifierFit_given f v h hc).1 hs.1 hs.2
    refine ⟨classes, _, enc, hfit, rfl, hord, hm, fun cols hcols => ?_⟩
    have hpos := encoded_positions hc he
    have hcol : cols = (List.range classes.length).map fun i : Nat => Label.num (i : ℚ) := by
      refine before_unique hcols.1 (positions_ordered _) fun c => ?_
      rw [hcols.2, mem_present, hpos]
      constructor
      · exact fun h => h.1
      · intro h
        refine ⟨h, ?_⟩
        obtain ⟨i, _, rfl⟩ := List.mem_map.1 h
        exact nofun
    subst hcol
    have hlen : ((List.range classes.length).map fun i : Nat => Label.num (i : ℚ)).length = classes.length := by
      rw [List.length_map, List.length_range]
    refine ⟨hlen.le, fun _ => hlen, fun d hd => ?_, fun pred hp hpc => ?_⟩
    · rw [hlen, List.drop_length] at hd
      cases hd
    · have hdec : ∀ c ∈ pred, ∃ i : Nat, i < classes.length ∧ c = .num (i : ℚ) := by
        intro c hc
        obtain ⟨i, hi, rfl⟩ := List.mem_map.1 (hpc c hc)
        exact ⟨i, List.mem_range.1 hi, rfl⟩
      -- a position is not a class, as the classes are strings
      have hnot : ∀ q : ℚ, Label.num q ∉ classes := by
        intro q hq
        obtain ⟨d, hd, hd'⟩ := List.any_eq_true.1 hs.2
        have hdstr : ∃ s, d = .str s := by
          cases d with
          | str s => exact ⟨s, rfl⟩
          | num _ => cases hd'
          | nan => cases hd'
        obtain ⟨s, rfl⟩ := hdstr
        rcases hv with hv | hv
        · rcases hv _ ((hm _).1 hq) with e | ⟨_, e⟩ <;> cases e
        · rcases hv _ hd with e | ⟨_, e⟩ <;> cases e
      let g : Label → Label := fun c =>
        match c with
        | .num q => classes.getD q.num.toNat .nan
        | _ => .nan
      have hg : ∀ i : Nat, i < classes.length → classes[i]? = some (g (.num (i : ℚ))) := by
        intro i hi
        show classes[i]? = some (classes.getD ((i : ℚ)).num.toNat .nan)
        rw [Rat.num_natCast, Int.toNat_natCast, List.getD_eq_getElem?_getD, List.getElem?_eq_getElem hi]
        rfl
      refine ⟨pred.map g, ?_, List.length_map .., ?_⟩
      · have h1 : decodeLabels classes pred = .ok (pred.map g) := by
          refine decodeLabels_of classes g pred fun c hc => ?_
          obtain ⟨i, hi, rfl⟩ := hdec c hc
          exact decodeOne_nat classes i _ (hg i hi)
        cases pred with
        | nil => exact absurd rfl hp
        | cons c cs =>
          obtain ⟨i, _, rfl⟩ := hdec c List.mem_cons_self
          exact (if_neg (hnot _)).trans h1
      · intro i k hi hk e
        have hk' : k < classes.length := by rwa [hlen] at hk
        rw [List.getElem?_map, e, List.getElem?_map, List.getElem?_range hk', hg k hk']
        rfl
  · have hs' : f = .column ∨ v.any Label.isStr = false := by
      by_cases hf : f = .column
      · exact .inl hf
      · refine .inr ?_
        cases hb : v.any Label.isStr with
        | false => rfl
        | true => exact absurd ⟨hf, hb⟩ hs
    have hfl : f ≠ .list := by
      rintro rfl
      obtain ⟨s, hsv⟩ := hl rfl
      rcases hs' with e | e
      · cases e
      · rw [List.any_eq_false] at e
        exact absurd rfl (e _ hsv)
    refine ⟨classes, _, v, (classifierFit_given f v h hc).2 hs', ?_, hord, hm, fun cols hcols => ?_⟩
    · cases f with
      | series => rfl
      | array => rfl
      | list => exact absurd rfl hfl
      | column => simp [given, formatY, firstColumn_single]
      | frame => simp only [given, formatY, squeeze_column v (h rfl)]
    · have hsplit : ∃ r, classes = cols ++ r ∧ ∀ d ∈ r, d = .nan := by
        refine ⟨if v.any Label.isNull then [.nan] else [], ?_, ?_⟩
        · refine before_unique hord ?_ fun c => ?_
          · refine List.pairwise_append.2 ⟨hcols.1, ?_, ?_⟩
            · split
              · exact List.pairwise_singleton _ _
              · exact .nil
            · intro a ha b hb
              have : b = .nan := by
                split at hb
                · exact List.mem_singleton.1 hb
                · cases hb
              rw [this]
              exact .missing (mem_present.1 ((hcols.2 a).1 ha)).2
          · rw [hm, List.mem_append, hcols.2, mem_present]
            by_cases hcn : c = .nan
            · subst hcn
              constructor
              · intro h
                refine .inr ?_
                rw [if_pos (List.any_eq_true.2 ⟨_, h, rfl⟩)]
                exact List.mem_singleton.2 rfl
              · rintro (h | h)
                · exact h.1
                · split at h
                  · rename_i hany
                    obtain ⟨d, hd, hd'⟩ := List.any_eq_true.1 hany
                    rwa [(isNull_iff d).1 hd'] at hd
                  · cases h
            · constructor
              · exact fun h => .inl ⟨h, hcn⟩
              · rintro (h | h)
                · exact h.1
                · split at h
                  · exact absurd (List.mem_singleton.1 h) hcn
                  · cases h
        · intro d hd
          split at hd
          · exact List.mem_singleton.1 hd
          · cases hd
      obtain ⟨r, hr, hrn⟩ := hsplit
      have hdrop : classes.drop cols.length = r := by rw [hr, List.drop_left]
      refine ⟨by rw [hr, List.length_append]; omega, fun hn => ?_, fun d hd => hrn d (hdrop ▸ hd), fun pred hp hpc => ?_⟩
      · cases r with
        | nil => rw [hr, List.append_nil]
        | cons d r =>
          have : d = .nan := hrn d List.mem_cons_self
          subst this
          exact absurd ((hm _).1 (by rw [hr]; exact List.mem_append_right _ List.mem_cons_self)) hn
      · refine ⟨pred, ?_, rfl, ?_⟩
        · cases pred with
          | nil => exact absurd rfl hp
          | cons c cs =>
            have hin : c ∈ classes := by
              rw [hr]
              exact List.mem_append_left _ (hpc c List.mem_cons_self)
            exact if_pos hin
        · intro i k _ hk e
          rw [e, hr, List.getElem?_append_left hk]

/-- Strings given as a Series, one of them missing: the columns are for `a`, `b` and the missing label. -/
example : classifierFit (given .series [.str ['b'], .nan, .str ['a']]) =
      .ok ([.str ['a'], .str ['b'], .nan], .array1 [.num 1, .num 2, .num 0]) ∧
    ColumnsFor (present [.num 1, .num 2, .num 0]) [.num 0, .num 1, .num 2] ∧
    classifierPredict [.str ['a'], .str ['b'], .nan] [.num 1, .num 0] = .ok [.str ['b'], .str ['a']] := by
  refine ⟨rfl, ⟨?_, ?_⟩, rfl⟩
  · simp only [List.pairwise_cons, List.mem_cons, List.not_mem_nil, or_false, List.Pairwise.nil, and_true]
    exact ⟨by rintro a (rfl | rfl) <;> exact .num (by norm_num), by rintro a rfl; exact .num (by norm_num), nofun⟩
  · intro c
    simp [present, Label.isNull]
    tauto

/-- `C150_columns` on them, and on numbers. -/
example := C150_columns .series [.str ['b'], .nan, .str ['a']] (.inl (by simp)) nofun nofun
example := C150_columns .column [.num 7, .num 3, .nan] (.inr (by simp)) nofun nofun

/-- The order of strings: `B` is before `a`, which is before `ab`. -/
example : StrBefore ['B'] ['a'] ∧ StrBefore ['a'] ['a', 'b'] :=
  ⟨.inr ⟨[], 'B', 'a', [], [], rfl, rfl, by decide⟩, .inl ⟨'b', [], rfl⟩⟩

end Gama
