import Verif.Props.Logs
import Verif.Props.Loading
import Mathlib.Data.List.Forall2

/-! # What a report reads (C73), and line ends (C139) -/

namespace Gama
open Spec

section
variable {M I : Type}

theorem column_named {E : Type} {fields : LogFields E} (hn : (fields.map Prod.fst).Nodup) {name : Str}
    {f : E → Str} (hf : (name, f) ∈ fields) (e : E) :
    column (fields.map Prod.fst) name (record fields e) = .ok (f e) := by
  induction fields with
  | nil => cases hf
  | cons p fields ih =>
    obtain ⟨h1, h2⟩ := List.nodup_cons.1 hn
    show column (p.1 :: fields.map Prod.fst) name (p.2 e :: record fields e) = _
    rw [column]
    rcases List.mem_cons.1 hf with rfl | hf
    · rw [if_pos rfl]
    · rw [if_neg, ih h2 hf]
      rintro rfl
      exact h1 (List.mem_map.2 ⟨_, hf, rfl⟩)

theorem convertRow_parts {C : Conversions M I} {m n : Nat} {header r : List Str} {x : ReportRow M × (Str × I)}
    (h : convertRow C m header n r = .ok x) :
    (∀ t, column header "score".toList r = .ok t → C.scores t = .ok x.1.metrics) ∧
    (∀ t, column header "t_start".toList r = .ok t → C.start t = .ok x.1.start) ∧
    (∀ t, column header "t_wallclock".toList r = .ok t → C.duration t = .ok x.1.duration) ∧
    (∀ t, column header "pipeline".toList r = .ok t → C.pipeline t = .ok x.2.2) ∧
    (∀ t, column header "id".toList r = .ok t → t = x.2.1) := by
  have e1 : "score".toList = ['s', 'c', 'o', 'r', 'e'] := by decide +kernel
  have e2 : "t_start".toList = ['t', '_', 's', 't', 'a', 'r', 't'] := by decide +kernel
  have e3 : "t_wallclock".toList = ['t', '_', 'w', 'a', 'l', 'l', 'c', 'l', 'o', 'c', 'k'] := by decide +kernel
  have e4 : "pipeline".toList = ['p', 'i', 'p', 'e', 'l', 'i', 'n', 'e'] := by decide +kernel
  have e5 : "id".toList = ['i', 'd'] := by decide +kernel
  rw [e1, e2, e3, e4, e5]
  unfold convertRow at h
  simp only [bind, Except.bind] at h
  cases h1 : column header ['s', 'c', 'o', 'r', 'e'] r with
  | error _ => rw [h1] at h; cases h
  | ok t1 =>
  rw [h1] at h
  dsimp only at h
  cases h2 : C.scores t1 with
  | error _ => rw [h2] at h; cases h
  | ok scores =>
  rw [h2] at h
  dsimp only at h
  split at h
  · cases h
  cases h3 : column header ['t', '_', 's', 't', 'a', 'r', 't'] r with
  | error _ => rw [h3] at h; cases h
  | ok t2 =>
  rw [h3] at h
  dsimp only at h
  cases h4 : C.start t2 with
  | error _ => rw [h4] at h; cases h
  | ok start =>
  rw [h4] at h
  dsimp only at h
  cases h5 : column header ['t', '_', 'w', 'a', 'l', 'l', 'c', 'l', 'o', 'c', 'k'] r with
  | error _ => rw [h5] at h; cases h
  | ok t3 =>
  rw [h5] at h
  dsimp only at h
  cases h6 : C.duration t3 with
  | error _ => rw [h6] at h; cases h
  | ok duration =>
  rw [h6] at h
  dsimp only at h
  cases h7 : column header ['p', 'i', 'p', 'e', 'l', 'i', 'n', 'e'] r with
  | error _ => rw [h7] at h; cases h
  | ok t4 =>
  rw [h7] at h
  dsimp only at h
  cases h8 : C.pipeline t4 with
  | error _ => rw [h8] at h; cases h
  | ok ind =>
  rw [h8] at h
  dsimp only at h
  cases h9 : column header ['i', 'd'] r with
  | error _ => rw [h9] at h; cases h
  | ok t5 =>
  rw [h9] at h
  cases h
  refine ⟨?_, ?_, ?_, ?_, ?_⟩ <;> rintro t ⟨⟩
  · exact h2
  · exact h4
  · exact h6
  · exact h8
  · rfl

theorem convertRows_each {C : Conversions M I} {m : Nat} {header : List Str} :
    ∀ {n : Nat} {rs : List (List Str)} {xs : List (ReportRow M × (Str × I))},
    convertRows C m header n rs = .ok xs →
    List.Forall₂ (fun r x => ∃ k, convertRow C m header k r = .ok x) rs xs
  | n, [], xs, h => by
    simp only [convertRows, Except.ok.injEq] at h
    subst h
    exact .nil
  | n, r :: rs, xs, h => by
    simp only [convertRows, bind, Except.bind] at h
    cases hx : convertRow C m header n r with
    | error _ => rw [hx] at h; cases h
    | ok x =>
      rw [hx] at h
      dsimp only at h
      cases hy : convertRows C m header (n + 1) rs with
      | error _ => rw [hy] at h; cases h
      | ok ys =>
        rw [hy] at h
        cases h
        exact .cons ⟨n, hx⟩ (convertRows_each hy)

theorem dget_dmerge_not {K V : Type} [DecidableEq K] {k : K} : ∀ {l : List (K × V)} {a : List (K × V)},
    k ∉ l.map Prod.fst → dget (dmerge a l) k = dget a k
  | [], _, _ => rfl
  | x :: l, a, h => by
    have h1 : k ≠ x.1 := fun e => h (e ▸ List.mem_cons_self)
    show dget (dmerge (dset a x.1 x.2) l) k = _
    rw [dget_dmerge_not fun hk => h (List.mem_cons_of_mem _ hk), dget_dset, if_neg (Ne.symm h1)]

theorem dget_dmerge_last {K V : Type} [DecidableEq K] {k : K} {v : V} :
    ∀ {l : List (K × V)} {a : List (K × V)} (i : Nat), l[i]? = some (k, v) →
      (∀ j p, i < j → l[j]? = some p → p.1 ≠ k) → dget (dmerge a l) k = some v
  | [], _, i, h, _ => by cases h
  | x :: l, a, 0, h, hl => by
    rw [List.getElem?_cons_zero, Option.some.injEq] at h
    subst h
    show dget (dmerge (dset a k v) l) k = _
    rw [dget_dmerge_not, dget_dset, if_pos rfl]
    intro hk
    obtain ⟨p, hp, he⟩ := List.mem_map.1 hk
    obtain ⟨j, hj⟩ := List.getElem?_of_mem hp
    exact hl (j + 1) p (by omega) (by rw [List.getElem?_cons_succ]; exact hj) he
  | x :: l, a, i + 1, h, hl => by
    rw [List.getElem?_cons_succ] at h
    exact dget_dmerge_last (a := dset a x.1 x.2) i h fun j p hj hp =>
      hl (j + 1) p (by omega) (by rw [List.getElem?_cons_succ]; exact hp)

theorem forall₂_getElem {α β : Type} {R : α → β → Prop} {l : List α} {m : List β} (h : List.Forall₂ R l m) :
    ∀ {i : Nat} {a : α}, l[i]? = some a → ∃ b, m[i]? = some b ∧ R a b := by
  induction h with
  | nil => intro i a h; cases h
  | cons hab _ ih =>
    intro i a h
    cases i with
    | zero =>
      rw [List.getElem?_cons_zero, Option.some.injEq] at h
      subst h
      exact ⟨_, rfl, hab⟩
    | succ i =>
      rw [List.getElem?_cons_succ] at h ⊢
      exact ih h

/-- **C73.** In the report, the scores, start and duration of an evaluation are those read from the texts logged
for it under these names, and the individual that the report has for its id is the one read from the text of its
pipeline, unless a later evaluation has the same id. -/
theorem C73_values [LinearOrder M] {E : Type} (C : Conversions M I) (fields : LogFields E)
    (hn : (fields.map Prod.fst).Nodup) (m : Nat)
    (pieces : List (List E)) (hp : pieces ≠ []) (h : Spec.CleanLog fields pieces.flatten)
    (r : Report M I)
    (hr : updates C true (newReport true m) (Spec.snapshots fields [] pieces) = .ok r)
    (i : Nat) (e : E) (he : pieces.flatten[i]? = some e) :
    (∃ x, r.rows[i]? = some x ∧
      (∀ f, ("score".toList, f) ∈ fields → C.scores (f e) = .ok x.metrics) ∧
      (∀ f, ("t_start".toList, f) ∈ fields → C.start (f e) = .ok x.start) ∧
      (∀ f, ("t_wallclock".toList, f) ∈ fields → C.duration (f e) = .ok x.duration)) ∧
    ∀ f g, ("id".toList, f) ∈ fields → ("pipeline".toList, g) ∈ fields →
      (∀ j e', i < j → pieces.flatten[j]? = some e' → f e' ≠ f e) →
      ∃ ind, C.pipeline (g e) = .ok ind ∧ dget r.individuals (f e) = some ind := by
  have hread : ∀ c, Spec.CleanLog fields ([] ++ c) → readLog (logOf fields ([] ++ c)) 0
      = ((logOf fields ([] : List E)).length, fields.map Prod.fst, .ok (c.map (record fields))) := by
    intro c hc
    rw [List.nil_append] at hc ⊢
    rw [readLog_first hc, logOf_eq]
    simp [linesOf]
  have h0 : (newReport true m : Report M I) = reportOf m 0 [] := rfl
  rw [h0, updates_from C fields m 0 [] pieces true (by simpa using h) [] rfl hread hp,
    List.nil_append] at hr
  cases hx : convertRows C m (fields.map Prod.fst) 0 (pieces.flatten.map (record fields)) with
  | error e => rw [hx] at hr; simp [Except.map] at hr
  | ok xs =>
    rw [hx] at hr
    simp only [Except.map, Except.ok.injEq] at hr
    obtain ⟨_, _, _, p4, p5⟩ := reportOf_parts m (logOf fields pieces.flatten).length xs
    rw [hr] at p4 p5
    have hall := convertRows_each hx
    have hrec : ∀ {j : Nat} {e' : E}, pieces.flatten[j]? = some e' →
        ∃ x, xs[j]? = some x ∧ ∃ k, convertRow C m (fields.map Prod.fst) k (record fields e') = .ok x := by
      intro j e' hj
      exact forall₂_getElem hall (by rw [List.getElem?_map, hj]; rfl)
    obtain ⟨x, hxi, k, hk⟩ := hrec he
    obtain ⟨q1, q2, q3, q4, q5⟩ := convertRow_parts hk
    refine ⟨⟨x.1, by rw [p4, List.getElem?_map, hxi]; rfl, ?_, ?_, ?_⟩, ?_⟩
    · exact fun f hf => q1 _ (column_named hn hf e)
    · exact fun f hf => q2 _ (column_named hn hf e)
    · exact fun f hf => q3 _ (column_named hn hf e)
    · intro f g hf hg hlast
      refine ⟨x.2.2, q4 _ (column_named hn hg e), ?_⟩
      have hid := q5 _ (column_named hn hf e)
      rw [p5]
      refine dget_dmerge_last i (by rw [List.getElem?_map, hxi, hid]; rfl) ?_
      intro j p hj hpj heq
      rw [List.getElem?_map, Option.map_eq_some_iff] at hpj
      obtain ⟨y, hy, rfl⟩ := hpj
      have hlt : j < pieces.flatten.length := by
        have := hall.length_eq
        rw [List.length_map] at this
        rw [this]
        exact (List.getElem?_eq_some_iff.1 hy).1
      obtain ⟨y', hy', k', hk'⟩ := hrec (List.getElem?_eq_getElem hlt)
      rw [hy] at hy'
      cases hy'
      have := (convertRow_parts hk').2.2.2.2 _ (column_named hn hf _)
      exact hlast j _ hj (List.getElem?_eq_getElem hlt) (this.trans heq)

end

/-- The report of `C73_incremental` has these values. -/
example := C73_values lengthConversions reportFields (by decide +kernel) 1
  [[(['a'], ['1', '2'])], [(['b'], ['1']), (['c'], ['1', '2', '3'])]] (by simp) reportFields_clean

/-! ### Line ends -/

/-- The text with another line end: `"\n"`, `"\r\n"` or `"\r"`. -/
def Spec.withEnds (ending : Str) (s : Str) : Str := s.flatMap fun c => if c = '\n' then ending else [c]

/-- The line ends that Unix, Windows and old Macintosh computers write. -/
def Spec.lineEnds : List Str := [['\n'], ['\r', '\n'], ['\r']]

theorem universal_cons {c : Char} (hc : c ≠ '\r') (s : Str) : universal (c :: s) = c :: universal s := by
  cases s with
  | nil => simp [universal, hc]
  | cons d s => rw [universal, if_neg hc]

theorem universal_windows (s : Str) : universal ('\r' :: '\n' :: s) = '\n' :: universal s := by
  rw [universal, if_pos rfl, if_pos rfl]

theorem universal_return {s : Str} (hs : '\n' ∉ s) : universal ('\r' :: s) = '\n' :: universal s := by
  cases s with
  | nil => rfl
  | cons d s => rw [universal, if_pos rfl, if_neg fun e : d = '\n' => hs (e ▸ List.mem_cons_self)]

theorem withEnds_cons (ending : Str) (c : Char) (s : Str) :
    withEnds ending (c :: s) = (if c = '\n' then ending else [c]) ++ withEnds ending s := by
  unfold withEnds
  rw [List.flatMap_cons]

theorem universal_withEnds {ending : Str} (he : ending ∈ lineEnds) : ∀ {s : Str}, '\r' ∉ s →
    universal (withEnds ending s) = s
  | [], _ => rfl
  | c :: s, hs => by
    have hc : c ≠ '\r' := fun e => hs (e ▸ List.mem_cons_self)
    have hs' : '\r' ∉ s := fun h => hs (List.mem_cons_of_mem _ h)
    have ih := universal_withEnds he hs'
    rw [withEnds_cons]
    by_cases hn : c = '\n'
    · subst hn
      rw [if_pos rfl]
      unfold lineEnds at he
      simp only [List.mem_cons, List.not_mem_nil, or_false] at he
      rcases he with rfl | rfl | rfl
      · rw [List.singleton_append, universal_cons hc, ih]
      · show universal ('\r' :: '\n' :: withEnds ['\r', '\n'] s) = _
        rw [universal_windows, ih]
      · rw [List.singleton_append, universal_return, ih]
        intro hm
        unfold withEnds at hm
        obtain ⟨d, -, hd⟩ := List.mem_flatMap.1 hm
        split at hd
        · simp at hd
        · rename_i hne
          rw [List.mem_singleton] at hd
          exact hne hd.symm
    · rw [if_neg hn, List.singleton_append, universal_cons hc, ih]

/-- **C139.** Metadata of ARFF files, headers of CSV files and logs of evaluations are read alike whichever of
the three line ends a file is written with. -/
theorem C139_line_ends {M I : Type} [LinearOrder M] (ending : Str) (he : ending ∈ lineEnds) (s : Str)
    (hs : '\r' ∉ s) :
    (∀ fuel, arffMetadata fuel (withEnds ending s) = arffMetadata fuel s) ∧
    (∀ path sniffed sep, csvHeader path sniffed sep (withEnds ending s) = csvHeader path sniffed sep s) ∧
    (∀ (C : Conversions M I) (force : Bool) (r : Report M I),
      update C (withEnds ending s) force r = update C s force r) := by
  have e1 := universal_withEnds he hs
  have e2 := universal_id s hs
  refine ⟨fun fuel => ?_, fun path sniffed sep => ?_, fun C force r => ?_⟩
  · unfold arffMetadata; rw [e1, e2]
  · unfold csvHeader; rw [e1, e2]
  · unfold update readLog; rw [e1, e2]

/-- A header of two lines as Windows writes it. -/
example : withEnds ['\r', '\n'] "@relation r\n@attribute a real\n".toList =
    "@relation r\r\n@attribute a real\r\n".toList := by decide +kernel

end Gama
