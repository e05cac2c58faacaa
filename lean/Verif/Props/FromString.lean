import Verif.Lemmas.FromString

/-!
# Reading back a printed pipeline (C01)
-/

namespace Gama
open Spec PyM

/-- What C01 asks of a search space: printed names and values contain no separator, class
names do not contain `data`, and different things print differently. -/
structure Spec.Printable (ps : PSet) : Prop where
  name_open : ∀ k p, p ∈ ps.prims k → '(' ∉ p.str
  name_data : ∀ k p, p ∈ ps.prims k → ¬ dataTerminal <:+: p.str
  name_inj : ∀ p q, p ∈ ps.prims dataTerminal ++ ps.prims predictionKey →
    q ∈ ps.prims dataTerminal ++ ps.prims predictionKey → p.str = q.str → p = q
  term_sep : ∀ k t, t ∈ ps.terms k → ∀ c ∈ ['(', ')', ','], c ∉ t.repr
  term_eq : ∀ k t, t ∈ ps.terms k → '=' ∉ t.ident ∧ '=' ∉ t.value.fmt
  value_inj : ∀ k t u, t ∈ ps.terms k → u ∈ ps.terms k → t.repr = u.repr → t = u

theorem findPrimitive_ok {ps : PSet} (hp : Printable ps) {p : Primitive}
    (h : p ∈ ps.prims dataTerminal ++ ps.prims predictionKey) :
    findPrimitive ps p.str = .ok p := by
  unfold findPrimitive
  cases hf : (ps.prims dataTerminal ++ ps.prims predictionKey).find? (fun q => q.str == p.str) with
  | none =>
    have := List.find?_eq_none.1 hf p h
    simp at this
  | some q =>
    have h1 := List.find?_some hf
    have h2 := List.mem_of_find?_eq_some hf
    rw [hp.name_inj q p h2 h (by simpa using h1)]

theorem findTerminal_ok {ps : PSet} (hps : PSetOk ps) (hp : Printable ps) {t : Terminal}
    (h : t ∈ ps.terms t.ident) : findTerminal ps t.repr = .ok t := by
  unfold findTerminal
  have hs : split1 '=' t.repr = [t.ident, t.value.fmt] := by
    rw [Terminal.repr, split1_append (hp.term_eq _ _ h).1, split1_notin (hp.term_eq _ _ h).2]
  rw [hs]
  dsimp only
  cases hf : (ps.terms t.ident).find? (fun u => u.repr == t.repr) with
  | none =>
    have := List.find?_eq_none.1 hf t h
    simp at this
  | some q =>
    have h1 := List.find?_some hf
    have h2 := List.mem_of_find?_eq_some hf
    rw [hp.value_inj _ q t h2 h (by simpa using h1)]

theorem findTerminals_ok {ps : PSet} (hps : PSetOk ps) (hp : Printable ps) :
    ∀ {ts : List Terminal}, (∀ t ∈ ts, t ∈ ps.terms t.ident) →
    findTerminals ps (ts.map Terminal.repr) = .ok ts
  | [], _ => rfl
  | t :: ts, h => by
    rw [List.map_cons, findTerminals, findTerminal_ok hps hp (h t (by simp)),
      findTerminals_ok hps hp (fun u hu => h u (by simp [hu]))]

theorem split2_intercalate : ∀ {l : List Str}, l ≠ [] → (∀ s ∈ l, ',' ∉ s) →
    split2 ',' ' ' (List.intercalate [',', ' '] l) = l
  | [], h, _ => absurd rfl h
  | [s], _, h => by
    simp [List.intercalate, split2_notin (h s (by simp))]
  | s :: t :: l, _, h => by
    have ih := split2_intercalate (l := t :: l) (by simp) (fun x hx => h x (by simp [hx]))
    have e : List.intercalate [',', ' '] (s :: t :: l)
        = s ++ ',' :: ' ' :: List.intercalate [',', ' '] (t :: l) := by
      simp [List.intercalate]
    rw [e, split2_append (h s (by simp)), ih]

theorem parseTerminals_ok {ps : PSet} (hps : PSetOk ps) (hp : Printable ps) {s : Step}
    (h : ∀ t ∈ s.terms, t ∈ ps.terms t.ident) : parseTerminals ps (tailStr s) = .ok s.terms := by
  unfold parseTerminals tailStr
  by_cases hn : s.terms = []
  · simp [hn]
  · rw [if_neg hn, if_neg (by simp)]
    have e : (',' :: ' ' :: List.intercalate [',', ' '] (s.terms.map Terminal.repr)).drop 2
        = List.intercalate [',', ' '] (s.terms.map Terminal.repr) := rfl
    rw [e, split2_intercalate (by simpa using hn), findTerminals_ok hps hp h]
    intro x hx
    obtain ⟨t, ht, rfl⟩ := List.mem_map.1 hx
    exact hp.term_sep _ _ (h t ht) ',' (by simp)

theorem mem_intercalate {c : Char} : ∀ {l : List Str},
    c ∈ List.intercalate [',', ' '] l → c = ',' ∨ c = ' ' ∨ ∃ s ∈ l, c ∈ s
  | [], h => by simp [List.intercalate] at h
  | [s], h => by
    simp [List.intercalate] at h; exact Or.inr (Or.inr ⟨s, by simp, h⟩)
  | s :: t :: l, h => by
    have e : List.intercalate [',', ' '] (s :: t :: l)
        = s ++ ',' :: ' ' :: List.intercalate [',', ' '] (t :: l) := by
      simp [List.intercalate]
    rw [e] at h
    simp only [List.mem_append, List.mem_cons] at h
    rcases h with h | h | h | h
    · exact Or.inr (Or.inr ⟨s, by simp, h⟩)
    · exact Or.inl h
    · exact Or.inr (Or.inl h)
    · rcases mem_intercalate h with h | h | ⟨x, hx, h⟩
      · exact Or.inl h
      · exact Or.inr (Or.inl h)
      · exact Or.inr (Or.inr ⟨x, by simp [hx], h⟩)

theorem tailStr_sep {ps : PSet} (hp : Printable ps) {s : Step}
    (h : ∀ t ∈ s.terms, t ∈ ps.terms t.ident) {c : Char} (hc : c = '(' ∨ c = ')') :
    c ∉ tailStr s := by
  unfold tailStr
  split
  · simp
  · intro hm
    simp only [List.mem_cons] at hm
    have h1 : c ≠ ',' := by rcases hc with rfl | rfl <;> decide
    have h2 : c ≠ ' ' := by rcases hc with rfl | rfl <;> decide
    rcases hm with hm | hm | hm
    · exact h1 hm
    · exact h2 hm
    · rcases mem_intercalate hm with hm | hm | ⟨x, hx, hm⟩
      · exact h1 hm
      · exact h2 hm
      · obtain ⟨t, ht, rfl⟩ := List.mem_map.1 hx
        exact hp.term_sep _ _ (h t ht) c (by rcases hc with rfl | rfl <;> simp) hm

theorem wp_parseLoop {ps : PSet} (hps : PSetOk ps) (hp : Printable ps) {strict : Bool} :
    ∀ {rs : List Step} {d : Option Addr} {l : List (Addr × Step)} {w : World},
    Chain w.nodes d l → (∀ s ∈ rs, StepOk ps dataTerminal s ∨ StepOk ps predictionKey s) →
    wp (parseLoop ps strict (rs.map fun s => (s.prim.str, tailStr s)) d)
      (fun d' w' => ∃ l', Chain w'.nodes d' l' ∧ steps l' = rs.reverse ++ steps l ∧
        w.nodes <+: w'.nodes ∧ w'.inds = w.inds ∧
        ∀ a ∈ addrs l', a ∈ addrs l ∨ w.nodes.length ≤ a)
      (fun _ _ => False) w
  | [], d, l, w, hc, _ => by
    refine wp_pure.2 ⟨l, hc, by simp, List.prefix_rfl, rfl, fun a ha => Or.inl ha⟩
  | s :: rs, d, l, w, hc, h => by
    have hs : ∃ k, StepOk ps k s := by
      rcases h s (by simp) with h | h
      · exact ⟨_, h⟩
      · exact ⟨_, h⟩
    obtain ⟨k, hk⟩ := hs
    have hmem : s.prim ∈ ps.prims dataTerminal ++ ps.prims predictionKey := by
      rcases h s (by simp) with h | h
      · exact List.mem_append_left _ h.offered
      · exact List.mem_append_right _ h.offered
    rw [List.map_cons, parseLoop, findPrimitive_ok hp hmem]
    dsimp only
    rw [parseTerminals_ok hps hp hk.values]
    dsimp only
    rw [if_neg]
    · simp only [wp_bind]
      apply wp_newNode
      have hsort : sortTerms s.terms = s.terms := sortTerms_of_sorted hk.ordered
      rw [hsort]
      have hc' : Chain (w.nodes ++ [⟨s.prim, s.terms, d⟩]) (some w.nodes.length)
          ((w.nodes.length, s) :: l) := by
        simp only [Chain]
        exact ⟨trivial, d, by simp, hc.append_heap⟩
      refine wp_mono ?_ (fun _ _ h => h) (wp_parseLoop hps hp (strict := strict) (rs := rs)
        (w := { w with nodes := w.nodes ++ [⟨s.prim, s.terms, d⟩] }) hc'
        (fun x hx => h x (by simp [hx])))
      rintro d' w' ⟨l', h1, h2, h3, h4, h5⟩
      refine ⟨l', h1, ?_, (List.prefix_append _ _).trans h3, h4, ?_⟩
      · rw [h2]; simp [steps]
      · intro a ha
        rcases h5 a ha with h | h
        · simp only [addrs, List.map_cons, List.mem_cons] at h
          rcases h with h | h
          · exact Or.inr (Nat.le_of_eq h.symm)
          · exact Or.inl h
        · exact Or.inr (Nat.le_trans (by simp) h)
    · intro hx
      simp only [Bool.and_eq_true, List.any_eq_true] at hx
      obtain ⟨_, i, hi, hn⟩ := hx
      have : i ∈ s.terms.map Terminal.ident := hk.complete.mem_iff.2 hi
      rw [List.contains_iff_mem.2 this] at hn
      simp at hn

/-- What a well-formed pipeline prints is read as the same steps, in whatever world. -/
theorem read_printed {ps : PSet} (hps : PSetOk ps) (hp : Printable ps)
    {ss : List Step} (hok : PipelineOk ps ss) (strict : Bool) (w : World) :
    ∃ n w', indFromString ps (printed ss) strict w = (.ok n, w') ∧ Fresh w w' n ss ∧
      pipelineStr n w' = (.ok (printed ss), w') := by
  have hstep : ∀ s ∈ ss, StepOk ps dataTerminal s ∨ StepOk ps predictionKey s := by
    cases ss with
    | nil => simp
    | cons e pre =>
      intro s hs
      rcases List.mem_cons.1 hs with rfl | hs
      · exact Or.inr hok.1
      · exact Or.inl (hok.2 s hs)
  have hkind : ∀ s ∈ ss, ∃ k, StepOk ps k s := fun s hs => pipelineOk_kind hok hs
  have hne : ss ≠ [] := by rintro rfl; exact hok
  have hclose : ∀ {c : Char}, c = '(' → c ∉ closePart ss := by
    intro c hc
    have : ∀ ss : List Step, (∀ s ∈ ss, ∃ k, StepOk ps k s) → c ∉ closePart ss := by
      intro ss
      induction ss with
      | nil => simp [closePart]
      | cons s ss ih =>
        intro h hm
        simp only [closePart, List.mem_append, List.mem_singleton] at hm
        rcases hm with hm | hm | hm
        · exact ih (fun x hx => h x (by simp [hx])) hm
        · obtain ⟨k, hk⟩ := h s (by simp)
          exact tailStr_sep hp hk.values (Or.inl hc) hm
        · subst hc; exact absurd hm (by decide)
    exact this ss hkind
  have h1 : (split1 '(' (printed ss)).dropLast = ss.map fun s => s.prim.str := by
    rw [printed_parts, split_open]
    · simp
    · intro s hs; obtain ⟨k, hk⟩ := hkind s hs; exact hp.name_open _ _ hk.offered
    · intro hm
      rcases List.mem_append.1 hm with hm | hm
      · revert hm; decide
      · exact hclose rfl hm
  have h2 : afterData (printed ss) = some (closePart ss) := by
    rw [printed_parts, afterData_open]
    intro s hs u hu hpre
    obtain ⟨k, hk⟩ := hkind s hs
    exact hp.name_data _ _ hk.offered (hpre.isInfix.trans hu.isInfix)
  have h3 : (split1 ')' (closePart ss)).dropLast = ss.reverse.map tailStr := by
    apply split_close
    intro s hs
    obtain ⟨k, hk⟩ := hkind s hs
    exact tailStr_sep hp hk.values (Or.inr rfl)
  have h4 : (ss.map fun s => s.prim.str).reverse.zip (ss.reverse.map tailStr)
      = ss.reverse.map fun s => (s.prim.str, tailStr s) := by
    rw [← List.map_reverse, List.zip_map']
  have h : wp (indFromString ps (printed ss) strict)
      (fun n w' => Fresh w w' n ss) (fun _ _ => False) w := by
    simp only [indFromString, wp_bind, nodeFromString]
    rw [h1, h2]
    dsimp only
    rw [h3, h4]
    refine wp_mono ?_ (fun _ _ h => h) (wp_parseLoop hps hp (strict := strict) (d := none) (l := [])
      (w := w) rfl (fun s hs => hstep s (by simpa using hs)))
    rintro d w₁ ⟨l, g1, g2, g3, g4, g5⟩
    simp only [List.reverse_reverse, steps, List.map_nil, List.append_nil] at g2
    cases d with
    | none =>
      cases l with
      | nil => exact absurd g2.symm hne
      | cons x l => obtain ⟨a, s⟩ := x; simp [Chain] at g1
    | some a =>
      dsimp only
      show wp (newInd a) _ _ _
      have hz : Fresh w { w₁ with inds := w₁.inds ++ [{ main := a }] } w₁.inds.length ss := by
        refine ⟨⟨g3, ?_⟩, Nat.le_of_eq (by rw [g4]), addrs l, ?_, ?_⟩
        · show w.inds <+: w₁.inds ++ _
          rw [g4]; exact List.prefix_append _ _
        · exact isAt_iff.2 ⟨{ main := a }, l, by simp, g1, g2, rfl⟩
        · intro b hb
          rcases g5 b hb with h | h
          · simp [addrs] at h
          · exact h
      exact hz
  cases hr : indFromString ps (printed ss) strict w with
  | mk r w' =>
    cases r with
    | error e => exact (wp_error h hr).elim
    | ok n =>
      have hf := wp_ok h hr
      obtain ⟨as, hat, _⟩ := hf.is
      exact ⟨n, w', rfl, hf, pipelineStr_is ⟨as, hat⟩⟩

/-- **C01.** Take any usable search space in which printed names and values contain no
separators, any well-formed pipeline of it, of any length: parsing what it prints, strictly
or not, gives a new individual with exactly the same steps and values, which again prints
the same string; no existing individual is affected. -/
theorem C01_string_round_trip {ps : PSet} (hps : PSetOk ps) (hp : Printable ps)
    {ss : List Step} (hok : PipelineOk ps ss) (strict : Bool) {w : World} {i : Nat} {s : Str}
    (his : Is w i ss) (print : pipelineStr i w = (.ok s, w)) :
    ∃ n w', indFromString ps s strict w = (.ok n, w') ∧ Fresh w w' n ss ∧
      pipelineStr n w' = (.ok s, w') := by
  rw [pipelineStr_is his] at print
  injection print with print _
  injection print with print
  subst print
  exact read_printed hps hp hok strict w

theorem space_printable : Printable Ex.space where
  name_open := by
    intro k p h
    rcases Ex.mem_prims h with ⟨rfl, rfl | rfl⟩ | ⟨rfl, rfl | rfl⟩ <;> decide
  name_data := by
    intro k p h
    rcases Ex.mem_prims h with ⟨rfl, rfl | rfl⟩ | ⟨rfl, rfl | rfl⟩ <;>
    · intro hi
      have := hi.length_le
      revert this; decide
  name_inj := by
    have e : Ex.space.prims dataTerminal ++ Ex.space.prims predictionKey
        = [Ex.pSC, Ex.pPCA, Ex.pNB, Ex.pDT] := rfl
    rw [e]
    intro p q hp hq
    simp only [List.mem_cons, List.not_mem_nil, or_false] at hp hq
    rcases hp with rfl | rfl | rfl | rfl <;> rcases hq with rfl | rfl | rfl | rfl <;> decide
  term_sep := by
    intro k t h
    rcases Ex.mem_terms h with ⟨rfl, rfl | rfl⟩ | ⟨rfl, rfl | rfl⟩ | ⟨rfl, rfl | rfl⟩ <;> decide
  term_eq := by
    intro k t h
    rcases Ex.mem_terms h with ⟨rfl, rfl | rfl⟩ | ⟨rfl, rfl | rfl⟩ | ⟨rfl, rfl | rfl⟩ <;> decide
  value_inj := by
    intro k t u h h'
    rcases Ex.mem_terms h with ⟨rfl, rfl | rfl⟩ | ⟨rfl, rfl | rfl⟩ | ⟨rfl, rfl | rfl⟩ <;>
    rcases Ex.mem_terms h' with ⟨e, rfl | rfl⟩ | ⟨e, rfl | rfl⟩ | ⟨e, rfl | rfl⟩ <;>
    first | decide | (exfalso; revert e; decide)

/-- The three-step pipeline `DT(PCA(SC(data), P.w=T), a=1, DT.d=2)` reads back. -/
example (r : Stream) (strict : Bool) : ∃ s n w', pipelineStr 0 (Ex.w0 r) = (.ok s, Ex.w0 r) ∧
    s.length = 37 ∧ indFromString Ex.space s strict (Ex.w0 r) = (.ok n, w') ∧ Is w' n Ex.long := by
  obtain ⟨n, w', h1, h2, _⟩ := C01_string_round_trip Ex.space_ok space_printable Ex.long_ok strict
    (Ex.is_long r) (pipelineStr_is (Ex.is_long r))
  obtain ⟨as, h, _⟩ := h2.is
  exact ⟨_, n, w', pipelineStr_is (Ex.is_long r), rfl, h1, as, h⟩

/-- A class whose name contains `data` does not read back: the hypothesis on names is needed
because the parser looks for the first occurrence of `data`. -/
example : (nodeFromString ⟨fun k => if k = predictionKey then
      [⟨[], predictionKey, { uid := 0, name := ['M', 'y', 'd', 'a', 't', 'a'] }⟩] else [],
      fun _ => []⟩ (printed [⟨⟨[], predictionKey,
        { uid := 0, name := ['M', 'y', 'd', 'a', 't', 'a'] }⟩, []⟩]) true
      ⟨[], [], fun _ => 0⟩).1 = .error .valueError := rfl

end Gama
