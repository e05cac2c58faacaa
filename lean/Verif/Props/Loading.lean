import Verif.Model.Loading
import Verif.Props.Logs

/-!
# Properties of reading metadata and of the command line (C76, C77 and later ones)
-/

namespace Gama

namespace Spec

/-- A text begins with a token, upper and lower case being the same. -/
def Begins (p l : Str) : Prop := ∃ t, l.map Char.toLower = p ++ t

/-- An attribute declaration as GAMA expects it: the keyword in any case, one space, the name --
without spaces, or in double quotes --, one space, the type. -/
structure Decl where
  keyword : Str
  quoted : Bool
  name : Str
  type : Str
  deriving DecidableEq, Repr

/-- The line of a declaration. -/
def Decl.line (d : Decl) : Str :=
  d.keyword ++ ' ' :: ((if d.quoted then '"' :: d.name ++ ['"', ' '] else d.name ++ [' ']) ++ d.type)

structure Decl.OK (d : Decl) : Prop where
  keyword : d.keyword.map Char.toLower = ['@', 'a', 't', 't', 'r', 'i', 'b', 'u', 't', 'e']
  quoted : d.quoted = true → '"' ∉ d.name
  plain : d.quoted = false → ' ' ∉ d.name ∧ d.name.head? ≠ some '"'

/-- A line of the header: a declaration, or anything else. -/
inductive HeaderLine
  | decl (d : Decl)
  | other (l : Str)

def HeaderLine.line : HeaderLine → Str
  | .decl d => d.line
  | .other l => l

def HeaderLine.OK : HeaderLine → Prop
  | .decl d => d.OK ∧ '\n' ∉ d.line ∧ '\r' ∉ d.line
  | .other l => ¬ Begins ['@', 'd', 'a', 't', 'a'] l ∧
      ¬ Begins ['@', 'a', 't', 't', 'r', 'i', 'b', 'u', 't', 'e'] l ∧ '\n' ∉ l ∧ '\r' ∉ l

/-- The attributes declared. -/
def declared (hs : List HeaderLine) : List (Str × Str) := hs.filterMap fun
  | .decl d => some (d.name, d.type)
  | .other _ => none

/-- The text of lines. -/
def textOf (ls : List Str) : Str := ls.flatMap fun l => l ++ ['\n']

end Spec

open Spec

theorem startsWith_iff (p s : Str) : startsWith p s = true ↔ ∃ t, s = p ++ t := by
  unfold startsWith
  induction p generalizing s with
  | nil => simp [afterPrefix]
  | cons a p ih =>
    cases s with
    | nil => simp [afterPrefix]
    | cons c s =>
      simp only [afterPrefix]
      split_ifs with h
      · subst h
        rw [ih]
        simp
      · simp only [Option.isSome_none, Bool.false_eq_true, false_iff, not_exists]
        intro t e
        simp only [List.cons_append, List.cons.injEq] at e
        exact h e.1.symm

theorem begins_iff (p l : Str) : startsWith p (lowerStr l) = true ↔ Begins p l :=
  startsWith_iff p _

theorem not_begins (p l : Str) (h : ¬ Begins p l) : startsWith p (lowerStr l) = false := by
  by_contra hh
  simp only [Bool.not_eq_false] at hh
  exact h ((begins_iff p l).1 hh)

theorem splitOnce_char (c : Char) (a b : Str) (h : c ∉ a) :
    splitOnce [c] (a ++ c :: b) = .ok (a, b) := by
  induction a with
  | nil => simp [splitOnce, afterPrefix]
  | cons d a ih =>
    simp only [List.mem_cons, not_or] at h
    simp [splitOnce, afterPrefix, h.1, ih h.2]

theorem splitOnce_quote (a b : Str) (h : '"' ∉ a) :
    splitOnce ['"', ' '] (a ++ '"' :: ' ' :: b) = .ok (a, b) := by
  induction a with
  | nil => simp [splitOnce, afterPrefix]
  | cons d a ih =>
    simp only [List.mem_cons, not_or] at h
    simp [splitOnce, afterPrefix, h.1, ih h.2]

theorem keyword_no_space (k : Str)
    (h : k.map Char.toLower = ['@', 'a', 't', 't', 'r', 'i', 'b', 'u', 't', 'e']) : ' ' ∉ k := by
  intro hm
  have : Char.toLower ' ' ∈ k.map Char.toLower := List.mem_map_of_mem hm
  rw [h] at this
  revert this
  decide

theorem decl_begins (d : Decl) (h : d.OK) : Begins attributeIndicator d.line := by
  refine ⟨(' ' :: ((if d.quoted then '"' :: d.name ++ ['"', ' '] else d.name ++ [' ']) ++ d.type)).map
    Char.toLower, ?_⟩
  unfold Decl.line
  rw [List.map_append, h.keyword]; rfl

theorem decl_not_data (d : Decl) (h : d.OK) : ¬ Begins dataHeader d.line := by
  rintro ⟨t, ht⟩
  obtain ⟨u, hu⟩ := decl_begins d h
  rw [hu] at ht
  simp [attributeIndicator, dataHeader] at ht

theorem arffLine_decl (d : Decl) (h : d.OK) (attrs : List (Str × Str)) :
    arffLine d.line attrs = .ok (dset attrs d.name d.type) := by
  unfold arffLine
  rw [if_pos ((begins_iff _ _).2 (decl_begins d h))]
  have hk := keyword_no_space _ h.keyword
  unfold Decl.line
  rw [splitOnce_char _ _ _ hk]
  dsimp only
  cases hq : d.quoted with
  | true =>
    have e : (if true = true then '"' :: d.name ++ ['"', ' '] else d.name ++ [' ']) ++ d.type
        = '"' :: (d.name ++ '"' :: ' ' :: d.type) := by simp
    rw [e]
    have hs : startsWith ['"'] ('"' :: (d.name ++ '"' :: ' ' :: d.type)) = true := by
      simp [startsWith, afterPrefix]
    rw [if_pos hs]
    simp only [List.drop_succ_cons, List.drop_zero]
    rw [splitOnce_quote _ _ (h.quoted hq)]
  | false =>
    obtain ⟨p1, p2⟩ := h.plain hq
    have e : (if false = true then '"' :: d.name ++ ['"', ' '] else d.name ++ [' ']) ++ d.type
        = d.name ++ ' ' :: d.type := by simp
    rw [e]
    have hs : startsWith ['"'] (d.name ++ ' ' :: d.type) = false := by
      by_contra hh
      simp only [Bool.not_eq_false] at hh
      obtain ⟨t, ht⟩ := (startsWith_iff _ _).1 hh
      cases hn : d.name with
      | nil => rw [hn] at ht; simp at ht
      | cons c n =>
        rw [hn] at ht p2
        simp only [List.cons_append, List.nil_append, List.cons.injEq] at ht
        exact p2 (by simp [ht.1])
    rw [hs]
    simp only [Bool.false_eq_true, if_false]
    rw [splitOnce_char _ _ _ p1]

theorem arffLine_other (l : Str) (h : ¬ Begins attributeIndicator l) (attrs : List (Str × Str)) :
    arffLine l attrs = .ok attrs := by
  unfold arffLine
  rw [not_begins _ _ h]; rfl

/-- A header line that is not the first is passed over. -/
theorem arffLoop_header (hs : List HeaderLine) (h : ∀ x ∈ hs, x.OK) (d : Str)
    (hd : Begins dataHeader d) (after : List Str) (attrs : List (Str × Str)) (line : Str)
    (hl : ¬ Begins dataHeader line ∧ ¬ Begins attributeIndicator line) (fuel : Nat)
    (hf : hs.length + 2 ≤ fuel) :
    arffLoop fuel line ((hs.map fun x => x.line ++ ['\n']) ++ (d ++ ['\n']) :: after) attrs
      = some (.ok (dmerge attrs (declared hs))) := by
  induction hs generalizing attrs line fuel with
  | nil =>
    obtain ⟨k, rfl⟩ : ∃ k, fuel = k + 2 := ⟨fuel - 2, by simp at hf; omega⟩
    have hd' : startsWith dataHeader (lowerStr d) = true := (begins_iff _ _).2 hd
    simp [arffLoop, not_begins _ _ hl.1, arffLine_other _ hl.2, hd', declared, dmerge]
  | cons x hs ih =>
    obtain ⟨k, rfl⟩ : ∃ k, fuel = k + 1 := ⟨fuel - 1, by simp at hf; omega⟩
    have hx := h x (by simp)
    have step : arffLoop (k + 1) line
        (((x :: hs).map fun x => x.line ++ ['\n']) ++ (d ++ ['\n']) :: after) attrs
        = arffLoop k x.line ((hs.map fun x => x.line ++ ['\n']) ++ (d ++ ['\n']) :: after) attrs := by
      simp [arffLoop, not_begins _ _ hl.1, arffLine_other _ hl.2]
    rw [step]
    cases x with
    | other l =>
      exact ih (fun y hy => h y (by simp [hy])) attrs l ⟨hx.1, hx.2.1⟩ k (by simp at hf; omega)
    | decl dc =>
      obtain ⟨k', rfl⟩ : ∃ k', k = k' + 1 := ⟨k - 1, by simp at hf; omega⟩
      -- the line of a declaration is dealt with in the next iteration
      have aux : ∀ (hs' : List HeaderLine) (fuel' : Nat) (attrs' : List (Str × Str)),
          (∀ y ∈ hs', y.OK) → hs'.length + 2 ≤ fuel' →
          (∀ (attrs : List (Str × Str)) (line : Str) (fuel : Nat),
            ¬ Begins dataHeader line ∧ ¬ Begins attributeIndicator line → hs'.length + 2 ≤ fuel →
            arffLoop fuel line ((hs'.map fun x => x.line ++ ['\n']) ++ (d ++ ['\n']) :: after) attrs
              = some (.ok (dmerge attrs (declared hs')))) →
          arffLoop fuel' dc.line
            ((hs'.map fun x => x.line ++ ['\n']) ++ (d ++ ['\n']) :: after) attrs'
            = arffLoop fuel' [] ((hs'.map fun x => x.line ++ ['\n']) ++ (d ++ ['\n']) :: after)
                (dset attrs' dc.name dc.type) := by
        intro hs' fuel' attrs' _ hf' _
        obtain ⟨j, rfl⟩ : ∃ j, fuel' = j + 1 := ⟨fuel' - 1, by omega⟩
        have n1 : ¬ Begins dataHeader ([] : Str) := by rintro ⟨t, ht⟩; simp [dataHeader] at ht
        have n2 : ¬ Begins attributeIndicator ([] : Str) := by
          rintro ⟨t, ht⟩; simp [attributeIndicator] at ht
        simp only [arffLoop, not_begins _ _ (decl_not_data dc hx.1), Bool.false_eq_true, if_false,
          arffLine_decl dc hx.1, not_begins _ _ n1, arffLine_other _ n2]
      have n1 : ¬ Begins dataHeader ([] : Str) := by rintro ⟨t, ht⟩; simp [dataHeader] at ht
      have n2 : ¬ Begins attributeIndicator ([] : Str) := by
        rintro ⟨t, ht⟩; simp [attributeIndicator] at ht
      have hlen : hs.length + 2 ≤ k' + 1 := by simp at hf; omega
      have hok : ∀ y ∈ hs, y.OK := fun y hy => h y (by simp [hy])
      have e := aux hs (k' + 1) attrs hok hlen
        (fun a l f h1 h2 => ih hok a l h1 f h2)
      have e' : HeaderLine.line (.decl dc) = dc.line := rfl
      rw [e', e, ih hok _ [] ⟨n1, n2⟩ (k' + 1) hlen]
      rfl

theorem linesKept_line (l s : Str) (h : '\n' ∉ l) :
    linesKept (l ++ '\n' :: s) = (l ++ ['\n']) :: linesKept s := by
  induction l with
  | nil => simp [linesKept]
  | cons c l ih =>
    simp only [List.mem_cons, not_or] at h
    have : c ≠ '\n' := fun e => h.1 e.symm
    simp [linesKept, this, ih h.2]

theorem linesKept_lines (ls : List Str) (h : ∀ l ∈ ls, '\n' ∉ l) (s : Str) :
    linesKept (textOf ls ++ s) = (ls.map fun l => l ++ ['\n']) ++ linesKept s := by
  induction ls with
  | nil => rfl
  | cons l ls ih =>
    have e : textOf (l :: ls) ++ s = l ++ '\n' :: (textOf ls ++ s) := by simp [textOf]
    rw [e, linesKept_line l _ (h l (by simp)), ih fun x hx => h x (by simp [hx])]
    rfl

theorem universal_append (a s : Str) (h : '\r' ∉ a) : universal (a ++ s) = a ++ universal s := by
  induction a with
  | nil => rfl
  | cons c a ih =>
    simp only [List.mem_cons, not_or] at h
    have hc : c ≠ '\r' := fun e => h.1 e.symm
    cases hr : a ++ s with
    | nil =>
      obtain ⟨rfl, rfl⟩ := List.append_eq_nil_iff.1 hr
      simp [universal, hc]
    | cons d r =>
      rw [List.cons_append, hr, universal]
      simp only [hc, if_false]
      rw [← hr, ih h.2]; rfl

/-! ### C76 -/

/-- The full claim: reading the metadata of any file ends. -/
def C76_claim : Prop := ∀ file : Str, ∃ fuel, (arffMetadata fuel file).isSome = true

/-- **C76, the part that holds.**  A file that begins with some line, goes on with other lines and
attribute declarations in the expected form with different names, then has a line beginning with
`@data` that ends with a line end, and then anything: reading it ends, with the declared attributes
and their types in order.  Missing: files without such a line (see `C76_diverges`), and declarations
on the first line or in other forms allowed by ARFF. -/
theorem C76_partial (first : Str) (hs : List HeaderLine) (d rest : Str)
    (hfirst : HeaderLine.OK (.other first)) (h : ∀ x ∈ hs, x.OK) (hd : Begins ['@', 'd', 'a', 't', 'a'] d)
    (hdn : '\n' ∉ d ∧ '\r' ∉ d) (hn : ((declared hs).map Prod.fst).Nodup) (fuel : Nat)
    (hf : hs.length + 2 ≤ fuel) :
    arffMetadata fuel (first ++ '\n' :: (textOf (hs.map HeaderLine.line) ++ (d ++ '\n' :: rest)))
      = some (.ok (declared hs)) := by
  have hok : ∀ l ∈ hs.map HeaderLine.line, '\n' ∉ l ∧ '\r' ∉ l := by
    intro l hl
    obtain ⟨x, hx, rfl⟩ := List.mem_map.1 hl
    have := h x hx
    cases x with
    | decl dc => exact this.2
    | other l => exact this.2.2
  have hu : universal (first ++ '\n' :: (textOf (hs.map HeaderLine.line) ++ (d ++ '\n' :: rest)))
      = first ++ '\n' :: (textOf (hs.map HeaderLine.line) ++ (d ++ '\n' :: universal rest)) := by
    have e : ∀ r, first ++ '\n' :: (textOf (hs.map HeaderLine.line) ++ (d ++ '\n' :: r))
        = (first ++ '\n' :: (textOf (hs.map HeaderLine.line) ++ (d ++ ['\n']))) ++ r := by
      intro r; simp
    have ht : '\r' ∉ textOf (hs.map HeaderLine.line) := by
      intro hm
      obtain ⟨l, hl, hm⟩ := List.mem_flatMap.1 hm
      rcases List.mem_append.1 hm with hm | hm
      · exact (hok l hl).2 hm
      · simp at hm
    have hr : '\r' ∉ first := hfirst.2.2.2
    have hall : '\r' ∉ first ++ '\n' :: (textOf (hs.map HeaderLine.line) ++ (d ++ ['\n'])) := by
      intro hm
      rcases List.mem_append.1 hm with hm | hm
      · exact hr hm
      rcases List.mem_cons.1 hm with hm | hm
      · revert hm; decide
      rcases List.mem_append.1 hm with hm | hm
      · exact ht hm
      rcases List.mem_append.1 hm with hm | hm
      · exact hdn.2 hm
      · revert hm; decide
    rw [e rest, e (universal rest), universal_append _ _ hall]
  unfold arffMetadata
  rw [hu, linesKept_line _ _ hfirst.2.2.1, linesKept_lines _ (fun l hl => (hok l hl).1),
    linesKept_line _ _ hdn.1, List.map_map]
  have hb : ∀ p, p ≠ [] → ¬ Begins p first → '\n' ∉ p → ¬ Begins p (first ++ ['\n']) := by
    rintro p hp hnb hpn ⟨t, ht⟩
    apply hnb
    have hlast : (first ++ ['\n']).map Char.toLower = first.map Char.toLower ++ ['\n'] := by
      rw [List.map_append]; rfl
    rw [hlast] at ht
    rcases List.eq_nil_or_concat t with rfl | ⟨t', x, rfl⟩
    · exfalso
      rw [List.append_nil] at ht
      exact hpn (ht ▸ by simp)
    · refine ⟨t', ?_⟩
      rw [List.concat_eq_append, ← List.append_assoc] at ht
      exact (List.append_inj' ht rfl).1
  have := arffLoop_header hs h d hd (linesKept (universal rest)) [] (first ++ ['\n'])
    ⟨hb _ (by decide) hfirst.1 (by decide), hb _ (by decide) hfirst.2.1 (by decide)⟩ fuel hf
  dsimp only
  rw [dmerge_new [] _ (by simpa using hn)] at this
  exact this

namespace Spec

/-- The lines as the loop sees them: the first with its line end, the others without their last
character. -/
def seen (file : Str) : List Str := match linesKept (universal file) with
  | [] => [[]]
  | l :: ls => l :: ls.map List.dropLast

end Spec

theorem arffLoop_never (fuel : Nat) (line : Str) (rest : List Str) (attrs : List (Str × Str))
    (h : ∀ l ∈ line :: rest.map List.dropLast, ¬ Begins dataHeader l ∧
      (Begins attributeIndicator l → ∃ d : Decl, d.OK ∧ l = d.line)) :
    arffLoop fuel line rest attrs = none := by
  induction fuel generalizing line rest attrs with
  | zero => rfl
  | succ fuel ih =>
    obtain ⟨h1, h2⟩ := h line (by simp)
    have hok : ∃ attrs', arffLine line attrs = .ok attrs' := by
      by_cases hb : Begins attributeIndicator line
      · obtain ⟨d, hd, rfl⟩ := h2 hb
        exact ⟨_, arffLine_decl d hd attrs⟩
      · exact ⟨_, arffLine_other line hb attrs⟩
    obtain ⟨attrs', ha⟩ := hok
    simp only [arffLoop, not_begins _ _ h1, Bool.false_eq_true, if_false, ha]
    cases rest with
    | nil =>
      apply ih
      intro l hl
      simp only [List.map_nil, List.mem_singleton] at hl
      subst hl
      refine ⟨?_, ?_⟩
      · rintro ⟨t, ht⟩; simp [dataHeader] at ht
      · rintro ⟨t, ht⟩; simp [attributeIndicator] at ht
    | cons l ls =>
      exact ih _ _ _ fun x hx => h x (List.mem_cons_of_mem _ hx)

/-- **C76, when it fails.**  If no line begins with `@data` -- a last line without a line end being
seen without its last character -- and the attribute declarations are in the expected form, the loop
never ends. -/
theorem C76_diverges (file : Str) (h1 : ∀ l ∈ seen file, ¬ Begins ['@', 'd', 'a', 't', 'a'] l)
    (h2 : ∀ l ∈ seen file, Begins ['@', 'a', 't', 't', 'r', 'i', 'b', 'u', 't', 'e'] l →
      ∃ d : Decl, d.OK ∧ l = d.line) (fuel : Nat) : arffMetadata fuel file = none := by
  unfold arffMetadata
  unfold seen at h1 h2
  cases hl : linesKept (universal file) with
  | nil =>
    rw [hl] at h1 h2
    exact arffLoop_never _ _ _ _ fun l hl => ⟨h1 l hl, h2 l hl⟩
  | cons l ls =>
    rw [hl] at h1 h2
    exact arffLoop_never _ _ _ _ fun l hl => ⟨h1 l hl, h2 l hl⟩

theorem arffLoop_ends (line : Str) (rest : List Str)
    (h : ∃ l ∈ line :: rest.map List.dropLast, Begins dataHeader l) (attrs : List (Str × Str))
    (fuel : Nat) (hf : rest.length + 1 ≤ fuel) : (arffLoop fuel line rest attrs).isSome = true := by
  induction rest generalizing line attrs fuel with
  | nil =>
    obtain ⟨k, rfl⟩ : ∃ k, fuel = k + 1 := ⟨fuel - 1, by omega⟩
    obtain ⟨l, hl, hb⟩ := h
    simp only [List.map_nil, List.mem_singleton] at hl
    subst hl
    simp [arffLoop, (begins_iff _ _).2 hb]
  | cons r rest ih =>
    obtain ⟨k, rfl⟩ : ∃ k, fuel = k + 1 := ⟨fuel - 1, by omega⟩
    simp only [arffLoop]
    split_ifs with hd
    · rfl
    · cases arffLine line attrs with
      | error e => rfl
      | ok attrs' =>
        refine ih r.dropLast ?_ attrs' k (by simp at hf; omega)
        obtain ⟨l, hl, hb⟩ := h
        rcases List.mem_cons.1 hl with e | hl
        · subst e; exact absurd ((begins_iff _ _).2 hb) hd
        · exact ⟨l, hl, hb⟩

/-- **C76, when it ends.**  If some line begins with `@data`, reading ends, with attributes or an
exception. -/
theorem C76_ends (file : Str) (h : ∃ l ∈ seen file, Begins ['@', 'd', 'a', 't', 'a'] l) :
    ∃ n, ∀ fuel ≥ n, (arffMetadata fuel file).isSome = true := by
  unfold arffMetadata
  unfold seen at h
  cases hl : linesKept (universal file) with
  | nil =>
    rw [hl] at h
    exact ⟨1, fun fuel hf => arffLoop_ends _ _ h _ _ (by simpa using hf)⟩
  | cons l ls =>
    rw [hl] at h
    exact ⟨ls.length + 1, fun fuel hf => arffLoop_ends _ _ h _ _ hf⟩

/-- `@attribute a real`, and with a quoted name `@Attribute "b c" {x, y}`. -/
def sampleDecls : List HeaderLine :=
  [.decl ⟨['@', 'a', 't', 't', 'r', 'i', 'b', 'u', 't', 'e'], false, ['a'], ['r', 'e', 'a', 'l']⟩,
   .other ['%', ' ', 'x'],
   .decl ⟨['@', 'A', 't', 't', 'r', 'i', 'b', 'u', 't', 'e'], true, ['b', ' ', 'c'],
     ['{', 'x', ',', ' ', 'y', '}']⟩]

example : (∀ x ∈ sampleDecls, x.OK) ∧ ((declared sampleDecls).map Prod.fst).Nodup ∧
    declared sampleDecls = [(['a'], ['r', 'e', 'a', 'l']), (['b', ' ', 'c'], ['{', 'x', ',', ' ', 'y', '}'])] := by
  refine ⟨?_, by decide, by decide⟩
  intro x hx
  simp only [sampleDecls, List.mem_cons, List.not_mem_nil, or_false] at hx
  rcases hx with rfl | rfl | rfl
  · exact ⟨⟨by decide, by decide, by decide⟩, by decide, by decide⟩
  · refine ⟨?_, ?_, by decide, by decide⟩
    · rintro ⟨t, ht⟩; simp at ht
    · rintro ⟨t, ht⟩; simp at ht
  · exact ⟨⟨by decide, by decide, by decide⟩, by decide, by decide⟩

/-- A header whose last line `@data` has no line end. -/
def headerOnly : Str := ['@', 'r', ' ', 'x', '\n', '@', 'd', 'a', 't', 'a']

/-- **C76 is false of the code**: on a file that ends with `@data` without a line end -- or has no
such line -- reading never ends. -/
theorem C76_false : ¬ C76_claim := by
  intro h
  obtain ⟨fuel, hf⟩ := h headerOnly
  have hs : seen headerOnly = [['@', 'r', ' ', 'x', '\n'], ['@', 'd', 'a', 't']] := by
    decide +kernel
  have hb : ∀ p l : Str, startsWith p (lowerStr l) = false → ¬ Begins p l := by
    intro p l h1 h2
    rw [(begins_iff p l).2 h2] at h1
    simp at h1
  rw [C76_diverges headerOnly ?_ ?_ fuel] at hf
  · simp at hf
  · rw [hs]
    intro l hl
    simp only [List.mem_cons, List.not_mem_nil, or_false] at hl
    rcases hl with rfl | rfl <;> exact hb _ _ (by decide +kernel)
  · rw [hs]
    intro l hl hbeg
    exfalso
    simp only [List.mem_cons, List.not_mem_nil, or_false] at hl
    rcases hl with rfl | rfl <;> exact hb _ _ (by decide +kernel) hbeg

/-- A name in single quotes, as ARFF allows, is cut at its first space; and the type of an attribute
declared on the first line keeps the line end. -/
theorem C76_other_forms :
    arffLine (attributeIndicator ++ [' ', '\'', 'a', ' ', 'b', '\'', ' ', 'r']) []
      = .ok [(['\'', 'a'], ['b', '\'', ' ', 'r'])] ∧
    arffMetadata 3 (attributeIndicator ++ [' ', 'a', ' ', 'r', '\n', '@', 'd', 'a', 't', 'a', '\n'])
      = some (.ok [(['a'], ['r', '\n'])]) := by
  decide +kernel

/-! ### C77 -/

namespace Spec

/-- A file name of a supported type. -/
def Supported (p : Str) : Prop := ∃ q, p = q ++ ['.', 'c', 's', 'v'] ∨ p = q ++ ['.', 'a', 'r', 'f', 'f']

/-- The options given are the ones used. -/
structure Reaches (a : CliArgs) (c : CliConfig) : Prop where
  short : c.regularizeLength = a.preferShort
  total : c.maxTotalTime = 60 * a.timeLimit
  eval : c.maxEvalTime = 60 * a.evalTime
  jobs : c.nJobs = a.nJobs
  verbosity : c.verbosity = (if a.verbose = true then 20 else 30)
  outdir : c.outputDirectory = a.outdir
  store : c.store = (if a.dryRun = true then ['n', 'o', 't', 'h', 'i', 'n', 'g'] else ['l', 'o', 'g', 's'])
  scoring : ∀ m, a.metric = some m → m ≠ [] → c.scoring = some m
  default : a.metric = none → c.scoring = none

/-- The mode wanted: the one given, else by the type of the target. -/
def Wanted (a : CliArgs) (categorical classifier : Bool) : Prop :=
  (a.mode = some ['c', 'l', 'a', 's', 's', 'i', 'f', 'i', 'c', 'a', 't', 'i', 'o', 'n'] ∧ classifier = true) ∨
  (a.mode = some ['r', 'e', 'g', 'r', 'e', 's', 's', 'i', 'o', 'n'] ∧ classifier = false) ∨
  (a.mode = none ∧ classifier = categorical)

/-- What is to be done after the instance is made, everything going well. -/
def afterwards (a : CliArgs) : List CliEvent :=
  if a.dryRun = true then [.cleanup]
  else [.fit, .dump a.outputFile] ++ match a.exportPython with
    | none => []
    | some p => [.exportScript p]

/-- Everything goes well. -/
structure Well (w : CliWorld) : Prop where
  construct : ∀ b c, w.construct b c = .ok ()
  fit : w.fit = .ok ()
  dump : ∀ p, w.dump p = .ok ()
  exportScript : ∀ p, w.exportScript p = .ok ()
  cleanup : w.cleanup = .ok ()

end Spec

/-- The full claim: for an existing file of a supported type, and a valid mode, the file given is
loaded with the separator and target given, and the run is the one described by the options. -/
def C77_claim : Prop := ∀ (w : CliWorld) (a : CliArgs) (categorical classifier : Bool),
  Well w → w.fileExists a.inputFile = true → Supported a.inputFile →
  w.load a.inputFile a.separator a.target = .ok categorical → Wanted a categorical classifier →
  ∃ c, Reaches a c ∧ cliMain w a
    = (.load a.inputFile a.separator a.target :: .construct classifier c :: afterwards a, .ok ())

theorem getLastD_splitOnChar (p ext : Str) (h : '.' ∉ ext) :
    (splitOnChar '.' (p ++ '.' :: ext)).getLastD [] = ext := by
  induction p with
  | nil =>
    rw [splitOnChar_append '.' [] ext (by simp), splitOnChar_free _ _ h]
    simp
  | cons c p ih =>
    by_cases hc : c = '.'
    · subst hc
      have : splitOnChar '.' ('.' :: p ++ '.' :: ext) = [] :: splitOnChar '.' (p ++ '.' :: ext) :=
        splitOnChar_append '.' [] _ (by simp)
      rw [this, List.getLastD_cons]
      exact ih
    · obtain ⟨x, xs, h1, h2⟩ := splitOnChar_cons_ne '.' c (p ++ '.' :: ext) hc
      rw [List.cons_append, h2]
      have hl := splitOnChar_length '.' (p ++ '.' :: ext)
      rw [h1] at ih hl
      cases xs with
      | nil => simp at hl
      | cons y ys => simpa using ih

theorem splitOnChar_last (s : Str) : ∃ q, s = q ++ (splitOnChar '.' s).getLastD [] := by
  induction s with
  | nil => exact ⟨[], rfl⟩
  | cons c s ih =>
    obtain ⟨q, hq⟩ := ih
    by_cases hc : c = '.'
    · subst hc
      have : splitOnChar '.' ('.' :: s) = [] :: splitOnChar '.' s :=
        splitOnChar_append '.' [] s (by simp)
      rw [this, List.getLastD_cons]
      exact ⟨'.' :: q, by rw [List.cons_append, ← hq]⟩
    · obtain ⟨x, xs, h1, h2⟩ := splitOnChar_cons_ne '.' c s hc
      rw [h2]
      rw [h1] at hq
      cases xs with
      | nil => 
        have : splitOnChar '.' s = [x] := h1
        have hl := splitOnChar_length '.' s
        rw [this] at hl
        have hn : '.' ∉ s := by
          intro hm
          have := List.count_pos_iff.2 hm
          simp at hl
          omega
        rw [splitOnChar_free _ _ hn] at this
        simp only [List.cons.injEq, and_true] at this
        subst this
        exact ⟨[], rfl⟩
      | cons y ys =>
        refine ⟨c :: q, ?_⟩
        rw [List.cons_append]
        have e : (y :: ys).getLastD (c :: x) = (y :: ys).getLastD x := by
          rw [List.getLastD_cons, List.getLastD_cons]
        rw [List.getLastD_cons, e]
        rw [List.getLastD_cons] at hq
        rw [← hq]

theorem supported_ext (p : Str) (h : Supported p) :
    (splitOnChar '.' p).getLastD [] ∈ [['c', 's', 'v'], ['a', 'r', 'f', 'f']] := by
  obtain ⟨q, rfl | rfl⟩ := h
  · rw [getLastD_splitOnChar _ _ (by decide)]; decide
  · rw [getLastD_splitOnChar _ _ (by decide)]; decide

theorem reaches_cliConfig (a : CliArgs) : Reaches a (cliConfig a) where
  short := rfl
  total := Int.mul_comm _ _
  eval := Int.mul_comm _ _
  jobs := rfl
  verbosity := rfl
  outdir := rfl
  store := rfl
  scoring := by
    intro m hm hne
    cases m with
    | nil => exact absurd rfl hne
    | cons c m => simp [cliConfig, hm]
  default := by intro h; simp [cliConfig, h]

theorem cliRun_well (w : CliWorld) (a : CliArgs) (h : Well w) : cliRun w a = (afterwards a, .ok ()) := by
  unfold cliRun afterwards
  split_ifs with hd
  · rw [h.cleanup]
  · rw [h.fit]
    dsimp only
    rw [h.dump]
    dsimp only
    cases a.exportPython with
    | none => rfl
    | some p => simp only [h.exportScript]; rfl

theorem cliModel_well (w : CliWorld) (a : CliArgs) (categorical classifier : Bool) (h : Well w)
    (hm : Wanted a categorical classifier) :
    cliModel w a categorical = (.construct classifier (cliConfig a) :: afterwards a, .ok ()) := by
  have hne : ¬ (classificationMode = regressionMode) := by decide
  have hc : ∀ b, w.construct b (cliConfig a) = .ok () := fun b => h.construct b _
  unfold cliModel
  rcases hm with ⟨hm, rfl⟩ | ⟨hm, rfl⟩ | ⟨hm, rfl⟩
  · have : a.mode = some classificationMode := hm
    simp only [this, Option.getD_some, hne, if_false, hc, cliRun_well w a h]
    rfl
  · have : a.mode = some regressionMode := hm
    simp only [this, Option.getD_some, hc, cliRun_well w a h]
    rfl
  · cases classifier
    · simp only [hm, hc, cliRun_well w a h]
      rfl
    · simp only [hm, hc, cliRun_well w a h]
      rfl

/-- **C77, the part that holds.**  For a file whose name is in lower case, and no separator -- or an
ARFF file --, the run is the one described.  Missing: names with capitals, and separators. -/
theorem C77_partial (w : CliWorld) (a : CliArgs) (categorical classifier : Bool) (h : Well w)
    (hlow : a.inputFile.map Char.toLower = a.inputFile) (hex : w.fileExists a.inputFile = true)
    (hsup : Supported a.inputFile) (hsep : a.separator = none)
    (hload : w.load a.inputFile a.separator a.target = .ok categorical)
    (hm : Wanted a categorical classifier) :
    ∃ c, Reaches a c ∧ cliMain w a
      = (.load a.inputFile a.separator a.target :: .construct classifier c :: afterwards a, .ok ()) := by
  refine ⟨cliConfig a, reaches_cliConfig a, ?_⟩
  have hp : lowerStr a.inputFile = a.inputFile := hlow
  have hs : ¬ ((splitOnChar '.' a.inputFile).getLastD [] ∉ [['c', 's', 'v'], ['a', 'r', 'f', 'f']]) :=
    fun hc => hc (supported_ext _ hsup)
  rw [hsep] at hload
  unfold cliMain
  simp only [hp, hex, Bool.not_true, Bool.false_eq_true, if_false]
  rw [if_neg hs]
  simp only [hsep, Option.isSome_none, Bool.and_false, Bool.false_eq_true, if_false, hload,
    cliModel_well w a categorical classifier h hm]

theorem endsIn_append (p q : Str) : endsIn p (q ++ p) = true := by
  unfold endsIn
  rw [startsWith_iff]
  exact ⟨q.reverse, by rw [List.reverse_append]⟩

theorem endsIn_iff (p s : Str) : endsIn p s = true ↔ ∃ q, s = q ++ p := by
  constructor
  · intro h
    obtain ⟨t, ht⟩ := (startsWith_iff _ _).1 h
    refine ⟨t.reverse, ?_⟩
    have := congrArg List.reverse ht
    simpa using this
  · rintro ⟨q, rfl⟩; exact endsIn_append p q

/-- **C77, refusals.**  A name that does not end in `csv` or `arff`, capitals or not, is refused
before anything is done; so is a file that does not exist. -/
theorem C77_refused (w : CliWorld) (a : CliArgs)
    (h : w.fileExists (a.inputFile.map Char.toLower) = false ∨
      ¬ ∃ q, a.inputFile.map Char.toLower = q ++ ['c', 's', 'v'] ∨
        a.inputFile.map Char.toLower = q ++ ['a', 'r', 'f', 'f']) :
    (cliMain w a).1 = [] ∧ ∃ e, (cliMain w a).2 = .error e := by
  unfold cliMain
  change w.fileExists (lowerStr a.inputFile) = false ∨ ¬ (∃ q, lowerStr a.inputFile = _ ∨
    lowerStr a.inputFile = _) at h
  rcases h with h | h
  · simp [h]
  · dsimp only
    have hn : (splitOnChar '.' (lowerStr a.inputFile)).getLastD [] ∉
        [['c', 's', 'v'], ['a', 'r', 'f', 'f']] := by
      intro hm
      apply h
      have hj := splitOnChar_last (lowerStr a.inputFile)
      obtain ⟨q, hq⟩ := hj
      rw [List.mem_cons, List.mem_singleton] at hm
      rcases hm with e | e
      · rw [e] at hq; exact ⟨q, .inl hq⟩
      · rw [e] at hq; exact ⟨q, .inr hq⟩
    rw [if_pos hn]
    split_ifs
    · exact ⟨rfl, _, rfl⟩
    · exact ⟨rfl, _, rfl⟩

/-- **C77, modes.**  A mode that is neither `classification` nor `regression` is refused before any
instance is made, fitted or stored. -/
theorem C77_mode (w : CliWorld) (a : CliArgs) (m : Str) (hm : a.mode = some m)
    (h1 : m ≠ ['c', 'l', 'a', 's', 's', 'i', 'f', 'i', 'c', 'a', 't', 'i', 'o', 'n'])
    (h2 : m ≠ ['r', 'e', 'g', 'r', 'e', 's', 's', 'i', 'o', 'n']) :
    (∃ e, (cliMain w a).2 = .error e) ∧ ∀ x ∈ (cliMain w a).1, ∃ p s t, x = .load p s t := by
  have h1' : ¬ m = classificationMode := h1
  have h2' : ¬ m = regressionMode := h2
  have hc : ∀ b, cliModel w a b = ([], .error .valueError) := by
    intro b; simp [cliModel, hm, h1', h2']
  unfold cliMain
  dsimp only
  split_ifs <;> try exact ⟨⟨_, rfl⟩, by simp⟩
  · generalize w.load (lowerStr a.inputFile) none a.target = r
    cases r with
    | error e =>
      exact ⟨⟨_, rfl⟩, fun x hx => ⟨_, _, _, List.mem_singleton.1 hx⟩⟩
    | ok b =>
      simp only [hc]
      exact ⟨⟨_, rfl⟩, fun x hx => ⟨_, _, _, List.mem_singleton.1 hx⟩⟩

/-- **C77, separators.**  Whenever a separator is given for a csv file, the run ends with an
AttributeError before the file is loaded. -/
theorem C77_separator (w : CliWorld) (a : CliArgs) (q : Str) (s : Str)
    (hp : a.inputFile.map Char.toLower = q ++ ['.', 'c', 's', 'v'])
    (hex : w.fileExists (a.inputFile.map Char.toLower) = true) (hs : a.separator = some s) :
    cliMain w a = ([], .error .attributeError) := by
  have hp' : lowerStr a.inputFile = q ++ csvExtension := hp
  have hex' : w.fileExists (q ++ csvExtension) = true := by rw [← hp']; exact hex
  have hsup : ¬ ((splitOnChar '.' (q ++ csvExtension)).getLastD [] ∉
      [['c', 's', 'v'], ['a', 'r', 'f', 'f']]) := fun hc => hc (supported_ext _ ⟨q, .inl rfl⟩)
  unfold cliMain
  simp only [hp', hex', Bool.not_true, Bool.false_eq_true, if_false]
  rw [if_neg hsup]
  simp [endsIn_append, hs]

/-- **C77, names.**  Only the file named in lower case is ever loaded. -/
theorem C77_case (w : CliWorld) (a : CliArgs) (p : Str) (s t : Option Str)
    (h : CliEvent.load p s t ∈ (cliMain w a).1) : p = a.inputFile.map Char.toLower := by
  have hmodel : ∀ b, CliEvent.load p s t ∉ (cliModel w a b).1 := by
    intro b hb
    have hrun : CliEvent.load p s t ∉ (cliRun w a).1 := by
      intro hr
      unfold cliRun at hr
      revert hr
      split_ifs
      · simp
      · cases w.fit with
        | error e => simp
        | ok u =>
          dsimp only
          cases w.dump a.outputFile with
          | error e => simp
          | ok u =>
            dsimp only
            cases a.exportPython <;> simp
    unfold cliModel at hb
    revert hb
    dsimp only
    cases w.construct false (cliConfig a) <;> cases w.construct true (cliConfig a) <;>
      split_ifs <;> simp [hrun]
  unfold cliMain at h
  dsimp only at h
  revert h
  split_ifs <;> try exact fun h => absurd h (by simp)
  · generalize w.load (lowerStr a.inputFile) none a.target = r
    cases r with
    | error e =>
      intro h
      simp only [List.mem_singleton, CliEvent.load.injEq] at h
      exact h.1
    | ok b =>
      intro h
      rcases List.mem_cons.1 h with h | h
      · simp only [CliEvent.load.injEq] at h
        exact h.1
      · exact absurd h (hmodel b)

/-- An environment with one file. -/
def oneFile (name : Str) : CliWorld where
  fileExists p := p == name
  load p _ _ := if p = name then .ok true else .error .fileNotFound
  construct _ _ := .ok ()
  fit := .ok ()
  dump _ := .ok ()
  exportScript _ := .ok ()
  cleanup := .ok ()

theorem oneFile_well (n : Str) : Well (oneFile n) := ⟨fun _ _ => rfl, rfl, fun _ => rfl, fun _ => rfl, rfl⟩

/-- The defaults of the command line, for a file and a separator. -/
def cliDefaults (file : Str) (sep : Option Str) : CliArgs where
  inputFile := file
  separator := sep
  target := none
  outputFile := ['m']
  exportPython := some ['e']
  mode := none
  metric := some ['f', '1']
  preferShort := true
  timeLimit := 60
  evalTime := 5
  nJobs := 1
  outdir := none
  verbose := false
  dryRun := false

example : Well (oneFile ['d', '.', 'c', 's', 'v']) ∧
    (cliDefaults ['d', '.', 'c', 's', 'v'] none).inputFile.map Char.toLower = ['d', '.', 'c', 's', 'v'] ∧
    Supported ['d', '.', 'c', 's', 'v'] ∧
    (oneFile ['d', '.', 'c', 's', 'v']).load ['d', '.', 'c', 's', 'v'] none none = .ok true ∧
    Wanted (cliDefaults ['d', '.', 'c', 's', 'v'] none) true true :=
  ⟨oneFile_well _, by decide, ⟨['d'], .inl rfl⟩, rfl, .inr (.inr ⟨rfl, rfl⟩)⟩

/-- **C77 is false of the code**: a separator given for a csv file is an error. -/
theorem C77_false : ¬ C77_claim := by
  intro h
  obtain ⟨c, -, hc⟩ := h (oneFile ['d', '.', 'c', 's', 'v']) (cliDefaults ['d', '.', 'c', 's', 'v'] (some [';']))
    true true (oneFile_well _) rfl ⟨['d'], .inl rfl⟩ rfl (.inr (.inr ⟨rfl, rfl⟩))
  rw [C77_separator _ _ ['d'] [';'] (by decide) (by decide) rfl] at hc
  simp at hc

/-- And a file whose name has a capital is not found. -/
theorem C77_false_case : ¬ (∀ (w : CliWorld) (a : CliArgs) (categorical classifier : Bool),
    Well w → w.fileExists a.inputFile = true → Supported a.inputFile → a.separator = none →
    w.load a.inputFile none a.target = .ok categorical → Wanted a categorical classifier →
    (cliMain w a).2 = .ok ()) := by
  intro h
  have := h (oneFile ['D', '.', 'c', 's', 'v']) (cliDefaults ['D', '.', 'c', 's', 'v'] none) true true
    (oneFile_well _) rfl ⟨['D'], .inl rfl⟩ rfl rfl (.inr (.inr ⟨rfl, rfl⟩))
  revert this
  rw [show cliMain (oneFile ['D', '.', 'c', 's', 'v']) (cliDefaults ['D', '.', 'c', 's', 'v'] none)
    = ([], .error .fileNotFound) from by decide +kernel]
  simp

/-! ### C95, C96 -/

/-- The full claim: the header of a csv file is the list of column names on its first line. -/
def C95_claim : Prop := ∀ (path : Str) (sep : Char) (given : Option Char) (names : List Str) (rest : Str),
  (∃ q, path = q ++ ['.', 'c', 's', 'v']) → names ≠ [] →
  (∀ n ∈ names, '\n' ∉ n ∧ '\r' ∉ n ∧ given.getD sep ∉ n) → given.getD sep ≠ '\n' →
  given.getD sep ≠ '\r' → (rest = [] ∨ ∃ r, rest = '\n' :: r) →
  csvHeader path (sep, true) given (joinWith [given.getD sep] names ++ rest) = .ok names

/-- **C95, the part that holds**: for a file whose first line ends with a line end, the names are the
ones of the header, split at the separator given, else the one detected.  Missing: a file that is
its header only, without a line end. -/
theorem C95_partial (path : Str) (sep : Char) (given : Option Char) (names : List Str) (rest : Str)
    (hp : ∃ q, path = q ++ ['.', 'c', 's', 'v']) (hne : names ≠ [])
    (h : ∀ n ∈ names, '\n' ∉ n ∧ '\r' ∉ n ∧ given.getD sep ∉ n) (hs : given.getD sep ≠ '\n')
    (hs' : given.getD sep ≠ '\r') :
    csvHeader path (sep, true) given (joinWith [given.getD sep] names ++ '\n' :: rest)
      = .ok names := by
  have he : endsIn csvExtension path = true := (endsIn_iff _ _).2 hp
  have hn : '\n' ∉ joinWith [given.getD sep] names :=
    not_mem_joinWith _ _ (by rw [List.mem_singleton]; exact fun e => hs e.symm) _ fun x hx => (h x hx).1
  have hr : '\r' ∉ joinWith [given.getD sep] names ++ ['\n'] := by
    simp only [List.mem_append, List.mem_singleton, not_or]
    exact ⟨not_mem_joinWith _ _ (by rw [List.mem_singleton]; exact fun e => hs' e.symm) _ fun x hx => (h x hx).2.1,
      by decide⟩
  have e : joinWith [given.getD sep] names ++ '\n' :: rest
      = (joinWith [given.getD sep] names ++ ['\n']) ++ rest := by simp
  unfold csvHeader
  rw [he, e, universal_append _ _ hr]
  simp only [Bool.not_true, Bool.false_eq_true, if_false, if_true, List.append_assoc,
    List.cons_append, List.nil_append]
  rw [readline_line _ _ hn, List.dropLast_concat, splitOnChar_join _ _ hne fun x hx => (h x hx).2.2]

/-- Without a header the columns are numbered from 0. -/
theorem C95_numbers (path : Str) (sep : Char) (given : Option Char) (names : List Str) (rest : Str)
    (hp : ∃ q, path = q ++ ['.', 'c', 's', 'v']) (hne : names ≠ [])
    (h : ∀ n ∈ names, '\n' ∉ n ∧ '\r' ∉ n ∧ given.getD sep ∉ n) (hs : given.getD sep ≠ '\n')
    (hs' : given.getD sep ≠ '\r') :
    csvHeader path (sep, false) given (joinWith [given.getD sep] names ++ '\n' :: rest)
      = .ok ((List.range names.length).map natStr) := by
  have := C95_partial path sep given names rest hp hne h hs hs'
  have he : endsIn csvExtension path = true := (endsIn_iff _ _).2 hp
  unfold csvHeader at this ⊢
  simp only [he, Bool.not_true, Bool.false_eq_true, if_false, if_true, Except.ok.injEq] at this ⊢
  rw [this]

/-- **C95 is false of the code**: `a,bc` without a line end has the names `a` and `b`. -/
theorem C95_false : ¬ C95_claim := by
  intro h
  have := h ['d', '.', 'c', 's', 'v'] ',' none [['a'], ['b', 'c']] [] ⟨['d'], rfl⟩ (by decide) (by decide)
    (by decide) (by decide) (.inl rfl)
  revert this
  decide +kernel

/-- The full claim: metadata can be read of exactly the files whose data can be loaded. -/
def C96_claim : Prop := ∀ path k, metadataReader path = .ok k ↔ dataReader path = .ok k

/-- **C96, the part that holds**: for every name metadata is read from files whose data can be
loaded, in the same format; and the two agree on names in lower case.  Missing: names ending in
capitals. -/
theorem C96_partial (path : Str) (k : FileKind) :
    (dataReader path = .ok k → metadataReader path = .ok k) ∧
    (path.map Char.toLower = path → (metadataReader path = .ok k ↔ dataReader path = .ok k)) := by
  have hl : ∀ e, e.map Char.toLower = e → endsIn e path = true → endsIn e (lowerStr path) = true := by
    intro e he h
    obtain ⟨q, rfl⟩ := (endsIn_iff _ _).1 h
    refine (endsIn_iff _ _).2 ⟨q.map Char.toLower, ?_⟩
    unfold lowerStr
    rw [List.map_append, he]
  have hdisj : endsIn csvExtension path = true → endsIn arffExtension (lowerStr path) = false := by
    intro h
    have h' := hl csvExtension (by decide) h
    by_contra hh
    simp only [Bool.not_eq_false] at hh
    obtain ⟨q, hq⟩ := (endsIn_iff _ _).1 h'
    obtain ⟨r, hr⟩ := (endsIn_iff _ _).1 hh
    rw [hq] at hr
    have := congrArg List.getLast? hr
    simp [csvExtension, arffExtension] at this
  constructor
  · intro h
    unfold dataReader at h
    unfold metadataReader
    split_ifs at h with h1 h2
    · rw [if_pos (hl _ (by decide) h1)]; exact h
    · rw [hdisj h2, hl _ (by decide) h2, h2]; exact h
  · intro hlow
    have : lowerStr path = path := hlow
    unfold metadataReader dataReader
    rw [this]
    split_ifs <;> rfl

/-- **C96 is false of the code**: metadata is read from `d.ARFF`, whose data is refused. -/
theorem C96_false : ¬ C96_claim := by
  intro h
  have := (h ['d', '.', 'A', 'R', 'F', 'F'] .arff).1 (by decide +kernel)
  revert this
  decide +kernel

example : dataReader ['d', '.', 'c', 's', 'v'] = .ok .csv ∧
    dataReader ['d', '.', 'a', 'r', 'f', 'f'] = .ok .arff := by decide +kernel

/-! ### Cases of the theorems above -/

theorem Ex.sampleDecls_ok : ∀ x ∈ sampleDecls, x.OK := by
  intro x hx
  simp only [sampleDecls, List.mem_cons, List.not_mem_nil, or_false] at hx
  rcases hx with rfl | rfl | rfl
  · exact ⟨⟨by decide, by decide, by decide⟩, by decide, by decide⟩
  · exact ⟨by rintro ⟨t, ht⟩; simp at ht, by rintro ⟨t, ht⟩; simp at ht, by decide, by decide⟩
  · exact ⟨⟨by decide, by decide, by decide⟩, by decide, by decide⟩

/-- `C76_partial`: the declarations of `sampleDecls`, after a line that names the relation. -/
example : arffMetadata 5 (['@', 'r', ' ', 'x'] ++ '\n' :: (textOf (sampleDecls.map HeaderLine.line) ++
    (['@', 'D', 'a', 't', 'a'] ++ '\n' :: ['1', ',', 'x', '\n']))) =
      some (.ok [(['a'], ['r', 'e', 'a', 'l']), (['b', ' ', 'c'], ['{', 'x', ',', ' ', 'y', '}'])]) :=
  C76_partial ['@', 'r', ' ', 'x'] sampleDecls ['@', 'D', 'a', 't', 'a'] ['1', ',', 'x', '\n']
    ⟨by rintro ⟨t, ht⟩; simp at ht, by rintro ⟨t, ht⟩; simp at ht,
      by decide, by decide⟩ Ex.sampleDecls_ok ⟨[], by decide⟩ (by decide) (by decide) 5 (by decide)

/-- `C76_diverges`, `C76_ends`: a file of one line that is not about data, and `headerOnly` with one line more. -/
example (fuel : Nat) : arffMetadata fuel ['x', '\n'] = none :=
  C76_diverges ['x', '\n']
    (by
      intro l hl ⟨t, ht⟩
      cases List.mem_singleton.1 (show l ∈ [['x', '\n']] from hl)
      simp at ht)
    (by
      intro l hl ⟨t, ht⟩
      cases List.mem_singleton.1 (show l ∈ [['x', '\n']] from hl)
      simp at ht) fuel

example : ∃ n, ∀ fuel ≥ n, (arffMetadata fuel (headerOnly ++ ['\n'])).isSome = true :=
  C76_ends _ ⟨['@', 'd', 'a', 't', 'a'], by decide +kernel, [], by decide⟩

/-- `C77_partial`: the call of the example above. -/
example : ∃ c, Reaches (cliDefaults ['d', '.', 'c', 's', 'v'] none) c ∧
    cliMain (oneFile ['d', '.', 'c', 's', 'v']) (cliDefaults ['d', '.', 'c', 's', 'v'] none) =
      ([.load ['d', '.', 'c', 's', 'v'] none none, .construct true c, .fit, .dump ['m'], .exportScript ['e']], .ok ()) :=
  C77_partial _ (cliDefaults ['d', '.', 'c', 's', 'v'] none) true true (oneFile_well _) (by decide) rfl
    ⟨['d'], .inl rfl⟩ rfl rfl (.inr (.inr ⟨rfl, rfl⟩))

/-- `C77_refused`, `C77_mode`, `C77_separator`, `C77_case`. -/
example : (cliMain (oneFile ['e', '.', 'c', 's', 'v']) (cliDefaults ['d', '.', 'c', 's', 'v'] none)).1 = [] :=
  (C77_refused _ _ (.inl (by decide))).1

example : ∃ e, (cliMain (oneFile ['d', '.', 'c', 's', 'v'])
    { cliDefaults ['d', '.', 'c', 's', 'v'] none with mode := some ['x'] }).2 = .error e :=
  (C77_mode _ _ ['x'] rfl (by decide) (by decide)).1

example : cliMain (oneFile ['d', '.', 'c', 's', 'v']) (cliDefaults ['D', '.', 'c', 's', 'v'] (some [','])) =
    ([], .error .attributeError) :=
  C77_separator _ _ ['d'] [','] (by decide) (by decide) rfl

/-- `C95_partial`, `C95_numbers`. -/
example : csvHeader ['d', '.', 'c', 's', 'v'] (';', true) (some ',') (joinWith [','] [['a', ';'], ['b']] ++ '\n' :: ['1']) =
      .ok [['a', ';'], ['b']] ∧
    csvHeader ['d', '.', 'c', 's', 'v'] (';', false) none (joinWith [';'] [['5'], ['7']] ++ '\n' :: ['1']) =
      .ok [['0'], ['1']] :=
  ⟨C95_partial _ ';' (some ',') _ _ ⟨['d'], rfl⟩ (by simp) (by decide) (by decide) (by decide),
   C95_numbers _ ';' none _ _ ⟨['d'], rfl⟩ (by simp) (by decide) (by decide) (by decide)⟩

end Gama
