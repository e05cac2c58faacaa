import Verif.Model.FromString
import Verif.Props.Individuals

/-! # Lemmas about printing and parsing pipeline strings -/

namespace Gama
open Spec PyM

theorem split1_notin {c : Char} : ∀ {s : Str}, c ∉ s → split1 c s = [s]
  | [], _ => rfl
  | x :: xs, h => by
    simp only [List.mem_cons, not_or] at h
    rw [split1, if_neg (Ne.symm h.1), split1_notin h.2]

theorem split1_append {c : Char} : ∀ {s t : Str}, c ∉ s →
    split1 c (s ++ c :: t) = s :: split1 c t
  | [], t, _ => by simp [split1]
  | x :: xs, t, h => by
    simp only [List.mem_cons, not_or] at h
    rw [List.cons_append, split1, if_neg (Ne.symm h.1), split1_append h.2]

theorem split2_notin {a b : Char} : ∀ {s : Str}, a ∉ s → split2 a b s = [s]
  | [], _ => rfl
  | [x], _ => rfl
  | x :: y :: xs, h => by
    have h1 : x ≠ a := by intro e; apply h; simp [e]
    have h2 : a ∉ y :: xs := fun hm => h (List.mem_cons_of_mem _ hm)
    rw [split2, if_neg (by simp [h1]), split2_notin h2]

theorem split2_append {a b : Char} : ∀ {s t : Str}, a ∉ s →
    split2 a b (s ++ a :: b :: t) = s :: split2 a b t
  | [], t, _ => by simp [split2]
  | [x], t, h => by
    have h1 : x ≠ a := by intro e; apply h; simp [e]
    rw [List.singleton_append, split2, if_neg (by simp [h1])]
    simp [split2]
  | x :: y :: xs, t, h => by
    have h1 : x ≠ a := by intro e; apply h; simp [e]
    have h2 : a ∉ y :: xs := fun hm => h (List.mem_cons_of_mem _ hm)
    have := split2_append (b := b) (t := t) h2
    rw [List.cons_append] at this
    rw [List.cons_append, List.cons_append, split2, if_neg (by simp [h1]), this]

/-- What follows the inner pipeline in a printed step. -/
def tailStr (s : Step) : Str :=
  if s.terms = [] then [] else ',' :: ' ' :: List.intercalate [',', ' '] (s.terms.map Terminal.repr)

def openPart (ss : List Step) : Str := ss.flatMap fun s => s.prim.str ++ ['(']

def closePart : List Step → Str
  | [] => []
  | s :: ss => closePart ss ++ (tailStr s ++ [')'])

theorem printed_parts : ∀ ss, printed ss = openPart ss ++ (dataTerminal ++ closePart ss)
  | [] => by simp [printed, openPart, closePart]
  | s :: ss => by
    rw [printed, printed_parts ss]
    cases h : s.terms with
    | nil => simp [openPart, closePart, tailStr, h, List.intercalate]
    | cons t ts => simp [openPart, closePart, tailStr, h, List.intercalate]

theorem split_open : ∀ {ss : List Step} {t : Str}, (∀ s ∈ ss, '(' ∉ s.prim.str) → '(' ∉ t →
    split1 '(' (openPart ss ++ t) = ss.map (fun s => s.prim.str) ++ [t]
  | [], t, _, ht => by simp [openPart, split1_notin ht]
  | s :: ss, t, h, ht => by
    have := split_open (ss := ss) (fun x hx => h x (by simp [hx])) ht
    have e : openPart (s :: ss) ++ t = s.prim.str ++ '(' :: (openPart ss ++ t) := by
      simp [openPart]
    rw [e, split1_append (h s (by simp)), this]
    simp

theorem split_close_aux : ∀ {ss : List Step} {u : Str}, (∀ s ∈ ss, ')' ∉ tailStr s) →
    split1 ')' (closePart ss ++ u) = ss.reverse.map tailStr ++ split1 ')' u
  | [], u, _ => by simp [closePart]
  | s :: ss, u, h => by
    have e : closePart (s :: ss) ++ u = closePart ss ++ (tailStr s ++ ')' :: u) := by
      simp [closePart]
    rw [e, split_close_aux (fun x hx => h x (by simp [hx])), split1_append (h s (by simp))]
    simp

theorem split_close {ss : List Step} (h : ∀ s ∈ ss, ')' ∉ tailStr s) :
    (split1 ')' (closePart ss)).dropLast = ss.reverse.map tailStr := by
  have := split_close_aux (u := []) h
  rw [List.append_nil] at this
  rw [this]
  simp [split1]

theorem afterData_skip {x : Char} {s : Str} (h : ¬ dataTerminal <+: x :: s) :
    afterData (x :: s) = afterData s := by
  rw [afterData, if_neg (by rwa [List.isPrefixOf_iff_prefix])]

theorem prefix_of_append {d a b : Str} (h : d <+: a ++ '(' :: b) (hd : '(' ∉ d) : d <+: a := by
  induction a generalizing d with
  | nil =>
    cases d with
    | nil => exact List.nil_prefix
    | cons x d =>
      simp only [List.nil_append, List.cons_prefix_cons] at h
      exact absurd (by simp [h.1]) hd
  | cons y a ih =>
    cases d with
    | nil => exact List.nil_prefix
    | cons x d =>
      simp only [List.cons_append, List.cons_prefix_cons] at h ⊢
      exact ⟨h.1, ih h.2 (fun hm => hd (by simp [hm]))⟩

theorem afterData_name {t : Str} : ∀ {s : Str}, (∀ u, u <:+ s → ¬ dataTerminal <+: u) →
    afterData (s ++ '(' :: t) = afterData t
  | [], h => by
    rw [List.nil_append, afterData_skip]
    intro hp
    have := prefix_of_append (a := []) (by simpa using hp) (by decide)
    simp [dataTerminal] at this
  | x :: s, h => by
    rw [List.cons_append, afterData_skip]
    · exact afterData_name (fun u hu => h u (hu.trans (List.suffix_cons _ _)))
    · intro hp
      exact h (x :: s) (List.suffix_refl _) (prefix_of_append (by simpa using hp) (by decide))

theorem afterData_open : ∀ {ss : List Step} {t : Str},
    (∀ s ∈ ss, ∀ u, u <:+ s.prim.str → ¬ dataTerminal <+: u) →
    afterData (openPart ss ++ (dataTerminal ++ t)) = some t
  | [], t, _ => by simp [openPart, dataTerminal, afterData]
  | s :: ss, t, h => by
    have e : openPart (s :: ss) ++ (dataTerminal ++ t)
        = s.prim.str ++ '(' :: (openPart ss ++ (dataTerminal ++ t)) := by simp [openPart]
    rw [e, afterData_name (h s (by simp)), afterData_open (fun x hx => h x (by simp [hx]))]

end Gama
