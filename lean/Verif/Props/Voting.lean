import Verif.Props.Export
import Verif.Props.Ensemble2
import Mathlib.Data.Nat.Digits.Defs

/-!
# How ensembles vote, and how those that are exported do (C140)
-/

namespace Gama
open PyM Spec

/-! ### Reading the script -/

namespace Spec

/-- What is left of a text after a beginning it must have. -/
def after (p s : Str) : Option Str := if p.isPrefixOf s then some (s.drop p.length) else none

/-- The text up to a character, and the rest. -/
def upto (c : Char) (s : Str) : Str × Str := (s.takeWhile (· ≠ c), s.dropWhile (· ≠ c))

/-- A decimal number at the beginning of a text, and the rest. -/
def readNat (s : Str) : Nat × Str :=
  ((s.takeWhile Char.isDigit).foldl (fun n c => 10 * n + (c.toNat - 48)) 0, s.dropWhile Char.isDigit)

/-- Reads `('name', variable),…]`. -/
def readMembers : Nat → Str → Option (List (Str × Str) × Str)
  | 0, _ => none
  | n + 1, s =>
    match after "('".toList s with
    | none => none
    | some s1 =>
      match after "', ".toList (upto '\'' s1).2 with
      | none => none
      | some s2 =>
        match after ")".toList (upto ')' s2).2 with
        | none => none
        | some s3 =>
          match after ",".toList s3 with
          | some s4 => (readMembers n s4).map fun r => (((upto '\'' s1).1, (upto ')' s2).1) :: r.1, r.2)
          | none => (after "]".toList s3).map fun s4 => ([((upto '\'' s1).1, (upto ')' s2).1)], s4)

/-- Reads `2, 1]`. -/
def readNats : Nat → Str → Option (List Nat × Str)
  | 0, _ => none
  | n + 1, s =>
    match after ", ".toList (readNat s).2 with
    | some s1 => (readNats n s1).map fun r => ((readNat s).1 :: r.1, r.2)
    | none => (after "]".toList (readNat s).2).map fun s1 => ([(readNat s).1], s1)

/-- A call of a voting class. -/
structure VoterCall where
  cls : Str
  estimators : List (Str × Str)
  voting : Option Str
  weights : List Nat
  deriving DecidableEq

/-- Reads `, voting='…'` if it is there. -/
def readVoting (s : Str) : Option Str × Str :=
  match after ", voting='".toList s with
  | none => (none, s)
  | some s1 => (some (upto '\'' s1).1, (upto '\'' s1).2.drop 1)

/-- Reads what follows the estimators. -/
def readEnd (cls : Str) (es : List (Str × Str)) (s : Str) : Option VoterCall :=
  match after ", weights=[".toList (readVoting s).2 with
  | none => none
  | some s1 =>
    match readNats s1.length s1 with
    | none => none
    | some (ws, s2) => if s2 = ")\n".toList then some ⟨cls, es, (readVoting s).1, ws⟩ else none

/-- Reads a line `ensemble = Class([…], voting='…', weights=[…])`. -/
def readVoter (s : Str) : Option VoterCall :=
  match after "ensemble = ".toList s with
  | none => none
  | some s1 =>
    match after "([".toList (upto '(' s1).2 with
    | none => none
    | some s2 =>
      match readMembers s2.length s2 with
      | none => none
      | some (es, s3) => readEnd (upto '(' s1).1 es s3

/-- How an ensemble comes to its prediction: by the label most have, weighted; by the mean of probabilities;
or by the mean of values. -/
inductive Rule
  | hard | soft | mean
  deriving DecidableEq

/-- The rule of scikit-learn's voting classes. -/
def VoterCall.rule (v : VoterCall) : Option Rule :=
  if v.cls = "VotingClassifier".toList then
    match v.voting with
    | none => some .hard
    | some k => if k = "hard".toList then some .hard else if k = "soft".toList then some .soft else none
  else if v.cls = "VotingRegressor".toList then
    match v.voting with
    | none => some .mean
    | some _ => none
  else none

end Spec

theorem after_append (p s : Str) : after p (p ++ s) = some s := by
  unfold after
  rw [if_pos (by simp), List.drop_left]

theorem after_cons_ne (a b : Char) (p s : Str) (h : a ≠ b) : after (a :: p) (b :: s) = none := by
  unfold after
  simp [List.isPrefixOf, h]

theorem upto_append {c : Char} : ∀ {a : Str} (s : Str), c ∉ a → upto c (a ++ c :: s) = (a, c :: s)
  | [], s, _ => by simp [upto]
  | x :: a, s, h => by
    have hx : x ≠ c := fun e => h (by simp [e])
    have := upto_append (a := a) s (fun hc => h (List.mem_cons_of_mem _ hc))
    unfold upto at this ⊢
    rw [Prod.mk.injEq] at this
    rw [List.cons_append, List.takeWhile_cons_of_pos (by simpa using hx), List.dropWhile_cons_of_pos (by simpa using hx),
      this.1, this.2]

theorem isDigit_of_decimal {c : Char} (h : '0'.val ≤ c.val ∧ c.val ≤ '9'.val) : c.isDigit = true := by
  unfold Char.isDigit
  simp only [Bool.and_eq_true, decide_eq_true_eq]
  exact h

theorem digit_value : ∀ d < 10, (digitChar d).toNat - 48 = d := by decide

theorem foldr_digits : ∀ l : List Nat, (∀ d ∈ l, d < 10) →
    (l.map digitChar).foldr (fun c n => 10 * n + (c.toNat - 48)) 0 = Nat.ofDigits 10 l
  | [], _ => rfl
  | d :: l, h => by
    rw [List.map_cons, List.foldr_cons, foldr_digits l (fun x hx => h x (List.mem_cons_of_mem _ hx)),
      Nat.ofDigits_cons, digit_value d (h d (List.mem_cons_self))]
    omega

theorem natStr_value (n : Nat) : (natStr n).foldl (fun n c => 10 * n + (c.toNat - 48)) 0 = n := by
  unfold natStr
  split
  · next h => rw [h]; decide
  · rw [List.foldl_reverse, foldr_digits _ (digits_lt n), Nat.ofDigits_digits]

theorem readNat_append (n : Nat) {c : Char} (hc : c.isDigit = false) (s : Str) :
    readNat (natStr n ++ c :: s) = (n, c :: s) := by
  have hd : ∀ x ∈ natStr n, x.isDigit = true := fun x hx => isDigit_of_decimal ((natStr_decimal n).2 x hx)
  unfold readNat
  rw [List.takeWhile_append_of_pos hd, List.dropWhile_append_of_pos hd, List.takeWhile_cons_of_neg (by simp [hc]),
    List.dropWhile_cons_of_neg (by simp [hc]), List.append_nil, natStr_value]

theorem not_digit_mem {c : Char} (h : c.isDigit = false) (n : Nat) : c ∉ natStr n := by
  intro hc
  rw [isDigit_of_decimal ((natStr_decimal n).2 c hc)] at h
  cases h

theorem joinWith_cons (sep p : Str) {ps : List Str} (h : ps ≠ []) :
    joinWith sep (p :: ps) = p ++ sep ++ joinWith sep ps := by
  cases ps with
  | nil => exact absurd rfl h
  | cons q qs => rfl

theorem readNats_append : ∀ (ns : List Nat) (n : Nat) (fuel : Nat) (s : Str), (n :: ns).length ≤ fuel →
    readNats fuel (joinWith [',', ' '] ((n :: ns).map natStr) ++ ']' :: s) = some (n :: ns, s)
  | _, _, 0, _, h => by simp at h
  | [], n, fuel + 1, s, _ => by
    show readNats (fuel + 1) (natStr n ++ ']' :: s) = _
    unfold readNats
    rw [readNat_append n (by decide)]
    dsimp only
    rw [show after ", ".toList (']' :: s) = none from after_cons_ne _ _ _ _ (by decide),
      show after "]".toList (']' :: s) = some s from after_append _ _]
    rfl
  | m :: ns, n, fuel + 1, s, h => by
    have ih := readNats_append ns m fuel s (by simp at h ⊢; omega)
    rw [List.map_cons, joinWith_cons _ _ (by simp), List.append_assoc, List.append_assoc]
    generalize joinWith [',', ' '] ((m :: ns).map natStr) ++ ']' :: s = t at ih ⊢
    show readNats (fuel + 1) (natStr n ++ ',' :: ' ' :: t) = _
    unfold readNats
    rw [readNat_append n (by decide)]
    dsimp only
    rw [show after ", ".toList (',' :: ' ' :: t) = some t from after_append _ t]
    dsimp only
    rw [ih]
    rfl

theorem readMembers_head (fuel : Nat) {a b : Str} (t : Str) (h1 : '\'' ∉ a) (h2 : ')' ∉ b) :
    readMembers (fuel + 1) ('(' :: '\'' :: (a ++ '\'' :: (',' :: ' ' :: (b ++ ')' :: t)))) =
      match after ",".toList t with
      | some s4 => (readMembers fuel s4).map fun r => ((a, b) :: r.1, r.2)
      | none => (after "]".toList t).map fun s4 => ([(a, b)], s4) := by
  rw [readMembers]
  rw [show ∀ t, after "('".toList ('(' :: '\'' :: t) = some t from fun t => after_append _ t]
  dsimp only
  rw [upto_append _ h1]
  dsimp only
  rw [show ∀ t, after "', ".toList ('\'' :: ',' :: ' ' :: t) = some t from fun t => after_append _ t]
  dsimp only
  rw [upto_append _ h2]
  dsimp only
  rw [show ∀ t, after ")".toList (')' :: t) = some t from fun t => after_append _ t]

theorem readMembers_append : ∀ (ms : List (Str × Str)) (m : Str × Str) (fuel : Nat) (s : Str),
    (m :: ms).length ≤ fuel → (∀ x ∈ m :: ms, '\'' ∉ x.1 ∧ ')' ∉ x.2) →
    readMembers fuel (joinWith [','] ((m :: ms).map fun m => ['(', '\''] ++ m.1 ++ ['\'', ',', ' '] ++ m.2 ++ [')']) ++
      ']' :: s) = some (m :: ms, s)
  | _, _, 0, _, h, _ => by simp at h
  | [], (a, b), fuel + 1, s, _, hx => by
    obtain ⟨h1, h2⟩ := hx (a, b) (List.mem_cons_self)
    show readMembers (fuel + 1) ((['(', '\''] ++ a ++ ['\'', ',', ' '] ++ b ++ [')']) ++ ']' :: s) = _
    simp only [List.append_assoc]
    refine (readMembers_head fuel (']' :: s) h1 h2).trans ?_
    rw [show after ",".toList (']' :: s) = none from after_cons_ne _ _ _ _ (by decide),
      show after "]".toList (']' :: s) = some s from after_append _ _]
    rfl
  | m :: ms, (a, b), fuel + 1, s, h, hx => by
    obtain ⟨h1, h2⟩ := hx (a, b) (List.mem_cons_self)
    have ih := readMembers_append ms m fuel s (by simp at h ⊢; omega) (fun x hx' => hx x (List.mem_cons_of_mem _ hx'))
    rw [List.map_cons, joinWith_cons _ _ (by simp), List.append_assoc, List.append_assoc]
    generalize joinWith [','] ((m :: ms).map fun m => ['(', '\''] ++ m.1 ++ ['\'', ',', ' '] ++ m.2 ++ [')']) ++
      ']' :: s = t at ih ⊢
    simp only [List.append_assoc]
    refine (readMembers_head fuel (',' :: t) h1 h2).trans ?_
    rw [show after ",".toList (',' :: t) = some t from after_append _ t]
    dsimp only
    rw [ih]
    rfl

theorem memberVar_closing (i : Nat) : ')' ∉ memberVar i := by
  unfold memberVar
  intro h
  rcases List.mem_append.1 h with h | h
  · exact absurd h (by decide)
  · rcases List.mem_cons.1 h with h | h
    · exact absurd h (by decide)
    · exact not_digit_mem (by decide) i h

theorem memberNames_mem : ∀ (n i : Nat) (x : Str × Str), x ∈ memberNames i n → ∃ k, x = (natStr k, memberVar k)
  | 0, _, _, h => by cases h
  | n + 1, i, x, h => by
    rcases List.mem_cons.1 h with h | h
    · exact ⟨i, h⟩
    · exact memberNames_mem n (i + 1) x h

/-- What is written as `voting` for a class of voters. -/
def writtenVoting : Voter → Option Str
  | .classifier true => some "soft".toList
  | .classifier false => some "hard".toList
  | .regressor => none

/-- What a reader of the line that defines `ensemble` finds in it. -/
theorem readVoter_line (s : EnsembleScript) (hm : s.members ≠ []) (hw : s.weights ≠ [])
    (hx : ∀ x ∈ s.members, '\'' ∉ x.1 ∧ ')' ∉ x.2) :
    readVoter s.voterLine = some ⟨s.voter.name, s.members, writtenVoting s.voter, s.weights⟩ := by
  obtain ⟨imports, pipelines, voter, members, weights, steps⟩ := s
  dsimp only at hm hw hx ⊢
  obtain ⟨m, ms, rfl⟩ := List.exists_cons_of_ne_nil hm
  obtain ⟨w, ws, rfl⟩ := List.exists_cons_of_ne_nil hw
  unfold EnsembleScript.voterLine natListStr
  dsimp only
  simp only [List.append_assoc]
  have hname : '(' ∉ voter.name := by rcases voter with ⟨_ | _⟩ | _ <;> decide
  have hlen : ∀ (ps : List Str) (sep t : Str), (∀ p ∈ ps, p ≠ []) → ps.length ≤ (joinWith sep ps ++ t).length := by
    intro ps sep t h
    induction ps with
    | nil => simp
    | cons p ps ih =>
      have hp : 0 < p.length := List.length_pos_iff.2 (h p (List.mem_cons_self))
      cases ps with
      | nil => simp [joinWith]; omega
      | cons q qs =>
        have := ih (fun x hx => h x (List.mem_cons_of_mem _ hx))
        rw [joinWith_cons _ _ (by simp)]
        simp at this ⊢
        omega
  have hlen' := hlen
  unfold readVoter
  rw [show ∀ t, after "ensemble = ".toList (ensembleVar ++ ([' ', '=', ' '] ++ t)) = some t from
    fun t => by rw [← List.append_assoc]; exact after_append _ t]
  dsimp only
  rw [show ∀ t : Str, voter.name ++ (['(', '['] ++ t) = voter.name ++ '(' :: ('[' :: t) from fun _ => rfl]
  rw [upto_append _ hname]
  dsimp only
  rw [show ∀ t, after "([".toList ('(' :: '[' :: t) = some t from fun t => after_append _ t]
  dsimp only
  have hread := readMembers_append ms m
  simp only [List.append_assoc] at hread
  rw [show ∀ t : Str, [']'] ++ t = ']' :: t from fun _ => rfl]
  rw [hread _ _ (by
    refine le_trans ?_ (hlen _ _ _ ?_)
    · simp
    · intro p hp
      obtain ⟨x, _, rfl⟩ := List.mem_map.1 hp
      simp) hx]
  dsimp only
  clear hread hlen hx hm hw
  have hws : ∀ t : Str, readNats (joinWith [',', ' '] ((w :: ws).map natStr) ++ ']' :: t).length
      (joinWith [',', ' '] ((w :: ws).map natStr) ++ ']' :: t) = some (w :: ws, t) := by
    intro t
    refine readNats_append ws w _ t (le_trans ?_ (hlen' _ _ _ ?_))
    · simp
    · intro p hp
      obtain ⟨x, _, rfl⟩ := List.mem_map.1 hp
      exact (natStr_decimal x).1
  generalize joinWith [',', ' '] ((w :: ws).map natStr) = body at hws
  have hfin : ∀ (v : Option Str) (t : Str), readVoting t = (v, ", weights=[".toList ++ (body ++ ']' :: ")\n".toList)) →
      readEnd voter.name (m :: ms) t = some ⟨voter.name, m :: ms, v, w :: ws⟩ := by
    intro v t ht
    unfold readEnd
    rw [ht]
    dsimp only
    rw [after_append]
    dsimp only
    rw [hws]
    dsimp only
    rw [if_pos rfl]
  rcases voter with ⟨_ | _⟩ | _
  · refine hfin (some "hard".toList) _ ?_
    rfl
  · refine hfin (some "soft".toList) _ ?_
    rfl
  · refine hfin none _ ?_
    rfl

/-! ### Voting -/

namespace Spec

/-- The first element with the largest value. -/
def FirstMax {γ : Type} (f : γ → ℚ) (l : List γ) (x : γ) : Prop :=
  ∃ pre post, l = pre ++ x :: post ∧ (∀ y ∈ pre, f y < f x) ∧ ∀ y ∈ post, f y ≤ f x

/-- The weight of the votes for a class, as `np.bincount` counts them. -/
def votes {ε ρ γ : Type} [DecidableEq γ] (ms : List (ε × Int)) (label : ε → ρ → γ) (r : ρ) (c : γ) : ℚ :=
  ((ms.filter fun m => label m.1 r = c).map fun m => (m.2 : ℚ)).sum

/-- `np.average` with weights. -/
def averageOf {ε : Type} (ms : List (ε × Int)) (f : ε → ℚ) : ℚ :=
  (ms.map fun m => f m.1 * (m.2 : ℚ)).sum / (ms.map fun m => (m.2 : ℚ)).sum

/-- `c` is the class that estimators with weights choose by a rule. -/
def Elects {ε ρ γ : Type} [DecidableEq γ] (classes : List γ) (ms : List (ε × Int)) (label : ε → ρ → γ)
    (proba : ε → ρ × γ → ℚ) (r : ρ) (c : γ) : Rule → Prop
  | .hard => FirstMax (votes ms label r) classes c
  | .soft => FirstMax (fun d => averageOf ms fun e => proba e (r, d)) classes c
  | .mean => False

end Spec

theorem argmax_first {γ : Type} (f : γ → ℚ) : ∀ (l : List γ) (x : γ), argmax f l = some x ↔ FirstMax f l x
  | [], x => by simp [argmax, FirstMax]
  | c :: cs, x => by
    have ih := argmax_first f cs
    unfold argmax
    cases h : argmax f cs with
    | none =>
      have hnil : cs = [] := (argmax_spec f cs).1 h
      subst hnil
      simp only [Option.some.injEq]
      constructor
      · rintro rfl
        exact ⟨[], [], rfl, by simp, by simp⟩
      · rintro ⟨pre, post, e, _⟩
        cases pre with
        | nil => exact (List.cons.inj e).1
        | cons a pre => simp at e
    | some d =>
      obtain ⟨pre, post, e, h1, h2⟩ := (ih d).1 h
      have hall : ∀ y ∈ cs, f y ≤ f d := by
        intro y hy
        rw [e] at hy
        rcases List.mem_append.1 hy with hy | hy
        · exact (h1 y hy).le
        · rcases List.mem_cons.1 hy with rfl | hy
          · exact le_refl _
          · exact h2 y hy
      have hd : d ∈ cs := by rw [e]; simp
      dsimp only
      by_cases hle : f d ≤ f c
      · rw [if_pos hle, Option.some.injEq]
        constructor
        · rintro rfl
          exact ⟨[], cs, rfl, by simp, fun y hy => (hall y hy).trans hle⟩
        · rintro ⟨p, q, e', g1, g2⟩
          cases p with
          | nil => exact (List.cons.inj e').1
          | cons a p =>
            obtain ⟨rfl, e2⟩ := List.cons.inj e'
            replace e' : cs = p ++ x :: q := e2
            have hx : x ∈ cs := by rw [e']; simp
            have := g1 c (List.mem_cons_self)
            have := hall x hx
            linarith
      · rw [if_neg hle, Option.some.injEq]
        constructor
        · rintro rfl
          refine ⟨c :: pre, post, by rw [e]; rfl, ?_, h2⟩
          intro y hy
          rcases List.mem_cons.1 hy with rfl | hy
          · exact not_le.1 hle
          · exact h1 y hy
        · rintro ⟨p, q, e', g1, g2⟩
          cases p with
          | nil =>
            obtain ⟨rfl, rfl⟩ := List.cons.inj e'
            exact absurd (g2 d hd) hle
          | cons a p =>
            obtain ⟨rfl, e2⟩ := List.cons.inj e'
            replace e' : cs = p ++ x :: q := e2
            have : argmax f cs = some x := (ih x).2 ⟨p, q, e', fun y hy => g1 y (List.mem_cons_of_mem _ hy), g2⟩
            rw [h] at this
            exact Option.some.inj this

theorem firstMax_congr {γ : Type} {f g : γ → ℚ} (h : ∀ c d, f c ≤ f d ↔ g c ≤ g d) (l : List γ) (x : γ) :
    FirstMax f l x ↔ FirstMax g l x := by
  have h' : ∀ c d, f c < f d ↔ g c < g d := fun c d => by rw [← not_le, ← not_le, h]
  unfold FirstMax
  simp only [h, h']

theorem votes_eq {ε ρ γ : Type} [DecidableEq γ] (ms : List (ε × Int)) (label : ε → ρ → γ) (r : ρ) (c : γ) :
    votes ms label r c = (ms.map fun m => (if label m.1 r = c then 1 else 0 : ℚ) * (m.2 : ℚ)).sum := by
  unfold votes
  induction ms with
  | nil => rfl
  | cons m ms ih =>
    by_cases h : label m.1 r = c
    · simp [h] at ih ⊢
      exact ih
    · simp [h] at ih ⊢
      exact ih

/-- Sums over the fitted estimators of members that have `k` each, which are alike. -/
theorem sum_fitted {κ ε : Type} {k : Nat} {F : ε → ℚ} {F' : Nat → ℚ} : ∀ (l : Models κ ε),
    (∀ e ∈ l, e.2.1.estimators.length = k ∧ ∀ x ∈ e.2.1.estimators, F x = F' e.1) →
    ((l.flatMap fun e => e.2.1.estimators.map fun x => (x, e.2.2)).map fun m => F m.1 * (m.2 : ℚ)).sum =
      k * ((l.map fun e => (e.1, e.2.2)).map fun m => F' m.1 * (m.2 : ℚ)).sum
  | [], _ => by simp
  | e :: l, h => by
    obtain ⟨h1, h2⟩ := h e (List.mem_cons_self)
    have ih := sum_fitted l fun x hx => h x (List.mem_cons_of_mem _ hx)
    have hx : ∀ xs : List ε, (∀ x ∈ xs, F x = F' e.1) →
        ((xs.map fun x => (x, e.2.2)).map fun m => F m.1 * (m.2 : ℚ)).sum = xs.length * (F' e.1 * (e.2.2 : ℚ)) := by
      intro xs
      induction xs with
      | nil => intro _; simp
      | cons x xs ihx =>
        intro hx
        have e2 := ihx fun y hy => hx y (List.mem_cons_of_mem _ hy)
        have e1 := hx x (List.mem_cons_self)
        rw [List.map_cons, List.map_cons, List.sum_cons, e2, e1]
        simp only [List.length_cons]
        push_cast
        ring
    rw [List.flatMap_cons, List.map_append, List.sum_append, hx _ h2, ih, h1]
    simp only [List.map_cons, List.sum_cons]
    ring

theorem average_fitted {κ ε : Type} {k : Nat} (hk : 0 < k) {F : ε → ℚ} {F' : Nat → ℚ} (l : Models κ ε)
    (h : ∀ e ∈ l, e.2.1.estimators.length = k ∧ ∀ x ∈ e.2.1.estimators, F x = F' e.1) :
    averageOf (l.flatMap fun e => e.2.1.estimators.map fun x => (x, e.2.2)) F =
      averageOf (l.map fun e => (e.1, e.2.2)) F' := by
  have h1 := sum_fitted l h
  have h2 := sum_fitted (F := fun _ : ε => (1 : ℚ)) (F' := fun _ => 1) (k := k) l
    fun e he => ⟨(h e he).1, fun _ _ => rfl⟩
  simp only [one_mul] at h2
  unfold averageOf
  rw [h1, h2, mul_div_mul_left _ _ (by exact_mod_cast hk.ne')]

/-- The rule of the script for a classifier. -/
def Spec.classifierRule (probabilities : Bool) : Rule := if probabilities then .soft else .hard

/-- **C140**: fitted estimators with weights predict by the rule of the script: for a metric on labels the first
of the classes with the largest weight of votes, for one on probabilities the first with the largest mean. -/
theorem C140_rule {κ ε ρ γ : Type} [DecidableEq γ] (probabilities : Bool) (label : ε → ρ → γ)
    (proba : ε → ρ × γ → ℚ) (classes : List γ) (s : Ens κ ε) (l : List (ε × Int)) (hl : s.fit = some l) (h0 : l ≠ [])
    (hw : ∀ e ∈ l, 0 < e.2) :
    ∃ p, ensembleLabels probabilities label proba classes s = .ok p ∧
      ∀ r c, p r = some c ↔ Elects classes l label proba r c (classifierRule probabilities) := by
  unfold classifierRule
  have hpos : (0 : ℚ) < (l.map fun e => ((e.2 : Int) : ℚ)).sum := by
    rw [sum_cast]
    exact_mod_cast (sum_pos_of _ l hw).2 h0
  unfold ensembleLabels
  cases probabilities with
  | true =>
    rw [if_pos rfl, C45_mean _ s l hl h0]
    refine ⟨_, rfl, fun r c => ?_⟩
    rw [argmax_first, if_pos rfl]
    refine iff_of_eq (congrArg (fun f => FirstMax f classes c) ?_)
    funext d
    unfold mean averageOf
    rw [List.map_map, List.map_map]
    rfl
  | false =>
    rw [if_neg (by simp), C45_mean _ s l hl h0]
    refine ⟨_, rfl, fun r c => ?_⟩
    rw [argmax_first, if_neg (by simp)]
    refine firstMax_congr (fun c d => ?_) classes c
    have hv : ∀ d, mean (l.map fun e => (oneHot (label e.1), (e.2 : ℚ))) (r, d) =
        votes l label r d / (l.map fun e => ((e.2 : Int) : ℚ)).sum := by
      intro d
      rw [votes_eq]
      unfold mean
      rw [List.map_map, List.map_map]
      rfl
    rw [hv, hv, div_le_div_iff_of_pos_right hpos]

theorem infix_joinWith (sep : Str) : ∀ (ps : List Str) (p : Str), p ∈ ps → p <:+: joinWith sep ps
  | [q], p, h => by
    rw [List.mem_singleton.1 h]
    exact List.infix_rfl
  | q :: r :: ps, p, h => by
    rw [joinWith_cons _ _ (by simp)]
    rcases List.mem_cons.1 h with rfl | h
    · exact ⟨[], sep ++ joinWith sep (r :: ps), by simp⟩
    · obtain ⟨a, b, e⟩ := infix_joinWith sep (r :: ps) p h
      exact ⟨q ++ sep ++ a, b, by rw [← e]; simp⟩

/-- The parts of the text of a script. -/
theorem text_parts (s : EnsembleScript) : ∃ before, s.text = before ++ '\n' :: s.voterLine ++
      (match s.steps with | none => [] | some steps => formatPipeline "pipeline".toList steps) ∧
    (∀ i ∈ s.imports, i.text <:+: before) ∧ ∀ p ∈ s.pipelines, formatPipeline p.1 p.2 <:+: before := by
  refine ⟨joinWith ['\n'] (s.imports.map Import.text) ++ ['\n', '\n'] ++
    joinWith ['\n', '\n'] (s.pipelines.map fun p => formatPipeline p.1 p.2), ?_, fun i hi => ?_, fun p hp => ?_⟩
  · unfold EnsembleScript.text
    simp only [List.append_assoc]
    rfl
  · obtain ⟨a, b, e⟩ := infix_joinWith ['\n'] _ _ (List.mem_map_of_mem (f := Import.text) hi)
    exact ⟨a, b ++ (['\n', '\n'] ++ joinWith ['\n', '\n'] (s.pipelines.map fun p => formatPipeline p.1 p.2)), by
      rw [← e]; simp⟩
  · obtain ⟨a, b, e⟩ := infix_joinWith ['\n', '\n'] _ _
      (List.mem_map_of_mem (f := fun p : Str × List (Str × Str) => formatPipeline p.1 p.2) hp)
    exact ⟨joinWith ['\n'] (s.imports.map Import.text) ++ ['\n', '\n'] ++ a, b, by rw [← e]; simp⟩

/-- **C140**: the script of an ensemble has a line that defines `ensemble`, which names the members with their
weights, and says how they vote: as the ensemble does.  The imports and the definition of each member come
before it, the definition of `pipeline` after it. -/
theorem C140_script (fnModule : Nat → Str) (order : List Import → List Import) (v : Voter)
    (models : List (List (Str × Transformer) × List Cell × Nat)) (h0 : models ≠ [])
    (preprocessing : Option (List (Str × Transformer))) :
    ∃ s before call, ensembleScript fnModule order (some v) models preprocessing = .ok s ∧
      s.text = before ++ '\n' :: s.voterLine ++
        (match s.steps with | none => [] | some steps => formatPipeline "pipeline".toList steps) ∧
      (∀ i ∈ s.imports, i.text <:+: before) ∧ (∀ p ∈ s.pipelines, formatPipeline p.1 p.2 <:+: before) ∧
      readVoter s.voterLine = some call ∧
      call.estimators.length = models.length ∧
      (∀ k : Nat, k < models.length → ∃ var, call.estimators[k]? = some (natStr k, var) ∧
        (s.pipelines[k]?).map Prod.fst = some var) ∧
      call.weights = models.map (fun m => m.2.2) ∧
      call.rule = some (match v with
        | .classifier probabilities => Spec.classifierRule probabilities
        | .regressor => .mean) := by
  obtain ⟨s, hs⟩ : ∃ s, ensembleScript fnModule order (some v) models preprocessing = .ok s := ⟨_, rfl⟩
  obtain ⟨before, t1, t2, t3⟩ := text_parts s
  refine ⟨s, before, ⟨v.name, s.members, writtenVoting v, s.weights⟩, hs, t1, t2, t3, ?_⟩
  clear t1 t2 t3
  have hs : _ = s := Except.ok.inj hs
  subst hs
  refine ⟨readVoter_line _ ?_ ?_ ?_, ?_, ?_, rfl, ?_⟩
  · dsimp only
    intro h
    have := congrArg List.length h
    rw [memberNames_length] at this
    exact h0 (List.length_eq_zero_iff.1 this)
  · dsimp only
    simpa using h0
  · intro x hx
    obtain ⟨k, rfl⟩ := memberNames_mem _ _ _ hx
    exact ⟨not_digit_mem (by decide) k, memberVar_closing k⟩
  · exact memberNames_length _ _
  · intro k hk
    refine ⟨memberVar k, ?_, ?_⟩
    · dsimp only
      rw [memberNames_get _ _ _ hk, Nat.zero_add]
    · dsimp only
      rw [memberPipelines_get, Nat.zero_add]
      have : ((models.map fun m => importsAndSteps fnModule m.1 m.2.1).map Prod.snd)[k]? =
          some (importsAndSteps fnModule models[k].1 models[k].2.1).2 := by
        simp [hk]
      rw [this]
      rfl
  · rcases v with ⟨_ | _⟩ | _ <;> rfl

/-- The votes of the fitted estimators are those of the members, times the number of estimators of each. -/
theorem votes_fitted {κ ε ρ γ : Type} [DecidableEq γ] {k : Nat} {label : ε → ρ → γ} {label' : Nat → ρ → γ}
    (l : Models κ ε) (h : ∀ e ∈ l, e.2.1.estimators.length = k ∧ ∀ x ∈ e.2.1.estimators, label x = label' e.1)
    (r : ρ) (c : γ) :
    votes (l.flatMap fun e => e.2.1.estimators.map fun x => (x, e.2.2)) label r c =
      k * votes (l.map fun e => (e.1, e.2.2)) label' r c := by
  rw [votes_eq, votes_eq]
  exact sum_fitted (F := fun x => if label x r = c then 1 else 0) (F' := fun i => if label' i r = c then 1 else 0) l
    fun e he => ⟨(h e he).1, fun x hx => by rw [(h e he).2 x hx]⟩

theorem elects_fitted {κ ε ρ γ : Type} [DecidableEq γ] {k : Nat} (hk : 0 < k) {label : ε → ρ → γ}
    {label' : Nat → ρ → γ} {proba : ε → ρ × γ → ℚ} {proba' : Nat → ρ × γ → ℚ} (l : Models κ ε)
    (h : ∀ e ∈ l, e.2.1.estimators.length = k ∧
      ∀ x ∈ e.2.1.estimators, label x = label' e.1 ∧ proba x = proba' e.1)
    (classes : List γ) (r : ρ) (c : γ) (rule : Rule) :
    Elects classes (l.flatMap fun e => e.2.1.estimators.map fun x => (x, e.2.2)) label proba r c rule ↔
      Elects classes (l.map fun e => (e.1, e.2.2)) label' proba' r c rule := by
  cases rule with
  | hard =>
    refine firstMax_congr (fun c d => ?_) classes c
    rw [votes_fitted l (fun e he => ⟨(h e he).1, fun x hx => ((h e he).2 x hx).1⟩),
      votes_fitted l (fun e he => ⟨(h e he).1, fun x hx => ((h e he).2 x hx).1⟩)]
    exact mul_le_mul_iff_right₀ (by exact_mod_cast hk)
  | soft =>
    unfold Elects
    have : (fun d => averageOf (l.flatMap fun e => e.2.1.estimators.map fun x => (x, e.2.2)) fun e => proba e (r, d)) =
        fun d => averageOf (l.map fun e => (e.1, e.2.2)) fun e => proba' e (r, d) := by
      funext d
      exact average_fitted hk l fun e he => ⟨(h e he).1, fun x hx => by rw [((h e he).2 x hx).2]⟩
    rw [this]
  | mean => exact Iff.rfl

/-- **C140**: an ensemble of classifiers that was built predicts, for every row, the class which the voter of its
exported script elects, read off the script, if each exported pipeline predicts as the fitted estimators of its
member do. -/
theorem C140_exported {κ ε ρ γ : Type} [DecidableEq γ] (f : (κ → ℚ) → Score) (score : (κ → ℚ) → Except Exn Score)
    (hf : ∀ p, score p = .ok (f p)) (hn : ∀ p, f p ≠ .ninf) (size : Int) (hsz : 1 ≤ size)
    (library : List (Mdl κ ε)) (hlib : library ≠ []) (timeout : ℚ) (ht : 0 < timeout)
    (k : Nat) (hk : 0 < k) (label : ε → ρ → γ) (proba : ε → ρ × γ → ℚ)
    (label' : Nat → ρ → γ) (proba' : Nat → ρ × γ → ℚ)
    (hest : ∀ m ∈ library, m.estimators.length = k ∧
      ∀ x ∈ m.estimators, label x = label' m.id ∧ proba x = proba' m.id)
    (probabilities : Bool) (classes : List γ) (fnModule : Nat → Str) (order : List Import → List Import)
    (ext : List (Str × Transformer)) (cells : Nat → List Cell) (preprocessing : Option (List (Str × Transformer))) :
    ∃ l s call rule p, (buildFitEnsemble score size timeout library).models = some l ∧
      ensembleScript fnModule order (some (.classifier probabilities))
        (l.map fun e => (ext, cells e.1, e.2.2.toNat)) preprocessing = .ok s ∧
      readVoter s.voterLine = some call ∧ call.weights.length = l.length ∧ call.rule = some rule ∧
      ensembleLabels probabilities label proba classes (buildFitEnsemble score size timeout library) = .ok p ∧
      ∀ r c, p r = some c ↔
        Elects classes ((l.map Prod.fst).zip (call.weights.map Int.ofNat)) label' proba' r c rule := by
  obtain ⟨l₀, l, sc, n, hrun, hok, hne, _⟩ := buildFit_spec hf hn hsz hlib timeout ht
  have hmod : (buildFitEnsemble score size timeout library).models = some l := by
    unfold buildFitEnsemble
    rw [hrun]
  have hfit : (buildFitEnsemble score size timeout library).fit =
      some (l.flatMap fun e => e.2.1.estimators.map fun x => (x, e.2.2)) := by
    unfold buildFitEnsemble
    rw [hrun]
  have hmem : ∀ e ∈ l, e.2.1.estimators.length = k ∧
      ∀ x ∈ e.2.1.estimators, label x = label' e.1 ∧ proba x = proba' e.1 := by
    intro e he
    obtain ⟨h1, _, h3⟩ := hok.own e he
    rw [h1]
    exact hest _ h3
  have hnil : (l.flatMap fun e => e.2.1.estimators.map fun x => (x, e.2.2)) ≠ [] := by
    obtain ⟨e, he⟩ := List.exists_mem_of_ne_nil l hne
    have hx0 : e.2.1.estimators ≠ [] := fun h => by
      have := (hmem e he).1
      rw [h] at this
      exact hk.ne this
    obtain ⟨x, hx⟩ := List.exists_mem_of_ne_nil _ hx0
    exact List.ne_nil_of_mem (List.mem_flatMap.2 ⟨e, he, List.mem_map.2 ⟨x, hx, rfl⟩⟩)
  have hpos : ∀ x ∈ l.flatMap fun e => e.2.1.estimators.map fun x => (x, e.2.2), 0 < x.2 := by
    intro x hx
    obtain ⟨e, he, hx⟩ := List.mem_flatMap.1 hx
    obtain ⟨y, _, rfl⟩ := List.mem_map.1 hx
    exact (hok.own e he).2.1
  obtain ⟨p, hp, hpe⟩ := C140_rule probabilities label proba classes _ _ hfit hnil hpos
  obtain ⟨s, _, call, h1, _, _, _, h2, _, _, h3, h4⟩ := C140_script fnModule order (.classifier probabilities)
    (l.map fun e => (ext, cells e.1, e.2.2.toNat)) (by simpa using hne) preprocessing
  refine ⟨l, s, call, classifierRule probabilities, p, hmod, h1, h2, by rw [h3]; simp, h4, hp, fun r c => ?_⟩
  rw [hpe, elects_fitted hk l hmem]
  have : (l.map Prod.fst).zip (call.weights.map Int.ofNat) = l.map fun e => (e.1, e.2.2) := by
    rw [h3, List.map_map, List.map_map, List.zip_map', List.map_congr_left]
    intro e he
    have := (hok.own e he).2.1
    show (e.1, ((e.2.2.toNat : Nat) : Int)) = _
    rw [Int.toNat_of_nonneg this.le]
  rw [this]

/-- **C140**: an ensemble of regressors predicts the mean which the voter of its exported script computes. -/
theorem C140_values {κ ε ρ : Type} (f : (κ → ℚ) → Score) (score : (κ → ℚ) → Except Exn Score)
    (hf : ∀ p, score p = .ok (f p)) (hn : ∀ p, f p ≠ .ninf) (size : Int) (hsz : 1 ≤ size)
    (library : List (Mdl κ ε)) (hlib : library ≠ []) (timeout : ℚ) (ht : 0 < timeout)
    (k : Nat) (hk : 0 < k) (value : ε → ρ → ℚ) (value' : Nat → ρ → ℚ)
    (hest : ∀ m ∈ library, m.estimators.length = k ∧ ∀ x ∈ m.estimators, value x = value' m.id)
    (fnModule : Nat → Str) (order : List Import → List Import)
    (ext : List (Str × Transformer)) (cells : Nat → List Cell) (preprocessing : Option (List (Str × Transformer))) :
    ∃ l s call p, (buildFitEnsemble score size timeout library).models = some l ∧
      ensembleScript fnModule order (some .regressor)
        (l.map fun e => (ext, cells e.1, e.2.2.toNat)) preprocessing = .ok s ∧
      readVoter s.voterLine = some call ∧ call.weights.length = l.length ∧ call.rule = some .mean ∧
      ensembleValues value (buildFitEnsemble score size timeout library) = .ok p ∧
      ∀ r, p r = averageOf ((l.map Prod.fst).zip (call.weights.map Int.ofNat)) fun i => value' i r := by
  obtain ⟨l₀, l, sc, n, hrun, hok, hne, _⟩ := buildFit_spec hf hn hsz hlib timeout ht
  have hmod : (buildFitEnsemble score size timeout library).models = some l := by
    unfold buildFitEnsemble
    rw [hrun]
  have hfit : (buildFitEnsemble score size timeout library).fit =
      some (l.flatMap fun e => e.2.1.estimators.map fun x => (x, e.2.2)) := by
    unfold buildFitEnsemble
    rw [hrun]
  have hmem : ∀ e ∈ l, e.2.1.estimators.length = k ∧ ∀ x ∈ e.2.1.estimators, value x = value' e.1 := by
    intro e he
    obtain ⟨h1, _, h3⟩ := hok.own e he
    rw [h1]
    exact hest _ h3
  have hnil : (l.flatMap fun e => e.2.1.estimators.map fun x => (x, e.2.2)) ≠ [] := by
    obtain ⟨e, he⟩ := List.exists_mem_of_ne_nil l hne
    have hx0 : e.2.1.estimators ≠ [] := fun h => by
      have := (hmem e he).1
      rw [h] at this
      exact hk.ne this
    obtain ⟨x, hx⟩ := List.exists_mem_of_ne_nil _ hx0
    exact List.ne_nil_of_mem (List.mem_flatMap.2 ⟨e, he, List.mem_map.2 ⟨x, hx, rfl⟩⟩)
  obtain ⟨s, _, call, h1, _, _, _, h2, _, _, h3, h4⟩ := C140_script fnModule order .regressor
    (l.map fun e => (ext, cells e.1, e.2.2.toNat)) (by simpa using hne) preprocessing
  refine ⟨l, s, call, _, hmod, h1, h2, by rw [h3]; simp, h4, C45_mean value _ _ hfit hnil, fun r => ?_⟩
  have : (l.map Prod.fst).zip (call.weights.map Int.ofNat) = l.map fun e => (e.1, e.2.2) := by
    rw [h3, List.map_map, List.map_map, List.zip_map', List.map_congr_left]
    intro e he
    have := (hok.own e he).2.1
    show (e.1, ((e.2.2.toNat : Nat) : Int)) = _
    rw [Int.toNat_of_nonneg this.le]
  rw [this, ← average_fitted (F := fun x => value x r) hk l fun e he => ⟨(hmem e he).1, fun x hx => by
    rw [(hmem e he).2 x hx]⟩]
  unfold mean averageOf
  rw [List.map_map, List.map_map]
  rfl

/-! ### A case -/

/-- Three models, with two estimators each: the numbers of those of model `i` are `10 i` and `10 i + 1`. -/
def Ex.threeModels : List (Mdl Unit Nat) :=
  [⟨1, fun _ => 0, [10, 11]⟩, ⟨2, fun _ => 4, [20, 21]⟩, ⟨3, fun _ => 9, [30, 31]⟩]

/-- What they say of two rows, and with which probability it is class 2. -/
def Ex.threeLabels (i : Nat) (r : Bool) : Nat := if r then i % 2 else 2
def Ex.threeProba (i : Nat) (k : Bool × Nat) : ℚ := if k.2 = 2 then 1 / (i + 1) else if k.2 = i % 2 then 1 - 1 / (i + 1) else 0

example : ∀ m ∈ Ex.threeModels, m.estimators.length = 2 ∧
    ∀ x ∈ m.estimators, Ex.threeLabels (x / 10) = Ex.threeLabels m.id ∧
      Ex.threeProba (x / 10) = Ex.threeProba m.id := by
  intro m hm
  simp only [Ex.threeModels, List.mem_cons, List.not_mem_nil, or_false] at hm
  rcases hm with rfl | rfl | rfl <;>
    exact ⟨rfl, fun x hx => by
      simp only [List.mem_cons, List.not_mem_nil, or_false] at hx
      rcases hx with rfl | rfl <;> exact ⟨rfl, rfl⟩⟩

/-- The ensemble, what it predicts and what the script says. -/
example : (buildFitEnsemble (fun p => .ok (Ex.closeToOne p)) 4 10 Ex.threeModels).fit =
      some [(20, 1), (21, 1), (10, 3), (11, 3)] ∧
    (match ensembleLabels false (fun x => Ex.threeLabels (x / 10)) (fun x => Ex.threeProba (x / 10)) [0, 1, 2]
        (buildFitEnsemble (fun p => .ok (Ex.closeToOne p)) 4 10 Ex.threeModels) with
      | .ok p => (p true, p false)
      | .error _ => (none, none)) = (some 1, some 2) := by decide +kernel

example : (match ensembleScript (fun _ => []) id (some (.classifier false))
      [([], [sampleCell], 1), ([], [sampleCell], 3)] none with
    | .ok s => readVoter s.voterLine
    | .error _ => none) =
    some ⟨"VotingClassifier".toList, [(['0'], memberVar 0), (['1'], memberVar 1)], some "hard".toList, [1, 3]⟩ := by
  decide +kernel

end Gama
