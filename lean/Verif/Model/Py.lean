/-!
# Python conventions of the model

Exceptions are values, effects are state-passing.  Nothing in this file models a
function of `/repo`; it fixes how Python's control flow is represented.
-/

namespace Gama

/-- Strings that the code takes apart or compares are lists of characters. -/
abbrev Str := List Char

/-- The exceptions that can leave a modelled function.  `diverge` stands for a
Python loop or recursion that does not terminate, `dangling` for a reference to an
object that does not exist (impossible in Python, shown unreachable where used). -/
inductive Exn
  | valueError | indexError | keyError | typeError | attributeError | runtimeError
  | unboundLocal | zeroDivision | notImplemented | fileNotFound | fileExists | osError
  | timeout | noSuchProcess | keyboardInterrupt | systemExit | diverge | dangling
  deriving DecidableEq, Repr

/-- A Python computation over a state `σ`: it returns or raises, and in both cases
leaves a state behind (mutations made before an exception persist). -/
def PyM (σ : Type) (α : Type) : Type := σ → Except Exn α × σ

namespace PyM
variable {σ α β : Type}

protected def pure (a : α) : PyM σ α := fun s => (.ok a, s)

protected def bind (m : PyM σ α) (f : α → PyM σ β) : PyM σ β := fun s =>
  match m s with
  | (.ok a, s') => f a s'
  | (.error e, s') => (.error e, s')

instance : Monad (PyM σ) where
  pure := PyM.pure
  bind := PyM.bind

/-- `raise e` -/
def raise (e : Exn) : PyM σ α := fun s => (.error e, s)

def get : PyM σ σ := fun s => (.ok s, s)

def modify (f : σ → σ) : PyM σ Unit := fun s => (.ok (), f s)

/-- A computation that only reads the state. -/
def ofExcept (f : σ → Except Exn α) : PyM σ α := fun s => (f s, s)

theorem bind_run {m : PyM σ α} {f : α → PyM σ β} {s : σ} : (m >>= f) s =
    match m s with
    | (.ok a, s') => f a s'
    | (.error e, s') => (.error e, s') := rfl

theorem bind_ok {m : PyM σ α} {f : α → PyM σ β} {s s' : σ} {a : α} (h : m s = (.ok a, s')) :
    (m >>= f) s = f a s' := by rw [bind_run, h]

theorem bind_error {m : PyM σ α} {f : α → PyM σ β} {s s' : σ} {e : Exn}
    (h : m s = (.error e, s')) : (m >>= f) s = (.error e, s') := by rw [bind_run, h]

theorem pure_run {a : α} {s : σ} : (pure a : PyM σ α) s = (.ok a, s) := rfl

theorem get_run {s : σ} : (get : PyM σ σ) s = (.ok s, s) := rfl

theorem modify_run {f : σ → σ} {s : σ} : modify f s = (.ok (), f s) := rfl

theorem raise_run {e : Exn} {s : σ} : (raise e : PyM σ α) s = (.error e, s) := rfl

/-- Weakest precondition: `Q` holds of the result and final state if `m` returns,
`E` of the exception and final state if it raises. -/
def wp (m : PyM σ α) (Q : α → σ → Prop) (E : Exn → σ → Prop) (s : σ) : Prop :=
  match m s with
  | (.ok a, s') => Q a s'
  | (.error e, s') => E e s'

section rules
variable {Q : α → σ → Prop} {Q' : β → σ → Prop} {E : Exn → σ → Prop} {s : σ}

@[simp] theorem wp_pure {a : α} : wp (pure a : PyM σ α) Q E s ↔ Q a s := Iff.rfl

@[simp] theorem wp_bind {m : PyM σ α} {f : α → PyM σ β} :
    wp (m >>= f) Q' E s ↔ wp m (fun a s' => wp (f a) Q' E s') E s := by
  show wp (PyM.bind m f) Q' E s ↔ _
  unfold wp PyM.bind
  cases h : m s with
  | mk r s' => cases r <;> simp

@[simp] theorem wp_raise {e : Exn} : wp (raise e : PyM σ α) Q E s ↔ E e s := Iff.rfl

@[simp] theorem wp_get {Q : σ → σ → Prop} : wp (get : PyM σ σ) Q E s ↔ Q s s := Iff.rfl

@[simp] theorem wp_modify {f : σ → σ} {Q : Unit → σ → Prop} :
    wp (modify f) Q E s ↔ Q () (f s) := Iff.rfl

@[simp] theorem wp_ofExcept {f : σ → Except Exn α} :
    wp (ofExcept f) Q E s ↔ (match f s with | .ok a => Q a s | .error e => E e s) := by
  unfold wp ofExcept
  cases f s <;> simp

theorem wp_mono {m : PyM σ α} {Q₁ Q₂ : α → σ → Prop} {E₁ E₂ : Exn → σ → Prop}
    (hQ : ∀ a s', Q₁ a s' → Q₂ a s') (hE : ∀ e s', E₁ e s' → E₂ e s')
    (h : wp m Q₁ E₁ s) : wp m Q₂ E₂ s := by
  unfold wp at *
  cases hm : m s with
  | mk r s' =>
    rw [hm] at h
    cases r with
    | error e => exact hE _ _ h
    | ok a => exact hQ _ _ h

theorem wp_and {m : PyM σ α} {Q₁ Q₂ : α → σ → Prop} {E₁ E₂ : Exn → σ → Prop}
    (h₁ : wp m Q₁ E₁ s) (h₂ : wp m Q₂ E₂ s) :
    wp m (fun a s' => Q₁ a s' ∧ Q₂ a s') (fun e s' => E₁ e s' ∧ E₂ e s') s := by
  unfold wp at *
  cases hm : m s with
  | mk r s' => rw [hm] at h₁ h₂; cases r <;> exact ⟨h₁, h₂⟩

theorem wp_ite {c : Prop} [Decidable c] {m₁ m₂ : PyM σ α} :
    wp (if c then m₁ else m₂) Q E s ↔ (c → wp m₁ Q E s) ∧ (¬ c → wp m₂ Q E s) := by
  by_cases h : c <;> simp [h]

/-- `wp` says what happens when a run returns. -/
theorem wp_ok {m : PyM σ α} {a : α} {s' : σ} (h : wp m Q E s) (hr : m s = (.ok a, s')) :
    Q a s' := by
  unfold wp at h; rw [hr] at h; exact h

theorem wp_error {m : PyM σ α} {e : Exn} {s' : σ} (h : wp m Q E s)
    (hr : m s = (.error e, s')) : E e s' := by
  unfold wp at h; rw [hr] at h; exact h

theorem wp_intro {m : PyM σ α} (hok : ∀ a s', m s = (.ok a, s') → Q a s')
    (herr : ∀ e s', m s = (.error e, s') → E e s') : wp m Q E s := by
  unfold wp
  cases hm : m s with
  | mk r s' => cases r with
    | ok a => exact hok _ _ hm
    | error e => exact herr _ _ hm

end rules
end PyM

/-- A source of randomness: an infinite stream of draws. -/
abbrev Stream := Nat → Nat

/-- States that carry a source of randomness. -/
class HasRand (σ : Type) where
  rnd : σ → Stream
  setRnd : σ → Stream → σ

instance : HasRand Stream where
  rnd s := s
  setRnd _ s := s

section rand
variable {σ α : Type} [HasRand σ]

/-- Advance the stream by one draw. -/
def advance (s : σ) : σ := HasRand.setRnd s (fun n => HasRand.rnd s (n + 1))

/-- One raw draw. -/
def draw : PyM σ Nat := fun s => (.ok (HasRand.rnd s 0), advance s)

/-- `random.choice(xs)`; `IndexError` on an empty sequence. -/
def choice (xs : List α) : PyM σ α := fun s =>
  match xs[(HasRand.rnd s 0) % xs.length]? with
  | some x => (.ok x, advance s)
  | none => (.error .indexError, s)

/-- `random.randint(a, b)`, inclusive; `ValueError` if `b < a`. -/
def randint (a b : Nat) : PyM σ Nat := fun s =>
  if b < a then (.error .valueError, s)
  else (.ok (a + (HasRand.rnd s 0) % (b - a + 1)), advance s)

open PyM

theorem wp_draw {Q : Nat → σ → Prop} {E : Exn → σ → Prop} {s : σ}
    (h : ∀ d, Q d (advance s)) : wp draw Q E s := h _

theorem wp_choice {xs : List α} {Q : α → σ → Prop} {E : Exn → σ → Prop} {s : σ}
    (hE : xs = [] → E .indexError s) (hQ : ∀ x ∈ xs, Q x (advance s)) :
    wp (choice xs) Q E s := by
  unfold wp choice
  cases h : xs[(HasRand.rnd s 0) % xs.length]? with
  | some x => exact hQ _ (List.mem_of_getElem? h)
  | none =>
    apply hE
    rw [List.getElem?_eq_none_iff] at h
    cases xs with
    | nil => rfl
    | cons a l =>
      have := Nat.mod_lt (HasRand.rnd s 0) (y := (a :: l).length) (by simp)
      omega

theorem wp_randint {a b : Nat} {Q : Nat → σ → Prop} {E : Exn → σ → Prop} {s : σ}
    (hE : b < a → E .valueError s) (hQ : ∀ n, a ≤ n → n ≤ b → Q n (advance s)) :
    wp (randint a b) Q E s := by
  unfold wp randint
  by_cases h : b < a
  · simp [h]; exact hE h
  · simp only [h, if_false]
    apply hQ
    · omega
    · have := Nat.mod_lt (HasRand.rnd s 0) (y := b - a + 1) (by omega)
      omega

end rand

section sorting
variable {α : Type}

/-- Insert `x` before the first element it is not greater than. -/
def insertBy (le : α → α → Bool) (x : α) : List α → List α
  | [] => [x]
  | y :: ys => if le x y then x :: y :: ys else y :: insertBy le x ys

/-- Python's `sorted`: a stable sort.  `le a b` is `not (key(b) < key(a))`.  All stable sorts
by a total preorder agree; insertion sort is used because it computes in the kernel. -/
def pySorted (le : α → α → Bool) : List α → List α
  | [] => []
  | x :: xs => insertBy le x (pySorted le xs)

theorem insertBy_perm (le : α → α → Bool) (x : α) : ∀ l, (insertBy le x l).Perm (x :: l)
  | [] => List.Perm.refl _
  | y :: ys => by
    simp only [insertBy]
    split
    · exact List.Perm.refl _
    · exact ((insertBy_perm le x ys).cons y).trans (List.Perm.swap x y ys)

theorem pySorted_perm (le : α → α → Bool) : ∀ l, (pySorted le l).Perm l
  | [] => List.Perm.refl _
  | x :: xs => (insertBy_perm le x _).trans ((pySorted_perm le xs).cons x)

theorem insertBy_sorted {le : α → α → Bool}
    (trans : ∀ a b c, le a b = true → le b c = true → le a c = true)
    (total : ∀ a b, (le a b || le b a) = true) (x : α) :
    ∀ l : List α, l.Pairwise (fun a b => le a b = true) →
      (insertBy le x l).Pairwise (fun a b => le a b = true)
  | [], _ => by simp [insertBy]
  | y :: ys, h => by
    rw [List.pairwise_cons] at h
    simp only [insertBy]
    split
    · next hxy =>
      rw [List.pairwise_cons, List.pairwise_cons]
      refine ⟨?_, h⟩
      intro z hz
      rcases List.mem_cons.1 hz with rfl | hz
      · exact hxy
      · exact trans _ _ _ hxy (h.1 z hz)
    · next hxy =>
      rw [List.pairwise_cons]
      refine ⟨?_, insertBy_sorted trans total x ys h.2⟩
      intro z hz
      rcases List.mem_cons.1 ((insertBy_perm le x ys).mem_iff.1 hz) with rfl | hz
      · have := total z y
        simp only [Bool.not_eq_true] at hxy
        rw [hxy] at this; simpa using this
      · exact h.1 z hz

theorem pySorted_sorted {le : α → α → Bool}
    (trans : ∀ a b c, le a b = true → le b c = true → le a c = true)
    (total : ∀ a b, (le a b || le b a) = true) :
    ∀ l : List α, (pySorted le l).Pairwise (fun a b => le a b = true)
  | [] => List.Pairwise.nil
  | x :: xs => insertBy_sorted trans total x _ (pySorted_sorted trans total xs)

theorem pySorted_of_sorted {le : α → α → Bool} :
    ∀ {l : List α}, l.Pairwise (fun a b => le a b = true) → pySorted le l = l
  | [], _ => rfl
  | x :: xs, h => by
    rw [List.pairwise_cons] at h
    simp only [pySorted, pySorted_of_sorted h.2]
    cases xs with
    | nil => rfl
    | cons y ys => simp [insertBy, h.1 y (by simp)]

end sorting
end Gama
