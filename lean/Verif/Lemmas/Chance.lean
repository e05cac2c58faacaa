import Verif.Spec.Chance

/-!
Finite trees of draws, and how likely their leaves are.
-/

namespace Gama
open Spec PyM

/-- There is only one chance. -/
theorem chance_unique {α : Type} {M : Nat} {m : GP α} {w : World} {P : α → World → Prop} {q q' : ℚ}
    (h : Chance M m w P q) (h' : Chance M m w P q') : q = q' := by
  obtain ⟨K, h⟩ := h
  obtain ⟨K', h'⟩ := h'
  rw [← h (max K K') (Nat.le_max_left _ _) (fun _ => 0), ← h' (max K K') (Nat.le_max_right _ _) (fun _ => 0)]

/-- What a computation does, by the draws it makes. -/
inductive Tree (α : Type)
  | leaf (r : Except Exn α) (w : World)
  | node (n : Nat) (kids : Nat → Tree α)

namespace Tree
variable {α β : Type}

def run : Tree α → Stream → Except Exn α × World
  | .leaf r w, s => (r, withRnd w s)
  | .node n kids, s => run (kids (s 0 % n)) fun i => s (i + 1)

/-- Every number of candidates divides `M`. -/
def Fair (M : Nat) : Tree α → Prop
  | .leaf _ _ => True
  | .node n kids => 0 < n ∧ n ∣ M ∧ ∀ j, Fair M (kids j)

open Classical in
noncomputable def weight (P : α → World → Prop) : Tree α → ℚ
  | .leaf (.ok a) w => if P a w then 1 else 0
  | .leaf (.error _) _ => 0
  | .node n kids => ((List.range n).map fun j => weight P (kids j)).sum / n

def depth : Tree α → Nat
  | .leaf _ _ => 0
  | .node n kids => ((List.range n).map fun j => depth (kids j)).foldr max 0 + 1

def bind (t : Tree α) (g : α → World → Tree β) : Tree β :=
  match t with
  | .leaf (.ok a) w => g a w
  | .leaf (.error e) w => .leaf (.error e) w
  | .node n kids => .node n fun j => bind (kids j) g

end Tree

/-- `t` is what `m` does in `w`. -/
def Beh {α : Type} (t : Tree α) (m : GP α) (w : World) : Prop := ∀ s, m (withRnd w s) = t.run s

theorem le_foldr_max : ∀ (l : List Nat) (x : Nat), x ∈ l → x ≤ l.foldr max 0
  | [], x, h => by simp at h
  | y :: l, x, h => by
    rcases List.mem_cons.1 h with rfl | h
    · exact Nat.le_max_left _ _
    · exact Nat.le_trans (le_foldr_max l x h) (Nat.le_max_right _ _)

theorem sum_const (M : Nat) (c : ℚ) : ((List.range M).map fun _ => c).sum = M * c := by
  induction M with
  | zero => simp
  | succ n ih =>
    rw [List.range_succ, List.map_append, List.sum_append, ih]
    push_cast
    simp
    ring

theorem sum_mod (n : Nat) (g : Nat → ℚ) : ∀ c, ((List.range (n * c)).map fun d => g (d % n)).sum
    = c * ((List.range n).map g).sum
  | 0 => by simp
  | c + 1 => by
    rw [Nat.mul_succ, List.range_add, List.map_append, List.sum_append, sum_mod n g c, List.map_map]
    have : (List.range n).map ((fun d => g (d % n)) ∘ fun x => n * c + x) = (List.range n).map g := by
      apply List.map_congr_left
      intro j hj
      have hj := List.mem_range.1 hj
      show g ((n * c + j) % n) = g j
      rw [Nat.mul_add_mod, Nat.mod_eq_of_lt hj]
    rw [this]
    push_cast
    ring

theorem average_const {M : Nat} (hM : 0 < M) (c : ℚ) : ∀ k, average M k (fun _ => c) = c
  | 0 => rfl
  | k + 1 => by
    simp only [average, average_const hM c k, sum_const]
    have : (M : ℚ) ≠ 0 := by exact_mod_cast hM.ne'
    field_simp

/-- `P` does not look at the draws to come. -/
def Still {α : Type} (P : α → World → Prop) : Prop := ∀ a w s, P a (withRnd w s) ↔ P a w

open Classical in
noncomputable def hitRun {α : Type} (P : α → World → Prop) (t : Tree α) (s : Stream) : ℚ :=
  if ∃ a w', t.run s = (.ok a, w') ∧ P a w' then 1 else 0

theorem hitRun_leaf {α : Type} {P : α → World → Prop} (hP : Still P) (r : Except Exn α) (w : World)
    (s : Stream) : hitRun P (.leaf r w) s = Tree.weight P (.leaf r w) := by
  cases r with
  | error e => simp [hitRun, Tree.run, Tree.weight]
  | ok a =>
    unfold hitRun
    by_cases h : P a w
    · rw [if_pos ⟨a, _, rfl, (hP a w s).2 h⟩]
      simp [Tree.weight, h]
    · rw [if_neg]
      · simp [Tree.weight, h]
      · rintro ⟨a', w', e, h'⟩
        have e : ((Except.ok a : Except Exn α), withRnd w s) = (.ok a', w') := e
        injection e with e1 e2
        injection e1 with e1
        subst e1 e2
        exact h ((hP _ _ _).1 h')

theorem average_tree {α : Type} {P : α → World → Prop} (hP : Still P) {M : Nat} (hM : 0 < M) :
    ∀ (t : Tree α), t.Fair M → ∀ k, t.depth ≤ k → ∀ s,
      average M k (fun l => hitRun P t (draws l s)) = t.weight P
  | .leaf r w, _, k, _, s => by
    have : (fun l => hitRun P (.leaf r w) (draws l s)) = fun _ => Tree.weight P (.leaf r w) := by
      funext l; exact hitRun_leaf hP r w _
    rw [this, average_const hM]
  | .node n kids, hf, 0, hd, s => by simp [Tree.depth] at hd
  | .node n kids, hf, k + 1, hd, s => by
    obtain ⟨hn, ⟨c, rfl⟩, hk⟩ := hf
    have key : ∀ d, average (n * c) k (fun l => hitRun P (.node n kids) (draws (d :: l) s))
        = (kids (d % n)).weight P := by
      intro d
      have hlt : d % n < n := Nat.mod_lt _ hn
      have hd' : (kids (d % n)).depth ≤ k := by
        have := le_foldr_max ((List.range n).map fun j => (kids j).depth) (kids (d % n)).depth
          (List.mem_map.2 ⟨d % n, List.mem_range.2 hlt, rfl⟩)
        simp only [Tree.depth] at hd
        omega
      rw [← average_tree hP hM (kids (d % n)) (hk _) k hd' s]
      rfl
    simp only [average, key]
    rw [sum_mod n (fun j => (kids j).weight P) c]
    have h1 : (n : ℚ) ≠ 0 := by exact_mod_cast hn.ne'
    have hc : 0 < c := Nat.pos_of_mul_pos_left hM
    have h2 : (c : ℚ) ≠ 0 := by exact_mod_cast hc.ne'
    simp only [Tree.weight]
    push_cast
    field_simp

/-- The chance of `P`, by a tree. -/
def Odds {α : Type} (M : Nat) (m : GP α) (w : World) (P : α → World → Prop) (q : ℚ) : Prop :=
  ∃ t : Tree α, Beh t m w ∧ t.Fair M ∧ t.weight P = q

theorem Odds.chance {α : Type} {M : Nat} (hM : 0 < M) {m : GP α} {w : World} {P : α → World → Prop}
    (hP : Still P) {q : ℚ} (h : Odds M m w P q) : Chance M m w P q := by
  obtain ⟨t, hb, hf, rfl⟩ := h
  refine ⟨t.depth, fun k hk s => ?_⟩
  rw [← average_tree hP hM t hf k hk s]
  have : (fun l => hit m w P (draws l s)) = fun l => hitRun P t (draws l s) := by
    funext l
    unfold hit hitRun
    by_cases h : ∃ a w', t.run (draws l s) = (.ok a, w') ∧ P a w'
    · rw [if_pos h, if_pos]
      obtain ⟨a, w', h, h'⟩ := h
      exact ⟨a, w', (hb _).trans h, h'⟩
    · rw [if_neg h, if_neg]
      rintro ⟨a, w', h1, h2⟩
      exact h ⟨a, w', (hb _).symm.trans h1, h2⟩
  rw [this]

/-- A result of a tree comes about through some draws. -/
inductive Tree.Leaf {α : Type} (r : Except Exn α) (w : World) : Tree α → Prop
  | here : Leaf r w (.leaf r w)
  | under {n : Nat} {kids : Nat → Tree α} (j : Nat) (hj : j < n) (h : Leaf r w (kids j)) : Leaf r w (.node n kids)

theorem Tree.Leaf.drawn {α : Type} {r : Except Exn α} {w : World} {t : Tree α} (h : t.Leaf r w) :
    ∃ l, ∀ s, t.run (draws l s) = (r, withRnd w s) := by
  induction h with
  | here => exact ⟨[], fun s => rfl⟩
  | under j hj h ih =>
    obtain ⟨l, hl⟩ := ih
    refine ⟨j :: l, fun s => ?_⟩
    simp only [Tree.run, draws, Nat.mod_eq_of_lt hj]
    exact hl s

theorem weight_const {α : Type} {P : α → World → Prop} {M : Nat} {c : ℚ} :
    ∀ (t : Tree α), t.Fair M → (∀ r w, t.Leaf r w → Tree.weight P (.leaf r w) = c) → t.weight P = c
  | .leaf r w, _, h => h r w .here
  | .node n kids, hf, h => by
    have : (List.range n).map (fun j => (kids j).weight P) = (List.range n).map fun _ => c := by
      apply List.map_congr_left
      intro j hj
      exact weight_const (kids j) (hf.2.2 j) fun r w hl => h r w (.under j (List.mem_range.1 hj) hl)
    simp only [Tree.weight, this, sum_const]
    have h1 : (n : ℚ) ≠ 0 := by exact_mod_cast hf.1.ne'
    field_simp

/-- All leaves are as a weakest precondition says. -/
theorem leaf_wp {α : Type} {m : GP α} {w : World} {t : Tree α} (hb : Beh t m w)
    {Q : α → World → Prop} {E : Exn → World → Prop} (h : ∀ s, wp m Q E (withRnd w s))
    {r : Except Exn α} {w' : World} (hl : t.Leaf r w') (s : Stream) :
    match r with | .ok a => Q a (withRnd w' s) | .error e => E e (withRnd w' s) := by
  obtain ⟨l, hl⟩ := hl.drawn
  have h := h (draws l s)
  have hr := (hb (draws l s)).trans (hl s)
  cases r with
  | ok a =>
    show Q a (withRnd w' s)
    exact wp_ok h hr
  | error e =>
    show E e (withRnd w' s)
    exact wp_error h hr

/-- `m` makes finitely many draws, all of which are fair. -/
def HasTree {α : Type} (M : Nat) (m : GP α) : Prop := ∀ w, ∃ t : Tree α, Beh t m w ∧ t.Fair M

theorem odds_never {α : Type} {M : Nat} {m : GP α} (ht : HasTree M m) {w : World}
    {P : α → World → Prop} (hP : Still P) {E : Exn → World → Prop}
    (h : ∀ s, wp m (fun a w' => ¬ P a w') E (withRnd w s)) : Odds M m w P 0 := by
  obtain ⟨t, hb, hf⟩ := ht w
  refine ⟨t, hb, hf, weight_const t hf ?_⟩
  intro r w' hl
  have := leaf_wp hb h hl (fun _ => 0)
  cases r with
  | error e => rfl
  | ok a =>
    simp only [hP a w'] at this
    simp [Tree.weight, this]

theorem odds_always {α : Type} {M : Nat} {m : GP α} (ht : HasTree M m) {w : World}
    {P : α → World → Prop} (hP : Still P)
    (h : ∀ s, wp m P (fun _ _ => False) (withRnd w s)) : Odds M m w P 1 := by
  obtain ⟨t, hb, hf⟩ := ht w
  refine ⟨t, hb, hf, weight_const t hf ?_⟩
  intro r w' hl
  have := leaf_wp hb h hl (fun _ => 0)
  cases r with
  | error e => exact this.elim
  | ok a =>
    simp only [hP a w'] at this
    simp [Tree.weight, this]

section
variable {α β : Type} {M : Nat}

theorem HasTree.pure (a : α) : HasTree M (Pure.pure a : GP α) :=
  fun w => ⟨.leaf (.ok a) w, fun _ => rfl, trivial⟩

theorem HasTree.raise (e : Exn) : HasTree M (PyM.raise e : GP α) :=
  fun w => ⟨.leaf (.error e) w, fun _ => rfl, trivial⟩

theorem HasTree.ofExcept {f : World → Except Exn α} (hf : ∀ w r, f (withRnd w r) = f w) :
    HasTree M (PyM.ofExcept f) :=
  fun w => ⟨.leaf (f w) w, fun s => by
    show (f (withRnd w s), withRnd w s) = _
    rw [hf]; rfl, trivial⟩

theorem HasTree.modify {g : World → World} (h : ∀ w r, g (withRnd w r) = withRnd (g w) r) :
    HasTree M (PyM.modify g) :=
  fun w => ⟨.leaf (.ok ()) (g w), fun s => by rw [modify_run, h]; rfl, trivial⟩

theorem beh_bind {m : GP α} {f : α → GP β} {w : World} {t : Tree α} {g : α → World → Tree β}
    (hb : Beh t m w) (hg : ∀ a w', Beh (g a w') (f a) w') : Beh (t.bind g) (m >>= f) w := by
  have key : ∀ (t : Tree α) s, (match t.run s with
      | (.ok a, w') => f a w' | (.error e, w') => (.error e, w')) = (t.bind g).run s := by
    intro t
    induction t with
    | leaf r w =>
      intro s
      cases r with
      | error e => rfl
      | ok a => exact hg a w s
    | node n kids ih => intro s; exact ih _ _
  intro s
  rw [← key t s, ← hb s]
  show PyM.bind m f _ = _
  unfold PyM.bind
  cases m (withRnd w s) with
  | mk r w' => cases r <;> rfl

theorem fair_bind {g : α → World → Tree β} (hg : ∀ a w', (g a w').Fair M) :
    ∀ (t : Tree α), t.Fair M → (t.bind g).Fair M
  | .leaf (.ok a) w, _ => hg a w
  | .leaf (.error _) _, _ => trivial
  | .node _ kids, h => ⟨h.1, h.2.1, fun j => fair_bind hg (kids j) (h.2.2 j)⟩

theorem HasTree.bind {m : GP α} {f : α → GP β} (hm : HasTree M m) (hf : ∀ a, HasTree M (f a)) :
    HasTree M (m >>= f) := by
  intro w
  obtain ⟨t, hb, ht⟩ := hm w
  choose g hg using hf
  exact ⟨t.bind g, beh_bind hb fun a w' => (hg a w').1, fair_bind (fun a w' => (hg a w').2) t ht⟩

theorem HasTree.ite {c : Prop} [Decidable c] {m₁ m₂ : GP α} (h₁ : HasTree M m₁) (h₂ : HasTree M m₂) :
    HasTree M (if c then m₁ else m₂) := by
  by_cases h : c <;> simp [h, h₁, h₂]

theorem HasTree.choice {xs : List α} (h : xs ≠ [] → xs.length ∣ M) : HasTree M (Gama.choice xs : GP α) := by
  intro w
  cases xs with
  | nil => exact ⟨.leaf (.error .indexError) w, fun s => rfl, trivial⟩
  | cons x xs =>
    refine ⟨.node (x :: xs).length fun j => .leaf (.ok ((x :: xs).getD j x)) w, fun s => ?_,
      by simp, h (by simp), fun j => trivial⟩
    have hlt : s 0 % (x :: xs).length < (x :: xs).length := Nat.mod_lt _ (by simp)
    unfold Gama.choice
    have : HasRand.rnd (withRnd w s) 0 = s 0 := rfl
    rw [this, List.getElem?_eq_getElem hlt]
    simp only [Tree.run, List.getD_eq_getElem?_getD, List.getElem?_eq_getElem hlt, Option.getD_some]
    rfl

theorem HasTree.randint {lo hi : Nat} (h : lo ≤ hi → hi - lo + 1 ∣ M) :
    HasTree M (Gama.randint lo hi : GP Nat) := by
  intro w
  by_cases hlt : hi < lo
  · exact ⟨.leaf (.error .valueError) w, fun s => by simp [Gama.randint, hlt, Tree.run], trivial⟩
  · refine ⟨.node (hi - lo + 1) fun j => .leaf (.ok (lo + j)) w, fun s => ?_,
      by omega, h (by omega), fun j => trivial⟩
    simp only [Gama.randint, hlt, if_false, Tree.run]
    rfl

/-! ### Sums -/

theorem map_range_getD (xs : List α) (x : α) (g : α → ℚ) :
    (List.range xs.length).map (fun j => g (xs.getD j x)) = xs.map g := by
  apply List.ext_getElem
  · simp
  · intro i h1 h2
    simp at h1
    simp [List.getD_eq_getElem?_getD, h1]

theorem Odds.pure_yes {P : α → World → Prop} {a : α} {w : World} (h : P a w) :
    Odds M (Pure.pure a : GP α) w P 1 :=
  ⟨.leaf (.ok a) w, fun _ => rfl, trivial, by simp [Tree.weight, h]⟩

theorem Odds.pure_no {P : α → World → Prop} {a : α} {w : World} (h : ¬ P a w) :
    Odds M (Pure.pure a : GP α) w P 0 :=
  ⟨.leaf (.ok a) w, fun _ => rfl, trivial, by simp [Tree.weight, h]⟩

theorem Odds.yes {m : GP α} {P : α → World → Prop} {a : α} {w w₁ : World}
    (hm : ∀ s, m (withRnd w s) = (.ok a, withRnd w₁ s)) (h : P a w₁) : Odds M m w P 1 :=
  ⟨.leaf (.ok a) w₁, hm, trivial, by simp [Tree.weight, h]⟩

theorem Odds.no {m : GP α} {P : α → World → Prop} {a : α} {w w₁ : World}
    (hm : ∀ s, m (withRnd w s) = (.ok a, withRnd w₁ s)) (h : ¬ P a w₁) : Odds M m w P 0 :=
  ⟨.leaf (.ok a) w₁, hm, trivial, by simp [Tree.weight, h]⟩

/-- Something without draws goes first. -/
theorem Odds.det {m : GP α} {f : α → GP β} {w w₁ : World} {a : α} {P : β → World → Prop} {q : ℚ}
    (hm : ∀ s, m (withRnd w s) = (.ok a, withRnd w₁ s)) (h : Odds M (f a) w₁ P q) :
    Odds M (m >>= f) w P q := by
  obtain ⟨t, hb, hf, hq⟩ := h
  exact ⟨t, fun s => by rw [bind_ok (hm s)]; exact hb s, hf, hq⟩

theorem Odds.choice {xs : List α} {f : α → GP β} {w : World} {P : β → World → Prop} {g : α → ℚ}
    (hx : xs ≠ []) (hM : xs.length ∣ M) (h : ∀ x ∈ xs, Odds M (f x) w P (g x)) :
    Odds M (Gama.choice xs >>= f) w P ((xs.map g).sum / xs.length) := by
  cases hxs : xs with
  | nil => exact absurd hxs hx
  | cons x ys =>
    rw [← hxs]
    have hx' : x ∈ xs := by simp [hxs]
    choose t ht using h
    let kids : Nat → Tree β := fun j => if hj : j < xs.length then t xs[j] (List.getElem_mem hj) else t x hx'
    have hpos : 0 < xs.length := by simp [hxs]
    refine ⟨.node xs.length kids, ?_, ⟨hpos, hM, ?_⟩, ?_⟩
    · intro s
      have hlt : s 0 % xs.length < xs.length := Nat.mod_lt _ hpos
      have hrun : (Gama.choice xs : GP α) (withRnd w s)
          = (.ok xs[s 0 % xs.length], withRnd w fun i => s (i + 1)) := by
        unfold Gama.choice
        have : HasRand.rnd (withRnd w s) 0 = s 0 := rfl
        rw [this, List.getElem?_eq_getElem hlt]
        rfl
      rw [bind_ok hrun, (ht _ (List.getElem_mem hlt)).1]
      simp only [Tree.run, kids, dif_pos hlt]
    · intro j
      by_cases hj : j < xs.length
      · simp only [kids, dif_pos hj]; exact (ht _ _).2.1
      · simp only [kids, dif_neg hj]; exact (ht _ _).2.1
    · simp only [Tree.weight]
      congr 2
      rw [← map_range_getD xs x g]
      apply List.map_congr_left
      intro j hj
      have hj := List.mem_range.1 hj
      simp only [kids, dif_pos hj, List.getD_eq_getElem?_getD, List.getElem?_eq_getElem hj, Option.getD_some]
      exact (ht _ _).2.2

theorem Odds.randint {lo hi : Nat} {f : Nat → GP β} {w : World} {P : β → World → Prop} {g : Nat → ℚ}
    (hlo : lo ≤ hi) (hM : hi - lo + 1 ∣ M) (h : ∀ x, lo ≤ x → x ≤ hi → Odds M (f x) w P (g x)) :
    Odds M (Gama.randint lo hi >>= f) w P
      (((List.range (hi - lo + 1)).map fun j => g (lo + j)).sum / ((hi - lo + 1 : Nat) : ℚ)) := by
  choose t ht using h
  have hlt : ∀ j, j % (hi - lo + 1) < hi - lo + 1 := fun j => Nat.mod_lt _ (by omega)
  let kids : Nat → Tree β := fun j => t (lo + j % (hi - lo + 1)) (by omega) (by have := hlt j; omega)
  refine ⟨.node (hi - lo + 1) kids, ?_, ⟨by omega, hM, fun j => (ht _ _ _).2.1⟩, ?_⟩
  · intro s
    have hrun : (Gama.randint lo hi : GP Nat) (withRnd w s)
        = (.ok (lo + s 0 % (hi - lo + 1)), withRnd w fun i => s (i + 1)) := by
      unfold Gama.randint
      rw [if_neg (by omega)]
      rfl
    rw [bind_ok hrun, (ht _ (by omega) (by have := hlt (s 0); omega)).1]
    simp only [Tree.run, kids, Nat.mod_mod]
  · simp only [Tree.weight]
    congr 2
    apply List.map_congr_left
    intro j hj
    have hj := List.mem_range.1 hj
    simp only [kids, Nat.mod_eq_of_lt hj]
    exact (ht _ _ _).2.2

theorem sum_single [DecidableEq α] {xs : List α} (hn : xs.Nodup) {x : α} (hx : x ∈ xs) (q : ℚ) :
    (xs.map fun y => if y = x then q else 0).sum = q := by
  induction xs with
  | nil => simp at hx
  | cons y ys ih =>
    rw [List.nodup_cons] at hn
    by_cases hy : y = x
    · subst hy
      have : (ys.map fun z => if z = y then q else 0) = ys.map fun _ => 0 := by
        apply List.map_congr_left
        intro z hz
        rw [if_neg]
        rintro rfl
        exact hn.1 hz
      simp [this]
    · have : x ∈ ys := by
        rcases List.mem_cons.1 hx with h | h
        · exact absurd h.symm hy
        · exact h
      simp [hy, ih hn.2 this]

/-- One candidate matters only. -/
theorem Odds.pick {xs : List α} {f : α → GP β} {w : World} {P : β → World → Prop} {q : ℚ}
    (hn : xs.Nodup) (hM : xs.length ∣ M) {x : α} (hx : x ∈ xs) (h : Odds M (f x) w P q)
    (h0 : ∀ y ∈ xs, y ≠ x → Odds M (f y) w P 0) :
    Odds M (Gama.choice xs >>= f) w P (q / xs.length) := by
  classical
  have := Odds.choice (f := f) (w := w) (P := P) (g := fun y => if y = x then q else 0)
    (List.ne_nil_of_mem hx) hM (by
      intro y hy
      by_cases e : y = x
      · subst e; simpa using h
      · simpa [e] using h0 y hy e)
  rwa [sum_single hn hx] at this

theorem Odds.pickInt {lo hi : Nat} {f : Nat → GP β} {w : World} {P : β → World → Prop} {q : ℚ}
    (hM : hi - lo + 1 ∣ M) {x : Nat} (h1 : lo ≤ x) (h2 : x ≤ hi)
    (h : Odds M (f x) w P q) (h0 : ∀ y, lo ≤ y → y ≤ hi → y ≠ x → Odds M (f y) w P 0) :
    Odds M (Gama.randint lo hi >>= f) w P (q / ((hi - lo + 1 : Nat) : ℚ)) := by
  have := Odds.randint (f := f) (w := w) (P := P) (g := fun y => if y = x then q else 0)
    (by omega) hM (by
      intro y hy hy'
      by_cases e : y = x
      · subst e; simpa using h
      · simpa [e] using h0 y hy hy' e)
  have hs : ((List.range (hi - lo + 1)).map fun j => if lo + j = x then q else 0)
      = (List.range (hi - lo + 1)).map fun j => if j = x - lo then q else 0 := by
    apply List.map_congr_left
    intro j _
    by_cases e : lo + j = x
    · rw [if_pos e, if_pos (by omega)]
    · rw [if_neg e, if_neg (by omega)]
  simp only [hs] at this
  rwa [sum_single List.nodup_range (List.mem_range.2 (by omega))] at this

/-- What comes second depends on what came first through one question only. -/
theorem Odds.bind {m : GP α} {f : α → GP β} {w : World} {R : α → World → Prop} {P : β → World → Prop}
    {q q1 q0 : ℚ} (h : Odds M m w R q)
    {Q : α → World → Prop} (hQ : Still Q) (hm : ∀ s, wp m Q (fun _ _ => q0 = 0) (withRnd w s))
    (h1 : ∀ a w', Q a w' → R a w' → Odds M (f a) w' P q1)
    (h0 : ∀ a w', Q a w' → ¬ R a w' → Odds M (f a) w' P q0) :
    Odds M (m >>= f) w P (q * q1 + (1 - q) * q0) := by
  classical
  obtain ⟨t, hb, hf, rfl⟩ := h
  have key : ∀ (t : Tree α), t.Fair M →
      (∀ r w', t.Leaf r w' → match r with | .ok a => Q a w' | .error _ => q0 = 0) →
      ∃ u : Tree β, (∀ s, (match t.run s with
        | (.ok a, w') => f a w' | (.error e, w') => (.error e, w')) = u.run s) ∧ u.Fair M ∧
        u.weight P = t.weight R * q1 + (1 - t.weight R) * q0 := by
    intro t
    induction t with
    | leaf r w =>
      intro _ hl
      have hl := hl r w .here
      cases r with
      | error e =>
        have hl : q0 = 0 := hl
        exact ⟨.leaf (.error e) w, fun _ => rfl, trivial, by simp [Tree.weight, hl]⟩
      | ok a =>
      have hQa : Q a w := hl
      by_cases hr : R a w
      · obtain ⟨u, hu, hu', hq⟩ := h1 a w hQa hr
        exact ⟨u, hu, hu', by simp [Tree.weight, hr, hq]⟩
      · obtain ⟨u, hu, hu', hq⟩ := h0 a w hQa hr
        exact ⟨u, hu, hu', by simp [Tree.weight, hr, hq]⟩
    | node n kids ih =>
      intro hf hl
      have : ∀ j, ∃ u : Tree β, j < n → ((∀ s, (match (kids j).run s with
        | (.ok a, w') => f a w' | (.error e, w') => (.error e, w')) = u.run s) ∧ u.Fair M ∧
        u.weight P = (kids j).weight R * q1 + (1 - (kids j).weight R) * q0) := by
        intro j
        by_cases hj : j < n
        · obtain ⟨u, hu⟩ := ih j (hf.2.2 j) fun r w' h => hl r w' (.under j hj h)
          exact ⟨u, fun _ => hu⟩
        · exact ⟨.leaf (.error .diverge) w, fun h => absurd h hj⟩
      choose u hu using this
      have hpos := hf.1
      have hlt : ∀ j, j % n < n := fun j => Nat.mod_lt _ hpos
      refine ⟨.node n fun j => u (j % n), ?_, ⟨hpos, hf.2.1, fun j => (hu _ (hlt j)).2.1⟩, ?_⟩
      · intro s
        simp only [Tree.run, Nat.mod_mod]
        exact (hu _ (hlt (s 0))).1 _
      · have e : (List.range n).map (fun j => (u (j % n)).weight P)
            = (List.range n).map fun j => (kids j).weight R * q1 + (1 - (kids j).weight R) * q0 := by
          apply List.map_congr_left
          intro j hj
          have hj := List.mem_range.1 hj
          rw [Nat.mod_eq_of_lt hj]
          exact (hu j hj).2.2
        have lin : ∀ (l : List Nat) (v : Nat → ℚ),
            (l.map fun j => v j * q1 + (1 - v j) * q0).sum
              = (l.map v).sum * q1 + (l.length - (l.map v).sum) * q0 := by
          intro l v
          induction l with
          | nil => simp
          | cons x l ih => simp [ih]; ring
        simp only [Tree.weight, e, lin, List.length_range]
        have h1 : (n : ℚ) ≠ 0 := by exact_mod_cast hpos.ne'
        field_simp
  obtain ⟨u, hu, hu', hq⟩ := key t hf (by
    intro r w' hl
    have := leaf_wp hb hm hl (fun _ => 0)
    cases r with
    | error e => exact this
    | ok a => exact (hQ a w' _).1 this)
  refine ⟨u, ?_, hu', hq⟩
  intro s
  rw [← hu s, ← hb s]
  show PyM.bind m f _ = _
  unfold PyM.bind
  cases m (withRnd w s) with
  | mk r w' => cases r <;> rfl

/-- Any computation with a tree has some odds. -/
theorem HasTree.odds {m : GP α} (h : HasTree M m) (w : World) :
    ∃ q, Odds M m w (fun _ _ => True) q := by
  obtain ⟨t, hb, hf⟩ := h w
  exact ⟨_, t, hb, hf, rfl⟩

theorem HasTree.choiceBind {xs : List α} {f : α → GP β} (hM : xs ≠ [] → xs.length ∣ M)
    (h : ∀ x ∈ xs, HasTree M (f x)) : HasTree M (Gama.choice xs >>= f) := by
  classical
  intro w
  by_cases hx : xs = []
  · subst hx
    exact ⟨.leaf (.error .indexError) w, fun s => rfl, trivial⟩
  · have : ∀ x, ∃ q, x ∈ xs → Odds M (f x) w (fun _ _ => True) q := by
      intro x
      by_cases hx' : x ∈ xs
      · obtain ⟨q, hq⟩ := (h x hx').odds w
        exact ⟨q, fun _ => hq⟩
      · exact ⟨0, fun h => absurd h hx'⟩
    choose g hg using this
    obtain ⟨t, hb, hf, _⟩ := Odds.choice (f := f) (w := w) (P := fun _ _ => True) (g := g) hx (hM hx) hg
    exact ⟨t, hb, hf⟩

end
end Gama
