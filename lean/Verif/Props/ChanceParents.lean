import Verif.Props.Chance
import Verif.Props.Nsga2
import Mathlib.Data.List.Nodup

/-!
# How likely each pair of parents is

`nsga2_select`, `gama/genetic_programming/nsga2.py` l.39-64.
-/

namespace Gama
open Spec PyM

/-! ## Sums over lists without one element -/

theorem sum_erase {α : Type} [DecidableEq α] {l : List α} {x : α} (h : x ∈ l) (f : α → ℚ) :
    (l.map f).sum = f x + ((l.erase x).map f).sum := by
  rw [((List.perm_cons_erase h).map f).sum_eq, List.map_cons, List.sum_cons]

theorem sum_map_const {α : Type} (l : List α) (q : ℚ) : (l.map fun _ => q).sum = l.length * q := by
  simp

theorem sum_map_mul {α : Type} (l : List α) (f : α → ℚ) (q : ℚ) :
    (l.map fun x => q * f x).sum = q * (l.map f).sum := by
  induction l with
  | nil => simp
  | cons x l ih => simp only [List.map_cons, List.sum_cons, ih]; ring

theorem sum_map_add {α : Type} (l : List α) (f g : α → ℚ) :
    (l.map fun x => f x + g x).sum = (l.map f).sum + (l.map g).sum := by
  induction l with
  | nil => simp
  | cons x l ih => simp only [List.map_cons, List.sum_cons, ih]; ring

theorem sum_map_congr {α : Type} {l : List α} {f g : α → ℚ} (h : ∀ x ∈ l, f x = g x) :
    (l.map f).sum = (l.map g).sum := by
  rw [List.map_congr_left h]

theorem sum_map_div {α : Type} (l : List α) (f : α → ℚ) (q : ℚ) :
    (l.map fun x => f x / q).sum = (l.map f).sum / q := by
  have : (fun x => f x / q) = fun x => q⁻¹ * f x := by funext x; rw [div_eq_inv_mul]
  rw [this, sum_map_mul, div_eq_inv_mul]

theorem sum_ite {α : Type} (p : α → Prop) [DecidablePred p] : ∀ l : List α,
    (l.map fun x => if p x then (1 : ℚ) else 0).sum = (l.countP fun x => p x)
  | [] => by simp
  | x :: l => by
    rw [List.map_cons, List.sum_cons, sum_ite p l, List.countP_cons]
    by_cases h : p x <;> simp [h] ; ring

/-! ## Sampling without replacement -/

variable {M : Nat} {β : Type}

/-- The sum over all ordered pairs of different elements. -/
def pairSum (l : List Nat) (h : Nat → Nat → ℚ) : ℚ := (l.map fun a => ((l.erase a).map (h a)).sum).sum

theorem Odds.congr {m m' : GP β} {w : World} {P : β → World → Prop} {q : ℚ} (h : Odds M m w P q)
    (e : ∀ s, m' (withRnd w s) = m (withRnd w s)) : Odds M m' w P q := by
  obtain ⟨t, hb, hf, hq⟩ := h
  exact ⟨t, fun s => (e s).trans (hb s), hf, hq⟩

theorem sample_step {xs : List Nat} (hn : xs.Nodup) (hx : xs ≠ []) (k : Nat) (f : List Nat → GP β) (w : World) :
    (sample (k + 1) xs >>= f) w = (choice xs >>= fun x => sample k (xs.erase x) >>= fun r => f (x :: r)) w := by
  have hlt : w.rnd 0 % xs.length < xs.length := Nat.mod_lt _ (List.length_pos_iff.2 hx)
  have hc : (choice xs : GP Nat) w = (.ok xs[w.rnd 0 % xs.length], advance w) := by
    unfold choice
    rw [show HasRand.rnd w 0 = w.rnd 0 from rfl, List.getElem?_eq_getElem hlt]
  rw [bind_ok hc, hn.erase_getElem _ hlt]
  have hd : (draw : GP Nat) w = (.ok (w.rnd 0), advance w) := rfl
  have hs : ∀ r w', (sample k (xs.eraseIdx (w.rnd 0 % xs.length)) : GP (List Nat)) (advance w) = (r, w') →
      (sample (k + 1) xs : GP (List Nat)) w = (match r with
        | .ok r => .ok (xs[w.rnd 0 % xs.length] :: r) | .error e => .error e, w') := by
    intro r w' hr
    rw [sample]
    refine (bind_ok hd).trans ?_
    simp only [List.getElem?_eq_getElem hlt]
    cases r with
    | ok r => exact bind_ok hr
    | error e => exact bind_error hr
  cases hr : (sample k (xs.eraseIdx (w.rnd 0 % xs.length)) : GP (List Nat)) (advance w) with
  | mk r w' =>
    have := hs r w' hr
    cases r with
    | ok r => rw [bind_ok this, bind_ok hr]
    | error e => rw [bind_error this, bind_error hr]

theorem odds_sample {xs : List Nat} (hn : xs.Nodup) (hx : 3 ≤ xs.length) (h1 : xs.length ∣ M)
    (h2 : xs.length - 1 ∣ M) (h3 : xs.length - 2 ∣ M) {f : List Nat → GP β} {w : World} {P : β → World → Prop}
    {g : Nat → Nat → Nat → ℚ}
    (h : ∀ a ∈ xs, ∀ b ∈ xs.erase a, ∀ c ∈ (xs.erase a).erase b, Odds M (f [a, b, c]) w P (g a b c)) :
    Odds M (sample 3 xs >>= f) w P
      (pairSum xs (fun a b => (((xs.erase a).erase b).map (g a b)).sum) /
        (xs.length * (xs.length - 1) * (xs.length - 2) : ℚ)) := by
  have key := Odds.choice (M := M) (xs := xs) (w := w) (P := P)
    (f := fun a => sample 2 (xs.erase a) >>= fun r => f (a :: r))
    (g := fun a => ((xs.erase a).map fun b => (((xs.erase a).erase b).map (g a b)).sum / (xs.length - 2 : ℚ)).sum
      / (xs.length - 1 : ℚ)) (by rintro rfl; simp at hx) h1 (by
      intro a ha
      have la : (xs.erase a).length = xs.length - 1 := List.length_erase_of_mem ha
      have := Odds.choice (M := M) (xs := xs.erase a) (w := w) (P := P)
        (f := fun b => sample 1 ((xs.erase a).erase b) >>= fun r => f (a :: b :: r))
        (g := fun b => (((xs.erase a).erase b).map (g a b)).sum / (xs.length - 2 : ℚ))
        (by intro e; rw [e] at la; simp at la; omega) (by rw [la]; exact h2) (by
          intro b hb
          have lb : ((xs.erase a).erase b).length = xs.length - 2 := by
            rw [List.length_erase_of_mem hb, la]; omega
          have := Odds.choice (M := M) (xs := (xs.erase a).erase b) (w := w) (P := P)
            (f := fun c => sample 0 (((xs.erase a).erase b).erase c) >>= fun r => f (a :: b :: c :: r))
            (g := g a b)
            (by intro e; rw [e] at lb; simp at lb; omega) (by rw [lb]; exact h3) (by
              intro c hc
              exact (h a ha b hb c hc).congr fun s => rfl)
          rw [lb, Nat.cast_sub (by omega)] at this
          exact this.congr fun s => sample_step ((hn.erase a).erase b)
            (by intro e; rw [e] at lb; simp at lb; omega) 0 _ _)
      rw [la, Nat.cast_sub (by omega)] at this
      refine Odds.congr ?_ fun s => sample_step (hn.erase a) (by intro e; rw [e] at la; simp at la; omega) 1 _ _
      simpa using this)
  refine Odds.congr ?_ fun s => sample_step hn (by rintro rfl; simp at hx) 2 _ _
  have e : (xs.map fun a => ((xs.erase a).map fun b => (((xs.erase a).erase b).map (g a b)).sum /
      (xs.length - 2 : ℚ)).sum / (xs.length - 1 : ℚ)).sum / xs.length =
      pairSum xs (fun a b => (((xs.erase a).erase b).map (g a b)).sum) /
        (xs.length * (xs.length - 1) * (xs.length - 2) : ℚ) := by
    unfold pairSum
    simp only [sum_map_div]
    rw [div_div, div_div]
    congr 1
    ring
  rw [e] at key
  exact key

theorem sum_div_const {l : List Nat} {q : ℚ} {n : Nat} (hl : l.length = n) :
    (l.map fun _ => q).sum = n * q := by rw [sum_map_const, hl]

theorem bind_assoc_run {α γ : Type} (m : GP α) (f : α → GP γ) (g : γ → GP β) (w : World) :
    ((m >>= f) >>= g) w = (m >>= fun a => f a >>= g) w := by
  cases h : m w with
  | mk r w' =>
    cases r with
    | ok a =>
      rw [bind_ok h]
      cases h2 : f a w' with
      | mk r2 w2 =>
        have h3 : (m >>= f) w = (r2, w2) := (bind_ok h).trans h2
        cases r2 with
        | ok b => rw [bind_ok h3, bind_ok h2]
        | error e => rw [bind_error h3, bind_error h2]
    | error e =>
      have h3 : (m >>= f) w = (.error e, w') := bind_error h
      rw [bind_error h, bind_error h3]

/-- The first of two parents: the tournament of any two. -/
theorem odds_selectFirst {c : Selected} (hn : c.order.Nodup) (hx : 3 ≤ c.order.length) (h1 : c.order.length ∣ M)
    (h2 : c.order.length - 1 ∣ M) (h3 : c.order.length - 2 ∣ M) {k : Nat → GP β} {w : World} {P : β → World → Prop}
    {h : Nat → Nat → ℚ}
    (hk : ∀ a ∈ c.order, ∀ b ∈ c.order.erase a, Odds M (k (tournament c a b)) w P (h a b)) :
    Odds M (selectOne c none >>= k) w P
      (pairSum c.order h / (c.order.length * (c.order.length - 1) : ℚ)) := by
  have key := odds_sample (M := M) hn hx h1 h2 h3 (w := w) (P := P) (g := fun a b _ => h a b)
    (f := fun selected => (match (selected.filter fun s => some s ≠ (none : Option Nat)).take 2 with
      | [a, b] => pure (tournament c a b)
      | _ => raise .valueError : GP Nat) >>= k) (by
      intro a ha b hb d hd
      exact (hk a ha b hb).congr fun s => rfl)
  refine Odds.congr ?_ (m := sample 3 c.order >>= fun selected =>
    (match (selected.filter fun s => some s ≠ (none : Option Nat)).take 2 with
      | [a, b] => pure (tournament c a b)
      | _ => raise .valueError : GP Nat) >>= k) (fun s => ?_)
  · have hl : ∀ a ∈ c.order, ∀ b ∈ c.order.erase a, ((c.order.erase a).erase b).length = c.order.length - 2 := by
      intro a ha b hb
      rw [List.length_erase_of_mem hb, List.length_erase_of_mem ha]; omega
    have e : pairSum c.order (fun a b => (((c.order.erase a).erase b).map fun _ => h a b).sum) =
        (c.order.length - 2 : ℚ) * pairSum c.order h := by
      unfold pairSum
      rw [← sum_map_mul]
      refine sum_map_congr fun a ha => ?_
      rw [← sum_map_mul]
      refine sum_map_congr fun b hb => ?_
      beta_reduce
      rw [sum_map_const, hl a ha b hb, Nat.cast_sub (by omega)]
      rfl
    rw [e] at key
    have hne : ((c.order.length : ℚ) - 2) ≠ 0 := by
      have : (3 : ℚ) ≤ c.order.length := by exact_mod_cast hx
      linarith
    have e2 : ((c.order.length - 2 : ℚ) * pairSum c.order h) /
        (c.order.length * (c.order.length - 1) * (c.order.length - 2) : ℚ) =
        pairSum c.order h / (c.order.length * (c.order.length - 1) : ℚ) := by
      rw [mul_comm (c.order.length - 2 : ℚ), mul_div_mul_right _ _ hne]
    rwa [e2] at key
  · exact bind_assoc_run _ _ _ _

/-- The second parent, without `e`: the tournament of any two others. -/
theorem odds_selectSecond {c : Selected} (hn : c.order.Nodup) (hx : 3 ≤ c.order.length) (h1 : c.order.length ∣ M)
    (h2 : c.order.length - 1 ∣ M) (h3 : c.order.length - 2 ∣ M) {e : Nat} (he : e ∈ c.order)
    {k : Nat → GP β} {w : World} {P : β → World → Prop} {h : Nat → Nat → ℚ}
    (hk : ∀ a ∈ c.order.erase e, ∀ b ∈ (c.order.erase e).erase a, Odds M (k (tournament c a b)) w P (h a b)) :
    Odds M (selectOne c (some e) >>= k) w P
      (pairSum (c.order.erase e) h / ((c.order.length - 1) * (c.order.length - 2) : ℚ)) := by
  have hne : ∀ a, a ∈ c.order.erase e ↔ a ≠ e ∧ a ∈ c.order := fun a => hn.mem_erase_iff
  have key := odds_sample (M := M) hn hx h1 h2 h3 (w := w) (P := P)
    (g := fun a b d => if a = e then h b d else if b = e then h a d else h a b)
    (f := fun selected => (match (selected.filter fun s => some s ≠ some e).take 2 with
      | [a, b] => pure (tournament c a b)
      | _ => raise .valueError : GP Nat) >>= k) (by
      intro a ha b hb d hd
      have hb' : b ≠ a ∧ b ∈ c.order := hn.mem_erase_iff.1 hb
      have hd' : d ≠ b ∧ d ∈ c.order.erase a := (hn.erase a).mem_erase_iff.1 hd
      have hd'' : d ≠ a ∧ d ∈ c.order := hn.mem_erase_iff.1 hd'.2
      by_cases h1 : a = e
      · subst h1
        rw [if_pos rfl]
        refine (hk b hb d ?_).congr fun s => ?_
        · exact hd
        · have : (([a, b, d].filter fun s => decide (some s ≠ some a)).take 2) = [b, d] := by
            simp [hb'.1, hd''.1]
          rw [this]; rfl
      · rw [if_neg h1]
        by_cases h2 : b = e
        · subst h2
          rw [if_pos rfl]
          refine (hk a ((hne a).2 ⟨h1, ha⟩) d ?_).congr fun s => ?_
          · rw [List.erase_comm]; exact hd
          · have : (([a, b, d].filter fun s => decide (some s ≠ some b)).take 2) = [a, d] := by
              simp [h1, hd'.1]
            rw [this]; rfl
        · rw [if_neg h2]
          refine (hk a ((hne a).2 ⟨h1, ha⟩) b ?_).congr fun s => ?_
          · exact (hn.erase e).mem_erase_iff.2 ⟨hb'.1, (hne b).2 ⟨h2, hb'.2⟩⟩
          · have : (([a, b, d].filter fun s => decide (some s ≠ some e)).take 2) = [a, b] := by
              simp [h1, h2]
            rw [this]; rfl)
  refine Odds.congr ?_ (m := sample 3 c.order >>= fun selected =>
    (match (selected.filter fun s => some s ≠ some e).take 2 with
      | [a, b] => pure (tournament c a b)
      | _ => raise .valueError : GP Nat) >>= k) (fun s => bind_assoc_run _ _ _ _)
  have e1 : pairSum c.order (fun a b => (((c.order.erase a).erase b).map fun d =>
      if a = e then h b d else if b = e then h a d else h a b).sum) =
      c.order.length * pairSum (c.order.erase e) h := by
    unfold pairSum
    rw [sum_erase he]
    have p1 : ((c.order.erase e).map fun b => (((c.order.erase e).erase b).map fun d =>
        if e = e then h b d else if b = e then h e d else h e b).sum).sum = pairSum (c.order.erase e) h := by
      unfold pairSum
      simp only [if_true]
    have p2 : ((c.order.erase e).map fun a => ((c.order.erase a).map fun b => (((c.order.erase a).erase b).map fun d =>
        if a = e then h b d else if b = e then h a d else h a b).sum).sum).sum =
        (c.order.length - 1 : ℚ) * pairSum (c.order.erase e) h := by
      unfold pairSum
      rw [← sum_map_mul]
      refine sum_map_congr fun a ha => ?_
      obtain ⟨hae, hao⟩ := (hne a).1 ha
      have hea : e ∈ c.order.erase a := hn.mem_erase_iff.2 ⟨Ne.symm hae, he⟩
      rw [sum_erase hea, List.erase_comm a e]
      have q1 : (((c.order.erase e).erase a).map fun d => if a = e then h e d else if e = e then h a d else h a e).sum
          = (((c.order.erase e).erase a).map (h a)).sum := by
        simp only [if_neg hae, if_true]
      rw [q1]
      have q2 : (((c.order.erase e).erase a).map fun b => (((c.order.erase a).erase b).map fun d =>
          if a = e then h b d else if b = e then h a d else h a b).sum).sum =
          (c.order.length - 2 : ℚ) * (((c.order.erase e).erase a).map (h a)).sum := by
        rw [← sum_map_mul]
        refine sum_map_congr fun b hb => ?_
        obtain ⟨hba, hbe'⟩ := (hn.erase e).mem_erase_iff.1 hb
        obtain ⟨hbe, hbo⟩ := (hne b).1 hbe'
        have hb2 : b ∈ c.order.erase a := hn.mem_erase_iff.2 ⟨hba, hbo⟩
        simp only [if_neg hae, if_neg hbe]
        rw [sum_map_const, List.length_erase_of_mem hb2, List.length_erase_of_mem hao, Nat.sub_sub,
          Nat.cast_sub (by omega)]
        norm_num
      rw [q2]
      ring
    rw [p2]
    have p1' : ((c.order.erase e).map fun b => (((c.order.erase e).erase b).map fun d =>
        if e = e then h b d else if b = e then h e d else h e b).sum).sum = _ := p1
    rw [p1']
    unfold pairSum
    ring
  rw [e1] at key
  have hne0 : (c.order.length : ℚ) ≠ 0 := by
    have : (3 : ℚ) ≤ c.order.length := by exact_mod_cast hx
    linarith
  have e2 : (c.order.length * pairSum (c.order.erase e) h) /
      (c.order.length * (c.order.length - 1) * (c.order.length - 2) : ℚ) =
      pairSum (c.order.erase e) h / ((c.order.length - 1) * (c.order.length - 2) : ℚ) := by
    rw [mul_assoc, mul_div_mul_left _ _ hne0]
  rwa [e2] at key

/-! ## Counting tournaments -/

/-- One candidate is preferred to another: it is in an earlier front, or in the same one and less crowded. -/
def Spec.Ahead (c : Selected) (a b : Nat) : Prop :=
  c.rank a < c.rank b ∨ (c.rank a = c.rank b ∧ c.dist b < c.dist a)

theorem ahead_iff {c : Selected} {a b : Nat} : crowdBetter c.rank c.dist a b = true ↔ Ahead c a b := by
  unfold crowdBetter Ahead
  simp

open Classical in
theorem pairSum_tournament {c : Selected} {l : List Nat} (hn : l.Nodup) {t : Nat} (ht : t ∈ l) (q : ℚ) :
    pairSum l (fun a b => if tournament c a b = t then q else 0) =
      q * (((l.erase t).countP fun y => Ahead c t y) + ((l.erase t).countP fun y => ¬ Ahead c y t)) := by
  unfold pairSum
  rw [sum_erase ht, mul_add]
  congr 1
  · rw [← sum_ite, ← sum_map_mul]
    refine sum_map_congr fun y hy => ?_
    have hyt : y ≠ t := (hn.mem_erase_iff.1 hy).1
    unfold tournament
    beta_reduce
    by_cases h : Ahead c t y
    · rw [if_pos (ahead_iff.2 h), if_pos rfl, if_pos h, mul_one]
    · rw [if_neg (fun h' => h (ahead_iff.1 h')), if_neg hyt, if_neg h, mul_zero]
  · rw [← sum_ite, ← sum_map_mul]
    refine sum_map_congr fun x hx => ?_
    obtain ⟨hxt, hxl⟩ := hn.mem_erase_iff.1 hx
    rw [sum_erase (hn.mem_erase_iff.2 ⟨Ne.symm hxt, ht⟩ : t ∈ l.erase x)]
    have : (((l.erase x).erase t).map fun b => if tournament c x b = t then q else 0).sum = 0 := by
      rw [sum_map_congr (g := fun _ => 0), sum_map_const, mul_zero]
      intro b hb
      have hbt : b ≠ t := ((hn.erase x).mem_erase_iff.1 hb).1
      rw [if_neg]
      unfold tournament
      split
      · exact hxt
      · exact hbt
    rw [this, add_zero]
    unfold tournament
    beta_reduce
    by_cases h : Ahead c x t
    · rw [if_pos (ahead_iff.2 h), if_neg hxt, if_neg (fun h' => h' h), mul_zero]
    · rw [if_neg (fun h' => h (ahead_iff.1 h')), if_pos rfl, if_pos h, mul_one]

open Classical in
/-- How many of `n` candidates speak for `t` when those in `without` are left out: each of the others that `t`
is ahead of, and once more each that is not ahead of `t`. -/
noncomputable def Spec.favour (c : Selected) (n : Nat) (without : List Nat) (t : Nat) : Nat :=
  ((List.range n).countP fun y => (y ≠ t ∧ y ∉ without) ∧ Ahead c t y) +
    ((List.range n).countP fun y => (y ≠ t ∧ y ∉ without) ∧ ¬ Ahead c y t)

theorem order_perm {c : Selected} {n : Nat} (hn : c.order.Nodup) (hl : c.order.length = n)
    (hm : ∀ x ∈ c.order, x < n) : c.order.Perm (List.range n) :=
  (List.subperm_of_subset hn fun x hx => List.mem_range.2 (hm x hx)).perm_of_length_le (by simp [hl])

theorem countP_erase {l : List Nat} (hn : l.Nodup) (t : Nat) (p : Nat → Bool) :
    (l.erase t).countP p = l.countP fun y => decide (y ≠ t) && p y := by
  rw [hn.erase_eq_filter, List.countP_filter]
  apply List.countP_congr
  intro x _
  simp [and_comm]

open Classical in
theorem favour_first {c : Selected} {n : Nat} (hp : c.order.Perm (List.range n)) (hn : c.order.Nodup) (t : Nat) :
    ((c.order.erase t).countP fun y => Ahead c t y) + ((c.order.erase t).countP fun y => ¬ Ahead c y t)
      = favour c n [] t := by
  unfold favour
  rw [countP_erase hn, countP_erase hn, hp.countP_eq, hp.countP_eq]
  congr 1 <;> (apply List.countP_congr; intro x _; simp)

open Classical in
theorem favour_second {c : Selected} {n : Nat} (hp : c.order.Perm (List.range n)) (hn : c.order.Nodup) (e t : Nat) :
    (((c.order.erase e).erase t).countP fun y => Ahead c t y) +
      (((c.order.erase e).erase t).countP fun y => ¬ Ahead c y t) = favour c n [e] t := by
  unfold favour
  rw [countP_erase (hn.erase e), countP_erase (hn.erase e), countP_erase hn, countP_erase hn, hp.countP_eq,
    hp.countP_eq]
  congr 1 <;> (apply List.countP_congr; intro x _; simp; tauto)

/-- What is known of `nsga2` when all are selected. -/
theorem nsga2_all {values : List (List Score)} {k : Nat} (h : Vectors values k) (hlen : 3 ≤ values.length) :
    ∃ c L, nsga2 values values.length = .ok c ∧ Layering (DomAt values) values.length L ∧
      c.order.Nodup ∧ c.order.length = values.length ∧ c.order.Perm (List.range values.length) ∧
      ∀ j x, InFront L j x → c.rank x = max j 1 := by
  obtain ⟨c, L, h1, h2, h3, h4, h5, _, h6, h7⟩ := h.nsga2 (n := values.length) (by omega) (Nat.le_refl _)
  refine ⟨c, L, h1, h2, h4, h3, order_perm h4 h3 h5, ?_⟩
  intro j x hx
  cases j with
  | zero => rw [h6 x hx]; rfl
  | succ j => rw [h7 j x hx]; omega

/-- **C188.** The chance of each pair of parents: the first is the winner of a tournament between two of the
population, the second of one between two of the others, all equally likely.  With `n` in the population
`favour / (n (n - 1))` is the chance of the first and `favour / ((n - 1) (n - 2))` that of the second, given the
first.  Fronts are counted by the code so that the first two have the same number. -/
theorem C188 {values : List (List Score)} {k : Nat} (h : Vectors values k) (hlen : 3 ≤ values.length) :
    ∃ c L, nsga2 values values.length = .ok c ∧ Layering (DomAt values) values.length L ∧
      (∀ j x, InFront L j x → c.rank x = max j 1) ∧
      ∀ M w, 0 < M → values.length ∣ M → values.length - 1 ∣ M → values.length - 2 ∣ M →
      ∀ a b, a < values.length → b < values.length → a ≠ b →
        Chance M (nsga2Select values 1) w (fun l _ => l = [(a, b)])
          (favour c values.length [] a / (values.length * (values.length - 1) : ℚ) *
            (favour c values.length [a] b / ((values.length - 1) * (values.length - 2) : ℚ))) := by
  classical
  obtain ⟨c, L, h1, h2, hn, hl, hp, hr⟩ := nsga2_all h hlen
  refine ⟨c, L, h1, h2, hr, ?_⟩
  intro M w hM d1 d2 d3 a b ha hb hab
  have hao : a ∈ c.order := hp.mem_iff.2 (List.mem_range.2 ha)
  have hbo : b ∈ c.order.erase a := hn.mem_erase_iff.2 ⟨Ne.symm hab, hp.mem_iff.2 (List.mem_range.2 hb)⟩
  have hx : 3 ≤ c.order.length := by rw [hl]; exact hlen
  rw [← hl] at d1 d2 d3
  refine Odds.chance hM (fun _ _ _ => Iff.rfl) (Odds.congr (m := selectPairs c 1) ?_ fun s => ?_)
  · have second : ∀ x ∈ c.order, Odds M (selectOne c (some x) >>= fun y => (pure [(x, y)] : GP (List (Nat × Nat)))) w
        (fun l _ => l = [(a, b)]) (if x = a then favour c values.length [a] b /
          ((values.length - 1) * (values.length - 2) : ℚ) else 0) := by
      intro x hxo
      by_cases hxa : x = a
      · subst hxa
        rw [if_pos rfl]
        have := odds_selectSecond (M := M) hn hx d1 d2 d3 hxo (w := w)
          (k := fun y => (pure [(x, y)] : GP (List (Nat × Nat)))) (P := fun l _ => l = [(x, b)])
          (h := fun p q => if tournament c p q = b then 1 else 0) (by
            intro p _ q _
            by_cases e : tournament c p q = b
            · rw [if_pos e]; exact Odds.pure_yes (by rw [e])
            · rw [if_neg e]; exact Odds.pure_no (by simp [e]))
        rw [pairSum_tournament (hn.erase x) hbo, one_mul, ← Nat.cast_add, favour_second hp hn, hl] at this
        exact this
      · rw [if_neg hxa]
        have := odds_selectSecond (M := M) hn hx d1 d2 d3 hxo (w := w)
          (k := fun y => (pure [(x, y)] : GP (List (Nat × Nat)))) (P := fun l _ => l = [(a, b)])
          (h := fun p q => 0) (fun p _ q _ => Odds.pure_no (by simp [hxa]))
        have e : pairSum (c.order.erase x) (fun _ _ => 0) = 0 := by
          unfold pairSum
          simp
        rw [e, zero_div] at this
        exact this
    have := odds_selectFirst (M := M) hn hx d1 d2 d3 (w := w)
      (k := fun x => selectOne c (some x) >>= fun y => (pure [(x, y)] : GP (List (Nat × Nat))))
      (P := fun l _ => l = [(a, b)])
      (h := fun p q => if tournament c p q = a then favour c values.length [a] b /
          ((values.length - 1) * (values.length - 2) : ℚ) else 0) (by
        intro p hp' q hq'
        refine second _ ?_
        unfold tournament
        split
        · exact hp'
        · exact (hn.mem_erase_iff.1 hq').2)
    rw [pairSum_tournament hn hao, ← Nat.cast_add, favour_first hp hn, hl] at this
    refine Odds.congr ?_ (m := selectOne c none >>= fun x => selectOne c (some x) >>= fun y =>
      (pure [(x, y)] : GP (List (Nat × Nat)))) (fun s => rfl)
    rw [div_mul_eq_mul_div, mul_comm (favour c values.length [] a : ℚ)]
    exact this
  · unfold nsga2Select
    rw [if_neg (by omega), h1]
    rfl

theorem pairSum_one {l : List Nat} : pairSum l (fun _ _ => 1) = l.length * (l.length - 1 : ℚ) := by
  unfold pairSum
  rw [sum_map_congr (g := fun _ => (l.length - 1 : ℚ)), sum_map_const]
  intro a ha
  rw [sum_map_const, List.length_erase_of_mem ha, Nat.cast_sub (List.length_pos_of_mem ha), mul_one]
  simp

/-- **C188**, the first parent of a pair, whose pipeline is changed. -/
theorem C188_first {values : List (List Score)} {k : Nat} (h : Vectors values k) (hlen : 3 ≤ values.length)
    {c : Selected} (hc : nsga2 values values.length = .ok c) {M : Nat} (hM : 0 < M)
    (d1 : values.length ∣ M) (d2 : values.length - 1 ∣ M) (d3 : values.length - 2 ∣ M) (w : World) {a : Nat}
    (ha : a < values.length) :
    Chance M (nsga2Select values 1) w (fun l _ => ∃ b, l = [(a, b)])
      (favour c values.length [] a / (values.length * (values.length - 1) : ℚ)) := by
  classical
  obtain ⟨c', L, h1, h2, hn, hl, hp, hr⟩ := nsga2_all h hlen
  rw [hc] at h1
  cases h1
  have hao : a ∈ c.order := hp.mem_iff.2 (List.mem_range.2 ha)
  have hx : 3 ≤ c.order.length := by rw [hl]; exact hlen
  rw [← hl] at d1 d2 d3
  refine Odds.chance hM (fun _ _ _ => Iff.rfl) (Odds.congr (m := selectPairs c 1) ?_ fun s => ?_)
  · have second : ∀ x ∈ c.order, ∀ q : ℚ, (q = if x = a then 1 else 0) →
        Odds M (selectOne c (some x) >>= fun y => (pure [(x, y)] : GP (List (Nat × Nat)))) w
        (fun l _ => ∃ b, l = [(a, b)]) q := by
      intro x hxo q hq
      have := odds_selectSecond (M := M) hn hx d1 d2 d3 hxo (w := w)
        (k := fun y => (pure [(x, y)] : GP (List (Nat × Nat)))) (P := fun l _ => ∃ b, l = [(a, b)])
        (h := fun p r => if x = a then 1 else 0) (by
          intro p _ r _
          by_cases e : x = a
          · rw [if_pos e]; exact Odds.pure_yes ⟨_, by rw [e]⟩
          · rw [if_neg e]; exact Odds.pure_no (by simp [e]))
      by_cases e : x = a
      · rw [if_pos e] at hq
        simp only [if_pos e] at this
        rw [pairSum_one, List.length_erase_of_mem hxo, Nat.cast_sub (by omega)] at this
        have hge : (3 : ℚ) ≤ c.order.length := by exact_mod_cast hx
        have e1 : ((c.order.length : ℚ) - (1 : Nat)) * ((c.order.length : ℚ) - (1 : Nat) - 1) /
            ((c.order.length - 1) * (c.order.length - 2)) = 1 := by
          have : ((c.order.length : ℚ) - 1) * (c.order.length - 2) ≠ 0 :=
            mul_ne_zero (by linarith) (by linarith)
          push_cast
          rw [show (c.order.length : ℚ) - 1 - 1 = c.order.length - 2 by ring]
          exact div_self this
        rw [e1] at this
        rw [hq]
        exact this
      · rw [if_neg e] at hq
        simp only [if_neg e] at this
        have e1 : pairSum (c.order.erase x) (fun _ _ => 0) = 0 := by unfold pairSum; simp
        rw [e1, zero_div] at this
        rw [hq]
        exact this
    have := odds_selectFirst (M := M) hn hx d1 d2 d3 (w := w)
      (k := fun x => selectOne c (some x) >>= fun y => (pure [(x, y)] : GP (List (Nat × Nat))))
      (P := fun l _ => ∃ b, l = [(a, b)])
      (h := fun p q => if tournament c p q = a then 1 else 0) (by
        intro p hp' q hq'
        refine second _ ?_ _ rfl
        unfold tournament
        split
        · exact hp'
        · exact (hn.mem_erase_iff.1 hq').2)
    rw [pairSum_tournament hn hao, one_mul, ← Nat.cast_add, favour_first hp hn, hl] at this
    exact Odds.congr this fun s => rfl
  · unfold nsga2Select
    rw [if_neg (by omega), hc]
    rfl

theorem ahead_trans {c : Selected} {x y z : Nat} (h : Ahead c x y) (h' : Ahead c y z) : Ahead c x z := by
  rcases h with h | ⟨h, g⟩ <;> rcases h' with h' | ⟨h', g'⟩
  · exact Or.inl (by omega)
  · exact Or.inl (by omega)
  · exact Or.inl (by omega)
  · exact Or.inr ⟨by omega, lt_trans g' g⟩

theorem ahead_asymm {c : Selected} {x y : Nat} (h : Ahead c x y) : ¬ Ahead c y x := by
  intro h'
  rcases ahead_trans h h' with g | ⟨_, g⟩
  · exact absurd g (lt_irrefl _)
  · exact absurd g (lt_irrefl _)

theorem countP_less {p q : Nat → Bool} : ∀ {l : List Nat} {b : Nat}, (∀ x, p x = true → q x = true) → b ∈ l →
    q b = true → p b = false → l.countP p + 1 ≤ l.countP q
  | [], b, _, hb, _, _ => by simp at hb
  | x :: l, b, h, hb, h1, h2 => by
    rw [List.countP_cons, List.countP_cons]
    have hle : l.countP p ≤ l.countP q := List.countP_mono_left fun x _ => h x
    rcases List.mem_cons.1 hb with rfl | hb
    · simp [h1, h2]; exact hle
    · have := countP_less h hb h1 h2
      have : (if p x = true then 1 else 0) ≤ (if q x = true then 1 else 0 : Nat) := by
        by_cases hx : p x = true
        · simp [hx, h x hx]
        · simp [hx]
      omega

/-- **C188**: of two candidates the one ahead has the greater chance. -/
theorem C188_better {c : Selected} {n a b : Nat} (ha : a < n) (hb : b < n) (h : Ahead c a b) :
    favour c n [] b + 2 ≤ favour c n [] a := by
  classical
  have hne : b ≠ a := by rintro rfl; exact ahead_asymm h h
  unfold favour
  have h1 : ((List.range n).countP fun y => decide ((y ≠ b ∧ y ∉ ([] : List Nat)) ∧ Ahead c b y)) + 1 ≤
      (List.range n).countP fun y => decide ((y ≠ a ∧ y ∉ ([] : List Nat)) ∧ Ahead c a y) := by
    refine countP_less (b := b) ?_ (List.mem_range.2 hb) (by simp [hne, h]) (by simp)
    intro y hy
    simp only [List.not_mem_nil, not_false_eq_true, and_true, decide_eq_true_eq] at hy ⊢
    refine ⟨?_, ahead_trans h hy.2⟩
    rintro rfl
    exact ahead_asymm h hy.2
  have h2 : ((List.range n).countP fun y => decide ((y ≠ b ∧ y ∉ ([] : List Nat)) ∧ ¬ Ahead c y b)) + 1 ≤
      (List.range n).countP fun y => decide ((y ≠ a ∧ y ∉ ([] : List Nat)) ∧ ¬ Ahead c y a) := by
    refine countP_less (b := b) ?_ (List.mem_range.2 hb) (by simp [hne, ahead_asymm h]) (by simp)
    intro y hy
    simp only [List.not_mem_nil, not_false_eq_true, and_true, decide_eq_true_eq] at hy ⊢
    refine ⟨?_, fun h' => hy.2 (ahead_trans h' h)⟩
    rintro rfl
    exact hy.2 h
  omega

/-- **C188**: exactly a candidate that all others are ahead of is never the first parent. -/
theorem C188_worst {c : Selected} {n t : Nat} :
    favour c n [] t = 0 ↔ ∀ y, y < n → y ≠ t → Ahead c y t := by
  classical
  unfold favour
  rw [Nat.add_eq_zero_iff, List.countP_eq_zero, List.countP_eq_zero]
  simp only [List.mem_range, List.not_mem_nil, not_false_eq_true, and_true, decide_eq_true_eq]
  constructor
  · rintro ⟨_, h⟩ y hy hyt
    by_contra hc
    exact h y hy ⟨hyt, hc⟩
  · intro h
    exact ⟨fun y hy ⟨hyt, hc⟩ => ahead_asymm hc (h y hy hyt), fun y hy ⟨hyt, hc⟩ => hc (h y hy hyt)⟩

/-! ### An example -/

/-- The same number, by comparing as the code does. -/
def Ex.tally (c : Selected) (n : Nat) (without : List Nat) (t : Nat) : Nat :=
  ((List.range n).countP fun y => (y ≠ t ∧ y ∉ without) ∧ crowdBetter c.rank c.dist t y = true) +
    ((List.range n).countP fun y => (y ≠ t ∧ y ∉ without) ∧ ¬ crowdBetter c.rank c.dist y t = true)

theorem Ex.tally_eq (c : Selected) (n : Nat) (without : List Nat) (t : Nat) :
    favour c n without t = Ex.tally c n without t := by
  unfold favour Ex.tally
  congr 1 <;> (apply List.countP_congr; intro y _; simp only [decide_eq_true_eq, ahead_iff])

/-- Five vectors in three fronts: the first is one of two least crowded ones of the first front, the last is
behind all others. -/
example (w : World) : Chance 60 (nsga2Select exVals 1) w (fun l _ => ∃ b, l = [(0, b)]) (6 / 20) ∧
    Chance 60 (nsga2Select exVals 1) w (fun l _ => ∃ b, l = [(4, b)]) 0 := by
  obtain ⟨c, L, hc, _⟩ := nsga2_all exVals_ok (by decide)
  have h0 : favour c 5 [] 0 = 6 ∧ favour c 5 [] 4 = 0 := by
    rw [Ex.tally_eq, Ex.tally_eq]
    have h : (nsga2 exVals exVals.length).toOption.map (fun c => (Ex.tally c 5 [] 0, Ex.tally c 5 [] 4)) = some (6, 0) := by
      decide +kernel
    rw [hc] at h
    simpa [Except.toOption] using h
  have key := fun a ha => C188_first exVals_ok (by decide) hc (M := 60) (by decide) (by decide) (by decide) (by decide) w
    (a := a) ha
  have e : exVals.length = 5 := rfl
  simp only [e] at key
  have k0 := key 0 (by decide)
  have k4 := key 4 (by decide)
  rw [h0.1] at k0
  rw [h0.2] at k4
  have e1 : ((6 : Nat) : ℚ) / (((5 : Nat) : ℚ) * (((5 : Nat) : ℚ) - 1)) = 6 / 20 := by norm_num
  have e2 : ((0 : Nat) : ℚ) / (((5 : Nat) : ℚ) * (((5 : Nat) : ℚ) - 1)) = 0 := by norm_num
  rw [e1] at k0
  rw [e2] at k4
  exact ⟨k0, k4⟩

end Gama
