import Verif.Props.ChancePossible

/-!
# How likely each child is when some were evaluated before

`OperatorSet.try_until_new`, `gama/genetic_programming/operator_set.py` l.52-60, around mutation and crossover.
-/

namespace Gama
open Spec PyM

/-- A computation whose results are of three kinds: two with their own chances, the others with none. -/
theorem Odds.bind3 {α β : Type} {M : Nat} (hM : 0 < M) {m : GP α} {f : α → GP β} {w : World}
    {R₁ R₂ : α → World → Prop} {P : β → World → Prop} {a b q1 q2 : ℚ}
    (g1 : Odds M m w R₁ a) (g2 : Odds M m w R₂ b) (hs₁ : Still R₁) (hs₂ : Still R₂)
    (hdis : ∀ x w', R₁ x w' → ¬ R₂ x w')
    {Q : α → World → Prop} (hQ : Still Q) (hm : ∀ s, wp m Q (fun _ _ => True) (withRnd w s))
    (h1 : ∀ x w', Q x w' → R₁ x w' → Odds M (f x) w' P q1)
    (h2 : ∀ x w', Q x w' → R₂ x w' → Odds M (f x) w' P q2)
    (h0 : ∀ x w', Q x w' → ¬ R₁ x w' → ¬ R₂ x w' → Odds M (f x) w' P 0) :
    Odds M (m >>= f) w P (a * q1 + b * q2) := by
  classical
  obtain ⟨t, hb, hf, rfl⟩ := g1
  have e2 : b = t.weight R₂ := chance_unique (g2.chance hM hs₂) (Odds.chance hM hs₂ ⟨t, hb, hf, rfl⟩)
  subst e2
  clear g2
  have key : ∀ (t : Tree α), t.Fair M →
      (∀ r w', t.Leaf r w' → match r with | .ok a => Q a w' | .error _ => True) →
      ∃ u : Tree β, (∀ s, (match t.run s with
        | (.ok a, w') => f a w' | (.error e, w') => (.error e, w')) = u.run s) ∧ u.Fair M ∧
        u.weight P = t.weight R₁ * q1 + t.weight R₂ * q2 := by
    intro t
    induction t with
    | leaf r w =>
      intro _ hl
      have hl := hl r w .here
      cases r with
      | error e => exact ⟨.leaf (.error e) w, fun _ => rfl, trivial, by simp [Tree.weight]⟩
      | ok a =>
      have hQa : Q a w := hl
      by_cases hr : R₁ a w
      · obtain ⟨u, hu, hu', hq⟩ := h1 a w hQa hr
        exact ⟨u, hu, hu', by simp [Tree.weight, hr, hdis a w hr, hq]⟩
      · by_cases hr' : R₂ a w
        · obtain ⟨u, hu, hu', hq⟩ := h2 a w hQa hr'
          exact ⟨u, hu, hu', by simp [Tree.weight, hr, hr', hq]⟩
        · obtain ⟨u, hu, hu', hq⟩ := h0 a w hQa hr hr'
          exact ⟨u, hu, hu', by simp [Tree.weight, hr, hr', hq]⟩
    | node n kids ih =>
      intro hf hl
      have : ∀ j, ∃ u : Tree β, j < n → ((∀ s, (match (kids j).run s with
        | (.ok a, w') => f a w' | (.error e, w') => (.error e, w')) = u.run s) ∧ u.Fair M ∧
        u.weight P = (kids j).weight R₁ * q1 + (kids j).weight R₂ * q2) := by
        intro j
        by_cases hj : j < n
        · obtain ⟨u, hu⟩ := ih j (hf.2.2 j) fun r w' h => hl r w' (.under j hj h)
          exact ⟨u, fun _ => hu⟩
        · exact ⟨.leaf (.error .diverge) w, fun h => absurd h hj⟩
      choose u hu using this
      have hpos := hf.1
      have hlt : ∀ j, j % n < n := fun j => Nat.mod_lt _ hpos
      refine ⟨.node n fun j => u (j % n), ?_, ⟨hpos, hf.2.1, fun j => (hu _ (hlt j)).2.1⟩, ?_⟩
      · intro s
        simp only [Tree.run, Nat.mod_mod]
        exact (hu _ (hlt (s 0))).1 _
      · have e : (List.range n).map (fun j => (u (j % n)).weight P)
            = (List.range n).map fun j => (kids j).weight R₁ * q1 + (kids j).weight R₂ * q2 := by
          apply List.map_congr_left
          intro j hj
          have hj := List.mem_range.1 hj
          rw [Nat.mod_eq_of_lt hj]
          exact (hu j hj).2.2
        have lin : ∀ (l : List Nat) (v v' : Nat → ℚ),
            (l.map fun j => v j * q1 + v' j * q2).sum = (l.map v).sum * q1 + (l.map v').sum * q2 := by
          intro l v v'
          induction l with
          | nil => simp
          | cons x l ih => simp [ih]; ring
        simp only [Tree.weight, e, lin]
        ring
  obtain ⟨u, hu, hu', hq⟩ := key t hf (by
    intro r w' hl
    have := leaf_wp hb hm hl (fun _ => 0)
    cases r with
    | error e => exact this
    | ok a => exact (hQ a w' _).1 this)
  refine ⟨u, ?_, hu', hq⟩
  intro s
  rw [← hu s, ← hb s]
  show PyM.bind m f _ = _
  unfold PyM.bind
  cases m (withRnd w s) with
  | mk r w' => cases r <;> rfl

/-- The chance that the child is in `P`, if `S` says how likely a try gives one in a set, and a child that is
`done` is tried again, with `tries` tries in total, of which the last counts whatever it gives. -/
def Spec.retryShare (S : (List Step → Prop) → ℚ) (done : List Step → Prop) (tries : Nat)
    (P : List Step → Prop) : ℚ :=
  S (fun x => P x ∧ ¬ done x) * ((List.range (tries - 1)).map fun k => S done ^ k).sum
    + S done ^ (tries - 1) * S P

theorem retryShare_succ (S : (List Step → Prop) → ℚ) (done : List Step → Prop) (n : Nat)
    (P : List Step → Prop) : retryShare S done (n + 2) P =
      S (fun x => P x ∧ ¬ done x) * 1 + S done * retryShare S done (n + 1) P := by
  unfold retryShare
  have e : ∀ d : ℚ, ((List.range (n + 1)).map fun k => d ^ k).sum = 1 + d * ((List.range n).map fun k => d ^ k).sum := by
    intro d
    rw [List.range_succ_eq_map, List.map_cons, List.sum_cons, pow_zero, List.map_map, ← sum_map_mul]
    congr 2
    apply List.map_congr_left
    intro k _
    show d ^ (k + 1) = _
    rw [pow_succ]; ring
  rw [show n + 2 - 1 = n + 1 by omega, show n + 1 - 1 = n by omega, e, pow_succ]
  ring

theorem odds_retry {M : Nat} (hM : 0 < M) {I : World → Prop} {op : GP Nat} {S : (List Step → Prop) → ℚ}
    (hI : ∀ w s, I (withRnd w s) ↔ I w)
    (hop : ∀ w, I w → ∀ P, Odds M op w (fun n w' => ∃ child, Is w' n child ∧ P child) (S P))
    (hres : ∀ w, I w → wp op (fun n w' => (∃ child, Is w' n child) ∧ I w') (fun _ _ => True) w)
    (completed : Str → Bool) (P : List Step → Prop) : ∀ (n : Nat) (last : Option Nat) (w : World), I w →
    Odds M (tryUntilNew completed op (n + 1) last) w (fun n w' => ∃ child, Is w' n child ∧ P child)
      (retryShare S (fun x => completed (printed x) = true) (n + 1) P)
  | 0, last, w, hw => by
    have e : retryShare S (fun x => completed (printed x) = true) 1 P = S P := by simp [retryShare]
    rw [e]
    refine (hop w hw P).congr fun s => ?_
    unfold tryUntilNew
    cases hrun : op (withRnd w s) with
    | mk r w' =>
      cases r with
      | error e => exact bind_error hrun
      | ok n =>
        obtain ⟨⟨child, hc⟩, _⟩ := wp_ok (hres (withRnd w s) ((hI w s).2 hw)) hrun
        refine (bind_ok hrun).trans ((bind_ok (pipelineStr_is hc)).trans ?_)
        cases completed (printed child) <;> rfl
  | n + 1, last, w, hw => by
    rw [retryShare_succ]
    unfold tryUntilNew
    refine Odds.bind3 hM (hop w hw fun x => P x ∧ ¬ completed (printed x) = true)
      (hop w hw fun x => completed (printed x) = true) (fun _ _ _ => Iff.rfl) (fun _ _ _ => Iff.rfl) ?_
      (Q := fun n w' => (∃ child, Is w' n child) ∧ I w') (fun _ w s => and_congr Iff.rfl (hI w s))
      (fun s => hres _ ((hI w s).2 hw)) ?_ ?_ ?_
    · rintro x w' ⟨c, h, _, h1⟩ ⟨c', h', h2⟩
      rw [h.det h'] at h1
      exact h1 h2
    · rintro x w' _ ⟨c, h, h1, h2⟩
      refine Odds.det (w₁ := w') (fun s => pipelineStr_is (w := withRnd w' s) h) ?_
      rw [if_neg h2]
      exact Odds.pure_yes ⟨c, h, h1⟩
    · rintro x w' ⟨_, hw'⟩ ⟨c, h, h1⟩
      refine Odds.det (w₁ := w') (fun s => pipelineStr_is (w := withRnd w' s) h) ?_
      rw [if_pos h1]
      exact odds_retry hM hI hop hres completed P n (some x) w' hw'
    · rintro x w' ⟨⟨c, h⟩, _⟩ h1 h2
      refine Odds.det (w₁ := w') (fun s => pipelineStr_is (w := withRnd w' s) h) ?_
      have h3 : ¬ completed (printed c) = true := fun h3 => h2 ⟨c, h, h3⟩
      rw [if_neg h3]
      refine Odds.pure_no ?_
      rintro ⟨c', h', hp⟩
      rw [h'.det h] at hp
      exact h1 ⟨c, h, hp, h3⟩

section
variable {M : Nat} {c : OpConfig} {w : World} {i j : Nat} {p q : List Step}

theorem odds_retryMutate (hM : 0 < M) (hu : Workable c) (hi : Is w i p) (hp : PipelineOk c.ps p)
    (hlen : ∀ m, c.maxLength = some m → p.length ≤ m) (hf : FairChange M c.ps p) (P : List Step → Prop) :
    Odds M (opMutate c i) w (fun n w' => ∃ child, Is w' n child ∧ P child)
      (retryShare (fun S => mutantShare c.ps c.maxLength S p) (fun x => c.completed (printed x) = true)
        c.maxRetry P) := by
  unfold opMutate
  obtain ⟨k, hk⟩ : ∃ k, c.maxRetry = k + 1 := ⟨c.maxRetry - 1, by have := hu.retry; omega⟩
  rw [hk]
  refine odds_retry hM (I := fun w => Is w i p) (fun _ _ => Iff.rfl)
    (fun w hw P => odds_mutateWithLog hu hw hp hlen P hf) (fun w hw => ?_) c.completed P k none w hi
  refine wp_mono ?_ (fun _ _ _ => trivial) (wp_mutateWithLog hu.ok hw hp)
  rintro n w' ⟨ss', _, _, h, _⟩
  obtain ⟨as, h', _⟩ := h.is
  exact ⟨⟨ss', as, h'⟩, hw.mono h.ext⟩

theorem odds_retryMate (hM : 0 < M) (hu : Workable c) (hi : Is w i p) (hj : Is w j q) (hp : PipelineOk c.ps p)
    (hq : PipelineOk c.ps q) (hlen : ∀ m, c.maxLength = some m → p.length ≤ m ∧ q.length ≤ m)
    (hcan : CanCross p q) (h2 : 2 ∣ M) (hV : valueChildren p q ≠ [] → (valueChildren p q).length ∣ M)
    (hd₁ : 2 ≤ p.length → p.length - 1 ∣ M) (hd₂ : 2 ≤ q.length → q.length - 1 ∣ M) (P : List Step → Prop) :
    Odds M (opMate c i j) w (fun n w' => ∃ child, Is w' n child ∧ P child)
      (retryShare (fun S => mixedShare S [valueChildren p q, tailChildren p q])
        (fun x => c.completed (printed x) = true) c.maxRetry P) := by
  unfold opMate
  obtain ⟨k, hk⟩ : ∃ k, c.maxRetry = k + 1 := ⟨c.maxRetry - 1, by have := hu.retry; omega⟩
  rw [hk]
  refine odds_retry hM (I := fun w => Is w i p ∧ Is w j q) (fun _ _ => Iff.rfl)
    (fun w hw P => odds_mateWithLog hw.1 hw.2 hp hq hlen P hcan h2 hV hd₁ hd₂) (fun w hw => ?_)
    c.completed P k none w ⟨hi, hj⟩
  refine wp_mono ?_ (fun _ _ _ => trivial) (wp_mateWithLog hu.ok hw.1 hw.2 hp hq)
  rintro n w' ⟨ss', _, h, _⟩
  obtain ⟨as, h', _⟩ := h.is
  exact ⟨⟨ss', as, h'⟩, hw.1.mono h.ext, hw.2.mono h.ext⟩

/-- **C196**, mutation: a child that was evaluated before is drawn again, as often as there are tries, and the
last one is taken whatever it is. -/
theorem C196_mutate (hM : 0 < M) (hu : Workable c) (hi : Is w i p) (hp : PipelineOk c.ps p)
    (hlen : ∀ m, c.maxLength = some m → p.length ≤ m) (hf : FairChange M c.ps p) (P : List Step → Prop) :
    Chance M (opMutate c i) w (fun n w' => ∃ child, Is w' n child ∧ P child)
      (retryShare (fun S => mutantShare c.ps c.maxLength S p) (fun x => c.completed (printed x) = true)
        c.maxRetry P) :=
  (odds_retryMutate hM hu hi hp hlen hf P).chance hM fun _ _ _ => Iff.rfl

/-- **C196**, crossover. -/
theorem C196_mate (hM : 0 < M) (hu : Workable c) (hi : Is w i p) (hj : Is w j q) (hp : PipelineOk c.ps p)
    (hq : PipelineOk c.ps q) (hlen : ∀ m, c.maxLength = some m → p.length ≤ m ∧ q.length ≤ m)
    (hcan : CanCross p q) (h2 : 2 ∣ M) (hV : valueChildren p q ≠ [] → (valueChildren p q).length ∣ M)
    (hd₁ : 2 ≤ p.length → p.length - 1 ∣ M) (hd₂ : 2 ≤ q.length → q.length - 1 ∣ M) (P : List Step → Prop) :
    Chance M (opMate c i j) w (fun n w' => ∃ child, Is w' n child ∧ P child)
      (retryShare (fun S => mixedShare S [valueChildren p q, tailChildren p q])
        (fun x => c.completed (printed x) = true) c.maxRetry P) :=
  (odds_retryMate hM hu hi hj hp hq hlen hcan h2 hV hd₁ hd₂ P).chance hM fun _ _ _ => Iff.rfl

theorem retryShare_new {S : (List Step → Prop) → ℚ} {done P : List Step → Prop} {n : Nat} (hn : 0 < n)
    (hP : ∀ x, P x → ¬ done x) :
    retryShare S done n P = S P * ((List.range n).map fun k => S done ^ k).sum := by
  have e : (fun x => P x ∧ ¬ done x) = P := funext fun x => propext ⟨And.left, fun h => ⟨h, hP x h⟩⟩
  obtain ⟨m, rfl⟩ : ∃ m, n = m + 1 := ⟨n - 1, by omega⟩
  unfold retryShare
  rw [e, Nat.add_sub_cancel, List.range_succ, List.map_append, List.sum_append]
  simp only [List.map_cons, List.map_nil, List.sum_cons, List.sum_nil]
  ring

theorem retryShare_again {S : (List Step → Prop) → ℚ} {done P : List Step → Prop} {n : Nat}
    (h0 : S (fun _ => False) = 0) (hP : ∀ x, P x → done x) :
    retryShare S done n P = S done ^ (n - 1) * S P := by
  have e : (fun x => P x ∧ ¬ done x) = fun _ => False :=
    funext fun x => propext ⟨fun h => h.2 (hP x h.1), False.elim⟩
  unfold retryShare
  rw [e, h0, zero_mul, zero_add]

theorem odds_nothing {α : Type} {m : GP α} {P : α → World → Prop} {x : ℚ} (h : Odds M m w P x) (hs : Still P)
    (hP : ∀ a w', ¬ P a w') : x = 0 := by
  refine le_antisymm (not_lt.1 fun hlt => ?_) h.nonneg
  obtain ⟨_, a, w', _, h'⟩ := (h.pos_iff hs).1 hlt
  exact hP _ _ h'

/-- **C196**, mutation, children that were not evaluated before. -/
theorem C196_mutate_new (hM : 0 < M) (hu : Workable c) (hi : Is w i p) (hp : PipelineOk c.ps p)
    (hlen : ∀ m, c.maxLength = some m → p.length ≤ m) (hf : FairChange M c.ps p) {P : List Step → Prop}
    (hP : ∀ x, P x → c.completed (printed x) = false) :
    Chance M (opMutate c i) w (fun n w' => ∃ child, Is w' n child ∧ P child)
      (mutantShare c.ps c.maxLength P p * ((List.range c.maxRetry).map fun k =>
        mutantShare c.ps c.maxLength (fun x => c.completed (printed x) = true) p ^ k).sum) := by
  have h := C196_mutate hM hu hi hp hlen hf P
  rwa [retryShare_new hu.retry fun x hx => by simp [hP x hx]] at h

/-- **C196**, mutation, children that were evaluated before: all tries have to give one. -/
theorem C196_mutate_again (hM : 0 < M) (hu : Workable c) (hi : Is w i p) (hp : PipelineOk c.ps p)
    (hlen : ∀ m, c.maxLength = some m → p.length ≤ m) (hf : FairChange M c.ps p) {P : List Step → Prop}
    (hP : ∀ x, P x → c.completed (printed x) = true) :
    Chance M (opMutate c i) w (fun n w' => ∃ child, Is w' n child ∧ P child)
      (mutantShare c.ps c.maxLength (fun x => c.completed (printed x) = true) p ^ (c.maxRetry - 1) *
        mutantShare c.ps c.maxLength P p) := by
  have h := C196_mutate hM hu hi hp hlen hf P
  have h0 : mutantShare c.ps c.maxLength (fun _ => False) p = 0 :=
    odds_nothing (odds_mutateWithLog hu hi hp hlen (fun _ => False) hf) (fun _ _ _ => Iff.rfl)
      fun _ _ ⟨_, _, hx⟩ => hx
  rwa [retryShare_again h0 hP] at h

/-- **C196**, crossover, children that were not evaluated before. -/
theorem C196_mate_new (hM : 0 < M) (hu : Workable c) (hi : Is w i p) (hj : Is w j q) (hp : PipelineOk c.ps p)
    (hq : PipelineOk c.ps q) (hlen : ∀ m, c.maxLength = some m → p.length ≤ m ∧ q.length ≤ m)
    (hcan : CanCross p q) (h2 : 2 ∣ M) (hV : valueChildren p q ≠ [] → (valueChildren p q).length ∣ M)
    (hd₁ : 2 ≤ p.length → p.length - 1 ∣ M) (hd₂ : 2 ≤ q.length → q.length - 1 ∣ M) {P : List Step → Prop}
    (hP : ∀ x, P x → c.completed (printed x) = false) :
    Chance M (opMate c i j) w (fun n w' => ∃ child, Is w' n child ∧ P child)
      (mixedShare P [valueChildren p q, tailChildren p q] * ((List.range c.maxRetry).map fun k =>
        mixedShare (fun x => c.completed (printed x) = true) [valueChildren p q, tailChildren p q] ^ k).sum) := by
  have h := C196_mate hM hu hi hj hp hq hlen hcan h2 hV hd₁ hd₂ P
  rwa [retryShare_new hu.retry fun x hx => by simp [hP x hx]] at h

/-- **C196**, crossover, children that were evaluated before. -/
theorem C196_mate_again (hM : 0 < M) (hu : Workable c) (hi : Is w i p) (hj : Is w j q) (hp : PipelineOk c.ps p)
    (hq : PipelineOk c.ps q) (hlen : ∀ m, c.maxLength = some m → p.length ≤ m ∧ q.length ≤ m)
    (hcan : CanCross p q) (h2 : 2 ∣ M) (hV : valueChildren p q ≠ [] → (valueChildren p q).length ∣ M)
    (hd₁ : 2 ≤ p.length → p.length - 1 ∣ M) (hd₂ : 2 ≤ q.length → q.length - 1 ∣ M) {P : List Step → Prop}
    (hP : ∀ x, P x → c.completed (printed x) = true) :
    Chance M (opMate c i j) w (fun n w' => ∃ child, Is w' n child ∧ P child)
      (mixedShare (fun x => c.completed (printed x) = true) [valueChildren p q, tailChildren p q] ^ (c.maxRetry - 1) *
        mixedShare P [valueChildren p q, tailChildren p q]) := by
  have h := C196_mate hM hu hi hj hp hq hlen hcan h2 hV hd₁ hd₂ P
  have h0 : mixedShare (fun _ : List Step => False) [valueChildren p q, tailChildren p q] = 0 :=
    odds_nothing (odds_mateWithLog hi hj hp hq hlen (fun _ => False) hcan h2 hV hd₁ hd₂) (fun _ _ _ => Iff.rfl)
      fun _ _ ⟨_, _, hx⟩ => hx
  rwa [retryShare_again h0 hP] at h

open Classical in
/-- The chance that an offspring of two parents is in `P`, where some children may have been evaluated before. -/
noncomputable def Spec.offspringAgainShare (c : OpConfig) (cxpb : ℚ) (P : List Step → Prop) (p q : List Step) : ℚ :=
  let mutant := retryShare (fun S => mutantShare c.ps c.maxLength S p)
    (fun x => c.completed (printed x) = true) c.maxRetry P
  if CanCross p q then
    ⌈cxpb * 2 ^ 53⌉₊ / 2 ^ 53 * retryShare (fun S => mixedShare S [valueChildren p q, tailChildren p q])
        (fun x => c.completed (printed x) = true) c.maxRetry P
      + (1 - ⌈cxpb * 2 ^ 53⌉₊ / 2 ^ 53) * mutant
  else mutant

theorem odds_offspring_of {cxpb A B : ℚ} {P : List Step → Prop} (h53 : 2 ^ 53 ∣ M) (h1 : cxpb ≤ 1)
    (hi : Is w i p) (hj : Is w j q)
    (hmate : CanCross p q → Odds M (opMate c i j) w (fun n w' => ∃ child, Is w' n child ∧ P child) A)
    (hmut : Odds M (opMutate c i) w (fun n w' => ∃ child, Is w' n child ∧ P child) B)
    (hno : ¬ CanCross p q → A = B) :
    Odds M (offspringOf c cxpb i j) w (fun n w' => ∃ child, Is w' n child ∧ P child)
      (⌈cxpb * 2 ^ 53⌉₊ / 2 ^ 53 * A + (1 - ⌈cxpb * 2 ^ 53⌉₊ / 2 ^ 53) * B) := by
  unfold offspringOf
  refine odds_below h53 h1 ?_ ?_
  · rw [if_pos rfl]
    obtain ⟨ind₁, l₁, e1, e2, e3⟩ := is_iff.1 hi
    obtain ⟨ind₂, l₂, f1, f2, f3⟩ := is_iff.1 hj
    refine Odds.quiet (Drawless.validCrossoverFunctions i j) (wp_validCrossoverFunctions e1 f1 e2 f2 ?_)
    rw [e3, f3]
    by_cases hc : CanCross p q
    · rw [if_pos (List.length_pos_iff.2 (cxValid_ne_nil.2 hc))]
      exact hmate hc
    · rw [if_neg fun h => hc (cxValid_ne_nil.1 (List.length_pos_iff.1 h)), hno hc]
      exact hmut
  · rw [if_neg (by simp)]
    exact hmut

end

section
variable {M : Nat} {c : OpConfig} {cxpb : ℚ} {w : World} {pop : List Nat} {pipes : List (List Step)}
  {values : List (List Score)}

/-- **C196.** As C194, whatever was evaluated before. -/
theorem C196 (hM : 0 < M) (hu : Workable c) (h1 : cxpb ≤ 1) (h3 : 3 ≤ pop.length)
    (hv : List.Forall₂ (FirstTwo w) pop values) (his : List.Forall₂ (Is w) pop pipes)
    (hok : ∀ p ∈ pipes, PipelineOk c.ps p)
    (hlen : ∀ p ∈ pipes, ∀ m, c.maxLength = some m → p.length ≤ m)
    (hf : FairPopulation M c.ps pipes) :
    ∃ s L, nsga2 values values.length = .ok s ∧ Layering (DomAt values) values.length L ∧
      (∀ j x, InFront L j x → s.rank x = max j 1) ∧
      ∀ P : List Step → Prop,
        Chance M ((gamaOps c cxpb).create pop) w (fun n w' => ∃ child, Is w' n child ∧ P child)
          (((List.range pop.length).map fun a => favour s pop.length [] a / (pop.length * (pop.length - 1) : ℚ) *
            (((List.range pop.length).erase a).map fun b =>
              favour s pop.length [a] b / ((pop.length - 1) * (pop.length - 2) : ℚ) *
                offspringAgainShare c cxpb P (pipes.getD a []) (pipes.getD b [])).sum).sum) := by
  classical
  have hpl : pipes.length = pop.length := his.length_eq.symm
  obtain ⟨d1, d2, d3⟩ := hf.size
  rw [hpl] at d1 d2 d3
  obtain ⟨s, L, e1, e2, e3, h⟩ := odds_breed_of (M := M) (c := c) (cxpb := cxpb) (w := w)
    (T := fun P a b => offspringAgainShare c cxpb P (pipes.getD a []) (pipes.getD b [])) h3 hv d1 d2 d3 (by
      intro P a b ha hb
      obtain ⟨ia, ma⟩ := is_at his ha
      obtain ⟨ib, mb⟩ := is_at his hb
      obtain ⟨_, _, d3, _, d5⟩ := fair_dvd (hf.change _ ma)
      have hmut := odds_retryMutate hM hu ia (hok _ ma) (hlen _ ma) (hf.change _ ma) P
      beta_reduce
      unfold offspringAgainShare
      by_cases hc : CanCross (pipes.getD a []) (pipes.getD b [])
      · rw [if_pos hc]
        exact odds_offspring_of hf.float h1 ia ib (fun hc => odds_retryMate hM hu ia ib (hok _ ma) (hok _ mb)
          (fun m hm => ⟨hlen _ ma m hm, hlen _ mb m hm⟩) hc (d5 2 (by omega) (by omega)) (hf.cross _ ma _ mb)
          (fun h => d3 _ (by omega) (by omega)) (hf.tail _ mb) P) hmut (fun h => absurd hc h)
      · rw [if_neg hc]
        have := odds_offspring_of hf.float h1 ia ib (fun h => absurd h hc) hmut (fun _ => rfl)
        rw [← add_mul, add_sub_cancel, one_mul] at this
        exact this)
  exact ⟨s, L, e1, e2, e3, fun P => Odds.chance hM (fun _ _ _ => Iff.rfl)
    (odds_first (h P _ (fun _ _ _ => Iff.rfl) fun n w' => by simp))⟩

end

/-! ### Examples -/

/-- `PCA > DT` was evaluated before. -/
def Ex.againConfig : OpConfig := ⟨Ex.space, none, fun t => t == printed Ex.shorter, 50⟩

theorem Ex.again_workable : Workable Ex.againConfig where
  ok := Ex.space_ok
  distinct := space_distinct
  estimators := by decide
  preprocessors := Or.inl (by decide)
  retry := by decide
  length := by intro m hm; cases hm

/-- Not all is new here, so C192 does not apply. -/
example : Ex.againConfig.completed (printed Ex.shorter) = true := by simp [Ex.againConfig]

example (r : Stream) : Chance 12 (opMutate Ex.againConfig 0) (Ex.w0 r)
    (fun n w' => ∃ child, Is w' n child ∧ Ex.againConfig.completed (printed child) = true)
    (mutantShare Ex.space none (fun x => Ex.againConfig.completed (printed x) = true) Ex.long ^ 49 *
      mutantShare Ex.space none (fun x => Ex.againConfig.completed (printed x) = true) Ex.long) :=
  C196_mutate_again (M := 12) (by decide) Ex.again_workable (Ex.is_long r) Ex.long_ok (fun m hm => by cases hm)
    Ex.fair_long fun _ h => h

example (r : Stream) : Chance 12 (opMutate Ex.againConfig 0) (Ex.w0 r)
    (fun n w' => ∃ child, Is w' n child ∧ Ex.againConfig.completed (printed child) = false)
    (mutantShare Ex.space none (fun x => Ex.againConfig.completed (printed x) = false) Ex.long *
      ((List.range 50).map fun k =>
        mutantShare Ex.space none (fun x => Ex.againConfig.completed (printed x) = true) Ex.long ^ k).sum) :=
  C196_mutate_new (M := 12) (by decide) Ex.again_workable (Ex.is_long r) Ex.long_ok (fun m hm => by cases hm)
    Ex.fair_long fun _ h => h

example (r : Stream) (P : List Step → Prop) : Chance 12 (opMutate Ex.againConfig 0) (Ex.w0 r)
    (fun n w' => ∃ child, Is w' n child ∧ P child)
    (retryShare (fun S => mutantShare Ex.space none S Ex.long)
      (fun x => Ex.againConfig.completed (printed x) = true) 50 P) :=
  C196_mutate (M := 12) (by decide) Ex.again_workable (Ex.is_long r) Ex.long_ok (fun m hm => by cases hm)
    Ex.fair_long P

example (r : Stream) (P : List Step → Prop) : Chance 2 (opMate Ex.againConfig 2 0) (Ex.w0 r)
    (fun n w' => ∃ child, Is w' n child ∧ P child)
    (retryShare (fun S => mixedShare S [valueChildren Ex.double Ex.long, tailChildren Ex.double Ex.long])
      (fun x => Ex.againConfig.completed (printed x) = true) 50 P) := by
  have hv : (valueChildren Ex.double Ex.long).length ∣ 2 := by decide +kernel
  exact C196_mate (M := 2) (by decide) Ex.again_workable (Ex.is_double r) (Ex.is_long r) Ex.double_ok Ex.long_ok
    (fun m hm => by cases hm) (Or.inr (by decide)) (by decide) (fun _ => hv) (fun _ => by decide)
    (fun _ => by decide) P

example (r : Stream) : ∃ s, nsga2 Ex.scores 3 = .ok s ∧ ∀ P : List Step → Prop,
    Chance (12 * 2 ^ 53) ((gamaOps Ex.againConfig (1 / 4)).create [0, 1, 2]) (Ex.breedWorld r)
      (fun n w' => ∃ child, Is w' n child ∧ P child)
      (((List.range 3).map fun a => favour s 3 [] a / (((3 : Nat) : ℚ) * (((3 : Nat) : ℚ) - 1)) *
        (((List.range 3).erase a).map fun b => favour s 3 [a] b / ((((3 : Nat) : ℚ) - 1) * (((3 : Nat) : ℚ) - 2)) *
          offspringAgainShare Ex.againConfig (1 / 4) P ([Ex.long, Ex.single, Ex.double].getD a [])
            ([Ex.long, Ex.single, Ex.double].getD b [])).sum).sum) := by
  obtain ⟨s, _, h1, _, _, h⟩ := C196 (M := 12 * 2 ^ 53) (by positivity) Ex.again_workable (cxpb := 1 / 4)
    (by norm_num) (pop := [0, 1, 2]) (by decide) (Ex.breed_values r) (Ex.breed_is r) Ex.breed_ok
    (fun _ _ m hm => by cases hm) Ex.fairPopulation
  exact ⟨s, h1, h⟩

end Gama
