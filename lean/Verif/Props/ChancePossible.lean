import Verif.Props.ChanceBreed
import Verif.Props.ReachMate

/-!
# Which pipelines have a chance at all

`create_from_population`, `gama/genetic_programming/selection.py` l.12-29, `OperatorSet.mutate` and
`OperatorSet.mate`, `gama/genetic_programming/operator_set.py`.
-/

namespace Gama
open Spec PyM

/-! ## Positive chances -/

theorem sum_nonneg {α : Type} {f : α → ℚ} : ∀ {l : List α}, (∀ x ∈ l, 0 ≤ f x) → 0 ≤ (l.map f).sum
  | [], _ => by simp
  | x :: l, h => by
    rw [List.map_cons, List.sum_cons]
    exact add_nonneg (h x (by simp)) (sum_nonneg fun y hy => h y (by simp [hy]))

theorem sum_pos_iff {α : Type} {f : α → ℚ} : ∀ {l : List α}, (∀ x ∈ l, 0 ≤ f x) →
    (0 < (l.map f).sum ↔ ∃ x ∈ l, 0 < f x)
  | [], _ => by simp
  | x :: l, h => by
    have hx := h x (by simp)
    have hl : ∀ y ∈ l, 0 ≤ f y := fun y hy => h y (by simp [hy])
    have ih := sum_pos_iff hl
    have hs := sum_nonneg hl
    rw [List.map_cons, List.sum_cons]
    constructor
    · intro hp
      by_cases h0 : 0 < f x
      · exact ⟨x, by simp, h0⟩
      · obtain ⟨y, hy, h1⟩ := ih.1 (by linarith)
        exact ⟨y, by simp [hy], h1⟩
    · rintro ⟨y, hy, h1⟩
      rcases List.mem_cons.1 hy with rfl | hy
      · linarith
      · have := ih.2 ⟨y, hy, h1⟩
        linarith

section
variable {α : Type} {M : Nat} {P : α → World → Prop}

theorem weight_nonneg : ∀ t : Tree α, 0 ≤ t.weight P
  | .leaf (.ok a) w => by unfold Tree.weight; split <;> norm_num
  | .leaf (.error _) _ => by simp [Tree.weight]
  | .node n kids => by
    unfold Tree.weight
    exact div_nonneg (sum_nonneg fun j _ => weight_nonneg (kids j)) (Nat.cast_nonneg n)

theorem weight_pos_iff (hP : Still P) : ∀ t : Tree α, t.Fair M →
    (0 < t.weight P ↔ ∃ s a w', t.run s = (.ok a, w') ∧ P a w')
  | .leaf (.ok a) w, _ => by
    unfold Tree.weight
    by_cases h : P a w
    · rw [if_pos h]
      exact ⟨fun _ => ⟨fun _ => 0, a, _, rfl, (hP _ _ _).2 h⟩, fun _ => by norm_num⟩
    · rw [if_neg h]
      refine ⟨fun h0 => absurd h0 (lt_irrefl _), ?_⟩
      rintro ⟨s, a', w', e, h'⟩
      have e : ((Except.ok a : Except Exn α), withRnd w s) = (.ok a', w') := e
      injection e with e1 e2
      injection e1 with e1
      subst e1 e2
      exact absurd ((hP _ _ _).1 h') h
  | .leaf (.error e) w, _ => by
    unfold Tree.weight
    refine ⟨fun h0 => absurd h0 (lt_irrefl _), ?_⟩
    rintro ⟨s, a', w', e', _⟩
    have e' : ((Except.error e : Except Exn α), withRnd w s) = (.ok a', w') := e'
    injection e' with e1
    cases e1
  | .node n kids, hf => by
    obtain ⟨hn, _, hk⟩ := hf
    have hn' : (0 : ℚ) < n := by exact_mod_cast hn
    unfold Tree.weight
    rw [div_pos_iff_of_pos_right hn', sum_pos_iff fun j _ => weight_nonneg (kids j)]
    constructor
    · rintro ⟨j, hj, h⟩
      obtain ⟨s, a, w', e, h'⟩ := (weight_pos_iff hP (kids j) (hk j)).1 h
      refine ⟨fun i => match i with | 0 => j | i + 1 => s i, a, w', ?_, h'⟩
      show Tree.run (kids (j % n)) s = _
      rw [Nat.mod_eq_of_lt (List.mem_range.1 hj)]
      exact e
    · rintro ⟨s, a, w', e, h'⟩
      exact ⟨s 0 % n, List.mem_range.2 (Nat.mod_lt _ hn),
        (weight_pos_iff hP (kids (s 0 % n)) (hk _)).2 ⟨_, a, w', e, h'⟩⟩

theorem Odds.nonneg {m : GP α} {w : World} {q : ℚ} (h : Odds M m w P q) : 0 ≤ q := by
  obtain ⟨t, _, _, rfl⟩ := h
  exact weight_nonneg t

theorem Odds.pos_iff (hP : Still P) {m : GP α} {w : World} {q : ℚ} (h : Odds M m w P q) :
    0 < q ↔ Reach m w P := by
  obtain ⟨t, hb, hf, rfl⟩ := h
  rw [weight_pos_iff hP t hf]
  constructor
  · rintro ⟨s, a, w', e, h'⟩
    exact ⟨s, a, w', (hb s).trans e, h'⟩
  · rintro ⟨s, a, w', e, h'⟩
    exact ⟨s, a, w', (hb s).symm.trans e, h'⟩

end

theorem reach_child {m : GP Nat} {w : World} {child : List Step} :
    Reach m w (fun n w' => ∃ c, Is w' n c ∧ c = child) ↔ Reach m w fun n w' => Is w' n child := by
  constructor
  · exact fun h => reach_mono h fun _ _ ⟨_, h1, h2⟩ => h2 ▸ h1
  · exact fun h => reach_mono h fun _ _ h => ⟨_, h, rfl⟩

/-! ## Mutation and crossover -/

/-- A mutation that the code can make. -/
def Spec.CanMutateTo (c : OpConfig) (p child : List Step) : Prop :=
  PipelineOk c.ps child ∧ ∃ k, Mutated c.ps k p child ∧ Offered c.ps c.maxLength p k

section
variable {M : Nat} {c : OpConfig} {cxpb : ℚ} {w : World} {i j : Nat} {p q child : List Step}

theorem mutantShare_pos (hu : Workable c) (hi : Is w i p) (hp : PipelineOk c.ps p)
    (hlen : ∀ m, c.maxLength = some m → p.length ≤ m)
    (hnew : ∀ k ss', Mutated c.ps k p ss' → c.completed (printed ss') = false) (hf : FairChange M c.ps p) :
    0 < mutantShare c.ps c.maxLength (· = child) p ↔ CanMutateTo c p child := by
  rw [(odds_opMutate hu hi hp hlen hnew hf (· = child)).pos_iff (fun _ _ _ => Iff.rfl), reach_child]
  exact C119_partial hu.ok hu.retry hi hp hlen child

theorem mixedShare_pos (hu : Workable c) (hi : Is w i p) (hj : Is w j q) (hp : PipelineOk c.ps p)
    (hq : PipelineOk c.ps q) (hlen : ∀ m, c.maxLength = some m → p.length ≤ m ∧ q.length ≤ m)
    (hnew : ∀ a b, Crossed p q a b → c.completed (printed a) = false) (hcan : CanCross p q) (h2 : 2 ∣ M)
    (hV : valueChildren p q ≠ [] → (valueChildren p q).length ∣ M)
    (hd₁ : 2 ≤ p.length → p.length - 1 ∣ M) (hd₂ : 2 ≤ q.length → q.length - 1 ∣ M) :
    0 < mixedShare (· = child) [valueChildren p q, tailChildren p q] ↔ ∃ b, Crossed p q child b := by
  rw [(odds_opMate hu.ok hu.retry hi hj hp hq hlen hnew hcan h2 hV hd₁ hd₂ (· = child)).pos_iff
    (fun _ _ _ => Iff.rfl), reach_child]
  exact C121 hu.ok hu.retry hi hj hp hq hlen child

/-- What an offspring of two parents can be: a child of crossover, if crossover is asked for and possible, or a
mutant of the first, if crossover is not certain or not possible. -/
def Spec.CanHave (c : OpConfig) (cxpb : ℚ) (p q child : List Step) : Prop :=
  (0 < cxpb ∧ ∃ b, Crossed p q child b) ∨ ((cxpb ≤ 1 - 1 / 2 ^ 53 ∨ ¬ CanCross p q) ∧ CanMutateTo c p child)

theorem Spec.Crossed.can {a b : List Step} (h : Crossed p q a b) : CanCross p q := by
  cases h with
  | tails h₁ t₁ h₂ t₂ k1 k2 g1 g2 =>
    have := List.length_pos_iff.2 k1
    have := List.length_pos_iff.2 k2
    have := List.length_pos_iff.2 g1
    have := List.length_pos_iff.2 g2
    exact Or.inr ⟨by rw [List.length_append]; omega, by rw [List.length_append]; omega⟩
  | values pre₁ s₁ post₁ pre₂ s₂ post₂ k₁ k₂ hk₁ hk₂ same differs =>
    refine Or.inl ⟨s₁.terms[k₁], ?_, s₂.terms[k₂], ?_, same, differs⟩
    · simp only [allTerms, List.flatMap_append, List.flatMap_cons, List.mem_append]
      exact Or.inr (Or.inl (List.getElem_mem hk₁))
    · simp only [allTerms, List.flatMap_append, List.flatMap_cons, List.mem_append]
      exact Or.inr (Or.inl (List.getElem_mem hk₂))

theorem ceil_pos {x : ℚ} : (0 : ℚ) < ⌈x * 2 ^ 53⌉₊ / 2 ^ 53 ↔ 0 < x := by
  rw [div_pos_iff_of_pos_right (by positivity), Nat.cast_pos, Nat.ceil_pos]
  exact mul_pos_iff_of_pos_right (by positivity)

theorem ceil_rest {x : ℚ} : (0 : ℚ) < 1 - ⌈x * 2 ^ 53⌉₊ / 2 ^ 53 ↔ x ≤ 1 - 1 / 2 ^ 53 := by
  have h0 : (0 : ℚ) < 2 ^ 53 := by positivity
  rw [sub_pos, div_lt_one h0]
  have e : ((⌈x * 2 ^ 53⌉₊ : Nat) : ℚ) < 2 ^ 53 ↔ ⌈x * 2 ^ 53⌉₊ ≤ 2 ^ 53 - 1 := by
    have : ((⌈x * 2 ^ 53⌉₊ : Nat) : ℚ) < ((2 ^ 53 : Nat) : ℚ) ↔ ⌈x * 2 ^ 53⌉₊ < 2 ^ 53 := Nat.cast_lt
    rw [Nat.cast_pow, Nat.cast_ofNat] at this
    rw [this]
    omega
  rw [e, Nat.ceil_le, Nat.cast_sub (Nat.one_le_two_pow), Nat.cast_pow, Nat.cast_ofNat, Nat.cast_one]
  have e2 : (1 : ℚ) - 1 / 2 ^ 53 = (2 ^ 53 - 1) / 2 ^ 53 := by field_simp
  rw [e2, le_div_iff₀ h0]

theorem offspringShare_pos (hu : Workable c) (h1 : cxpb ≤ 1)
    (hi : Is w i p) (hj : Is w j q) (hp : PipelineOk c.ps p) (hq : PipelineOk c.ps q)
    (hlen : ∀ m, c.maxLength = some m → p.length ≤ m ∧ q.length ≤ m)
    (hnewx : ∀ a b, Crossed p q a b → c.completed (printed a) = false)
    (hnewm : ∀ k ss', Mutated c.ps k p ss' → c.completed (printed ss') = false) (hf : FairChange M c.ps p)
    (hV : valueChildren p q ≠ [] → (valueChildren p q).length ∣ M)
    (hd : 2 ≤ q.length → q.length - 1 ∣ M) :
    0 ≤ offspringShare c cxpb (· = child) p q ∧
      (0 < offspringShare c cxpb (· = child) p q ↔ CanHave c cxpb p q child) := by
  classical
  have hl1 : ∀ m, c.maxLength = some m → p.length ≤ m := fun m hm => (hlen m hm).1
  have hmut := mutantShare_pos (child := child) hu hi hp hl1 hnewm hf
  have hmut0 := (odds_opMutate hu hi hp hl1 hnewm hf (· = child)).nonneg
  unfold offspringShare CanHave
  by_cases hc : CanCross p q
  · rw [if_pos hc]
    obtain ⟨_, _, d3, _, d5⟩ := fair_dvd hf
    have h2 := d5 2 (by omega) (by omega)
    have hd1 : 2 ≤ p.length → p.length - 1 ∣ M := fun h => d3 _ (by omega) (by omega)
    have hx := mixedShare_pos (child := child) hu hi hj hp hq hlen hnewx hc h2 hV hd1 hd
    have hx0 := (odds_opMate hu.ok hu.retry hi hj hp hq hlen hnewx hc h2 hV hd1 hd (· = child)).nonneg
    have ha0 : (0 : ℚ) ≤ ⌈cxpb * 2 ^ 53⌉₊ / 2 ^ 53 := by positivity
    have hb0 : (0 : ℚ) ≤ 1 - ⌈cxpb * 2 ^ 53⌉₊ / 2 ^ 53 := by
      rw [sub_nonneg, div_le_one (by positivity)]
      have : ⌈cxpb * 2 ^ 53⌉₊ ≤ 2 ^ 53 := by
        rw [Nat.ceil_le, Nat.cast_pow, Nat.cast_ofNat]
        nlinarith [show (0 : ℚ) < 2 ^ 53 by positivity]
      have : ((⌈cxpb * 2 ^ 53⌉₊ : Nat) : ℚ) ≤ ((2 ^ 53 : Nat) : ℚ) := Nat.cast_le.2 this
      rwa [Nat.cast_pow, Nat.cast_ofNat] at this
    have t1 := mul_nonneg ha0 hx0
    have t2 := mul_nonneg hb0 hmut0
    refine ⟨add_nonneg t1 t2, ?_⟩
    constructor
    · intro h
      by_cases g : 0 < (⌈cxpb * 2 ^ 53⌉₊ / 2 ^ 53 : ℚ) * mixedShare (· = child) [valueChildren p q, tailChildren p q]
      · left
        exact ⟨ceil_pos.1 (pos_of_mul_pos_left g hx0), hx.1 (pos_of_mul_pos_right g ha0)⟩
      · have g' : 0 < (1 - ⌈cxpb * 2 ^ 53⌉₊ / 2 ^ 53 : ℚ) * mutantShare c.ps c.maxLength (· = child) p := by linarith
        right
        exact ⟨Or.inl (ceil_rest.1 (pos_of_mul_pos_left g' hmut0)), hmut.1 (pos_of_mul_pos_right g' hb0)⟩
    · rintro (⟨h, h'⟩ | ⟨h | h, h'⟩)
      · have := mul_pos (ceil_pos.2 h) (hx.2 h')
        linarith
      · have := mul_pos (ceil_rest.2 h) (hmut.2 h')
        linarith
      · exact absurd hc h
  · rw [if_neg hc]
    refine ⟨hmut0, ?_⟩
    rw [hmut]
    constructor
    · exact fun h => Or.inr ⟨Or.inr hc, h⟩
    · rintro (⟨_, _, h⟩ | ⟨_, h⟩)
      · exact absurd h.can hc
      · exact h

/-- **C195**, mutation: exactly the pipelines that mutation can give have a chance of being the child. -/
theorem C195_mutate (hM : 0 < M) (hu : Workable c) (hi : Is w i p) (hp : PipelineOk c.ps p)
    (hlen : ∀ m, c.maxLength = some m → p.length ≤ m)
    (hnew : ∀ k ss', Mutated c.ps k p ss' → c.completed (printed ss') = false) (hf : FairChange M c.ps p)
    {r : ℚ} (h : Chance M (opMutate c i) w (fun n w' => ∃ s, Is w' n s ∧ s = child) r) :
    0 < r ↔ CanMutateTo c p child := by
  rw [chance_unique h (C192 hM hu hi hp hlen hnew hf (· = child))]
  exact mutantShare_pos hu hi hp hlen hnew hf

/-- **C195**, crossover: exactly the first children of exchanges have a chance of being the child. -/
theorem C195_mate (hM : 0 < M) (hu : Workable c) (hi : Is w i p) (hj : Is w j q) (hp : PipelineOk c.ps p)
    (hq : PipelineOk c.ps q) (hlen : ∀ m, c.maxLength = some m → p.length ≤ m ∧ q.length ≤ m)
    (hnew : ∀ a b, Crossed p q a b → c.completed (printed a) = false) (hcan : CanCross p q) (h2 : 2 ∣ M)
    (hV : valueChildren p q ≠ [] → (valueChildren p q).length ∣ M)
    (hd₁ : 2 ≤ p.length → p.length - 1 ∣ M) (hd₂ : 2 ≤ q.length → q.length - 1 ∣ M)
    {r : ℚ} (h : Chance M (opMate c i j) w (fun n w' => ∃ s, Is w' n s ∧ s = child) r) :
    0 < r ↔ ∃ b, Crossed p q child b := by
  rw [chance_unique h (C191 hM hu.ok hu.retry hi hj hp hq hlen hnew hcan h2 hV hd₁ hd₂ (· = child))]
  exact mixedShare_pos hu hi hj hp hq hlen hnew hcan h2 hV hd₁ hd₂

end

/-! ## Populations -/

theorem favour_pos {s : Selected} {n t : Nat} {without : List Nat} :
    0 < favour s n without t ↔ ∃ y, y < n ∧ y ≠ t ∧ y ∉ without ∧ ¬ Ahead s y t := by
  classical
  unfold favour
  constructor
  · intro h
    by_contra hc
    push Not at hc
    have h1 : ((List.range n).countP fun y => decide ((y ≠ t ∧ y ∉ without) ∧ Ahead s t y)) = 0 := by
      rw [List.countP_eq_zero]
      intro y hy h
      have h := of_decide_eq_true h
      exact ahead_asymm h.2 (hc y (List.mem_range.1 hy) h.1.1 h.1.2)
    have h2 : ((List.range n).countP fun y => decide ((y ≠ t ∧ y ∉ without) ∧ ¬ Ahead s y t)) = 0 := by
      rw [List.countP_eq_zero]
      intro y hy h
      have h := of_decide_eq_true h
      exact h.2 (hc y (List.mem_range.1 hy) h.1.1 h.1.2)
    omega
  · rintro ⟨y, hy, h1, h2, h3⟩
    have : 0 < (List.range n).countP fun y => decide ((y ≠ t ∧ y ∉ without) ∧ ¬ Ahead s y t) :=
      List.countP_pos_iff.2 ⟨y, List.mem_range.2 hy, decide_eq_true ⟨⟨h1, h2⟩, h3⟩⟩
    omega

section
variable {M : Nat} {c : OpConfig} {cxpb : ℚ} {w : World} {pop : List Nat} {pipes : List (List Step)}
  {values : List (List Score)} {child : List Step}

/-- **C195.** Exactly these pipelines have a chance of being the offspring of a population: those that two
different members can have, of which the first is not behind all others and the second not behind all but the
first. -/
theorem C195 (hM : 0 < M) (hu : Workable c) (h1 : cxpb ≤ 1) (h3 : 3 ≤ pop.length)
    (hv : List.Forall₂ (FirstTwo w) pop values) (his : List.Forall₂ (Is w) pop pipes)
    (hok : ∀ p ∈ pipes, PipelineOk c.ps p)
    (hlen : ∀ p ∈ pipes, ∀ m, c.maxLength = some m → p.length ≤ m)
    (hnewx : ∀ p ∈ pipes, ∀ q ∈ pipes, ∀ a b, Crossed p q a b → c.completed (printed a) = false)
    (hnewm : ∀ p ∈ pipes, ∀ k ss', Mutated c.ps k p ss' → c.completed (printed ss') = false)
    (hf : FairPopulation M c.ps pipes) :
    ∃ s L, nsga2 values values.length = .ok s ∧ Layering (DomAt values) values.length L ∧
      (∀ j x, InFront L j x → s.rank x = max j 1) ∧
      ∀ r, Chance M ((gamaOps c cxpb).create pop) w (fun n w' => ∃ ss, Is w' n ss ∧ ss = child) r →
        (0 < r ↔ ∃ a b, a < pop.length ∧ b < pop.length ∧ a ≠ b ∧
          (∃ y, y < pop.length ∧ y ≠ a ∧ ¬ Ahead s y a) ∧
          (∃ y, y < pop.length ∧ y ≠ b ∧ y ≠ a ∧ ¬ Ahead s y b) ∧
          CanHave c cxpb (pipes.getD a []) (pipes.getD b []) child) := by
  obtain ⟨s, L, e1, e2, e3, h⟩ := C194_create hM hu h1 h3 hv his hok hlen hnewx hnewm hf
  refine ⟨s, L, e1, e2, e3, fun r hr => ?_⟩
  rw [chance_unique hr (h (· = child))]
  have hoff : ∀ a b, a < pop.length → b < pop.length → _ := fun a b ha hb => by
    obtain ⟨ia, ma⟩ := is_at his ha
    obtain ⟨ib, mb⟩ := is_at his hb
    exact offspringShare_pos (child := child) hu h1 ia ib (hok _ ma) (hok _ mb)
      (fun m hm => ⟨hlen _ ma m hm, hlen _ mb m hm⟩) (hnewx _ ma _ mb) (hnewm _ ma) (hf.change _ ma)
      (hf.cross _ ma _ mb) (hf.tail _ mb)
  have hn : (3 : ℚ) ≤ pop.length := by exact_mod_cast h3
  have hd1 : (0 : ℚ) < pop.length * (pop.length - 1) := mul_pos (by linarith) (by linarith)
  have hd2 : (0 : ℚ) < (pop.length - 1) * (pop.length - 2) := mul_pos (by linarith) (by linarith)
  have hmem : ∀ {a b}, b ∈ (List.range pop.length).erase a ↔ b ≠ a ∧ b < pop.length := fun {a b} => by
    rw [List.nodup_range.mem_erase_iff, List.mem_range]
  have inner : ∀ a, a < pop.length → ∀ b ∈ (List.range pop.length).erase a,
      0 ≤ favour s pop.length [a] b / ((pop.length - 1) * (pop.length - 2) : ℚ) *
        offspringShare c cxpb (· = child) (pipes.getD a []) (pipes.getD b []) := fun a ha b hb =>
    mul_nonneg (div_nonneg (Nat.cast_nonneg _) hd2.le) (hoff a b ha (hmem.1 hb).2).1
  have outer := fun a (ha : a ∈ List.range pop.length) =>
    mul_nonneg (div_nonneg (Nat.cast_nonneg (favour s pop.length [] a)) hd1.le)
      (sum_nonneg (inner a (List.mem_range.1 ha)))
  rw [sum_pos_iff outer]
  constructor
  · rintro ⟨a, ha, hp⟩
    have ha' := List.mem_range.1 ha
    have q1 := pos_of_mul_pos_left hp (sum_nonneg (inner a ha'))
    have q2 := pos_of_mul_pos_right hp (div_nonneg (Nat.cast_nonneg _) hd1.le)
    obtain ⟨b, hb, hq⟩ := (sum_pos_iff (inner a ha')).1 q2
    obtain ⟨hba, hb'⟩ := hmem.1 hb
    have q3 := pos_of_mul_pos_left hq (hoff a b ha' hb').1
    have q4 := pos_of_mul_pos_right hq (div_nonneg (Nat.cast_nonneg _) hd2.le)
    rw [div_pos_iff_of_pos_right hd1, Nat.cast_pos, favour_pos] at q1
    rw [div_pos_iff_of_pos_right hd2, Nat.cast_pos, favour_pos] at q3
    obtain ⟨y, y1, y2, _, y4⟩ := q1
    obtain ⟨z, z1, z2, z3, z4⟩ := q3
    exact ⟨a, b, ha', hb', Ne.symm hba, ⟨y, y1, y2, y4⟩, ⟨z, z1, z2, by simpa using z3, z4⟩,
      (hoff a b ha' hb').2.1 q4⟩
  · rintro ⟨a, b, ha, hb, hab, ⟨y, y1, y2, y4⟩, ⟨z, z1, z2, z3, z4⟩, hc⟩
    refine ⟨a, List.mem_range.2 ha, mul_pos ?_ ((sum_pos_iff (inner a ha)).2 ⟨b, hmem.2 ⟨Ne.symm hab, hb⟩,
      mul_pos ?_ ((hoff a b ha hb).2.2 hc)⟩)⟩
    · rw [div_pos_iff_of_pos_right hd1, Nat.cast_pos, favour_pos]
      exact ⟨y, y1, y2, by simp, y4⟩
    · rw [div_pos_iff_of_pos_right hd2, Nat.cast_pos, favour_pos]
      exact ⟨z, z1, z2, by simpa using z3, z4⟩

end

/-! ### Examples -/

/-- `PCA > DT`, the first pipeline without its first step. -/
def Ex.shorter : List Step := [⟨Ex.pDT, [Ex.alpha1, Ex.depth2]⟩, ⟨Ex.pPCA, [Ex.whitT]⟩]

theorem Ex.shorter_can : CanMutateTo Ex.chanceConfig Ex.long Ex.shorter := by
  refine ⟨⟨Ex.stepOk_mk (by decide) (by decide) (by decide) (by decide), ?_⟩, .remove,
    Mutated.remove Ex.shorter [⟨Ex.pSC, []⟩] (by simp [Ex.shorter]) (by simp), trivial⟩
  intro s hs
  simp at hs
  subst hs
  exact Ex.stepOk_mk (by decide) (by decide) (by decide) (by decide)

example (r : Stream) : ∃ x, Chance 12 (opMutate Ex.chanceConfig 0) (Ex.w0 r)
    (fun n w' => ∃ s, Is w' n s ∧ s = Ex.shorter) x ∧ 0 < x := by
  have h := C192 (M := 12) (by decide) Ex.chance_workable (Ex.is_long r) Ex.long_ok (fun m hm => by cases hm)
    (fun _ _ _ => rfl) Ex.fair_long (· = Ex.shorter)
  exact ⟨_, h, (C195_mutate (M := 12) (by decide) Ex.chance_workable (Ex.is_long r) Ex.long_ok
    (fun m hm => by cases hm) (fun _ _ _ => rfl) Ex.fair_long h).2 Ex.shorter_can⟩

theorem Ex.breed_ok : ∀ p ∈ [Ex.long, Ex.single, Ex.double], PipelineOk Ex.chanceConfig.ps p := by
  intro p hp
  simp only [List.mem_cons, List.not_mem_nil, or_false] at hp
  rcases hp with rfl | rfl | rfl
  · exact Ex.long_ok
  · exact Ex.single_ok
  · exact Ex.double_ok

/-- It also is what a population of three may have as offspring. -/
example (r : Stream) (x : ℚ)
    (h : Chance (12 * 2 ^ 53) ((gamaOps Ex.chanceConfig (1 / 4)).create [0, 1, 2]) (Ex.breedWorld r)
      (fun n w' => ∃ ss, Is w' n ss ∧ ss = Ex.shorter) x) : 0 < x := by
  obtain ⟨s, _, h1, _, _, key⟩ := C195 (M := 12 * 2 ^ 53) (child := Ex.shorter) (by positivity) Ex.chance_workable
    (cxpb := 1 / 4) (by norm_num) (pop := [0, 1, 2]) (by decide) (Ex.breed_values r) (Ex.breed_is r)
    Ex.breed_ok (fun _ _ m hm => by cases hm) (fun _ _ _ _ _ _ _ => rfl) (fun _ _ _ _ _ => rfl) Ex.fairPopulation
  have e : (nsga2 Ex.scores Ex.scores.length).toOption.map (fun c => (crowdBetter c.rank c.dist 1 0,
      crowdBetter c.rank c.dist 2 1)) = some (false, false) := by decide +kernel
  rw [h1] at e
  simp only [Except.toOption, Option.map_some, Option.some.injEq, Prod.mk.injEq] at e
  refine (key x h).2 ⟨0, 1, by decide, by decide, by decide, ⟨1, by decide, by decide, fun h => ?_⟩,
    ⟨2, by decide, by decide, by decide, fun h => ?_⟩, Or.inr ⟨Or.inl (by norm_num), Ex.shorter_can⟩⟩
  · rw [ahead_iff.2 h] at e
    cases e.1
  · rw [ahead_iff.2 h] at e
    cases e.2

/-- The first pipeline gets both steps before the estimator of the other by crossover. -/
example (r : Stream) : ∃ x, Chance 2 (opMate Ex.chanceConfig 2 0) (Ex.w0 r)
    (fun n w' => ∃ s, Is w' n s ∧ s = [⟨Ex.pNB, [Ex.alpha1]⟩, ⟨Ex.pPCA, [Ex.whitT]⟩, ⟨Ex.pSC, []⟩]) x ∧ 0 < x := by
  have hv : (valueChildren Ex.double Ex.long).length ∣ 2 := by decide +kernel
  have hc : CanCross Ex.double Ex.long := Or.inr (by decide)
  have h := C191 (M := 2) (c := Ex.chanceConfig) (by decide) Ex.space_ok (by decide) (Ex.is_double r) (Ex.is_long r)
    Ex.double_ok Ex.long_ok (fun m hm => by cases hm) (fun _ _ _ => rfl) hc (by decide) (fun _ => hv)
    (fun _ => by decide) (fun _ => by decide) (· = [⟨Ex.pNB, [Ex.alpha1]⟩, ⟨Ex.pPCA, [Ex.whitT]⟩, ⟨Ex.pSC, []⟩])
  exact ⟨_, h, (C195_mate (M := 2) (by decide) Ex.chance_workable (Ex.is_double r) (Ex.is_long r)
    Ex.double_ok Ex.long_ok (fun m hm => by cases hm) (fun _ _ _ => rfl) hc (by decide) (fun _ => hv)
    (fun _ => by decide) (fun _ => by decide) h).2
    ⟨_, Crossed.tails [⟨Ex.pNB, [Ex.alpha1]⟩] [⟨Ex.pPCA, [Ex.whitF]⟩] [⟨Ex.pDT, [Ex.alpha1, Ex.depth2]⟩]
      [⟨Ex.pPCA, [Ex.whitT]⟩, ⟨Ex.pSC, []⟩] (by simp) (by simp) (by simp) (by simp)⟩⟩

end Gama
