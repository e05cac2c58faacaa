import Verif.Props.ChanceOffspring

/-!
# How likely each offspring of a population is

`create_from_population`, `gama/genetic_programming/selection.py` l.12-29, for one offspring.
-/

namespace Gama
open Spec PyM

/-! ## Adding up over the winners -/

theorem sum_only {t : Nat} (f : Nat → ℚ) : ∀ {l : List Nat}, l.Nodup → t ∈ l →
    (l.map fun x => if t = x then f x else 0).sum = f t
  | [], _, h => by simp at h
  | x :: l, hn, h => by
    have hx := (List.nodup_cons.1 hn).1
    rw [List.map_cons, List.sum_cons]
    by_cases e : t = x
    · subst e
      rw [if_pos rfl, sum_map_congr (g := fun _ => 0), sum_map_const, mul_zero, add_zero]
      intro y hy
      rw [if_neg]
      rintro rfl
      exact hx hy
    · rw [if_neg e, zero_add]
      exact sum_only f (List.nodup_cons.1 hn).2 ((List.mem_cons.1 h).resolve_left e)

theorem sum_plus (f g : Nat → ℚ) : ∀ l : List Nat,
    (l.map fun x => f x + g x).sum = (l.map f).sum + (l.map g).sum
  | [] => by simp
  | x :: l => by
    simp only [List.map_cons, List.sum_cons, sum_plus f g l]
    ring

theorem pairSum_plus (l : List Nat) (f g : Nat → Nat → ℚ) :
    pairSum l (fun a b => f a b + g a b) = pairSum l f + pairSum l g := by
  unfold pairSum
  rw [← sum_plus]
  exact sum_map_congr fun a _ => sum_plus _ _ _

theorem pairSum_congr {l : List Nat} {f g : Nat → Nat → ℚ} (h : ∀ a ∈ l, ∀ b ∈ l.erase a, f a b = g a b) :
    pairSum l f = pairSum l g := by
  unfold pairSum
  exact sum_map_congr fun a ha => sum_map_congr fun b hb => h a ha b hb

theorem pairSum_swap (l : List Nat) (F : Nat → Nat → Nat → ℚ) : ∀ L : List Nat,
    pairSum l (fun a b => (L.map (F a b)).sum) = (L.map fun t => pairSum l fun a b => F a b t).sum
  | [] => by unfold pairSum; simp
  | t :: L => by
    simp only [List.map_cons, List.sum_cons]
    rw [pairSum_plus, pairSum_swap l F L]

theorem tournament_mem {c : Selected} {l : List Nat} {a b : Nat} (ha : a ∈ l) (hb : b ∈ l.erase a) :
    tournament c a b ∈ l := by
  unfold tournament
  split
  · exact ha
  · exact List.mem_of_mem_erase hb

open Classical in
theorem pairSum_winner {c : Selected} {l : List Nat} (hn : l.Nodup) (H : Nat → ℚ) :
    pairSum l (fun a b => H (tournament c a b)) = (l.map fun t =>
      H t * (((l.erase t).countP fun y => Ahead c t y) + ((l.erase t).countP fun y => ¬ Ahead c y t))).sum := by
  rw [pairSum_congr (g := fun a b => (l.map fun t => if tournament c a b = t then H t else 0).sum)
    (fun a ha b hb => (sum_only H hn (tournament_mem ha hb)).symm), pairSum_swap]
  exact sum_map_congr fun t ht => pairSum_tournament hn ht (H t)

theorem odds_pair {β : Type} {M : Nat} {c : Selected} {n : Nat} (hn : c.order.Nodup) (hl : c.order.length = n)
    (hp : c.order.Perm (List.range n)) (hx : 3 ≤ n) (d1 : n ∣ M) (d2 : n - 1 ∣ M) (d3 : n - 2 ∣ M)
    {k : Nat → Nat → GP β} {w : World} {P : β → World → Prop} {S : Nat → Nat → ℚ}
    (hk : ∀ x y, x < n → y < n → x ≠ y → Odds M (k x y) w P (S x y)) :
    Odds M (selectOne c none >>= fun x => selectOne c (some x) >>= fun y => k x y) w P
      (((List.range n).map fun a => favour c n [] a / (n * (n - 1) : ℚ) *
        (((List.range n).erase a).map fun b =>
          favour c n [a] b / ((n - 1) * (n - 2) : ℚ) * S a b).sum).sum) := by
  classical
  subst hl
  have hm : ∀ {x}, x ∈ c.order → x < c.order.length := fun h => List.mem_range.1 (hp.mem_iff.1 h)
  obtain ⟨H, hH⟩ : ∃ H : Nat → ℚ, ∀ x, (((List.range c.order.length).erase x).map fun b =>
      favour c c.order.length [x] b / ((c.order.length - 1) * (c.order.length - 2) : ℚ) * S x b).sum = H x :=
    ⟨_, fun _ => rfl⟩
  simp only [hH]
  have second : ∀ x ∈ c.order, Odds M (selectOne c (some x) >>= fun y => k x y) w P (H x) := by
    intro x hxo
    rw [← hH]
    have := odds_selectSecond (M := M) hn hx d1 d2 d3 hxo (w := w) (k := k x) (P := P)
      (h := fun p q => S x (tournament c p q)) (by
        intro p hp' q hq'
        have ht := tournament_mem (c := c) hp' hq'
        obtain ⟨h1, h2⟩ := hn.mem_erase_iff.1 ht
        exact hk _ _ (hm hxo) (hm h2) (Ne.symm h1))
    rw [pairSum_winner (hn.erase x)] at this
    rw [← ((hp.erase x).map _).sum_eq]
    rw [div_eq_mul_inv, mul_comm, ← sum_map_mul] at this
    rw [sum_map_congr (g := fun b => _) (fun b hb => ?_)] at this
    · exact this
    · rw [← Nat.cast_add, favour_second hp hn, div_eq_mul_inv]
      ring
  have := odds_selectFirst (M := M) hn hx d1 d2 d3 (w := w)
    (k := fun x => selectOne c (some x) >>= fun y => k x y) (P := P)
    (h := fun p q => H (tournament c p q)) (by
      intro p hp' q hq'
      exact second _ (tournament_mem hp' hq'))
  rw [pairSum_winner hn] at this
  rw [← (hp.map _).sum_eq]
  rw [div_eq_mul_inv, mul_comm, ← sum_map_mul] at this
  rw [sum_map_congr (g := fun b => _) (fun b hb => ?_)] at this
  · exact this
  · rw [← Nat.cast_add, favour_first hp hn, div_eq_mul_inv]
    ring

/-! ## The property -/

/-- The first two numbers of the fitness of an individual. -/
def Spec.FirstTwo (w : World) (x : Nat) (v : List Score) : Prop :=
  v.length = 2 ∧ ∃ rest, HasFitness w x (v ++ rest)

open Classical in
/-- The chance that an offspring of two parents is in `P`: C193. -/
noncomputable def Spec.offspringShare (c : OpConfig) (cxpb : ℚ) (P : List Step → Prop) (p q : List Step) : ℚ :=
  if CanCross p q then
    ⌈cxpb * 2 ^ 53⌉₊ / 2 ^ 53 * mixedShare P [valueChildren p q, tailChildren p q]
      + (1 - ⌈cxpb * 2 ^ 53⌉₊ / 2 ^ 53) * mutantShare c.ps c.maxLength P p
  else mutantShare c.ps c.maxLength P p

/-- Numbers are drawn fairly enough for all of a population to have offspring. -/
structure Spec.FairPopulation (M : Nat) (ps : PSet) (pop : List (List Step)) : Prop where
  float : 2 ^ 53 ∣ M
  size : pop.length ∣ M ∧ pop.length - 1 ∣ M ∧ pop.length - 2 ∣ M
  change : ∀ p ∈ pop, FairChange M ps p
  cross : ∀ p ∈ pop, ∀ q ∈ pop, valueChildren p q ≠ [] → (valueChildren p q).length ∣ M
  tail : ∀ p ∈ pop, 2 ≤ p.length → p.length - 1 ∣ M

theorem mapGP_firstTwo {w : World} : ∀ {pop : List Nat} {values : List (List Score)},
    List.Forall₂ (FirstTwo w) pop values → ∀ s, mapGP twoMetrics pop (withRnd w s) = (.ok values, withRnd w s)
  | _, _, .nil, _ => rfl
  | x :: pop, v :: values, .cons h hs, s => by
    obtain ⟨hl, rest, hf⟩ := h
    have e : twoMetrics x (withRnd w s) = (.ok v, withRnd w s) := by
      have hf' : HasFitness (withRnd w s) x (v ++ rest) := hf
      unfold twoMetrics
      rw [bind_ok (fitnessValues_run hf')]
      match v, hl with
      | [a, b], _ => rfl
    unfold mapGP
    rw [bind_ok e, bind_ok (mapGP_firstTwo hs s)]
    rfl

section
variable {M : Nat} {c : OpConfig} {cxpb : ℚ} {w : World} {pop : List Nat} {pipes : List (List Step)}
  {values : List (List Score)}

theorem is_at {pop : List Nat} {pipes : List (List Step)} (his : List.Forall₂ (Is w) pop pipes) {a : Nat}
    (ha : a < pop.length) : Is w (pop.getD a 0) (pipes.getD a []) ∧ pipes.getD a [] ∈ pipes := by
  have ha' : a < pipes.length := by rw [← his.length_eq]; exact ha
  rw [List.getD_eq_getElem _ _ ha, List.getD_eq_getElem _ _ ha']
  exact ⟨(List.forall₂_iff_get.1 his).2 a ha ha', List.getElem_mem ha'⟩

theorem odds_breed_of {T : (List Step → Prop) → Nat → Nat → ℚ} (h3 : 3 ≤ pop.length)
    (hv : List.Forall₂ (FirstTwo w) pop values) (d1 : pop.length ∣ M) (d2 : pop.length - 1 ∣ M)
    (d3 : pop.length - 2 ∣ M)
    (hoff : ∀ P a b, a < pop.length → b < pop.length → Odds M (offspringOf c cxpb (pop.getD a 0) (pop.getD b 0)) w
      (fun n w' => ∃ child, Is w' n child ∧ P child) (T P a b)) :
    ∃ s L, nsga2 values values.length = .ok s ∧ Layering (DomAt values) values.length L ∧
      (∀ j x, InFront L j x → s.rank x = max j 1) ∧
      ∀ (P : List Step → Prop) (E : List Nat → World → Prop), Still E →
        (∀ n w', E [n] w' ↔ ∃ child, Is w' n child ∧ P child) →
        Odds M (createFromPopulation c pop 1 cxpb) w E
          (((List.range pop.length).map fun a => favour s pop.length [] a / (pop.length * (pop.length - 1) : ℚ) *
            (((List.range pop.length).erase a).map fun b =>
              favour s pop.length [a] b / ((pop.length - 1) * (pop.length - 2) : ℚ) *
                T P a b).sum).sum) := by
  classical
  have hvl : values.length = pop.length := hv.length_eq.symm
  have hvec : Vectors values 2 := ⟨by omega, fun v hv' => by
    obtain ⟨i, hi, rfl⟩ := List.getElem_of_mem hv'
    exact ((List.forall₂_iff_get.1 hv).2 i (by omega) hi).1⟩
  obtain ⟨s, L, e1, e2, hn, hl, hp, hr⟩ := nsga2_all hvec (by omega)
  refine ⟨s, L, e1, e2, hr, fun P E hst hE => ?_⟩
  have hone : ∀ a b, a < pop.length → b < pop.length → a ≠ b →
      Odds M (offspringOf c cxpb (pop.getD a 0) (pop.getD b 0) >>= fun z => (pure [z] : GP (List Nat))) w E
        (T P a b) := by
    intro a b ha hb _
    exact (hoff P a b ha hb).andThen (fun z => Drawless.pure _) hst (fun z w' h => wp_pure.2 ((hE z w').2 h))
      (fun z w' h => wp_pure.2 fun h' => h ((hE z w').1 h')) (fun _ _ _ => Iff.rfl)
  have key := odds_pair (M := M) hn (hl.trans hvl) (hvl ▸ hp) h3 d1 d2 d3 hone
  refine key.congr fun r => ?_
  unfold createFromPopulation
  rw [if_neg (by omega)]
  refine (bind_ok (mapGP_firstTwo hv r)).trans ?_
  have hsel : nsga2Select values 1 = (selectOne s none >>= fun x => selectOne s (some x) >>= fun y =>
      (pure [(x, y)] : GP (List (Nat × Nat)))) := by
    unfold nsga2Select
    rw [if_neg (by omega), e1]
    rfl
  rw [hsel, bind_assoc_run]
  have hin : ∀ x, ((selectOne s (some x) >>= fun y => (pure [(x, y)] : GP (List (Nat × Nat)))) >>=
      mapGP fun p => offspringOf c cxpb (pop.getD p.1 0) (pop.getD p.2 0)) =
      (selectOne s (some x) >>= fun y => offspringOf c cxpb (pop.getD x 0) (pop.getD y 0) >>= fun z =>
        (pure [z] : GP (List Nat))) := by
    intro x
    funext u
    rw [bind_assoc_run]
    rfl
  simp only [hin]

theorem odds_breed (hu : Workable c) (h1 : cxpb ≤ 1) (h3 : 3 ≤ pop.length)
    (hv : List.Forall₂ (FirstTwo w) pop values) (his : List.Forall₂ (Is w) pop pipes)
    (hok : ∀ p ∈ pipes, PipelineOk c.ps p)
    (hlen : ∀ p ∈ pipes, ∀ m, c.maxLength = some m → p.length ≤ m)
    (hnewx : ∀ p ∈ pipes, ∀ q ∈ pipes, ∀ a b, Crossed p q a b → c.completed (printed a) = false)
    (hnewm : ∀ p ∈ pipes, ∀ k ss', Mutated c.ps k p ss' → c.completed (printed ss') = false)
    (hf : FairPopulation M c.ps pipes) :
    ∃ s L, nsga2 values values.length = .ok s ∧ Layering (DomAt values) values.length L ∧
      (∀ j x, InFront L j x → s.rank x = max j 1) ∧
      ∀ (P : List Step → Prop) (E : List Nat → World → Prop), Still E →
        (∀ n w', E [n] w' ↔ ∃ child, Is w' n child ∧ P child) →
        Odds M (createFromPopulation c pop 1 cxpb) w E
          (((List.range pop.length).map fun a => favour s pop.length [] a / (pop.length * (pop.length - 1) : ℚ) *
            (((List.range pop.length).erase a).map fun b =>
              favour s pop.length [a] b / ((pop.length - 1) * (pop.length - 2) : ℚ) *
                offspringShare c cxpb P (pipes.getD a []) (pipes.getD b [])).sum).sum) := by
  classical
  have hpl : pipes.length = pop.length := his.length_eq.symm
  obtain ⟨d1, d2, d3⟩ := hf.size
  rw [hpl] at d1 d2 d3
  refine odds_breed_of (T := fun P a b => offspringShare c cxpb P (pipes.getD a []) (pipes.getD b [])) h3 hv d1 d2 d3
    fun P a b ha hb => ?_
  obtain ⟨ia, ma⟩ := is_at his ha
  obtain ⟨ib, mb⟩ := is_at his hb
  beta_reduce
  unfold offspringShare
  by_cases hc : CanCross (pipes.getD a []) (pipes.getD b [])
  · rw [if_pos hc]
    exact odds_crossed hf.float hu h1 ia ib (hok _ ma) (hok _ mb)
      (fun m hm => ⟨hlen _ ma m hm, hlen _ mb m hm⟩) (hnewx _ ma _ mb) (hnewm _ ma) hc (hf.change _ ma)
      (hf.cross _ ma _ mb) (hf.tail _ mb) P
  · rw [if_neg hc]
    exact odds_uncrossed hf.float hu h1 ia ib (hok _ ma) (hlen _ ma) (hnewm _ ma) hc (hf.change _ ma) P

theorem odds_first {P : List Step → Prop} {x : ℚ} (h : Odds M (createFromPopulation c pop 1 cxpb) w
    (fun l w' => ∃ n child, l.head? = some n ∧ Is w' n child ∧ P child) x) :
    Odds M ((gamaOps c cxpb).create pop) w (fun n w' => ∃ child, Is w' n child ∧ P child) x := by
  show Odds M (firstOf (createFromPopulation c pop 1 cxpb)) w _ _
  unfold firstOf
  refine h.andThen (fun l => ?_) (fun _ _ _ => Iff.rfl) ?_ ?_ (fun _ _ _ => Iff.rfl)
  · cases l with
    | nil => exact Drawless.raise _
    | cons x l => exact Drawless.pure _
  · rintro (_ | ⟨x, l⟩) w' ⟨n, child, hx, h1, h2⟩
    · cases hx
    · cases hx
      exact wp_pure.2 ⟨child, h1, h2⟩
  · intro l w' hno
    match l with
    | [] => exact wp_raise.2 trivial
    | n :: l => exact wp_pure.2 fun ⟨child, h1, h2⟩ => hno ⟨n, child, rfl, h1, h2⟩

/-- **C194.** The chance that the offspring created of a population is in `P`: of all pairs of different members,
the chance that they are the parents (C188) times the chance that their offspring is in `P` (C193). -/
theorem C194 (hM : 0 < M) (hu : Workable c) (h1 : cxpb ≤ 1) (h3 : 3 ≤ pop.length)
    (hv : List.Forall₂ (FirstTwo w) pop values) (his : List.Forall₂ (Is w) pop pipes)
    (hok : ∀ p ∈ pipes, PipelineOk c.ps p)
    (hlen : ∀ p ∈ pipes, ∀ m, c.maxLength = some m → p.length ≤ m)
    (hnewx : ∀ p ∈ pipes, ∀ q ∈ pipes, ∀ a b, Crossed p q a b → c.completed (printed a) = false)
    (hnewm : ∀ p ∈ pipes, ∀ k ss', Mutated c.ps k p ss' → c.completed (printed ss') = false)
    (hf : FairPopulation M c.ps pipes) :
    ∃ s L, nsga2 values values.length = .ok s ∧ Layering (DomAt values) values.length L ∧
      (∀ j x, InFront L j x → s.rank x = max j 1) ∧
      ∀ P : List Step → Prop,
        Chance M (createFromPopulation c pop 1 cxpb) w
          (fun l w' => ∃ n child, l = [n] ∧ Is w' n child ∧ P child)
          (((List.range pop.length).map fun a => favour s pop.length [] a / (pop.length * (pop.length - 1) : ℚ) *
            (((List.range pop.length).erase a).map fun b =>
              favour s pop.length [a] b / ((pop.length - 1) * (pop.length - 2) : ℚ) *
                offspringShare c cxpb P (pipes.getD a []) (pipes.getD b [])).sum).sum) := by
  obtain ⟨s, L, e1, e2, e3, h⟩ := odds_breed hu h1 h3 hv his hok hlen hnewx hnewm hf
  exact ⟨s, L, e1, e2, e3, fun P => (h P _ (fun _ _ _ => Iff.rfl) fun n w' => by simp).chance hM fun _ _ _ => Iff.rfl⟩

/-- **C194**, for the one offspring that the search takes. -/
theorem C194_create (hM : 0 < M) (hu : Workable c) (h1 : cxpb ≤ 1) (h3 : 3 ≤ pop.length)
    (hv : List.Forall₂ (FirstTwo w) pop values) (his : List.Forall₂ (Is w) pop pipes)
    (hok : ∀ p ∈ pipes, PipelineOk c.ps p)
    (hlen : ∀ p ∈ pipes, ∀ m, c.maxLength = some m → p.length ≤ m)
    (hnewx : ∀ p ∈ pipes, ∀ q ∈ pipes, ∀ a b, Crossed p q a b → c.completed (printed a) = false)
    (hnewm : ∀ p ∈ pipes, ∀ k ss', Mutated c.ps k p ss' → c.completed (printed ss') = false)
    (hf : FairPopulation M c.ps pipes) :
    ∃ s L, nsga2 values values.length = .ok s ∧ Layering (DomAt values) values.length L ∧
      (∀ j x, InFront L j x → s.rank x = max j 1) ∧
      ∀ P : List Step → Prop,
        Chance M ((gamaOps c cxpb).create pop) w
          (fun n w' => ∃ child, Is w' n child ∧ P child)
          (((List.range pop.length).map fun a => favour s pop.length [] a / (pop.length * (pop.length - 1) : ℚ) *
            (((List.range pop.length).erase a).map fun b =>
              favour s pop.length [a] b / ((pop.length - 1) * (pop.length - 2) : ℚ) *
                offspringShare c cxpb P (pipes.getD a []) (pipes.getD b [])).sum).sum) := by
  obtain ⟨s, L, e1, e2, e3, h⟩ := odds_breed hu h1 h3 hv his hok hlen hnewx hnewm hf
  exact ⟨s, L, e1, e2, e3, fun P => Odds.chance hM (fun _ _ _ => Iff.rfl)
    (odds_first (h P _ (fun _ _ _ => Iff.rfl) fun n w' => by simp))⟩

end

/-- **C188**, **C194**: the chances of the first parent, and of the second given the first, add up to one. -/
theorem C194_total (s : Selected) (n : Nat) :
    ((List.range n).map fun a => (favour s n [] a : ℚ)).sum = n * (n - 1) ∧
    ∀ a, a < n → (((List.range n).erase a).map fun b => (favour s n [a] b : ℚ)).sum = (n - 1) * (n - 2) := by
  classical
  have hn : (⟨List.range n, s.rank, s.dist⟩ : Selected).order.Nodup := List.nodup_range
  have hp : (⟨List.range n, s.rank, s.dist⟩ : Selected).order.Perm (List.range n) := .refl _
  constructor
  · have := pairSum_winner (c := ⟨List.range n, s.rank, s.dist⟩) hn (fun _ => 1)
    rw [pairSum_one] at this
    dsimp only at this
    rw [List.length_range] at this
    rw [this]
    refine sum_map_congr fun a _ => ?_
    rw [one_mul, ← Nat.cast_add, show favour s n [] a = favour ⟨List.range n, s.rank, s.dist⟩ n [] a from rfl,
      ← favour_first hp hn]
  · intro a ha
    have hm : a ∈ List.range n := List.mem_range.2 ha
    have := pairSum_winner (c := ⟨List.range n, s.rank, s.dist⟩) (hn.erase a) (fun _ => 1)
    rw [pairSum_one] at this
    dsimp only at this
    rw [List.length_erase_of_mem hm, List.length_range, Nat.cast_sub (by omega)] at this
    rw [show ((n : ℚ) - 1) * (n - 2) = (n - (1 : Nat)) * (n - (1 : Nat) - 1) by push_cast; ring, this]
    refine sum_map_congr fun b _ => ?_
    rw [one_mul, ← Nat.cast_add, show favour s n [a] b = favour ⟨List.range n, s.rank, s.dist⟩ n [a] b from rfl,
      ← favour_second hp hn]

/-! ### An example -/

namespace Ex

/-- Three evaluated pipelines: a score, and the number of steps with a minus. -/
def scores : List (List Score) := [[.fin 9, .fin (-3)], [.fin 5, .fin (-1)], [.fin 4, .fin (-2)]]
def breedWorld (r : Stream) : World := ⟨nodes0, [{ main := 0, fitness := some [.fin 9, .fin (-3)] },
  { main := 3, fitness := some [.fin 5, .fin (-1)] }, { main := 4, fitness := some [.fin 4, .fin (-2)] }], r⟩

theorem breed_is (r : Stream) : List.Forall₂ (Is (breedWorld r)) [0, 1, 2] [long, single, double] :=
  .cons ⟨[0, 1, 2], rfl, _, rfl, by simp [Chain, breedWorld, nodes0, long]⟩
    (.cons ⟨[3], rfl, _, rfl, by simp [Chain, breedWorld, nodes0, single]⟩
      (.cons ⟨[4, 5], rfl, _, rfl, by simp [Chain, breedWorld, nodes0, double]⟩ .nil))

theorem breed_values (r : Stream) : List.Forall₂ (FirstTwo (breedWorld r)) [0, 1, 2] scores :=
  .cons ⟨rfl, [], _, rfl, rfl⟩ (.cons ⟨rfl, [], _, rfl, rfl⟩ (.cons ⟨rfl, [], _, rfl, rfl⟩ .nil))

theorem fairPopulation : FairPopulation (12 * 2 ^ 53) space [long, single, double] where
  float := Nat.dvd_mul_left _ _
  size := ⟨Dvd.dvd.mul_right (by decide) _, Dvd.dvd.mul_right (by decide) _, Dvd.dvd.mul_right (by decide) _⟩
  change p hp := by
    simp only [List.mem_cons, List.not_mem_nil, or_false] at hp
    rcases hp with rfl | rfl | rfl <;> exact fair_times (fair (by decide) (by decide)) _
  cross p hp q hq _ := by
    refine Dvd.dvd.mul_right ?_ _
    have h : ∀ p ∈ [long, single, double], ∀ q ∈ [long, single, double], valueChildren p q ≠ [] →
        (valueChildren p q).length ∣ 12 := by decide +kernel
    exact h p hp q hq ‹_›
  tail p hp _ := by
    refine Dvd.dvd.mul_right ?_ _
    have h : ∀ p ∈ [long, single, double], 2 ≤ p.length → p.length - 1 ∣ 12 := by decide
    exact h p hp ‹_›

end Ex

/-- An offspring of three pipelines. -/
example (r : Stream) : ∃ s, nsga2 Ex.scores 3 = .ok s ∧ ∀ P : List Step → Prop,
    Chance (12 * 2 ^ 53) (createFromPopulation Ex.chanceConfig [0, 1, 2] 1 (1 / 4)) (Ex.breedWorld r)
      (fun l w' => ∃ n child, l = [n] ∧ Is w' n child ∧ P child)
      (((List.range 3).map fun a => favour s 3 [] a / (((3 : Nat) : ℚ) * (((3 : Nat) : ℚ) - 1)) *
        (((List.range 3).erase a).map fun b => favour s 3 [a] b / ((((3 : Nat) : ℚ) - 1) * (((3 : Nat) : ℚ) - 2)) *
          offspringShare Ex.chanceConfig (1 / 4) P ([Ex.long, Ex.single, Ex.double].getD a [])
            ([Ex.long, Ex.single, Ex.double].getD b [])).sum).sum) := by
  obtain ⟨s, _, h1, _, _, h⟩ := C194 (M := 12 * 2 ^ 53) (by positivity) Ex.chance_workable (cxpb := 1 / 4)
    (by norm_num) (pop := [0, 1, 2]) (by decide) (Ex.breed_values r) (Ex.breed_is r)
    (by
      intro p hp
      simp only [List.mem_cons, List.not_mem_nil, or_false] at hp
      rcases hp with rfl | rfl | rfl
      · exact Ex.long_ok
      · exact Ex.single_ok
      · exact Ex.double_ok)
    (fun _ _ m hm => by cases hm) (fun _ _ _ _ _ _ _ => rfl) (fun _ _ _ _ _ => rfl) Ex.fairPopulation
  exact ⟨s, h1, h⟩

end Gama
