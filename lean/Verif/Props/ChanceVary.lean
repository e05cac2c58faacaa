import Verif.Props.Chance
import Verif.Props.ReachMate
import Mathlib.Algebra.Order.Floor.Semiring
import Mathlib.Data.Rat.Floor

/-!
# How likely each way of varying pipelines is

`create_from_population` and the mutation functions, `gama/genetic_programming/selection.py`,
`mutation.py`, `operator_set.py`.
-/

namespace Gama
open Spec PyM

/-! ## Results that are decided by the first draw -/

theorem chance_first {α : Type} {M : Nat} (hM : 0 < M) {m : GP α} {w : World} {P : α → World → Prop}
    {g : Nat → ℚ} (h : ∀ s, hit m w P s = g (s 0)) :
    Chance M m w P (((List.range M).map g).sum / M) := by
  refine ⟨1, ?_⟩
  intro k hk s
  obtain ⟨k, rfl⟩ : ∃ j, k = j + 1 := ⟨k - 1, by omega⟩
  have : ∀ d, average M k (fun l => hit m w P (draws (d :: l) s)) = g d := by
    intro d
    have : (fun l => hit m w P (draws (d :: l) s)) = fun _ => g d := by
      funext l; rw [h]; rfl
    rw [this, average_const hM]
  simp only [average, this]

/-- The same where the remainder of the draw decides. -/
theorem chance_rest {α : Type} {M n : Nat} (hM : 0 < M) (hn : n ∣ M) {m : GP α} {w : World}
    {P : α → World → Prop} {g : Nat → ℚ} (h : ∀ s, hit m w P s = g (s 0 % n)) :
    Chance M m w P (((List.range n).map g).sum / n) := by
  obtain ⟨c, rfl⟩ := hn
  have := chance_first hM (g := fun d => g (d % n)) h
  rw [sum_mod] at this
  have hc : (c : ℚ) ≠ 0 := by
    rintro h0
    have : c = 0 := by exact_mod_cast h0
    subst this; simp at hM
  have e : (c : ℚ) * ((List.range n).map g).sum / ((n * c : Nat) : ℚ) = ((List.range n).map g).sum / n := by
    push_cast
    rw [mul_comm (n : ℚ), mul_div_mul_left _ _ hc]
  rwa [e] at this

theorem sum_below (k : Nat) : ∀ n, ((List.range n).map fun r => if r < k then (1 : ℚ) else 0).sum = min k n
  | 0 => by simp
  | n + 1 => by
    rw [List.range_succ, List.map_append, List.sum_append, sum_below k n]
    by_cases h : n < k
    · have e1 : min k n = n := by omega
      have e2 : min k (n + 1) = n + 1 := by omega
      rw [e1, e2]; simp [h]
    · have e1 : min k n = k := by omega
      have e2 : min k (n + 1) = k := by omega
      rw [e1, e2]; simp [h]

theorem sum_share {p : ℚ} (h1 : p ≤ 1) {N : Nat} (hN : 0 < N) :
    ((List.range N).map fun r : Nat => if (r : ℚ) / N < p then (1 : ℚ) else 0).sum = ⌈p * N⌉₊ := by
  have hN' : (0 : ℚ) < N := by exact_mod_cast hN
  have e : (fun r : Nat => if (r : ℚ) / N < p then (1 : ℚ) else 0)
      = fun r => if r < ⌈p * N⌉₊ then (1 : ℚ) else 0 := by
    funext r
    have : (r : ℚ) / N < p ↔ r < ⌈p * N⌉₊ := by rw [Nat.lt_ceil, div_lt_iff₀ hN']
    simp only [this]
  have hle : ⌈p * N⌉₊ ≤ N := by
    rw [Nat.ceil_le]
    nlinarith
  rw [e, sum_below, min_eq_left hle]

/-! ## C186: crossover or mutation -/

theorem hasMeta_parents {w : World} {n : Nat} {a b : List Nat} {o o' : Option Str}
    (h : HasMeta w n a o) (h' : HasMeta w n b o') : a = b ∧ o = o' := by
  obtain ⟨x, h1, h2⟩ := h
  obtain ⟨y, h3, h4⟩ := h'
  rw [h1] at h3
  injection h3 with h3
  subst h3
  rw [h2] at h4
  injection h4 with h5 h6
  exact ⟨h5, h6⟩

theorem is_withRnd {w : World} {i : Nat} {ss : List Step} (h : Is w i ss) (s : Stream) :
    Is (withRnd w s) i ss := nodes_only h rfl rfl

/-- What the first draw decides of an offspring. -/
theorem wp_offspring_first {c : OpConfig} (hps : PSetOk c.ps) (hr : 0 < c.maxRetry) {cxpb : ℚ} {w : World}
    {i j : Nat} {p q : List Step} (hi : Is w i p) (hj : Is w j q) (hp : PipelineOk c.ps p)
    (hq : PipelineOk c.ps q) (hlen : ∀ m, c.maxLength = some m → p.length ≤ m ∧ q.length ≤ m) (s : Stream) :
    wp (offspringOf c cxpb i j)
      (fun n w' => (((s 0 % 2 ^ 53 : Nat) : ℚ) / 2 ^ 53 < cxpb ∧ CanCross p q →
        HasMeta w' n [i, j] (some "cx".toList)) ∧
        (¬ (((s 0 % 2 ^ 53 : Nat) : ℚ) / 2 ^ 53 < cxpb ∧ CanCross p q) → ∃ name, HasMeta w' n [i] name))
      (fun _ _ => ¬ (((s 0 % 2 ^ 53 : Nat) : ℚ) / 2 ^ 53 < cxpb ∧ CanCross p q)) (withRnd w s) := by
  have hne : ∀ {m : Option Nat} {ss : List Step}, (∀ x, m = some x → ss.length ≤ x) →
      exceeds m ss.length = false := fun h => not_exceeds h
  have hp' := hne fun x hx => (hlen x hx).1
  have hq' := hne fun x hx => (hlen x hx).2
  have hmut : ¬ (((s 0 % 2 ^ 53 : Nat) : ℚ) / 2 ^ 53 < cxpb ∧ CanCross p q) → ∀ w₁, w₁.nodes = w.nodes →
      w₁.inds = w.inds → wp (opMutate c i)
      (fun n w' => (((s 0 % 2 ^ 53 : Nat) : ℚ) / 2 ^ 53 < cxpb ∧ CanCross p q →
        HasMeta w' n [i, j] (some "cx".toList)) ∧
        (¬ (((s 0 % 2 ^ 53 : Nat) : ℚ) / 2 ^ 53 < cxpb ∧ CanCross p q) → ∃ name, HasMeta w' n [i] name))
      (fun _ _ => ¬ (((s 0 % 2 ^ 53 : Nat) : ℚ) / 2 ^ 53 < cxpb ∧ CanCross p q)) w₁ := by
    intro hc w₁ hn hi'
    refine wp_mono ?_ (fun _ _ _ => hc) (wp_opMutate hps (nodes_only hi hn hi') hp)
    rintro n w' ⟨_, _, name, _, _, _, _, h⟩
    exact ⟨fun h' => absurd h' hc, fun _ => ⟨_, h⟩⟩
  unfold offspringOf
  rw [wp_bind]
  unfold randomBelow
  rw [wp_bind]
  show wp _ _ _ _
  show wp (if decide (((s 0 % 2 ^ 53 : Nat) : ℚ) / 2 ^ 53 < cxpb) = true then _ else _) _ _ (advance (withRnd w s))
  by_cases hd : ((s 0 % 2 ^ 53 : Nat) : ℚ) / 2 ^ 53 < cxpb
  · rw [if_pos (decide_eq_true hd), wp_bind]
    obtain ⟨ind₁, l₁, e1, e2, e3⟩ := is_iff.1 hi
    obtain ⟨ind₂, l₂, f1, f2, f3⟩ := is_iff.1 hj
    refine wp_validCrossoverFunctions (w := advance (withRnd w s)) e1 f1 e2 f2 ?_
    rw [e3, f3]
    by_cases hc : CanCross p q
    · have : (cxValid p q).length > 0 := List.length_pos_iff.2 (cxValid_ne_nil.2 hc)
      rw [if_pos this]
      refine wp_mono ?_ ?_ (wp_opMate hps (w := advance (withRnd w s)) (nodes_only hi rfl rfl)
        (nodes_only hj rfl rfl) hp hq)
      · rintro n w' ⟨_, _, _, _, _, _, _, h⟩
        exact ⟨fun _ => h, fun h' => absurd ⟨hd, hc⟩ h'⟩
      · rintro e w' ⟨_, ⟨h, _⟩ | ⟨_, h | h | h⟩⟩
        · omega
        · rw [hp'] at h; cases h
        · rw [hq'] at h; cases h
        · exact absurd h (cxValid_ne_nil.2 hc)
    · have : ¬ (cxValid p q).length > 0 := by
        intro h; exact hc (cxValid_ne_nil.1 (List.length_pos_iff.1 h))
      rw [if_neg this]
      exact hmut (fun h => hc h.2) _ rfl rfl
  · rw [if_neg (by simpa using hd)]
    exact hmut (fun h => hd h.1) _ rfl rfl

theorem hit_offspring {c : OpConfig} (hps : PSetOk c.ps) (hr : 0 < c.maxRetry) {cxpb : ℚ} {w : World}
    {i j : Nat} {p q : List Step} (hi : Is w i p) (hj : Is w j q) (hp : PipelineOk c.ps p)
    (hq : PipelineOk c.ps q) (hlen : ∀ m, c.maxLength = some m → p.length ≤ m ∧ q.length ≤ m) (s : Stream) :
    hit (offspringOf c cxpb i j) w (fun n w' => HasMeta w' n [i, j] (some "cx".toList)) s
      = open Classical in if ((s 0 % 2 ^ 53 : Nat) : ℚ) / 2 ^ 53 < cxpb ∧ CanCross p q then 1 else 0 := by
  have h := wp_offspring_first hps hr (cxpb := cxpb) hi hj hp hq hlen s
  unfold hit
  by_cases hc : ((s 0 % 2 ^ 53 : Nat) : ℚ) / 2 ^ 53 < cxpb ∧ CanCross p q
  · rw [if_pos hc, if_pos]
    cases hrun : offspringOf c cxpb i j (withRnd w s) with
    | mk r w' =>
      cases r with
      | ok n =>
        exact ⟨n, w', rfl, (wp_ok h hrun).1 hc⟩
      | error e => exact absurd hc (wp_error h hrun)
  · rw [if_neg hc, if_neg]
    rintro ⟨n, w', hrun, hm⟩
    obtain ⟨name, this⟩ := (wp_ok h hrun).2 hc
    have := (hasMeta_parents hm this).1
    simp at this

/-- **C186.** Two parents that can be crossed are crossed with the chance asked for, to the precision of
`random.random`. -/
theorem C186 {M : Nat} (hM : 0 < M) (h53 : 2 ^ 53 ∣ M) {c : OpConfig} (hps : PSetOk c.ps)
    (hr : 0 < c.maxRetry) {cxpb : ℚ} (h1 : cxpb ≤ 1) {w : World} {i j : Nat} {p q : List Step}
    (hi : Is w i p) (hj : Is w j q) (hp : PipelineOk c.ps p) (hq : PipelineOk c.ps q)
    (hlen : ∀ m, c.maxLength = some m → p.length ≤ m ∧ q.length ≤ m) (hc : CanCross p q) :
    Chance M (offspringOf c cxpb i j) w (fun n w' => HasMeta w' n [i, j] (some "cx".toList))
      (⌈cxpb * 2 ^ 53⌉₊ / 2 ^ 53) := by
  have h := fun s => hit_offspring hps hr (cxpb := cxpb) hi hj hp hq hlen s
  have := chance_rest (g := fun r : Nat => if (r : ℚ) / (2 ^ 53 : Nat) < cxpb then (1 : ℚ) else 0) hM h53 (fun s => by
    rw [h s, Nat.cast_pow, Nat.cast_ofNat]
    by_cases hd : ((s 0 % 2 ^ 53 : Nat) : ℚ) / 2 ^ 53 < cxpb
    · rw [if_pos ⟨hd, hc⟩, if_pos hd]
    · rw [if_neg (fun h => hd h.1), if_neg hd])
  rw [sum_share h1 (Nat.pow_pos (by omega))] at this
  rwa [Nat.cast_pow, Nat.cast_ofNat] at this

/-- **C186**: parents that cannot be crossed are not crossed. -/
theorem C186_cannot {M : Nat} (hM : 0 < M) {c : OpConfig} (hps : PSetOk c.ps)
    (hr : 0 < c.maxRetry) {cxpb : ℚ} {w : World} {i j : Nat} {p q : List Step}
    (hi : Is w i p) (hj : Is w j q) (hp : PipelineOk c.ps p) (hq : PipelineOk c.ps q)
    (hlen : ∀ m, c.maxLength = some m → p.length ≤ m ∧ q.length ≤ m) (hc : ¬ CanCross p q) :
    Chance M (offspringOf c cxpb i j) w (fun n w' => HasMeta w' n [i, j] (some "cx".toList)) 0 := by
  have h := fun s => hit_offspring hps hr (cxpb := cxpb) hi hj hp hq hlen s
  refine ⟨0, fun k _ s => ?_⟩
  have : (fun l => hit (offspringOf c cxpb i j) w (fun n w' => HasMeta w' n [i, j] (some "cx".toList)) (draws l s))
      = fun _ => 0 := by
    funext l
    rw [h, if_neg (fun h => hc h.2)]
  rw [this, average_const hM]

/-- **C186**, the precision: a multiple of the step of `random.random` is exact, and every chance is missed
by less than one step. -/
theorem C186_near {cxpb : ℚ} (h0 : 0 ≤ cxpb) : cxpb ≤ (⌈cxpb * 2 ^ 53⌉₊ : ℚ) / 2 ^ 53 ∧
    (⌈cxpb * 2 ^ 53⌉₊ : ℚ) / 2 ^ 53 < cxpb + 1 / 2 ^ 53 := by
  have hN : (0 : ℚ) < 2 ^ 53 := by positivity
  have h1 := Nat.le_ceil (cxpb * 2 ^ 53)
  have h2 := Nat.ceil_lt_add_one (a := cxpb * 2 ^ 53) (by positivity)
  constructor
  · rw [le_div_iff₀ hN]; exact h1
  · rw [div_lt_iff₀ hN, add_mul, one_div, inv_mul_cancel₀ hN.ne']; exact h2

/-! ## C187: which mutation -/

/-- The kinds of change that can be made to a pipeline. -/
def Spec.Possible (ps : PSet) (maxLength : Option Nat) (ss : List Step) : Change → Prop
  | .value => 2 ≤ ((allTerms ss).filter fun t => 1 < (ps.terms t.ident).length).length
  | .step => 2 ≤ (ss.filter fun s => 1 < (ps.prims s.prim.output).length).length
  | .insert => ∀ m, maxLength = some m → ss.length < m
  | .remove => 2 ≤ ss.length

open Classical in
/-- The number of kinds of change that can be made to a pipeline. -/
noncomputable def Spec.possibilities (ps : PSet) (maxLength : Option Nat) (ss : List Step) : Nat :=
  ([Change.value, .step, .insert, .remove].filter fun k => Possible ps maxLength ss k).length

/-- The mutation that makes a kind of change. -/
def changeFn : Change → MutFn
  | .value => .replaceTerminal
  | .step => .replacePrimitive
  | .insert => .insert
  | .remove => .shrink

theorem mem_changeFn {ps : PSet} {m : Option Nat} {ss : List Step}
    (hlen : ∀ x, m = some x → ss.length ≤ x) {k : Change} :
    changeFn k ∈ availableMutations ps m (ss.map fun s => ⟨s.prim, s.terms, none⟩) ↔ Possible ps m ss k := by
  have hne : exceeds m ss.length = false := not_exceeds hlen
  rw [mem_available]
  cases k <;> simp only [changeFn, hne, true_and, Possible, mayGrow_iff, gt_iff_lt] <;> exact Iff.rfl

open Classical in
theorem four_fns {a b c d : Prop} [Decidable a] [Decidable b] [Decidable c] [Decidable d] {L : List MutFn}
    (hL : (if a then [MutFn.replacePrimitive] else []) ++ (if b then [MutFn.insert] else [])
      ++ (if c then [MutFn.shrink] else []) ++ (if d then [MutFn.replaceTerminal] else []) = L) :
    L.Nodup ∧ L.length = (if changeFn .value ∈ L then 1 else 0) + (if changeFn .step ∈ L then 1 else 0) +
      (if changeFn .insert ∈ L then 1 else 0) + (if changeFn .remove ∈ L then 1 else 0) := by
  by_cases ha : a <;> by_cases hb : b <;> by_cases hc : c <;> by_cases hd : d <;>
    simp only [ha, hb, hc, hd, if_true, if_false] at hL <;> subst hL <;> simp [changeFn]

open Classical in
theorem possibilities_eq (ps : PSet) (m : Option Nat) (ss : List Step) : possibilities ps m ss =
    (if Possible ps m ss .value then 1 else 0) + (if Possible ps m ss .step then 1 else 0) +
    (if Possible ps m ss .insert then 1 else 0) + (if Possible ps m ss .remove then 1 else 0) := by
  unfold possibilities
  by_cases h1 : Possible ps m ss .value <;> by_cases h2 : Possible ps m ss .step <;>
    by_cases h3 : Possible ps m ss .insert <;> by_cases h4 : Possible ps m ss .remove <;>
    simp [h1, h2, h3, h4]

theorem available_eq {ps : PSet} {m : Option Nat} {ss : List Step}
    (hlen : ∀ x, m = some x → ss.length ≤ x) :
    (availableMutations ps m (ss.map fun s => ⟨s.prim, s.terms, none⟩)).Nodup ∧
    (availableMutations ps m (ss.map fun s => ⟨s.prim, s.terms, none⟩)).length = possibilities ps m ss := by
  classical
  have hne : exceeds m ss.length = false := not_exceeds hlen
  have h := fun k => mem_changeFn (ps := ps) hlen (k := k)
  rw [possibilities_eq]
  simp only [← h]
  refine four_fns (a := ((ss.map fun s => (⟨s.prim, s.terms, none⟩ : Cell)).filter
    fun c => (ps.prims c.prim.output).length > 1).length > 1) (b := mayGrow m ss.length = true)
    (c := ss.length > 1) (d := (((ss.map fun s => (⟨s.prim, s.terms, none⟩ : Cell)).flatMap Cell.terms).filter
    fun t => (ps.terms t.ident).length > 1).length > 1) ?_
  unfold availableMutations
  simp only [List.length_map, hne, Bool.false_eq_true, if_false]

/-- What the first draw decides of a mutation. -/
theorem wp_mutate_first {c : OpConfig} (hps : PSetOk c.ps) {w : World} {i : Nat}
    {ss : List Step} (his : Is w i ss) (hok : PipelineOk c.ps ss) (s : Stream) :
    wp (mutateWithLog c i)
      (fun n w' => (∃ f name, (availableMutations c.ps c.maxLength (ss.map fun s => ⟨s.prim, s.terms, none⟩))[
          s 0 % (availableMutations c.ps c.maxLength (ss.map fun s => ⟨s.prim, s.terms, none⟩)).length]? = some f ∧
        f.name = .ok name ∧ HasMeta w' n [i] (some name)))
      (fun _ _ => True) (withRnd w s) := by
  obtain ⟨ind, l, hi, hc, rfl⟩ := is_iff.1 his
  simp only [mutateWithLog, wp_bind]
  apply wp_copyAsNew (w := withRnd w s) hi hc
  intro a l' new hc' hst hfr
  rw [map_resort (fun s hs => pipelineOk_kind hok hs)] at hst
  let w₁ : World := { w with nodes := w.nodes ++ new, inds := w.inds ++ [{ main := a }], rnd := s }
  have hi₁ : w₁.inds[w.inds.length]? = some { main := a } := by simp [w₁]
  have hc₁ : Chain w₁.nodes (some a) l' := hc'
  show wp _ _ _ w₁
  simp only [randomValidMutation, wp_bind]
  apply wp_primitives hi₁ hc₁
  apply wp_getNodes (fun b s h => hc₁.cell h)
  intro cs hcs
  have hav : availableMutations c.ps c.maxLength cs = availableMutations c.ps c.maxLength
      ((steps l).map fun s => (⟨s.prim, s.terms, none⟩ : Cell)) := by
    rw [← hst, ← hcs]
    simp only [availableMutations, List.length_map, List.map_map, List.flatMap_map,
      List.filter_map, Function.comp_def, cellStep]
  rw [hav]
  generalize availableMutations c.ps c.maxLength
      ((steps l).map fun s => (⟨s.prim, s.terms, none⟩ : Cell)) = av
  cases hf : av[s 0 % av.length]? with
  | none =>
    have : (choice av : GP MutFn) w₁ = (.error .indexError, w₁) := by
      unfold choice
      rw [show HasRand.rnd w₁ 0 = s 0 from rfl, hf]
    unfold wp
    rw [this]
    trivial
  | some f =>
    have : (choice av : GP MutFn) w₁ = (.ok f, advance w₁) := by
      unfold choice
      rw [show HasRand.rnd w₁ 0 = s 0 from rfl, hf]
    refine wp_intro ?_ (fun e _ h => by rw [this] at h; cases h)
    intro f' s' h
    rw [this] at h
    cases h
    refine wp_mono (fun _ w₂ h => ?_) (fun e w₂ h => trivial)
      (wp_mutApply (w := advance w₁) hps hi₁ hc₁ (by rw [hst]; exact hok) f)
    simp only [wp_pure]
    cases hname : f.name with
    | error e => exact trivial
    | ok name =>
      obtain ⟨ind', l₂, g1, g2, g3, g4⟩ := h.chain
      simp only [wp_bind]
      refine wp_setMeta (f := fun _ => { parents := [i], origin := some name }) g1 ?_
      have hlt : w.inds.length < w₂.inds.length := (List.getElem?_eq_some_iff.1 g1).1
      exact ⟨f, name, rfl, hname, { ind' with md := { parents := [i], origin := some name } },
        List.getElem?_set_self hlt, rfl⟩

theorem changeFn_name (k : Change) : (changeFn k).name = .ok (originName k) := by cases k <;> rfl

theorem name_inj {f : MutFn} {k : Change} (h : f.name = .ok (originName k)) : f = changeFn k := by
  cases f with
  | partialShrink n => cases h
  | _ => cases k <;> first | rfl | exact absurd (Except.ok.inj h) (by decide +kernel)

/-- If none of its mutants was made before, a mutation is the first attempt at it. -/
theorem opMutate_first {c : OpConfig} (hps : PSetOk c.ps) {w w' : World} {i n : Nat} {ss : List Step}
    (his : Is w i ss) (hok : PipelineOk c.ps ss)
    (hnew : ∀ k ss', Mutated c.ps k ss ss' → c.completed (printed ss') = false)
    (run : opMutate c i w = (.ok n, w')) : mutateWithLog c i w = (.ok n, w') := by
  unfold opMutate at run
  cases hr : c.maxRetry with
  | zero => rw [hr] at run; cases run
  | succ k =>
    rw [hr] at run
    obtain ⟨xs, w₁, h1, h2, _, h3⟩ := tryUntilNew_spec run
    cases h1 with
    | nil =>
      rcases h3 with ⟨_, _, h, h4, _⟩ | ⟨_, h, _⟩
      · cases h; exact h4
      · cases h
    | cons hrun hprint hrest =>
      exfalso
      obtain ⟨ss', f, name, g1, g2, _, g4, _⟩ := wp_ok (wp_mutateWithLog hps his hok) hrun
      obtain ⟨as, g5, _⟩ := g1.is
      have e := pipelineStr_is (⟨as, g5⟩ : Is _ _ ss')
      rw [e] at hprint
      injection hprint with e1 _
      injection e1 with e1
      have := h2 _ List.mem_cons_self
      rw [← e1, hnew _ _ (mutShape_mutated g2 (by rintro k rfl; simp [MutFn.name] at g4))] at this
      cases this

/-- **C187.** A mutation makes each kind of change that can be made with the same chance. -/
theorem C187 {M : Nat} (hM : 0 < M) {c : OpConfig} (hu : Workable c) {w : World} {i : Nat} {ss : List Step}
    (his : Is w i ss) (hok : PipelineOk c.ps ss) (hlen : ∀ m, c.maxLength = some m → ss.length ≤ m)
    (hnew : ∀ k ss', Mutated c.ps k ss ss' → c.completed (printed ss') = false)
    (hd : possibilities c.ps c.maxLength ss ∣ M) {k : Change} (hk : Possible c.ps c.maxLength ss k) :
    Chance M (opMutate c i) w (fun n w' => HasMeta w' n [i] (some (originName k)))
      (1 / possibilities c.ps c.maxLength ss) := by
  obtain ⟨hnd, hl⟩ := available_eq (ps := c.ps) hlen
  have hmem := (mem_changeFn (ps := c.ps) hlen).2 hk
  rw [← hl] at hd ⊢
  have hopt : 2 ≤ ss.length ∨ (∀ m, c.maxLength = some m → ss.length < m) ∨ 2 ≤ mutableValues c.ps ss := by
    cases k with
    | value => exact Or.inr (Or.inr hk)
    | step => exact Or.inl (Nat.le_trans hk (List.length_filter_le _ _))
    | insert => exact Or.inr (Or.inl hk)
    | remove => exact Or.inl hk
  generalize hav : availableMutations c.ps c.maxLength (ss.map fun s => (⟨s.prim, s.terms, none⟩ : Cell)) = av at *
  have h := chance_rest (g := fun r => if av[r]? = some (changeFn k) then (1 : ℚ) else 0) hM hd (fun s => ?_)
      (m := opMutate c i) (w := w) (P := fun n w' => HasMeta w' n [i] (some (originName k)))
  · have e : ((List.range av.length).map fun r => if av[r]? = some (changeFn k) then (1 : ℚ) else 0).sum = 1 := by
      have e2 := sum_single hnd hmem (1 : ℚ)
      rw [← map_range_getD av (changeFn k)] at e2
      refine Eq.trans ?_ e2
      congr 1
      apply List.map_congr_left
      intro r hr
      have hr := List.mem_range.1 hr
      simp [List.getD_eq_getElem?_getD, hr]
    rwa [e] at h
  · obtain ⟨n, w', hrun⟩ := C05_mutation_succeeds_partial c (withRnd w s) i ss hu.ok hu.distinct hu.preprocessors
      hu.retry (is_withRnd his s) hok hlen hopt
    have hfirst := opMutate_first hu.ok (is_withRnd his s) hok hnew hrun
    obtain ⟨f, name, h1, h2, h3⟩ := wp_ok (wp_mutate_first hu.ok his hok s) hfirst
    rw [hav] at h1
    unfold hit
    by_cases hf : f = changeFn k
    · subst hf
      rw [changeFn_name] at h2
      cases h2
      rw [if_pos ⟨n, w', hrun, h3⟩, if_pos h1]
    · rw [if_neg, if_neg]
      · rw [h1]; simpa using hf
      · rintro ⟨n', w'', hrun', h4⟩
        rw [hrun] at hrun'
        cases hrun'
        have := (hasMeta_parents h3 h4).2
        cases this
        exact hf (name_inj h2)

/-- **C187**: a change that cannot be made is not made. -/
theorem C187_never {M : Nat} (hM : 0 < M) {c : OpConfig} (hps : PSetOk c.ps) {w : World} {i : Nat} {ss : List Step}
    (his : Is w i ss) (hok : PipelineOk c.ps ss) (hlen : ∀ m, c.maxLength = some m → ss.length ≤ m)
    {k : Change} (hk : ¬ Possible c.ps c.maxLength ss k) :
    Chance M (opMutate c i) w (fun n w' => HasMeta w' n [i] (some (originName k))) 0 := by
  refine ⟨0, fun j _ s => ?_⟩
  have : (fun l => hit (opMutate c i) w (fun n w' => HasMeta w' n [i] (some (originName k))) (draws l s))
      = fun _ => 0 := by
    funext l
    unfold hit
    rw [if_neg]
    rintro ⟨n, w', hrun, h⟩
    obtain ⟨_, f, name, _, _, h3, h4, h5⟩ := wp_ok (wp_opMutate hps (is_withRnd his _) hok) hrun
    have := (hasMeta_parents h h5).2
    cases this
    rw [name_inj h4] at h3
    exact hk ((mem_changeFn hlen).1 h3)
  rw [this, average_const hM]

/-! ### Examples -/

/-- `long` and `double` have differing values of a shared hyperparameter and two steps each. -/
theorem Ex.long_double : CanCross Ex.long Ex.double := Or.inr (by decide)

example (r : Stream) : Chance (2 ^ 53) (offspringOf Ex.chanceConfig (1 / 4) 0 2) (Ex.w0 r)
    (fun n w' => HasMeta w' n [0, 2] (some "cx".toList)) (1 / 4) := by
  have := C186 (M := 2 ^ 53) (by decide) (Nat.dvd_refl _) (c := Ex.chanceConfig) Ex.space_ok (by decide)
    (cxpb := 1 / 4) (by norm_num) (Ex.is_long r) (Ex.is_double r) Ex.long_ok Ex.double_ok
    (fun m hm => by cases hm) Ex.long_double
  have e : (1 / 4 : ℚ) * 2 ^ 53 = ((2 ^ 51 : Nat) : ℚ) := by norm_num
  rw [e, Nat.ceil_natCast] at this
  have e' : ((2 ^ 51 : Nat) : ℚ) / 2 ^ 53 = 1 / 4 := by norm_num
  rwa [e'] at this

theorem Ex.long_possible (k : Change) : Possible Ex.space none Ex.long k := by
  cases k with
  | value => show 2 ≤ List.length _; decide
  | step => show 2 ≤ List.length _; decide
  | insert => intro m hm; cases hm
  | remove => show 2 ≤ List.length _; decide

theorem Ex.long_possibilities : possibilities Ex.space none Ex.long = 4 := by
  rw [possibilities_eq]
  simp [Ex.long_possible]

example (r : Stream) (k : Change) : Chance 4 (opMutate Ex.chanceConfig 0) (Ex.w0 r)
    (fun n w' => HasMeta w' n [0] (some (originName k))) (1 / 4) := by
  have e : possibilities Ex.chanceConfig.ps Ex.chanceConfig.maxLength Ex.long = 4 := Ex.long_possibilities
  have := C187 (M := 4) (by decide) Ex.chance_workable (Ex.is_long r) Ex.long_ok (fun m hm => by cases hm)
    (fun _ _ _ => rfl) (by rw [e]) (Ex.long_possible k)
  rw [e] at this
  exact this

end Gama
