import Verif.Props.ChanceMutate

/-!
# How likely each offspring of two parents is

`create_from_population`, `gama/genetic_programming/selection.py` l.24-28.
-/

namespace Gama
open Spec PyM

theorem odds_remainder {β : Type} {M N : Nat} (hN : 0 < N) (hd : N ∣ M) {f : Nat → GP β} {w : World}
    {P : β → World → Prop} {g : Nat → ℚ} (h : ∀ r, r < N → Odds M (f r) w P (g r)) :
    Odds M ((draw : GP Nat) >>= fun d => f (d % N)) w P (((List.range N).map g).sum / N) := by
  have e : N - 1 - 0 + 1 = N := by omega
  have := Odds.randint (M := M) (lo := 0) (hi := N - 1) (f := f) (w := w) (P := P) (g := g) (by omega)
    (by rw [e]; exact hd) (fun r _ h' => h r (by omega))
  rw [e] at this
  simp only [Nat.zero_add] at this
  refine this.congr fun s => ?_
  have hrun : (Gama.randint 0 (N - 1) : GP Nat) (withRnd w s) = (.ok (s 0 % N), withRnd w fun i => s (i + 1)) := by
    unfold Gama.randint
    rw [if_neg (by omega), Nat.zero_add, e]
    rfl
  have hrun' : (draw : GP Nat) (withRnd w s) = (.ok (s 0), withRnd w fun i => s (i + 1)) := rfl
  rw [bind_ok hrun, bind_ok hrun']

theorem sum_either {p : ℚ} (h1 : p ≤ 1) {N : Nat} (hN : 0 < N) (a b : ℚ) :
    ((List.range N).map fun r : Nat => if (r : ℚ) / N < p then a else b).sum / N
      = ⌈p * N⌉₊ / N * a + (1 - ⌈p * N⌉₊ / N) * b := by
  have hN' : (N : ℚ) ≠ 0 := by exact_mod_cast hN.ne'
  have e : ∀ l : List Nat, (l.map fun r : Nat => if (r : ℚ) / N < p then a else b).sum
      = l.length * b + (a - b) * (l.map fun r : Nat => if (r : ℚ) / N < p then (1 : ℚ) else 0).sum := by
    intro l
    induction l with
    | nil => simp
    | cons x l ih =>
      rw [List.map_cons, List.sum_cons, ih, List.map_cons, List.sum_cons, List.length_cons]
      split <;> push_cast <;> ring
  rw [e, sum_share h1 hN, List.length_range]
  field_simp
  ring

theorem odds_below {β : Type} {M : Nat} (h53 : 2 ^ 53 ∣ M) {p : ℚ} (h1 : p ≤ 1) {f : Bool → GP β} {w : World}
    {P : β → World → Prop} {a b : ℚ} (ht : Odds M (f true) w P a) (hf : Odds M (f false) w P b) :
    Odds M (randomBelow p >>= f) w P
      (⌈p * 2 ^ 53⌉₊ / 2 ^ 53 * a + (1 - ⌈p * 2 ^ 53⌉₊ / 2 ^ 53) * b) := by
  have hN : 0 < 2 ^ 53 := Nat.pow_pos (by omega)
  have key := odds_remainder hN h53 (w := w) (P := P)
    (f := fun r => (pure (decide ((r : ℚ) / 2 ^ 53 < p)) : GP Bool) >>= f)
    (g := fun r => if (r : ℚ) / (2 ^ 53 : Nat) < p then a else b) (fun r _ => by
      rw [Nat.cast_pow, Nat.cast_ofNat]
      refine Odds.det (w₁ := w) (a := decide ((r : ℚ) / 2 ^ 53 < p)) (fun _ => rfl) ?_
      by_cases h : (r : ℚ) / 2 ^ 53 < p
      · rw [if_pos h, decide_eq_true h]; exact ht
      · rw [if_neg h, decide_eq_false h]; exact hf)
  rw [sum_either h1 hN, Nat.cast_pow, Nat.cast_ofNat] at key
  unfold randomBelow
  exact odds_assoc key

section
variable {M : Nat} {c : OpConfig} {cxpb : ℚ} {w : World} {i j : Nat} {p q : List Step}

theorem odds_crossed (h53 : 2 ^ 53 ∣ M) (hu : Workable c) (h1 : cxpb ≤ 1)
    (hi : Is w i p) (hj : Is w j q) (hp : PipelineOk c.ps p) (hq : PipelineOk c.ps q)
    (hlen : ∀ m, c.maxLength = some m → p.length ≤ m ∧ q.length ≤ m)
    (hnewx : ∀ a b, Crossed p q a b → c.completed (printed a) = false)
    (hnewm : ∀ k ss', Mutated c.ps k p ss' → c.completed (printed ss') = false)
    (hcross : CanCross p q) (hf : FairChange M c.ps p)
    (hV : valueChildren p q ≠ [] → (valueChildren p q).length ∣ M)
    (hd : 2 ≤ q.length → q.length - 1 ∣ M) (P : List Step → Prop) :
    Odds M (offspringOf c cxpb i j) w (fun n w' => ∃ child, Is w' n child ∧ P child)
      (⌈cxpb * 2 ^ 53⌉₊ / 2 ^ 53 * mixedShare P [valueChildren p q, tailChildren p q]
        + (1 - ⌈cxpb * 2 ^ 53⌉₊ / 2 ^ 53) * mutantShare c.ps c.maxLength P p) := by
  have hmut := odds_opMutate hu hi hp (fun m hm => (hlen m hm).1) hnewm hf P
  obtain ⟨_, _, d3, _, d5⟩ := fair_dvd hf
  have hmate := odds_opMate hu.ok hu.retry hi hj hp hq hlen hnewx hcross (d5 2 (by omega) (by omega)) hV
    (fun h => d3 _ (by omega) (by omega)) hd P
  unfold offspringOf
  refine odds_below h53 h1 ?_ ?_
  · rw [if_pos rfl]
    obtain ⟨ind₁, l₁, e1, e2, e3⟩ := is_iff.1 hi
    obtain ⟨ind₂, l₂, f1, f2, f3⟩ := is_iff.1 hj
    refine Odds.quiet (Drawless.validCrossoverFunctions i j) (wp_validCrossoverFunctions e1 f1 e2 f2 ?_)
    rw [e3, f3, if_pos (List.length_pos_iff.2 (cxValid_ne_nil.2 hcross))]
    exact hmate
  · rw [if_neg (by simp)]
    exact hmut

theorem odds_uncrossed (h53 : 2 ^ 53 ∣ M) (hu : Workable c) (h1 : cxpb ≤ 1)
    (hi : Is w i p) (hj : Is w j q) (hp : PipelineOk c.ps p)
    (hlen : ∀ m, c.maxLength = some m → p.length ≤ m)
    (hnewm : ∀ k ss', Mutated c.ps k p ss' → c.completed (printed ss') = false)
    (hcross : ¬ CanCross p q) (hf : FairChange M c.ps p)
    (P : List Step → Prop) :
    Odds M (offspringOf c cxpb i j) w (fun n w' => ∃ child, Is w' n child ∧ P child)
      (mutantShare c.ps c.maxLength P p) := by
  have hmut := odds_opMutate hu hi hp hlen hnewm hf P
  have key : Odds M (offspringOf c cxpb i j) w (fun n w' => ∃ child, Is w' n child ∧ P child)
      (⌈cxpb * 2 ^ 53⌉₊ / 2 ^ 53 * mutantShare c.ps c.maxLength P p
        + (1 - ⌈cxpb * 2 ^ 53⌉₊ / 2 ^ 53) * mutantShare c.ps c.maxLength P p) := by
    unfold offspringOf
    refine odds_below h53 h1 ?_ ?_
    · rw [if_pos rfl]
      obtain ⟨ind₁, l₁, e1, e2, e3⟩ := is_iff.1 hi
      obtain ⟨ind₂, l₂, f1, f2, f3⟩ := is_iff.1 hj
      refine Odds.quiet (Drawless.validCrossoverFunctions i j) (wp_validCrossoverFunctions e1 f1 e2 f2 ?_)
      rw [e3, f3, if_neg]
      · exact hmut
      · intro h
        exact hcross (cxValid_ne_nil.1 (List.length_pos_iff.1 h))
    · rw [if_neg (by simp)]
      exact hmut
  rw [← add_mul, add_sub_cancel, one_mul] at key
  exact key

/-- **C193.** The chance that an offspring of two parents that can be crossed is in `P` is the chance that
crossover gives such a child (C191) with the weight of the chance of crossover asked for, to the precision of
`random.random`, and the chance that mutating the first parent does (C192) with the remaining weight. -/
theorem C193 (hM : 0 < M) (h53 : 2 ^ 53 ∣ M) (hu : Workable c) (h1 : cxpb ≤ 1)
    (hi : Is w i p) (hj : Is w j q) (hp : PipelineOk c.ps p) (hq : PipelineOk c.ps q)
    (hlen : ∀ m, c.maxLength = some m → p.length ≤ m ∧ q.length ≤ m)
    (hnewx : ∀ a b, Crossed p q a b → c.completed (printed a) = false)
    (hnewm : ∀ k ss', Mutated c.ps k p ss' → c.completed (printed ss') = false)
    (hcross : CanCross p q) (hf : FairChange M c.ps p)
    (hV : valueChildren p q ≠ [] → (valueChildren p q).length ∣ M)
    (hd : 2 ≤ q.length → q.length - 1 ∣ M) (P : List Step → Prop) :
    Chance M (offspringOf c cxpb i j) w (fun n w' => ∃ child, Is w' n child ∧ P child)
      (⌈cxpb * 2 ^ 53⌉₊ / 2 ^ 53 * mixedShare P [valueChildren p q, tailChildren p q]
        + (1 - ⌈cxpb * 2 ^ 53⌉₊ / 2 ^ 53) * mutantShare c.ps c.maxLength P p) :=
  Odds.chance hM (fun _ _ _ => Iff.rfl) (odds_crossed h53 hu h1 hi hj hp hq hlen hnewx hnewm hcross hf hV hd P)

/-- **C193**: the offspring of parents that cannot be crossed is a mutant of the first. -/
theorem C193_cannot (hM : 0 < M) (h53 : 2 ^ 53 ∣ M) (hu : Workable c) (h1 : cxpb ≤ 1)
    (hi : Is w i p) (hj : Is w j q) (hp : PipelineOk c.ps p)
    (hlen : ∀ m, c.maxLength = some m → p.length ≤ m)
    (hnewm : ∀ k ss', Mutated c.ps k p ss' → c.completed (printed ss') = false)
    (hcross : ¬ CanCross p q) (hf : FairChange M c.ps p)
    (P : List Step → Prop) :
    Chance M (offspringOf c cxpb i j) w (fun n w' => ∃ child, Is w' n child ∧ P child)
      (mutantShare c.ps c.maxLength P p) :=
  Odds.chance hM (fun _ _ _ => Iff.rfl) (odds_uncrossed h53 hu h1 hi hj hp hlen hnewm hcross hf P)

end

/-! ### Examples -/

theorem Ex.fair_times {M : Nat} {ps : PSet} {ss : List Step} (h : FairChange M ps ss) (k : Nat) :
    FairChange (M * k) ps ss where
  bound := by
    obtain ⟨N, h0, h1⟩ := h.bound
    exact ⟨N, fun n a b => (h0 n a b).mul_right k, h1⟩

/-- An offspring of `SC > PCA > DT` and `PCA > NB`, crossed with a chance of one in four, in any set of
pipelines. -/
example (r : Stream) (P : List Step → Prop) : Chance (12 * 2 ^ 53) (offspringOf Ex.chanceConfig (1 / 4) 0 2) (Ex.w0 r)
    (fun n w' => ∃ child, Is w' n child ∧ P child)
    (1 / 4 * mixedShare P [valueChildren Ex.long Ex.double, tailChildren Ex.long Ex.double]
      + 3 / 4 * mutantShare Ex.space none P Ex.long) := by
  have hv : (valueChildren Ex.long Ex.double).length = 1 := by decide +kernel
  have := C193 (M := 12 * 2 ^ 53) (by positivity) (Nat.dvd_mul_left _ _) Ex.chance_workable (cxpb := 1 / 4)
    (by norm_num) (Ex.is_long r) (Ex.is_double r) Ex.long_ok Ex.double_ok (fun m hm => by cases hm)
    (fun _ _ _ => rfl) (fun _ _ _ => rfl) Ex.long_double
    (Ex.fair_times Ex.fair_long _) (fun _ => by rw [hv]; exact one_dvd _)
    (fun _ => by show 1 ∣ _; exact one_dvd _) P
  have e : (1 / 4 : ℚ) * 2 ^ 53 = ((2 ^ 51 : Nat) : ℚ) := by norm_num
  rw [e, Nat.ceil_natCast] at this
  have e' : ((2 ^ 51 : Nat) : ℚ) / 2 ^ 53 = 1 / 4 := by norm_num
  have e2 : (1 - 1 / 4 : ℚ) = 3 / 4 := by norm_num
  rw [e', e2] at this
  exact this

/-- A pipeline of one step cannot be crossed with itself. -/
example (r : Stream) (P : List Step → Prop) : Chance (12 * 2 ^ 53) (offspringOf Ex.chanceConfig (1 / 4) 1 1) (Ex.w0 r)
    (fun n w' => ∃ child, Is w' n child ∧ P child) (mutantShare Ex.space none P Ex.single) :=
  C193_cannot (M := 12 * 2 ^ 53) (by positivity) (Nat.dvd_mul_left _ _) Ex.chance_workable (cxpb := 1 / 4)
    (by norm_num) (Ex.is_single r) (Ex.is_single r) Ex.single_ok (fun m hm => by cases hm) (fun _ _ _ => rfl)
    (by
      have h : cxValid Ex.single Ex.single = [] := by decide +kernel
      exact fun hc => cxValid_ne_nil.2 hc h)
    (Ex.fair_times (Ex.fair (by decide) (by decide)) _) P

end Gama
