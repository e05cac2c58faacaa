import Verif.Props.ChanceRetry

/-!
# Which pipelines have a chance of being the next when some were evaluated before

`create_from_population`, `gama/genetic_programming/selection.py` l.12-29, with
`OperatorSet.try_until_new`, `gama/genetic_programming/operator_set.py` l.52-60.
-/

namespace Gama
open Spec PyM

section
variable {M : Nat} {c : OpConfig} {cxpb : ℚ} {w : World} {i j : Nat} {p q child : List Step}

theorem again_mutant (hM : 0 < M) (hu : Workable c) (hi : Is w i p) (hp : PipelineOk c.ps p)
    (hlen : ∀ m, c.maxLength = some m → p.length ≤ m) (hf : FairChange M c.ps p) :
    0 < retryShare (fun S => mutantShare c.ps c.maxLength S p)
        (fun x => c.completed (printed x) = true) c.maxRetry (· = child) ↔ CanMutateTo c p child := by
  rw [(odds_retryMutate hM hu hi hp hlen hf (· = child)).pos_iff (fun _ _ _ => Iff.rfl), reach_child]
  exact C119_partial hu.ok hu.retry hi hp hlen child

theorem again_mixed (hM : 0 < M) (hu : Workable c) (hi : Is w i p) (hj : Is w j q) (hp : PipelineOk c.ps p)
    (hq : PipelineOk c.ps q) (hlen : ∀ m, c.maxLength = some m → p.length ≤ m ∧ q.length ≤ m)
    (hcan : CanCross p q) (h2 : 2 ∣ M) (hV : valueChildren p q ≠ [] → (valueChildren p q).length ∣ M)
    (hd₁ : 2 ≤ p.length → p.length - 1 ∣ M) (hd₂ : 2 ≤ q.length → q.length - 1 ∣ M) :
    0 < retryShare (fun S => mixedShare S [valueChildren p q, tailChildren p q])
        (fun x => c.completed (printed x) = true) c.maxRetry (· = child) ↔ ∃ b, Crossed p q child b := by
  rw [(odds_retryMate hM hu hi hj hp hq hlen hcan h2 hV hd₁ hd₂ (· = child)).pos_iff
    (fun _ _ _ => Iff.rfl), reach_child]
  exact C121 hu.ok hu.retry hi hj hp hq hlen child

theorem offspringAgainShare_pos (hM : 0 < M) (hu : Workable c) (h1 : cxpb ≤ 1)
    (hi : Is w i p) (hj : Is w j q) (hp : PipelineOk c.ps p) (hq : PipelineOk c.ps q)
    (hlen : ∀ m, c.maxLength = some m → p.length ≤ m ∧ q.length ≤ m) (hf : FairChange M c.ps p)
    (hV : valueChildren p q ≠ [] → (valueChildren p q).length ∣ M)
    (hd : 2 ≤ q.length → q.length - 1 ∣ M) :
    0 ≤ offspringAgainShare c cxpb (· = child) p q ∧
      (0 < offspringAgainShare c cxpb (· = child) p q ↔ CanHave c cxpb p q child) := by
  classical
  have hl1 : ∀ m, c.maxLength = some m → p.length ≤ m := fun m hm => (hlen m hm).1
  have hmut := again_mutant (child := child) hM hu hi hp hl1 hf
  have hmut0 := (odds_retryMutate hM hu hi hp hl1 hf (· = child)).nonneg
  unfold offspringAgainShare CanHave
  dsimp only
  by_cases hc : CanCross p q
  · rw [if_pos hc]
    obtain ⟨_, _, d3, _, d5⟩ := fair_dvd hf
    have h2 := d5 2 (by omega) (by omega)
    have hd1 : 2 ≤ p.length → p.length - 1 ∣ M := fun h => d3 _ (by omega) (by omega)
    have hx := again_mixed (child := child) hM hu hi hj hp hq hlen hc h2 hV hd1 hd
    have hx0 := (odds_retryMate hM hu hi hj hp hq hlen hc h2 hV hd1 hd (· = child)).nonneg
    have ha0 : (0 : ℚ) ≤ ⌈cxpb * 2 ^ 53⌉₊ / 2 ^ 53 := by positivity
    have hb0 : (0 : ℚ) ≤ 1 - ⌈cxpb * 2 ^ 53⌉₊ / 2 ^ 53 := by
      rw [sub_nonneg, div_le_one (by positivity)]
      have : ⌈cxpb * 2 ^ 53⌉₊ ≤ 2 ^ 53 := by
        rw [Nat.ceil_le, Nat.cast_pow, Nat.cast_ofNat]
        nlinarith [show (0 : ℚ) < 2 ^ 53 by positivity]
      have : ((⌈cxpb * 2 ^ 53⌉₊ : Nat) : ℚ) ≤ ((2 ^ 53 : Nat) : ℚ) := Nat.cast_le.2 this
      rwa [Nat.cast_pow, Nat.cast_ofNat] at this
    have t1 := mul_nonneg ha0 hx0
    have t2 := mul_nonneg hb0 hmut0
    refine ⟨add_nonneg t1 t2, ?_⟩
    constructor
    · intro h
      by_cases g : 0 < (⌈cxpb * 2 ^ 53⌉₊ / 2 ^ 53 : ℚ) * retryShare (fun S => mixedShare S [valueChildren p q, tailChildren p q])
        (fun x => c.completed (printed x) = true) c.maxRetry (· = child)
      · left
        exact ⟨ceil_pos.1 (pos_of_mul_pos_left g hx0), hx.1 (pos_of_mul_pos_right g ha0)⟩
      · have g' : 0 < (1 - ⌈cxpb * 2 ^ 53⌉₊ / 2 ^ 53 : ℚ) * retryShare (fun S => mutantShare c.ps c.maxLength S p)
            (fun x => c.completed (printed x) = true) c.maxRetry (· = child) := by linarith
        right
        exact ⟨Or.inl (ceil_rest.1 (pos_of_mul_pos_left g' hmut0)), hmut.1 (pos_of_mul_pos_right g' hb0)⟩
    · rintro (⟨h, h'⟩ | ⟨h | h, h'⟩)
      · have := mul_pos (ceil_pos.2 h) (hx.2 h')
        linarith
      · have := mul_pos (ceil_rest.2 h) (hmut.2 h')
        linarith
      · exact absurd hc h
  · rw [if_neg hc]
    refine ⟨hmut0, ?_⟩
    rw [hmut]
    constructor
    · exact fun h => Or.inr ⟨Or.inr hc, h⟩
    · rintro (⟨_, _, h⟩ | ⟨_, h⟩)
      · exact absurd h.can hc
      · exact h

/-- **C197**, mutation. -/
theorem C197_mutate (hM : 0 < M) (hu : Workable c) (hi : Is w i p) (hp : PipelineOk c.ps p)
    (hlen : ∀ m, c.maxLength = some m → p.length ≤ m) (hf : FairChange M c.ps p)
    {r : ℚ} (h : Chance M (opMutate c i) w (fun n w' => ∃ s, Is w' n s ∧ s = child) r) :
    0 < r ↔ CanMutateTo c p child := by
  rw [chance_unique h (C196_mutate hM hu hi hp hlen hf (· = child))]
  exact again_mutant hM hu hi hp hlen hf

/-- **C197**, crossover. -/
theorem C197_mate (hM : 0 < M) (hu : Workable c) (hi : Is w i p) (hj : Is w j q) (hp : PipelineOk c.ps p)
    (hq : PipelineOk c.ps q) (hlen : ∀ m, c.maxLength = some m → p.length ≤ m ∧ q.length ≤ m)
    (hcan : CanCross p q) (h2 : 2 ∣ M) (hV : valueChildren p q ≠ [] → (valueChildren p q).length ∣ M)
    (hd₁ : 2 ≤ p.length → p.length - 1 ∣ M) (hd₂ : 2 ≤ q.length → q.length - 1 ∣ M)
    {r : ℚ} (h : Chance M (opMate c i j) w (fun n w' => ∃ s, Is w' n s ∧ s = child) r) :
    0 < r ↔ ∃ b, Crossed p q child b := by
  rw [chance_unique h (C196_mate hM hu hi hj hp hq hlen hcan h2 hV hd₁ hd₂ (· = child))]
  exact again_mixed hM hu hi hj hp hq hlen hcan h2 hV hd₁ hd₂

end

section
variable {M : Nat} {c : OpConfig} {cxpb : ℚ} {w : World} {pop : List Nat} {pipes : List (List Step)}
  {values : List (List Score)} {child : List Step}

/-- **C197.** What was evaluated before does not change which pipelines have a chance of being the next: they are
those of C195. -/
theorem C197 (hM : 0 < M) (hu : Workable c) (h1 : cxpb ≤ 1) (h3 : 3 ≤ pop.length)
    (hv : List.Forall₂ (FirstTwo w) pop values) (his : List.Forall₂ (Is w) pop pipes)
    (hok : ∀ p ∈ pipes, PipelineOk c.ps p)
    (hlen : ∀ p ∈ pipes, ∀ m, c.maxLength = some m → p.length ≤ m)
    (hf : FairPopulation M c.ps pipes) :
    ∃ s L, nsga2 values values.length = .ok s ∧ Layering (DomAt values) values.length L ∧
      (∀ j x, InFront L j x → s.rank x = max j 1) ∧
      ∀ r, Chance M ((gamaOps c cxpb).create pop) w (fun n w' => ∃ ss, Is w' n ss ∧ ss = child) r →
        (0 < r ↔ ∃ a b, a < pop.length ∧ b < pop.length ∧ a ≠ b ∧
          (∃ y, y < pop.length ∧ y ≠ a ∧ ¬ Ahead s y a) ∧
          (∃ y, y < pop.length ∧ y ≠ b ∧ y ≠ a ∧ ¬ Ahead s y b) ∧
          CanHave c cxpb (pipes.getD a []) (pipes.getD b []) child) := by
  obtain ⟨s, L, e1, e2, e3, h⟩ := C196 hM hu h1 h3 hv his hok hlen hf
  refine ⟨s, L, e1, e2, e3, fun r hr => ?_⟩
  rw [chance_unique hr (h (· = child))]
  have hoff : ∀ a b, a < pop.length → b < pop.length → _ := fun a b ha hb => by
    obtain ⟨ia, ma⟩ := is_at his ha
    obtain ⟨ib, mb⟩ := is_at his hb
    exact offspringAgainShare_pos (child := child) hM hu h1 ia ib (hok _ ma) (hok _ mb)
      (fun m hm => ⟨hlen _ ma m hm, hlen _ mb m hm⟩) (hf.change _ ma)
      (hf.cross _ ma _ mb) (hf.tail _ mb)
  have hn : (3 : ℚ) ≤ pop.length := by exact_mod_cast h3
  have hd1 : (0 : ℚ) < pop.length * (pop.length - 1) := mul_pos (by linarith) (by linarith)
  have hd2 : (0 : ℚ) < (pop.length - 1) * (pop.length - 2) := mul_pos (by linarith) (by linarith)
  have hmem : ∀ {a b}, b ∈ (List.range pop.length).erase a ↔ b ≠ a ∧ b < pop.length := fun {a b} => by
    rw [List.nodup_range.mem_erase_iff, List.mem_range]
  have inner : ∀ a, a < pop.length → ∀ b ∈ (List.range pop.length).erase a,
      0 ≤ favour s pop.length [a] b / ((pop.length - 1) * (pop.length - 2) : ℚ) *
        offspringAgainShare c cxpb (· = child) (pipes.getD a []) (pipes.getD b []) := fun a ha b hb =>
    mul_nonneg (div_nonneg (Nat.cast_nonneg _) hd2.le) (hoff a b ha (hmem.1 hb).2).1
  have outer := fun a (ha : a ∈ List.range pop.length) =>
    mul_nonneg (div_nonneg (Nat.cast_nonneg (favour s pop.length [] a)) hd1.le)
      (sum_nonneg (inner a (List.mem_range.1 ha)))
  rw [sum_pos_iff outer]
  constructor
  · rintro ⟨a, ha, hp⟩
    have ha' := List.mem_range.1 ha
    have q1 := pos_of_mul_pos_left hp (sum_nonneg (inner a ha'))
    have q2 := pos_of_mul_pos_right hp (div_nonneg (Nat.cast_nonneg _) hd1.le)
    obtain ⟨b, hb, hq⟩ := (sum_pos_iff (inner a ha')).1 q2
    obtain ⟨hba, hb'⟩ := hmem.1 hb
    have q3 := pos_of_mul_pos_left hq (hoff a b ha' hb').1
    have q4 := pos_of_mul_pos_right hq (div_nonneg (Nat.cast_nonneg _) hd2.le)
    rw [div_pos_iff_of_pos_right hd1, Nat.cast_pos, favour_pos] at q1
    rw [div_pos_iff_of_pos_right hd2, Nat.cast_pos, favour_pos] at q3
    obtain ⟨y, y1, y2, _, y4⟩ := q1
    obtain ⟨z, z1, z2, z3, z4⟩ := q3
    exact ⟨a, b, ha', hb', Ne.symm hba, ⟨y, y1, y2, y4⟩, ⟨z, z1, z2, by simpa using z3, z4⟩,
      (hoff a b ha' hb').2.1 q4⟩
  · rintro ⟨a, b, ha, hb, hab, ⟨y, y1, y2, y4⟩, ⟨z, z1, z2, z3, z4⟩, hc⟩
    refine ⟨a, List.mem_range.2 ha, mul_pos ?_ ((sum_pos_iff (inner a ha)).2 ⟨b, hmem.2 ⟨Ne.symm hab, hb⟩,
      mul_pos ?_ ((hoff a b ha hb).2.2 hc)⟩)⟩
    · rw [div_pos_iff_of_pos_right hd1, Nat.cast_pos, favour_pos]
      exact ⟨y, y1, y2, by simp, y4⟩
    · rw [div_pos_iff_of_pos_right hd2, Nat.cast_pos, favour_pos]
      exact ⟨z, z1, z2, by simpa using z3, z4⟩

end

/-! ### Examples -/

/-- `PCA > DT` was evaluated before, and still may be the result of a mutation. -/
example (r : Stream) : Ex.againConfig.completed (printed Ex.shorter) = true ∧
    ∃ x, Chance 12 (opMutate Ex.againConfig 0) (Ex.w0 r) (fun n w' => ∃ s, Is w' n s ∧ s = Ex.shorter) x ∧ 0 < x := by
  have h := C196_mutate (M := 12) (by decide) Ex.again_workable (Ex.is_long r) Ex.long_ok (fun m hm => by cases hm)
    Ex.fair_long (· = Ex.shorter)
  exact ⟨by simp [Ex.againConfig], _, h, (C197_mutate (M := 12) (by decide) Ex.again_workable (Ex.is_long r)
    Ex.long_ok (fun m hm => by cases hm) Ex.fair_long h).2 Ex.shorter_can⟩

/-- The same for crossover. -/
example (r : Stream) : ∃ x, Chance 2 (opMate Ex.againConfig 2 0) (Ex.w0 r)
    (fun n w' => ∃ s, Is w' n s ∧ s = [⟨Ex.pNB, [Ex.alpha1]⟩, ⟨Ex.pPCA, [Ex.whitT]⟩, ⟨Ex.pSC, []⟩]) x ∧ 0 < x := by
  have hv : (valueChildren Ex.double Ex.long).length ∣ 2 := by decide +kernel
  have hc : CanCross Ex.double Ex.long := Or.inr (by decide)
  have h := C196_mate (M := 2) (c := Ex.againConfig) (by decide) Ex.again_workable (Ex.is_double r) (Ex.is_long r)
    Ex.double_ok Ex.long_ok (fun m hm => by cases hm) hc (by decide) (fun _ => hv)
    (fun _ => by decide) (fun _ => by decide) (· = [⟨Ex.pNB, [Ex.alpha1]⟩, ⟨Ex.pPCA, [Ex.whitT]⟩, ⟨Ex.pSC, []⟩])
  exact ⟨_, h, (C197_mate (M := 2) (by decide) Ex.again_workable (Ex.is_double r) (Ex.is_long r)
    Ex.double_ok Ex.long_ok (fun m hm => by cases hm) hc (by decide) (fun _ => hv)
    (fun _ => by decide) (fun _ => by decide) h).2
    ⟨_, Crossed.tails [⟨Ex.pNB, [Ex.alpha1]⟩] [⟨Ex.pPCA, [Ex.whitF]⟩] [⟨Ex.pDT, [Ex.alpha1, Ex.depth2]⟩]
      [⟨Ex.pPCA, [Ex.whitT]⟩, ⟨Ex.pSC, []⟩] (by simp) (by simp) (by simp) (by simp)⟩⟩

/-- A population of three may have the pipeline that was evaluated before as offspring. -/
example (r : Stream) (x : ℚ)
    (h : Chance (12 * 2 ^ 53) ((gamaOps Ex.againConfig (1 / 4)).create [0, 1, 2]) (Ex.breedWorld r)
      (fun n w' => ∃ ss, Is w' n ss ∧ ss = Ex.shorter) x) : 0 < x := by
  obtain ⟨s, _, h1, _, _, key⟩ := C197 (M := 12 * 2 ^ 53) (child := Ex.shorter) (by positivity) Ex.again_workable
    (cxpb := 1 / 4) (by norm_num) (pop := [0, 1, 2]) (by decide) (Ex.breed_values r) (Ex.breed_is r)
    Ex.breed_ok (fun _ _ m hm => by cases hm) Ex.fairPopulation
  have e : (nsga2 Ex.scores Ex.scores.length).toOption.map (fun c => (crowdBetter c.rank c.dist 1 0,
      crowdBetter c.rank c.dist 2 1)) = some (false, false) := by decide +kernel
  rw [h1] at e
  simp only [Except.toOption, Option.map_some, Option.some.injEq, Prod.mk.injEq] at e
  refine (key x h).2 ⟨0, 1, by decide, by decide, by decide, ⟨1, by decide, by decide, fun h => ?_⟩,
    ⟨2, by decide, by decide, by decide, fun h => ?_⟩, Or.inr ⟨Or.inl (by norm_num), Ex.shorter_can⟩⟩
  · rw [ahead_iff.2 h] at e
    cases e.1
  · rw [ahead_iff.2 h] at e
    cases e.2

end Gama
