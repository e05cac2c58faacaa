import Verif.Model.Scoring
import Verif.Props.Data
import Verif.Props.Evaluate
import Mathlib.Algebra.BigOperators.Group.Finset.Basic
import Mathlib.Algebra.BigOperators.Field
import Mathlib.Tactic.FieldSimp

/-! # Scores of a classifier (C113), successful evaluations (C115), averages over classes
(C98, C116) -/

namespace Gama

variable {L : Type} [DecidableEq L]

/-! ## C113: what `score` accepts -/

theorem distinct_le_of_subset {l C : List L} (h : ∀ x ∈ l, x ∈ C) : (distinct l).length ≤ C.length :=
  (List.subperm_of_subset (nodup_distinct l) fun x hx => h x (mem_distinct.1 hx)).length_le

/-- The labels are among `a` and `one` for some `a`. -/
def Spec.OneOrOther (one : L) (l : List L) : Prop := ∃ a, ∀ x ∈ l, x = a ∨ x = one

open Spec

theorem binary_iff (one : L) (l : List L) (hl : l ≠ []) :
    (¬ 2 < (distinct l).length ∧ ¬ (one ∉ l ∧ 2 ≤ (distinct l).length)) ↔ OneOrOther one l := by
  constructor
  · rintro ⟨h1, h2⟩
    obtain ⟨x, hx⟩ := List.exists_mem_of_ne_nil l hl
    by_cases h3 : 2 ≤ (distinct l).length
    · have ho : one ∈ l := not_not.1 fun h => h2 ⟨h, h3⟩
      have hd : ∃ a b, distinct l = [a, b] := by
        rcases hd : distinct l with _ | ⟨a, _ | ⟨b, _ | ⟨c, r⟩⟩⟩ <;> rw [hd] at h1 h3 <;> simp at h1 h3
        exact ⟨a, b, rfl⟩
      obtain ⟨a, b, hd⟩ := hd
      have hm : ∀ y ∈ l, y = a ∨ y = b := by
        intro y hy
        have := mem_distinct.2 hy
        rw [hd] at this
        simpa using this
      rcases hm one ho with e | e
      · exact ⟨b, fun y hy => by rw [e]; exact (hm y hy).symm⟩
      · exact ⟨a, fun y hy => by rw [e]; exact hm y hy⟩
    · refine ⟨x, fun y hy => Or.inl ?_⟩
      have hd : ∃ a, distinct l = [a] := by
        have hx' := mem_distinct.2 hx
        rcases hd : distinct l with _ | ⟨a, _ | ⟨b, r⟩⟩
        · rw [hd] at hx'; cases hx'
        · exact ⟨a, rfl⟩
        · rw [hd] at h3; simp at h3
      obtain ⟨a, hd⟩ := hd
      have h1 := mem_distinct.2 hx
      have h2 := mem_distinct.2 hy
      rw [hd] at h1 h2
      rw [List.mem_singleton.1 h1, List.mem_singleton.1 h2]
  · rintro ⟨a, h⟩
    constructor
    · have := distinct_le_of_subset (C := [a, one]) fun x hx => by simpa using h x hx
      simp at this
      omega
    · rintro ⟨h1, h2⟩
      have := distinct_le_of_subset (C := [a]) fun x hx => by
        rcases h x hx with e | e
        · simp [e]
        · exact absurd (e ▸ hx) h1
      simp at this
      omega

/-- **C113, the full claim**: a fitted classifier can be scored on any data with labels it knows,
with every metric. -/
def C113_claim : Prop :=
  ∀ (k : ScoreKind) (classes y pred : List Nat), classes.Nodup → 2 ≤ classes.length → y ≠ [] →
    (∀ x ∈ y, x ∈ classes) → (∀ x ∈ pred, x ∈ classes) → pred.length = y.length →
    classifierScore k 1 classes y pred = .ok ()

/-- **C113** fails: the default metric, log loss, refuses data in which a class does not occur, and
the area under the curve refuses everything. -/
theorem C113_false : ¬ C113_claim := by
  intro h
  have := h .logLoss [0, 1, 2] [0, 1, 1] [0, 1, 2] (by decide) (by decide) (by decide) (by decide)
    (by decide) rfl
  revert this
  decide +kernel

/-- **C113** exactly where it holds, for data with known labels: always for accuracy; for precision,
recall and F1 (however averaged) if all labels and predictions are one label and possibly the label 1;
for average precision if the labels are; for log loss if every class occurs; for the area under the
curve never. -/
theorem C113_partial (k : ScoreKind) (one : L) (classes y pred : List L) (hc : classes.Nodup)
    (h2 : 2 ≤ classes.length) (hy : y ≠ []) (hm : ∀ x ∈ y, x ∈ classes)
    (hl : pred.length = y.length) :
    classifierScore k one classes y pred = .ok () ↔
      match k with
      | .accuracy => True
      | .setwise => OneOrOther one (y ++ pred)
      | .averagePrecision => OneOrOther one y
      | .logLoss => ∀ c ∈ classes, c ∈ y
      | .rocAuc => False := by
  unfold classifierScore scoreTakes
  rw [if_neg hy]
  cases k with
  | accuracy => simp [hl, ScoreKind.needsProba]
  | setwise =>
    dsimp only
    simp only [ScoreKind.needsProba, Bool.false_eq_true, if_false]
    rw [if_neg (by simp [hl]), ← binary_iff one (y ++ pred) (by simp [hy])]
    by_cases a : 2 < (distinct (y ++ pred)).length
    · simp [a]
    · rw [if_neg a]
      by_cases b : one ∉ y ++ pred ∧ 2 ≤ (distinct (y ++ pred)).length
      · rw [if_pos b]; constructor
        · intro h; cases h
        · intro h; exact absurd b h.2
      · rw [if_neg b]; exact ⟨fun _ => ⟨a, b⟩, fun _ => rfl⟩
  | averagePrecision =>
    simp only [ScoreKind.needsProba, Bool.false_eq_true, if_false]
    rw [← binary_iff one y hy]
    by_cases a : 2 < (distinct y).length
    · simp [a]
    · rw [if_neg a]
      by_cases b : one ∉ y ∧ 2 ≤ (distinct y).length
      · rw [if_pos ⟨by omega, b.1⟩]; constructor
        · intro h; cases h
        · intro h; exact absurd b h.2
      · rw [if_neg (fun h => b ⟨h.2, by omega⟩), if_neg (by simp [hl])]
        exact ⟨fun _ => ⟨a, b⟩, fun _ => rfl⟩
  | logLoss =>
    simp only [ScoreKind.needsProba, if_true]
    have hle := distinct_le_of_subset hm
    constructor
    · intro h c hcm
      by_contra hn
      have : (distinct y).length ≤ (classes.erase c).length :=
        distinct_le_of_subset fun x hx => (hc.mem_erase_iff).2 ⟨fun e => hn (e ▸ hx), hm x hx⟩
      rw [List.length_erase_of_mem hcm] at this
      split at h
      · cases h
      · rw [if_pos (by rw [if_neg (by omega)]; omega)] at h; cases h
    · intro h
      have : classes.length ≤ (distinct y).length :=
        (List.subperm_of_subset hc fun x hx => mem_distinct.2 (h x hx)).length_le
      rw [if_neg (by omega), if_neg (by rw [if_neg (by omega)]; omega)]
  | rocAuc =>
    simp only [ScoreKind.needsProba, if_true, iff_false]
    split
    · nofun
    · split
      · nofun
      · rw [if_pos (by omega)]; nofun

/-- Labels 0 and 1, some of them predicted wrongly. -/
example : classifierScore .setwise 1 [0, 1] [0, 1, 1] [1, 1, 0] = .ok () ∧
    classifierScore .logLoss 1 [0, 1] [0, 1, 1] [1, 1, 0] = .ok () ∧
    classifierScore .setwise 1 [0, 2] [0, 2, 2] [2, 2, 0] = .error .valueError := by decide +kernel

/-! ## C115: successful evaluations -/

variable {E V M : Type}

deriving instance DecidableEq for IndResult

/-- **C115, the full claim**: an evaluation counts as successful in a report exactly if it has no
error (all scores in the folds being finite). -/
def C115_claim : Prop :=
  ∀ (env : EvalEnv Nat Nat Unit) (describe : EvalError → Str) (length rung maxRung : Nat) (t : ℚ)
    (r : IndResult Nat Nat), (∀ folds res es, env.cv folds = .ok (res, es) → ∀ m, ∀ s ∈ res m, s.isFinite = true) →
    evaluateIndividual env describe length t none 0 true .none [()] = .ok r →
    ((evaluateOnRung rung maxRung r).score.all Score.isFinite = true ↔
      (evaluateOnRung rung maxRung r).error = none)

/-- **C115** fails: evaluations on the lower rungs of successive halving have an error and a score. -/
theorem C115_false : ¬ C115_claim := by
  intro h
  have := (h (sampleEnv [([1], [0]), ([0], [1])] [0, 1] id) (fun _ => ['e']) 2 0 1 1
    ⟨some ⟨none, [some [0], some [11]]⟩, [.fin 1, .fin (-2)], some [0, 1], none, [.fin 1, .fin (-2)]⟩ ?_ ?_).1 ?_
  · cases this
  · intro folds res es he m s hs
    simp only [sampleEnv, Except.ok.injEq, Prod.mk.injEq] at he
    rw [← he.1] at hs
    rw [List.mem_singleton.1 hs]
    rfl
  · decide +kernel
  · decide +kernel

theorem meanScores_finite (l : List Score) (h : ∀ s ∈ l, s.isFinite = true) :
    (meanScores l).isFinite = true := by
  have go : ∀ (n : List Score) (l : List Score) (acc : ℚ), (∀ s ∈ l, s.isFinite = true) →
      (meanScores.go n l acc).isFinite = true := by
    intro n l
    induction l with
    | nil => intro acc _; rfl
    | cons s l ih =>
      intro acc h
      have hs := h s (by simp)
      cases s with
      | fin q => exact ih _ fun s hs => h s (by simp [hs])
      | ninf => cases hs
      | pinf => cases hs
  exact go l l 0 h

/-- **C115**, what does hold, on any rung: the successful evaluations of a report are exactly those
whose cross-validation was completed.  So evaluations without error are among them, and for a search
without rungs (or on the highest one) the others in it are those that failed after scoring. -/
theorem C115_partial (env : EvalEnv E V M) (describe : EvalError → Str) (length rung maxRung : Nat)
    (t : ℚ) (deadline : Option ℚ) (now : ℚ) (addLength : Bool) (s : Subsample) (metrics : List M)
    (r : IndResult E V) (hm : metrics ≠ [])
    (hf : ∀ folds res es, env.cv folds = .ok (res, es) → ∀ m, ∀ s ∈ res m, s.isFinite = true)
    (h : evaluateIndividual env describe length t deadline now addLength s metrics = .ok r) :
    ((evaluateOnRung rung maxRung r).score.all Score.isFinite = true ↔ ¬ Spec.ScoringFailed env s) ∧
    ((evaluateOnRung rung maxRung r).error = none →
      (evaluateOnRung rung maxRung r).score.all Score.isFinite = true) ∧
    ((evaluateOnRung rung maxRung r).error = none ↔ r.error = none ∧ rung = maxRung) := by
  have hs : (evaluateOnRung rung maxRung r).score = r.score := by
    unfold evaluateOnRung; split <;> rfl
  have he : (evaluateOnRung rung maxRung r).error = none ↔ r.error = none ∧ rung = maxRung := by
    unfold evaluateOnRung
    by_cases a : r.error = none ∧ rung ≠ maxRung
    · rw [if_pos a]; simp [a.2]
    · rw [if_neg a]
      constructor
      · intro h
        exact ⟨h, not_not.1 fun hn => a ⟨h, hn⟩⟩
      · exact fun h => h.1
  unfold evaluateIndividual at h
  cases hp : evaluatePipeline env (evalTimeout t deadline now) s metrics with
  | error e => rw [hp] at h; cases h
  | ok q =>
    rw [hp] at h
    simp only [Except.ok.injEq] at h
    obtain ⟨p1, p2, p3, p4⟩ := evaluate_scores hp
    obtain ⟨b1, b2, b3⟩ := body_scores env s metrics
    have fin : r.score.all Score.isFinite = true ↔ q.scores.all Score.isFinite = true := by
      rw [← h]
      dsimp only
      split
      · simp [Score.isFinite]
      · rfl
    have main : q.scores.all Score.isFinite = true ↔ ¬ Spec.ScoringFailed env s := by
      constructor
      · intro ha hfail
        obtain ⟨x, hx⟩ := List.exists_mem_of_ne_nil q.scores (by
          intro e
          rw [p2] at e
          rw [e] at b1
          exact hm (List.length_eq_zero_iff.1 b1.symm))
        have h1 := List.all_eq_true.1 ha x hx
        rw [b2 hfail x (p2 ▸ hx)] at h1
        cases h1
      · intro hn
        cases hpf : prepareFolds env s with
        | error x => exact absurd (Or.inl ⟨x, hpf⟩) hn
        | ok folds =>
          cases hcv : env.cv folds with
          | error x => exact absurd (Or.inr ⟨folds, x, hpf, hcv⟩) hn
          | ok c =>
            obtain ⟨res, es⟩ := c
            rw [p2, b3 folds res es hpf hcv, List.all_eq_true]
            intro x hx
            obtain ⟨m, _, rfl⟩ := List.mem_map.1 hx
            exact meanScores_finite _ (hf folds res es hcv m)
    refine ⟨by rw [hs, fin, main], fun hz => ?_, he⟩
    rw [hs, fin, main]
    intro hfail
    have := (C85_partial env _ s metrics q hfail hp).1
    have hr := (he.1 hz).1
    rw [← h] at hr
    exact this (by simpa using hr)

/-- The report shows them in the order of the log. -/
theorem C115_rows {R : Type} (finite : R → Bool) (rows : List (ReportRow R)) :
    (successfulEvaluations finite rows).Sublist rows ∧
    ∀ r, r ∈ successfulEvaluations finite rows ↔ r ∈ rows ∧ ∀ m ∈ r.metrics, finite m = true := by
  refine ⟨List.filter_sublist, fun r => ?_⟩
  simp [successfulEvaluations]

/-! ## C98, C116: averages over classes -/

namespace Spec

/-- The measure of one class. -/
def ofClass (m : Measure) (y p : List L) (c : L) : ℚ :=
  m.of (truePos y p c) (p.count c) (y.count c)

/-- The averages over a set of classes: the mean of the measures of the classes; the measure of the
counts taken together; the mean weighted by the number of true labels. -/
def ClassAverage (m : Measure) (C : Finset L) (y p : List L) : Average → ℚ
  | .macroAvg => (∑ c ∈ C, ofClass m y p c) / C.card
  | .micro => m.of (∑ c ∈ C, (truePos y p c : ℚ)) (∑ c ∈ C, (p.count c : ℚ)) (∑ c ∈ C, (y.count c : ℚ))
  | .weighted => if (∑ c ∈ C, (y.count c : ℚ)) = 0 then 0
    else (∑ c ∈ C, (y.count c : ℚ) * ofClass m y p c) / ∑ c ∈ C, (y.count c : ℚ)
  | .samples => 0

/-- Every class occurs equally often. -/
def Balanced (train : List L) : Prop := ∃ n, 0 < n ∧ ∀ c ∈ train, train.count c = n

end Spec

theorem sumOver_count (l : List L) (f : L → ℚ) :
    sumOver l f = ∑ c ∈ l.toFinset, (l.count c : ℚ) * f c := by
  rw [sumOver, Finset.sum_list_map_count]
  simp [nsmul_eq_mul]

theorem length_count (l : List L) : (l.length : ℚ) = ∑ c ∈ l.toFinset, (l.count c : ℚ) := by
  have := sumOver_count l fun _ => (1 : ℚ)
  simpa [sumOver] using this

/-- **C98** for macro averages, in general: each class counts as often as it occurs in the training
data. -/
theorem C98_measures_partial (m : Measure) (train y p : List L) :
    searchScore m .macroAvg train y p =
      .ok (∑ c ∈ train.toFinset, (train.count c : ℚ) / train.length * ofClass m y p c) := by
  simp only [searchScore, prfScore, sumOver_count, Finset.sum_div]
  congr 1
  apply Finset.sum_congr rfl
  intro c _
  rw [ofClass]
  ring

theorem prfDivide_scale (n a b : ℚ) (hn : n ≠ 0) : prfDivide (n * a) (n * b) = prfDivide a b := by
  unfold prfDivide
  by_cases hb : b = 0
  · simp [hb]
  · rw [if_neg hb, if_neg (mul_ne_zero hn hb), mul_div_mul_left _ _ hn]

theorem Measure.of_scale (m : Measure) (n a b c : ℚ) (hn : n ≠ 0) :
    m.of (n * a) (n * b) (n * c) = m.of a b c := by
  cases m <;> simp only [Measure.of, prfDivide_scale _ _ _ hn]

/-- **C98** for training data with equally frequent classes. -/
theorem C98_averages_partial (m : Measure) (a : Average) (train y p : List L) (hb : Balanced train)
    (ha : a ≠ .samples) : searchScore m a train y p = .ok (ClassAverage m train.toFinset y p a) := by
  obtain ⟨n, hn, hc⟩ := hb
  have hn : (n : ℚ) ≠ 0 := by exact_mod_cast hn.ne'
  have key : ∀ f : L → ℚ, sumOver train f = n * ∑ c ∈ train.toFinset, f c := by
    intro f
    rw [sumOver_count, Finset.mul_sum]
    apply Finset.sum_congr rfl
    intro c hm
    rw [hc c (List.mem_toFinset.1 hm)]
  have len : (train.length : ℚ) = n * train.toFinset.card := by
    have := key fun _ => 1
    simpa [sumOver] using this
  cases a with
  | samples => exact absurd rfl ha
  | macroAvg =>
    simp only [searchScore, prfScore, key, len, mul_div_mul_left _ _ hn]
    rfl
  | micro =>
    simp only [searchScore, prfScore, key, Measure.of_scale m _ _ _ _ hn]
    rfl
  | weighted =>
    simp only [searchScore, prfScore, key, mul_eq_zero, hn, false_or, mul_div_mul_left _ _ hn,
      ClassAverage, ofClass]
    split <;> rfl

/-- **C98** Macro averages are right for all predictions exactly if the classes are equally frequent. -/
theorem C98_exact_partial (m : Measure) (train : List L) (ht : train ≠ []) :
    (∀ y p : List L, searchScore m .macroAvg train y p = .ok (ClassAverage m train.toFinset y p .macroAvg)) ↔
      Balanced train := by
  constructor
  · intro h
    have len : (train.length : ℚ) ≠ 0 := by
      exact_mod_cast fun e => ht (List.length_eq_zero_iff.1 e)
    have one : ∀ c ∈ train, (train.count c : ℚ) / train.length = 1 / train.toFinset.card := by
      intro c hm
      have e := h [c] [c]
      rw [C98_measures_partial] at e
      have v : ∀ d, ofClass m [c] [c] d = if d = c then 1 else 0 := by
        intro d
        by_cases hd : d = c
        · subst hd
          cases m <;> norm_num [ofClass, Measure.of, truePos, prfDivide]
        · have hd' : c ≠ d := fun e => hd e.symm
          cases m <;> simp [ofClass, Measure.of, prfDivide, hd, hd']
      have e := Except.ok.inj e
      simp only [ClassAverage, v, mul_ite, mul_one, mul_zero, Finset.sum_ite_eq', List.mem_toFinset, hm,
        if_true] at e
      exact e
    obtain ⟨c, hm⟩ := List.exists_mem_of_ne_nil train ht
    refine ⟨train.count c, List.count_pos_iff.2 hm, fun d hd => ?_⟩
    have := (one d hd).trans (one c hm).symm
    rw [div_left_inj' len] at this
    exact_mod_cast this
  · intro hb y p
    exact C98_averages_partial m .macroAvg train y p hb nofun

/-- **C98** Averages over samples, which are among the metrics accepted, cannot be computed at all. -/
theorem C98_samples (m : Measure) (train y p : List L) :
    searchScore m .samples train y p = .error .valueError := rfl

/-- Two classes, each twice. -/
example : searchScore .recall .macroAvg [0, 1, 1, 0] [0, 1] [0, 0] = .ok (1 / 2) ∧
    Balanced [0, 1, 1, 0] := ⟨by decide +kernel, 2, by omega, by decide⟩

namespace Spec

/-- The number of positions at which labels and predictions agree. -/
def agree (y p : List L) : Nat := ((y.zip p).filter fun x => x.1 = x.2).length

end Spec

/-- **C116, the full claim**: micro-averaged precision, recall and F1 of a fold are the share of right
predictions. -/
def C116_claim : Prop :=
  ∀ (m : Measure) (train y p : List Nat), (∀ c ∈ y, c ∈ train) → (∀ c ∈ p, c ∈ train) → y ≠ [] →
    y.length = p.length → searchScore m .micro train y p = .ok ((agree y p : ℚ) / y.length)

/-- **C116** fails: one of two predictions is right, but it counts three times. -/
theorem C116_false : ¬ C116_claim := by
  intro h
  have := h .recall [0, 0, 0, 1] [0, 1] [0, 0] (by decide) (by decide) (by decide) rfl
  revert this
  decide +kernel

theorem sum_truePos (C : Finset L) (y p : List L) (hy : ∀ c ∈ y, c ∈ C) :
    ∑ c ∈ C, (truePos y p c : ℚ) = agree y p := by
  induction y generalizing p with
  | nil => simp [truePos, agree]
  | cons t ts ih =>
    cases p with
    | nil => simp [truePos, agree]
    | cons q qs =>
      have ht := hy t (by simp)
      have e : ∀ c, ((truePos (t :: ts) (q :: qs) c : Nat) : ℚ) =
          (if c = t then (if t = q then 1 else 0) else 0) + (truePos ts qs c : ℚ) := by
        intro c
        simp only [truePos, Nat.cast_add, Nat.cast_ite, Nat.cast_one, Nat.cast_zero]
        congr 1
        by_cases h1 : c = t
        · subst h1
          by_cases h2 : c = q
          · simp [h2]
          · have h3 : q ≠ c := fun e => h2 e.symm
            simp [h2, h3]
        · have h3 : t ≠ c := fun e => h1 e.symm
          simp [h1, h3]
      simp only [e, Finset.sum_add_distrib, Finset.sum_ite_eq', ht, if_true,
        ih qs fun c hc => hy c (by simp [hc])]
      unfold agree
      rw [List.zip_cons_cons]
      by_cases h : t = q
      · simp [h]; ring
      · simp [h]

theorem sum_count (C : Finset L) (y : List L) (hy : ∀ c ∈ y, c ∈ C) :
    ∑ c ∈ C, (y.count c : ℚ) = y.length := by
  induction y with
  | nil => simp
  | cons t ts ih =>
    have e : ∀ c, (((t :: ts).count c : Nat) : ℚ) = (ts.count c : ℚ) + if c = t then 1 else 0 := by
      intro c
      by_cases h : c = t
      · subst h; simp
      · have h' : t ≠ c := fun e => h e.symm
        simp [h, h']
    simp only [e, Finset.sum_add_distrib, Finset.sum_ite_eq', hy t (by simp), if_true,
      ih fun c hc => hy c (by simp [hc])]
    simp

/-- **C116** where it holds: for training data with equally frequent classes.  Missing: unbalanced
classes, for which `C116_weights` says what is computed. -/
theorem C116_partial (m : Measure) (train y p : List L) (hb : Balanced train)
    (hy : ∀ c ∈ y, c ∈ train) (hp : ∀ c ∈ p, c ∈ train) (hne : y ≠ []) (hl : y.length = p.length) :
    searchScore m .micro train y p = .ok ((agree y p : ℚ) / y.length) := by
  rw [C98_averages_partial m .micro train y p hb nofun]
  have hn : (y.length : ℚ) ≠ 0 := by exact_mod_cast fun e => hne (List.length_eq_zero_iff.1 e)
  simp only [ClassAverage]
  rw [sum_truePos _ y p fun c hc => List.mem_toFinset.2 (hy c hc),
    sum_count _ y fun c hc => List.mem_toFinset.2 (hy c hc),
    sum_count _ p fun c hc => List.mem_toFinset.2 (hp c hc), ← hl]
  congr 1
  have hd : prfDivide (agree y p) (y.length : ℚ) = agree y p / y.length := by
    rw [prfDivide, if_neg hn]
  cases m with
  | precision => exact hd
  | recall => exact hd
  | f1 =>
    simp only [Measure.of, hd]
    unfold prfDivide
    split
    · next h => linarith
    · next h =>
      have : (agree y p : ℚ) / y.length ≠ 0 := fun e => h (by rw [e]; simp)
      field_simp
      ring

/-- **C116**, what is computed in general: right predictions, predictions and labels of a class count
as often as the class occurs in the training data. -/
theorem C116_weights (m : Measure) (train y p : List L) :
    searchScore m .micro train y p = .ok (m.of
      (∑ c ∈ train.toFinset, (train.count c : ℚ) * truePos y p c)
      (∑ c ∈ train.toFinset, (train.count c : ℚ) * p.count c)
      (∑ c ∈ train.toFinset, (train.count c : ℚ) * y.count c)) := by
  simp only [searchScore, prfScore, sumOver_count]

example : searchScore .f1 .micro [0, 1, 1, 0] [0, 1, 1] [0, 0, 1] = .ok (2 / 3) ∧
    agree [0, 1, 1] [0, 0, 1] = 2 := by decide +kernel

/-! ### Cases of the theorems above -/

/-- `C113_partial`: labels 1 and 2 are fine for a measure of one label, 0 and 2 are not. -/
example : classifierScore .setwise 1 [1, 2] [1, 2, 2] [2, 2, 1] = .ok () :=
  (C113_partial .setwise 1 [1, 2] [1, 2, 2] [2, 2, 1] (by decide) (by decide) (by simp) (by decide) rfl).2
    ⟨2, by decide⟩

/-- `C115_partial`: an evaluation on the last rung. -/
example (r : IndResult Nat Nat) (h : evaluateIndividual (sampleEnv [([1], [0]), ([0], [1])] [0, 1] fun t => t)
    (fun _ => []) 3 5 none 0 true .none [()] = .ok r) :
    (evaluateOnRung 9 9 r).score.all Score.isFinite = true ↔
      ¬ Spec.ScoringFailed (sampleEnv [([1], [0]), ([0], [1])] [0, 1] fun t => t) .none :=
  (C115_partial _ _ 3 9 9 5 none 0 true .none [()] r (by simp) (fun folds res es hcv m s hs => by
    cases hcv
    cases List.mem_singleton.1 hs
    rfl) h).1

/-- `C98_averages_partial`, `C98_exact_partial`, `C116_partial`: both labels twice in the training data. -/
example : searchScore .f1 .weighted [0, 1, 1, 0] [0, 1, 1] [0, 0, 1] =
      .ok (ClassAverage .f1 [0, 1, 1, 0].toFinset [0, 1, 1] [0, 0, 1] .weighted) ∧
    searchScore .f1 .micro [0, 1, 1, 0] [0, 1, 1] [0, 0, 1] = .ok ((agree [0, 1, 1] [0, 0, 1] : ℚ) / 3) ∧
    ¬ ∀ y p : List Nat, searchScore .f1 .macroAvg [0, 1, 1] y p = .ok (ClassAverage .f1 [0, 1, 1].toFinset y p .macroAvg) :=
  have hb : Balanced [0, 1, 1, 0] := ⟨2, by omega, by decide⟩
  ⟨C98_averages_partial .f1 .weighted _ _ _ hb nofun,
    C116_partial .f1 _ _ _ hb (by decide) (by decide) (by simp) rfl,
    fun h => by
      obtain ⟨n, _, hn⟩ := (C98_exact_partial .f1 [0, 1, 1] (by simp)).1 h
      have h0 := hn 0 (by decide)
      have h1 := hn 1 (by decide)
      simp at h0 h1
      omega⟩

end Gama
