import Verif.Props.Evaluate
import Verif.Props.Scoring
import Verif.Props.ClassOrder

/-! # Probabilities from different folds are for the same labels (C151) -/

namespace Gama
open Spec

section
variable {E V M : Type}

/-- The labels of some rows. -/
def Spec.labelsOf (y : List Label) (rows : List Nat) : List Label := rows.map fun i => y.getD i .nan

/-- What is assumed of scikit-learn when a classifier is cross-validated on rows with the labels `y`, with
a metric of the kind `k` whose scorer was told the labels `told`: the estimator of each fold is fitted on the training rows of the fold, its
probabilities are for the labels that occur in them, `cols e`, and the scorer of the metric accepted them
on the test rows (else `cross_validate` raises, as `error_score="raise"`); `proba` are the
probabilities. -/
structure Spec.CrossValidates (env : EvalEnv E V M) (y told : List Label) (k : ScoreKind)
    (cols : E → List Label) (proba : E → Nat → Label → V) : Prop where
  rows : env.index.length = y.length
  fitted : ∀ folds result es, env.cv folds = .ok (result, es) →
    List.Forall₂ (fun (e : E) (f : Fold) => (∀ i ∈ f.1, i < y.length) ∧ ColumnsFor (labelsOf y f.1) (cols e) ∧
      foldTakes k told (labelsOf y f.2) (cols e).length = .ok ()) es folds
  predict : ∀ e rows, env.predict e rows =
    .ok (.mat (cols e).length (rows.map fun i => (cols e).map (proba e i)))

theorem predictLoop_congr {env env' : EvalEnv E V M} (hi : env.index = env'.index) :
    ∀ (es : List E) (fs : List Fold) (p : Option (PredArray V)),
      (∀ e ∈ es, ∀ rows, env.predict e rows = env'.predict e rows) →
      predictLoop env es fs p = predictLoop env' es fs p := by
  intro es
  induction es with
  | nil => intro fs p _; cases fs <;> rfl
  | cons e es ih =>
    intro fs p h
    cases fs with
    | nil => rfl
    | cons f fs =>
      unfold predictLoop
      rw [h e List.mem_cons_self, hi]
      split
      · rfl
      · dsimp only
        split
        · rfl
        · exact ih fs _ fun e' he' => h e' (List.mem_cons_of_mem _ he')

/-- If the estimators were fitted on all labels, their probabilities are for the same ones. -/
theorem aligned_predictions (env : EvalEnv E V M) (t : ℚ) (s : Subsample) (metrics : List M) (r : PipeResult E V)
    (y told : List Label) (k : ScoreKind) (cols : E → List Label) (proba : E → Nat → Label → V) (fs : List Fold)
    (all : List Label) (hc : CrossValidates env y told k cols proba)
    (h : evaluatePipeline env t s metrics = .ok r) (he : r.error = none)
    (hs : env.split = .ok fs) (hp : Spec.Partition y.length fs) (hn : y ≠ [])
    (hall : ∀ folds result es, prepareFolds env s = .ok folds → env.cv folds = .ok (result, es) →
      ∀ e ∈ es, cols e = all) :
    ∃ es p, r.estimators = some es ∧ es.length = fs.length ∧ r.prediction = some p ∧ p.rows.length = y.length ∧
      ∀ i < y.length, ∃ (k : Nat) (e : E) (f : Fold), es[k]? = some e ∧ fs[k]? = some f ∧ i ∈ f.2 ∧
        p.rows[i]? = some (some (all.map (proba e i))) := by
  obtain ⟨folds, result, es, h1, h2, h3, _, h5⟩ := success_steps h he
  have hes := hall folds result es h1 h2
  let env' : EvalEnv E V M := { env with
    predict := fun e rows => .ok (.mat all.length (rows.map fun i => all.map (proba e i))) }
  have hcongr : predictLoop env es folds none = predictLoop env' es folds none := by
    refine predictLoop_congr (env := env) (env' := env') rfl es folds none fun e hm rows => ?_
    rw [hc.predict, hes e hm]
  have htests := prepare_tests hs h1
  have hlen : es.length = folds.length := (hc.fitted _ _ _ h2).length_eq
  have hn' : 0 < env'.index.length := by
    show 0 < env.index.length
    rw [hc.rows]
    exact List.length_pos_iff.2 hn
  have hp' : Spec.Partition env'.index.length folds := by
    have hi : env'.index.length = y.length := hc.rows
    rw [hi]
    unfold Spec.Partition at hp ⊢
    rw [flatMap_snd] at hp ⊢
    rw [htests]
    exact hp
  obtain ⟨q, q1, q2, q3⟩ := loop_start (env := env') (g := fun e i => all.map (proba e i))
    (.inr ⟨all.length, fun _ _ => rfl⟩) es folds hlen hn' hp'
  rw [hcongr, q1] at h5
  have hfl : folds.length = fs.length := by
    have := congrArg List.length htests
    simpa using this
  refine ⟨es, q, h3, hlen.trans hfl, (Prod.mk.inj h5).1.symm, q2.trans hc.rows, ?_⟩
  intro i hi
  obtain ⟨f, hf, hif⟩ := List.mem_flatMap.1 ((hp.2 i).2 hi)
  obtain ⟨k, hk⟩ := List.getElem?_of_mem hf
  have hk' : k < fs.length := (List.getElem?_eq_some_iff.1 hk).1
  have hke : k < es.length := by omega
  have hkf : k < folds.length := by omega
  refine ⟨k, es[k], f, List.getElem?_eq_getElem hke, hk, hif, ?_⟩
  refine q3 k es[k] folds[k] (List.getElem?_eq_getElem hke) (List.getElem?_eq_getElem hkf) i ?_
  have e2 : (folds.map Prod.snd)[k]? = (fs.map Prod.snd)[k]? := by rw [htests]
  rw [List.getElem?_map, List.getElem?_map, hk, List.getElem?_eq_getElem hkf] at e2
  have e3 : folds[k].2 = f.2 := Option.some.inj e2
  rw [e3]
  exact hif

theorem labelsOf_mem {y : List Label} {rows : List Nat} (h : ∀ i ∈ rows, i < y.length) :
    ∀ c ∈ labelsOf y rows, c ∈ y := by
  intro c hc
  obtain ⟨i, hi, rfl⟩ := List.mem_map.1 hc
  have := h i hi
  rw [List.getD_eq_getElem?_getD, List.getElem?_eq_getElem this]
  exact List.getElem_mem this

theorem distinct_length {l cols : List Label} (h : ColumnsFor l cols) : (distinct l).length = cols.length :=
  ((List.perm_ext_iff_of_nodup (nodup_distinct l) (before_nodup h.1)).2 fun c => by
    rw [mem_distinct, h.2]).length_eq

/-- As many columns as labels: they are for all of them. -/
theorem columns_all {y all cols : List Label} {rows : List Nat} (hy : ColumnsFor y all)
    (hr : ∀ i ∈ rows, i < y.length) (hc : ColumnsFor (labelsOf y rows) cols) (hl : cols.length = all.length) :
    cols = all := by
  have hsub : cols.Subperm all := List.subperm_of_subset (before_nodup hc.1) fun c h =>
    (hy.2 c).2 (labelsOf_mem hr c ((hc.2 c).1 h))
  have hperm : cols.Perm all := hsub.perm_of_length_le hl.ge
  exact before_unique hc.1 hy.1 fun c => hperm.mem_iff

theorem forall₂_left {α β : Type} {R : α → β → Prop} {l : List α} {l' : List β} (h : List.Forall₂ R l l') :
    ∀ a ∈ l, ∃ b ∈ l', R a b := by
  induction h with
  | nil => intro a ha; cases ha
  | cons hab _ ih =>
    intro a ha
    rcases List.mem_cons.1 ha with rfl | ha
    · exact ⟨_, List.mem_cons_self, hab⟩
    · obtain ⟨b, hb, h⟩ := ih a ha
      exact ⟨b, List.mem_cons_of_mem _ hb, h⟩

/-- The test rows used are rows. -/
theorem test_rows {env : EvalEnv E V M} {s : Subsample} {fs folds : List Fold} {n : Nat}
    (hs : env.split = .ok fs) (hf : prepareFolds env s = .ok folds) (hp : Spec.Partition n fs) :
    ∀ f ∈ folds, ∀ i ∈ f.2, i < n := by
  intro f hm i hi
  have h : f.2 ∈ fs.map Prod.snd := by
    rw [← prepare_tests hs hf]
    exact List.mem_map.2 ⟨f, hm, rfl⟩
  obtain ⟨g, hg, e⟩ := List.mem_map.1 h
  exact (hp.2 i).1 (List.mem_flatMap.2 ⟨g, hg, by rw [e]; exact hi⟩)

/-- C151, log loss (the default metric): after a successful evaluation every row has one probability for
each label of the data, in increasing order of the labels, from the estimator of the fold in which it is
a test row -- whatever the folds are, and also if only some of their training rows are used. -/
theorem C151_log_loss (env : EvalEnv E V M) (t : ℚ) (s : Subsample) (metrics : List M) (r : PipeResult E V)
    (y told : List Label) (cols : E → List Label) (proba : E → Nat → Label → V) (fs : List Fold) (all : List Label)
    (hc : CrossValidates env y told .logLoss cols proba) (h : evaluatePipeline env t s metrics = .ok r)
    (he : r.error = none) (hs : env.split = .ok fs) (hp : Spec.Partition y.length fs) (hn : y ≠ [])
    (htold : ∀ c, c ∈ y ↔ c ∈ told ∧ c ≠ .nan) (hall : ColumnsFor y all) :
    ∃ es p, r.estimators = some es ∧ es.length = fs.length ∧ r.prediction = some p ∧ p.rows.length = y.length ∧
      ∀ i < y.length, ∃ (k : Nat) (e : E) (f : Fold), es[k]? = some e ∧ fs[k]? = some f ∧ i ∈ f.2 ∧
        p.rows[i]? = some (some (all.map (proba e i))) := by
  refine aligned_predictions env t s metrics r y told _ cols proba fs all hc h he hs hp hn ?_
  intro folds result es h1 h2 e hm
  obtain ⟨f, hf, hr, hcol, ht⟩ := forall₂_left (hc.fitted _ _ _ h2) e hm
  refine columns_all hall hr hcol ?_
  have hd := distinct_length hall
  have htest : (distinct (labelsOf y f.2)).length ≤ all.length :=
    distinct_le_of_subset fun c hc => (hall.2 c).2 (labelsOf_mem (test_rows hs h1 hp f hf) c hc)
  unfold foldTakes at ht
  dsimp only at ht
  split at ht
  · cases ht
  · split at ht
    · cases ht
    · split at ht
      · cases ht
      · rename_i a n b
        have hd' : (distinct told).length = all.length := by
          rw [← hd]
          refine ((List.perm_ext_iff_of_nodup (nodup_distinct _) (nodup_distinct _)).2 fun c => ?_).length_eq
          rw [mem_distinct, mem_distinct, htold]
          refine ⟨fun h => ⟨h, ?_⟩, fun h => h.1⟩
          rintro rfl
          exact n (List.any_eq_true.2 ⟨_, h, rfl⟩)
        by_cases c : (distinct told).length ≠ (if (cols e).length = 1 then 2 else (cols e).length)
        · rw [if_pos c] at ht
          cases ht
        · rw [hd'] at b c
          split at c <;> omega

/-- Two labels and two columns. -/
theorem C151_two_labels (env : EvalEnv E V M) (t : ℚ) (s : Subsample) (metrics : List M) (r : PipeResult E V)
    (y told : List Label) (cols : E → List Label) (proba : E → Nat → Label → V) (fs : List Fold) (a b : Label)
    (hc : CrossValidates env y told .rocAuc cols proba) (h : evaluatePipeline env t s metrics = .ok r)
    (he : r.error = none) (hs : env.split = .ok fs) (hp : Spec.Partition y.length fs) (hn : y ≠ [])
    (hall : ColumnsFor y [a, b]) :
    ∃ es p, r.estimators = some es ∧ es.length = fs.length ∧ r.prediction = some p ∧ p.rows.length = y.length ∧
      ∀ i < y.length, ∃ (k : Nat) (e : E) (f : Fold), es[k]? = some e ∧ fs[k]? = some f ∧ i ∈ f.2 ∧
        p.rows[i]? = some (some [proba e i a, proba e i b]) := by
  refine aligned_predictions env t s metrics r y told _ cols proba fs [a, b] hc h he hs hp hn ?_
  intro folds result es h1 h2 e hm
  obtain ⟨f, hf, hr, hcol, ht⟩ := forall₂_left (hc.fitted _ _ _ h2) e hm
  refine columns_all hall hr hcol ?_
  unfold foldTakes at ht
  dsimp only at ht
  split at ht
  · cases ht
  · split at ht
    · cases ht
    · rename_i c
      simpa using c

/-- Each row is a test row of one fold and a training row of the others. -/
def Spec.Complementary (n : Nat) (fs : List Fold) : Prop :=
  ∀ f ∈ fs, ∀ i, i ∈ f.1 ↔ i < n ∧ i ∉ f.2

/-- C151, area under the curve: without subsampling, and with three folds or more, an evaluation succeeds
only if there are two labels; every row then has a probability for each of them. -/
theorem C151_roc_auc (env : EvalEnv E V M) (t : ℚ) (s : Subsample) (metrics : List M) (r : PipeResult E V)
    (y told : List Label) (cols : E → List Label) (proba : E → Nat → Label → V) (fs : List Fold) (all : List Label)
    (hc : CrossValidates env y told .rocAuc cols proba) (h : evaluatePipeline env t s metrics = .ok r)
    (he : r.error = none) (hs : env.split = .ok fs) (hp : Spec.Partition y.length fs) (hn : y ≠ [])
    (hall : ColumnsFor y all) (hsub : requireSubsample s y.length = false) (h3 : 3 ≤ fs.length)
    (hco : Complementary y.length fs) :
    ∃ a b, all = [a, b] ∧
    ∃ es p, r.estimators = some es ∧ es.length = fs.length ∧ r.prediction = some p ∧ p.rows.length = y.length ∧
      ∀ i < y.length, ∃ (k : Nat) (e : E) (f : Fold), es[k]? = some e ∧ fs[k]? = some f ∧ i ∈ f.2 ∧
        p.rows[i]? = some (some [proba e i a, proba e i b]) := by
  obtain ⟨folds, result, es, h1, h2, _⟩ := success_steps h he
  have hfolds : folds = fs := by
    unfold prepareFolds at h1
    rw [hs, hc.rows, hsub] at h1
    exact (Except.ok.inj h1).symm
  subst hfolds
  -- two labels in the training rows and two in the test rows of each fold
  have htwo : ∀ f ∈ folds, (distinct (labelsOf y f.1)).length = 2 ∧ (distinct (labelsOf y f.2)).length = 2 := by
    intro f hf
    obtain ⟨j, hj⟩ := List.getElem?_of_mem hf
    have hjl : j < folds.length := (List.getElem?_eq_some_iff.1 hj).1
    have hje : j < es.length := by rw [(hc.fitted _ _ _ h2).length_eq]; exact hjl
    have hg := (hc.fitted _ _ _ h2).get hje hjl
    rw [List.get_eq_getElem, List.get_eq_getElem] at hg
    have hfj : folds[j] = f := (List.getElem?_eq_some_iff.1 hj).2
    rw [hfj] at hg
    obtain ⟨_, hcol, ht⟩ := hg
    rw [distinct_length hcol]
    unfold foldTakes at ht
    dsimp only at ht
    split at ht
    · cases ht
    · split at ht
      · cases ht
      · split at ht
        · cases ht
        · rename_i c d
          exact ⟨not_not.1 c, not_not.1 d⟩
  have hpart := hp
  obtain ⟨f₀, f₁, f₂, rest, hfs⟩ : ∃ f₀ f₁ f₂ rest, folds = f₀ :: f₁ :: f₂ :: rest := by
    match folds, h3 with
    | f₀ :: f₁ :: f₂ :: rest, _ => exact ⟨f₀, f₁, f₂, rest, rfl⟩
  have m₀ : f₀ ∈ folds := by rw [hfs]; simp
  have m₁ : f₁ ∈ folds := by rw [hfs]; simp
  have m₂ : f₂ ∈ folds := by rw [hfs]; simp
  obtain ⟨hnd, hrows⟩ := hpart
  -- the test rows of two folds are different
  have hdis : ∀ i, (i ∈ f₀.2 → i ∉ f₁.2 ∧ i ∉ f₂.2) ∧ (i ∈ f₁.2 → i ∉ f₂.2) := by
    intro i
    rw [hfs, List.flatMap_cons, List.flatMap_cons, List.flatMap_cons] at hnd
    obtain ⟨_, n1, d1⟩ := List.nodup_append.1 hnd
    obtain ⟨_, n2, d2⟩ := List.nodup_append.1 n1
    refine ⟨fun hi => ⟨fun hj => d1 i hi i (by simp [hj]) rfl, fun hj => d1 i hi i (by simp [hj]) rfl⟩,
      fun hi hj => d2 i hi i (by simp [hj]) rfl⟩
  have lt_test : ∀ f ∈ folds, ∀ i ∈ f.2, i < y.length := fun f hf i hi =>
    (hrows i).1 (List.mem_flatMap.2 ⟨f, hf, hi⟩)
  -- two lists of two labels, one within the other
  have same : ∀ l l' : List Label, (distinct l).length = 2 → (distinct l').length = 2 → (∀ c ∈ l, c ∈ l') →
      ∀ c ∈ l', c ∈ l := by
    intro l l' hl hl' hsub c hc
    have hp := (List.subperm_of_subset (nodup_distinct l) fun c h =>
      mem_distinct.2 (hsub c (mem_distinct.1 h))).perm_of_length_le (by rw [hl, hl'])
    exact mem_distinct.1 (hp.mem_iff.2 (mem_distinct.2 hc))
  have sub₂₀ : ∀ c ∈ labelsOf y f₂.2, c ∈ labelsOf y f₀.1 := by
    intro c hc
    obtain ⟨i, hi, rfl⟩ := List.mem_map.1 hc
    exact List.mem_map.2 ⟨i, (hco f₀ m₀ i).2 ⟨lt_test f₂ m₂ i hi, fun h0 => ((hdis i).1 h0).2 hi⟩, rfl⟩
  have sub₂₁ : ∀ c ∈ labelsOf y f₂.2, c ∈ labelsOf y f₁.1 := by
    intro c hc
    obtain ⟨i, hi, rfl⟩ := List.mem_map.1 hc
    exact List.mem_map.2 ⟨i, (hco f₁ m₁ i).2 ⟨lt_test f₂ m₂ i hi, fun h0 => (hdis i).2 h0 hi⟩, rfl⟩
  have back₀ := same _ _ (htwo f₂ m₂).2 (htwo f₀ m₀).1 sub₂₀
  have back₁ := same _ _ (htwo f₂ m₂).2 (htwo f₁ m₁).1 sub₂₁
  -- every label is one of the two of the third fold
  have every : ∀ c ∈ y, c ∈ labelsOf y f₂.2 := by
    intro c hcy
    obtain ⟨i, hi, rfl⟩ := List.getElem_of_mem hcy
    have hget : y.getD i .nan = y[i] := by rw [List.getD_eq_getElem?_getD, List.getElem?_eq_getElem hi]; rfl
    by_cases h0 : i ∈ f₀.2
    · exact back₁ _ (List.mem_map.2 ⟨i, (hco f₁ m₁ i).2 ⟨hi, ((hdis i).1 h0).1⟩, hget⟩)
    · exact back₀ _ (List.mem_map.2 ⟨i, (hco f₀ m₀ i).2 ⟨hi, h0⟩, hget⟩)
  have hlen : all.length = 2 := by
    rw [← distinct_length hall, ← (htwo f₂ m₂).2]
    exact ((List.perm_ext_iff_of_nodup (nodup_distinct _) (nodup_distinct _)).2 fun c => by
      rw [mem_distinct, mem_distinct]
      exact ⟨every c, labelsOf_mem (lt_test f₂ m₂) c⟩).length_eq
  obtain ⟨a, b, rfl⟩ := List.length_eq_two.1 hlen
  exact ⟨a, b, rfl, C151_two_labels env t s metrics r y told cols proba folds a b hc h he hs hp hn hall⟩

/-! ## C152: missing labels -/

/-- C152: if a label is missing among those the scorer was told, no evaluation with log loss succeeds. -/
theorem C152_refused (env : EvalEnv E V M) (t : ℚ) (s : Subsample) (metrics : List M) (r : PipeResult E V)
    (y told : List Label) (cols : E → List Label) (proba : E → Nat → Label → V) (fs : List Fold)
    (hc : CrossValidates env y told .logLoss cols proba) (h : evaluatePipeline env t s metrics = .ok r)
    (hs : env.split = .ok fs) (hp : Spec.Partition y.length fs) (hn : y ≠ []) (hm : Label.nan ∈ told) :
    r.error ≠ none := by
  intro he
  obtain ⟨folds, result, es, h1, h2, _⟩ := success_steps h he
  have hf := hc.fitted _ _ _ h2
  cases hf with
  | nil =>
    have hl : fs.map Prod.snd = [] := (prepare_tests hs h1).symm
    have : fs = [] := List.map_eq_nil_iff.1 hl
    subst this
    have := (hp.2 0).2 (List.length_pos_iff.2 hn)
    cases this
  | cons hab _ =>
    obtain ⟨_, _, ht⟩ := hab
    unfold foldTakes at ht
    dsimp only at ht
    split at ht
    · cases ht
    · rw [if_pos (List.any_eq_true.2 ⟨_, hm, rfl⟩)] at ht
      cases ht

end

/-- What the scorer of a fold is told, and the columns it gets if the fold's estimator was fitted on all
labels, make log loss computable. -/
def Spec.Scorable (w test : List Label) : Prop :=
  foldTakes .logLoss w test (distinct (present w)).length = .ok ()

/-- **C152, the full claim**: if two labels or more are present, log loss can be computed in a fold whose
training rows have all labels, also if other rows have none. -/
def C152_claim : Prop :=
  ∀ (f : Format) (v classes : List Label) (y' : Target) (w test : List Label), OneKind v →
    (f = .frame → v.length ≠ 1) → 2 ≤ (distinct (present v)).length →
    classifierFit (given f v) = .ok (classes, y') → formatY y' = .ok (.series w) → Scorable w test

/-- **C152** fails: a number is missing. -/
theorem C152_false : ¬ C152_claim := by
  intro h
  have := h .series [.num 1, .num 2, .nan] [.num 1, .num 2, .nan] (.series [.num 1, .num 2, .nan])
    [.num 1, .num 2, .nan] [.num 1, .num 2] (.inr (by simp)) nofun (by decide +kernel) rfl rfl
  revert this
  unfold Scorable
  decide +kernel

/-- **C152** exactly where it holds: no label is missing, or the labels are strings and not in a column
of an array (a missing one then is a label of its own). -/
theorem C152_partial (f : Format) (v classes : List Label) (y' : Target) (w test : List Label) (hv : OneKind v)
    (h : f = .frame → v.length ≠ 1) (h2 : 2 ≤ (distinct (present v)).length)
    (hfit : classifierFit (given f v) = .ok (classes, y')) (hw : formatY y' = .ok (.series w)) :
    Scorable w test ↔ Label.nan ∉ v ∨ (f ≠ .column ∧ ∃ s, Label.str s ∈ v) := by
  obtain ⟨classes', hc⟩ := kind_classes hv
  obtain ⟨hnd, hm⟩ := classes_mem hc
  have big : ∀ l : List Label, Label.nan ∉ l → 2 ≤ (distinct l).length → Scorable l test := by
    intro l hl h2
    have hpres : present l = l := by
      unfold present
      rw [List.filter_eq_self]
      intro c hc
      cases c with
      | nan => exact absurd hc hl
      | num _ => rfl
      | str _ => rfl
    unfold Scorable
    rw [hpres]
    unfold foldTakes
    dsimp only
    rw [if_neg (by omega), if_neg, if_neg (by omega), if_neg (by rw [if_neg (by omega)]; exact not_not.2 rfl)]
    intro ha
    obtain ⟨d, hd, hd'⟩ := List.any_eq_true.1 ha
    rw [(isNull_iff d).1 hd'] at hd
    exact hl hd
  have two : 2 ≤ (distinct v).length := le_trans h2
    (List.subperm_of_subset (nodup_distinct _) fun c hc =>
      mem_distinct.2 (mem_present.1 (mem_distinct.1 hc)).1).length_le
  by_cases hs : f ≠ .column ∧ v.any Label.isStr = true
  · obtain ⟨enc, he, hf'⟩ := (classifierFit_given f v h hc).1 hs.1 hs.2
    rw [hf'] at hfit
    cases hfit
    cases hw
    have hstr : ∃ s, Label.str s ∈ v := by
      obtain ⟨d, hd, hd'⟩ := List.any_eq_true.1 hs.2
      cases d with
      | str s => exact ⟨s, hd⟩
      | num _ => cases hd'
      | nan => cases hd'
    refine iff_of_true (big w ?_ ?_) (.inr ⟨hs.1, hstr⟩)
    · intro hn
      obtain ⟨i, _, e⟩ := List.mem_map.1 ((encoded_positions hc he _).1 hn)
      cases e
    · have hperm : (distinct w).Perm ((List.range classes.length).map fun i : Nat => Label.num (i : ℚ)) :=
        (List.perm_ext_iff_of_nodup (nodup_distinct _) (before_nodup (positions_ordered _))).2 fun c => by
          rw [mem_distinct]
          exact encoded_positions hc he c
      rw [hperm.length_eq, List.length_map, List.length_range]
      exact two.trans (distinct_le_of_subset fun c hc => (hm c).2 hc)
  · have hs' : f = .column ∨ v.any Label.isStr = false := by
      by_cases hf : f = .column
      · exact .inl hf
      · refine .inr ?_
        cases hb : v.any Label.isStr with
        | false => rfl
        | true => exact absurd ⟨hf, hb⟩ hs
    rw [(classifierFit_given f v h hc).2 hs'] at hfit
    cases hfit
    have hwv : w = v := by
      cases f with
      | series => cases hw; rfl
      | array => cases hw; rfl
      | list => cases hw
      | column =>
        simp only [given, formatY, firstColumn_single] at hw
        cases hw
        rfl
      | frame =>
        simp only [given, formatY, squeeze_column v (h rfl)] at hw
        cases hw
        rfl
    subst hwv
    constructor
    · intro hsc
      refine .inl fun hn => ?_
      unfold Scorable foldTakes at hsc
      dsimp only at hsc
      rw [if_neg (by omega), if_pos (List.any_eq_true.2 ⟨_, hn, rfl⟩)] at hsc
      cases hsc
    · rintro (hn | ⟨hf, s, hs''⟩)
      · exact big w hn two
      · exact absurd ⟨hf, List.any_eq_true.2 ⟨_, hs'', rfl⟩⟩ hs

namespace Ex

/-- Classifiers that are cross-validated in one way; estimator `e` gives 10 e + i to the row `i`. -/
def classEnv (fs : List Fold) (n : Nat) (cols : List Label) : EvalEnv Nat Nat Unit where
  valid := true
  split := .ok fs
  index := List.range n
  sample := fun t => .ok t
  cv := fun folds => if folds = fs then .ok (fun _ => [.fin 1], List.range fs.length) else .error (.exn .valueError)
  afterScores := none
  predict := fun e rows => .ok (.mat cols.length (rows.map fun i => cols.map fun _ => 10 * e + i))
  atEnd := none

def thirds : List Fold := [([2, 3, 4, 5], [0, 1]), ([0, 1, 4, 5], [2, 3]), ([0, 1, 2, 3], [4, 5])]

/-- Two labels that alternate. -/
def zeroOne : List Label := [.num 0, .num 1, .num 0, .num 1, .num 0, .num 1]

theorem zeroOne_columns {l : List Label} (h : l = zeroOne ∨ l = [.num 0, .num 1, .num 0, .num 1]) :
    ColumnsFor l [.num 0, .num 1] := by
  refine ⟨?_, ?_⟩
  · simp only [List.pairwise_cons, List.mem_cons, List.not_mem_nil, or_false, List.Pairwise.nil, and_true]
    exact ⟨by rintro a rfl; exact .num (by norm_num), nofun⟩
  · intro c
    rcases h with rfl | rfl
    · simp [zeroOne]; tauto
    · simp; tauto

theorem zeroOne_validates (k : ScoreKind) (told : List Label)
    (ht : foldTakes k told [.num 0, .num 1] 2 = .ok ()) :
    CrossValidates (classEnv thirds 6 [.num 0, .num 1]) zeroOne told k (fun _ => [.num 0, .num 1])
      (fun e i _ => 10 * e + i) where
  rows := rfl
  fitted := by
    intro folds result es he
    unfold classEnv at he
    dsimp only at he
    split at he
    · rename_i hf
      cases he
      subst hf
      have one : ∀ f ∈ thirds, labelsOf zeroOne f.1 = [.num 0, .num 1, .num 0, .num 1] ∧
          labelsOf zeroOne f.2 = [.num 0, .num 1] ∧ ∀ i ∈ f.1, i < 6 := by decide +kernel
      have all : ∀ f ∈ thirds, (∀ i ∈ f.1, i < zeroOne.length) ∧
          ColumnsFor (labelsOf zeroOne f.1) [.num 0, .num 1] ∧
          foldTakes k told (labelsOf zeroOne f.2) ([.num 0, .num 1] : List Label).length = .ok () := by
        intro f hf
        obtain ⟨h1, h2, h3⟩ := one f hf
        rw [h1, h2]
        exact ⟨h3, zeroOne_columns (.inr rfl), ht⟩
      exact .cons (all _ (by simp [thirds])) (.cons (all _ (by simp [thirds])) (.cons (all _ (by simp [thirds])) .nil))
    · cases he
  predict := fun _ _ => rfl

theorem thirds_partition : Spec.Partition 6 thirds :=
  ⟨by decide, by intro i; simp [thirds]; omega⟩

def thirdsResult : PipeResult Nat Nat :=
  ⟨some ⟨some 2, [some [0, 0], some [1, 1], some [12, 12], some [13, 13], some [24, 24], some [25, 25]]⟩, [.fin 1],
    some [0, 1, 2], none⟩

theorem thirds_evaluated :
    evaluatePipeline (classEnv thirds 6 [.num 0, .num 1]) 5 .none [()] = .ok thirdsResult := by decide +kernel

end Ex

/-- `C151_log_loss`: rows 2 and 3 have the probabilities of the second estimator for both labels. -/
example := C151_log_loss (Ex.classEnv Ex.thirds 6 [.num 0, .num 1]) 5 .none [()] Ex.thirdsResult Ex.zeroOne Ex.zeroOne
  (fun _ => [.num 0, .num 1]) (fun e i _ => 10 * e + i) Ex.thirds [.num 0, .num 1]
  (Ex.zeroOne_validates .logLoss _ (by decide +kernel)) Ex.thirds_evaluated rfl rfl Ex.thirds_partition nofun
  (by simp [Ex.zeroOne]) (Ex.zeroOne_columns (.inl rfl))

/-- `C151_roc_auc`, `C151_two_labels` -/
example := C151_roc_auc (Ex.classEnv Ex.thirds 6 [.num 0, .num 1]) 5 .none [()] Ex.thirdsResult Ex.zeroOne Ex.zeroOne
  (fun _ => [.num 0, .num 1]) (fun e i _ => 10 * e + i) Ex.thirds [.num 0, .num 1]
  (Ex.zeroOne_validates .rocAuc _ (by decide +kernel)) Ex.thirds_evaluated rfl rfl Ex.thirds_partition nofun
  (Ex.zeroOne_columns (.inl rfl)) rfl (by decide)
  (by
    intro f hf i
    simp only [Ex.thirds, List.mem_cons, List.not_mem_nil, or_false] at hf
    rcases hf with rfl | rfl | rfl <;> simp [Ex.zeroOne] <;> omega)

/-- `C152_refused`: scikit-learn refuses each fold, the evaluation has an error. -/
example : (evaluatePipeline { Ex.classEnv Ex.thirds 6 [.num 0, .num 1] with cv := fun _ => .error (.exn .valueError) } 5
      .none [()]) = .ok ⟨none, [.ninf], none, some (.exn .valueError)⟩ ∧
    CrossValidates (M := Unit) { Ex.classEnv Ex.thirds 6 [.num 0, .num 1] with cv := fun _ => .error (.exn .valueError) } Ex.zeroOne
      (.nan :: Ex.zeroOne) .logLoss (fun _ => [.num 0, .num 1]) (fun e i _ => 10 * e + i) :=
  ⟨by decide +kernel, rfl, nofun, fun _ _ => rfl⟩

/-- `C152_partial`: strings with a missing one are fine in a Series. -/
example : Scorable [.num 1, .num 2, .num 0] [.num 1, .num 0] :=
  (C152_partial .series [.str ['b'], .nan, .str ['a']] _ _ _ _ (.inl (by simp)) nofun (by decide +kernel) rfl rfl).2
    (.inr ⟨nofun, _, List.mem_cons_self⟩)

end Gama
