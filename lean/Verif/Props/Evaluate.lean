import Verif.Model.Evaluate
import Mathlib.Tactic.NormNum
import Mathlib.Tactic.Linarith
import Mathlib.Data.List.Basic

/-! # Evaluating pipelines (C56, C57, C58, C84, C85, C86) -/

namespace Gama

variable {E V M : Type}

namespace Spec

/-- Training and test rows of a fold have nothing in common. -/
def Disjoint (f : Fold) : Prop := ∀ i ∈ f.1, i ∉ f.2

/-- The sampler draws positions in the training set it is given. -/
def Draws (env : EvalEnv E V M) : Prop :=
  ∀ train idx, env.sample train = .ok idx → ∀ j ∈ idx, j < train.length

/-- Each of the first `n` rows is in exactly one test set, once. -/
def Partition (n : Nat) (fs : List Fold) : Prop :=
  (fs.flatMap Prod.snd).Nodup ∧ ∀ i, i ∈ fs.flatMap Prod.snd ↔ i < n

/-- The estimators predict for each row by itself, all in the same format. -/
def RowWise (predict : E → List Nat → Except Raised (FoldPred V)) (g : E → Nat → List V) : Prop :=
  (∃ h : E → Nat → V, (∀ e i, g e i = [h e i]) ∧ ∀ e rows, predict e rows = .ok (.vec (rows.map (h e)))) ∨
  ∃ k, ∀ e rows, predict e rows = .ok (.mat k (rows.map (g e)))

end Spec

/-! ## C56: training rows are not validated on -/

def C56_claim : Prop :=
  ∀ (E V M : Type) (env : EvalEnv E V M) (s : Subsample) (fs folds : List Fold),
    env.split = .ok fs → (∀ f ∈ fs, Spec.Disjoint f) → Spec.Draws env →
    prepareFolds env s = .ok folds → ∀ f ∈ folds, Spec.Disjoint f

/-- C56 without subsampling.  With it the claim is false, see `C56_false`. -/
theorem C56_partial (env : EvalEnv E V M) (s : Subsample) (fs folds : List Fold)
    (hs : s = .none ∨ (∃ k, s = .rows k ∧ env.index.length ≤ k) ∨ ∃ q, s = .frac q ∧ 1 ≤ q)
    (h1 : env.split = .ok fs) (h2 : ∀ f ∈ fs, Spec.Disjoint f)
    (h3 : prepareFolds env s = .ok folds) : folds = fs ∧ ∀ f ∈ folds, Spec.Disjoint f := by
  have hr : requireSubsample s env.index.length = false := by
    rcases hs with rfl | ⟨k, rfl, hk⟩ | ⟨q, rfl, hq⟩
    · rfl
    · simpa [requireSubsample] using hk
    · simpa [requireSubsample] using hq
  unfold prepareFolds at h3
  rw [h1, hr] at h3
  cases h3
  exact ⟨rfl, h2⟩

/-- An environment for examples: the given folds and draws, estimators predict the row number. -/
def sampleEnv (fs : List Fold) (index : List Nat) (draw : List Nat → List Nat) :
    EvalEnv Nat Nat Unit where
  valid := true
  split := .ok fs
  index := index
  sample := fun t => .ok (draw t)
  cv := fun folds => .ok (fun _ => [.fin 1], List.range folds.length)
  afterScores := none
  predict := fun e rows => .ok (.vec (rows.map fun i => 10 * e + i))
  atEnd := none

example : ∀ f ∈ [([2, 3], [0, 1]), ([0, 1], [2, 3])], Spec.Disjoint f :=
  (C56_partial (sampleEnv [([2, 3], [0, 1]), ([0, 1], [2, 3])] [0, 1, 2, 3] fun t => t) .none _ _
    (Or.inl rfl) rfl (by
      intro f hf
      rcases List.mem_cons.1 hf with rfl | hf
      · intro i hi; revert i; decide
      · cases List.mem_singleton.1 hf
        intro i hi; revert i; decide) rfl).2

/-- The positions drawn are used as row numbers. -/
theorem C56_positions (env : EvalEnv E V M) (s : Subsample) (f g : Fold)
    (h : subsampleFold env s f = .ok g) : env.sample f.1 = .ok g.1 ∧ g.2 = f.2 := by
  unfold subsampleFold at h
  cases hl : labelLookup env.index f.1 with
  | error r => rw [hl] at h; cases h
  | ok u =>
    rw [hl] at h
    dsimp only at h
    by_cases hk : sampleSizeOk s f.1.length = true
    · rw [if_pos hk] at h
      cases hx : env.sample f.1 with
      | error r => rw [hx] at h; cases h
      | ok idx => rw [hx] at h; cases h; exact ⟨rfl, rfl⟩
    · rw [if_neg hk] at h; cases h

/-- On two of four rows, the first fold is trained on its own test row. -/
theorem C56_false : ¬ C56_claim := by
  intro h
  have := h Nat Nat Unit (sampleEnv [([2, 3], [0, 1]), ([0, 1], [2, 3])] [0, 1, 2, 3]
      fun t => (List.range t.length).take 1) (.rows 1) _ [([0], [0, 1]), ([0], [2, 3])] rfl (by
      intro f hf
      rcases List.mem_cons.1 hf with rfl | hf
      · intro i hi; revert i; decide
      · cases List.mem_singleton.1 hf
        intro i hi; revert i; decide) ?_ (by rfl) ([0], [0, 1]) List.mem_cons_self 0
    List.mem_cons_self
  · exact this List.mem_cons_self
  · intro train idx h j hj
    cases h
    exact List.mem_range.1 (List.mem_of_mem_take hj)

/-- In general: as soon as a position drawn is the number of a test row of the fold, that row is
trained on and validated on. -/
theorem C56_leak (env : EvalEnv E V M) (s : Subsample) (f g : Fold) (idx : List Nat) (j : Nat)
    (h : subsampleFold env s f = .ok g) (hi : env.sample f.1 = .ok idx) (hj : j ∈ idx)
    (ht : j ∈ f.2) : ¬ Spec.Disjoint g := by
  obtain ⟨h1, h2⟩ := C56_positions env s f g h
  rw [hi] at h1
  cases h1
  intro d
  exact d j hj (h2 ▸ ht)

/-- The rows trained on are the ones meant when the training rows of a fold are the first ones. -/
theorem C56_prefix (env : EvalEnv E V M) (s : Subsample) (f g : Fold)
    (hd : Spec.Draws env) (hf : f.1 = List.range f.1.length) (hdis : Spec.Disjoint f)
    (h : subsampleFold env s f = .ok g) : (∀ i ∈ g.1, i ∈ f.1) ∧ Spec.Disjoint g := by
  obtain ⟨h1, h2⟩ := C56_positions env s f g h
  have sub : ∀ i ∈ g.1, i ∈ f.1 := by
    intro i hi
    rw [hf]
    exact List.mem_range.2 (hd _ _ h1 i hi)
  exact ⟨sub, fun i hi => by rw [h2]; exact hdis i (sub i hi)⟩

/-! ## C57: out-of-fold predictions -/

theorem setRow_length {α : Type} (l : List α) (i : Nat) (y : α) : (setRow l i y).length = l.length := by
  induction l generalizing i with
  | nil => rfl
  | cons x l ih => cases i <;> simp [setRow, ih]

theorem setRow_get {α : Type} (l : List α) (i j : Nat) (y : α) (hi : i < l.length) :
    (setRow l i y)[j]? = if i = j then some y else l[j]? := by
  induction l generalizing i j with
  | nil => cases hi
  | cons x l ih =>
    cases i with
    | zero => cases j <;> simp [setRow]
    | succ i =>
      cases j with
      | zero => simp [setRow]
      | succ j => simpa [setRow] using ih i j (Nat.lt_of_succ_lt_succ hi)

theorem setRows_length {α : Type} (l : List α) (is : List Nat) (ys : List α) :
    (setRows l is ys).length = l.length := by
  induction is generalizing l ys with
  | nil => simp [setRows]
  | cons i is ih =>
    cases ys with
    | nil => simp [setRows]
    | cons y ys => rw [setRows, ih, setRow_length]

theorem setRows_get {α : Type} (l : List α) (is : List Nat) (f : Nat → α) (hi : ∀ i ∈ is, i < l.length)
    (j : Nat) : (setRows l is (is.map f))[j]? = if j ∈ is then some (f j) else l[j]? := by
  induction is generalizing l with
  | nil => simp [setRows]
  | cons i is ih =>
    rw [List.map_cons, setRows, ih _ fun k hk => by
      rw [setRow_length]; exact hi k (List.mem_cons_of_mem _ hk)]
    rw [setRow_get _ _ _ _ (hi i List.mem_cons_self)]
    by_cases h1 : j ∈ is
    · rw [if_pos h1, if_pos (List.mem_cons_of_mem _ h1)]
    · rw [if_neg h1]
      by_cases h2 : i = j
      · subst h2
        rw [if_pos rfl, if_pos List.mem_cons_self]
      · rw [if_neg h2, if_neg]
        intro h
        rcases List.mem_cons.1 h with h | h
        · exact h2 h.symm
        · exact h1 h

theorem assign_ok {predict : E → List Nat → Except Raised (FoldPred V)} {g : E → Nat → List V}
    (hg : Spec.RowWise predict g) (n : Nat) (e₀ : E) (rows₀ : List Nat) :
    ∃ fp, predict e₀ rows₀ = .ok fp ∧ ∀ p : PredArray V, p.cols = (emptyPred (V := V) n fp).cols →
      ∀ e rows, ∃ fp', predict e rows = .ok fp' ∧
        assignPred p rows fp' = .ok ⟨p.cols, setRows p.rows rows (rows.map fun i => some (g e i))⟩ := by
  rcases hg with ⟨h, h1, h2⟩ | ⟨k, h2⟩
  · refine ⟨_, h2 e₀ rows₀, fun p hp e rows => ⟨_, h2 e rows, ?_⟩⟩
    unfold assignPred
    dsimp only
    rw [if_pos ⟨hp, by simp⟩, List.map_map]
    simp [Function.comp_def, h1]
  · refine ⟨_, h2 e₀ rows₀, fun p hp e rows => ⟨_, h2 e rows, ?_⟩⟩
    have hp' : p.cols = some k := hp
    unfold assignPred
    dsimp only
    rw [hp']
    dsimp only
    rw [if_pos (by simp), if_pos rfl, List.map_map]
    rfl

theorem loop_spec {env : EvalEnv E V M} {g : E → Nat → List V} :
    ∀ (es : List E) (fs : List Fold) (p : PredArray V), es.length = fs.length →
      (∀ e rows, ∃ fp', env.predict e rows = .ok fp' ∧
        assignPred p rows fp' = .ok ⟨p.cols, setRows p.rows rows (rows.map fun i => some (g e i))⟩) →
      (∀ q : PredArray V, q.cols = p.cols → ∀ e rows, ∃ fp', env.predict e rows = .ok fp' ∧
        assignPred q rows fp' = .ok ⟨q.cols, setRows q.rows rows (rows.map fun i => some (g e i))⟩) →
      (fs.flatMap Prod.snd).Nodup → (∀ i ∈ fs.flatMap Prod.snd, i < p.rows.length) →
      ∃ q, predictLoop env es fs (some p) = (some q, none) ∧ q.rows.length = p.rows.length ∧
        (∀ (k : Nat) (e : E) (f : Fold), es[k]? = some e → fs[k]? = some f → ∀ i ∈ f.2,
          q.rows[i]? = some (some (g e i))) ∧
        ∀ i, i ∉ fs.flatMap Prod.snd → q.rows[i]? = p.rows[i]? := by
  intro es
  induction es with
  | nil =>
    intro fs p hl _ _ _ _
    cases fs with
    | nil => exact ⟨p, rfl, rfl, by simp, fun _ _ => rfl⟩
    | cons f fs => cases hl
  | cons e es ih =>
    intro fs p hl hp hq hnd hr
    cases fs with
    | nil => cases hl
    | cons f fs =>
      rw [List.flatMap_cons] at hnd hr
      obtain ⟨_, nd2, nd3⟩ := List.nodup_append.1 hnd
      obtain ⟨fp, e1, e2⟩ := hp e f.2
      have hlen : (setRows p.rows f.2 (f.2.map fun i => some (g e i))).length = p.rows.length :=
        setRows_length _ _ _
      obtain ⟨q, q1, q2, q3, q4⟩ := ih fs
        ⟨p.cols, setRows p.rows f.2 (f.2.map fun i => some (g e i))⟩ (Nat.succ.inj hl)
        (hq _ rfl) (fun q hc => hq q hc) nd2 (fun i hi => by
          rw [hlen]; exact hr i (List.mem_append_right _ hi))
      refine ⟨q, ?_, q2.trans hlen, ?_, ?_⟩
      · unfold predictLoop
        rw [e1]
        dsimp only [Option.getD_some]
        rw [e2]
        exact q1
      · intro k e' f' hk1 hk2 i hi
        cases k with
        | zero =>
          cases hk1
          cases hk2
          rw [q4 i fun h => nd3 i hi i h rfl]
          rw [setRows_get _ _ _ fun j hj => hr j (List.mem_append_left _ hj), if_pos hi]
        | succ k => exact q3 k e' f' hk1 hk2 i hi
      · intro i hi
        rw [List.flatMap_cons, List.mem_append, not_or] at hi
        rw [q4 i hi.2, setRows_get _ _ _ fun j hj => hr j (List.mem_append_left _ hj), if_neg hi.1]

theorem loop_start {env : EvalEnv E V M} {g : E → Nat → List V} (hg : Spec.RowWise env.predict g)
    (es : List E) (fs : List Fold) (hl : es.length = fs.length) (hn : 0 < env.index.length)
    (hp : Spec.Partition env.index.length fs) :
    ∃ q, predictLoop env es fs none = (some q, none) ∧ q.rows.length = env.index.length ∧
      ∀ (k : Nat) (e : E) (f : Fold), es[k]? = some e → fs[k]? = some f → ∀ i ∈ f.2,
        q.rows[i]? = some (some (g e i)) := by
  cases fs with
  | nil =>
    have := (hp.2 0).2 hn
    cases this
  | cons f fs =>
    cases es with
    | nil => cases hl
    | cons e es =>
      obtain ⟨fp, e1, e2⟩ := assign_ok hg env.index.length e f.2
      have hempty : (emptyPred (V := V) env.index.length fp).rows.length = env.index.length := by
        cases fp <;> simp [emptyPred]
      obtain ⟨q, q1, q2, q3, _⟩ := loop_spec (e :: es) (f :: fs)
        (emptyPred env.index.length fp) hl (e2 _ rfl) (fun q hq => e2 q hq) hp.1
        (fun i hi => by rw [hempty]; exact (hp.2 i).1 hi)
      refine ⟨q, ?_, q2.trans hempty, q3⟩
      unfold predictLoop at q1 ⊢
      rw [e1] at q1 ⊢
      exact q1

theorem subsampleFolds_tests {env : EvalEnv E V M} {s : Subsample} : ∀ {fs gs : List Fold},
    subsampleFolds env s fs = .ok gs → gs.map Prod.snd = fs.map Prod.snd := by
  intro fs
  induction fs with
  | nil => intro gs h; cases h; rfl
  | cons f fs ih =>
    intro gs h
    unfold subsampleFolds at h
    cases h1 : subsampleFold env s f with
    | error r => rw [h1] at h; cases h
    | ok g =>
      rw [h1] at h
      cases h2 : subsampleFolds env s fs with
      | error r => rw [h2] at h; cases h
      | ok gs' =>
        rw [h2] at h
        cases h
        rw [List.map_cons, List.map_cons, ih h2, (C56_positions env s f g h1).2]

/-- The test sets used are those of the splitter. -/
theorem prepare_tests {env : EvalEnv E V M} {s : Subsample} {fs gs : List Fold}
    (h1 : env.split = .ok fs) (h2 : prepareFolds env s = .ok gs) :
    gs.map Prod.snd = fs.map Prod.snd := by
  unfold prepareFolds at h2
  rw [h1] at h2
  dsimp only at h2
  cases hr : requireSubsample s env.index.length
  · rw [hr] at h2; cases h2; rfl
  · rw [hr] at h2; exact subsampleFolds_tests h2

theorem flatMap_snd (fs : List Fold) : fs.flatMap Prod.snd = (fs.map Prod.snd).flatten := rfl

/-- What a successful evaluation went through. -/
theorem success_steps {env : EvalEnv E V M} {t : ℚ} {s : Subsample} {metrics : List M}
    {r : PipeResult E V} (h : evaluatePipeline env t s metrics = .ok r) (he : r.error = none) :
    ∃ folds result es, prepareFolds env s = .ok folds ∧ env.cv folds = .ok (result, es) ∧
      r.estimators = some es ∧ r.scores = metrics.map (fun m => meanScores (result m)) ∧
      predictLoop env es folds none = (r.prediction, none) := by
  unfold evaluatePipeline at h
  by_cases hv : env.valid = false
  · rw [if_pos hv] at h; cases h
  rw [if_neg hv] at h
  by_cases ht : t ≤ 0
  · rw [if_pos ht] at h; cases h
  rw [if_neg ht] at h
  unfold pipelineBody at h
  dsimp only at h
  cases h1 : prepareFolds env s with
  | error x =>
    rw [h1] at h
    cases x <;> (dsimp only at h; cases h) <;> cases he
  | ok folds =>
    rw [h1] at h
    dsimp only at h
    cases h2 : env.cv folds with
    | error x =>
      rw [h2] at h
      cases x <;> (dsimp only at h; cases h) <;> cases he
    | ok re =>
      obtain ⟨result, es⟩ := re
      rw [h2] at h
      dsimp only at h
      cases h3 : env.afterScores with
      | some x =>
        rw [h3] at h
        cases x <;> (dsimp only at h; cases h) <;> cases he
      | none =>
        rw [h3] at h
        dsimp only at h
        cases h4 : predictLoop env es folds none with
        | mk p x =>
          rw [h4] at h
          cases x with
          | some x => cases x <;> (dsimp only at h; cases h) <;> cases he
          | none =>
            dsimp only at h
            cases h5 : env.atEnd with
            | some x =>
              rw [h5] at h
              cases x <;> (dsimp only at h; cases h) <;> cases he
            | none =>
              rw [h5] at h
              cases h
              exact ⟨folds, result, es, rfl, h2, rfl, rfl, h4⟩

/-- C57: after a successful evaluation every row has a prediction, made by the estimator of the fold
in which it is a test row. -/
theorem C57 (env : EvalEnv E V M) (t : ℚ) (s : Subsample) (metrics : List M) (r : PipeResult E V)
    (g : E → Nat → List V) (fs : List Fold)
    (h : evaluatePipeline env t s metrics = .ok r) (he : r.error = none)
    (hs : env.split = .ok fs) (hp : Spec.Partition env.index.length fs) (hn : 0 < env.index.length)
    (hcv : ∀ folds result es, env.cv folds = .ok (result, es) → es.length = folds.length)
    (hg : Spec.RowWise env.predict g) :
    ∃ es p, r.estimators = some es ∧ es.length = fs.length ∧ r.prediction = some p ∧
      p.rows.length = env.index.length ∧
      ∀ i < env.index.length, ∃ (k : Nat) (e : E) (f : Fold), es[k]? = some e ∧ fs[k]? = some f ∧
        i ∈ f.2 ∧ p.rows[i]? = some (some (g e i)) := by
  obtain ⟨folds, result, es, h1, h2, h3, _, h5⟩ := success_steps h he
  have htests := prepare_tests hs h1
  have hlen : es.length = folds.length := hcv _ _ _ h2
  have hp' : Spec.Partition env.index.length folds := by
    unfold Spec.Partition at hp ⊢
    rw [flatMap_snd] at hp ⊢
    rw [htests]
    exact hp
  obtain ⟨q, q1, q2, q3⟩ := loop_start hg es folds hlen hn hp'
  rw [q1] at h5
  have hfl : folds.length = fs.length := by
    have := congrArg List.length htests
    simpa using this
  refine ⟨es, q, h3, hlen.trans hfl, (Prod.mk.inj h5).1.symm, q2, ?_⟩
  intro i hi
  obtain ⟨f, hf, hif⟩ := List.mem_flatMap.1 ((hp.2 i).2 hi)
  obtain ⟨k, hk⟩ := List.getElem?_of_mem hf
  have hk' : k < fs.length := (List.getElem?_eq_some_iff.1 hk).1
  have hke : k < es.length := by omega
  have hkf : k < folds.length := by omega
  refine ⟨k, es[k], f, List.getElem?_eq_getElem hke, hk, hif, ?_⟩
  refine q3 k es[k] folds[k] (List.getElem?_eq_getElem hke) (List.getElem?_eq_getElem hkf) i ?_
  have e2 : (folds.map Prod.snd)[k]? = (fs.map Prod.snd)[k]? := by rw [htests]
  rw [List.getElem?_map, List.getElem?_map, hk, List.getElem?_eq_getElem hkf] at e2
  have e3 : folds[k].2 = f.2 := Option.some.inj e2
  rw [e3]
  exact hif

example : evaluatePipeline (sampleEnv [([1, 3], [0, 2]), ([0, 2], [1, 3])] [0, 1, 2, 3] fun t => t) 5
    .none [()] = .ok ⟨some ⟨none, [some [0], some [11], some [2], some [13]]⟩, [.fin 1],
      some [0, 1], none⟩ ∧
    Spec.Partition 4 [([1, 3], [0, 2]), ([0, 2], [1, 3])] := by
  refine ⟨by decide +kernel, by decide, ?_⟩
  intro i
  simp
  omega

/-! ## C58: scores and failures -/

/-- The evaluation could not score the pipeline. -/
def Spec.ScoringFailed (env : EvalEnv E V M) (s : Subsample) : Prop :=
  (∃ x, prepareFolds env s = .error x) ∨
    ∃ folds x, prepareFolds env s = .ok folds ∧ env.cv folds = .error x

theorem body_scores (env : EvalEnv E V M) (s : Subsample) (metrics : List M) :
    (pipelineBody env s metrics).1.2.1.length = metrics.length ∧
    (Spec.ScoringFailed env s → ∀ x ∈ (pipelineBody env s metrics).1.2.1, x = .ninf) ∧
    (∀ folds result es, prepareFolds env s = .ok folds → env.cv folds = .ok (result, es) →
      (pipelineBody env s metrics).1.2.1 = metrics.map fun m => meanScores (result m)) := by
  unfold pipelineBody
  dsimp only
  cases h1 : prepareFolds env s with
  | error x =>
    refine ⟨by simp, ?_, ?_⟩
    · intro _ y hy
      obtain ⟨_, _, rfl⟩ := List.mem_map.1 hy
      rfl
    · intro folds result es h; cases h
  | ok folds =>
    dsimp only
    cases h2 : env.cv folds with
    | error x =>
      refine ⟨by simp, ?_, ?_⟩
      · intro _ y hy
        obtain ⟨_, _, rfl⟩ := List.mem_map.1 hy
        rfl
      · intro folds' result es h h'
        cases h
        rw [h2] at h'
        cases h'
    | ok re =>
      obtain ⟨result, es⟩ := re
      dsimp only
      have goal : ∀ sc : List Score, sc = metrics.map (fun m => meanScores (result m)) →
          sc.length = metrics.length ∧ (Spec.ScoringFailed env s → ∀ x ∈ sc, x = .ninf) ∧
          (∀ folds' result' es', Except.ok (ε := Raised) folds = .ok folds' →
            env.cv folds' = .ok (result', es') →
            sc = metrics.map fun m => meanScores (result' m)) := by
        intro sc hsc
        refine ⟨by simp [hsc], ?_, ?_⟩
        · rintro (⟨x, hx⟩ | ⟨folds', x, hx, hy⟩)
          · rw [h1] at hx; cases hx
          · rw [h1] at hx; cases hx; rw [h2] at hy; cases hy
        · intro folds' result' es' h h'
          cases h
          rw [h2] at h'
          cases h'
          exact hsc
      cases env.afterScores with
      | some x => exact goal _ rfl
      | none =>
        dsimp only
        cases predictLoop env es folds none with
        | mk p x =>
          cases x with
          | some x => exact goal _ rfl
          | none => exact goal _ rfl

/-- What was raised decides what is returned. -/
theorem evaluate_cases (env : EvalEnv E V M) (t : ℚ) (s : Subsample) (metrics : List M)
    (hv : env.valid = true) (ht : 0 < t) :
    evaluatePipeline env t s metrics =
      match pipelineBody env s metrics with
      | ((p, sc, es), none) => .ok ⟨p, sc, es, none⟩
      | ((p, sc, es), some (.exn e)) => .ok ⟨p, sc, es, some (.exn e)⟩
      | ((p, sc, es), some .own) => .ok ⟨p, sc, es, some .timeout⟩
      | (_, some .outer) => .error .timeout
      | (_, some (.base e)) => .error e := by
  unfold evaluatePipeline
  rw [if_neg (by rw [hv]; exact nofun), if_neg (not_le.2 ht)]
  rfl

/-- The scores an evaluation returns are those of the body. -/
theorem evaluate_scores {env : EvalEnv E V M} {t : ℚ} {s : Subsample} {metrics : List M}
    {r : PipeResult E V} (h : evaluatePipeline env t s metrics = .ok r) :
    r.prediction = (pipelineBody env s metrics).1.1 ∧ r.scores = (pipelineBody env s metrics).1.2.1 ∧
    r.estimators = (pipelineBody env s metrics).1.2.2 ∧
    (r.error = none ↔ (pipelineBody env s metrics).2 = none) := by
  unfold evaluatePipeline at h
  by_cases hv : env.valid = false
  · rw [if_pos hv] at h; cases h
  rw [if_neg hv] at h
  by_cases ht : t ≤ 0
  · rw [if_pos ht] at h; cases h
  rw [if_neg ht] at h
  revert h
  generalize pipelineBody env s metrics = b
  obtain ⟨⟨p, sc, es⟩, x⟩ := b
  intro h
  cases x with
  | none => cases h; exact ⟨rfl, rfl, rfl, by simp⟩
  | some x => cases x <;> cases h <;> exact ⟨rfl, rfl, rfl, by simp⟩

/-- `x` is the mean of the scores `l` of the folds: their arithmetic mean if they are numbers, minus
infinity if one of them is that and none is plus infinity. -/
def Spec.MeanOf (l : List Score) (x : Score) : Prop :=
  (∀ qs : List ℚ, qs ≠ [] → l = qs.map Score.fin → x = .fin (qs.sum / qs.length)) ∧
  (Score.ninf ∈ l → Score.pinf ∉ l → x = .ninf)

theorem meanScores_go (n : List Score) (qs : List ℚ) : ∀ (l : List Score) (acc : ℚ),
    l = qs.map Score.fin → meanScores.go n l acc = .fin ((acc + qs.sum) / n.length) := by
  induction qs with
  | nil => intro l acc h; subst h; simp [meanScores.go]
  | cons q qs ih =>
    intro l acc h
    subst h
    show meanScores.go n (qs.map Score.fin) (acc + q) = _
    rw [ih _ _ rfl, List.sum_cons, add_assoc]

theorem meanScores_mean (l : List Score) : Spec.MeanOf l (meanScores l) := by
  refine ⟨fun qs _ h => ?_, fun h1 h2 => ?_⟩
  · unfold meanScores
    rw [meanScores_go l qs l 0 h, zero_add, h, List.length_map]
  · unfold meanScores
    generalize hn : l = n
    rw [hn] at h1 h2
    have : ∀ (m : List Score) (acc : ℚ), Score.ninf ∈ m → Score.pinf ∉ m →
        meanScores.go n m acc = .ninf := by
      intro m
      induction m with
      | nil => intro _ h; cases h
      | cons x m ih =>
        intro acc h h'
        cases x with
        | fin q =>
          refine ih _ ?_ (fun hh => h' (List.mem_cons_of_mem _ hh))
          rcases List.mem_cons.1 h with h | h
          · cases h
          · exact h
        | ninf => rfl
        | pinf => exact absurd List.mem_cons_self h'
    exact this n 0 h1 h2

/-- C58: the scores of an evaluation. -/
theorem C58_scores (env : EvalEnv E V M) (describe : EvalError → Str) (length : Nat) (timeout : ℚ)
    (deadline : Option ℚ) (now : ℚ) (addLength : Bool) (s : Subsample) (metrics : List M)
    (r : IndResult E V)
    (h : evaluateIndividual env describe length timeout deadline now addLength s metrics = .ok r) :
    r.fitness = r.score ∧
    ∃ sc : List Score, sc.length = metrics.length ∧
      r.score = sc ++ (if addLength then [.fin (-(length : ℚ))] else []) ∧
      (Spec.ScoringFailed env s → ∀ x ∈ sc, x = .ninf) ∧
      (∀ folds result es, prepareFolds env s = .ok folds → env.cv folds = .ok (result, es) →
        ∀ (i : Nat) m x, metrics[i]? = some m → sc[i]? = some x → Spec.MeanOf (result m) x) := by
  unfold evaluateIndividual at h
  cases hp : evaluatePipeline env (evalTimeout timeout deadline now) s metrics with
  | error e => rw [hp] at h; cases h
  | ok pr =>
    rw [hp] at h
    cases h
    obtain ⟨_, h2, _, _⟩ := evaluate_scores hp
    obtain ⟨b1, b2, b3⟩ := body_scores env s metrics
    refine ⟨rfl, pr.scores, by rw [h2]; exact b1, ?_, by rw [h2]; exact b2, ?_⟩
    · cases addLength
      · simp
      · simp
    · intro folds result es h3 h4 i m x hm hx
      rw [h2, b3 folds result es h3 h4, List.getElem?_map, hm] at hx
      cases hx
      exact meanScores_mean (result m)

example : (evaluateIndividual (sampleEnv [([1], [0]), ([0], [1])] [0, 1] fun t => t) (fun _ => []) 3 5
    none 0 true .none [()]).toOption.map IndResult.fitness = some [.fin 1, .fin (-3)] := by
  decide +kernel

/-- C58: an `Exception` raised while evaluating and running out of time are reported, not raised; the
error is `none` exactly when nothing was raised. -/
theorem C58_reported (env : EvalEnv E V M) (describe : EvalError → Str) (length : Nat) (timeout : ℚ)
    (deadline : Option ℚ) (now : ℚ) (addLength : Bool) (s : Subsample) (metrics : List M)
    (hv : env.valid = true) (ht : 0 < timeout) (hd : ∀ d, deadline = some d → now < d) :
    (∀ e, (pipelineBody env s metrics).2 = some (.exn e) →
      ∃ r, evaluateIndividual env describe length timeout deadline now addLength s metrics = .ok r ∧
        r.error = some (describe (.exn e))) ∧
    ((pipelineBody env s metrics).2 = some .own →
      ∃ r, evaluateIndividual env describe length timeout deadline now addLength s metrics = .ok r ∧
        r.error = some (describe .timeout)) ∧
    ((pipelineBody env s metrics).2 = none →
      ∃ r, evaluateIndividual env describe length timeout deadline now addLength s metrics = .ok r ∧
        r.error = none) := by
  have ht' : 0 < evalTimeout timeout deadline now := by
    unfold evalTimeout
    cases deadline with
    | none => exact ht
    | some d =>
      have := hd d rfl
      exact lt_min ht (by linarith)
  unfold evaluateIndividual
  rw [evaluate_cases env _ s metrics hv ht']
  generalize pipelineBody env s metrics = b
  obtain ⟨⟨p, sc, es⟩, x⟩ := b
  refine ⟨?_, ?_, ?_⟩
  · rintro e h; cases h; exact ⟨_, rfl, rfl⟩
  · rintro h; cases h; exact ⟨_, rfl, rfl⟩
  · rintro h; cases h; exact ⟨_, rfl, rfl⟩

/-- C58: the only ways an evaluation raises. -/
theorem C58_raised (env : EvalEnv E V M) (describe : EvalError → Str) (length : Nat) (timeout : ℚ)
    (deadline : Option ℚ) (now : ℚ) (addLength : Bool) (s : Subsample) (metrics : List M) (x : Exn)
    (h : evaluateIndividual env describe length timeout deadline now addLength s metrics = .error x) :
    (env.valid = false ∧ x = .typeError) ∨
    ((timeout ≤ 0 ∨ ∃ d, deadline = some d ∧ d ≤ now) ∧ x = .valueError) ∨
    ((pipelineBody env s metrics).2 = some .outer ∧ x = .timeout) ∨
    (pipelineBody env s metrics).2 = some (.base x) := by
  cases hv : env.valid with
  | false =>
    left
    refine ⟨rfl, ?_⟩
    simp only [evaluateIndividual, evaluatePipeline, hv, if_true] at h
    cases h; rfl
  | true =>
    right
    by_cases ht : evalTimeout timeout deadline now ≤ 0
    · left
      refine ⟨?_, ?_⟩
      · unfold evalTimeout at ht
        cases deadline with
        | none => exact Or.inl ht
        | some d =>
          rcases min_le_iff.1 ht with h1 | h1
          · exact Or.inl h1
          · exact Or.inr ⟨d, rfl, by linarith⟩
      · simp only [evaluateIndividual, evaluatePipeline, hv, ht, if_true] at h
        cases h; rfl
    · right
      unfold evaluateIndividual at h
      rw [evaluate_cases env _ s metrics hv (not_le.1 ht)] at h
      revert h
      generalize pipelineBody env s metrics = b
      obtain ⟨⟨p, sc, es⟩, y⟩ := b
      intro h
      cases y with
      | none => cases h
      | some y =>
        cases y with
        | own => cases h
        | outer => cases h; exact Or.inl ⟨rfl, rfl⟩
        | base e => cases h; exact Or.inr rfl
        | exn e => cases h

/-! ## C84: the metric asked for is the one used -/

def C84_claim : Prop :=
  ∀ (K Y : Type) (m : Scorer K Y) (ms : List (Scorer K Y)) (y pred : Y),
    maximizableScore m y pred = m.call y pred ∧ gamaScore (m :: ms) y pred = m.call y pred

/-- C84 for scorers without keyword arguments; `score` is then the value up to the sign. -/
theorem C84_partial (K Y : Type) (m : Scorer K Y) (ms : List (Scorer K Y)) (y pred : Y)
    (hk : m.kwargs = []) :
    maximizableScore m y pred = m.call y pred ∧
    (m.sign = 1 → gamaScore (m :: ms) y pred = m.call y pred) ∧
    (∀ q, m.call y pred = .ok q → ∃ q', gamaScore (m :: ms) y pred = .ok q' ∧ q = m.sign * q') := by
  have hg : gamaScore (m :: ms) y pred = m.func [] y pred := rfl
  rw [hg]
  unfold maximizableScore metricScore Scorer.call
  rw [hk]
  refine ⟨rfl, ?_, ?_⟩
  · intro hs
    cases h : m.func [] y pred with
    | error e => rfl
    | ok q => simp [hs]
  · intro q hq
    cases h : m.func [] y pred with
    | error e => rw [h] at hq; cases hq
    | ok q' => rw [h] at hq; cases hq; exact ⟨q', rfl, rfl⟩

/-- **C84**, otherwise: what ensembles are built with is the value of the metric's function without the metric's keyword
arguments, with its sign; `score` returns the same of the first metric without the sign. -/
theorem C84_otherwise (K Y : Type) (m : Scorer K Y) (ms : List (Scorer K Y)) (y pred : Y) :
    (∀ e, m.func [] y pred = .error e → maximizableScore m y pred = .error e ∧ gamaScore (m :: ms) y pred = .error e) ∧
    ∀ q, m.func [] y pred = .ok q → maximizableScore m y pred = .ok (m.sign * q) ∧ gamaScore (m :: ms) y pred = .ok q := by
  have hg : gamaScore (m :: ms) y pred = m.func [] y pred := rfl
  rw [hg]
  unfold maximizableScore metricScore
  refine ⟨fun e h => ?_, fun q h => ?_⟩ <;> rw [h] <;> exact ⟨rfl, rfl⟩

/-- A loss: the number of wrong labels, smaller is better. -/
def lossScorer : Scorer Unit (List Nat) where
  sign := -1
  kwargs := []
  func := fun _ y p => .ok ((y.zip p).countP fun e => e.1 ≠ e.2)

example : maximizableScore lossScorer [1, 2, 2] [1, 1, 1] = .ok (-2) ∧
    gamaScore [lossScorer] [1, 2, 2] [1, 1, 1] = .ok 2 := by decide +kernel

/-- A score that needs to be told how to average when there are more than two labels, as `f1_macro`,
`precision_weighted` and the like do. -/
def averageScorer : Scorer Unit (List Nat) where
  sign := 1
  kwargs := [(['a'], ())]
  func := fun kw y p =>
    if kw = [] ∧ y.any (fun l => decide (2 ≤ l)) then .error .valueError
    else .ok ((y.zip p).countP fun e => e.1 = e.2)

/-- With such a metric scoring predictions of more than two classes fails; with a loss `score` has the
other sign. -/
theorem C84_false : ¬ C84_claim := by
  intro h
  have := (h Unit (List Nat) averageScorer [] [0, 1, 2] [0, 1, 2]).1
  revert this
  decide +kernel

theorem C84_sign_false : ∃ y pred : List Nat,
    gamaScore [lossScorer] y pred ≠ lossScorer.call y pred :=
  ⟨[1], [2], by decide +kernel⟩

/-! ## C85: what a failed evaluation reports -/

def C85_claim : Prop :=
  ∀ (E V M : Type) (env : EvalEnv E V M) (t : ℚ) (s : Subsample) (metrics : List M)
    (r : PipeResult E V), evaluatePipeline env t s metrics = .ok r → r.error ≠ none →
    r.prediction = none ∧ r.estimators = none ∧ ∀ x ∈ r.scores, x = .ninf

/-- C85 when scoring itself failed. -/
theorem C85_partial (env : EvalEnv E V M) (t : ℚ) (s : Subsample) (metrics : List M)
    (r : PipeResult E V) (hf : Spec.ScoringFailed env s)
    (h : evaluatePipeline env t s metrics = .ok r) :
    r.error ≠ none ∧ r.prediction = none ∧ r.estimators = none ∧ ∀ x ∈ r.scores, x = .ninf := by
  obtain ⟨h1, h2, h3, h4⟩ := evaluate_scores h
  obtain ⟨_, b2, _⟩ := body_scores env s metrics
  have hb : (pipelineBody env s metrics).1.1 = none ∧ (pipelineBody env s metrics).1.2.2 = none ∧
      (pipelineBody env s metrics).2 ≠ none := by
    unfold pipelineBody
    dsimp only
    rcases hf with ⟨x, hx⟩ | ⟨folds, x, hx, hy⟩
    · rw [hx]; exact ⟨rfl, rfl, nofun⟩
    · rw [hx]
      dsimp only
      rw [hy]
      exact ⟨rfl, rfl, nofun⟩
  refine ⟨fun e => hb.2.2 (h4.1 e), h1.trans hb.1, h3.trans hb.2.1, ?_⟩
  rw [h2]
  exact b2 hf

example : Spec.ScoringFailed (M := Unit) { sampleEnv [([1], [0])] [0, 1] id with
    cv := fun _ => .error (.exn .valueError) } .none :=
  Or.inr ⟨[([1], [0])], .exn .valueError, rfl, rfl⟩

/-- Running out of time while predicting, after scoring, leaves the scores and estimators in place. -/
theorem C85_false : ¬ C85_claim := by
  intro h
  have := h Nat Nat Unit { sampleEnv [([1], [0]), ([0], [1])] [0, 1] id with
      predict := fun _ _ => .error .own } 1 .none [()]
    ⟨none, [.fin 1], some [0, 1], some .timeout⟩ ?_ nofun
  · exact absurd this.2.1 nofun
  · decide +kernel

/-! ## C86: a subsample can be drawn -/

/-- If the data can be split and the sampler works on every training set and size, then evaluating on
fewer rows than there are does not fail for lack of rows. -/
def C86_claim : Prop :=
  ∀ (E V M : Type) (env : EvalEnv E V M) (k : Nat) (fs : List Fold),
    0 < k → k < env.index.length → env.index.Nodup → env.split = .ok fs →
    (∀ f ∈ fs, ∀ i ∈ f.1, i < env.index.length) →
    (∀ train, ∃ idx, env.sample train = .ok idx) → ∃ folds, prepareFolds env (.rows k) = .ok folds

theorem subsampleFolds_ok {env : EvalEnv E V M} {s : Subsample} : ∀ (fs : List Fold),
    (∀ f ∈ fs, ∃ g, subsampleFold env s f = .ok g) → ∃ gs, subsampleFolds env s fs = .ok gs := by
  intro fs
  induction fs with
  | nil => intro _; exact ⟨[], rfl⟩
  | cons f fs ih =>
    intro h
    obtain ⟨g, hg⟩ := h f List.mem_cons_self
    obtain ⟨gs, hgs⟩ := ih fun f' hf => h f' (List.mem_cons_of_mem _ hf)
    exact ⟨g :: gs, by unfold subsampleFolds; rw [hg, hgs]⟩

/-- C86 when there are fewer rows to draw than every training set has, and the row numbers of the
training sets are labels of the index (as for data with a default index). -/
theorem C86_partial (env : EvalEnv E V M) (k : Nat) (fs : List Fold) (h0 : 0 < k)
    (hk : ∀ f ∈ fs, k < f.1.length) (hs : env.split = .ok fs)
    (hi : ∀ f ∈ fs, ∀ i ∈ f.1, i ∈ env.index)
    (hd : ∀ train, ∃ idx, env.sample train = .ok idx) :
    ∃ folds, prepareFolds env (.rows k) = .ok folds := by
  unfold prepareFolds
  rw [hs]
  dsimp only
  cases requireSubsample (.rows k) env.index.length
  · exact ⟨fs, rfl⟩
  · refine subsampleFolds_ok fs fun f hf => ?_
    obtain ⟨idx, hx⟩ := hd f.1
    refine ⟨(idx, f.2), ?_⟩
    unfold subsampleFold labelLookup
    rw [if_pos (by simpa using hi f hf)]
    dsimp only
    have : sampleSizeOk (.rows k) f.1.length = true := by
      simp [sampleSizeOk, h0, hk f hf]
    rw [if_pos this, hx]

example : ∃ folds, prepareFolds (sampleEnv [([2, 3], [0, 1]), ([0, 1], [2, 3])] [0, 1, 2, 3]
    fun t => t.take 1) (.rows 1) = .ok folds :=
  C86_partial _ 1 [([2, 3], [0, 1]), ([0, 1], [2, 3])] (by decide) (by simp) rfl
    (by simp [sampleEnv]) fun t => ⟨_, rfl⟩

/-- Three of four rows cannot be drawn: a training set has only two. -/
theorem C86_false : ¬ C86_claim := by
  intro h
  obtain ⟨folds, hf⟩ := h Nat Nat Unit
    (sampleEnv [([2, 3], [0, 1]), ([0, 1], [2, 3])] [0, 1, 2, 3] id) 3
    [([2, 3], [0, 1]), ([0, 1], [2, 3])] (by decide) (by decide) (by decide) rfl
    (by simp [sampleEnv]) fun t => ⟨_, rfl⟩
  cases hf

/-- Neither can one row be drawn when the index has a gap, as after removing rows without label. -/
theorem C86_index_false : prepareFolds
    (sampleEnv [([2, 3], [0, 1]), ([0, 1], [2, 3])] [0, 1, 3, 4] id) (.rows 1) =
      .error (.exn .keyError) := by rfl

/-! ### Cases of the theorems above -/

/-- The environment whose split is a second half for training, and draws the first position. -/
def Ex.rowOne : EvalEnv Nat Nat Unit := sampleEnv [([2, 3], [0, 1])] [0, 1, 2, 3] fun t => (List.range t.length).take 1

/-- `C56_positions` and `C56_leak`: position 0 of the training rows 2 and 3 is taken for row 0, which is tested. -/
example : Ex.rowOne.sample [2, 3] = .ok [0] ∧ ¬ Spec.Disjoint ([0], [0, 1]) :=
  ⟨(C56_positions Ex.rowOne (.rows 1) ([2, 3], [0, 1]) ([0], [0, 1]) rfl).1,
    C56_leak Ex.rowOne (.rows 1) ([2, 3], [0, 1]) ([0], [0, 1]) [0] 0 rfl rfl (by simp) (by simp)⟩

/-- `C56_prefix`: training rows that come first. -/
example : (∀ i ∈ [0], i ∈ [0, 1]) ∧ Spec.Disjoint ([0], [2, 3]) :=
  C56_prefix Ex.rowOne (.rows 1) ([0, 1], [2, 3]) ([0], [2, 3])
    (fun t idx h j hj => by
      cases h
      exact List.mem_range.1 (List.mem_of_mem_take hj)) rfl (by intro i hi; revert i; decide) rfl

/-- `C57` on the environment above. -/
example : ∃ es p, some [0, 1] = some es ∧ es.length = 2 ∧
    some (⟨none, [some [0], some [11], some [2], some [13]]⟩ : PredArray Nat) = some p ∧ p.rows.length = 4 ∧
    ∀ i < 4, ∃ (k : Nat) (e : Nat) (f : Fold), es[k]? = some e ∧
      [([1, 3], [0, 2]), ([0, 2], [1, 3])][k]? = some f ∧ i ∈ f.2 ∧ p.rows[i]? = some (some [10 * e + i]) :=
  C57 (sampleEnv [([1, 3], [0, 2]), ([0, 2], [1, 3])] [0, 1, 2, 3] fun t => t) 5 .none [()]
    ⟨some ⟨none, [some [0], some [11], some [2], some [13]]⟩, [.fin 1], some [0, 1], none⟩ (fun e i => [10 * e + i])
    [([1, 3], [0, 2]), ([0, 2], [1, 3])] (by decide +kernel) rfl rfl
    ⟨by decide, by intro i; simp [sampleEnv]; omega⟩ (by decide)
    (fun folds result es h => by cases h; simp) (.inl ⟨fun e i => 10 * e + i, fun _ _ => rfl, fun _ _ => rfl⟩)

/-- `C58_reported`: a scorer that raises. -/
example : ∃ r, evaluateIndividual (M := Unit) { sampleEnv [([1], [0])] [0, 1] id with
      cv := fun _ => .error (.exn .valueError) } (fun _ => ['!']) 3 5 none 0 true .none [()] = .ok r ∧
    r.error = some ['!'] :=
  (C58_reported (M := Unit) { sampleEnv [([1], [0])] [0, 1] id with
    cv := fun _ => .error (.exn .valueError) } (fun _ => ['!']) 3 5 none 0 true .none [()] rfl (by decide) nofun).1
    .valueError rfl

/-- `C58_raised`: a pipeline that is no pipeline. -/
example : evaluateIndividual (M := Unit) { sampleEnv [([1], [0])] [0, 1] id with valid := false }
    (fun _ => ['!']) 3 5 none 0 true .none [()] = .error .typeError := rfl

/-- `C85_partial`: a scorer that raises leaves no prediction. -/
example (r : PipeResult Nat Nat) (h : evaluatePipeline (M := Unit) { sampleEnv [([1], [0])] [0, 1] id with
    cv := fun _ => .error (.exn .valueError) } 5 .none [()] = .ok r) : r.prediction = none :=
  (C85_partial _ 5 .none [()] r (Or.inr ⟨[([1], [0])], .exn .valueError, rfl, rfl⟩) h).2.1

end Gama
