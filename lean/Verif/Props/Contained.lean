import Verif.Props.Evaluate

/-! # What is raised while a pipeline is evaluated (C58)

`C58_reported` and `C58_raised` say what becomes of what the body of `evaluate_pipeline` raises.  Here it is
said in terms of what scikit-learn and the clock do. -/

namespace Gama

variable {E V M : Type}

/-- One of the calls of an evaluation may raise `r`, or the clock does. -/
inductive Spec.Source (env : EvalEnv E V M) (r : Raised) : Prop
  | split : env.split = .error r → Source env r
  | sample (train : List Nat) : env.sample train = .error r → Source env r
  | cv (folds : List Fold) : env.cv folds = .error r → Source env r
  | afterScores : env.afterScores = some r → Source env r
  | predict (e : E) (test : List Nat) : env.predict e test = .error r → Source env r
  | atEnd : env.atEnd = some r → Source env r

/-- The errors that `evaluate_pipeline` makes by itself: row labels that are not in the index, sample sizes and
shapes that do not fit. -/
def Spec.Mismatch (r : Raised) : Prop := r = .exn .keyError ∨ r = .exn .valueError

theorem subsampleFolds_source (env : EvalEnv E V M) (s : Subsample) (r : Raised) : ∀ fs : List Fold,
    subsampleFolds env s fs = .error r → Spec.Source env r ∨ Spec.Mismatch r
  | [], h => by cases h
  | f :: fs, h => by
    unfold subsampleFolds at h
    cases hf : subsampleFold env s f with
    | error x =>
      rw [hf] at h
      cases h
      unfold subsampleFold at hf
      cases hl : labelLookup env.index f.1 with
      | error y =>
        rw [hl] at hf
        cases hf
        unfold labelLookup at hl
        split at hl
        · cases hl
        · cases hl
          exact Or.inr (Or.inl rfl)
      | ok u =>
        rw [hl] at hf
        dsimp only at hf
        split at hf
        · cases hs : env.sample f.1 with
          | error y =>
            rw [hs] at hf
            cases hf
            exact Or.inl (.sample f.1 hs)
          | ok idx =>
            rw [hs] at hf
            cases hf
        · cases hf
          exact Or.inr (Or.inr rfl)
    | ok g =>
      rw [hf] at h
      dsimp only at h
      cases hg : subsampleFolds env s fs with
      | error x =>
        rw [hg] at h
        cases h
        exact subsampleFolds_source env s r fs hg
      | ok gs =>
        rw [hg] at h
        cases h

theorem prepareFolds_source (env : EvalEnv E V M) (s : Subsample) (r : Raised) (h : prepareFolds env s = .error r) :
    Spec.Source env r ∨ Spec.Mismatch r := by
  unfold prepareFolds at h
  cases hs : env.split with
  | error x =>
    rw [hs] at h
    cases h
    exact Or.inl (.split hs)
  | ok fs =>
    rw [hs] at h
    dsimp only at h
    split at h
    · exact subsampleFolds_source env s r fs h
    · cases h

theorem assignPred_source (p : PredArray V) (test : List Nat) (fp : FoldPred V) (r : Raised)
    (h : assignPred p test fp = .error r) : Spec.Mismatch r := by
  cases fp with
  | vec v =>
    unfold assignPred at h
    dsimp only at h
    split at h
    · cases h
    · cases h
      exact Or.inr rfl
  | mat cols rows =>
    unfold assignPred at h
    dsimp only at h
    repeat' split at h
    all_goals first
      | (cases h; exact Or.inr rfl)
      | cases h

theorem predictLoop_source (env : EvalEnv E V M) (r : Raised) : ∀ (es : List E) (fs : List Fold)
    (p : Option (PredArray V)), (predictLoop env es fs p).2 = some r → Spec.Source env r ∨ Spec.Mismatch r
  | [], _, _, h => by
    unfold predictLoop at h
    cases h
  | e :: es, [], _, h => by
    unfold predictLoop at h
    cases h
  | e :: es, f :: fs, p, h => by
    unfold predictLoop at h
    cases hp : env.predict e f.2 with
    | error x =>
      rw [hp] at h
      cases h
      exact Or.inl (.predict e f.2 hp)
    | ok fp =>
      rw [hp] at h
      dsimp only at h
      cases ha : assignPred (p.getD (emptyPred env.index.length fp)) f.2 fp with
      | error x =>
        rw [ha] at h
        cases h
        exact Or.inr (assignPred_source _ _ _ _ ha)
      | ok q =>
        rw [ha] at h
        exact predictLoop_source env r es fs _ h

theorem predictLoop_clean (env : EvalEnv E V M) : ∀ (es : List E) (fs : List Fold)
    (p : Option (PredArray V)), (predictLoop env es fs p).2 = none →
    ∀ x ∈ es.zip fs, ∃ fp, env.predict x.1 x.2.2 = .ok fp
  | [], _, _, _, x, hx => by cases hx
  | e :: es, [], _, _, x, hx => by cases hx
  | e :: es, f :: fs, p, h, x, hx => by
    unfold predictLoop at h
    cases hp : env.predict e f.2 with
    | error y =>
      rw [hp] at h
      cases h
    | ok fp =>
      rw [hp] at h
      dsimp only at h
      rcases List.mem_cons.1 hx with rfl | hx
      · exact ⟨fp, hp⟩
      · cases ha : assignPred (p.getD (emptyPred env.index.length fp)) f.2 fp with
        | error y =>
          rw [ha] at h
          cases h
        | ok q =>
          rw [ha] at h
          exact predictLoop_clean env es fs _ h x hx

/-- What the body raises comes from a call, or is a mismatch. -/
theorem body_source (env : EvalEnv E V M) (s : Subsample) (metrics : List M) (r : Raised)
    (h : (pipelineBody env s metrics).2 = some r) : Spec.Source env r ∨ Spec.Mismatch r := by
  unfold pipelineBody at h
  dsimp only at h
  cases h1 : prepareFolds env s with
  | error x =>
    rw [h1] at h
    cases h
    exact prepareFolds_source env s r h1
  | ok folds =>
    rw [h1] at h
    dsimp only at h
    cases h2 : env.cv folds with
    | error x =>
      rw [h2] at h
      cases h
      exact Or.inl (.cv folds h2)
    | ok re =>
      obtain ⟨result, es⟩ := re
      rw [h2] at h
      dsimp only at h
      cases h3 : env.afterScores with
      | some x =>
        rw [h3] at h
        cases h
        exact Or.inl (.afterScores h3)
      | none =>
        rw [h3] at h
        dsimp only at h
        cases h4 : predictLoop env es folds none with
        | mk p x =>
          rw [h4] at h
          cases x with
          | some x =>
            cases h
            exact predictLoop_source env r es folds none (by rw [h4])
          | none => exact Or.inl (.atEnd h)

/-- If the body raises nothing, every call returned. -/
theorem body_clean (env : EvalEnv E V M) (s : Subsample) (metrics : List M)
    (h : (pipelineBody env s metrics).2 = none) : ∃ folds result es, prepareFolds env s = .ok folds ∧
      env.cv folds = .ok (result, es) ∧ env.afterScores = none ∧ env.atEnd = none ∧
      (pipelineBody env s metrics).1.2.2 = some es ∧
      ∀ x ∈ es.zip folds, ∃ fp, env.predict x.1 x.2.2 = .ok fp := by
  unfold pipelineBody at h ⊢
  dsimp only at h ⊢
  cases h1 : prepareFolds env s with
  | error x =>
    rw [h1] at h
    cases h
  | ok folds =>
    rw [h1] at h
    dsimp only at h
    cases h2 : env.cv folds with
    | error x =>
      rw [h2] at h
      cases h
    | ok re =>
      obtain ⟨result, es⟩ := re
      rw [h2] at h
      dsimp only at h
      cases h3 : env.afterScores with
      | some x =>
        rw [h3] at h
        cases h
      | none =>
        rw [h3] at h
        dsimp only at h
        cases h4 : predictLoop env es folds none with
        | mk p x =>
          rw [h4] at h
          cases x with
          | some x => cases h
          | none =>
            refine ⟨folds, result, es, rfl, h2, rfl, h, ?_, predictLoop_clean env es folds none (by rw [h4])⟩
            dsimp only
            rw [h2]
            dsimp only
            rw [h4]

/-- **C58**: an evaluation that has time left returns, if nothing ends it from outside, whatever the calls it
makes raise or however long they take.  An error it reports is that of a call, a time out or a mismatch; if it
reports none, every call returned, and the estimators are those of the cross validation. -/
theorem C58_contained (env : EvalEnv E V M) (describe : EvalError → Str) (length : Nat) (timeout : ℚ)
    (deadline : Option ℚ) (now : ℚ) (addLength : Bool) (s : Subsample) (metrics : List M)
    (hv : env.valid = true) (ht : 0 < timeout) (hd : ∀ d, deadline = some d → now < d)
    (hs : ∀ r, Spec.Source env r → r = .own ∨ ∃ e, r = .exn e) :
    ∃ r, evaluateIndividual env describe length timeout deadline now addLength s metrics = .ok r ∧
      (∀ t, r.error = some t → (Spec.Source env .own ∧ t = describe .timeout) ∨
        ∃ e, (Spec.Source env (.exn e) ∨ Spec.Mismatch (.exn e)) ∧ t = describe (.exn e)) ∧
      (r.error = none → ∃ folds result es, prepareFolds env s = .ok folds ∧ env.cv folds = .ok (result, es) ∧
        r.estimators = some es ∧ ∀ x ∈ es.zip folds, ∃ fp, env.predict x.1 x.2.2 = .ok fp) := by
  obtain ⟨hr1, hr2, hr3⟩ := C58_reported env describe length timeout deadline now addLength s metrics hv ht hd
  cases hb : (pipelineBody env s metrics).2 with
  | none =>
    obtain ⟨r, h1, h2⟩ := hr3 hb
    refine ⟨r, h1, (fun t h => by rw [h2] at h; cases h), fun _ => ?_⟩
    obtain ⟨folds, result, es, g1, g2, _, _, g5, g6⟩ := body_clean env s metrics hb
    refine ⟨folds, result, es, g1, g2, ?_, g6⟩
    unfold evaluateIndividual at h1
    cases hp : evaluatePipeline env (evalTimeout timeout deadline now) s metrics with
    | error e => rw [hp] at h1; cases h1
    | ok pr =>
      rw [hp] at h1
      cases h1
      rw [← g5]
      exact (evaluate_scores hp).2.2.1
  | some x =>
    have hx := body_source env s metrics x hb
    have : x = .own ∨ ∃ e, x = .exn e := by
      rcases hx with hx | rfl | rfl
      · exact hs x hx
      · exact Or.inr ⟨_, rfl⟩
      · exact Or.inr ⟨_, rfl⟩
    rcases this with rfl | ⟨e, rfl⟩
    · obtain ⟨r, h1, h2⟩ := hr2 hb
      refine ⟨r, h1, fun t h => Or.inl ⟨?_, ?_⟩, (fun h => by rw [h2] at h; cases h)⟩
      · rcases hx with hx | hx | hx
        · exact hx
        · cases hx
        · cases hx
      · rw [h2] at h
        exact (Option.some.inj h).symm
    · obtain ⟨r, h1, h2⟩ := hr1 e hb
      refine ⟨r, h1, fun t h => Or.inr ⟨e, hx, ?_⟩, (fun h => by rw [h2] at h; cases h)⟩
      rw [h2] at h
      exact (Option.some.inj h).symm

/-- **C58**: what an evaluation raises: it was given no pipeline, or no time, or it was ended from outside. -/
theorem C58_outside (env : EvalEnv E V M) (describe : EvalError → Str) (length : Nat) (timeout : ℚ)
    (deadline : Option ℚ) (now : ℚ) (addLength : Bool) (s : Subsample) (metrics : List M) (x : Exn)
    (h : evaluateIndividual env describe length timeout deadline now addLength s metrics = .error x) :
    (env.valid = false ∧ x = .typeError) ∨
    ((timeout ≤ 0 ∨ ∃ d, deadline = some d ∧ d ≤ now) ∧ x = .valueError) ∨
    (Spec.Source env .outer ∧ x = .timeout) ∨ Spec.Source env (.base x) := by
  rcases C58_raised env describe length timeout deadline now addLength s metrics x h with h | h | ⟨h, h'⟩ | h
  · exact Or.inl h
  · exact Or.inr (Or.inl h)
  · rcases body_source env s metrics _ h with h | h | h
    · exact Or.inr (Or.inr (Or.inl ⟨h, h'⟩))
    · cases h
    · cases h
  · rcases body_source env s metrics _ h with h | h | h
    · exact Or.inr (Or.inr (Or.inr h))
    · cases h
    · cases h

/-- A pipeline that cannot be fitted: the error is reported, the scores are the worst. -/
def Ex.unfittable : EvalEnv Nat Nat Unit :=
  { sampleEnv [([1], [0]), ([0], [1])] [0, 1] (fun t => t) with cv := fun _ => .error (.exn .valueError) }

example : (∀ r, Spec.Source Ex.unfittable r → r = .own ∨ ∃ e, r = .exn e) ∧
    (evaluateIndividual Ex.unfittable (fun _ => "failed".toList) 3 5 (some 8) 2 true .none [()]).toOption.map
      (fun r => (r.error, r.score)) = some (some "failed".toList, [.ninf, .fin (-3)]) := by
  refine ⟨fun r h => ?_, by decide +kernel⟩
  cases h with
  | cv folds h => cases h; exact Or.inr ⟨_, rfl⟩
  | split h => cases h
  | sample t h => cases h
  | afterScores h => cases h
  | predict e t h => cases h
  | atEnd h => cases h

end Gama
