import Verif.Props.Exact
import Verif.Props.Evaluate
import Verif.Props.Predict

/-!
# What happens where a property does not hold (C85, C86, C88, C92, C95, C100, C101)
-/

namespace Gama
open PyM Spec

/-! ### C85: failures after scoring -/

section
variable {E V M : Type}

/-- **C85**, what is reported if scoring did not fail: the mean scores, whatever happens afterwards.  If an error is
reported as well, the estimators are there unless it came between scoring and predicting. -/
theorem C85_after (env : EvalEnv E V M) (t : ℚ) (s : Subsample) (metrics : List M) (r : PipeResult E V)
    (folds : List Fold) (result : M → List Score) (es : List E) (hp : prepareFolds env s = .ok folds)
    (hc : env.cv folds = .ok (result, es)) (h : evaluatePipeline env t s metrics = .ok r) :
    r.scores.length = metrics.length ∧
    (∀ (i : Nat) m x, metrics[i]? = some m → r.scores[i]? = some x → MeanOf (result m) x) ∧
    (env.afterScores = none → r.estimators = some es) ∧
    (env.afterScores ≠ none → r.error ≠ none ∧ r.estimators = none ∧ r.prediction = none) := by
  obtain ⟨h1, h2, h3, h4⟩ := evaluate_scores h
  obtain ⟨b1, _, b3⟩ := body_scores env s metrics
  have hsc := b3 folds result es hp hc
  refine ⟨by rw [h2]; exact b1, ?_, ?_, ?_⟩
  · intro i m x hm hx
    rw [h2, hsc, List.getElem?_map, hm] at hx
    injection hx with hx
    exact hx ▸ meanScores_mean _
  · intro ha
    rw [h3]
    unfold pipelineBody
    dsimp only
    rw [hp]
    dsimp only
    rw [hc]
    dsimp only
    rw [ha]
    dsimp only
    split <;> rfl
  · intro ha
    obtain ⟨x, hx⟩ := Option.ne_none_iff_exists'.1 ha
    have hb : pipelineBody env s metrics = ((none, metrics.map (fun m => meanScores (result m)), none), some x) := by
      unfold pipelineBody
      dsimp only
      rw [hp]
      dsimp only
      rw [hc]
      dsimp only
      rw [hx]
    rw [hb] at h1 h3 h4
    exact ⟨(fun e => nomatch h4.1 e), h3, h1⟩

/-- The time runs out while predicting: scores and estimators are reported all the same. -/
example (r : PipeResult Nat Nat) (h : evaluatePipeline (M := Unit) { sampleEnv [([1], [0]), ([0], [1])] [0, 1] id with
    predict := fun _ _ => .error .own } 5 .none [()] = .ok r) : r.estimators = some [0, 1] :=
  (C85_after { sampleEnv [([1], [0]), ([0], [1])] [0, 1] id with predict := fun _ _ => .error .own } 5 .none [()] r
    [([1], [0]), ([0], [1])] _ [0, 1] rfl rfl h).2.2.1 rfl

/-! ### C86: when a subsample can be drawn -/

/-- **C86** exactly, for a sampler that does not fail and folds of data that is subsampled: every training set must
have more rows than asked for, and its row numbers must be labels of the index. -/
theorem C86_exact (env : EvalEnv E V M) (k : Nat) (fs : List Fold) (hn : k < env.index.length)
    (hs : env.split = .ok fs) (hd : ∀ train, ∃ idx, env.sample train = .ok idx) :
    (∃ folds, prepareFolds env (.rows k) = .ok folds) ↔
      ∀ f ∈ fs, 0 < k ∧ k < f.1.length ∧ ∀ i ∈ f.1, i ∈ env.index := by
  constructor
  · rintro ⟨folds, h⟩
    unfold prepareFolds at h
    rw [hs] at h
    have hr : requireSubsample (.rows k) env.index.length = true := by simp [requireSubsample, hn]
    dsimp only at h
    rw [if_pos hr] at h
    clear hs
    induction fs generalizing folds with
    | nil => intro f hf; cases hf
    | cons g fs ih =>
      unfold subsampleFolds at h
      cases hg : subsampleFold env (.rows k) g with
      | error x => rw [hg] at h; cases h
      | ok g' =>
        rw [hg] at h
        dsimp only at h
        cases hgs : subsampleFolds env (.rows k) fs with
        | error x => rw [hgs] at h; cases h
        | ok gs =>
          intro f hf
          rcases List.mem_cons.1 hf with rfl | hf
          · unfold subsampleFold labelLookup at hg
            by_cases ha : (f.1.all fun i => env.index.contains i) = true
            · rw [if_pos ha] at hg
              dsimp only at hg
              by_cases hk : sampleSizeOk (.rows k) f.1.length = true
              · simp only [sampleSizeOk, decide_eq_true_eq] at hk
                exact ⟨hk.1, hk.2, by simpa using ha⟩
              · rw [if_neg hk] at hg; cases hg
            · rw [if_neg ha] at hg; cases hg
          · exact ih gs hgs f hf
  · intro h
    by_cases h0 : 0 < k
    · exact C86_partial env k fs h0 (fun f hf => (h f hf).2.1) hs (fun f hf => (h f hf).2.2) hd
    · have : fs = [] := by
        cases fs with
        | nil => rfl
        | cons f fs => exact absurd (h f List.mem_cons_self).1 h0
      subst this
      unfold prepareFolds
      rw [hs]
      dsimp only
      split
      · exact ⟨[], rfl⟩
      · exact ⟨[], rfl⟩

/-- Three of four rows with two folds: a training set has only two. -/
example : ¬ ∃ folds, prepareFolds (M := Unit) (sampleEnv [([2, 3], [0, 1]), ([0, 1], [2, 3])] [0, 1, 2, 3] id) (.rows 3)
    = .ok folds := by
  rw [C86_exact _ 3 [([2, 3], [0, 1]), ([0, 1], [2, 3])] (by decide) rfl fun t => ⟨_, rfl⟩]
  intro h
  have := (h ([2, 3], [0, 1]) (by simp)).2.1
  simp at this

end

/-! ### C88: the directory that is left -/

/-- **C88**, where it does not hold: with times and jobs that are fine, a scoring, search space or pipeline length that
is refused leaves a directory, also where there was none. -/
theorem C88_left (a : InitArgs) (p : Place) (hp : Usable p) (hk : a.presetKnown = true) (t : Int)
    (ht : a.maxTotalTime = some t) (h0 : 0 < t) (he : ∀ t, a.maxEvalTime = some t → 0 < t) (n : Int)
    (hj : a.nJobs = some n) (h1 : 1 ≤ n)
    (hr : a.scoringError ≠ none ∨ a.spaceError ≠ none ∨
      (a.preprocessing = false ∧ ∃ m, a.maxLength = some m ∧ 1 < m)) :
    ∃ e es, gamaInit a p = (.error e, .dir es) := by
  have hres : resolveJobs a = n := by
    unfold resolveJobs
    rw [hj]
    exact if_neg (by omega)
  have hnot : refused a = false := by
    unfold refused
    rw [ht, hres]
    have e1 : ¬ t ≤ 0 := by omega
    have e2 : ¬ n < -1 := by omega
    have e3 : n ≠ 0 := by omega
    simp only [e1, e2, e3, decide_false, Bool.or_false, Bool.false_or]
    cases h : a.maxEvalTime with
    | none => rfl
    | some e =>
      have := he e h
      simp; omega
  have hev : ∃ e, maxEvalTime (some t) a.maxEvalTime = .ok e := by
    unfold maxEvalTime
    dsimp only
    rw [if_neg (by omega)]
    cases h : a.maxEvalTime with
    | none => exact ⟨_, rfl⟩
    | some e =>
      dsimp only
      rw [if_neg (by have := he e h; omega)]
      exact ⟨_, rfl⟩
  obtain ⟨ev, hev⟩ := hev
  unfold gamaInit
  rw [if_pos hk, open_usable hp]
  dsimp only
  rw [touch_first]
  dsimp only
  rw [if_neg (by rw [hnot]; nofun), ht]
  dsimp only
  rw [hev]
  dsimp only
  unfold initRest
  cases hs : a.scoringError with
  | some e => exact ⟨e, _, rfl⟩
  | none =>
    dsimp only
    cases hc : a.spaceError with
    | some e => exact ⟨e, _, rfl⟩
    | none =>
      dsimp only
      rcases hr with hr | hr | ⟨hpre, m, hm, h1m⟩
      · exact absurd hs hr
      · exact absurd hc hr
      · have : resolveLength a = .error .valueError := by
          unfold resolveLength
          rw [if_neg (by rw [hpre]; nofun), hm]
          exact if_pos h1m
        rw [this]
        exact ⟨_, _, rfl⟩

/-- Three steps asked for in a search without preprocessing. -/
example : ∃ e es, gamaInit { sampleArgs with preprocessing := false, maxLength := some 3 } (.missing true)
    = (.error e, .dir es) :=
  C88_left _ _ (Or.inl rfl) rfl 3600 rfl (by omega) (fun t h => by cases h; omega) 2 rfl (by omega)
    (Or.inr (Or.inr ⟨rfl, 3, rfl, by omega⟩))

/-! ### C92: what is left of the search space -/

/-- **C92** exactly: an algorithm is in the search space of a fit unless it is a heavy one and the data of this or of an
earlier fit was large. -/
theorem C92_exact (h : Heavy) (m : Option Nat) (ds : List (Nat × Nat)) (s : List Primitive × List Primitive)
    (p : Primitive) :
    (p ∈ (excludeRun h m ds s).1 ↔
      p ∈ s.1 ∧ ¬ (m ≠ some 0 ∧ p.ident.uid ∈ h.neighbors ∧ ∃ d ∈ ds, d.1 * d.2 > 6000000)) ∧
    (p ∈ (excludeRun h m ds s).2 ↔
      p ∈ s.2 ∧ ¬ (m ≠ some 0 ∧ p.ident.uid ∈ h.polynomial ∧ ∃ d ∈ ds, d.2 > 50)) := by
  have hst : storesModels m = true ↔ m ≠ some 0 := by
    cases m with
    | none => simp [storesModels]
    | some k => simp [storesModels, Nat.pos_iff_ne_zero]
  have key : ∀ (l : List Primitive) (heavy : List Nat) (big : Prop) [Decidable big],
      p ∈ (if storesModels m && decide big then l.filter (fun p => !heavy.contains p.ident.uid) else l) ↔
        p ∈ l ∧ ¬ (m ≠ some 0 ∧ p.ident.uid ∈ heavy ∧ big) := by
    intro l heavy big _
    by_cases hs : storesModels m = true
    · have h0 := hst.1 hs
      by_cases hb : big
      · simp [hs, hb, h0]
      · simp [hb]
    · have h0 : m = some 0 := by
        by_contra e
        exact hs (hst.2 e)
      simp [h0, storesModels]
  induction ds generalizing s with
  | nil => simp [excludeRun]
  | cons d ds ih =>
    unfold excludeRun
    obtain ⟨i1, i2⟩ := ih (excludeHeavy h m d.1 d.2 s)
    rw [i1, i2]
    constructor
    · refine (and_congr_left' (key s.1 h.neighbors _)).trans ?_
      rw [and_assoc, ← not_or]
      refine and_congr_right' (not_congr ?_)
      simp only [List.mem_cons, exists_eq_or_imp]
      constructor
      · rintro (⟨a, b, c⟩ | ⟨a, b, c⟩)
        · exact ⟨a, b, .inl c⟩
        · exact ⟨a, b, .inr c⟩
      · rintro ⟨a, b, c | c⟩
        · exact .inl ⟨a, b, c⟩
        · exact .inr ⟨a, b, c⟩
    · refine (and_congr_left' (key s.2 h.polynomial _)).trans ?_
      rw [and_assoc, ← not_or]
      refine and_congr_right' (not_congr ?_)
      simp only [List.mem_cons, exists_eq_or_imp]
      constructor
      · rintro (⟨a, b, c⟩ | ⟨a, b, c⟩)
        · exact ⟨a, b, .inl c⟩
        · exact ⟨a, b, .inr c⟩
      · rintro ⟨a, b, c | c⟩
        · exact .inl ⟨a, b, c⟩
        · exact .inr ⟨a, b, c⟩

/-- A first fit on large data, a second on small: neither has the algorithm with identity 3. -/
example (s : List Primitive × List Primitive) (p : Primitive) (h : p.ident.uid = 3) :
    p ∉ (excludeRun ⟨[3], []⟩ none [(1000000, 10), (10, 10)] s).1 := by
  rw [(C92_exact _ _ _ _ p).1]
  rintro ⟨_, h'⟩
  exact h' ⟨nofun, by simp [h], (1000000, 10), by simp, by decide⟩

/-! ### C95: a file that is its header -/

/-- **C95**, where it does not hold: of a file that is only its header, without a line end, the last name lacks its
last character. -/
theorem C95_no_line_end (path : Str) (sep c : Char) (given : Option Char) (names : List Str) (last : Str)
    (hp : ∃ q, path = q ++ ['.', 'c', 's', 'v'])
    (h : ∀ n ∈ names ++ [last ++ [c]], '\n' ∉ n ∧ '\r' ∉ n ∧ given.getD sep ∉ n) (hs : given.getD sep ≠ '\n')
    (hs' : given.getD sep ≠ '\r') :
    csvHeader path (sep, true) given (joinWith [given.getD sep] (names ++ [last ++ [c]]))
      = .ok (names ++ [last]) := by
  have hj : ∀ (l : List Str) (x y : Str), joinWith [given.getD sep] (l ++ [x ++ y]) =
      joinWith [given.getD sep] (l ++ [x]) ++ y := by
    intro l x y
    induction l with
    | nil => simp [joinWith]
    | cons a l ih =>
      cases l with
      | nil => simp [joinWith]
      | cons b l => simp only [List.cons_append, joinWith] at ih ⊢; rw [ih]; simp
  have hmem : ∀ n ∈ names ++ [last], '\n' ∉ n ∧ '\r' ∉ n ∧ given.getD sep ∉ n := by
    intro n hn
    rcases List.mem_append.1 hn with hn | hn
    · exact h n (List.mem_append_left _ hn)
    · rw [List.mem_singleton.1 hn]
      obtain ⟨a1, a2, a3⟩ := h (last ++ [c]) (by simp)
      simp only [List.mem_append, not_or] at a1 a2 a3
      exact ⟨a1.1, a2.1, a3.1⟩
  have he : endsIn csvExtension path = true := (endsIn_iff _ _).2 hp
  have hn : '\n' ∉ joinWith [given.getD sep] (names ++ [last ++ [c]]) :=
    not_mem_joinWith _ _ (by rw [List.mem_singleton]; exact fun e => hs e.symm) _ fun x hx => (h x hx).1
  have hr : '\r' ∉ joinWith [given.getD sep] (names ++ [last ++ [c]]) :=
    not_mem_joinWith _ _ (by rw [List.mem_singleton]; exact fun e => hs' e.symm) _ fun x hx => (h x hx).2.1
  have hrl : ∀ s : Str, '\n' ∉ s → readline s = s := by
    intro s
    induction s with
    | nil => intro _; rfl
    | cons d s ih =>
      intro hd
      simp only [List.mem_cons, not_or] at hd
      unfold readline
      rw [if_neg fun e => hd.1 e.symm, ih hd.2]
  unfold csvHeader
  rw [he, universal_id _ hr]
  simp only [Bool.not_true, Bool.false_eq_true, if_false, if_true]
  rw [hrl _ hn, hj, List.dropLast_concat, splitOnChar_join _ _ (by simp) fun x hx => (hmem x hx).2.2]

example : csvHeader ['d', '.', 'c', 's', 'v'] (',', true) none ['a', ',', 'b', 'c'] = .ok [['a'], ['b']] :=
  C95_no_line_end ['d', '.', 'c', 's', 'v'] ',' 'c' none [['a']] ['b'] ⟨['d'], rfl⟩ (by decide) (by decide) (by decide)

/-! ### C100: arrays for training data with names -/

/-- **C100** exactly, for an array with as many columns as the training data, all of which can be converted: the table
made from it is labelled like the training data if and only if the columns of that are numbered from 0. -/
theorem C100_exact {D V : Type} (cast : D → List V → Except Exn (List V)) (plain : D) (train : List (ColName × D))
    (array : List (List V)) (h : Castable cast (train.map Prod.snd) array) :
    (∃ t, npToMatching cast plain (train.map Prod.snd) array = .ok t ∧ Matches cast train array t) ↔
      ∀ (i : Nat) c, train[i]? = some c → c.1 = .num i := by
  obtain ⟨t, ht, hm⟩ := C100_partial cast plain (train.map Prod.snd) array h
  have hz : ((train.map Prod.snd).zipIdx.map fun p => ((.num p.2 : ColName), p.1)) = train ↔
      ∀ (i : Nat) c, train[i]? = some c → c.1 = .num i := by
    constructor
    · intro e i c hc
      have h' := congrArg (fun l => l[i]?) e
      simp only [List.getElem?_map, List.getElem?_zipIdx, hc, Option.map_some] at h'
      injection h' with h'
      rw [← h']
      simp
    · intro hc
      apply List.ext_getElem?
      intro i
      simp only [List.getElem?_map, List.getElem?_zipIdx]
      cases hi : train[i]? with
      | none => rfl
      | some c =>
        simp only [Option.map_some, Option.some.injEq]
        exact Prod.ext (by simpa using (hc i c hi).symm) rfl
  constructor
  · rintro ⟨t', ht', hm'⟩
    rw [ht] at ht'
    cases ht'
    exact hz.1 (hm.1.symm.trans hm'.1)
  · intro hc
    rw [hz.2 hc] at hm
    exact ⟨t, ht, hm⟩

/-- A column named `a`. -/
example : ¬ ∃ t, npToMatching (fun (_ : Nat) (vs : List ℚ) => .ok vs) 0 [1] [[5]] = .ok t ∧
    Matches (fun (_ : Nat) (vs : List ℚ) => .ok vs) [(.name ['a'], 1)] [[5]] t := by
  intro h
  have := (C100_exact (fun (_ : Nat) (vs : List ℚ) => .ok vs) 0 [(.name ['a'], 1)] [[5]] (.cons ⟨_, rfl⟩ .nil)).1 h
    0 _ rfl
  cases this

/-! ### C101: failing fits -/

section
variable {E L M : Type}

namespace Spec

/-- The label encoder a fit gets to store. -/
def targetLabels (r : FitRun E L M) : Option L := match r.labels with
  | some (.ok l) => some l
  | _ => none

/-- The encoding a fit gets to store: encoding the labels must not fail. -/
def encodingOf (r : FitRun E L M) : Option E := match r.labels, r.preprocess with
  | some (.error _), _ => none
  | _, .ok e => some e
  | _, .error _ => none

/-- A fit that ends before it has a model. -/
def NoModel (r : FitRun E L M) : Prop :=
  (∃ e, r.labels = some (.error e)) ∨ (∃ e, r.preprocess = .error e) ∨ r.timeLeft = false ∨
    (∃ e, r.search = .error e) ∨ ∃ e, r.model = .error e

end Spec

/-- **C101**, where it does not hold: after fits that fail, prediction uses the model there was, with the encoding and
the labels of the latest of them that got that far. -/
theorem C101_failed (rs : List (FitRun E L M)) (hr : ∀ r ∈ rs, NoModel r) (e : E) (l : Option L) (m : M) :
    frontPredict (frontFits rs ⟨some e, l, some m⟩) =
      .ok (((rs.filterMap encodingOf).getLast?).or (some e), m, ((rs.filterMap targetLabels).getLast?).or l) := by
  have one : ∀ (r : FitRun E L M), NoModel r → ∀ (enc : Option E) (l : Option L),
      (frontFit r ⟨enc, l, some m⟩).2 = ⟨(encodingOf r).or enc, (targetLabels r).or l, some m⟩ := by
    intro r hn enc l
    have hg : ∀ l', (gamaFit r ⟨enc, l', some m⟩).2 = ⟨(match r.preprocess with
        | .ok e => some e
        | .error _ => none : Option E).or enc, l', some m⟩ ∨ ∃ e, r.labels = some (.error e) := by
      intro l'
      unfold gamaFit
      rcases hn with hn | ⟨x, hx⟩ | ht | ⟨x, hx⟩ | ⟨x, hx⟩
      · exact .inr hn
      · left; rw [hx]; rfl
      · left
        cases r.preprocess with
        | error _ => rfl
        | ok e => simp [ht]
      · left
        cases r.preprocess with
        | error _ => rfl
        | ok e => cases h : r.timeLeft <;> simp [hx]
      · left
        cases r.preprocess with
        | error _ => rfl
        | ok e =>
          cases h : r.timeLeft
          · simp
          · cases r.search <;> simp [hx]
    unfold frontFit encodingOf targetLabels
    cases hl : r.labels with
    | none =>
      rcases hg l with h | ⟨x, hx⟩
      · dsimp only
        rw [h]
        cases r.preprocess <;> rfl
      · rw [hl] at hx; cases hx
    | some a =>
      cases a with
      | error x => rfl
      | ok x =>
        rcases hg (some x) with h | ⟨y, hy⟩
        · dsimp only
          rw [h]
          cases r.preprocess <;> rfl
        · rw [hl] at hy; cases hy
  have orLast : ∀ {α β : Type} (f : β → Option α) (r : β) (rs : List β) (d : Option α),
      (((r :: rs).filterMap f).getLast?).or d = ((rs.filterMap f).getLast?).or ((f r).or d) := by
    intro α β f r rs d
    cases hf : f r with
    | none => rw [List.filterMap_cons_none hf]; rfl
    | some a =>
      rw [List.filterMap_cons_some hf, List.getLast?_cons]
      cases (rs.filterMap f).getLast? <;> rfl
  have all : ∀ (rs : List (FitRun E L M)), (∀ r ∈ rs, NoModel r) → ∀ (enc : Option E) (l : Option L),
      frontFits rs ⟨enc, l, some m⟩ =
        ⟨((rs.filterMap encodingOf).getLast?).or enc, ((rs.filterMap targetLabels).getLast?).or l, some m⟩ := by
    intro rs
    induction rs with
    | nil => intro _ enc l; rfl
    | cons r rs ih =>
      intro h enc l
      show frontFits rs (frontFit r ⟨enc, l, some m⟩).2 = _
      rw [one r (h r List.mem_cons_self), ih fun r hr => h r (List.mem_cons_of_mem _ hr), orLast, orLast]
  rw [all rs hr]
  rfl

/-- A fit on new data that runs out of time: the model of the fit before, with the new encoding and labels. -/
example : frontPredict (frontFits [(⟨some (.ok 7), .ok 8, false, .ok (), .ok 9, .ok ()⟩ : FitRun Nat Nat Nat)]
    ⟨some 1, some 2, some 3⟩) = .ok (some 8, 3, some 7) :=
  C101_failed _ (by intro r hr; rw [List.mem_singleton.1 hr]; exact .inr (.inr (.inl rfl))) 1 (some 2) 3

end

end Gama
