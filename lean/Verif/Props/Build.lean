import Verif.Model.Build
import Verif.Props.Library
import Verif.Props.Ensemble2

/-!
# An ensemble is built from the evaluations that were saved (C133, C81)

The library and the ensemble agree on the rows: labels and predictions are of the same rows of the
training data, and a model has the estimators of its own evaluation.
-/

namespace Gama
open Spec PyM

section
variable {α E P K γ : Type} [LinearOrder K]

/-! ## The library -/

theorem startLibrary_spec {c : LibConfig} {stratify : Option Nat} {rnd : Stream} {s0 : Lib E P K} {size : Nat}
    (hs : ∀ k, stratify = some k → k = size) (h : startLibrary c stratify rnd = .ok s0) :
    Holds c [] [] s0 ∧ Cached c size [] s0 ∧
      (stratify = none ∧ s0 = libInit c none rnd ∨ ChosenRows c.n size s0.sample) := by
  unfold startLibrary at h
  cases stratify with
  | none =>
    cases h
    exact ⟨holds_init c none rnd, cached_init c none rnd (fun l h => by cases h), .inl ⟨rfl, rfl⟩⟩
  | some k =>
    obtain rfl := hs k rfl
    dsimp only at h
    have key : wp (determineSample c none none (some k)) (fun _ (s' : Lib E P K) =>
        Resampled (libInit c none rnd) s' ∧ ChosenRows c.n k s'.sample) (fun _ _ => True)
        (libInit c none rnd) := by
      simp only [determineSample]
      have hn : ((none : Option Nat).orElse fun _ => c.n) = c.n := rfl
      rw [hn]
      cases hc : c.n with
      | none => exact ⟨⟨_, _, rfl⟩, by intro k hk; cases hk⟩
      | some n =>
        dsimp only
        by_cases hlt : n < k
        · rw [if_pos hlt, wp_bind]
          unfold stratified
          rw [wp_bind]
          refine wp_draw fun d => ?_
          by_cases hd : d % 2 = 0
          · rw [if_pos hd]; trivial
          · rw [if_neg hd]
            refine wp_mono ?_ (fun _ _ h => h.elim) (wp_sampleRows (le_of_lt hlt) _)
            rintro r s' ⟨⟨h1, h2, h3⟩, x, rfl⟩
            exact ⟨⟨_, _, rfl⟩, h2, h3, n, rfl, hlt, h1⟩
        · rw [if_neg hlt]
          refine ⟨⟨_, _, rfl⟩, ?_⟩
          intro k hk; cases hk; omega
    cases hr : determineSample c none none (some k) (libInit c none rnd : Lib E P K) with
    | mk r s' =>
      rw [hr] at h
      cases r with
      | error e => cases h
      | ok a =>
        cases h
        obtain ⟨⟨x, rr, hres⟩, hch⟩ := wp_ok key hr
        subst hres
        refine ⟨(holds_init c none rnd).of_same rfl rfl rfl, ?_, .inr hch⟩
        have hc := cached_init (E := E) (P := P) (K := K) c none rnd (size := k) (fun l h => by cases h)
        exact ⟨(by simp [libInit]), hc.only, hc.others, (fun _ _ g hg => nomatch hg), hch.inRange, hc.latest⟩

theorem BestOf.both {α : Type} {key : α → K} {n m : Nat} {all best best' : List α}
    (h1 : BestOf key m all best) (h2 : BestOf key n best best') : BestOf key (min n m) all best' := by
  obtain ⟨o1, p1, l1, b1⟩ := h1
  obtain ⟨o2, p2, l2, b2⟩ := h2
  refine ⟨o2 ++ o1, ?_, by omega, ?_⟩
  · rw [← List.append_assoc]
    exact (p2.append_right o1).trans p1
  · intro x hx y hy
    rcases List.mem_append.1 hy with hy | hy
    · exact b2 x hx y hy
    · exact b1 x (p2.mem_iff.1 (List.mem_append_left _ hx)) y hy

/-! ## The rows -/

theorem sampledRows_eq {β : Type} (down : Option Nat) (drawn : List Nat) (stored : List β) :
    sampledRows (predictionSample down drawn stored.length) stored = predictionRows down drawn stored := by
  unfold sampledRows predictionRows
  cases predictionSample down drawn stored.length with
  | none => rfl
  | some p => cases p <;> rfl

/-- The rows the library stores. -/
def storedRows (size : Nat) : Sample → List Nat
  | .rows idx => idx
  | _ => List.range size

/-- The rows an ensemble is scored on. -/
def scoredRows (drawn : List Nat) (base : List Nat) : List Nat :=
  if base.length ≤ 10000 then base else drawn.filterMap fun i => base[i]?

theorem ilocRows_length {β : Type} {l r : List β} {is : List Nat} (h : ilocRows l is = .ok r) :
    r.length = is.length := by
  have := congrArg List.length (ilocRows_ok.1 h)
  simpa using this.symm

theorem scoredRows_iloc {drawn base : List Nat} (hd : 10000 < base.length → Drawn drawn base.length 10000)
    (hlt : 10000 < base.length) : ilocRows base drawn = .ok (scoredRows drawn base) := by
  obtain ⟨r, hr, _⟩ := ilocRows_exists (l := base) (is := drawn) (hd hlt).2.2
  rw [hr]
  unfold scoredRows
  rw [if_neg (by omega)]
  have := ilocRows_ok.1 hr
  have e : (drawn.map fun i => base[i]?).filterMap id = r := by rw [this]; simp [List.filterMap_map]
  rw [List.filterMap_map] at e
  rw [← e]
  rfl

theorem sampledRows_scored {β : Type} {drawn base : List Nat} {l m : List β}
    (hd : 10000 < base.length → Drawn drawn base.length 10000) (h : ilocRows l base = .ok m) :
    sampledRows (predictionSample (some 10000) drawn base.length) m = ilocRows l (scoredRows drawn base) := by
  unfold predictionSample
  dsimp only
  by_cases hle : base.length ≤ 10000
  · rw [if_pos hle]
    unfold scoredRows
    rw [if_pos hle, h]
    rfl
  · rw [if_neg hle]
    have hlt : 10000 < base.length := by omega
    have e := ilocRows_comp h (scoredRows_iloc hd hlt)
    have hl := (hd hlt).2.1
    rw [← e]
    cases drawn with
    | nil => simp at hl
    | cons a as => rfl

theorem scoredRows_spec {drawn base : List Nat} (hd : 10000 < base.length → Drawn drawn base.length 10000)
    {size : Nat} (hn : base.Nodup) (hb : ∀ i ∈ base, i < size) :
    (scoredRows drawn base).Nodup ∧ (∀ i ∈ scoredRows drawn base, i < size) ∧
      (scoredRows drawn base).length = min 10000 base.length := by
  by_cases hle : base.length ≤ 10000
  · unfold scoredRows
    rw [if_pos hle]
    exact ⟨hn, hb, by omega⟩
  · have hlt : 10000 < base.length := by omega
    have hi := scoredRows_iloc hd hlt
    have hl := ilocRows_length hi
    obtain ⟨d1, d2, d3⟩ := hd hlt
    refine ⟨?_, ?_, by omega⟩
    · have h1 : (drawn.map fun i => base[i]?).Nodup := by
        refine List.Nodup.map_on ?_ d1
        intro a ha b hb' hab
        rw [List.getElem?_eq_getElem (d3 a ha), List.getElem?_eq_getElem (d3 b hb')] at hab
        injection hab with hab
        exact (List.Nodup.getElem_inj_iff hn).1 hab
      rw [ilocRows_ok.1 hi] at h1
      exact List.Nodup.of_map _ h1
    · intro i hi'
      unfold scoredRows at hi'
      rw [if_neg hle, List.mem_filterMap] at hi'
      obtain ⟨j, _, hj⟩ := hi'
      exact hb i (List.mem_of_getElem? hj)

/-- The labels an ensemble keeps. -/
theorem ensembleInit_scored {probabilities : Bool} {drawn base : List Nat} {x : Sample} {y : List α}
    (hx : x ≠ .notSet) (hbase : base = storedRows y.length x) (hin : ∀ i ∈ base, i < y.length)
    (hd : 10000 < base.length → Drawn drawn base.length 10000)
    (hp : probabilities = false ∨ base.length ≤ 10000) :
    ∃ labels, ensembleInit probabilities (some 10000) drawn x y =
        .ok (labels, predictionSample (some 10000) drawn base.length) ∧
      ilocRows y (scoredRows drawn base) = .ok labels := by
  obtain ⟨sample, y1, hs, hl, hy⟩ : ∃ sample y1, sampleFor x = .ok sample ∧ libraryRows sample y = .ok y1 ∧
      ilocRows y base = .ok y1 := by
    cases x with
    | notSet => exact absurd rfl hx
    | all => exact ⟨none, y, rfl, rfl, by rw [hbase]; exact ilocRows_range y⟩
    | rows idx =>
      have : base = idx := hbase
      subst this
      obtain ⟨y1, h1, _⟩ := ilocRows_exists hin
      exact ⟨some base, y1, rfl, h1, h1⟩
  have hlen := ilocRows_length hy
  obtain ⟨labels, hlab, _⟩ := ilocRows_exists (l := y) (is := scoredRows drawn base) (by
    by_cases hle : base.length ≤ 10000
    · unfold scoredRows; rw [if_pos hle]; exact hin
    · intro i hi
      unfold scoredRows at hi
      rw [if_neg hle, List.mem_filterMap] at hi
      obtain ⟨j, _, hj⟩ := hi
      exact hin i (List.mem_of_getElem? hj))
  have hbase' : labelsBase sample (some 10000) drawn y = .ok labels := by
    unfold labelsBase
    rw [hl]
    dsimp only
    rw [hlen]
    by_cases hle : base.length ≤ 10000
    · unfold predictionSample
      dsimp only
      rw [if_pos hle]
      unfold scoredRows at hlab
      rw [if_pos hle] at hlab
      rw [hlab] at hy
      cases hy
      rfl
    · unfold predictionSample
      dsimp only
      rw [if_neg hle]
      dsimp only
      rw [ilocRows_comp hy (scoredRows_iloc hd (by omega)), hlab]
  have hcl : labelsClassifier probabilities sample (some 10000) drawn y = .ok labels := by
    unfold labelsClassifier
    rw [hl]
    dsimp only
    rw [hbase']
    dsimp only
    cases probabilities with
    | false => rfl
    | true =>
      rw [if_pos rfl]
      have hle := hp.resolve_left (by decide)
      unfold predictionSample
      dsimp only
      rw [if_pos (by omega)]
  refine ⟨labels, ?_, hlab⟩
  unfold ensembleInit
  rw [hs]
  dsimp only
  rw [hl]
  dsimp only
  rw [hcl, hlen]

/-! ## C133 -/

/-- Model `m` is evaluation `g`: of the same individual, with the estimators of `g`, and with the
predictions of `g` for `rows`. -/
def Spec.ModelFrom (trans : P → γ → ℚ) (rows : List Nat) (g : EvalRec E P K) (m : Mdl (Nat × γ) E) : Prop :=
  m.id = g.ident ∧ m.estimators = g.estimators ∧ ∃ ps, g.predictions = some ps ∧
    ∀ (i j : Nat), rows[i]? = some j → ∃ p, ps[j]? = some p ∧ ∀ k, m.preds (i, k) = trans p k

theorem ilocRows_map {β δ : Type} (f : β → δ) {l r : List β} {is : List Nat} (h : ilocRows l is = .ok r) :
    ilocRows (l.map f) is = .ok (r.map f) := by
  rw [ilocRows_ok] at h ⊢
  have := congrArg (List.map (Option.map f)) h
  simpa [List.map_map, Function.comp_def] using this

theorem modelOf_from {c : LibConfig} {size : Nat} {hist : List (EvalRec E P K)} {s : Lib E P K}
    (hc : Cached c size hist s) (hn : c.n ≠ some 0) {t : Ref E P K} (ht : t ∈ s.top) {ps : List P}
    (hps : t.given.predictions = some ps) (hlen : ps.length = size) (trans : P → γ → ℚ) {drawn : List Nat}
    (hin : ∀ i ∈ storedRows size s.sample, i < size)
    (hd : 10000 < (storedRows size s.sample).length →
      Drawn drawn (storedRows size s.sample).length 10000)
    (hall : ∀ i ∈ scoredRows drawn (storedRows size s.sample), i < size) :
    ∃ m, modelOf trans (predictionSample (some 10000) drawn (storedRows size s.sample).length) s t = .ok m ∧
      ModelFrom trans (scoredRows drawn (storedRows size s.sample)) t.given m := by
  obtain ⟨hcell, v, hdisk, _, hst⟩ := hc.kept t ht
  have hst := hst hn
  rw [hps] at hst
  obtain ⟨l', rfl, hrow⟩ := hst
  have hstored : ilocRows ps (storedRows size s.sample) = .ok l' := by
    cases hx : s.sample with
    | rows idx =>
      rw [hx] at hrow
      exact ilocRows_ok.2 hrow.symm
    | all => rw [hx] at hrow; rw [← hlen]; rw [show l' = ps from hrow]; exact ilocRows_range ps
    | notSet => rw [hx] at hrow; rw [← hlen]; rw [show l' = ps from hrow]; exact ilocRows_range ps
  obtain ⟨out, hout, _⟩ := ilocRows_exists (l := ps) (is := scoredRows drawn (storedRows size s.sample))
    (by rw [hlen]; exact hall)
  refine ⟨⟨t.given.ident, entry (out.map trans), t.given.estimators⟩, ?_, rfl, rfl, ps, hps, ?_⟩
  · unfold modelOf
    have hr : readPredictions s t = .ok (some l') := by simp [readPredictions, hcell, hdisk]
    have he : readEstimators s t = .ok t.given.estimators := by simp [readEstimators, hcell, hdisk]
    rw [hr]
    dsimp only
    rw [sampledRows_scored hd (ilocRows_map trans hstored), ilocRows_map trans hout]
    dsimp only
    rw [he]
  · intro i j hij
    have h1 := congrArg (fun x => x[i]?) (ilocRows_ok.1 hout)
    simp only [List.getElem?_map, hij, Option.map_some] at h1
    cases ho : out[i]? with
    | none => rw [ho] at h1; cases h1
    | some p =>
      rw [ho] at h1
      injection h1 with h1
      refine ⟨p, h1, fun k => ?_⟩
      show entry (out.map trans) (i, k) = trans p k
      unfold entry
      rw [List.getElem?_map, ho]
      rfl

theorem modelsOf_from {R : Ref E P K → Mdl (Nat × γ) E → Prop} {trans : P → γ → ℚ} {sample : Option (List Nat)}
    {s : Lib E P K} : ∀ {rs : List (Ref E P K)}, (∀ r ∈ rs, ∃ m, modelOf trans sample s r = .ok m ∧ R r m) →
    ∃ ms, modelsOf trans sample s rs = .ok ms ∧ List.Forall₂ R rs ms
  | [], _ => ⟨[], rfl, .nil⟩
  | r :: rs, h => by
    obtain ⟨m, h1, h2⟩ := h r (by simp)
    obtain ⟨ms, h3, h4⟩ := modelsOf_from (rs := rs) fun r hr => h r (by simp [hr])
    refine ⟨m :: ms, ?_, .cons h2 h4⟩
    unfold modelsOf
    rw [h1]
    dsimp only
    rw [h3]

/-- **C133**: after any history of evaluations, the ensemble is the one that is built from the best
error-free evaluations, at most 200 and at most `max_models` of them, each with its own estimators, with
labels and predictions of the same rows of the training data: `hillclimb_size` distinct ones, at most
10 000.  `hdrawn` is what `random.sample` guarantees. -/
theorem C133_hillclimb (metric : List α → (Nat × γ → ℚ) → Except Exn Score) (trans : P → γ → ℚ)
    (hill maxModels : Option Nat) (hhill : hill ≠ some 0) (stratify : Option Nat) (rnd : Stream)
    (y : List α) (hstrat : ∀ k, stratify = some k → k = y.length) (s0 : Lib E P K)
    (hstart : startLibrary (gamaLibrary hill maxModels) stratify rnd = .ok s0)
    (hist : List (EvalRec E P K)) (hsize : SameSize y.length hist) (hids : DistinctIds hist)
    (hpred : ∀ g ∈ hist, g.error = none → g.predictions ≠ none)
    (hsome : stratify ≠ none ∨ ∃ g ∈ hist, g.predictions ≠ none)
    (probabilities : Bool) (drawn : List Nat)
    (hdrawn : 10000 < min (hill.getD 10000) y.length → Drawn drawn (min (hill.getD 10000) y.length) 10000)
    (hprob : probabilities = false ∨ min (hill.getD 10000) y.length ≤ 10000)
    (size : Int) (timeout : ℚ) :
    ∃ (rows : List Nat) (labels : List α) (best : List (Ref E P K)) (models : List (Mdl (Nat × γ) E)),
      buildFromLibrary metric trans probabilities drawn size timeout (gamaLibrary hill maxModels) y
          (saveAll (gamaLibrary hill maxModels) hist s0) =
        .ok (buildFitEnsemble (metric labels) size timeout models) ∧
      rows.Nodup ∧ (∀ i ∈ rows, i < y.length) ∧
      rows.length = min 10000 (min (hill.getD 10000) y.length) ∧
      RowsOf rows y labels ∧
      best.Pairwise (fun a b => b.given.score ≤ a.given.score) ∧
      BestOf (fun t : Ref E P K => t.given.score) (min 200 (maxModels.getD 200)) (errorFree hist) best ∧
      List.Forall₂ (fun r m => ModelFrom trans rows r.given m) best models ∧
      ∃ ps, ensembleInit probabilities (some 10000) drawn
        (saveAll (gamaLibrary hill maxModels) hist s0).sample y = .ok (labels, ps) := by
  obtain ⟨hh0, hc0, hcase⟩ := startLibrary_spec hstrat hstart
  have hcn : (gamaLibrary hill maxModels).n = some (hill.getD 10000) := rfl
  have hcm : (gamaLibrary hill maxModels).m = some (maxModels.getD 200) := rfl
  generalize gamaLibrary hill maxModels = c at *
  have hn0 : c.n ≠ some 0 := by
    rw [hcn]
    cases hill with
    | none => decide
    | some k => intro h; exact hhill h
  obtain ⟨hh, hc, hs⟩ := Cached.saveAll (size := y.length) hist [] s0 hh0 hc0 hsize (by simpa using hids)
  rw [List.nil_append] at hh hc
  generalize hs' : saveAll c hist s0 = s at *
  have hchosen : ChosenRows c.n y.length s.sample := by
    rcases hs with e | ⟨_, e⟩
    · rcases hcase with ⟨hst, rfl⟩ | hch
      · exfalso
        have hns : s.sample = .notSet := by rw [e]; simp [libInit, hcn]
        have hnone := hc.unset hns hn0
        rcases hsome with h | ⟨g, hg, hgp⟩
        · exact h hst
        · exact hgp (hnone g hg)
      · rw [e]; exact hch
    · exact e
  have hns : s.sample ≠ .notSet := by
    intro h; rw [h] at hchosen; exact hchosen
  obtain ⟨hbn, hbin, hblen⟩ : (storedRows y.length s.sample).Nodup ∧
      (∀ i ∈ storedRows y.length s.sample, i < y.length) ∧
      (storedRows y.length s.sample).length = min (hill.getD 10000) y.length := by
    cases hx : s.sample with
    | notSet => exact absurd hx hns
    | all =>
      rw [hx] at hchosen
      have := hchosen _ hcn
      refine ⟨List.nodup_range, fun i hi => List.mem_range.1 hi, ?_⟩
      simp only [storedRows, List.length_range]
      omega
    | rows idx =>
      rw [hx] at hchosen
      obtain ⟨h1, h2, k, h3, h4, h5⟩ := hchosen
      rw [hcn] at h3
      injection h3 with h3
      refine ⟨h1, h2, ?_⟩
      simp only [storedRows]
      omega
  rw [← hblen] at hdrawn hprob
  obtain ⟨labels, hinit, hlab⟩ := ensembleInit_scored (x := s.sample) (y := y) (probabilities := probabilities)
    hns rfl hbin hdrawn hprob
  obtain ⟨hr1, hr2, hr3⟩ := scoredRows_spec hdrawn hbn hbin
  have htop : ∀ r ∈ nBest c 200 true s, r ∈ s.top := by
    intro r hr
    have : nBest c 200 true s = nlargest (fun t : Ref E P K => t.given.score) 200 s.top := by
      unfold nBest; rw [if_pos (by simp)]
    rw [this] at hr
    unfold nlargest at hr
    exact (pySorted_perm _ _).mem_iff.1 (List.mem_of_mem_take hr)
  obtain ⟨models, hm1, hm2⟩ := modelsOf_from (trans := trans)
    (sample := predictionSample (some 10000) drawn (storedRows y.length s.sample).length) (s := s)
    (R := fun r m => ModelFrom trans (scoredRows drawn (storedRows y.length s.sample)) r.given m)
    (rs := nBest c 200 true s) (by
      intro r hr
      have ht := htop r hr
      have hg := numbered_given_mem (hh.perm.mem_iff.1 (List.mem_append_left _ ht))
      have hne := hpred _ hg (hh.noerr r ht)
      obtain ⟨ps, hps⟩ := Option.ne_none_iff_exists'.1 hne
      exact modelOf_from hc hn0 ht hps (hsize _ hg _ hps) trans hbin hdrawn hr2)
  refine ⟨scoredRows drawn (storedRows y.length s.sample), labels, nBest c 200 true s, models, ?_, hr1, hr2,
    by rw [hr3, hblen], (ilocRows_ok.1 hlab).symm, ?_, ?_, hm2, _, hinit⟩
  · unfold buildFromLibrary
    rw [hinit]
    dsimp only
    rw [hm1]
  · have : nBest c 200 true s = nlargest (fun t : Ref E P K => t.given.score) 200 s.top := by
      unfold nBest; rw [if_pos (by simp)]
    rw [this]
    exact (nlargest_spec _ 200 s.top).1
  · have : nBest c 200 true s = nlargest (fun t : Ref E P K => t.given.score) 200 s.top := by
      unfold nBest; rw [if_pos (by simp)]
    rw [this]
    have hp := perm_top_filter hh
    have hb : BestOf (fun t : Ref E P K => t.given.score) (maxModels.getD 200) (errorFree hist) s.top := by
      have hroom := hh.room _ hcm
      refine ⟨_, hp, ?_, ?_⟩
      · have hl := hp.length_eq
        rw [List.length_append] at hl
        by_cases hfull : s.top.length = maxModels.getD 200
        · omega
        · have : ((s.other ++ []).filter fun r : Ref E P K => r.given.error.isNone) = [] := by
            rw [List.filter_eq_nil_iff]
            intro r hr he
            have := (hh.best r hr (by simpa using he)).1
            rw [hcm] at this
            injection this with this
            exact hfull this.symm
          rw [this] at hl
          simp only [List.length_nil, Nat.add_zero] at hl
          omega
      · intro x hx z hz
        rw [List.mem_filter] at hz
        exact (hh.best z hz.1 (by simpa using hz.2)).2 x hx
    exact BestOf.both hb (nlargest_spec _ 200 s.top).2

/-- `m` does not change the rows chosen. -/
def KeepsSample {β : Type} (m : PyM (Lib E P K) β) : Prop := ∀ s, (m s).2.sample = s.sample

omit [LinearOrder K] in
theorem KeepsSample.bind {β δ : Type} {m : PyM (Lib E P K) β} {f : β → PyM (Lib E P K) δ} (hm : KeepsSample m)
    (hf : ∀ b, KeepsSample (f b)) : KeepsSample (m >>= f) := by
  intro s
  have h1 := hm s
  rw [bind_run]
  cases hr : m s with
  | mk r s' =>
    rw [hr] at h1
    cases r with
    | ok b => exact (hf b s').trans h1
    | error e => exact h1

omit [LinearOrder K] in
theorem KeepsSample.modify {f : Lib E P K → Lib E P K} (h : ∀ s, (f s).sample = s.sample) :
    KeepsSample (PyM.modify f) := fun s => h s

omit [LinearOrder K] in
theorem KeepsSample.pure {β : Type} (b : β) : KeepsSample (Pure.pure b : PyM (Lib E P K) β) := fun _ => rfl

omit [LinearOrder K] in
theorem KeepsSample.raise {β : Type} (e : Exn) : KeepsSample (PyM.raise e : PyM (Lib E P K) β) := fun _ => rfl

omit [LinearOrder K] in
theorem KeepsSample.get : KeepsSample (PyM.get : PyM (Lib E P K) (Lib E P K)) := fun _ => rfl

omit [LinearOrder K] in
theorem KeepsSample.getCell (i : Nat) : KeepsSample (Gama.getCell i : PyM (Lib E P K) (EvalCell E P)) := by
  unfold Gama.getCell
  exact KeepsSample.get.bind fun _ => KeepsSample.pure _

omit [LinearOrder K] in
theorem KeepsSample.setCell (i : Nat) (c : EvalCell E P) : KeepsSample (Gama.setCell i c : PyM (Lib E P K) Unit) := by
  unfold Gama.setCell
  exact KeepsSample.modify fun _ => rfl

omit [LinearOrder K] in
theorem KeepsSample.discard (r : Ref E P K) : KeepsSample (Gama.discard r) := by
  unfold Gama.discard
  exact (KeepsSample.getCell _).bind fun _ => KeepsSample.setCell _ _

omit [LinearOrder K] in
theorem KeepsSample.addOther (r : Ref E P K) : KeepsSample (Gama.addOther r) := by
  unfold Gama.addOther
  exact KeepsSample.modify fun _ => rfl

omit [LinearOrder K] in
theorem KeepsSample.toDisk (r : Ref E P K) : KeepsSample (Gama.toDisk r) := by
  unfold Gama.toDisk
  refine (KeepsSample.getCell _).bind fun _ => KeepsSample.bind ?_ fun _ => KeepsSample.setCell _ _
  exact KeepsSample.modify fun _ => rfl

omit [LinearOrder K] in
theorem KeepsSample.removeFromDisk (r : Ref E P K) : KeepsSample (Gama.removeFromDisk r) := by
  unfold Gama.removeFromDisk
  refine (KeepsSample.getCell _).bind fun c => ?_
  cases c.cacheFile with
  | none => exact KeepsSample.raise _
  | some f =>
    refine KeepsSample.get.bind fun s => ?_
    cases s.disk f with
    | none => exact KeepsSample.raise _
    | some _ =>
      refine KeepsSample.bind ?_ fun _ => KeepsSample.setCell _ _
      exact KeepsSample.modify fun _ => rfl

theorem KeepsSample.store (c : LibConfig) (r : Ref E P K) : KeepsSample (Gama.store c r) := by
  unfold Gama.store
  refine KeepsSample.get.bind fun s => ?_
  split
  · exact (KeepsSample.discard _).bind fun _ => KeepsSample.addOther _
  · split
    · exact (KeepsSample.toDisk _).bind fun _ => KeepsSample.modify fun _ => rfl
    · dsimp only
      refine KeepsSample.bind (by exact KeepsSample.modify fun _ => rfl) fun _ => ?_
      refine KeepsSample.bind ?_ fun _ => KeepsSample.addOther _
      unfold afterPop
      split
      · exact KeepsSample.discard _
      · exact (KeepsSample.toDisk _).bind fun _ => KeepsSample.removeFromDisk _

theorem saveAll_sample (c : LibConfig) : ∀ (hist : List (EvalRec E P K)) (s : Lib E P K),
    (∀ g ∈ hist, g.predictions = none) → (saveAll c hist s).sample = s.sample
  | [], _, _ => rfl
  | g :: hist, s, h => by
    show (saveAll c hist (saveEvaluation c g s).2).sample = _
    rw [saveAll_sample c hist _ fun g hg => h g (by simp [hg])]
    have : KeepsSample (saveEvaluation c g) := by
      unfold saveEvaluation
      refine KeepsSample.get.bind fun s => ?_
      dsimp only
      refine KeepsSample.bind (by exact KeepsSample.modify fun _ => rfl) fun _ => ?_
      refine KeepsSample.bind ?_ fun _ => (KeepsSample.setCell _ _).bind fun _ =>
        (KeepsSample.store _ _).bind fun _ => by exact KeepsSample.modify fun _ => rfl
      unfold processPredictions
      rw [h g (by simp)]
      split
      · exact KeepsSample.pure _
      · exact KeepsSample.pure _
    exact this s

/-- When no evaluation gave predictions, making the ensemble for a regression task raises: the rows
are still the string `"not set"`. -/
theorem C133_none (metric : List α → (Nat × γ → ℚ) → Except Exn Score) (trans : P → γ → ℚ)
    (hill maxModels : Option Nat) (rnd : Stream) (y : List α) (hist : List (EvalRec E P K))
    (hnone : ∀ g ∈ hist, g.predictions = none) (probabilities : Bool) (drawn : List Nat) (size : Int)
    (timeout : ℚ) :
    buildFromLibrary metric trans probabilities drawn size timeout (gamaLibrary hill maxModels) y
      (saveAll (gamaLibrary hill maxModels) hist (libInit (gamaLibrary hill maxModels) none rnd)) =
        .error .typeError := by
  have h := saveAll_sample (gamaLibrary hill maxModels) hist (libInit (gamaLibrary hill maxModels) none rnd) hnone
  unfold buildFromLibrary ensembleInit
  rw [h]
  rfl

/-! ## C81 -/

section
variable {κ ε : Type}

/-- `m` does not change what the ensemble can choose from. -/
def KeepsLibrary {β : Type} (m : PyM (Ens κ ε) β) : Prop := ∀ s, (m s).2.library = s.library

theorem KeepsLibrary.bind {β δ : Type} {m : PyM (Ens κ ε) β} {f : β → PyM (Ens κ ε) δ} (hm : KeepsLibrary m)
    (hf : ∀ b, KeepsLibrary (f b)) : KeepsLibrary (m >>= f) := by
  intro s
  have h1 := hm s
  rw [bind_run]
  cases hr : m s with
  | mk r s' =>
    rw [hr] at h1
    cases r with
    | ok b => exact (hf b s').trans h1
    | error e => exact h1

theorem KeepsLibrary.modify {f : Ens κ ε → Ens κ ε} (h : ∀ s, (f s).library = s.library) :
    KeepsLibrary (PyM.modify f) := fun s => h s

theorem KeepsLibrary.pure {β : Type} (b : β) : KeepsLibrary (Pure.pure b : PyM (Ens κ ε) β) := fun _ => rfl

theorem KeepsLibrary.raise {β : Type} (e : Exn) : KeepsLibrary (PyM.raise e : PyM (Ens κ ε) β) := fun _ => rfl

theorem KeepsLibrary.get : KeepsLibrary (PyM.get : PyM (Ens κ ε) (Ens κ ε)) := fun _ => rfl

theorem KeepsLibrary.modelValues : KeepsLibrary (Gama.modelValues : PyM (Ens κ ε) (Models κ ε)) := by
  intro s
  unfold Gama.modelValues
  cases s.models <;> rfl

theorem KeepsLibrary.averaged : KeepsLibrary (Gama.averaged : PyM (Ens κ ε) (κ → ℚ)) := by
  unfold Gama.averaged
  refine KeepsLibrary.modelValues.bind fun l => ?_
  split
  · exact KeepsLibrary.raise _
  · exact KeepsLibrary.pure _

theorem KeepsLibrary.addModel (m : Mdl κ ε) : KeepsLibrary (Gama.addModel m) := by
  unfold Gama.addModel
  refine KeepsLibrary.modelValues.bind fun l => ?_
  exact KeepsLibrary.modify fun _ => rfl

theorem KeepsLibrary.addModels : ∀ ms : List (Mdl κ ε), KeepsLibrary (Gama.addModels ms)
  | [] => KeepsLibrary.pure _
  | m :: ms => (KeepsLibrary.addModel m).bind fun _ => KeepsLibrary.addModels ms

theorem KeepsLibrary.validationScore (score : (κ → ℚ) → Except Exn Score) (p : κ → ℚ) :
    KeepsLibrary (Gama.validationScore score p : PyM (Ens κ ε) Score) := fun _ => rfl

theorem KeepsLibrary.bestAddition (score : (κ → ℚ) → Except Exn Score) (avg : κ → ℚ) (w : Int) :
    ∀ (ms : List (Mdl κ ε)) (best : Option (Mdl κ ε)) (b : Score),
      KeepsLibrary (Gama.bestAddition score avg w ms best b)
  | [], _, _ => KeepsLibrary.pure _
  | m :: ms, best, b => by
    unfold Gama.bestAddition
    refine (KeepsLibrary.validationScore _ _).bind fun c => ?_
    split
    · exact KeepsLibrary.bestAddition score avg w ms _ _
    · exact KeepsLibrary.bestAddition score avg w ms _ _

theorem KeepsLibrary.expandOne (score : (κ → ℚ) → Except Exn Score) (prev : Option (Mdl κ ε)) :
    KeepsLibrary (Gama.expandOne score prev) := by
  unfold Gama.expandOne
  refine KeepsLibrary.averaged.bind fun avg => KeepsLibrary.modelValues.bind fun l =>
    KeepsLibrary.get.bind fun s => (KeepsLibrary.bestAddition _ _ _ _ _ _).bind fun best => ?_
  cases best.1 with
  | none => exact KeepsLibrary.raise _
  | some m =>
    refine (KeepsLibrary.addModel m).bind fun _ => KeepsLibrary.bind ?_ fun _ => KeepsLibrary.pure _
    exact KeepsLibrary.modify fun _ => rfl

theorem KeepsLibrary.expandLoop (score : (κ → ℚ) → Except Exn Score) :
    ∀ (n : Nat) (prev : Option (Mdl κ ε)), KeepsLibrary (Gama.expandLoop score n prev)
  | 0, _ => KeepsLibrary.pure _
  | n + 1, prev => (KeepsLibrary.expandOne score prev).bind fun m => KeepsLibrary.expandLoop score n m

theorem KeepsLibrary.buildFit (score : (κ → ℚ) → Except Exn Score) (size : Int) (timeout : ℚ) :
    KeepsLibrary (Gama.buildFit score size timeout : PyM (Ens κ ε) Unit) := by
  have hinit : ∀ n : Int, KeepsLibrary (Gama.buildInitial score n : PyM (Ens κ ε) Unit) := by
    intro n
    unfold Gama.buildInitial
    dsimp only
    split
    · exact (KeepsLibrary.raise _).bind fun _ =>
        KeepsLibrary.bind (by exact KeepsLibrary.modify fun _ => rfl) fun _ =>
        KeepsLibrary.get.bind fun s => (KeepsLibrary.addModels _).bind fun _ =>
        KeepsLibrary.averaged.bind fun p => (KeepsLibrary.validationScore _ _).bind fun _ => KeepsLibrary.pure _
    · exact KeepsLibrary.bind (by exact KeepsLibrary.modify fun _ => rfl) fun _ =>
        KeepsLibrary.get.bind fun s => (KeepsLibrary.addModels _).bind fun _ =>
        KeepsLibrary.averaged.bind fun p => (KeepsLibrary.validationScore _ _).bind fun _ => KeepsLibrary.pure _
  have hexp : ∀ n : Int, KeepsLibrary (Gama.expandEnsemble score n : PyM (Ens κ ε) Unit) := by
    intro n
    unfold Gama.expandEnsemble
    dsimp only
    split
    · exact (KeepsLibrary.raise _).bind fun x => KeepsLibrary.expandLoop _ _ _
    · exact KeepsLibrary.expandLoop _ _ _
  have hfit : KeepsLibrary (Gama.fitEnsemble timeout : PyM (Ens κ ε) Unit) := by
    unfold Gama.fitEnsemble
    refine KeepsLibrary.get.bind fun s => ?_
    split
    · exact KeepsLibrary.raise _
    · exact KeepsLibrary.raise _
    · split
      · exact KeepsLibrary.raise _
      · exact KeepsLibrary.modify fun _ => rfl
  unfold Gama.buildFit
  refine (hinit _).bind fun _ => KeepsLibrary.modelValues.bind fun l => ?_
  dsimp only
  split
  · exact (hexp _).bind fun _ => hfit
  · exact hfit

theorem buildFitEnsemble_library (score : (κ → ℚ) → Except Exn Score) (size : Int) (timeout : ℚ)
    (library : List (Mdl κ ε)) : (buildFitEnsemble score size timeout library).library = library :=
  KeepsLibrary.buildFit score size timeout (newEnsemble library)

end

/-- The situation after a regression search: evaluations of different individuals, with predictions for
all rows unless they failed, at least one of which did not. -/
structure Spec.Searched (y : List α) (hist : List (EvalRec E P K)) : Prop where
  sizes : SameSize y.length hist
  distinct : DistinctIds hist
  predicted : ∀ g ∈ hist, g.error = none → g.predictions ≠ none
  some : ∃ g ∈ hist, g.predictions ≠ none

/-- The number of labels an ensemble is scored on, and of models it can choose from, in a regression
task. -/
def Spec.Considered (hill maxModels : Option Nat) (y : List α) (hist : List (EvalRec E P K)) (rows models : Nat) :
    Prop :=
  ∀ (rnd : Stream) (drawn : List Nat) (metric : List α → (Nat × γ → ℚ) → Except Exn Score) (trans : P → γ → ℚ)
    (size : Int) (timeout : ℚ),
    (10000 < min (hill.getD 10000) y.length → Drawn drawn (min (hill.getD 10000) y.length) 10000) →
    let s := saveAll (gamaLibrary hill maxModels) hist (libInit (gamaLibrary hill maxModels) none rnd)
    (∃ labels ps, ensembleInit false (some 10000) drawn s.sample y = .ok (labels, ps) ∧ labels.length = rows) ∧
    ∃ ens, buildFromLibrary metric trans false drawn size timeout (gamaLibrary hill maxModels) y s = .ok ens ∧
      ens.library.length = models

/-- **C81** in full: `None` means that all rows and all models are used, any other value is the
limit. -/
def C81_claim : Prop :=
  ∀ (hill maxModels : Option Nat) (y : List ℚ) (hist : List (EvalRec Nat ℚ ℚ)), hill ≠ some 0 → Searched y hist →
    Considered (γ := Unit) hill maxModels y hist
      (match hill with | none => y.length | some n => min n y.length)
      (match maxModels with | none => (errorFree hist).length | some m => min m (errorFree hist).length)

/-- What is used, for all settings. -/
theorem considered_limits (hill maxModels : Option Nat) (hhill : hill ≠ some 0) (y : List α)
    (hist : List (EvalRec E P K)) (h : Searched y hist) :
    Considered (γ := γ) hill maxModels y hist (min 10000 (min (hill.getD 10000) y.length))
      (min (min 200 (maxModels.getD 200)) (errorFree hist).length) := by
  intro rnd drawn metric trans size timeout hd s
  obtain ⟨rows, labels, best, models, h1, _, _, h4, h5, _, h7, h8, ps, h9⟩ := C133_hillclimb metric trans hill
    maxModels hhill none rnd y (fun k hk => nomatch hk) (libInit (gamaLibrary hill maxModels) none rnd) rfl hist
    h.sizes h.distinct h.predicted (.inr h.some) false drawn hd (.inl rfl) size timeout
  refine ⟨⟨labels, ps, h9, ?_⟩, _, h1, ?_⟩
  · have := congrArg List.length h5
    simp only [List.length_map] at this
    omega
  · rw [buildFitEnsemble_library, ← h8.length_eq]
    obtain ⟨_, _, hl, _⟩ := h7
    exact hl

/-- **C81** where it holds: up to the defaults. -/
theorem C81_limits_partial (hillclimb maxModels : Nat) (h0 : hillclimb ≠ 0) (hh : hillclimb ≤ 10000)
    (hm : maxModels ≤ 200) (y : List α) (hist : List (EvalRec E P K)) (h : Searched y hist) :
    Considered (γ := γ) (some hillclimb) (some maxModels) y hist (min hillclimb y.length)
      (min maxModels (errorFree hist).length) := by
  have := considered_limits (γ := γ) (some hillclimb) (some maxModels) (by simpa using h0) y hist h
  rw [show min 10000 (min ((some hillclimb : Option Nat).getD 10000) y.length) = min hillclimb y.length by
      simp only [Option.getD_some]; omega,
    show min (min 200 ((some maxModels : Option Nat).getD 200)) (errorFree hist).length =
      min maxModels (errorFree hist).length by simp only [Option.getD_some]; omega] at this
  exact this

/-- `None` is the same as the default, and more than the default is the same as the default. -/
theorem C81_capped (hillclimb maxModels : Option Nat) (hh : ∀ n, hillclimb = some n → 10000 ≤ n)
    (hm : ∀ n, maxModels = some n → 200 ≤ n) (y : List α) (hist : List (EvalRec E P K)) (h : Searched y hist) :
    Considered (γ := γ) hillclimb maxModels y hist (min 10000 y.length) (min 200 (errorFree hist).length) := by
  have := considered_limits (γ := γ) hillclimb maxModels (by
    rintro rfl
    have := hh 0 rfl
    omega) y hist h
  have e1 : 10000 ≤ hillclimb.getD 10000 := by
    cases hillclimb with
    | none => exact le_refl _
    | some n => exact hh n rfl
  have e2 : 200 ≤ maxModels.getD 200 := by
    cases maxModels with
    | none => exact le_refl _
    | some n => exact hm n rfl
  rw [show min 10000 (min (hillclimb.getD 10000) y.length) = min 10000 y.length by omega,
    show min (min 200 (maxModels.getD 200)) (errorFree hist).length = min 200 (errorFree hist).length by omega]
    at this
  exact this

namespace Ex

/-- One evaluation with a prediction for each of `n` rows. -/
def oneEval (n : Nat) : List (EvalRec Nat ℚ ℚ) := [⟨7, ['p'], 1, none, [70, 71], some (List.replicate n 3)⟩]

theorem oneEval_searched (n : Nat) (hn : n ≠ 0) : Searched (List.replicate n (2 : ℚ)) (oneEval n) where
  sizes := by
    intro r hr ps hps
    simp only [oneEval, List.mem_singleton] at hr
    subst hr
    simp only [Option.some.injEq] at hps
    subst hps
    simp
  distinct := by simp [DistinctIds, oneEval]
  predicted := by simp [oneEval]
  some := ⟨_, List.mem_singleton.2 rfl, (fun h => nomatch h)⟩

end Ex

namespace Ex

def fourEvals : List (EvalRec Nat ℚ ℚ) :=
  [⟨1, ['a'], 5, none, [10, 11], some [0, 1, 2]⟩, ⟨2, ['b'], 9, some ['e'], [], none⟩,
    ⟨3, ['c'], 7, none, [30], some [3, 1, 1]⟩, ⟨4, ['d'], 6, none, [40], some [5, 6, 7]⟩]

/-- Like `r2`: the negative distance to the first label. -/
def firstRow (labels : List ℚ) (p : Nat × Unit → ℚ) : Except Exn Score :=
  .ok (.fin (-((p (0, ()) - labels.headD 0) * (p (0, ()) - labels.headD 0))))

def afterFour : Lib Nat ℚ ℚ := saveAll (gamaLibrary (some 2) (some 2)) fourEvals
  (libInit (gamaLibrary (some 2) (some 2)) none fun _ => 1)

end Ex

/-- The hypotheses of `C133_hillclimb` and `C81_limits_partial` in a case: of three error-free
evaluations the best two are kept, predictions for rows 1 and 2 are stored, and a model that is used has
its own estimators. -/
example : Searched [(1 : ℚ), 2, 3] Ex.fourEvals ∧
    (match buildFromLibrary Ex.firstRow (fun (p : ℚ) (_ : Unit) => p) false [] 2 60
        (gamaLibrary (some 2) (some 2)) [1, 2, 3] Ex.afterFour with
      | .ok e => (e.library.map fun m => (m.id, m.preds (0, ()), m.preds (1, ()), m.estimators), e.fit)
      | .error _ => ([], none)) =
      ([(3, 1, 1, [30]), (4, 6, 7, [40])], some [(30, 2)]) := by
  refine ⟨⟨?_, by unfold DistinctIds; decide +kernel, ?_, ?_⟩, ?_⟩
  · intro r hr ps hps
    simp only [Ex.fourEvals, List.mem_cons, List.not_mem_nil, or_false] at hr
    rcases hr with rfl | rfl | rfl | rfl <;> simp at hps <;> subst hps <;> rfl
  · intro g hg
    simp only [Ex.fourEvals, List.mem_cons, List.not_mem_nil, or_false] at hg
    rcases hg with rfl | rfl | rfl | rfl <;> simp
  · exact ⟨_, List.mem_cons_self .., (fun h => nomatch h)⟩
  · decide +kernel

/-- The hypothesis of `C133_none`: the only evaluation failed. -/
example : (match buildFromLibrary Ex.firstRow (fun (p : ℚ) (_ : Unit) => p) false [] 2 60
    (gamaLibrary none none) [1, 2, 3] (saveAll (gamaLibrary none none)
      [(⟨2, ['b'], 9, some ['e'], [], none⟩ : EvalRec Nat ℚ ℚ)] (libInit (gamaLibrary none none) none fun _ => 1)) with
    | .ok _ => none
    | .error e => some e) = some .typeError := rfl

/-- **C81 is false**: of 20 000 rows, `hillclimb_size=None` uses half. -/
theorem C81_false : ¬ C81_claim := by
  intro h
  obtain ⟨n, hn⟩ : ∃ n, n = 20000 := ⟨_, rfl⟩
  have hs := Ex.oneEval_searched n (by omega)
  have h1 := h none none _ _ (by decide) hs
  have h2 := C81_capped (γ := Unit) none none (fun n hn => nomatch hn) (fun n hn => nomatch hn) _ _ hs
  have hd : 10000 < min ((none : Option Nat).getD 10000) (List.replicate n (2 : ℚ)).length →
      Drawn [] (min ((none : Option Nat).getD 10000) (List.replicate n (2 : ℚ)).length) 10000 := by
    intro hlt
    simp only [Option.getD_none] at hlt
    omega
  obtain ⟨⟨l1, p1, e1, f1⟩, _⟩ := h1 (fun _ => 0) [] (fun _ _ => .ok .ninf) (fun p _ => p) 1 1 hd
  obtain ⟨⟨l2, p2, e2, f2⟩, _⟩ := h2 (fun _ => 0) [] (fun _ _ => .ok .ninf) (fun p _ => p) 1 1 hd
  rw [e1] at e2
  injection e2 with e2
  injection e2 with e2 _
  subst e2
  rw [f1] at f2
  simp only [List.length_replicate] at f2
  omega

/-! ### Cases of the theorems above -/

theorem Ex.four_searched : Searched [(1 : ℚ), 2, 3] Ex.fourEvals := by
  refine ⟨?_, by unfold DistinctIds; decide +kernel, ?_, ?_⟩
  · intro r hr ps hps
    simp only [Ex.fourEvals, List.mem_cons, List.not_mem_nil, or_false] at hr
    rcases hr with rfl | rfl | rfl | rfl <;> simp at hps <;> subst hps <;> rfl
  · intro g hg
    simp only [Ex.fourEvals, List.mem_cons, List.not_mem_nil, or_false] at hg
    rcases hg with rfl | rfl | rfl | rfl <;> simp
  · exact ⟨_, List.mem_cons_self .., (fun h => nomatch h)⟩

/-- `C133_hillclimb`: two of three rows and two models, after four evaluations of which one failed. -/
example : ∃ (rows : List Nat) (labels : List ℚ) (best : List (Ref Nat ℚ ℚ)) (models : List (Mdl (Nat × Unit) Nat)),
    rows.Nodup ∧ rows.length = 2 ∧ RowsOf rows [1, 2, 3] labels ∧
    BestOf (fun t : Ref Nat ℚ ℚ => t.given.score) 2 (errorFree Ex.fourEvals) best ∧
    List.Forall₂ (fun r m => ModelFrom (fun (p : ℚ) (_ : Unit) => p) rows r.given m) best models := by
  obtain ⟨rows, labels, best, models, _, h1, _, h2, h3, _, h4, h5, _⟩ :=
    C133_hillclimb (K := ℚ) (E := Nat) Ex.firstRow (fun (p : ℚ) (_ : Unit) => p) (some 2) (some 2) (by simp) none
      (fun _ => 1) [1, 2, 3] (by simp) _ rfl Ex.fourEvals Ex.four_searched.sizes Ex.four_searched.distinct
      Ex.four_searched.predicted (.inr Ex.four_searched.some) false [] (by simp) (.inl rfl) 2 60
  exact ⟨rows, labels, best, models, h1, h2, h3, h4, h5⟩

/-- `C133_none`: a single evaluation, which failed. -/
example : buildFromLibrary Ex.firstRow (fun (p : ℚ) (_ : Unit) => p) false [] 2 60
    (gamaLibrary none none) [1, 2, 3] (saveAll (gamaLibrary none none)
      [(⟨2, ['b'], 9, some ['e'], [], none⟩ : EvalRec Nat ℚ ℚ)] (libInit (gamaLibrary none none) none fun _ => 1)) =
    .error .typeError :=
  C133_none Ex.firstRow _ none none (fun _ => 1) [1, 2, 3] _ (by simp) false [] 2 60

/-- `C81_limits_partial`: two rows and two models are considered. -/
example : Considered (γ := Unit) (some 2) (some 2) [(1 : ℚ), 2, 3] Ex.fourEvals 2 2 :=
  C81_limits_partial 2 2 (by decide) (by decide) (by decide) _ _ Ex.four_searched

/-- `C81_capped`: without limits three rows and three models. -/
example : Considered (γ := Unit) none none [(1 : ℚ), 2, 3] Ex.fourEvals 3 3 :=
  C81_capped none none (by simp) (by simp) _ _ Ex.four_searched

end
end Gama
