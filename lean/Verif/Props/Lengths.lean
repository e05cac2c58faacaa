import Verif.Props.Front
import Verif.Props.Defaults

/-!
# The maximum length of pipelines, from construction to search (C138)
-/

namespace Gama
open PyM Spec

/-- The configuration of the operators of a constructed instance, gama.py l.318-336.  Simplification: a
negative length is taken as 0, no pipeline can be made with either. -/
def operatorConfig (i : Instance) (ps : PSet) (completed : Str → Bool) : OpConfig :=
  ⟨ps, i.maxLength.map Int.toNat, completed, 50⟩

/-- What `resolveLength` finds is what the instance is made with. -/
theorem init_length {a : InitArgs} {p p' : Place} {i : Instance} (h : gamaInit a p = (.ok i, p')) :
    resolveLength a = .ok i.maxLength ∧ i.maxStartLength = i.maxLength.getD 3 := by
  unfold gamaInit at h
  split at h
  · split at h
    · cases h
    · split at h
      · cases h
      · split at h
        · split at h <;> cases h
        · split at h
          · split at h
            · cases h
            · unfold initRest at h
              dsimp only at h
              split at h
              · cases h
              · split at h
                · cases h
                · split at h
                  · cases h
                  · next hl =>
                    rw [Prod.mk.injEq] at h
                    obtain ⟨h, _⟩ := h
                    cases h
                    exact ⟨hl, rfl⟩
          · cases h
  · cases h

/-- **C138**: the length the user gives is the one the instance uses.  If none is given there is no maximum
and the first pipelines have at most three steps, or, without preprocessing steps in the search space, the
maximum is one. -/
theorem C138_constructed (a : InitArgs) (p p' : Place) (i : Instance) (h : gamaInit a p = (.ok i, p')) :
    (∀ n, a.maxLength = some n → i.maxLength = some n ∧ i.maxStartLength = n) ∧
    (a.maxLength = none → a.preprocessing = true → i.maxLength = none ∧ i.maxStartLength = 3) ∧
    (a.maxLength = none → a.preprocessing = false → i.maxLength = some 1 ∧ i.maxStartLength = 1) := by
  obtain ⟨h1, h2⟩ := init_length h
  unfold resolveLength at h1
  refine ⟨fun n hn => ?_, fun hn hp => ?_, fun hn hp => ?_⟩
  · rw [hn] at h1
    have : i.maxLength = some n := by
      split at h1
      · exact (Except.ok.inj h1).symm
      · dsimp only at h1
        split at h1
        · cases h1
        · exact (Except.ok.inj h1).symm
    rw [h2, this]
    exact ⟨rfl, rfl⟩
  · rw [hn, hp] at h1
    have : i.maxLength = none := (Except.ok.inj h1).symm
    rw [h2, this]
    exact ⟨rfl, rfl⟩
  · rw [hn, hp] at h1
    have : i.maxLength = some 1 := (Except.ok.inj h1).symm
    rw [h2, this]
    exact ⟨rfl, rfl⟩

/-- **C138**: with no preprocessing steps in the search space a maximum above one is refused, with a
`ValueError` if nothing else is wrong. -/
theorem C138_refused (a : InitArgs) (p : Place) (hpre : a.preprocessing = false) (n : Int)
    (hn : a.maxLength = some n) (h1 : 1 < n) :
    (∀ i p', gamaInit a p ≠ (.ok i, p')) ∧
    (a.presetKnown = true → Spec.Usable p → (∃ t, a.maxTotalTime = some t ∧ 0 < t) →
      (∀ t, a.maxEvalTime = some t → 0 < t) → 0 < resolveJobs a → a.scoringError = none → a.spaceError = none →
      (gamaInit a p).1 = .error .valueError) := by
  have hr : resolveLength a = .error .valueError := by
    unfold resolveLength
    rw [hpre, hn]
    simp [h1]
  refine ⟨fun i p' h => ?_, fun hk hu ht he hj hs hsp => ?_⟩
  · obtain ⟨h2, _⟩ := init_length h
    rw [hr] at h2
    cases h2
  · -- as far as the length, construction is as with the length one
    obtain ⟨i, es, hi, _⟩ := init_ok (a := { a with maxLength := some 1 }) p hu
      ⟨hk, ht, he, hs, hsp, Or.inr (Or.inr rfl)⟩ hj
    unfold gamaInit at hi ⊢
    rw [if_pos hk] at hi ⊢
    rw [open_usable hu] at hi ⊢
    dsimp only at hi ⊢
    rw [touch_first] at hi ⊢
    dsimp only at hi ⊢
    have hrf : refused { a with maxLength := some 1 } = refused a := rfl
    rw [hrf] at hi
    split
    · next hb => rw [if_pos hb] at hi; cases hc : cleanup .all (.dir (if a.logs then [(gamaLog, Item.file)] else [])) with
      | mk r d =>
        cases r <;> rw [hc] at hi <;> cases hi
    · next hb =>
      obtain ⟨t, ht, h0⟩ := ht
      rw [if_neg hb] at hi
      rw [ht] at hi ⊢
      dsimp only at hi ⊢
      cases hev : maxEvalTime (some t) a.maxEvalTime with
      | error e => rw [hev] at hi; cases hi
      | ok ev =>
        dsimp only
        unfold initRest
        rw [hs, hsp, hr]

/-- A pipeline of a search space without preprocessing steps is an estimator. -/
theorem single_step {ps : PSet} (hd : ps.prims dataTerminal = []) {ss : List Step} (h : PipelineOk ps ss) :
    ss.length = 1 := by
  cases ss with
  | nil => exact h.elim
  | cons e pre =>
    cases pre with
    | nil => rfl
    | cons s pre =>
      have := (h.2 s (by simp)).1
      rw [hd] at this
      cases this

/-- **C138**: an instance that was constructed with a maximum length of at least one, or with none, can be
used: creating an individual succeeds, with at most as many steps as the user allows (three if no length is
given, one if there are no preprocessing steps). -/
theorem C138_created (a : InitArgs) (p p' : Place) (i : Instance) (h : gamaInit a p = (.ok i, p')) (ps : PSet)
    (hpre : a.preprocessing = true ↔ ps.prims dataTerminal ≠ []) (hok : PSetOk ps) (hd : Distinct ps)
    (he : ps.prims predictionKey ≠ []) (hn : ∀ n, a.maxLength = some n → 1 ≤ n) (completed : Str → Bool)
    (w : World) :
    Workable (operatorConfig i ps completed) ∧
    ∃ x w' ss, opIndividual (operatorConfig i ps completed) w = (.ok x, w') ∧ Is w' x ss ∧ PipelineOk ps ss ∧
      (∀ n, a.maxLength = some n → (ss.length : Int) ≤ n) ∧ (a.maxLength = none → ss.length ≤ 3) ∧
      (a.preprocessing = false → ss.length = 1) := by
  obtain ⟨c1, c2, c3⟩ := C138_constructed a p p' i h
  obtain ⟨r1, _⟩ := init_length h
  have hu : Workable (operatorConfig i ps completed) := by
    refine ⟨hok, hd, he, ?_, Nat.succ_pos _, ?_⟩
    · cases hp : a.preprocessing with
      | true => exact Or.inl (hpre.1 hp)
      | false =>
        right
        show i.maxLength.map Int.toNat = some 1
        cases hl : a.maxLength with
        | none => rw [(c3 hl hp).1]; rfl
        | some n =>
          have h1 : n = 1 := by
            have := hn n hl
            by_contra hne
            exact (C138_refused a p hp n hl (by omega)).1 i p' h
          rw [(c1 n hl).1, h1]
          rfl
    · intro m hm
      have hm : i.maxLength.map Int.toNat = some m := hm
      cases hl : a.maxLength with
      | some n =>
        rw [(c1 n hl).1] at hm
        have := hn n hl
        simp at hm
        omega
      | none =>
        cases hp : a.preprocessing with
        | true => rw [(c2 hl hp).1] at hm; cases hm
        | false => rw [(c3 hl hp).1] at hm; simp at hm; omega
  refine ⟨hu, ?_⟩
  obtain ⟨x, w', hx, _⟩ := individual_ok hu w
  obtain ⟨ss, hf, hp, hlen, _⟩ := wp_ok (wp_opIndividual (c := operatorConfig i ps completed) hok (w := w)) hx
  obtain ⟨as, ha, _⟩ := hf.is
  refine ⟨x, w', ss, hx, ⟨as, ha⟩, hp, fun n hl => ?_, fun hl => ?_, fun hpr => ?_⟩
  · have : (operatorConfig i ps completed).maxStart = n.toNat := by
      unfold OpConfig.maxStart operatorConfig
      rw [(c1 n hl).1]
      rfl
    have := hn n hl
    omega
  · cases hpr : a.preprocessing with
    | true =>
      have : (operatorConfig i ps completed).maxStart = 3 := by
        unfold OpConfig.maxStart operatorConfig
        rw [(c2 hl hpr).1]
        rfl
      omega
    | false =>
      have : (operatorConfig i ps completed).maxStart = 1 := by
        unfold OpConfig.maxStart operatorConfig
        rw [(c3 hl hpr).1]
        rfl
      omega
  · refine single_step ?_ hp
    by_contra hne
    rw [hpre.2 hne] at hpr
    cases hpr

/-- **C138**: with no preprocessing steps in the search space, every pipeline that an evolutionary search
evaluates consists of an estimator only. -/
theorem C138_search (a : InitArgs) (p p' : Place) (i : Instance) (h : gamaInit a p = (.ok i, p')) (ps : PSet)
    (hpre : ps.prims dataTerminal = []) (ha : a.preprocessing = false) (hok : PSetOk ps) (hd : Distinct ps)
    (he : ps.prims predictionKey ≠ []) (hn : ∀ n, a.maxLength = some n → 1 ≤ n) (completed : Str → Bool)
    (w0 : World) :
    ∃ l w, freshPopulation (operatorConfig i ps completed) 50 w0 = (.ok l, w) ∧ l.length = 50 ∧
    ∀ cxpb maxN size k out is, eaRefused maxN = false → 2 ≤ k →
      EvolveAlong (operatorConfig i ps completed) cxpb maxN size (Honest k) is (eaStart (.list l) out w) →
      ∀ x ∈ (evolve (operatorConfig i ps completed) cxpb maxN size is (eaStart (.list l) out w)).submitted,
        ∃ s, Is (evolve (operatorConfig i ps completed) cxpb maxN size is (eaStart (.list l) out w)).world x [s] ∧
          s.prim ∈ ps.prims predictionKey := by
  obtain ⟨hu, _⟩ := C138_created a p p' i h ps (by rw [ha, hpre]; simp) hok hd he hn completed w0
  obtain ⟨l, w, h1, h2, _, h3⟩ := freshPopulation_ok hu 50 w0
  refine ⟨l, w, h1, h2, fun cxpb maxN size k out is hm hk hh x hx => ?_⟩
  obtain ⟨ss, g1, g2, _⟩ := (C126_evolution hu hm hk h3 is [] (by rw [List.append_nil]; exact hh)).1 x hx
  have hl := single_step hpre g1
  match ss, g1, g2, hl with
  | [s], g1, g2, _ => exact ⟨s, g2, g1.1.1⟩

/-- **C138**: a maximum length of zero, or a negative one, is not refused, though no pipeline can be made with
it: creating an individual raises a `ValueError`. -/
theorem C138_zero (a : InitArgs) (p : Place) (hu : Spec.Usable p) (hk : a.presetKnown = true)
    (ht : ∃ t, a.maxTotalTime = some t ∧ 0 < t) (he : ∀ t, a.maxEvalTime = some t → 0 < t)
    (hj : 0 < resolveJobs a) (hs : a.scoringError = none) (hsp : a.spaceError = none) (hpre : a.preprocessing = true)
    (n : Int) (hn : a.maxLength = some n) (h0 : n < 1) :
    ∃ i p', gamaInit a p = (.ok i, p') ∧ ∀ ps completed w, PSetOk ps →
      (opIndividual (operatorConfig i ps completed) w).1 = .error .valueError := by
  obtain ⟨i, es, hi, _⟩ := init_ok p hu ⟨hk, ht, he, hs, hsp, Or.inl hpre⟩ hj
  refine ⟨i, _, hi, fun ps completed w hok => ?_⟩
  have hl := ((C138_constructed a p _ i hi).1 n hn).1
  have hms : (operatorConfig i ps completed).maxStart = 0 := by
    unfold OpConfig.maxStart operatorConfig
    rw [hl]
    show n.toNat = 0
    omega
  unfold opIndividual createRandomExpression
  rw [hms]
  rfl

namespace Ex

/-- The search space of the examples without its preprocessors. -/
def estimatorsOnly : PSet := { space with prims := fun k => if k = dataTerminal then [] else space.prims k }

theorem estimatorsOnly_sub {k : Str} {q : Primitive} (h : q ∈ estimatorsOnly.prims k) : q ∈ space.prims k := by
  unfold estimatorsOnly at h
  dsimp only at h
  split at h
  · cases h
  · exact h

theorem estimatorsOnly_ok : PSetOk estimatorsOnly where
  kind k q h := space_ok.kind k q (estimatorsOnly_sub h)
  ident := space_ok.ident
  nonempty k q i h hi := space_ok.nonempty k q i (estimatorsOnly_sub h) hi
  distinct k q h := space_ok.distinct k q (estimatorsOnly_sub h)
  sameName := space_ok.sameName
  diffName k q i j t t' h := space_ok.diffName k q i j t t' (estimatorsOnly_sub h)
  noEq := space_ok.noEq

theorem estimatorsOnly_distinct : Distinct estimatorsOnly where
  prims k := by
    unfold estimatorsOnly
    dsimp only
    split
    · exact List.nodup_nil
    · exact space_distinct.prims k
  values := space_distinct.values

/-- Without preprocessing steps in the search space, and with no maximum length given. -/
def plainArgs : InitArgs := { sampleArgs with preprocessing := false }

end Ex

example : gamaInit Ex.plainArgs (.missing true) =
    (.ok ⟨2, 3600, 60, some 1, 1⟩, (gamaInit sampleArgs (.missing true)).2) := by decide

example : (gamaInit { Ex.plainArgs with maxLength := some 3 } (.missing true)).1 = .error .valueError := by decide

example (completed : Str → Bool) (w : World) := C138_created Ex.plainArgs (.missing true)
  (gamaInit sampleArgs (.missing true)).2 ⟨2, 3600, 60, some 1, 1⟩ (by decide) Ex.estimatorsOnly (by decide) Ex.estimatorsOnly_ok Ex.estimatorsOnly_distinct (by decide)
  (by intro n hn; cases hn) completed w

example (completed : Str → Bool) (w : World) := C138_search Ex.plainArgs (.missing true)
  (gamaInit sampleArgs (.missing true)).2 ⟨2, 3600, 60, some 1, 1⟩ (by decide) Ex.estimatorsOnly rfl rfl Ex.estimatorsOnly_ok Ex.estimatorsOnly_distinct (by decide)
  (by intro n hn; cases hn) completed w

example := C138_zero { sampleArgs with maxLength := some 0 } (.missing true) (Or.inl rfl) rfl
  ⟨3600, rfl, by omega⟩ (fun t h => by cases h; omega) (by decide) rfl rfl rfl 0 rfl (by omega)

/-! ### Cases of the theorems above -/

/-- `C138_constructed`, `C138_refused`. -/
example (i : Instance) (p' : Place) (h : gamaInit Ex.plainArgs (.missing true) = (.ok i, p')) :
    i.maxLength = some 1 ∧ i.maxStartLength = 1 :=
  (C138_constructed _ _ _ _ h).2.2 rfl rfl

example (i : Instance) (p p' : Place) : gamaInit { Ex.plainArgs with maxLength := some 3 } p ≠ (.ok i, p') :=
  (C138_refused { Ex.plainArgs with maxLength := some 3 } p rfl 3 rfl (by decide)).1 i p'

end Gama
