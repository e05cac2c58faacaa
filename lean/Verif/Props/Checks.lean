import Verif.Props.Shipped

/-! # Checks on combinations of hyperparameters (C125) -/

namespace Gama
open Spec PyM

/-! ### What the parser records -/

/-- The check of an algorithm's parameters. -/
def Spec.checkOf (params : List (Str × ParamVal)) (f : Value) : Prop :=
  ∃ v, (paramCheck, v) ∈ params ∧ v ≠ .list [] ∧ v.values.head? = some f

theorem parseParams_checks (c : Cls) : ∀ (l : List (Str × ParamVal)) (types : List Str) (ps : PSet)
    (checks : List (Str × Value)) {types' ps' checks'}, (l.map Prod.fst).Nodup →
    parseParams c l types ps checks = .ok (types', ps', checks') →
    (∀ n, n ≠ c.name → dget checks' n = dget checks n) ∧
    (∀ f, checkOf l f → dget checks' c.name = some f) ∧
    ((¬ ∃ f, checkOf l f) → dget checks' c.name = dget checks c.name) := by
  intro l
  induction l with
  | nil =>
    intro types ps checks types' ps' checks' _ h
    simp only [parseParams, Except.ok.injEq, Prod.mk.injEq] at h
    obtain ⟨_, _, rfl⟩ := h
    exact ⟨fun _ _ => rfl, (by rintro f ⟨v, h, _⟩; cases h), fun _ => rfl⟩
  | cons p rest ih =>
    intro types ps checks types' ps' checks' hnd h
    obtain ⟨name, v⟩ := p
    rw [List.map_cons, List.nodup_cons] at hnd
    unfold parseParams at h
    -- the check of the rest is the check of the whole
    have skip : (v = .list [] ∨ name ≠ paramCheck) → ∀ f, checkOf ((name, v) :: rest) f ↔ checkOf rest f := by
      intro hv f
      constructor
      · rintro ⟨u, hu, h1, h2⟩
        rcases List.mem_cons.1 hu with e | hu
        · cases e
          rcases hv with hv | hv
          · exact (h1 hv).elim
          · exact (hv rfl).elim
        · exact ⟨u, hu, h1, h2⟩
      · rintro ⟨u, hu, h⟩; exact ⟨u, List.mem_cons_of_mem _ hu, h⟩
    by_cases hv : v = .list []
    · rw [if_pos hv] at h
      simp only [skip (Or.inl hv)]
      exact ih _ _ _ hnd.2 h
    · rw [if_neg hv] at h
      by_cases hc : name = paramCheck
      · rw [if_pos hc] at h
        subst hc
        cases hvs : v.values with
        | nil => rw [hvs] at h; cases h
        | cons f₀ r =>
          rw [hvs] at h
          dsimp only at h
          obtain ⟨h1, h2, h3⟩ := ih _ _ _ hnd.2 h
          have none : ¬ ∃ f, checkOf rest f := by
            rintro ⟨f, u, hu, _⟩
            exact hnd.1 (List.mem_map.2 ⟨_, hu, rfl⟩)
          refine ⟨?_, ?_, ?_⟩
          · intro n hn
            rw [h1 n hn, dget_dset, if_neg hn.symm]
          · rintro f ⟨u, hu, h4, h5⟩
            rcases List.mem_cons.1 hu with e | hu
            · cases e
              rw [hvs] at h5
              cases h5
              rw [h3 none, dget_dset, if_pos rfl]
            · exact (none ⟨f, u, hu, h4, h5⟩).elim
          · intro hno
            exact (hno ⟨f₀, v, List.mem_cons_self, hv, by rw [hvs]; rfl⟩).elim
      · rw [if_neg hc] at h
        simp only [skip (Or.inr hc)]
        exact ih _ _ _ hnd.2 h

theorem checkOf_sorted {l : List (Str × ParamVal)} {f : Value} : checkOf (sortedParams l) f ↔ checkOf l f := by
  simp only [checkOf, mem_sortedParams]

theorem parseEntry_checks {e : Entry} {ps ps' : PSet} {checks checks' : List (Str × Value)}
    (hnd : ∀ c k params, e = .algorithm c k params → (params.map Prod.fst).Nodup)
    (h : parseEntry e ps checks = .ok (ps', checks')) :
    (∀ n, (∀ c k params, e = .algorithm c k params → c.name ≠ n) → dget checks' n = dget checks n) ∧
    ∀ c k params, e = .algorithm c k params →
      (∀ f, checkOf params f → dget checks' c.name = some f) ∧
      ((¬ ∃ f, checkOf params f) → dget checks' c.name = dget checks c.name) := by
  cases e with
  | unknown => cases h
  | shared n vs =>
    simp only [parseEntry, Except.ok.injEq, Prod.mk.injEq] at h
    obtain ⟨_, rfl⟩ := h
    exact ⟨fun _ _ => rfl, fun c k params e => by cases e⟩
  | algorithm c k params =>
    simp only [parseEntry] at h
    cases hp : parseParams c (pySorted (fun a b => strLe a.1 b.1) params) [] ps checks with
    | error x => rw [hp] at h; cases h
    | ok r =>
      obtain ⟨types, ps₁, checks₁⟩ := r
      rw [hp] at h
      dsimp only at h
      have hc : checks' = checks₁ := by
        split_ifs at h <;> cases h <;> rfl
      subst hc
      have hnd' : ((sortedParams params).map Prod.fst).Nodup :=
        ((pySorted_perm _ params).map _).nodup_iff.2 (hnd _ _ _ rfl)
      obtain ⟨h1, h2, h3⟩ := parseParams_checks c (sortedParams params) [] ps checks hnd' hp
      refine ⟨fun n hn => h1 n (hn _ _ _ rfl).symm, ?_⟩
      rintro c' k' params' e
      cases e
      exact ⟨fun f hf => h2 f (checkOf_sorted.2 hf),
        fun hno => h3 fun ⟨f, hf⟩ => hno ⟨f, checkOf_sorted.1 hf⟩⟩

theorem parseEntries_checks : ∀ (es : List Entry) {ps ps' : PSet} {checks checks' : List (Str × Value)},
    (∀ c k params, .algorithm c k params ∈ es → (params.map Prod.fst).Nodup) →
    (∀ c k params c' k' params', .algorithm c k params ∈ es → .algorithm c' k' params' ∈ es →
      c.name = c'.name → params = params') →
    parseEntries es ps checks = .ok (ps', checks') →
    (∀ n, (∀ c k params, .algorithm c k params ∈ es → c.name ≠ n) → dget checks' n = dget checks n) ∧
    ∀ c k params, .algorithm c k params ∈ es →
      (∀ f, checkOf params f → dget checks' c.name = some f) ∧
      ((¬ ∃ f, checkOf params f) → dget checks' c.name = dget checks c.name) := by
  intro es
  induction es with
  | nil =>
    intro ps ps' checks checks' _ _ h
    simp only [parseEntries, Except.ok.injEq, Prod.mk.injEq] at h
    obtain ⟨_, rfl⟩ := h
    exact ⟨fun _ _ => rfl, fun c k params h => by cases h⟩
  | cons e es ih =>
    intro ps ps' checks checks' hnd hun h
    simp only [parseEntries] at h
    cases hp : parseEntry e ps checks with
    | error x => rw [hp] at h; cases h
    | ok r =>
      obtain ⟨ps₁, checks₁⟩ := r
      rw [hp] at h
      obtain ⟨h1, h2⟩ := parseEntry_checks (fun c k params he => hnd c k params (he ▸ List.mem_cons_self)) hp
      obtain ⟨h3, h4⟩ := ih (fun c k params he => hnd c k params (List.mem_cons_of_mem _ he))
        (fun c k params c' k' params' he he' =>
          hun c k params c' k' params' (List.mem_cons_of_mem _ he) (List.mem_cons_of_mem _ he')) h
      have same : ∀ c k params, .algorithm c k params ∈ e :: es →
          (∀ f, checkOf params f → dget checks' c.name = some f) ∧
          ((¬ ∃ f, checkOf params f) → dget checks' c.name = dget checks c.name) := by
        intro c k params he
        by_cases hin : ∃ c' k' params', .algorithm c' k' params' ∈ es ∧ c'.name = c.name
        · obtain ⟨c', k', params', he', hn⟩ := hin
          have : params' = params := hun _ _ _ _ _ _ (List.mem_cons_of_mem _ he') he hn
          subst this
          obtain ⟨h5, h6⟩ := h4 c' k' params' he'
          rw [hn] at h5 h6
          refine ⟨h5, fun hno => ?_⟩
          rw [h6 hno]
          by_cases hhd : ∃ c k params, e = .algorithm c k params ∧ c.name = c'.name
          · obtain ⟨c₂, k₂, params₂, he₂, hn₂⟩ := hhd
            have : params₂ = params' := hun _ k₂ _ _ k _ (List.mem_cons.2 (Or.inl he₂.symm)) he (hn₂.trans hn)
            subst this
            have := (h2 c₂ k₂ params₂ he₂).2 hno
            rwa [hn₂, hn] at this
          · exact h1 c.name fun c₂ k₂ params₂ he₂ hn₂ => hhd ⟨c₂, k₂, params₂, he₂, hn₂.trans hn.symm⟩
        · rcases List.mem_cons.1 he with e1 | he'
          · have hc := h3 c.name fun c₂ k₂ params₂ he₂ hn₂ => hin ⟨c₂, k₂, params₂, he₂, hn₂⟩
            obtain ⟨h5, h6⟩ := h2 c k params e1.symm
            rw [hc]
            exact ⟨h5, h6⟩
          · exact (hin ⟨c, k, params, he', rfl⟩).elim
      refine ⟨fun n hn => ?_, same⟩
      rw [h3 n fun c k params he => hn c k params (List.mem_cons_of_mem _ he)]
      exact h1 n fun c k params he => hn c k params (he ▸ List.mem_cons_self)

/-! ### C125 -/

/-- The full claim C125: whatever the checks mean, new pipelines pass the checks of their algorithms. -/
def C125_claim : Prop :=
  ∀ (cfg : List Entry) (ps : PSet) (checks : List (Str × Value)), GoodSpace cfg →
    psetFromConfig cfg = .ok (ps, checks) →
    ∀ (allowed : Value → Step → Bool) (c : OpConfig), c.ps = ps → ∀ w n w' ss,
      opIndividual c w = (.ok n, w') → Is w' n ss →
      ∀ s ∈ ss, ∀ f, dget checks s.prim.ident.name = some f → allowed f s = true

/-- **C125**, the part that holds: the parser returns exactly the checks of the configuration, under the
names of the algorithms.  (Missing: GAMA does not use what is returned.) -/
theorem C125_partial {cfg : List Entry} (hg : GoodSpace cfg) {ps : PSet} {checks : List (Str × Value)}
    (h : psetFromConfig cfg = .ok (ps, checks)) (n : Str) (f : Value) :
    dget checks n = some f ↔
      ∃ c k params, .algorithm c k params ∈ cfg ∧ c.name = n ∧ checkOf params f := by
  have hmem : ∀ e, e ∈ (pySorted (fun a b : Entry => strLe a.keyKind b.keyKind) cfg).reverse ↔ e ∈ cfg :=
    fun e => by rw [List.mem_reverse, (pySorted_perm _ cfg).mem_iff]
  obtain ⟨h1, h2⟩ := parseEntries_checks _
    (fun c k params he => (hg.2.2 _ ((hmem _).1 he)).2.2.2.1)
    (fun c k params c' k' params' he he' e => by
      have := class_unique hg.2.1 ((hmem _).1 he) ((hmem _).1 he') e
      exact (Entry.algorithm.inj this).2.2) h
  constructor
  · intro hd
    by_cases hin : ∃ c k params, Entry.algorithm c k params ∈ cfg ∧ c.name = n
    · obtain ⟨c, k, params, he, rfl⟩ := hin
      obtain ⟨h3, h4⟩ := h2 c k params ((hmem _).2 he)
      by_cases hno : ∃ f, checkOf params f
      · obtain ⟨f', hf'⟩ := hno
        rw [h3 f' hf'] at hd
        cases hd
        exact ⟨c, k, params, he, rfl, hf'⟩
      · rw [h4 hno] at hd; cases hd
    · rw [h1 n fun c k params he hn => hin ⟨c, k, params, (hmem _).1 he, hn⟩] at hd
      cases hd
  · rintro ⟨c, k, params, he, rfl, hf⟩
    exact (h2 c k params ((hmem _).2 he)).1 f hf

/-! The configuration without its checks gives the same pipelines. -/

theorem insertBy_head {α : Type} {le : α → α → Bool} {x : α} {l : List α} (h : ∀ y ∈ l, le x y = true) :
    insertBy le x l = x :: l := by
  cases l with
  | nil => rfl
  | cons y l => rw [insertBy, if_pos (h y List.mem_cons_self)]

theorem filter_insertBy {α : Type} {le : α → α → Bool}
    (trans : ∀ a b c, le a b = true → le b c = true → le a c = true) (p : α → Bool) (x : α) :
    ∀ l : List α, l.Pairwise (fun a b => le a b = true) →
      (insertBy le x l).filter p = if p x then insertBy le x (l.filter p) else l.filter p
  | [], _ => by
    simp only [insertBy, List.filter_cons, List.filter_nil]
  | y :: l, h => by
    rw [List.pairwise_cons] at h
    rw [insertBy]
    by_cases hxy : le x y = true
    · have hall : ∀ z ∈ (y :: l).filter p, le x z = true := by
        intro z hz
        rcases List.mem_cons.1 (List.mem_filter.1 hz).1 with rfl | hz
        · exact hxy
        · exact trans _ _ _ hxy (h.1 z hz)
      rw [if_pos hxy, insertBy_head hall, List.filter_cons (x := x)]
    · rw [if_neg hxy, List.filter_cons, List.filter_cons, filter_insertBy trans p x l h.2]
      by_cases hx : p x = true
      · by_cases hy : p y = true
        · simp [hx, hy, insertBy, hxy]
        · simp [hx, hy]
      · simp [hx]

theorem filter_pySorted {α : Type} {le : α → α → Bool}
    (trans : ∀ a b c, le a b = true → le b c = true → le a c = true)
    (total : ∀ a b, (le a b || le b a) = true) (p : α → Bool) :
    ∀ l : List α, (pySorted le l).filter p = pySorted le (l.filter p)
  | [] => rfl
  | x :: l => by
    rw [pySorted, filter_insertBy trans p x _ (pySorted_sorted trans total l),
      filter_pySorted trans total p l, List.filter_cons]
    split <;> rfl

/-- The hyperparameters without the check. -/
def Spec.plainParams (params : List (Str × ParamVal)) : List (Str × ParamVal) :=
  params.filter fun p => p.1 ≠ paramCheck

/-- An entry without its check. -/
def Spec.plainEntry : Entry → Entry
  | .algorithm c k params => .algorithm c k (plainParams params)
  | e => e

theorem plain_input {c : Cls} {params : List (Str × ParamVal)}
    (h : ∀ p ∈ params, p.1 = paramCheck → p.2 ≠ .list []) :
    (sortedParams (plainParams params)).flatMap (ownInput c) = (sortedParams params).flatMap (ownInput c) := by
  unfold sortedParams plainParams
  rw [← filter_pySorted (le := fun a b : Str × ParamVal => strLe a.1 b.1)
    (fun _ _ _ => strLe_trans _ _ _) (fun _ _ => strLe_total _ _)]
  have h' : ∀ p ∈ pySorted (fun a b : Str × ParamVal => strLe a.1 b.1) params,
      p.1 = paramCheck → p.2 ≠ .list [] := fun p hp => h p ((pySorted_perm _ params).mem_iff.1 hp)
  revert h'
  generalize pySorted (fun a b : Str × ParamVal => strLe a.1 b.1) params = l
  intro h'
  induction l with
  | nil => rfl
  | cons p l ih =>
    have ih := ih fun q hq => h' q (List.mem_cons_of_mem _ hq)
    by_cases hc : p.1 = paramCheck
    · have : ownInput c p = [] := by
        unfold ownInput
        rw [if_neg (h' p List.mem_cons_self hc), if_pos hc]
      rw [List.filter_cons, if_neg (by simp [hc]), List.flatMap_cons, this, ih]
      rfl
    · rw [List.filter_cons, if_pos (by simp [hc]), List.flatMap_cons, List.flatMap_cons, ih]

theorem sharedNames_plain (cfg : List Entry) : sharedNames (cfg.map plainEntry) = sharedNames cfg := by
  induction cfg with
  | nil => rfl
  | cons e cfg ih => cases e <;> simp only [List.map_cons, plainEntry, sharedNames, ih]

theorem classNames_plain (cfg : List Entry) : classNames (cfg.map plainEntry) = classNames cfg := by
  induction cfg with
  | nil => rfl
  | cons e cfg ih => cases e <;> simp only [List.map_cons, plainEntry, classNames, ih]

theorem goodSpace_plain {cfg : List Entry} (h : GoodSpace cfg) : GoodSpace (cfg.map plainEntry) := by
  refine ⟨by rw [sharedNames_plain]; exact h.1, by rw [classNames_plain]; exact h.2.1, ?_⟩
  intro e' he'
  obtain ⟨e, he, rfl⟩ := List.mem_map.1 he'
  rw [sharedNames_plain]
  have := h.2.2 e he
  cases e with
  | shared => exact this
  | unknown => exact this
  | algorithm c k params =>
    obtain ⟨h1, h2, h3, h4, h5⟩ := this
    exact ⟨h1, h2, h3, h4.sublist (List.filter_sublist.map _), fun p hp => h5 p (List.mem_filter.1 hp).1⟩

/-- **C125**, what happens instead: the checks do not matter.  The same pipelines are well formed, hence (by
C118) created, with and without them. -/
theorem C125_ignored {cfg : List Entry} (hg : GoodSpace cfg) :
    ∃ ps checks ps' checks', psetFromConfig cfg = .ok (ps, checks) ∧
      psetFromConfig (cfg.map plainEntry) = .ok (ps', checks') ∧
      ∀ (m : Option Nat) (done : Str → Bool) (k : Nat) (w : World) (ss : List Step),
        Reach (opIndividual ⟨ps, m, done, k⟩) w
          (fun n w' => Fresh w w' n ss ∧ HasMeta w' n [] (some "new".toList)) ↔
        Reach (opIndividual ⟨ps', m, done, k⟩) w
          (fun n w' => Fresh w w' n ss ∧ HasMeta w' n [] (some "new".toList)) := by
  obtain ⟨ps, ch, h0, hps, _, _, hpar⟩ := goodSpace hg
  obtain ⟨ps', ch', h0', hps', _, _, hpar'⟩ := goodSpace (goodSpace_plain hg)
  refine ⟨ps, ch, ps', ch', h0, h0', ?_⟩
  have hlist : ∀ {c k params}, Entry.algorithm c k params ∈ cfg →
      ∀ p ∈ params, p.1 = paramCheck → p.2 ≠ .list [] := by
    intro c k params he p hp hc hl
    have := ((hg.2.2 _ he).2.2.2.2 p hp).2.1 hc
    rw [hl] at this
    exact this rfl
  have there : ∀ e ∈ cfg, Covers noExtra (cfg.map plainEntry) e := by
    intro e he
    cases e with
    | unknown => exact hg.2.2 _ he
    | shared n vs => exact ⟨_, List.mem_map.2 ⟨_, he, rfl⟩, rfl, fun _ h => h⟩
    | algorithm c k params =>
      refine ⟨_, List.mem_map.2 ⟨_, he, rfl⟩, rfl, plain_input (hlist he), ?_⟩
      intro p hp hne hck
      exact ⟨p, List.mem_filter.2 ⟨hp, by simpa using hck⟩, rfl, hne, fun _ h => Or.inl h⟩
  have back : ∀ e ∈ cfg.map plainEntry, Covers noExtra cfg e := by
    intro e' he'
    obtain ⟨e, he, rfl⟩ := List.mem_map.1 he'
    cases e with
    | unknown => exact hg.2.2 _ he
    | shared n vs => exact ⟨_, he, rfl, fun _ h => h⟩
    | algorithm c k params =>
      refine ⟨_, he, rfl, (plain_input (hlist he)).symm, ?_⟩
      intro p hp hne hck
      exact ⟨p, (List.mem_filter.1 hp).1, rfl, hne, fun _ h => Or.inl h⟩
  intro m done k w ss
  rw [C118 (c := ⟨ps, m, done, k⟩) hps, C118 (c := ⟨ps', m, done, k⟩) hps']
  exact ⟨fun h => ⟨offered_pipeline hpar hpar' there h.1, h.2⟩,
    fun h => ⟨offered_pipeline hpar' hpar back h.1, h.2⟩⟩

/-! The check of LinearSVC in the default search space. -/

/-- A hyperparameter of a step. -/
def Spec.hyper (s : Step) (n : Str) : Option Value := (s.terms.find? fun t => t.output = n).map (·.value)

/-- The check of LinearSVC, classification.py l.88-95. -/
def Spec.linearSVCCheck (s : Step) : Bool :=
  let dual := hyper s "dual".toList ≠ some (.atom 0 "False".toList)
  let penalty := hyper s "penalty".toList
  let loss := hyper s "loss".toList
  (!dual || penalty = some (.str "l2".toList)) &&
  !(penalty = some (.str "l1".toList) && loss = some (.str "hinge".toList)) &&
  !(penalty = some (.str "l2".toList) && loss = some (.str "hinge".toList) && !dual)

/-- What the checks of the default search space mean, as far as LinearSVC is concerned. -/
def Spec.linearSVCAllowed : Value → Step → Bool
  | .fn 100 _, s => linearSVCCheck s
  | _, _ => true

/-- LinearSVC of the default search space. -/
def linearSVC : Cls :=
  { uid := 8, name := "LinearSVC".toList, modul := "sklearn.svm".toList, classifier := true }

def linearSVCParams : List (Str × ParamVal) := match shippedHeap[8]? with
  | some h => h.map fun p => (p.1, p.2.param)
  | none => []

theorem mem_linearSVC :
    Entry.algorithm linearSVC [] linearSVCParams ∈ configEntries noKind clfConfig shippedHeap := by
  decide +kernel

/-- LinearSVC with the `l1` penalty and the `hinge` loss, which scikit-learn does not support. -/
def badStep : Step where
  prim := ⟨(sortedParams linearSVCParams).flatMap (ownInput linearSVC), predictionKey, linearSVC⟩
  terms := [
    ⟨.atom 120892581961462923264 "0.0001".toList, "C".toList, "LinearSVC.C".toList⟩,
    ⟨.atom 0 "False".toList, "dual".toList, "LinearSVC.dual".toList⟩,
    ⟨.str "hinge".toList, "loss".toList, "LinearSVC.loss".toList⟩,
    ⟨.str "l1".toList, "penalty".toList, "LinearSVC.penalty".toList⟩,
    ⟨.atom 12089258196146292736 "1e-05".toList, "tol".toList, "LinearSVC.tol".toList⟩]

/-- The values of the step are offered. -/
theorem badStep_offered : ∀ t ∈ badStep.terms, ∃ p ∈ linearSVCParams, p.2 ≠ .list [] ∧ p.1 ≠ paramCheck ∧
    t.ident = ownName linearSVC p.1 ∧ t.output = p.1 ∧ t.value ∈ p.2.values := by decide +kernel

theorem badStep_order : badStep.terms.map Terminal.ident = badStep.prim.input ∧
    badStep.terms.Pairwise fun a b => strLe a.str b.str = true := by decide +kernel

theorem badStep_check : linearSVCCheck badStep = false := by decide +kernel

theorem C125_false : ¬ C125_claim := by
  intro h
  have good := shipped_good (clfConfig, shippedHeap) List.mem_cons_self
  obtain ⟨ps, ch, h0, hps, _, _, hpar⟩ := goodSpace good
  have hok : PipelineOk ps [badStep] := by
    refine ⟨⟨(hpar.prims _ _).2 ⟨_, _, _, mem_linearSVC, rfl, rfl⟩, ?_, ?_, badStep_order.2⟩,
      (by intro s hs; cases hs)⟩
    · rw [badStep_order.1]
    · intro t ht
      obtain ⟨⟨n, v⟩, hp, hne, hck, h1, h2, h3⟩ := badStep_offered t ht
      rw [h1, hpar.own _ _ _ n v mem_linearSVC hp hne hck]
      refine List.mem_map.2 ⟨t.value, h3, ?_⟩
      rw [← h1]
      cases t
      simp only [Terminal.mk.injEq] at h2 ⊢
      exact ⟨trivial, h2.symm, trivial⟩
  obtain ⟨r, n, w', run, hfr, _⟩ := (C118 (c := ⟨ps, none, fun _ => false, 50⟩) (w := ⟨[], [], fun _ => 0⟩) hps).2
    ⟨hok, by simp [OpConfig.maxStart]⟩
  obtain ⟨as, hat, _⟩ := hfr.is
  have hck : dget ch "LinearSVC".toList = some (.fn 100 "<lambda>".toList) := by
    refine (C125_partial good h0 _ _).2 ⟨_, _, _, mem_linearSVC, rfl, .list [.fn 100 "<lambda>".toList], ?_,
      (by decide), rfl⟩
    decide +kernel
  have := h _ ps ch good h0 linearSVCAllowed ⟨ps, none, fun _ => false, 50⟩ rfl _ n w' [badStep] run ⟨as, hat⟩ badStep
    List.mem_cons_self _ hck
  have h2 : linearSVCCheck badStep = true := this
  rw [badStep_check] at h2
  cases h2

/-- The hypotheses of C125 are met by the default search space, which has checks. -/
example : ∃ ps checks, psetFromConfig (configEntries noKind clfConfig shippedHeap) = .ok (ps, checks) ∧
    dget checks "LinearSVC".toList = some (.fn 100 "<lambda>".toList) := by
  have good := shipped_good (clfConfig, shippedHeap) List.mem_cons_self
  obtain ⟨ps, ch, h0, _⟩ := goodSpace good
  refine ⟨ps, ch, h0, (C125_partial good h0 _ _).2 ⟨_, _, _, mem_linearSVC, rfl,
    .list [.fn 100 "<lambda>".toList], ?_, (by decide), rfl⟩⟩
  decide +kernel


/-- `C125_ignored` for the default search space, which has a check. -/
example : ∃ ps checks ps' checks', psetFromConfig (configEntries noKind clfConfig shippedHeap) = .ok (ps, checks) ∧
    psetFromConfig ((configEntries noKind clfConfig shippedHeap).map plainEntry) = .ok (ps', checks') := by
  obtain ⟨ps, ch, ps', ch', h1, h2, _⟩ := C125_ignored (shipped_good (clfConfig, shippedHeap) List.mem_cons_self)
  exact ⟨ps, ch, ps', ch', h1, h2⟩

end Gama
