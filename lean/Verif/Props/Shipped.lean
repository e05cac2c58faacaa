import Verif.Lemmas.Shipped
import Verif.Props.FromString
import Verif.Props.ReachMate

/-! # The search spaces that come with GAMA (C122 – ) -/

namespace Gama
open Spec PyM

/-! ### What a good configuration gives -/

/-- What is in the primitive set of a configuration. -/
structure Parsed (cfg : List Entry) (ps : PSet) : Prop where
  prims : ∀ k p, p ∈ ps.prims k ↔ ∃ c kd params, .algorithm c kd params ∈ cfg ∧ k = stepKind c ∧
    p = ⟨(sortedParams params).flatMap (ownInput c), stepKind c, c⟩
  shared : ∀ n vs, .shared n vs ∈ cfg → ps.terms n = vs.map fun a => ⟨a, n, n⟩
  own : ∀ c kd params n v, .algorithm c kd params ∈ cfg → (n, v) ∈ params → v ≠ .list [] →
    n ≠ paramCheck → ps.terms (ownName c n) = v.values.map fun a => ⟨a, n, ownName c n⟩
  only : ∀ k t, t ∈ ps.terms k → (∃ vs, .shared k vs ∈ cfg) ∨
    ∃ c kd params n v, .algorithm c kd params ∈ cfg ∧ (n, v) ∈ params ∧ v ≠ .list [] ∧
      n ≠ paramCheck ∧ k = ownName c n
  count : ∀ k, (ps.terms k).length = offered cfg k

theorem mem_classNames' {cfg : List Entry} {n : Str} :
    n ∈ classNames cfg ↔ ∃ c kd params, .algorithm c kd params ∈ cfg ∧ c.name = n := by
  induction cfg with
  | nil => simp [classNames]
  | cons e cfg ih =>
    cases e with
    | shared m vs => simp [classNames, ih]
    | unknown k => simp [classNames, ih]
    | algorithm c kd params =>
      simp only [classNames, List.mem_cons, ih, Entry.algorithm.injEq]
      constructor
      · rintro (rfl | ⟨c', k', p', h, rfl⟩)
        · exact ⟨c, kd, params, Or.inl ⟨rfl, rfl, rfl⟩, rfl⟩
        · exact ⟨c', k', p', Or.inr h, rfl⟩
      · rintro ⟨c', k', p', ⟨rfl, _, _⟩ | h, rfl⟩
        · exact Or.inl rfl
        · exact Or.inr ⟨c', k', p', h, rfl⟩

theorem goodName_notin {n : Str} (h : GoodName n) {c : Char} (hc : c ∈ ['(', ')', ',', '=', '.']) :
    c ∉ n := h c hc

theorem fmt_good {vs : List Value} (h : GoodValues vs) {v : Value} (hv : v ∈ vs) {c : Char}
    (hc : c ∈ ['(', ')', ',', '=']) : c ∉ v.fmt := h.2.2.2 v hv c hc

/-- A good configuration gives a search space to build, print and read pipelines with. -/
theorem goodSpace {cfg : List Entry} (h : GoodSpace cfg) :
    ∃ ps checks, psetFromConfig cfg = .ok (ps, checks) ∧ PSetOk ps ∧ Distinct ps ∧ Printable ps ∧
      Parsed cfg ps := by
  obtain ⟨hsn, hcn, hall⟩ := h
  have ha : ∀ {c kd params}, Entry.algorithm c kd params ∈ cfg → GoodName c.name ∧
      ¬ dataTerminal <:+: c.name ∧
      (c.transformer = true ∨ c.classifier = true ∨ c.regressor = true) ∧ (params.map Prod.fst).Nodup ∧
      ∀ p ∈ params, GoodParam (sharedNames cfg) p := fun he => hall _ he
  have hs : ∀ {n vs}, Entry.shared n vs ∈ cfg → GoodName n ∧ GoodValues vs := fun he => hall _ he
  have ok : ConfigOk cfg := by
    refine ⟨hsn, hcn, fun c k ps he => (ha he).2.2.2.1, ?_, ?_, ?_, ?_⟩
    · intro n hn
      obtain ⟨vs, he⟩ := mem_sharedNames.1 hn
      exact goodName_notin (hs he).1 (by simp)
    · intro n hn
      obtain ⟨c, k, ps, he, rfl⟩ := mem_classNames'.1 hn
      exact goodName_notin (ha he).1 (by simp)
    · intro c k ps n v he hn
      exact goodName_notin ((ha he).2.2.2.2 _ hn).1 (by simp)
    · intro c k ps v he hv e
      subst e
      exact ((ha he).2.2.2.2 _ hv).2.1 rfl rfl
  have known : ∀ e ∈ cfg, Known e := by
    intro e he
    cases e with
    | shared n vs => trivial
    | algorithm c k ps => exact (ha he).2.2.1
    | unknown k => exact (hall _ he).elim
  obtain ⟨ps, checks, h0, hps⟩ := C61_usable cfg ok known
    (by
      intro c k ps n he hn
      obtain ⟨vs, hv⟩ := mem_sharedNames.1 (((ha he).2.2.2.2 _ hn).2.2.1 rfl)
      exact ⟨vs, (hs hv).2.1, hv⟩)
    (by
      intro c k ps n he hn
      by_cases hp : n = paramCheck
      · exact ((ha he).2.2.2.2 _ hn).2.1 hp rfl
      · exact (((ha he).2.2.2.2 _ hn).2.2.2 (by simp) hp).1 rfl)
    (fun c k ps n v he hn => goodName_notin ((ha he).2.2.2.2 _ hn).1 (by simp))
    (fun n vs he => goodName_notin (hs he).1 (by simp))
  obtain ⟨ps', checks', h0', halg, hsh, hpr, htm⟩ := C61_partial cfg ok known
  rw [h0] at h0'
  injection h0' with h0'
  injection h0' with e1 e2
  subst e1; subst e2
  obtain ⟨ps', checks', es, h0', hnd, hmem, ht, hp⟩ := parsed ok known
  rw [h0] at h0'
  injection h0' with h0'
  injection h0' with e1 e2
  subst e1; subst e2
  have desc : Parsed cfg ps := by
    refine ⟨?_, hsh, fun c kd params n v he hn hv hc => (halg c kd params he).2.2 n v hn hv hc, htm, ?_⟩
    swap
    · intro k
      rw [ht, offered]
      exact ((List.perm_ext_iff_of_nodup hnd (entries_nodup hsn hcn known)).2 hmem).flatMap_right _ |>.length_eq
    intro k p
    rw [hp, List.mem_flatMap]
    constructor
    · rintro ⟨e, he, hin⟩
      cases e with
      | shared n vs => cases hin
      | unknown kd => cases hin
      | algorithm c kd params =>
        simp only [entryPrims] at hin
        by_cases hk : k = stepKind c
        · rw [if_pos hk] at hin
          exact ⟨c, kd, params, (hmem _).1 he, hk, List.mem_singleton.1 hin⟩
        · rw [if_neg hk] at hin; cases hin
    · rintro ⟨c, kd, params, he, hk, rfl⟩
      refine ⟨_, (hmem _).2 he, ?_⟩
      simp only [entryPrims]
      rw [if_pos hk]
      exact List.mem_singleton.2 rfl
  -- the values under a key are good
  have terms : ∀ k, ps.terms k = [] ∨ ∃ vs n, GoodValues vs ∧ ps.terms k = vs.map (fun a => ⟨a, n, k⟩) ∧
      ∀ c ∈ ['(', ')', ',', '='], c ∉ k := by
    intro k
    by_cases hne : ps.terms k = []
    · exact Or.inl hne
    · right
      obtain ⟨t, ht⟩ := List.exists_mem_of_ne_nil _ hne
      rcases htm k t ht with ⟨vs, he⟩ | ⟨c, kd, params, n, v, he, hn, hv, hc, rfl⟩
      · refine ⟨vs, k, (hs he).2, hsh k vs he, ?_⟩
        intro c hc
        exact goodName_notin (hs he).1 (by simp at hc ⊢; tauto)
      · have g := (ha he).2.2.2.2 _ hn
        refine ⟨v.values, n, g.2.2.2 hv hc, (halg c kd params he).2.2 n v hn hv hc, ?_⟩
        intro x hx
        have h1 : x ∉ c.name := goodName_notin (ha he).1 (by simp at hx ⊢; tauto)
        have h2 : x ∉ n := goodName_notin g.1 (by simp at hx ⊢; tauto)
        simp only [ownName, List.mem_append, List.mem_cons, not_or]
        refine ⟨h1, ?_, h2⟩
        rintro rfl
        simp at hx
  refine ⟨ps, checks, h0, hps, ⟨?_, ?_⟩, ⟨?_, ?_, ?_, ?_, ?_, ?_⟩, desc⟩
  · intro k
    rw [List.nodup_iff_count_le_one]
    intro p
    by_cases hm : p ∈ ps.prims k
    · obtain ⟨c, kd, params, he, hk, hpe⟩ := (desc.prims k p).1 hm
      obtain ⟨⟨input, hf, _⟩, _⟩ := halg c kd params he
      rw [← hk] at hf
      have hid : p.ident = c := by rw [hpe]
      calc (ps.prims k).count p = ((ps.prims k).filter fun q => decide (q.ident = c)).count p := by
            rw [List.count_filter]; simp [hid]
        _ ≤ _ := List.count_le_length
        _ = 1 := by rw [hf]; rfl
    · rw [List.count_eq_zero_of_not_mem hm]; simp
  · intro k
    rcases terms k with h | ⟨vs, n, hg, h, _⟩
    · rw [h]; exact .nil
    · rw [h, List.pairwise_map]; exact hg.2.1
  · intro k p hm
    obtain ⟨c, kd, params, he, _, rfl⟩ := (desc.prims k p).1 hm
    exact goodName_notin (ha he).1 (by simp)
  · intro k p hm
    obtain ⟨c, kd, params, he, _, rfl⟩ := (desc.prims k p).1 hm
    exact (ha he).2.1
  · intro p q hpm hqm e
    have : ∀ p, p ∈ ps.prims dataTerminal ++ ps.prims predictionKey → ∃ c kd params,
        Entry.algorithm c kd params ∈ cfg ∧
        p = ⟨(sortedParams params).flatMap (ownInput c), stepKind c, c⟩ := by
      intro p hm
      rcases List.mem_append.1 hm with hm | hm
      all_goals
        obtain ⟨c, kd, params, he, _, hpe⟩ := (desc.prims _ p).1 hm
        exact ⟨c, kd, params, he, hpe⟩
    obtain ⟨c, kd, params, he, rfl⟩ := this p hpm
    obtain ⟨c', kd', params', he', rfl⟩ := this q hqm
    have := class_unique hcn he he' e
    injection this with e1 e2 e3
    subst e1; subst e3; rfl
  · intro k t ht c hc
    rcases terms k with h | ⟨vs, n, hg, h, hk⟩
    · rw [h] at ht; cases ht
    · rw [h] at ht
      obtain ⟨v, hv, rfl⟩ := List.mem_map.1 ht
      simp only [Terminal.repr, List.mem_append, List.mem_cons, not_or]
      refine ⟨hk c (by simp at hc ⊢; tauto), ?_, fmt_good hg hv (by simp at hc ⊢; tauto)⟩
      rintro rfl
      simp at hc
  · intro k t ht
    rcases terms k with h | ⟨vs, n, hg, h, hk⟩
    · rw [h] at ht; cases ht
    · rw [h] at ht
      obtain ⟨v, hv, rfl⟩ := List.mem_map.1 ht
      exact ⟨hk _ (by simp), fmt_good hg hv (by simp)⟩
  · intro k t u ht hu e
    rcases terms k with h | ⟨vs, n, hg, h, hk⟩
    · rw [h] at ht; cases ht
    · rw [h] at ht hu
      obtain ⟨v, hv, rfl⟩ := List.mem_map.1 ht
      obtain ⟨v', hv', rfl⟩ := List.mem_map.1 hu
      simp only [Terminal.repr, List.append_cancel_left_eq, List.cons.injEq, true_and] at e
      have : v = v' := by
        have hnd : (vs.map Value.fmt).Nodup := List.pairwise_map.2 hg.2.2.1
        exact List.inj_on_of_nodup_map hnd hv hv' e
      rw [this]

/-- What one configuration offers is offered by another. -/
theorem offered_prims {extra : Str → Str → List Value} {cfg cfg' : List Entry} {ps ps' : PSet}
    (hp : Parsed cfg ps) (hp' : Parsed cfg' ps') (h : ∀ e ∈ cfg, Covers extra cfg' e) {k : Str}
    {p : Primitive} (hm : p ∈ ps.prims k) : p ∈ ps'.prims k := by
  obtain ⟨c, kd, params, he, hk, hpe⟩ := (hp.prims k p).1 hm
  obtain ⟨e', he', h'⟩ := h _ he
  cases e' with
  | shared => exact h'.elim
  | unknown => exact h'.elim
  | algorithm c' kd' params' =>
    obtain ⟨rfl, hin, _⟩ := h'
    exact (hp'.prims k p).2 ⟨c', kd', params', he', hk, by rw [hin]; exact hpe⟩

theorem offered_terms {extra : Str → Str → List Value} {cfg cfg' : List Entry} {ps ps' : PSet}
    (hp : Parsed cfg ps) (hp' : Parsed cfg' ps') (h : ∀ e ∈ cfg, Covers extra cfg' e) {k : Str}
    {t : Terminal} (hm : t ∈ ps.terms k) : t ∈ ps'.terms k ∨
      ∃ c n, t.value ∈ extra c.name n ∧ k = ownName c n ∧ t.output = n := by
  rcases hp.only k t hm with ⟨vs, he⟩ | ⟨c, kd, params, n, v, he, hn, hv, hc, rfl⟩
  · obtain ⟨e', he', h'⟩ := h _ he
    cases e' with
    | algorithm => exact h'.elim
    | unknown => exact h'.elim
    | shared n vs' =>
      obtain ⟨rfl, hin⟩ := h'
      rw [hp.shared n vs he] at hm
      obtain ⟨a, ha, rfl⟩ := List.mem_map.1 hm
      left
      rw [hp'.shared n vs' he']
      exact List.mem_map.2 ⟨a, hin a ha, rfl⟩
  · obtain ⟨e', he', h'⟩ := h _ he
    cases e' with
    | shared => exact h'.elim
    | unknown => exact h'.elim
    | algorithm c' kd' params' =>
      obtain ⟨rfl, _, hall⟩ := h'
      obtain ⟨q, hq, e1, e2, hin⟩ := hall _ hn hv hc
      rw [hp.own c' kd params n v he hn hv hc] at hm
      obtain ⟨a, ha, rfl⟩ := List.mem_map.1 hm
      obtain ⟨qn, qv⟩ := q
      cases e1
      rcases hin a ha with h | h
      · left
        rw [hp'.own c' kd' params' _ qv he' hq e2 hc]
        exact List.mem_map.2 ⟨a, h, rfl⟩
      · exact Or.inr ⟨c', _, h, rfl, rfl⟩

theorem offered_pipeline {cfg cfg' : List Entry} {ps ps' : PSet}
    (hp : Parsed cfg ps) (hp' : Parsed cfg' ps') (h : ∀ e ∈ cfg, Covers noExtra cfg' e) {ss : List Step}
    (hok : PipelineOk ps ss) : PipelineOk ps' ss := by
  have step : ∀ {k s}, StepOk ps k s → StepOk ps' k s := by
    intro k s hs
    refine ⟨offered_prims hp hp' h hs.offered, hs.complete, ?_, hs.ordered⟩
    intro t ht
    rcases offered_terms hp hp' h (hs.values t ht) with h | ⟨c, n, h, _⟩
    · exact h
    · cases h
  cases ss with
  | nil => exact hok
  | cons e pre => exact ⟨step hok.1, fun s hs => step (hok.2 s hs)⟩

theorem twoOf_prims {cfg : List Entry} {ps : PSet} (hp : Parsed cfg ps) {k : Str} (h : TwoOf k cfg) :
    ∃ p q, p ∈ ps.prims k ∧ q ∈ ps.prims k ∧ p ≠ q := by
  obtain ⟨e, he, f, hf, h⟩ := h
  cases e with
  | shared => exact h.elim
  | unknown => exact h.elim
  | algorithm c kd params =>
    cases f with
    | shared => exact h.elim
    | unknown => exact h.elim
    | algorithm c' kd' params' =>
      obtain ⟨hne, h1, h2⟩ := h
      refine ⟨_, _, (hp.prims k _).2 ⟨c, kd, params, he, h1.symm, rfl⟩,
        (hp.prims k _).2 ⟨c', kd', params', hf, h2.symm, rfl⟩, ?_⟩
      intro e
      exact hne (Primitive.mk.inj e).2.2

/-! ### C122: the search spaces that come with GAMA can be used -/

/-- What comes with GAMA is a usable search space. -/
theorem shipped_space {s} (hs : s ∈ shippedSpaces) {cfg : List Entry} (h : SeenAs s cfg) :
    ∃ ps checks, psetFromConfig cfg = .ok (ps, checks) ∧ PSetOk ps ∧ Distinct ps ∧ Printable ps ∧
      Parsed cfg ps ∧ (∃ p q, p ∈ ps.prims predictionKey ∧ q ∈ ps.prims predictionKey ∧ p ≠ q) ∧
      (∃ p q, p ∈ ps.prims dataTerminal ∧ q ∈ ps.prims dataTerminal ∧ p ≠ q) := by
  obtain ⟨ps, ch, h0, h1, h2, h3, h4⟩ := goodSpace (goodSpace_same h (shipped_good s hs))
  exact ⟨ps, ch, h0, h1, h2, h3, h4, twoOf_prims h4 (twoOf_same h (shipped_two s hs).1),
    twoOf_prims h4 (twoOf_same h (shipped_two s hs).2)⟩

/-- The full claim C122: with a search space that comes with GAMA, creating and mutating never fail. -/
def C122_claim : Prop :=
  ∀ s ∈ shippedSpaces, ∀ cfg, SeenAs s cfg → ∃ ps checks, psetFromConfig cfg = .ok (ps, checks) ∧
    ∀ c : OpConfig, c.ps = ps → 0 < c.maxRetry → (∀ m, c.maxLength = some m → 1 ≤ m) →
      (∀ w, ∃ n w', opIndividual c w = (.ok n, w')) ∧
      ∀ w i ss, Is w i ss → PipelineOk ps ss → (∀ m, c.maxLength = some m → ss.length ≤ m) →
        ∃ n w', opMutate c i w = (.ok n, w')

/-- **C122**, the part that holds: the configurations parse, creating pipelines never fails, and mutating
them does not unless the maximum length is one and the pipeline is GaussianNB or LassoLarsCV. -/
theorem C122_partial {s} (hs : s ∈ shippedSpaces) {cfg : List Entry} (h : SeenAs s cfg) :
    ∃ ps checks, psetFromConfig cfg = .ok (ps, checks) ∧
    ∀ c : OpConfig, c.ps = ps → 0 < c.maxRetry → (∀ m, c.maxLength = some m → 1 ≤ m) →
      (∀ w, ∃ n w', opIndividual c w = (.ok n, w')) ∧
      ∀ w i e pre, Is w i (e :: pre) → PipelineOk ps (e :: pre) →
        (∀ m, c.maxLength = some m → (e :: pre).length ≤ m) →
        (c.maxLength = some 1 → e.prim.ident.name ≠ "GaussianNB".toList ∧
          e.prim.ident.name ≠ "LassoLarsCV".toList) →
        ∃ n w', opMutate c i w = (.ok n, w') := by
  obtain ⟨ps, ch, h0, hps, hd, _, hpar, ⟨p, _, hp, _⟩, ⟨q, _, hq, _⟩⟩ := shipped_space hs h
  refine ⟨ps, ch, h0, ?_⟩
  rintro c rfl hr hm
  have hest : c.ps.prims predictionKey ≠ [] := List.ne_nil_of_mem hp
  have hdat : c.ps.prims dataTerminal ≠ [] := List.ne_nil_of_mem hq
  constructor
  · intro w
    have hw := wp_opIndividual (c := c) hps (w := w)
    cases hrun : opIndividual c w with
    | mk r w' =>
      cases r with
      | ok n => exact ⟨n, w', rfl⟩
      | error e =>
        obtain ⟨_, ⟨h, _⟩ | ⟨h, _⟩ | ⟨_, h, _⟩⟩ := wp_error hw hrun
        · exfalso
          unfold OpConfig.maxStart at h
          cases hl : c.maxLength with
          | none => rw [hl] at h; simp at h
          | some m => rw [hl] at h; have := hm m hl; simp at h; omega
        · exact (hest h).elim
        · exact (hdat h).elim
  · intro w i e pre his hok hlen hone
    refine C05_mutation_succeeds_partial c w i _ hps hd (Or.inl hdat) hr his hok hlen ?_
    cases pre with
    | cons f pre => left; simp
    | nil =>
      right
      by_cases hl : c.maxLength = some 1
      · right
        obtain ⟨n1, n2⟩ := hone hl
        obtain ⟨c', kd, params, he, hk, hpe⟩ := (hpar.prims _ _).1 hok.1.offered
        have hid : e.prim.ident = c' := by rw [hpe]
        have hwide := wide_same h (shipped_wide s hs) _ he hk.symm (by
          rw [← hid]; simp only [bareNames, List.mem_cons, List.not_mem_nil, or_false, not_or]
          exact ⟨n1, n2⟩)
        have hin : e.prim.input = (sortedParams params).flatMap (ownInput c') := by rw [hpe]
        rw [← hin] at hwide
        unfold mutableValues
        have e1 : allTerms [e] = e.terms := by simp [allTerms]
        rw [e1]
        calc 2 ≤ _ := hwide
          _ = ((e.terms.map Terminal.ident).filter fun i => 1 < offered cfg i).length :=
            (hok.1.complete.filter _).length_eq.symm
          _ = _ := by
            rw [List.filter_map, List.length_map]
            congr 1
            apply List.filter_congr
            intro t _
            simp only [Function.comp, hpar.count]
      · left
        intro m hm'
        have := hm m hm'
        have : m ≠ 1 := by rintro rfl; exact hl hm'
        simp only [List.length_cons, List.length_nil]
        omega

/-- With a maximum length of one, pipelines without hyperparameters cannot be mutated. -/
theorem C122_stuck {c : OpConfig} (hps : PSetOk c.ps) (hl : c.maxLength = some 1) {w : World} {i : Nat}
    {e : Step} (his : Is w i [e]) (hok : PipelineOk c.ps [e]) (hbare : e.prim.input = []) :
    ¬ ∃ n w', opMutate c i w = (.ok n, w') := by
  rintro ⟨n, w', run⟩
  obtain ⟨_, f, _, _, _, hf, _⟩ := wp_ok (wp_opMutate hps his hok) run
  have ht : e.terms = [] := by
    have := hok.1.complete
    rw [hbare] at this
    exact List.map_eq_nil_iff.1 (List.perm_nil.1 this)
  have : availableMutations c.ps c.maxLength ([e].map fun s => ⟨s.prim, s.terms, none⟩) = [] := by
    rw [hl]
    simp only [availableMutations, List.map_cons, List.map_nil, List.length_cons, List.length_nil, exceeds,
      mayGrow, ht, List.filter_cons, List.filter_nil]
    by_cases h : 1 < (c.ps.prims e.prim.output).length <;> simp [h]
  rw [this] at hf
  cases hf

/-- GaussianNB with its place in the configuration. -/
def gaussianNB : Cls :=
  { uid := 0, name := "GaussianNB".toList, modul := "sklearn.naive_bayes".toList, classifier := true,
    hasProba := true }

theorem mem_gaussianNB : Entry.algorithm gaussianNB [] [] ∈ configEntries noKind clfConfig shippedHeap := by
  decide +kernel

/-- A world with one pipeline of one step. -/
def oneStep (e : Step) (r : Stream) : World := ⟨[⟨e.prim, e.terms, none⟩], [{ main := 0 }], r⟩

theorem is_oneStep (e : Step) (r : Stream) : Is (oneStep e r) 0 [e] :=
  ⟨[0], rfl, { main := 0 }, rfl, by simp [Chain, oneStep]⟩

theorem C122_false : ¬ C122_claim := by
  intro h
  have hs : (clfConfig, shippedHeap) ∈ shippedSpaces := List.mem_cons_self
  obtain ⟨ps, ch, h0, h⟩ := h _ hs _ (seenAs_kind noKind _)
  obtain ⟨ps', ch', h0', hps, _, _, hpar, _⟩ := shipped_space hs (seenAs_kind noKind _)
  rw [h0] at h0'
  injection h0' with h0'
  injection h0' with e1 e2
  subst e1
  have hp : (⟨[], predictionKey, gaussianNB⟩ : Primitive) ∈ ps.prims predictionKey :=
    (hpar.prims _ _).2 ⟨_, _, _, mem_gaussianNB, rfl, rfl⟩
  have hok : PipelineOk ps [⟨⟨[], predictionKey, gaussianNB⟩, []⟩] :=
    ⟨⟨hp, List.Perm.refl _, (by intro t ht; cases ht), .nil⟩, (by intro s hs; cases hs)⟩
  obtain ⟨_, h⟩ := h ⟨ps, some 1, fun _ => false, 50⟩ rfl (Nat.succ_pos _) (by intro m hm; cases hm; decide)
  exact C122_stuck (c := ⟨ps, some 1, fun _ => false, 50⟩) hps rfl (is_oneStep _ fun _ => 0) hok rfl
    (h _ _ _ (is_oneStep _ fun _ => 0) hok (by intro m hm; cases hm; decide))

/-- The hypotheses of C122 are met by the classifier's search space. -/
example (kind : Nat → Str) : ∃ ps checks,
    psetFromConfig (configEntries kind clfConfig shippedHeap) = .ok (ps, checks) ∧
    ∀ w, ∃ n w', opIndividual ⟨ps, none, fun _ => false, 50⟩ w = (.ok n, w') := by
  obtain ⟨ps, ch, h0, h⟩ := C122_partial (s := (clfConfig, shippedHeap)) List.mem_cons_self
    (seenAs_kind kind _)
  exact ⟨ps, ch, h0, (h ⟨ps, none, fun _ => false, 50⟩ rfl (Nat.succ_pos _) (by intro m hm; cases hm)).1⟩

/-- **C120** for the search spaces that come with GAMA: from every pipeline mutations lead to every other
one, if pipelines may have two steps. -/
theorem C120_default {s} (hs : s ∈ shippedSpaces) {cfg : List Entry} (h : SeenAs s cfg) :
    ∃ ps checks, psetFromConfig cfg = .ok (ps, checks) ∧
    ∀ c : OpConfig, c.ps = ps → 0 < c.maxRetry → ∀ w i ss ss', Is w i ss → PipelineOk ps ss →
      PipelineOk ps ss' →
      (∀ x, c.maxLength = some x → 2 ≤ x ∧ ss.length ≤ x ∧ ss'.length ≤ x) → Found c w i ss' := by
  obtain ⟨ps, ch, h0, hps, _, _, _, ⟨p, q, hp, hq, hpq⟩, ⟨p', q', hp', hq', hpq'⟩⟩ := shipped_space hs h
  refine ⟨ps, ch, h0, ?_⟩
  rintro c rfl hr w i ss ss' his hok hok' hlen
  exact C120_partial hps hr hp hq hpq hp' hq' hpq' his hok hok' hlen

/-! ### C123: reports read what searches print -/

/-- **C123**: the printed form of every pipeline of a search space that comes with GAMA is read, with the
search space of the reports, as the same steps. -/
theorem C123 {s} (hs : s ∈ shippedSpaces) {cfg cfgM : List Entry} (h : SeenAs s cfg)
    (hM : SeenAs (mergedConfig, mergedHeap) cfgM) :
    ∃ ps checks psM checksM, psetFromConfig cfg = .ok (ps, checks) ∧
      psetFromConfig cfgM = .ok (psM, checksM) ∧
      ∀ (w : World) (i : Nat) (ss : List Step) (text : Str) (w₂ : World) (strict : Bool),
        PipelineOk ps ss → Is w i ss → pipelineStr i w = (.ok text, w) →
        ∃ n w', indFromString psM text strict w₂ = (.ok n, w') ∧ Fresh w₂ w' n ss ∧
          pipelineStr n w' = (.ok text, w') := by
  have hsM : (mergedConfig, mergedHeap) ∈ shippedSpaces := by simp [shippedSpaces]
  obtain ⟨ps, ch, h0, _, _, _, hpar, _⟩ := shipped_space hs h
  obtain ⟨psM, chM, h0M, hpsM, _, hprM, hparM, _⟩ := shipped_space hsM hM
  refine ⟨ps, ch, psM, chM, h0, h0M, ?_⟩
  intro w i ss text w₂ strict hok his hprint
  rw [pipelineStr_is his] at hprint
  injection hprint with hprint _
  injection hprint with hprint
  subst hprint
  exact read_printed hpsM hprM (offered_pipeline hpar hparM
    (fun e' he' => by
      obtain ⟨e, he, hee⟩ := forall₂_right h he'
      exact covers_same hM hee (shipped_offered s hs e he)) hok) strict w₂

/-- For instance, the report reads GaussianNB as a regression search would not. -/
example (kind kind' : Nat → Str) (r : Stream) (strict : Bool) (w₂ : World) :
    ∃ psM checksM, psetFromConfig (configEntries kind' mergedConfig mergedHeap) = .ok (psM, checksM) ∧
      ∃ text n w', pipelineStr 0 (oneStep ⟨⟨[], predictionKey, gaussianNB⟩, []⟩ r) =
        (.ok text, oneStep ⟨⟨[], predictionKey, gaussianNB⟩, []⟩ r) ∧
      indFromString psM text strict w₂ = (.ok n, w') ∧
      Is w' n [⟨⟨[], predictionKey, gaussianNB⟩, []⟩] := by
  obtain ⟨ps, ch, psM, chM, h0, h0M, h⟩ := C123 (s := (clfConfig, shippedHeap)) List.mem_cons_self
    (seenAs_kind noKind _) (seenAs_kind kind' (mergedConfig, mergedHeap))
  obtain ⟨ps', ch', h0', _, _, _, hpar, _⟩ := shipped_space (s := (clfConfig, shippedHeap))
    List.mem_cons_self (seenAs_kind noKind _)
  rw [h0] at h0'
  injection h0' with h0'
  injection h0' with e1 e2
  subst e1
  have hp : (⟨[], predictionKey, gaussianNB⟩ : Primitive) ∈ ps.prims predictionKey :=
    (hpar.prims _ _).2 ⟨_, _, _, mem_gaussianNB, rfl, rfl⟩
  have hok : PipelineOk ps [⟨⟨[], predictionKey, gaussianNB⟩, []⟩] :=
    ⟨⟨hp, List.Perm.refl _, (by intro t ht; cases ht), .nil⟩, (by intro s hs; cases hs)⟩
  have his := is_oneStep ⟨⟨[], predictionKey, gaussianNB⟩, []⟩ r
  obtain ⟨n, w', h1, h2, _⟩ := h _ 0 _ _ w₂ strict hok his (pipelineStr_is his)
  obtain ⟨as, hat, _⟩ := h2.is
  exact ⟨psM, chM, h0M, _, n, w', pipelineStr_is his, h1, as, hat⟩

/-! ### C124: importing the reports' module -/

/-- The default configurations before and after the import, as the parser sees them. -/
def Spec.BeforeAfter (d : List (ConfigKey × MergeEntry)) (ps ps' : PSet) : Prop :=
  ∃ cfg cfg' checks checks', SeenAs (d, shippedHeap) cfg ∧ SeenAs (d, reportMerge.2) cfg' ∧
    psetFromConfig cfg = .ok (ps, checks) ∧ psetFromConfig cfg' = .ok (ps', checks')

/-- The full claim C124: the import does not change what the default search spaces offer. -/
def C124_claim : Prop :=
  ∀ d ∈ [clfConfig, withProba clfConfig, regConfig], ∀ ps ps', BeforeAfter d ps ps' →
    (∀ k p, p ∈ ps'.prims k ↔ p ∈ ps.prims k) ∧ ∀ k t, t ∈ ps'.terms k ↔ t ∈ ps.terms k

theorem mem_before {d} (hd : d ∈ [clfConfig, withProba clfConfig, regConfig]) :
    (d, shippedHeap) ∈ shippedSpaces ∧ (d, mergedHeap) ∈ shippedSpaces := by
  simp only [List.mem_cons, List.not_mem_nil, or_false] at hd
  rcases hd with rfl | rfl | rfl <;> simp [shippedSpaces]

theorem beforeAfter_parsed {d} (hd : d ∈ [clfConfig, withProba clfConfig, regConfig]) {ps ps' : PSet}
    (h : BeforeAfter d ps ps') : ∃ cfg cfg', SeenAs (d, shippedHeap) cfg ∧ SeenAs (d, mergedHeap) cfg' ∧
      Parsed cfg ps ∧ Parsed cfg' ps' := by
  obtain ⟨cfg, cfg', ch, ch', h1, h2, h3, h4⟩ := h
  refine ⟨cfg, cfg', h1, h2, ?_, ?_⟩
  · obtain ⟨ps₁, ch₁, h5, _, _, _, h6, _⟩ := shipped_space (mem_before hd).1 h1
    rw [h3] at h5
    injection h5 with h5
    injection h5 with e1 e2
    subst e1
    exact h6
  · obtain ⟨ps₁, ch₁, h5, _, _, _, h6, _⟩ := shipped_space (mem_before hd).2 h2
    rw [h4] at h5
    injection h5 with h5
    injection h5 with e1 e2
    subst e1
    exact h6

/-- **C124**, the part that holds, with what does change: the algorithms stay the same, no value is lost,
and the only value that can be new is `f_regression` for `score_func` of SelectFwe and SelectPercentile in
the search space for classification. -/
theorem C124_partial {d} (hd : d ∈ [clfConfig, withProba clfConfig, regConfig]) {ps ps' : PSet}
    (h : BeforeAfter d ps ps') :
    (∀ k p, p ∈ ps'.prims k ↔ p ∈ ps.prims k) ∧
    (∀ k t, t ∈ ps.terms k → t ∈ ps'.terms k) ∧
    (d = regConfig → ∀ k t, t ∈ ps'.terms k → t ∈ ps.terms k) ∧
    ∀ k t, t ∈ ps'.terms k → t ∈ ps.terms k ∨
      (k = "SelectFwe.score_func".toList ∨ k = "SelectPercentile.score_func".toList) ∧
        t.value = .fn 1 "f_regression".toList := by
  obtain ⟨cfg, cfg', h1, h2, h3, h4⟩ := beforeAfter_parsed hd h
  have kept : ∀ e ∈ cfg, Covers noExtra cfg' e := by
    intro e' he'
    obtain ⟨e, he, hee⟩ := forall₂_right h1 he'
    exact covers_same h2 hee (clf_kept d hd e he)
  have added : ∀ e ∈ cfg', Covers importExtra cfg e := by
    intro e' he'
    obtain ⟨e, he, hee⟩ := forall₂_right h2 he'
    refine covers_same h1 hee ?_
    simp only [List.mem_cons, List.not_mem_nil, or_false] at hd
    rcases hd with rfl | rfl | rfl
    · exact clf_added _ (by simp) e he
    · exact clf_added _ (by simp) e he
    · exact covers_mono (reg_added e he)
  refine ⟨fun k p => ⟨offered_prims h4 h3 added, offered_prims h3 h4 kept⟩, ?_, ?_, ?_⟩
  · intro k t ht
    rcases offered_terms h3 h4 kept ht with h | ⟨c, n, h, _⟩
    · exact h
    · cases h
  · rintro rfl k t ht
    rcases offered_terms h4 h3 (extra := noExtra) (fun e' he' => by
      obtain ⟨e, he, hee⟩ := forall₂_right h2 he'
      exact covers_same h1 hee (reg_added e he)) ht with h | ⟨c, n, h, _⟩
    · exact h
    · cases h
  · intro k t ht
    rcases offered_terms h4 h3 added ht with h | ⟨c, n, h, hk, _⟩
    · exact Or.inl h
    · right
      unfold importExtra at h
      split at h
      · next hc =>
        obtain ⟨hc, hn⟩ := hc
        refine ⟨?_, List.mem_singleton.1 h⟩
        rw [hk, ownName, hn]
        rcases hc with hc | hc
        · left; rw [hc]; decide
        · right; rw [hc]; decide
      · cases h

/-- A value that an entry has is offered, and the other way round. -/
theorem hasValue_iff {cfg : List Entry} {ps : PSet} (hp : Parsed cfg ps) (hnd : (classNames cfg).Nodup)
    (hpn : ∀ c k params, .algorithm c k params ∈ cfg → (params.map Prod.fst).Nodup)
    {c : Cls} {kd : Str} {params : List (Str × ParamVal)} (he : .algorithm c kd params ∈ cfg)
    {n : Str} (hn : n ≠ paramCheck) {w : ParamVal} (hw : (n, w) ∈ params) (hw0 : w ≠ .list []) (v : Value) :
    (⟨v, n, ownName c n⟩ : Terminal) ∈ ps.terms (ownName c n) ↔ cfg.any (hasValue c.name n v) = true := by
  rw [hp.own c kd params n w he hw hw0 hn, List.any_eq_true]
  constructor
  · intro h
    obtain ⟨a, ha, e⟩ := List.mem_map.1 h
    cases e
    refine ⟨_, he, ?_⟩
    simp only [hasValue, Bool.and_eq_true, decide_eq_true_eq, List.any_eq_true, true_and]
    exact ⟨_, hw, ⟨rfl, hw0⟩, ha⟩
  · rintro ⟨e, he', h⟩
    cases e with
    | shared => cases h
    | unknown => cases h
    | algorithm c' kd' params' =>
      simp only [hasValue, Bool.and_eq_true, decide_eq_true_eq, List.any_eq_true] at h
      obtain ⟨hc, ⟨m, u⟩, hm, ⟨rfl, hu0⟩, hv⟩ := h
      have := class_unique hnd he' he hc
      injection this with e1 e2 e3
      subst e1; subst e3
      have := param_unique (hpn _ _ _ he') hm hw rfl
      cases this
      exact List.mem_map.2 ⟨v, hv, rfl⟩

theorem hasValue_elim {cfg : List Entry} {cn n : Str} {v : Value} (h : cfg.any (hasValue cn n v) = true) :
    ∃ c kd params w, .algorithm c kd params ∈ cfg ∧ c.name = cn ∧ (n, w) ∈ params ∧ w ≠ .list [] ∧
      v ∈ w.values := by
  obtain ⟨e, he, h⟩ := List.any_eq_true.1 h
  cases e with
  | shared => cases h
  | unknown => cases h
  | algorithm c kd params =>
    simp only [hasValue, Bool.and_eq_true, decide_eq_true_eq, List.any_eq_true] at h
    obtain ⟨hc, ⟨m, u⟩, hm, ⟨hn, hu0⟩, hv⟩ := h
    dsimp only at hn
    subst hn
    exact ⟨c, kd, params, u, he, hc, hm, hu0, hv⟩

theorem C124_false : ¬ C124_claim := by
  intro h
  have hs : (clfConfig, shippedHeap) ∈ shippedSpaces := by simp [shippedSpaces]
  have hs' : (clfConfig, mergedHeap) ∈ shippedSpaces := by simp [shippedSpaces]
  obtain ⟨ps, ch, h0, _, _, _, hpar, _⟩ := shipped_space hs (seenAs_kind noKind _)
  obtain ⟨ps', ch', h0', _, _, _, hpar', _⟩ := shipped_space hs' (seenAs_kind noKind _)
  obtain ⟨_, ht⟩ := h clfConfig List.mem_cons_self ps ps'
    ⟨_, _, ch, ch', seenAs_kind noKind _, seenAs_kind noKind _, h0, h0'⟩
  have hck : "score_func".toList ≠ paramCheck := by decide
  have good := shipped_good _ hs
  have good' := shipped_good _ hs'
  have hpn : ∀ {s}, GoodSpace s → ∀ c k params, Entry.algorithm c k params ∈ s →
      (params.map Prod.fst).Nodup := fun g c k params he => (g.2.2 _ he).2.2.2.1
  obtain ⟨c, kd, params, u, he, hc, hm, hu0, hv⟩ := hasValue_elim fwe_after
  obtain ⟨c₀, kd₀, params₀, u₀, he₀, hc₀, hm₀, hu₀, _⟩ := hasValue_elim fwe_classif
  have h1 := (hasValue_iff hpar' good'.2.1 (hpn good') he hck hm hu0 (.fn 1 "f_regression".toList)).2
    (by rw [hc]; exact fwe_after)
  have ek : ownName c "score_func".toList = ownName c₀ "score_func".toList := by
    rw [ownName, ownName, hc, hc₀]
  rw [ek] at h1
  have h2 := (hasValue_iff hpar good.2.1 (hpn good) he₀ hck hm₀ hu₀ _).1 ((ht _ _).1 h1)
  rw [hc₀, fwe_before] at h2
  cases h2

/-- The hypothesis of C124 can be met. -/
example (kind : Nat → Str) : ∃ ps ps', BeforeAfter clfConfig ps ps' := by
  obtain ⟨ps, ch, h0, _⟩ := shipped_space (s := (clfConfig, shippedHeap)) (by simp [shippedSpaces])
    (seenAs_kind kind _)
  obtain ⟨ps', ch', h0', _⟩ := shipped_space (s := (clfConfig, mergedHeap)) (by simp [shippedSpaces])
    (seenAs_kind kind _)
  exact ⟨ps, ps', _, _, ch, ch', seenAs_kind kind _, seenAs_kind kind _, h0, h0'⟩

end Gama
