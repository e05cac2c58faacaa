import Verif.Model.Config
import Verif.Spec.Pipelines
import Mathlib.Data.List.Basic
import Mathlib.Data.List.Nodup

/-! # Search spaces from configurations (C61) -/

namespace Gama

namespace Spec

/-- The names of the shared hyperparameters. -/
def sharedNames : List Entry → List Str
  | [] => []
  | .shared n _ :: es => n :: sharedNames es
  | _ :: es => sharedNames es

/-- The names of the algorithms. -/
def classNames : List Entry → List Str
  | [] => []
  | .algorithm c _ _ :: es => c.name :: classNames es
  | _ :: es => classNames es

/-- A configuration with different names: of the shared hyperparameters, of the algorithms, of the
hyperparameters of each algorithm.  Names contain no dot, and a parameter check is there if it is
listed. -/
structure ConfigOk (cfg : List Entry) : Prop where
  shared : (sharedNames cfg).Nodup
  classes : (classNames cfg).Nodup
  params : ∀ c k ps, .algorithm c k ps ∈ cfg → (ps.map Prod.fst).Nodup
  sharedDot : ∀ n ∈ sharedNames cfg, '.' ∉ n
  classDot : ∀ n ∈ classNames cfg, '.' ∉ n
  paramDot : ∀ c k ps n v, .algorithm c k ps ∈ cfg → (n, v) ∈ ps → '.' ∉ n
  check : ∀ c k ps v, .algorithm c k ps ∈ cfg → (paramCheck, v) ∈ ps → v ≠ .seq []

/-- Keys are shared hyperparameters or algorithms that transform or predict. -/
def Known : Entry → Prop
  | .shared _ _ => True
  | .algorithm c _ _ => c.transformer = true ∨ c.classifier = true ∨ c.regressor = true
  | .unknown _ => False

/-- Whether an algorithm is a preprocessing step or an estimator. -/
def stepKind (c : Cls) : Str := if c.transformer then dataTerminal else predictionKey

/-- The name a hyperparameter with values of its own gets. -/
def ownName (c : Cls) (n : Str) : Str := c.name ++ '.' :: n

end Spec

/-! ### What the loops add -/

/-- Values a hyperparameter of an algorithm adds under a key. -/
def ownTerms (c : Cls) (k : Str) (p : Str × ParamVal) : List Terminal :=
  if p.2 ≠ .list [] ∧ p.1 ≠ paramCheck ∧ k = hpName c p.1 then
    p.2.values.map fun a => ⟨a, p.1, hpName c p.1⟩
  else []

/-- The inputs a hyperparameter adds. -/
def ownInput (c : Cls) (p : Str × ParamVal) : List Str :=
  if p.2 = .list [] then [p.1] else if p.1 = paramCheck then [] else [hpName c p.1]

theorem parseParams_ok (c : Cls) : ∀ (l : List (Str × ParamVal)) (types : List Str) (ps : PSet)
    (checks : List (Str × Value)), (∀ v, (paramCheck, v) ∈ l → v ≠ .seq []) →
    ∃ ps' checks', parseParams c l types ps checks = .ok (types ++ l.flatMap (ownInput c), ps', checks') ∧
      ps'.prims = ps.prims ∧ ∀ k, ps'.terms k = ps.terms k ++ l.flatMap (ownTerms c k) := by
  intro l
  induction l with
  | nil =>
    intro types ps checks _
    exact ⟨ps, checks, by simp [parseParams], rfl, by simp⟩
  | cons p l ih =>
    obtain ⟨n, v⟩ := p
    intro types ps checks hc
    have hc' : ∀ w, (paramCheck, w) ∈ l → w ≠ .seq [] := fun w h => hc w (List.mem_cons_of_mem _ h)
    unfold parseParams
    by_cases hv : v = .list []
    · rw [if_pos hv]
      obtain ⟨ps', ch, h1, h2, h3⟩ := ih (types ++ [n]) ps checks hc'
      refine ⟨ps', ch, ?_, h2, ?_⟩
      · rw [h1]; simp [ownInput, hv]
      · intro k; rw [h3]; simp [ownTerms, hv]
    · rw [if_neg hv]
      by_cases hn : n = paramCheck
      · rw [if_pos hn]
        have hne : v.values ≠ [] := by
          intro h
          cases v with
          | list vs => exact hv (by simpa [ParamVal.values] using h)
          | seq vs =>
            refine hc (.seq vs) (by rw [hn]; exact List.mem_cons_self) ?_
            simpa [ParamVal.values] using h
        cases hvs : v.values with
        | nil => exact absurd hvs hne
        | cons f fs =>
          dsimp only
          obtain ⟨ps', ch, h1, h2, h3⟩ := ih types ps (dset checks c.name f) hc'
          refine ⟨ps', ch, ?_, h2, ?_⟩
          · rw [h1]; simp [ownInput, hv, hn]
          · intro k; rw [h3]; simp [ownTerms, hn]
      · rw [if_neg hn]
        obtain ⟨ps', ch, h1, h2, h3⟩ := ih (types ++ [hpName c n])
          (addTerms ps (hpName c n) (v.values.map fun a => ⟨a, n, hpName c n⟩)) checks hc'
        refine ⟨ps', ch, ?_, h2, ?_⟩
        · rw [h1]; simp [ownInput, hv, hn]
        · intro k
          rw [h3]
          by_cases hk : k = hpName c n
          · simp [addTerms, ownTerms, hv, hn, hk]
          · simp [addTerms, ownTerms, hk]

/-- The hyperparameters in the order they are looked at. -/
def sortedParams (l : List (Str × ParamVal)) : List (Str × ParamVal) :=
  pySorted (fun a b => strLe a.1 b.1) l

/-- Values an entry adds under a key. -/
def entryTerms (k : Str) : Entry → List Terminal
  | .shared n vs => if k = n then vs.map fun a => ⟨a, n, n⟩ else []
  | .algorithm c _ params => (sortedParams params).flatMap (ownTerms c k)
  | .unknown _ => []

/-- Primitives an entry adds under a key. -/
def entryPrims (k : Str) : Entry → List Primitive
  | .algorithm c _ params =>
    if k = Spec.stepKind c then [⟨(sortedParams params).flatMap (ownInput c), Spec.stepKind c, c⟩] else []
  | _ => []

theorem mem_sortedParams {l : List (Str × ParamVal)} {p : Str × ParamVal} :
    p ∈ sortedParams l ↔ p ∈ l := (pySorted_perm _ l).mem_iff

theorem parseEntry_ok {e : Entry} (hk : Spec.Known e)
    (hc : ∀ c k ps v, e = .algorithm c k ps → (paramCheck, v) ∈ ps → v ≠ .seq [])
    (ps : PSet) (checks : List (Str × Value)) :
    ∃ ps' checks', parseEntry e ps checks = .ok (ps', checks') ∧
      (∀ k, ps'.terms k = ps.terms k ++ entryTerms k e) ∧
      ∀ k, ps'.prims k = ps.prims k ++ entryPrims k e := by
  cases e with
  | unknown kind => exact hk.elim
  | shared n vs =>
    refine ⟨_, _, rfl, ?_, ?_⟩
    · intro k
      by_cases h : k = n <;> simp [addTerms, entryTerms, h]
    · intro k; simp [addTerms, entryPrims]
  | algorithm c kind params =>
    obtain ⟨ps', ch, h1, h2, h3⟩ := parseParams_ok c (sortedParams params) [] ps checks
      (fun v h => hc c kind params v rfl (mem_sortedParams.1 h))
    unfold parseEntry
    dsimp only
    rw [show pySorted (fun a b => strLe a.1 b.1) params = sortedParams params from rfl, h1]
    dsimp only
    rw [List.nil_append]
    have fin : ∀ key, key = Spec.stepKind c → ∃ ps'' checks'', Except.ok (ε := Exn)
        (addPrim ps' key ⟨(sortedParams params).flatMap (ownInput c), key, c⟩, ch) =
          .ok (ps'', checks'') ∧
        (∀ k, ps''.terms k = ps.terms k ++ entryTerms k (.algorithm c kind params)) ∧
        ∀ k, ps''.prims k = ps.prims k ++ entryPrims k (.algorithm c kind params) := by
      rintro key rfl
      refine ⟨_, _, rfl, ?_, ?_⟩
      · intro k
        exact h3 k
      · intro k
        by_cases hk : k = Spec.stepKind c
        · simp [addPrim, entryPrims, hk, h2]
        · simp [addPrim, entryPrims, hk, h2]
    by_cases ht : c.transformer = true
    · rw [if_pos ht]
      exact fin _ (by simp [Spec.stepKind, ht])
    · have hs : predictionKey = Spec.stepKind c := by simp [Spec.stepKind, ht]
      rw [if_neg ht]
      by_cases hcl : c.classifier = true
      · rw [if_pos hcl]
        exact fin _ hs
      · rw [if_neg hcl]
        rcases hk with h | h | h
        · exact absurd h ht
        · exact absurd h hcl
        · rw [if_pos h]
          exact fin _ hs

theorem parseEntries_ok : ∀ (es : List Entry), (∀ e ∈ es, Spec.Known e) →
    (∀ c k ps v, .algorithm c k ps ∈ es → (paramCheck, v) ∈ ps → v ≠ .seq []) →
    ∀ (ps : PSet) (checks : List (Str × Value)),
    ∃ ps' checks', parseEntries es ps checks = .ok (ps', checks') ∧
      (∀ k, ps'.terms k = ps.terms k ++ es.flatMap (entryTerms k)) ∧
      ∀ k, ps'.prims k = ps.prims k ++ es.flatMap (entryPrims k) := by
  intro es
  induction es with
  | nil => intro _ _ ps checks; exact ⟨ps, checks, rfl, by simp, by simp⟩
  | cons e es ih =>
    intro hk hc ps checks
    obtain ⟨ps1, ch1, h1, h2, h3⟩ := parseEntry_ok (hk e List.mem_cons_self)
      (fun c k p v he => hc c k p v (he ▸ List.mem_cons_self)) ps checks
    obtain ⟨ps2, ch2, g1, g2, g3⟩ := ih (fun e' he => hk e' (List.mem_cons_of_mem _ he))
      (fun c k p v he => hc c k p v (List.mem_cons_of_mem _ he)) ps1 ch1
    refine ⟨ps2, ch2, ?_, ?_, ?_⟩
    · unfold parseEntries; rw [h1]; exact g1
    · intro k; rw [g2, h2]; simp
    · intro k; rw [g3, h3]; simp

/-! ### Entries are told apart by names -/

theorem flatMap_single {α β : Type} {l : List α} {f : α → List β} {a : α} (hn : l.Nodup) (ha : a ∈ l)
    (h : ∀ b ∈ l, b ≠ a → f b = []) : l.flatMap f = f a := by
  induction l with
  | nil => cases ha
  | cons b l ih =>
    rw [List.nodup_cons] at hn
    rw [List.flatMap_cons]
    rcases List.mem_cons.1 ha with rfl | ha'
    · have : l.flatMap f = [] := by
        rw [List.flatMap_eq_nil_iff]
        intro x hx
        exact h x (List.mem_cons_of_mem _ hx) fun e => hn.1 (e ▸ hx)
      rw [this, List.append_nil]
    · rw [h b List.mem_cons_self fun e => hn.1 (e ▸ ha'), List.nil_append]
      exact ih hn.2 ha' fun x hx => h x (List.mem_cons_of_mem _ hx)

theorem mem_sharedNames {cfg : List Entry} {n : Str} :
    n ∈ Spec.sharedNames cfg ↔ ∃ vs, Entry.shared n vs ∈ cfg := by
  induction cfg with
  | nil => simp [Spec.sharedNames]
  | cons e cfg ih =>
    cases e with
    | shared m vs =>
      simp only [Spec.sharedNames, List.mem_cons, ih, Entry.shared.injEq]
      constructor
      · rintro (rfl | ⟨vs', h⟩)
        · exact ⟨vs, Or.inl ⟨rfl, rfl⟩⟩
        · exact ⟨vs', Or.inr h⟩
      · rintro ⟨vs', ⟨rfl, _⟩ | h⟩
        · exact Or.inl rfl
        · exact Or.inr ⟨vs', h⟩
    | algorithm c k ps => simp [Spec.sharedNames, ih]
    | unknown k => simp [Spec.sharedNames, ih]

theorem mem_classNames {cfg : List Entry} {c : Cls} {k : Str} {ps : List (Str × ParamVal)}
    (h : Entry.algorithm c k ps ∈ cfg) : c.name ∈ Spec.classNames cfg := by
  induction cfg with
  | nil => cases h
  | cons e cfg ih =>
    rcases List.mem_cons.1 h with rfl | h'
    · exact List.mem_cons_self
    · cases e with
      | shared m vs => exact ih h'
      | algorithm c k ps => exact List.mem_cons_of_mem _ (ih h')
      | unknown k => exact ih h'

theorem shared_unique {cfg : List Entry} (hn : (Spec.sharedNames cfg).Nodup) {n : Str}
    {vs ws : List Value} (h1 : Entry.shared n vs ∈ cfg) (h2 : Entry.shared n ws ∈ cfg) : vs = ws := by
  induction cfg with
  | nil => cases h1
  | cons e cfg ih =>
    cases e with
    | shared m us =>
      simp only [Spec.sharedNames, List.nodup_cons] at hn
      rcases List.mem_cons.1 h1 with e1 | h1' <;> rcases List.mem_cons.1 h2 with e2 | h2'
      · cases e1; cases e2; rfl
      · cases e1; exact absurd (mem_sharedNames.2 ⟨_, h2'⟩) hn.1
      · cases e2; exact absurd (mem_sharedNames.2 ⟨_, h1'⟩) hn.1
      · exact ih hn.2 h1' h2'
    | algorithm c k ps =>
      exact ih hn ((List.mem_cons.1 h1).resolve_left nofun) ((List.mem_cons.1 h2).resolve_left nofun)
    | unknown k =>
      exact ih hn ((List.mem_cons.1 h1).resolve_left nofun) ((List.mem_cons.1 h2).resolve_left nofun)

theorem class_unique {cfg : List Entry} (hn : (Spec.classNames cfg).Nodup) {c d : Cls} {k l : Str}
    {ps qs : List (Str × ParamVal)} (h1 : Entry.algorithm c k ps ∈ cfg)
    (h2 : Entry.algorithm d l qs ∈ cfg) (he : c.name = d.name) :
    Entry.algorithm c k ps = Entry.algorithm d l qs := by
  induction cfg with
  | nil => cases h1
  | cons e cfg ih =>
    cases e with
    | algorithm b j us =>
      simp only [Spec.classNames, List.nodup_cons] at hn
      rcases List.mem_cons.1 h1 with e1 | h1' <;> rcases List.mem_cons.1 h2 with e2 | h2'
      · rw [e1, e2]
      · cases e1; exact absurd (he ▸ mem_classNames h2') hn.1
      · cases e2; exact absurd (he ▸ mem_classNames h1') hn.1
      · exact ih hn.2 h1' h2'
    | shared m vs =>
      exact ih hn ((List.mem_cons.1 h1).resolve_left nofun) ((List.mem_cons.1 h2).resolve_left nofun)
    | unknown k =>
      exact ih hn ((List.mem_cons.1 h1).resolve_left nofun) ((List.mem_cons.1 h2).resolve_left nofun)

theorem entries_nodup {cfg : List Entry} (h1 : (Spec.sharedNames cfg).Nodup)
    (h2 : (Spec.classNames cfg).Nodup) (hk : ∀ e ∈ cfg, Spec.Known e) : cfg.Nodup := by
  induction cfg with
  | nil => exact List.nodup_nil
  | cons e cfg ih =>
    have hk' : ∀ e ∈ cfg, Spec.Known e := fun e' he => hk e' (List.mem_cons_of_mem _ he)
    cases e with
    | shared m us =>
      simp only [Spec.sharedNames, List.nodup_cons] at h1
      exact List.nodup_cons.2 ⟨fun h => h1.1 (mem_sharedNames.2 ⟨_, h⟩), ih h1.2 h2 hk'⟩
    | algorithm b j us =>
      simp only [Spec.classNames, List.nodup_cons] at h2
      exact List.nodup_cons.2 ⟨fun h => h2.1 (mem_classNames h), ih h1 h2.2 hk'⟩
    | unknown k => exact (hk _ List.mem_cons_self).elim

/-- A name with a dot is split at the first one. -/
theorem dot_inj {a b n m : Str} (ha : '.' ∉ a) (hb : '.' ∉ b) (h : a ++ '.' :: n = b ++ '.' :: m) :
    a = b ∧ n = m := by
  induction a generalizing b with
  | nil =>
    cases b with
    | nil => cases h; exact ⟨rfl, rfl⟩
    | cons y b =>
      rw [List.nil_append, List.cons_append] at h
      cases h
      exact absurd List.mem_cons_self hb
  | cons x a ih =>
    cases b with
    | nil =>
      rw [List.nil_append, List.cons_append] at h
      cases h
      exact absurd List.mem_cons_self ha
    | cons y b =>
      rw [List.cons_append, List.cons_append] at h
      injection h with h1 h2
      obtain ⟨e1, e2⟩ := ih (fun h => ha (List.mem_cons_of_mem _ h))
        (fun h => hb (List.mem_cons_of_mem _ h)) h2
      exact ⟨by rw [h1, e1], e2⟩

theorem dot_mem (a n : Str) : '.' ∈ a ++ '.' :: n :=
  List.mem_append_right _ List.mem_cons_self

theorem hpName_eq (c : Cls) (n : Str) : hpName c n = Spec.ownName c n := rfl

/-- What is found in the primitive set, for any entry order. -/
theorem parsed {cfg : List Entry} (ok : Spec.ConfigOk cfg) (hk : ∀ e ∈ cfg, Spec.Known e) :
    ∃ (ps : PSet) (checks : List (Str × Value)) (es : List Entry), psetFromConfig cfg = .ok (ps, checks) ∧ es.Nodup ∧ (∀ e, e ∈ es ↔ e ∈ cfg) ∧
      (∀ k, ps.terms k = es.flatMap (entryTerms k)) ∧ ∀ k, ps.prims k = es.flatMap (entryPrims k) := by
  have hmem : ∀ e, e ∈ (pySorted (fun a b : Entry => strLe a.keyKind b.keyKind) cfg).reverse ↔ e ∈ cfg :=
    fun e => by rw [List.mem_reverse, (pySorted_perm _ cfg).mem_iff]
  obtain ⟨ps, ch, h1, h2, h3⟩ := parseEntries_ok
    (pySorted (fun a b : Entry => strLe a.keyKind b.keyKind) cfg).reverse
    (fun e he => hk e ((hmem e).1 he)) (fun c k p v he => ok.check c k p v ((hmem _).1 he)) emptyPSet []
  refine ⟨ps, ch, _, h1, ?_, hmem, ?_, ?_⟩
  · rw [List.nodup_reverse]
    exact (pySorted_perm _ cfg).nodup_iff.2 (entries_nodup ok.shared ok.classes hk)
  · intro k; rw [h2]; rfl
  · intro k; rw [h3]; rfl

theorem sortedParams_nodup {l : List (Str × ParamVal)} (h : (l.map Prod.fst).Nodup) :
    (sortedParams l).Nodup :=
  (pySorted_perm _ l).nodup_iff.2 (List.Nodup.of_map _ h)

theorem param_unique {l : List (Str × ParamVal)} (h : (l.map Prod.fst).Nodup) {p q : Str × ParamVal}
    (hp : p ∈ l) (hq : q ∈ l) (e : p.1 = q.1) : p = q := List.inj_on_of_nodup_map h hp hq e

theorem mem_ownInput {c : Cls} {p : Str × ParamVal} {i : Str} : i ∈ ownInput c p ↔
    (p.2 = .list [] ∧ i = p.1) ∨ (p.2 ≠ .list [] ∧ p.1 ≠ paramCheck ∧ i = Spec.ownName c p.1) := by
  unfold ownInput
  by_cases h1 : p.2 = .list []
  · simp [h1]
  · by_cases h2 : p.1 = paramCheck
    · simp [h1, h2]
    · simp [h1, h2, hpName_eq]

/-- The full claim C61, without asking that algorithms have different names. -/
def C61_claim : Prop :=
  ∀ cfg : List Entry, cfg.Nodup → (Spec.sharedNames cfg).Nodup → (∀ e ∈ cfg, Spec.Known e) →
    (∀ c k ps, .algorithm c k ps ∈ cfg → (ps.map Prod.fst).Nodup ∧ paramCheck ∉ ps.map Prod.fst) →
    ∃ ps checks, psetFromConfig cfg = .ok (ps, checks) ∧
      ∀ c kind params n v, .algorithm c kind params ∈ cfg → (n, v) ∈ params → v ≠ .list [] →
        (ps.terms (Spec.ownName c n)).map Terminal.value = v.values

/-- C61 for configurations in which algorithms have different names. -/
theorem C61_partial (cfg : List Entry) (ok : Spec.ConfigOk cfg) (hk : ∀ e ∈ cfg, Spec.Known e) :
    ∃ ps checks, psetFromConfig cfg = .ok (ps, checks) ∧
      (∀ c kind params, .algorithm c kind params ∈ cfg →
        (∃ input, (ps.prims (Spec.stepKind c)).filter (fun p => decide (p.ident = c)) =
            [⟨input, Spec.stepKind c, c⟩] ∧ input.Nodup ∧
          ∀ i, i ∈ input ↔ ∃ n v, (n, v) ∈ params ∧ ((v = .list [] ∧ i = n) ∨
            (v ≠ .list [] ∧ n ≠ paramCheck ∧ i = Spec.ownName c n))) ∧
        (∀ k p, k ≠ Spec.stepKind c → p ∈ ps.prims k → p.ident ≠ c) ∧
        (∀ n v, (n, v) ∈ params → v ≠ .list [] → n ≠ paramCheck →
          ps.terms (Spec.ownName c n) = v.values.map fun a => ⟨a, n, Spec.ownName c n⟩)) ∧
      (∀ n vs, .shared n vs ∈ cfg → ps.terms n = vs.map fun a => ⟨a, n, n⟩) ∧
      (∀ k p, p ∈ ps.prims k → p.output = k ∧ ∃ kind params, .algorithm p.ident kind params ∈ cfg) ∧
      (∀ k t, t ∈ ps.terms k → (∃ vs, .shared k vs ∈ cfg) ∨
        ∃ c kind params n v, .algorithm c kind params ∈ cfg ∧ (n, v) ∈ params ∧ v ≠ .list [] ∧
          n ≠ paramCheck ∧ k = Spec.ownName c n) := by
  obtain ⟨ps, ch, es, h0, hnd, hmem, ht, hp⟩ := parsed ok hk
  have hprim : ∀ k p, p ∈ ps.prims k → ∃ kind params, .algorithm p.ident kind params ∈ cfg ∧
      k = Spec.stepKind p.ident ∧
      p = ⟨(sortedParams params).flatMap (ownInput p.ident), Spec.stepKind p.ident, p.ident⟩ := by
    intro k p h
    rw [hp] at h
    obtain ⟨e, he, hin⟩ := List.mem_flatMap.1 h
    cases e with
    | shared n vs => cases hin
    | unknown kd => cases hin
    | algorithm c kd params =>
      unfold entryPrims at hin
      dsimp only at hin
      by_cases hks : k = Spec.stepKind c
      · rw [if_pos hks] at hin
        cases List.mem_singleton.1 hin
        exact ⟨kd, params, (hmem _).1 he, hks, rfl⟩
      · rw [if_neg hks] at hin; cases hin
  refine ⟨ps, ch, h0, ?_, ?_, ?_, ?_⟩
  · intro c kind params hc
    refine ⟨⟨(sortedParams params).flatMap (ownInput c), ?_, ?_, ?_⟩, ?_, ?_⟩
    · have : (ps.prims (Spec.stepKind c)).filter (fun p => decide (p.ident = c)) =
          es.flatMap fun e => (entryPrims (Spec.stepKind c) e).filter fun p => decide (p.ident = c) := by
        rw [hp, List.filter_flatMap]
      rw [this, flatMap_single hnd ((hmem _).2 hc)]
      · simp [entryPrims]
      · intro e he hne
        rw [List.filter_eq_nil_iff]
        intro p hpe hd
        have hid : p.ident = c := of_decide_eq_true hd
        cases e with
        | shared n vs => cases hpe
        | unknown kd => cases hpe
        | algorithm d kd qs =>
          unfold entryPrims at hpe
          dsimp only at hpe
          split at hpe
          · cases List.mem_singleton.1 hpe
            exact hne (class_unique ok.classes ((hmem _).1 he) hc (by rw [← hid]))
          · cases hpe
    · have hnds := sortedParams_nodup (ok.params c kind params hc)
      have hfst : ∀ p ∈ sortedParams params, p ∈ params := fun p h => mem_sortedParams.1 h
      have hdot : ∀ p ∈ params, '.' ∉ p.1 := fun p h => ok.paramDot c kind params p.1 p.2 hc h
      rw [List.nodup_flatMap]
      constructor
      · intro p _
        unfold ownInput
        split
        · exact List.nodup_singleton _
        · split
          · exact List.nodup_nil
          · exact List.nodup_singleton _
      · refine hnds.imp_of_mem ?_
        intro p q hp' hq' hpq i hi1 hi2
        rw [mem_ownInput] at hi1 hi2
        have ne : p.1 ≠ q.1 := fun e =>
          hpq (param_unique (ok.params c kind params hc) (hfst p hp') (hfst q hq') e)
        rcases hi1 with ⟨_, e1⟩ | ⟨_, _, e1⟩ <;> rcases hi2 with ⟨_, e2⟩ | ⟨_, _, e2⟩
        · exact ne (e1.symm.trans e2)
        · refine hdot p (hfst p hp') ?_
          rw [← e1, e2]
          exact dot_mem _ _
        · refine hdot q (hfst q hq') ?_
          rw [← e2, e1]
          exact dot_mem _ _
        · have := e1.symm.trans e2
          unfold Spec.ownName at this
          exact ne (List.cons.inj (List.append_cancel_left this)).2
    · intro i
      rw [List.mem_flatMap]
      constructor
      · rintro ⟨p, hpm, hi⟩
        exact ⟨p.1, p.2, mem_sortedParams.1 hpm, mem_ownInput.1 hi⟩
      · rintro ⟨n, v, hm, hi⟩
        exact ⟨(n, v), mem_sortedParams.2 hm, mem_ownInput.2 hi⟩
    · intro k p hne hin hid
      obtain ⟨_, _, _, hks, _⟩ := hprim k p hin
      rw [hid] at hks
      exact hne hks
    · intro n v hnv hv hn
      have hcd := ok.classDot _ (mem_classNames hc)
      rw [ht, flatMap_single hnd ((hmem _).2 hc)]
      · unfold entryTerms
        dsimp only
        rw [flatMap_single (a := (n, v)) (sortedParams_nodup (ok.params c kind params hc))
          (mem_sortedParams.2 hnv)]
        · unfold ownTerms
          rw [if_pos ⟨hv, hn, (hpName_eq c n).symm⟩]
          rfl
        · intro q hq hne
          unfold ownTerms
          rw [if_neg]
          rintro ⟨_, _, e⟩
          rw [hpName_eq] at e
          unfold Spec.ownName at e
          refine hne (param_unique (ok.params c kind params hc) (mem_sortedParams.1 hq) hnv ?_)
          exact (List.cons.inj (List.append_cancel_left e)).2.symm
      · intro e he hne
        cases e with
        | shared m vs =>
          unfold entryTerms
          dsimp only
          rw [if_neg]
          rintro rfl
          exact ok.sharedDot _ (mem_sharedNames.2 ⟨vs, (hmem _).1 he⟩) (dot_mem _ _)
        | unknown kd => rfl
        | algorithm d kd qs =>
          unfold entryTerms
          dsimp only
          rw [List.flatMap_eq_nil_iff]
          intro q _
          unfold ownTerms
          rw [if_neg]
          rintro ⟨_, _, e⟩
          have hdd := ok.classDot _ (mem_classNames ((hmem _).1 he))
          obtain ⟨e1, _⟩ := dot_inj hcd hdd e
          exact hne (class_unique ok.classes ((hmem _).1 he) hc e1.symm)
  · intro n vs hs
    have hsd := ok.sharedDot n (mem_sharedNames.2 ⟨vs, hs⟩)
    rw [ht, flatMap_single hnd ((hmem _).2 hs)]
    · simp [entryTerms]
    · intro e he hne
      cases e with
      | shared m ws =>
        unfold entryTerms
        dsimp only
        rw [if_neg]
        rintro rfl
        exact hne (by rw [shared_unique ok.shared ((hmem _).1 he) hs])
      | unknown kd => rfl
      | algorithm d kd qs =>
        unfold entryTerms
        dsimp only
        rw [List.flatMap_eq_nil_iff]
        intro q _
        unfold ownTerms
        rw [if_neg]
        rintro ⟨_, _, e⟩
        rw [e] at hsd
        exact hsd (dot_mem _ _)
  · intro k p h
    obtain ⟨kd, params, h1, h2, h3⟩ := hprim k p h
    exact ⟨by rw [h3, h2], kd, params, h1⟩
  · intro k t h
    rw [ht] at h
    obtain ⟨e, he, hin⟩ := List.mem_flatMap.1 h
    cases e with
    | shared n vs =>
      left
      unfold entryTerms at hin
      dsimp only at hin
      by_cases hkn : k = n
      · subst hkn
        exact ⟨vs, (hmem _).1 he⟩
      · rw [if_neg hkn] at hin; cases hin
    | unknown kd => cases hin
    | algorithm c kd params =>
      right
      unfold entryTerms at hin
      dsimp only at hin
      obtain ⟨q, hq, hin'⟩ := List.mem_flatMap.1 hin
      unfold ownTerms at hin'
      by_cases hcnd : q.2 ≠ .list [] ∧ q.1 ≠ paramCheck ∧ k = hpName c q.1
      · exact ⟨c, kd, params, q.1, q.2, (hmem _).1 he, mem_sortedParams.1 hq, hcnd.1, hcnd.2.1, hcnd.2.2⟩
      · rw [if_neg hcnd] at hin'; cases hin'

/-- A scaler and a classifier with a value of its own and a shared one. -/
def sampleConfig : List Entry :=
  [.shared ['a'] [.atom 1 ['1']],
   .algorithm { uid := 0, name := ['S'], transformer := true } ['t'] [],
   .algorithm { uid := 1, name := ['C'], classifier := true } ['t']
     [(['b'], .list [.atom 1 ['1'], .atom 2 ['2']]), (['a'], .list [])]]

theorem sampleConfig_ok : Spec.ConfigOk sampleConfig := by
  refine ⟨by decide, by decide, ?_, by decide, by decide, ?_, ?_⟩
  · intro c k ps h
    simp [sampleConfig] at h
    rcases h with ⟨_, _, rfl⟩ | ⟨_, _, rfl⟩ <;> decide
  · intro c k ps n v h hm
    simp [sampleConfig] at h
    rcases h with ⟨_, _, rfl⟩ | ⟨_, _, rfl⟩
    · cases hm
    · simp at hm
      rcases hm with ⟨rfl, _⟩ | ⟨rfl, _⟩ <;> decide
  · intro c k ps v h hm
    simp [sampleConfig] at h
    rcases h with ⟨_, _, rfl⟩ | ⟨_, _, rfl⟩
    · cases hm
    · simp [paramCheck] at hm

example : ∃ ps checks, psetFromConfig sampleConfig = .ok (ps, checks) :=
  let ⟨ps, ch, h, _⟩ := C61_partial _ sampleConfig_ok (by
    intro e he
    simp [sampleConfig] at he
    rcases he with rfl | rfl | rfl <;> simp [Spec.Known])
  ⟨ps, ch, h⟩

/-- Two algorithms of the same name share the values of their hyperparameters. -/
theorem C61_false : ¬ C61_claim := by
  intro h
  obtain ⟨ps, ch, h1, h2⟩ := h
    [.algorithm { uid := 0, name := ['C'], classifier := true } ['t'] [(['a'], .list [.atom 1 ['1']])],
     .algorithm { uid := 1, name := ['C'], classifier := true } ['t'] [(['a'], .list [.atom 2 ['2']])]]
    (by decide) (by decide) (by
      intro e he
      simp at he
      rcases he with rfl | rfl <;> simp [Spec.Known]) (by
      intro c k ps he
      simp at he
      rcases he with ⟨_, _, rfl⟩ | ⟨_, _, rfl⟩ <;> decide)
  have h3 := h2 { uid := 0, name := ['C'], classifier := true } ['t'] [(['a'], .list [.atom 1 ['1']])]
    ['a'] (.list [.atom 1 ['1']]) List.mem_cons_self List.mem_cons_self (by decide)
  cases h1
  revert h3
  decide +kernel

/-- C61: an unknown key, or an algorithm that neither transforms nor predicts, is refused. -/
theorem C61_refused (cfg : List Entry) (e : Entry) (he : e ∈ cfg) (hb : ¬ Spec.Known e)
    (hc : ∀ c k ps v, .algorithm c k ps ∈ cfg → (paramCheck, v) ∈ ps → v ≠ .seq []) :
    psetFromConfig cfg = .error .typeError := by
  have key : ∀ (es : List Entry), (∀ x ∈ es, x ∈ cfg) → e ∈ es → ∀ ps checks,
      parseEntries es ps checks = .error .typeError := by
    intro es
    induction es with
    | nil => intro _ h; cases h
    | cons x es ih =>
      intro hs hm ps checks
      by_cases hx : Spec.Known x
      · obtain ⟨ps1, ch1, h1, _⟩ := parseEntry_ok hx
          (fun c k p v hh => hc c k p v (hh ▸ hs x List.mem_cons_self)) ps checks
        unfold parseEntries
        rw [h1]
        refine ih (fun y hy => hs y (List.mem_cons_of_mem _ hy)) ?_ ps1 ch1
        rcases List.mem_cons.1 hm with rfl | hm
        · exact absurd hx hb
        · exact hm
      · have : parseEntry x ps checks = .error .typeError := by
          cases x with
          | shared n vs => exact absurd trivial hx
          | unknown k => rfl
          | algorithm c k params =>
            obtain ⟨ps', ch, h1, _⟩ := parseParams_ok c (sortedParams params) [] ps checks
              (fun v h => hc c k params v (hs _ List.mem_cons_self) (mem_sortedParams.1 h))
            unfold Spec.Known at hx
            simp only [not_or, Bool.not_eq_true] at hx
            unfold parseEntry
            dsimp only
            rw [show pySorted (fun a b => strLe a.1 b.1) params = sortedParams params from rfl, h1]
            simp [hx]
        unfold parseEntries
        rw [this]
  refine key _ ?_ ?_ _ _
  · intro x hx
    rw [List.mem_reverse, (pySorted_perm _ cfg).mem_iff] at hx
    exact hx
  · rw [List.mem_reverse, (pySorted_perm _ cfg).mem_iff]
    exact he

/-- The primitive set of a configuration is one pipelines can be built from: what C02 and the
following ask of it. -/
theorem C61_usable (cfg : List Entry) (ok : Spec.ConfigOk cfg) (hk : ∀ e ∈ cfg, Spec.Known e)
    (hshared : ∀ c k ps n, .algorithm c k ps ∈ cfg → (n, .list []) ∈ ps →
      ∃ vs, vs ≠ [] ∧ .shared n vs ∈ cfg)
    (hseq : ∀ c k ps n, .algorithm c k ps ∈ cfg → (n, .seq []) ∉ ps)
    (heq : ∀ c k ps n v, .algorithm c k ps ∈ cfg → (n, v) ∈ ps → '=' ∉ n)
    (heq' : ∀ n vs, .shared n vs ∈ cfg → '=' ∉ n) :
    ∃ ps checks, psetFromConfig cfg = .ok (ps, checks) ∧ Spec.PSetOk ps := by
  obtain ⟨ps, ch, h0, halg, hsh, hpr, htm⟩ := C61_partial cfg ok hk
  refine ⟨ps, ch, h0, ?_⟩
  -- the inputs of a primitive
  have inputs : ∀ k p i, p ∈ ps.prims k → i ∈ p.input → ∃ kind params n v,
      .algorithm p.ident kind params ∈ cfg ∧ (n, v) ∈ params ∧
      ((v = .list [] ∧ i = n) ∨ (v ≠ .list [] ∧ n ≠ paramCheck ∧ i = Spec.ownName p.ident n)) := by
    intro k p i hp hi
    obtain ⟨hout, kind, params, hc⟩ := hpr k p hp
    obtain ⟨⟨input, hf, _, hin⟩, hother, _⟩ := halg _ _ _ hc
    have hks : k = Spec.stepKind p.ident := by
      by_contra hne
      exact hother k p hne hp rfl
    have : p ∈ (ps.prims (Spec.stepKind p.ident)).filter (fun q => decide (q.ident = p.ident)) :=
      List.mem_filter.2 ⟨hks ▸ hp, decide_eq_true rfl⟩
    rw [hf] at this
    have hpi : p.input = input := congrArg Primitive.input (List.mem_singleton.1 this)
    rw [hpi] at hi
    obtain ⟨n, v, h1, h2⟩ := (hin i).1 hi
    exact ⟨kind, params, n, v, hc, h1, h2⟩
  -- the values under an input
  have vals : ∀ c kind params n v, .algorithm c kind params ∈ cfg → (n, v) ∈ params → ∀ i,
      ((v = .list [] ∧ i = n) ∨ (v ≠ .list [] ∧ n ≠ paramCheck ∧ i = Spec.ownName c n)) →
      ps.terms i ≠ [] ∧ ∀ t ∈ ps.terms i, t.output = n := by
    rintro c kind params n v hc hnv i (⟨rfl, rfl⟩ | ⟨hv, hn, rfl⟩)
    · obtain ⟨vs, hvs, hs⟩ := hshared c kind params i hc hnv
      rw [hsh i vs hs]
      refine ⟨by simpa using hvs, ?_⟩
      intro t h
      obtain ⟨a, _, rfl⟩ := List.mem_map.1 h
      rfl
    · rw [(halg c kind params hc).2.2 n v hnv hv hn]
      refine ⟨?_, ?_⟩
      · intro h
        rw [List.map_eq_nil_iff] at h
        cases v with
        | list vs => exact hv (by simpa [ParamVal.values] using h)
        | seq vs =>
          have : vs = [] := by simpa [ParamVal.values] using h
          subst this
          exact hseq c kind params n hc hnv
      · intro t h
        obtain ⟨a, _, rfl⟩ := List.mem_map.1 h
        rfl
  have termsAt : ∀ k t, t ∈ ps.terms k → t.ident = k ∧ '=' ∉ t.output ∧
      ∀ t' ∈ ps.terms k, t'.output = t.output := by
    intro k t h
    rcases htm k t h with ⟨vs, hs⟩ | ⟨c, kd, params, n, v, hc, hnv, hv, hn, rfl⟩
    · rw [hsh k vs hs] at h ⊢
      obtain ⟨a, _, rfl⟩ := List.mem_map.1 h
      refine ⟨rfl, heq' _ _ hs, ?_⟩
      intro t' h'
      obtain ⟨a', _, rfl⟩ := List.mem_map.1 h'
      rfl
    · rw [(halg c kd params hc).2.2 n v hnv hv hn] at h ⊢
      obtain ⟨a, _, rfl⟩ := List.mem_map.1 h
      refine ⟨rfl, heq _ _ _ _ _ hc hnv, ?_⟩
      intro t' h'
      obtain ⟨a', _, rfl⟩ := List.mem_map.1 h'
      rfl
  refine ⟨?_, ?_, ?_, ?_, ?_, ?_, ?_⟩
  · intro k p hp; exact (hpr k p hp).1
  · intro k t h; exact (termsAt k t h).1
  · intro k p i hp hi
    obtain ⟨kd, params, n, v, hc, hnv, hi'⟩ := inputs k p i hp hi
    exact (vals _ _ _ _ _ hc hnv i hi').1
  · intro k p hp
    obtain ⟨hout, kind, params, hc⟩ := hpr k p hp
    obtain ⟨⟨input, hf, hnd, _⟩, hother, _⟩ := halg _ _ _ hc
    have hks : k = Spec.stepKind p.ident := by
      by_contra hne
      exact hother k p hne hp rfl
    have : p ∈ (ps.prims (Spec.stepKind p.ident)).filter (fun q => decide (q.ident = p.ident)) :=
      List.mem_filter.2 ⟨hks ▸ hp, decide_eq_true rfl⟩
    rw [hf] at this
    rw [congrArg Primitive.input (List.mem_singleton.1 this)]
    exact hnd
  · intro k t t' h h'
    exact ((termsAt k t h).2.2 t' h').symm
  · intro k p i j t t' hp hi hj hij ht ht'
    obtain ⟨kd, params, n, v, hc, hnv, hi'⟩ := inputs k p i hp hi
    obtain ⟨kd2, params2, n2, v2, hc2, hnv2, hj'⟩ := inputs k p j hp hj
    have hcc := class_unique ok.classes hc hc2 rfl
    injection hcc with _ _ e3
    subst e3
    rw [(vals _ _ _ _ _ hc hnv i hi').2 t ht, (vals _ _ _ _ _ hc hnv2 j hj').2 t' ht']
    intro e
    have hpq := param_unique (ok.params _ _ _ hc) hnv hnv2 e
    cases hpq
    rcases hi' with ⟨h1, rfl⟩ | ⟨h1, _, rfl⟩ <;> rcases hj' with ⟨h2, h3⟩ | ⟨h2, _, h3⟩
    · exact hij h3.symm
    · exact h2 h1
    · exact h1 h2
    · exact hij h3.symm
  · intro k t h; exact (termsAt k t h).2.1

/-! ### Cases of the theorems above -/

theorem sampleConfig_known : ∀ e ∈ sampleConfig, Spec.Known e := by
  intro e he
  simp [sampleConfig] at he
  rcases he with rfl | rfl | rfl <;> simp [Spec.Known]

/-- `C61_refused`: a class that is no estimator at all. -/
example : psetFromConfig (.algorithm { uid := 5, name := ['X'] } ['t'] [] :: sampleConfig) = .error .typeError :=
  C61_refused _ _ List.mem_cons_self (by simp [Spec.Known]) (by
    intro c k ps v h hv
    simp [sampleConfig] at h
    rcases h with ⟨-, -, rfl⟩ | ⟨-, -, rfl⟩ | ⟨-, -, rfl⟩
    · cases hv
    · cases hv
    · simp [paramCheck] at hv)

/-- `C61_usable`. -/
example : ∃ ps checks, psetFromConfig sampleConfig = .ok (ps, checks) ∧ Spec.PSetOk ps :=
  C61_usable sampleConfig sampleConfig_ok sampleConfig_known
    (by
      intro c k ps n h hn
      simp [sampleConfig] at h
      rcases h with ⟨-, -, rfl⟩ | ⟨-, -, rfl⟩
      · cases hn
      · simp at hn
        subst hn
        exact ⟨[.atom 1 ['1']], by simp, by simp [sampleConfig]⟩)
    (by
      intro c k ps n h hn
      simp [sampleConfig] at h
      rcases h with ⟨-, -, rfl⟩ | ⟨-, -, rfl⟩
      · cases hn
      · simp at hn)
    (by
      intro c k ps n v h hn
      simp [sampleConfig] at h
      rcases h with ⟨-, -, rfl⟩ | ⟨-, -, rfl⟩
      · cases hn
      · simp at hn
        rcases hn with ⟨rfl, -⟩ | ⟨rfl, -⟩ <;> decide)
    (by
      intro n vs h
      simp [sampleConfig] at h
      rw [h.1]
      decide)

end Gama
