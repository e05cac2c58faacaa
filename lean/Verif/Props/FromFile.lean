import Verif.Model.FromFile
import Verif.Props.Data
import Verif.Props.Operators
import Verif.Props.Space

/-! # Files as data (C109, C110, C111, C112), exclusions (C114) -/

namespace Gama

variable {B A V X P S : Type}

namespace Spec

/-- A file whose contents, read as its extension says, are the columns `pre`, then `name` with the
values `v`, then `post`; the names are different. -/
structure FileHolds (R : Readers B A V) (path : Str) (encoding : Option Str) (kwargs : Kwargs A) (bytes : B)
    (pre : Table V) (name : Str) (v : V) (post : Table V) : Prop where
  read : (∃ text base, path = base ++ ".arff".toList ∧ R.decode encoding bytes = .ok text ∧
      R.arff text kwargs = .ok (pre ++ (name, v) :: post)) ∨
    (∃ text base, path = base ++ ".csv".toList ∧ R.decode none bytes = .ok text ∧
      R.csv text kwargs = .ok (pre ++ (name, v) :: post))
  names : ((pre ++ (name, v) :: post).map Prod.fst).Nodup

/-- The column asked for: the one named, or the last one. -/
def Asked (target : Option Str) (name : Str) (post : Table V) : Prop :=
  target = some name ∨ (target = none ∧ post = [])

end Spec

open Spec PyM

theorem endsWith_append (base suffix : Str) : endsWith (base ++ suffix) suffix = true := by
  simp [endsWith]

theorem fileReader_arff (base : Str) : fileReader (base ++ ".arff".toList) = .ok true := by
  have : endsWith (base ++ ".arff".toList) ['.', 'a', 'r', 'f', 'f'] = true :=
    endsWith_append base ['.', 'a', 'r', 'f', 'f']
  unfold fileReader
  rw [if_pos this]

theorem fileReader_csv (base : Str) : fileReader (base ++ ".csv".toList) = .ok false := by
  have h1 : endsWith (base ++ ".csv".toList) ['.', 'c', 's', 'v'] = true :=
    endsWith_append base ['.', 'c', 's', 'v']
  have h2 : endsWith (base ++ ".csv".toList) ['.', 'a', 'r', 'f', 'f'] ≠ true := by
    intro h
    obtain ⟨b, hb⟩ := List.isSuffixOf_iff_suffix.1 h
    have e : (".csv".toList : Str) = ['.', 'c', 's', 'v'] := by decide +kernel
    rw [e] at hb
    have := congrArg List.getLast? hb
    simp at this
  unfold fileReader
  rw [if_neg h2, if_pos h1]

theorem splitTable_asked {pre : Table V} {name : Str} {v : V} {post : Table V} {target : Option Str}
    (hn : ((pre ++ (name, v) :: post).map Prod.fst).Nodup) (ha : Asked target name post) :
    splitTable (pre ++ (name, v) :: post) target = .ok (pre ++ post, v) := by
  rcases ha with rfl | ⟨rfl, rfl⟩
  · exact C55_named pre post name v hn
  · simp [splitTable]

theorem xy_of_holds {R : Readers B A V} {path : Str} {encoding target : Option Str} {kwargs : Kwargs A}
    {bytes : B} {pre : Table V} {name : Str} {v : V} {post : Table V}
    (h : FileHolds R path encoding kwargs bytes pre name v post) (ha : Asked target name post) :
    xyFromFile R path target encoding kwargs bytes = .ok (pre ++ post, v) := by
  have : fileToPandas R path encoding kwargs bytes = .ok (pre ++ (name, v) :: post) := by
    rcases h.read with ⟨text, base, rfl, h1, h2⟩ | ⟨text, base, rfl, h1, h2⟩
    · unfold fileToPandas
      rw [fileReader_arff]
      dsimp only
      rw [h1]
      exact h2
    · unfold fileToPandas
      rw [fileReader_csv]
      dsimp only
      rw [h1]
      exact h2
  unfold xyFromFile
  rw [this]
  exact splitTable_asked h.names ha

/-! ## C109: files instead of data frames -/

/-- **C109** For a file that holds a table, wherever the target column is in it: predicting,
predicting probabilities, scoring and fitting from the file do what the functions for data frames do
with the other columns in their order and the target column. -/
theorem C109_files {F W : Type} (R : Readers B A V) (g : Fitted V X P S)
    (fit : Table V → V → W → Except Exn F) (path : Str) (encoding target : Option Str)
    (kwargs : Kwargs A) (bytes : B) (pre : Table V) (name : Str) (v : V) (post : Table V) (warm : W)
    (h : FileHolds R path encoding kwargs bytes pre name v post) (ha : Asked target name post) :
    predictFromFile R g path target encoding kwargs bytes = predictFrame g (pre ++ post) ∧
    scoreFromFile R g path target encoding kwargs bytes = scoreFrame g (pre ++ post) v ∧
    fitFromFile R fit path target encoding warm kwargs bytes = fit (pre ++ post) v warm ∧
    (kwargs = [] → probaFromFile R g path target encoding bytes = probaFrame g (pre ++ post)) := by
  have e := xy_of_holds h ha
  refine ⟨?_, ?_, ?_, ?_⟩
  · simp only [predictFromFile, e, predictFrame]
  · simp only [scoreFromFile, e]
  · simp only [fitFromFile, e]
  · intro hk
    subst hk
    simp only [probaFromFile, e, probaFrame]

/-- **C109** What scoring is: the metric applied to the target values and to the class
probabilities if the metric is about probabilities, to the predictions otherwise.  A failure to
prepare the data or to predict is passed on. -/
theorem C109_scores (g : Fitted V X P S) (t : Table V) (y : V) :
    (∀ e, g.prepare t = .error e → scoreFrame g t y = .error e) ∧
    (∀ x p, g.prepare t = .ok x → g.needsProba = true → g.proba x = .ok p →
      scoreFrame g t y = g.score y p) ∧
    (∀ x p, g.prepare t = .ok x → g.needsProba = false → g.predict x = .ok p →
      scoreFrame g t y = g.score y p) ∧
    (∀ x e, g.prepare t = .ok x →
      (if g.needsProba = true then g.proba x else g.predict x) = .error e →
      scoreFrame g t y = .error e) := by
  unfold scoreFrame probaFrame predictFrame
  refine ⟨?_, ?_, ?_, ?_⟩
  · intro e h
    rw [h]
    simp
  · intro x p h hp hx
    simp [h, hp, hx]
  · intro x p h hp hx
    simp [h, hp, hx]
  · intro x e h hx
    rw [h]
    cases hp : g.needsProba <;> simp_all

/-- **C109** The values of the target column play no part in predictions: two files that differ only
in them give the same. -/
theorem C109_target_ignored (R : Readers B A V) (g : Fitted V X P S) (path path' : Str)
    (encoding encoding' target : Option Str) (kwargs kwargs' : Kwargs A) (bytes bytes' : B)
    (pre : Table V) (name : Str) (v v' : V) (post : Table V)
    (h : FileHolds R path encoding kwargs bytes pre name v post)
    (h' : FileHolds R path' encoding' kwargs' bytes' pre name v' post) (ha : Asked target name post) :
    predictFromFile R g path target encoding kwargs bytes =
      predictFromFile R g path' target encoding' kwargs' bytes' := by
  rw [(C109_files R g (fun _ _ (_ : Unit) => .ok ()) path encoding target kwargs bytes pre name v post
      () h ha).1,
    (C109_files R g (fun _ _ (_ : Unit) => .ok ()) path' encoding' target kwargs' bytes' pre name v'
      post () h' ha).1]

/-- **C109** A file that cannot be read, or of a kind that is not supported, or without the column
asked for: all four functions fail in the same way and neither predict nor fit. -/
theorem C109_failures {F W : Type} (R : Readers B A V) (g : Fitted V X P S)
    (fit : Table V → V → W → Except Exn F) (path : Str) (encoding target : Option Str)
    (kwargs : Kwargs A) (bytes : B) (warm : W)
    (h : (¬ (∃ base, path = base ++ ".arff".toList) ∧ ¬ (∃ base, path = base ++ ".csv".toList)) ∨
      (∃ t name, fileToPandas R path encoding kwargs bytes = .ok t ∧ target = some name ∧
        name ∉ t.map Prod.fst)) :
    predictFromFile R g path target encoding kwargs bytes = .error .valueError ∧
    scoreFromFile R g path target encoding kwargs bytes = .error .valueError ∧
    fitFromFile R fit path target encoding warm kwargs bytes = .error .valueError ∧
    (kwargs = [] → probaFromFile R g path target encoding bytes = .error .valueError) := by
  have e : xyFromFile R path target encoding kwargs bytes = .error .valueError := by
    rcases h with ⟨h1, h2⟩ | ⟨t, name, h1, rfl, h2⟩
    · have hr : fileReader path = .error .valueError := by
        unfold fileReader
        rw [if_neg, if_neg]
        · intro h
          obtain ⟨b, hb⟩ := List.isSuffixOf_iff_suffix.1 h
          exact h2 ⟨b, by rw [← hb]; congr 1⟩
        · intro h
          obtain ⟨b, hb⟩ := List.isSuffixOf_iff_suffix.1 h
          exact h1 ⟨b, by rw [← hb]; congr 1⟩
      simp only [xyFromFile, fileToPandas, hr]
    · simp only [xyFromFile, h1]
      exact (C55_unknown t name).2 h2
  refine ⟨?_, ?_, ?_, ?_⟩
  · simp only [predictFromFile, e]
  · simp only [scoreFromFile, e]
  · simp only [fitFromFile, e]
  · intro hk
    subst hk
    simp only [probaFromFile, e]

/-! ## C110: the encoding -/

/-- Reading the file by its text under the encoding given. -/
def Spec.UsesEncoding (R : Readers B A V) (path : Str) (encoding : Option Str) (kwargs : Kwargs A) (bytes : B) :
    Prop :=
  ∃ parse : Str → Kwargs A → Except Exn (Table V), (parse = R.arff ∨ parse = R.csv) ∧
    fileToPandas R path encoding kwargs bytes =
      match R.decode encoding bytes with
      | .error e => .error e
      | .ok text => parse text kwargs

/-- **C110, the full claim**: files of both kinds are read in the encoding given. -/
def C110_claim : Prop :=
  ∀ (R : Readers (List Nat) Unit Str) (base : Str) (encoding : Option Str) (kwargs : Kwargs Unit)
    (bytes : List Nat), UsesEncoding R (base ++ ".arff".toList) encoding kwargs bytes ∧
      UsesEncoding R (base ++ ".csv".toList) encoding kwargs bytes

/-- **C110** fails for csv files: the encoding given is not used. -/
theorem C110_false : ¬ C110_claim := by
  intro h
  obtain ⟨parse, hp, e⟩ := (h ⟨fun c _ => .ok (c.getD ['d']), fun t _ => .ok [(['c'], t)],
    fun t _ => .ok [(['c'], t)]⟩ [] (some ['l']) [] []).2
  simp only [fileToPandas, fileReader_csv] at e
  rcases hp with rfl | rfl <;> (simp only at e; revert e; decide +kernel)

/-- **C110** where it holds: for arff files, and for files of either kind if no encoding is given or
the one given is the default for the bytes at hand. -/
theorem C110_partial (R : Readers B A V) (base : Str) (encoding : Option Str) (kwargs : Kwargs A) (bytes : B) :
    UsesEncoding R (base ++ ".arff".toList) encoding kwargs bytes ∧
    (R.decode encoding bytes = R.decode none bytes →
      UsesEncoding R (base ++ ".csv".toList) encoding kwargs bytes) ∧
    ∀ encoding', fileToPandas R (base ++ ".csv".toList) encoding kwargs bytes =
      fileToPandas R (base ++ ".csv".toList) encoding' kwargs bytes := by
  refine ⟨⟨R.arff, Or.inl rfl, ?_⟩, fun h => ⟨R.csv, Or.inr rfl, ?_⟩, fun e' => ?_⟩
  · simp only [fileToPandas, fileReader_arff]
    cases R.decode encoding bytes <;> rfl
  · simp only [fileToPandas, fileReader_csv, h]
    cases R.decode none bytes <;> rfl
  · simp only [fileToPandas, fileReader_csv]

/-- **C110**, otherwise: a csv file is read in the default encoding, whatever encoding is given. -/
theorem C110_otherwise (R : Readers B A V) (base : Str) (encoding : Option Str) (kwargs : Kwargs A) (bytes : B) :
    fileToPandas R (base ++ ".csv".toList) encoding kwargs bytes =
      match R.decode none bytes with
      | .error e => .error e
      | .ok text => R.csv text kwargs := by
  simp only [fileToPandas, fileReader_csv]
  cases R.decode none bytes <;> rfl

/-! ## C111: options for reading csv -/

/-- **C111** An option given is used as given; the separator and the header that are not given are
those detected, and other options are passed on unchanged.  If both are given nothing is detected, so
that a file whose format cannot be detected can be read; otherwise failing to detect is an error. -/
theorem C111_options {T : Type} (sniffed : Except Exn (T × T)) (kwargs : Kwargs T) :
    (dget kwargs sepKey ≠ none → dget kwargs headerKey ≠ none → csvOptions sniffed kwargs = .ok kwargs) ∧
    (dget kwargs sepKey = none ∨ dget kwargs headerKey = none →
      match sniffed with
      | .error e => csvOptions sniffed kwargs = .error e
      | .ok (sep, header) => ∃ opts, csvOptions sniffed kwargs = .ok opts ∧
        ∀ k, dget opts k = match dget kwargs k with
          | some v => some v
          | none => if k = sepKey then some sep else if k = headerKey then some header else none) := by
  have hne : headerKey ≠ sepKey := by decide
  constructor
  · intro h1 h2
    unfold csvOptions
    rw [if_neg]
    simp only [Bool.or_eq_true, Option.isNone_iff_eq_none, not_or]
    exact ⟨h2, h1⟩
  · intro h
    have hc : ((dget kwargs headerKey).isNone || (dget kwargs sepKey).isNone) = true := by
      simp only [Bool.or_eq_true, Option.isNone_iff_eq_none]
      exact h.symm
    unfold csvOptions
    rw [if_pos hc]
    cases sniffed with
    | error e => rfl
    | ok p =>
      obtain ⟨sep, header⟩ := p
      refine ⟨_, rfl, fun k => ?_⟩
      simp only [dget_dset]
      by_cases hk : k = headerKey
      · subst hk
        simp only [if_true, if_neg hne, if_neg hne.symm]
        cases dget kwargs headerKey <;> rfl
      · by_cases hs : k = sepKey
        · subst hs
          cases dget kwargs sepKey <;> simp [hne, hne.symm]
        · simp only [hk, hs, if_false, Ne.symm hk, Ne.symm hs]
          cases dget kwargs k <;> rfl

/-! ## C112: categories in arff files -/

theorem fold_toCategory (attrs : List (Str × AttrType)) (cols : List (Str × Bool)) :
    attrs.foldl (fun cols a => if a.2.isNominal then toCategory a.1 cols else cols) cols =
    cols.map fun c => (c.1, c.2 || attrs.any fun a => a.2.isNominal && decide (a.1 = c.1)) := by
  induction attrs generalizing cols with
  | nil => simp
  | cons a attrs ih =>
    rw [List.foldl_cons, ih]
    obtain ⟨n, t⟩ := a
    cases ht : t.isNominal with
    | false => simp [ht]
    | true =>
      simp only [ht, if_true, toCategory, List.map_map, List.any_cons, Bool.true_and]
      apply List.map_congr_left
      intro c _
      simp only [Function.comp]
      by_cases h : c.1 = n
      · simp [h]
      · have h' : n ≠ c.1 := fun e => h e.symm
        simp [h, h']

/-- **C112** The columns of an arff file are its attributes in order, and a column is categorical
exactly if the attribute lists its values; the names are different (liac-arff ensures it). -/
theorem C112_categories (attributes : List (Str × AttrType)) (hne : attributes ≠ [])
    (hn : (attributes.map Prod.fst).Nodup) :
    ∃ cols, arffColumns attributes = .ok cols ∧ cols.map Prod.fst = attributes.map Prod.fst ∧
    ∀ name t, (name, t) ∈ attributes →
      ((name, true) ∈ cols ↔ ∃ values, t = .nominal values) ∧
      ((name, false) ∈ cols ↔ ∃ s, t = .other s) := by
  refine ⟨attributes.map fun c => (c.1, attributes.any fun a => a.2.isNominal && decide (a.1 = c.1)),
    ?_, by simp [Function.comp_def], fun name t hm => ?_⟩
  · unfold arffColumns
    cases attributes with
    | nil => exact absurd rfl hne
    | cons a as =>
      dsimp only
      rw [fold_toCategory]
      simp [Function.comp_def]
  have uniq : ∀ {n : Str} {t t' : AttrType}, (n, t) ∈ attributes → (n, t') ∈ attributes → t = t' := by
    intro n t t' h1 h2
    exact Option.some.inj ((dget_of_mem hn h1).symm.trans (dget_of_mem hn h2))
  have val : ∀ t', (name, t') ∈ attributes →
      (attributes.any fun a => a.2.isNominal && decide (a.1 = name)) = t'.isNominal := by
    intro t' hm
    rw [Bool.eq_iff_iff, List.any_eq_true]
    constructor
    · rintro ⟨⟨n', t''⟩, hm', hx⟩
      obtain ⟨h1, h2⟩ := Bool.and_eq_true_iff.1 hx
      have : n' = name := by simpa using h2
      subst this
      rw [uniq hm hm']
      exact h1
    · intro hx
      exact ⟨_, hm, by simp [hx]⟩
  have key : ∀ b, (name, b) ∈ (attributes.map fun c => (c.1, attributes.any fun a =>
      a.2.isNominal && decide (a.1 = c.1))) ↔ b = t.isNominal := by
    intro b
    rw [List.mem_map]
    constructor
    · rintro ⟨⟨n', t'⟩, hm', hx⟩
      simp only [Prod.mk.injEq] at hx
      obtain ⟨rfl, rfl⟩ := hx
      exact val _ hm
    · rintro rfl
      exact ⟨_, hm, by simp only [val t hm]⟩
  rw [key, key]
  cases t <;> simp [AttrType.isNominal]

example : ((['x'], true) ∈ [(['y'], false), (['x'], true)]) ∧
    arffColumns [(['y'], .other ['r']), (['x'], .nominal [['a'], ['b']])] =
      .ok [(['y'], false), (['x'], true)] := by decide +kernel

/-- Without attributes nothing is read. -/
theorem C112_empty : arffColumns [] = .error .valueError := rfl

/-! ## C114: a search space for large data -/

namespace Spec

/-- Pipelines of `lo` to `hi` steps can be made, whatever the draws. -/
def UsableSpace (ps : PSet) (lo hi : Nat) : Prop :=
  ∀ w : World, ∃ a w', createRandomExpression ps lo hi w = (.ok a, w')

/-- A nearest-neighbors estimator is left out if models are stored and the data has more than six
million values. -/
def LeftOut (h : Heavy) (m : Option Nat) (rows cols : Nat) (p : Primitive) : Prop :=
  p.ident.uid ∈ h.neighbors ∧ m ≠ some 0 ∧ 6000000 < rows * cols

/-- Polynomial features are left out if models are stored and the data has more than fifty columns. -/
def LeftOutData (h : Heavy) (m : Option Nat) (cols : Nat) (p : Primitive) : Prop :=
  p.ident.uid ∈ h.polynomial ∧ m ≠ some 0 ∧ 50 < cols

end Spec

/-- **C114, the full claim**: if pipelines can be made with the search space configured, they can be
made with the one used for the data. -/
def C114_claim : Prop :=
  ∀ (h : Heavy) (m : Option Nat) (rows cols : Nat) (ps : PSet) (lo hi : Nat), PSetOk ps → 1 ≤ lo → lo ≤ hi →
    UsableSpace ps lo hi → UsableSpace (fitSpace h m rows cols ps) lo hi

theorem psetOk_withLists {ps : PSet} (h : PSetOk ps) {s : List Primitive × List Primitive}
    (h1 : ∀ p ∈ s.1, p ∈ ps.prims predictionKey) (h2 : ∀ p ∈ s.2, p ∈ ps.prims dataTerminal) :
    PSetOk (withLists ps s) := by
  have sub : ∀ k p, p ∈ (withLists ps s).prims k → p ∈ ps.prims k := by
    intro k p hp
    simp only [withLists] at hp
    split at hp
    · next hk => subst hk; exact h1 p hp
    · split at hp
      · next hk => subst hk; exact h2 p hp
      · exact hp
  exact ⟨fun k p hp => h.kind k p (sub k p hp), h.ident, fun k p i hp => h.nonempty k p i (sub k p hp),
    fun k p hp => h.distinct k p (sub k p hp), h.sameName,
    fun k p i j t t' hp => h.diffName k p i j t t' (sub k p hp), h.noEq⟩

theorem excludeHeavy_sub (h : Heavy) (m : Option Nat) (rows cols : Nat)
    (s : List Primitive × List Primitive) :
    (∀ p ∈ (excludeHeavy h m rows cols s).1, p ∈ s.1) ∧
    ∀ p ∈ (excludeHeavy h m rows cols s).2, p ∈ s.2 := by
  constructor
  · intro p hp
    simp only [excludeHeavy] at hp
    split at hp
    · exact (List.mem_filter.1 hp).1
    · exact hp
  · intro p hp
    simp only [excludeHeavy] at hp
    split at hp
    · exact (List.mem_filter.1 hp).1
    · exact hp

/-- Pipelines can be made exactly if there is an estimator, and a preprocessor unless one step is all
that is allowed. -/
theorem usable_iff {ps : PSet} (hps : PSetOk ps) {lo hi : Nat} (hl : 1 ≤ lo) (hle : lo ≤ hi) :
    UsableSpace ps lo hi ↔ ps.prims predictionKey ≠ [] ∧ (ps.prims dataTerminal ≠ [] ∨ hi = 1) := by
  constructor
  · intro h
    have fin : ∀ (xs : List Primitive) (w : World), xs = [] →
        (choice xs : GP Primitive) w = (.error .indexError, w) := by
      intro xs w hx; subst hx; simp [choice]
    by_cases h1 : ps.prims predictionKey = []
    · exfalso
      obtain ⟨a, w', e⟩ := h ⟨[], [], fun _ => 0⟩
      have hb : ¬ hi < lo := by omega
      simp only [createRandomExpression, randomPrimitiveNode, bind, PyM.bind, randint, if_neg hb, h1,
        List.filter_nil, fin [] _ rfl] at e
      simp at e
    · refine ⟨h1, ?_⟩
      by_contra hc
      obtain ⟨hd, hh⟩ := not_or.1 hc
      have hd : ps.prims dataTerminal = [] := not_not.1 hd
      obtain ⟨a, w', e⟩ := h ⟨[], [], fun n => if n = 0 then hi - lo else 0⟩
      have hb : ¬ hi < lo := by omega
      simp only [createRandomExpression, bind, PyM.bind, randint, if_neg hb] at e
      have hlen : lo + (HasRand.rnd (⟨[], [], fun n => if n = 0 then hi - lo else 0⟩ : World) 0) %
          (hi - lo + 1) - 1 = (hi - 2) + 1 := by
        have : HasRand.rnd (⟨[], [], fun n => if n = 0 then hi - lo else 0⟩ : World) 0 = hi - lo := rfl
        rw [this, Nat.mod_eq_of_lt (by omega)]
        omega
      rw [hlen] at e
      simp only [extendChain, randomPrimitiveNode, bind, PyM.bind, hd, List.filter_nil,
        fin [] _ rfl] at e
      revert e
      repeat' split
      all_goals simp
  · rintro ⟨h1, h2⟩ w
    have h : wp (createRandomExpression ps lo hi) (fun _ _ => True) (fun _ _ => False) w := by
      refine wp_createRandomExpression hps (fun _ _ _ _ _ _ _ _ _ _ _ => trivial) ?_
      rintro e w' _ _ (⟨h, _⟩ | ⟨h, _⟩ | ⟨h3, h, _⟩)
      · omega
      · exact h1 h
      · rcases h2 with h2 | h2
        · exact h2 h
        · omega
    cases hr : createRandomExpression ps lo hi w with
    | mk r w' =>
      cases r with
      | ok a => exact ⟨a, w', rfl⟩
      | error e => exact (wp_error h hr).elim

theorem storesModels_iff (m : Option Nat) : storesModels m = true ↔ m ≠ some 0 := by
  cases m with
  | none => simp [storesModels]
  | some k => simp [storesModels]; omega

theorem filter_ne_nil {α : Type} (l : List α) (f : α → Bool) :
    l.filter f ≠ [] ↔ ∃ p ∈ l, f p = true := by
  rw [Ne, List.filter_eq_nil_iff]
  simp

/-- **C114** exactly where it holds: an estimator must be left, and a preprocessor unless pipelines
have a single step. -/
theorem C114_partial (h : Heavy) (m : Option Nat) (rows cols : Nat) (ps : PSet) (lo hi : Nat)
    (hps : PSetOk ps) (hl : 1 ≤ lo) (hle : lo ≤ hi) :
    UsableSpace (fitSpace h m rows cols ps) lo hi ↔
      (∃ p ∈ ps.prims predictionKey, ¬ LeftOut h m rows cols p) ∧
      ((∃ p ∈ ps.prims dataTerminal, ¬ LeftOutData h m cols p) ∨ hi = 1) := by
  obtain ⟨s1, s2⟩ := excludeHeavy_sub h m rows cols (ps.prims predictionKey, ps.prims dataTerminal)
  have hne : dataTerminal ≠ predictionKey := by decide
  rw [fitSpace, usable_iff (psetOk_withLists hps s1 s2) hl hle]
  have e1 : (withLists ps (excludeHeavy h m rows cols (ps.prims predictionKey, ps.prims dataTerminal))).prims
      predictionKey ≠ [] ↔ ∃ p ∈ ps.prims predictionKey, ¬ LeftOut h m rows cols p := by
    simp only [withLists, if_true, excludeHeavy]
    by_cases hs : storesModels m && decide (rows * cols > 6000000)
    · rw [if_pos hs, filter_ne_nil]
      obtain ⟨h1, h2⟩ := Bool.and_eq_true_iff.1 hs
      have h1 := (storesModels_iff m).1 h1
      have h2 : 6000000 < rows * cols := of_decide_eq_true h2
      simp [LeftOut, h1, h2]
    · rw [if_neg hs]
      have hs : ¬ (m ≠ some 0 ∧ 6000000 < rows * cols) := by
        rintro ⟨h1, h2⟩
        exact hs (Bool.and_eq_true_iff.2 ⟨(storesModels_iff m).2 h1, decide_eq_true h2⟩)
      have : ∀ p, ¬ LeftOut h m rows cols p := fun p hp => hs hp.2
      simp only [this, not_false_eq_true, and_true]
      exact ⟨fun h => List.exists_mem_of_ne_nil _ h, fun ⟨p, hp⟩ => List.ne_nil_of_mem hp⟩
  have e2 : (withLists ps (excludeHeavy h m rows cols (ps.prims predictionKey, ps.prims dataTerminal))).prims
      dataTerminal ≠ [] ↔ ∃ p ∈ ps.prims dataTerminal, ¬ LeftOutData h m cols p := by
    simp only [withLists, if_true, if_neg hne, excludeHeavy]
    by_cases hs : storesModels m && decide (cols > 50)
    · rw [if_pos hs, filter_ne_nil]
      obtain ⟨h1, h2⟩ := Bool.and_eq_true_iff.1 hs
      have h1 := (storesModels_iff m).1 h1
      have h2 : 50 < cols := of_decide_eq_true h2
      simp [LeftOutData, h1, h2]
    · rw [if_neg hs]
      have hs : ¬ (m ≠ some 0 ∧ 50 < cols) := by
        rintro ⟨h1, h2⟩
        exact hs (Bool.and_eq_true_iff.2 ⟨(storesModels_iff m).2 h1, decide_eq_true h2⟩)
      have : ∀ p, ¬ LeftOutData h m cols p := fun p hp => hs hp.2
      simp only [this, not_false_eq_true, and_true]
      exact ⟨fun h => List.exists_mem_of_ne_nil _ h, fun ⟨p, hp⟩ => List.ne_nil_of_mem hp⟩
  rw [e1, e2]

/-- **C114** fails: if nearest neighbors are the only estimators configured (here those with
identities 0 and 1), nothing can be made for large data. -/
theorem C114_false : ¬ C114_claim := by
  intro h
  have h1 : UsableSpace Ex.space 1 3 :=
    (usable_iff Ex.space_ok (by omega) (by omega)).2 ⟨by decide, Or.inl (by decide)⟩
  have := h ⟨[0, 1], []⟩ none 1000000 10 Ex.space 1 3 Ex.space_ok (by omega) (by omega) h1
  obtain ⟨⟨p, hp, hk⟩, _⟩ := (C114_partial _ _ _ _ _ _ _ Ex.space_ok (by omega) (by omega)).1 this
  apply hk
  have hp : p = Ex.pNB ∨ p = Ex.pDT := by
    rcases Ex.mem_prims hp with ⟨e, _⟩ | ⟨_, e⟩
    · exact absurd e (by decide)
    · exact e
  refine ⟨?_, nofun, by omega⟩
  rcases hp with rfl | rfl <;> decide

/-- With another estimator left, large data is no problem. -/
example : UsableSpace (fitSpace ⟨[0], [3]⟩ none 1000000 100 Ex.space) 1 3 :=
  (C114_partial _ _ _ _ _ _ _ Ex.space_ok (by omega) (by omega)).2
    ⟨⟨Ex.pDT, by decide, fun h => absurd h.1 (by decide)⟩,
      Or.inl ⟨Ex.pSC, by decide, fun h => absurd h.1 (by decide)⟩⟩

/-! ## Examples -/

namespace Ex

/-- Bytes are characters; a table has the columns `x`, `c` and `y`. -/
def readers : Readers Str Nat Str where
  decode _ b := .ok b
  arff t _ := .ok [(['x'], t), (['c'], ['1']), (['y'], ['2'])]
  csv t _ := .ok [(['x'], t), (['c'], ['3']), (['y'], ['4'])]

theorem holds_arff : FileHolds readers "d.arff".toList none [] ['b'] [(['x'], ['b'])] ['c'] ['1'] [(['y'], ['2'])] :=
  ⟨Or.inl ⟨['b'], ['d'], by decide +kernel, rfl, rfl⟩, by decide⟩

theorem holds_csv : FileHolds readers "d.csv".toList (some ['u']) [(sepKey, 1)] ['b'] [(['x'], ['b']), (['c'], ['3'])]
    ['y'] ['4'] [] :=
  ⟨Or.inr ⟨['b'], ['d'], by decide +kernel, rfl, rfl⟩, by decide⟩

/-- The named column of an arff file, and the last one of a csv file. -/
example (g : Fitted Str X P S) :
    predictFromFile readers g "d.arff".toList (some ['c']) none [] ['b'] =
      predictFrame g [(['x'], ['b']), (['y'], ['2'])] ∧
    scoreFromFile readers g "d.csv".toList none (some ['u']) [(sepKey, 1)] ['b'] =
      scoreFrame g [(['x'], ['b']), (['c'], ['3'])] ['4'] :=
  ⟨(C109_files readers g (fun _ _ (_ : Unit) => .ok ()) _ _ _ _ _ _ _ _ _ () holds_arff (Or.inl rfl)).1,
   (C109_files readers g (fun _ _ (_ : Unit) => .ok ()) _ _ _ _ _ _ _ _ _ () holds_csv
      (Or.inr ⟨rfl, rfl⟩)).2.1⟩

/-- A given separator is kept, the header is detected, another option is passed on. -/
example : csvOptions (.ok (7, 8)) [(sepKey, 1), (['n'], 5)] = .ok [(sepKey, 1), (['n'], 5), (headerKey, 8)] := by
  decide +kernel

end Ex

/-! ### Cases of the theorems above -/

/-- `C109_target_ignored`: the same table, labelled otherwise. -/
def otherReaders : Readers Nat Nat Nat where
  decode _ b := .ok (if b = 0 then ['0'] else ['1'])
  arff t _ := .ok [(['x'], 5), (['y'], if t = ['0'] then 6 else 7)]
  csv t _ := .ok [(['x'], 5), (['y'], if t = ['0'] then 6 else 7)]

example (g : Fitted Nat X P S) :
    predictFromFile otherReaders g "d.arff".toList none none [] 0 =
      predictFromFile otherReaders g "e.csv".toList none none [] 1 :=
  C109_target_ignored otherReaders g _ _ none none none [] [] 0 1 [(['x'], 5)] ['y'] 6 7 []
    ⟨.inl ⟨['0'], ['d'], by decide +kernel, rfl, rfl⟩, by decide⟩ ⟨.inr ⟨['1'], ['e'], by decide +kernel, rfl, rfl⟩, by decide⟩
    (.inr ⟨rfl, rfl⟩)

/-- `C109_failures`: a file of another kind, and a target that is no column. -/
example (g : Fitted Nat X P S) :
    predictFromFile otherReaders g "d.csv".toList (some ['z']) none [] 0 = .error .valueError :=
  (C109_failures otherReaders g (fun _ _ (_ : Unit) => .ok ()) _ none _ [] 0 ()
    (.inr ⟨[(['x'], 5), (['y'], 6)], ['z'], by decide +kernel, rfl, by decide⟩)).1

end Gama
