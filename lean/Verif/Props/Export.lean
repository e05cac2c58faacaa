import Verif.Model.Export
import Verif.Lemmas.Heap
import Verif.Props.Operators
import Mathlib.Data.List.Nodup
import Mathlib.Data.List.Basic

/-! # Compiling and exporting (C70, C71, C91, C92) -/

namespace Gama
open PyM Spec

/-! ### Compiling -/

namespace Spec

/-- A step name that is a decimal number. -/
def IsDecimal (n : Str) : Prop := n ≠ [] ∧ ∀ c ∈ n, '0'.val ≤ c.val ∧ c.val ≤ '9'.val

/-- The estimator that a step of an individual stands for. -/
def estOf (s : Step) : Est := .built s.prim.ident (s.terms.map fun t => (t.output, t.value))

end Spec

theorem digitChar_inj : ∀ d < 10, ∀ e < 10, digitChar d = digitChar e → d = e := by decide

theorem digitChar_digit : ∀ d < 10, '0'.val ≤ (digitChar d).val ∧ (digitChar d).val ≤ '9'.val := by
  decide

theorem map_digitChar_inj : ∀ {l l' : List Nat}, (∀ d ∈ l, d < 10) → (∀ d ∈ l', d < 10) →
    l.map digitChar = l'.map digitChar → l = l'
  | [], [], _, _, _ => rfl
  | [], _ :: _, _, _, h => by cases h
  | _ :: _, [], _, _, h => by cases h
  | a :: l, b :: l', h1, h2, h => by
    injection h with ha hl
    rw [digitChar_inj a (h1 a List.mem_cons_self) b (h2 b List.mem_cons_self) ha,
      map_digitChar_inj (fun d hd => h1 d (List.mem_cons_of_mem _ hd))
        (fun d hd => h2 d (List.mem_cons_of_mem _ hd)) hl]

theorem digits_lt (n : Nat) : ∀ d ∈ Nat.digits 10 n, d < 10 := fun _ hd =>
  Nat.digits_lt_base (by decide) hd

theorem natStr_decimal (n : Nat) : Spec.IsDecimal (natStr n) := by
  unfold natStr
  by_cases h : n = 0
  · rw [if_pos h]
    refine ⟨by simp, ?_⟩
    intro c hc
    rw [List.mem_singleton.1 hc]
    decide
  · rw [if_neg h]
    refine ⟨?_, ?_⟩
    · have := Nat.digits_ne_nil_iff_ne_zero (b := 10).2 h
      simpa using this
    · intro c hc
      rw [List.mem_reverse, List.mem_map] at hc
      obtain ⟨d, hd, rfl⟩ := hc
      exact digitChar_digit d (digits_lt n d hd)

theorem natStr_inj {m n : Nat} (h : natStr m = natStr n) : m = n := by
  have zero : ∀ k : Nat, k ≠ 0 → ((Nat.digits 10 k).map digitChar).reverse ≠ ['0'] := by
    intro k hk he
    have h1 : (Nat.digits 10 k).map digitChar = [0].map digitChar := by
      have := congrArg List.reverse he
      rw [List.reverse_reverse] at this
      rw [this]
      decide
    have h2 := map_digitChar_inj (digits_lt k) (by simp) h1
    have h3 := Nat.ofDigits_digits 10 k
    rw [h2] at h3
    exact hk (by simpa using h3.symm)
  unfold natStr at h
  by_cases hm : m = 0 <;> by_cases hn : n = 0
  · rw [hm, hn]
  · rw [if_pos hm, if_neg hn] at h
    exact absurd h.symm (zero n hn)
  · rw [if_neg hm, if_pos hn] at h
    exact absurd h (zero m hm)
  · rw [if_neg hm, if_neg hn] at h
    have h1 := map_digitChar_inj (digits_lt m) (digits_lt n) (List.reverse_injective h)
    exact (Nat.digits_inj_iff).1 h1

theorem dset_new {d : List (Str × Value)} {k : Str} {v : Value} (h : k ∉ d.map Prod.fst) :
    dset d k v = d ++ [(k, v)] := by
  induction d with
  | nil => rfl
  | cons e d ih =>
    obtain ⟨k', v'⟩ := e
    unfold dset
    rw [if_neg fun e => h (by rw [← e]; exact List.mem_cons_self),
      ih fun hm => h (List.mem_cons_of_mem _ hm)]
    rfl

theorem termDict_eq : ∀ (ts : List Terminal) (d : List (Str × Value)),
    (ts.map Terminal.output).Nodup → (∀ t ∈ ts, t.output ∉ d.map Prod.fst) →
    termDict ts d = d ++ ts.map fun t => (t.output, t.value)
  | [], d, _, _ => by simp [termDict]
  | t :: ts, d, hn, hd => by
    obtain ⟨h1, h2⟩ := List.nodup_cons.1 hn
    unfold termDict
    rw [dset_new (hd t List.mem_cons_self), termDict_eq ts _ h2]
    · simp
    · intro u hu hm
      rw [List.map_append, List.mem_append] at hm
      rcases hm with hm | hm
      · exact hd u (List.mem_cons_of_mem _ hu) hm
      · have he : u.output = t.output := by simpa using hm
        exact h1 (he ▸ List.mem_map.2 ⟨u, hu, rfl⟩)

/-- In a pipeline of the search space the hyperparameters of a step have different names. -/
theorem outputs_nodup {ps : PSet} (hps : PSetOk ps) {k : Str} {s : Step} (hs : StepOk ps k s) :
    (s.terms.map Terminal.output).Nodup := by
  have hid : (s.terms.map Terminal.ident).Nodup :=
    hs.complete.nodup_iff.2 (hps.distinct k s.prim hs.offered)
  rw [List.nodup_iff_pairwise_ne, List.pairwise_map] at hid ⊢
  refine List.Pairwise.imp_of_mem ?_ hid
  intro a b ha hb hne
  have hin : ∀ t ∈ s.terms, t.ident ∈ s.prim.input := fun t ht =>
    hs.complete.subset (List.mem_map.2 ⟨t, ht, rfl⟩)
  exact hps.diffName k s.prim a.ident b.ident a b hs.offered (hin a ha) (hin b hb) hne
    (hs.values a ha) (hs.values b hb)

theorem pipelineOk_mem {ps : PSet} {ss : List Step} (h : PipelineOk ps ss) {s : Step} (hs : s ∈ ss) :
    ∃ k, StepOk ps k s := by
  cases ss with
  | nil => cases hs
  | cons e pre =>
    rcases List.mem_cons.1 hs with rfl | hs'
    · exact ⟨_, h.1⟩
    · exact ⟨_, h.2 s hs'⟩

/-- The steps of the individual, from the data to the estimator, with their names. -/
def Spec.ownSteps {α : Type} (f : Step → α) (ss : List Step) : List (Str × α) :=
  ((ss.zipIdx).map fun p => (natStr p.2, f p.1)).reverse

theorem enumSteps_eq {α : Type} (f : Cell → α) (g : Step → α) : ∀ (i : Nat) (cs : List Cell),
    (∀ c ∈ cs, f c = g (cellStep c)) →
    enumSteps f i cs = ((cs.map cellStep).zipIdx i).map fun p => (natStr p.2, g p.1)
  | _, [], _ => rfl
  | i, c :: cs, h => by
    unfold enumSteps
    rw [enumSteps_eq f g (i + 1) cs fun c hc => h c (List.mem_cons_of_mem _ hc),
      h c List.mem_cons_self]
    rfl

theorem compileNodes_eq (pre : List (Str × Transformer)) (cs : List Cell) :
    compileNodes pre cs = pre.map (fun p => (p.1, Est.fixed p.2)) ++
      (enumSteps nodeToSklearn 0 cs).reverse := by
  unfold compileNodes
  cases pre with
  | nil => rfl
  | cons p pre =>
    dsimp only
    rw [if_neg (by simp), List.reverse_append, List.reverse_reverse]

theorem wp_compile {pre : List (Str × Transformer)} {i : Nat} {w : World} {ss : List Step}
    (h : Is w i ss) : ∃ cs : List Cell, cs.map cellStep = ss ∧
      compileIndividual pre i w = (.ok (compileNodes pre cs), w) := by
  obtain ⟨as, hlen, ind, hi, hc⟩ := h
  have hw : wp (compileIndividual pre i)
      (fun r w' => w' = w ∧ ∃ cs : List Cell, cs.map cellStep = ss ∧ r = compileNodes pre cs)
      (fun _ _ => False) w := by
    simp only [compileIndividual, wp_bind]
    apply wp_primitives hi hc
    apply wp_getNodes (fun a s h => hc.cell h)
    intro cs hcs
    simp only [wp_pure]
    refine ⟨trivial, cs, ?_, rfl⟩
    rw [hcs]
    unfold steps
    rw [List.map_snd_zip (by omega)]
  cases hr : compileIndividual pre i w with
  | mk r w' =>
    cases r with
    | error e => exact (wp_error hw hr).elim
    | ok r =>
      have c := wp_ok hw hr
      obtain ⟨rfl, cs, h1, h2⟩ := c
      exact ⟨cs, h1, by rw [h2]⟩

/-- **C70.** Compiling an individual of the search space gives first the fixed steps in order, then
the steps of the individual from the data to the estimator, each with exactly its hyperparameter
values; nothing is modified. -/
theorem C70_steps {ps : PSet} (hps : PSetOk ps) (pre : List (Str × Transformer)) (i : Nat) (w : World)
    (ss : List Step) (h : Is w i ss) (hok : PipelineOk ps ss) :
    compileIndividual pre i w =
      (.ok (pre.map (fun p => (p.1, Est.fixed p.2)) ++ Spec.ownSteps Spec.estOf ss), w) := by
  obtain ⟨cs, hcs, hr⟩ := wp_compile (pre := pre) h
  rw [hr, compileNodes_eq, enumSteps_eq nodeToSklearn Spec.estOf 0 cs, hcs]
  · rfl
  · intro c hc
    have hm : cellStep c ∈ ss := hcs ▸ List.mem_map.2 ⟨c, hc, rfl⟩
    obtain ⟨k, hk⟩ := pipelineOk_mem hok hm
    have hn := outputs_nodup hps hk
    unfold nodeToSklearn Spec.estOf
    rw [termDict_eq c.terms [] hn (by simp)]
    rfl

theorem own_names {α : Type} (f : Step → α) (ss : List Step) :
    ((Spec.ownSteps f ss).map Prod.fst).Nodup ∧
      ∀ n ∈ (Spec.ownSteps f ss).map Prod.fst, Spec.IsDecimal n := by
  unfold Spec.ownSteps
  rw [List.map_reverse, List.nodup_reverse, List.map_map]
  constructor
  · have : (fun p : Step × Nat => (natStr p.2, f p.1).1) = natStr ∘ Prod.snd := rfl
    rw [show (Prod.fst ∘ fun p : Step × Nat => (natStr p.2, f p.1)) = natStr ∘ Prod.snd from rfl,
      ← List.map_map, List.zipIdx_map_snd]
    exact (List.nodup_range' ).map fun _ _ h => natStr_inj h
  · intro n hn
    rw [List.mem_reverse, List.mem_map] at hn
    obtain ⟨p, _, rfl⟩ := hn
    exact natStr_decimal _

/-- **C70.** All steps have different names. -/
theorem C70_names (pre : List (Str × Transformer)) (i : Nat) (w : World) (ss : List Step)
    (h : Is w i ss) (hn : (pre.map Prod.fst).Nodup) (hd : ∀ p ∈ pre, ¬ Spec.IsDecimal p.1) :
    ∃ r, compileIndividual pre i w = (.ok r, w) ∧ (r.map Prod.fst).Nodup := by
  obtain ⟨cs, hcs, hr⟩ := wp_compile (pre := pre) h
  refine ⟨_, hr, ?_⟩
  have he : enumSteps (fun _ : Cell => ()) 0 cs =
      (ss.zipIdx).map fun p => (natStr p.2, ()) := by
    rw [enumSteps_eq (fun _ => ()) (fun _ => ()) 0 cs fun _ _ => rfl, hcs]
  have names : ∀ {α β : Type} (f : Cell → α) (g : Cell → β) (j : Nat) (l : List Cell),
      (enumSteps f j l).map Prod.fst = (enumSteps g j l).map Prod.fst := by
    intro α β f g j l
    induction l generalizing j with
    | nil => rfl
    | cons c l ih => simp only [enumSteps, List.map_cons, ih]
  have own := own_names (fun _ => ()) ss
  unfold Spec.ownSteps at own
  rw [List.map_reverse, ← he, names _ nodeToSklearn] at own
  rw [compileNodes_eq, List.map_append, List.map_reverse, List.map_map]
  rw [List.nodup_append]
  refine ⟨hn, own.1, ?_⟩
  intro a ha b hb hab
  obtain ⟨p, hp, rfl⟩ := List.mem_map.1 ha
  have hab' : p.1 = b := hab
  exact hd p hp (hab' ▸ own.2 b hb)

/-- **C70.** The estimator comes last. -/
theorem C70_estimator_last {ps : PSet} (hps : PSetOk ps) (pre : List (Str × Transformer)) (i : Nat)
    (w : World) (e : Step) (ss : List Step) (h : Is w i (e :: ss)) (hok : PipelineOk ps (e :: ss)) :
    ∃ front, compileIndividual pre i w = (.ok (front ++ [(['0'], Spec.estOf e)]), w) ∧
      front.length = pre.length + ss.length := by
  rw [C70_steps hps pre i w _ h hok]
  unfold Spec.ownSteps
  rw [List.zipIdx_cons, List.map_cons, List.reverse_cons]
  refine ⟨_, by rw [← List.append_assoc]; rfl, ?_⟩
  simp

/-- The hypotheses hold of an individual of the sample space. -/
example (r : Stream) : Is (Ex.w0 r) 0 Ex.long ∧ PipelineOk Ex.space Ex.long ∧ PSetOk Ex.space :=
  ⟨Ex.is_long r, Ex.long_ok, Ex.space_ok⟩

/-! ### Exporting -/

namespace Spec

/-- How a call of a class with keyword arguments is written. -/
def callText (c : Cls) (params : List (Str × Value)) : Str :=
  c.name ++ '(' :: joinWith [',', ' '] (params.map fun p => p.1 ++ '=' :: p.2.fmt) ++ [')']

/-- How an estimator is written. -/
def estText : Est → Str
  | .built c params => callText c params
  | .fixed t => t.text

/-- The values with which the steps of an individual are made. -/
def valuesOf (cs : List Cell) : List Value := (cs.flatMap Cell.terms).map Terminal.value

/-- An arrangement of the elements of a set. -/
def Arranges (order : List Import → List Import) : Prop := ∀ l i, i ∈ order l ↔ i ∈ l

end Spec

theorem strNonrecursive_eq {c : Cell} (hn : (c.terms.map Terminal.output).Nodup) :
    strNonrecursive c = Spec.estText (nodeToSklearn c) := by
  unfold nodeToSklearn
  rw [termDict_eq c.terms [] hn (by simp)]
  unfold strNonrecursive Spec.estText Spec.callText
  dsimp only
  rw [List.nil_append, List.map_map]
  rfl

theorem enumSteps_text : ∀ (cs : List Cell) (i : Nat),
    (∀ c ∈ cs, (c.terms.map Terminal.output).Nodup) →
    enumSteps strNonrecursive i cs =
      (enumSteps nodeToSklearn i cs).map fun s => (s.1, Spec.estText s.2)
  | [], _, _ => rfl
  | c :: cs, i, h => by
    unfold enumSteps
    rw [List.map_cons, enumSteps_text cs (i + 1) fun c hc => h c (List.mem_cons_of_mem _ hc),
      strNonrecursive_eq (h c List.mem_cons_self)]

/-- The full claim C71: the script defines the pipeline that was fitted, after the encoding. -/
def C71_claim : Prop :=
  ∀ (fnModule : Nat → Str) (order : List Import → List Import) (pre : List (Str × Transformer))
    (cs : List Cell) (encoding : Option (List (Str × Transformer))) (ext : List (Str × Transformer))
    (s : Script), (∀ c ∈ cs, (c.terms.map Terminal.output).Nodup) →
    exportBestFit fnModule order (some (pre, cs)) encoding ext = .ok s →
    s.steps = ((encoding.getD []).map (fun p => (p.1, Est.fixed p.2)) ++ compileNodes pre cs).map
      fun e => (e.1, Spec.estText e.2)

/-- **C71** for individuals compiled with the preprocessing of the last fit: the script has the steps
of the encoding and of the fitted pipeline, in order, with their names and configuration. -/
theorem C71_partial (fnModule : Nat → Str) (order : List Import → List Import)
    (cs : List Cell) (encoding : Option (List (Str × Transformer))) (ext : List (Str × Transformer))
    (hn : ∀ c ∈ cs, (c.terms.map Terminal.output).Nodup) :
    ∃ s, exportBestFit fnModule order (some (ext, cs)) encoding ext = .ok s ∧
      s.steps = ((encoding.getD []).map (fun p => (p.1, Est.fixed p.2)) ++ compileNodes ext cs).map
        fun e => (e.1, Spec.estText e.2) := by
  refine ⟨_, rfl, ?_⟩
  unfold bestFitScript importsAndSteps
  dsimp only
  rw [enumSteps_text cs 0 hn, compileNodes_eq]
  simp [List.map_reverse, Spec.estText, Function.comp_def]

/-- What a step of the sample space looks like in a script, and an imputer. -/
def sampleCell : Cell := ⟨⟨[], predictionKey, ⟨7, ['N', 'B'], ['n', 'b'], false, true, false, true⟩⟩, [], none⟩
def sampleImputer : Str × Transformer := (['i', 'm', 'p'], ⟨⟨8, ['I'], ['i'], true, false, false, false⟩, ['I', '(', ')']⟩)

/-- An exported script: the imputer, then the estimator. -/
example : (exportBestFit (fun _ => []) id (some ([sampleImputer], [sampleCell])) none [sampleImputer]).toOption.map
    Script.steps = some [(['i', 'm', 'p'], ['I', '(', ')']), (['0'], ['N', 'B', '(', ')'])] := by decide

/-- An individual given by the user, compiled without preprocessing, is exported with it. -/
theorem C71_false : ¬ C71_claim := by
  intro h
  have := h (fun _ => []) id [] [sampleCell] none [sampleImputer] _ (by decide) rfl
  have h2 := congrArg List.length this
  revert h2
  decide

/-- **C71.** The text of the script: the imports one per line, an empty line, and the definition of
`pipeline` as a `Pipeline` of the steps. -/
theorem C71_text (s : Script) :
    s.text = joinWith ['\n'] (s.imports.map Import.text) ++ ['\n', '\n'] ++
      "pipeline = Pipeline([".toList ++
      joinWith [',', '\n'] (s.steps.map fun e => "('".toList ++ e.1 ++ "', ".toList ++ e.2 ++ ")".toList) ++
      "])\n".toList := by
  have h1 : "pipeline = Pipeline([".toList = pipelineVar ++
      [' ', '=', ' ', 'P', 'i', 'p', 'e', 'l', 'i', 'n', 'e', '(', '['] := by decide +kernel
  have h2 : "('".toList = ['(', '\''] := by decide +kernel
  have h3 : "', ".toList = ['\'', ',', ' '] := by decide +kernel
  have h4 : ")".toList = [')'] := by decide +kernel
  have h5 : "])\n".toList = [']', ')', '\n'] := by decide +kernel
  rw [h1, h2, h3, h4, h5]
  unfold Script.text formatPipeline
  simp only [List.append_assoc]

/-- **C71.** Every class of the fitted pipeline and of the encoding, every function among the
hyperparameter values, and `Pipeline` itself are imported. -/
theorem C71_imports (fnModule : Nat → Str) (order : List Import → List Import)
    (ho : Spec.Arranges order) (pre : List (Str × Transformer)) (cs : List Cell)
    (encoding : Option (List (Str × Transformer))) (ext : List (Str × Transformer)) (s : Script)
    (h : exportBestFit fnModule order (some (pre, cs)) encoding ext = .ok s) :
    (∀ e ∈ compileNodes pre cs, ⟨importModule e.2.cls.modul, e.2.cls.name⟩ ∈ s.imports) ∧
    (∀ p ∈ encoding.getD [] ++ ext, ⟨importModule p.2.cls.modul, p.2.cls.name⟩ ∈ s.imports) ∧
    (∀ u name, .fn u name ∈ Spec.valuesOf cs → ⟨fnModule u, name⟩ ∈ s.imports) ∧
    ⟨"sklearn.pipeline".toList, "Pipeline".toList⟩ ∈ s.imports ∧
    ⟨"numpy".toList, "nan".toList⟩ ∈ s.imports := by
  unfold exportBestFit at h
  dsimp only at h
  cases h
  unfold bestFitScript importsAndSteps
  dsimp only
  refine ⟨?_, ?_, ?_, ?_, ?_⟩
  · intro e he
    rw [ho]
    refine List.mem_append_left _ (List.mem_append_left _ (List.mem_append_right _ ?_))
    exact List.mem_map.2 ⟨e, he, rfl⟩
  · intro p hp
    rw [ho]
    exact List.mem_append_right _ (List.mem_map.2 ⟨p, hp, rfl⟩)
  · intro u name hv
    rw [ho]
    refine List.mem_append_left _ (List.mem_append_right _ ?_)
    unfold Spec.valuesOf at hv
    obtain ⟨t, ht, hv⟩ := List.mem_map.1 hv
    obtain ⟨c, hc, ht⟩ := List.mem_flatMap.1 ht
    refine List.mem_flatMap.2 ⟨c, List.mem_reverse.2 hc, ?_⟩
    unfold fnImports
    refine List.mem_filterMap.2 ⟨t, ht, ?_⟩
    rw [hv]
  · rw [ho]
    refine List.mem_append_left _ (List.mem_append_left _ (List.mem_append_left _ ?_))
    have : (⟨"sklearn.pipeline".toList, "Pipeline".toList⟩ : Import) =
      ⟨['s', 'k', 'l', 'e', 'a', 'r', 'n', '.', 'p', 'i', 'p', 'e', 'l', 'i', 'n', 'e'],
        ['P', 'i', 'p', 'e', 'l', 'i', 'n', 'e']⟩ := by decide +kernel
    rw [this]
    decide
  · rw [ho]
    refine List.mem_append_left _ (List.mem_append_left _ (List.mem_append_left _ ?_))
    have : (⟨"numpy".toList, "nan".toList⟩ : Import) =
      ⟨['n', 'u', 'm', 'p', 'y'], ['n', 'a', 'n']⟩ := by decide +kernel
    rw [this]
    decide

/-- Running import statements: what each name stands for afterwards, `none` if one of them fails.
`env` says what a module has under a name. -/
def Spec.runImports (env : Str → Str → Option Nat) :
    List Import → (Str → Option Nat) → Option (Str → Option Nat)
  | [], b => some b
  | i :: is, b =>
    match env i.modul i.name with
    | none => none
    | some x => Spec.runImports env is fun n => if n = i.name then some x else b n

theorem runImports_kept (env : Str → Str → Option Nat) : ∀ (is : List Import) (b : Str → Option Nat)
    (n : Str) (x : Nat), b n = some x → (∀ i ∈ is, ∃ y, env i.modul i.name = some y) →
    (∀ i ∈ is, i.name = n → env i.modul i.name = some x) →
    ∃ b', Spec.runImports env is b = some b' ∧ b' n = some x
  | [], b, n, x, hb, _, _ => ⟨b, rfl, hb⟩
  | i :: is, b, n, x, hb, hd, hs => by
    obtain ⟨y, hy⟩ := hd i List.mem_cons_self
    unfold Spec.runImports
    rw [hy]
    refine runImports_kept env is _ n x ?_ (fun j hj => hd j (List.mem_cons_of_mem _ hj))
      fun j hj => hs j (List.mem_cons_of_mem _ hj)
    by_cases h : n = i.name
    · rw [if_pos h]
      rw [hs i List.mem_cons_self h.symm] at hy
      exact hy.symm
    · rw [if_neg h]; exact hb

theorem runImports_bound (env : Str → Str → Option Nat) : ∀ (is : List Import) (b : Str → Option Nat)
    (i : Import) (x : Nat), i ∈ is → env i.modul i.name = some x →
    (∀ j ∈ is, ∃ y, env j.modul j.name = some y) →
    (∀ j ∈ is, j.name = i.name → env j.modul j.name = some x) →
    ∃ b', Spec.runImports env is b = some b' ∧ b' i.name = some x
  | [], _, _, _, hi, _, _, _ => by cases hi
  | j :: is, b, i, x, hi, hx, hd, hs => by
    obtain ⟨y, hy⟩ := hd j List.mem_cons_self
    unfold Spec.runImports
    rw [hy]
    dsimp only
    rcases List.mem_cons.1 hi with rfl | hi'
    · refine runImports_kept env is _ i.name x ?_ (fun k hk => hd k (List.mem_cons_of_mem _ hk))
        fun k hk => hs k (List.mem_cons_of_mem _ hk)
      rw [if_pos rfl, ← hx, hy]
    · exact runImports_bound env is _ i x hi' hx (fun k hk => hd k (List.mem_cons_of_mem _ hk))
        fun k hk => hs k (List.mem_cons_of_mem _ hk)

/-- The claim that the names of the script stand for the classes fitted: whatever modules contain, if
each class can be imported from the module it is in, without the private last part. -/
def C71_names_claim : Prop :=
  ∀ (env : Str → Str → Option Nat) (fnModule : Nat → Str) (order : List Import → List Import)
    (pre : List (Str × Transformer)) (cs : List Cell)
    (encoding : Option (List (Str × Transformer))) (ext : List (Str × Transformer)) (s : Script),
    Spec.Arranges order → exportBestFit fnModule order (some (pre, cs)) encoding ext = .ok s →
    (∀ i ∈ s.imports, ∃ y, env i.modul i.name = some y) →
    (∀ e ∈ compileNodes pre cs, env (importModule e.2.cls.modul) e.2.cls.name = some e.2.cls.uid) →
    ∃ b, Spec.runImports env s.imports (fun _ => none) = some b ∧
      ∀ e ∈ compileNodes pre cs, b e.2.cls.name = some e.2.cls.uid

/-- **C71.** The names stand for the classes fitted, if no two things imported have the same name. -/
theorem C71_names_partial (env : Str → Str → Option Nat) (fnModule : Nat → Str)
    (order : List Import → List Import) (pre : List (Str × Transformer)) (cs : List Cell)
    (encoding : Option (List (Str × Transformer))) (ext : List (Str × Transformer)) (s : Script)
    (ho : Spec.Arranges order) (h : exportBestFit fnModule order (some (pre, cs)) encoding ext = .ok s)
    (hd : ∀ i ∈ s.imports, ∃ y, env i.modul i.name = some y)
    (hc : ∀ e ∈ compileNodes pre cs, env (importModule e.2.cls.modul) e.2.cls.name = some e.2.cls.uid)
    (hu : ∀ i ∈ s.imports, ∀ j ∈ s.imports, i.name = j.name → env i.modul i.name = env j.modul j.name) :
    ∃ b, Spec.runImports env s.imports (fun _ => none) = some b ∧
      ∀ e ∈ compileNodes pre cs, b e.2.cls.name = some e.2.cls.uid := by
  have hi := (C71_imports fnModule order ho pre cs encoding ext s h).1
  have run : ∃ b, Spec.runImports env s.imports (fun _ => none) = some b := by
    have : ∀ (is : List Import) (b : Str → Option Nat), (∀ i ∈ is, ∃ y, env i.modul i.name = some y) →
        ∃ b', Spec.runImports env is b = some b' := by
      intro is
      induction is with
      | nil => intro b _; exact ⟨b, rfl⟩
      | cons i is ih =>
        intro b hd
        obtain ⟨y, hy⟩ := hd i List.mem_cons_self
        unfold Spec.runImports
        rw [hy]
        exact ih _ fun j hj => hd j (List.mem_cons_of_mem _ hj)
    exact this _ _ hd
  obtain ⟨b, hb⟩ := run
  refine ⟨b, hb, ?_⟩
  intro e he
  obtain ⟨b', hb', hx⟩ := runImports_bound env s.imports (fun _ => none) _ e.2.cls.uid (hi e he)
    (hc e he) hd (fun j hj hn => by rw [hu j hj _ (hi e he) hn]; exact hc e he)
  rw [hb] at hb'
  cases hb'
  exact hx

/-- Two classes of the same name, as an encoder of the search space and one of the preprocessing. -/
theorem C71_names_false : ¬ C71_names_claim := by
  intro h
  let c1 : Cell := ⟨⟨[], predictionKey, ⟨1, ['E'], ['a'], false, true, false, true⟩⟩, [], none⟩
  let t : Str × Transformer := (['t'], ⟨⟨2, ['E'], ['b'], true, false, false, false⟩, ['E', '(', ')']⟩)
  obtain ⟨b, hb, hx⟩ := h (fun m _ => some (if m = ['a'] then 1 else 2)) (fun _ => []) id [] [c1] none [t]
    _ (fun _ _ => Iff.rfl) rfl (fun _ _ => ⟨_, rfl⟩) (by decide)
  have h1 := hx (['0'], .built c1.prim.ident []) (by decide)
  have h2 := congrArg (Option.map fun f => f ['E']) hb
  rw [Option.map_some, show b ['E'] = some 1 from h1] at h2
  revert h2
  decide

/-- A class of the script that uses GAMA itself (module `__main__`), or of any other top-level module
with an underscore, is imported from nowhere. -/
theorem C71_private_module (c : Cls) (rest : Str) (hm : c.modul = '_' :: rest) (hd : '.' ∉ c.modul) :
    (formatImport c).text = "from  import ".toList ++ c.name := by
  have hs : ∀ s : Str, '.' ∉ s → splitOnChar '.' s = [s] := by
    intro s
    induction s with
    | nil => intro _; rfl
    | cons a s ih =>
      intro h
      unfold splitOnChar
      rw [if_neg fun e => h (by rw [e]; exact List.mem_cons_self),
        ih fun hm => h (List.mem_cons_of_mem _ hm)]
  have : importModule c.modul = [] := by
    unfold importModule
    rw [hs _ hd, hm]
    rfl
  unfold formatImport Import.text
  rw [this, show "from  import ".toList = ['f', 'r', 'o', 'm', ' ', ' ', 'i', 'm', 'p', 'o', 'r', 't', ' ']
    by decide +kernel]
  rfl

example : (formatImport ⟨1, ['M'], ['_', '_', 'm', 'a', 'i', 'n', '_', '_'], false, true, false, true⟩).text =
    "from  import M".toList := by decide +kernel

/-- Reading a string between single quotes: it ends at the quote, and the backslash is special (only
`\\` and `\'` are read here, anything else after a backslash is not read as it stands). -/
def Spec.readQuoted : Str → Option Str
  | [] => none
  | '\'' :: rest => if rest = [] then some [] else none
  | '\\' :: '\\' :: rest => (Spec.readQuoted rest).map ('\\' :: ·)
  | '\\' :: '\'' :: rest => (Spec.readQuoted rest).map ('\'' :: ·)
  | '\\' :: _ => none
  | '\n' :: _ => none
  | c :: rest => (Spec.readQuoted rest).map (c :: ·)

/-- A string literal. -/
def Spec.readLiteral : Str → Option Str
  | '\'' :: rest => Spec.readQuoted rest
  | _ => none

/-- The claim that string values are written such that they are read back. -/
def C71_values_claim : Prop := ∀ s : Str, Spec.readLiteral (Value.fmt (.str s)) = some s

/-- **C71.** String values without quotes, backslashes and line ends are read back. -/
theorem C71_values_partial (s : Str) (h : ∀ c ∈ s, c ≠ '\'' ∧ c ≠ '\\' ∧ c ≠ '\n') :
    Spec.readLiteral (Value.fmt (.str s)) = some s := by
  have : ∀ s : Str, (∀ c ∈ s, c ≠ '\'' ∧ c ≠ '\\' ∧ c ≠ '\n') →
      Spec.readQuoted (s ++ ['\'']) = some s := by
    intro s
    induction s with
    | nil => intro _; rfl
    | cons c s ih =>
      intro h
      obtain ⟨h1, h2, h3⟩ := h c List.mem_cons_self
      rw [List.cons_append, Spec.readQuoted.eq_def]
      split <;> simp_all
  exact this s h

theorem C71_values_false : ¬ C71_values_claim := by
  intro h
  exact absurd (h ['\'']) (by decide)

/-! ### Exporting an ensemble -/

theorem memberPipelines_get : ∀ (l : List (List (Str × Str))) (i k : Nat),
    (memberPipelines i l)[k]? = (l[k]?).map fun s => (memberVar (i + k), s)
  | [], _, _ => by simp [memberPipelines]
  | s :: l, i, 0 => by simp [memberPipelines]
  | s :: l, i, k + 1 => by
    unfold memberPipelines
    rw [List.getElem?_cons_succ, memberPipelines_get l (i + 1) k, List.getElem?_cons_succ]
    rw [show i + 1 + k = i + (k + 1) by omega]

theorem memberNames_get : ∀ (n i k : Nat), k < n →
    (memberNames i n)[k]? = some (natStr (i + k), memberVar (i + k))
  | 0, _, _, h => by omega
  | n + 1, i, 0, _ => rfl
  | n + 1, i, k + 1, h => by
    unfold memberNames
    rw [List.getElem?_cons_succ, memberNames_get n (i + 1) k (by omega)]
    rw [show i + 1 + k = i + (k + 1) by omega]

theorem memberNames_length : ∀ (n i : Nat), (memberNames i n).length = n
  | 0, _ => rfl
  | n + 1, i => by unfold memberNames; rw [List.length_cons, memberNames_length n (i + 1)]

/-- **C71** for ensembles whose members are compiled with the preprocessing of the last fit: there is
one pipeline per member, which, after the fixed preprocessing, is the fitted pipeline; the voter has
the members under different names with their weights; and `pipeline` is the preprocessing followed by
the voter. -/
theorem C71_ensemble (fnModule : Nat → Str) (order : List Import → List Import)
    (v : Voter) (members : List (List Cell × Nat)) (encoding ext : List (Str × Transformer))
    (hn : ∀ m ∈ members, ∀ c ∈ m.1, (c.terms.map Terminal.output).Nodup) :
    ∃ s, ensembleScript fnModule order (some v) (members.map fun m => (ext, m.1, m.2))
        (some (encoding ++ ext)) = .ok s ∧
      s.voter = v ∧ s.weights = members.map Prod.snd ∧ s.members.length = members.length ∧
      (∀ (k : Nat) (m : List Cell × Nat), members[k]? = some m →
        ∃ var own, s.members[k]? = some (natStr k, var) ∧ s.pipelines[k]? = some (var, own) ∧
          (compileNodes ext m.1).map (fun e => (e.1, Spec.estText e.2)) =
            ext.map (fun p => (p.1, p.2.text)) ++ own) ∧
      s.steps = some ((encoding ++ ext).map (fun p => (p.1, p.2.text)) ++ [(ensembleVar, ensembleVar)]) := by
  refine ⟨_, rfl, rfl, ?_, ?_, ?_, rfl⟩
  · simp [Function.comp_def]
  · dsimp only
    rw [memberNames_length, List.length_map]
  · intro k m hk
    have hlt : k < members.length := (List.getElem?_eq_some_iff.1 hk).1
    refine ⟨memberVar k, (enumSteps strNonrecursive 0 m.1).reverse, ?_, ?_, ?_⟩
    · dsimp only
      rw [memberNames_get _ _ _ (by rw [List.length_map]; exact hlt), Nat.zero_add]
    · dsimp only
      rw [memberPipelines_get, List.getElem?_map, List.getElem?_map, List.getElem?_map, hk, Nat.zero_add]
      rfl
    · have hm : m ∈ members := List.mem_of_getElem? hk
      rw [compileNodes_eq, enumSteps_text m.1 0 (hn m hm)]
      simp [List.map_reverse, Spec.estText, Function.comp_def]

/-- Two members, with weights 2 and 1. -/
example : (ensembleScript (fun _ => []) id (some .regressor)
      [([sampleImputer], [sampleCell], 2), ([sampleImputer], [sampleCell], 1)]
      (some [sampleImputer])).toOption.map (fun s => (s.weights, s.members.map Prod.fst)) =
    some ([2, 1], [['0'], ['1']]) := by decide

/-- The variables of the members are different. -/
theorem C71_ensemble_vars {i j : Nat} (h : memberVar i = memberVar j) : i = j := by
  unfold memberVar at h
  have := List.append_cancel_left h
  injection this with _ h'
  exact natStr_inj h'

/-! ### The preprocessing of individuals -/

/-- The full claim C91: the individuals made in a fit apply the preprocessing of that fit. -/
def C91_claim : Prop :=
  ∀ (s : Compiling) (ext : List (Str × Transformer)) (es : List CompileEvent),
    (∀ e ∈ es, e = .new ∨ ∃ i, e = .copy i) →
    ∀ p ∈ (compileRun (compileStep s (.fit ext)) es).inds.drop s.inds.length, p = ext

theorem compileRun_all (ext : List (Str × Transformer)) : ∀ (es : List CompileEvent) (s : Compiling),
    s.safe = some ext → (∀ p ∈ s.inds, p = ext) → (∀ e ∈ es, e = .new ∨ ∃ i, e = .copy i) →
    ∀ p ∈ (compileRun s es).inds, p = ext := by
  intro es
  induction es with
  | nil => intro s _ h _; exact h
  | cons e es ih =>
    intro s hs h he
    unfold compileRun
    have key : (compileStep s e).safe = some ext ∧ ∀ p ∈ (compileStep s e).inds, p = ext := by
      rcases he e List.mem_cons_self with rfl | ⟨i, rfl⟩
      · refine ⟨hs, ?_⟩
        intro p hp
        rcases List.mem_append.1 hp with hp | hp
        · exact h p hp
        · rw [List.mem_singleton.1 hp, hs]; rfl
      · refine ⟨hs, ?_⟩
        intro p hp
        rcases List.mem_append.1 hp with hp | hp
        · exact h p hp
        · exact h p (List.mem_of_getElem? (Option.mem_toList.1 hp))
    exact ih _ key.1 key.2 fun e he' => he e (List.mem_cons_of_mem _ he')

/-- **C91** for the first fit, with individuals made by GAMA. -/
theorem C91_partial (ext : List (Str × Transformer)) (es : List CompileEvent)
    (he : ∀ e ∈ es, e = .new ∨ ∃ i, e = .copy i) :
    ∀ p ∈ (compileRun (compileStep ⟨none, []⟩ (.fit ext)) es).inds, p = ext :=
  compileRun_all ext es _ rfl (by intro p hp; cases hp) he

/-- In a second fit, the offspring of individuals of the first apply the preprocessing of the first. -/
theorem C91_false : ¬ C91_claim := by
  intro h
  have := h ⟨some [], [[]]⟩ [sampleImputer] [.copy 0] (by
    intro e he
    rw [List.mem_singleton.1 he]
    exact Or.inr ⟨0, rfl⟩) [] (by decide)
  revert this
  decide

example : (compileRun (compileStep ⟨none, []⟩ (.fit [sampleImputer])) [.new, .copy 0]).inds =
    [[sampleImputer], [sampleImputer]] := by decide

/-! ### Exclusions -/

/-- The full claim C92: the search space of a fit is the one configured, except for the algorithms
excluded because of the size of its data. -/
def C92_claim : Prop :=
  ∀ (h : Heavy) (m : Option Nat) (before : List (Nat × Nat)) (rows cols : Nat)
    (s : List Primitive × List Primitive),
    excludeRun h m (before ++ [(rows, cols)]) s = excludeHeavy h m rows cols s

/-- **C92** for a first fit, or if no earlier data was large or no models are kept. -/
theorem C92_partial (h : Heavy) (m : Option Nat) (before : List (Nat × Nat)) (rows cols : Nat)
    (s : List Primitive × List Primitive)
    (hb : m = some 0 ∨ ∀ d ∈ before, d.1 * d.2 ≤ 6000000 ∧ d.2 ≤ 50) :
    excludeRun h m (before ++ [(rows, cols)]) s = excludeHeavy h m rows cols s := by
  induction before generalizing s with
  | nil => rfl
  | cons d before ih =>
    have key : excludeHeavy h m d.1 d.2 s = s := by
      unfold excludeHeavy
      rcases hb with rfl | hb
      · rfl
      · obtain ⟨h1, h2⟩ := hb d List.mem_cons_self
        have h1' : ¬ d.1 * d.2 > 6000000 := by omega
        have h2' : ¬ d.2 > 50 := by omega
        simp [h1', h2']
    rw [List.cons_append]
    unfold excludeRun
    rw [key]
    refine ih s ?_
    rcases hb with hb | hb
    · exact Or.inl hb
    · exact Or.inr fun d' hd' => hb d' (List.mem_cons_of_mem _ hd')

theorem of_filter {b : Bool} {f : Primitive → Bool} {l : List Primitive} {p : Primitive}
    (h : p ∈ if b = true then l.filter f else l) : p ∈ l := by
  cases b
  · exact h
  · exact (List.mem_filter.1 h).1

theorem in_filter {b : Bool} {f : Primitive → Bool} {l : List Primitive} {p : Primitive}
    (h : p ∈ l) (hf : f p = true) : p ∈ if b = true then l.filter f else l := by
  cases b
  · exact h
  · exact List.mem_filter.2 ⟨h, hf⟩

/-- **C92.** Nothing but these algorithms is ever excluded, and nothing is added. -/
theorem C92_only (h : Heavy) (m : Option Nat) (ds : List (Nat × Nat))
    (s : List Primitive × List Primitive) (p : Primitive) :
    (h.neighbors.contains p.ident.uid = false → (p ∈ (excludeRun h m ds s).1 ↔ p ∈ s.1)) ∧
    (h.polynomial.contains p.ident.uid = false → (p ∈ (excludeRun h m ds s).2 ↔ p ∈ s.2)) ∧
    (p ∈ (excludeRun h m ds s).1 → p ∈ s.1) ∧ (p ∈ (excludeRun h m ds s).2 → p ∈ s.2) := by
  induction ds generalizing s with
  | nil => exact ⟨fun _ => Iff.rfl, fun _ => Iff.rfl, id, id⟩
  | cons d ds ih =>
    unfold excludeRun
    obtain ⟨h1, h2, h3, h4⟩ := ih (excludeHeavy h m d.1 d.2 s)
    have e1 : p ∈ (excludeHeavy h m d.1 d.2 s).1 → p ∈ s.1 := by
      unfold excludeHeavy
      dsimp only
      intro hp
      exact of_filter hp
    have e2 : p ∈ (excludeHeavy h m d.1 d.2 s).2 → p ∈ s.2 := by
      unfold excludeHeavy
      dsimp only
      intro hp
      exact of_filter hp
    refine ⟨fun hp => ⟨fun hx => e1 (h3 hx), fun hx => (h1 hp).2 ?_⟩,
      fun hp => ⟨fun hx => e2 (h4 hx), fun hx => (h2 hp).2 ?_⟩, fun hx => e1 (h3 hx),
      fun hx => e2 (h4 hx)⟩
    · unfold excludeHeavy
      dsimp only
      exact in_filter hx (by rw [hp]; rfl)
    · unfold excludeHeavy
      dsimp only
      exact in_filter hx (by rw [hp]; rfl)

/-- **C92.** For large data, with models kept, these algorithms are excluded. -/
theorem C92_excluded (h : Heavy) (m : Option Nat) (rows cols : Nat)
    (s : List Primitive × List Primitive) (p : Primitive) (hm : m ≠ some 0) :
    (rows * cols > 6000000 → p.ident.uid ∈ h.neighbors → p ∉ (excludeHeavy h m rows cols s).1) ∧
    (cols > 50 → p.ident.uid ∈ h.polynomial → p ∉ (excludeHeavy h m rows cols s).2) := by
  have hs : storesModels m = true := by
    cases m with
    | none => rfl
    | some k =>
      have : k ≠ 0 := fun e => hm (by rw [e])
      simp [storesModels]; omega
  unfold excludeHeavy
  dsimp only
  rw [hs]
  constructor
  · intro hl hn hp
    rw [if_pos (by simpa using hl)] at hp
    have := (List.mem_filter.1 hp).2
    simp [hn] at this
  · intro hl hn hp
    rw [if_pos (by simpa using hl)] at hp
    have := (List.mem_filter.1 hp).2
    simp [hn] at this

/-- An algorithm excluded for one data set is not there for the next, however small that is. -/
theorem C92_false : ¬ C92_claim := by
  intro h
  have := h ⟨[7], []⟩ none [(3000, 3000)] 10 2 ([sampleCell.prim], [])
  have h2 := congrArg (fun r => r.1.length) this
  revert h2
  decide

/-! ### Cases of the theorems above -/

/-- `C70_steps`, `C70_names`, `C70_estimator_last`: the pipeline of the example above, after an imputer. -/
example (r : Stream) : compileIndividual [sampleImputer] 0 (Ex.w0 r) =
    (.ok ((['i', 'm', 'p'], Est.fixed sampleImputer.2) :: Spec.ownSteps Spec.estOf Ex.long), Ex.w0 r) :=
  C70_steps Ex.space_ok [sampleImputer] 0 _ _ (Ex.is_long r) Ex.long_ok

example (r : Stream) : ∃ s, compileIndividual [sampleImputer] 0 (Ex.w0 r) = (.ok s, Ex.w0 r) ∧
    (s.map Prod.fst).Nodup :=
  C70_names _ 0 _ _ (Ex.is_long r) (by simp) (by
    intro p hp
    cases List.mem_singleton.1 hp
    exact fun h => absurd (h.2 'i' (by simp [sampleImputer])).2 (by decide))

/-- `C71_imports`, `C71_names_partial`: the script of the example above. -/
example : ∃ s, exportBestFit (fun _ => []) id (some ([sampleImputer], [sampleCell])) none [sampleImputer] = .ok s ∧
    ⟨['n', 'b'], ['N', 'B']⟩ ∈ s.imports ∧ ⟨['i'], ['I']⟩ ∈ s.imports := by
  obtain ⟨s, h, _⟩ := C71_partial (fun _ => []) id [sampleCell] none [sampleImputer] (by simp [sampleCell])
  have hi := C71_imports (fun _ => []) id (fun _ _ => Iff.rfl) _ _ _ _ _ h
  exact ⟨s, h, hi.1 (['0'], .built sampleCell.prim.ident []) (by decide +kernel), hi.2.1 sampleImputer (by simp)⟩

example (s : Script) (h : exportBestFit (fun _ => []) id (some ([sampleImputer], [sampleCell])) none [sampleImputer] = .ok s) :
    ∃ b, Spec.runImports (fun _ n => some (if n = ['N', 'B'] then 7 else if n = ['I'] then 8 else 0)) s.imports
      (fun _ => none) = some b ∧ b ['N', 'B'] = some 7 := by
  obtain ⟨b, hb, hn⟩ := C71_names_partial (fun _ n => some (if n = ['N', 'B'] then 7 else if n = ['I'] then 8 else 0))
    (fun _ => []) id [sampleImputer] [sampleCell] none [sampleImputer] s (fun _ _ => Iff.rfl) h (fun _ _ => ⟨_, rfl⟩)
    (by decide +kernel) (fun i _ j _ e => by rw [e])
  exact ⟨b, hb, hn (['0'], .built sampleCell.prim.ident []) (by decide +kernel)⟩

/-- `C71_private_module`, `C71_values_partial`. -/
example : Spec.readLiteral (Value.fmt (.str ['a', ' ', '"'])) = some ['a', ' ', '"'] :=
  C71_values_partial _ (by decide)

/-- `C92_partial`, `C92_only`, `C92_excluded`: class 0 is slow on seven million values, class 3 on a hundred columns. -/
example (s : List Primitive × List Primitive) (p : Primitive) (h0 : p.ident.uid = 0) :
    excludeRun ⟨[0], [3]⟩ none ([(10, 10)] ++ [(70000, 100)]) s = excludeHeavy ⟨[0], [3]⟩ none 70000 100 s ∧
    p ∉ (excludeHeavy ⟨[0], [3]⟩ none 70000 100 s).1 ∧
    (p ∈ (excludeRun ⟨[0], [3]⟩ none [(70000, 100)] s).2 ↔ p ∈ s.2) :=
  ⟨C92_partial _ _ _ _ _ _ (.inr (by simp)),
    (C92_excluded ⟨[0], [3]⟩ none 70000 100 s p nofun).1 (by decide) (by simp [h0]),
    (C92_only ⟨[0], [3]⟩ none [(70000, 100)] s p).2.1 (by simp [h0])⟩

end Gama
