import Verif.Props.Individuals
import Verif.Props.Async2
import Verif.Props.Front
import Verif.Props.Export
import Verif.Props.Loading
import Verif.Props.Logs

/-!
# What happens where a property does not hold (C11, C12, C33, C65, C68, C74, C91, C96)

For properties that are false of the code: what the code does instead, or exactly when they hold.
-/

namespace Gama
open PyM Spec

/-! ### C11, C12: positions outside the pipeline -/

/-- **C11**, the position that should be refused and is not: nothing changes. -/
theorem C11_at_end {w : World} {i : Nat} {as : List Addr} {ss : List Step} {pos : Nat} {new : Terminal}
    (his : IsAt w i as ss) (hp : pos = (allTerms ss).length) : replaceTerminal i pos new w = (.ok (), w) := by
  obtain ⟨ind, l, hi, hc, rfl, rfl⟩ := isAt_iff.1 his
  have hw : wp (replaceTerminal i pos new) (fun _ w' => w' = w) (fun _ _ => False) w := by
    refine wp_replaceTerminal hi hc ?_ (fun _ => rfl) (fun h => by omega)
    intro pre a s post k hl hpos hk
    exfalso
    rw [hl] at hp
    simp only [allTerms, steps, List.map_append, List.map_cons, List.flatMap_append, List.flatMap_cons,
      List.length_append] at hp hpos
    omega
  cases hr : replaceTerminal i pos new w with
  | mk r w' =>
    cases r with
    | ok u => have := wp_ok hw hr; subst this; rfl
    | error e => exact (wp_error hw hr).elim

example (r : Stream) : replaceTerminal 0 3 Ex.whitF (Ex.w0 r) = (.ok (), Ex.w0 r) :=
  C11_at_end (as := [0, 1, 2]) (ss := Ex.long)
    ⟨rfl, { main := 0 }, rfl, rfl, some 1, rfl, rfl, some 2, rfl, rfl, none, rfl, rfl⟩ rfl

/-- **C12**, the positions that should be refused and are not: the step, whatever its kind, becomes the first to be
applied to the data, and the others are kept. -/
theorem C12_outside {w : World} {i : Nat} {as : List Addr} {ss : List Step} {pos : Nat} {new : Addr} {s' : Step}
    (his : IsAt w i as ss) (hnew : w.nodes[new]? = some ⟨s'.prim, s'.terms, none⟩) (hn : new ∉ as)
    (hp : ss.length ≤ pos) : ∃ w', replacePrimitive i pos new w = (.ok (), w') ∧ Is w' i (ss ++ [s']) := by
  obtain ⟨ind, l, hi, hc, rfl, rfl⟩ := isAt_iff.1 his
  have hw : wp (replacePrimitive i pos new) (fun _ w' => Is w' i (steps l ++ [s'])) (fun _ _ => False) w := by
    apply wp_replacePrimitive hi hc hnew hn
    · intro pre a s post hl hlen
      exfalso
      rw [hl] at hp
      simp only [steps, List.map_append, List.map_cons, List.length_append, List.length_cons, List.length_map] at hp
      omega
    · intro _ w' ind' h1 h2 _ _ _ _
      refine is_iff.2 ⟨ind', _, h1, h2, ?_⟩
      simp [steps]
  cases hr : replacePrimitive i pos new w with
  | mk r w' =>
    cases r with
    | ok u =>
      have h := wp_ok hw hr
      exact ⟨w', rfl, h⟩
    | error e => exact (wp_error hw hr).elim

example (r : Stream) : ∃ w', replacePrimitive 0 7 3 (Ex.w0 r) = (.ok (), w') ∧
    Is w' 0 (Ex.long ++ [⟨Ex.pNB, [Ex.alpha2]⟩]) :=
  C12_outside (as := [0, 1, 2])
    ⟨rfl, { main := 0 }, rfl, rfl, some 1, rfl, rfl, some 2, rfl, rfl, none, rfl, rfl⟩ rfl (by decide) (by decide)

/-! ### C33: the arguments a job is run with -/

section
variable {Fn V E Ω : Type}

/-- The process-wide defaults, the job's own arguments filling in. -/
def Spec.defaultsFirst (given defaults : List (Str × V)) (k : Str) : Option V :=
  match dget defaults k with
  | some v => some v
  | none => dget given k

theorem dget_dmerge_eq {a b : List (Str × V)} (hb : DictOK b) : dget (dmerge a b) = defaultsFirst a b := by
  funext k
  unfold dmerge
  induction b generalizing a with
  | nil => rfl
  | cons x b ih =>
    obtain ⟨q, v⟩ := x
    have hb' : q ∉ b.map Prod.fst ∧ DictOK b := List.nodup_cons.1 hb
    rw [List.foldl_cons, ih hb'.2]
    unfold defaultsFirst
    simp only [dget]
    by_cases e : q = k
    · subst e
      rw [dget_eq_none.2 hb'.1, if_pos rfl]
      simp only [dget_dset, if_true]
    · rw [if_neg e]
      cases dget b k with
      | some u => rfl
      | none => simp only [dget_dset, if_neg e]

/-- The jobs in which a call with other arguments than those of `D` would end the worker. -/
noncomputable def strictJobs (J : Jobs Fn V E Ω) (D : List (Str × V)) : Jobs Fn V E Ω := by
  classical exact
  { J with
    call := fun fn args kw ω =>
      if ∀ k v, dget D k = some v → kw k = some v then J.call fn args kw ω else .escapes }

theorem strict_step (J : Jobs Fn V E Ω) (D : List (Str × V)) (hD : DictOK D) (s : Evaluator Fn V E)
    (hs : s.defaults = D) (e : AsyncEvent Fn V Ω) : asyncStep (strictJobs J D) s e = asyncStep J s e := by
  have hx : ∀ f ω, execute (strictJobs J D) f s.defaults ω = execute J f s.defaults ω := by
    intro f ω
    unfold execute
    have : (strictJobs J D).call f.fn f.args (dget (dmerge f.kwargs s.defaults)) ω =
        J.call f.fn f.args (dget (dmerge f.kwargs s.defaults)) ω := by
      refine if_pos ?_
      intro k v hk
      rw [hs, dget_dmerge_eq hD]
      unfold defaultsFirst
      rw [hk]
    rw [this]
  cases e with
  | worker pid a =>
    have : workerStep (strictJobs J D) pid a s = workerStep J pid a s := by
      cases a with
      | finish ω =>
        simp only [workerStep, hx]
        rfl
      | _ => rfl
    simp only [asyncStep, this]
  | _ => rfl

theorem strict_run (J : Jobs Fn V E Ω) (n : Nat) (limit : Option ℚ) (logfile : Bool) (D : List (Str × V))
    (hD : DictOK D) (es : List (AsyncEvent Fn V Ω)) :
    asyncRun (strictJobs J D) es (entered n limit logfile D) = asyncRun J es (entered n limit logfile D) := by
  suffices H : ∀ (es : List (AsyncEvent Fn V Ω)) tr s, Good J D tr s →
      asyncRun (strictJobs J D) es s = asyncRun J es s from H es [] _ (good_entered J n limit logfile D)
  intro es
  induction es with
  | nil => intro tr s _; rfl
  | cons e es ih =>
    intro tr s hg
    have h1 := strict_step J D hD s hg.defaults e
    have h2 := ih _ _ (hg.step e)
    simp only [asyncRun, h1, h2]

/-- **C33**, what is true of every job: a returned job ran with the process-wide defaults, to which its own arguments
were added where there is no default of the name. -/
theorem C33_exact (J : Jobs Fn V E Ω) (n : Nat) (limit : Option ℚ) (logfile : Bool) (D : List (Str × V))
    (es : List (AsyncEvent Fn V Ω)) (f : Future Fn V E) (hD : DictOK D) (hk : DictOK f.kwargs)
    (hf : .returned f ∈ (asyncRun J es (entered n limit logfile D)).1) :
    ReportsWith J (defaultsFirst f.kwargs D) f f := by
  rw [← strict_run J n limit logfile D hD es] at hf
  obtain ⟨pre, post, he⟩ := List.append_of_mem hf
  obtain ⟨⟨j, -, ⟨-, h1, h2, h4⟩, kw, ω, h5, h3⟩, -⟩ :=
    (C28_own_result (strictJobs J D) n limit logfile D es).1 pre f post he
  by_cases hc : ∀ k v, dget D k = some v → kw k = some v
  · have e : (strictJobs J D).call j.fn j.args kw ω = J.call j.fn j.args kw ω := if_pos hc
    rw [e, h1, h2] at h3
    have hkw : kw = defaultsFirst f.kwargs D := by
      rw [h4] at h5
      funext k
      obtain ⟨ha, hb⟩ := h5 k
      unfold defaultsFirst
      cases hd : dget D k with
      | some v => exact hc k v hd
      | none =>
        dsimp only
        have hn := dget_eq_none.1 hd
        cases hkw : kw k with
        | some v =>
          rcases ha v hkw with hv | hv
          · exact (dget_of_mem hk hv).symm
          · exact absurd (List.mem_map_of_mem (f := Prod.fst) hv) hn
        | none =>
          cases hg : dget f.kwargs k with
          | none => rfl
          | some v => exact absurd hkw (hb v (Or.inl (dget_mem hg)))
    rw [hkw] at h3
    exact ⟨ω, h3⟩
  · have e : (strictJobs J D).call j.fn j.args kw ω = .escapes := if_neg hc
    rw [e] at h3
    exact h3.elim

/-- The default for `x` is used, not the value given. -/
example : ReportsWith Ex.kwJobs (defaultsFirst [(['x'], 1)] [(['x'], 2)])
    ⟨0, 0, [], [(['x'], 1)], some 2, none⟩ ⟨0, 0, [], [(['x'], 1)], some 2, none⟩ :=
  C33_exact Ex.kwJobs 1 none false [(['x'], 2)] Ex.kwRun ⟨0, 0, [], [(['x'], 1)], some 2, none⟩
    (by simp [DictOK]) (by simp [DictOK]) (by
      have : (asyncRun Ex.kwJobs Ex.kwRun (entered 1 none false [(['x'], 2)])).1 =
        [.submitted ⟨0, 0, [], [(['x'], 1)], none, none⟩, .nothing, .nothing, .nothing,
          .returned ⟨0, 0, [], [(['x'], 1)], some 2, none⟩] := rfl
      rw [this]; simp)

end

/-! ### C65: the default number of jobs -/

/-- **C65** exactly: without a number of jobs the construction succeeds if and only if there are two cores. -/
theorem C65_exact (a : InitArgs) (p : Place) (hp : Usable p) (hg : GoodArgs a) (hn : a.nJobs = none) :
    (∃ i p', gamaInit a p = (.ok i, p')) ↔ 2 ≤ a.cpus := by
  constructor
  · rintro ⟨i, p', h⟩
    by_contra hc
    have hj : resolveJobs a = 0 := by
      unfold resolveJobs
      rw [hn]
      simp only
      omega
    have hr : refused a = true := by
      unfold refused
      simp [hj]
    revert h
    unfold gamaInit
    rw [if_pos hg.preset]
    split
    · intro h; cases h
    · split
      · intro h; cases h
      · rw [if_pos hr]
        split <;> (intro h; cases h)
  · intro hc
    obtain ⟨i, p', h, _⟩ := C65_partial a p hp hg hn hc
    exact ⟨i, p', h⟩

/-- One core: refused. -/
example : ¬ ∃ i p', gamaInit { sampleArgs with nJobs := none, cpus := 1 } (.missing true) = (.ok i, p') := by
  rw [C65_exact _ _ (Or.inl rfl) ⟨rfl, ⟨3600, rfl, by omega⟩, fun t h => by cases h; omega, rfl, rfl, Or.inl rfl⟩ rfl]
  decide

/-! ### C68: the settings of the evaluator -/

/-- **C68**, what is true of every fit: the evaluator has the workers and the memory limit of the instance constructed
last, whichever instance is fitted. -/
theorem C68_last (before between after : List GamaEvent) (i j : Nat) (w : Int) (m : Option Nat)
    (hb : ∀ e ∈ between, ∃ j, e = .fit j) :
    (evaluatorRun none ((before ++ .construct j w m :: between) ++ .fit i :: after))[
        ((before ++ .construct j w m :: between).filter fun e =>
          match e with | .fit _ => true | _ => false).length]? = some (i, some ⟨w, m, j⟩) := by
  have h := C68_partial before between after j w m hb
  refine (evaluatorRun_at _ _ _ _).trans ?_
  have h' := (evaluatorRun_at none (before ++ .construct j w m :: between) after j).symm.trans h
  injection h' with h'
  injection h' with _ h'
  rw [h']

example : evaluatorRun none [.construct 0 1 none, .construct 1 8 (some 100), .fit 0, .fit 1] =
    [(0, some ⟨8, some 100, 1⟩), (1, some ⟨8, some 100, 1⟩)] := by decide

/-! ### C74: handlers -/

/-- **C74** exactly, for stream handlers with an attribute `tag`: after a construction there is GAMA's own, and of the
user's those installed since. -/
theorem C74_exact (hs : List Handler) (before after : List HandlerEvent) (id v d : Nat) (st : Bool)
    (ha : ∀ e ∈ after, ∃ h, e = .add h) :
    (handlerRun hs (before ++ .construct id v st d :: after)).filter Console =
      ⟨id, true, true, v, none⟩ :: (installed after).filter Console := by
  have hrun : handlerRun hs (before ++ .construct id v st d :: after) =
      handlerRun (handlerStep (handlerRun hs before) (.construct id v st d)) after := by
    unfold handlerRun
    rw [List.foldl_append, List.foldl_cons]
  rw [hrun]
  have hcon : (handlerStep (handlerRun hs before) (.construct id v st d)).filter Console
      = [⟨id, true, true, v, none⟩] := by
    cases st with
    | false => simpa [handlerStep, initHandlers] using register_console id v _
    | true =>
      simp only [handlerStep, initHandlers, if_true, List.filter_append, register_console]
      simp [Console]
  have key : ∀ (after : List HandlerEvent) (l : List Handler), (∀ e ∈ after, ∃ h, e = .add h) →
      handlerRun l after = l ++ installed after := by
    intro after
    induction after with
    | nil => intro l _; exact (List.append_nil l).symm
    | cons e after ih =>
      intro l h
      obtain ⟨x, rfl⟩ := h e List.mem_cons_self
      show handlerRun (handlerStep l (.add x)) after = _
      rw [ih _ fun e he => h e (List.mem_cons_of_mem _ he)]
      simp [handlerStep, installed]
  rw [key after _ ha, List.filter_append, hcon]
  rfl

example : (handlerRun [⟨7, true, true, 0, none⟩] [.construct 1 30 false 5, .add ⟨8, true, true, 0, none⟩]).filter
    Console = [⟨1, true, true, 30, none⟩, ⟨8, true, true, 0, none⟩] := by decide

/-! ### C91: preprocessing in later fits -/

/-- **C91** for every fit, of individuals made in it that do not go back to one of an earlier fit. -/
theorem C91_later (s : Compiling) (ext : List (Str × Transformer)) (es : List CompileEvent)
    (he : ∀ e ∈ es, e = .new ∨ ∃ i, s.inds.length ≤ i ∧ e = .copy i) :
    ∀ p ∈ (compileRun (compileStep s (.fit ext)) es).inds.drop s.inds.length, p = ext := by
  suffices H : ∀ (es : List CompileEvent) (t : Compiling) (new : List (List (Str × Transformer))),
      (∀ e ∈ es, e = .new ∨ ∃ i, s.inds.length ≤ i ∧ e = .copy i) → t.safe = some ext →
      t.inds = s.inds ++ new → (∀ p ∈ new, p = ext) →
      ∀ p ∈ (compileRun t es).inds.drop s.inds.length, p = ext from
    H es _ [] he rfl (List.append_nil _).symm (by intro p hp; cases hp)
  intro es
  induction es with
  | nil =>
    intro t new _ _ hi hn p hp
    have : (compileRun t []).inds = s.inds ++ new := hi
    rw [this, List.drop_left] at hp
    exact hn p hp
  | cons e es ih =>
    intro t new he hs hi hn
    have he' : ∀ e ∈ es, e = .new ∨ ∃ i, s.inds.length ≤ i ∧ e = .copy i :=
      fun e h => he e (List.mem_cons_of_mem _ h)
    rcases he e List.mem_cons_self with rfl | ⟨i, hle, rfl⟩
    · refine ih (compileStep t .new) (new ++ [ext]) he' hs ?_ ?_
      · simp [compileStep, hs, hi]
      · intro p hp
        rcases List.mem_append.1 hp with hp | hp
        · exact hn p hp
        · exact List.mem_singleton.1 hp
    · refine ih (compileStep t (.copy i)) (new ++ (t.inds[i]?).toList) he' hs ?_ ?_
      · simp [compileStep, hi]
      · intro p hp
        rcases List.mem_append.1 hp with hp | hp
        · exact hn p hp
        · have := Option.mem_toList.1 hp
          rw [hi, List.getElem?_append_right hle] at this
          exact hn p (List.mem_of_getElem? this)

example : (compileRun (compileStep ⟨some [], [[]]⟩ (.fit [sampleImputer])) [.new, .copy 1]).inds.drop 1 =
    [[sampleImputer], [sampleImputer]] := by decide

/-! ### C96: names of files -/

/-- **C96** exactly: metadata is read of the files whose data can be loaded, and besides of those whose name ends in
`.arff` with capitals. -/
theorem C96_exact (path : Str) : metadataReader path = dataReader path ↔
    ((∃ q, path.map Char.toLower = q ++ ['.', 'a', 'r', 'f', 'f']) → ∃ q, path = q ++ ['.', 'a', 'r', 'f', 'f']) := by
  have ha : endsIn arffExtension path = true ↔ ∃ q, path = q ++ ['.', 'a', 'r', 'f', 'f'] := endsIn_iff _ _
  have hl : endsIn arffExtension (lowerStr path) = true ↔
      ∃ q, path.map Char.toLower = q ++ ['.', 'a', 'r', 'f', 'f'] := endsIn_iff _ _
  rw [← ha, ← hl]
  constructor
  · intro h h1
    have h2 : dataReader path = .ok .arff := by rw [← h]; unfold metadataReader; rw [if_pos h1]
    unfold dataReader at h2
    split_ifs at h2 with h3
    · exact h3
    · cases h2
  · intro h
    cases hd : dataReader path with
    | ok k => exact ((C96_partial path k).1 hd)
    | error e =>
      unfold dataReader at hd
      split_ifs at hd with h3 h4
      injection hd with hd
      unfold metadataReader
      rw [if_neg (fun h5 => h3 (h h5))]
      split_ifs
      · rw [hd]
      · rw [hd]

/-- `d.CSV` is refused in both ways. -/
example : metadataReader ['d', '.', 'C', 'S', 'V'] = dataReader ['d', '.', 'C', 'S', 'V'] := by
  rw [C96_exact]
  rintro ⟨q, hq⟩
  have := congrArg List.getLast? hq
  simp at this

end Gama
