import Verif.Lemmas.Trained
import Verif.Props.Whole3

/-!
# The pipeline that a whole fit trains by default (C162)

From the evaluations that a search was told of to best-fit post-processing.
-/

namespace Gama
open PyM Spec

theorem trained_ok {w : World} {r : SearchEnd Nat} {pop : List Nat} (h : searchPhase r = .ok pop) :
    trained w r = trainedOf pop w := by
  unfold trained
  rw [h]

section
variable {Fn V X Ω E P : Type}

/-- Evaluation `g` is of the pipeline that is trained: it has no error, its scores are those of the evaluation
that is best on every objective, if there is one, and no other is better if there is room for all. -/
structure Spec.BestTold (size : Nat) (told : List (EvalRec E P (List Score))) (g : EvalRec E P (List Score)) :
    Prop where
  mem : g ∈ told
  ok : g.error = none
  dominant : ∀ b ∈ told, b.error = none → (∀ b' ∈ told, b'.error = none → Below b'.score b.score) →
    g.score = b.score
  few : (told.filter fun b => b.error.isNone).length ≤ size → ∀ b ∈ told, b.error = none → ¬ LexLt g.score b.score

/-- What is trained, if `T` is known of all that the search was told. -/
theorem evolution_trained {c : OpConfig} {cxpb : ℚ} {maxN : Option Int} {size : Nat} (hz : 0 < size)
    {K : Coding Fn V Nat} {Jb : Jobs Fn V X Ω} {report : V → Findings E P} {lib : LibConfig} {D : List (Str × V)}
    {T : Ea World Nat → EvalRec E P (List Score) → Prop} {s : Ea World Nat}
    (hn : (s.history.map Prod.fst).Nodup)
    (hfit : LastFit (evolution c cxpb maxN size K Jb report lib) D T s) (hbest : BestKept size s)
    (hpc : s.pc = .loop ∨ s.pc = .returned) :
    ∃ told, List.Forall₂ (ToldAs (evolution c cxpb maxN size K Jb report lib) D) (results s.history) told ∧
      (∀ r ∈ told, T s r) ∧
      ((∀ g ∈ told, g.error ≠ none) → trainedOf s.population s.world = .error .indexError) ∧
      ((∃ g ∈ told, g.error = none) →
        ∃ g, BestTold size told g ∧ trainedOf s.population s.world = .ok g.ident) := by
  obtain ⟨told, t1, t2, t3, t4⟩ :=
    fits_of_last (U := evolution c cxpb maxN size K Jb report lib) (fun _ => rfl) hn hfit
  refine ⟨told, t1, t4, ?_⟩
  have hsucc : succeeded s.history = (told.filter fun r => r.error.isNone).map EvalRec.ident :=
    told_succeeded (U := evolution c cxpb maxN size K Jb report lib) (fun _ => rfl) t1
  have hof : ∀ z ∈ succeeded s.history, ∃ r ∈ told, r.error = none ∧ r.ident = z := by
    intro z hz
    rw [hsucc] at hz
    obtain ⟨r, hr, rfl⟩ := List.mem_map.1 hz
    obtain ⟨h1, h2⟩ := List.mem_filter.1 hr
    exact ⟨r, h1, by simpa using h2, rfl⟩
  have hin : ∀ r ∈ told, r.error = none → r.ident ∈ succeeded s.history := by
    intro r hr he
    rw [hsucc]
    exact List.mem_map.2 ⟨r, List.mem_filter.2 ⟨hr, by simp [he]⟩, rfl⟩
  have hkept : KeptAt size (succeeded s.history) s.population ∧
      ∀ v, (∀ y ∈ succeeded s.history, Below (valuesIn s.world y) v) →
        (∃ y ∈ succeeded s.history, valuesIn s.world y = v) → ∃ y ∈ s.population, valuesIn s.world y = v := by
    rcases hbest with ⟨c, h, -⟩ | ⟨⟨-, h1⟩, h2⟩
    · rcases hpc with hpc | hpc <;> rw [hpc] at h <;> cases h
    · rw [List.drop_zero] at h1
      unfold BestAt at h2
      rcases hpc with hpc | hpc <;>
      · rw [hpc] at h1 h2
        exact ⟨h1, fun v => by have := h2 v; rwa [List.drop_zero] at this⟩
  obtain ⟨hat, hbest⟩ := hkept
  have hvals : ∀ x ∈ s.population, ∃ v, HasFitness s.world x v := by
    intro x hx
    obtain ⟨r, h1, -, rfl⟩ := hof x (hat.sub.subset hx)
    exact ⟨_, t3 r h1⟩
  rw [trainedOf_eq hvals]
  have hv : ∀ r ∈ told, valuesIn s.world r.ident = r.score := fun r hr => valuesIn_of (t3 r hr)
  constructor
  · intro hno
    refine (C48_best_fit _ _).1 ?_
    have : succeeded s.history = [] := by
      rw [List.eq_nil_iff_forall_not_mem]
      intro z hz
      obtain ⟨r, h1, h2, -⟩ := hof z hz
      exact hno r h1 h2
    have h1 := hat.count
    rw [this] at h1
    exact List.length_eq_zero_iff.1 (by simpa using h1)
  · rintro ⟨g₀, h1, h2⟩
    have hne : s.population ≠ [] := by
      intro h
      have h3 := hat.count
      have := List.length_pos_of_mem (hin g₀ h1 h2)
      rw [h, List.length_nil] at h3
      omega
    obtain ⟨x, hx, he, hmax⟩ := (C48_best_fit (valuesIn s.world) s.population).2 hne
    obtain ⟨g, g1, g2, g3⟩ := hof x (hat.sub.subset hx)
    subst g3
    refine ⟨g, ⟨g1, g2, ?_, ?_⟩, he⟩
    · intro b hb hbe hall
      obtain ⟨y, hy, hyv⟩ := hbest b.score (by
          intro y hy
          obtain ⟨r, r1, r2, rfl⟩ := hof y hy
          rw [hv r r1]
          exact hall r r1 r2) ⟨b.ident, hin b hb hbe, hv b hb⟩
      by_contra hne
      refine hmax y hy ?_
      rw [hyv, hv g g1]
      exact lexLt_of_below (hall g g1 g2) hne
    · intro hfew b hb hbe
      have hlen : (succeeded s.history).length ≤ size := by rw [hsucc, List.length_map]; exact hfew
      have hperm : s.population.Perm (succeeded s.history) :=
        hat.sub.perm_of_length_le (by rw [hat.count]; omega)
      have := hmax b.ident (hperm.symm.subset (hin b hb hbe))
      rwa [hv g g1, hv b hb] at this

/-- **C162** for evolution that was not restarted.  Whatever the schedule of the workers and whatever happens to
them, when the search has returned or is cut off while it waits: the pipeline trained is one that the search was
told was evaluated without an error.  Its scores are those of the evaluation that is best on every objective, if
there is one, and it is the best of all if the population has room for all.  `fit` fails only if none
succeeded. -/
theorem C162_evolution_partial (c : OpConfig) (cxpb : ℚ) (maxN : Option Int) {size : Nat} (hz : 0 < size)
    {K : Coding Fn V Nat} {Jb : Jobs Fn V X Ω} {report : V → Findings E P} {lib : LibConfig} (hK : Faithful K Jb)
    (ha : Agrees (evolution c cxpb maxN size K Jb report lib)) {k : Nat}
    (hs : ScoresAre (evolution c cxpb maxN size K Jb report lib) k) {l : List Nat} (hl : l.Nodup) (out : List Nat)
    {w : World} (hw : ∀ x ∈ l, x < w.inds.length) (lib₀ : Lib E P (List Score)) (n : Nat) (limit : Option ℚ)
    (logfile : Bool) (D : List (Str × V)) (es : List (WholeEvent Bool Ω)) (hes : Unrestarted es) :
    let U := evolution c cxpb maxN size K Jb report lib
    let s := (wholeRun U es (wholeStart (eaStart (.list l) out w) lib₀ n limit logfile D)).joint.search
    (s.pc = .loop ∨ s.pc = .returned) → ∃ told, List.Forall₂ (ToldAs U D) (results s.history) told ∧
      ∀ e, CutOff e → ∃ r, eaEnd (some e) s = some r ∧
        ((∀ g ∈ told, g.error ≠ none) → trained s.world r = .error .indexError) ∧
        ((∃ g ∈ told, g.error = none) → ∃ g, BestTold size told g ∧ trained s.world r = .ok g.ident) := by
  intro U s hpc
  have hC := evolveClient_lawful c cxpb maxN size
  have hmoves : Moves (steady c cxpb maxN size K Jb report lib) D (eaStart (.list l) out w, lib₀)
      (wholeRun U es (wholeStart (eaStart (.list l) out w) lib₀ n limit logfile D)).core := by
    rw [← steady_run es hes]
    exact whole_moves (U := steady c cxpb maxN size K Jb report lib) hC
      (fun _ _ _ _ h => congrArg Ea.pending h) hK ha rfl rfl rfl lib₀ n limit logfile D es
  obtain ⟨hfit, hbest⟩ := steady_best hz hs hl hw hmoves
  have hev := steady_moves hmoves
  have hap := evolution_apart hl hw hev
  have hn := history_nodup (U := U) (List.nodup_append.1 hap.once).1 (history_subperm hC rfl hev)
  obtain ⟨told, t1, -, t2, t3⟩ := evolution_trained hz hn hfit hbest hpc
  refine ⟨told, t1, fun e he => ?_⟩
  obtain ⟨r, r1, r2⟩ : ∃ r, eaEnd (some e) s = some r ∧ searchPhase r = .ok s.population := by
    unfold eaEnd
    rcases hpc with hpc | hpc <;> rw [hpc]
    · refine ⟨_, rfl, ?_⟩
      rcases he with rfl | rfl <;> rfl
    · exact ⟨_, rfl, rfl⟩
  exact ⟨r, r1, by rw [trained_ok r2]; exact t2, by rw [trained_ok r2]; exact t3⟩

/-- **C162** for random search, in a first fit: the pipeline trained is one that the search was told of, and
none that it was told of has better scores, failed or not.  `fit` fails only if it was told of none. -/
theorem C162_random_search (c : OpConfig) (cxpb : ℚ) (maxN : Option Int)
    {K : Coding Fn V Nat} {Jb : Jobs Fn V X Ω} {report : V → Findings E P} {lib : LibConfig} (hK : Faithful K Jb)
    (ha : Agrees (randomSearching c cxpb maxN K Jb report lib)) {l : List Nat} (hl : l.Nodup)
    {w : World} (hw : ∀ x ∈ l, x < w.inds.length) (lib₀ : Lib E P (List Score)) (n : Nat) (limit : Option ℚ)
    (logfile : Bool) (D : List (Str × V)) (es : List (WholeEvent Unit Ω)) :
    let U := randomSearching c cxpb maxN K Jb report lib
    let s := (wholeRun U es (wholeStart (rsStart (.list l) [] w) lib₀ n limit logfile D)).joint.search
    (s.pc = .loop ∨ s.pc = .returned) → ∃ told, List.Forall₂ (ToldAs U D) (results s.history) told ∧
      ∀ e, CutOff e → ∃ r, rsEnd (some e) s = some r ∧
        (told = [] → trained s.world r = .error .indexError) ∧
        (told ≠ [] → ∃ g ∈ told, trained s.world r = .ok g.ident ∧ ∀ b ∈ told, ¬ LexLt g.score b.score) := by
  intro U s hpc
  have hmoves := whole_moves (U := U) (rsClient_lawful (gamaOps c cxpb) maxN) (fun _ _ _ _ h => congrArg Rs.pending h)
    hK ha (start := rsStart (.list l) [] w) rfl rfl rfl lib₀ n limit logfile D es
  have hap := random_apart hl hw hmoves
  have hn := history_nodup (U := U) (List.nodup_append.1 hap.once).1
    (history_subperm (rsClient_lawful (gamaOps c cxpb) maxN) rfl hmoves)
  obtain ⟨told, t1, -, t3, -⟩ := fits_of_last (U := U) (fun _ => rfl) hn (random_fit hl hw hmoves)
  have hout : s.output = reported s.history :=
    random_output hK ha l [] w lib₀ n limit logfile D es hpc
  have hrep : reported s.history = told.map EvalRec.ident := told_reported (U := U) (fun _ => rfl) t1
  rw [hrep] at hout
  refine ⟨told, t1, fun e he => ?_⟩
  obtain ⟨r, r1, r2⟩ : ∃ r, rsEnd (some e) s = some r ∧ searchPhase r = .ok s.output := by
    unfold rsEnd
    rcases hpc with hpc | hpc <;> rw [hpc]
    · refine ⟨_, rfl, ?_⟩
      rcases he with rfl | rfl <;> rfl
    · exact ⟨_, rfl, rfl⟩
  have hvals : ∀ x ∈ s.output, ∃ v, HasFitness s.world x v := by
    intro x hx
    rw [hout] at hx
    obtain ⟨r, h1, rfl⟩ := List.mem_map.1 hx
    exact ⟨_, t3 r h1⟩
  refine ⟨r, r1, ?_⟩
  rw [trained_ok r2, trainedOf_eq hvals]
  have hv : ∀ r ∈ told, valuesIn s.world r.ident = r.score := fun r hr => valuesIn_of (t3 r hr)
  constructor
  · intro h0
    refine (C48_best_fit _ _).1 ?_
    rw [hout, h0]; rfl
  · intro hne
    obtain ⟨x, hx, he, hmax⟩ := (C48_best_fit (valuesIn s.world) s.output).2 (by
      rw [hout]; simpa using hne)
    have hx' := hx
    rw [hout] at hx'
    obtain ⟨g, hg, rfl⟩ := List.mem_map.1 hx'
    refine ⟨g, hg, he, fun b hb => ?_⟩
    have := hmax b.ident (by rw [hout]; exact List.mem_map.2 ⟨b, hb, rfl⟩)
    rwa [hv g hg, hv b hb] at this

/-- So a random search trains a pipeline that was evaluated without an error, if there is one and failed
evaluations have worse scores. -/
theorem C162_random_search_ok {told : List (EvalRec E P (List Score))} {g : EvalRec E P (List Score)} (hg : g ∈ told)
    (hbest : ∀ b ∈ told, ¬ LexLt g.score b.score) (hsome : ∃ b ∈ told, b.error = none)
    (hworse : ∀ f ∈ told, f.error ≠ none → ∀ b ∈ told, b.error = none → LexLt f.score b.score) :
    g.error = none := by
  obtain ⟨b, hb, hbe⟩ := hsome
  by_contra h
  exact hbest b hb (hworse g hg h b hb hbe)

/-- **C162** for successive halving that has returned, or is out of time while it waits: the pipeline trained
was evaluated on the highest rung of those that the search was told of, and none has better scores on that
rung.  `fit` fails only if it was told of none. -/
theorem C162_halving (c : OpConfig) (cxpb : ℚ) (a : AshaConfig) (hn : ∀ n, a.maxFull = some n → 0 < n)
    {K : Coding Fn V (Nat × Nat)} {Jb : Jobs Fn V X Ω} {report : V → Findings E P} {lib : LibConfig}
    (hK : Faithful K Jb) (ha : Agrees (halving c cxpb a K Jb report lib)) {l : List Nat} (hl : l.Nodup)
    {w : World} (hw : ∀ x ∈ l, x < w.inds.length) (lib₀ : Lib E P (List Score)) (n : Nat) (limit : Option ℚ)
    (logfile : Bool) (D : List (Str × V)) (old : List Nat) (es : List (WholeEvent Nat Ω)) :
    let U := halving c cxpb a K Jb report lib
    let s := (wholeRun U es (wholeStart (ashaStart a l w) lib₀ n limit logfile D)).joint.search
    (s.pc = .loop ∨ ∃ out, s.pc = .returned out) →
    ∃ told, List.Forall₂ (ToldAs U D) (results (U.client.history s)) told ∧
      ∃ r, ashaEnd old (some .timeout) s = some r ∧
        (told = [] → trained s.world r = .error .unboundLocal) ∧
        (told ≠ [] → ∃ g ∈ (results (U.client.history s)).zip told,
          trained s.world r = .ok g.2.ident ∧
          ∀ b ∈ (results (U.client.history s)).zip told,
            b.1.1.2 ≤ g.1.1.2 ∧ (b.1.1.2 = g.1.1.2 → ¬ LexLt g.2.score b.2.score)) := by
  intro U s hpc
  obtain ⟨hfit, hclimb⟩ := halving_fit hK ha hl hw lib₀ n limit logfile D es
  obtain ⟨told, t1, t2⟩ := highest_fit hfit hclimb
  obtain ⟨is, p, h3⟩ := halving_run c cxpb a hK ha l w lib₀ n limit logfile D es
  have hrec : recorded ({ s with pending := p } : Asha World Nat) = s.history := by
    unfold recorded
    rcases hpc with h | ⟨out, h⟩ <;> rw [show ({ s with pending := p } : Asha World Nat).pc = s.pc from rfl, h]
  refine ⟨told, t1, ?_⟩
  -- what the search gives
  have key : ∃ r, ashaEnd old (some .timeout) s = some r ∧
      ((∀ k, evaluatedOn k s.history = []) → trained s.world r = .error .unboundLocal) ∧
      ((∃ k, evaluatedOn k s.history ≠ []) → ∃ k, HighestReached s.history k ∧
        searchPhase r = .ok ((evaluatedOn k s.history).map Prod.snd)) := by
    rcases hpc with hpc | ⟨out, hpc⟩
    · have he : ∀ e, ashaEnd old (some e) s = ashaEnd old (some e) ({ s with pending := p } : Asha World Nat) :=
        fun _ => rfl
      have hok := ashaOK_run (gamaOps c cxpb) a l is _ (ashaOK_start a l w)
      rw [h3] at hok
      obtain ⟨k1, k2⟩ := handle_timeout hok
      rw [hrec] at k1 k2
      by_cases h0 : ∀ k, evaluatedOn k s.history = []
      · refine ⟨⟨.error .unboundLocal, old⟩, ?_, fun _ => rfl, fun ⟨k, hk⟩ => absurd (h0 k) hk⟩
        unfold ashaEnd
        rw [hpc]
        dsimp only
        rw [show ashaHandle s.rungs .timeout = _ from k2 h0]
      · push Not at h0
        obtain ⟨k₀, hk₀⟩ := h0
        obtain ⟨k, hk⟩ := C41_highest_exists _ k₀ hk₀
        refine ⟨⟨.ok (), (evaluatedOn k s.history).map Prod.snd⟩, ?_, fun h => absurd (h k) hk.1, fun _ => ⟨k, hk, rfl⟩⟩
        unfold ashaEnd
        rw [hpc]
        dsimp only
        rw [show ashaHandle s.rungs .timeout = _ from k1 k hk]
    · obtain ⟨k, hk, hout⟩ := C41_returned_partial (gamaOps c cxpb) a hn l w is _ h3.symm out hpc
      refine ⟨⟨.ok (), out⟩, ?_, fun h => absurd (h k) hk.1, fun _ => ⟨k, hk, ?_⟩⟩
      · unfold ashaEnd
        rw [hpc]
      · show Except.ok out = _
        rw [hout]
  obtain ⟨r, r1, r2, r3⟩ := key
  have hhist : U.client.history s = s.history.map fun x => ((x.1, x.2.1), x.2.2) := rfl
  refine ⟨r, r1, ?_⟩
  rw [hhist]
  change List.Forall₂ _ (results (s.history.map fun x => ((x.1, x.2.1), x.2.2))) told at t1
  change ∀ p ∈ (results (s.history.map fun x => ((x.1, x.2.1), x.2.2))).zip told, p.2.ident = p.1.1.1 ∧
    ((∀ q ∈ (results (s.history.map fun x => ((x.1, x.2.1), x.2.2))).zip told, q.1.1.2 ≤ p.1.1.2) →
      HasFitness s.world p.2.ident p.2.score) at t2
  have hres := fun k => evaluatedOn_results k s.history
  constructor
  · intro h0
    refine r2 fun k => ?_
    subst h0
    have : results (s.history.map fun x => ((x.1, x.2.1), x.2.2)) = [] := by
      cases hj : results (s.history.map fun x => ((x.1, x.2.1), x.2.2)) with
      | nil => rfl
      | cons _ _ => rw [hj] at t1; cases t1
    have h := hres k
    rw [this] at h
    simpa using h
  · intro hne
    generalize results (s.history.map fun x => ((x.1, x.2.1), x.2.2)) = js at t1 t2 hres ⊢
    have hmem : ∀ k y, y ∈ (evaluatedOn k s.history).map Prod.snd ↔
        ∃ q ∈ js.zip told, q.1.1.2 = k ∧ q.1.1.1 = y := by
      intro k y
      rw [hres k]
      have hz : (js.zip told).map Prod.fst = js :=
        List.map_fst_zip (le_of_eq t1.length_eq)
      constructor
      · intro h
        obtain ⟨p, hp, rfl⟩ := List.mem_map.1 h
        obtain ⟨h1, h2⟩ := List.mem_filter.1 hp
        rw [← hz] at h1
        obtain ⟨q, hq, rfl⟩ := List.mem_map.1 h1
        exact ⟨q, hq, by simpa using h2, rfl⟩
      · rintro ⟨q, hq, rfl, rfl⟩
        exact List.mem_map.2 ⟨q.1, List.mem_filter.2 ⟨(List.of_mem_zip hq).1, by simp⟩, rfl⟩
    have hsome : ∃ k, evaluatedOn k s.history ≠ [] := by
      cases t1 with
      | nil => exact absurd rfl hne
      | @cons j g _ _ h1 _ =>
        refine ⟨j.1.2, fun h => ?_⟩
        have := (hmem j.1.2 j.1.1).2 ⟨(j, g), List.mem_cons_self, rfl, rfl⟩
        rw [h] at this
        cases this
    obtain ⟨k, hk, hpop⟩ := r3 hsome
    rw [trained_ok hpop]
    have hle : ∀ q ∈ js.zip told, q.1.1.2 ≤ k := by
      intro q hq
      by_contra hlt
      have := (hmem q.1.1.2 q.1.1.1).2 ⟨q, hq, rfl, rfl⟩
      rw [hk.2 _ (by omega)] at this
      cases this
    have hfits : ∀ q ∈ js.zip told, q.1.1.2 = k → HasFitness s.world q.2.ident q.2.score := by
      intro q hq hqk
      exact (t2 q hq).2 fun q' hq' => by rw [hqk]; exact hle q' hq'
    rw [trainedOf_eq (by
      intro x hx
      obtain ⟨q, hq, hqk, rfl⟩ := (hmem k x).1 hx
      rw [← (t2 q hq).1]
      exact ⟨_, hfits q hq hqk⟩)]
    obtain ⟨x, hx, he, hmax⟩ := (C48_best_fit (valuesIn s.world) ((evaluatedOn k s.history).map Prod.snd)).2
      (by simpa using hk.1)
    obtain ⟨g, hg, hgk, hgx⟩ := (hmem k x).1 hx
    rw [← (t2 g hg).1] at hgx
    subst hgx
    refine ⟨g, hg, he, fun b hb => ⟨by rw [hgk]; exact hle b hb, fun hbk => ?_⟩⟩
    have hbk' : b.1.1.2 = k := hbk.trans hgk
    have := hmax b.2.ident (by rw [(t2 b hb).1]; exact (hmem k _).2 ⟨b, hb, hbk', rfl⟩)
    rwa [valuesIn_of (hfits g hg hgk), valuesIn_of (hfits b hb hbk')] at this

end

/-- **C162** as one would like it for evolution: the pipeline trained is the best of those that the search was
told of. -/
def C162_claim : Prop :=
  ∀ (Fn V X Ω E P : Type) (c : OpConfig) (cxpb : ℚ) (maxN : Option Int) (size : Nat) (K : Coding Fn V Nat)
    (Jb : Jobs Fn V X Ω) (report : V → Findings E P) (lib : LibConfig) (k : Nat), 0 < size → Faithful K Jb →
    Agrees (evolution c cxpb maxN size K Jb report lib) →
    ScoresAre (evolution c cxpb maxN size K Jb report lib) k →
    ∀ (l : List Nat) (w : World), l.Nodup → (∀ x ∈ l, x < w.inds.length) →
    ∀ (lib₀ : Lib E P (List Score)) (n : Nat) (limit : Option ℚ) (logfile : Bool) (D : List (Str × V))
      (es : List (WholeEvent Bool Ω)), Unrestarted es →
    let U := evolution c cxpb maxN size K Jb report lib
    let s := (wholeRun U es (wholeStart (eaStart (.list l) [] w) lib₀ n limit logfile D)).joint.search
    s.pc = .loop → ∀ r, eaEnd (some .timeout) s = some r → ∀ told x,
      List.Forall₂ (ToldAs U D) (results s.history) told → trained s.world r = .ok x →
      ∃ g ∈ told, g.ident = x ∧ ∀ b ∈ told, b.error = none → ¬ LexLt g.score b.score

namespace Ex

/-- The first score of individual `v` is `-v` and the second `v`: none is better on both. -/
def tradeReport (v : Nat) : Findings Nat Nat := ⟨[.fin (-v), .fin v], none, [v], some [v]⟩

def tradeScore : Coding Unit Nat Nat :=
  ⟨fun _ => (), fun j => [j], fun _ => [], fun _ a _ => a.headD 0, fun v => (v, .result true (.fin (-v)))⟩

theorem tradeScore_faithful : Faithful tradeScore evaluations where
  job _ := rfl
  read j kw ω v h := by
    have h : (if j = 5 then Outcome.raises 0 else Outcome.returns j : Outcome Nat Nat) = .returns v := h
    split at h
    · cases h
    · cases h; exact ⟨rfl, rfl⟩

/-- A population of one. -/
def trading : Setup (Ea World Nat) ((Str → Bool) × EaInput World) ((Str → Bool) × Bool) Bool
    Nat Unit Nat Nat Unit Nat Nat :=
  evolution Ex.config (1 / 5) none 1 tradeScore evaluations tradeReport (gamaLibrary none (some 2))

theorem trading_agrees : Agrees trading := fun v => ⟨.fin (-v), rfl, rfl⟩

theorem trading_scores : ScoresAre trading 2 := fun _ _ _ _ _ => ⟨rfl, rfl⟩

/-- One worker, two evaluations. -/
def twoTrades : List (WholeEvent Bool Unit) :=
  let round : List (WholeEvent Bool Unit) :=
    [.wait, .worker 0 .take, .worker 0 (.finish ()), .iterate calmReading calmReading calmReading .ok .returns] ++
      List.replicate 6 (.go false)
  List.replicate 10 (.go false) ++ round ++ round

theorem twoTrades_unrestarted : Unrestarted twoTrades := by
  intro b hb
  unfold twoTrades at hb
  simp at hb
  exact hb

def traded : Ea World Nat :=
  (wholeRun trading twoTrades (wholeStart (eaStart (.list (List.range 5)) [] counting)
    (libInit (gamaLibrary none (some 2)) none fun _ => 0) 1 none false [])).joint.search

theorem five_known : ∀ x ∈ List.range 5, x < counting.inds.length := by decide +kernel

theorem traded_pc : traded.pc = .loop := eaLoopB_sound (by decide +kernel)

theorem traded_history : traded.history = [(0, .result true (.fin 0)), (1, .result true (.fin (-1)))] := by
  decide +kernel

theorem traded_population : traded.population = [1] := by decide +kernel

theorem traded_trained : (match trainedOf [1] traded.world with | .ok x => some x | .error _ => none) = some 1 := by
  decide +kernel

end Ex

namespace Ex

def tradeRec (v : Nat) : EvalRec Nat Nat (List Score) := ⟨v, [], [.fin (-v), .fin v], none, [v], some [v]⟩

theorem tradeRec_told {v : Nat} (hv : v ≠ 5) : ToldAs trading [] (v, .result true (.fin (-v))) (tradeRec v) :=
  ⟨⟨dget (dmerge [] []), (), v, v, kwargsFrom_merge _ _, if_neg hv, .inl rfl, rfl, rfl, rfl, rfl, rfl⟩, .fin (-v), rfl, rfl⟩

theorem traded_end (s : Ea World Nat) (hpc : s.pc = .loop) (hp : s.population = [1]) :
    eaEnd (some .timeout) s = some ⟨.error .timeout, [1]⟩ := by
  unfold eaEnd
  rw [hpc, hp]
  rfl

theorem traded_one (w : World)
    (h : (match trainedOf [1] w with | .ok x => some x | .error _ => none) = some 1) :
    trained w ⟨.error .timeout, [1]⟩ = .ok 1 := by
  show trainedOf [1] w = .ok 1
  cases ht : trainedOf [1] w with
  | error e => rw [ht] at h; cases h
  | ok x => rw [ht] at h; rw [Option.some.inj h]

end Ex

/-- It is false: a population of one keeps a pipeline with a better second score. -/
theorem C162_false : ¬ C162_claim := by
  intro h
  have h1 := h Unit Nat Nat Unit Nat Nat Ex.config (1 / 5) none 1 Ex.tradeScore Ex.evaluations Ex.tradeReport
    (gamaLibrary none (some 2)) 2 (by decide) Ex.tradeScore_faithful Ex.trading_agrees Ex.trading_scores
    (List.range 5) Ex.counting (List.nodup_range (n := 5)) Ex.five_known
    (libInit (gamaLibrary none (some 2)) none fun _ => 0) 1 none false [] Ex.twoTrades Ex.twoTrades_unrestarted
    Ex.traded_pc ⟨.error .timeout, [1]⟩ (Ex.traded_end _ Ex.traded_pc Ex.traded_population)
    [Ex.tradeRec 0, Ex.tradeRec 1] 1
  have h2 := h1 (by
    have e := Ex.traded_history
    unfold Ex.traded at e
    unfold Ex.trading at e
    rw [e]
    exact .cons (Ex.tradeRec_told (by decide)) (.cons (Ex.tradeRec_told (by decide)) .nil))
    (Ex.traded_one _ Ex.traded_trained)
  obtain ⟨g, hg, hx, hbest⟩ := h2
  have hg1 : g = Ex.tradeRec 1 := by
    rcases List.mem_cons.1 hg with rfl | hg
    · cases hx
    · exact List.mem_singleton.1 hg
  subst hg1
  refine hbest (Ex.tradeRec 0) (by simp) rfl ?_
  exact (tupleLt_iff _ _).1 (by decide +kernel)

namespace Ex

def fiveDone : Ea World Nat :=
  (wholeRun (evolution Ex.config (1 / 5) none 50 ownScore evaluations ownReport (gamaLibrary none (some 2)))
    (fiveRounds (List.replicate 8 (.go false)))
    (wholeStart (eaStart (.list (List.range 6)) [] counting) (libInit (gamaLibrary none (some 2)) none fun _ => 0)
      1 none false [])).joint.search

theorem five_pc : (wholeRun (evolution Ex.config (1 / 5) none 50 ownScore evaluations ownReport
      (gamaLibrary none (some 2))) (fiveRounds (List.replicate 8 (.go false)))
      (wholeStart (eaStart (.list (List.range 6)) [] counting) (libInit (gamaLibrary none (some 2)) none fun _ => 0)
        1 none false [])).joint.search.pc = .loop := eaLoopB_sound (by decide +kernel)

theorem five_unrestarted : Unrestarted (fiveRounds (List.replicate 8 (.go false))) := by
  intro b hb
  unfold fiveRounds at hb
  simp at hb
  exact hb

def rsLoopB : RsPc Nat → Bool
  | .loop => true
  | _ => false

theorem rsLoopB_sound {pc : RsPc Nat} (h : rsLoopB pc = true) : pc = .loop := by
  cases pc <;> first | rfl | cases h

theorem two_pc : (randomly (gamaLibrary none (some 2)) twoRounds).joint.search.pc = .loop :=
  rsLoopB_sound (by decide +kernel)

def ashaLoopB : AshaPc Nat → Bool
  | .loop => true
  | _ => false

theorem ashaLoopB_sound {pc : AshaPc Nat} (h : ashaLoopB pc = true) : pc = .loop := by
  cases pc <;> first | rfl | cases h

theorem promoting_pc : (wholeRun (halving Ex.config (1 / 5) ⟨3, 0, 1, none⟩ rungScores rungEvaluations rungReport
      (gamaLibrary none none)) promoting (wholeStart (ashaStart ⟨3, 0, 1, none⟩ (List.range 6) sixWorld)
        (libInit (gamaLibrary none none) none fun _ => 0) 11 none false [])).joint.search.pc = .loop :=
  ashaLoopB_sound (by decide +kernel)

end Ex

/-! ### In a case -/

/-- `C162_evolution_partial` where five of six pipelines came back and there is room for all: … -/
example := C162_evolution_partial Ex.config (1 / 5) none (size := 50) (by decide) Ex.ownScore_faithful
  (Ex.own_agrees _ _ _ (gamaLibrary none (some 2))) (Ex.own_scores _ _ _ _) (List.nodup_range (n := 6)) []
  (w := Ex.counting) Ex.six_known (libInit (gamaLibrary none (some 2)) none fun _ => 0) 1 none false []
  (Ex.fiveRounds (List.replicate 8 (.go false))) Ex.five_unrestarted (.inl Ex.five_pc)

/-- … the best of them is trained. -/
example : Ex.fiveDone.population = [0, 1, 2, 3, 4] ∧
    (match trained Ex.fiveDone.world ⟨.error .timeout, Ex.fiveDone.population⟩ with
      | .ok x => some x | .error _ => none) = some 4 := by decide +kernel

/-- `C162_random_search`: two came back, and the better one is trained. -/
example := C162_random_search Ex.config (1 / 5) none Ex.ownScore_faithful
  (Ex.own_agrees _ _ _ (gamaLibrary none (some 2))) (List.nodup_range (n := 6)) (w := Ex.sixWorld) Ex.six_known
  (libInit (gamaLibrary none (some 2)) none fun _ => 0) 1 none false [] Ex.twoRounds (.inl Ex.two_pc)

example : (Ex.randomly (gamaLibrary none (some 2)) Ex.twoRounds).joint.search.output = [0, 1] ∧
    (match trained (Ex.randomly (gamaLibrary none (some 2)) Ex.twoRounds).joint.search.world
        ⟨.error .timeout, (Ex.randomly (gamaLibrary none (some 2)) Ex.twoRounds).joint.search.output⟩ with
      | .ok x => some x | .error _ => none) = some 1 := by decide +kernel

/-- `C162_random_search_ok`: one evaluation failed and has worse scores. -/
example : (⟨1, [], [.fin 1], none, [], none⟩ : EvalRec Nat Nat (List Score)).error = none :=
  C162_random_search_ok (told := [⟨0, [], [.fin 0], some [], [], none⟩, ⟨1, [], [.fin 1], none, [], none⟩])
    (g := ⟨1, [], [.fin 1], none, [], none⟩) (by simp)
    (fun b hb => by
      rw [← tupleLt_iff]
      rcases List.mem_cons.1 hb with rfl | hb
      · decide +kernel
      · rw [List.mem_singleton.1 hb]; decide +kernel)
    ⟨⟨1, [], [.fin 1], none, [], none⟩, by simp, rfl⟩
    (fun f hf he b hb hbe => by
      rcases List.mem_cons.1 hf with rfl | hf
      · rcases List.mem_cons.1 hb with rfl | hb
        · cases hbe
        · rw [List.mem_singleton.1 hb]; exact (tupleLt_iff _ _).1 (by decide +kernel)
      · rw [List.mem_singleton.1 hf] at he; exact absurd rfl he)

/-- `C162_halving`: individuals 5, 4 and 3 came back on rung 0 and 5 also on rung 1; it is trained, with its
scores on rung 1. -/
example := C162_halving Ex.config (1 / 5) ⟨3, 0, 1, none⟩ (fun _ h => nomatch h) Ex.rungScores_faithful
  (Ex.halving_agrees (gamaLibrary none none)) (List.nodup_range (n := 6)) (w := Ex.sixWorld) Ex.six_known
  (libInit (gamaLibrary none none) none fun _ => 0) 11 none false [] [] Ex.promoting (.inl Ex.promoting_pc)

example : (toldOf (Ex.halvingRun (gamaLibrary none none) Ex.promoting).joint.search).map Prod.fst =
      [(5, 0), (4, 0), (3, 0), (5, 1)] ∧
    (match ashaEnd [] (some .timeout) (Ex.halvingRun (gamaLibrary none none) Ex.promoting).joint.search with
      | some r => (match trained (Ex.halvingRun (gamaLibrary none none) Ex.promoting).joint.search.world r with
        | .ok x => some x | .error _ => none)
      | none => none) = some 5 ∧
    valuesIn (Ex.halvingRun (gamaLibrary none none) Ex.promoting).joint.search.world 5 = [.fin 15] := by decide +kernel

end Gama
