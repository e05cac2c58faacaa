import Verif.Model.Phase
import Verif.Props.Best
import Verif.Props.Asha

/-!
# A search that is cut off (C128), and one with a warm start (C129)
-/

namespace Gama
open PyM Spec

section
variable {σ ι : Type} [DecidableEq ι]

/-- What may cut off a search from outside: the end of its time or the user. -/
def Spec.CutOff (e : Exn) : Prop := e = .timeout ∨ e = .keyboardInterrupt

omit [DecidableEq ι] in
theorem fitChoice_cut {e : Exn} (he : CutOff e) (values : ι → List Score) (l : List ι) :
    fitChoice values ⟨.error e, l⟩ = bestFit values l := by
  rcases he with rfl | rfl <;> rfl

omit [DecidableEq ι] in
theorem fitChoice_ok (values : ι → List Score) (l : List ι) :
    fitChoice values ⟨.ok (), l⟩ = bestFit values l := rfl

/-- **C128, the full claim.** A search cut off while it waits for an evaluation, when an evaluation has
come back without error (evolution) or with a result (random search, successive halving), leaves
`fit` with a pipeline to train. -/
def C128_claim : Prop :=
  (∀ (o : SearchOps Unit Nat) (maxN : Option Int) (size : Nat) (l : List Nat)
    (is : List (EaInput Unit)) (s : Ea Unit Nat) (e : Exn) (values : Nat → List Score),
    0 < size → s = eaRun o maxN size is (eaStart (.list l) [] ()) → s.pc = .loop → CutOff e →
    succeeded s.history ≠ [] → ∃ r x, eaEnd (some e) s = some r ∧ fitChoice values r = .ok x) ∧
  (∀ (o : SearchOps Unit Nat) (maxN : Option Int) (l : List Nat)
    (is : List (Wait Unit)) (s : Rs Unit Nat) (e : Exn) (values : Nat → List Score),
    s = rsRun o maxN is (rsStart (.list l) [] ()) → s.pc = .loop → CutOff e →
    reported s.history ≠ [] → ∃ r x, rsEnd (some e) s = some r ∧ fitChoice values r = .ok x) ∧
  (∀ (o : SearchOps Unit Nat) (c : AshaConfig) (l : List Nat)
    (is : List (AshaInput Unit)) (s : Asha Unit Nat) (e : Exn) (values : Nat → List Score),
    s = ashaRun o c is (ashaStart c l ()) → s.pc = .loop → CutOff e →
    (∃ k, evaluatedOn k s.history ≠ []) →
    ∃ r x, ashaEnd [] (some e) s = some r ∧ fitChoice values r = .ok x)

/-- **C128** for an evolutionary search, cut off at any moment: `fit` trains a pipeline of the
population as it was at that moment with no better one in it; only with an empty population there is
none. -/
theorem C128_evolution_moment_partial (s : Ea σ ι) (e : Exn) (he : CutOff e) (values : ι → List Score)
    (hr : s.pc ≠ .returned) (hx : ∀ e', s.pc ≠ .raised e') :
    ∃ r, eaEnd (some e) s = some r ∧
      (s.population = [] → fitChoice values r = .error .indexError) ∧
      (s.population ≠ [] → ∃ x ∈ s.population, fitChoice values r = .ok x ∧
        ∀ y ∈ s.population, ¬ LexLt (values x) (values y)) := by
  refine ⟨⟨.error e, s.population⟩, ?_, ?_⟩
  · unfold eaEnd
    split
    · rename_i h; exact absurd h hr
    · rename_i e' h; exact absurd h (hx e')
    · rfl
  · rw [fitChoice_cut he]
    exact C48_best_fit values s.population

/-- **C128** for an evolutionary search that has not restarted since `s₀`, cut off while it waits:
there is a pipeline to train exactly if an evaluation came back without error since then, and it is
one of these. -/
theorem C128_evolution_partial (o : SearchOps σ ι) (maxN : Option Int) (size : Nat) (hz : 0 < size)
    (c : Candidates ι) (s₀ : Ea σ ι) (h0 : s₀.pc = .clear c) (is : List (EaInput σ)) (s : Ea σ ι)
    (hr : ∀ i ∈ is, i.restart = false) (hs : s = eaRun o maxN size is s₀) (hpc : s.pc = .loop)
    (e : Exn) (he : CutOff e) (values : ι → List Score) :
    ∃ r, eaEnd (some e) s = some r ∧
      (succeeded (s.history.drop s₀.history.length) = [] → fitChoice values r = .error .indexError) ∧
      (succeeded (s.history.drop s₀.history.length) ≠ [] →
        ∃ x ∈ succeeded (s.history.drop s₀.history.length), fitChoice values r = .ok x ∧
          ∀ y ∈ s.population, ¬ LexLt (values x) (values y)) := by
  obtain ⟨r, h1, h2, h3⟩ := C128_evolution_moment_partial s e he values (by rw [hpc]; nofun)
    (by rw [hpc]; nofun)
  obtain ⟨hc, hsub⟩ := C106_partial o maxN size c s₀ h0 is s hr hs (Or.inl hpc)
  refine ⟨r, h1, fun hn => h2 ?_, fun hn => ?_⟩
  · rw [hn] at hc
    exact List.length_eq_zero_iff.1 (by rw [hc]; simp)
  · obtain ⟨x, hx, hf, hm⟩ := h3 (by
      intro hp
      rw [hp] at hc
      have := List.length_pos_iff.2 hn
      simp only [List.length_nil] at hc
      omega)
    exact ⟨x, hsub.subset hx, hf, hm⟩

/-- **C128** with the operators of GAMA and one objective: cut off while it waits, an evolutionary
search without restarts leaves `fit` with a pipeline that is at least as good as every one evaluated
without error. -/
theorem C128_evolution_best_partial (c : OpConfig) (cxpb : ℚ) (maxN : Option Int) (size : Nat)
    (hz : 0 < size) (val : Nat → List Score) (cands : Candidates Nat) (s₀ : Ea World Nat)
    (h0 : s₀.pc = .clear cands) (is : List (EaInput World)) (s : Ea World Nat)
    (hr : ∀ i ∈ is, i.restart = false) (hlen : ∀ x, (val x).length = 1)
    (hv : EaAlong (gamaOps c cxpb) maxN size (Valued val 1) is s₀)
    (hs : s = eaRun (gamaOps c cxpb) maxN size is s₀) (hpc : s.pc = .loop) (e : Exn) (he : CutOff e)
    (hne : succeeded (s.history.drop s₀.history.length) ≠ []) :
    ∃ r y, eaEnd (some e) s = some r ∧ fitChoice val r = .ok y ∧
      ∀ x ∈ succeeded (s.history.drop s₀.history.length), Below (val x) (val y) := by
  obtain ⟨y, hy, hb⟩ := C117_one_objective_partial c cxpb maxN size hz val cands s₀ h0 is s hr hlen hv hs
    (Or.inl hpc) hne
  refine ⟨⟨.error e, s.population⟩, y, ?_, by rw [fitChoice_cut he]; exact hy, hb⟩
  unfold eaEnd
  rw [hpc]
  rfl

/-- **C128** for a random search, cut off while it waits: `fit` trains a pipeline with a result from
this search such that no result of this search is better; there is none only if no evaluation came
back with a result. -/
theorem C128_random_search (o : SearchOps σ ι) (maxN : Option Int) (l : List ι) (w : σ)
    (is : List (Wait σ)) (s : Rs σ ι) (hs : s = rsRun o maxN is (rsStart (.list l) [] w))
    (hpc : s.pc = .loop) (e : Exn) (he : CutOff e) (values : ι → List Score) :
    ∃ r, rsEnd (some e) s = some r ∧
      (reported s.history = [] → fitChoice values r = .error .indexError) ∧
      (reported s.history ≠ [] → ∃ x ∈ reported s.history, fitChoice values r = .ok x ∧
        ∀ y ∈ reported s.history, ¬ LexLt (values x) (values y)) := by
  have hout := (C38_reports_all o maxN l [] w is s hs (Or.inl hpc)).1
  rw [List.nil_append] at hout
  refine ⟨⟨.error e, s.output⟩, ?_, ?_⟩
  · unfold rsEnd
    rw [hpc]
    rfl
  · rw [fitChoice_cut he, hout]
    exact C48_best_fit values (reported s.history)

/-- … and cut off at any other moment, it is at most the result that came back last that is not
looked at. -/
theorem C128_random_search_moment (o : SearchOps σ ι) (maxN : Option Int) (l : List ι) (w : σ)
    (is : List (Wait σ)) (s : Rs σ ι) (hs : s = rsRun o maxN is (rsStart (.list l) [] w))
    (hr : s.pc ≠ .returned) (hx : ∀ e', s.pc ≠ .raised e')
    (e : Exn) (he : CutOff e) (values : ι → List Score) :
    ∃ r, rsEnd (some e) s = some r ∧ ∃ seen, (reported s.history = seen ∨
        ∃ z, reported s.history = seen ++ [z]) ∧
      (seen = [] → fitChoice values r = .error .indexError) ∧
      (seen ≠ [] → ∃ x ∈ seen, fitChoice values r = .ok x ∧ ∀ y ∈ seen, ¬ LexLt (values x) (values y)) := by
  refine ⟨⟨.error e, s.output⟩, ?_, s.output, ?_, ?_⟩
  · unfold rsEnd
    split
    · rename_i h; exact absurd h hr
    · rename_i e' h; exact absurd h (hx e')
    · rfl
  · rcases C38_interrupted o maxN l [] w is s hs with h | ⟨x, h⟩
    · exact Or.inl (by rw [h]; rfl)
    · exact Or.inr ⟨x, by rw [h]; rfl⟩
  · rw [fitChoice_cut he]
    exact C48_best_fit values s.output

/-- **C128** for successive halving, where it holds: when the time is up, at any moment, and something
was entered in a rung, `fit` trains a pipeline evaluated on the highest rung reached such that none of
that rung is better. -/
theorem C128_halving_partial (o : SearchOps σ ι) (c : AshaConfig) (cands : List ι) (w : σ) (old : List ι)
    (is : List (AshaInput σ)) (s : Asha σ ι) (hs : s = ashaRun o c is (ashaStart c cands w))
    (hr : ∀ l, s.pc ≠ .returned l) (hx : ∀ e', s.pc ≠ .raised e') (k : Nat)
    (hk : HighestReached (recorded s) k) (values : ι → List Score) :
    ∃ r, ashaEnd old (some .timeout) s = some r ∧
      ∃ x ∈ (evaluatedOn k (recorded s)).map Prod.snd, fitChoice values r = .ok x ∧
        ∀ y ∈ (evaluatedOn k (recorded s)).map Prod.snd, ¬ LexLt (values x) (values y) := by
  have h := C41_interrupted_partial o c cands w is s hs k hk
  refine ⟨⟨.ok (), (evaluatedOn k (recorded s)).map Prod.snd⟩, ?_, ?_⟩
  · unfold ashaEnd
    dsimp only
    split
    · rename_i l h; exact absurd h (hr l)
    · rename_i e' h; exact absurd h (hx e')
    · unfold ashaInterrupt at h
      rw [h]
  · rw [fitChoice_ok]
    exact (C48_best_fit values _).2 (by simpa using hk.1)

/-- Successive halving stopped by the user, or by its time before anything was entered in a rung: the
exception `UnboundLocalError` leaves `fit`. -/
theorem C128_halving_stopped (o : SearchOps σ ι) (c : AshaConfig) (cands : List ι) (w : σ) (old : List ι)
    (is : List (AshaInput σ)) (s : Asha σ ι) (hs : s = ashaRun o c is (ashaStart c cands w))
    (hr : ∀ l, s.pc ≠ .returned l) (hx : ∀ e', s.pc ≠ .raised e') (e : Exn)
    (he : e ≠ .timeout ∨ ∀ k, evaluatedOn k (recorded s) = []) (values : ι → List Score) :
    ∃ r, ashaEnd old (some e) s = some r ∧ fitChoice values r = .error .unboundLocal := by
  have h : ashaHandle s.rungs e = .raised .unboundLocal := by
    by_cases ht : e = .timeout
    · subst ht
      exact C41_nothing_evaluated o c cands w is s hs (he.resolve_left fun h => h rfl)
    · unfold ashaHandle
      cases e <;> first | rfl | exact absurd rfl ht
  refine ⟨⟨.error .unboundLocal, old⟩, ?_, rfl⟩
  unfold ashaEnd
  dsimp only
  split
  · rename_i l h; exact absurd h (hr l)
  · rename_i e' h; exact absurd h (hx e')
  · rw [h]

/-- A search that ends with an exception of its own makes `fit` fail with it, whatever was found. -/
theorem C128_own_exception (e : Exn) (he : ¬ CutOff e) (values : ι → List Score) :
    (∀ (s : Ea σ ι) (outside : Option Exn), s.pc = .raised e →
      ∃ r, eaEnd outside s = some r ∧ fitChoice values r = .error e) ∧
    (∀ (s : Rs σ ι) (outside : Option Exn), s.pc = .raised e →
      ∃ r, rsEnd outside s = some r ∧ fitChoice values r = .error e) ∧
    (∀ (s : Asha σ ι) (old : List ι) (outside : Option Exn), s.pc = .raised e →
      ∃ r, ashaEnd old outside s = some r ∧ fitChoice values r = .error e) := by
  have key : ∀ l : List ι, fitChoice values ⟨.error e, l⟩ = .error e := by
    intro l
    unfold fitChoice searchPhase
    cases e <;> first | rfl | exact absurd (Or.inl rfl) he | exact absurd (Or.inr rfl) he
  refine ⟨fun s outside h => ⟨⟨.error e, s.population⟩, ?_, key _⟩,
    fun s outside h => ⟨⟨.error e, s.output⟩, ?_, key _⟩,
    fun s old outside h => ⟨⟨.error e, old⟩, ?_, key _⟩⟩
  · unfold eaEnd; rw [h]
  · unfold rsEnd; rw [h]
  · unfold ashaEnd; rw [h]

/-- Three evaluations of successive halving came back. -/
def Ex.cutHalving : Asha Unit Nat :=
  Gama.ashaRun Ex.ops ⟨2, 0, 2, none⟩
    ((List.range 18).map fun j => ⟨.completes 0 (.result true (.fin j)) (), 0⟩)
    (ashaStart ⟨2, 0, 2, none⟩ [1, 2, 3] ())

theorem Ex.cutHalving_pc : Ex.cutHalving.pc = .loop := by
  have : (match Ex.cutHalving.pc with | .loop => true | _ => false) = true := by decide +kernel
  revert this
  split
  · intro _; assumption
  · intro h; cases h

theorem Ex.cutHalving_history : (evaluatedOn 0 Ex.cutHalving.history).map Prod.snd = [3, 2, 1] ∧
    Ex.cutHalving.history.length = 3 := by decide +kernel

/-- **C128 is false**: three evaluations came back, the user presses Ctrl-C, and `fit` ends with an
`UnboundLocalError`. -/
theorem C128_false : ¬ C128_claim := by
  intro h
  obtain ⟨r, x, h1, h2⟩ := h.2.2 Ex.ops ⟨2, 0, 2, none⟩ [1, 2, 3] _ Ex.cutHalving .keyboardInterrupt
    (fun _ => []) rfl Ex.cutHalving_pc (Or.inr rfl)
    ⟨0, fun he => by have := Ex.cutHalving_history.1; rw [he] at this; cases this⟩
  obtain ⟨r', h3, h4⟩ := C128_halving_stopped Ex.ops ⟨2, 0, 2, none⟩ [1, 2, 3] () [] _ Ex.cutHalving rfl
    (by rw [Ex.cutHalving_pc]; nofun) (by rw [Ex.cutHalving_pc]; nofun) .keyboardInterrupt
    (Or.inl (by nofun)) (fun _ => [])
  rw [h1] at h3
  cases h3
  rw [h2] at h4
  cases h4

/-- The same when the time is up: a pipeline is trained. -/
example : ∃ r, ashaEnd [] (some .timeout) Ex.cutHalving = some r ∧
    ∃ x ∈ (evaluatedOn 0 (recorded Ex.cutHalving)).map Prod.snd,
      fitChoice (fun n : Nat => [Score.fin n]) r = .ok x ∧
        ∀ y ∈ (evaluatedOn 0 (recorded Ex.cutHalving)).map Prod.snd,
          ¬ LexLt [Score.fin x] [Score.fin y] := by
  have hrec : recorded Ex.cutHalving = Ex.cutHalving.history := by
    unfold recorded; rw [Ex.cutHalving_pc]
  refine C128_halving_partial Ex.ops ⟨2, 0, 2, none⟩ [1, 2, 3] () [] _ Ex.cutHalving rfl
    (by rw [Ex.cutHalving_pc]; nofun) (by rw [Ex.cutHalving_pc]; nofun) 0 ⟨?_, ?_⟩ _
  · rw [hrec]
    intro he
    have := Ex.cutHalving_history.1
    rw [he] at this
    cases this
  · intro j hj
    rw [hrec]
    have hall : ∀ p ∈ Ex.cutHalving.history, p.2.1 = 0 := by decide +kernel
    by_contra hc
    obtain ⟨p, hp, rfl⟩ := mem_evaluatedOn hc
    have := hall p hp
    omega

def eaLoopB : EaPc ι → Bool
  | .loop => true
  | _ => false

omit [DecidableEq ι] in
theorem eaLoopB_sound {pc : EaPc ι} (h : eaLoopB pc = true) : pc = .loop := by
  cases pc <;> first | rfl | cases h

/-- An evolutionary search whose first evaluation came back without error, after which it
restarted. -/
def Ex.cutRestart : Ea Unit Nat :=
  eaRun Ex.ops none 1 (List.replicate 14 ⟨.completes 0 (.result true (.fin 1)) (), 2, true⟩)
    (eaStart (.list [4]) [] ())

/-- An evolutionary search cut off just after a restart has nothing left either, although a pipeline
was evaluated without error. -/
theorem C128_false_restart : Ex.cutRestart.pc = .loop ∧ succeeded Ex.cutRestart.history = [4] ∧
    ∀ (e : Exn) (values : Nat → List Score), CutOff e →
      ∃ r, eaEnd (some e) Ex.cutRestart = some r ∧ fitChoice values r = .error .indexError := by
  have hpc : Ex.cutRestart.pc = .loop := eaLoopB_sound (by decide +kernel)
  refine ⟨hpc, by decide +kernel, fun e values he => ?_⟩
  obtain ⟨r, h1, h2, -⟩ := C128_evolution_moment_partial Ex.cutRestart e he values (by rw [hpc]; nofun)
    (by rw [hpc]; nofun)
  exact ⟨r, h1, h2 (by decide +kernel)⟩

/-- Two candidates came back without error, a third did not, when the time was up. -/
def Ex.cutEvolution : List (EaInput Unit) :=
  List.replicate 15 ⟨.completes 0 (.result true (.fin 1)) (), 2, false⟩ ++
    List.replicate 4 ⟨.completes 0 .failed (), 2, false⟩

example : let s₀ : Ea Unit Nat := { eaStart (.list [4, 5, 6]) [] () with pc := .clear (.list [4, 5, 6]) }
    let s := eaRun Ex.ops none 5 Ex.cutEvolution s₀
    s.pc = .loop ∧ succeeded s.history = [4, 5] ∧
    ∃ r, eaEnd (some .keyboardInterrupt) s = some r ∧ ∃ x ∈ succeeded s.history,
      fitChoice (fun n : Nat => [Score.fin n]) r = .ok x ∧
        ∀ y ∈ s.population, ¬ LexLt [Score.fin x] [Score.fin y] := by
  intro s₀ s
  have hpc : s.pc = .loop := eaLoopB_sound (by decide +kernel)
  have hsu : succeeded s.history = [4, 5] := by decide +kernel
  obtain ⟨r, h1, -, h3⟩ := C128_evolution_partial Ex.ops none 5 (by omega) (.list [4, 5, 6]) s₀ rfl
    Ex.cutEvolution s (by decide) rfl hpc .keyboardInterrupt (Or.inr rfl) (fun n : Nat => [Score.fin n])
  have h0 : s₀.history.length = 0 := rfl
  rw [h0, List.drop_zero] at h3
  exact ⟨hpc, hsu, r, h1, h3 (by rw [hsu]; nofun)⟩

/-- A random search of which two evaluations came back, one of them with a result. -/
example : let s := rsRun Ex.ops none (List.replicate 6 (.completes 0 (.result true (.fin 1)) ()) ++
      List.replicate 3 (.completes 0 .failed ())) (rsStart (.list [4, 5]) [] ())
    s.history.length = 2 ∧ ∃ r, rsEnd (some .timeout) s = some r ∧
      ∃ x ∈ reported s.history, fitChoice (fun n : Nat => [Score.fin n]) r = .ok x := by
  intro s
  have hpc : s.pc = .loop := by
    have : (match s.pc with | .loop => true | _ => false) = true := by decide +kernel
    revert this
    split
    · intro _; assumption
    · intro h; cases h
  obtain ⟨r, h1, -, h3⟩ := C128_random_search Ex.ops none [4, 5] () _ s rfl hpc .timeout (Or.inl rfl)
    (fun n : Nat => [Score.fin n])
  obtain ⟨x, hx, hf, -⟩ := h3 (by decide +kernel)
  exact ⟨by decide +kernel, r, h1, x, hx, hf⟩

/-! ### C129: a warm start -/

omit [DecidableEq ι] in
/-- **C129.** Individuals given as a warm start are the candidates a search starts from, whatever was
found before; an empty list means new random individuals. -/
theorem C129_taken (xs finalPop fresh : List ι) :
    (xs ≠ [] → searchStart (some (xs.map .individual)) finalPop fresh = .ok (.list xs)) ∧
    searchStart (some []) finalPop fresh = .ok (.list fresh) := by
  refine ⟨fun hx => ?_, rfl⟩
  have h1 : (xs.map WarmItem.individual).all WarmItem.isIndividual = true := by
    rw [List.all_eq_true]
    intro i hi
    obtain ⟨x, -, rfl⟩ := List.mem_map.1 hi
    rfl
  have h2 : (xs.map WarmItem.individual).filterMap WarmItem.get? = xs := by
    induction xs with
    | nil => rfl
    | cons x xs ih =>
      by_cases hn : xs = []
      · subst hn; rfl
      · have := ih hn (by rw [List.all_eq_true] at h1 ⊢; exact fun i hi => h1 i (List.mem_cons_of_mem _ hi))
        rw [List.map_cons, List.filterMap_cons]
        simp only [WarmItem.get?, this]
  unfold searchStart
  simp only [h1, if_true, h2]
  cases xs with
  | nil => exact absurd rfl hx
  | cons x xs => rfl

omit [DecidableEq ι] in
/-- **C129.** A warm start with anything else in it is refused. -/
theorem C129_refused (l : List (WarmItem ι)) (h : .other ∈ l) (finalPop fresh : List ι) :
    searchStart (some l) finalPop fresh = .error .typeError := by
  unfold searchStart
  dsimp only
  rw [if_neg]
  intro ha
  rw [List.all_eq_true] at ha
  cases ha _ h

/-- What was submitted by an evolutionary search that starts from `l`. -/
def StartsWith (l : List ι) (s : Ea σ ι) : Prop :=
  match s.pc with
  | .start c => c = .list l ∧ s.submitted = [] ∧ s.history = []
  | .clear c => (c = .list l ∧ s.submitted = [] ∧ s.history = []) ∨ l <+: s.submitted
  | .submit rest => (s.submitted ++ rest = l ∧ s.history = []) ∨ l <+: s.submitted
  | .raised _ => (s.submitted = [] ∧ s.history = []) ∨ l <+: s.submitted
  | _ => l <+: s.submitted

theorem startsWith_step (o : SearchOps σ ι) (maxN : Option Int) (size : Nat) (l : List ι) (i : EaInput σ)
    (s : Ea σ ι) (h : StartsWith l s) : StartsWith l (eaStep o maxN size i s) := by
  have grow : ∀ {t : List ι} (x : ι), l <+: t → l <+: t ++ [x] := fun x h =>
    h.trans (List.prefix_append _ _)
  unfold StartsWith at h
  unfold eaStep
  cases hpc : s.pc with
  | start c =>
    rw [hpc] at h
    dsimp only at h ⊢
    split
    · exact Or.inl h.2
    · exact Or.inl h
  | clear c =>
    rw [hpc] at h
    dsimp only at h ⊢
    cases c with
    | list l' =>
      rcases h with ⟨h1, h2⟩ | h
      · cases h1
        exact Or.inl ⟨by dsimp only; rw [h2.1]; rfl, h2.2⟩
      · exact Or.inr h
    | sameAsOutput =>
      rcases h with ⟨h1, -⟩ | h
      · cases h1
      · exact Or.inr h
  | submit rest =>
    rw [hpc] at h
    dsimp only at h ⊢
    cases rest with
    | nil =>
      show l <+: s.submitted
      rcases h with h | h
      · rw [List.append_nil] at h; rw [h.1]
      · exact h
    | cons x xs =>
      rcases h with h | h
      · exact Or.inl ⟨by dsimp only; rw [List.append_assoc]; exact h.1, h.2⟩
      · exact Or.inr (grow x h)
  | loop =>
    rw [hpc] at h
    dsimp only at h ⊢
    split
    · cases i.wait with
      | raises e => exact Or.inr h
      | completes k c w =>
        dsimp only
        split
        · exact Or.inr h
        · exact h
    · exact h
  | got x c =>
    rw [hpc] at h
    dsimp only at h ⊢
    cases c with
    | failed => exact h
    | result b sc => cases b <;> exact h
  | full =>
    rw [hpc] at h
    dsimp only at h ⊢
    split
    · split
      · exact Or.inr h
      · exact h
    · exact h
  | remove x =>
    rw [hpc] at h
    dsimp only at h ⊢
    split
    · exact h
    · exact Or.inr h
  | fill =>
    rw [hpc] at h
    dsimp only at h ⊢
    split
    · split
      · exact Or.inr h
      · exact grow _ h
    · exact h
  | restart =>
    rw [hpc] at h
    dsimp only at h ⊢
    split <;> exact h
  | renew k made =>
    rw [hpc] at h
    dsimp only at h ⊢
    cases k with
    | zero => exact Or.inr h
    | succ k =>
      dsimp only
      split
      · exact Or.inr h
      · exact h
  | returned => unfold StartsWith; rw [hpc] at h ⊢; exact h
  | raised e => unfold StartsWith; rw [hpc] at h ⊢; exact h

/-- **C129** for an evolutionary search: the individuals given are submitted before any other, in
their order, and all of them before the search waits for the first time.  (Missing: a list that is the
one the search writes its output to, see `C129_own_population`.) -/
theorem C129_evolution_partial (o : SearchOps σ ι) (maxN : Option Int) (size : Nat) (l out : List ι) (w : σ)
    (is : List (EaInput σ)) (s : Ea σ ι) (hs : s = eaRun o maxN size is (eaStart (.list l) out w)) :
    (s.submitted <+: l ∨ l <+: s.submitted) ∧ (s.history ≠ [] ∨ s.pc = .loop → l <+: s.submitted) := by
  have key : ∀ (is : List (EaInput σ)) (s : Ea σ ι), StartsWith l s → StartsWith l (eaRun o maxN size is s) := by
    intro is
    induction is with
    | nil => intro s h; exact h
    | cons i is ih => intro s h; exact ih _ (startsWith_step o maxN size l i s h)
  have h := key is (eaStart (.list l) out w) ⟨rfl, rfl, rfl⟩
  rw [← hs] at h
  have no : ∀ {P : Prop}, s.history = [] → s.pc ≠ .loop → (s.history ≠ [] ∨ s.pc = .loop → P) :=
    fun h1 h2 h => h.elim (fun h => absurd h1 h) fun h => absurd h h2
  have all : l <+: s.submitted → (s.submitted <+: l ∨ l <+: s.submitted) ∧
      (s.history ≠ [] ∨ s.pc = .loop → l <+: s.submitted) := fun h => ⟨Or.inr h, fun _ => h⟩
  unfold StartsWith at h
  split at h
  · rename_i hpc
    exact ⟨Or.inl (by rw [h.2.1]; exact List.nil_prefix), no h.2.2 (by rw [hpc]; nofun)⟩
  · rename_i hpc
    rcases h with h | h
    · exact ⟨Or.inl (by rw [h.2.1]; exact List.nil_prefix), no h.2.2 (by rw [hpc]; nofun)⟩
    · exact all h
  · rename_i hpc
    rcases h with h | h
    · exact ⟨Or.inl (by rw [← h.1]; exact List.prefix_append _ _), no h.2 (by rw [hpc]; nofun)⟩
    · exact all h
  · rename_i hpc
    rcases h with h | h
    · exact ⟨Or.inl (by rw [h.1]; exact List.nil_prefix), no h.2 (by rw [hpc]; nofun)⟩
    · exact all h
  · exact all h

/-- **C129** for the whole first steps of a fit: individuals given as a warm start, each search method,
whatever the state of the instance. -/
theorem C129_warm_start (o : SearchOps σ ι) (xs finalPop fresh : List ι) (hx : xs ≠ []) (w : σ) :
    ∃ c, searchStart (some (xs.map .individual)) finalPop fresh = .ok c ∧
      (∀ maxN size out is, let s := eaRun o maxN size is (eaStart c out w)
        (s.submitted <+: xs ∨ xs <+: s.submitted) ∧ (s.history ≠ [] ∨ s.pc = .loop → xs <+: s.submitted)) ∧
      (∀ maxN out is, let s := rsRun o maxN is (rsStart c out w)
        s.submitted <+: xs ∨ xs <+: s.submitted) ∧
      ∀ cfg is, c = .list xs ∧ let s := ashaRun o cfg is (ashaStart cfg xs w)
        jobsOn cfg.rate s.submitted <+: xs.reverse ∨ xs.reverse <+: jobsOn cfg.rate s.submitted := by
  refine ⟨.list xs, (C129_taken xs finalPop fresh).1 hx, fun maxN size out is => ?_,
    fun maxN out is => ?_, fun cfg is => ⟨rfl, ?_⟩⟩
  · exact C129_evolution_partial o maxN size xs out w is _ rfl
  · exact C38_candidates_first o maxN xs out w is _ rfl
  · exact C37_asha_partial o cfg xs w is _ rfl

/-- **C129** in full, of evolution: whatever list object is given, if it holds individuals these are
submitted before the search waits. -/
def C129_claim : Prop :=
  ∀ (σ ι : Type) (_ : DecidableEq ι) (o : SearchOps σ ι) (warm : WarmList ι) (finalPop fresh xs : List ι),
    warm.items finalPop = xs.map .individual → xs ≠ [] →
    ∃ c, searchStartList warm finalPop fresh = .ok c ∧ ∀ maxN size w is,
      (eaRun o maxN size is (eaStart c finalPop w)).pc = .loop →
      xs <+: (eaRun o maxN size is (eaStart c finalPop w)).submitted

/-- **C129**, for a list of the caller's own: see `C129_warm_start`. -/
theorem C129_own_list (xs finalPop fresh : List ι) :
    searchStartList (.own (xs.map .individual)) finalPop fresh =
      searchStart (some (xs.map .individual)) finalPop fresh := rfl

/-- An evolutionary search from its own output list. -/
def Emptied (s : Ea σ ι) : Prop :=
  s.submitted = [] ∧ s.pending = [] ∧
  match s.pc with
  | .start c => c = .sameAsOutput
  | .clear c => c = .sameAsOutput
  | .submit rest => rest = []
  | .loop => True
  | .returned => True
  | .raised _ => True
  | _ => False

theorem emptied_step (o : SearchOps σ ι) (maxN : Option Int) (size : Nat) (i : EaInput σ) (s : Ea σ ι)
    (h : Emptied s) : Emptied (eaStep o maxN size i s) := by
  obtain ⟨pc, w, pop, pend, ev, hist, sub⟩ := s
  obtain ⟨h1, h2, h3⟩ := h
  dsimp only at h1 h2
  subst h1 h2
  cases pc with
  | start c =>
    cases h3
    unfold eaStep
    dsimp only
    by_cases hr : eaRefused maxN = true
    · rw [if_pos hr]; exact ⟨rfl, rfl, trivial⟩
    · rw [if_neg hr]; exact ⟨rfl, rfl, rfl⟩
  | clear c => cases h3; exact ⟨rfl, rfl, rfl⟩
  | submit rest => cases h3; exact ⟨rfl, rfl, trivial⟩
  | loop =>
    unfold eaStep
    dsimp only
    by_cases hm : eaMore maxN ev = true
    · rw [if_pos hm]
      cases i.wait with
      | raises e => exact ⟨rfl, rfl, trivial⟩
      | completes k c w => exact ⟨rfl, rfl, trivial⟩
    · rw [if_neg hm]; exact ⟨rfl, rfl, trivial⟩
  | returned => exact ⟨rfl, rfl, trivial⟩
  | raised e => exact ⟨rfl, rfl, trivial⟩
  | got _ _ => exact h3.elim
  | full => exact h3.elim
  | remove _ => exact h3.elim
  | fill => exact h3.elim
  | restart => exact h3.elim
  | renew _ _ => exact h3.elim

/-- If the list given is the population of the last fit itself, an evolutionary search never submits
anything: it clears the list before it reads it. -/
theorem C129_own_population (o : SearchOps σ ι) (finalPop fresh : List ι) (hp : finalPop ≠ []) (maxN : Option Int)
    (size : Nat) (w : σ) (is : List (EaInput σ)) :
    ∃ c, searchStartList .finalPop finalPop fresh = .ok c ∧
      (eaRun o maxN size is (eaStart c finalPop w)).submitted = [] := by
  refine ⟨.sameAsOutput, ?_, ?_⟩
  · unfold searchStartList
    dsimp only
    rw [if_neg fun h => hp (List.length_eq_zero_iff.1 h)]
  · have key : ∀ (is : List (EaInput σ)) (s : Ea σ ι), Emptied s → Emptied (eaRun o maxN size is s) := by
      intro is
      induction is with
      | nil => intro s h; exact h
      | cons i is ih => intro s h; exact ih _ (emptied_step o maxN size i s h)
    exact (key is _ ⟨rfl, rfl, rfl⟩).1

/-- **C129** is false of the code: an individual from the last population, given in the list itself. -/
theorem C129_false : ¬ C129_claim := by
  intro h
  obtain ⟨c, h1, h2⟩ := h _ _ inferInstance Ex.ops .finalPop [4] [1, 2] [4] rfl (by simp)
  cases h1
  have := h2 none 50 () (List.replicate 3 ⟨.raises .runtimeError, 0, false⟩) rfl
  exact absurd this (by decide +kernel)

/-- A second fit whose population holds 1 and 2, with 8 and 9 as a warm start. -/
example : searchStart (some [.individual 8, .individual 9]) [1, 2] [3, 4] = .ok (.list [8, 9]) ∧
    (eaRun Ex.ops none 5 (List.replicate 6 ⟨.completes 0 (.result true (.fin 1)) (), 0, false⟩)
      (eaStart (.list [8, 9]) [1, 2] ())).submitted = [8, 9] := ⟨rfl, by decide +kernel⟩

example : searchStart (some [.individual 8, .other]) [1, 2] [3, 4] = .error .typeError := rfl

/-! ### Cases of the theorems above -/

/-- `C128_evolution_moment_partial`: time is up while the first candidates are handed out. -/
example : ∃ r, eaEnd (some .timeout) (eaStart (.list [4, 5]) [7, 3] () : Ea Unit Nat) = some r ∧
    ∃ x ∈ [7, 3], fitChoice (fun n : Nat => [Score.fin n]) r = .ok x :=
  let ⟨r, h, _, h2⟩ := C128_evolution_moment_partial (eaStart (.list [4, 5]) [7, 3] () : Ea Unit Nat) .timeout (.inl rfl)
    (fun n : Nat => [Score.fin n]) nofun nofun
  let ⟨x, hx, hf, _⟩ := h2 nofun
  ⟨r, h, x, hx, hf⟩

/-- `C128_random_search_moment`: the user interrupts before anything is evaluated. -/
example : ∃ r, ∃ seen : List Nat, rsEnd (some .keyboardInterrupt) (rsStart (.list [4, 5]) [] () : Rs Unit Nat) = some r ∧
    (seen = [] → fitChoice (fun n : Nat => [Score.fin n]) r = .error .indexError) :=
  let ⟨r, h, seen, _, h2, _⟩ := C128_random_search_moment Ex.ops none [4, 5] () [] _ rfl nofun nofun .keyboardInterrupt
    (.inr rfl) (fun n : Nat => [Score.fin n])
  ⟨r, seen, h, h2⟩

/-- `C128_halving_stopped`: the user interrupts the halving of `Ex.cutHalving`. -/
example : ∃ r, ashaEnd [] (some .keyboardInterrupt) Ex.cutHalving = some r ∧
    fitChoice (fun n : Nat => [Score.fin n]) r = .error .unboundLocal :=
  C128_halving_stopped Ex.ops ⟨2, 0, 2, none⟩ [1, 2, 3] () [] _ Ex.cutHalving rfl
    (by rw [Ex.cutHalving_pc]; nofun) (by rw [Ex.cutHalving_pc]; nofun) .keyboardInterrupt (.inl nofun) _

/-- `C128_own_exception`: an evolution that starved. -/
example (outside : Option Exn) : ∃ r, eaEnd outside { (eaStart (.list [4]) [] () : Ea Unit Nat) with pc := .raised .runtimeError } =
    some r ∧ fitChoice (fun n : Nat => [Score.fin n]) r = .error .runtimeError :=
  (C128_own_exception .runtimeError (by rintro (h | h) <;> cases h) _).1 _ outside rfl

/-- `C129_taken`, `C129_refused`, `C129_warm_start`. -/
example : searchStart (some ([8, 9].map .individual)) [1, 2] [3, 4] = .ok (.list [8, 9]) ∧
    searchStart (some [.individual 8, .other]) [1, 2] [3, 4] = .error .typeError :=
  ⟨(C129_taken [8, 9] [1, 2] [3, 4]).1 (by simp), C129_refused _ (by simp) _ _⟩

/-- `C129_own_population`: the individuals 4 and 5 of the last fit. -/
example (is : List (EaInput Unit)) : ∃ c, searchStartList .finalPop [4, 5] [1, 2] = .ok c ∧
    (eaRun Ex.ops none 50 is (eaStart c [4, 5] ())).submitted = [] :=
  C129_own_population Ex.ops [4, 5] [1, 2] (by simp) none 50 () is

end
end Gama
