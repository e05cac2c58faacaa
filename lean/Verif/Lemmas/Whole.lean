import Verif.Model.Whole
import Verif.Lemmas.Joint
import Verif.Lemmas.Grow
import Verif.Props.Joint
import Verif.Props.Library

/-! # Lemmas about a search, its evaluator and the evaluation library -/

namespace Gama
open PyM Spec

section
variable {S I A B J Fn V X Ω E P : Type}

/-- The `Evaluation` of what a call for job `j` returned (in which a MemoryError may have been
replaced, async_evaluator.py l.330-336). -/
def Spec.Returned (U : Setup S I A B J Fn V X Ω E P) (D : List (Str × V)) (j : J)
    (r : EvalRec E P (List Score)) : Prop :=
  ∃ kw ω v v', KwargsFrom (U.coding.kwargs j) D kw ∧
    U.jobs.call (U.coding.fn j) (U.coding.args j) kw ω = .returns v ∧
    (v' = v ∨ (U.jobs.probe v = .memoryError ∧ v' = U.jobs.withoutMemoryError v)) ∧
    r.ident = U.ident j ∧ r.score = (U.report v').score ∧ r.error = (U.report v').error ∧
    r.estimators = (U.report v').estimators ∧ r.predictions = (U.report v').predictions

/-- What a search reads in a result is what the `Evaluation` holds: whether there is an error, and its
first score. -/
def Spec.Agrees (U : Setup S I A B J Fn V X Ω E P) : Prop :=
  ∀ v, ∃ sc, (U.coding.read v).2 = .result (U.report v).error.isNone sc ∧ (U.report v).score.head? = some sc

/-- An evaluation that is under way. -/
def Expected (U : Setup S I A B J Fn V X Ω E P) (s : S) (j : J) : Prop :=
  ((U.client.history s).map Prod.fst ++ [j]).Subperm (U.client.submitted s)

/-- What an event does to the search and the library. -/
inductive Move (U : Setup S I A B J Fn V X Ω E P) (D : List (Str × V)) :
    S × Lib E P (List Score) → S × Lib E P (List Score) → Prop
  | still {s l} : Move U D (s, l) (s, l)
  | go {s l} (b : B) (q : Int) : U.client.waits s = false →
      Move U D (s, l) (U.client.step (U.client.go (U.look (inLibrary l) b) q) s, l)
  | raised {s l} (e : Exn) : U.client.waits s = true →
      Move U D (s, l) (U.client.step (U.client.waited (.raises e)) s, l)
  | failed {s l} (j : J) : U.client.waits s = true → Expected U s j →
      Move U D (s, l)
        (U.client.step (U.client.waited (.completes 0 .failed (U.world s))) (U.client.setPending [j] s), l)
  | saved {s l} (j : J) (r : EvalRec E P (List Score)) (sc : Score) : U.client.waits s = true →
      Expected U s j → Returned U D j r → r.pipeline = pipelineOf (U.ident j) (U.world s) →
      r.score.head? = some sc →
      Move U D (s, l)
        (U.client.step (U.client.waited (.completes 0 (.result r.error.isNone sc)
          (recordFitness r.ident r.score (U.world s)))) (U.client.setPending [j] s), (saveEvaluation U.lib r l).2)
  | interrupted {s l} (j : J) (r : EvalRec E P (List Score)) (e : Exn) : U.client.waits s = true →
      Expected U s j → Returned U D j r → r.pipeline = pipelineOf (U.ident j) (U.world s) →
      Move U D (s, l) (U.client.step (U.client.waited (.raises e)) s, (saveEvaluation U.lib r l).2)

/-- Any number of moves. -/
inductive Moves (U : Setup S I A B J Fn V X Ω E P) (D : List (Str × V)) :
    S × Lib E P (List Score) → S × Lib E P (List Score) → Prop
  | refl {a} : Moves U D a a
  | tail {a b c} : Moves U D a b → Move U D b c → Moves U D a c

theorem Moves.induct {U : Setup S I A B J Fn V X Ω E P} {D : List (Str × V)}
    {Q : S × Lib E P (List Score) → Prop} {a b : S × Lib E P (List Score)} (h : Moves U D a b)
    (ha : Q a) (hs : ∀ x y, Move U D x y → Q x → Q y) : Q b := by
  induction h with
  | refl => exact ha
  | tail _ h2 ih => exact hs _ _ h2 ih

/-- What the result of a returned future is. -/
theorem returned_of_reports {U : Setup S I A B J Fn V X Ω E P} (hK : Faithful U.coding U.jobs)
    {D : List (Str × V)} {m f : Future Fn V X} {j : J} (h1 : m.fn = U.coding.fn j)
    (h2 : m.args = U.coding.args j) (h3 : m.kwargs = U.coding.kwargs j) (h : Reports U.jobs D m f) (w : World) :
    (f.result = none ∧ completionOf U.coding f = .failed) ∨
    ∃ v, f.result = some v ∧ completionOf U.coding f = (U.coding.read v).2 ∧ (U.coding.read v).1 = j ∧
      Returned U D j (evaluationOf U w v) := by
  obtain ⟨kw, ω, hkw, h⟩ := h
  rw [h1, h2] at h
  rw [h3] at hkw
  cases hc : U.jobs.call (U.coding.fn j) (U.coding.args j) kw ω with
  | returns v =>
    rw [hc] at h
    dsimp only at h
    obtain ⟨r1, r2⟩ := hK.read j kw ω v hc
    rcases h with ⟨a, b⟩ | ⟨a, b, c⟩ | ⟨a, b, c⟩
    · refine Or.inr ⟨v, a, by unfold completionOf; rw [a, b], r1, kw, ω, v, v, hkw, hc, Or.inl rfl, ?_, rfl, rfl,
        rfl, rfl⟩
      show U.ident (U.coding.read v).1 = _
      rw [r1]
    · refine Or.inr ⟨_, b, by unfold completionOf; rw [b, c], r2, kw, ω, v, _, hkw, hc, Or.inr ⟨a, rfl⟩, ?_, rfl,
        rfl, rfl, rfl⟩
      show U.ident (U.coding.read _).1 = _
      rw [r2]
    · exact Or.inl ⟨b, by unfold completionOf; rw [b, c]⟩
  | raises e =>
    rw [hc] at h
    dsimp only at h
    exact Or.inl ⟨h.1, by unfold completionOf; rw [h.1, h.2]⟩
  | escapes =>
    rw [hc] at h
    exact h.elim

/-- The state of the search and the library. -/
def Whole.core (s : Whole S Fn V X E P) : S × Lib E P (List Score) := (s.joint.search, s.lib)

/-- What the jobs pending in the evaluator are. -/
theorem awaited_of_ok {U : Setup S I A B J Fn V X Ω E P} (hC : U.client.Lawful)
    (hset : ∀ p q s t, U.client.setPending p s = U.client.setPending q t → p = q) {D : List (Str × V)}
    {Q : S → A → Int → Prop} {start : S} (hs : U.client.setPending [] start = start)
    (hh : U.client.history start = []) (hsub : U.client.submitted start = []) {s : Joint S Fn V X}
    (h : JointOK U.client U.coding U.jobs D Q start s) (hw : U.client.waits s.search = true) {j : J}
    (hj : j ∈ pendingJobs U.coding s.ev) : Expected U s.search j := by
  obtain ⟨is, p, h1, h2, h3⟩ := h.sim
  have hp : p = pendingJobs U.coding s.ev := by
    rcases h3 with h3 | h3
    · exact h3
    · have := h3.1
      rw [hw] at this; cases this
  have hb := Client.run_induct (balanced_step hC hset) is start
    ⟨(by rw [hh]; intro x hx; cases hx), [], start, hs.symm, (by rw [hh, hsub]; exact .nil)⟩ h2
  rw [h1] at hb
  obtain ⟨q, t, e, hq⟩ := hb.once
  have hpq := hset _ _ _ _ e
  rw [hC.history_set, hC.submitted_set, ← hpq, hp] at hq
  obtain ⟨pre, post, hsplit⟩ := List.append_of_mem hj
  rw [hsplit] at hq
  refine List.Subperm.trans ?_ hq.subperm
  refine (List.subperm_append_left _).2 ?_
  exact List.singleton_subperm_iff.2 (by simp)

/-- One event. -/
theorem whole_step {U : Setup S I A B J Fn V X Ω E P} (hC : U.client.Lawful)
    (hset : ∀ p q s t, U.client.setPending p s = U.client.setPending q t → p = q)
    (hK : Faithful U.coding U.jobs) (ha : Agrees U) {D : List (Str × V)} {start : S}
    (hs : U.client.setPending [] start = start) (hh : U.client.history start = [])
    (hsub : U.client.submitted start = []) (e : WholeEvent B Ω) (s : Whole S Fn V X E P)
    (h : JointOK U.client U.coding U.jobs D (fun _ _ _ => True) start s.joint) :
    JointOK U.client U.coding U.jobs D (fun _ _ _ => True) start (wholeStep U e s).joint ∧
    Move U D s.core (wholeStep U e s).core := by
  have step : ∀ e, JointOK U.client U.coding U.jobs D (fun _ _ _ => True) start
      (jointStep U.client U.coding U.jobs e s.joint) :=
    fun e => jointOK_step hC hK e s.joint h (fun _ _ => trivial)
  cases e with
  | go b =>
    refine ⟨step (.go (U.look (inLibrary s.lib) b)), ?_⟩
    unfold wholeStep Whole.core jointStep
    dsimp only
    cases hw : U.client.waits s.joint.search with
    | true => rw [if_pos rfl]; exact .still
    | false => rw [if_neg (by simp)]; exact .go b _ hw
  | wait =>
    refine ⟨step .wait, ?_⟩
    unfold wholeStep Whole.core jointStep
    dsimp only
    cases hw : U.client.waits s.joint.search with
    | false => rw [if_neg (by simp)]; exact .still
    | true =>
      rw [if_pos rfl]
      cases hr : asyncStep U.jobs s.joint.ev .wait with
      | mk ob ev =>
        cases ob with
        | raised e => exact .raised e hw
        | nothing => exact .still
        | submitted f => exact .still
        | returned f => exact .still
  | worker pid act => exact ⟨step (.worker pid act), .still⟩
  | iterate r₁ r₂ r₃ o fin =>
    obtain ⟨⟨tr, hg⟩, hcoded, hwait, -⟩ := id h
    have hk := iterate_cases hg r₁ r₂ r₃ o
    cases hr : asyncStep U.jobs s.joint.ev (.iterate r₁ r₂ r₃ o) with
    | mk ob ev =>
      rw [hr] at hk
      dsimp only at hk
      rcases hk with ⟨h1, h2, h3⟩ | ⟨e, h1, h2, h3, h4⟩ |
        ⟨f, m, pre, post, h1, h2, h3, h4, h5, e1, e2, e3, h6⟩
      · subst h1
        have he : wholeStep U (.iterate r₁ r₂ r₃ o fin) s = ⟨jointStep U.client U.coding U.jobs
            (.iterate r₁ r₂ r₃ o (.ok (U.world s.joint.search))) s.joint, s.lib⟩ := by
          unfold wholeStep; dsimp only; rw [hr]
        rw [he]
        refine ⟨step (.iterate r₁ r₂ r₃ o (.ok (U.world s.joint.search))), ?_⟩
        unfold Whole.core jointStep
        dsimp only
        rw [hr]
        exact .still
      · subst h1
        have he : wholeStep U (.iterate r₁ r₂ r₃ o fin) s = ⟨jointStep U.client U.coding U.jobs
            (.iterate r₁ r₂ r₃ o (.ok (U.world s.joint.search))) s.joint, s.lib⟩ := by
          unfold wholeStep; dsimp only; rw [hr]
        rw [he]
        refine ⟨step (.iterate r₁ r₂ r₃ o (.ok (U.world s.joint.search))), ?_⟩
        unfold Whole.core jointStep
        dsimp only
        rw [hr]
        exact .raised e (hwait h4)
      · subst h1
        have he : wholeStep U (.iterate r₁ r₂ r₃ o fin) s =
            ⟨jointStep U.client U.coding U.jobs
              (.iterate r₁ r₂ r₃ o (afterCallback U fin f (U.world s.joint.search))) s.joint,
              afterSaving U fin f (U.world s.joint.search) s.lib⟩ := by
          unfold wholeStep; dsimp only; rw [hr]
        rw [he]
        refine ⟨step (.iterate r₁ r₂ r₃ o (afterCallback U fin f (U.world s.joint.search))), ?_⟩
        unfold Whole.core jointStep
        dsimp only
        rw [hr]
        dsimp only
        have hws := hwait h3
        have hm : Coded U.coding m := hcoded (f.id, m) (by rw [h4]; simp)
        obtain ⟨j, j1, j2, j3⟩ := hm
        obtain ⟨hj, -⟩ := told_of_reports hK j1 j2 j3 e1 e2 e3 h6
        have hin : j ∈ pendingJobs U.coding s.joint.ev := by
          unfold pendingJobs
          refine List.mem_map.2 ⟨(f.id, m), by rw [h4]; simp, ?_⟩
          dsimp only
          rw [j1, j2, j3]; exact hK.job j
        have haw := awaited_of_ok hC hset hs hh hsub h hws hin
        rcases returned_of_reports hK j1 j2 j3 h6 (U.world s.joint.search) with ⟨a1, a2⟩ | ⟨v, a1, a2, a3, a4⟩
        · cases fin with
          | returns =>
            unfold afterCallback afterSaving deliver
            dsimp only
            rw [a1, hj, a2]
            exact .failed j hws haw
          | raisesBefore e => exact .raised e hws
          | raisesAfter e =>
            unfold afterCallback afterSaving deliver
            dsimp only
            rw [a1]
            exact .raised e hws
        · obtain ⟨sc, b1, b2⟩ := ha v
          have hpipe : (evaluationOf U (U.world s.joint.search) v).pipeline =
              pipelineOf (U.ident j) (U.world s.joint.search) := by
            show pipelineOf (U.ident (U.coding.read v).1) _ = _
            rw [a3]
          cases fin with
          | returns =>
            unfold afterCallback afterSaving deliver
            dsimp only
            rw [a1, hj, a2, b1]
            exact .saved j (evaluationOf U (U.world s.joint.search) v) sc hws haw a4 hpipe b2
          | raisesBefore e => exact .raised e hws
          | raisesAfter e =>
            unfold afterCallback afterSaving deliver
            dsimp only
            rw [a1]
            exact .interrupted j _ e hws haw a4 hpipe

/-- A run. -/
theorem whole_moves {U : Setup S I A B J Fn V X Ω E P} (hC : U.client.Lawful)
    (hset : ∀ p q s t, U.client.setPending p s = U.client.setPending q t → p = q)
    (hK : Faithful U.coding U.jobs) (ha : Agrees U) {start : S}
    (hs : U.client.setPending [] start = start) (hh : U.client.history start = [])
    (hsub : U.client.submitted start = []) (lib₀ : Lib E P (List Score)) (n : Nat) (limit : Option ℚ)
    (logfile : Bool) (D : List (Str × V)) (es : List (WholeEvent B Ω)) :
    Moves U D (start, lib₀) (wholeRun U es (wholeStart start lib₀ n limit logfile D)).core := by
  have key : ∀ (es : List (WholeEvent B Ω)) (s : Whole S Fn V X E P),
      JointOK U.client U.coding U.jobs D (fun _ _ _ => True) start s.joint →
      Moves U D (start, lib₀) s.core → Moves U D (start, lib₀) (wholeRun U es s).core := by
    intro es
    induction es with
    | nil => intro s _ h; exact h
    | cons e es ih =>
      intro s h1 h2
      obtain ⟨g1, g2⟩ := whole_step hC hset hK ha hs hh hsub e s h1
      exact ih _ g1 (h2.tail g2)
  exact key es _ (jointOK_start hs n limit logfile D) .refl

theorem saveAll_append (c : LibConfig) : ∀ (a b : List (EvalRec E P (List Score))) (s : Lib E P (List Score)),
    saveAll c (a ++ b) s = saveAll c b (saveAll c a s)
  | [], _, _ => rfl
  | _ :: a, b, s => saveAll_append c a b _

/-- The evaluations of a history that gave a result. -/
def Spec.results (h : List (J × Completion)) : List (J × Completion) := h.filter fun x => x.2 != .failed

/-- `r` is the evaluation that a search was told of. -/
def Spec.ToldAs (U : Setup S I A B J Fn V X Ω E P) (D : List (Str × V)) (x : J × Completion)
    (r : EvalRec E P (List Score)) : Prop :=
  Returned U D x.1 r ∧ ∃ sc, x.2 = .result r.error.isNone sc ∧ r.score.head? = some sc

theorem forall₂_snoc {α β : Type} {R : α → β → Prop} {a : List α} {b : List β} {x : α} {y : β}
    (h : List.Forall₂ R a b) (hx : R x y) : List.Forall₂ R (a ++ [x]) (b ++ [y]) := by
  induction h with
  | nil => exact .cons hx .nil
  | cons h1 _ ih => exact .cons h1 ih

theorem forall₂_right {α β : Type} {R : α → β → Prop} {a : List α} {b : List β} (h : List.Forall₂ R a b) :
    ∀ y ∈ b, ∃ x ∈ a, R x y := by
  induction h with
  | nil => intro x hx; cases hx
  | cons h1 _ ih =>
    intro x hx
    rcases List.mem_cons.1 hx with rfl | hx
    · exact ⟨_, by simp, h1⟩
    · obtain ⟨y, hy, hr⟩ := ih x hx
      exact ⟨y, by simp [hy], hr⟩

/-- What the library was told, where all its records satisfy `T`. -/
def Records (U : Setup S I A B J Fn V X Ω E P) (D : List (Str × V)) (lib₀ : Lib E P (List Score))
    (T : S → EvalRec E P (List Score) → Prop) (x : S × Lib E P (List Score)) : Prop :=
  ∃ told extra, x.2 = saveAll U.lib (told ++ extra) lib₀ ∧
    List.Forall₂ (ToldAs U D) (results (U.client.history x.1)) told ∧
    (extra = [] ∨ ∃ r j, extra = [r] ∧ Returned U D j r ∧ U.client.Stuck x.1 ∧ Expected U x.1 j ∧
      ∃ t e, U.client.waits t = true ∧ x.1 = U.client.step (U.client.waited (.raises e)) t) ∧
    ∀ r ∈ told ++ extra, T x.1 r

theorem records_move {U : Setup S I A B J Fn V X Ω E P} (hC : U.client.Lawful) {D : List (Str × V)}
    {lib₀ : Lib E P (List Score)} {T : S → EvalRec E P (List Score) → Prop} {x y : S × Lib E P (List Score)}
    (hm : Move U D x y) (hkeep : ∀ r, T x.1 r → T y.1 r)
    (hnew : ∀ j r, Expected U x.1 j → Returned U D j r → r.pipeline = pipelineOf (U.ident j) (U.world x.1) →
      T y.1 r)
    (h : Records U D lib₀ T x) : Records U D lib₀ T y := by
  have hextra : ∀ {s : S} {extra : List (EvalRec E P (List Score))}, U.client.waits s = true →
      (extra = [] ∨ ∃ r j, extra = [r] ∧ Returned U D j r ∧ U.client.Stuck s ∧ Expected U s j ∧
        ∃ t e, U.client.waits t = true ∧ s = U.client.step (U.client.waited (.raises e)) t) →
      extra = [] := by
    intro s extra hw h
    rcases h with h | ⟨r, j, -, -, h, -⟩
    · exact h
    · have := h.1
      rw [hw] at this; cases this
  obtain ⟨told, extra, h1, h2, h3, h4⟩ := h
  replace h4 : ∀ r ∈ told ++ extra, T y.1 r := fun r hr => hkeep r (h4 r hr)
  cases hm with
  | still => exact ⟨told, extra, h1, h2, h3, h4⟩
  | go b q hw =>
    rename_i s l
    dsimp only at h1 h2 h3
    obtain ⟨new, n1, n2, -⟩ := hC.go (U.look (inLibrary l) b) q s [] hw
    refine ⟨told, extra, h1, ?_, ?_, h4⟩
    · show List.Forall₂ _ (results (U.client.history (U.client.step _ s))) told
      rw [n2]; exact h2
    · rcases h3 with h3 | ⟨r, j, e1, e2, e3, e4, e5⟩
      · exact Or.inl h3
      · refine Or.inr ⟨r, j, e1, e2, ?_⟩
        show U.client.Stuck (U.client.step _ s) ∧ Expected U (U.client.step _ s) j ∧
          ∃ t e, U.client.waits t = true ∧ U.client.step _ s = U.client.step (U.client.waited (.raises e)) t
        rw [e3.2]
        exact ⟨e3, e4, e5⟩
  | raised e hw =>
    rename_i s l
    have h3 := hextra hw h3
    obtain ⟨-, -, r3, -⟩ := hC.raises e s [] hw
    refine ⟨told, extra, h1, ?_, Or.inl h3, h4⟩
    show List.Forall₂ _ (results (U.client.history (U.client.step _ s))) told
    rw [r3]; exact h2
  | failed j hw haw =>
    rename_i s l
    have h3 := hextra hw h3
    obtain ⟨-, -, c3⟩ := hC.completes .failed (U.world s) s [] j [] hw
    refine ⟨told, extra, h1, ?_, Or.inl h3, h4⟩
    show List.Forall₂ _ (results (U.client.history (U.client.step _ _))) told
    rw [c3]
    unfold results at h2 ⊢
    rw [List.filter_append]
    simpa using h2
  | saved j r sc hw haw hr hp hsc =>
    rename_i s l
    have h3 := hextra hw h3
    obtain ⟨-, -, c3⟩ := hC.completes (.result r.error.isNone sc) (recordFitness r.ident r.score (U.world s))
      s [] j [] hw
    subst h3
    dsimp only at h1
    rw [List.append_nil] at h1 h4
    refine ⟨told ++ [r], [], ?_, ?_, Or.inl rfl, ?_⟩
    · show (saveEvaluation U.lib r l).2 = _
      rw [List.append_nil, saveAll_append, ← h1]; rfl
    · show List.Forall₂ _ (results (U.client.history (U.client.step _ _))) _
      rw [c3]
      unfold results
      rw [List.filter_append]
      exact forall₂_snoc h2 ⟨hr, sc, rfl, hsc⟩
    · rw [List.append_nil]
      intro r' hr'
      rcases List.mem_append.1 hr' with hr' | hr'
      · exact h4 r' hr'
      · rw [List.mem_singleton.1 hr']
        exact hnew j r haw hr hp
  | interrupted j r e hw haw hr hp =>
    rename_i s l
    have h3 := hextra hw h3
    obtain ⟨-, r2, r3, r4⟩ := hC.raises e s [] hw
    subst h3
    dsimp only at h1
    rw [List.append_nil] at h1 h4
    refine ⟨told, [r], ?_, ?_, Or.inr ⟨r, j, rfl, hr, r4, ?_, s, e, hw, rfl⟩, ?_⟩
    · show (saveEvaluation U.lib r l).2 = _
      rw [saveAll_append, ← h1]; rfl
    · show List.Forall₂ _ (results (U.client.history (U.client.step _ s))) told
      rw [r3]; exact h2
    · unfold Expected at haw ⊢
      dsimp only
      rw [r2, r3]
      exact haw
    · intro r' hr'
      rcases List.mem_append.1 hr' with hr' | hr'
      · exact h4 r' hr'
      · rw [List.mem_singleton.1 hr']
        exact hnew j r haw hr hp

theorem results_sublist (h : List (J × Completion)) : (results h).Sublist h := List.filter_sublist

end

/-! ### Individuals are submitted once -/

/-- Candidates that wait to be submitted. -/
def EaPc.queued : EaPc Nat → List Nat
  | .start (.list l) => l
  | .clear (.list l) => l
  | .submit rest => rest
  | .renew _ made => made
  | _ => []

/-- No individual is submitted twice. -/
structure EaApart (s : Ea World Nat) : Prop where
  once : (s.submitted ++ s.pc.queued).Nodup
  known : ∀ x ∈ s.submitted ++ s.pc.queued, x < s.world.inds.length

theorem nodup_new {l : List Nat} {n x : Nat} (h : l.Nodup) (hk : ∀ y ∈ l, y < n) (hx : n ≤ x) :
    (l ++ [x]).Nodup := by
  refine List.nodup_append.2 ⟨h, by simp, ?_⟩
  intro a ha b hb hab
  rw [List.mem_singleton.1 hb] at hab
  have := hk a ha
  omega

theorem known_new {l : List Nat} {n m x : Nat} (hk : ∀ y ∈ l, y < n) (hnm : n ≤ m) (hx : x < m) :
    ∀ y ∈ l ++ [x], y < m := by
  intro y hy
  rcases List.mem_append.1 hy with hy | hy
  · exact Nat.lt_of_lt_of_le (hk y hy) hnm
  · rw [List.mem_singleton.1 hy]; exact hx

theorem eaApart_step (c : OpConfig) (cxpb : ℚ) (maxN : Option Int) (size : Nat) (i : EaInput World)
    (s : Ea World Nat) (h : EaApart s)
    (hi : ∀ j r w, i.wait = .completes j r w → s.world.inds.length ≤ w.inds.length) :
    EaApart (eaStep (gamaOps c cxpb) maxN size i s) := by
  obtain ⟨hcreate, helim, hnew, hgrow⟩ := gamaOps_new c cxpb
  obtain ⟨pc, world, population, pending, evaluated, history, submitted⟩ := s
  obtain ⟨h1, h2⟩ := h
  dsimp only at h1 h2 hi
  have drop : submitted.Nodup ∧ ∀ x ∈ submitted, x < world.inds.length :=
    ⟨(List.nodup_append.1 h1).1, fun x hx => h2 x (List.mem_append_left _ hx)⟩
  have nothing : ∀ {w : World}, world.inds.length ≤ w.inds.length →
      (submitted ++ []).Nodup ∧ ∀ x ∈ submitted ++ [], x < w.inds.length := by
    intro w hw
    rw [List.append_nil]
    exact ⟨drop.1, fun x hx => Nat.lt_of_lt_of_le (drop.2 x hx) hw⟩
  have z := nothing (Nat.le_refl _)
  unfold eaStep
  cases pc with
  | start c =>
    dsimp only
    split
    · exact ⟨z.1, z.2⟩
    · cases c <;> exact ⟨h1, h2⟩
  | clear c => cases c <;> exact ⟨h1, h2⟩
  | submit rest =>
    cases rest with
    | nil => exact ⟨z.1, z.2⟩
    | cons x xs =>
      have e : submitted ++ (EaPc.submit (x :: xs)).queued = (submitted ++ [x]) ++ (EaPc.submit xs).queued := by
        show submitted ++ (x :: xs) = (submitted ++ [x]) ++ xs
        simp
      rw [e] at h1 h2
      exact ⟨h1, h2⟩
  | loop =>
    dsimp only
    split
    · cases hw : i.wait with
      | raises e => exact ⟨z.1, z.2⟩
      | completes k r w =>
        dsimp only
        cases takePending pending k with
        | none => exact ⟨z.1, z.2⟩
        | some y =>
          have := nothing (hi k r w hw)
          exact ⟨this.1, this.2⟩
    · exact ⟨z.1, z.2⟩
  | got x r =>
    cases r with
    | failed => exact ⟨z.1, z.2⟩
    | result b sc => cases b <;> exact ⟨z.1, z.2⟩
  | full =>
    dsimp only
    split
    · have hg := (helim population world).length
      cases ho : (gamaOps c cxpb).eliminate population world with
      | mk r w =>
        rw [ho] at hg
        have := nothing hg
        cases r <;> exact ⟨this.1, this.2⟩
    · exact ⟨z.1, z.2⟩
  | remove x => dsimp only; split <;> exact ⟨z.1, z.2⟩
  | fill =>
    dsimp only
    split
    · have hg := ((hcreate population).2 world).length
      cases ho : (gamaOps c cxpb).create population world with
      | mk r w =>
        rw [ho] at hg
        cases r with
        | error e => have := nothing hg; exact ⟨this.1, this.2⟩
        | ok x =>
          obtain ⟨a1, a2⟩ := (hcreate population).1 world x w ho
          refine ⟨?_, ?_⟩
          · show ((submitted ++ [x]) ++ []).Nodup
            rw [List.append_nil]
            exact nodup_new drop.1 drop.2 a1
          · show ∀ y ∈ (submitted ++ [x]) ++ [], y < w.inds.length
            rw [List.append_nil]
            exact known_new drop.2 hg a2
    · exact ⟨z.1, z.2⟩
  | restart => dsimp only; split <;> exact ⟨z.1, z.2⟩
  | renew k made =>
    cases k with
    | zero => exact ⟨h1, h2⟩
    | succ k =>
      dsimp only
      have hg := (hgrow world).length
      cases ho : (gamaOps c cxpb).individual world with
      | mk r w =>
        rw [ho] at hg
        cases r with
        | error e => have := nothing hg; exact ⟨this.1, this.2⟩
        | ok x =>
          obtain ⟨a1, a2⟩ := hnew world x w ho
          have h1 : (submitted ++ made).Nodup := h1
          have h2 : ∀ y ∈ submitted ++ made, y < world.inds.length := h2
          refine ⟨?_, ?_⟩
          · show (submitted ++ (made ++ [x])).Nodup
            rw [← List.append_assoc]
            exact nodup_new h1 h2 a1
          · show ∀ y ∈ submitted ++ (made ++ [x]), y < w.inds.length
            rw [← List.append_assoc]
            exact known_new h2 hg a2
  | returned => exact ⟨h1, h2⟩
  | raised e => exact ⟨h1, h2⟩

/-- As for evolution. -/
def RsPc.queued : RsPc Nat → List Nat
  | .submit rest => rest
  | _ => []

structure RsApart (s : Rs World Nat) : Prop where
  once : (s.submitted ++ s.pc.queued).Nodup
  known : ∀ x ∈ s.submitted ++ s.pc.queued, x < s.world.inds.length

theorem rsApart_step (c : OpConfig) (cxpb : ℚ) (maxN : Option Int) (i : Wait World)
    (s : Rs World Nat) (h : RsApart s)
    (hi : ∀ j r w, i = .completes j r w → s.world.inds.length ≤ w.inds.length) :
    RsApart (rsStep (gamaOps c cxpb) maxN i s) := by
  obtain ⟨-, -, hnew, hgrow⟩ := gamaOps_new c cxpb
  obtain ⟨pc, world, output, pending, history, submitted⟩ := s
  obtain ⟨h1, h2⟩ := h
  dsimp only at h1 h2 hi
  have drop : submitted.Nodup ∧ ∀ x ∈ submitted, x < world.inds.length :=
    ⟨(List.nodup_append.1 h1).1, fun x hx => h2 x (List.mem_append_left _ hx)⟩
  have nothing : ∀ {w : World}, world.inds.length ≤ w.inds.length →
      (submitted ++ []).Nodup ∧ ∀ x ∈ submitted ++ [], x < w.inds.length := by
    intro w hw
    rw [List.append_nil]
    exact ⟨drop.1, fun x hx => Nat.lt_of_lt_of_le (drop.2 x hx) hw⟩
  have z := nothing (Nat.le_refl _)
  unfold rsStep
  cases pc with
  | submit rest =>
    cases rest with
    | nil => exact ⟨z.1, z.2⟩
    | cons x xs =>
      have e : submitted ++ (RsPc.submit (x :: xs)).queued = (submitted ++ [x]) ++ (RsPc.submit xs).queued := by
        show submitted ++ (x :: xs) = (submitted ++ [x]) ++ xs
        simp
      rw [e] at h1 h2
      exact ⟨h1, h2⟩
  | loop =>
    dsimp only
    split
    · cases hw : i with
      | raises e => exact ⟨z.1, z.2⟩
      | completes k r w =>
        dsimp only
        cases takePending pending k with
        | none => exact ⟨z.1, z.2⟩
        | some y =>
          have := nothing (hi k r w hw)
          exact ⟨this.1, this.2⟩
    · exact ⟨z.1, z.2⟩
  | got x r => cases r <;> exact ⟨z.1, z.2⟩
  | next =>
    dsimp only
    have hg := (hgrow world).length
    cases ho : (gamaOps c cxpb).individual world with
    | mk r w =>
      rw [ho] at hg
      cases r with
      | error e => have := nothing hg; exact ⟨this.1, this.2⟩
      | ok x =>
        obtain ⟨a1, a2⟩ := hnew world x w ho
        refine ⟨?_, ?_⟩
        · show ((submitted ++ [x]) ++ []).Nodup
          rw [List.append_nil]
          exact nodup_new drop.1 drop.2 a1
        · show ∀ y ∈ (submitted ++ [x]) ++ [], y < w.inds.length
          rw [List.append_nil]
          exact known_new drop.2 hg a2
  | returned => exact ⟨h1, h2⟩
  | raised e => exact ⟨h1, h2⟩

theorem recordFitness_length (x : Nat) (v : List Score) (w : World) :
    (recordFitness x v w).inds.length = w.inds.length := by
  unfold recordFitness
  simp

theorem evolveClient_lawful (c : OpConfig) (cxpb : ℚ) (maxN : Option Int) (size : Nat) :
    (evolveClient c cxpb maxN size).Lawful where
  set_set _ _ _ := rfl
  set_nil s := ⟨s.pending, rfl⟩
  waits_set _ _ := rfl
  submitted_set _ _ := rfl
  history_set _ _ := rfl
  go a q s p hw :=
    (eaClient_lawful (gamaOps { c with completed := a.1 } cxpb) maxN size).go a.2 q s p hw
  raises e s p hw := by
    obtain ⟨h1, h2, h3, h4, h5⟩ :=
      (eaClient_lawful (gamaOps { c with completed := fun _ => false } cxpb) maxN size).raises e s p hw
    refine ⟨h1, h2, h3, h4, fun i => ?_⟩
    have hw : eaWaits maxN s = true := hw
    have hpc : s.pc = .loop := by
      unfold eaWaits at hw
      cases h : s.pc <;> rw [h] at hw <;> first | rfl | cases hw
    have hm : eaMore maxN s.evaluated = true := by unfold eaWaits at hw; rw [hpc] at hw; exact hw
    have h0 : ∀ o : SearchOps World Nat, eaStep o maxN size ⟨.raises e, 0, false⟩ s = { s with pc := .raised e } := by
      intro o
      unfold eaStep
      dsimp only
      rw [hpc]
      dsimp only
      rw [if_pos hm]
    show eaStep _ maxN size i.2 (eaStep _ maxN size ⟨.raises e, 0, false⟩ s) =
      eaStep _ maxN size ⟨.raises e, 0, false⟩ s
    rw [h0]; rfl
  completes r w s pre j post hw :=
    (eaClient_lawful (gamaOps { c with completed := fun _ => false } cxpb) maxN size).completes r w s pre j post hw

end Gama
