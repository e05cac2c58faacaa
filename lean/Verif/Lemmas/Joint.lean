import Verif.Model.Joint
import Verif.Lemmas.Async3
import Verif.Props.Async
import Verif.Props.Search

/-! # Lemmas about searches on the evaluator -/

namespace Gama
open PyM Spec

section
variable {S I A J σ Fn V E Ω : Type}

/-- A run of a search by itself. -/
def Client.run (C : Client S I A J σ) : List I → S → S
  | [], s => s
  | i :: is, s => C.run is (C.step i s)

/-- Each input satisfies a condition in the state in which it is used. -/
def Client.Along (C : Client S I A J σ) (P : S → I → Prop) : List I → S → Prop
  | [], _ => True
  | i :: is, s => P s i ∧ C.Along P is (C.step i s)

theorem Client.run_append (C : Client S I A J σ) (a b : List I) : ∀ s,
    C.run (a ++ b) s = C.run b (C.run a s) := by
  induction a with
  | nil => intro s; rfl
  | cons i a ih => intro s; exact ih _

theorem Client.along_append {C : Client S I A J σ} {P : S → I → Prop} {a b : List I} : ∀ {s},
    C.Along P a s → C.Along P b (C.run a s) → C.Along P (a ++ b) s := by
  induction a with
  | nil => intro s _ h; exact h
  | cons i a ih => intro s h k; exact ⟨h.1, ih h.2 k⟩

theorem Client.run_induct {C : Client S I A J σ} {P : S → I → Prop} {Q : S → Prop}
    (hstep : ∀ s i, Q s → P s i → Q (C.step i s)) :
    ∀ (is : List I) (s : S), Q s → C.Along P is s → Q (C.run is s) := by
  intro is
  induction is with
  | nil => intro s h _; exact h
  | cons i is ih => intro s h k; exact ih _ (hstep s i h k.1) k.2

/-- The search has ended. -/
def Client.Stuck (C : Client S I A J σ) (s : S) : Prop := C.waits s = false ∧ ∀ i, C.step i s = s

/-- What all three searches have in common. -/
structure Client.Lawful (C : Client S I A J σ) : Prop where
  set_set : ∀ p q s, C.setPending p (C.setPending q s) = C.setPending p s
  set_nil : ∀ s, ∃ p, C.setPending p s = s
  waits_set : ∀ p s, C.waits (C.setPending p s) = C.waits s
  submitted_set : ∀ p s, C.submitted (C.setPending p s) = C.submitted s
  history_set : ∀ p s, C.history (C.setPending p s) = C.history s
  go : ∀ a q s p, C.waits s = false → ∃ new,
    C.submitted (C.step (C.go a q) s) = C.submitted s ++ new ∧
    C.history (C.step (C.go a q) s) = C.history s ∧
    C.step (C.go a q) (C.setPending p s) = C.setPending (p ++ new) (C.step (C.go a q) s)
  raises : ∀ e s p, C.waits s = true →
    C.step (C.waited (.raises e)) (C.setPending p s) =
      C.setPending p (C.step (C.waited (.raises e)) s) ∧
    C.submitted (C.step (C.waited (.raises e)) s) = C.submitted s ∧
    C.history (C.step (C.waited (.raises e)) s) = C.history s ∧
    C.Stuck (C.step (C.waited (.raises e)) s)
  completes : ∀ c w s pre j post, C.waits s = true →
    C.step (C.waited (.completes pre.length c w)) (C.setPending (pre ++ j :: post) s) =
      C.setPending (pre ++ post) (C.step (C.waited (.completes 0 c w)) (C.setPending [j] s)) ∧
    C.submitted (C.step (C.waited (.completes 0 c w)) (C.setPending [j] s)) = C.submitted s ∧
    C.history (C.step (C.waited (.completes 0 c w)) (C.setPending [j] s)) = C.history s ++ [(j, c)]

/-- A result that comes from evaluating job `j`: the outcome is what a search reads in a value that
a call for `j` returned, or it is a failure. -/
def Spec.Told (K : Coding Fn V J) (Jb : Jobs Fn V E Ω) (D : List (Str × V)) (j : J) (c : Completion) :
    Prop :=
  ∃ kw ω, KwargsFrom (K.kwargs j) D kw ∧
    match Jb.call (K.fn j) (K.args j) kw ω with
    | .returns v => c = (K.read v).2 ∨
        (Jb.probe v = .memoryError ∧ c = (K.read (Jb.withoutMemoryError v)).2) ∨
        (Jb.probe v = .raisesMemory ∧ c = .failed)
    | .raises _ => c = .failed
    | .escapes => False

/-- Evaluations return the individual they were given (and its rung): what `evaluate_pipeline`
(compilers/scikitlearn.py l.108-183) and `evaluate_on_rung` (asha.py l.210-219) do. -/
structure Spec.Faithful (K : Coding Fn V J) (Jb : Jobs Fn V E Ω) : Prop where
  job : ∀ j, K.job (K.fn j) (K.args j) (K.kwargs j) = j
  read : ∀ j kw ω v, Jb.call (K.fn j) (K.args j) kw ω = .returns v →
    (K.read v).1 = j ∧ (K.read (Jb.withoutMemoryError v)).1 = j

/-- An input a search can get. -/
def Client.Legal (C : Client S I A J σ) (Q : S → A → Int → Prop) (T : J → Completion → Prop) (s : S)
    (i : I) : Prop :=
  (∃ a q, i = C.go a q ∧ C.waits s = false ∧ Q s a q) ∨
  (∃ e, i = C.waited (.raises e) ∧ C.waits s = true) ∨
  (∃ pre j post c w t, s = C.setPending (pre ++ j :: post) t ∧
    i = C.waited (.completes pre.length c w) ∧ C.waits s = true ∧ T j c)

/-- The jobs that are pending in the evaluator. -/
def pendingJobs (K : Coding Fn V J) (ev : Evaluator Fn V E) : List J :=
  ev.futures.map fun x => K.job x.2.fn x.2.args x.2.kwargs

/-- The state of the search as `Search.lean` has it. -/
def Joint.view (C : Client S I A J σ) (K : Coding Fn V J) (s : Joint S Fn V E) : S :=
  C.setPending (pendingJobs K s.ev) s.search

/-- A future that asks for a job of the search. -/
def Coded (K : Coding Fn V J) (f : Future Fn V E) : Prop :=
  ∃ j, f.fn = K.fn j ∧ f.args = K.args j ∧ f.kwargs = K.kwargs j

/-- The invariant of a search on the evaluator. -/
structure JointOK (C : Client S I A J σ) (K : Coding Fn V J) (Jb : Jobs Fn V E Ω) (D : List (Str × V))
    (Q : S → A → Int → Prop) (start : S) (s : Joint S Fn V E) : Prop where
  good : ∃ tr, Good Jb D tr s.ev
  coded : ∀ x ∈ s.ev.futures, Coded K x.2
  waiting : s.ev.waiting = true → C.waits s.search = true
  sim : ∃ is p, C.run is start = C.setPending p s.search ∧
    C.Along (C.Legal Q (Told K Jb D)) is start ∧
    (p = pendingJobs K s.ev ∨ C.Stuck s.search)

theorem futures_of_submit {Jb : Jobs Fn V E Ω} {D : List (Str × V)} {tr : List (AsyncObs Fn V E)}
    {ev : Evaluator Fn V E} (hg : Good Jb D tr ev) (hw : ev.waiting = false) (fn : Fn) (args : List V)
    (kwargs : List (Str × V)) :
    (asyncStep Jb ev (.submit fn args kwargs)).2.futures =
      ev.futures ++ [(ev.nextId, ⟨ev.nextId, fn, args, kwargs, none, none⟩)] ∧
    (asyncStep Jb ev (.submit fn args kwargs)).2.waiting = false := by
  have hb : ¬ (false = true) := by simp
  have hnk : ev.nextId ∉ ev.futures.map Prod.fst := fun hk => absurd (hg.key_lt hk) (Nat.lt_irrefl _)
  simp only [asyncStep, hw, if_neg hb, submit_run]
  exact ⟨dset_length_new hnk, trivial⟩

theorem submitAll_ok {K : Coding Fn V J} {Jb : Jobs Fn V E Ω} (hK : Faithful K Jb) {D : List (Str × V)} :
    ∀ (js : List J) (ev : Evaluator Fn V E), (∃ tr, Good Jb D tr ev) → ev.waiting = false →
      (∀ x ∈ ev.futures, Coded K x.2) →
      (∃ tr, Good Jb D tr (submitAll Jb K js ev)) ∧ (submitAll Jb K js ev).waiting = false ∧
      (∀ x ∈ (submitAll Jb K js ev).futures, Coded K x.2) ∧
      pendingJobs K (submitAll Jb K js ev) = pendingJobs K ev ++ js := by
  intro js
  induction js with
  | nil => intro ev h1 h2 h3; exact ⟨h1, h2, h3, (List.append_nil _).symm⟩
  | cons j js ih =>
    intro ev ⟨tr, h1⟩ h2 h3
    obtain ⟨f1, f2⟩ := futures_of_submit h1 h2 (K.fn j) (K.args j) (K.kwargs j)
    obtain ⟨g1, g2, g3, g4⟩ := ih _ ⟨_, h1.step (.submit (K.fn j) (K.args j) (K.kwargs j))⟩ f2 (by
      intro x hx
      rw [f1] at hx
      rcases List.mem_append.1 hx with hx | hx
      · exact h3 x hx
      · rw [List.mem_singleton.1 hx]; exact ⟨j, rfl, rfl, rfl⟩)
    refine ⟨g1, g2, g3, ?_⟩
    show pendingJobs K (submitAll Jb K js _) = _
    rw [g4]
    unfold pendingJobs
    rw [f1, List.map_append, List.append_assoc]
    simp only [List.map_cons, List.map_nil, hK.job, List.cons_append, List.nil_append]

/-- What one iteration of `wait_next` does to the jobs. -/
theorem iterate_cases {Jb : Jobs Fn V E Ω} {D : List (Str × V)} {tr : List (AsyncObs Fn V E)}
    {ev : Evaluator Fn V E} (hg : Good Jb D tr ev) (r₁ r₂ r₃ : Readings) (o : StopOutcome) :
    let r := asyncStep Jb ev (.iterate r₁ r₂ r₃ o)
    (r.1 = .nothing ∧ r.2.futures = ev.futures ∧ r.2.waiting = ev.waiting) ∨
    (∃ e, r.1 = .raised e ∧ r.2.futures = ev.futures ∧ r.2.waiting = false ∧ ev.waiting = true) ∨
    (∃ f m pre post, r.1 = .returned f ∧ r.2.waiting = false ∧ ev.waiting = true ∧
      ev.futures = pre ++ (f.id, m) :: post ∧ r.2.futures = pre ++ post ∧
      m.fn = f.fn ∧ m.args = f.args ∧ m.kwargs = f.kwargs ∧ Reports Jb D m f) := by
  intro r
  cases hw : ev.waiting with
  | false =>
    refine Or.inl ?_
    have hb : ¬ (false = true) := by simp
    have : r = (.nothing, ev) := by
      show asyncStep Jb ev _ = _
      simp only [asyncStep, hw, if_neg hb]
    rw [this]; exact ⟨rfl, rfl, hw⟩
  | true =>
    have hstep := hg.step (.iterate r₁ r₂ r₃ o)
    have hr : r = asyncStep Jb ev (.iterate r₁ r₂ r₃ o) := rfl
    rw [← hr] at hstep
    simp only [asyncStep, hw, if_true] at hr
    rcases waitIteration_split r₁ r₂ r₃ o ev with ⟨s1, hf, he⟩ | ⟨e, s1, hf, he⟩
    · rw [he, pollOutput_run] at hr
      cases ho : s1.output with
      | nil =>
        rw [ho] at hr
        dsimp only at hr
        rw [hr]
        exact Or.inl ⟨rfl, hf.futures, hf.waiting.trans hw⟩
      | cons g rest =>
        rw [ho] at hr
        dsimp only at hr
        cases hd : dget s1.futures g.id with
        | none =>
          rw [hd] at hr
          dsimp only at hr
          rw [hr]
          exact Or.inr (Or.inl ⟨_, rfl, hf.futures, rfl, rfl⟩)
        | some m =>
          rw [hd] at hr
          dsimp only at hr
          refine Or.inr (Or.inr ?_)
          have hm : (g.id, m) ∈ ev.futures := by rw [← hf.futures]; exact dget_mem hd
          obtain ⟨hid, hsub⟩ := hg.pend _ _ hm
          obtain ⟨pre, post, hsplit⟩ := List.append_of_mem hm
          have hdel : ∀ {pre : List (Nat × Future Fn V E)}, (g.id ∉ pre.map Prod.fst) →
              ddel (pre ++ (g.id, m) :: post) g.id = pre ++ post := by
            intro pre
            induction pre with
            | nil => intro _; simp [ddel]
            | cons y pre ih =>
              intro hn
              obtain ⟨a, w⟩ := y
              simp only [List.map_cons, List.mem_cons, not_or] at hn
              have h2 : ¬ a = g.id := fun e => hn.1 e.symm
              simp [ddel, h2, ih hn.2]
          have hnot : g.id ∉ pre.map Prod.fst := by
            have hdict : DictOK ev.futures := hg.dict
            rw [hsplit] at hdict
            unfold DictOK at hdict
            rw [List.map_append, List.map_cons, List.nodup_append] at hdict
            intro hin
            exact hdict.2.2 _ hin _ (List.mem_cons_self) rfl
          let f : Future Fn V E := { m with result := g.result, exception := g.exception }
          have hr1 : r.1 = .returned f := by rw [hr]
          have hr2 : r.2.futures = pre ++ post := by
            rw [hr]
            show ddel s1.futures g.id = _
            rw [hf.futures, hsplit, hdel hnot]
          have hfid : f.id = g.id := hid
          rw [hr1] at hstep
          obtain ⟨⟨j, j1, j2, j3⟩, -⟩ := hstep.trace tr f [] rfl
          have hj : j = m := by
            refine hg.subs j m j1 hsub ?_
            rw [j2.1]
          rw [hj] at j3
          exact ⟨f, m, pre, post, hr1, by rw [hr], rfl, by rw [hfid]; exact hsplit, hr2, rfl, rfl, rfl, j3⟩
    · rw [he] at hr
      dsimp only at hr
      rw [hr]
      exact Or.inr (Or.inl ⟨e, rfl, hf.futures, rfl, rfl⟩)

/-- What a returned future tells. -/
theorem told_of_reports {K : Coding Fn V J} {Jb : Jobs Fn V E Ω} (hK : Faithful K Jb)
    {D : List (Str × V)} {m f : Future Fn V E} {j : J} (h1 : m.fn = K.fn j) (h2 : m.args = K.args j)
    (h3 : m.kwargs = K.kwargs j) (e1 : m.fn = f.fn) (e2 : m.args = f.args) (e3 : m.kwargs = f.kwargs)
    (h : Reports Jb D m f) : jobOf K f = j ∧ Told K Jb D j (completionOf K f) := by
  obtain ⟨kw, ω, hkw, h⟩ := h
  rw [h1, h2] at h
  rw [h3] at hkw
  have hnone : f.result = none → jobOf K f = j := by
    intro hr
    unfold jobOf
    rw [hr, ← e1, ← e2, ← e3, h1, h2, h3]
    exact hK.job j
  cases hc : Jb.call (K.fn j) (K.args j) kw ω with
  | returns v =>
    rw [hc] at h
    dsimp only at h
    obtain ⟨r1, r2⟩ := hK.read j kw ω v hc
    rcases h with ⟨a, b⟩ | ⟨a, b, c⟩ | ⟨a, b, c⟩
    · refine ⟨by unfold jobOf; rw [a]; exact r1, kw, ω, hkw, ?_⟩
      rw [hc]
      exact Or.inl (by unfold completionOf; rw [a, b])
    · refine ⟨by unfold jobOf; rw [b]; exact r2, kw, ω, hkw, ?_⟩
      rw [hc]
      exact Or.inr (Or.inl ⟨a, by unfold completionOf; rw [b, c]⟩)
    · refine ⟨hnone b, kw, ω, hkw, ?_⟩
      rw [hc]
      exact Or.inr (Or.inr ⟨a, by unfold completionOf; rw [b, c]⟩)
  | raises e =>
    rw [hc] at h
    dsimp only at h
    refine ⟨hnone h.1, kw, ω, hkw, ?_⟩
    rw [hc]
    show completionOf K f = .failed
    unfold completionOf; rw [h.1, h.2]
  | escapes =>
    rw [hc] at h
    exact h.elim

/-- One event of a search on the evaluator keeps the invariant. -/
theorem jointOK_step {C : Client S I A J σ} (hC : C.Lawful) {K : Coding Fn V J} {Jb : Jobs Fn V E Ω}
    (hK : Faithful K Jb) {D : List (Str × V)} {Q : S → A → Int → Prop} {start : S}
    (e : JointEvent A σ Ω) (s : Joint S Fn V E) (h : JointOK C K Jb D Q start s)
    (hQ : ∀ a, e = .go a → Q (s.view C K) a s.ev.jobQueueSize) :
    JointOK C K Jb D Q start (jointStep C K Jb e s) := by
  obtain ⟨⟨tr, hg⟩, hcoded, hwait, is, p, hrun, halong, hp⟩ := h
  -- one more step of the search by itself
  have extend : ∀ (i : I) (t : S) (p' : List J), p = pendingJobs K s.ev →
      C.Legal Q (Told K Jb D) (s.view C K) i → C.step i (s.view C K) = C.setPending p' t →
      ∃ is, C.run is start = C.setPending p' t ∧ C.Along (C.Legal Q (Told K Jb D)) is start := by
    intro i t p' hp' hl he
    have hv : C.run is start = s.view C K := by rw [hrun, hp']; rfl
    refine ⟨is ++ [i], ?_, C.along_append halong ⟨?_, trivial⟩⟩
    · rw [C.run_append, hv]; exact he
    · rw [hv]; exact hl
  -- an exception from `wait_next`
  have raised : ∀ (e : Exn) (ev : Evaluator Fn V E), C.waits s.search = true →
      p = pendingJobs K s.ev →
      ∃ is p, C.run is start = C.setPending p (C.step (C.waited (.raises e)) s.search) ∧
        C.Along (C.Legal Q (Told K Jb D)) is start ∧
        (p = pendingJobs K ev ∨ C.Stuck (C.step (C.waited (.raises e)) s.search)) := by
    intro e ev hws hp'
    obtain ⟨r1, -, -, r4⟩ := hC.raises e s.search (pendingJobs K s.ev) hws
    obtain ⟨is', h1, h2⟩ := extend (C.waited (.raises e)) _ _ hp'
      (Or.inr (Or.inl ⟨e, rfl, (hC.waits_set _ _).trans hws⟩)) r1
    exact ⟨is', _, h1, h2, Or.inr r4⟩
  have live : C.waits s.search = true → p = pendingJobs K s.ev := by
    intro hws
    rcases hp with hp | hp
    · exact hp
    · rw [hp.1] at hws; cases hws
  cases e with
  | go a =>
    show JointOK C K Jb D Q start (jointStep C K Jb (.go a) s)
    unfold jointStep
    dsimp only
    cases hws : C.waits s.search with
    | true =>
      rw [if_pos rfl]
      exact ⟨⟨tr, hg⟩, hcoded, hwait, is, p, hrun, halong, hp⟩
    | false =>
      have hev : s.ev.waiting = false := by
        cases hh : s.ev.waiting with
        | false => rfl
        | true => rw [hwait hh] at hws; cases hws
      rw [if_neg (by simp)]
      obtain ⟨new, n1, -, n3⟩ := hC.go a s.ev.jobQueueSize s.search (pendingJobs K s.ev) hws
      have hdrop : (C.submitted (C.step (C.go a s.ev.jobQueueSize) s.search)).drop
          (C.submitted s.search).length = new := by
        rw [n1, List.drop_left]
      rw [hdrop]
      obtain ⟨g1, g2, g3, g4⟩ := submitAll_ok hK new s.ev ⟨tr, hg⟩ hev hcoded
      refine ⟨g1, g3, fun hh => ?_, ?_⟩
      · have hh : (submitAll Jb K new s.ev).waiting = true := hh
        rw [g2] at hh; cases hh
      · rcases hp with hp | hp
        · obtain ⟨is', h1, h2⟩ := extend (C.go a s.ev.jobQueueSize) _ _ hp
            (Or.inl ⟨a, _, rfl, (hC.waits_set _ _).trans hws, hQ a rfl⟩) n3
          exact ⟨is', _, h1, h2, Or.inl g4.symm⟩
        · have hs : C.step (C.go a s.ev.jobQueueSize) s.search = s.search := hp.2 _
          rw [hs]
          exact ⟨is, p, hrun, halong, Or.inr hp⟩
  | wait =>
    show JointOK C K Jb D Q start (jointStep C K Jb .wait s)
    unfold jointStep
    dsimp only
    cases hws : C.waits s.search with
    | false =>
      rw [if_neg (by simp)]
      exact ⟨⟨tr, hg⟩, hcoded, hwait, is, p, hrun, halong, hp⟩
    | true =>
      rw [if_pos rfl]
      have hp' := live hws
      have hgood := hg.step .wait
      have hk : (∃ e, (asyncStep Jb s.ev .wait).1 = .raised e ∧ (asyncStep Jb s.ev .wait).2 = s.ev ∧
          s.ev.waiting = false) ∨
          ((asyncStep Jb s.ev .wait).1 = .nothing ∧ (asyncStep Jb s.ev .wait).2.futures = s.ev.futures) := by
        cases hw : s.ev.waiting with
        | true => simp only [asyncStep, hw, if_true]; exact Or.inr ⟨trivial, trivial⟩
        | false =>
          have hb : ¬ (false = true) := by simp
          simp only [asyncStep, hw, if_neg hb, waitBegin_run]
          by_cases hl : s.ev.futures.length = 0
          · rw [if_pos hl]; exact Or.inl ⟨_, rfl, rfl, trivial⟩
          · rw [if_neg hl]; exact Or.inr ⟨rfl, rfl⟩
      cases hr : asyncStep Jb s.ev .wait with
      | mk ob ev =>
        rw [hr] at hk hgood
        rcases hk with ⟨e, h1, h2, h3⟩ | ⟨h1, h2⟩
        · dsimp only at h1 h2
          subst h1 h2
          dsimp only
          refine ⟨⟨_, hgood⟩, hcoded, fun hh => ?_, raised e s.ev hws hp'⟩
          have hh : s.ev.waiting = true := hh
          rw [h3] at hh; cases hh
        · dsimp only at h1 h2
          subst h1
          dsimp only
          refine ⟨⟨_, hgood⟩, ?_, fun _ => hws, is, p, hrun, halong, Or.inl ?_⟩
          · show ∀ x ∈ ev.futures, _
            rw [h2]; exact hcoded
          · rw [hp']; unfold pendingJobs; rw [h2]
  | iterate r₁ r₂ r₃ o callback =>
    show JointOK C K Jb D Q start (jointStep C K Jb (.iterate r₁ r₂ r₃ o callback) s)
    unfold jointStep
    dsimp only
    have hgood := hg.step (.iterate r₁ r₂ r₃ o)
    have hk := iterate_cases hg r₁ r₂ r₃ o
    cases hr : asyncStep Jb s.ev (.iterate r₁ r₂ r₃ o) with
    | mk ob ev =>
      rw [hr] at hk hgood
      dsimp only at hk
      rcases hk with ⟨h1, h2, h3⟩ | ⟨e, h1, h2, h3, h4⟩ |
        ⟨f, m, pre, post, h1, h2, h3, h4, h5, e1, e2, e3, h6⟩
      · subst h1
        dsimp only
        refine ⟨⟨_, hgood⟩, ?_, fun hh => hwait (h3 ▸ hh), is, p, hrun, halong, ?_⟩
        · show ∀ x ∈ ev.futures, _
          rw [h2]; exact hcoded
        · unfold pendingJobs at hp ⊢
          rw [h2]; exact hp
      · subst h1
        dsimp only
        refine ⟨⟨_, hgood⟩, ?_, fun hh => ?_, raised e ev (hwait h4) (live (hwait h4))⟩
        · show ∀ x ∈ ev.futures, _
          rw [h2]; exact hcoded
        · have hh : ev.waiting = true := hh
          rw [h3] at hh; cases hh
      · subst h1
        dsimp only
        have hws := hwait h3
        have hp' := live hws
        have hc' : ∀ x ∈ ev.futures, Coded K x.2 := by
          intro x hx
          rw [h5] at hx
          refine hcoded x ?_
          rw [h4]
          rcases List.mem_append.1 hx with hx | hx
          · exact List.mem_append_left _ hx
          · exact List.mem_append_right _ (List.mem_cons_of_mem _ hx)
        have hm : Coded K m := hcoded (f.id, m) (by rw [h4]; simp)
        obtain ⟨j, j1, j2, j3⟩ := hm
        obtain ⟨hj, htold⟩ := told_of_reports hK j1 j2 j3 e1 e2 e3 h6
        have hkey : K.job m.fn m.args m.kwargs = j := by rw [j1, j2, j3]; exact hK.job j
        refine ⟨⟨_, hgood⟩, hc', fun hh => ?_, ?_⟩
        · have hh : ev.waiting = true := hh
          rw [h2] at hh; cases hh
        · unfold deliver
          cases callback with
          | error e => exact raised e ev hws hp'
          | ok w =>
            dsimp only
            rw [hj]
            let d : Nat × Future Fn V E → J := fun x => K.job x.2.fn x.2.args x.2.kwargs
            have hpend : pendingJobs K s.ev = pre.map d ++ j :: post.map d := by
              unfold pendingJobs
              rw [h4, List.map_append, List.map_cons, hkey]
            obtain ⟨c1, -, -⟩ := hC.completes (completionOf K f) w s.search (pre.map d) j (post.map d) hws
            obtain ⟨is', q1, q2⟩ := extend (C.waited (.completes (pre.map d).length (completionOf K f) w)) _ _
              hp' (Or.inr (Or.inr ⟨pre.map d, j, post.map d, _, w, s.search, by
                unfold Joint.view; rw [hpend], rfl, (hC.waits_set _ _).trans hws, htold⟩))
              (by unfold Joint.view; rw [hpend]; exact c1)
            refine ⟨is', _, q1, q2, Or.inl ?_⟩
            unfold pendingJobs
            rw [h5, List.map_append]
  | worker pid act =>
    obtain ⟨w1, -, -, -, -, -, w7, -⟩ := workerStep_frame (J := Jb) (s := s.ev) pid act
    refine ⟨⟨_, hg.step (.worker pid act)⟩, ?_, fun hh => hwait ?_, is, p, hrun, halong, ?_⟩
    · show ∀ x ∈ (workerStep Jb pid act s.ev).futures, _
      rw [w1]; exact hcoded
    · rw [← w7]; exact hh
    · rcases hp with hp | hp
      · refine Or.inl ?_
        rw [hp]
        unfold pendingJobs
        show _ = (workerStep Jb pid act s.ev).futures.map _
        rw [w1]
      · exact Or.inr hp

/-- A condition holds at each event of a run of a search on the evaluator. -/
def Spec.JointAlong (C : Client S I A J σ) (K : Coding Fn V J) (Jb : Jobs Fn V E Ω)
    (P : Joint S Fn V E → JointEvent A σ Ω → Prop) :
    List (JointEvent A σ Ω) → Joint S Fn V E → Prop
  | [], _ => True
  | e :: es, s => P s e ∧ JointAlong C K Jb P es (jointStep C K Jb e s)

theorem jointOK_run {C : Client S I A J σ} (hC : C.Lawful) {K : Coding Fn V J} {Jb : Jobs Fn V E Ω}
    (hK : Faithful K Jb) {D : List (Str × V)} {Q : S → A → Int → Prop} {start : S} :
    ∀ (es : List (JointEvent A σ Ω)) (s : Joint S Fn V E), JointOK C K Jb D Q start s →
      JointAlong C K Jb (fun s e => ∀ a, e = .go a → Q (s.view C K) a s.ev.jobQueueSize) es s →
      JointOK C K Jb D Q start (jointRun C K Jb es s) := by
  intro es
  induction es with
  | nil => intro s h _; exact h
  | cons e es ih => intro s h k; exact ih _ (jointOK_step hC hK e s h k.1) k.2

theorem jointOK_start {C : Client S I A J σ} {K : Coding Fn V J} {Jb : Jobs Fn V E Ω}
    {Q : S → A → Int → Prop} {start : S} (hs : C.setPending [] start = start) (n : Nat)
    (limit : Option ℚ) (logfile : Bool) (D : List (Str × V)) :
    JointOK C K Jb D Q start (jointStart start n limit logfile D : Joint S Fn V E) := by
  obtain ⟨ws, ps, -, -, -, he⟩ := entered_run (Fn := Fn) (E := E) n limit logfile D
  have hf : (entered n limit logfile D : Evaluator Fn V E).futures = [] := by rw [he]; rfl
  have hw : (entered n limit logfile D : Evaluator Fn V E).waiting = false := by rw [he]; rfl
  refine ⟨⟨[], good_entered Jb n limit logfile D⟩, ?_, fun hh => ?_, [], [], hs.symm, trivial,
    Or.inl ?_⟩
  · show ∀ x ∈ (entered n limit logfile D : Evaluator Fn V E).futures, _
    rw [hf]; intro x hx; cases hx
  · have hh : (entered n limit logfile D : Evaluator Fn V E).waiting = true := hh
    rw [hw] at hh; cases hh
  · unfold pendingJobs
    show [] = (entered n limit logfile D : Evaluator Fn V E).futures.map _
    rw [hf]; rfl

theorem jointAlong_true {C : Client S I A J σ} {K : Coding Fn V J} {Jb : Jobs Fn V E Ω}
    {P : Joint S Fn V E → JointEvent A σ Ω → Prop} (hP : ∀ s e, P s e) :
    ∀ (es : List (JointEvent A σ Ω)) (s : Joint S Fn V E), JointAlong C K Jb P es s := by
  intro es
  induction es with
  | nil => intro s; trivial
  | cons e es ih => intro s; exact ⟨hP _ _, ih _⟩

/-! ### The queue size -/

theorem wp_jqs_stop (pid : Nat) (o : StopOutcome) (s : Evaluator Fn V E) :
    wp (stopWorker pid o) (fun _ s' => s'.jobQueueSize ≤ s.jobQueueSize)
      (fun _ s' => s'.jobQueueSize ≤ s.jobQueueSize) s := by
  cases o with
  | ok =>
    simp only [stopWorker, removeProc, wp_bind, wp_modify, wp_get, wp_ite]
    have : s.jobQueueSize - 1 ≤ s.jobQueueSize := by omega
    exact ⟨fun _ => this, fun _ => this⟩
  | gone => exact le_refl s.jobQueueSize
  | timeout => exact le_refl s.jobQueueSize

theorem wp_jqs_control (r r' : Readings) (o : StopOutcome) (s : Evaluator Fn V E) :
    wp (controlMemory r r' o) (fun _ s' => s'.jobQueueSize ≤ s.jobQueueSize)
      (fun _ s' => s'.jobQueueSize ≤ s.jobQueueSize) s := by
  simp only [controlMemory, wp_bind, wp_get]
  cases s.limit with
  | none => exact le_refl s.jobQueueSize
  | some limit =>
    simp only [wp_bind, memoryUsage, wp_get]
    refine wp_mono ?_ (fun _ _ h => le_of_eq h) (wp_jqs_usage r _ s)
    intro usage s1 h1
    rw [wp_ite]
    refine ⟨fun _ => ?_, fun _ => le_of_eq h1⟩
    simp only [wp_bind]
    refine wp_mono ?_ (fun _ _ h => le_of_eq (h.trans h1)) (wp_jqs_log r' s1)
    intro _ s2 h2
    simp only [wp_modify]
    have h3 : s2.jobQueueSize = s.jobQueueSize := h2.trans h1
    cases maxUsage usage with
    | none => exact le_of_eq h3
    | some x =>
      simp only [restartOrKill, wp_bind, wp_get, wp_ite, wp_modify]
      refine ⟨fun _ => ?_, fun _ => ?_⟩
      · refine wp_mono ?_ (fun _ s' h => le_trans h (le_of_eq h3)) (wp_jqs_stop x.1 o _)
        intro _ s' h
        exact le_trans h (le_of_eq h3)
      · exact wp_mono (fun _ _ h => le_trans h (le_of_eq h3)) (fun _ _ h => le_trans h (le_of_eq h3))
          (wp_jqs_stop x.1 o _)

/-- In every schedule `job_queue_size` is at most the number of unreturned jobs minus the number of
workers. -/
theorem queue_bound_step {Jb : Jobs Fn V E Ω} {D : List (Str × V)} {n : Nat}
    (tr : List (AsyncObs Fn V E)) (s : Evaluator Fn V E) (e : AsyncEvent Fn V Ω) (hg : Good Jb D tr s)
    (h : s.jobQueueSize ≤ (s.futures.length : Int) - n) :
    (asyncStep Jb s e).2.jobQueueSize ≤ ((asyncStep Jb s e).2.futures.length : Int) - n := by
  refine step_cases (P := fun _ s' => s'.jobQueueSize ≤ (s'.futures.length : Int) - n) Jb s e h ?_
    (fun _ _ _ => h) (fun _ _ _ => h) ?_ ?_
  · intro fn args kwargs _ _
    rw [submit_run]
    have hnk : s.nextId ∉ s.futures.map Prod.fst := fun hk => absurd (hg.key_lt hk) (Nat.lt_irrefl _)
    dsimp only
    rw [dset_length_new hnk, List.length_append, List.length_singleton]
    push_cast
    omega
  · intro r₁ r₂ r₃ o b _ _
    have hpoll : ∀ s2 : Evaluator Fn V E, s2.jobQueueSize ≤ (s2.futures.length : Int) - n →
        (pollOutput s2).2.jobQueueSize ≤ ((pollOutput s2).2.futures.length : Int) - n := by
      intro s2 h2
      rw [pollOutput_run]
      cases s2.output with
      | nil => exact h2
      | cons f rest =>
        dsimp only
        cases hd : dget s2.futures f.id with
        | none => dsimp only; omega
        | some m =>
          have := ddel_length hd
          dsimp only
          omega
    have hbefore : ∀ s2 : Evaluator Fn V E, s2.jobQueueSize ≤ s.jobQueueSize → s2.futures = s.futures →
        s2.jobQueueSize ≤ (s2.futures.length : Int) - n := by
      intro s2 a b
      rw [b]; omega
    dsimp only
    unfold waitIteration
    have c1 := wp_and (wp_jqs_control r₁ r₂ o s) (wp_frame_control r₁ r₂ o s)
    cases hc : controlMemory r₁ r₂ o s with
    | mk r s1 =>
      cases r with
      | error e =>
        obtain ⟨a, f⟩ := wp_error c1 hc
        rw [bind_error hc]
        exact hbefore s1 a f.futures
      | ok u =>
        obtain ⟨a, f⟩ := wp_ok c1 hc
        rw [bind_ok hc]
        have c2 := wp_and (wp_jqs_log r₃ s1) (wp_frame_log r₃ s1)
        cases hl : logUsage r₃ s1 with
        | mk r s2 =>
          cases r with
          | error e =>
            obtain ⟨a', f'⟩ := wp_error c2 hl
            rw [bind_error hl]
            exact hbefore s2 (a' ▸ a) (f'.futures.trans f.futures)
          | ok u2 =>
            obtain ⟨a', f'⟩ := wp_ok c2 hl
            rw [bind_ok hl]
            exact hpoll s2 (hbefore s2 (a' ▸ a) (f'.futures.trans f.futures))
  · intro pid a _
    obtain ⟨w1, w2, -⟩ := workerStep_frame (J := Jb) (s := s) pid a
    rw [w1, w2]
    exact h

/-- The evaluator of a run satisfies what each of its steps keeps. -/
theorem evaluator_step {C : Client S I A J σ} {K : Coding Fn V J} {Jb : Jobs Fn V E Ω}
    {D : List (Str × V)} {R : Evaluator Fn V E → Prop}
    (hR : ∀ tr ev e, Good Jb D tr ev → R ev → R (asyncStep Jb ev e).2) (e : JointEvent A σ Ω)
    (s : Joint S Fn V E) (hg : ∃ tr, Good Jb D tr s.ev) (h : R s.ev) :
    R (jointStep C K Jb e s).ev := by
  obtain ⟨tr, hg⟩ := hg
  have hall : ∀ (js : List J) (ev : Evaluator Fn V E), (∃ tr, Good Jb D tr ev) → R ev →
      R (submitAll Jb K js ev) := by
    intro js
    induction js with
    | nil => intro ev _ h; exact h
    | cons j js ih =>
      intro ev ⟨tr, hg⟩ h
      exact ih _ ⟨_, hg.step _⟩ (hR tr ev (.submit (K.fn j) (K.args j) (K.kwargs j)) hg h)
  cases e with
  | go a =>
    unfold jointStep
    dsimp only
    split
    · exact h
    · exact hall _ _ ⟨tr, hg⟩ h
  | wait =>
    unfold jointStep
    dsimp only
    split
    · have := hR tr s.ev .wait hg h
      cases hr : asyncStep Jb s.ev .wait with
      | mk ob ev => rw [hr] at this; cases ob <;> exact this
    · exact h
  | iterate r₁ r₂ r₃ o cb =>
    unfold jointStep
    dsimp only
    have := hR tr s.ev (.iterate r₁ r₂ r₃ o) hg h
    cases hr : asyncStep Jb s.ev (.iterate r₁ r₂ r₃ o) with
    | mk ob ev => rw [hr] at this; cases ob <;> exact this
  | worker pid act => exact hR tr s.ev (.worker pid act) hg h

/-- The history of a search and its jobs. -/
structure Balanced (C : Client S I A J σ) (T : J → Completion → Prop) (s : S) : Prop where
  told : ∀ x ∈ C.history s, T x.1 x.2
  once : ∃ p t, s = C.setPending p t ∧ ((C.history s).map Prod.fst ++ p).Perm (C.submitted s)

theorem balanced_step {C : Client S I A J σ} (hC : C.Lawful) (hset : ∀ p q s t, C.setPending p s =
    C.setPending q t → p = q) {Q : S → A → Int → Prop} {T : J → Completion → Prop} (s : S) (i : I)
    (h : Balanced C T s) (hl : C.Legal Q T s i) : Balanced C T (C.step i s) := by
  obtain ⟨h1, p, t, hs, hperm⟩ := h
  rcases hl with ⟨a, q, rfl, hw, -⟩ | ⟨e, rfl, hw⟩ | ⟨pre, j, post, c, w, t', hs', rfl, hw, ht⟩
  · rw [hs, hC.waits_set] at hw
    obtain ⟨new, n1, n2, n3⟩ := hC.go a q t p hw
    rw [← hs] at n3
    have e1 : C.history s = C.history t := by rw [hs, hC.history_set]
    have e2 : C.submitted s = C.submitted t := by rw [hs, hC.submitted_set]
    refine ⟨fun x hx => h1 x ?_, p ++ new, _, n3, ?_⟩
    · rw [n3, hC.history_set, n2, ← e1] at hx; exact hx
    · rw [n3, hC.history_set, hC.submitted_set, n1, n2, ← e1, ← e2, ← List.append_assoc]
      exact hperm.append_right new
  · rw [hs, hC.waits_set] at hw
    obtain ⟨r1, r2, r3, -⟩ := hC.raises e t p hw
    rw [← hs] at r1
    have e1 : C.history s = C.history t := by rw [hs, hC.history_set]
    have e2 : C.submitted s = C.submitted t := by rw [hs, hC.submitted_set]
    refine ⟨fun x hx => h1 x ?_, p, _, r1, ?_⟩
    · rw [r1, hC.history_set, r3, ← e1] at hx; exact hx
    · rw [r1, hC.history_set, hC.submitted_set, r2, r3, ← e1, ← e2]; exact hperm
  · have hp : p = pre ++ j :: post := hset _ _ _ _ (hs.symm.trans hs')
    subst hp
    rw [hs', hC.waits_set] at hw
    obtain ⟨c1, c2, c3⟩ := hC.completes c w t' pre j post hw
    rw [← hs'] at c1
    have e1 : C.history s = C.history t' := by rw [hs', hC.history_set]
    have e2 : C.submitted s = C.submitted t' := by rw [hs', hC.submitted_set]
    refine ⟨fun x hx => ?_, pre ++ post, _, c1, ?_⟩
    · rw [c1, hC.history_set, c3, ← e1] at hx
      rcases List.mem_append.1 hx with hx | hx
      · exact h1 x hx
      · rw [List.mem_singleton.1 hx]; exact ht
    · rw [c1, hC.history_set, hC.submitted_set, c2, c3, ← e1, ← e2, List.map_append]
      refine List.Perm.trans ?_ hperm
      rw [List.append_assoc]
      refine List.Perm.append_left _ ?_
      exact (List.perm_middle (l₁ := pre) (l₂ := post) (a := j)).symm

end
end Gama
