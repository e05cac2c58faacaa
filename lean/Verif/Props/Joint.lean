import Verif.Lemmas.Joint
import Verif.Props.Search2
import Verif.Props.Search3

/-! # Searches on the evaluator: C130, C131 -/

namespace Gama
open PyM Spec

section
variable {σ ι Fn V E Ω : Type} [DecidableEq ι]

/-- A step that submits nothing. -/
local macro "none_new" : tactic =>
  `(tactic| exact ⟨[], (List.append_nil _).symm, rfl, by rw [List.append_nil]⟩)

theorem takePending_middle {α : Type} (pre post : List α) (j : α) :
    takePending (pre ++ j :: post) pre.length = some (j, pre ++ post) := by
  have hl : pre.length % (pre ++ j :: post).length = pre.length :=
    Nat.mod_eq_of_lt (by simp)
  have he : ∀ l : List α, (l ++ j :: post).eraseIdx l.length = l ++ post := by
    intro l
    induction l with
    | nil => rfl
    | cons a l ih => simp [ih]
  unfold takePending
  rw [hl]
  simp [he pre]

theorem takePending_single {α : Type} (j : α) : takePending [j] 0 = some (j, []) := rfl

theorem eaClient_lawful (o : SearchOps σ ι) (maxN : Option Int) (size : Nat) :
    (eaClient o maxN size).Lawful where
  set_set _ _ _ := rfl
  set_nil s := ⟨s.pending, rfl⟩
  waits_set _ _ := rfl
  submitted_set _ _ := rfl
  history_set _ _ := rfl
  go a q s p hw := by
    have hw : eaWaits maxN s = false := hw
    unfold eaWaits at hw
    suffices h : ∃ new, (eaStep o maxN size ⟨.raises .runtimeError, q, a⟩ s).submitted = s.submitted ++ new ∧
        (eaStep o maxN size ⟨.raises .runtimeError, q, a⟩ s).history = s.history ∧
        eaStep o maxN size ⟨.raises .runtimeError, q, a⟩ { s with pending := p } =
          { eaStep o maxN size ⟨.raises .runtimeError, q, a⟩ s with pending := p ++ new } from h
    obtain ⟨pc, world, population, pending, evaluated, history, submitted⟩ := s
    unfold eaStep
    cases pc with
    | start c => dsimp only; split <;> none_new
    | clear c => cases c <;> none_new
    | submit rest =>
      cases rest with
      | nil => none_new
      | cons x xs => exact ⟨[x], rfl, rfl, rfl⟩
    | loop =>
      dsimp only at hw ⊢
      rw [hw]
      simp only [Bool.false_eq_true, if_false]
      exact ⟨[], (List.append_nil _).symm, trivial, by rw [List.append_nil]⟩
    | got x c =>
      cases c with
      | failed => none_new
      | result b sc => cases b <;> none_new
    | full =>
      dsimp only
      split
      · cases ho : o.eliminate population world with
        | mk r w => cases r <;> none_new
      · none_new
    | remove x => dsimp only; split <;> none_new
    | fill =>
      dsimp only
      split
      · cases ho : o.create population world with
        | mk r w =>
          cases r with
          | error e => none_new
          | ok x => exact ⟨[x], rfl, rfl, rfl⟩
      · none_new
    | restart => dsimp only; split <;> none_new
    | renew k made =>
      cases k with
      | zero => none_new
      | succ k =>
        dsimp only
        cases ho : o.individual world with
        | mk r w => cases r <;> none_new
    | returned => none_new
    | raised e => none_new
  raises e s p hw := by
    have hw : eaWaits maxN s = true := hw
    have hpc : s.pc = .loop := by
      unfold eaWaits at hw
      cases h : s.pc <;> rw [h] at hw <;> first | rfl | cases hw
    have hm : eaMore maxN s.evaluated = true := by unfold eaWaits at hw; rw [hpc] at hw; exact hw
    have hstep : ∀ q, eaStep o maxN size ⟨.raises e, 0, false⟩ { s with pending := q } =
        { s with pc := .raised e, pending := q } := by
      intro q
      unfold eaStep
      dsimp only
      rw [hpc]
      dsimp only
      rw [if_pos hm]
    have h0 : eaStep o maxN size ⟨.raises e, 0, false⟩ s = { s with pc := .raised e } := hstep s.pending
    show eaStep o maxN size ⟨.raises e, 0, false⟩ { s with pending := p } =
      { eaStep o maxN size ⟨.raises e, 0, false⟩ s with pending := p } ∧ _
    refine ⟨by rw [hstep, h0], ?_, ?_, ?_, ?_⟩
    · show (eaStep o maxN size ⟨.raises e, 0, false⟩ s).submitted = s.submitted
      rw [h0]
    · show (eaStep o maxN size ⟨.raises e, 0, false⟩ s).history = s.history
      rw [h0]
    · show eaWaits maxN (eaStep o maxN size ⟨.raises e, 0, false⟩ s) = false
      rw [h0]; rfl
    · intro i
      show eaStep o maxN size i (eaStep o maxN size ⟨.raises e, 0, false⟩ s) =
        eaStep o maxN size ⟨.raises e, 0, false⟩ s
      rw [h0]; rfl
  completes c w s pre j post hw := by
    have hw : eaWaits maxN s = true := hw
    have hpc : s.pc = .loop := by
      unfold eaWaits at hw
      cases h : s.pc <;> rw [h] at hw <;> first | rfl | cases hw
    have hm : eaMore maxN s.evaluated = true := by unfold eaWaits at hw; rw [hpc] at hw; exact hw
    have hstep : ∀ q k rest, takePending q k = some (j, rest) →
        eaStep o maxN size ⟨.completes k c w, 0, false⟩ { s with pending := q } =
        { s with pending := rest, world := w, history := s.history ++ [(j, c)], pc := .got j c } := by
      intro q k rest hq
      unfold eaStep
      dsimp only
      rw [hpc]
      dsimp only
      rw [if_pos hm, hq]
    have h0 := hstep [j] 0 [] rfl
    show eaStep o maxN size ⟨.completes pre.length c w, 0, false⟩ { s with pending := pre ++ j :: post } =
      { eaStep o maxN size ⟨.completes 0 c w, 0, false⟩ { s with pending := [j] } with
        pending := pre ++ post } ∧
      (eaStep o maxN size ⟨.completes 0 c w, 0, false⟩ { s with pending := [j] }).submitted = _ ∧
      (eaStep o maxN size ⟨.completes 0 c w, 0, false⟩ { s with pending := [j] }).history = _
    rw [hstep _ _ _ (takePending_middle pre post j), h0]
    exact ⟨rfl, rfl, rfl⟩

omit [DecidableEq ι] in
theorem rsClient_lawful (o : SearchOps σ ι) (maxN : Option Int) : (rsClient o maxN).Lawful where
  set_set _ _ _ := rfl
  set_nil s := ⟨s.pending, rfl⟩
  waits_set _ _ := rfl
  submitted_set _ _ := rfl
  history_set _ _ := rfl
  go a q s p hw := by
    have hw : rsWaits maxN s = false := hw
    unfold rsWaits at hw
    suffices h : ∃ new, (rsStep o maxN (.raises .runtimeError) s).submitted = s.submitted ++ new ∧
        (rsStep o maxN (.raises .runtimeError) s).history = s.history ∧
        rsStep o maxN (.raises .runtimeError) { s with pending := p } =
          { rsStep o maxN (.raises .runtimeError) s with pending := p ++ new } from h
    obtain ⟨pc, world, output, pending, history, submitted⟩ := s
    unfold rsStep
    cases pc with
    | submit rest =>
      cases rest with
      | nil => none_new
      | cons x xs => exact ⟨[x], rfl, rfl, rfl⟩
    | loop =>
      dsimp only at hw ⊢
      rw [hw]
      simp only [Bool.false_eq_true, if_false]
      exact ⟨[], (List.append_nil _).symm, trivial, by rw [List.append_nil]⟩
    | got x c => cases c <;> none_new
    | next =>
      dsimp only
      cases ho : o.individual world with
      | mk r w =>
        cases r with
        | error e => none_new
        | ok x => exact ⟨[x], rfl, rfl, rfl⟩
    | returned => none_new
    | raised e => none_new
  raises e s p hw := by
    have hw : rsWaits maxN s = true := hw
    have hpc : s.pc = .loop := by
      unfold rsWaits at hw
      cases h : s.pc <;> rw [h] at hw <;> first | rfl | cases hw
    have hm : rsMore maxN s.output.length = true := by unfold rsWaits at hw; rw [hpc] at hw; exact hw
    have hstep : ∀ q, rsStep o maxN (.raises e) { s with pending := q } =
        { s with pc := .raised e, pending := q } := by
      intro q
      unfold rsStep
      dsimp only
      rw [hpc]
      dsimp only
      rw [if_pos hm]
    have h0 : rsStep o maxN (.raises e) s = { s with pc := .raised e } := hstep s.pending
    show rsStep o maxN (.raises e) { s with pending := p } =
      { rsStep o maxN (.raises e) s with pending := p } ∧ _
    refine ⟨by rw [hstep, h0], ?_, ?_, ?_, ?_⟩
    · show (rsStep o maxN (.raises e) s).submitted = s.submitted
      rw [h0]
    · show (rsStep o maxN (.raises e) s).history = s.history
      rw [h0]
    · show rsWaits maxN (rsStep o maxN (.raises e) s) = false
      rw [h0]; rfl
    · intro i
      show rsStep o maxN i (rsStep o maxN (.raises e) s) = rsStep o maxN (.raises e) s
      rw [h0]; rfl
  completes c w s pre j post hw := by
    have hw : rsWaits maxN s = true := hw
    have hpc : s.pc = .loop := by
      unfold rsWaits at hw
      cases h : s.pc <;> rw [h] at hw <;> first | rfl | cases hw
    have hm : rsMore maxN s.output.length = true := by unfold rsWaits at hw; rw [hpc] at hw; exact hw
    have hstep : ∀ q k rest, takePending q k = some (j, rest) →
        rsStep o maxN (.completes k c w) { s with pending := q } =
        { s with pending := rest, world := w, history := s.history ++ [(j, c)], pc := .got j c } := by
      intro q k rest hq
      unfold rsStep
      dsimp only
      rw [hpc]
      dsimp only
      rw [if_pos hm, hq]
    have h0 := hstep [j] 0 [] rfl
    show rsStep o maxN (.completes pre.length c w) { s with pending := pre ++ j :: post } =
      { rsStep o maxN (.completes 0 c w) { s with pending := [j] } with pending := pre ++ post } ∧
      (rsStep o maxN (.completes 0 c w) { s with pending := [j] }).submitted = _ ∧
      (rsStep o maxN (.completes 0 c w) { s with pending := [j] }).history = _
    rw [hstep _ _ _ (takePending_middle pre post j), h0]
    exact ⟨rfl, rfl, rfl⟩

/-- `start_new_job` and the jobs that are pending. -/
theorem startJob_set (o : SearchOps σ ι) (c : AshaConfig) (k : Nat) (s : Asha σ ι) (p : List (ι × Nat)) :
    ∃ new r s', startJob o c k s = (r, s') ∧ s'.submitted = s.submitted ++ new ∧ s'.history = s.history ∧
      startJob o c k { s with pending := p } = (r, { s' with pending := p ++ new }) := by
  have hget : ∃ r s1, getJob o c k s = (r, s1) ∧ s1.submitted = s.submitted ∧ s1.history = s.history ∧
      getJob o c k { s with pending := p } = (r, { s1 with pending := p }) := by
    unfold getJob
    dsimp only
    cases findPromotion c.rf k s.promoted s.rungs.tail with
    | some x => exact ⟨_, _, rfl, rfl, rfl, rfl⟩
    | none =>
      dsimp only
      cases s.candidates.getLast? with
      | some x => exact ⟨_, _, rfl, rfl, rfl, rfl⟩
      | none =>
        dsimp only
        cases o.individual s.world with
        | mk r w => cases r <;> exact ⟨_, _, rfl, rfl, rfl, rfl⟩
  obtain ⟨r, s1, g1, g2, g3, g4⟩ := hget
  unfold startJob
  cases r with
  | error e =>
    rw [bind_error g1, bind_error g4]
    exact ⟨[], _, _, rfl, by rw [g2, List.append_nil], g3, by rw [List.append_nil]⟩
  | ok x =>
    rw [bind_ok g1, bind_ok g4]
    obtain ⟨y, rung⟩ := x
    dsimp only
    by_cases hr : rung ∈ c.levels
    · rw [if_pos hr]
      exact ⟨[(y, rung)], _, _, rfl, by show s1.submitted ++ _ = _; rw [g2], g3, rfl⟩
    · rw [if_neg hr]
      exact ⟨[], _, _, rfl, by rw [g2, List.append_nil], g3, by rw [List.append_nil]; rfl⟩

omit [DecidableEq ι] in
theorem ashaHandle_ends (rungs : List (Nat × List (RungEntry ι))) (e : Exn) :
    (∃ l, ashaHandle rungs e = .returned l) ∨ ∃ e', ashaHandle rungs e = .raised e' := by
  unfold ashaHandle
  split
  · split
    · unfold ashaReport
      split
      · exact Or.inr ⟨_, rfl⟩
      · exact Or.inl ⟨_, rfl⟩
    · exact Or.inr ⟨_, rfl⟩
  · exact Or.inr ⟨_, rfl⟩

theorem ashaClient_lawful (o : SearchOps σ ι) (c : AshaConfig) : (ashaClient o c).Lawful where
  set_set _ _ _ := rfl
  set_nil s := ⟨s.pending, rfl⟩
  waits_set _ _ := rfl
  submitted_set _ _ := rfl
  history_set _ _ := rfl
  go a q s p hw := by
    have hw : ashaWaits c s = false := hw
    unfold ashaWaits at hw
    suffices h : ∃ new, (ashaStep o c ⟨.raises .runtimeError, a⟩ s).submitted = s.submitted ++ new ∧
        (ashaStep o c ⟨.raises .runtimeError, a⟩ s).history = s.history ∧
        ashaStep o c ⟨.raises .runtimeError, a⟩ { s with pending := p } =
          { ashaStep o c ⟨.raises .runtimeError, a⟩ s with pending := p ++ new } by
      obtain ⟨new, h1, h2, h3⟩ := h
      exact ⟨new, h1, congrArg (List.map fun x : ι × Nat × Completion => ((x.1, x.2.1), x.2.2)) h2, h3⟩
    obtain ⟨pc, world, rungs, promoted, candidates, pending, history, submitted⟩ := s
    unfold ashaStep
    cases pc with
    | starting k =>
      cases k with
      | zero => none_new
      | succ k =>
        obtain ⟨new, r, s', j1, j2, j3, j4⟩ := startJob_set o c a
          ⟨.starting (k + 1), world, rungs, promoted, candidates, pending, history, submitted⟩ p
        dsimp only at j4 ⊢
        rw [j1, j4]
        cases r with
        | error e => exact ⟨new, j2, j3, rfl⟩
        | ok u => exact ⟨new, j2, j3, rfl⟩
    | loop =>
      dsimp only at hw ⊢
      have hm : ashaMore c (⟨.loop, world, rungs, promoted, candidates, p, history, submitted⟩ : Asha σ ι) =
          ashaMore c ⟨.loop, world, rungs, promoted, candidates, pending, history, submitted⟩ := rfl
      rw [hm]
      cases hx : ashaMore c (⟨.loop, world, rungs, promoted, candidates, pending, history, submitted⟩ :
        Asha σ ι) with
      | error e => none_new
      | ok b =>
        rw [hx] at hw
        dsimp only at hw
        subst hw
        dsimp only
        cases c.levels.head? <;> none_new
    | got x rung r =>
      cases r with
      | failed => none_new
      | result b sc =>
        dsimp only
        cases dget rungs rung <;> none_new
    | next =>
      obtain ⟨new, r, s', j1, j2, j3, j4⟩ := startJob_set o c a
        ⟨.next, world, rungs, promoted, candidates, pending, history, submitted⟩ p
      dsimp only at j4 ⊢
      rw [j1, j4]
      cases r with
      | error e => exact ⟨new, j2, j3, rfl⟩
      | ok u => exact ⟨new, j2, j3, rfl⟩
    | returned l => none_new
    | raised e => none_new
  raises e s p hw := by
    have hw : ashaWaits c s = true := hw
    have hpc : s.pc = .loop := by
      unfold ashaWaits at hw
      cases h : s.pc <;> rw [h] at hw <;> first | rfl | cases hw
    have hm : ashaMore c s = .ok true := by
      unfold ashaWaits at hw; rw [hpc] at hw
      cases hx : ashaMore c s with
      | error e => rw [hx] at hw; cases hw
      | ok b => rw [hx] at hw; dsimp only at hw; rw [hw]
    have hstep : ∀ q, ashaStep o c ⟨.raises e, 0⟩ { s with pending := q } =
        { s with pc := ashaHandle s.rungs e, pending := q } := by
      intro q
      unfold ashaStep
      dsimp only
      rw [hpc]
      have hm' : ashaMore c { s with pc := .loop, pending := q } = .ok true := hm
      dsimp only
      rw [hm']
    have h0 : ashaStep o c ⟨.raises e, 0⟩ s = { s with pc := ashaHandle s.rungs e } := hstep s.pending
    show ashaStep o c ⟨.raises e, 0⟩ { s with pending := p } =
      { ashaStep o c ⟨.raises e, 0⟩ s with pending := p } ∧ _
    refine ⟨by rw [hstep, h0], ?_, ?_, ?_, ?_⟩
    · show (ashaStep o c ⟨.raises e, 0⟩ s).submitted = s.submitted
      rw [h0]
    · show (ashaStep o c ⟨.raises e, 0⟩ s).history.map _ = s.history.map _
      rw [h0]
    · show ashaWaits c (ashaStep o c ⟨.raises e, 0⟩ s) = false
      rw [h0]
      unfold ashaWaits
      rcases ashaHandle_ends s.rungs e with ⟨l, h⟩ | ⟨e', h⟩ <;> dsimp only <;> rw [h]
    · intro i
      show ashaStep o c i (ashaStep o c ⟨.raises e, 0⟩ s) = ashaStep o c ⟨.raises e, 0⟩ s
      rw [h0]
      unfold ashaStep
      rcases ashaHandle_ends s.rungs e with ⟨l, h⟩ | ⟨e', h⟩ <;> dsimp only <;> rw [h]
  completes r w s pre j post hw := by
    have hw : ashaWaits c s = true := hw
    have hpc : s.pc = .loop := by
      unfold ashaWaits at hw
      cases h : s.pc <;> rw [h] at hw <;> first | rfl | cases hw
    have hm : ashaMore c s = .ok true := by
      unfold ashaWaits at hw; rw [hpc] at hw
      cases hx : ashaMore c s with
      | error e => rw [hx] at hw; cases hw
      | ok b => rw [hx] at hw; dsimp only at hw; rw [hw]
    obtain ⟨x, rung⟩ := j
    have hstep : ∀ q k rest, takePending q k = some ((x, rung), rest) →
        ashaStep o c ⟨.completes k r w, 0⟩ { s with pending := q } =
        { s with
          pending := rest
          world := w
          history := s.history ++ [(x, rung, r)]
          pc := .got x rung r } := by
      intro q k rest hq
      unfold ashaStep
      dsimp only
      rw [hpc]
      have hm' : ashaMore c { s with pc := .loop, pending := q } = .ok true := hm
      dsimp only
      rw [hm']
      dsimp only
      rw [hq]
    have h0 := hstep [(x, rung)] 0 [] rfl
    show ashaStep o c ⟨.completes pre.length r w, 0⟩ { s with pending := pre ++ (x, rung) :: post } =
      { ashaStep o c ⟨.completes 0 r w, 0⟩ { s with pending := [(x, rung)] } with
        pending := pre ++ post } ∧
      (ashaStep o c ⟨.completes 0 r w, 0⟩ { s with pending := [(x, rung)] }).submitted = _ ∧
      (ashaStep o c ⟨.completes 0 r w, 0⟩ { s with pending := [(x, rung)] }).history.map _ = _
    rw [hstep _ _ _ (takePending_middle pre post (x, rung)), h0]
    refine ⟨rfl, rfl, ?_⟩
    show (s.history ++ [(x, rung, r)]).map _ = _
    rw [List.map_append]; rfl

/-! ## C130 -/

theorem eaRun_client (o : SearchOps σ ι) (maxN : Option Int) (size : Nat) : ∀ (is : List (EaInput σ))
    (s : Ea σ ι), (eaClient o maxN size).run is s = eaRun o maxN size is s := by
  intro is
  induction is with
  | nil => intro s; rfl
  | cons i is ih => intro s; exact ih _

omit [DecidableEq ι] in
theorem rsRun_client (o : SearchOps σ ι) (maxN : Option Int) : ∀ (is : List (Wait σ)) (s : Rs σ ι),
    (rsClient o maxN).run is s = rsRun o maxN is s := by
  intro is
  induction is with
  | nil => intro s; rfl
  | cons i is ih => intro s; exact ih _

theorem ashaRun_client (o : SearchOps σ ι) (c : AshaConfig) : ∀ (is : List (AshaInput σ))
    (s : Asha σ ι), (ashaClient o c).run is s = ashaRun o c is s := by
  intro is
  induction is with
  | nil => intro s; rfl
  | cons i is ih => intro s; exact ih _

omit [DecidableEq ι] in
/-- What every search on the evaluator does. -/
theorem joint_sound {S I A J : Type} {C : Client S I A J σ} (hC : C.Lawful)
    (hset : ∀ p q s t, C.setPending p s = C.setPending q t → p = q) {K : Coding Fn V J}
    {Jb : Jobs Fn V E Ω} (hK : Faithful K Jb) {start : S} (hs : C.setPending [] start = start)
    (hh : C.history start = []) (hsub : C.submitted start = []) (n : Nat) (limit : Option ℚ)
    (logfile : Bool) (D : List (Str × V)) (es : List (JointEvent A σ Ω)) :
    let s := jointRun C K Jb es (jointStart start n limit logfile D : Joint S Fn V E)
    (∃ is p, C.run is start = C.setPending p s.search) ∧
    (∀ x ∈ C.history s.search, Told K Jb D x.1 x.2) ∧
    ∃ p, ((C.history s.search).map Prod.fst ++ p).Perm (C.submitted s.search) := by
  intro s
  have h := jointOK_run hC hK es _ (jointOK_start (Q := fun _ _ _ => True) hs n limit logfile D)
    (jointAlong_true (fun _ _ _ _ => trivial) es _)
  obtain ⟨is, p, h1, h2, -⟩ := h.sim
  have hb := Client.run_induct (balanced_step hC hset) is start
    ⟨(by rw [hh]; intro x hx; cases hx), [], start, hs.symm, (by rw [hh, hsub]; exact .nil)⟩ h2
  rw [h1] at hb
  refine ⟨⟨is, p, h1⟩, ?_, ?_⟩
  · have := hb.told
    rw [hC.history_set] at this
    exact this
  · obtain ⟨q, t, -, hq⟩ := hb.once
    rw [hC.history_set, hC.submitted_set] at hq
    exact ⟨q, hq⟩

/-- Each job comes back at most as often as it was submitted. -/
theorem Spec.count_of_perm {J : Type} [BEq J] [LawfulBEq J] {a p b : List J} (h : (a ++ p).Perm b) (x : J) :
    a.count x ≤ b.count x := by
  rw [← h.count_eq, List.count_append]
  omega

/-- **C130** for evolution.  In every schedule of workers that take, finish or lose jobs, are stopped
or die, `async_ea` on the evaluator is in a state that it can reach by itself when any pending
evaluation may come back at any time; each outcome it was given came from evaluating that very
individual; and none came back more often than it was submitted. -/
theorem C130_evolution (o : SearchOps σ ι) (maxN : Option Int) (size : Nat) {K : Coding Fn V ι}
    {Jb : Jobs Fn V E Ω} (hK : Faithful K Jb) (c : Candidates ι) (out : List ι) (w : σ) (n : Nat)
    (limit : Option ℚ) (logfile : Bool) (D : List (Str × V)) (es : List (JointEvent Bool σ Ω)) :
    let s := jointRun (eaClient o maxN size) K Jb es
      (jointStart (eaStart c out w) n limit logfile D : Joint (Ea σ ι) Fn V E)
    (∃ is p, eaRun o maxN size is (eaStart c out w) = { s.search with pending := p }) ∧
    (∀ x r, (x, r) ∈ s.search.history → Told K Jb D x r) ∧
    ∀ x, (s.search.history.map Prod.fst).count x ≤ s.search.submitted.count x := by
  intro s
  obtain ⟨⟨is, p, h1⟩, h2, q, h3⟩ := joint_sound (eaClient_lawful o maxN size)
    (fun _ _ _ _ h => congrArg Ea.pending h) hK (start := eaStart c out w) rfl rfl rfl n limit logfile D es
  rw [eaRun_client] at h1
  exact ⟨⟨is, p, h1⟩, fun x r h => h2 (x, r) h, count_of_perm h3⟩

/-- **C130** for random search. -/
theorem C130_random_search (o : SearchOps σ ι) (maxN : Option Int) {K : Coding Fn V ι}
    {Jb : Jobs Fn V E Ω} (hK : Faithful K Jb) (c : Candidates ι) (out : List ι) (w : σ) (n : Nat)
    (limit : Option ℚ) (logfile : Bool) (D : List (Str × V)) (es : List (JointEvent Unit σ Ω)) :
    let s := jointRun (rsClient o maxN) K Jb es
      (jointStart (rsStart c out w) n limit logfile D : Joint (Rs σ ι) Fn V E)
    (∃ is p, rsRun o maxN is (rsStart c out w) = { s.search with pending := p }) ∧
    (∀ x r, (x, r) ∈ s.search.history → Told K Jb D x r) ∧
    ∀ x, (s.search.history.map Prod.fst).count x ≤ s.search.submitted.count x := by
  intro s
  obtain ⟨⟨is, p, h1⟩, h2, q, h3⟩ := joint_sound (rsClient_lawful o maxN)
    (fun _ _ _ _ h => congrArg Rs.pending h) hK (start := rsStart c out w) rfl rfl rfl n limit logfile D es
  rw [rsRun_client] at h1
  exact ⟨⟨is, p, h1⟩, fun x r h => h2 (x, r) h, count_of_perm h3⟩

/-- **C130** for successive halving, whose jobs are individuals on a rung. -/
theorem C130_halving (o : SearchOps σ ι) (c : AshaConfig) {K : Coding Fn V (ι × Nat)}
    {Jb : Jobs Fn V E Ω} (hK : Faithful K Jb) (cands : List ι) (w : σ) (n : Nat)
    (limit : Option ℚ) (logfile : Bool) (D : List (Str × V)) (es : List (JointEvent Nat σ Ω)) :
    let s := jointRun (ashaClient o c) K Jb es
      (jointStart (ashaStart c cands w) n limit logfile D : Joint (Asha σ ι) Fn V E)
    (∃ is p, ashaRun o c is (ashaStart c cands w) = { s.search with pending := p }) ∧
    (∀ x rung r, (x, rung, r) ∈ s.search.history → Told K Jb D (x, rung) r) ∧
    ∀ x rung, (s.search.history.map fun y => (y.1, y.2.1)).count (x, rung) ≤
      s.search.submitted.count (x, rung) := by
  intro s
  obtain ⟨⟨is, p, h1⟩, h2, q, h3⟩ := joint_sound (ashaClient_lawful o c)
    (fun _ _ _ _ h => congrArg Asha.pending h) hK (start := ashaStart c cands w) rfl rfl rfl n limit logfile D es
  rw [ashaRun_client] at h1
  refine ⟨⟨is, p, h1⟩, fun x rung r h => h2 ((x, rung), r) (List.mem_map.2 ⟨(x, rung, r), h, rfl⟩), ?_⟩
  intro x rung
  have := count_of_perm h3 (x, rung)
  have he : ((ashaClient o c).history s.search).map Prod.fst = s.search.history.map fun y => (y.1, y.2.1) := by
    show (s.search.history.map _).map Prod.fst = _
    rw [List.map_map]; rfl
  rw [he] at this
  exact this

/-- **C130**, what it means for the result of an evolutionary search: once something was submitted,
whatever is in the population was evaluated without error, and by a worker. -/
theorem C130_population (o : SearchOps σ ι) (maxN : Option Int) (size : Nat) {K : Coding Fn V ι}
    {Jb : Jobs Fn V E Ω} (hK : Faithful K Jb) (c : Candidates ι) (out : List ι) (w : σ) (n : Nat)
    (limit : Option ℚ) (logfile : Bool) (D : List (Str × V)) (es : List (JointEvent Bool σ Ω)) :
    let s := jointRun (eaClient o maxN size) K Jb es
      (jointStart (eaStart c out w) n limit logfile D : Joint (Ea σ ι) Fn V E)
    s.search.submitted ≠ [] → s.search.population.length ≤ size + 1 ∧
      ∀ x ∈ s.search.population, ∃ score, Told K Jb D x (.result true score) := by
  intro s hne
  obtain ⟨⟨is, p, h1⟩, h2, -⟩ := C130_evolution o maxN size hK c out w n limit logfile D es
  rcases C34_population o maxN size c out w is _ h1.symm with ⟨-, h⟩ | ⟨h3, -, h4⟩
  · exact absurd h hne
  · refine ⟨h3, fun x hx => ?_⟩
    obtain ⟨score, hs⟩ := h4 x hx
    exact ⟨score, h2 x _ hs⟩

/-! ## C131 -/

/-- `job_queue_size` is at most the number of pending jobs minus the number of workers. -/
def QueueAtMost {S I A J : Type} (C : Client S I A J σ) (n : Nat) (t : S) (_ : A) (q : Int) : Prop :=
  ∀ p u, t = C.setPending p u → q ≤ (p.length : Int) - n

omit [DecidableEq ι] in
/-- What a search on the evaluator has pending. -/
theorem joint_pending {S I A J : Type} {C : Client S I A J σ} (hC : C.Lawful)
    (hset : ∀ p q s t, C.setPending p s = C.setPending q t → p = q) {K : Coding Fn V J}
    {Jb : Jobs Fn V E Ω} (hK : Faithful K Jb) {start : S} (hs : C.setPending [] start = start)
    (n : Nat) (limit : Option ℚ) (logfile : Bool) (D : List (Str × V)) (es : List (JointEvent A σ Ω)) :
    let s := jointRun C K Jb es (jointStart start n limit logfile D : Joint S Fn V E)
    C.waits s.search = true → ∃ is, C.Along (C.Legal (QueueAtMost C n) (Told K Jb D)) is start ∧
      C.run is start = C.setPending (pendingJobs K s.ev) s.search := by
  have key : ∀ (es : List (JointEvent A σ Ω)) (s : Joint S Fn V E),
      JointOK C K Jb D (QueueAtMost C n) start s → s.ev.jobQueueSize ≤ (s.ev.futures.length : Int) - n →
      JointOK C K Jb D (QueueAtMost C n) start (jointRun C K Jb es s) := by
    intro es
    induction es with
    | nil => intro s h _; exact h
    | cons e es ih =>
      intro s h hq
      refine ih _ (jointOK_step hC hK e s h ?_) ?_
      · intro a _ p u hp
        have := hset _ _ _ _ hp
        rw [← this]
        unfold pendingJobs
        rw [List.length_map]
        exact hq
      · exact evaluator_step (R := fun ev => ev.jobQueueSize ≤ (ev.futures.length : Int) - n)
          (fun tr ev e hg h => queue_bound_step tr ev e hg h) e s h.good hq
  intro s hw
  have h := key es _ (jointOK_start (E := E) hs n limit logfile D) (by
    obtain ⟨ws, ps, -, -, -, he⟩ := entered_run (Fn := Fn) (E := E) n limit logfile D
    show (entered n limit logfile D : Evaluator Fn V E).jobQueueSize ≤
      ((entered n limit logfile D : Evaluator Fn V E).futures.length : Int) - n
    rw [he]
    show -(n : Int) ≤ ((([] : List (Nat × Future Fn V E)).length : Nat) : Int) - n
    simp)
  obtain ⟨is, p, h1, h2, h3⟩ := h.sim
  rcases h3 with h3 | h3
  · rw [h3] at h1
    exact ⟨is, h2, h1⟩
  · have := h3.1
    rw [hw] at this; cases this

/-- `wait_next` can be entered if something is pending. -/
theorem wait_possible {J : Type} {K : Coding Fn V J} {Jb : Jobs Fn V E Ω} {ev : Evaluator Fn V E}
    (h : pendingJobs K ev ≠ []) : (asyncStep Jb ev .wait).1 = .nothing ∧
      (asyncStep Jb ev .wait).2.waiting = true := by
  cases hw : ev.waiting with
  | true => simp only [asyncStep, hw, if_true]; exact ⟨trivial, trivial⟩
  | false =>
    have hb : ¬ (false = true) := by simp
    have hl : ¬ ev.futures.length = 0 := by
      intro h0
      apply h
      unfold pendingJobs
      rw [List.length_eq_zero_iff.1 h0]; rfl
    simp only [asyncStep, hw, if_neg hb, waitBegin_run]
    rw [if_neg hl]
    exact ⟨rfl, rfl⟩

/-- The candidates a search is given; in a fit without `warm_start` after an earlier one they are the
very list the search writes its output to. -/
def Spec.givenCandidates (c : Candidates ι) (output : List ι) : List ι :=
  match c with
  | .list l => l
  | .sameAsOutput => output

/-- **C131** for evolution, when the candidates are a list of their own (missing: a fit without
`warm_start` after an earlier one, see `C131_second_fit`): started from at least one candidate, `async_ea` never asks the evaluator
to wait when there is nothing to wait for, however jobs are scheduled and whatever happens to the
workers; in particular a worker that is stopped, and its job with it, does not lead to that. -/
theorem C131_evolution_partial (o : SearchOps σ ι) (maxN : Option Int) (size : Nat) {K : Coding Fn V ι}
    {Jb : Jobs Fn V E Ω} (hK : Faithful K Jb) (l : List ι) (hl : l ≠ []) (out : List ι) (w : σ) (n : Nat)
    (limit : Option ℚ) (logfile : Bool) (D : List (Str × V)) (es : List (JointEvent Bool σ Ω)) :
    let s := jointRun (eaClient o maxN size) K Jb es
      (jointStart (eaStart (.list l) out w) n limit logfile D : Joint (Ea σ ι) Fn V E)
    eaWaits maxN s.search = true → s.ev.futures ≠ [] ∧ (asyncStep Jb s.ev .wait).1 = .nothing ∧
      (asyncStep Jb s.ev .wait).2.waiting = true := by
  intro s hw
  have hset : ∀ p q s t, (eaClient o maxN size).setPending p s = (eaClient o maxN size).setPending q t → p = q :=
    fun _ _ _ _ h => congrArg Ea.pending h
  obtain ⟨is, h1, h2⟩ := joint_pending (eaClient_lawful o maxN size) hset hK
    (start := eaStart (.list l) out w) rfl n limit logfile D es hw
  have hal : ∀ (is : List (EaInput σ)) (t : Ea σ ι), (eaClient o maxN size).Along
      ((eaClient o maxN size).Legal (QueueAtMost (eaClient o maxN size) n) (Told K Jb D)) is t →
      EaAlong o maxN size (QueueReading n) is t := by
    intro is
    induction is with
    | nil => intro t _; trivial
    | cons i is ih =>
      intro t h
      refine ⟨fun hpc => ?_, ih _ h.2⟩
      have hnw : (eaClient o maxN size).waits t ≠ true := by
        show eaWaits maxN t ≠ true
        unfold eaWaits; rw [hpc]; simp
      rcases h.1 with ⟨a, q, rfl, -, hq⟩ | ⟨e, -, hw⟩ | ⟨_, _, _, _, _, _, -, -, hw, -⟩
      · exact hq t.pending t rfl
      · exact absurd hw hnw
      · exact absurd hw hnw
  have hpc : s.search.pc = .loop := by
    unfold eaWaits at hw
    cases h : s.search.pc <;> rw [h] at hw <;> first | rfl | cases hw
  rw [eaRun_client] at h2
  have hp := C36_never_starves o maxN size n l hl out w is (hal is _ h1) _ h2.symm hpc
  have hp : pendingJobs K s.ev ≠ [] := hp
  refine ⟨fun hf => hp ?_, wait_possible hp⟩
  unfold pendingJobs; rw [hf]; rfl

/-- **C131** for random search: as many evaluations are under way as there were candidates. -/
theorem C131_random_search (o : SearchOps σ ι) (maxN : Option Int) {K : Coding Fn V ι}
    {Jb : Jobs Fn V E Ω} (hK : Faithful K Jb) (c : Candidates ι) (out : List ι)
    (hl : Spec.givenCandidates c out ≠ []) (w : σ) (n : Nat)
    (limit : Option ℚ) (logfile : Bool) (D : List (Str × V)) (es : List (JointEvent Unit σ Ω)) :
    let s := jointRun (rsClient o maxN) K Jb es
      (jointStart (rsStart c out w) n limit logfile D : Joint (Rs σ ι) Fn V E)
    rsWaits maxN s.search = true → s.ev.futures.length = (Spec.givenCandidates c out).length ∧
      (asyncStep Jb s.ev .wait).1 = .nothing ∧ (asyncStep Jb s.ev .wait).2.waiting = true := by
  intro s hw
  obtain ⟨is, -, h2⟩ := joint_pending (rsClient_lawful o maxN) (fun _ _ _ _ h => congrArg Rs.pending h) hK
    (start := rsStart c out w) rfl n limit logfile D es hw
  have hpc : s.search.pc = .loop := by
    unfold rsWaits at hw
    cases h : s.search.pc <;> rw [h] at hw <;> first | rfl | cases hw
  rw [rsRun_client] at h2
  have hp := (C38_reports_all o maxN (Spec.givenCandidates c out) out w is _ h2.symm (Or.inl hpc)).2
  have hp : (pendingJobs K s.ev).length = (Spec.givenCandidates c out).length := hp
  refine ⟨?_, wait_possible (K := K) fun h0 => ?_⟩
  · unfold pendingJobs at hp; rw [List.length_map] at hp; exact hp
  · rw [h0] at hp
    exact hl (List.length_eq_zero_iff.1 hp.symm)

/-- In a fit with evolution without `warm_start` after an earlier one, the candidates are the list that
is cleared before they are submitted: whatever was found before, the first thing the search does is
to wait for nothing, which raises. -/
theorem C131_second_fit (o : SearchOps σ ι) (maxN : Option Int) (hm : eaRefused maxN = false) (size : Nat)
    (K : Coding Fn V ι) (Jb : Jobs Fn V E Ω) (pop : List ι) (w : σ) (n : Nat) (limit : Option ℚ)
    (logfile : Bool) (D : List (Str × V)) (b₁ b₂ b₃ : Bool) :
    let s := jointRun (eaClient o maxN size) K Jb [.go b₁, .go b₂, .go b₃]
      (jointStart (eaStart .sameAsOutput pop w) n limit logfile D : Joint (Ea σ ι) Fn V E)
    eaWaits maxN s.search = true ∧ s.ev.futures = [] ∧
      (asyncStep Jb s.ev .wait).1 = .raised .runtimeError := by
  have hmore : eaMore maxN 0 = true := by
    cases maxN with
    | none => rfl
    | some n =>
      simp [eaRefused] at hm
      simpa [eaMore] using hm
  obtain ⟨ws, ps, -, -, -, he⟩ := entered_run (Fn := Fn) (E := E) n limit logfile D
  unfold jointStart
  rw [he]
  simp only [jointRun, jointStep, eaClient, eaStart, eaStep, eaWaits, hm, if_false, Bool.false_eq_true,
    List.drop_nil, List.length_nil, submitAll, hmore]
  exact ⟨trivial, rfl, rfl⟩

/-- **C131** in full, of evolution: whatever list of candidates it is given. -/
def C131_claim : Prop :=
  ∀ (σ ι Fn V E Ω : Type) (_ : DecidableEq ι) (o : SearchOps σ ι) (maxN : Option Int) (size : Nat)
    (K : Coding Fn V ι) (Jb : Jobs Fn V E Ω) (_ : Faithful K Jb) (c : Candidates ι) (out : List ι)
    (_ : Spec.givenCandidates c out ≠ []) (w : σ) (n : Nat) (limit : Option ℚ) (logfile : Bool)
    (D : List (Str × V)) (es : List (JointEvent Bool σ Ω)),
    let s := jointRun (eaClient o maxN size) K Jb es
      (jointStart (eaStart c out w) n limit logfile D : Joint (Ea σ ι) Fn V E)
    eaWaits maxN s.search = true → s.ev.futures ≠ []

/-- **C131** for successive halving: eight evaluations are under way. -/
theorem C131_halving (o : SearchOps σ ι) (c : AshaConfig) {K : Coding Fn V (ι × Nat)}
    {Jb : Jobs Fn V E Ω} (hK : Faithful K Jb) (cands : List ι) (w : σ) (n : Nat)
    (limit : Option ℚ) (logfile : Bool) (D : List (Str × V)) (es : List (JointEvent Nat σ Ω)) :
    let s := jointRun (ashaClient o c) K Jb es
      (jointStart (ashaStart c cands w) n limit logfile D : Joint (Asha σ ι) Fn V E)
    ashaWaits c s.search = true → s.ev.futures.length = 8 ∧
      (asyncStep Jb s.ev .wait).1 = .nothing ∧ (asyncStep Jb s.ev .wait).2.waiting = true := by
  intro s hw
  obtain ⟨is, -, h2⟩ := joint_pending (ashaClient_lawful o c) (fun _ _ _ _ h => congrArg Asha.pending h) hK
    (start := ashaStart c cands w) rfl n limit logfile D es hw
  have hpc : s.search.pc = .loop := by
    unfold ashaWaits at hw
    cases h : s.search.pc <;> rw [h] at hw <;> first | rfl | cases hw
  rw [ashaRun_client] at h2
  have hp := (C105_busy o c cands w is _ h2.symm hpc).1
  have hp : (pendingJobs K s.ev).length = 8 := hp
  refine ⟨?_, wait_possible (K := K) fun h0 => ?_⟩
  · unfold pendingJobs at hp; rw [List.length_map] at hp; exact hp
  · rw [h0] at hp; cases hp

end

/-! ## Concrete cases -/

namespace Ex

/-- Individuals are numbers; evaluating one gives it back. -/
def coding : Coding Unit Nat Nat :=
  ⟨fun _ => (), fun j => [j], fun _ => [], fun _ a _ => a.headD 0, fun v => (v, .result true (.fin 1))⟩

/-- Evaluating 5 raises. -/
def evaluations : Jobs Unit Nat Nat Unit where
  call _ a _ _ := if a.headD 0 = 5 then .raises 0 else .returns (a.headD 0)
  probe _ := .fine
  withoutMemoryError v := v

theorem coding_faithful : Faithful coding evaluations where
  job _ := rfl
  read j kw ω v h := by
    have h : (if j = 5 then Outcome.raises 0 else Outcome.returns j : Outcome Nat Nat) = .returns v := h
    split at h
    · cases h
    · cases h; exact ⟨rfl, rfl⟩

/-- Individuals on rungs: on rung `r` individual `j` is `(j, r)`. -/
def rungCoding : Coding Unit (Nat × Nat) (Nat × Nat) :=
  ⟨fun _ => (), fun j => [j], fun _ => [], fun _ a _ => a.headD (0, 0), fun v => (v, .result true (.fin 1))⟩

def rungEvaluations : Jobs Unit (Nat × Nat) Nat Unit where
  call _ a _ _ := .returns (a.headD (0, 0))
  probe _ := .fine
  withoutMemoryError v := v

theorem rungCoding_faithful : Faithful rungCoding rungEvaluations where
  job _ := rfl
  read j kw ω v h := by
    have h : (Outcome.returns j : Outcome (Nat × Nat) Nat) = .returns v := h
    cases h; exact ⟨rfl, rfl⟩

def calmReading : Readings := ⟨1, fun _ => some 1⟩

/-- Start with seven candidates; two workers take 4 and 5, the second finishes first. -/
def twoWorkers : List (JointEvent Bool Unit Unit) :=
  List.replicate 10 (.go false) ++
  [.wait, .worker 0 .take, .worker 1 .take, .worker 1 (.finish ()), .worker 0 (.finish ()),
   .iterate calmReading calmReading calmReading .ok (.ok ())] ++
  List.replicate 3 (.go false) ++
  [.wait, .worker 1 .die, .iterate calmReading calmReading calmReading .ok (.ok ())] ++
  List.replicate 5 (.go false)

/-- 5 came back first and failed, 4 second. -/
example : (fun s : Joint (Ea Unit Nat) Unit Nat Nat =>
      (s.search.history, s.search.population, s.search.submitted.length, s.ev.futures.length,
        eaWaits none s.search))
    (jointRun (eaClient Ex.ops none 50) coding evaluations twoWorkers
      (jointStart (eaStart (.list [4, 5, 6, 7, 8, 9, 10]) [] ()) 2 none false [])) =
    ([(5, .failed), (4, .result true (.fin 1))], [4], 7, 5, true) := by decide +kernel

/-- Random search on one worker. -/
example : (fun s : Joint (Rs Unit Nat) Unit Nat Nat =>
      (s.search.history, s.search.output, s.ev.futures.length, rsWaits none s.search))
    (jointRun (rsClient Ex.ops none) coding evaluations
      (List.replicate 3 (.go ()) ++ [.wait, .worker 0 .take, .worker 0 (.finish ()),
        .iterate calmReading calmReading calmReading .ok (.ok ()), .go (), .go ()])
      (jointStart (rsStart (.list [4, 5]) [] ()) 1 none false [])) =
    ([(4, .result true (.fin 1))], [4], 2, true) := by decide +kernel

/-- Successive halving on one worker. -/
example : (fun s : Joint (Asha Unit Nat) Unit (Nat × Nat) Nat =>
      (s.search.history, s.search.submitted.length, s.ev.futures.length, ashaWaits ⟨2, 0, 2, none⟩ s.search))
    (jointRun (ashaClient Ex.ops ⟨2, 0, 2, none⟩) rungCoding rungEvaluations
      (List.replicate 9 (.go 0) ++ [.wait, .worker 0 .take, .worker 0 (.finish ()),
        .iterate calmReading calmReading calmReading .ok (.ok ()), .go 0, .go 0])
      (jointStart (ashaStart ⟨2, 0, 2, none⟩ [1, 2, 3] ()) 1 none false [])) =
    ([(3, 0, .result true (.fin 1))], 9, 8, true) := by decide +kernel

/-- The theorems apply to these cases. -/
example := C130_evolution (E := Nat) Ex.ops none 50 coding_faithful (.list [4, 5, 6, 7, 8, 9, 10])
  [] () 2 none false [] twoWorkers
example := C130_population (E := Nat) Ex.ops none 50 coding_faithful (.list [4, 5, 6, 7, 8, 9, 10])
  [] () 2 none false [] twoWorkers
example := C131_evolution_partial (E := Nat) Ex.ops none 50 coding_faithful [4, 5, 6, 7, 8, 9, 10] (by simp)
  [] () 2 none false [] twoWorkers
example := C130_halving (E := Nat) Ex.ops ⟨2, 0, 2, none⟩ rungCoding_faithful [1, 2, 3] () 1 none false [] []
example := C131_halving (E := Nat) Ex.ops ⟨2, 0, 2, none⟩ rungCoding_faithful [1, 2, 3] () 1 none false [] []
example := C130_random_search (E := Nat) Ex.ops none coding_faithful (.list [4, 5]) [] () 1 none false [] []
example := C131_random_search (E := Nat) Ex.ops none coding_faithful .sameAsOutput [4, 5] (by simp [Spec.givenCandidates]) () 1 none false [] []

/-- **C131** is false of the code: a second fit with evolution. -/
theorem _root_.Gama.C131_false : ¬ C131_claim := by
  intro h
  obtain ⟨h1, h2, -⟩ := C131_second_fit (E := Nat) Ex.ops none rfl 50 coding evaluations [4, 5] () 2 none false []
    true true true
  exact h _ _ _ _ _ _ _ Ex.ops none 50 coding evaluations coding_faithful .sameAsOutput [4, 5]
    (by simp [Spec.givenCandidates]) () 2 none false [] _ h1 h2

end Ex
end Gama
