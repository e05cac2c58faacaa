import Verif.Props.Progress

/-! # One worker: the same search again: C153 -/

namespace Gama
open PyM Spec

section
variable {S I A J σ Fn V E Ω : Type}

/-! ### A search without an evaluator -/

/-- What a search is told of job `j` if its evaluation meets `ω`. -/
def Spec.verdict (K : Coding Fn V J) (Jb : Jobs Fn V E Ω) (D : List (Str × V)) (j : J) (ω : Ω) :
    Completion :=
  match Jb.call (K.fn j) (K.args j) (dget (dmerge (K.kwargs j) D)) ω with
  | .returns v =>
    if Jb.probe v = .memoryError then (K.read (Jb.withoutMemoryError v)).2
    else if Jb.probe v = .raisesMemory then .failed
    else (K.read v).2
  | _ => .failed

/-- What is the same in two runs: what the environment decides in a state of the search, what the
callback does with an outcome, and what an evaluation meets (the random state of its process), given
the evaluations before it. -/
structure Spec.Plan (S A J σ Ω : Type) where
  choice : S → A
  callback : S → J → Completion → Except Exn σ
  noise : List J → Ω

/-- A step of the search, if `wait_next` just evaluates the first job of which the outcome is not known
yet. -/
def Spec.aloneStep (C : Client S I A J σ) (K : Coding Fn V J) (Jb : Jobs Fn V E Ω) (D : List (Str × V))
    (P : Plan S A J σ Ω) (s : S) : S :=
  if C.waits s then
    match (C.submitted s)[(C.history s).length]? with
    | none => C.step (C.waited (.raises .runtimeError)) s
    | some j =>
      let c := verdict K Jb D j (P.noise ((C.submitted s).take (C.history s).length))
      match P.callback s j c with
      | .error e => C.step (C.waited (.raises e)) s
      | .ok w => C.step (C.waited (.completes 0 c w)) (C.setPending [j] s)
  else C.step (C.go (P.choice s) ((C.submitted s).length - (C.history s).length - 1)) s

def Spec.aloneAt (C : Client S I A J σ) (K : Coding Fn V J) (Jb : Jobs Fn V E Ω) (D : List (Str × V))
    (P : Plan S A J σ Ω) (s : S) : Nat → S
  | 0 => s
  | k + 1 => aloneStep C K Jb D P (aloneAt C K Jb D P s k)

/-- An event that goes by the plan; no worker is stopped, dies or fails to receive a job. -/
def Spec.Planned (C : Client S I A J σ) (K : Coding Fn V J) (Jb : Jobs Fn V E Ω) (P : Plan S A J σ Ω)
    (s : Joint S Fn V E) : JointEvent A σ Ω → Prop
  | .go a => a = P.choice s.search
  | .wait => True
  | .iterate r₁ r₂ r₃ o cb => Calm s.ev (.iterate r₁ r₂ r₃ o : AsyncEvent Fn V Ω) ∧
      ∀ f, (asyncStep Jb s.ev (.iterate r₁ r₂ r₃ o)).1 = .returned f →
        cb = P.callback s.search (jobOf K f) (completionOf K f)
  | .worker pid act => Calm s.ev (.worker pid act) ∧
      ∀ ω w f, act = .finish ω → s.ev.workers[pid]? = some w → w.cur = some f →
        ω = P.noise ((C.submitted s.search).take f.id)

/-! ### The queues of a single worker -/

/-- The future of a job, as it is submitted. -/
def rawOf (K : Coding Fn V J) (n : Nat) (j : J) : Future Fn V E :=
  ⟨n, K.fn j, K.args j, K.kwargs j, none, none⟩

def rawsFrom (K : Coding Fn V J) : Nat → List J → List (Future Fn V E)
  | _, [] => []
  | n, j :: js => rawOf K n j :: rawsFrom K (n + 1) js

/-- What the worker reports. -/
def doneOf (K : Coding Fn V J) (Jb : Jobs Fn V E Ω) (D : List (Str × V)) (n : Nat) (j : J) (ω : Ω) :
    Future Fn V E :=
  ((execute Jb (rawOf K n j) D ω).bind (inspectResult Jb)).getD (rawOf K n j)

def reportsFrom (K : Coding Fn V J) (Jb : Jobs Fn V E Ω) (D : List (Str × V)) (noise : List J → Ω) :
    List J → List J → List (Future Fn V E)
  | _, [] => []
  | told, j :: js => doneOf K Jb D told.length j (noise told) ::
      reportsFrom K Jb D noise (told ++ [j]) js

theorem rawsFrom_append (K : Coding Fn V J) (a b : List J) : ∀ n,
    (rawsFrom K n (a ++ b) : List (Future Fn V E)) = rawsFrom K n a ++ rawsFrom K (n + a.length) b := by
  induction a with
  | nil => intro n; rfl
  | cons j a ih =>
    intro n
    show rawOf K n j :: rawsFrom K (n + 1) (a ++ b) = _
    rw [ih (n + 1)]
    show _ = rawOf K n j :: (rawsFrom K (n + 1) a ++ rawsFrom K (n + (a.length + 1)) b)
    rw [Nat.add_right_comm, Nat.add_assoc]

theorem reportsFrom_append (K : Coding Fn V J) (Jb : Jobs Fn V E Ω) (D : List (Str × V))
    (noise : List J → Ω) (a b : List J) : ∀ told,
    reportsFrom K Jb D noise told (a ++ b) =
      reportsFrom K Jb D noise told a ++ reportsFrom K Jb D noise (told ++ a) b := by
  induction a with
  | nil => intro told; rw [List.append_nil]; rfl
  | cons j a ih =>
    intro told
    show _ :: reportsFrom K Jb D noise (told ++ [j]) (a ++ b) = _
    rw [ih (told ++ [j]), List.append_assoc]
    rfl

theorem rawsFrom_keys (K : Coding Fn V J) (l : List J) : ∀ n,
    ∀ k ∈ ((rawsFrom K n l : List (Future Fn V E)).map fun f => (f.id, f)).map Prod.fst,
      k < n + l.length := by
  induction l with
  | nil => intro n k hk; cases hk
  | cons j l ih =>
    intro n k hk
    rcases List.mem_cons.1 hk with hk | hk
    · have hk : k = n := hk
      show k < n + (l.length + 1)
      omega
    · have := ih (n + 1) k hk
      show k < n + (l.length + 1)
      omega

theorem rawsFrom_length (K : Coding Fn V J) (l : List J) : ∀ n,
    (rawsFrom K n l : List (Future Fn V E)).length = l.length := by
  induction l with
  | nil => intro n; rfl
  | cons j l ih => intro n; show _ + 1 = _ + 1; rw [ih]

/-- Of the report the search reads the job and its verdict. -/
theorem doneOf_read {K : Coding Fn V J} {Jb : Jobs Fn V E Ω} (hK : Faithful K Jb) (hJ : Reliable Jb)
    (D : List (Str × V)) (n : Nat) (j : J) (ω : Ω) :
    (execute Jb (rawOf K n j) D ω).bind (inspectResult Jb) = some (doneOf K Jb D n j ω) ∧
    (doneOf K Jb D n j ω).id = n ∧
    jobOf K { (rawOf K n j : Future Fn V E) with
      result := (doneOf K Jb D n j ω).result, exception := (doneOf K Jb D n j ω).exception } = j ∧
    completionOf K { (rawOf K n j : Future Fn V E) with
      result := (doneOf K Jb D n j ω).result, exception := (doneOf K Jb D n j ω).exception } =
        verdict K Jb D j ω := by
  obtain ⟨h1, h2⟩ := hJ (K.fn j) (K.args j) (dget (dmerge (K.kwargs j) D)) ω
  have hr := fun v => hK.read j (dget (dmerge (K.kwargs j) D)) ω v
  unfold doneOf execute verdict
  have hc : ∀ x, Jb.call (K.fn j) (K.args j) (dget (dmerge (K.kwargs j) D)) ω = x →
      Jb.call (rawOf K n j : Future Fn V E).fn (rawOf K n j : Future Fn V E).args
        (dget (dmerge (rawOf K n j : Future Fn V E).kwargs D)) ω = x := fun _ h => h
  cases hx : Jb.call (K.fn j) (K.args j) (dget (dmerge (K.kwargs j) D)) ω with
  | escapes => exact absurd hx h1
  | raises e =>
    rw [hc _ hx]
    exact ⟨rfl, rfl, hK.job j, rfl⟩
  | returns v =>
    rw [hc _ hx]
    obtain ⟨r1, r2⟩ := hr v hx
    dsimp only [Option.bind_some, inspectResult]
    cases hp : Jb.probe v with
    | raises => exact absurd hp (h2 v hx)
    | falsy => exact ⟨rfl, rfl, r1, by simp [completionOf, rawOf]⟩
    | fine => exact ⟨rfl, rfl, r1, by simp [completionOf, rawOf]⟩
    | memoryError => exact ⟨rfl, rfl, r2, by simp [completionOf, rawOf]⟩
    | raisesMemory => exact ⟨rfl, rfl, hK.job j, by simp [completionOf, rawOf]⟩

/-- Jobs submitted one after the other. -/
theorem submitAll_run (K : Coding Fn V J) (Jb : Jobs Fn V E Ω) : ∀ (js : List J) (ev : Evaluator Fn V E),
    ev.waiting = false → (∀ k ∈ ev.futures.map Prod.fst, k < ev.nextId) →
    submitAll Jb K js ev = { ev with
      nextId := ev.nextId + js.length
      futures := ev.futures ++ (rawsFrom K ev.nextId js).map fun f => (f.id, f)
      input := ev.input ++ rawsFrom K ev.nextId js
      jobQueueSize := ev.jobQueueSize + js.length } := by
  intro js
  induction js with
  | nil =>
    intro ev _ _
    show ev = _
    simp [rawsFrom]
  | cons j js ih =>
    intro ev hw hk
    have hn : ev.nextId ∉ ev.futures.map Prod.fst := fun h => Nat.lt_irrefl _ (hk _ h)
    have hs : (asyncStep Jb ev (.submit (K.fn j) (K.args j) (K.kwargs j))).2 = { ev with
        nextId := ev.nextId + 1
        futures := ev.futures ++ [(ev.nextId, rawOf K ev.nextId j)]
        input := ev.input ++ [rawOf K ev.nextId j]
        jobQueueSize := ev.jobQueueSize + 1 } := by
      simp only [asyncStep, hw, submit_run, dset_length_new hn]
      rfl
    show submitAll Jb K js _ = _
    rw [hs, ih]
    · simp [rawsFrom, rawOf, Nat.add_assoc, Nat.add_comm 1, Int.add_assoc, Int.add_comm 1]
    · exact hw
    · intro k hk'
      have hk' : k ∈ (ev.futures ++ [(ev.nextId, rawOf K ev.nextId j)]).map Prod.fst := hk'
      show k < ev.nextId + 1
      rw [List.map_append, List.mem_append] at hk'
      rcases hk' with h | h
      · have := hk k h; omega
      · have : k = ev.nextId := by simpa using h
        omega

/-- The state of a search with a single worker: of the submitted jobs the first are `told`, then come
those in the output queue, then those that are still to be done. -/
structure Lined (C : Client S I A J σ) (K : Coding Fn V J) (Jb : Jobs Fn V E Ω) (D : List (Str × V))
    (P : Plan S A J σ Ω) (s : Joint S Fn V E) (told a b : List J) (w : Worker Fn V E) : Prop where
  sub : C.submitted s.search = told ++ (a ++ b)
  known : told.length = (C.history s.search).length
  defaults : s.ev.defaults = D
  procs : s.ev.procs = [0]
  workers : s.ev.workers = [w]
  alive : w.alive = true
  next : s.ev.nextId = told.length + (a.length + b.length)
  futures : s.ev.futures = (rawsFrom K told.length (a ++ b)).map fun f => (f.id, f)
  output : s.ev.output = reportsFrom K Jb D P.noise told a
  input : (w.busy = false ∧ s.ev.input = rawsFrom K (told.length + a.length) b) ∨
    (w.busy = true ∧ ∃ j b', b = j :: b' ∧ w.cur = some (rawOf K (told.length + a.length) j) ∧
      s.ev.input = rawsFrom K (told.length + a.length + 1) b')
  size : s.ev.jobQueueSize = (a.length + b.length : Int) - 1
  commands : s.ev.commands = 0
  waiting : s.ev.waiting = true → C.waits s.search = true ∧ a ++ b ≠ []

/-- A search with a single worker is where it was, or one step further. -/
theorem lined_step {C : Client S I A J σ} (hC : C.Lawful) {K : Coding Fn V J} {Jb : Jobs Fn V E Ω}
    (hK : Faithful K Jb) (hJ : Reliable Jb) {D : List (Str × V)} {P : Plan S A J σ Ω}
    (e : JointEvent A σ Ω) (s : Joint S Fn V E) (he : Planned C K Jb P s e) {told a b : List J}
    {w : Worker Fn V E} (h : Lined C K Jb D P s told a b w) :
    (∃ told' a' b' w', Lined C K Jb D P (jointStep C K Jb e s) told' a' b' w' ∧
      ((jointStep C K Jb e s).search = s.search ∨
       (jointStep C K Jb e s).search = aloneStep C K Jb D P s.search)) ∨
    (C.Stuck (jointStep C K Jb e s).search ∧ (jointStep C K Jb e s).ev.waiting = false ∧
      (jointStep C K Jb e s).search = aloneStep C K Jb D P s.search) := by
  have stay : jointStep C K Jb e s = s →
      (∃ told' a' b' w', Lined C K Jb D P (jointStep C K Jb e s) told' a' b' w' ∧
      ((jointStep C K Jb e s).search = s.search ∨
       (jointStep C K Jb e s).search = aloneStep C K Jb D P s.search)) := by
    intro hs
    exact ⟨told, a, b, w, by rw [hs]; exact h, Or.inl (by rw [hs])⟩
  cases e with
  | go x =>
    cases hw : C.waits s.search with
    | true =>
      refine Or.inl (stay ?_)
      show (if C.waits s.search = true then s else _) = s
      rw [if_pos hw]
    | false =>
      have hwait : s.ev.waiting = false := by
        cases hh : s.ev.waiting with
        | false => rfl
        | true => rw [(h.waiting hh).1] at hw; cases hw
      have hx : x = P.choice s.search := he
      obtain ⟨p, -⟩ := hC.set_nil s.search
      obtain ⟨new, n1, n2, -⟩ := hC.go x s.ev.jobQueueSize s.search p hw
      have hstep : jointStep C K Jb (.go x) s = ⟨C.step (C.go x s.ev.jobQueueSize) s.search,
          submitAll Jb K new s.ev⟩ := by
        show (if C.waits s.search = true then s else _) = _
        rw [if_neg (by rw [hw]; exact Bool.false_ne_true), n1, List.drop_left]
      have hkeys : ∀ k ∈ s.ev.futures.map Prod.fst, k < s.ev.nextId := by
        intro k hk
        rw [h.futures] at hk
        have := rawsFrom_keys K _ _ k hk
        rw [List.length_append] at this
        rw [h.next]; exact this
      have hq : s.ev.jobQueueSize =
          ((C.submitted s.search).length : Int) - (C.history s.search).length - 1 := by
        rw [h.size, h.sub, ← h.known, List.length_append, List.length_append]
        push_cast
        omega
      left
      rw [hstep, submitAll_run K Jb new s.ev hwait hkeys]
      refine ⟨told, a, b ++ new, w, ⟨?_, ?_, h.defaults, h.procs, h.workers, h.alive, ?_, ?_, h.output, ?_,
        ?_, h.commands, fun hh => ?_⟩, Or.inr ?_⟩
      · show C.submitted (C.step _ _) = _
        rw [n1, h.sub]; simp
      · show told.length = (C.history (C.step _ _)).length
        rw [n2]; exact h.known
      · show s.ev.nextId + new.length = _
        rw [h.next, List.length_append]; omega
      · show s.ev.futures ++ _ = _
        rw [h.futures, h.next, ← List.append_assoc a, rawsFrom_append K (a ++ b), List.map_append,
          List.length_append]
      · show (_ ∧ s.ev.input ++ _ = _) ∨ (_ ∧ ∃ j b', _ ∧ _ ∧ s.ev.input ++ _ = _)
        rcases h.input with ⟨i1, i2⟩ | ⟨i1, j, b', i2, i3, i4⟩
        · refine Or.inl ⟨i1, ?_⟩
          rw [i2, rawsFrom_append, h.next, Nat.add_assoc]
        · refine Or.inr ⟨i1, j, b' ++ new, by rw [i2]; rfl, i3, ?_⟩
          rw [i4, rawsFrom_append, h.next, i2, List.length_cons]
          congr 2
          omega
      · show s.ev.jobQueueSize + new.length = _
        rw [h.size, List.length_append]; push_cast; omega
      · have hh : s.ev.waiting = true := hh
        rw [hwait] at hh; cases hh
      · show C.step (C.go x s.ev.jobQueueSize) s.search = _
        unfold aloneStep
        rw [if_neg (by rw [hw]; exact Bool.false_ne_true), hx, hq]
  | wait =>
    cases hw : C.waits s.search with
    | false =>
      refine Or.inl (stay ?_)
      show (if C.waits s.search = true then _ else s) = s
      rw [if_neg (by rw [hw]; exact Bool.false_ne_true)]
    | true =>
      cases hh : s.ev.waiting with
      | true =>
        refine Or.inl (stay ?_)
        show (if C.waits s.search = true then _ else s) = s
        rw [if_pos hw]
        simp only [asyncStep, hh, if_true]
      | false =>
        have hlen : s.ev.futures.length = (a ++ b).length := by
          rw [h.futures, List.length_map, rawsFrom_length]
        by_cases hab : a ++ b = []
        · right
          have hs : jointStep C K Jb .wait s =
              ⟨C.step (C.waited (.raises .runtimeError)) s.search, s.ev⟩ := by
            show (if C.waits s.search = true then _ else s) = _
            rw [if_pos hw]
            simp only [asyncStep, hh, waitBegin_run]
            rw [hlen, hab]
            rfl
          obtain ⟨p, -⟩ := hC.set_nil s.search
          rw [hs]
          refine ⟨(hC.raises .runtimeError s.search p hw).2.2.2, hh, ?_⟩
          unfold aloneStep
          rw [if_pos hw, h.sub, hab, List.append_nil, ← h.known, List.getElem?_eq_none (le_refl _)]
        · left
          have hs : jointStep C K Jb .wait s = ⟨s.search, { s.ev with waiting := true }⟩ := by
            show (if C.waits s.search = true then _ else s) = _
            rw [if_pos hw]
            have hne : ¬ (a ++ b).length = 0 := fun hz => hab (List.eq_nil_of_length_eq_zero hz)
            simp only [asyncStep, hh, waitBegin_run]
            rw [hlen, if_neg hne]
            rfl
          rw [hs]
          exact ⟨told, a, b, w, ⟨h.sub, h.known, h.defaults, h.procs, h.workers, h.alive, h.next, h.futures,
            h.output, h.input, h.size, h.commands, fun _ => ⟨hw, hab⟩⟩, Or.inl rfl⟩
  | iterate r₁ r₂ r₃ o cb =>
    cases hh : s.ev.waiting with
    | false =>
      refine Or.inl (stay ?_)
      unfold jointStep
      simp only [asyncStep, hh]
      rfl
    | true =>
      obtain ⟨hw, hab⟩ := h.waiting hh
      obtain ⟨⟨c1, c2⟩, hcb⟩ := he
      have hok : ProcsOK s.ev := by
        refine ⟨by rw [h.procs]; exact List.nodup_singleton _, fun p hp => ?_⟩
        rw [h.procs, List.mem_singleton] at hp
        rw [hp, h.workers]; exact Nat.zero_lt_one
      have hit : waitIteration r₁ r₂ r₃ o s.ev = pollOutput s.ev :=
        waitIteration_calm hok c1 (fun p hp => (c2 p hp).1) (fun p hp => (c2 p hp).2)
      cases a with
      | nil =>
        refine Or.inl (stay ?_)
        have ho : s.ev.output = [] := h.output
        unfold jointStep
        simp only [asyncStep, hh, if_true, hit, pollOutput_run, ho]
      | cons j a =>
        obtain ⟨-, q2, q3, q4⟩ := doneOf_read hK hJ D told.length j (P.noise told)
        have ho : s.ev.output = doneOf K Jb D told.length j (P.noise told) ::
            reportsFrom K Jb D P.noise (told ++ [j]) a := h.output
        have hf : s.ev.futures = (told.length, rawOf K told.length j) ::
            (rawsFrom K (told.length + 1) (a ++ b)).map fun f => (f.id, f) := h.futures
        have hd : dget s.ev.futures told.length = some (rawOf K told.length j) := by
          rw [hf]; exact if_pos rfl
        have hdel : ddel s.ev.futures told.length =
            (rawsFrom K (told.length + 1) (a ++ b)).map fun f => (f.id, f) := by
          rw [hf]; exact if_pos rfl
        have hpoll : asyncStep Jb s.ev (.iterate r₁ r₂ r₃ o) =
            (.returned { (rawOf K told.length j : Future Fn V E) with
                result := (doneOf K Jb D told.length j (P.noise told)).result
                exception := (doneOf K Jb D told.length j (P.noise told)).exception },
              { s.ev with
                output := reportsFrom K Jb D P.noise (told ++ [j]) a
                jobQueueSize := s.ev.jobQueueSize - 1
                futures := (rawsFrom K (told.length + 1) (a ++ b)).map fun f => (f.id, f)
                behaved := s.ev.behaved + 1
                waiting := false }) := by
          simp only [asyncStep, hh, if_true, hit, pollOutput_run, ho, q2, hd, hdel]
        have hcb' := hcb _ (congrArg Prod.fst hpoll)
        rw [q3, q4] at hcb'
        have hget : (C.submitted s.search)[(C.history s.search).length]? = some j := by
          rw [h.sub, ← h.known, List.getElem?_append_right (le_refl _), Nat.sub_self]
          rfl
        have htake : (C.submitted s.search).take (C.history s.search).length = told := by
          rw [h.sub, ← h.known]; exact List.take_left
        have halone : aloneStep C K Jb D P s.search =
            deliver C K cb ({ (rawOf K told.length j : Future Fn V E) with
                result := (doneOf K Jb D told.length j (P.noise told)).result
                exception := (doneOf K Jb D told.length j (P.noise told)).exception }) s.search := by
          unfold aloneStep deliver
          rw [if_pos hw, hget, q3, q4]
          dsimp only
          rw [htake, ← hcb']
          cases cb <;> rfl
        have hs : jointStep C K Jb (.iterate r₁ r₂ r₃ o cb) s = ⟨aloneStep C K Jb D P s.search,
              { s.ev with
                output := reportsFrom K Jb D P.noise (told ++ [j]) a
                jobQueueSize := s.ev.jobQueueSize - 1
                futures := (rawsFrom K (told.length + 1) (a ++ b)).map fun f => (f.id, f)
                behaved := s.ev.behaved + 1
                waiting := false }⟩ := by
          rw [halone]
          unfold jointStep
          dsimp only
          rw [hpoll]
        rw [hs]
        cases hcbv : cb with
        | error e =>
          right
          obtain ⟨p, -⟩ := hC.set_nil s.search
          refine ⟨?_, rfl, rfl⟩
          show C.Stuck (aloneStep C K Jb D P s.search)
          rw [halone, hcbv]
          exact (hC.raises e s.search p hw).2.2.2
        | ok v =>
          left
          obtain ⟨-, d2, d3⟩ := hC.completes (verdict K Jb D j (P.noise told)) v s.search [] j [] hw
          have hal : aloneStep C K Jb D P s.search =
              C.step (C.waited (.completes 0 (verdict K Jb D j (P.noise told)) v))
                (C.setPending [j] s.search) := by
            rw [halone, hcbv]
            unfold deliver
            rw [q3, q4]
          have hl : (told ++ [j]).length = told.length + 1 := by
            rw [List.length_append, List.length_singleton]
          refine ⟨told ++ [j], a, b, w, ⟨?_, ?_, h.defaults, h.procs, h.workers, h.alive, ?_, ?_, rfl, ?_, ?_,
            h.commands, fun hh => by cases hh⟩, Or.inr rfl⟩
          · show C.submitted (aloneStep C K Jb D P s.search) = _
            rw [hal, d2, h.sub]; simp
          · show _ = (C.history (aloneStep C K Jb D P s.search)).length
            rw [hal, d3, hl, h.known, List.length_append, List.length_singleton]
          · show s.ev.nextId = _
            rw [h.next, hl, List.length_cons]; omega
          · show _ = (rawsFrom K (told ++ [j]).length (a ++ b)).map _
            rw [hl]
          · show (_ ∧ s.ev.input = _) ∨ (_ ∧ ∃ j b', _ ∧ _ ∧ s.ev.input = _)
            have e1 : (told ++ [j]).length + a.length = told.length + (j :: a).length := by
              rw [hl, List.length_cons]; omega
            rw [e1]
            exact h.input
          · show s.ev.jobQueueSize - 1 = _
            rw [h.size, List.length_cons]; push_cast; omega
  | worker pid act =>
    have hsame : workerStep Jb pid act s.ev = s.ev → jointStep C K Jb (.worker pid act) s = s := by
      intro hs
      show (⟨s.search, workerStep Jb pid act s.ev⟩ : Joint S Fn V E) = s
      rw [hs]
    cases pid with
    | succ pid =>
      refine Or.inl (stay (hsame ?_))
      unfold workerStep
      rw [h.workers]
      rfl
    | zero =>
      have hget : s.ev.workers[0]? = some w := by rw [h.workers]; rfl
      obtain ⟨hcalm, hω⟩ := he
      cases act with
      | die => exact absurd hcalm (fun x => x)
      | takeFails => exact absurd hcalm (fun x => x)
      | stop =>
        refine Or.inl (stay (hsame ?_))
        unfold workerStep
        rw [hget]
        dsimp only
        rw [if_pos h.alive, if_neg]
        rw [h.commands]
        exact fun x => Nat.lt_irrefl _ x.2
      | take =>
        rcases h.input with ⟨i1, i2⟩ | ⟨i1, -⟩
        · cases b with
          | nil =>
            refine Or.inl (stay (hsame ?_))
            unfold workerStep
            rw [hget]
            dsimp only
            have i2 : s.ev.input = [] := i2
            rw [if_pos h.alive, i1, i2]
            rfl
          | cons j b =>
            left
            have i2 : s.ev.input = rawOf K (told.length + a.length) j ::
              rawsFrom K (told.length + a.length + 1) b := i2
            have hs : workerStep Jb 0 .take s.ev = { s.ev with
                input := rawsFrom K (told.length + a.length + 1) b
                workers := [⟨some (rawOf K (told.length + a.length) j), true, true⟩] } := by
              unfold workerStep
              rw [hget]
              dsimp only
              rw [if_pos h.alive, i1, i2, h.workers]
              rfl
            have hj : jointStep C K Jb (.worker 0 .take) s = ⟨s.search, _⟩ :=
              congrArg (Joint.mk s.search) hs
            rw [hj]
            exact ⟨told, a, j :: b, _, ⟨h.sub, h.known, h.defaults, h.procs, rfl, rfl, h.next, h.futures,
              h.output, Or.inr ⟨rfl, j, b, rfl, rfl, rfl⟩, h.size, h.commands, h.waiting⟩, Or.inl rfl⟩
        · refine Or.inl (stay (hsame ?_))
          unfold workerStep
          rw [hget]
          dsimp only
          rw [if_pos h.alive, i1]
          rfl
      | finish ω =>
        rcases h.input with ⟨i1, -⟩ | ⟨i1, j, b', i2, i3, i4⟩
        · refine Or.inl (stay (hsame ?_))
          unfold workerStep
          rw [hget]
          dsimp only
          rw [if_pos h.alive, i1]
          rfl
        · left
          have hn : ω = P.noise (told ++ a) := by
            rw [hω ω w _ rfl hget i3, h.sub]
            show P.noise ((told ++ (a ++ b)).take (told.length + a.length)) = _
            rw [← List.append_assoc, ← List.length_append, List.take_left]
          obtain ⟨q1, -, -, -⟩ := doneOf_read hK hJ D (told.length + a.length) j ω
          have hs : workerStep Jb 0 (.finish ω) s.ev = { s.ev with
              output := reportsFrom K Jb D P.noise told (a ++ [j])
              workers := [⟨some (doneOf K Jb D (told.length + a.length) j ω), false, true⟩] } := by
            unfold workerStep
            rw [hget]
            dsimp only
            rw [if_pos h.alive, i1, i3, h.defaults]
            dsimp only
            rw [if_pos rfl, q1, h.workers, h.output, reportsFrom_append, hn]
            simp [reportsFrom]
          have hj : jointStep C K Jb (.worker 0 (.finish ω)) s = ⟨s.search, _⟩ :=
            congrArg (Joint.mk s.search) hs
          have hl : (a ++ [j]).length = a.length + 1 := by
            rw [List.length_append, List.length_singleton]
          have hab : a ++ [j] ++ b' = a ++ b := by rw [i2, List.append_assoc]; rfl
          rw [hj]
          refine ⟨told, a ++ [j], b', _, ⟨?_, h.known, h.defaults, h.procs, rfl, rfl, ?_, ?_, rfl,
            Or.inl ⟨rfl, ?_⟩, ?_, h.commands, ?_⟩, Or.inl rfl⟩
          · rw [hab]; exact h.sub
          · show s.ev.nextId = _
            rw [h.next, hl, i2, List.length_cons]; omega
          · rw [hab]; exact h.futures
          · rw [hl]; exact i4
          · show s.ev.jobQueueSize = _
            rw [h.size, hl, i2, List.length_cons]; push_cast; omega
          · rw [hab]; exact h.waiting

/-- A search that has ended stays as it is. -/
theorem ended_step {C : Client S I A J σ} {K : Coding Fn V J} {Jb : Jobs Fn V E Ω}
    (e : JointEvent A σ Ω) (s : Joint S Fn V E) (hs : C.Stuck s.search) (hw : s.ev.waiting = false) :
    (jointStep C K Jb e s).search = s.search ∧ (jointStep C K Jb e s).ev.waiting = false := by
  cases e with
  | go x =>
    unfold jointStep
    dsimp only
    rw [if_neg (by rw [hs.1]; exact Bool.false_ne_true), hs.2, List.drop_length]
    exact ⟨rfl, hw⟩
  | wait =>
    unfold jointStep
    dsimp only
    rw [if_neg (by rw [hs.1]; exact Bool.false_ne_true)]
    exact ⟨rfl, hw⟩
  | iterate r₁ r₂ r₃ o cb =>
    unfold jointStep
    simp only [asyncStep, hw]
    exact ⟨rfl, hw⟩
  | worker pid act =>
    refine ⟨rfl, ?_⟩
    show (workerStep Jb pid act s.ev).waiting = false
    rw [(workerStep_frame (J := Jb) (s := s.ev) pid act).2.2.2.2.2.2.1]
    exact hw

theorem lined_start {C : Client S I A J σ} {K : Coding Fn V J} {Jb : Jobs Fn V E Ω} {P : Plan S A J σ Ω}
    {start : S} (h1 : C.submitted start = []) (h2 : C.history start = []) (limit : Option ℚ)
    (logfile : Bool) (D : List (Str × V)) :
    Lined C K Jb D P (jointStart start 1 limit logfile D : Joint S Fn V E) [] [] [] ⟨none, false, true⟩ := by
  obtain ⟨ws, ps, w1, w2, w3, he⟩ := entered_run (Fn := Fn) (E := E) 1 limit logfile D
  have hws : ws = [⟨none, false, true⟩] := by
    match ws, w1, w2 with
    | [x], w1, _ => rw [w1 x (List.mem_singleton.2 rfl)]
  unfold jointStart
  rw [he]
  exact ⟨h1, by dsimp only; rw [h2]; rfl, rfl, w3, hws, rfl, rfl, rfl, rfl, Or.inl ⟨rfl, rfl⟩, rfl, rfl,
    fun hh => by cases hh⟩

/-! ### The theorems -/

/-- **C153** for any search: with a single worker that lives, a search goes exactly as if each job was
evaluated by itself, in the order of submission; the schedule only decides how far it gets. -/
theorem C153_alone {C : Client S I A J σ} (hC : C.Lawful) {K : Coding Fn V J} {Jb : Jobs Fn V E Ω}
    (hK : Faithful K Jb) (hJ : Reliable Jb) {start : S} (h1 : C.submitted start = [])
    (h2 : C.history start = []) (limit : Option ℚ) (logfile : Bool) (D : List (Str × V))
    (P : Plan S A J σ Ω) (es : List (JointEvent A σ Ω))
    (hes : JointAlong C K Jb (Planned C K Jb P) es (jointStart start 1 limit logfile D)) :
    ∃ k, (jointRun C K Jb es (jointStart start 1 limit logfile D : Joint S Fn V E)).search =
      aloneAt C K Jb D P start k := by
  have main : ∀ (es : List (JointEvent A σ Ω)) (s : Joint S Fn V E) (k : Nat),
      JointAlong C K Jb (Planned C K Jb P) es s → s.search = aloneAt C K Jb D P start k →
      ((∃ told a b w, Lined C K Jb D P s told a b w) ∨ (C.Stuck s.search ∧ s.ev.waiting = false)) →
      ∃ k, (jointRun C K Jb es s).search = aloneAt C K Jb D P start k := by
    intro es
    induction es with
    | nil => intro s k _ hk _; exact ⟨k, hk⟩
    | cons e es ih =>
      intro s k he hk hs
      rcases hs with ⟨told, a, b, w, hl⟩ | ⟨s1, s2⟩
      · rcases lined_step hC hK hJ e s he.1 hl with ⟨told', a', b', w', hl', hsame | hnext⟩ | ⟨t1, t2, t3⟩
        · exact ih _ k he.2 (hsame.trans hk) (Or.inl ⟨told', a', b', w', hl'⟩)
        · refine ih _ (k + 1) he.2 (hnext.trans ?_) (Or.inl ⟨told', a', b', w', hl'⟩)
          rw [hk]; rfl
        · refine ih _ (k + 1) he.2 (t3.trans ?_) (Or.inr ⟨t1, t2⟩)
          rw [hk]; rfl
      · obtain ⟨e1, e2⟩ := ended_step (K := K) (Jb := Jb) e s s1 s2
        exact ih _ k he.2 (e1.trans hk) (Or.inr ⟨by rw [e1]; exact s1, e2⟩)
  exact main es _ 0 hes rfl (Or.inl ⟨_, _, _, _, lined_start h1 h2 limit logfile D⟩)

theorem aloneAt_stuck {C : Client S I A J σ} {K : Coding Fn V J} {Jb : Jobs Fn V E Ω} {D : List (Str × V)}
    {P : Plan S A J σ Ω} {start : S} {k : Nat} (h : C.Stuck (aloneAt C K Jb D P start k)) (d : Nat) :
    aloneAt C K Jb D P start (k + d) = aloneAt C K Jb D P start k := by
  induction d with
  | zero => rfl
  | succ d ih =>
    show aloneStep C K Jb D P (aloneAt C K Jb D P start (k + d)) = _
    rw [ih]
    unfold aloneStep
    rw [if_neg (by rw [h.1]; exact Bool.false_ne_true)]
    exact h.2 _

/-- **C153**, ended: two such runs that both end, however often the main process polls and whatever
the memory limits are, end in the same state: the same result, the same evaluations with the same
outcomes in the same order. -/
theorem C153_same {C : Client S I A J σ} (hC : C.Lawful) {K : Coding Fn V J} {Jb : Jobs Fn V E Ω}
    (hK : Faithful K Jb) (hJ : Reliable Jb) {start : S} (h1 : C.submitted start = [])
    (h2 : C.history start = []) (limit limit' : Option ℚ) (logfile logfile' : Bool) (D : List (Str × V))
    (P : Plan S A J σ Ω) (es es' : List (JointEvent A σ Ω))
    (hes : JointAlong C K Jb (Planned C K Jb P) es (jointStart start 1 limit logfile D))
    (hes' : JointAlong C K Jb (Planned C K Jb P) es' (jointStart start 1 limit' logfile' D))
    (hend : C.Stuck (jointRun C K Jb es (jointStart start 1 limit logfile D : Joint S Fn V E)).search)
    (hend' : C.Stuck (jointRun C K Jb es' (jointStart start 1 limit' logfile' D : Joint S Fn V E)).search) :
    (jointRun C K Jb es (jointStart start 1 limit logfile D : Joint S Fn V E)).search =
    (jointRun C K Jb es' (jointStart start 1 limit' logfile' D : Joint S Fn V E)).search := by
  obtain ⟨k, hk⟩ := C153_alone hC hK hJ h1 h2 limit logfile D P es hes
  obtain ⟨k', hk'⟩ := C153_alone hC hK hJ h1 h2 limit' logfile' D P es' hes'
  rw [hk] at hend ⊢
  rw [hk'] at hend' ⊢
  rcases Nat.le_total k k' with h | h
  · obtain ⟨d, rfl⟩ := Nat.exists_eq_add_of_le h
    exact (aloneAt_stuck hend d).symm
  · obtain ⟨d, rfl⟩ := Nat.exists_eq_add_of_le h
    exact aloneAt_stuck hend' d

/-- A step by itself forgets nothing. -/
theorem aloneStep_prefix {C : Client S I A J σ} (hC : C.Lawful) {K : Coding Fn V J} {Jb : Jobs Fn V E Ω}
    {D : List (Str × V)} {P : Plan S A J σ Ω} (s : S) :
    C.submitted s <+: C.submitted (aloneStep C K Jb D P s) ∧
    C.history s <+: C.history (aloneStep C K Jb D P s) := by
  obtain ⟨p, -⟩ := hC.set_nil s
  unfold aloneStep
  cases hw : C.waits s with
  | false =>
    rw [if_neg Bool.false_ne_true]
    obtain ⟨new, n1, n2, -⟩ := hC.go (P.choice s)
      ((C.submitted s).length - (C.history s).length - 1) s p hw
    exact ⟨⟨new, n1.symm⟩, by rw [n2]⟩
  | true =>
    rw [if_pos rfl]
    have raised : ∀ e, C.submitted s <+: C.submitted (C.step (C.waited (.raises e)) s) ∧
        C.history s <+: C.history (C.step (C.waited (.raises e)) s) := by
      intro e
      obtain ⟨-, r2, r3, -⟩ := hC.raises e s p hw
      rw [r2, r3]
      exact ⟨List.prefix_rfl, List.prefix_rfl⟩
    cases (C.submitted s)[(C.history s).length]? with
    | none => exact raised _
    | some j =>
      dsimp only
      cases P.callback s j (verdict K Jb D j (P.noise ((C.submitted s).take (C.history s).length))) with
      | error e => exact raised _
      | ok w =>
        obtain ⟨-, d2, d3⟩ := hC.completes
          (verdict K Jb D j (P.noise ((C.submitted s).take (C.history s).length))) w s [] j [] hw
        dsimp only
        rw [d2, d3]
        exact ⟨List.prefix_rfl, ⟨_, rfl⟩⟩

/-- **C153**, under way: of two such runs, at any moments, one has submitted what the other has and
perhaps more, and was told of the same evaluations and perhaps more. -/
theorem C153_prefix {C : Client S I A J σ} (hC : C.Lawful) {K : Coding Fn V J} {Jb : Jobs Fn V E Ω}
    (hK : Faithful K Jb) (hJ : Reliable Jb) {start : S} (h1 : C.submitted start = [])
    (h2 : C.history start = []) (limit limit' : Option ℚ) (logfile logfile' : Bool) (D : List (Str × V))
    (P : Plan S A J σ Ω) (es es' : List (JointEvent A σ Ω))
    (hes : JointAlong C K Jb (Planned C K Jb P) es (jointStart start 1 limit logfile D))
    (hes' : JointAlong C K Jb (Planned C K Jb P) es' (jointStart start 1 limit' logfile' D))
    (s s' : Joint S Fn V E) (hs : s = jointRun C K Jb es (jointStart start 1 limit logfile D))
    (hs' : s' = jointRun C K Jb es' (jointStart start 1 limit' logfile' D)) :
    (C.submitted s.search <+: C.submitted s'.search ∧ C.history s.search <+: C.history s'.search) ∨
    (C.submitted s'.search <+: C.submitted s.search ∧ C.history s'.search <+: C.history s.search) := by
  obtain ⟨k, hk⟩ := C153_alone hC hK hJ h1 h2 limit logfile D P es hes
  obtain ⟨k', hk'⟩ := C153_alone hC hK hJ h1 h2 limit' logfile' D P es' hes'
  rw [← hs] at hk
  rw [← hs'] at hk'
  rw [hk, hk']
  have mono : ∀ k d,
      C.submitted (aloneAt C K Jb D P start k) <+: C.submitted (aloneAt C K Jb D P start (k + d)) ∧
      C.history (aloneAt C K Jb D P start k) <+: C.history (aloneAt C K Jb D P start (k + d)) := by
    intro k d
    induction d with
    | zero => exact ⟨List.prefix_rfl, List.prefix_rfl⟩
    | succ d ih =>
      obtain ⟨p1, p2⟩ := aloneStep_prefix hC (K := K) (Jb := Jb) (D := D) (P := P)
        (aloneAt C K Jb D P start (k + d))
      exact ⟨ih.1.trans p1, ih.2.trans p2⟩
  rcases Nat.le_total k k' with h | h
  · obtain ⟨d, rfl⟩ := Nat.exists_eq_add_of_le h
    exact Or.inl (mono k d)
  · obtain ⟨d, rfl⟩ := Nat.exists_eq_add_of_le h
    exact Or.inr (mono k' d)


/-- As `Planned`, except that the order in which sets are gone through is not part of the plan. -/
def Spec.PlannedOut (C : Client S I A J σ) (K : Coding Fn V J) (Jb : Jobs Fn V E Ω) (P : Plan S A J σ Ω)
    (s : Joint S Fn V E) : JointEvent A σ Ω → Prop
  | .go _ => True
  | e => Planned C K Jb P s e

theorem jointAlong_mono {C : Client S I A J σ} {K : Coding Fn V J} {Jb : Jobs Fn V E Ω}
    {Q R : Joint S Fn V E → JointEvent A σ Ω → Prop} (h : ∀ s e, Q s e → R s e) :
    ∀ (es : List (JointEvent A σ Ω)) (s : Joint S Fn V E), JointAlong C K Jb Q es s →
      JointAlong C K Jb R es s := by
  intro es
  induction es with
  | nil => intro s _; trivial
  | cons e es ih => intro s k; exact ⟨h _ _ k.1, ih _ k.2⟩

end

section
variable {σ ι Fn V E Ω : Type} [DecidableEq ι]

/-- **C153** for evolution: two runs with one worker, from the same candidates and random state, that
both return, have submitted, evaluated and kept the same individuals. -/
theorem C153_evolution (o : SearchOps σ ι) (maxN : Option Int) (size : Nat) {K : Coding Fn V ι}
    {Jb : Jobs Fn V E Ω} (hK : Faithful K Jb) (hJ : Reliable Jb) (candidates : Candidates ι)
    (output : List ι) (w : σ) (limit limit' : Option ℚ) (logfile logfile' : Bool) (D : List (Str × V))
    (P : Plan (Ea σ ι) Bool ι σ Ω) (es es' : List (JointEvent Bool σ Ω)) (s s' : Joint (Ea σ ι) Fn V E)
    (hes : JointAlong (eaClient o maxN size) K Jb (Planned (eaClient o maxN size) K Jb P) es
      (jointStart (eaStart candidates output w) 1 limit logfile D))
    (hes' : JointAlong (eaClient o maxN size) K Jb (Planned (eaClient o maxN size) K Jb P) es'
      (jointStart (eaStart candidates output w) 1 limit' logfile' D))
    (hs : s = jointRun (eaClient o maxN size) K Jb es
      (jointStart (eaStart candidates output w) 1 limit logfile D))
    (hs' : s' = jointRun (eaClient o maxN size) K Jb es'
      (jointStart (eaStart candidates output w) 1 limit' logfile' D))
    (hend : s.search.pc = .returned) (hend' : s'.search.pc = .returned) :
    s.search.population = s'.search.population ∧ s.search.history = s'.search.history ∧
    s.search.submitted = s'.search.submitted ∧ s.search.world = s'.search.world := by
  have stuck : ∀ t : Ea σ ι, t.pc = .returned → (eaClient o maxN size).Stuck t := by
    intro t ht
    refine ⟨?_, fun i => ?_⟩
    · show eaWaits maxN t = false
      unfold eaWaits; rw [ht]
    · show eaStep o maxN size i t = t
      unfold eaStep; rw [ht]
  have := C153_same (eaClient_lawful o maxN size) hK hJ (start := eaStart candidates output w) rfl rfl limit
    limit' logfile logfile' D P es es' hes hes' (by rw [← hs]; exact stuck _ hend)
    (by rw [← hs']; exact stuck _ hend')
  rw [← hs, ← hs'] at this
  rw [this]
  exact ⟨rfl, rfl, rfl, rfl⟩

omit [DecidableEq ι] in
/-- **C153** for random search. -/
theorem C153_random_search (o : SearchOps σ ι) (maxN : Option Int) {K : Coding Fn V ι}
    {Jb : Jobs Fn V E Ω} (hK : Faithful K Jb) (hJ : Reliable Jb) (candidates : Candidates ι)
    (output : List ι) (w : σ) (limit limit' : Option ℚ) (logfile logfile' : Bool) (D : List (Str × V))
    (P : Plan (Rs σ ι) Unit ι σ Ω) (es es' : List (JointEvent Unit σ Ω)) (s s' : Joint (Rs σ ι) Fn V E)
    (hes : JointAlong (rsClient o maxN) K Jb (Planned (rsClient o maxN) K Jb P) es
      (jointStart (rsStart candidates output w) 1 limit logfile D))
    (hes' : JointAlong (rsClient o maxN) K Jb (Planned (rsClient o maxN) K Jb P) es'
      (jointStart (rsStart candidates output w) 1 limit' logfile' D))
    (hs : s = jointRun (rsClient o maxN) K Jb es
      (jointStart (rsStart candidates output w) 1 limit logfile D))
    (hs' : s' = jointRun (rsClient o maxN) K Jb es'
      (jointStart (rsStart candidates output w) 1 limit' logfile' D))
    (hend : s.search.pc = .returned) (hend' : s'.search.pc = .returned) :
    s.search.output = s'.search.output ∧ s.search.history = s'.search.history ∧
    s.search.submitted = s'.search.submitted ∧ s.search.world = s'.search.world := by
  have stuck : ∀ t : Rs σ ι, t.pc = .returned → (rsClient o maxN).Stuck t := by
    intro t ht
    refine ⟨?_, fun i => ?_⟩
    · show rsWaits maxN t = false
      unfold rsWaits; rw [ht]
    · show rsStep o maxN i t = t
      unfold rsStep; rw [ht]
  have := C153_same (rsClient_lawful o maxN) hK hJ (start := rsStart candidates output w) rfl rfl limit
    limit' logfile logfile' D P es es' hes hes' (by rw [← hs]; exact stuck _ hend)
    (by rw [← hs']; exact stuck _ hend')
  rw [← hs, ← hs'] at this
  rw [this]
  exact ⟨rfl, rfl, rfl, rfl⟩

/-! ### Successive halving -/

/-- No two individuals of a rung have the same score. -/
def Spec.NoTies (s : Asha σ ι) : Prop :=
  ∀ x ∈ s.rungs, ∀ y ∈ x.2, ∀ z ∈ x.2, y.1 = z.1 → y = z

theorem someMax_pick {l : List (RungEntry ι)} (h : ∀ y ∈ l, ∀ z ∈ l, y.1 = z.1 → y = z) (k k' : Nat) :
    someMax l k = someMax l k' := by
  cases h1 : someMax l k with
  | none =>
    rw [someMax_none h1]
    rfl
  | some x =>
    cases h2 : someMax l k' with
    | none =>
      rw [someMax_none h2] at h1
      cases h1
    | some y =>
      obtain ⟨x1, x2⟩ := someMax_some h1
      obtain ⟨y1, y2⟩ := someMax_some h2
      rw [h x x1 y y1 (le_antisymm (y2 x x1) (x2 y y1))]

theorem findPromotion_pick (rf k k' : Nat) (promoted : List (Nat × List (RungEntry ι))) :
    ∀ rungs : List (Nat × List (RungEntry ι)),
      (∀ x ∈ rungs, ∀ y ∈ x.2, ∀ z ∈ x.2, y.1 = z.1 → y = z) →
      findPromotion rf k promoted rungs = findPromotion rf k' promoted rungs := by
  intro rungs
  induction rungs with
  | nil => intro _; rfl
  | cons x rungs ih =>
    intro h
    obtain ⟨rung, inds⟩ := x
    have ih := ih fun x hx => h x (List.mem_cons_of_mem _ hx)
    have hm : someMax (notPromoted inds ((dget promoted rung).getD [])) k =
        someMax (notPromoted inds ((dget promoted rung).getD [])) k' :=
      someMax_pick (fun y hy z hz => h _ (List.mem_cons_self ..) y (List.mem_of_mem_filter hy) z
        (List.mem_of_mem_filter hz)) k k'
    unfold findPromotion
    dsimp only
    rw [hm, ih]

theorem ashaStep_pick (o : SearchOps σ ι) (c : AshaConfig) (w : Wait σ) (k k' : Nat) (s : Asha σ ι)
    (h : NoTies s) : ashaStep o c ⟨w, k⟩ s = ashaStep o c ⟨w, k'⟩ s := by
  have hg : getJob o c k s = getJob o c k' s := by
    unfold getJob
    rw [findPromotion_pick c.rf k k' s.promoted s.rungs.tail fun x hx => h x (List.mem_of_mem_tail hx)]
  have hj : startJob o c k s = startJob o c k' s := by
    unfold startJob
    rw [bind_run, bind_run, hg]
  unfold ashaStep
  dsimp only
  rw [hj]

/-- The same event with the first choice. -/
def firstPick : JointEvent Nat σ Ω → JointEvent Nat σ Ω
  | .go _ => .go 0
  | e => e

/-- **C153** for successive halving, as far as it holds: two runs with one worker that both return have
evaluated the same and return the same individuals, if no two individuals of a rung ever have the same
score. -/
theorem C153_halving_partial (o : SearchOps σ ι) (c : AshaConfig) {K : Coding Fn V (ι × Nat)}
    {Jb : Jobs Fn V E Ω} (hK : Faithful K Jb) (hJ : Reliable Jb) (candidates : List ι)
    (w : σ) (limit limit' : Option ℚ) (logfile logfile' : Bool) (D : List (Str × V))
    (P : Plan (Asha σ ι) Nat (ι × Nat) σ Ω) (es es' : List (JointEvent Nat σ Ω))
    (s s' : Joint (Asha σ ι) Fn V E)
    (hes : JointAlong (ashaClient o c) K Jb
      (fun t e => PlannedOut (ashaClient o c) K Jb P t e ∧ NoTies t.search) es
      (jointStart (ashaStart c candidates w) 1 limit logfile D))
    (hes' : JointAlong (ashaClient o c) K Jb
      (fun t e => PlannedOut (ashaClient o c) K Jb P t e ∧ NoTies t.search) es'
      (jointStart (ashaStart c candidates w) 1 limit' logfile' D))
    (hs : s = jointRun (ashaClient o c) K Jb es
      (jointStart (ashaStart c candidates w) 1 limit logfile D))
    (hs' : s' = jointRun (ashaClient o c) K Jb es'
      (jointStart (ashaStart c candidates w) 1 limit' logfile' D))
    {l l' : List ι} (hend : s.search.pc = .returned l) (hend' : s'.search.pc = .returned l') :
    l = l' ∧ s.search.history = s'.search.history ∧
    s.search.submitted = s'.search.submitted ∧ s.search.world = s'.search.world := by
  have stuck : ∀ (t : Asha σ ι) (l : List ι), t.pc = .returned l → (ashaClient o c).Stuck t := by
    intro t l ht
    refine ⟨?_, fun i => ?_⟩
    · show ashaWaits c t = false
      unfold ashaWaits; rw [ht]
    · show ashaStep o c i t = t
      unfold ashaStep; rw [ht]
  have first : ∀ (es : List (JointEvent Nat σ Ω)) (t : Joint (Asha σ ι) Fn V E),
      JointAlong (ashaClient o c) K Jb
        (fun t e => PlannedOut (ashaClient o c) K Jb P t e ∧ NoTies t.search) es t →
      JointAlong (ashaClient o c) K Jb
        (Planned (ashaClient o c) K Jb ⟨fun _ => 0, P.callback, P.noise⟩) (es.map firstPick) t ∧
      jointRun (ashaClient o c) K Jb (es.map firstPick) t = jointRun (ashaClient o c) K Jb es t := by
    intro es
    induction es with
    | nil => intro t _; exact ⟨trivial, rfl⟩
    | cons e es ih =>
      intro t h
      have hstep : jointStep (ashaClient o c) K Jb (firstPick e) t = jointStep (ashaClient o c) K Jb e t := by
        cases e with
        | go a =>
          have := ashaStep_pick o c (.raises .runtimeError) 0 a t.search h.1.2
          show (if ashaWaits c t.search = true then t else
              ⟨ashaStep o c ⟨.raises .runtimeError, 0⟩ t.search, submitAll Jb K
                ((ashaStep o c ⟨.raises .runtimeError, 0⟩ t.search).submitted.drop _) t.ev⟩) =
            (if ashaWaits c t.search = true then t else
              ⟨ashaStep o c ⟨.raises .runtimeError, a⟩ t.search, submitAll Jb K
                ((ashaStep o c ⟨.raises .runtimeError, a⟩ t.search).submitted.drop _) t.ev⟩)
          rw [this]
        | wait => rfl
        | iterate r₁ r₂ r₃ q cb => rfl
        | worker pid act => rfl
      have hplan : Planned (ashaClient o c) K Jb ⟨fun _ => 0, P.callback, P.noise⟩ t (firstPick e) := by
        cases e with
        | go a => exact rfl
        | wait => trivial
        | iterate r₁ r₂ r₃ q cb => exact h.1.1
        | worker pid act => exact h.1.1
      obtain ⟨i1, i2⟩ := ih _ h.2
      refine ⟨⟨hplan, ?_⟩, ?_⟩
      · rw [hstep]; exact i1
      · show jointRun _ K Jb (es.map firstPick) (jointStep _ K Jb (firstPick e) t) = _
        rw [hstep]; exact i2
  obtain ⟨f1, f2⟩ := first es _ hes
  obtain ⟨g1, g2⟩ := first es' _ hes'
  have := C153_same (ashaClient_lawful o c) hK hJ (start := ashaStart c candidates w) rfl rfl limit
    limit' logfile logfile' D _ _ _ f1 g1 (by rw [f2, ← hs]; exact stuck _ _ hend)
    (by rw [g2, ← hs']; exact stuck _ _ hend')
  rw [f2, g2, ← hs, ← hs'] at this
  rw [this] at hend
  rw [hend] at hend'
  injection hend' with hl
  rw [this]
  exact ⟨hl, rfl, rfl, rfl⟩

end

/-- The full claim C153 for successive halving: two runs with one worker that both return, return the
same individuals. -/
def C153_claim : Prop :=
  ∀ (σ ι Fn V E Ω : Type) (_ : DecidableEq ι) (o : SearchOps σ ι) (c : AshaConfig)
    (K : Coding Fn V (ι × Nat)) (Jb : Jobs Fn V E Ω) (_ : Faithful K Jb) (_ : Reliable Jb)
    (candidates : List ι) (w : σ) (limit : Option ℚ) (logfile : Bool) (D : List (Str × V))
    (P : Plan (Asha σ ι) Nat (ι × Nat) σ Ω) (es es' : List (JointEvent Nat σ Ω))
    (s s' : Joint (Asha σ ι) Fn V E) (_ : JointAlong (ashaClient o c) K Jb
      (PlannedOut (ashaClient o c) K Jb P) es (jointStart (ashaStart c candidates w) 1 limit logfile D))
    (_ : JointAlong (ashaClient o c) K Jb
      (PlannedOut (ashaClient o c) K Jb P) es' (jointStart (ashaStart c candidates w) 1 limit logfile D))
    (_ : s = jointRun (ashaClient o c) K Jb es (jointStart (ashaStart c candidates w) 1 limit logfile D))
    (_ : s' = jointRun (ashaClient o c) K Jb es' (jointStart (ashaStart c candidates w) 1 limit logfile D))
    (l l' : List ι), s.search.pc = .returned l → s'.search.pc = .returned l' → l = l'

namespace Ex
section
variable {S I A J Fn V E : Type}

/-- The plan of a program without randomness: always the same choice, callbacks do nothing. -/
def plainPlan (a : A) : Plan S A J Unit Unit := ⟨fun _ => a, fun _ _ _ => .ok (), fun _ => ()⟩

/-- The main process polls without memory problems, workers take and finish jobs. -/
def routine (ev : Evaluator Fn V E) : JointEvent A Unit Unit → Bool
  | .go _ => true
  | .wait => true
  | .iterate r₁ _ r₃ _ cb => ev.limit.isNone &&
      (ev.procs.all fun p => (r₁.worker p).isSome && (r₃.worker p).isSome) &&
      cb.toOption.isSome
  | .worker _ .die => false
  | .worker _ .takeFails => false
  | .worker _ _ => true

def routines (C : Client S I A J Unit) (K : Coding Fn V J) (Jb : Jobs Fn V E Unit) :
    List (JointEvent A Unit Unit) → Joint S Fn V E → Bool
  | [], _ => true
  | e :: es, s => routine s.ev e && routines C K Jb es (jointStep C K Jb e s)

theorem routine_planned {C : Client S I A J Unit} {K : Coding Fn V J} {Jb : Jobs Fn V E Unit} (a : A)
    (s : Joint S Fn V E) (e : JointEvent A Unit Unit) (h : routine s.ev e = true) :
    PlannedOut C K Jb (plainPlan a) s e := by
  cases e with
  | go x => trivial
  | wait => trivial
  | iterate r₁ r₂ r₃ o cb =>
    unfold routine at h
    simp only [Bool.and_eq_true, List.all_eq_true] at h
    obtain ⟨⟨h1, h2⟩, h3⟩ := h
    refine ⟨⟨fun L hL => ?_, fun p hp => ⟨fun hn => ?_, fun hn => ?_⟩⟩, fun f _ => ?_⟩
    · rw [hL] at h1; cases h1
    · have := (h2 p hp).1; rw [hn] at this; cases this
    · have := (h2 p hp).2; rw [hn] at this; cases this
    · cases cb with
      | error e => cases h3
      | ok u => rfl
  | worker pid act =>
    refine ⟨?_, fun _ _ _ _ _ _ => rfl⟩
    cases act <;> trivial

theorem routines_along {C : Client S I A J Unit} {K : Coding Fn V J} {Jb : Jobs Fn V E Unit} (a : A) :
    ∀ (es : List (JointEvent A Unit Unit)) (s : Joint S Fn V E), routines C K Jb es s = true →
      JointAlong C K Jb (PlannedOut C K Jb (plainPlan a)) es s := by
  intro es
  induction es with
  | nil => intro s _; trivial
  | cons e es ih =>
    intro s h
    unfold routines at h
    rw [Bool.and_eq_true] at h
    exact ⟨routine_planned a s e h.1, ih _ h.2⟩

theorem planned_of_out {C : Client S I A J Unit} {K : Coding Fn V J} {Jb : Jobs Fn V E Unit} {a : A}
    {es : List (JointEvent A Unit Unit)} {s : Joint S Fn V E}
    (h : JointAlong C K Jb (PlannedOut C K Jb (plainPlan a)) es s) (hg : ∀ x, .go x ∈ es → x = a) :
    JointAlong C K Jb (Planned C K Jb (plainPlan a)) es s := by
  induction es generalizing s with
  | nil => trivial
  | cons e es ih =>
    refine ⟨?_, ih h.2 fun x hx => hg x (List.mem_cons_of_mem _ hx)⟩
    cases e with
    | go x => exact hg x (List.mem_cons_self ..)
    | wait => trivial
    | iterate r₁ r₂ r₃ o cb => exact h.1
    | worker pid act => exact h.1

end

/-- One evaluation, from the call of `wait_next` to the next one. -/
def oneEvaluation {A : Type} (a : A) (polls after : Nat) : List (JointEvent A Unit Unit) :=
  [.wait, .worker 0 .take] ++
  List.replicate polls (.iterate calmReading calmReading calmReading .ok (.ok ())) ++
  [.worker 0 (.finish ()), .iterate calmReading calmReading calmReading .ok (.ok ())] ++
  List.replicate after (.go a)

/-- Nine candidates; of the first two that are evaluated, which have the same score, number `pick` is
promoted; it is the tenth to be evaluated and ends the search. -/
def promoteTied (pick : Nat) : List (JointEvent Nat Unit Unit) :=
  List.replicate 9 (.go 0) ++ oneEvaluation 0 0 2 ++ oneEvaluation pick 0 2 ++
  (List.replicate 7 (oneEvaluation 0 0 2)).flatten ++ oneEvaluation 0 0 3

def tiedState (pick : Nat) : Joint (Asha Unit Nat) Unit (Nat × Nat) Nat :=
  jointRun (ashaClient Ex.ops ⟨2, 0, 1, some 1⟩) rungCoding rungEvaluations (promoteTied pick)
    (jointStart (ashaStart ⟨2, 0, 1, some 1⟩ [1, 2, 3, 4, 5, 6, 8, 9, 10] ()) 1 none false [])

/-- What a run of successive halving has returned. -/
def returnedOf (s : Asha Unit Nat) : Option (List Nat) :=
  match s.pc with
  | .returned l => some l
  | _ => none

theorem pc_of_returned {s : Asha Unit Nat} {l : List Nat} (h : returnedOf s = some l) : s.pc = .returned l := by
  unfold returnedOf at h
  cases hp : s.pc <;> rw [hp] at h <;> cases h
  rfl

def rsReturned (s : Rs Unit Nat) : Bool := match s.pc with | .returned => true | _ => false

theorem pc_of_rsReturned {s : Rs Unit Nat} (h : rsReturned s = true) : s.pc = .returned := by
  unfold rsReturned at h
  cases hp : s.pc <;> rw [hp] at h <;> first | rfl | cases h

def eaReturned (s : Ea Unit Nat) : Bool := match s.pc with | .returned => true | _ => false

theorem pc_of_eaReturned {s : Ea Unit Nat} (h : eaReturned s = true) : s.pc = .returned := by
  unfold eaReturned at h
  cases hp : s.pc <;> rw [hp] at h <;> first | rfl | cases h

theorem rungEvaluations_reliable : Reliable rungEvaluations := by
  intro fn args kw ω
  refine ⟨?_, fun v _ => ?_⟩
  · show (Outcome.returns _ : Outcome (Nat × Nat) Nat) ≠ .escapes
    exact nofun
  · show Probe.fine ≠ .raises
    exact nofun

end Ex

/-- **C153 is false** for successive halving: which of two individuals with the same score is promoted
is up to the order in which a set is gone through. -/
theorem C153_false : ¬ C153_claim := by
  intro h
  have key : ∀ k, Ex.routines (ashaClient Ex.ops ⟨2, 0, 1, some 1⟩) Ex.rungCoding Ex.rungEvaluations
      (Ex.promoteTied k) (jointStart (ashaStart ⟨2, 0, 1, some 1⟩ [1, 2, 3, 4, 5, 6, 8, 9, 10] ()) 1 none
        false [] : Joint (Asha Unit Nat) Unit (Nat × Nat) Nat) = true →
      JointAlong (ashaClient Ex.ops ⟨2, 0, 1, some 1⟩) Ex.rungCoding Ex.rungEvaluations
        (PlannedOut (ashaClient Ex.ops ⟨2, 0, 1, some 1⟩) Ex.rungCoding Ex.rungEvaluations (Ex.plainPlan 0))
        (Ex.promoteTied k) (jointStart (ashaStart ⟨2, 0, 1, some 1⟩ [1, 2, 3, 4, 5, 6, 8, 9, 10] ()) 1 none
          false [] : Joint (Asha Unit Nat) Unit (Nat × Nat) Nat) := fun k => Ex.routines_along 0 _ _
  have := h Unit Nat Unit (Nat × Nat) Nat Unit inferInstance Ex.ops ⟨2, 0, 1, some 1⟩ Ex.rungCoding
    Ex.rungEvaluations Ex.rungCoding_faithful Ex.rungEvaluations_reliable [1, 2, 3, 4, 5, 6, 8, 9, 10] () none
    false [] (Ex.plainPlan 0) (Ex.promoteTied 0) (Ex.promoteTied 1) (Ex.tiedState 0) (Ex.tiedState 1)
    (key 0 (by decide +kernel)) (key 1 (by decide +kernel)) rfl rfl [10] [9]
    (Ex.pc_of_returned (by decide +kernel)) (Ex.pc_of_returned (by decide +kernel))
  exact absurd this (by decide)

/-! ### Cases of the theorems above -/

namespace Ex

/-- Random search until three evaluations are reported, polling `polls` times in vain each time. -/
def threeEvaluations (polls : Nat) : List (JointEvent Unit Unit Unit) :=
  List.replicate 3 (.go ()) ++ oneEvaluation () polls 2 ++ oneEvaluation () 0 2 ++ oneEvaluation () polls 2 ++
  oneEvaluation () 1 2 ++ [.go ()]

def threeState (polls : Nat) : Joint (Rs Unit Nat) Unit Nat Nat :=
  jointRun (rsClient Ex.ops (some 3)) coding evaluations (threeEvaluations polls)
    (jointStart (rsStart (.list [4, 5]) [] ()) 1 none false [])

theorem threeEvaluations_planned (polls : Nat) (h : routines (rsClient Ex.ops (some 3)) coding evaluations
      (threeEvaluations polls) (jointStart (rsStart (.list [4, 5]) [] ()) 1 none false []) = true) :
    JointAlong (rsClient Ex.ops (some 3)) coding evaluations
      (Planned (rsClient Ex.ops (some 3)) coding evaluations (plainPlan ())) (threeEvaluations polls)
      (jointStart (rsStart (.list [4, 5]) [] ()) 1 none false []) :=
  planned_of_out (routines_along () _ _ h) fun _ _ => rfl

/-- Evaluating 5 fails, so four evaluations are needed. -/
example : (threeState 0).search.history = [(4, .result true (.fin 1)), (5, .failed), (7, .result true (.fin 1)),
    (7, .result true (.fin 1))] := by decide +kernel

example : (threeState 0).search.output = (threeState 2).search.output :=
  (C153_random_search Ex.ops (some 3) coding_faithful evaluations_reliable (.list [4, 5]) [] () none none false
    false [] (plainPlan ()) (threeEvaluations 0) (threeEvaluations 2) (threeState 0) (threeState 2)
    (threeEvaluations_planned 0 (by decide +kernel)) (threeEvaluations_planned 2 (by decide +kernel)) rfl rfl
    (pc_of_rsReturned (by decide +kernel)) (pc_of_rsReturned (by decide +kernel))).1

/-- `C153_alone`: the same run step by step, without an evaluator. -/
example : ∃ k, (threeState 2).search =
    aloneAt (rsClient Ex.ops (some 3)) coding evaluations [] (plainPlan ()) (rsStart (.list [4, 5]) [] ()) k :=
  C153_alone (rsClient_lawful Ex.ops (some 3)) coding_faithful evaluations_reliable
    (start := rsStart (.list [4, 5]) [] ()) rfl rfl none false [] (plainPlan ()) (threeEvaluations 2)
    (threeEvaluations_planned 2 (by decide +kernel))

/-- Sixteen steps are enough. -/
example : (aloneAt (rsClient Ex.ops (some 3)) coding evaluations [] (plainPlan ())
    (rsStart (.list [4, 5]) [] ()) 16).history = (threeState 2).search.history := by decide +kernel

/-- `C153_prefix`: a run that is under way has done a part of what a longer one does. -/
example (s s' : Joint (Rs Unit Nat) Unit Nat Nat)
    (hs : s = jointRun (rsClient Ex.ops (some 3)) coding evaluations
      (List.replicate 3 (.go ()) ++ oneEvaluation () 1 2) (jointStart (rsStart (.list [4, 5]) [] ()) 1 none false []))
    (hs' : s' = threeState 2) :
    (s.search.submitted <+: s'.search.submitted ∧ s.search.history <+: s'.search.history) ∨
    (s'.search.submitted <+: s.search.submitted ∧ s'.search.history <+: s.search.history) :=
  C153_prefix (rsClient_lawful Ex.ops (some 3)) coding_faithful evaluations_reliable
    (start := rsStart (.list [4, 5]) [] ()) rfl rfl none none false false [] (plainPlan ()) _ _
    (planned_of_out (routines_along () _ _ (by decide +kernel)) fun _ _ => rfl)
    (threeEvaluations_planned 2 (by decide +kernel)) s s' hs hs'

/-- Evolution with at most three evaluations. -/
def fewEvaluations (polls : Nat) : List (JointEvent Bool Unit Unit) :=
  List.replicate 9 (.go false) ++ oneEvaluation false polls 8 ++ oneEvaluation false 0 8 ++
  oneEvaluation false polls 9

def fewState (polls : Nat) : Joint (Ea Unit Nat) Unit Nat Nat :=
  jointRun (eaClient Ex.ops (some 3) 50) coding evaluations (fewEvaluations polls)
    (jointStart (eaStart (.list [4, 6, 8, 9, 10, 11]) [] ()) 1 none false [])

theorem fewEvaluations_planned (polls : Nat) (h : routines (eaClient Ex.ops (some 3) 50) coding evaluations
      (fewEvaluations polls) (jointStart (eaStart (.list [4, 6, 8, 9, 10, 11]) [] ()) 1 none false []) = true) :
    JointAlong (eaClient Ex.ops (some 3) 50) coding evaluations
      (Planned (eaClient Ex.ops (some 3) 50) coding evaluations (plainPlan false)) (fewEvaluations polls)
      (jointStart (eaStart (.list [4, 6, 8, 9, 10, 11]) [] ()) 1 none false []) := by
  refine planned_of_out (routines_along false _ _ h) fun x hx => ?_
  simpa [fewEvaluations, oneEvaluation] using hx

example : (fewState 0).search.population = (fewState 3).search.population :=
  (C153_evolution Ex.ops (some 3) 50 coding_faithful evaluations_reliable (.list [4, 6, 8, 9, 10, 11]) [] () none none
    false false [] (plainPlan false) (fewEvaluations 0) (fewEvaluations 3) (fewState 0) (fewState 3)
    (fewEvaluations_planned 0 (by decide +kernel)) (fewEvaluations_planned 3 (by decide +kernel)) rfl rfl
    (pc_of_eaReturned (by decide +kernel)) (pc_of_eaReturned (by decide +kernel))).1


/-- The score of an individual is its number. -/
def numberCoding : Coding Unit (Nat × Nat) (Nat × Nat) :=
  ⟨fun _ => (), fun j => [j], fun _ => [], fun _ a _ => a.headD (0, 0), fun v => (v, .result true (.fin v.1))⟩

theorem numberCoding_faithful : Faithful numberCoding rungEvaluations where
  job _ := rfl
  read j kw ω v h := by
    have h : (Outcome.returns j : Outcome (Nat × Nat) Nat) = .returns v := h
    cases h; exact ⟨rfl, rfl⟩

def noTies (s : Asha Unit Nat) : Bool :=
  s.rungs.all fun x => x.2.all fun y => x.2.all fun z => decide (y.1 = z.1 → y = z)

theorem noTies_spec {s : Asha Unit Nat} (h : noTies s = true) : NoTies s := by
  intro x hx y hy z hz
  have := List.all_eq_true.1 (List.all_eq_true.1 (List.all_eq_true.1 h x hx) y hy) z hz
  exact of_decide_eq_true this

def routinesNoTies (C : Client (Asha Unit Nat) (AshaInput Unit) Nat (Nat × Nat) Unit) :
    List (JointEvent Nat Unit Unit) → Joint (Asha Unit Nat) Unit (Nat × Nat) Nat → Bool
  | [], _ => true
  | e :: es, s => routine s.ev e && noTies s.search &&
      routinesNoTies C es (jointStep C numberCoding rungEvaluations e s)

theorem routinesNoTies_along {C : Client (Asha Unit Nat) (AshaInput Unit) Nat (Nat × Nat) Unit} :
    ∀ (es : List (JointEvent Nat Unit Unit)) (s : Joint (Asha Unit Nat) Unit (Nat × Nat) Nat),
      routinesNoTies C es s = true → JointAlong C numberCoding rungEvaluations
        (fun t e => PlannedOut C numberCoding rungEvaluations (plainPlan 0) t e ∧ NoTies t.search) es s := by
  intro es
  induction es with
  | nil => intro s _; trivial
  | cons e es ih =>
    intro s h
    unfold routinesNoTies at h
    rw [Bool.and_eq_true, Bool.and_eq_true] at h
    exact ⟨⟨routine_planned 0 s e h.1.1, noTies_spec h.1.2⟩, ih _ h.2⟩

def untiedState (pick : Nat) : Joint (Asha Unit Nat) Unit (Nat × Nat) Nat :=
  jointRun (ashaClient Ex.ops ⟨2, 0, 1, some 1⟩) numberCoding rungEvaluations (promoteTied pick)
    (jointStart (ashaStart ⟨2, 0, 1, some 1⟩ [1, 2, 3, 4, 5, 6, 8, 9, 10] ()) 1 none false [])

/-- `C153_halving_partial`: without ties 10 is promoted, whatever the order of the set. -/
example : [10] = [10] ∧ (untiedState 0).search.history = (untiedState 1).search.history ∧
    (untiedState 0).search.submitted = (untiedState 1).search.submitted ∧
    (untiedState 0).search.world = (untiedState 1).search.world :=
  C153_halving_partial Ex.ops ⟨2, 0, 1, some 1⟩ numberCoding_faithful rungEvaluations_reliable
    [1, 2, 3, 4, 5, 6, 8, 9, 10] () none none false false [] (plainPlan 0) (promoteTied 0) (promoteTied 1)
    (untiedState 0) (untiedState 1) (routinesNoTies_along _ _ (by decide +kernel))
    (routinesNoTies_along _ _ (by decide +kernel)) rfl rfl (pc_of_returned (by decide +kernel))
    (pc_of_returned (by decide +kernel))

end Ex
end Gama
