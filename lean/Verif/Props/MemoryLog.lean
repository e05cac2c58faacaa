import Verif.Model.MemoryLog
import Verif.Props.Logs

/-! # C178: the memory log -/

namespace Gama
open Spec PyM

section
variable {Fn V E : Type}

/-- What is to be read from a line: the time, then for the main process and each worker that was running (in the
order in which they were started) its number and its memory use. -/
def Spec.memoryFields (osPid : Option Nat → Nat) (mbText : ℚ → Str) (time : Str) (r : Readings) (procs : List Nat) :
    List Str :=
  time :: Nat.toDigits 10 (osPid none) :: mbText r.main ::
    procs.flatMap fun p => match r.worker p with
      | none => []
      | some mb => [Nat.toDigits 10 (osPid (some p)), mbText mb]

theorem usageLoop_result (r : Readings) : ∀ (ps : List Nat) (s : Evaluator Fn V E),
    ∃ s', usageLoop r ps s = (.ok (ps.filterMap fun p => (r.worker p).map fun mb => (p, mb)), s')
  | [], s => ⟨s, rfl⟩
  | p :: ps, s => by
    cases h : r.worker p with
    | some mb =>
      obtain ⟨s', hs⟩ := usageLoop_result r ps s
      refine ⟨s', ?_⟩
      rw [usageLoop, h]
      dsimp only
      rw [bind_ok hs, List.filterMap_cons_some (b := (p, mb)) (by rw [h]; rfl)]
      rfl
    | none =>
      rw [usageLoop, h]
      dsimp only
      rw [List.filterMap_cons_none (by rw [h]; rfl)]
      exact usageLoop_result r ps _

/-- Writing the log does to the evaluator what `Model/Async` says. -/
theorem logMemory_state (osPid : Option Nat → Nat) (mbText : ℚ → Str) (time : Str) (r : Readings)
    (s : Evaluator Fn V E) : (logMemory osPid mbText time r s).2 = (logUsage r s).2 := by
  obtain ⟨s', hs⟩ := usageLoop_result (Fn := Fn) (V := V) (E := E) r s.procs s
  have hu : memoryUsage r s = (.ok (s.procs.filterMap fun p => (r.worker p).map fun mb => (p, mb)), s') := by
    unfold memoryUsage
    rw [bind_ok (show (get : PyM (Evaluator Fn V E) _) s = (.ok s, s) from rfl)]
    exact hs
  unfold logMemory logUsage
  rw [bind_ok (show (get : PyM (Evaluator Fn V E) _) s = (.ok s, s) from rfl),
    bind_ok (show (get : PyM (Evaluator Fn V E) _) s = (.ok s, s) from rfl)]
  cases s.logfile with
  | false => rfl
  | true =>
    show (((memoryUsage r >>= fun usage => _) : PyM (Evaluator Fn V E) (Option Str)) s).2 =
      (((memoryUsage r >>= fun usage => _) : PyM (Evaluator Fn V E) Unit) s).2
    rw [bind_ok hu, bind_ok hu]
    rfl

theorem joined_pairs : ∀ (l : List (Str × Str)), joinWith [','] (l.map fun u => u.1 ++ ',' :: u.2) =
    joinWith [','] (l.flatMap fun u => [u.1, u.2])
  | [] => rfl
  | [u] => by simp [joinWith]
  | u :: v :: l => by
    have ih := joined_pairs (v :: l)
    simp only [List.map_cons, List.flatMap_cons, List.cons_append, List.nil_append] at ih ⊢
    rw [joinWith_cons2, ih, joinWith_cons2 _ u.1, joinWith_cons2 _ u.2]
    simp

theorem digits_clean (n : Nat) : ',' ∉ Nat.toDigits 10 n ∧ '\n' ∉ Nat.toDigits 10 n := by
  constructor <;> intro h <;> have := Nat.isDigit_of_mem_toDigits (by decide) (by decide) h <;> revert this <;> decide

/-- The texts of times and of numbers of megabytes have no commas and no ends of lines. -/
def Spec.CleanText (t : Str) : Prop := ',' ∉ t ∧ '\n' ∉ t

/-- **C178**, one line: with a log file, what is appended is one line that has, separated by commas, the time, and
number and memory use of the main process and of every worker that was running; nothing is written without. -/
theorem C178_line (osPid : Option Nat → Nat) (mbText : ℚ → Str) (hmb : ∀ q, CleanText (mbText q)) (time : Str)
    (ht : CleanText time) (r : Readings) (s : Evaluator Fn V E) :
    (s.logfile = false → logMemory osPid mbText time r s = (.ok none, s)) ∧
    (s.logfile = true → ∃ line s', logMemory osPid mbText time r s = (.ok (some (line ++ ['\n'])), s') ∧ '\n' ∉ line ∧
      splitOnChar ',' line = memoryFields osPid mbText time r s.procs) := by
  constructor
  · intro h
    unfold logMemory
    rw [bind_ok (show (get : PyM (Evaluator Fn V E) _) s = (.ok s, s) from rfl), h]
    rfl
  · intro h
    obtain ⟨s', hs⟩ := usageLoop_result (Fn := Fn) (V := V) (E := E) r s.procs s
    have hu : memoryUsage r s = (.ok (s.procs.filterMap fun p => (r.worker p).map fun mb => (p, mb)), s') := by
      unfold memoryUsage
      rw [bind_ok (show (get : PyM (Evaluator Fn V E) _) s = (.ok s, s) from rfl)]
      exact hs
    have hrun : logMemory osPid mbText time r s = (.ok (some (memoryLine time ((Nat.toDigits 10 (osPid none), mbText r.main)
        :: (s.procs.filterMap fun p => (r.worker p).map fun mb => (p, mb)).map fun u =>
          (Nat.toDigits 10 (osPid (some u.1)), mbText u.2)))), s') := by
      unfold logMemory
      rw [bind_ok (show (get : PyM (Evaluator Fn V E) _) s = (.ok s, s) from rfl), h]
      show ((memoryUsage r >>= fun usage => _) : PyM (Evaluator Fn V E) _) s = _
      rw [bind_ok hu]
      rfl
    generalize hl : ((Nat.toDigits 10 (osPid none), mbText r.main)
        :: (s.procs.filterMap fun p => (r.worker p).map fun mb => (p, mb)).map fun u =>
          (Nat.toDigits 10 (osPid (some u.1)), mbText u.2)) = l at hrun
    have hclean : ∀ t ∈ l.flatMap (fun u => [u.1, u.2]), CleanText t := by
      subst hl
      intro t hm
      simp only [List.flatMap_cons, List.cons_append, List.nil_append, List.mem_cons, List.mem_flatMap, List.mem_map] at hm
      rcases hm with rfl | rfl | ⟨u, ⟨v, _, rfl⟩, hu⟩
      · exact digits_clean _
      · exact hmb _
      · simp only [List.not_mem_nil, or_false] at hu
        rcases hu with rfl | rfl
        · exact digits_clean _
        · exact hmb _
    have hfields : time :: l.flatMap (fun u => [u.1, u.2]) = memoryFields osPid mbText time r s.procs := by
      subst hl
      unfold memoryFields
      simp only [List.flatMap_cons, List.cons_append, List.nil_append]
      congr 3
      generalize s.procs = ps
      induction ps with
      | nil => rfl
      | cons p ps ih =>
        rw [List.flatMap_cons]
        cases hw : r.worker p with
        | none => rw [List.filterMap_cons_none (by rw [hw]; rfl)]; simpa using ih
        | some mb =>
          rw [List.filterMap_cons_some (b := (p, mb)) (by rw [hw]; rfl)]
          simp only [List.map_cons, List.flatMap_cons, List.cons_append, List.nil_append]
          rw [ih]
    have hline : memoryLine time l = joinWith [','] (time :: l.flatMap fun u => [u.1, u.2]) ++ ['\n'] := by
      unfold memoryLine
      rw [joined_pairs]
      subst hl
      simp only [List.flatMap_cons, List.cons_append, List.nil_append]
      rw [joinWith_cons2 _ time]
      simp
    have hall : ∀ t ∈ time :: l.flatMap (fun u => [u.1, u.2]), CleanText t := by
      intro t hm
      rcases List.mem_cons.1 hm with rfl | hm
      · exact ht
      · exact hclean t hm
    refine ⟨_, s', by rw [hrun, hline], not_mem_joinWith _ _ (by decide) _ fun t hm => (hall t hm).2, ?_⟩
    rw [splitOnChar_join ',' _ (by simp) fun t hm => (hall t hm).1, hfields]

/-- The file after readings were logged one after the other, each appended; between them the state of the evaluator
may be any. -/
inductive Spec.Logged (osPid : Option Nat → Nat) (mbText : ℚ → Str) :
    Str → List (Str × Readings × Evaluator Fn V E) → Str → Prop
  | nil (file : Str) : Logged osPid mbText file [] file
  | cons {file text file' : Str} {time : Str} {r : Readings} {s s' : Evaluator Fn V E}
      {more : List (Str × Readings × Evaluator Fn V E)} :
      logMemory osPid mbText time r s = (.ok (some text), s') → Logged osPid mbText (file ++ text) more file' →
      Logged osPid mbText file ((time, r, s) :: more) file'

/-- **C178.** What was in the file stays, and after it the lines of the file are the readings logged, in order: split
at commas they are the fields. -/
theorem C178_file (osPid : Option Nat → Nat) (mbText : ℚ → Str) (hmb : ∀ q, CleanText (mbText q)) :
    ∀ (log : List (Str × Readings × Evaluator Fn V E)) (file file' : Str), (∀ e ∈ log, CleanText e.1) →
      Logged osPid mbText file log file' → ∃ text, file' = file ++ text ∧
        (splitOnChar '\n' text).map (splitOnChar ',') =
          (log.map fun e => memoryFields osPid mbText e.1 e.2.1 e.2.2.procs) ++ [[[]]]
  | [], file, file', _, h => by
    cases h
    exact ⟨[], by simp, rfl⟩
  | (time, r, s) :: more, file, file', hc, h => by
    cases h with
    | @cons _ text _ _ _ _ s' _ h1 h2 =>
      obtain ⟨rest, h3, h4⟩ := C178_file osPid mbText hmb more (file ++ text) file'
        (fun e he => hc e (List.mem_cons_of_mem _ he)) h2
      have hlog : s.logfile = true := by
        cases hl : s.logfile with
        | true => rfl
        | false =>
          rw [(C178_line osPid mbText hmb time (hc _ List.mem_cons_self) r s).1 hl] at h1
          simp at h1
      obtain ⟨line, s'', g1, g2, g3⟩ := (C178_line osPid mbText hmb time (hc _ List.mem_cons_self) r s).2 hlog
      rw [g1] at h1
      simp only [Prod.mk.injEq, Except.ok.injEq, Option.some.injEq] at h1
      obtain ⟨rfl, rfl⟩ := h1
      refine ⟨line ++ '\n' :: rest, by rw [h3]; simp, ?_⟩
      rw [splitOnChar_append _ _ _ g2, List.map_cons, g3, h4]
      rfl

/-- Two workers, one of which is gone: the line has the main process and the other worker. -/
example : ∃ line s', logMemory (Fn := Unit) (V := Unit) (E := Unit) (fun o => match o with
      | none => 100
      | some p => 101 + p) (fun _ => ['2', '.', '5']) ['T'] ⟨3, fun p => if p = 0 then none else some 2⟩
      { (newEvaluator 2 none true [] : Evaluator Unit Unit Unit) with procs := [0, 1] } =
        (.ok (some (line ++ ['\n'])), s') ∧ splitOnChar ',' line = [['T'], ['1', '0', '0'], ['2', '.', '5'],
          ['1', '0', '2'], ['2', '.', '5']] := by
  obtain ⟨line, s', h1, _, h2⟩ := (C178_line (Fn := Unit) (V := Unit) (E := Unit) (fun o => match o with
      | none => 100
      | some p => 101 + p) (fun _ => ['2', '.', '5']) (fun _ => by unfold CleanText; decide) ['T']
      (by unfold CleanText; decide) ⟨3, fun p => if p = 0 then none else some 2⟩
      { (newEvaluator 2 none true [] : Evaluator Unit Unit Unit) with procs := [0, 1] }).2 rfl
  exact ⟨line, s', h1, h2.trans (by decide)⟩

end
end Gama
