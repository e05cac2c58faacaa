import Verif.Model.Paths
import Verif.Props.Logs
import Verif.Props.Report

/-!
# C154 and C155: where the files of a run are, and where a report looks for them
-/

namespace Gama

/-! ### Specification -/

/-- A name that a file or folder can have: not empty, without slashes, not `.` or `..`. -/
def Spec.FileName (n : Str) : Prop := n ≠ [] ∧ n ≠ ['.'] ∧ n ≠ ['.', '.'] ∧ '/' ∉ n

/-- `path`, used by a process in `cwd`, is the entry `name` of the folder that `dir` is. -/
def Spec.EntryOf (cwd path dir name : Str) : Prop := placeOf cwd path = placeOf cwd dir ++ [name]

/-- The text mentions a variable that is set, as `$NAME` or `${NAME}`. -/
def Spec.MentionsSet (vars : Str → Option Str) (s : Str) : Prop :=
  ∃ name, vars name ≠ none ∧ (('$' :: name) <:+: s ∨ ('$' :: '{' :: (name ++ ['}'])) <:+: s)

namespace Pth
open Spec

/-! ### Names on a path -/

theorem split_append (a f : Str) (hf : '/' ∉ f) :
    splitOnChar '/' (a ++ '/' :: f) = splitOnChar '/' a ++ [f] := by
  induction a with
  | nil => simp [splitOnChar, splitOnChar_free '/' f hf]
  | cons c a ih =>
    rw [List.cons_append, splitOnChar, splitOnChar, ih]
    by_cases hc : c = '/'
    · simp [hc]
    · rw [if_neg hc, if_neg hc]
      cases h : splitOnChar '/' a with
      | nil => exact absurd h (splitOnChar_ne _ _)
      | cons p ps => rfl

theorem stepInto_file (l : List Str) {f : Str} (hf : FileName f) : stepInto l f = f :: l := by
  unfold stepInto
  rw [if_neg (by rintro (h | h); exact hf.1 h; exact hf.2.1 h), if_neg hf.2.2.1]

theorem foldl_join (a : Str) {f : Str} (hf : FileName f) :
    (splitOnChar '/' (joinPath a f)).foldl stepInto []
      = f :: (splitOnChar '/' a).foldl stepInto [] := by
  have h0 : f.head? ≠ some '/' := fun h => hf.2.2.2 (List.mem_of_head? h)
  unfold joinPath
  rw [if_neg h0]
  split
  · rename_i h
    rcases h with rfl | h
    · rw [List.nil_append, splitOnChar_free '/' f hf.2.2.2]
      rw [List.foldl_cons, stepInto_file _ hf]; rfl
    · obtain ⟨b, rfl⟩ : ∃ b, a = b ++ ['/'] := by
        obtain ⟨b, hb⟩ := List.getLast?_eq_some_iff.1 h
        exact ⟨b, hb⟩
      have e1 : b ++ ['/'] ++ f = b ++ '/' :: f := by simp
      rw [e1, split_append b f hf.2.2.2, split_append b [] (by simp), List.foldl_append,
        List.foldl_append, List.foldl_cons, stepInto_file _ hf]
      rfl
  · rw [split_append a f hf.2.2.2]
    simp [stepInto_file _ hf]

theorem joinPath_assoc (c d f : Str) (hf : f.head? ≠ some '/') :
    joinPath c (joinPath d f) = joinPath (joinPath c d) f := by
  have hj : ∀ a, joinPath a f = if a = [] ∨ a.getLast? = some '/' then a ++ f else a ++ '/' :: f :=
    fun a => by unfold joinPath; rw [if_neg hf]
  by_cases hd : d = []
  · subst hd
    rw [show joinPath [] f = f by rw [hj]; simp]
    rw [hj c, hj (joinPath c [])]
    unfold joinPath
    by_cases h : c = [] ∨ c.getLast? = some '/'
    · simp [h]
    · simp [h]
  · have hh : (joinPath d f).head? = d.head? := by
      rw [hj]; split <;> (cases d with | nil => exact absurd rfl hd | cons _ _ => rfl)
    by_cases ha : d.head? = some '/'
    · have e1 : joinPath c d = d := by unfold joinPath; rw [if_pos ha]
      have e2 : joinPath c (joinPath d f) = joinPath d f := by
        have : (joinPath d f).head? = some '/' := hh.trans ha
        generalize joinPath d f = g at this
        unfold joinPath
        rw [if_pos this]
      rw [e1, e2]
    · have ec : ∀ t : Str, t.head? ≠ some '/' → joinPath c t
          = (if c = [] ∨ c.getLast? = some '/' then c else c ++ ['/']) ++ t := by
        intro t ht
        unfold joinPath
        rw [if_neg ht]; split <;> simp
      rw [ec _ (by rw [hh]; exact ha), ec _ ha]
      generalize (if c = [] ∨ c.getLast? = some '/' then c else c ++ ['/']) = g
      rw [hj, hj]
      have : (g ++ d = [] ∨ (g ++ d).getLast? = some '/') ↔ (d = [] ∨ d.getLast? = some '/') := by
        rw [List.getLast?_append_of_ne_nil _ hd]
        simp [hd]
      by_cases h : d = [] ∨ d.getLast? = some '/'
      · rw [if_pos h, if_pos (this.2 h), List.append_assoc]
      · rw [if_neg h, if_neg (fun x => h (this.1 x)), List.append_assoc]

/-- Joining the name of a file to a path leads to the entry of that name. -/
theorem entry_join (cwd dir : Str) {f : Str} (hf : FileName f) :
    EntryOf cwd (joinPath dir f) dir f := by
  unfold EntryOf placeOf
  rw [joinPath_assoc _ _ _ (fun h => hf.2.2.2 (List.mem_of_head? h)), foldl_join _ hf,
    List.reverse_cons]

theorem foldl_files (ps : List Str) (hp : ∀ p ∈ ps, '/' ∉ p) :
    ∀ acc : List Str, (∀ n ∈ acc, FileName n) → ∀ n ∈ ps.foldl stepInto acc, FileName n := by
  induction ps with
  | nil => exact fun acc h => h
  | cons p ps ih =>
    intro acc h
    refine ih (fun q hq => hp q (List.mem_cons_of_mem _ hq)) _ ?_
    intro n hn
    unfold stepInto at hn
    split at hn
    · exact h n hn
    · rename_i h1
      split at hn
      · exact h n (List.mem_of_mem_tail hn)
      · rename_i h2
        rcases List.mem_cons.1 hn with rfl | hn
        · exact ⟨fun e => h1 (.inl e), fun e => h1 (.inr e), h2, hp _ (List.mem_cons_self ..)⟩
        · exact h n hn

theorem placeOf_files (cwd p : Str) : ∀ n ∈ placeOf cwd p, FileName n := by
  intro n hn
  exact foldl_files _ (splitOnChar_without '/' _) [] (by simp) n (List.mem_reverse.1 hn)

theorem foldl_stay (ns : List Str) (h : ∀ n ∈ ns, FileName n) :
    ∀ acc : List Str, ns.foldl stepInto acc = ns.reverse ++ acc := by
  induction ns with
  | nil => exact fun acc => rfl
  | cons n ns ih =>
    intro acc
    rw [List.foldl_cons, stepInto_file _ (h n (List.mem_cons_self ..)),
      ih (fun m hm => h m (List.mem_cons_of_mem _ hm))]
    simp

/-- An absolute path made of names leads to those names, whatever the current directory. -/
theorem placeOf_names (cwd : Str) (ns : List Str) (h : ∀ n ∈ ns, FileName n) :
    placeOf cwd ('/' :: joinWith ['/'] ns) = ns := by
  unfold placeOf joinPath
  rw [if_pos (by rfl)]
  cases ns with
  | nil => rfl
  | cons n ns =>
    rw [splitOnChar, if_pos rfl, splitOnChar_join '/' _ (by simp) (fun t ht => (h t ht).2.2.2)]
    rw [List.foldl_cons, show stepInto [] [] = [] from rfl, foldl_stay _ h]
    simp

/-- Making a path absolute does not change the place, and it is then the same from everywhere. -/
theorem placeOf_absPath (cwd cwd' p : Str) : placeOf cwd' (absPath cwd p) = placeOf cwd p :=
  placeOf_names _ _ (placeOf_files _ _)

theorem placeOf_absolute {p : Str} (h : p.head? = some '/') (cwd cwd' : Str) :
    placeOf cwd p = placeOf cwd' p := by
  unfold placeOf joinPath
  rw [if_pos h, if_pos h]

theorem expandUser_same (home : Str → Option Str) {d : Str} (h : d.head? ≠ some '~') :
    expandUser home d = d := by
  unfold expandUser
  split
  · rename_i r; exact absurd rfl h
  · rfl

/-- The path names nobody's home directory: it does not begin with `~`, or with that of a user who is not known. -/
def Spec.NoHome (home : Str → Option Str) (dir : Str) : Prop :=
  ∀ user more, dir = '~' :: user ++ more → '/' ∉ user → (more = [] ∨ more.head? = some '/') → home user = none

theorem expandUser_noHome (home : Str → Option Str) {d : Str} (h : Spec.NoHome home d) : expandUser home d = d := by
  unfold expandUser
  split
  · rename_i rest
    have he := h (rest.takeWhile (· ≠ '/')) (rest.dropWhile (· ≠ '/'))
      (by rw [List.cons_append, List.takeWhile_append_dropWhile])
      (fun hm => by simpa using List.all_eq_true.1 (List.all_takeWhile (p := (· ≠ '/')) (l := rest)) _ hm)
      (by
        cases hd : rest.dropWhile (· ≠ '/') with
        | nil => exact .inl rfl
        | cons c r =>
          right
          have := List.head?_dropWhile_not (p := (· ≠ '/')) (l := rest)
          rw [hd] at this
          simpa using this)
    rw [he]
  · rfl

theorem fileName_gama : FileName gamaLogName := by unfold FileName; decide
theorem fileName_evals : FileName evaluationsLogName := by unfold FileName; decide
theorem fileName_cache : FileName cacheDirName := by unfold FileName; decide

theorem outputDirectory_some (sys : Sys) (fresh : Str) {d : Str} (hd : d ≠ []) :
    outputDirectory sys fresh (some d) = absPath sys.cwd (expandUser sys.home d) := by
  unfold outputDirectory
  dsimp only
  rw [if_neg hd]

theorem place_out (sys : Sys) (fresh : Str) {d : Str} (hd : d ≠ []) (cwd' : Str) :
    placeOf cwd' (outputDirectory sys fresh (some d)) = placeOf sys.cwd (expandUser sys.home d) := by
  rw [outputDirectory_some _ _ hd, placeOf_absPath]

/-! ### Variables in a path -/

theorem takeWhile_of_drop (t : Str) (r : Str) (h : t.dropWhile (· ≠ '}') = '}' :: r) :
    t = t.takeWhile (· ≠ '}') ++ '}' :: r := by
  conv_lhs => rw [← List.takeWhile_append_dropWhile (p := (· ≠ '}')) (l := t)]
  rw [h]

/-- What `varName` finds is what the text begins with, and it is the name itself or the name in
braces. -/
theorem varName_spec {s name text rest : Str} (h : varName s = some (name, text, rest)) :
    s = text ++ rest ∧ (text = name ∨ text = '{' :: (name ++ ['}'])) ∧ rest.length < s.length := by
  unfold varName at h
  split at h
  · rename_i t
    split at h
    · rename_i r hr
      simp only [Option.some.injEq, Prod.mk.injEq] at h
      obtain ⟨rfl, rfl, rfl⟩ := h
      have e := takeWhile_of_drop t r hr
      refine ⟨?_, .inr (by simp), ?_⟩
      · conv_lhs => rw [e]
        simp
      · conv_rhs => rw [e]
        simp; omega
    · cases h
  · split at h
    · cases h
    · rename_i hne
      simp only [Option.some.injEq, Prod.mk.injEq] at h
      obtain ⟨rfl, rfl, rfl⟩ := h
      refine ⟨(List.takeWhile_append_dropWhile ..).symm, .inl rfl, ?_⟩
      have := congrArg List.length (List.takeWhile_append_dropWhile (p := isWordChar) (l := s))
      rw [List.length_append] at this
      have : 0 < (s.takeWhile isWordChar).length := List.length_pos_iff.2 hne
      omega

theorem mentions_of_suffix {vars : Str → Option Str} {s t : Str} (h : t <:+ s)
    (hm : MentionsSet vars t) : MentionsSet vars s := by
  obtain ⟨n, hn, h1 | h1⟩ := hm
  · exact ⟨n, hn, .inl (h1.trans h.isInfix)⟩
  · exact ⟨n, hn, .inr (h1.trans h.isInfix)⟩

theorem expandVarsGo_same (vars : Str → Option Str) : ∀ (n : Nat) (s : Str),
    ¬ MentionsSet vars s → expandVarsGo vars n s = s := by
  intro n
  induction n with
  | zero => intro s _; rfl
  | succ n ih =>
    intro s hs
    cases s with
    | nil => rfl
    | cons c s =>
      have hs' : ¬ MentionsSet vars s := fun h => hs (mentions_of_suffix (List.suffix_cons ..) h)
      rw [expandVarsGo]
      split
      · rename_i hc
        split
        · rw [ih s hs']
        · rename_i name text rest hv
          obtain ⟨e, ht, _⟩ := varName_spec hv
          have hr : ¬ MentionsSet vars rest := by
            refine fun h => hs' (mentions_of_suffix ?_ h)
            rw [e]; exact List.suffix_append ..
          split
          · rename_i v hvv
            exfalso
            refine hs ⟨name, by rw [hvv]; simp, ?_⟩
            subst hc
            rcases ht with rfl | rfl
            · exact .inl ⟨[], rest, by rw [e]; simp⟩
            · exact .inr ⟨[], rest, by rw [e]; simp⟩
          · rw [ih rest hr, e]
      · rw [ih s hs']

theorem expandVars_same (vars : Str → Option Str) {s : Str} (h : ¬ MentionsSet vars s) :
    expandVars vars s = s := expandVarsGo_same vars _ s h

/-! ### C154: a report of a run's directory -/

end Pth

open Pth Spec

/-- The claim of C154: given the same directory as the run, from the same working directory, a report
reads the two log files of that run, and is called after the directory. -/
def C154_claim : Prop :=
  ∀ (sys : Sys) (fresh dir : Str), dir ≠ [] →
    placeOf sys.cwd (gamaLogRead dir)
        = placeOf sys.cwd (gamaLogWritten (outputDirectory sys fresh (some dir)))
      ∧ placeOf sys.cwd (evaluationsLogRead sys dir)
        = placeOf sys.cwd (evaluationsLogWritten (outputDirectory sys fresh (some dir)))
      ∧ ∀ n, (placeOf sys.cwd (outputDirectory sys fresh (some dir))).getLast? = some n →
          reportName dir = n

/-- C154, as far as it holds: when the directory is not in a home directory given with `~`, a report in the same working
directory — or in any other if the path is absolute — opens the entries `gama.log` and
`evaluations.log` of the directory that the run wrote them to. -/
theorem C154_partial (sys : Sys) (fresh dir cwd' : Str) (hd : dir ≠ []) (ht : Spec.NoHome sys.home dir)
    (hc : cwd' = sys.cwd ∨ dir.head? = some '/') :
    let out := outputDirectory sys fresh (some dir)
    placeOf cwd' (gamaLogRead dir) = placeOf sys.cwd out ++ ["gama.log".toList]
      ∧ placeOf sys.cwd (gamaLogWritten out) = placeOf sys.cwd out ++ ["gama.log".toList]
      ∧ placeOf cwd' (evaluationsLogRead sys dir) = placeOf sys.cwd out ++ ["evaluations.log".toList]
      ∧ placeOf sys.cwd (evaluationsLogWritten out)
          = placeOf sys.cwd out ++ ["evaluations.log".toList] := by
  have hp : placeOf cwd' dir = placeOf sys.cwd (outputDirectory sys fresh (some dir)) := by
    rw [place_out sys fresh hd, expandUser_noHome _ ht]
    rcases hc with rfl | h
    · rfl
    · exact placeOf_absolute h _ _
  refine ⟨?_, entry_join _ _ fileName_gama, ?_, entry_join _ _ fileName_evals⟩
  · rw [← hp]; exact entry_join _ _ fileName_gama
  · unfold evaluationsLogRead
    rw [expandUser_noHome _ ht, ← hp]; exact entry_join _ _ fileName_evals

/-- The log of evaluations is found in every case. -/
theorem C154_evaluations (sys : Sys) (fresh dir : Str) (hd : dir ≠ []) :
    placeOf sys.cwd (evaluationsLogRead sys dir)
      = placeOf sys.cwd (evaluationsLogWritten (outputDirectory sys fresh (some dir))) := by
  have h1 : placeOf sys.cwd (evaluationsLogRead sys dir)
      = placeOf sys.cwd (expandUser sys.home dir) ++ [evaluationsLogName] :=
    entry_join _ _ fileName_evals
  have h2 : placeOf sys.cwd (evaluationsLogWritten (outputDirectory sys fresh (some dir)))
      = placeOf sys.cwd (outputDirectory sys fresh (some dir)) ++ [evaluationsLogName] :=
    entry_join _ _ fileName_evals
  rw [h1, h2, place_out sys fresh hd]

/-- Of a folder in the home directory, a report reads the run's `gama.log` only if the home directory is
a folder called `~` in the working directory: that is where it looks. -/
theorem C154_home (sys : Sys) (fresh name h : Str) (hn : FileName name) (hh : sys.home [] = some h)
    (ha : h.head? = some '/') :
    placeOf sys.cwd (gamaLogRead ('~' :: '/' :: name))
        = placeOf sys.cwd [] ++ [['~'], name, "gama.log".toList]
      ∧ placeOf sys.cwd (gamaLogWritten (outputDirectory sys fresh (some ('~' :: '/' :: name))))
        = placeOf sys.cwd h ++ [name, "gama.log".toList] := by
  have hj : ∀ a : Str, a ≠ [] → a.getLast? ≠ some '/' → a ++ '/' :: name = joinPath a name := by
    intro a h1 h2
    unfold joinPath
    rw [if_neg (fun e => hn.2.2.2 (List.mem_of_head? e)), if_neg (by simp [h1, h2])]
  constructor
  · have e1 := entry_join sys.cwd ('~' :: '/' :: name) fileName_gama
    have e2 := entry_join sys.cwd ['~'] hn
    have e3 := entry_join sys.cwd [] (f := ['~']) (by unfold FileName; decide)
    rw [← hj ['~'] (by simp) (by decide)] at e2
    have e4 : joinPath [] ['~'] = ['~'] := by decide
    rw [e4] at e3
    unfold EntryOf at e1 e2 e3
    unfold gamaLogRead
    rw [e1, show '~' :: '/' :: name = ['~'] ++ '/' :: name from rfl, e2, e3, List.append_assoc,
      List.append_assoc]
    rfl
  · have e1 := entry_join sys.cwd (outputDirectory sys fresh (some ('~' :: '/' :: name))) fileName_gama
    unfold EntryOf at e1
    unfold gamaLogWritten
    rw [e1, place_out sys fresh (by simp)]
    have e2 : expandUser sys.home ('~' :: '/' :: name) = rstripChar '/' h ++ '/' :: name := by
      have t1 : List.takeWhile (fun x => decide (x ≠ '/')) ('/' :: name) = [] := by simp
      have t2 : List.dropWhile (fun x => decide (x ≠ '/')) ('/' :: name) = '/' :: name := by simp
      unfold expandUser
      split
      · rename_i rest he
        obtain rfl : '/' :: name = rest := (List.cons.inj he).2
        rw [t1, hh]
        dsimp only
        rw [t2, if_neg (by simp)]
      · rename_i hx
        exact absurd rfl (hx _)
    -- dropping slashes at the end does not matter
    have e3 : placeOf sys.cwd (rstripChar '/' h ++ '/' :: name) = placeOf sys.cwd h ++ [name] := by
      obtain ⟨k, hk⟩ : ∃ k, h = rstripChar '/' h ++ List.replicate k '/' := by
        unfold rstripChar
        have := List.takeWhile_append_dropWhile (p := (· = '/')) (l := h.reverse)
        refine ⟨(h.reverse.takeWhile (· = '/')).length, ?_⟩
        have e : h.reverse.takeWhile (· = '/')
            = List.replicate (h.reverse.takeWhile (· = '/')).length '/' := by
          refine List.eq_replicate_iff.2 ⟨rfl, fun b hb => ?_⟩
          simpa using (List.all_eq_true.1 (List.all_takeWhile (p := (· = '/')) (l := h.reverse))) b hb
        have := congrArg List.reverse this
        rw [List.reverse_append, List.reverse_reverse] at this
        conv_lhs => rw [← this]
        rw [e]; simp
      have key : ∀ (a : Str) (k : Nat),
          (splitOnChar '/' (a ++ List.replicate k '/')).foldl stepInto []
            = (splitOnChar '/' a).foldl stepInto [] := by
        intro a k
        induction k with
        | zero => simp
        | succ k ih =>
          rw [List.replicate_succ', ← List.append_assoc, split_append _ [] (by simp),
            List.foldl_append, ih]
          rfl
      have hx : (rstripChar '/' h ++ '/' :: name).head? = some '/' := by
        cases hr : rstripChar '/' h with
        | nil => rfl
        | cons c r => rw [hr] at hk; rw [hk] at ha; simpa using ha
      unfold placeOf
      rw [show joinPath sys.cwd h = h by unfold joinPath; rw [if_pos ha]]
      rw [show joinPath sys.cwd (rstripChar '/' h ++ '/' :: name)
        = rstripChar '/' h ++ '/' :: name by unfold joinPath; rw [if_pos hx]]
      rw [split_append _ _ hn.2.2.2, List.foldl_append]
      conv_rhs => rw [hk]
      rw [key]
      simp [stepInto_file _ hn]
    rw [e2, e3, List.append_assoc]
    rfl

/-- The name of a report is the name of its directory when the path does not end in a slash. -/
theorem C154_name (sys : Sys) (fresh before name : Str) (hn : FileName name)
    (ht : (before ++ name).head? ≠ some '~') (hb : before = [] ∨ before.getLast? = some '/') :
    reportName (before ++ name) = name
      ∧ (placeOf sys.cwd (outputDirectory sys fresh (some (before ++ name)))).getLast? = some name := by
  have hne : before ++ name ≠ [] := by simp [hn.1]
  have hj : before ++ name = joinPath before name := by
    unfold joinPath
    rw [if_neg (fun e => hn.2.2.2 (List.mem_of_head? e)), if_pos hb]
  constructor
  · unfold reportName
    rcases hb with rfl | h
    · rw [List.nil_append, splitOnChar_free '/' _ hn.2.2.2]; rfl
    · obtain ⟨b, rfl⟩ := List.getLast?_eq_some_iff.1 h
      rw [show b ++ ['/'] ++ name = b ++ '/' :: name by simp, split_append _ _ hn.2.2.2]
      simp
  · rw [place_out sys fresh hne, expandUser_same _ ht, hj, entry_join sys.cwd before hn]
    simp

namespace Ex

/-- A user at work in `/data`, whose home is `/root`, with the variable `A` set to `b`. -/
def sys : Sys :=
  ⟨"/data".toList, fun u => if u = [] then some "/root".toList else none,
    fun v => if v = ['A'] then some ['b'] else none⟩

end Ex

/-- C154 is false: a run may be told to write to `~/run`, which is a folder in the home directory, but a
report of `~/run` looks for `gama.log` in a folder called `~`. -/
theorem C154_false : ¬ C154_claim := by
  intro h
  have := (h Ex.sys [] "~/run".toList (by decide)).1
  revert this
  decide +kernel

/-- The name fails too: with a slash at the end of the path a report has no name. -/
theorem C154_name_false : ∃ (sys : Sys) (fresh dir n : Str), dir.head? ≠ some '~' ∧ dir ≠ []
    ∧ (placeOf sys.cwd (outputDirectory sys fresh (some dir))).getLast? = some n
    ∧ reportName dir ≠ n :=
  ⟨Ex.sys, [], "run/".toList, "run".toList, by decide +kernel⟩

/-- Beside `C154_partial`: a relative path with `..` and an absolute one. -/
example : placeOf "/data".toList (gamaLogRead "../runs/a".toList)
      = ["runs".toList, "a".toList, "gama.log".toList]
    ∧ placeOf "/data".toList (gamaLogWritten (outputDirectory Ex.sys [] (some "../runs/a".toList)))
      = ["runs".toList, "a".toList, "gama.log".toList]
    ∧ outputDirectory Ex.sys [] (some "../runs/a".toList) = "/runs/a".toList
    ∧ placeOf "/tmp".toList (gamaLogRead "/runs//a/".toList)
      = placeOf "/data".toList (gamaLogWritten (outputDirectory Ex.sys [] (some "/runs//a/".toList))) := by
  decide +kernel

/-- Neither of them names a home directory, nor does one of a user who is not known, which is a folder like any
other. -/
example : Spec.NoHome Ex.sys.home "../runs/a".toList ∧ Spec.NoHome Ex.sys.home "~bob/run".toList ∧
    placeOf "/data".toList (gamaLogRead "~bob/run".toList)
      = ["data".toList, "~bob".toList, "run".toList, "gama.log".toList] := by
  refine ⟨fun user more h => (by cases h), fun user more h hu hm => ?_, by decide +kernel⟩
  cases user with
  | nil =>
    obtain rfl : "bob/run".toList = more := (List.cons.inj h).2
    exact absurd hm (by decide)
  | cons c user => rfl

/-- Beside `C154_home` and `C154_evaluations`: `~/run`. -/
example : Ex.sys.home [] = some "/root".toList
    ∧ placeOf "/data".toList (gamaLogRead "~/run".toList)
      = ["data".toList, "~".toList, "run".toList, "gama.log".toList]
    ∧ placeOf "/data".toList (gamaLogWritten (outputDirectory Ex.sys [] (some "~/run".toList)))
      = ["root".toList, "run".toList, "gama.log".toList]
    ∧ placeOf "/data".toList (evaluationsLogRead Ex.sys "~/run".toList)
      = ["root".toList, "run".toList, "evaluations.log".toList] := by
  decide +kernel

/-- Beside `C154_name`. -/
example : reportName "runs/a".toList = "a".toList ∧ FileName "a".toList
    ∧ "runs/".toList.getLast? = some '/' := by
  unfold FileName; decide +kernel

/-! ### C155: where the models are kept -/

/-- The claim of C155: everything a run writes is an entry of its output directory; models are in the
folder `cache` of it, which is the folder that a clean-up removes. -/
def C155_claim : Prop :=
  ∀ (sys : Sys) (fresh : Str) (given : Option Str),
    let out := outputDirectory sys fresh given
    placeOf sys.cwd (gamaLogWritten out) = placeOf sys.cwd out ++ ["gama.log".toList]
      ∧ placeOf sys.cwd (evaluationsLogWritten out) = placeOf sys.cwd out ++ ["evaluations.log".toList]
      ∧ placeOf sys.cwd (cacheFolder sys out) = placeOf sys.cwd out ++ ["cache".toList]
      ∧ placeOf sys.cwd (cleanedFolder out) = placeOf sys.cwd (cacheFolder sys out)

/-- C155, as far as it holds: when the path of the output directory followed by `/cache` mentions no
variable that is set. -/
theorem C155_partial (sys : Sys) (fresh : Str) (given : Option Str)
    (hv : ¬ MentionsSet sys.vars (joinPath (outputDirectory sys fresh given) "cache".toList)) :
    let out := outputDirectory sys fresh given
    placeOf sys.cwd (gamaLogWritten out) = placeOf sys.cwd out ++ ["gama.log".toList]
      ∧ placeOf sys.cwd (evaluationsLogWritten out) = placeOf sys.cwd out ++ ["evaluations.log".toList]
      ∧ placeOf sys.cwd (cacheFolder sys out) = placeOf sys.cwd out ++ ["cache".toList]
      ∧ placeOf sys.cwd (cleanedFolder out) = placeOf sys.cwd (cacheFolder sys out) := by
  have e : cacheFolder sys (outputDirectory sys fresh given)
      = joinPath (outputDirectory sys fresh given) cacheDirName := expandVars_same _ hv
  refine ⟨entry_join _ _ fileName_gama, entry_join _ _ fileName_evals, ?_, ?_⟩
  · rw [e]; exact entry_join _ _ fileName_cache
  · rw [e]; rfl

/-- In particular when there is no `$` in the path. -/
theorem C155_no_dollar (sys : Sys) (fresh : Str) (given : Option Str)
    (hv : '$' ∉ outputDirectory sys fresh given) :
    placeOf sys.cwd (cacheFolder sys (outputDirectory sys fresh given))
      = placeOf sys.cwd (outputDirectory sys fresh given) ++ ["cache".toList] := by
  refine (C155_partial sys fresh given ?_).2.2.1
  have hd : '$' ∉ joinPath (outputDirectory sys fresh given) "cache".toList := by
    unfold joinPath
    rw [if_neg (by decide)]
    split <;> simp [hv]
  rintro ⟨n, _, h | h⟩ <;> exact hd (h.subset (List.mem_cons_self ..))

/-- The logs are in the output directory in every case, and the output directory does not depend on the
variables. -/
theorem C155_logs (sys : Sys) (fresh : Str) (given : Option Str) (cwd' : Str) :
    let out := outputDirectory sys fresh given
    placeOf cwd' (gamaLogWritten out) = placeOf sys.cwd out ++ ["gama.log".toList]
      ∧ placeOf cwd' (evaluationsLogWritten out) = placeOf sys.cwd out ++ ["evaluations.log".toList]
      ∧ ∀ vars, outputDirectory { sys with vars := vars } fresh given = out := by
  have ho : ∀ c, placeOf c (outputDirectory sys fresh given)
      = placeOf sys.cwd (outputDirectory sys fresh given) := by
    intro c
    unfold outputDirectory
    rw [placeOf_absPath, placeOf_absPath]
  refine ⟨?_, ?_, fun _ => rfl⟩
  · rw [← ho cwd']; exact entry_join _ _ fileName_gama
  · rw [← ho cwd']; exact entry_join _ _ fileName_evals

/-- C155 is false: told to write to `run$A`, a run whose variable `A` is `b` makes its logs in `run$A`
and keeps its models in `runb/cache`, which cleaning up leaves there. -/
theorem C155_false : ¬ C155_claim := by
  intro h
  have := (h Ex.sys [] (some "run$A".toList)).2.2.1
  revert this
  decide +kernel

/-- The places of that run. -/
example : outputDirectory Ex.sys [] (some "run$A".toList) = "/data/run$A".toList
    ∧ cacheFolder Ex.sys "/data/run$A".toList = "/data/runb/cache".toList
    ∧ cleanedFolder "/data/run$A".toList = "/data/run$A/cache".toList
    ∧ cacheFolder Ex.sys "/data/run${A}x$".toList = "/data/runbx$/cache".toList
    ∧ cacheFolder Ex.sys "/data/run$B".toList = "/data/run$B/cache".toList := by
  decide +kernel

/-- Beside `C155_partial`: an ordinary directory. -/
example : '$' ∉ outputDirectory Ex.sys [] (some "run".toList)
    ∧ placeOf "/data".toList (cacheFolder Ex.sys (outputDirectory Ex.sys [] (some "run".toList)))
      = ["data".toList, "run".toList, "cache".toList] := by
  decide +kernel

end Gama
