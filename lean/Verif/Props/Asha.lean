import Verif.Props.Search2
import Mathlib.Algebra.Order.Floor.Ring
import Mathlib.Data.Rat.Floor
import Mathlib.Tactic.Linarith
import Mathlib.Tactic.Positivity
import Mathlib.Tactic.FieldSimp

/-! # Asynchronous successive halving: C39 – C41 -/

namespace Gama
open PyM Spec

section
variable {σ ι : Type} [DecidableEq ι]

/-! ## Specification -/

/-- The evaluations of rung `k`, in order. -/
def Spec.evaluatedOn (k : Nat) : List (ι × Nat × Completion) → List (RungEntry ι)
  | [] => []
  | (x, r, .result _ score) :: h => if r = k then (score, x) :: evaluatedOn k h else evaluatedOn k h
  | (_, _, .failed) :: h => evaluatedOn k h

/-- The evaluations that were entered in their rung: all, except one that was just returned. -/
def Spec.recorded (s : Asha σ ι) : List (ι × Nat × Completion) :=
  match s.pc with
  | .got _ _ _ => s.history.dropLast
  | _ => s.history

/-- Rung `k` is the highest with an evaluation. -/
def Spec.HighestReached (h : List (ι × Nat × Completion)) (k : Nat) : Prop :=
  evaluatedOn k h ≠ [] ∧ ∀ j, k < j → evaluatedOn j h = []

/-- The individuals of the jobs submitted for rung `k`, in order. -/
def Spec.jobsOn (k : Nat) (l : List (ι × Nat)) : List ι :=
  (l.filter fun p => p.2 = k).map Prod.fst

/-- What was promoted out of rung `k`. -/
def Spec.promotedFrom (s : Asha σ ι) (k : Nat) : List (RungEntry ι) := (dget s.promoted k).getD []

omit [DecidableEq ι] in
theorem evaluatedOn_append (k : Nat) (a b : List (ι × Nat × Completion)) :
    evaluatedOn k (a ++ b) = evaluatedOn k a ++ evaluatedOn k b := by
  induction a with
  | nil => rfl
  | cons p a ih =>
    obtain ⟨x, r, c⟩ := p
    cases c with
    | failed => exact ih
    | result b' sc =>
      by_cases h : r = k <;> simp [evaluatedOn, h, ih]

/-! ## Levels -/

theorem mem_levels {c : AshaConfig} {k : Nat} : k ∈ c.levels ↔ c.rate ≤ k ∧ k ≤ c.maxRung := by
  unfold AshaConfig.levels
  simp only [List.mem_reverse, List.mem_filter, List.mem_range, decide_eq_true_eq]
  omega

theorem levels_sorted (c : AshaConfig) : c.levels.Pairwise (fun a b => b < a) := by
  unfold AshaConfig.levels
  rw [List.pairwise_reverse]
  exact List.Pairwise.filter _ List.pairwise_lt_range

theorem levels_nodup (c : AshaConfig) : c.levels.Nodup :=
  (levels_sorted c).imp fun h => Nat.ne_of_gt h

theorem levels_head {c : AshaConfig} {k : Nat} (h : c.levels.head? = some k) : k = c.maxRung := by
  have hs := levels_sorted c
  cases hl : c.levels with
  | nil => rw [hl] at h; cases h
  | cons a t =>
    rw [hl] at h hs
    simp only [List.head?_cons, Option.some.injEq] at h
    subst h
    have ha : a ∈ c.levels := by rw [hl]; simp
    have hm : c.maxRung ∈ c.levels := mem_levels.2 ⟨by have := mem_levels.1 ha; omega, Nat.le_refl _⟩
    rw [hl] at hm
    rcases List.mem_cons.1 hm with e | hm
    · exact e.symm
    · have := (List.pairwise_cons.1 hs).1 _ hm
      have := (mem_levels.1 ha).2
      omega

theorem levels_tail {c : AshaConfig} {k : Nat} (h : k ∈ c.levels.tail) :
    c.rate ≤ k ∧ k < c.maxRung := by
  have hs := levels_sorted c
  cases hl : c.levels with
  | nil => rw [hl] at h; cases h
  | cons a t =>
    have hh : c.levels.head? = some a := by rw [hl]; rfl
    have ha := levels_head hh
    have hk : k ∈ c.levels := List.mem_of_mem_tail h
    rw [hl] at h hs
    have := (List.pairwise_cons.1 hs).1 k h
    exact ⟨(mem_levels.1 hk).1, by omega⟩

/-! ## The invariant -/

/-- The part of the invariant that does not depend on the point in the program; `rec` are the
evaluations entered in their rung. -/
structure AshaCore (c : AshaConfig) (cands : List ι) (rungs promoted : List (Nat × List (RungEntry ι)))
    (candidates : List ι) (pending submitted : List (ι × Nat))
    (history rec : List (ι × Nat × Completion)) : Prop where
  keysR : rungs.map Prod.fst = c.levels
  keysP : promoted.map Prod.fst = c.levels
  entries : ∀ k ∈ c.levels, dget rungs k = some (evaluatedOn k rec)
  jobs : submitted.Perm (pending ++ history.map fun h => (h.1, h.2.1))
  onLevel : ∀ p ∈ submitted, p.2 ∈ c.levels
  nodup : ∀ k, ((dget promoted k).getD []).Nodup
  sub : ∀ k, (dget promoted k).getD [] ⊆ evaluatedOn k rec
  count : ∀ k, ((dget promoted k).getD []).length ≤ (evaluatedOn k rec).length / c.rf
  top : (dget promoted c.maxRung).getD [] = []
  base : jobsOn c.rate submitted ++ candidates.reverse = cands.reverse ∨
    (candidates = [] ∧ cands.reverse <+: jobsOn c.rate submitted) ∨
    (c.levels = [] ∧ submitted = [])
  sent : ∀ k, c.rate ≤ k → jobsOn (k + 1) submitted = ((dget promoted k).getD []).map Prod.snd

/-- The invariant of `asha`. -/
structure AshaOK (c : AshaConfig) (cands : List ι) (s : Asha σ ι) : Prop where
  core : AshaCore c cands s.rungs s.promoted s.candidates s.pending s.submitted s.history (recorded s)
  got : ∀ x r e, s.pc = .got x r e → s.history = s.history.dropLast ++ [(x, r, e)]

theorem someMax_some {l : List (RungEntry ι)} {k : Nat} {x : RungEntry ι} (h : someMax l k = some x) :
    x ∈ l ∧ ∀ y ∈ l, y.1 ≤ x.1 := by
  unfold someMax at h
  have := List.mem_of_getElem? h
  rw [List.mem_filter, List.all_eq_true] at this
  exact ⟨this.1, fun y hy => by simpa using this.2 y hy⟩

theorem someMax_none {l : List (RungEntry ι)} {k : Nat} (h : someMax l k = none) : l = [] := by
  cases l with
  | nil => rfl
  | cons a t =>
    exfalso
    have hmax : ∀ l : List (RungEntry ι), l ≠ [] → ∃ x ∈ l, ∀ y ∈ l, y.1 ≤ x.1 := by
      intro l
      induction l with
      | nil => intro h; exact absurd rfl h
      | cons a t ih =>
        intro _
        by_cases ht : t = []
        · subst ht
          exact ⟨a, by simp, by simp⟩
        · obtain ⟨x, hx, hb⟩ := ih ht
          by_cases hle : x.1 ≤ a.1
          · refine ⟨a, by simp, fun y hy => ?_⟩
            rcases List.mem_cons.1 hy with rfl | hy
            · exact le_refl _
            · exact le_trans (hb y hy) hle
          · refine ⟨x, List.mem_cons_of_mem _ hx, fun y hy => ?_⟩
            rcases List.mem_cons.1 hy with rfl | hy
            · exact le_of_lt (not_le.1 hle)
            · exact hb y hy
    obtain ⟨x, hx, hb⟩ := hmax (a :: t) (by simp)
    unfold someMax at h
    simp only at h
    generalize hbest : (a :: t).filter (fun x => (a :: t).all fun y => decide (y.1 ≤ x.1)) = best at h
    have : x ∈ best := by
      rw [← hbest, List.mem_filter, List.all_eq_true]
      exact ⟨hx, fun y hy => by simpa using hb y hy⟩
    have hpos : 0 < best.length := List.length_pos_of_mem this
    rw [List.getElem?_eq_getElem (Nat.mod_lt _ hpos)] at h
    cases h

/-- What `get_job` finds to promote. -/
theorem findPromotion_some {rf k : Nat} {promoted : List (Nat × List (RungEntry ι))} :
    ∀ {rungs : List (Nat × List (RungEntry ι))} {rung : Nat} {x : RungEntry ι},
      findPromotion rf k promoted rungs = some (rung, x) →
      ∃ inds, (rung, inds) ∈ rungs ∧ ((dget promoted rung).getD []).length < inds.length / rf ∧
        x ∈ inds ∧ x ∉ (dget promoted rung).getD [] ∧
        ∀ y ∈ inds, y ∉ (dget promoted rung).getD [] → y.1 ≤ x.1 := by
  intro rungs
  induction rungs with
  | nil => intro rung x h; cases h
  | cons p rest ih =>
    obtain ⟨r, inds⟩ := p
    intro rung x h
    have later : findPromotion rf k promoted rest = some (rung, x) →
        ∃ inds', (rung, inds') ∈ (r, inds) :: rest ∧
          ((dget promoted rung).getD []).length < inds'.length / rf ∧ x ∈ inds' ∧
          x ∉ (dget promoted rung).getD [] ∧
          ∀ y ∈ inds', y ∉ (dget promoted rung).getD [] → y.1 ≤ x.1 := fun h => by
      obtain ⟨inds', h1, h2⟩ := ih h
      exact ⟨inds', List.mem_cons_of_mem _ h1, h2⟩
    simp only [findPromotion] at h
    split at h
    · rename_i hlt
      cases hm : someMax (notPromoted inds ((dget promoted r).getD [])) k with
      | none => rw [hm] at h; exact later h
      | some y =>
        rw [hm] at h
        simp only [Option.some.injEq, Prod.mk.injEq] at h
        obtain ⟨rfl, rfl⟩ := h
        obtain ⟨hy, hb⟩ := someMax_some hm
        unfold notPromoted at hy hb
        rw [List.mem_filter] at hy
        refine ⟨inds, by simp, by omega, hy.1, by simpa using hy.2, fun z hz hzn => hb z ?_⟩
        rw [List.mem_filter]
        exact ⟨hz, by simpa using hzn⟩
    · exact later h

/-- Nothing is promoted only if no rung has something to promote. -/
theorem findPromotion_none {rf k : Nat} {promoted : List (Nat × List (RungEntry ι))} :
    ∀ {rungs : List (Nat × List (RungEntry ι))}, findPromotion rf k promoted rungs = none →
      ∀ rung inds, (rung, inds) ∈ rungs →
        inds.length / rf ≤ ((dget promoted rung).getD []).length ∨
        inds ⊆ (dget promoted rung).getD [] := by
  intro rungs
  induction rungs with
  | nil => intro _ rung inds h; cases h
  | cons p rest ih =>
    obtain ⟨r, l⟩ := p
    intro h rung inds hm
    simp only [findPromotion] at h
    split at h
    · cases hmx : someMax (notPromoted l ((dget promoted r).getD [])) k with
      | some y => rw [hmx] at h; cases h
      | none =>
        rw [hmx] at h
        rcases List.mem_cons.1 hm with e | hm
        · obtain ⟨rfl, rfl⟩ := Prod.mk.inj e
          right
          intro z hz
          have := someMax_none hmx
          by_contra hn
          have hz' : z ∈ notPromoted inds ((dget promoted rung).getD []) := by
            unfold notPromoted
            rw [List.mem_filter]
            exact ⟨hz, by simpa using hn⟩
          rw [this] at hz'
          cases hz'
        · exact ih h rung inds hm
    · rename_i hlt
      rcases List.mem_cons.1 hm with e | hm
      · obtain ⟨rfl, rfl⟩ := Prod.mk.inj e
        left
        omega
      · exact ih h rung inds hm

theorem keys_dset_of_mem {K V : Type} [DecidableEq K] {d : List (K × V)} {k : K} {v : V}
    (h : k ∈ d.map Prod.fst) : (dset d k v).map Prod.fst = d.map Prod.fst := by
  induction d with
  | nil => simp at h
  | cons p d ih =>
    obtain ⟨a, w⟩ := p
    by_cases e : a = k
    · simp [dset, e]
    · simp only [dset, e, if_false, List.map_cons, List.cons.injEq, true_and]
      refine ih ?_
      simp only [List.map_cons, List.mem_cons] at h
      rcases h with h | h
      · exact absurd h.symm e
      · exact h

omit [DecidableEq ι] in
theorem jobsOn_append (k : Nat) (l : List (ι × Nat)) (x : ι) (r : Nat) :
    jobsOn k (l ++ [(x, r)]) = if r = k then jobsOn k l ++ [x] else jobsOn k l := by
  unfold jobsOn
  by_cases h : r = k <;> simp [h]

/-- `start_new_job` between two statements of the main program. -/
theorem startJob_ok (o : SearchOps σ ι) (c : AshaConfig) (cands : List ι) (pick : Nat) (s : Asha σ ι)
    (h : AshaCore c cands s.rungs s.promoted s.candidates s.pending s.submitted s.history s.history) :
    ∃ r s', startJob o c pick s = (r, s') ∧ s'.rungs = s.rungs ∧ s'.history = s.history ∧
      AshaCore c cands s'.rungs s'.promoted s'.candidates s'.pending s'.submitted s'.history s'.history := by
  have hcore := h
  obtain ⟨h1, h2, h3, h4, h5, h7, h8, h9, h10, h12, h11⟩ := h
  have hdict : DictOK s.rungs := by unfold DictOK; rw [h1]; exact levels_nodup c
  have addJob : ∀ (x : ι) (r : Nat), (s.submitted ++ [(x, r)]).Perm
      ((s.pending ++ [(x, r)]) ++ s.history.map fun h => (h.1, h.2.1)) := by
    intro x r
    refine (h4.append_right _).trans ?_
    rw [List.append_assoc, List.append_assoc]
    exact List.Perm.append_left _ List.perm_append_comm
  have onl : ∀ (x : ι) (r : Nat), r ∈ c.levels → ∀ p ∈ s.submitted ++ [(x, r)], p.2 ∈ c.levels := by
    intro x r hr p hp
    rcases List.mem_append.1 hp with hp | hp
    · exact h5 p hp
    · rw [List.mem_singleton.1 hp]; exact hr
  cases hf : findPromotion c.rf pick s.promoted s.rungs.tail with
  | some p =>
    obtain ⟨rung, x⟩ := p
    obtain ⟨inds, hm, hlt, hx, hnew, hbest⟩ := findPromotion_some hf
    have hrung : rung ∈ c.levels.tail := by
      rw [← h1, ← List.map_tail]
      exact List.mem_map.2 ⟨_, hm, rfl⟩
    obtain ⟨hlo, hhi⟩ := levels_tail hrung
    have hlev : rung ∈ c.levels := List.mem_of_mem_tail hrung
    have hup : rung + 1 ∈ c.levels := mem_levels.2 ⟨by omega, by omega⟩
    have hinds : inds = evaluatedOn rung s.history := by
      have := dget_of_mem hdict (List.mem_of_mem_tail hm)
      rw [h3 rung hlev] at this
      exact (Option.some.inj this).symm
    rw [hinds] at hlt hx
    have hj : startJob o c pick s = (.ok (), { s with
          promoted := dset s.promoted rung ((dget s.promoted rung).getD [] ++ [x])
          pending := s.pending ++ [(x.2, rung + 1)]
          submitted := s.submitted ++ [(x.2, rung + 1)] }) := by
      have hg : getJob o c pick s = (.ok (x.2, rung + 1), { s with
          promoted := dset s.promoted rung ((dget s.promoted rung).getD [] ++ [x]) }) := by
        unfold getJob; rw [hf]
      unfold startJob
      rw [bind_ok hg]
      dsimp only
      rw [if_pos hup]
      rfl
    refine ⟨_, _, hj, rfl, rfl, ?_⟩
    have hp : ∀ k, (dget (dset s.promoted rung ((dget s.promoted rung).getD [] ++ [x])) k).getD [] =
        if rung = k then (dget s.promoted k).getD [] ++ [x] else (dget s.promoted k).getD [] := by
      intro k
      rw [dget_dset]
      by_cases e : rung = k
      · subst e; simp
      · simp [e]
    refine ⟨h1, ?_, h3, addJob _ _, onl _ _ hup, ?_, ?_, ?_, ?_, ?_, ?_⟩
    · rw [keys_dset_of_mem (by rw [h2]; exact hlev), h2]
    · intro k
      rw [hp]
      split
      · rename_i e
        subst e
        refine List.nodup_append.2 ⟨h7 _, by simp, ?_⟩
        intro a ha b hb e
        rw [List.mem_singleton.1 hb] at e
        subst e
        exact hnew ha
      · exact h7 k
    · intro k
      rw [hp]
      split
      · rename_i e
        subst e
        intro y hy
        rcases List.mem_append.1 hy with hy | hy
        · exact h8 _ hy
        · rw [List.mem_singleton.1 hy]; exact hx
      · exact h8 k
    · intro k
      rw [hp]
      split
      · rename_i e
        subst e
        rw [List.length_append, List.length_singleton]
        exact hlt
      · exact h9 k
    · rw [hp, if_neg (by omega)]
      exact h10
    · dsimp only
      rw [jobsOn_append, if_neg (by omega)]
      rcases h12 with h | h | h
      · exact Or.inl h
      · exact Or.inr (Or.inl h)
      · rw [h.1] at hup; cases hup
    · intro k hk
      dsimp only
      rw [hp, jobsOn_append]
      by_cases e : rung = k
      · subst e
        rw [if_pos rfl, if_pos rfl, h11 _ hk, List.map_append]
        rfl
      · rw [if_neg (by omega), if_neg e, h11 _ hk]
  | none =>
    by_cases hlev : c.rate ∈ c.levels
    · -- a new job for the lowest rung
      have new : ∀ (x : ι) (cs : List ι) (w : σ),
          getJob o c pick s = (.ok (x, c.rate), { s with candidates := cs, world := w }) →
          ((s.candidates = [] ∧ cs = []) ∨ s.candidates = cs ++ [x]) →
          ∃ r s', startJob o c pick s = (r, s') ∧ s'.rungs = s.rungs ∧ s'.history = s.history ∧
            AshaCore c cands s'.rungs s'.promoted s'.candidates s'.pending s'.submitted s'.history
              s'.history := by
        intro x cs w hg hcs
        have hj : startJob o c pick s = (.ok (), { s with
            candidates := cs
            world := w
            pending := s.pending ++ [(x, c.rate)]
            submitted := s.submitted ++ [(x, c.rate)] }) := by
          unfold startJob
          rw [bind_ok hg]
          dsimp only
          rw [if_pos hlev]
          rfl
        refine ⟨_, _, hj, rfl, rfl, h1, h2, h3, addJob _ _, onl _ _ hlev, h7, h8, h9, h10, ?_, ?_⟩
        · dsimp only
          rw [jobsOn_append, if_pos rfl]
          rcases h12 with h | h | h
          · rcases hcs with ⟨h0, rfl⟩ | hcs
            · right; left
              refine ⟨rfl, ?_⟩
              rw [h0] at h
              rw [← h]
              simp
            · left
              rw [hcs] at h
              rw [← h]
              simp
          · right; left
            rcases hcs with ⟨h0, rfl⟩ | hcs
            · exact ⟨rfl, h.2.trans (List.prefix_append _ _)⟩
            · rw [h.1] at hcs
              simp at hcs
          · rw [h.1] at hlev; cases hlev
        · intro k hk
          dsimp only
          rw [jobsOn_append, if_neg (by omega)]
          exact h11 k hk
      cases hl : s.candidates.getLast? with
      | some x =>
        refine new x s.candidates.dropLast s.world (by unfold getJob; rw [hf]; dsimp only; rw [hl]) (Or.inr ?_)
        obtain ⟨ys, hys⟩ := List.getLast?_eq_some_iff.1 hl
        rw [hys]
        simp
      | none =>
        have hc : s.candidates = [] := by simpa using hl
        cases ho : o.individual s.world with
        | mk r w =>
          cases r with
          | ok x =>
            exact new x s.candidates w (by unfold getJob; rw [hf]; dsimp only; rw [hl]; dsimp only; rw [ho])
              (Or.inl ⟨hc, hc⟩)
          | error e =>
            have hj : startJob o c pick s = (.error e, { s with world := w }) := by
              unfold startJob
              rw [bind_error (e := e) (s' := { s with world := w })]
              unfold getJob; rw [hf]; dsimp only; rw [hl]; dsimp only; rw [ho]
            exact ⟨_, _, hj, rfl, rfl, hcore⟩
    · -- no rung at all
      have hnil : c.levels = [] := by
        cases hl : c.levels with
        | nil => rfl
        | cons a t =>
          exfalso
          have ha : a ∈ c.levels := by rw [hl]; simp
          have := mem_levels.1 ha
          exact hlev (mem_levels.2 ⟨Nat.le_refl _, by omega⟩)
      have hsub : s.submitted = [] := by
        cases hs : s.submitted with
        | nil => rfl
        | cons p t =>
          have := h5 p (by rw [hs]; simp)
          rw [hnil] at this
          cases this
      have core' : ∀ (cs : List ι), AshaCore c cands s.rungs s.promoted cs s.pending s.submitted
          s.history s.history := fun cs =>
        ⟨h1, h2, h3, h4, h5, h7, h8, h9, h10, Or.inr (Or.inr ⟨hnil, hsub⟩), h11⟩
      have new : ∀ (x : ι) (cs : List ι) (w : σ),
          getJob o c pick s = (.ok (x, c.rate), { s with candidates := cs, world := w }) →
          ∃ r s', startJob o c pick s = (r, s') ∧ s'.rungs = s.rungs ∧ s'.history = s.history ∧
            AshaCore c cands s'.rungs s'.promoted s'.candidates s'.pending s'.submitted s'.history
              s'.history := by
        intro x cs w hg
        have hj : startJob o c pick s = (.error .keyError, { s with candidates := cs, world := w }) := by
          unfold startJob
          rw [bind_ok hg]
          dsimp only
          rw [if_neg hlev]
          rfl
        exact ⟨_, _, hj, rfl, rfl, core' cs⟩
      cases hl : s.candidates.getLast? with
      | some x =>
        exact new x s.candidates.dropLast s.world (by unfold getJob; rw [hf]; dsimp only; rw [hl])
      | none =>
        cases ho : o.individual s.world with
        | mk r w =>
          cases r with
          | ok x =>
            exact new x s.candidates w (by unfold getJob; rw [hf]; dsimp only; rw [hl]; dsimp only; rw [ho])
          | error e =>
            have hj : startJob o c pick s = (.error e, { s with world := w }) := by
              unfold startJob
              rw [bind_error (e := e) (s' := { s with world := w })]
              unfold getJob; rw [hf]; dsimp only; rw [hl]; dsimp only; rw [ho]
            exact ⟨_, _, hj, rfl, rfl, hcore⟩

/-- Handling an exception does not go back to the main program. -/
theorem ashaHandle_ended (rungs : List (Nat × List (RungEntry ι))) (e : Exn) :
    (∃ l, ashaHandle rungs e = .returned l) ∨ ∃ e', ashaHandle rungs e = .raised e' := by
  unfold ashaHandle
  split
  · split
    · unfold ashaReport
      split
      · exact Or.inr ⟨_, rfl⟩
      · exact Or.inl ⟨_, rfl⟩
    · exact Or.inr ⟨_, rfl⟩
  · exact Or.inr ⟨_, rfl⟩

theorem AshaCore.ended {c : AshaConfig} {cands : List ι} {s : Asha σ ι} {pc : AshaPc ι}
    (h : AshaCore c cands s.rungs s.promoted s.candidates s.pending s.submitted s.history s.history)
    (hp : ∀ x r e, pc ≠ .got x r e) : AshaOK c cands { s with pc := pc } := by
  cases pc with
  | got x r e => exact absurd rfl (hp x r e)
  | _ => exact ⟨h, fun x r e hx => by cases hx⟩

theorem handle_not_got (rungs : List (Nat × List (RungEntry ι))) (e : Exn) (x : ι) (r : Nat)
    (c : Completion) : ashaHandle rungs e ≠ .got x r c := by
  intro h
  rcases ashaHandle_ended rungs e with ⟨l, hl⟩ | ⟨e', hl⟩ <;> rw [hl] at h <;> cases h

theorem report_not_got (rungs : List (Nat × List (RungEntry ι))) (k : Nat) (x : ι) (r : Nat)
    (c : Completion) : ashaReport rungs k ≠ .got x r c := by
  unfold ashaReport
  split <;> intro h <;> cases h

theorem ashaOK_step (o : SearchOps σ ι) (c : AshaConfig) (cands : List ι) (s : Asha σ ι)
    (i : AshaInput σ) (h : AshaOK c cands s) : AshaOK c cands (ashaStep o c i s) := by
  have hs := h
  obtain ⟨h, hgot⟩ := h
  unfold ashaStep
  cases hpc : s.pc with
  | starting k =>
    have hr : recorded s = s.history := by unfold recorded; rw [hpc]
    rw [hr] at h
    cases k with
    | zero => exact h.ended (fun _ _ _ hx => by cases hx)
    | succ k =>
      obtain ⟨r, s', hj, _, _, hc⟩ := startJob_ok o c cands i.pick s h
      dsimp only
      rw [hj]
      cases r with
      | error e => exact hc.ended (handle_not_got _ _)
      | ok _ => exact hc.ended (fun _ _ _ hx => by cases hx)
  | next =>
    have hr : recorded s = s.history := by unfold recorded; rw [hpc]
    rw [hr] at h
    obtain ⟨r, s', hj, _, _, hc⟩ := startJob_ok o c cands i.pick s h
    dsimp only
    rw [hj]
    cases r with
    | error e => exact hc.ended (handle_not_got _ _)
    | ok _ => exact hc.ended (fun _ _ _ hx => by cases hx)
  | loop =>
    have hr : recorded s = s.history := by unfold recorded; rw [hpc]
    rw [hr] at h
    dsimp only
    cases ashaMore c s with
    | error e => exact h.ended (handle_not_got _ _)
    | ok b =>
      cases b with
      | false =>
        dsimp only
        cases c.levels.head? with
        | none => exact h.ended (fun _ _ _ hx => by cases hx)
        | some top => exact h.ended (report_not_got _ _)
      | true =>
        dsimp only
        cases i.wait with
        | raises e => exact h.ended (handle_not_got _ _)
        | completes k r w =>
          dsimp only
          cases ht : takePending s.pending k with
          | none => exact h.ended (handle_not_got _ _)
          | some p =>
            obtain ⟨⟨x, rung⟩, rest⟩ := p
            obtain ⟨_, _, hperm⟩ := takePending_some ht
            refine ⟨⟨h.keysR, h.keysP, ?_, ?_, h.onLevel, h.nodup, ?_, ?_, h.top, h.base, h.sent⟩, ?_⟩
            · intro k hk
              simp only [recorded, List.dropLast_concat]
              exact h.entries k hk
            · dsimp only
              refine h.jobs.trans ?_
              rw [List.map_append]
              refine (hperm.append_right _).trans ?_
              rw [List.cons_append]
              refine List.perm_middle.symm.trans ?_
              rw [← List.append_assoc]
              exact (List.Perm.append_left rest (List.perm_append_singleton _ _).symm).trans
                (by simp)
            · intro k
              simp only [recorded, List.dropLast_concat]
              exact h.sub k
            · intro k
              simp only [recorded, List.dropLast_concat]
              exact h.count k
            · rintro x' r' e' hx
              simp only [AshaPc.got.injEq] at hx
              obtain ⟨rfl, rfl, rfl⟩ := hx
              dsimp only
              rw [List.dropLast_concat]
  | got x rung r =>
    have hh := hgot x rung r hpc
    have hr : recorded s = s.history.dropLast := by unfold recorded; rw [hpc]
    rw [hr] at h
    cases r with
    | failed =>
      have he : ∀ k, evaluatedOn k s.history = evaluatedOn k s.history.dropLast := by
        intro k
        conv_lhs => rw [hh]
        rw [evaluatedOn_append]
        simp [evaluatedOn]
      refine ⟨⟨h.keysR, h.keysP, ?_, h.jobs, h.onLevel, h.nodup, ?_, ?_, h.top, h.base, h.sent⟩,
        fun x r e hx => by cases hx⟩
      · intro k hk
        rw [h.entries k hk]
        exact congrArg some (he k).symm
      · intro k
        show _ ⊆ evaluatedOn k s.history
        rw [he]
        exact h.sub k
      · intro k
        show _ ≤ (evaluatedOn k s.history).length / c.rf
        rw [he]
        exact h.count k
    | result b score =>
      have he : ∀ k, evaluatedOn k s.history = if rung = k
          then evaluatedOn k s.history.dropLast ++ [(score, x)] else evaluatedOn k s.history.dropLast := by
        intro k
        conv_lhs => rw [hh]
        rw [evaluatedOn_append]
        by_cases e : rung = k <;> simp [evaluatedOn, e]
      have hlev : rung ∈ c.levels := by
        refine h.onLevel (x, rung) (h.jobs.mem_iff.2 (List.mem_append_right _ ?_))
        rw [hh]
        simp
      dsimp only
      rw [h.entries rung hlev]
      refine ⟨⟨?_, h.keysP, ?_, h.jobs, h.onLevel, h.nodup, ?_, ?_, h.top, h.base, h.sent⟩,
        fun x r e hx => by cases hx⟩
      · show (dset s.rungs rung _).map Prod.fst = _
        rw [keys_dset_of_mem (by rw [h.keysR]; exact hlev), h.keysR]
      · intro k hk
        show dget (dset s.rungs rung _) k = some (evaluatedOn k s.history)
        rw [dget_dset, he]
        by_cases e : rung = k
        · subst e; simp
        · simp only [e, if_false]
          exact h.entries k hk
      · intro k
        show _ ⊆ evaluatedOn k s.history
        rw [he]
        by_cases e : rung = k
        · rw [if_pos e]
          exact fun y hy => List.mem_append_left _ (h.sub k hy)
        · rw [if_neg e]
          exact h.sub k
      · intro k
        show _ ≤ (evaluatedOn k s.history).length / c.rf
        rw [he]
        by_cases e : rung = k
        · rw [if_pos e]
          refine (h.count k).trans (Nat.div_le_div_right ?_)
          simp
        · rw [if_neg e]
          exact h.count k
  | returned l => exact hs
  | raised e => exact hs

theorem ashaOK_run (o : SearchOps σ ι) (c : AshaConfig) (cands : List ι) :
    ∀ (is : List (AshaInput σ)) (s : Asha σ ι), AshaOK c cands s →
      AshaOK c cands (ashaRun o c is s) := by
  intro is
  induction is with
  | nil => intro s h; exact h
  | cons i is ih => intro s h; exact ih _ (ashaOK_step o c cands s i h)

omit [DecidableEq ι] in
theorem dget_map_nil (l : List Nat) (k : Nat) :
    dget (l.map fun k => (k, ([] : List (RungEntry ι)))) k = if k ∈ l then some [] else none := by
  induction l with
  | nil => rfl
  | cons a t ih =>
    by_cases e : a = k
    · simp [dget, e]
    · have : k ≠ a := fun h => e h.symm
      simp [dget, e, ih, this]

theorem ashaOK_start (c : AshaConfig) (cands : List ι) (w : σ) : AshaOK c cands (ashaStart c cands w) := by
  have hd : ∀ k, (dget (c.levels.map fun k => (k, ([] : List (RungEntry ι)))) k).getD [] = [] := by
    intro k
    rw [dget_map_nil]
    split <;> rfl
  refine ⟨⟨?_, ?_, ?_, List.Perm.refl _, fun p hp => (by cases hp), ?_, ?_, ?_, hd _, Or.inl rfl, ?_⟩,
    fun x r e hx => by cases hx⟩
  · simp [ashaStart, Function.comp_def]
  · simp [ashaStart, Function.comp_def]
  · intro k hk
    show dget (c.levels.map fun k => (k, [])) k = some []
    rw [dget_map_nil, if_pos hk]
  · intro k
    show ((dget (c.levels.map fun k => (k, [])) k).getD []).Nodup
    rw [hd]
    exact List.Pairwise.nil
  · intro k
    show (dget (c.levels.map fun k => (k, [])) k).getD [] ⊆ _
    rw [hd]
    simp
  · intro k
    show ((dget (c.levels.map fun k => (k, [])) k).getD []).length ≤ _
    rw [hd]
    simp
  · intro k _
    show _ = ((dget (c.levels.map fun k => (k, [])) k).getD []).map _
    rw [hd]
    rfl

/-! ## C39 -/

/-- **C39.** At any time at most a `1 / reduction_factor` part of the evaluations of a rung is
promoted, no evaluation twice, nothing out of the top rung; the jobs of the next rung are exactly
the promoted individuals, in order. -/
theorem C39_promotions (o : SearchOps σ ι) (c : AshaConfig) (cands : List ι) (w : σ)
    (is : List (AshaInput σ)) (s : Asha σ ι) (hs : s = ashaRun o c is (ashaStart c cands w)) (k : Nat) :
    (promotedFrom s k).length ≤ (evaluatedOn k (recorded s)).length / c.rf ∧
    (promotedFrom s k).Nodup ∧ promotedFrom s k ⊆ evaluatedOn k (recorded s) ∧
    promotedFrom s c.maxRung = [] ∧
    (c.rate ≤ k → jobsOn (k + 1) s.submitted = (promotedFrom s k).map Prod.snd) ∧
    ∀ p ∈ s.submitted, c.rate ≤ p.2 ∧ p.2 ≤ c.maxRung := by
  have h := (ashaOK_run o c cands is _ (ashaOK_start c cands w)).core
  rw [← hs] at h
  exact ⟨h.count k, h.nodup k, h.sub k, h.top, h.sent k, fun p hp => mem_levels.1 (h.onLevel p hp)⟩


/-- **C39.** Every promotion takes a best evaluation among those of the rung that were not promoted
before, and sends its individual to the next rung. -/
theorem C39_best (o : SearchOps σ ι) (c : AshaConfig) (cands : List ι) (w : σ)
    (is : List (AshaInput σ)) (i : AshaInput σ) (s s' : Asha σ ι)
    (hs : s = ashaRun o c is (ashaStart c cands w)) (hs' : s' = ashaStep o c i s) (k : Nat) :
    promotedFrom s' k = promotedFrom s k ∨
    ∃ x, promotedFrom s' k = promotedFrom s k ++ [x] ∧ x ∈ evaluatedOn k s.history ∧
      x ∉ promotedFrom s k ∧ (∀ y ∈ evaluatedOn k s.history, y ∉ promotedFrom s k → y.1 ≤ x.1) ∧
      s'.submitted = s.submitted ++ [(x.2, k + 1)] := by
  have h := (ashaOK_run o c cands is _ (ashaOK_start c cands w)).core
  rw [← hs] at h
  have start : recorded s = s.history → ∀ r t, startJob o c i.pick s = (r, t) →
      ∀ pc, s' = { t with pc := pc } → promotedFrom s' k = promotedFrom s k ∨
        ∃ x, promotedFrom s' k = promotedFrom s k ++ [x] ∧ x ∈ evaluatedOn k s.history ∧
          x ∉ promotedFrom s k ∧
          (∀ y ∈ evaluatedOn k s.history, y ∉ promotedFrom s k → y.1 ≤ x.1) ∧
          s'.submitted = s.submitted ++ [(x.2, k + 1)] := by
    intro hr r t hj pc hs'
    rw [hr] at h
    have hdict : DictOK s.rungs := by unfold DictOK; rw [h.keysR]; exact levels_nodup c
    cases hf : findPromotion c.rf i.pick s.promoted s.rungs.tail with
    | none =>
      have base : ∀ (q : Except Exn (ι × Nat)) (cs : List ι) (w' : σ),
          getJob o c i.pick s = (q, { s with candidates := cs, world := w' }) →
          promotedFrom s' k = promotedFrom s k := by
        intro q cs w' hg
        cases q with
        | error e =>
          unfold startJob at hj
          rw [bind_error hg] at hj
          obtain ⟨_, rfl⟩ := Prod.mk.inj hj
          rw [hs']
          rfl
        | ok x =>
          unfold startJob at hj
          rw [bind_ok hg] at hj
          dsimp only at hj
          split at hj
          · obtain ⟨_, rfl⟩ := Prod.mk.inj hj
            rw [hs']
            rfl
          · obtain ⟨_, rfl⟩ := Prod.mk.inj hj
            rw [hs']
            rfl
      left
      cases hl : s.candidates.getLast? with
      | some x =>
        exact base (.ok (x, c.rate)) s.candidates.dropLast s.world
          (by unfold getJob; rw [hf]; dsimp only; rw [hl])
      | none =>
        cases ho : o.individual s.world with
        | mk q w' =>
          cases q with
          | ok x =>
            exact base (.ok (x, c.rate)) s.candidates w'
              (by unfold getJob; rw [hf]; dsimp only; rw [hl]; dsimp only; rw [ho])
          | error e =>
            exact base (.error e) s.candidates w'
              (by unfold getJob; rw [hf]; dsimp only; rw [hl]; dsimp only; rw [ho])
    | some p =>
      obtain ⟨rung, x⟩ := p
      obtain ⟨inds, hm, hlt, hx, hnew, hbest⟩ := findPromotion_some hf
      have hrung : rung ∈ c.levels.tail := by
        rw [← h.keysR, ← List.map_tail]
        exact List.mem_map.2 ⟨_, hm, rfl⟩
      obtain ⟨hlo, hhi⟩ := levels_tail hrung
      have hlev : rung ∈ c.levels := List.mem_of_mem_tail hrung
      have hup : rung + 1 ∈ c.levels := mem_levels.2 ⟨by omega, by omega⟩
      have hinds : inds = evaluatedOn rung s.history := by
        have := dget_of_mem hdict (List.mem_of_mem_tail hm)
        rw [h.entries rung hlev] at this
        exact (Option.some.inj this).symm
      subst hinds
      have hg : getJob o c i.pick s = (.ok (x.2, rung + 1), { s with
          promoted := dset s.promoted rung ((dget s.promoted rung).getD [] ++ [x]) }) := by
        unfold getJob; rw [hf]
      unfold startJob at hj
      rw [bind_ok hg] at hj
      dsimp only at hj
      rw [if_pos hup] at hj
      obtain ⟨_, rfl⟩ := Prod.mk.inj hj
      subst hs'
      unfold promotedFrom
      dsimp only
      by_cases e : rung = k
      · subst e
        exact Or.inr ⟨x, by rw [dget_dset]; simp, hx, hnew, hbest, rfl⟩
      · exact Or.inl (by rw [dget_dset, if_neg e])
  unfold ashaStep at hs'
  cases hpc : s.pc with
  | starting j =>
    have hr : recorded s = s.history := by unfold recorded; rw [hpc]
    rw [hpc] at hs'
    cases j with
    | zero => left; rw [hs']; rfl
    | succ j =>
      dsimp only at hs'
      cases hj : startJob o c i.pick s with
      | mk r t =>
        rw [hj] at hs'
        cases r <;> exact start hr _ t hj _ hs'
  | next =>
    have hr : recorded s = s.history := by unfold recorded; rw [hpc]
    rw [hpc] at hs'
    dsimp only at hs'
    cases hj : startJob o c i.pick s with
    | mk r t =>
      rw [hj] at hs'
      cases r <;> exact start hr _ t hj _ hs'
  | loop =>
    left
    rw [hpc] at hs'
    dsimp only at hs'
    cases hm : ashaMore c s with
    | error e => rw [hm] at hs'; rw [hs']; rfl
    | ok b =>
      rw [hm] at hs'
      cases b with
      | false =>
        dsimp only at hs'
        split at hs' <;> rw [hs'] <;> rfl
      | true =>
        dsimp only at hs'
        split at hs'
        · rw [hs']; rfl
        · split at hs' <;> rw [hs'] <;> rfl
  | got x r e =>
    left
    rw [hpc] at hs'
    cases e with
    | failed => rw [hs']; rfl
    | result b sc =>
      dsimp only at hs'
      split at hs' <;> rw [hs'] <;> rfl
  | returned l => left; rw [hpc] at hs'; rw [hs']
  | raised e => left; rw [hpc] at hs'; rw [hs']

/-- **C37** for ASHA: the jobs of the lowest rung are the individuals of the previous population,
last one first, before any new ones. -/
theorem C37_asha_partial (o : SearchOps σ ι) (c : AshaConfig) (pop : List ι) (w : σ)
    (is : List (AshaInput σ)) (s : Asha σ ι) (hs : s = ashaRun o c is (ashaStart c pop w)) :
    jobsOn c.rate s.submitted <+: pop.reverse ∨ pop.reverse <+: jobsOn c.rate s.submitted := by
  have h := (ashaOK_run o c pop is _ (ashaOK_start c pop w)).core.base
  rw [← hs] at h
  rcases h with h | h | h
  · left
    rw [← h]
    exact List.prefix_append _ _
  · exact Or.inr h.2
  · left
    rw [h.2]
    exact List.nil_prefix

/-! ## C40 -/

theorem rungUp_spec {b r R : ℚ} : ∀ (fuel k : Nat), (∀ j < k, r * b ^ j < R) →
    R ≤ r * b ^ (k + fuel) → R ≤ r * b ^ rungUp b r R fuel k ∧ ∀ j < rungUp b r R fuel k, r * b ^ j < R := by
  intro fuel
  induction fuel with
  | zero => intro k h1 h2; exact ⟨h2, h1⟩
  | succ fuel ih =>
    intro k h1 h2
    unfold rungUp
    split
    · rename_i h
      exact ⟨h, h1⟩
    · rename_i h
      refine ih (k + 1) (fun j hj => ?_) (by rw [Nat.add_right_comm]; exact h2)
      rcases Nat.lt_succ_iff_lt_or_eq.1 hj with hj | rfl
      · exact h1 j hj
      · exact not_le.1 h

theorem le_pow_rat {b : ℚ} (hb : 2 ≤ b) (n : Nat) : (n : ℚ) ≤ b ^ n := by
  have h1 : (n : ℚ) ≤ 2 ^ n := by exact_mod_cast (Nat.lt_two_pow_self (n := n)).le
  exact h1.trans (pow_le_pow_left₀ (by norm_num) hb n)

/-- How much a resource is: a number of rows, or a fraction of them. -/
def Spec.amount : Resource → ℚ
  | .rows n => n
  | .fraction q => q

theorem amount_val (r : Resource) : Spec.amount r = r.val := by cases r <;> rfl

/-- **C40.** For `0 < minimum ≤ maximum` and a reduction factor of at least two: the rungs are
numbered from the early stopping rate to `max_rung`; rung `k` gets `minimum * factor ^ k` if that
is below the maximum, and that is so exactly below the top rung, which gets the maximum. -/
theorem C40_resources (rf rate : Nat) (hrf : 2 ≤ rf) (r R : Resource) (ht : r.sameType R = true)
    (hr : 0 < Spec.amount r) (hR : Spec.amount r ≤ Spec.amount R) :
    ∃ (m : Nat) (res : List (Nat × ℚ)), ashaSetup rf rate r R = .ok ((m : Int), res) ∧
      res.map Prod.fst = (List.range (m + 1)).filter (fun k => rate ≤ k) ∧
      (∀ k q, (k, q) ∈ res → q ≤ Spec.amount R ∧ Spec.amount r ≤ q ∧
        (k < m → q = Spec.amount r * (rf : ℚ) ^ k ∧ q < Spec.amount R) ∧ (k = m → q = Spec.amount R)) ∧
      (rate ≤ m → ∃ l, res = l ++ [(m, Spec.amount R)]) := by
  simp only [amount_val] at *
  have hrf' : (2 : ℚ) ≤ rf := by exact_mod_cast hrf
  have hpos : 0 < R.val / r.val := div_pos (lt_of_lt_of_le hr hR) hr
  have hm : maxRung rf r.val R.val = .ok (rungUp rf r.val R.val (R.val / r.val).ceil.toNat 0 : Nat) := by
    unfold maxRung
    rw [if_neg (ne_of_gt hr), if_neg (not_le.2 hpos), if_neg (by omega), if_neg (by omega), if_pos hR]
  obtain ⟨h1, h2⟩ := rungUp_spec (b := (rf : ℚ)) (r := r.val) (R := R.val)
    (R.val / r.val).ceil.toNat 0 (fun j hj => absurd hj (Nat.not_lt_zero _)) (by
      rw [Nat.zero_add]
      have hc : R.val / r.val ≤ ((R.val / r.val).ceil.toNat : ℚ) := by
        have h1 : R.val / r.val ≤ ((R.val / r.val).ceil : ℚ) := Rat.le_ceil
        have h2 : ((R.val / r.val).ceil : ℚ) ≤ (((R.val / r.val).ceil.toNat : Int) : ℚ) := by
          exact_mod_cast Int.self_le_toNat _
        exact h1.trans (by exact_mod_cast h2)
      have := hc.trans (le_pow_rat hrf' _)
      rw [div_le_iff₀ hr] at this
      linarith)
  generalize rungUp rf r.val R.val (R.val / r.val).ceil.toNat 0 = m at hm h1 h2
  refine ⟨m, rungResources rf r.val R.val (rungRange rate m), ?_, ?_, ?_, ?_⟩
  · unfold ashaSetup
    rw [if_pos ht, hm]
  · unfold rungResources rungRange
    rw [List.map_map]
    have : ((m : Int) + 1).toNat = m + 1 := by omega
    rw [this]
    simp [Function.comp_def]
  · intro k q hq
    unfold rungResources at hq
    obtain ⟨k', hk', e⟩ := List.mem_map.1 hq
    obtain ⟨rfl, rfl⟩ := Prod.mk.inj e
    have hpow : r.val ≤ r.val * (rf : ℚ) ^ k' :=
      le_mul_of_one_le_right hr.le (one_le_pow₀ (by linarith))
    refine ⟨min_le_right _ _, le_min hpow hR, fun hlt => ?_, ?_⟩
    · have := h2 k' hlt
      exact ⟨min_eq_left this.le, by rw [min_eq_left this.le]; exact this⟩
    · rintro rfl
      exact min_eq_right h1
  · intro hle
    refine ⟨rungResources rf r.val R.val ((List.range m).filter fun k => rate ≤ k), ?_⟩
    unfold rungResources rungRange
    have : ((m : Int) + 1).toNat = m + 1 := by omega
    rw [this, List.range_succ, List.filter_append, List.map_append]
    simp [hle, h1]

/-- **C40** for an inexact logarithm: whatever number of rungs `m` comes out, resources never exceed
the maximum, start at the minimum scaled by the early stopping rate (capped) and grow by the
reduction factor (capped); the top rung gets the maximum as long as `m` is not below the exact
value. -/
theorem C40_rounded_partial (rf rate m : Nat) (hrf : 2 ≤ rf) (r R : ℚ) (hr : 0 < r) (hR : r ≤ R) :
    (∀ k q, (k, q) ∈ rungResources rf r R (rungRange rate m) → r ≤ q ∧ q ≤ R ∧ rate ≤ k ∧ k ≤ m ∧
      (k = rate → q = min (r * (rf : ℚ) ^ rate) R) ∧
      ∀ q', (k + 1, q') ∈ rungResources rf r R (rungRange rate m) → q' = min (rf * q) R) ∧
    (∀ k, rate ≤ k → k ≤ m → ∃ q, (k, q) ∈ rungResources rf r R (rungRange rate m)) ∧
    (R ≤ r * (rf : ℚ) ^ m → ∀ q, (m, q) ∈ rungResources rf r R (rungRange rate m) → q = R) := by
  have hrf' : (1 : ℚ) ≤ rf := by exact_mod_cast (by omega : 1 ≤ rf)
  have hmem : ∀ k q, (k, q) ∈ rungResources rf r R (rungRange rate m) ↔
      rate ≤ k ∧ k ≤ m ∧ q = min (r * (rf : ℚ) ^ k) R := by
    intro k q
    unfold rungResources rungRange
    have : ((m : Int) + 1).toNat = m + 1 := by omega
    rw [this]
    simp only [List.mem_map, List.mem_filter, List.mem_range, decide_eq_true_eq, Prod.mk.injEq]
    constructor
    · rintro ⟨k', ⟨h1, h2⟩, rfl, rfl⟩
      exact ⟨h2, by omega, rfl⟩
    · rintro ⟨h1, h2, rfl⟩
      exact ⟨k, ⟨by omega, h1⟩, rfl, rfl⟩
  refine ⟨fun k q hq => ?_, fun k h1 h2 => ⟨_, (hmem k _).2 ⟨h1, h2, rfl⟩⟩, fun hm q hq => ?_⟩
  · obtain ⟨h1, h2, rfl⟩ := (hmem k q).1 hq
    have hpow : r ≤ r * (rf : ℚ) ^ k := le_mul_of_one_le_right hr.le (one_le_pow₀ hrf')
    refine ⟨le_min hpow hR, min_le_right _ _, h1, h2, fun e => by rw [e], fun q' hq' => ?_⟩
    obtain ⟨_, _, rfl⟩ := (hmem (k + 1) q').1 hq'
    rw [pow_succ]
    rcases le_total (r * (rf : ℚ) ^ k) R with h | h
    · rw [min_eq_left h]
      congr 1
      ring
    · rw [min_eq_right h, min_eq_right, min_eq_right]
      · exact le_mul_of_one_le_left (hr.le.trans hR) hrf'
      · calc R ≤ r * (rf : ℚ) ^ k := h
          _ ≤ r * ((rf : ℚ) ^ k * rf) := by
            rw [← mul_assoc]
            exact le_mul_of_one_le_right (hr.le.trans hpow) hrf'
  · obtain ⟨_, _, rfl⟩ := (hmem m q).1 hq
    exact min_eq_right hm

theorem rungDown_spec {b r R : ℚ} : ∀ (fuel k : Nat), (∀ j, j ≤ k → R * b ^ j ≤ r) →
    r < R * b ^ (k + fuel + 1) → (∀ j, j ≤ rungDown b r R fuel k → R * b ^ j ≤ r) ∧
      r < R * b ^ (rungDown b r R fuel k + 1) := by
  intro fuel
  induction fuel with
  | zero => intro k h1 h2; exact ⟨h1, h2⟩
  | succ fuel ih =>
    intro k h1 h2
    unfold rungDown
    split
    · rename_i h
      refine ih (k + 1) (fun j hj => ?_) (by rw [Nat.add_right_comm k 1 fuel]; exact h2)
      rcases Nat.le_succ_iff.1 hj with hj | rfl
      · exact h1 j hj
      · exact h
    · rename_i h
      exact ⟨h1, not_le.1 h⟩

/-- **C40** the other way round, for a minimum above the maximum: nothing is refused. There is a
single rung, with the maximum, if the two are less than the reduction factor apart (and no early
stopping rate is given); otherwise there is no rung at all. -/
theorem C40_reversed (rf rate : Nat) (hrf : 2 ≤ rf) (r R : Resource) (ht : r.sameType R = true)
    (hR : 0 < Spec.amount R) (hr : Spec.amount R < Spec.amount r) :
    ∃ (m : Int) (res : List (Nat × ℚ)), ashaSetup rf rate r R = .ok (m, res) ∧
      (rate = 0 ∧ Spec.amount r < Spec.amount R * rf → m = 0 ∧ res = [(0, Spec.amount R)]) ∧
      (¬ (rate = 0 ∧ Spec.amount r < Spec.amount R * rf) → res = []) := by
  simp only [amount_val] at *
  have hrf' : (2 : ℚ) ≤ rf := by exact_mod_cast hrf
  have hr0 : 0 < r.val := hR.trans hr
  have hpos : 0 < R.val / r.val := div_pos hR hr0
  have hm : maxRung rf r.val R.val =
      .ok (-(rungDown rf r.val R.val (r.val / R.val).ceil.toNat 0 : Nat)) := by
    unfold maxRung
    rw [if_neg (ne_of_gt hr0), if_neg (not_le.2 hpos), if_neg (by omega), if_neg (by omega),
      if_neg (not_le.2 hr)]
  obtain ⟨h1, h2⟩ := rungDown_spec (b := (rf : ℚ)) (r := r.val) (R := R.val)
    (r.val / R.val).ceil.toNat 0 (fun j hj => by
      rw [Nat.le_zero.1 hj, pow_zero, mul_one]; exact hr.le) (by
      rw [Nat.zero_add]
      have hc : r.val / R.val ≤ ((r.val / R.val).ceil.toNat : ℚ) := by
        have h1 : r.val / R.val ≤ ((r.val / R.val).ceil : ℚ) := Rat.le_ceil
        have h2 : ((r.val / R.val).ceil : ℚ) ≤ (((r.val / R.val).ceil.toNat : Int) : ℚ) := by
          exact_mod_cast Int.self_le_toNat _
        exact h1.trans (by exact_mod_cast h2)
      have hb := hc.trans (le_pow_rat hrf' _)
      rw [div_le_iff₀ hR] at hb
      have hp : 0 < (rf : ℚ) ^ (r.val / R.val).ceil.toNat := pow_pos (by linarith) _
      rw [pow_succ]
      nlinarith [mul_pos hR hp])
  generalize rungDown rf r.val R.val (r.val / R.val).ceil.toNat 0 = d at hm h1 h2
  refine ⟨-(d : Int), rungResources rf r.val R.val (rungRange rate (-(d : Int))), ?_, ?_, ?_⟩
  · unfold ashaSetup
    rw [if_pos ht, hm]
  · rintro ⟨rfl, hlt⟩
    have hd : d = 0 := by
      by_contra hne
      have := h1 1 (by omega)
      rw [pow_one] at this
      linarith
    subst hd
    refine ⟨rfl, ?_⟩
    have : rungRange 0 (-((0 : Nat) : Int)) = [0] := rfl
    rw [this]
    unfold rungResources
    simp [hr.le]
  · intro hno
    have : rungRange rate (-(d : Int)) = [] := by
      unfold rungRange
      rw [List.filter_eq_nil_iff]
      intro k hk
      rw [List.mem_range] at hk
      simp only [decide_eq_true_eq]
      intro hle
      apply hno
      have hd : d = 0 := by omega
      subst hd
      refine ⟨by omega, ?_⟩
      rw [Nat.zero_add, pow_one] at h2
      exact h2
    rw [this]
    rfl

/-- 100 to 50 rows: one rung; 100 to 10 rows: none. -/
example : ashaSetup 3 0 (.rows 100) (.rows 50) = .ok (0, [(0, 50)]) ∧
    ashaSetup 3 0 (.rows 100) (.rows 10) = .ok (-2, []) := by
  decide +kernel

/-- **C40.** Resources of different kinds are refused. -/
theorem C40_types (rf rate : Nat) (r R : Resource) (ht : r.sameType R = false) :
    ashaSetup rf rate r R = .error .valueError := by
  unfold ashaSetup
  rw [ht]
  rfl

/-- **C40.** Only evaluations on the top rung count as full evaluations, and errors are kept. -/
theorem C40_full (rung m : Nat) (e : Option Str) :
    (rungError rung m e = none ↔ e = none ∧ rung = m) ∧ (e ≠ none → rungError rung m e = e) := by
  unfold rungError
  cases e with
  | some x => simp
  | none => by_cases h : rung = m <;> simp [h]

/-- The default settings: 0.125, 0.375, 1.0. -/
example : ashaSetup 3 0 (.fraction (1/8)) (.fraction 1) = .ok (2, [(0, 1/8), (1, 3/8), (2, 1)]) := by
  decide +kernel

/-- 100 to 1000 rows, skipping a rung. -/
example : ashaSetup 3 1 (.rows 100) (.rows 1000) = .ok (3, [(1, 300), (2, 900), (3, 1000)]) := by
  decide +kernel

/-! ## C41 -/

theorem find_highest {c : AshaConfig} {h : List (ι × Nat × Completion)}
    {rungs : List (Nat × List (RungEntry ι))} (hk : rungs.map Prod.fst = c.levels)
    (he : ∀ k ∈ c.levels, dget rungs k = some (evaluatedOn k h))
    (hl : ∀ j, evaluatedOn j h ≠ [] → j ∈ c.levels) :
    (∀ k, HighestReached h k → rungs.find? (fun x => 0 < x.2.length) = some (k, evaluatedOn k h)) ∧
    ((∀ k, evaluatedOn k h = []) → rungs.find? (fun x => 0 < x.2.length) = none) := by
  have hdict : DictOK rungs := by unfold DictOK; rw [hk]; exact levels_nodup c
  have hmem : ∀ p ∈ rungs, p.2 = evaluatedOn p.1 h := by
    intro p hp
    have h1 := dget_of_mem hdict (k := p.1) (v := p.2) hp
    rw [he p.1 (by rw [← hk]; exact List.mem_map.2 ⟨p, hp, rfl⟩)] at h1
    exact (Option.some.inj h1).symm
  have hsort : rungs.Pairwise (fun a b => b.1 < a.1) := by
    have := levels_sorted c
    rw [← hk, List.pairwise_map] at this
    exact this
  constructor
  · rintro k ⟨hne, hhi⟩
    have hkl := hl k hne
    have hin : (k, evaluatedOn k h) ∈ rungs := dget_mem (he k hkl)
    obtain ⟨as, bs, hab⟩ := List.append_of_mem hin
    rw [List.find?_eq_some_iff_append]
    refine ⟨by simpa using List.length_pos_iff.2 hne, as, bs, hab, ?_⟩
    intro a ha
    have ham : a ∈ rungs := by rw [hab]; simp [ha]
    have hlt : k < a.1 := by
      rw [hab, List.pairwise_append] at hsort
      exact hsort.2.2 a ha _ (List.mem_cons_self ..)
    rw [hmem a ham, hhi a.1 hlt]
    simp
  · intro hall
    rw [List.find?_eq_none]
    intro p hp
    rw [hmem p hp, hall]
    simp

omit [DecidableEq ι] in
theorem mem_evaluatedOn {k : Nat} : ∀ {h : List (ι × Nat × Completion)}, evaluatedOn k h ≠ [] →
    ∃ e ∈ h, e.2.1 = k := by
  intro h
  induction h with
  | nil => intro hn; exact absurd rfl hn
  | cons p h ih =>
    obtain ⟨x, r, e⟩ := p
    intro hn
    by_cases hr : r = k
    · exact ⟨_, List.mem_cons_self .., hr⟩
    · have : evaluatedOn k h ≠ [] := by
        cases e with
        | failed => exact hn
        | result b s => simpa [evaluatedOn, hr] using hn
      obtain ⟨e', he', hk⟩ := ih this
      exact ⟨e', List.mem_cons_of_mem _ he', hk⟩

theorem AshaOK.levelOf {c : AshaConfig} {cands : List ι} {s : Asha σ ι} (h : AshaOK c cands s) (j : Nat)
    (hj : evaluatedOn j (recorded s) ≠ []) : j ∈ c.levels := by
  obtain ⟨e, he, rfl⟩ := mem_evaluatedOn hj
  have hin : e ∈ s.history := by
    unfold recorded at he
    split at he
    · exact List.mem_of_mem_dropLast he
    · exact he
  exact h.core.onLevel (e.1, e.2.1) (h.core.jobs.mem_iff.2
    (List.mem_append_right _ (List.mem_map.2 ⟨e, hin, rfl⟩)))

theorem handle_timeout {c : AshaConfig} {cands : List ι} {s : Asha σ ι} (h : AshaOK c cands s) :
    (∀ k, HighestReached (recorded s) k →
      ashaHandle s.rungs .timeout = .returned ((evaluatedOn k (recorded s)).map Prod.snd)) ∧
    ((∀ k, evaluatedOn k (recorded s) = []) → ashaHandle s.rungs .timeout = .raised .unboundLocal) := by
  obtain ⟨h1, h2⟩ := find_highest h.core.keysR h.core.entries h.levelOf
  constructor
  · intro k hk
    have hkl := h.levelOf k hk.1
    unfold ashaHandle
    dsimp only
    rw [h1 k hk]
    dsimp only
    unfold ashaReport
    rw [h.core.entries k hkl]
  · intro hall
    unfold ashaHandle
    dsimp only
    rw [h2 hall]

/-- **C41.** in full: interrupted by the end of its time at any point, the search reports the
individuals of a highest rung that was reached. -/
def C41_claim : Prop :=
  ∀ (σ ι : Type) [DecidableEq ι] (o : SearchOps σ ι) (c : AshaConfig) (cands : List ι) (w : σ)
    (is : List (AshaInput σ)), c.rate ≤ c.maxRung →
    (∃ l, ashaInterrupt (ashaRun o c is (ashaStart c cands w)) = .returned l)

/-- **C41 is false**: interrupted before anything was evaluated, `asha` ends with an
`UnboundLocalError`. -/
theorem C41_false : ¬ C41_claim := by
  intro h
  obtain ⟨l, hl⟩ := h Unit Nat Ex.ops ⟨3, 0, 2, none⟩ [] () [] (by simp)
  cases hl

/-- **C41**, where it holds: interrupted by the end of its time at any point after the first
evaluation was entered, the search reports exactly the individuals evaluated on the highest rung
reached. -/
theorem C41_interrupted_partial (o : SearchOps σ ι) (c : AshaConfig) (cands : List ι) (w : σ)
    (is : List (AshaInput σ)) (s : Asha σ ι) (hs : s = ashaRun o c is (ashaStart c cands w)) (k : Nat)
    (hk : HighestReached (recorded s) k) :
    ashaInterrupt s = .returned ((evaluatedOn k (recorded s)).map Prod.snd) := by
  have h := ashaOK_run o c cands is _ (ashaOK_start c cands w)
  rw [← hs] at h
  exact (handle_timeout h).1 k hk

/-- If nothing was entered, an interruption always ends in an `UnboundLocalError`. -/
theorem C41_nothing_evaluated (o : SearchOps σ ι) (c : AshaConfig) (cands : List ι) (w : σ)
    (is : List (AshaInput σ)) (s : Asha σ ι) (hs : s = ashaRun o c is (ashaStart c cands w))
    (hk : ∀ k, evaluatedOn k (recorded s) = []) : ashaInterrupt s = .raised .unboundLocal := by
  have h := ashaOK_run o c cands is _ (ashaOK_start c cands w)
  rw [← hs] at h
  exact (handle_timeout h).2 hk

/-- Something was entered, so there is a highest rung. -/
theorem C41_highest_exists (h : List (ι × Nat × Completion)) (k : Nat) (hk : evaluatedOn k h ≠ []) :
    ∃ j, HighestReached h j := by
  have hb : ∃ B, ∀ e ∈ h, e.2.1 ≤ B := by
    clear hk
    induction h with
    | nil => exact ⟨0, fun e he => by cases he⟩
    | cons p h ih =>
      obtain ⟨B, hB⟩ := ih
      refine ⟨max B p.2.1, fun e he => ?_⟩
      rcases List.mem_cons.1 he with rfl | he
      · exact Nat.le_max_right _ _
      · exact (hB e he).trans (Nat.le_max_left _ _)
  obtain ⟨B, hB⟩ := hb
  have key : ∀ d k, evaluatedOn k h ≠ [] → B < k + d → ∃ j, HighestReached h j := by
    intro d
    induction d with
    | zero =>
      intro k hk hlt
      obtain ⟨e, he, rfl⟩ := mem_evaluatedOn hk
      have := hB e he
      omega
    | succ d ih =>
      intro k hk hlt
      by_cases hh : ∀ j, k < j → evaluatedOn j h = []
      · exact ⟨k, hk, hh⟩
      · obtain ⟨j, hj⟩ := not_forall.1 hh
        obtain ⟨hkj, hj⟩ := Classical.not_imp.1 hj
        exact ih j hj (by omega)
  exact key (B + 1) k hk (by omega)

/-- Invariant: what was returned. -/
def ReturnedOK (c : AshaConfig) (s : Asha σ ι) : Prop :=
  ∀ l, s.pc = .returned l → ∃ k, l = (evaluatedOn k s.history).map Prod.snd ∧
    (HighestReached s.history k ∨
      (k = c.maxRung ∧ ∃ n, c.maxFull = some n ∧ n ≤ (evaluatedOn k s.history).length))

theorem returnedOK_handle {c : AshaConfig} {cands : List ι} {s t : Asha σ ι} {e : Exn}
    (h : AshaOK c cands t) (hr : recorded t = t.history) (hs : s = { t with pc := ashaHandle t.rungs e }) :
    ReturnedOK c s := by
  intro l hl
  subst hs
  dsimp only at hl ⊢
  cases e <;> try cases hl
  have hall : ∃ k, evaluatedOn k t.history ≠ [] := by
    by_contra hn
    have hn' : ∀ k, evaluatedOn k (recorded t) = [] := by
      intro k
      rw [hr]
      by_contra hc
      exact hn ⟨k, hc⟩
    rw [(handle_timeout h).2 hn'] at hl
    cases hl
  obtain ⟨k, hk⟩ := hall
  obtain ⟨j, hj⟩ := C41_highest_exists _ k hk
  have := (handle_timeout h).1 j (by rw [hr]; exact hj)
  rw [this, hr] at hl
  cases hl
  exact ⟨j, rfl, Or.inl hj⟩

theorem returnedOK_step (o : SearchOps σ ι) (c : AshaConfig) (cands : List ι) (s : Asha σ ι)
    (i : AshaInput σ) (h : AshaOK c cands s) (hret : ReturnedOK c s) :
    ReturnedOK c (ashaStep o c i s) := by
  have start : ∀ (hr : recorded s = s.history) (pc : AshaPc ι), (∀ l, pc ≠ .returned l) →
      (∀ x r e, pc ≠ .got x r e) →
      ReturnedOK c (match startJob o c i.pick s with
        | (.error e, s') => { s' with pc := ashaHandle s'.rungs e }
        | (.ok _, s') => { s' with pc := pc }) := by
    intro hr pc hpc hpc'
    have hcore := h.core
    rw [hr] at hcore
    obtain ⟨r, s', hj, _, _, hc⟩ := startJob_ok o c cands i.pick s hcore
    rw [hj]
    cases r with
    | error e =>
      -- the point in the program of the state in between does not matter
      exact returnedOK_handle (t := { s' with pc := .loop }) (hc.ended fun _ _ _ hx => by cases hx) rfl rfl
    | ok _ => exact fun l hl => absurd hl (hpc l)
  unfold ashaStep
  cases hpc : s.pc with
  | starting j =>
    have hr : recorded s = s.history := by unfold recorded; rw [hpc]
    cases j with
    | zero => exact fun l hl => by cases hl
    | succ j =>
      exact start hr _ (fun _ hx => by cases hx) (fun _ _ _ hx => by cases hx)
  | next =>
    have hr : recorded s = s.history := by unfold recorded; rw [hpc]
    exact start hr _ (fun _ hx => by cases hx) (fun _ _ _ hx => by cases hx)
  | loop =>
    have hr : recorded s = s.history := by unfold recorded; rw [hpc]
    dsimp only
    cases hm : ashaMore c s with
    | error e => exact returnedOK_handle h hr rfl
    | ok b =>
      cases b with
      | false =>
        dsimp only
        cases hh : c.levels.head? with
        | none => exact fun l hl => by cases hl
        | some top =>
          intro l hl
          have ht := levels_head hh
          have hlev : top ∈ c.levels := List.mem_of_head? hh
          have hent := h.core.entries top hlev
          rw [hr] at hent
          unfold ashaReport at hl
          dsimp only at hl ⊢
          rw [hent] at hl
          cases hl
          refine ⟨top, rfl, Or.inr ⟨ht, ?_⟩⟩
          unfold ashaMore at hm
          cases hf : c.maxFull with
          | none => rw [hf] at hm; cases hm
          | some n =>
            rw [hf] at hm
            dsimp only at hm
            rw [← ht, hent] at hm
            refine ⟨n, rfl, ?_⟩
            simpa using hm
      | true =>
        dsimp only
        cases i.wait with
        | raises e => exact returnedOK_handle h hr rfl
        | completes k r w =>
          dsimp only
          cases takePending s.pending k with
          | none => exact returnedOK_handle h hr rfl
          | some p => exact fun l hl => by cases hl
  | got x rung r =>
    cases r with
    | failed => exact fun l hl => by cases hl
    | result b score =>
      dsimp only
      split
      · exact fun l hl => by cases hl
      · exact fun l hl => by cases hl
  | returned l => exact hret
  | raised e => exact hret

/-- **C41.** Whenever `asha` returns, with at least one full evaluation asked for, it returns the
individuals evaluated on the highest rung reached. -/
theorem C41_returned_partial (o : SearchOps σ ι) (c : AshaConfig) (hn : ∀ n, c.maxFull = some n → 0 < n)
    (cands : List ι) (w : σ) (is : List (AshaInput σ)) (s : Asha σ ι)
    (hs : s = ashaRun o c is (ashaStart c cands w)) (l : List ι) (hl : s.pc = .returned l) :
    ∃ k, HighestReached s.history k ∧ l = (evaluatedOn k s.history).map Prod.snd := by
  have run : ∀ (is : List (AshaInput σ)) (s : Asha σ ι), AshaOK c cands s → ReturnedOK c s →
      ReturnedOK c (ashaRun o c is s) := by
    intro is
    induction is with
    | nil => intro s _ h; exact h
    | cons i is ih =>
      intro s h1 h2
      exact ih _ (ashaOK_step o c cands s i h1) (returnedOK_step o c cands s i h1 h2)
  have h := run is _ (ashaOK_start c cands w) (fun l hl => by cases hl)
  have hok := ashaOK_run o c cands is _ (ashaOK_start c cands w)
  rw [← hs] at h hok
  obtain ⟨k, hk, hd⟩ := h l hl
  refine ⟨k, ?_, hk⟩
  rcases hd with hd | ⟨rfl, n, hf, hle⟩
  · exact hd
  · have hpos := hn n hf
    refine ⟨fun h0 => ?_, fun j hj => ?_⟩
    · rw [h0] at hle
      simp at hle
      omega
    · by_contra hne
      have hr : recorded s = s.history := by unfold recorded; rw [hl]
      have := hok.levelOf j (by rw [hr]; exact hne)
      have := (mem_levels.1 this).2
      omega

/-- Any exception other than the timeout, such as a KeyboardInterrupt, is replaced by an
`UnboundLocalError`. -/
theorem C41_other_exceptions (o : SearchOps σ ι) (c : AshaConfig) (s : Asha σ ι) (e : Exn)
    (he : e ≠ .timeout) (hpc : s.pc = .loop) (pick : Nat) (hm : ashaMore c s = .ok true) :
    (ashaStep o c ⟨.raises e, pick⟩ s).pc = .raised .unboundLocal := by
  unfold ashaStep
  rw [hpc]
  dsimp only
  rw [hm]
  dsimp only
  unfold ashaHandle
  cases e <;> first | rfl | exact absurd rfl he

/-- Skipping more rungs than there are makes the search fail at its first job. -/
theorem C41_no_rungs (o : SearchOps σ ι) (c : AshaConfig) (hc : c.maxRung < c.rate) (cands : List ι) (w : σ)
    (i : AshaInput σ) : ∃ e, (ashaStep o c i (ashaStart c cands w)).pc = .raised e := by
  have hnil : c.levels = [] := by
    cases hl : c.levels with
    | nil => rfl
    | cons a t =>
      have ha : a ∈ c.levels := by rw [hl]; simp
      have := mem_levels.1 ha
      omega
  have hrate : c.rate ∉ c.levels := by rw [hnil]; simp
  have fail : ∀ r s', startJob o c i.pick (ashaStart c cands w) = (r, s') → s'.rungs = [] ∧ ∃ e, r = .error e := by
    intro r s' hj
    unfold startJob getJob at hj
    simp only [ashaStart, hnil, List.map_nil, List.tail_nil, findPromotion, Bind.bind, PyM.bind] at hj
    split at hj
    · rename_i hg
      split at hg
      · simp only [Prod.mk.injEq, Except.ok.injEq] at hg
        obtain ⟨rfl, rfl⟩ := hg
        simp at hj
        obtain ⟨rfl, rfl⟩ := hj
        exact ⟨rfl, _, rfl⟩
      · split at hg
        · cases hg
        · simp only [Prod.mk.injEq, Except.ok.injEq] at hg
          obtain ⟨rfl, rfl⟩ := hg
          simp at hj
          obtain ⟨rfl, rfl⟩ := hj
          exact ⟨rfl, _, rfl⟩
    · rename_i hg
      split at hg
      · cases hg
      · split at hg
        · simp only [Prod.mk.injEq, Except.error.injEq] at hg
          obtain ⟨rfl, rfl⟩ := hg
          simp only [Prod.mk.injEq] at hj
          obtain ⟨rfl, rfl⟩ := hj
          exact ⟨rfl, _, rfl⟩
        · cases hg
  show ∃ e, (match startJob o c i.pick (ashaStart c cands w) with
    | (.error e, s') => { s' with pc := ashaHandle s'.rungs e }
    | (.ok _, s') => ({ s' with pc := .starting 7 } : Asha σ ι)).pc = .raised e
  cases hj : startJob o c i.pick (ashaStart c cands w) with
  | mk r s' =>
    obtain ⟨h1, e, rfl⟩ := fail r s' hj
    dsimp only
    rw [h1]
    cases e <;> exact ⟨_, rfl⟩

/-- Reduction factor two, all eight jobs come back with scores 0, 1, 2, …: four are promoted while
that happens. -/
def Ex.ashaRun : Asha Unit Nat :=
  Gama.ashaRun Ex.ops ⟨2, 0, 2, none⟩
    ((List.range 33).map fun j => ⟨.completes 0 (.result false (.fin j)) (), 0⟩)
    (ashaStart ⟨2, 0, 2, none⟩ [1, 2, 3] ())

example : (promotedFrom Ex.ashaRun 0).map Prod.snd = [2, 7, 7, 7] ∧
    (jobsOn 1 Ex.ashaRun.submitted) = [2, 7, 7, 7] ∧ (evaluatedOn 0 Ex.ashaRun.history).length = 8 := by
  decide +kernel

/-- Two evaluations later the first evaluation of rung 1 is in. -/
example : (evaluatedOn 1 (recorded (Gama.ashaRun Ex.ops ⟨2, 0, 2, none⟩
      ((List.range 8).map fun j => ⟨.completes 0 (.result false (.fin j)) (), 0⟩) Ex.ashaRun))).map Prod.snd =
      [2] ∧
    (evaluatedOn 2 (recorded (Gama.ashaRun Ex.ops ⟨2, 0, 2, none⟩
      ((List.range 8).map fun j => ⟨.completes 0 (.result false (.fin j)) (), 0⟩) Ex.ashaRun))) = [] := by
  decide +kernel

/-! ### Cases of the theorems above -/

theorem Ex.evaluatedOn_above {ι : Type} {k j : Nat} (hj : k < j) : ∀ h : List (ι × Nat × Completion),
    (∀ e ∈ h, e.2.1 ≤ k) → evaluatedOn j h = [] := by
  intro h
  induction h with
  | nil => intro _; rfl
  | cons e h ih =>
    intro he
    obtain ⟨x, r, c⟩ := e
    have hr : r ≤ k := he _ List.mem_cons_self
    have ih := ih fun e' h' => he e' (List.mem_cons_of_mem _ h')
    cases c with
    | failed => exact ih
    | result b q =>
      show (if r = j then _ else _) = _
      rw [if_neg (by omega)]
      exact ih

/-- What is fed into `Ex.ashaRun`. -/
def Ex.ashaInputs (n : Nat) : List (AshaInput Unit) :=
  (List.range n).map fun j => ⟨.completes 0 (.result false (.fin j)) (), 0⟩

/-- `C39_promotions`: of eight evaluations on the lowest rung four are promoted, as many as may be. -/
example : (promotedFrom Ex.ashaRun 0).length ≤ 8 / 2 ∧ (promotedFrom Ex.ashaRun 0).length = 4 :=
  ⟨(C39_promotions Ex.ops ⟨2, 0, 2, none⟩ [1, 2, 3] () (Ex.ashaInputs 33) Ex.ashaRun rfl 0).1, by decide +kernel⟩

/-- `C39_best`: the step after 14 inputs promotes one more. -/
example : ∃ x,
    promotedFrom (ashaStep Ex.ops ⟨2, 0, 2, none⟩ ⟨.completes 0 (.result false (.fin 14)) (), 0⟩
      (Gama.ashaRun Ex.ops ⟨2, 0, 2, none⟩ (Ex.ashaInputs 14) (ashaStart ⟨2, 0, 2, none⟩ [1, 2, 3] ()))) 0 =
    promotedFrom (Gama.ashaRun Ex.ops ⟨2, 0, 2, none⟩ (Ex.ashaInputs 14) (ashaStart ⟨2, 0, 2, none⟩ [1, 2, 3] ())) 0
      ++ [x] := by
  have h := C39_best Ex.ops ⟨2, 0, 2, none⟩ [1, 2, 3] () (Ex.ashaInputs 14)
    ⟨.completes 0 (.result false (.fin 14)) (), 0⟩ _ _ rfl rfl 0
  rcases h with h | ⟨x, h, _⟩
  · exact absurd (congrArg List.length h) (by decide +kernel)
  · exact ⟨x, h⟩

/-- `C37_asha_partial`: three candidates, which come first, last one first; then new ones. -/
example : [1, 2, 3].reverse <+: jobsOn 0 Ex.ashaRun.submitted := by
  have h := C37_asha_partial Ex.ops ⟨2, 0, 2, none⟩ [1, 2, 3] () (Ex.ashaInputs 33) Ex.ashaRun rfl
  rcases h with h | h
  · exact absurd h.length_le (by decide +kernel)
  · exact h

/-- `C40_resources`: the default, from an eighth of the rows to all. -/
example : ∃ (m : Nat) (res : List (Nat × ℚ)),
    ashaSetup 3 0 (.fraction (1/8)) (.fraction 1) = .ok ((m : Int), res) ∧ ∃ l, res = l ++ [(m, 1)] := by
  obtain ⟨m, res, h1, _, _, h4⟩ := C40_resources 3 0 (by decide) (.fraction (1/8)) (.fraction 1) rfl
    (by norm_num [Spec.amount]) (by norm_num [Spec.amount])
  exact ⟨m, res, h1, h4 (Nat.zero_le _)⟩

/-- `C40_rounded_partial`, with a rung too many. -/
example : ∀ q, (3, q) ∈ rungResources 3 (1/8) 1 (rungRange 0 3) → q = 1 :=
  (C40_rounded_partial 3 0 3 (by decide) (1/8) 1 (by norm_num) (by norm_num)).2.2 (by norm_num)

/-- `C40_types`: a number of rows and a share of them. -/
example : ashaSetup 3 0 (.rows 100) (.fraction 1) = .error .valueError := C40_types 3 0 _ _ rfl

/-- `C41_interrupted_partial`: interrupted when only the lowest rung has evaluations. -/
example : ashaInterrupt Ex.ashaRun = .returned ((evaluatedOn 0 (recorded Ex.ashaRun)).map Prod.snd) ∧
    (evaluatedOn 0 (recorded Ex.ashaRun)).length = 8 :=
  ⟨C41_interrupted_partial Ex.ops ⟨2, 0, 2, none⟩ [1, 2, 3] () (Ex.ashaInputs 33) Ex.ashaRun rfl 0
    ⟨by decide +kernel, fun j hj => Ex.evaluatedOn_above hj _ (by decide +kernel)⟩,
    by decide +kernel⟩

/-- `C41_nothing_evaluated`: interrupted after four jobs were sent. -/
example : ashaInterrupt (Gama.ashaRun Ex.ops ⟨2, 0, 2, none⟩ (Ex.ashaInputs 4)
    (ashaStart ⟨2, 0, 2, none⟩ [1, 2, 3] ())) = .raised .unboundLocal :=
  C41_nothing_evaluated Ex.ops ⟨2, 0, 2, none⟩ [1, 2, 3] () (Ex.ashaInputs 4) _ rfl fun k => by
    have : recorded (Gama.ashaRun Ex.ops ⟨2, 0, 2, none⟩ (Ex.ashaInputs 4)
      (ashaStart ⟨2, 0, 2, none⟩ [1, 2, 3] ())) = [] := by decide +kernel
    rw [this]; rfl

/-- `C41_highest_exists`. -/
example : ∃ j, HighestReached (recorded Ex.ashaRun) j :=
  C41_highest_exists _ 0 (by decide +kernel)

/-- What was returned, if anything. -/
def Ex.returnedBy : AshaPc Nat → Option (List Nat)
  | .returned l => some l
  | _ => none

theorem Ex.returned_of {pc : AshaPc Nat} {l : List Nat} (h : Ex.returnedBy pc = some l) : pc = .returned l := by
  cases pc <;> cases h <;> rfl

/-- `C41_returned_partial`: two rungs, one full evaluation asked for. -/
example : ∃ (s : Asha Unit Nat) (k : Nat), s.pc = .returned [2] ∧ HighestReached s.history k ∧
    [2] = (evaluatedOn k s.history).map Prod.snd := by
  have hl : (Gama.ashaRun Ex.ops ⟨2, 0, 1, some 1⟩ (Ex.ashaInputs 40)
      (ashaStart ⟨2, 0, 1, some 1⟩ [1, 2, 3] ())).pc = .returned [2] := Ex.returned_of (by decide +kernel)
  obtain ⟨k, h1, h2⟩ := C41_returned_partial Ex.ops ⟨2, 0, 1, some 1⟩ (by simp) [1, 2, 3] () (Ex.ashaInputs 40) _
    rfl [2] hl
  exact ⟨_, k, hl, h1, h2⟩

/-- `C41_no_rungs`: rungs 3 to 2. -/
example : ∃ e, (ashaStep Ex.ops ⟨2, 3, 2, none⟩ ⟨.completes 0 (.result false (.fin 1)) (), 0⟩
    (ashaStart ⟨2, 3, 2, none⟩ [1, 2, 3] ())).pc = .raised e :=
  C41_no_rungs Ex.ops ⟨2, 3, 2, none⟩ (by decide) [1, 2, 3] () _

end
end Gama
