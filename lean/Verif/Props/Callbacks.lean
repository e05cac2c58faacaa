import Verif.Model.Callbacks
import Mathlib.Data.List.Infix

/-! # C169: callbacks that register callbacks -/

namespace Gama
namespace Spec
end Spec
open Spec

variable {C : Type}

/-- No call ends with a timeout or an interrupt, or is late. -/
def Spec.NoneStops (act : List C → C → CallAct C) : Prop :=
  ∀ called cb, ((act called cb).ends = .returns ∨ (act called cb).ends = .raises) ∧ (act called cb).late = false

/-- After `n` calls nothing is registered any more. -/
def Spec.RegistersUpTo (n : Nat) (act : List C → C → CallAct C) : Prop :=
  ∀ called cb, n ≤ called.length → (act called cb).registers = []

/-- Everything registered by the calls of a list, in order. -/
def Spec.registeredBy (act : List C → C → CallAct C) : List C → List C → List C
  | _, [] => []
  | before, cb :: cbs => (act before cb).registers ++ Spec.registeredBy act (before ++ [cb]) cbs

theorem noneStops_ok {act : List C → C → CallAct C} (h : NoneStops act) (called : List C) (cb : C) :
    safeOutsideCall (act called cb).ends (act called cb).late = .ok () := by
  obtain ⟨h1, h2⟩ := h called cb
  rcases h1 with h1 | h1 <;> rw [h1, h2] <;> rfl

theorem registeredBy_append (act : List C → C → CallAct C) : ∀ (before l r : List C),
    registeredBy act before (l ++ r) = registeredBy act before l ++ registeredBy act (before ++ l) r
  | before, [], r => by simp [registeredBy]
  | before, x :: l, r => by
    simp only [List.cons_append, registeredBy, List.append_assoc]
    rw [registeredBy_append act (before ++ [x]) l r]
    simp [List.append_assoc]

theorem tellFrom_sound {act : List C → C → CallAct C} (subs0 : List C) : ∀ {fuel : Nat} {called subs : List C}
    {d : Delivered C}, called <+: subs → subs = subs0 ++ registeredBy act [] called →
    tellFrom act fuel called subs = some d →
    d.called <+: d.subscribers ∧ d.subscribers = subs0 ++ registeredBy act [] d.called ∧
      (d.outcome = .ok () → d.called = d.subscribers) ∧
      (∀ e, d.outcome = .error e → ∃ init cb, d.called = init ++ [cb] ∧
        safeOutsideCall (act init cb).ends (act init cb).late = .error e)
  | 0, _, _, _, _, _, h => nomatch h
  | fuel + 1, called, subs, d, hp, hs, h => by
    unfold tellFrom at h
    cases hg : subs[called.length]? with
    | none =>
      rw [hg] at h
      simp only [Option.some.injEq] at h
      subst h
      refine ⟨hp, hs, fun _ => ?_, fun e he => nomatch he⟩
      obtain ⟨r, rfl⟩ := hp
      have := List.getElem?_eq_none_iff.1 hg
      rw [List.length_append] at this
      have hr : r = [] := List.eq_nil_of_length_eq_zero (by omega)
      simp [hr]
    | some cb =>
      rw [hg] at h
      dsimp only at h
      have hp' : called ++ [cb] <+: subs ++ (act called cb).registers := by
        obtain ⟨r, rfl⟩ := hp
        rw [List.getElem?_append_right (Nat.le_refl _), Nat.sub_self] at hg
        cases r with
        | nil => cases hg
        | cons x r =>
          simp only [List.getElem?_cons_zero, Option.some.injEq] at hg
          subst hg
          exact ⟨r ++ (act called x).registers, by simp⟩
      have hs' : subs ++ (act called cb).registers = subs0 ++ registeredBy act [] (called ++ [cb]) := by
        rw [registeredBy_append, hs]
        simp [registeredBy]
      cases hc : safeOutsideCall (act called cb).ends (act called cb).late with
      | error e =>
        rw [hc] at h
        simp only [Option.some.injEq] at h
        subst h
        refine ⟨hp', hs', fun he => (by cases he), fun e' he => ⟨called, cb, rfl, ?_⟩⟩
        rw [hc]; exact he
      | ok u =>
        rw [hc] at h
        exact tellFrom_sound subs0 hp' hs' h

/-- **C169.**  When an evaluation is delivered, the subscribers called are the first ones of the list as it is
afterwards, each once and in the order in which they were registered; and unless a timeout or an interrupt reaches the
search, all of them, those registered by the calls themselves included. -/
theorem C169_told (act : List C → C → CallAct C) (fuel : Nat) (subs : List C) (d : Delivered C)
    (h : tellAll act fuel subs = some d) :
    d.subscribers = subs ++ registeredBy act [] d.called ∧ d.called <+: d.subscribers ∧
      (d.outcome = .ok () → d.called = d.subscribers) ∧
      (∀ e, d.outcome = .error e → (e = .timeout ∨ e = .keyboardInterrupt) ∧
        ∃ init cb, d.called = init ++ [cb] ∧ ((act init cb).ends = .timeout ∨ (act init cb).ends = .interrupt ∨
          (act init cb).late = true)) := by
  obtain ⟨h1, h2, h3, h4⟩ := tellFrom_sound subs List.nil_prefix (by simp [registeredBy]) h
  refine ⟨h2, h1, h3, fun e he => ?_⟩
  obtain ⟨init, cb, e1, e2⟩ := h4 e he
  revert e2
  cases hk : (act init cb).ends <;> cases hl : (act init cb).late <;> intro e2 <;> cases e2 <;>
    exact ⟨by simp, init, cb, e1, by simp [hk, hl]⟩

theorem tellFrom_ends {act : List C → C → CallAct C} {n : Nat} (hr : RegistersUpTo n act) :
    ∀ (k : Nat) (called subs : List C), called.length ≤ subs.length → n ≤ called.length →
      subs.length - called.length = k → ∃ d, tellFrom act (k + 1) called subs = some d
  | 0, called, subs, h1, h2, h3 => by
    have : subs[called.length]? = none := List.getElem?_eq_none_iff.2 (by omega)
    exact ⟨_, by unfold tellFrom; rw [this]⟩
  | k + 1, called, subs, h1, h2, h3 => by
    have hlt : called.length < subs.length := by omega
    unfold tellFrom
    rw [List.getElem?_eq_getElem hlt]
    dsimp only
    cases safeOutsideCall (act called subs[called.length]).ends (act called subs[called.length]).late with
    | error e => exact ⟨_, rfl⟩
    | ok u =>
      dsimp only
      rw [hr called _ h2, List.append_nil]
      exact tellFrom_ends hr k (called ++ [subs[called.length]]) subs (by simp; omega) (by simp; omega) (by simp; omega)

theorem tellFrom_more {act : List C → C → CallAct C} {d : Delivered C} : ∀ {fuel : Nat} {called subs : List C},
    tellFrom act fuel called subs = some d → ∀ more, tellFrom act (fuel + more) called subs = some d
  | 0, _, _, h, _ => nomatch h
  | fuel + 1, called, subs, h, more => by
    rw [show fuel + 1 + more = (fuel + more) + 1 by omega]
    unfold tellFrom at h ⊢
    cases hg : subs[called.length]? with
    | none => rw [hg] at h; exact h
    | some cb =>
      rw [hg] at h
      dsimp only at h ⊢
      cases hc : safeOutsideCall (act called cb).ends (act called cb).late with
      | error e => rw [hc] at h; exact h
      | ok u => rw [hc] at h; exact tellFrom_more h more

theorem tellFrom_reaches {act : List C → C → CallAct C} {n : Nat} (hr : RegistersUpTo n act) :
    ∀ (k : Nat) (called subs : List C), called.length ≤ subs.length → n - called.length = k →
      ∃ fuel d, tellFrom act fuel called subs = some d
  | 0, called, subs, h1, h2 => ⟨_, tellFrom_ends hr _ called subs h1 (by omega) rfl⟩
  | k + 1, called, subs, h1, h2 => by
    by_cases hlt : called.length < subs.length
    · cases hc : safeOutsideCall (act called subs[called.length]).ends (act called subs[called.length]).late with
      | error e =>
        refine ⟨1, ⟨called ++ [subs[called.length]], subs ++ (act called subs[called.length]).registers, .error e⟩, ?_⟩
        unfold tellFrom
        rw [List.getElem?_eq_getElem hlt]
        dsimp only
        rw [hc]
      | ok u =>
        obtain ⟨fuel, d, h⟩ := tellFrom_reaches hr k (called ++ [subs[called.length]])
          (subs ++ (act called subs[called.length]).registers) (by simp; omega) (by simp; omega)
        refine ⟨fuel + 1, d, ?_⟩
        unfold tellFrom
        rw [List.getElem?_eq_getElem hlt]
        dsimp only
        rw [hc]
        exact h
    · have : subs[called.length]? = none := List.getElem?_eq_none_iff.2 (by omega)
      exact ⟨1, _, by unfold tellFrom; rw [this]⟩

/-- **C169.**  If the callbacks stop registering callbacks at some point, the delivery ends, whatever else they do. -/
theorem C169_ends (act : List C → C → CallAct C) (n : Nat) (hr : RegistersUpTo n act) (subs : List C) :
    ∃ fuel d, ∀ more, tellAll act (fuel + more) subs = some d := by
  obtain ⟨fuel, d, h⟩ := tellFrom_reaches hr n [] subs (Nat.zero_le _) (by simp)
  exact ⟨fuel, d, tellFrom_more h⟩

/-- **C169, the limit.**  If every call registers another callback and none is late, the delivery never ends. -/
theorem C169_endless (act : List C → C → CallAct C) (hn : NoneStops act) (hr : ∀ called cb, (act called cb).registers ≠ [])
    (subs : List C) (hs : subs ≠ []) (fuel : Nat) : tellAll act fuel subs = none := by
  have : ∀ (fuel : Nat) (called subs : List C), called.length < subs.length → tellFrom act fuel called subs = none := by
    intro fuel
    induction fuel with
    | zero => intros; rfl
    | succ fuel ih =>
      intro called subs h
      unfold tellFrom
      rw [List.getElem?_eq_getElem h]
      dsimp only
      rw [noneStops_ok hn]
      refine ih _ _ ?_
      have := List.length_pos_iff.2 (hr called subs[called.length])
      simp
      omega
  exact this fuel [] subs (List.length_pos_iff.2 hs)

theorem tellAll_grows {act : List C → C → CallAct C} {fuel : Nat} {subs : List C} {d : Delivered C}
    (h : tellAll act fuel subs = some d) : subs <+: d.subscribers :=
  ⟨_, (C169_told act fuel subs d h).1.symm⟩

theorem tellSearch_grows {acts : Nat → List C → C → CallAct C} {fuel : Nat} : ∀ {n k : Nat} {subs : List C}
    {r : List (List C) × List C × Except Exn Unit}, tellSearch acts fuel n k subs = some r → subs <+: r.2.1
  | 0, k, subs, r, h => by cases h; exact List.prefix_rfl
  | n + 1, k, subs, r, h => by
    unfold tellSearch at h
    cases hd : tellAll (acts k) fuel subs with
    | none => rw [hd] at h; cases h
    | some d =>
      rw [hd] at h
      dsimp only at h
      cases ho : d.outcome with
      | error e => rw [ho] at h; cases h; exact tellAll_grows hd
      | ok u =>
        rw [ho] at h
        dsimp only at h
        cases hr : tellSearch acts fuel n (k + 1) d.subscribers with
        | none => rw [hr] at h; cases h
        | some r' =>
          rw [hr] at h
          cases h
          have hg : d.subscribers <+: r'.2.1 := tellSearch_grows hr
          exact (tellAll_grows hd).trans hg

/-- **C169, over a search.**  A callback that is among the subscribers at some evaluation is told of that and of every
later one, once and at its place, until a timeout or an interrupt reaches the search: all lists of callbacks called are
prefixes of the final list of subscribers, each begins with the one before, and each but the last begins with the
subscribers there were at the start. -/
theorem C169_later (acts : Nat → List C → C → CallAct C) (fuel n k : Nat) (subs : List C)
    (r : List (List C) × List C × Except Exn Unit) (h : tellSearch acts fuel n k subs = some r)
    (hok : r.2.2 = .ok ()) :
    r.1.length = n ∧ List.Pairwise (· <+: ·) r.1 ∧ ∀ l ∈ r.1, subs <+: l ∧ l <+: r.2.1 := by
  induction n generalizing k subs r with
  | zero => cases h; exact ⟨rfl, List.Pairwise.nil, fun l hl => nomatch hl⟩
  | succ n ih =>
    unfold tellSearch at h
    cases hd : tellAll (acts k) fuel subs with
    | none => rw [hd] at h; cases h
    | some d =>
      rw [hd] at h
      dsimp only at h
      cases ho : d.outcome with
      | error e => rw [ho] at h; cases h; cases hok
      | ok u =>
        rw [ho] at h
        dsimp only at h
        cases hr : tellSearch acts fuel n (k + 1) d.subscribers with
        | none => rw [hr] at h; cases h
        | some r' =>
          rw [hr] at h
          cases h
          obtain ⟨i1, i2, i3⟩ := ih (k + 1) d.subscribers r' hr hok
          have hc := (C169_told (acts k) fuel subs d hd).2.2.1 (by rw [ho])
          have hg := tellAll_grows hd
          refine ⟨by simp [i1], List.pairwise_cons.2 ⟨fun l hl => ?_, i2⟩, fun l hl => ?_⟩
          · rw [hc]; exact (i3 l hl).1
          · rcases List.mem_cons.1 hl with rfl | hl
            · rw [hc]
              have hg' : d.subscribers <+: r'.2.1 := tellSearch_grows hr
              exact ⟨hg, hg'⟩
            · exact ⟨hg.trans (i3 l hl).1, (i3 l hl).2⟩

/-- **C169, when the search is stopped.**  If a timeout or an interrupt reaches the search, nothing registered is lost,
the callbacks called are the first ones of the list of subscribers at the end, and all evaluations but the last one
were told to all the subscribers there were. -/
theorem C169_stopped (acts : Nat → List C → C → CallAct C) (fuel n k : Nat) (subs : List C)
    (r : List (List C) × List C × Except Exn Unit) (h : tellSearch acts fuel n k subs = some r)
    (e : Exn) (he : r.2.2 = .error e) :
    (e = .timeout ∨ e = .keyboardInterrupt) ∧ subs <+: r.2.1 ∧
    ∃ init last, r.1 = init ++ [last] ∧ init.length < n ∧ last ≠ [] ∧ last <+: r.2.1 ∧
      init.Pairwise (· <+: ·) ∧ (∀ l ∈ init, subs <+: l ∧ l <+: r.2.1) ∧
      r.2.1 = (init.getLast?.getD subs) ++ registeredBy (acts (k + init.length)) [] last := by
  refine ⟨?_, tellSearch_grows h, ?_⟩ <;> induction n generalizing k subs r with
  | zero => cases h; cases he
  | succ n ih =>
    have hgrow := tellSearch_grows h
    unfold tellSearch at h
    cases hd : tellAll (acts k) fuel subs with
    | none => rw [hd] at h; cases h
    | some d =>
      rw [hd] at h
      dsimp only at h
      obtain ⟨t1, t2, t3, t4⟩ := C169_told (acts k) fuel subs d hd
      cases ho : d.outcome with
      | error e' =>
        rw [ho] at h; cases h; cases he
        obtain ⟨q1, init, cb, q2, _⟩ := t4 e ho
        first
          | exact q1
          | exact ⟨[], d.called, rfl, Nat.succ_pos _, by rw [q2]; simp, t2, List.Pairwise.nil,
              (fun l hl => nomatch hl), t1⟩
      | ok u =>
        rw [ho] at h
        dsimp only at h
        cases hr : tellSearch acts fuel n (k + 1) d.subscribers with
        | none => rw [hr] at h; cases h
        | some r' =>
          rw [hr] at h
          cases h
          have IH := ih (k + 1) d.subscribers r' hr he
          first
            | exact IH
            | (obtain ⟨init, last, i1, i2, i3, i4, i5, i6, i7⟩ := IH
               have hc := t3 (by rw [ho])
               have hg := tellAll_grows hd
               have hg' : d.subscribers <+: r'.2.1 := tellSearch_grows hr
               refine ⟨d.called :: init, last, by simp [i1], by simpa using i2, i3, i4,
                 List.pairwise_cons.2 ⟨fun l hl => by rw [hc]; exact (i6 l hl).1, i5⟩, fun l hl => ?_, ?_⟩
               · rcases List.mem_cons.1 hl with rfl | hl
                 · rw [hc]; exact ⟨hg, hg'⟩
                 · exact ⟨hg.trans (i6 l hl).1, (i6 l hl).2⟩
               · rw [List.length_cons, Nat.add_comm init.length 1, ← Nat.add_assoc]
                 refine i7.trans ?_
                 cases init with
                 | nil => simp [hc]
                 | cons a as =>
                   obtain ⟨z, hz⟩ : ∃ z, (a :: as).getLast? = some z := ⟨_, List.getLast?_eq_some_getLast (by simp)⟩
                   rw [List.getLast?_cons_cons, hz]; rfl)

namespace Ex

/-- The library's and the logger's callbacks, and a user's that registers another one when it is first called; the
callbacks of users raise. -/
def registering (called : List Nat) (cb : Nat) : CallAct Nat :=
  if cb = 2 ∧ called = [0, 1] then ⟨.raises, false, [3]⟩ else ⟨if cb < 2 then .returns else .raises, false, []⟩

end Ex

/-- `C169_told`: the callback registered by the third is called for the same evaluation. -/
example : ∃ d, tellAll Ex.registering 9 [0, 1, 2] = some d ∧ d.called = [0, 1, 2, 3] :=
  ⟨_, rfl, (C169_told Ex.registering 9 [0, 1, 2] _ rfl).2.2.1 rfl⟩

/-- `C169_ends` -/
example : RegistersUpTo 3 Ex.registering := by
  intro called cb h
  unfold Ex.registering
  rw [if_neg]
  rintro ⟨_, rfl⟩
  simp at h

/-- `C169_endless`: a callback that registers itself whenever it is called. -/
example (fuel : Nat) : tellAll (fun _ cb => (⟨.returns, false, [cb]⟩ : CallAct Nat)) fuel [0] = none :=
  C169_endless _ (fun _ _ => ⟨.inl rfl, rfl⟩) (fun _ _ => by simp) _ (by simp) fuel

namespace Ex

/-- What callbacks do at the evaluations of a search: the first time as above. -/
def overTime (k : Nat) : List Nat → Nat → CallAct Nat :=
  if k = 0 then registering else fun _ _ => ⟨.returns, false, []⟩

end Ex

/-- `C169_later`: over three evaluations. -/
example : ∃ r, tellSearch Ex.overTime 9 3 0 [0, 1, 2] = some r ∧ r.1.length = 3 ∧ ∀ l ∈ r.1, [0, 1, 2] <+: l := by
  have h : ∃ r, tellSearch Ex.overTime 9 3 0 [0, 1, 2] = some r ∧ r.2.2 = .ok () := ⟨_, rfl, rfl⟩
  obtain ⟨r, h, hok⟩ := h
  have := C169_later Ex.overTime 9 3 0 [0, 1, 2] r h hok
  exact ⟨r, h, this.1, fun l hl => (this.2.2 l hl).1⟩

/-- `C169_stopped`: the first evaluation is told to all, during the second the time runs out in the logger's
callback. -/
example : ∃ r, tellSearch (fun k => if k = 0 then Ex.registering else fun _ cb => ⟨.returns, cb == 1, []⟩) 9 3 0 [0, 1, 2]
    = some r ∧ r.2.2 = .error .timeout ∧ r.1 = [[0, 1, 2, 3], [0, 1]] ∧ r.2.1 = [0, 1, 2, 3] := ⟨_, rfl, rfl, rfl, rfl⟩

end Gama
