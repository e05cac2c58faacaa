import Verif.Model.Ensemble
import Mathlib.Tactic.FieldSimp
import Mathlib.Tactic.Ring
import Mathlib.Tactic.Linarith
import Mathlib.Tactic.ByContra
import Mathlib.Algebra.BigOperators.Group.List.Lemmas

/-! # Ensembles: C42 – C45 -/

namespace Gama
open PyM

section
variable {κ ε : Type}

/-! ## Specification -/

/-- The weighted mean of predictions. -/
def Spec.mean (l : List ((κ → ℚ) × ℚ)) : κ → ℚ := fun k =>
  (l.map fun e => e.1 k * e.2).sum / (l.map Prod.snd).sum

/-- Predictions and weights of the models of an ensemble. -/
def Spec.members (l : Models κ ε) : List ((κ → ℚ) × ℚ) := l.map fun e => (e.2.1.preds, (e.2.2 : ℚ))

/-- The weight of a model, zero if it is not in the ensemble. -/
def Spec.weightOf (l : Models κ ε) (id : Nat) : Int :=
  ((l.filter fun e => e.1 = id).map fun e => e.2.2).sum

/-- The score of the ensemble extended by a model. -/
def Spec.extended (f : (κ → ℚ) → Score) (l : Models κ ε) (m : Mdl κ ε) : Score :=
  f (mean (members l ++ [(m.preds, 1)]))

/-- `m` is the first model of the library for which the extended ensemble scores best. -/
def Spec.FirstBest (f : (κ → ℚ) → Score) (library : List (Mdl κ ε)) (l : Models κ ε) (m : Mdl κ ε) : Prop :=
  ∃ pre post, library = pre ++ m :: post ∧ (∀ x ∈ pre, extended f l x < extended f l m) ∧
    ∀ x ∈ post, extended f l x ≤ extended f l m

/-- Every entry holds a model of the library under the id of that model, and no id occurs twice. -/
def Spec.OfLibrary (library : List (Mdl κ ε)) (l : Models κ ε) : Prop :=
  (∀ e ∈ l, e.2.1 ∈ library ∧ e.1 = e.2.1.id) ∧ (l.map fun e => e.1).Nodup

/-- `l'` comes from `l` by `n` additions, each of a first best model. -/
inductive Spec.Greedy (f : (κ → ℚ) → Score) (library : List (Mdl κ ε)) : Nat → Models κ ε → Models κ ε → Prop
  | done (l) : Greedy f library 0 l l
  | add (n l l₁ l₂ m) : FirstBest f library l m →
      (∀ id, weightOf l₁ id = weightOf l id + if id = m.id then 1 else 0) → OfLibrary library l₁ →
      Greedy f library n l₁ l₂ → Greedy f library (n + 1) l l₂

/-- Evaluations of the same individual have the same predictions. -/
def Spec.Agree (library : List (Mdl κ ε)) : Prop :=
  ∀ a ∈ library, ∀ b ∈ library, a.id = b.id → a.preds = b.preds

open Spec

/-! ## Dictionaries -/

theorem ddel_eq_of_none {K V : Type} [DecidableEq K] {d : List (K × V)} {k : K} (h : dget d k = none) :
    ddel d k = d := by
  induction d with
  | nil => rfl
  | cons p d ih =>
    obtain ⟨a, v⟩ := p
    by_cases e : a = k
    · simp [dget, e] at h
    · simp only [dget, e, if_false] at h
      simp only [ddel, e, if_false, ih h]

theorem ddel_perm_of_some {K V : Type} [DecidableEq K] {d : List (K × V)} {k : K} {v : V}
    (h : dget d k = some v) : d.Perm ((k, v) :: ddel d k) := by
  induction d with
  | nil => cases h
  | cons p d ih =>
    obtain ⟨a, w⟩ := p
    by_cases e : a = k
    · subst e
      simp only [dget, if_true, Option.some.injEq] at h
      subst h
      simp [ddel]
    · simp only [dget, e, if_false] at h
      simp only [ddel, e, if_false]
      exact ((ih h).cons _).trans (List.Perm.swap _ _ _)

theorem dset_eq_append {K V : Type} [DecidableEq K] {d : List (K × V)} {k : K} {v : V}
    (h : dget d k = none) : dset d k v = d ++ [(k, v)] := by
  induction d with
  | nil => rfl
  | cons p d ih =>
    obtain ⟨a, w⟩ := p
    by_cases e : a = k
    · simp [dget, e] at h
    · simp only [dget, e, if_false] at h
      simp only [dset, e, if_false, ih h, List.cons_append]

theorem dget_ddel_self {K V : Type} [DecidableEq K] {d : List (K × V)} (hd : DictOK d) (k : K) :
    dget (ddel d k) k = none := by
  cases h : dget d k with
  | none => rw [ddel_eq_of_none h, h]
  | some v =>
    have hp := (ddel_perm_of_some h).map Prod.fst
    have hn : ((k, v) :: ddel d k |>.map Prod.fst).Nodup := hp.nodup_iff.1 hd
    rw [List.map_cons, List.nodup_cons] at hn
    exact dget_eq_none.2 hn.1

/-! ## Adding a model -/

structure ModelsOK (library : List (Mdl κ ε)) (l : Models κ ε) : Prop where
  dict : DictOK l
  own : ∀ e ∈ l, e.1 = e.2.1.id ∧ 0 < e.2.2 ∧ e.2.1 ∈ library

theorem ModelsOK.ofLibrary {library : List (Mdl κ ε)} {l : Models κ ε} (h : ModelsOK library l) :
    OfLibrary library l :=
  ⟨fun e he => ⟨(h.own e he).2.2, (h.own e he).1⟩, h.dict⟩

/-- What the model dictionary becomes. -/
theorem addModel_spec {library : List (Mdl κ ε)} {s : Ens κ ε} {l : Models κ ε} (hs : s.models = some l)
    (hl : ModelsOK library l) {m : Mdl κ ε} (hm : m ∈ library) :
    ∃ l' x, addModel m s = (.ok (), { s with models := some l' }) ∧ ModelsOK library l' ∧ l' ≠ [] ∧
      totalWeight l' = totalWeight l + 1 ∧ (x ∈ library ∧ x.id = m.id) ∧
      (∀ k, weightedSum l' k = weightedSum l k + x.preds k) ∧
      (∀ id, weightOf l' id = weightOf l id + if id = m.id then 1 else 0) ∧
      (m.id ∉ l.map Prod.fst → l' = l ++ [(m.id, m, 1)]) := by
  have hv : modelValues s = (.ok l, s) := by unfold modelValues; rw [hs]
  cases hg : dget l m.id with
  | none =>
    have hrun : addModel m s = (.ok (), { s with models := some (l ++ [(m.id, m, 1)]) }) := by
      unfold addModel
      rw [bind_ok hv, hg, ddel_eq_of_none hg]
      simp only [Option.getD_none]
      rw [dset_eq_append hg]
      rfl
    have hnot : m.id ∉ l.map Prod.fst := dget_eq_none.1 hg
    refine ⟨_, m, hrun, ⟨?_, ?_⟩, by simp, ?_, ⟨hm, rfl⟩, ?_, ?_, fun _ => rfl⟩
    · unfold DictOK
      rw [List.map_append]
      refine List.nodup_append.2 ⟨hl.dict, by simp, ?_⟩
      intro a ha b hb e
      simp only [List.map_cons, List.map_nil, List.mem_singleton] at hb
      subst hb
      subst e
      exact hnot ha
    · intro e he
      rcases List.mem_append.1 he with he | he
      · exact hl.own e he
      · rw [List.mem_singleton.1 he]
        exact ⟨rfl, Int.one_pos, hm⟩
    · simp [totalWeight]
    · intro k; simp [weightedSum]
    · intro id
      by_cases e : id = m.id
      · simp [weightOf, e]
      · have : m.id ≠ id := fun h => e h.symm
        simp [weightOf, e, this]
  | some v =>
    obtain ⟨x, w⟩ := v
    have hmem := dget_mem hg
    obtain ⟨hid, hpos, hin⟩ := hl.own _ hmem
    dsimp only at hid hpos hin
    have hperm := ddel_perm_of_some hg
    have hnone : dget (ddel l m.id) x.id = none := by rw [← hid]; exact dget_ddel_self hl.dict _
    have hrun : addModel m s = (.ok (), { s with models := some (ddel l m.id ++ [(x.id, x, w + 1)]) }) := by
      unfold addModel
      rw [bind_ok hv, hg]
      simp only [Option.getD_some]
      rw [dset_eq_append hnone]
      rfl
    have hnd : ((m.id, x, w) :: ddel l m.id |>.map Prod.fst).Nodup := (hperm.map _).nodup_iff.1 hl.dict
    rw [List.map_cons, List.nodup_cons] at hnd
    refine ⟨_, x, hrun, ⟨?_, ?_⟩, by simp, ?_, ⟨hin, hid.symm⟩, ?_, ?_, fun hn => ?_⟩
    · unfold DictOK
      rw [List.map_append]
      refine List.nodup_append.2 ⟨hnd.2, by simp, ?_⟩
      intro a ha b hb e
      simp only [List.map_cons, List.map_nil, List.mem_singleton] at hb
      subst hb
      subst e
      rw [← hid] at ha
      exact hnd.1 ha
    · intro e he
      rcases List.mem_append.1 he with he | he
      · exact hl.own e (hperm.mem_iff.2 (List.mem_cons_of_mem _ he))
      · rw [List.mem_singleton.1 he]
        exact ⟨rfl, by dsimp only; omega, hin⟩
    · have h := (hperm.map fun e : Nat × Mdl κ ε × Int => e.2.2).sum_eq
      simp only [List.map_cons, List.sum_cons] at h
      simp only [totalWeight, List.map_append, List.map_cons, List.map_nil, List.sum_append,
        List.sum_cons, List.sum_nil]
      omega
    · intro k
      have h := (hperm.map fun e : Nat × Mdl κ ε × Int => e.2.1.preds k * (e.2.2 : ℚ)).sum_eq
      simp only [List.map_cons, List.sum_cons] at h
      simp only [weightedSum, List.map_append, List.map_cons, List.map_nil, List.sum_append,
        List.sum_cons, List.sum_nil]
      rw [h]
      push_cast
      ring
    · intro id
      have h := ((hperm.filter fun e : Nat × Mdl κ ε × Int => e.1 = id).map
        fun e : Nat × Mdl κ ε × Int => e.2.2).sum_eq
      unfold weightOf
      rw [h]
      by_cases e : id = m.id
      · subst e
        simp [← hid]
        omega
      · have h1 : m.id ≠ id := fun h => e h.symm
        have h2 : x.id ≠ id := fun h => e (h ▸ hid.symm)
        simp [e, h1, h2]
    · exact absurd (List.mem_map.2 ⟨_, hmem, rfl⟩) hn

theorem totalWeight_pos {library : List (Mdl κ ε)} {l : Models κ ε} (hl : ModelsOK library l) (h0 : l ≠ []) :
    0 < totalWeight l := by
  have : ∀ l : Models κ ε, (∀ e ∈ l, 0 < e.2.2) → 0 ≤ totalWeight l ∧ (l ≠ [] → 0 < totalWeight l) := by
    intro l
    induction l with
    | nil => intro _; exact ⟨by simp [totalWeight], fun h => absurd rfl h⟩
    | cons e l ih =>
      intro h
      have h1 := h e (List.mem_cons_self ..)
      have h2 := (ih fun e he => h e (List.mem_cons_of_mem _ he)).1
      simp only [totalWeight, List.map_cons, List.sum_cons] at h2 ⊢
      exact ⟨by omega, fun _ => by omega⟩
  exact (this l fun e he => (hl.own e he).2.1).2 h0

theorem mean_members (l : Models κ ε) (k : κ) :
    mean (members l) k = weightedSum l k / (totalWeight l : ℚ) := by
  unfold mean members weightedSum totalWeight
  rw [List.map_map, List.map_map]
  have hc : ∀ l : Models κ ε, (l.map fun e => (e.2.2 : ℚ)).sum = (((l.map fun e => e.2.2).sum : Int) : ℚ) := by
    intro l
    induction l with
    | nil => simp
    | cons e l ih => simp [ih]
  have h2 : (l.map (Prod.snd ∘ fun e => (e.2.1.preds, (e.2.2 : ℚ)))) = l.map fun e => (e.2.2 : ℚ) := rfl
  rw [h2, hc]
  rfl

/-- The incrementally computed prediction is the weighted mean of the extended ensemble. -/
theorem candidate_eq {l : Models κ ε} (h : 0 < totalWeight l) (m : Mdl κ ε) :
    candidatePred (fun k => weightedSum l k / (totalWeight l : ℚ)) (totalWeight l) m =
      mean (members l ++ [(m.preds, 1)]) := by
  funext k
  have hw : (0 : ℚ) < totalWeight l := by exact_mod_cast h
  have hm := mean_members l k
  have h1 : ((members l).map fun e => e.1 k * e.2).sum = weightedSum l k := by
    unfold members weightedSum
    rw [List.map_map]
    rfl
  have h2 : ((members l).map Prod.snd).sum = (totalWeight l : ℚ) := by
    unfold members totalWeight
    rw [List.map_map]
    clear hm h1 hw h
    induction l with
    | nil => simp
    | cons e l ih =>
      simp only [List.map_cons, List.sum_cons, ih]
      simp
  simp only [candidatePred, mean, List.map_append, List.sum_append, h1, h2, List.map_cons, List.map_nil,
    List.sum_cons, List.sum_nil]
  field_simp
  ring

/-! ## One round -/

theorem bestAddition_spec {f : (κ → ℚ) → Score} {score : (κ → ℚ) → Except Exn Score}
    (hf : ∀ p, score p = .ok (f p)) (avg : κ → ℚ) (w : Int) (s : Ens κ ε) :
    ∀ (ms : List (Mdl κ ε)) (best : Option (Mdl κ ε)) (b : Score),
      (∃ m pre post, ms = pre ++ m :: post ∧ b < f (candidatePred avg w m) ∧
        (∀ x ∈ pre, f (candidatePred avg w x) < f (candidatePred avg w m)) ∧
        (∀ x ∈ post, f (candidatePred avg w x) ≤ f (candidatePred avg w m)) ∧
        bestAddition score avg w ms best b s = (.ok (some m, f (candidatePred avg w m)), s)) ∨
      ((∀ x ∈ ms, f (candidatePred avg w x) ≤ b) ∧
        bestAddition score avg w ms best b s = (.ok (best, b), s)) := by
  intro ms
  induction ms with
  | nil => intro best b; exact Or.inr ⟨by simp, rfl⟩
  | cons m ms ih =>
    intro best b
    have hv : validationScore (ε := ε) score (candidatePred avg w m) s = (.ok (f (candidatePred avg w m)), s) := by
      unfold validationScore; rw [hf]
    unfold bestAddition
    rw [bind_ok hv]
    by_cases hlt : b < f (candidatePred avg w m)
    · rw [if_pos hlt]
      rcases ih (some m) (f (candidatePred avg w m)) with ⟨x, pre, post, h1, h2, h3, h4, h5⟩ | ⟨h1, h2⟩
      · refine Or.inl ⟨x, m :: pre, post, by rw [h1]; rfl, lt_trans hlt h2, ?_, h4, h5⟩
        intro y hy
        rcases List.mem_cons.1 hy with rfl | hy
        · exact h2
        · exact h3 y hy
      · exact Or.inl ⟨m, [], ms, rfl, hlt, by simp, h1, h2⟩
    · rw [if_neg hlt]
      rcases ih best b with ⟨x, pre, post, h1, h2, h3, h4, h5⟩ | ⟨h1, h2⟩
      · refine Or.inl ⟨x, m :: pre, post, by rw [h1]; rfl, h2, ?_, h4, h5⟩
        intro y hy
        rcases List.mem_cons.1 hy with rfl | hy
        · exact lt_of_le_of_lt (not_lt.1 hlt) h2
        · exact h3 y hy
      · refine Or.inr ⟨?_, h2⟩
        intro y hy
        rcases List.mem_cons.1 hy with rfl | hy
        · exact not_lt.1 hlt
        · exact h1 y hy

/-- One round of `expand_ensemble` when no score is minus infinity. -/
theorem expandOne_spec {f : (κ → ℚ) → Score} {score : (κ → ℚ) → Except Exn Score}
    (hf : ∀ p, score p = .ok (f p)) (hn : ∀ p, f p ≠ .ninf) {s : Ens κ ε} {l : Models κ ε}
    (hs : s.models = some l) (hl : ModelsOK s.library l) (h0 : l ≠ []) (prev : Option (Mdl κ ε)) :
    ∃ m l', FirstBest f s.library l m ∧
      expandOne score prev s = (.ok (some m), { s with models := some l', internal := extended f l m }) ∧
      ModelsOK s.library l' ∧ l' ≠ [] ∧ totalWeight l' = totalWeight l + 1 ∧
      (∀ id, weightOf l' id = weightOf l id + if id = m.id then 1 else 0) ∧
      (Agree s.library → extended f l m = f (mean (members l'))) := by
  have hpos := totalWeight_pos hl h0
  have hv : modelValues s = (.ok l, s) := by unfold modelValues; rw [hs]
  have hlen : ¬ l.length = 0 := fun h => h0 (List.length_eq_zero_iff.1 h)
  have havg : averaged s = (.ok (fun k => weightedSum l k / (totalWeight l : ℚ)), s) := by
    unfold averaged
    rw [bind_ok hv, if_neg hlen]
    rfl
  have hcand : ∀ x : Mdl κ ε, f (candidatePred (fun k => weightedSum l k / (totalWeight l : ℚ)) (totalWeight l) x) =
      extended f l x := by
    intro x
    rw [candidate_eq hpos]
    rfl
  have hlib : s.library ≠ [] := by
    obtain ⟨e, he⟩ := List.exists_mem_of_ne_nil l h0
    exact List.ne_nil_of_mem (hl.own e he).2.2
  have hgt : ∀ p, Score.ninf < f p := by
    intro p
    have := hn p
    cases hp : f p with
    | ninf => exact absurd hp this
    | fin q => rfl
    | pinf => decide
  rcases bestAddition_spec hf (fun k => weightedSum l k / (totalWeight l : ℚ)) (totalWeight l) s
    s.library prev .ninf with ⟨m, pre, post, h1, _, h3, h4, h5⟩ | ⟨h1, _⟩
  · have hm : m ∈ s.library := by rw [h1]; simp
    obtain ⟨l', x, hadd, hok, hne, htot, ⟨hxl, hxid⟩, hsum, hw, _⟩ := addModel_spec hs hl hm
    refine ⟨m, l', ⟨pre, post, h1, ?_, ?_⟩, ?_, hok, hne, htot, hw, ?_⟩
    · intro y hy
      rw [← hcand, ← hcand]
      exact h3 y hy
    · intro y hy
      rw [← hcand, ← hcand]
      exact h4 y hy
    · unfold expandOne
      rw [bind_ok havg, bind_ok hv, bind_ok get_run, bind_ok h5]
      dsimp only
      rw [bind_ok hadd, bind_ok modify_run]
      rw [← hcand]
      rfl
    · intro ha
      have hpr : x.preds = m.preds := ha x hxl m hm hxid
      rw [← hcand]
      congr 1
      funext k
      rw [mean_members, hsum, htot, hpr]
      have hw : (0 : ℚ) < totalWeight l := by exact_mod_cast hpos
      unfold candidatePred
      push_cast
      field_simp
      ring
  · obtain ⟨x, hx⟩ := List.exists_mem_of_ne_nil _ hlib
    exact absurd (h1 x hx) (not_le.2 (hgt _))

/-- The score is that of an ensemble and the model that was added to it last, with that model's own predictions. -/
def Spec.LastScore (f : (κ → ℚ) → Score) (library : List (Mdl κ ε)) (sc : Score) (l : Models κ ε) : Prop :=
  ∃ l₁ m, FirstBest f library l₁ m ∧ OfLibrary library l₁ ∧ sc = extended f l₁ m ∧
    ∀ id, weightOf l id = weightOf l₁ id + if id = m.id then 1 else 0

/-- What `expand_ensemble` does. -/
theorem expandLoop_spec {f : (κ → ℚ) → Score} {score : (κ → ℚ) → Except Exn Score}
    (hf : ∀ p, score p = .ok (f p)) (hn : ∀ p, f p ≠ .ninf) :
    ∀ (n : Nat) {s : Ens κ ε} {l : Models κ ε} (_ : s.models = some l) (_ : ModelsOK s.library l)
      (_ : l ≠ []) (prev : Option (Mdl κ ε)),
      ∃ l' sc, expandLoop score n prev s = (.ok (), { s with models := some l', internal := sc }) ∧
        ModelsOK s.library l' ∧ l' ≠ [] ∧ totalWeight l' = totalWeight l + n ∧
        Greedy f s.library n l l' ∧ (n = 0 → sc = s.internal) ∧
        (0 < n → (Agree s.library → sc = f (mean (members l'))) ∧ LastScore f s.library sc l') := by
  intro n
  induction n with
  | zero =>
    intro s l hs hl h0 prev
    refine ⟨l, s.internal, ?_, hl, h0, by simp, .done l, fun _ => rfl, fun h => absurd h (by simp)⟩
    unfold expandLoop
    rw [← hs]
    rfl
  | succ n ih =>
    intro s l hs hl h0 prev
    obtain ⟨m, l₁, hb, hrun, hok, hne, htot, hw, hsc⟩ := expandOne_spec hf hn hs hl h0 prev
    obtain ⟨l₂, sc, hrun₂, hok₂, hne₂, htot₂, hg, hz, hsc₂⟩ :=
      ih (s := { s with models := some l₁, internal := extended f l m }) rfl hok hne (some m)
    refine ⟨l₂, sc, ?_, hok₂, hne₂, ?_, .add n l l₁ l₂ m hb hw hok.ofLibrary hg, fun h => absurd h (by simp), fun _ => ?_⟩
    · unfold expandLoop
      rw [bind_ok hrun, hrun₂]
    · rw [htot₂, htot]
      push_cast
      omega
    · cases n with
      | zero =>
        rw [hz rfl]
        cases hg with
        | done => exact ⟨hsc, l, m, hb, hl.ofLibrary, rfl, hw⟩
      | succ n => exact hsc₂ (by omega)

/-! ## The initial ensemble -/

theorem addModels_spec {library : List (Mdl κ ε)} :
    ∀ (ms : List (Mdl κ ε)) {s : Ens κ ε} {l : Models κ ε} (_ : s.models = some l) (_ : ModelsOK library l)
      (_ : ∀ m ∈ ms, m ∈ library),
      ∃ l', addModels ms s = (.ok (), { s with models := some l' }) ∧ ModelsOK library l' ∧
        totalWeight l' = totalWeight l + ms.length ∧ ((l ≠ [] ∨ ms ≠ []) → l' ≠ []) ∧
        ((ms.map Mdl.id).Nodup → (∀ m ∈ ms, m.id ∉ l.map Prod.fst) →
          l' = l ++ ms.map fun m => (m.id, m, 1)) ∧
        ∀ id, weightOf l' id = weightOf l id + ((ms.map Mdl.id).count id : Int) := by
  intro ms
  induction ms with
  | nil =>
    intro s l hs hl _
    refine ⟨l, ?_, hl, by simp, fun h => h.resolve_right (fun h => h rfl), fun _ _ => by simp, fun _ => by simp⟩
    unfold addModels
    rw [← hs]
    rfl
  | cons m ms ih =>
    intro s l hs hl hm
    obtain ⟨l₁, x, hadd, hok, hne, htot, _, _, hw, happ⟩ := addModel_spec hs hl (hm m (List.mem_cons_self ..))
    obtain ⟨l₂, hrun, hok₂, htot₂, hne₂, happ₂, hw₂⟩ := ih (s := { s with models := some l₁ }) rfl hok
      (fun m' h => hm m' (List.mem_cons_of_mem _ h))
    refine ⟨l₂, ?_, hok₂, ?_, fun _ => hne₂ (Or.inl hne), ?_, ?_⟩
    · unfold addModels
      rw [bind_ok hadd, hrun]
    · rw [htot₂, htot]
      simp only [List.length_cons]
      push_cast
      omega
    · intro hnd hnot
      rw [List.map_cons, List.nodup_cons] at hnd
      have h1 := happ (hnot m (List.mem_cons_self ..))
      rw [happ₂ hnd.2 ?_, h1]
      · simp
      · intro m' hm'
        rw [h1, List.map_append, List.mem_append]
        rintro (h | h)
        · exact hnot m' (List.mem_cons_of_mem _ hm') h
        · simp only [List.map_cons, List.map_nil, List.mem_singleton] at h
          exact hnd.1 (h ▸ List.mem_map.2 ⟨m', hm', rfl⟩)
    · intro id
      rw [hw₂, hw, List.map_cons, List.count_cons]
      by_cases h : id = m.id
      · subst h
        simp
        omega
      · have h' : ¬ m.id = id := fun e => h e.symm
        simp [h, h']

theorem modelsOK_nil (library : List (Mdl κ ε)) : ModelsOK library ([] : Models κ ε) :=
  ⟨List.Pairwise.nil, fun e he => by cases he⟩

/-- `build_initial_ensemble` from a library that is not empty. -/
theorem buildInitial_spec {f : (κ → ℚ) → Score} {score : (κ → ℚ) → Except Exn Score}
    (hf : ∀ p, score p = .ok (f p)) {n : Int} (hn : 0 < n) {s : Ens κ ε} (hlib : s.library ≠ []) :
    ∃ l, buildInitial score n s = (.ok (), { s with models := some l }) ∧ ModelsOK s.library l ∧ l ≠ [] ∧
      totalWeight l = min n (s.library.length : Int) ∧
      (((s.library.map Mdl.id).Nodup → l = (s.library.take n.toNat).map fun m => (m.id, m, 1)) ∧
        (∀ id, weightOf l id = (((s.library.take n.toNat).map Mdl.id).count id : Int)) ∧
        OfLibrary s.library l) := by
  have hne : s.library.take n.toNat ≠ [] := by
    intro h
    rw [List.take_eq_nil_iff] at h
    rcases h with h | h
    · omega
    · exact hlib h
  obtain ⟨l, hrun, hok, htot, hne', happ, hw⟩ := addModels_spec (library := s.library) (s.library.take n.toNat)
    (s := { s with models := some [] }) rfl (modelsOK_nil _) (fun m hm => List.mem_of_mem_take hm)
  have hl := hne' (Or.inr hne)
  have hlen : ¬ l.length = 0 := fun h => hl (List.length_eq_zero_iff.1 h)
  have hv : modelValues { s with models := some l } = (.ok l, { s with models := some l }) := rfl
  refine ⟨l, ?_, hok, hl, ?_, ?_, fun id => (hw id).trans (by simp [weightOf]), hok.ofLibrary⟩
  · unfold buildInitial
    rw [if_neg (by omega)]
    dsimp only
    rw [bind_ok modify_run, bind_ok get_run, bind_ok hrun]
    have havg : averaged { s with models := some l } =
        (.ok (fun k => weightedSum l k / (totalWeight l : ℚ)), { s with models := some l }) := by
      unfold averaged
      rw [bind_ok hv, if_neg hlen]
      rfl
    rw [bind_ok havg]
    have hvs : validationScore (ε := ε) score (fun k => weightedSum l k / (totalWeight l : ℚ))
        { s with models := some l } = (.ok (f (fun k => weightedSum l k / (totalWeight l : ℚ))), { s with models := some l }) := by
      unfold validationScore
      rw [hf]
    rw [bind_ok hvs]
    rfl
  · rw [htot]
    simp only [totalWeight, List.map_nil, List.sum_nil, List.length_take]
    omega
  · intro hnd
    have := happ ((List.Sublist.map _ (List.take_sublist _ _)).nodup hnd) (by simp)
    rw [this]
    rfl

/-! ## C42, C43, C44 -/

/-- The ensemble that is built, before it is fitted. -/
theorem buildFit_spec {f : (κ → ℚ) → Score} {score : (κ → ℚ) → Except Exn Score}
    (hf : ∀ p, score p = .ok (f p)) (hn : ∀ p, f p ≠ .ninf) {size : Int} (hsz : 1 ≤ size)
    {library : List (Mdl κ ε)} (hlib : library ≠ []) (timeout : ℚ) (ht : 0 < timeout) :
    ∃ l₀ l sc, ∃ n : Nat, buildFit score size timeout (newEnsemble library) =
        (.ok (), ⟨library, some l, sc, some (l.flatMap fun e => e.2.1.estimators.map fun x => (x, e.2.2)), true⟩) ∧
      ModelsOK library l ∧ l ≠ [] ∧ totalWeight l = size ∧
      (((library.map Mdl.id).Nodup →
        l₀ = (library.take (if size ≤ 10 then 1 else 10)).map fun m => (m.id, m, 1)) ∧
        (∀ id, weightOf l₀ id = (((library.take (if size ≤ 10 then 1 else 10)).map Mdl.id).count id : Int)) ∧
        OfLibrary library l₀) ∧
      totalWeight l₀ + n = size ∧ totalWeight l₀ = min (if size ≤ 10 then 1 else 10) (library.length : Int) ∧
      Greedy f library n l₀ l ∧
      (0 < n → (Agree library → sc = f (mean (members l))) ∧ LastScore f library sc l) := by
  have hinit : ∃ l₀, buildInitial score (if size ≤ 10 then 1 else 10) (newEnsemble library) = (.ok (), (⟨library, some l₀, .ninf, none, true⟩ : Ens κ ε)) ∧
      ModelsOK library l₀ ∧ l₀ ≠ [] ∧ totalWeight l₀ = min (if size ≤ 10 then 1 else 10) (library.length : Int) ∧
      (((library.map Mdl.id).Nodup →
        l₀ = (library.take (if size ≤ 10 then 1 else 10)).map fun m => (m.id, m, 1)) ∧
        (∀ id, weightOf l₀ id = (((library.take (if size ≤ 10 then 1 else 10)).map Mdl.id).count id : Int)) ∧
        OfLibrary library l₀) := by
    by_cases h : size ≤ 10
    · simp only [if_pos h]
      exact buildInitial_spec hf (by decide) (s := newEnsemble library) hlib
    · simp only [if_neg h]
      exact buildInitial_spec hf (by decide) (s := newEnsemble library) hlib
  obtain ⟨l₀, hrun₀, hok₀, hne₀, htot₀, happ⟩ := hinit
  have hle : totalWeight l₀ ≤ size := by
    rw [htot₀]
    split <;> omega
  have hv : ∀ (l : Models κ ε) (sc : Score),
      modelValues (⟨library, some l, sc, none, true⟩ : Ens κ ε) =
        (.ok l, (⟨library, some l, sc, none, true⟩ : Ens κ ε)) := fun _ _ => rfl
  have hfit : ∀ (l : Models κ ε) (sc : Score), l ≠ [] →
      fitEnsemble timeout (⟨library, some l, sc, none, true⟩ : Ens κ ε) =
        (.ok (), ⟨library, some l, sc, some (l.flatMap fun e => e.2.1.estimators.map fun x => (x, e.2.2)), true⟩) := by
    intro l sc h
    unfold fitEnsemble
    rw [bind_ok get_run]
    cases l with
    | nil => exact absurd rfl h
    | cons e l =>
      dsimp only
      rw [if_neg (not_le.2 ht)]
      rfl
  by_cases hrem : 0 < size - totalWeight l₀
  · obtain ⟨l, sc, hrun, hok, hne, htot, hg, _, hsc⟩ :=
      expandLoop_spec hf hn (size - totalWeight l₀).toNat
        (s := (⟨library, some l₀, .ninf, none, true⟩ : Ens κ ε)) rfl hok₀ hne₀ none
    refine ⟨l₀, l, sc, (size - totalWeight l₀).toNat, ?_, hok, hne, ?_, happ, by omega, htot₀, hg,
      hsc⟩
    · unfold buildFit
      rw [bind_ok hrun₀, bind_ok (hv l₀ .ninf)]
      dsimp only
      rw [if_pos hrem]
      unfold expandEnsemble
      rw [bind_ok (s' := (⟨library, some l, sc, none, true⟩ : Ens κ ε)) (a := ())]
      · exact hfit l sc hne
      · rw [if_neg (by omega)]
        exact hrun
    · rw [htot]
      omega
  · refine ⟨l₀, l₀, .ninf, 0, ?_, hok₀, hne₀, by omega, happ, by omega, htot₀, .done _,
      fun h => absurd h (by simp)⟩
    unfold buildFit
    rw [bind_ok hrun₀, bind_ok (hv l₀ .ninf)]
    dsimp only
    rw [if_neg hrem]
    exact hfit l₀ .ninf hne₀

/-- **C42.** An ensemble of size `size ≥ 1` built from a library that is not empty, with a metric
that gives comparable scores, has positive weights that add up to `size`, over models of the
library, each at most once. -/
theorem C42_weights (f : (κ → ℚ) → Score) (score : (κ → ℚ) → Except Exn Score)
    (hf : ∀ p, score p = .ok (f p)) (hn : ∀ p, f p ≠ .ninf) (size : Int) (hsz : 1 ≤ size)
    (library : List (Mdl κ ε)) (hlib : library ≠ []) (timeout : ℚ) (ht : 0 < timeout) :
    ∃ l, (buildFitEnsemble score size timeout library).models = some l ∧
      (l.map fun e => e.2.2).sum = size ∧ (∀ e ∈ l, 0 < e.2.2 ∧ e.2.1 ∈ library ∧ e.1 = e.2.1.id) ∧
      (l.map fun e => e.1).Nodup := by
  obtain ⟨l₀, l, sc, n, hrun, hok, _, htot, _⟩ := buildFit_spec hf hn hsz hlib timeout ht
  refine ⟨l, ?_, htot, fun e he => ⟨(hok.own e he).2.1, (hok.own e he).2.2, (hok.own e he).1⟩, hok.dict⟩
  unfold buildFitEnsemble
  rw [hrun]

/-- **C43.** The ensemble starts from the best model, or the ten best if it is to have more than
ten, each once (all of the library, if it has fewer), and every further addition is of the first
model of the library for which the extended ensemble scores best.  A library may hold several
evaluations of one individual; the weight of an individual at the start is then how many of them
there are among those taken. -/
theorem C43_greedy (f : (κ → ℚ) → Score) (score : (κ → ℚ) → Except Exn Score)
    (hf : ∀ p, score p = .ok (f p)) (hn : ∀ p, f p ≠ .ninf) (size : Int) (hsz : 1 ≤ size)
    (library : List (Mdl κ ε)) (hlib : library ≠ []) (timeout : ℚ) (ht : 0 < timeout) :
    ∃ l₀ l, ∃ n : Nat, (buildFitEnsemble score size timeout library).models = some l ∧
      (n : Int) = size - min (if size ≤ 10 then 1 else 10) (library.length : Int) ∧
      (∀ id, weightOf l₀ id = (((library.take (if size ≤ 10 then 1 else 10)).map Mdl.id).count id : Int)) ∧
      OfLibrary library l₀ ∧
      ((library.map Mdl.id).Nodup →
        l₀ = (library.take (if size ≤ 10 then 1 else 10)).map fun m => (m.id, m, 1)) ∧
      Greedy f library n l₀ l := by
  obtain ⟨l₀, l, sc, n, hrun, hok, _, htot, ⟨happ, hw, ho⟩, hn', htot₀, hg, _⟩ :=
    buildFit_spec hf hn hsz hlib timeout ht
  refine ⟨l₀, l, n, ?_, by omega, hw, ho, happ, hg⟩
  unfold buildFitEnsemble
  rw [hrun]

/-- **C44** in full: the score reported after an expansion is that of the weighted mean of the
members' predictions. -/
def C44_claim : Prop :=
  ∀ (κ ε : Type) (f : (κ → ℚ) → Score) (score : (κ → ℚ) → Except Exn Score)
    (_ : ∀ p, score p = .ok (f p)) (_ : ∀ p, f p ≠ .ninf) (size : Int) (_ : 1 ≤ size)
    (library : List (Mdl κ ε)) (_ : min (if size ≤ 10 then 1 else 10) (library.length : Int) < size)
    (_ : library ≠ []) (timeout : ℚ) (_ : 0 < timeout),
    ∃ l, (buildFitEnsemble score size timeout library).models = some l ∧
      (buildFitEnsemble score size timeout library).internal = f (mean (members l))

/-- **C44** where it holds: evaluations of the same individual in the library have the same
predictions. -/
theorem C44_score_partial (f : (κ → ℚ) → Score) (score : (κ → ℚ) → Except Exn Score)
    (hf : ∀ p, score p = .ok (f p)) (hn : ∀ p, f p ≠ .ninf) (size : Int) (hsz : 1 ≤ size)
    (library : List (Mdl κ ε)) (hlt : min (if size ≤ 10 then 1 else 10) (library.length : Int) < size)
    (hlib : library ≠ []) (ha : Agree library) (timeout : ℚ) (ht : 0 < timeout) :
    ∃ l, (buildFitEnsemble score size timeout library).models = some l ∧
      (buildFitEnsemble score size timeout library).internal = f (mean (members l)) := by
  obtain ⟨l₀, l, sc, n, hrun, hok, _, htot, happ, hn', htot₀, hg, hsc⟩ :=
    buildFit_spec hf hn hsz hlib timeout ht
  unfold buildFitEnsemble
  rw [hrun]
  exact ⟨l, rfl, (hsc (by omega)).1 ha⟩

/-- **C44**, what is reported also if evaluations of the same individual do not agree: the score of the mean of the
predictions of the members before the last was added and the predictions of the evaluation added last. -/
theorem C44_otherwise (f : (κ → ℚ) → Score) (score : (κ → ℚ) → Except Exn Score)
    (hf : ∀ p, score p = .ok (f p)) (hn : ∀ p, f p ≠ .ninf) (size : Int) (hsz : 1 ≤ size)
    (library : List (Mdl κ ε)) (hlt : min (if size ≤ 10 then 1 else 10) (library.length : Int) < size)
    (hlib : library ≠ []) (timeout : ℚ) (ht : 0 < timeout) :
    ∃ l l₁ m, (buildFitEnsemble score size timeout library).models = some l ∧
      (buildFitEnsemble score size timeout library).internal = f (mean (members l₁ ++ [(m.preds, 1)])) ∧
      OfLibrary library l₁ ∧ m ∈ library ∧ ∀ id, weightOf l id = weightOf l₁ id + if id = m.id then 1 else 0 := by
  obtain ⟨l₀, l, sc, n, hrun, hok, _, htot, happ, hn', htot₀, hg, hsc⟩ :=
    buildFit_spec hf hn hsz hlib timeout ht
  obtain ⟨_, l₁, m, ⟨pre, post, hm, _⟩, h1, h2, h3⟩ := hsc (by omega)
  unfold buildFitEnsemble
  rw [hrun]
  exact ⟨l, l₁, m, rfl, h2, h1, by rw [hm]; simp, h3⟩

/-- A library with two models of different individuals, one row. -/
def Ex.twoModels : List (Mdl Unit Nat) := [⟨1, fun _ => 0, [10, 11]⟩, ⟨2, fun _ => 4, [20]⟩]

/-- The better, the closer to one. -/
def Ex.closeToOne (p : Unit → ℚ) : Score := .fin (if p () ≤ 1 then p () - 1 else 1 - p ())

/-- Four models: the first is added twice more, then the second. -/
example : (buildFitEnsemble (fun p => .ok (Ex.closeToOne p)) 4 10 Ex.twoModels).models.map
      (fun l => l.map fun e => (e.1, e.2.2)) = some [(2, 1), (1, 3)] ∧
    (buildFitEnsemble (fun p => .ok (Ex.closeToOne p)) 4 10 Ex.twoModels).internal = .fin 0 := by
  decide +kernel

/-- The same individual evaluated twice, with different predictions. -/
def Ex.sameId : List (Mdl Unit Nat) := [⟨1, fun _ => 0, [10]⟩, ⟨1, fun _ => 2, [11]⟩]

/-- **C44 is false** if the library has two evaluations of the same individual: the second raises
the weight of the first, but the score is computed from its own predictions. -/
theorem C44_false : ¬ C44_claim := by
  intro h
  obtain ⟨l, hl, hi⟩ := h Unit Nat Ex.closeToOne (fun p => .ok (Ex.closeToOne p)) (fun _ => rfl)
    (fun p => by unfold Ex.closeToOne; simp) 2 (by decide) Ex.sameId (by decide) (by simp [Ex.sameId]) 10
    (by decide)
  have h1 : (buildFitEnsemble (fun p => .ok (Ex.closeToOne p)) 2 10 Ex.sameId).internal = .fin 0 := by
    decide +kernel
  have h2 : (buildFitEnsemble (fun p => .ok (Ex.closeToOne p)) 2 10 Ex.sameId).models.map
      (fun l => Ex.closeToOne (mean (members l))) = some (.fin (-1)) := by decide +kernel
  rw [hl, Option.map_some, Option.some.injEq] at h2
  rw [h1, h2] at hi
  exact absurd hi (by decide)

/-! ### Cases of the theorems above -/

/-- `C42_weights`, `C43_greedy`: four places over the two models of `Ex.twoModels`. -/
example : ∃ l, (buildFitEnsemble (fun p => .ok (Ex.closeToOne p)) 4 10 Ex.twoModels).models = some l ∧
    (l.map fun e => e.2.2).sum = 4 :=
  let ⟨l, h, hs, _⟩ := C42_weights Ex.closeToOne _ (fun _ => rfl) (fun _ => by simp [Ex.closeToOne]) 4 (by decide)
    Ex.twoModels (by simp [Ex.twoModels]) 10 (by decide)
  ⟨l, h, hs⟩

example : ∃ l, (buildFitEnsemble (fun p => .ok (Ex.closeToOne p)) 4 10 Ex.twoModels).models = some l ∧
    Greedy Ex.closeToOne Ex.twoModels 3 ((Ex.twoModels.take 1).map fun m => (m.id, m, 1)) l := by
  obtain ⟨l₀, l, n, h, hn, _, _, hl₀, hg⟩ := C43_greedy Ex.closeToOne _ (fun _ => rfl)
    (fun _ => by simp [Ex.closeToOne]) 4 (by decide) Ex.twoModels (by simp [Ex.twoModels]) 10 (by decide)
  have : n = 3 := by simp [Ex.twoModels] at hn; omega
  exact ⟨l, h, this ▸ hl₀ (by simp [Ex.twoModels]) ▸ hg⟩

/-- `C44_score_partial`. -/
example : ∃ l, (buildFitEnsemble (fun p => .ok (Ex.closeToOne p)) 4 10 Ex.twoModels).models = some l ∧
    (buildFitEnsemble (fun p => .ok (Ex.closeToOne p)) 4 10 Ex.twoModels).internal = Ex.closeToOne (mean (members l)) :=
  C44_score_partial Ex.closeToOne _ (fun _ => rfl) (fun _ => by simp [Ex.closeToOne]) 4 (by decide)
    Ex.twoModels (by simp [Ex.twoModels]) (by simp [Ex.twoModels]) (by simp [Agree, Ex.twoModels]) 10 (by decide)

/-- `C44_otherwise`: a library in which the evaluations of the one individual do not agree. -/
example : ∃ (l₁ : Models Unit Nat) (m : Mdl Unit Nat),
    (buildFitEnsemble (fun p => .ok (Ex.closeToOne p)) 2 10 Ex.sameId).internal =
    Ex.closeToOne (mean (members l₁ ++ [(m.preds, 1)])) ∧ m ∈ Ex.sameId :=
  let ⟨_, l₁, m, _, h, _, hm, _⟩ := C44_otherwise Ex.closeToOne _ (fun _ => rfl) (fun _ => by simp [Ex.closeToOne]) 2
    (by decide) Ex.sameId (by simp [Ex.sameId]) (by simp [Ex.sameId]) 10 (by decide)
  ⟨l₁, m, h, hm⟩

end
end Gama
