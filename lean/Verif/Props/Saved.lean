import Verif.Model.Saved
import Verif.Props.Formats
import Verif.Props.ClassOrder

/-! # C167: the model saved by the command line -/

namespace Gama
open Spec

variable {X : Type}

/-- An instance that was fitted to the labels `y` of a file, or to numbers: its model predicts what it was trained
on, and encoding no column changes nothing. -/
structure Spec.FittedTo (g : Predictor X) (y : Option (List Label)) : Prop where
  /-- a classifier -/
  classifier : ∀ v, y = some v → ∃ classes y' w, classifierFit (.series v) = .ok (classes, y') ∧
    formatY y' = .ok (.series w) ∧ g.classes = some classes ∧ ∀ x p, g.model x = .ok p → ∀ c ∈ p, c ∈ w
  /-- a regressor -/
  regressor : y = none → g.classes = none
  nothing : ∀ x, g.encode [] [] x = .ok x

/-- No column of the data has to be encoded: none is categorical, or, for a regressor, those that are have more than
ten values (which are encoded by the model itself). -/
def Spec.Unencoded (g : Predictor X) (y : Option (List Label)) : Prop :=
  ∀ c ∈ g.columns, c.categorical = true → y = none ∧ 10 < c.factors

theorem fittedTo_kind {g : Predictor X} {y : Option (List Label)} (h : FittedTo g y) : g.classes.isSome = y.isSome := by
  cases y with
  | none => rw [h.regressor rfl]
  | some v =>
    obtain ⟨classes, _, _, _, _, e, _⟩ := h.classifier v rfl
    rw [e]; rfl

theorem selectColumns_nil {df : List Column} {minF maxF : Option Nat}
    (h : ∀ c ∈ df, c.categorical = true → (∃ n, minF = some n ∧ c.factors < n) ∨ ∃ n, maxF = some n ∧ n < c.factors) :
    selectColumns df minF maxF = [] := by
  unfold selectColumns
  rw [List.map_eq_nil_iff, List.filter_eq_nil_iff]
  intro c hc
  cases hcat : c.categorical with
  | false => simp
  | true =>
    rcases h c hc hcat with ⟨n, rfl, hn⟩ | ⟨n, rfl, hn⟩
    · simp only [Bool.true_and, Bool.and_eq_true, decide_eq_true_eq, not_and]
      omega
    · simp only [Bool.true_and, Bool.and_eq_true, decide_eq_true_eq, not_and]
      intro _
      omega

theorem unencoded_encode {g : Predictor X} {y : Option (List Label)} (h : FittedTo g y) (hu : Unencoded g y) (x : X) :
    g.encode (ordinalColumns g.columns g.classes.isSome) (oneHotColumns g.columns) x = .ok x := by
  have e1 : ordinalColumns g.columns g.classes.isSome = [] := by
    unfold ordinalColumns
    rw [selectColumns_nil fun c hc hcat => .inr ⟨2, rfl, by have := (hu c hc hcat).2; omega⟩, List.nil_append]
    rw [fittedTo_kind h]
    cases y with
    | none => rfl
    | some v =>
      simp only [Option.isSome_some, if_true]
      refine selectColumns_nil fun c hc hcat => ?_
      cases (hu c hc hcat).1
  have e2 : oneHotColumns g.columns = [] :=
    selectColumns_nil fun c hc hcat => .inr ⟨10, rfl, (hu c hc hcat).2⟩
  rw [e1, e2]
  exact h.nothing x

theorem fit_classes {v classes : List Label} {y' : Target} (e : classifierFit (.series v) = .ok (classes, y')) :
    labelClasses v = .ok classes := by
  unfold classifierFit at e
  simp only [encoderInput] at e
  split at e
  · cases e
  · rename_i c hc
    rw [hc]
    split at e
    · split at e
      · cases e
      · cases e; rfl
    · cases e; rfl

/-- **C167, the full claim**: the model saved predicts what the instance predicts. -/
def C167_claim : Prop :=
  ∀ (X : Type) (g : Predictor X) (y : Option (List Label)), FittedTo g y → ∀ x p, g.savedPredict x = .ok p → p ≠ [] →
    g.predict x = .ok p

/-- **C167** for a regressor, and for a classifier whose labels are numbers, if no column has to be encoded. -/
theorem C167_partial (g : Predictor X) (y : Option (List Label)) (h : FittedTo g y) (hu : Unencoded g y)
    (hy : ∀ v, y = some v → ∀ s, Label.str s ∉ v) (x : X) (p : List Label) (hp : g.savedPredict x = .ok p)
    (hne : p ≠ []) : g.predict x = .ok p := by
  unfold Predictor.predict
  rw [unencoded_encode h hu x]
  have hp' : g.model x = .ok p := hp
  simp only [hp']
  cases y with
  | none => rw [h.regressor rfl]
  | some v =>
    obtain ⟨classes, y', w, e1, e2, e3, e4⟩ := h.classifier v rfl
    rw [e3]
    have hc := fit_classes e1
    have hs : v.any Label.isStr = false := by
      cases hb : v.any Label.isStr with
      | false => rfl
      | true =>
        obtain ⟨c, hc, hc'⟩ := List.any_eq_true.1 hb
        cases c with
        | str s => exact absurd hc (hy v rfl s)
        | num _ => cases hc'
        | nan => cases hc'
    have := (classifierFit_given .series v nofun hc).2 (.inr hs)
    rw [show given .series v = .series v from rfl, e1] at this
    cases this
    cases e2
    cases p with
    | nil => exact absurd rfl hne
    | cons c cs =>
      simp only [classifierPredict]
      rw [if_pos]
      exact ((classes_mem hc).2 c).2 (e4 x _ hp' c List.mem_cons_self)

theorem decodeLabels_each {classes : List Label} : ∀ {p : List Label}, (∀ c ∈ p, ∃ i : Nat, c = .num i ∧ i < classes.length) →
    ∃ q, decodeLabels classes p = .ok q ∧
      List.Forall₂ (fun a b => ∃ i : Nat, a = Label.num (i : ℚ) ∧ classes[i]? = some b) p q
  | [], _ => ⟨[], rfl, .nil⟩
  | c :: p, h => by
    obtain ⟨i, rfl, hi⟩ := h c List.mem_cons_self
    obtain ⟨q, h1, h2⟩ := decodeLabels_each fun d hd => h d (List.mem_cons_of_mem _ hd)
    refine ⟨classes[i] :: q, ?_, .cons ⟨i, rfl, List.getElem?_eq_getElem hi⟩ h2⟩
    unfold decodeLabels
    rw [decodeOne_nat classes i _ (List.getElem?_eq_getElem hi), h1]

/-- **C167**: if the labels are strings, the model saved predicts none of them.  It predicts numbers, and for each
number `i` the instance predicts the label at position `i` in the list of the different labels in increasing
order. -/
theorem C167_strings (g : Predictor X) (v : List Label) (hv : ∀ c ∈ v, ∃ s, c = .str s) (hv' : v ≠ [])
    (h : FittedTo g (some v)) (hu : Unencoded g (some v)) (x : X) (p : List Label) (hp : g.savedPredict x = .ok p)
    (hne : p ≠ []) :
    (∀ c ∈ p, c ∉ v) ∧
      ∃ classes q, ColumnsFor v classes ∧ g.predict x = .ok q ∧ (∀ c ∈ q, c ∈ v) ∧
        List.Forall₂ (fun a b => ∃ i : Nat, a = Label.num (i : ℚ) ∧ classes[i]? = some b) p q := by
  obtain ⟨classes, y', w, e1, e2, e3, e4⟩ := h.classifier v rfl
  have hc := fit_classes e1
  have hs : v.any Label.isStr = true := by
    cases v with
    | nil => exact absurd rfl hv'
    | cons c v =>
      obtain ⟨s, rfl⟩ := hv c List.mem_cons_self
      rfl
  obtain ⟨enc, he, hf⟩ := (classifierFit_given .series v nofun hc).1 nofun hs
  rw [show given .series v = .series v from rfl, e1] at hf
  cases hf
  cases e2
  have hp' : g.model x = .ok p := hp
  have hnum : ∀ c ∈ p, ∃ i : Nat, c = .num i ∧ i < classes.length := by
    intro c hcp
    obtain ⟨i, hi, rfl⟩ := List.mem_map.1 ((encoded_positions hc he c).1 (e4 x p hp' c hcp))
    exact ⟨i, rfl, List.mem_range.1 hi⟩
  have hno : ∀ c ∈ p, c ∉ v := by
    intro c hcp hcv
    obtain ⟨i, rfl, _⟩ := hnum c hcp
    obtain ⟨s, e⟩ := hv _ hcv
    cases e
  obtain ⟨q, hq, hall⟩ := decodeLabels_each hnum
  refine ⟨hno, classes, q, ⟨classes_ordered hc, (classes_mem hc).2⟩, ?_, ?_, hall⟩
  · unfold Predictor.predict
    rw [unencoded_encode h hu x]
    simp only [hp', e3]
    cases p with
    | nil => exact absurd rfl hne
    | cons c cs =>
      simp only [classifierPredict]
      rw [if_neg fun hm => hno c List.mem_cons_self (((classes_mem hc).2 c).1 hm)]
      exact hq
  · intro c hcq
    clear hq
    have : ∀ {p q : List Label},
        List.Forall₂ (fun a b => ∃ i : Nat, a = Label.num (i : ℚ) ∧ classes[i]? = some b) p q → ∀ c ∈ q, c ∈ classes := by
      intro p q hall
      induction hall with
      | nil => simp
      | cons hab _ ih =>
        obtain ⟨i, _, hi⟩ := hab
        intro c hc
        rcases List.mem_cons.1 hc with rfl | hc
        · exact List.mem_of_getElem? hi
        · exact ih c hc
    exact ((classes_mem hc).2 c).1 (this hall c hcq)

namespace Ex

/-- An instance fitted to the labels `no` and `yes`, whose model predicts as many labels as it is given rows. -/
def saidYes : Predictor Nat where
  columns := [⟨['a'], false, 20⟩]
  classes := some [.str ['n', 'o'], .str ['y', 'e', 's']]
  encode _ _ x := .ok x
  model n := .ok (List.replicate n (.num 1))

def yesNo : List Label := [.str ['y', 'e', 's'], .str ['n', 'o'], .str ['y', 'e', 's']]

theorem saidYes_fitted : FittedTo saidYes (some yesNo) where
  classifier := by
    rintro v ⟨⟩
    refine ⟨[.str ['n', 'o'], .str ['y', 'e', 's']], .array1 [.num 1, .num 0, .num 1], [.num 1, .num 0, .num 1],
      by rfl, rfl, rfl, ?_⟩
    rintro x p ⟨⟩ c hc
    rw [(List.mem_replicate.1 hc).2]
    exact List.mem_cons_self
  regressor := nofun
  nothing _ := rfl

theorem saidYes_unencoded : Unencoded saidYes (some yesNo) := by
  intro c hc
  obtain rfl := List.mem_singleton.1 hc
  nofun

/-- `C167_strings`: three rows. -/
example : Label.num 1 ∉ yesNo :=
  (C167_strings saidYes yesNo (by simp [yesNo]) (by simp [yesNo]) saidYes_fitted saidYes_unencoded 3
    [.num 1, .num 1, .num 1] rfl (by simp)).1 _ List.mem_cons_self

/-- A regressor, with a categorical column of twenty values. -/
def saidHalf : Predictor Nat where
  columns := [⟨['a'], false, 20⟩, ⟨['b'], true, 20⟩]
  classes := none
  encode _ _ x := .ok x
  model n := .ok (List.replicate n (.num (1 / 2)))

/-- `C167_partial`, for a regressor. -/
example : saidHalf.predict 2 = .ok [.num (1 / 2), .num (1 / 2)] :=
  C167_partial saidHalf none ⟨nofun, fun _ => rfl, fun _ => rfl⟩
    (by
      intro c hc hcat
      simp only [saidHalf, List.mem_cons, List.not_mem_nil, or_false] at hc
      rcases hc with rfl | rfl
      · cases hcat
      · exact ⟨rfl, by decide⟩)
    nofun 2 _ rfl (by simp)

end Ex

/-- **C167** is false of the code: labels `yes` and `no`. -/
theorem C167_false : ¬ C167_claim := by
  intro h
  have := h Nat Ex.saidYes (some Ex.yesNo) Ex.saidYes_fitted 1 [.num 1] rfl (by simp)
  revert this
  decide +kernel

end Gama
