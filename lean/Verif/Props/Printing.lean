import Verif.Model.Printing
import Verif.Props.Ensemble2

/-! # Printing an ensemble: C146 -/

namespace Gama
open PyM Spec

section
variable {κ ε : Type}

/-- **C146** in full: an ensemble that predicts can be printed, as a table of its models. -/
def C146_claim : Prop :=
  ∀ (κ ε κ' : Type) (score : (κ → ℚ) → Except Exn Score) (size : Int) (timeout : ℚ) (library : List (Mdl κ ε))
    (predict : ε → κ' → ℚ) (p : κ' → ℚ),
    weightedMeanPredictions predict (buildFitEnsemble score size timeout library) = .ok p →
    ∃ n, 0 < n ∧ ensembleStr (buildFitEnsemble score size timeout library) = .ok (.table n)

/-- An ensemble that was fitted has models. -/
def FittedHasModels (s : Ens κ ε) : Prop := s.fit ≠ none → ∃ e l, s.models = some (e :: l)

theorem fitEnsemble_hasModels (timeout : ℚ) (s : Ens κ ε) (hs : s.fit = none) :
    wp (fitEnsemble timeout) (fun _ s' => FittedHasModels s') (fun _ s' => FittedHasModels s') s := by
  have h0 : FittedHasModels s := fun h => absurd hs h
  unfold fitEnsemble
  refine wp_bind.2 (wp_get.2 ?_)
  cases hm : s.models with
  | none => exact wp_raise.2 h0
  | some l =>
    cases l with
    | nil => exact wp_raise.2 h0
    | cons e l =>
      dsimp only
      split
      · exact wp_raise.2 h0
      · exact wp_modify.2 fun _ => ⟨e, l, hm⟩

theorem buildFit_hasModels (score : (κ → ℚ) → Except Exn Score) (size : Int) (timeout : ℚ)
    (library : List (Mdl κ ε)) : FittedHasModels (buildFitEnsemble score size timeout library) := by
  have weaken : ∀ {α : Type} {m : PyM (Ens κ ε) α} {s : Ens κ ε} {Q : α → Ens κ ε → Prop}, Unfitted m →
      s.fit = none → (∀ a s', s'.fit = none → Q a s') → wp m Q (fun _ s' => FittedHasModels s') s := by
    intro α m s Q hm hs hq
    exact wp_mono (fun a s' h => hq a s' h) (fun _ _ h hf => absurd h hf) (hm s hs)
  have hw : wp (buildFit score size timeout) (fun _ s' => FittedHasModels s') (fun _ s' => FittedHasModels s')
      (newEnsemble library) := by
    unfold buildFit
    refine wp_bind.2 (weaken (Unfitted.buildInitial score _) rfl fun _ s1 h1 => ?_)
    refine wp_bind.2 (weaken Unfitted.modelValues h1 fun l s2 h2 => ?_)
    by_cases hl : 0 < size - totalWeight l
    · simp only [if_pos hl]
      exact wp_bind.2 (weaken (Unfitted.expandEnsemble score _) h2 fun _ s3 h3 => fitEnsemble_hasModels timeout s3 h3)
    · simp only [if_neg hl]
      exact fitEnsemble_hasModels timeout s2 h2
  unfold buildFitEnsemble
  cases hr : buildFit score size timeout (newEnsemble library) with
  | mk r s' =>
    cases r with
    | ok a => have c := wp_ok hw hr; exact c
    | error e => have c := wp_error hw hr; exact c

/-- **C146 fails for every ensemble that predicts**: whatever the metric, the sizes, the time and the
models evaluated, printing the ensemble that was built raises an `AttributeError`, as evaluations
have no `validation_score`. -/
theorem C146_raises {κ' : Type} (score : (κ → ℚ) → Except Exn Score) (size : Int) (timeout : ℚ)
    (library : List (Mdl κ ε)) (predict : ε → κ' → ℚ) (p : κ' → ℚ)
    (h : weightedMeanPredictions predict (buildFitEnsemble score size timeout library) = .ok p) :
    ensembleStr (buildFitEnsemble score size timeout library) = .error .attributeError := by
  have hf : (buildFitEnsemble score size timeout library).fit ≠ none := by
    intro h0
    unfold weightedMeanPredictions at h
    rw [h0] at h
    cases h
  obtain ⟨e, l, hm⟩ := buildFit_hasModels score size timeout library hf
  unfold ensembleStr
  rw [hm]
  simp [readEach, readAttribute, evaluationAttributes]

/-- **C146, the part that holds**: printing raises nothing exactly when the ensemble has no models
(any more), and then says that it has none.  Missing: the table. -/
theorem C146_partial (s : Ens κ ε) (t : Printed) :
    ensembleStr s = .ok t ↔ (t = .noModels ∧ (s.models = none ∨ s.models = some [])) := by
  unfold ensembleStr
  cases hm : s.models with
  | none => simp [eq_comm]
  | some l =>
    cases l with
    | nil => simp [eq_comm]
    | cons e l => simp [readEach, readAttribute, evaluationAttributes]

/-- After pickling, the very ensemble that predicts as before says it has no models: both the
one in memory and the copy. -/
theorem C146_pickled (s s' r : Ens κ ε) (hs : s.shrinkOnPickle = true) (h : getstate s = (.ok r, s')) :
    ensembleStr s' = .ok .noModels ∧ ensembleStr r = .ok .noModels ∧
    ∀ {κ' : Type} (predict : ε → κ' → ℚ), weightedMeanPredictions predict s' = weightedMeanPredictions predict s ∧
      weightedMeanPredictions predict r = weightedMeanPredictions predict s := by
  refine ⟨?_, ?_, (C47_predict_partial s s' r h).1⟩ <;>
  · unfold getstate at h
    rw [bind_ok get_run, if_pos hs, bind_ok modify_run] at h
    dsimp only at h
    rw [get_run] at h
    cases h
    rfl

/-- Two models, three estimators: the ensemble predicts and cannot be printed. -/
example : (buildFitEnsemble (fun p => .ok (Ex.closeToOne p)) 4 10 Ex.twoModels).fit =
      some [(20, 1), (10, 3), (11, 3)] ∧
    (match ensembleStr (buildFitEnsemble (fun p => .ok (Ex.closeToOne p)) 4 10 Ex.twoModels) with
      | .error .attributeError => true
      | _ => false) = true := by decide +kernel

example : (buildFitEnsemble (fun p => .ok (Ex.closeToOne p)) 4 10 Ex.twoModels).shrinkOnPickle = true := by
  decide +kernel

/-- **C146 is false of the code.** -/
theorem C146_false : ¬ C146_claim := by
  intro h
  have hfit : (buildFitEnsemble (fun p => .ok (Ex.closeToOne p)) 4 10 Ex.twoModels).fit =
      some [(20, 1), (10, 3), (11, 3)] := by decide +kernel
  have hp := C45_mean (fun (e : Nat) (_ : Unit) => (e : ℚ)) _ _ hfit (by simp)
  obtain ⟨n, _, hn⟩ := h Unit Nat Unit _ 4 10 Ex.twoModels _ _ hp
  rw [C146_raises _ _ _ _ _ _ hp] at hn
  cases hn

end
end Gama
