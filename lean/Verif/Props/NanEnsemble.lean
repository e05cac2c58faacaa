import Verif.Model.NanEnsemble
import Verif.Props.Ensemble2

/-! # Ensembles although scores are not numbers: C182 -/

namespace Gama
open PyM

section
variable {κ ε : Type}

/-! ## Specification -/

/-- The score of the ensemble extended by a model, `none` for NaN. -/
def Spec.extendedFloat (f : (κ → ℚ) → Option Score) (l : Models κ ε) (m : Mdl κ ε) : Option Score :=
  f (mean (members l ++ [(m.preds, 1)]))

/-- A number other than minus infinity. -/
def Spec.UsableScore (o : Option Score) : Prop := ∃ v, o = some v ∧ v ≠ .ninf

/-- `m` is the first model of the library for which the extended ensemble scores best among those for which the score
is usable. -/
def Spec.FirstBestNumber (f : (κ → ℚ) → Option Score) (library : List (Mdl κ ε)) (l : Models κ ε) (m : Mdl κ ε) : Prop :=
  ∃ pre post v, library = pre ++ m :: post ∧ extendedFloat f l m = some v ∧ v ≠ .ninf ∧
    (∀ x ∈ pre, ∀ u, extendedFloat f l x = some u → u < v) ∧ ∀ x ∈ post, ∀ u, extendedFloat f l x = some u → u ≤ v

/-- `l'` comes from `l` by `n` additions: each of a first best model if with some model the score is usable, otherwise
of the one added last. -/
inductive Spec.GreedyOr (f : (κ → ℚ) → Option Score) (library : List (Mdl κ ε)) :
    Nat → Option (Mdl κ ε) → Models κ ε → Models κ ε → Prop
  | done (prev l) : GreedyOr f library 0 prev l l
  | add (n prev l l₁ l₂ m) : FirstBestNumber f library l m →
      (∀ id, weightOf l₁ id = weightOf l id + if id = m.id then 1 else 0) → OfLibrary library l₁ →
      GreedyOr f library n (some m) l₁ l₂ → GreedyOr f library (n + 1) prev l l₂
  | again (n l l₁ l₂ m) : (∀ x ∈ library, ¬ UsableScore (extendedFloat f l x)) →
      (∀ id, weightOf l₁ id = weightOf l id + if id = m.id then 1 else 0) → OfLibrary library l₁ →
      GreedyOr f library n (some m) l₁ l₂ → GreedyOr f library (n + 1) (some m) l l₂

open Spec

/-! ## NaN does what minus infinity does -/

/-- The metric with minus infinity for NaN. -/
def noNan (score : (κ → ℚ) → Except Exn (Option Score)) : (κ → ℚ) → Except Exn Score :=
  fun p => (score p).map fun o => o.getD .ninf

theorem validation_bind {α : Type} (score : (κ → ℚ) → Except Exn (Option Score)) (p : κ → ℚ)
    (g : Option Score → PyM (Ens κ ε) α) (g' : Score → PyM (Ens κ ε) α) (h : ∀ o, g o = g' (o.getD .ninf)) :
    (floatValidation score p >>= g) = (validationScore (noNan score) p >>= g') := by
  funext s
  cases hs : score p with
  | error e =>
    have h1 : floatValidation (ε := ε) score p s = (.error e, s) := by unfold floatValidation; rw [hs]
    have h2 : validationScore (ε := ε) (noNan score) p s = (.error e, s) := by
      unfold validationScore noNan; rw [hs]; rfl
    rw [bind_error h1, bind_error h2]
  | ok o =>
    have h1 : floatValidation (ε := ε) score p s = (.ok o, s) := by unfold floatValidation; rw [hs]
    have h2 : validationScore (ε := ε) (noNan score) p s = (.ok (o.getD .ninf), s) := by
      unfold validationScore noNan; rw [hs]; rfl
    rw [bind_ok h1, bind_ok h2, h]

theorem floatInitial_eq (score : (κ → ℚ) → Except Exn (Option Score)) (n : Int) :
    floatInitial (ε := ε) score n = buildInitial (noNan score) n := by
  unfold floatInitial buildInitial
  have := fun p => validation_bind (ε := ε) score p (fun _ => pure ()) (fun _ => pure ()) (fun _ => rfl)
  simp only [this]

theorem floatAddition_eq (score : (κ → ℚ) → Except Exn (Option Score)) (avg : κ → ℚ) (w : Int) :
    ∀ (ms : List (Mdl κ ε)) (best : Option (Mdl κ ε)) (b : Score),
      floatAddition score avg w ms best b = bestAddition (noNan score) avg w ms best b
  | [], _, _ => rfl
  | m :: ms, best, b => by
    unfold floatAddition bestAddition
    refine validation_bind score _ _ _ fun o => ?_
    cases o with
    | none =>
      have : ¬ b < Score.ninf := by
        cases b with
        | ninf => decide
        | pinf => decide
        | fin q => exact fun h => by cases h
      simp only [Option.getD_none, if_neg this]
      exact floatAddition_eq score avg w ms best b
    | some v =>
      simp only [Option.getD_some, floatAddition_eq score avg w ms]

theorem floatExpandOne_eq (score : (κ → ℚ) → Except Exn (Option Score)) (prev : Option (Mdl κ ε)) :
    floatExpandOne score prev = expandOne (noNan score) prev := by
  unfold floatExpandOne expandOne
  simp only [floatAddition_eq]
  rfl

theorem floatExpandLoop_eq (score : (κ → ℚ) → Except Exn (Option Score)) :
    ∀ (n : Nat) (prev : Option (Mdl κ ε)), floatExpandLoop score n prev = expandLoop (noNan score) n prev
  | 0, _ => rfl
  | n + 1, prev => by
    unfold floatExpandLoop expandLoop
    simp only [floatExpandOne_eq, floatExpandLoop_eq score n]

/-- An ensemble is built as with a metric that gives minus infinity for NaN. -/
theorem floatEnsemble_eq (score : (κ → ℚ) → Except Exn (Option Score)) (size : Int) (timeout : ℚ)
    (library : List (Mdl κ ε)) :
    floatEnsemble score size timeout library = buildFitEnsemble (noNan score) size timeout library := by
  unfold floatEnsemble buildFitEnsemble floatBuildFit buildFit floatExpand expandEnsemble
  simp only [floatInitial_eq, floatExpandLoop_eq]

/-! ## One round -/

theorem usableScore_iff (o : Option Score) : UsableScore o ↔ .ninf < o.getD .ninf := by
  cases o with
  | none => exact ⟨fun ⟨v, h, _⟩ => (nomatch h), fun h => absurd h (by decide)⟩
  | some v => cases v with
    | ninf => exact ⟨fun ⟨v, h, h'⟩ => absurd (Option.some.inj h).symm h', fun h => absurd h (by decide)⟩
    | fin q => exact ⟨fun _ => rfl, fun _ => ⟨_, rfl, by simp⟩⟩
    | pinf => exact ⟨fun _ => by decide, fun _ => ⟨_, rfl, by simp⟩⟩

/-- One round of `expand_ensemble`, whatever the scores. -/
theorem expandOne_any {f : (κ → ℚ) → Option Score} {score : (κ → ℚ) → Except Exn Score}
    (hf : ∀ p, score p = .ok ((f p).getD .ninf)) {s : Ens κ ε} {l : Models κ ε}
    (hs : s.models = some l) (hl : ModelsOK s.library l) (h0 : l ≠ []) (prev : Option (Mdl κ ε))
    (hp : ∀ m, prev = some m → m ∈ s.library) :
    (∃ m l' sc, (FirstBestNumber f s.library l m ∨
        (prev = some m ∧ ∀ x ∈ s.library, ¬ UsableScore (extendedFloat f l x))) ∧ m ∈ s.library ∧
      expandOne score prev s = (.ok (some m), { s with models := some l', internal := sc }) ∧
      ModelsOK s.library l' ∧ l' ≠ [] ∧ totalWeight l' = totalWeight l + 1 ∧
      (∀ id, weightOf l' id = weightOf l id + if id = m.id then 1 else 0)) ∨
    (prev = none ∧ (∀ x ∈ s.library, ¬ UsableScore (extendedFloat f l x)) ∧
      expandOne score prev s = (.error .unboundLocal, s)) := by
  have hpos := totalWeight_pos hl h0
  have hv : modelValues s = (.ok l, s) := by unfold modelValues; rw [hs]
  have hlen : ¬ l.length = 0 := fun h => h0 (List.length_eq_zero_iff.1 h)
  have havg : averaged s = (.ok (fun k => weightedSum l k / (totalWeight l : ℚ)), s) := by
    unfold averaged
    rw [bind_ok hv, if_neg hlen]
    rfl
  have hcand : ∀ x : Mdl κ ε, f (candidatePred (fun k => weightedSum l k / (totalWeight l : ℚ)) (totalWeight l) x) =
      extendedFloat f l x := by
    intro x
    rw [candidate_eq hpos]
    rfl
  have hadded : ∀ (m : Mdl κ ε) (sc : Score), m ∈ s.library →
      bestAddition score (fun k => weightedSum l k / (totalWeight l : ℚ)) (totalWeight l) s.library prev .ninf s =
        (.ok (some m, sc), s) →
      ∃ l', expandOne score prev s = (.ok (some m), { s with models := some l', internal := sc }) ∧
        ModelsOK s.library l' ∧ l' ≠ [] ∧ totalWeight l' = totalWeight l + 1 ∧
        (∀ id, weightOf l' id = weightOf l id + if id = m.id then 1 else 0) := by
    intro m sc hm h5
    obtain ⟨l', x, hadd, hok, hne, htot, _, _, hw, _⟩ := addModel_spec hs hl hm
    refine ⟨l', ?_, hok, hne, htot, hw⟩
    unfold expandOne
    rw [bind_ok havg, bind_ok hv, bind_ok get_run, bind_ok h5]
    dsimp only
    rw [bind_ok hadd, bind_ok modify_run]
    rfl
  rcases bestAddition_spec (f := fun p => (f p).getD .ninf) hf (fun k => weightedSum l k / (totalWeight l : ℚ))
    (totalWeight l) s s.library prev .ninf with ⟨m, pre, post, h1, h2, h3, h4, h5⟩ | ⟨h1, h2⟩
  · have hm : m ∈ s.library := by rw [h1]; simp
    obtain ⟨l', hrun, h⟩ := hadded m _ hm h5
    refine Or.inl ⟨m, l', _, Or.inl ?_, hm, hrun, h⟩
    simp only [hcand] at h2 h3 h4
    obtain ⟨v, hv, hv'⟩ := (usableScore_iff _).2 h2
    rw [hv] at h3 h4
    refine ⟨pre, post, v, h1, hv, hv', fun x hx u hu => ?_, fun x hx u hu => ?_⟩
    · have := h3 x hx; rw [hu] at this; exact this
    · have := h4 x hx; rw [hu] at this; exact this
  · have hno : ∀ x ∈ s.library, ¬ UsableScore (extendedFloat f l x) := by
      intro x hx hu
      have := h1 x hx
      simp only [hcand] at this
      exact absurd ((usableScore_iff _).1 hu) (not_lt.2 this)
    cases prev with
    | none =>
      refine Or.inr ⟨rfl, hno, ?_⟩
      unfold expandOne
      rw [bind_ok havg, bind_ok hv, bind_ok get_run, bind_ok h2]
      rfl
    | some m =>
      obtain ⟨l', hrun, h⟩ := hadded m _ (hp m rfl) h2
      exact Or.inl ⟨m, l', _, Or.inr ⟨rfl, hno⟩, hp m rfl, hrun, h⟩

theorem expandLoop_any {f : (κ → ℚ) → Option Score} {score : (κ → ℚ) → Except Exn Score}
    (hf : ∀ p, score p = .ok ((f p).getD .ninf)) :
    ∀ (n : Nat) {s : Ens κ ε} {l : Models κ ε} (_ : s.models = some l) (_ : ModelsOK s.library l)
      (_ : l ≠ []) (prev : Option (Mdl κ ε)) (_ : ∀ m, prev = some m → m ∈ s.library),
      (n = 0 ∨ prev.isSome ∨ (∃ x ∈ s.library, UsableScore (extendedFloat f l x)) →
        ∃ l' sc, expandLoop score n prev s = (.ok (), { s with models := some l', internal := sc }) ∧
          ModelsOK s.library l' ∧ l' ≠ [] ∧ totalWeight l' = totalWeight l + n ∧
          GreedyOr f s.library n prev l l') ∧
      (0 < n → prev = none → (∀ x ∈ s.library, ¬ UsableScore (extendedFloat f l x)) →
        expandLoop score n prev s = (.error .unboundLocal, s)) := by
  intro n
  induction n with
  | zero =>
    intro s l hs hl h0 prev _
    refine ⟨fun _ => ⟨l, s.internal, ?_, hl, h0, by simp, .done prev l⟩, fun h => absurd h (by simp)⟩
    unfold expandLoop
    rw [← hs]
    rfl
  | succ n ih =>
    intro s l hs hl h0 prev hp
    rcases expandOne_any hf hs hl h0 prev hp with ⟨m, l₁, sc₁, hb, hm, hrun, hok, hne, htot, hw⟩ | ⟨h1, h2, h3⟩
    · refine ⟨fun _ => ?_, fun _ h1 h2 => ?_⟩
      · obtain ⟨l₂, sc, hrun₂, hok₂, hne₂, htot₂, hg⟩ :=
          (ih (s := { s with models := some l₁, internal := sc₁ }) rfl hok hne (some m)
            (fun x hx => by rw [← Option.some.inj hx]; exact hm)).1 (Or.inr (Or.inl rfl))
        refine ⟨l₂, sc, ?_, hok₂, hne₂, ?_, ?_⟩
        · unfold expandLoop
          rw [bind_ok hrun, hrun₂]
        · rw [htot₂, htot]
          push_cast
          omega
        · rcases hb with hb | ⟨rfl, hb⟩
          · exact .add n prev l l₁ l₂ m hb hw hok.ofLibrary hg
          · exact .again n l l₁ l₂ m hb hw hok.ofLibrary hg
      · rcases hb with ⟨pre, post, v, hl', hv, hv', _⟩ | ⟨hb, _⟩
        · exact absurd ⟨v, hv, hv'⟩ (h2 m hm)
        · rw [h1] at hb; cases hb
    · refine ⟨fun h => ?_, fun _ _ _ => ?_⟩
      · rcases h with h | h | ⟨x, hx, h⟩
        · cases h
        · rw [h1] at h; cases h
        · exact absurd h (h2 x hx)
      · unfold expandLoop
        rw [bind_error h3]

/-! ## C182 -/

/-- How many models an ensemble starts with. -/
def Spec.startSize (size : Int) (library : List (Mdl κ ε)) : Int :=
  min (if size ≤ 10 then 1 else 10) (library.length : Int)

/-- **C182** in full: an ensemble built from models with fitted estimators in time can predict, and its weights add up
to its size, whatever the metric gives for its members. -/
def C182_claim : Prop :=
  ∀ (κ ε : Type) (f : (κ → ℚ) → Option Score) (size : Int) (library : List (Mdl κ ε)) (timeout : ℚ),
    1 ≤ size → library ≠ [] → (∀ m ∈ library, m.estimators ≠ []) → 0 < timeout →
    (∃ l, (floatEnsemble (fun p => .ok (f p)) size timeout library).models = some l ∧
      (l.map fun e => e.2.2).sum = size) ∧
    ∀ (κ' : Type) (predict : ε → κ' → ℚ), ∃ p,
      weightedMeanPredictions predict (floatEnsemble (fun p => .ok (f p)) size timeout library) = .ok p

/-- **C182**, exactly: the ensemble starts with the best model or ten best; it can be used if no more are to be added or
with some model the score of the extended ensemble is a number and not minus infinity, and then each addition is of the
best model by the scores that are such, or again of the one added last if none is.  Otherwise it cannot predict. -/
theorem C182_exact (f : (κ → ℚ) → Option Score) (size : Int) (hsz : 1 ≤ size) (library : List (Mdl κ ε))
    (hlib : library ≠ []) (hest : ∀ m ∈ library, m.estimators ≠ []) (timeout : ℚ) (ht : 0 < timeout) :
    ∃ l₀, ∃ n : Nat, (n : Int) = size - startSize size library ∧
      (∀ id, weightOf l₀ id = (((library.take (if size ≤ 10 then 1 else 10)).map Mdl.id).count id : Int)) ∧
      OfLibrary library l₀ ∧
      ((n = 0 ∨ ∃ x ∈ library, UsableScore (extendedFloat f l₀ x)) →
        (∃ l, (floatEnsemble (fun p => .ok (f p)) size timeout library).models = some l ∧
          (l.map fun e => e.2.2).sum = size ∧ OfLibrary library l ∧ (∀ e ∈ l, 0 < e.2.2) ∧
          GreedyOr f library n none l₀ l) ∧
        ∀ (κ' : Type) (predict : ε → κ' → ℚ), ∃ p,
          weightedMeanPredictions predict (floatEnsemble (fun p => .ok (f p)) size timeout library) = .ok p) ∧
      (0 < n → (∀ x ∈ library, ¬ UsableScore (extendedFloat f l₀ x)) →
        ∀ (κ' : Type) (predict : ε → κ' → ℚ),
          weightedMeanPredictions predict (floatEnsemble (fun p => .ok (f p)) size timeout library) =
            .error .typeError) := by
  have hf : ∀ p, noNan (fun p => .ok (f p)) p = .ok ((f p).getD .ninf) := fun p => rfl
  have hinit : ∃ l₀, buildInitial (noNan fun p => .ok (f p)) (if size ≤ 10 then 1 else 10) (newEnsemble library) =
        (.ok (), (⟨library, some l₀, .ninf, none, true⟩ : Ens κ ε)) ∧
      ModelsOK library l₀ ∧ l₀ ≠ [] ∧ totalWeight l₀ = startSize size library ∧
        (∀ id, weightOf l₀ id = (((library.take (if size ≤ 10 then 1 else 10)).map Mdl.id).count id : Int)) ∧
        OfLibrary library l₀ := by
    unfold startSize
    by_cases h : size ≤ 10
    · simp only [if_pos h]
      obtain ⟨l₀, h1, h2, h3, h4, _, h5, h6⟩ := buildInitial_spec (f := fun p => (f p).getD .ninf) hf (by decide : (0 : Int) < 1) (s := newEnsemble library) hlib
      exact ⟨l₀, h1, h2, h3, h4, h5, h6⟩
    · simp only [if_neg h]
      obtain ⟨l₀, h1, h2, h3, h4, _, h5, h6⟩ := buildInitial_spec (f := fun p => (f p).getD .ninf) hf (by decide : (0 : Int) < 10) (s := newEnsemble library) hlib
      exact ⟨l₀, h1, h2, h3, h4, h5, h6⟩
  obtain ⟨l₀, hrun₀, hok₀, hne₀, htot₀, hw₀, ho₀⟩ := hinit
  have hle : totalWeight l₀ ≤ size := by
    rw [htot₀]
    unfold startSize
    split <;> omega
  have hv : ∀ (l : Models κ ε) (sc : Score),
      modelValues (⟨library, some l, sc, none, true⟩ : Ens κ ε) =
        (.ok l, (⟨library, some l, sc, none, true⟩ : Ens κ ε)) := fun _ _ => rfl
  have hfit : ∀ (l : Models κ ε) (sc : Score), l ≠ [] →
      fitEnsemble timeout (⟨library, some l, sc, none, true⟩ : Ens κ ε) =
        (.ok (), ⟨library, some l, sc, some (l.flatMap fun e => e.2.1.estimators.map fun x => (x, e.2.2)), true⟩) := by
    intro l sc h
    unfold fitEnsemble
    rw [bind_ok get_run]
    cases l with
    | nil => exact absurd rfl h
    | cons e l =>
      dsimp only
      rw [if_neg (not_le.2 ht)]
      rfl
  have hloop := expandLoop_any (f := f) hf (size - totalWeight l₀).toNat
        (s := (⟨library, some l₀, .ninf, none, true⟩ : Ens κ ε)) rfl hok₀ hne₀ none (fun _ h => by cases h)
  refine ⟨l₀, (size - totalWeight l₀).toNat, by rw [← htot₀]; omega, hw₀, ho₀, fun h => ?_, fun hn h κ' predict => ?_⟩
  · obtain ⟨l, sc, hrun, hok, hne, htot, hg⟩ := hloop.1 (by
      rcases h with h | h
      · exact Or.inl h
      · exact Or.inr (Or.inr h))
    have hall : floatEnsemble (fun p => .ok (f p)) size timeout library =
        ⟨library, some l, sc, some (l.flatMap fun e => e.2.1.estimators.map fun x => (x, e.2.2)), true⟩ := by
      rw [floatEnsemble_eq]
      unfold buildFitEnsemble buildFit
      rw [bind_ok hrun₀, bind_ok (hv l₀ .ninf)]
      dsimp only
      by_cases hrem : 0 < size - totalWeight l₀
      · rw [if_pos hrem]
        unfold expandEnsemble
        rw [bind_ok (s' := (⟨library, some l, sc, none, true⟩ : Ens κ ε)) (a := ())]
        · rw [hfit l sc hne]
        · rw [if_neg (by omega)]
          exact hrun
      · rw [if_neg hrem]
        have h0 : (size - totalWeight l₀).toNat = 0 := by omega
        rw [h0] at hrun
        unfold expandLoop at hrun
        have := (Prod.mk.inj hrun).2
        injection this with _ h2 h3
        cases h2
        rw [← h3]
        exact congrArg Prod.snd (hfit l₀ .ninf hne)
    rw [hall]
    refine ⟨⟨l, rfl, ?_, hok.ofLibrary, fun e he => (hok.own e he).2.1, hg⟩, fun κ' predict => ?_⟩
    · have : totalWeight l = size := by rw [htot]; omega
      exact this
    · refine ⟨_, C45_mean predict _ _ rfl ?_⟩
      obtain ⟨e, he⟩ := List.exists_mem_of_ne_nil l hne
      obtain ⟨x, hx⟩ := List.exists_mem_of_ne_nil _ (hest _ (hok.own e he).2.2)
      exact List.ne_nil_of_mem (List.mem_flatMap.2 ⟨e, he, List.mem_map.2 ⟨x, hx, rfl⟩⟩)
  · have hrun := hloop.2 hn rfl h
    have hall : floatEnsemble (fun p => .ok (f p)) size timeout library = ⟨library, some l₀, .ninf, none, true⟩ := by
      rw [floatEnsemble_eq]
      unfold buildFitEnsemble buildFit
      rw [bind_ok hrun₀, bind_ok (hv l₀ .ninf)]
      dsimp only
      rw [if_pos (by omega)]
      unfold expandEnsemble
      rw [bind_error (s' := (⟨library, some l₀, .ninf, none, true⟩ : Ens κ ε)) (e := .unboundLocal)]
      rw [if_neg (by omega)]
      exact hrun
    rw [hall]
    rfl

/-- **C182** where it holds: with some model the score of the ensemble at the start, extended by it, is a number and not
minus infinity. -/
theorem C182_partial (f : (κ → ℚ) → Option Score) (size : Int) (hsz : 1 ≤ size) (library : List (Mdl κ ε))
    (hlib : library ≠ []) (hest : ∀ m ∈ library, m.estimators ≠ []) (timeout : ℚ) (ht : 0 < timeout)
    (hu : ∀ l, OfLibrary library l →
      (∀ id, weightOf l id = (((library.take (if size ≤ 10 then 1 else 10)).map Mdl.id).count id : Int)) →
      ∃ x ∈ library, UsableScore (extendedFloat f l x)) :
    (∃ l, (floatEnsemble (fun p => .ok (f p)) size timeout library).models = some l ∧
      (l.map fun e => e.2.2).sum = size) ∧
    ∀ (κ' : Type) (predict : ε → κ' → ℚ), ∃ p,
      weightedMeanPredictions predict (floatEnsemble (fun p => .ok (f p)) size timeout library) = .ok p := by
  obtain ⟨l₀, n, _, hw, ho, h, _⟩ := C182_exact f size hsz library hlib hest timeout ht
  obtain ⟨⟨l, h1, h2, _⟩, h3⟩ := h (Or.inr (hu l₀ ho hw))
  exact ⟨⟨l, h1, h2⟩, h3⟩

/-- **C182 is false**: with a metric that gives NaN for every prediction nothing is added, an exception ends building
the ensemble, and it cannot predict. -/
theorem C182_false : ¬ C182_claim := by
  intro h
  have hest : ∀ m ∈ Ex.twoModels, m.estimators ≠ [] := by decide
  obtain ⟨p, hp⟩ := (h Unit Nat (fun _ => none) 4 Ex.twoModels 10 (by decide) (by simp [Ex.twoModels]) hest
    (by decide)).2 Unit (fun _ _ => 0)
  obtain ⟨l₀, n, hn, _, _, _, h2⟩ := C182_exact (fun _ => none) 4 (by decide) Ex.twoModels (by simp [Ex.twoModels])
    hest 10 (by decide)
  have hn' : 0 < n := by
    have : startSize 4 Ex.twoModels = 1 := by decide
    rw [this] at hn
    omega
  rw [h2 hn' (fun x _ ⟨v, hv, _⟩ => by cases hv)] at hp
  cases hp

/-- The hypothesis of `C182_partial` for a metric that gives NaN for one value: it is not that of the mean with both
models. -/
example (l : Models Unit Nat) : ∃ x ∈ Ex.twoModels,
    UsableScore (extendedFloat (fun p => if p () = 5 then none else some (Ex.closeToOne p)) l x) := by
  have h : ∀ m : Mdl Unit Nat, mean (members l ++ [(m.preds, 1)]) () ≠ 5 →
      UsableScore (extendedFloat (fun p => if p () = 5 then none else some (Ex.closeToOne p)) l m) := by
    intro m hm
    unfold extendedFloat
    dsimp only
    rw [if_neg hm]
    exact ⟨_, rfl, by simp [Ex.closeToOne]⟩
  by_cases h1 : mean (members l ++ [((fun _ => 0 : Unit → ℚ), 1)]) () = 5
  · refine ⟨⟨2, fun _ => 4, [20]⟩, by simp [Ex.twoModels], h _ fun h2 => ?_⟩
    simp only [mean, List.map_append, List.sum_append, List.map_cons, List.map_nil, List.sum_cons, List.sum_nil] at h1 h2
    have hw : ((members l).map Prod.snd).sum + (1 + 0) ≠ (0 : ℚ) := fun e => by
      rw [e, div_zero] at h1
      norm_num at h1
    rw [div_eq_iff hw] at h1 h2
    linarith
  · exact ⟨⟨1, fun _ => 0, [10, 11]⟩, by simp [Ex.twoModels], h _ h1⟩

/-- NaN if the prediction is greater than one. -/
def Ex.partlyNan (p : Unit → ℚ) : Option Score := if 1 < p () then none else some (Ex.closeToOne p)

/-- With the second model the score is NaN as long as the ensemble is small. -/
example : (floatEnsemble (fun p => .ok (Ex.partlyNan p)) 4 10 Ex.twoModels).models.map
      (fun l => l.map fun e => (e.1, e.2.2)) = some [(1, 3), (2, 1)] ∧
    (floatEnsemble (fun p => .ok (Ex.partlyNan p)) 4 10 Ex.twoModels).internal = .fin 0 := by
  decide +kernel

/-- A metric that gives NaN unless the prediction is 2: the second model is added, and then again although the score is
not a number. -/
example : (floatEnsemble (fun p => .ok (if p () = 2 then some (.fin 1) else none)) 3 10 Ex.twoModels).models.map
      (fun l => l.map fun e => (e.1, e.2.2)) = some [(1, 1), (2, 2)] ∧
    (floatEnsemble (fun p => .ok (if p () = 2 then some (.fin 1) else none)) 3 10 Ex.twoModels).internal = .ninf := by
  decide +kernel

end
end Gama
