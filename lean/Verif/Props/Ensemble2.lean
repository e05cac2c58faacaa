import Verif.Props.Ensemble
import Verif.Spec.Library

/-! # Ensembles and best fit: C45 – C48, C82 -/

namespace Gama
open PyM Spec

section
variable {κ ε : Type}

/-! ## C45 -/

theorem sum_cast {α : Type} (g : α → Int) (l : List α) :
    (l.map fun e => ((g e : Int) : ℚ)).sum = (((l.map g).sum : Int) : ℚ) := by
  induction l with
  | nil => simp
  | cons e l ih => simp [ih]

theorem sum_pos_of {α : Type} (g : α → Int) :
    ∀ l : List α, (∀ e ∈ l, 0 < g e) → 0 ≤ (l.map g).sum ∧ (l ≠ [] → 0 < (l.map g).sum) := by
  intro l
  induction l with
  | nil => intro _; exact ⟨by simp, fun h => absurd rfl h⟩
  | cons e l ih =>
    intro h
    have h1 := h e (List.mem_cons_self ..)
    have h2 := (ih fun e he => h e (List.mem_cons_of_mem _ he)).1
    simp only [List.map_cons, List.sum_cons]
    exact ⟨by omega, fun _ => by omega⟩

theorem weighted_le {α : Type} (g : α → ℚ) (w : α → ℚ) (hi : ℚ) :
    ∀ l : List α, (∀ e ∈ l, 0 < w e ∧ g e ≤ hi) →
      (l.map fun e => g e * w e).sum ≤ hi * (l.map w).sum := by
  intro l
  induction l with
  | nil => intro _; simp
  | cons e l ih =>
    intro h
    obtain ⟨h1, h2⟩ := h e (List.mem_cons_self ..)
    have h3 := ih fun e he => h e (List.mem_cons_of_mem _ he)
    simp only [List.map_cons, List.sum_cons]
    have := mul_le_mul_of_nonneg_right h2 h1.le
    linarith

theorem weighted_ge {α : Type} (g : α → ℚ) (w : α → ℚ) (lo : ℚ) :
    ∀ l : List α, (∀ e ∈ l, 0 < w e ∧ lo ≤ g e) →
      lo * (l.map w).sum ≤ (l.map fun e => g e * w e).sum := by
  intro l
  induction l with
  | nil => intro _; simp
  | cons e l ih =>
    intro h
    obtain ⟨h1, h2⟩ := h e (List.mem_cons_self ..)
    have h3 := ih fun e he => h e (List.mem_cons_of_mem _ he)
    simp only [List.map_cons, List.sum_cons]
    have := mul_le_mul_of_nonneg_right h2 h1.le
    linarith

/-- **C45** A fitted ensemble predicts the weighted mean of its models. -/
theorem C45_mean {κ' : Type} (predict : ε → κ' → ℚ) (s : Ens κ ε) (l : List (ε × Int))
    (hl : s.fit = some l) (h0 : l ≠ []) :
    weightedMeanPredictions predict s = .ok (mean (l.map fun e => (predict e.1, (e.2 : ℚ)))) := by
  unfold weightedMeanPredictions
  rw [hl]
  cases l with
  | nil => exact absurd rfl h0
  | cons e l =>
    dsimp only
    congr 1
    funext k
    unfold mean
    rw [List.map_map, List.map_map, ← sum_cast Prod.snd (e :: l)]
    rfl

/-- **C45** The prediction lies between those of the models. -/
theorem C45_between {κ' : Type} (predict : ε → κ' → ℚ) (s : Ens κ ε) (l : List (ε × Int))
    (hl : s.fit = some l) (h0 : l ≠ []) (hw : ∀ e ∈ l, 0 < e.2) :
    ∃ p, weightedMeanPredictions predict s = .ok p ∧
      ∀ k lo hi, (∀ e ∈ l, lo ≤ predict e.1 k ∧ predict e.1 k ≤ hi) → lo ≤ p k ∧ p k ≤ hi := by
  refine ⟨_, C45_mean predict s l hl h0, ?_⟩
  intro k lo hi h
  have hpos : (0 : ℚ) < (l.map fun e => ((e.2 : Int) : ℚ)).sum := by
    rw [sum_cast]
    exact_mod_cast (sum_pos_of _ l hw).2 h0
  have hw' : ∀ e ∈ l, (0 : ℚ) < ((e.2 : Int) : ℚ) := fun e he => by exact_mod_cast hw e he
  have e1 : mean (l.map fun e => (predict e.1, (e.2 : ℚ))) k =
      (l.map fun e => predict e.1 k * (e.2 : ℚ)).sum / (l.map fun e => ((e.2 : Int) : ℚ)).sum := by
    unfold mean
    rw [List.map_map, List.map_map]
    rfl
  rw [e1, le_div_iff₀ hpos, div_le_iff₀ hpos]
  exact ⟨weighted_ge _ _ lo l fun e he => ⟨hw' e he, (h e he).1⟩,
    weighted_le _ _ hi l fun e he => ⟨hw' e he, (h e he).2⟩⟩

/-- **C45** If the models agree, the ensemble agrees with them. -/
theorem C45_agree {κ' : Type} (predict : ε → κ' → ℚ) (s : Ens κ ε) (l : List (ε × Int))
    (hl : s.fit = some l) (h0 : l ≠ []) (hw : ∀ e ∈ l, 0 < e.2) :
    ∃ p, weightedMeanPredictions predict s = .ok p ∧
      ∀ k c, (∀ e ∈ l, predict e.1 k = c) → p k = c := by
  obtain ⟨p, hp, hb⟩ := C45_between predict s l hl h0 hw
  refine ⟨p, hp, fun k c h => ?_⟩
  obtain ⟨h1, h2⟩ := hb k c c fun e he => ⟨(h e he).ge, (h e he).le⟩
  exact le_antisymm h2 h1

theorem sum_mul_const {γ : Type} (g : γ → ℚ) (c : ℚ) (l : List γ) :
    (l.map fun x => g x * c).sum = (l.map g).sum * c := by
  induction l with
  | nil => simp
  | cons e l ih => simp only [List.map_cons, List.sum_cons, ih, add_mul]

theorem sum_swap {γ α : Type} (cs : List γ) (g : γ → α → ℚ) (w : α → ℚ) :
    ∀ l : List α, (∀ e ∈ l, (cs.map fun c => g c e).sum = 1) →
      (cs.map fun c => (l.map fun e => g c e * w e).sum).sum = (l.map w).sum := by
  intro l
  induction l with
  | nil => intro _; simp
  | cons e l ih =>
    intro h
    have h1 := h e (List.mem_cons_self ..)
    have h2 := ih fun e he => h e (List.mem_cons_of_mem _ he)
    simp only [List.map_cons, List.sum_cons]
    rw [List.sum_map_add, h2, sum_mul_const, h1, one_mul]

/-- **C45** Class probabilities still add up to one. -/
theorem C45_probabilities {ρ γ : Type} (classes : List γ) (predict : ε → ρ × γ → ℚ) (s : Ens κ ε)
    (l : List (ε × Int)) (hl : s.fit = some l) (h0 : l ≠ []) (hw : ∀ e ∈ l, 0 < e.2) :
    ∃ p, weightedMeanPredictions predict s = .ok p ∧
      ∀ r, (∀ e ∈ l, (classes.map fun c => predict e.1 (r, c)).sum = 1) →
        (classes.map fun c => p (r, c)).sum = 1 := by
  refine ⟨_, C45_mean predict s l hl h0, ?_⟩
  intro r h
  have hpos : (0 : ℚ) < (l.map fun e => ((e.2 : Int) : ℚ)).sum := by
    rw [sum_cast]
    exact_mod_cast (sum_pos_of _ l hw).2 h0
  have e1 : ∀ k, mean (l.map fun e => (predict e.1, (e.2 : ℚ))) k =
      (l.map fun e => predict e.1 k * (e.2 : ℚ)).sum / (l.map fun e => ((e.2 : Int) : ℚ)).sum := by
    intro k
    unfold mean
    rw [List.map_map, List.map_map]
    rfl
  simp only [e1, div_eq_mul_inv]
  rw [sum_mul_const, sum_swap classes (fun c e => predict e.1 (r, c)) _ l h]
  exact mul_inv_cancel₀ hpos.ne'

/-- `argmax` gives a class with the largest value. -/
theorem argmax_spec {γ : Type} (f : γ → ℚ) :
    ∀ cs : List γ, (argmax f cs = none → cs = []) ∧
      ∀ c, argmax f cs = some c → c ∈ cs ∧ ∀ d ∈ cs, f d ≤ f c := by
  intro cs
  induction cs with
  | nil => exact ⟨fun _ => rfl, fun c h => by cases h⟩
  | cons a cs ih =>
    unfold argmax
    cases h : argmax f cs with
    | none =>
      have := ih.1 h
      subst this
      refine ⟨(by simp), fun c hc => ?_⟩
      simp only [Option.some.injEq] at hc
      subst hc
      simp
    | some d =>
      obtain ⟨h1, h2⟩ := ih.2 d h
      dsimp only
      by_cases e : f d ≤ f a
      · rw [if_pos e]
        refine ⟨(by simp), fun c hc => ?_⟩
        simp only [Option.some.injEq] at hc
        subst hc
        refine ⟨List.mem_cons_self .., fun x hx => ?_⟩
        rcases List.mem_cons.1 hx with rfl | hx
        · exact le_refl _
        · exact le_trans (h2 x hx) e
      · rw [if_neg e]
        refine ⟨(by simp), fun c hc => ?_⟩
        simp only [Option.some.injEq] at hc
        subst hc
        refine ⟨List.mem_cons_of_mem _ h1, fun x hx => ?_⟩
        rcases List.mem_cons.1 hx with rfl | hx
        · exact (not_le.1 e).le
        · exact h2 x hx

/-- **C45** With a metric on labels, the predicted class is one with the largest total weight of
models voting for it, and one all models agree on is predicted. -/
theorem C45_vote {ρ γ : Type} [DecidableEq γ] (classes : List γ) (hc : classes ≠ [])
    (label : ε → ρ → γ) (s : Ens κ ε) (l : List (ε × Int)) (hl : s.fit = some l) (h0 : l ≠ [])
    (hw : ∀ e ∈ l, 0 < e.2) :
    ∃ p, weightedMeanPredictions (fun e => oneHot (label e)) s = .ok p ∧
      ∀ r, ∃ c ∈ classes, argmax (fun c => p (r, c)) classes = some c ∧
        (∀ d ∈ classes, ((l.filter fun e => label e.1 r = d).map Prod.snd).sum ≤
          ((l.filter fun e => label e.1 r = c).map Prod.snd).sum) ∧
        ∀ d ∈ classes, (∀ e ∈ l, label e.1 r = d) → c = d := by
  refine ⟨_, C45_mean _ s l hl h0, ?_⟩
  intro r
  have hpos : (0 : ℚ) < (l.map fun e => ((e.2 : Int) : ℚ)).sum := by
    rw [sum_cast]
    exact_mod_cast (sum_pos_of _ l hw).2 h0
  have hv : ∀ d, mean (l.map fun e => (oneHot (label e.1), (e.2 : ℚ))) (r, d) =
      (((l.filter fun e => label e.1 r = d).map Prod.snd).sum : ℚ) /
        (l.map fun e => ((e.2 : Int) : ℚ)).sum := by
    intro d
    unfold mean
    rw [List.map_map, List.map_map]
    have h2 : (Prod.snd ∘ fun e : ε × Int => (oneHot (ρ := ρ) (label e.1), (e.2 : ℚ))) =
        fun e => ((e.2 : Int) : ℚ) := rfl
    rw [h2]
    congr 1
    clear h2 hpos hw h0 hl
    induction l with
    | nil => simp
    | cons e l ih =>
      by_cases h : label e.1 r = d
      · simp [oneHot, h] at ih ⊢
        exact ih
      · simp [oneHot, h] at ih ⊢
        exact ih
  cases ha : argmax (fun c => mean (l.map fun e => (oneHot (label e.1), (e.2 : ℚ))) (r, c)) classes with
  | none => exact absurd ((argmax_spec _ classes).1 ha) hc
  | some c =>
    obtain ⟨h1, h2⟩ := (argmax_spec _ classes).2 c ha
    have hle : ∀ d ∈ classes, ((l.filter fun e => label e.1 r = d).map Prod.snd).sum ≤
        ((l.filter fun e => label e.1 r = c).map Prod.snd).sum := by
      intro d hd
      have := h2 d hd
      rw [hv, hv, div_le_div_iff_of_pos_right hpos] at this
      exact_mod_cast this
    refine ⟨c, h1, rfl, hle, ?_⟩
    intro d hd hall
    by_contra hne
    have h3 := hle d hd
    have h4 : (l.filter fun e => label e.1 r = d) = l :=
      List.filter_eq_self.2 fun e he => by simpa using hall e he
    have h5 : (l.filter fun e => label e.1 r = c) = [] :=
      List.filter_eq_nil_iff.2 fun e he => by
        have := hall e he
        simp only [this, decide_eq_true_eq]
        exact fun h => hne h.symm
    rw [h4, h5] at h3
    have h6 := (sum_pos_of Prod.snd l hw).2 h0
    simp only [List.map_nil, List.sum_nil] at h3
    omega

/-- The built ensemble is fitted with positive weights: the hypotheses of the C45 theorems and
**C82** where it holds: there is a model to choose, with fitted estimators, time is left, and the
metric gives comparable scores. -/
theorem C82_predict_partial (f : (κ → ℚ) → Score) (score : (κ → ℚ) → Except Exn Score)
    (hf : ∀ p, score p = .ok (f p)) (hn : ∀ p, f p ≠ .ninf) (size : Int) (hsz : 1 ≤ size)
    (library : List (Mdl κ ε)) (hlib : library ≠ []) (hest : ∀ m ∈ library, m.estimators ≠ [])
    (timeout : ℚ) (ht : 0 < timeout) :
    (∃ l, (buildFitEnsemble score size timeout library).fit = some l ∧ l ≠ [] ∧ ∀ e ∈ l, 0 < e.2 ∧
      ∃ m ∈ library, e.1 ∈ m.estimators) ∧
    ∀ (κ' : Type) (predict : ε → κ' → ℚ), ∃ p,
      weightedMeanPredictions predict (buildFitEnsemble score size timeout library) = .ok p := by
  obtain ⟨l₀, l, sc, n, hrun, hok, hne, _⟩ := buildFit_spec hf hn hsz hlib timeout ht
  have hfit : (buildFitEnsemble score size timeout library).fit =
      some (l.flatMap fun e => e.2.1.estimators.map fun x => (x, e.2.2)) := by
    unfold buildFitEnsemble
    rw [hrun]
  have hnil : (l.flatMap fun e => e.2.1.estimators.map fun x => (x, e.2.2)) ≠ [] := by
    obtain ⟨e, he⟩ := List.exists_mem_of_ne_nil l hne
    obtain ⟨x, hx⟩ := List.exists_mem_of_ne_nil _ (hest _ (hok.own e he).2.2)
    exact List.ne_nil_of_mem (List.mem_flatMap.2 ⟨e, he, List.mem_map.2 ⟨x, hx, rfl⟩⟩)
  refine ⟨⟨_, hfit, hnil, ?_⟩, fun κ' predict => ⟨_, C45_mean predict _ _ hfit hnil⟩⟩
  intro e he
  obtain ⟨a, ha, hb⟩ := List.mem_flatMap.1 he
  obtain ⟨x, hx, rfl⟩ := List.mem_map.1 hb
  exact ⟨(hok.own a ha).2.1, a.2.1, (hok.own a ha).2.2, hx⟩

/-- **C82** in full: an ensemble that was returned can predict. -/
def C82_claim : Prop :=
  ∀ (κ ε κ' : Type) (score : (κ → ℚ) → Except Exn Score) (size : Int) (library : List (Mdl κ ε)) (timeout : ℚ)
    (predict : ε → κ' → ℚ), 1 ≤ size →
    ∃ p, weightedMeanPredictions predict (buildFitEnsemble score size timeout library) = .ok p

/-- Running `m` does not fit the ensemble. -/
def Unfitted {α : Type} (m : PyM (Ens κ ε) α) : Prop :=
  ∀ s, s.fit = none → wp m (fun _ s' => s'.fit = none) (fun _ s' => s'.fit = none) s

theorem Unfitted.bind {α β : Type} {m : PyM (Ens κ ε) α} {g : α → PyM (Ens κ ε) β} (hm : Unfitted m)
    (hg : ∀ a, Unfitted (g a)) : Unfitted (m >>= g) := by
  intro s hs
  refine wp_bind.2 (wp_mono (fun a s' h => hg a s' h) (fun _ _ h => h) (hm s hs))

theorem Unfitted.pure {α : Type} (a : α) : Unfitted (pure a : PyM (Ens κ ε) α) := fun _ hs => wp_pure.2 hs
theorem Unfitted.raise {α : Type} (e : Exn) : Unfitted (raise e : PyM (Ens κ ε) α) := fun _ hs => wp_raise.2 hs
theorem Unfitted.get : Unfitted (PyM.get : PyM (Ens κ ε) (Ens κ ε)) := fun _ hs => wp_get.2 hs
theorem Unfitted.modify {g : Ens κ ε → Ens κ ε} (h : ∀ s, (g s).fit = s.fit) : Unfitted (modify g) :=
  fun s hs => wp_modify.2 ((h s).trans hs)

theorem Unfitted.modelValues : Unfitted (modelValues : PyM (Ens κ ε) _) := by
  intro s hs
  unfold Gama.modelValues wp
  dsimp only
  cases s.models with
  | none => exact hs
  | some l => exact hs

theorem Unfitted.averaged : Unfitted (averaged : PyM (Ens κ ε) _) := by
  unfold Gama.averaged
  refine Unfitted.modelValues.bind fun l => ?_
  by_cases h : l.length = 0
  · rw [if_pos h]; exact Unfitted.raise _
  · rw [if_neg h]; exact Unfitted.pure _

theorem Unfitted.validationScore (score : (κ → ℚ) → Except Exn Score) (p : κ → ℚ) :
    Unfitted (validationScore (ε := ε) score p) := by
  intro s hs
  unfold Gama.validationScore wp
  cases score p with
  | error e => exact hs
  | ok c => exact hs

theorem Unfitted.addModel (m : Mdl κ ε) : Unfitted (addModel m) := by
  unfold Gama.addModel
  exact Unfitted.modelValues.bind fun l => Unfitted.modify fun s => rfl

theorem Unfitted.addModels : ∀ ms : List (Mdl κ ε), Unfitted (addModels ms)
  | [] => Unfitted.pure ()
  | m :: ms => (Unfitted.addModel m).bind fun _ => Unfitted.addModels ms

theorem Unfitted.buildInitial (score : (κ → ℚ) → Except Exn Score) (n : Int) :
    Unfitted (buildInitial (ε := ε) score n) := by
  unfold Gama.buildInitial
  by_cases h : n ≤ 0
  · simp only [if_pos h]
    refine Unfitted.bind (Unfitted.raise _) fun _ => Unfitted.bind ?_ fun _ =>
      Unfitted.get.bind fun s => (Unfitted.addModels _).bind fun _ => Unfitted.averaged.bind fun p =>
      (Unfitted.validationScore score p).bind fun _ => Unfitted.pure ()
    exact Unfitted.modify fun s => rfl
  · simp only [if_neg h]
    refine Unfitted.bind ?_ fun _ =>
      Unfitted.get.bind fun s => (Unfitted.addModels _).bind fun _ => Unfitted.averaged.bind fun p =>
      (Unfitted.validationScore score p).bind fun _ => Unfitted.pure ()
    exact Unfitted.modify fun s => rfl

theorem Unfitted.bestAddition (score : (κ → ℚ) → Except Exn Score) (avg : κ → ℚ) (w : Int) :
    ∀ (ms : List (Mdl κ ε)) (best : Option (Mdl κ ε)) (b : Score),
      Unfitted (bestAddition score avg w ms best b)
  | [], _, _ => Unfitted.pure _
  | m :: ms, best, b => by
    unfold Gama.bestAddition
    refine (Unfitted.validationScore score _).bind fun c => ?_
    by_cases h : b < c
    · rw [if_pos h]; exact Unfitted.bestAddition score avg w ms _ _
    · rw [if_neg h]; exact Unfitted.bestAddition score avg w ms _ _

theorem Unfitted.expandOne (score : (κ → ℚ) → Except Exn Score) (prev : Option (Mdl κ ε)) :
    Unfitted (expandOne score prev) := by
  unfold Gama.expandOne
  refine Unfitted.averaged.bind fun avg => Unfitted.modelValues.bind fun l => Unfitted.get.bind fun s =>
    (Unfitted.bestAddition score avg _ _ _ _).bind fun best => ?_
  cases best.1 with
  | none => exact Unfitted.raise _
  | some m =>
    refine (Unfitted.addModel m).bind fun _ => Unfitted.bind ?_ fun _ => Unfitted.pure _
    exact Unfitted.modify fun s => rfl

theorem Unfitted.expandLoop (score : (κ → ℚ) → Except Exn Score) :
    ∀ (n : Nat) (prev : Option (Mdl κ ε)), Unfitted (expandLoop score n prev)
  | 0, _ => Unfitted.pure ()
  | n + 1, prev => (Unfitted.expandOne score prev).bind fun m => Unfitted.expandLoop score n m

theorem Unfitted.expandEnsemble (score : (κ → ℚ) → Except Exn Score) (n : Int) :
    Unfitted (expandEnsemble (ε := ε) score n) := by
  unfold Gama.expandEnsemble
  by_cases h : n ≤ 0
  · simp only [if_pos h]
    exact (Unfitted.raise _).bind fun _ => Unfitted.expandLoop score _ _
  · simp only [if_neg h]
    exact Unfitted.expandLoop score _ _

theorem Unfitted.fitEnsemble {timeout : ℚ} (ht : timeout ≤ 0) :
    Unfitted (fitEnsemble timeout : PyM (Ens κ ε) Unit) := by
  unfold Gama.fitEnsemble
  refine Unfitted.get.bind fun s => ?_
  cases s.models with
  | none => exact Unfitted.raise _
  | some l =>
    cases l with
    | nil => exact Unfitted.raise _
    | cons e l =>
      dsimp only
      rw [if_pos ht]
      exact Unfitted.raise _

theorem buildInitial_empty (score : (κ → ℚ) → Except Exn Score) (n : Int) (s : Ens κ ε) (h : s.library = []) :
    ∃ e s', buildInitial score n s = (.error e, s') := by
  unfold Gama.buildInitial
  by_cases hn : n ≤ 0
  · rw [if_pos hn]
    exact ⟨_, _, rfl⟩
  · rw [if_neg hn]
    dsimp only
    rw [bind_ok modify_run, bind_ok get_run]
    dsimp only
    rw [h, List.take_nil]
    exact ⟨_, _, rfl⟩

/-- With no model, or no time left, whatever the metric, `predict` is a `TypeError`. -/
theorem C82_unfitted (score : (κ → ℚ) → Except Exn Score) (size : Int) (library : List (Mdl κ ε)) (timeout : ℚ)
    (h : library = [] ∨ timeout ≤ 0) {κ' : Type} (predict : ε → κ' → ℚ) :
    weightedMeanPredictions predict (buildFitEnsemble score size timeout library) = .error .typeError := by
  have key : (buildFitEnsemble score size timeout library).fit = none := by
    have hinit := Unfitted.buildInitial (ε := ε) score (if size ≤ 10 then 1 else 10) (newEnsemble library) rfl
    unfold buildFitEnsemble
    rcases h with h | h
    · obtain ⟨e, s', hr⟩ := buildInitial_empty (ε := ε) score (if size ≤ 10 then 1 else 10)
        (newEnsemble library) h
      have := wp_error hinit hr
      unfold buildFit
      rw [bind_error hr]
      exact this
    · have : Unfitted (buildFit (ε := ε) score size timeout) := by
        unfold buildFit
        refine (Unfitted.buildInitial score _).bind fun _ => Unfitted.modelValues.bind fun l => ?_
        by_cases hl : 0 < size - totalWeight l
        · simp only [if_pos hl]
          exact (Unfitted.expandEnsemble score _).bind fun _ => Unfitted.fitEnsemble h
        · simp only [if_neg hl]
          exact Unfitted.fitEnsemble h
      have hw := this (newEnsemble library) rfl
      cases hr : buildFit score size timeout (newEnsemble library) with
      | mk r s' =>
        cases r with
        | ok a => have c := wp_ok hw hr; exact c
        | error e => have c := wp_error hw hr; exact c
  unfold weightedMeanPredictions
  rw [key]

/-- **C82 is false**: an error while building or fitting the ensemble is only logged. -/
theorem C82_false : ¬ C82_claim := by
  intro h
  obtain ⟨p, hp⟩ := h Unit Nat Unit (fun p => .ok (Ex.closeToOne p)) 25 [] 60 (fun _ _ => 0) (by decide)
  rw [C82_unfitted _ _ _ _ (Or.inl rfl)] at hp
  cases hp

/-- The hypotheses of `C82_predict_partial` and of the C45 theorems in a case: three estimators, of
weights 3, 3 and 1. -/
example : (buildFitEnsemble (fun p => .ok (Ex.closeToOne p)) 4 10 Ex.twoModels).fit =
    some [(20, 1), (10, 3), (11, 3)] := by decide +kernel

example : (match weightedMeanPredictions (fun (e : Nat) (_ : Unit) => (e : ℚ))
    (buildFitEnsemble (fun p => .ok (Ex.closeToOne p)) 4 10 Ex.twoModels) with
    | .ok p => some (p ())
    | .error _ => none) = some (83 / 7) := by decide +kernel

/-! ## C47 -/

/-- **C47** in full: exporting code after pickling gives what it gave before. -/
def C47_claim : Prop :=
  ∀ (κ ε : Type) (s s' : Ens κ ε) (r : Ens κ ε), getstate s = (.ok r, s') → (toCode s').1 = (toCode s).1

/-- **C47** where it holds: predictions are not affected, neither of the model in memory nor of the
pickled one, and with `shrink_on_pickle=False` nothing changes. -/
theorem C47_predict_partial (s s' r : Ens κ ε) (h : getstate s = (.ok r, s')) :
    (∀ {κ' : Type} (predict : ε → κ' → ℚ), weightedMeanPredictions predict s' = weightedMeanPredictions predict s ∧
      weightedMeanPredictions predict r = weightedMeanPredictions predict s) ∧
    (s.shrinkOnPickle = false → s' = s ∧ r = s) := by
  unfold getstate at h
  rw [bind_ok get_run] at h
  cases hs : s.shrinkOnPickle with
  | true =>
    rw [if_pos hs] at h
    rw [bind_ok modify_run] at h
    dsimp only at h
    rw [get_run] at h
    cases h
    exact ⟨fun predict => ⟨rfl, rfl⟩, fun h => by cases h⟩
  | false =>
    rw [if_neg (by rw [hs]; decide)] at h
    cases h
    exact ⟨fun predict => ⟨rfl, rfl⟩, fun _ => ⟨rfl, rfl⟩⟩

/-- After pickling an ensemble made by GAMA, which always shrinks, exporting code is an
`AttributeError`. -/
theorem C47_export_fails (s : Ens κ ε) (hs : s.shrinkOnPickle = true) :
    ∃ r s', getstate s = (.ok r, s') ∧ (toCode s').1 = .error .attributeError := by
  refine ⟨{ s with models := none }, { s with models := none }, ?_, rfl⟩
  unfold getstate
  rw [bind_ok get_run, if_pos hs, bind_ok modify_run]
  rfl

/-- **C47 is false.** -/
theorem C47_false : ¬ C47_claim := by
  intro h
  have := h Unit Nat (newEnsemble []) _ _ rfl
  cases this

end

/-! ## C46 -/

theorem ilocRows_ok {α : Type} {l : List α} :
    ∀ {is : List Nat} {r : List α}, ilocRows l is = .ok r ↔ is.map (fun i => l[i]?) = r.map some := by
  intro is
  induction is with
  | nil => intro r; cases r <;> simp [ilocRows]
  | cons i is ih =>
    intro r
    unfold ilocRows
    cases hi : l[i]? with
    | none =>
      cases r with
      | nil => simp
      | cons a r => simp [hi]
    | some x =>
      dsimp only
      cases hr : ilocRows l is with
      | error e =>
        cases r with
        | nil => simp
        | cons a r =>
          simp only [List.map_cons, List.cons.injEq]
          constructor
          · intro h; cases h
          · rintro ⟨_, h⟩
            rw [ih.2 h] at hr
            cases hr
      | ok xs =>
        have hx := ih.1 hr
        cases r with
        | nil => simp
        | cons a r =>
          simp only [List.map_cons, List.cons.injEq, hi, hx, Except.ok.injEq, Option.some.injEq]
          constructor
          · rintro ⟨rfl, rfl⟩; exact ⟨rfl, rfl⟩
          · rintro ⟨rfl, h⟩
            exact ⟨rfl, List.map_injective_iff.2 (Option.some_injective _) h⟩

theorem ilocRows_exists {α : Type} {l : List α} :
    ∀ {is : List Nat}, (∀ i ∈ is, i < l.length) → ∃ r, ilocRows l is = .ok r ∧ r.length = is.length := by
  intro is
  induction is with
  | nil => intro _; exact ⟨[], rfl, rfl⟩
  | cons i is ih =>
    intro h
    obtain ⟨r, hr, hlen⟩ := ih fun j hj => h j (List.mem_cons_of_mem _ hj)
    have hi := h i (List.mem_cons_self ..)
    refine ⟨l[i] :: r, ?_, by simp [hlen]⟩
    unfold ilocRows
    rw [List.getElem?_eq_getElem hi, hr]

/-- Taking rows of rows. -/
theorem ilocRows_comp {α : Type} {l m : List α} {is js rows : List Nat} (h : ilocRows l is = .ok m)
    (hj : ilocRows is js = .ok rows) : ilocRows m js = ilocRows l rows := by
  have hlen : m.length = is.length := by
    have := congrArg List.length (ilocRows_ok.1 h)
    simpa using this.symm
  have hget : ∀ (j : Nat), m[j]? = (is[j]?).bind fun i => l[i]? := by
    intro j
    have h1 := congrArg (fun x => x[j]?) (ilocRows_ok.1 h)
    simp only [List.getElem?_map] at h1
    by_cases hlt : j < is.length
    · rw [List.getElem?_eq_getElem hlt, List.getElem?_eq_getElem (by omega)] at h1 ⊢
      simp only [Option.map_some, Option.some.injEq] at h1
      rw [Option.bind_some, h1]
    · rw [List.getElem?_eq_none (by omega), List.getElem?_eq_none (by omega)]
      rfl
  have hmap : js.map (fun j => m[j]?) = rows.map fun i => l[i]? := by
    have h2 := ilocRows_ok.1 hj
    have h3 : js.map (fun j => m[j]?) = (js.map fun j => is[j]?).map fun o => o.bind fun i => l[i]? := by
      rw [List.map_map]
      exact List.map_congr_left fun j _ => hget j
    rw [h3, h2, List.map_map]
    exact List.map_congr_left fun i _ => rfl
  clear h hj hlen hget
  induction js generalizing rows with
  | nil =>
    cases rows with
    | nil => rfl
    | cons a rows => cases hmap
  | cons j js ih =>
    cases rows with
    | nil => cases hmap
    | cons a rows =>
      simp only [List.map_cons, List.cons.injEq] at hmap
      unfold ilocRows
      rw [hmap.1, ih hmap.2]

/-- `labels` and `preds` are those of the same rows. -/
def Spec.SameRows {α β : Type} (y : List α) (p : List β) (labels : List α) (preds : List β) : Prop :=
  ∃ rows : List Nat, RowsOf rows y labels ∧ RowsOf rows p preds

/-- What `random.sample(range(len), n)` can return. -/
def Spec.Drawn (drawn : List Nat) (len n : Nat) : Prop := drawn.Nodup ∧ drawn.length = n ∧ ∀ i ∈ drawn, i < len

theorem ilocRows_range {α : Type} (l : List α) : ilocRows l (List.range l.length) = .ok l := by
  rw [ilocRows_ok]
  apply List.ext_getElem?
  intro i
  by_cases h : i < l.length
  · simp [h]
  · simp [h]

/-- The rows both labels and predictions are of. -/
theorem labelsBase_same {α β : Type} (y : List α) (p stored : List β) (sample : Option (List Nat))
    (hlen : p.length = y.length) (hs : ∀ s, sample = some s → ∀ i ∈ s, i < y.length)
    (hst : libraryRows sample p = .ok stored) (down : Option Nat) (drawn : List Nat)
    (hd : ∀ d, down = some d → 0 < d ∧ (d < stored.length → Drawn drawn stored.length d)) :
    ∃ labels preds, labelsBase sample down drawn y = .ok labels ∧ predictionRows down drawn stored = .ok preds ∧
      SameRows y p labels preds := by
  -- the rows the library stores
  obtain ⟨base, hb1, hb2, y1, hy1⟩ : ∃ base, ilocRows p base = .ok stored ∧ (∀ i ∈ base, i < y.length) ∧
      ∃ y1, libraryRows sample y = .ok y1 ∧ ilocRows y base = .ok y1 ∧ y1.length = base.length := by
    cases sample with
    | none =>
      cases hst
      refine ⟨List.range y.length, by rw [← hlen]; exact ilocRows_range p, fun i hi => List.mem_range.1 hi,
        y, rfl, ilocRows_range y, by simp⟩
    | some s =>
      obtain ⟨y1, h1, h2⟩ := ilocRows_exists (hs s rfl)
      exact ⟨s, hst, hs s rfl, y1, h1, h1, h2⟩
  obtain ⟨hy1, hy2, hy3⟩ := hy1
  have hlen2 : stored.length = base.length := by
    have := congrArg List.length (ilocRows_ok.1 hb1)
    simpa using this.symm
  have hyl : y1.length = stored.length := by omega
  unfold labelsBase predictionRows
  rw [hy1]
  dsimp only
  rw [hyl]
  cases hp : predictionSample down drawn stored.length with
  | none => exact ⟨y1, stored, rfl, rfl, base, (ilocRows_ok.1 hy2).symm, (ilocRows_ok.1 hb1).symm⟩
  | some q =>
    unfold predictionSample at hp
    cases hdn : down with
    | none => rw [hdn] at hp; cases hp
    | some d =>
      rw [hdn] at hp
      dsimp only at hp
      by_cases hle : stored.length ≤ d
      · rw [if_pos hle] at hp; cases hp
      · rw [if_neg hle] at hp
        cases hp
        obtain ⟨h0, h1⟩ := hd d hdn
        obtain ⟨_, hl, hin⟩ := h1 (by omega)
        obtain ⟨rows, hr, _⟩ := ilocRows_exists (l := base) (is := drawn) (fun i hi => by
          have := hin i hi; omega)
        obtain ⟨ly, hly, _⟩ := ilocRows_exists (l := y1) (is := drawn) (fun i hi => by
          have := hin i hi; omega)
        obtain ⟨lp, hlp, _⟩ := ilocRows_exists (l := stored) (is := drawn) (fun i hi => by
          have := hin i hi; omega)
        have e1 := ilocRows_comp hy2 hr
        have e2 := ilocRows_comp hb1 hr
        cases hdr : drawn with
        | nil => rw [hdr] at hl; simp at hl; omega
        | cons a as =>
          rw [hdr] at hly hlp e1 e2
          exact ⟨ly, lp, hly, hlp, rows, (ilocRows_ok.1 (e1 ▸ hly)).symm, (ilocRows_ok.1 (e2 ▸ hlp)).symm⟩

/-- **C46** in full: the labels scored against are those of the rows predicted, for both kinds of
ensembles and both kinds of metrics. -/
def C46_claim : Prop :=
  ∀ (α β : Type) (y : List α) (p stored : List β) (sample : Option (List Nat))
    (_ : p.length = y.length) (_ : ∀ s, sample = some s → ∀ i ∈ s, i < y.length)
    (_ : libraryRows sample p = .ok stored) (down : Option Nat) (drawn : List Nat)
    (_ : ∀ d, down = some d → 0 < d ∧ (d < stored.length → Drawn drawn stored.length d)),
    (∃ labels preds, labelsBase sample down drawn y = .ok labels ∧ predictionRows down drawn stored = .ok preds ∧
      SameRows y p labels preds) ∧
    ∀ probabilities, ∃ labels preds, labelsClassifier probabilities sample down drawn y = .ok labels ∧
      predictionRows down drawn stored = .ok preds ∧ SameRows y p labels preds

/-- **C46** where it holds: regression, metrics on class labels, and metrics on probabilities when no
more than `downsample_to` predictions are stored (or it is `None`). -/
theorem C46_rows_partial {α β : Type} (y : List α) (p stored : List β) (sample : Option (List Nat))
    (hlen : p.length = y.length) (hs : ∀ s, sample = some s → ∀ i ∈ s, i < y.length)
    (hst : libraryRows sample p = .ok stored) (down : Option Nat) (drawn : List Nat)
    (hd : ∀ d, down = some d → 0 < d ∧ (d < stored.length → Drawn drawn stored.length d)) :
    (∃ labels preds, labelsBase sample down drawn y = .ok labels ∧ predictionRows down drawn stored = .ok preds ∧
      SameRows y p labels preds) ∧
    ∀ probabilities, (probabilities = false ∨ ∀ d, down = some d → stored.length ≤ d) →
      ∃ labels preds, labelsClassifier probabilities sample down drawn y = .ok labels ∧
      predictionRows down drawn stored = .ok preds ∧ SameRows y p labels preds := by
  obtain ⟨labels, preds, h1, h2, h3⟩ := labelsBase_same y p stored sample hlen hs hst down drawn hd
  refine ⟨⟨labels, preds, h1, h2, h3⟩, fun probabilities hp => ⟨labels, preds, ?_, h2, h3⟩⟩
  unfold labelsClassifier
  cases hl : libraryRows sample y with
  | error e => unfold labelsBase at h1; rw [hl] at h1; cases h1
  | ok y1 =>
    dsimp only
    rw [h1]
    dsimp only
    cases probabilities with
    | false => rfl
    | true =>
      rw [if_pos rfl]
      have hn : predictionSample down drawn y1.length = none := by
        unfold predictionSample
        cases hdn : down with
        | none => rfl
        | some d =>
          have hle := (hp.resolve_left (by decide)) d hdn
          have hyl : y1.length = stored.length := by
            cases sample with
            | none => cases hl; cases hst; exact hlen.symm
            | some s =>
              have e1 := congrArg List.length (ilocRows_ok.1 (show ilocRows y s = .ok y1 from hl))
              have e2 := congrArg List.length (ilocRows_ok.1 (show ilocRows p s = .ok stored from hst))
              simp only [List.length_map] at e1 e2
              omega
          dsimp only
          rw [if_pos (by omega)]
      rw [hn]

/-- If a row is drawn whose position is not less than the number drawn, the labels are sampled out of
bounds. -/
theorem C46_out_of_bounds {α : Type} (y : List α) (down : Nat) (drawn : List Nat) (hlt : down < y.length)
    (hd : Drawn drawn y.length down) (i : Nat) (hi : i ∈ drawn) (hbig : down ≤ i) :
    labelsClassifier true none (some down) drawn y = .error .indexError := by
  obtain ⟨ly, hly, hll⟩ := ilocRows_exists (l := y) hd.2.2
  have hs : predictionSample (some down) drawn y.length = some drawn := by
    unfold predictionSample
    dsimp only
    rw [if_neg (by omega)]
  have hb : labelsBase none (some down) drawn y = .ok ly := by
    unfold labelsBase libraryRows
    dsimp only
    rw [hs]
    exact hly
  unfold labelsClassifier
  rw [hb]
  unfold libraryRows
  dsimp only
  rw [if_pos rfl, hs]
  dsimp only
  have hlen : ly.length ≤ i := by rw [hll, hd.2.1]; exact hbig
  clear hb hs hd hly
  induction drawn with
  | nil => cases hi
  | cons a as ih =>
    unfold ilocRows
    cases ha : ly[a]? with
    | none => rfl
    | some x =>
      dsimp only
      have hne : i ≠ a := by
        rintro rfl
        rw [List.getElem?_eq_none hlen] at ha
        cases ha
      have hmem : i ∈ as := (List.mem_cons.1 hi).resolve_left hne
      have : ilocRows ly as = .error .indexError := by
        clear ih hi hll
        induction as with
        | nil => cases hmem
        | cons b bs ih =>
          unfold ilocRows
          cases hb : ly[b]? with
          | none => rfl
          | some z =>
            dsimp only
            have hne : i ≠ b := by
              rintro rfl
              rw [List.getElem?_eq_none hlen] at hb
              cases hb
            rw [ih ((List.mem_cons.1 hmem).resolve_left hne)]
      rw [this]

/-- **C46 is false** of metrics on probabilities: the labels are sampled twice, here to the other
order. -/
theorem C46_false : ¬ C46_claim := by
  intro h
  obtain ⟨labels, preds, h1, h2, rows, h3, h4⟩ :=
    (h Nat Nat [0, 1, 2] [0, 1, 2] [0, 1, 2] none rfl (fun s hs => by cases hs) rfl (some 2) [1, 0]
      (fun d hd => by cases hd; exact ⟨by decide, fun _ => ⟨by decide, rfl, by decide⟩⟩)).2 true
  have e1 : labels = [0, 1] := by
    have : labelsClassifier true none (some 2) [1, 0] [0, 1, 2] = .ok [0, 1] := rfl
    rw [this] at h1
    cases h1
    rfl
  have e2 : preds = [1, 0] := by
    have : predictionRows (some 2) [1, 0] [0, 1, 2] = .ok [1, 0] := rfl
    rw [this] at h2
    cases h2
    rfl
  subst e1
  subst e2
  have : ([0, 1] : List Nat).map some = [1, 0].map some := h3.trans h4.symm
  revert this
  decide

/-- Sampled twice, rows 1 and 3 of a library sample. -/
example : labelsBase (some [5, 3, 1, 4]) (some 2) [1, 3] [10, 11, 12, 13, 14, 15] = .ok [13, 14] ∧
    predictionRows (some 2) [1, 3] [25, 23, 21, 24] = .ok [23, 24] := ⟨rfl, rfl⟩

/-! ## C48 -/

/-- The lexicographic order on tuples. -/
def Spec.LexLt (v w : List Score) : Prop :=
  (∃ p a b s t, v = p ++ a :: s ∧ w = p ++ b :: t ∧ a < b) ∨ ∃ a s, w = v ++ a :: s

theorem tupleLt_iff : ∀ v w : List Score, tupleLt v w = true ↔ LexLt v w
  | [], [] => by simp [tupleLt, LexLt]
  | [], b :: w => by
    simp only [tupleLt, true_iff]
    exact Or.inr ⟨b, w, rfl⟩
  | a :: v, [] => by simp [tupleLt, LexLt]
  | a :: v, b :: w => by
    unfold tupleLt
    by_cases h : a = b
    · subst h
      rw [if_pos rfl, tupleLt_iff v w]
      constructor
      · rintro (⟨p, x, y, s, t, rfl, rfl, h⟩ | ⟨x, s, rfl⟩)
        · exact Or.inl ⟨a :: p, x, y, s, t, rfl, rfl, h⟩
        · exact Or.inr ⟨x, s, rfl⟩
      · rintro (⟨p, x, y, s, t, h1, h2, h⟩ | ⟨x, s, h⟩)
        · cases p with
          | nil =>
            simp only [List.nil_append, List.cons.injEq] at h1 h2
            rw [← h1.1, ← h2.1] at h
            exact absurd h (lt_irrefl _)
          | cons c p =>
            simp only [List.cons_append, List.cons.injEq] at h1 h2
            exact Or.inl ⟨p, x, y, s, t, h1.2, h2.2, h⟩
        · simp only [List.cons_append, List.cons.injEq, true_and] at h
          exact Or.inr ⟨x, s, h⟩
    · rw [if_neg h, decide_eq_true_iff]
      constructor
      · intro hlt
        exact Or.inl ⟨[], a, b, v, w, rfl, rfl, hlt⟩
      · rintro (⟨p, x, y, s, t, h1, h2, hlt⟩ | ⟨x, s, h1⟩)
        · cases p with
          | nil =>
            simp only [List.nil_append, List.cons.injEq] at h1 h2
            rw [h1.1, h2.1]
            exact hlt
          | cons c p =>
            simp only [List.cons_append, List.cons.injEq] at h1 h2
            exact absurd (h1.1.trans h2.1.symm) h
        · simp only [List.cons_append, List.cons.injEq] at h1
          exact absurd h1.1.symm h

theorem tupleLt_asymm : ∀ v w : List Score, tupleLt v w = true → tupleLt w v = false
  | [], [], h => by cases h
  | [], b :: w, _ => rfl
  | a :: v, [], h => by cases h
  | a :: v, b :: w, h => by
    unfold tupleLt at h ⊢
    by_cases e : a = b
    · rw [if_pos e] at h
      rw [if_pos e.symm]
      exact tupleLt_asymm v w h
    · rw [if_neg e, decide_eq_true_iff] at h
      rw [if_neg (fun h => e h.symm), decide_eq_false_iff_not]
      exact not_lt.2 h.le

theorem tupleGe_trans : ∀ u v w : List Score, tupleLt v u = false → tupleLt w v = false →
    tupleLt w u = false
  | [], _, [], _, _ => rfl
  | [], [], c :: w, _, _ => rfl
  | [], b :: v, c :: w, _, _ => rfl
  | a :: u, [], _, h, _ => by cases h
  | a :: u, b :: v, [], _, h => by cases h
  | a :: u, b :: v, c :: w, h1, h2 => by
    unfold tupleLt at h1 h2 ⊢
    by_cases e1 : b = a
    · subst e1
      rw [if_pos rfl] at h1
      by_cases e2 : c = b
      · subst e2
        rw [if_pos rfl] at h2 ⊢
        exact tupleGe_trans u v w h1 h2
      · rw [if_neg e2] at h2 ⊢
        exact h2
    · rw [if_neg e1, decide_eq_false_iff_not, not_lt] at h1
      by_cases e2 : c = b
      · subst e2
        rw [if_neg e1, decide_eq_false_iff_not, not_lt]
        exact h1
      · rw [if_neg e2, decide_eq_false_iff_not, not_lt] at h2
        have h3 := le_trans h1 h2
        have : c ≠ a := by
          rintro rfl
          exact e1 (le_antisymm h2 h1)
        rw [if_neg this, decide_eq_false_iff_not, not_lt]
        exact h3

/-- **C48.** Best fit picks an individual of the population whose fitness no other exceeds
lexicographically; there is none only if the population is empty. -/
theorem C48_best_fit {ι : Type} (values : ι → List Score) (pop : List ι) :
    (pop = [] → bestFit values pop = .error .indexError) ∧
    (pop ≠ [] → ∃ x ∈ pop, bestFit values pop = .ok x ∧ ∀ y ∈ pop, ¬ LexLt (values x) (values y)) := by
  have hp := pySorted_perm (fun a b => !tupleLt (values b) (values a)) pop
  have hso := pySorted_sorted (le := fun a b => !tupleLt (values b) (values a))
    (fun a b c h1 h2 => by
      simp only [Bool.not_eq_eq_eq_not, Bool.not_true] at h1 h2 ⊢
      exact tupleGe_trans _ _ _ h1 h2)
    (fun a b => by
      cases h : tupleLt (values b) (values a) with
      | false => rfl
      | true => simp [tupleLt_asymm _ _ h]) pop
  constructor
  · rintro rfl
    rfl
  · intro h0
    unfold bestFit
    cases hr : (pySorted (fun a b => !tupleLt (values b) (values a)) pop).reverse with
    | nil =>
      rw [List.reverse_eq_nil_iff] at hr
      rw [hr] at hp
      exact absurd hp.symm.eq_nil h0
    | cons x xs =>
      have hx : x ∈ pop := hp.mem_iff.1 (List.mem_reverse.1 (by rw [hr]; exact List.mem_cons_self ..))
      refine ⟨x, hx, rfl, fun y hy hlt => ?_⟩
      have hso' : ((pySorted (fun a b => !tupleLt (values b) (values a)) pop).reverse).Pairwise
          (fun a b => (!tupleLt (values a) (values b)) = true) := List.pairwise_reverse.2 hso
      rw [hr, List.pairwise_cons] at hso'
      have hy' : y ∈ x :: xs := by
        rw [← hr]
        exact List.mem_reverse.2 (hp.mem_iff.2 hy)
      have hlt' := (tupleLt_iff _ _).2 hlt
      rcases List.mem_cons.1 hy' with rfl | hy'
      · have := tupleLt_asymm _ _ hlt'
        rw [hlt'] at this
        cases this
      · have := hso'.1 y hy'
        rw [hlt'] at this
        cases this

example : bestFit (fun x : List Score => x) [[.fin 1, .fin (-2)], [.fin 1, .fin (-1)], [.fin 0, .fin 0]] =
    .ok [.fin 1, .fin (-1)] := by decide +kernel

/-! ### Cases of the theorems above -/

/-- The fitted ensemble of the examples above. -/
def Ex.fitted : Ens Unit Nat := buildFitEnsemble (fun p => .ok (Ex.closeToOne p)) 4 10 Ex.twoModels

theorem Ex.fitted_fit : Ex.fitted.fit = some [(20, 1), (10, 3), (11, 3)] := by decide +kernel

/-- `C45_mean`, `C45_between`, `C45_agree`. -/
example : weightedMeanPredictions (fun (e : Nat) (_ : Unit) => (e : ℚ)) Ex.fitted =
    .ok (mean (([(20, 1), (10, 3), (11, 3)] : List (Nat × Int)).map fun e => (fun _ => (e.1 : ℚ), (e.2 : ℚ)))) :=
  C45_mean _ _ _ Ex.fitted_fit (by simp)

example : ∃ p, weightedMeanPredictions (fun (e : Nat) (_ : Unit) => (e : ℚ)) Ex.fitted = .ok p ∧
    10 ≤ p () ∧ p () ≤ 20 :=
  let ⟨p, h, hb⟩ := C45_between (fun (e : Nat) (_ : Unit) => (e : ℚ)) _ _ Ex.fitted_fit (by simp) (by simp)
  ⟨p, h, hb () 10 20 (by simp)⟩

example : ∃ p, weightedMeanPredictions (fun (_ : Nat) (_ : Unit) => (7 : ℚ)) Ex.fitted = .ok p ∧ p () = 7 :=
  let ⟨p, h, hb⟩ := C45_agree (fun (_ : Nat) (_ : Unit) => (7 : ℚ)) _ _ Ex.fitted_fit (by simp) (by simp)
  ⟨p, h, hb () 7 (by simp)⟩

/-- `C45_probabilities`: one estimator is sure of one class, the others undecided. -/
example : ∃ p, weightedMeanPredictions (fun (e : Nat) (k : Unit × Bool) => if e = 20 then (if k.2 then 1 else 0) else (1 / 2 : ℚ))
      Ex.fitted = .ok p ∧ (([true, false].map fun c => p ((), c)).sum) = 1 :=
  let ⟨p, h, hb⟩ := C45_probabilities [true, false] (fun (e : Nat) (k : Unit × Bool) =>
    if e = 20 then (if k.2 then 1 else 0) else (1 / 2 : ℚ)) _ _ Ex.fitted_fit (by simp) (by simp)
  ⟨p, h, hb () (by simp; norm_num)⟩

/-- `C45_vote`: the two estimators of weight three outvote the one of weight one. -/
example : ∃ p, weightedMeanPredictions (fun e => oneHot fun (_ : Unit) => decide (e = 20)) Ex.fitted = .ok p ∧
    argmax (fun c => p ((), c)) [true, false] = some false := by
  obtain ⟨p, h, hb⟩ := C45_vote [true, false] (by simp) (fun (e : Nat) (_ : Unit) => decide (e = 20)) _ _ Ex.fitted_fit
    (by simp) (by simp)
  obtain ⟨c, hc, ha, hm, _⟩ := hb ()
  refine ⟨p, h, ?_⟩
  cases c
  · exact ha
  · exact absurd (hm false (by simp)) (by decide)

/-- `C82_predict_partial` and `C82_unfitted`. -/
example : (∃ p, weightedMeanPredictions (fun (e : Nat) (_ : Unit) => (e : ℚ)) Ex.fitted = .ok p) ∧
    weightedMeanPredictions (fun (e : Nat) (_ : Unit) => (e : ℚ))
      (buildFitEnsemble (fun p => .ok (Ex.closeToOne p)) 4 0 Ex.twoModels) = .error .typeError :=
  ⟨(C82_predict_partial Ex.closeToOne _ (fun _ => rfl) (fun _ => by simp [Ex.closeToOne]) 4 (by decide)
    Ex.twoModels (by simp [Ex.twoModels]) (by simp [Ex.twoModels]) 10 (by decide)).2 Unit _,
    C82_unfitted _ _ _ 0 (.inr (le_refl _)) _⟩

/-- `C47_predict_partial`, `C47_export_fails`: pickling an ensemble that shrinks. -/
example : ∃ r s', getstate { Ex.fitted with shrinkOnPickle := true } = (.ok r, s') ∧
    weightedMeanPredictions (fun (e : Nat) (_ : Unit) => (e : ℚ)) r =
      weightedMeanPredictions (fun (e : Nat) (_ : Unit) => (e : ℚ)) { Ex.fitted with shrinkOnPickle := true } ∧
    (toCode s').1 = .error .attributeError :=
  let ⟨r, s', h, he⟩ := C47_export_fails { Ex.fitted with shrinkOnPickle := true } rfl
  ⟨r, s', h, ((C47_predict_partial _ _ _ h).1 _).2, he⟩

/-- `C46_rows_partial`, `C46_out_of_bounds`. -/
example : ∃ labels preds, labelsBase (some [5, 3, 1, 4]) (some 2) [1, 3] [10, 11, 12, 13, 14, 15] = .ok labels ∧
    predictionRows (some 2) [1, 3] [25, 23, 21, 24] = .ok preds ∧
    SameRows [10, 11, 12, 13, 14, 15] [20, 21, 22, 23, 24, 25] labels preds :=
  (C46_rows_partial [10, 11, 12, 13, 14, 15] [20, 21, 22, 23, 24, 25] [25, 23, 21, 24] (some [5, 3, 1, 4]) rfl
    (by simp) rfl (some 2) [1, 3] (by rintro _ ⟨⟩; exact ⟨by decide, fun _ => ⟨by decide, rfl, by decide⟩⟩)).1

example : labelsClassifier true none (some 2) [0, 3] [10, 11, 12, 13] = .error .indexError :=
  C46_out_of_bounds _ 2 [0, 3] (by decide) ⟨by decide, rfl, by decide⟩ 3 (by simp) (by decide)

end Gama
