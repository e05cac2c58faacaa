import Verif.Props.Voting

/-! # Class probabilities of ensembles (C141) -/

namespace Gama

open Spec PyM

theorem oneHot_sum {ρ γ : Type} [DecidableEq γ] (f : ρ → γ) (r : ρ) : ∀ classes : List γ, classes.Nodup →
    f r ∈ classes → (classes.map fun c => oneHot f (r, c)).sum = 1
  | [], _, h => by cases h
  | c :: cs, hn, h => by
    have hn' := List.nodup_cons.1 hn
    rw [List.map_cons, List.sum_cons]
    by_cases hc : f r = c
    · have hz : ∀ ds : List γ, c ∉ ds → (ds.map fun d => oneHot f (r, d)).sum = 0 := by
        intro ds
        induction ds with
        | nil => intro _; rfl
        | cons d ds ih =>
          intro h
          rw [List.map_cons, List.sum_cons, ih fun hm => h (List.mem_cons_of_mem _ hm)]
          have : f r ≠ d := fun e => h (by rw [← hc, e]; exact List.mem_cons_self)
          unfold oneHot
          rw [if_neg this, add_zero]
      rw [hz cs hn'.1]
      unfold oneHot
      rw [if_pos hc, add_zero]
    · rw [oneHot_sum f r cs hn'.2 ((List.mem_cons.1 h).resolve_left hc)]
      unfold oneHot
      rw [if_neg hc, zero_add]

/-- A row of probabilities: none negative, none above one, adding up to one. -/
def Spec.IsDistribution {γ : Type} (classes : List γ) (f : γ → ℚ) : Prop :=
  (∀ c ∈ classes, 0 ≤ f c ∧ f c ≤ 1) ∧ (classes.map f).sum = 1

theorem average_eq_mean {κ' ε : Type} (f : ε → κ' → ℚ) (l : List (ε × Int)) (k : κ') :
    mean (l.map fun e => (f e.1, (e.2 : ℚ))) k = averageOf l fun e => f e k := by
  unfold mean averageOf
  rw [List.map_map, List.map_map]
  rfl

/-- **C141**: `predict_proba` of a fitted ensemble of classifiers gives a distribution over the classes for every
row: the weighted mean of those of its members, or, for a metric on labels, the share of the votes.  `predict`
gives the first of the most probable classes. -/
theorem C141_proba {κ ε ρ γ : Type} [DecidableEq γ] (probabilities : Bool) (label : ε → ρ → γ)
    (proba : ε → ρ × γ → ℚ) (classes : List γ) (hc : classes.Nodup) (s : Ens κ ε) (l : List (ε × Int))
    (hl : s.fit = some l) (h0 : l ≠ []) (hw : ∀ e ∈ l, 0 < e.2)
    (hlab : probabilities = false → ∀ e ∈ l, ∀ r, label e.1 r ∈ classes)
    (hprob : probabilities = true → ∀ e ∈ l, ∀ r, IsDistribution classes fun c => proba e.1 (r, c)) :
    ∃ p q, ensembleProba probabilities label proba s = .ok p ∧
      ensembleLabels probabilities label proba classes s = .ok q ∧
      ∀ r, IsDistribution classes (fun c => p (r, c)) ∧
        (∀ c, q r = some c ↔ FirstMax (fun c => p (r, c)) classes c) ∧ (∃ c, q r = some c) ∧
        ∀ c, p (r, c) = if probabilities then averageOf l fun e => proba e (r, c)
          else votes l label r c / (l.map fun e => (e.2 : ℚ)).sum := by
  have key : ∀ P : ε → ρ × γ → ℚ, (∀ e ∈ l, ∀ r, IsDistribution classes fun c => P e.1 (r, c)) →
      weightedMeanPredictions P s = .ok (mean (l.map fun e => (P e.1, (e.2 : ℚ)))) ∧
      ∀ r, IsDistribution classes (fun c => mean (l.map fun e => (P e.1, (e.2 : ℚ))) (r, c)) ∧
        ∃ c, argmax (fun c => mean (l.map fun e => (P e.1, (e.2 : ℚ))) (r, c)) classes = some c := by
    intro P hP
    have hm := C45_mean P s l hl h0
    refine ⟨hm, fun r => ⟨⟨fun c hcc => ?_, ?_⟩, ?_⟩⟩
    · obtain ⟨p, hp, hb⟩ := C45_between P s l hl h0 hw
      rw [hm] at hp
      cases hp
      exact hb (r, c) 0 1 fun e he => (hP e he r).1 c hcc
    · obtain ⟨p, hp, hb⟩ := C45_probabilities classes P s l hl h0 hw
      rw [hm] at hp
      cases hp
      exact hb r fun e he => (hP e he r).2
    · cases ha : argmax (fun c => mean (l.map fun e => (P e.1, (e.2 : ℚ))) (r, c)) classes with
      | some c => exact ⟨c, rfl⟩
      | none =>
        have hnil := (argmax_spec _ classes).1 ha
        obtain ⟨e, he⟩ := List.exists_mem_of_ne_nil l h0
        have := (hP e he r).2
        rw [hnil] at this
        simp at this
  unfold ensembleProba ensembleLabels
  cases probabilities with
  | true =>
    obtain ⟨h1, h2⟩ := key proba (hprob rfl)
    rw [if_pos rfl, h1]
    refine ⟨_, _, rfl, rfl, fun r => ⟨(h2 r).1, fun c => argmax_first _ _ _, (h2 r).2, fun c => ?_⟩⟩
    rw [if_pos rfl]
    exact average_eq_mean proba l (r, c)
  | false =>
    obtain ⟨h1, h2⟩ := key (fun e => oneHot (label e)) fun e he r => ⟨fun c _ => by
      dsimp only [oneHot]
      split <;> norm_num, oneHot_sum _ r classes hc (hlab rfl e he r)⟩
    rw [if_neg (by simp), h1]
    refine ⟨_, _, rfl, rfl, fun r => ⟨(h2 r).1, fun c => argmax_first _ _ _, (h2 r).2, fun c => ?_⟩⟩
    rw [if_neg (by simp), votes_eq]
    exact average_eq_mean (fun e => oneHot (label e)) l (r, c)

/-- Two estimators with weights 1 and 3, three classes: shares of the votes, and the class that has most. -/
def Ex.twoFitted : Ens Unit Nat := ⟨[], none, .ninf, some [(0, 1), (1, 3)], true⟩

example : (match ensembleProba false (fun e (r : Nat) => e + r) (fun _ _ => 0) Ex.twoFitted,
      ensembleLabels false (fun e (r : Nat) => e + r) (fun _ _ => 0) [0, 1, 2] Ex.twoFitted with
    | .ok p, .ok q => [0, 1].map fun r => ([0, 1, 2].map fun c => p (r, c), q r)
    | _, _ => []) = [([1 / 4, 3 / 4, 0], some 1), ([0, 1 / 4, 3 / 4], some 2)] := by decide +kernel

end Gama
