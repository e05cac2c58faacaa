import Verif.Props.NanCrowd
import Verif.Props.Crowding

/-!
# Where all scores are numbers (C179)

The model of choosing parents for values that may be NaN agrees with that of `Model/Nsga2` where none is, so that
all that is proved of the latter (C17 - C20, C79) holds of the former.
-/

namespace Gama
open Spec PyM

/-- The values of a population, as floats. -/
def Spec.asFloats (values : List (List Score)) : List (List (Option Score)) := values.map fun v => v.map some

/-- Python's `sorted`, by `<`. -/
def Spec.stableSort (lt : Nat → Nat → Bool) (l : List Nat) : List Nat := pySorted (fun a b => !lt b a) l

theorem insertBy_congr {α : Type} {le le' : α → α → Bool} {x : α} : ∀ {l : List α}, (∀ y ∈ l, le x y = le' x y) →
    insertBy le x l = insertBy le' x l
  | [], _ => rfl
  | y :: ys, h => by
    rw [insertBy, insertBy, h y (by simp), insertBy_congr fun z hz => h z (by simp [hz])]

theorem pySorted_congr {α : Type} {le le' : α → α → Bool} : ∀ {l : List α},
    (∀ x ∈ l, ∀ y ∈ l, le x y = le' x y) → pySorted le l = pySorted le' l
  | [], _ => rfl
  | x :: xs, h => by
    rw [pySorted, pySorted, pySorted_congr fun a ha b hb => h a (by simp [ha]) b (by simp [hb])]
    exact insertBy_congr fun y hy => h x (by simp) y (by simp [(pySorted_perm _ _).mem_iff.1 hy])

theorem floatSub_fin (x y : ℚ) : floatSub (some (.fin x)) (some (.fin y)) = some (.fin (x - y)) := by
  show some (Score.fin (x + -y)) = _
  rw [sub_eq_add_neg]

theorem floatDiv_fin (x : ℚ) {y : ℚ} (h : y ≠ 0) :
    floatDiv (some (.fin x)) (some (.fin y)) = .ok (some (.fin (x / y))) := by
  unfold floatDiv
  split
  · rename_i e; cases e; exact absurd rfl h
  · rename_i h1 h2; cases h1; cases h2; rfl
  · rename_i hne h1 h2; cases h2; exact absurd rfl (hne _)
  · rename_i hne h1 h2; cases h1; exact absurd rfl (hne _)
  · rename_i hne _ _; exact absurd rfl (hne _ _ rfl)

theorem upd_some (d : Nat → Score) (i : Nat) (v : Score) :
    upd (fun j => some (d j)) i (some v) = fun j => some (upd d i v j) := by
  funext j
  unfold upd
  split <;> rfl

theorem floatAdd_dist (d : Score) (q : ℚ) : floatAdd (some d) (some (.fin q)) = some (distAdd d q) := by
  cases d <;> rfl

theorem floatGaps_numbers {fval : Nat → Option Score} {val : Nat → Score} {r : ℚ} (hr : r ≠ 0) :
    ∀ (l : List Nat) (d : Nat → Score), (∀ x ∈ l, fval x = some (val x) ∧ (val x).isInf = false) →
    floatGaps fval (some (.fin r)) l (fun j => some (d j)) = .ok fun j => some (addGaps val r l d j)
  | [], d, _ => rfl
  | [_], d, _ => rfl
  | [_, _], d, _ => rfl
  | a :: b :: c :: rest, d, h => by
    obtain ⟨hc, hci⟩ := h c (by simp)
    obtain ⟨ha, hai⟩ := h a (by simp)
    have e : ∀ s : Score, s.isInf = false → s = .fin s.toRat := by
      intro s hs; cases s <;> first | rfl | cases hs
    rw [floatGaps, addGaps, hc, ha, e _ hci, e _ hai, floatSub_fin, floatDiv_fin _ hr]
    dsimp only
    rw [floatAdd_dist, upd_some]
    exact floatGaps_numbers hr (b :: c :: rest) _ fun x hx => h x (List.mem_cons_of_mem _ hx)

theorem floatCrowdStep_numbers {fval : Nat → Option Score} {val : Nat → Score} {l : List Nat} (hl : l ≠ [])
    (hv : ∀ x ∈ l, fval x = some (val x)) (hs : l.Pairwise fun a b => val a ≤ val b) (d : Nat → Score) :
    floatCrowdStep fval l (fun j => some (d j)) = .ok fun j => some (crowdStep val l d j) := by
  obtain ⟨x, l, rfl⟩ := List.exists_cons_of_ne_nil hl
  have hlast : (x :: l).getLastD x = (x :: l).getLast (by simp) := by
    simp [List.getLastD_eq_getLast?, List.getLast?_eq_some_getLast]
  have hmem : (x :: l).getLast (by simp) ∈ x :: l := List.getLast_mem _
  have hup : ∀ z ∈ x :: l, val z ≤ val ((x :: l).getLast (by simp)) := by
    intro z hz
    have hs' := hs
    rw [← List.dropLast_append_getLast (l := x :: l) (by simp)] at hz hs'
    rcases List.mem_append.1 hz with hz | hz
    · exact (List.pairwise_append.1 hs').2.2 z hz _ (by simp)
    · rw [List.mem_singleton.1 hz]
  have hlow : ∀ z ∈ x :: l, val x ≤ val z := by
    intro z hz
    rcases List.mem_cons.1 hz with rfl | hz
    · exact le_rfl
    · exact (List.pairwise_cons.1 hs).1 z hz
  unfold floatCrowdStep crowdStep
  dsimp only
  rw [hlast]
  generalize (x :: l).getLast (by simp) = y at hmem hup ⊢
  rw [hv y hmem, hv x (by simp), upd_some, upd_some]
  have hc : (floatEq (some (val y)) (some (val x)) || floatIsInf (some (val x)) || floatIsInf (some (val y))) =
      (decide (val y = val x) || (val x).isInf || (val y).isInf) := rfl
  rw [hc]
  split
  · rfl
  · rename_i h
    simp only [Bool.or_eq_true, decide_eq_true_eq, not_or, Bool.not_eq_true] at h
    obtain ⟨⟨h1, h2⟩, h3⟩ := h
    obtain ⟨a, ha⟩ : ∃ a, val x = .fin a := by
      cases hx : val x with
      | fin a => exact ⟨a, rfl⟩
      | _ => rw [hx] at h2; cases h2
    obtain ⟨b, hb⟩ : ∃ b, val y = .fin b := by
      cases hy : val y with
      | fin a => exact ⟨a, rfl⟩
      | _ => rw [hy] at h3; cases h3
    rw [ha, hb, floatSub_fin]
    refine floatGaps_numbers ?_ _ _ fun z hz => ⟨hv z hz, ?_⟩
    · intro h0
      apply h1
      rw [ha, hb]
      congr 1
      linarith
    · have u := hup z hz
      have v := hlow z hz
      rw [hb] at u
      rw [ha] at v
      cases hz' : val z with
      | fin q => rfl
      | pinf => rw [hz'] at u; exact absurd u (by simp [Score.le_def, Score.le])
      | ninf => rw [hz'] at v; exact absurd v (by simp [Score.le_def, Score.le])

theorem floatCrowdLoop_numbers {fvals : Nat → List (Option Score)} {vals : Nat → List Score} {n : Nat} :
    ∀ (k m : Nat) (l : List Nat) (d : Nat → Score), l ≠ [] →
    (∀ x ∈ l, fvals x = (vals x).map some ∧ (vals x).length = n) → m + k ≤ n →
    floatCrowdLoop stableSort fvals k m l (fun j => some (d j)) = .ok fun j => some (crowdLoop vals k m l d j)
  | 0, _, _, d, _, _, _ => rfl
  | k + 1, m, l, d, hl, hv, hm => by
    have hval : ∀ x ∈ l, (fvals x).getD m none = some ((vals x).getD m .ninf) := by
      intro x hx
      obtain ⟨h1, h2⟩ := hv x hx
      have hlt : m < (vals x).length := by omega
      rw [h1, List.getD_eq_getElem?_getD, List.getD_eq_getElem?_getD, List.getElem?_map,
        List.getElem?_eq_getElem hlt]
      rfl
    have hsort : stableSort (fun a b => floatLt ((fvals a).getD m none) ((fvals b).getD m none)) l =
        pySorted (fun a b => decide ((vals a).getD m .ninf ≤ (vals b).getD m .ninf)) l := by
      unfold stableSort
      refine pySorted_congr fun x hx y hy => ?_
      dsimp only
      rw [hval x hx, hval y hy]
      show (!decide ((vals y).getD m .ninf < (vals x).getD m .ninf)) = _
      rw [← decide_not]
      congr 1
      exact propext not_lt
    rw [floatCrowdLoop, crowdLoop]
    dsimp only
    rw [hsort]
    generalize hS : pySorted (fun a b => decide ((vals a).getD m .ninf ≤ (vals b).getD m .ninf)) l = S
    have hp : S.Perm l := hS ▸ pySorted_perm _ _
    have hSne : S ≠ [] := fun h => hl (List.Perm.nil_eq (h ▸ hp)).symm
    have hSs : S.Pairwise fun a b => (vals a).getD m .ninf ≤ (vals b).getD m .ninf := by
      have := pySorted_sorted (le := fun a b => decide ((vals a).getD m .ninf ≤ (vals b).getD m .ninf))
        (fun a b c h1 h2 => by simp only [decide_eq_true_eq] at *; exact le_trans h1 h2)
        (fun a b => by simp only [Bool.or_eq_true, decide_eq_true_eq]; exact le_total _ _) l
      rw [hS] at this
      exact this.imp fun h => by simpa using h
    rw [floatCrowdStep_numbers (val := fun i => (vals i).getD m .ninf) hSne
      (fun x hx => hval x (hp.mem_iff.1 hx)) hSs]
    exact floatCrowdLoop_numbers k (m + 1) S _ hSne (fun x hx => hv x (hp.mem_iff.1 hx)) (by omega)

theorem floatCrowding_numbers {fvals : Nat → List (Option Score)} {vals : Nat → List Score} {k : Nat}
    {l : List Nat} (hv : ∀ x ∈ l, fvals x = (vals x).map some ∧ (vals x).length = k) (d : Nat → Score) :
    floatCrowding stableSort fvals l (fun j => some (d j)) =
      (crowdingDistance vals l d).map fun d j => some (d j) := by
  cases l with
  | nil => rfl
  | cons x l =>
    obtain ⟨h1, h2⟩ := hv x (by simp)
    unfold floatCrowding crowdingDistance
    dsimp only
    rw [h1, List.length_map, floatCrowdLoop_numbers _ _ _ _ (by simp) hv (by omega)]
    rfl

theorem floatBetter_numbers (rank : Nat → Nat) (d : Nat → Score) (a b : Nat) :
    floatBetter rank (floatWider fun j => some (d j)) a b = crowdBetter rank d a b := rfl

theorem floatSelectLoop_numbers {fvals : Nat → List (Option Score)} {vals : Nat → List Score} {k : Nat}
    {rank : Nat → Nat} {n : Nat} : ∀ (fronts : List (List Nat)) (sel : List Nat) (d : Nat → Score),
    (∀ f ∈ fronts, ∀ x ∈ f, fvals x = (vals x).map some ∧ (vals x).length = k) →
    floatSelectLoop stableSort fvals rank n fronts sel (fun j => some (d j)) =
      (selectLoop vals rank n fronts sel d).map fun r => (r.1, fun j => some (r.2 j))
  | [], sel, d, _ => by
    unfold floatSelectLoop selectLoop
    by_cases h : sel.length < n
    · rw [if_pos h, if_pos (by exact_mod_cast h)]; rfl
    · rw [if_neg h, if_neg (by exact_mod_cast h)]; rfl
  | f :: fs, sel, d, hv => by
    unfold floatSelectLoop selectLoop
    by_cases h : sel.length < n
    · rw [if_pos h, if_pos (by exact_mod_cast h), floatCrowding_numbers (hv f (by simp))]
      cases crowdingDistance vals f d with
      | error e => rfl
      | ok d' =>
        dsimp only [Except.map]
        by_cases h' : sel.length + f.length < n
        · rw [if_pos h', if_pos (by exact_mod_cast h')]
          exact floatSelectLoop_numbers fs _ d' fun g hg => hv g (by simp [hg])
        · rw [if_neg h', if_neg (by exact_mod_cast h')]
          have e : ((n : Int) - (sel.length : Int)).toNat = n - sel.length := by omega
          rw [e]
          exact floatSelectLoop_numbers fs _ d' fun g hg => hv g (by simp [hg])
    · rw [if_neg h, if_neg (by exact_mod_cast h)]; rfl

theorem floatDominates_numbers (a b : List Score) :
    floatDominates (a.map some) (b.map some) = dominates a b := by
  unfold floatDominates dominates
  rw [List.zip_map, List.all_map]
  rfl

/-- Where all values are numbers, selection is that of `Model/Nsga2`. -/
theorem floatNsga2_numbers {values : List (List Score)} {k : Nat} (hk0 : k ≠ 0) (hk : ∀ v ∈ values, v.length = k)
    (n : Nat) :
    floatNsga2 stableSort (asFloats values) n =
      (nsga2 values n).map fun c => (c.order, c.rank, fun j => some (c.dist j)) := by
  have hget : ∀ i, (asFloats values).getD i [] = (values.getD i []).map some := by
    intro i
    unfold asFloats
    rw [List.getD_eq_getElem?_getD, List.getD_eq_getElem?_getD, List.getElem?_map]
    cases values[i]? <;> rfl
  have hlen : (asFloats values).length = values.length := by simp [asFloats]
  unfold floatNsga2 nsga2
  rw [hlen]
  by_cases h : n = 0 ∨ n > values.length
  · rw [if_pos h, if_pos (by rcases h with h | h <;> [left; right] <;> exact_mod_cast h)]; rfl
  · rw [if_neg h, if_neg (by rintro (h' | h') <;> exact h (by first | (left; exact_mod_cast h') | (right; exact_mod_cast h')))]
    dsimp only
    have hdom : (fun p q => floatDominates ((asFloats values).getD p []) ((asFloats values).getD q [])) =
        fun p q => dominates (values.getD p []) (values.getD q []) := by
      funext p q
      rw [hget, hget, floatDominates_numbers]
    rw [hdom]
    obtain ⟨fronts, s, h1, hL⟩ : ∃ fronts s, fastNonDominatedSort
        (fun p q => dominates (values.getD p []) (values.getD q [])) values.length = .ok (fronts, s) ∧
        fronts.flatten.Perm (List.range values.length) := by
      obtain ⟨fronts, s, h1, hL, _⟩ := floatSort_spec (values := asFloats values) hk0 (by
        intro v hv
        obtain ⟨u, hu, rfl⟩ := List.mem_map.1 hv
        simpa using hk u hu)
      rw [hdom, hlen] at h1
      exact ⟨fronts, s, h1, by have := hL.partition; rwa [hlen] at this⟩
    rw [h1]
    dsimp only
    have := floatSelectLoop_numbers (fvals := fun i => (asFloats values).getD i [])
      (vals := fun i => values.getD i []) (k := k) (rank := s.rank) (n := n) fronts [] (fun _ => .fin 0)
      (fun f hf x hx => ⟨hget x, by
        have hx' : x < values.length := List.mem_range.1 (hL.mem_iff.1 (List.mem_flatten.2 ⟨f, hf, hx⟩))
        rw [List.getD_eq_getElem?_getD, List.getElem?_eq_getElem hx']
        exact hk _ (List.getElem_mem hx')⟩)
    rw [this]
    cases selectLoop (fun i => values.getD i []) s.rank n fronts [] (fun _ => .fin 0) <;> rfl

/-- **C179** where all values are numbers: the parents chosen are those of `nsga2Select`, of which C17 - C20 and C79
are proved, with `sorted` being stable. -/
theorem C179_numbers {σ : Type} [HasRand σ] {values : List (List Score)} {k : Nat} (hk0 : k ≠ 0)
    (hk : ∀ v ∈ values, v.length = k) (n : Nat) :
    (floatNsga2Select stableSort (asFloats values) n : PyM σ (List (Nat × Nat))) = nsga2Select values n := by
  have hone : ∀ (c : Selected) (exclude : Option Nat),
      (floatSelectOne c.order c.rank (fun j => some (c.dist j)) exclude : PyM σ Nat) = selectOne c exclude :=
    fun _ _ => rfl
  have hpairs : ∀ (c : Selected) (n : Nat),
      (floatPairs c.order c.rank (fun j => some (c.dist j)) n : PyM σ _) = selectPairs c n := by
    intro c n
    induction n with
    | zero => rfl
    | succ n ih =>
      unfold floatPairs selectPairs
      simp only [hone, ih]
  unfold floatNsga2Select nsga2Select
  rw [show (asFloats values).length = values.length by simp [asFloats], floatNsga2_numbers hk0 hk]
  by_cases h : values.length < 3
  · rw [if_pos h, if_pos h]
  · rw [if_neg h, if_neg h]
    cases nsga2 values values.length with
    | error e => rfl
    | ok c => exact hpairs c n

/-! ### What NaN does to crowding distances -/

theorem floatGaps_other {val : Nat → Option Score} {range : Option Score} (z : Nat) :
    ∀ (l : List Nat) (d d' : Nat → Option Score), (∀ i, 0 < i → i + 1 < l.length → l[i]? ≠ some z) →
    floatGaps val range l d = .ok d' → d' z = d z
  | [], _, _, _, h => by cases h; rfl
  | [_], _, _, _, h => by cases h; rfl
  | [_, _], _, _, _, h => by cases h; rfl
  | a :: b :: c :: rest, d, d', hz, h => by
    rw [floatGaps] at h
    split at h
    · cases h
    · have hb : z ≠ b := fun e => hz 1 (by omega) (by simp) (by simp [e])
      rw [floatGaps_other z (b :: c :: rest) _ d' (fun i hi hl => by
        have := hz (i + 1) (by omega) (by simpa using hl)
        simpa using this) h]
      exact if_neg hb

theorem floatGaps_nan {val : Nat → Option Score} : ∀ (l : List Nat) (d d' : Nat → Option Score), l.Nodup →
    floatGaps val none l d = .ok d' → ∀ i z, 0 < i → i + 1 < l.length → l[i]? = some z → d' z = none
  | [], _, _, _, _ => fun i z h1 h2 => by simp at h2
  | [_], _, _, _, _ => fun i z h1 h2 => by simp at h2
  | [_, _], _, _, _, _ => fun i z h1 h2 => by simp at h2; omega
  | a :: b :: c :: rest, d, d', hn, h => by
    intro i z h1 h2 h3
    have hdiv : ∀ x : Option Score, floatDiv x none = .ok none := by
      intro x; cases x with | none => rfl | some x => cases x <;> rfl
    have hadd : ∀ x : Option Score, floatAdd x none = none := by
      intro x; cases x with | none => rfl | some x => cases x <;> rfl
    rw [floatGaps, hdiv] at h
    dsimp only at h
    rw [hadd] at h
    have hn' := (List.nodup_cons.1 hn).2
    match i, h1 with
    | 1, _ =>
      obtain rfl : b = z := by simpa using h3
      rw [floatGaps_other b (b :: c :: rest) _ d' (fun j hj _ e => by
        have hb := (List.nodup_cons.1 hn').1
        obtain ⟨j, rfl⟩ : ∃ k, j = k + 1 := ⟨j - 1, by omega⟩
        exact hb (List.mem_of_getElem? (by simpa using e))) h]
      exact if_pos rfl
    | i + 2, _ =>
      exact floatGaps_nan (b :: c :: rest) _ d' hn' h (i + 1) z (by omega) (by simpa using h2) (by simpa using h3)

/-- **C179**, what NaN does: if sorting a front by a metric puts a member without a value first or last, and the one at
the other end is not infinite, then all members between have NaN for their distance. -/
theorem C179_distances {val : Nat → Option Score} {x y : Nat} {l : List Nat} (hn : (x :: l ++ [y]).Nodup)
    (hnan : val x = none ∨ val y = none) (hx : val x ≠ some .pinf ∧ val x ≠ some .ninf)
    (hy : val y ≠ some .pinf ∧ val y ≠ some .ninf) (d : Nat → Option Score) :
    ∃ d', floatCrowdStep val (x :: l ++ [y]) d = .ok d' ∧ d' x = some .pinf ∧ d' y = some .pinf ∧
      ∀ z ∈ l, d' z = none := by
  obtain ⟨d', hd⟩ := floatCrowdStep_ok (val := val) (l := x :: l ++ [y]) (by simp) d
  refine ⟨d', hd, ?_⟩
  have hlast : (x :: l ++ [y]).getLastD x = y := by
    rw [List.getLastD_eq_getLast?, List.getLast?_concat]; rfl
  have hinf : ∀ a : Option Score, a ≠ some .pinf ∧ a ≠ some .ninf → floatIsInf a = false := by
    intro a ha
    match a with
    | none => rfl
    | some (.fin _) => rfl
    | some .pinf => exact absurd rfl ha.1
    | some .ninf => exact absurd rfl ha.2
  have heq : floatEq (val y) (val x) = false := by
    rcases hnan with h | h
    · rw [h]; cases val y <;> rfl
    · rw [h]; rfl
  have hsub : floatSub (val y) (val x) = none := by
    rcases hnan with h | h
    · rw [h]; cases hy' : val y with | none => rfl | some v => cases v <;> rfl
    · rw [h]; cases hx' : val x with | none => rfl | some v => cases v <;> rfl
  have hxy : x ≠ y := by
    intro e
    rw [List.cons_append, List.nodup_cons] at hn
    exact hn.1 (by simp [e])
  unfold floatCrowdStep at hd
  simp only [List.cons_append] at hd hlast
  rw [hlast, heq, hinf _ hx, hinf _ hy, hsub] at hd
  simp only [Bool.or_false, Bool.false_eq_true, if_false] at hd
  rw [List.cons_append] at hn
  have hpos : ∀ i, (x :: (l ++ [y]))[i]? = some x → i = 0 := by
    intro i hi
    match i with
    | 0 => rfl
    | i + 1 => exact absurd (List.mem_of_getElem? (by simpa using hi)) (List.nodup_cons.1 hn).1
  refine ⟨?_, ?_, ?_⟩
  · rw [floatGaps_other x _ _ d' (fun i hi _ e => by have := hpos i e; omega) hd]
    exact if_pos rfl
  · rw [floatGaps_other y _ _ d' (fun i hi hl e => by
      have h1 : (x :: (l ++ [y]))[l.length + 1]? = some y := by simp
      have := (List.getElem?_inj (by simp at hl ⊢; omega) hn).1 (e.trans h1.symm)
      simp at hl
      omega) hd]
    show upd (upd d y (some .pinf)) x (some .pinf) y = _
    unfold upd
    rw [if_neg (Ne.symm hxy), if_pos rfl]
  · intro z hz
    obtain ⟨i, hi, rfl⟩ := List.getElem_of_mem hz
    exact floatGaps_nan _ _ d' hn hd (i + 1) _ (by omega) (by simp; omega)
      (by rw [List.getElem?_cons_succ, List.getElem?_append_left hi, List.getElem?_eq_getElem hi])

/-- Then, of two members of one rank one of which has NaN for its distance, the second wins the tournament. -/
theorem C179_tie {rank : Nat → Nat} {d : Nat → Option Score} {a b : Nat} (hr : rank a = rank b)
    (hd : d a = none ∨ d b = none) : floatTournament rank (floatWider d) a b = b := by
  unfold floatTournament floatBetter floatWider
  have : floatGt (d a) (d b) = false := by
    rcases hd with h | h
    · rw [h]; rfl
    · rw [h]; cases d a <;> rfl
  rw [this]
  simp [hr]

/-- Three members, the first without a value. -/
example : ∃ d', floatCrowdStep (fun i => if i = 0 then none else some (.fin i)) [0, 1, 2] (fun _ => some (.fin 0)) = .ok d' ∧
    d' 1 = none ∧ floatTournament (fun _ => 0) (floatWider d') 2 1 = 1 := by
  obtain ⟨d', h1, _, _, h4⟩ := C179_distances (val := fun i => if i = 0 then none else some (.fin i)) (x := 0) (y := 2)
    (l := [1]) (by decide) (Or.inl rfl) (by decide) (by decide) (fun _ => some (.fin 0))
  exact ⟨d', h1, h4 1 (by simp), C179_tie rfl (Or.inr (h4 1 (by simp)))⟩

/-- Four members with values that are numbers, one of them infinite. -/
def Ex.numberValues : List (List Score) :=
  [[.fin 1, .fin (-1)], [.ninf, .fin (-2)], [.fin 3, .fin (-3)], [.fin 2, .fin (-2)]]

example : (∀ v ∈ Ex.numberValues, v.length = 2) ∧
    (floatNsga2 stableSort (asFloats Ex.numberValues) 2).map (·.1) = (nsga2 Ex.numberValues 2).map (·.order) := by
  decide +kernel

end Gama
