import Verif.Model.Predict
import Mathlib.Tactic.FieldSimp
import Mathlib.Tactic.Ring
import Mathlib.Tactic.Linarith
import Mathlib.Tactic.ByContra
import Mathlib.Tactic.SplitIfs
import Mathlib.Tactic.NormNum
import Mathlib.Algebra.BigOperators.Group.Finset.Basic
import Mathlib.Algebra.BigOperators.Ring.Finset
import Mathlib.Algebra.BigOperators.Field

/-!
# Properties of fit and predict of the front end (C97 to C102)
-/

namespace Gama

/-! ### C97 -/

/-- **C97.**  If a metric needs probabilities, the search space consists of the entries of the space
given -- the default one if none or an empty one is given -- that are not classifiers without
`predict_proba`; if none does, it is the space itself.  The order is kept. -/
theorem C97_space {V : Type} (given : Option (List (SpaceKey × V))) (default : List (SpaceKey × V))
    (metrics : List Bool) (chosen : List (SpaceKey × V))
    (hc : (given = some chosen ∧ chosen ≠ []) ∨ ((given = none ∨ given = some []) ∧ chosen = default)) :
    (∀ e, e ∈ classifierSpace given default metrics ↔
      e ∈ chosen ∧ (true ∈ metrics → ¬ ∃ n, e.1 = .cls n true false)) ∧
    (classifierSpace given default metrics).Sublist chosen ∧
    ((∀ e ∈ chosen, ¬ ∃ n, e.1 = .cls n true false) → classifierSpace given default metrics = chosen) := by
  have hs : classifierSpace given default metrics
      = if metrics.any id then chosen.filter fun e => keepsEntry e.1 else chosen := by
    rcases hc with ⟨rfl, hne⟩ | ⟨rfl | rfl, rfl⟩
    · cases chosen with
      | nil => exact absurd rfl hne
      | cons e es => rfl
    · rfl
    · rfl
  have hk : ∀ k : SpaceKey, keepsEntry k = true ↔ ¬ ∃ n, k = .cls n true false := by
    intro k
    cases k with
    | shared n => simp [keepsEntry]
    | cls n c p => cases c <;> cases p <;> simp [keepsEntry]
  have hany : metrics.any id = true ↔ true ∈ metrics := by simp
  rw [hs]
  refine ⟨?_, ?_, ?_⟩
  · intro e
    split_ifs with h
    · rw [List.mem_filter, hk]
      have := hany.1 h
      tauto
    · have : true ∉ metrics := fun hm => h (hany.2 hm)
      tauto
  · split_ifs
    · exact List.filter_sublist
    · exact List.Sublist.refl _
  · intro hall
    split_ifs
    · exact List.filter_eq_self.2 fun e he => (hk e.1).2 (hall e he)
    · rfl

example : classifierSpace (some [(.cls ['t'] true true, 1), (.cls ['s'] true false, 2),
      (.cls ['p'] false false, 3), (.shared ['a'], 4)]) [] [false, true]
    = [(.cls ['t'] true true, 1), (.cls ['p'] false false, 3), (.shared ['a'], 4)] := by
  decide

/-! ### C98 -/

namespace Spec

/-- The mean over the classes, each counted once. -/
def classMean {L : Type} [DecidableEq L] (y : List L) (score : L → ℚ) : ℚ :=
  (∑ c ∈ y.toFinset, score c) / y.toFinset.card

end Spec

/-- The full claim: a macro-averaged metric gives every class of the targets the same weight. -/
def C98_claim : Prop := ∀ (y : List Nat) (score : Nat → ℚ) (has : Bool), y ≠ [] →
  macroAverage (scorerLabels has y) y.dedup score = Spec.classMean y score

theorem macro_given {L : Type} [DecidableEq L] (y : List L) (score : L → ℚ) (present : List L) :
    macroAverage (scorerLabels true y) present score
      = (∑ c ∈ y.toFinset, (y.count c : ℚ) * score c) / y.length := by
  unfold macroAverage scorerLabels
  simp only [if_true, Option.getD_some]
  rw [Finset.sum_list_map_count]
  simp only [nsmul_eq_mul]

/-- **C98, what is computed.**  With the labels set by `fit`, every class has as weight its share of
the rows. -/
theorem C98_weights {L : Type} [DecidableEq L] (y : List L) (score : L → ℚ) (present : List L) :
    macroAverage (scorerLabels true y) present score
      = ∑ c ∈ y.toFinset, ((y.count c : ℚ) / y.length) * score c := by
  rw [macro_given, Finset.sum_div]
  exact Finset.sum_congr rfl fun c _ => by ring

/-- **C98, the part that holds**: for score functions without a parameter `labels`, and for targets in
which all classes have equally many rows.  Missing: unbalanced classes. -/
theorem C98_partial {L : Type} [DecidableEq L] (y : List L) (score : L → ℚ) (has : Bool) (k : Nat)
    (hy : y ≠ []) (h : has = false ∨ ∀ c ∈ y, y.count c = k) :
    macroAverage (scorerLabels has y) y.dedup score = Spec.classMean y score := by
  unfold Spec.classMean
  cases has with
  | false =>
    have e : (y.dedup.map score).sum = ∑ c ∈ y.toFinset, score c := by
      rw [← List.sum_toFinset score (List.nodup_dedup y)]
      congr 1
      ext c
      simp
    unfold macroAverage scorerLabels
    simp only [Bool.false_eq_true, if_false, Option.getD_none]
    rw [e, List.card_toFinset]
  | true =>
    have hb : ∀ c ∈ y, y.count c = k := by
      rcases h with h | h
      · exact absurd h (by decide)
      · exact h
    obtain ⟨c₀, hc₀⟩ := List.exists_mem_of_ne_nil y hy
    have hk : 0 < k := by rw [← hb c₀ hc₀]; exact List.count_pos_iff.2 hc₀
    have hlen : (y.length : ℚ) = k * (y.toFinset.card : ℚ) := by
      have := macro_given y (fun _ => (1 : ℚ)) []
      unfold macroAverage scorerLabels at this
      have hs : y.length = ∑ c ∈ y.toFinset, y.count c := (List.sum_toFinset_count_eq_length y).symm
      rw [hs, Finset.sum_congr rfl fun c hc => hb c (List.mem_toFinset.1 hc), Finset.sum_const,
        nsmul_eq_mul, Nat.cast_mul, mul_comm]
      simp
    rw [macro_given, hlen, Finset.sum_congr rfl fun c hc => by
      rw [hb c (List.mem_toFinset.1 hc)], ← Finset.mul_sum, mul_div_mul_left]
    exact_mod_cast hk.ne'

/-- **C98 is false of the code**: with three rows of class 0, one of class 1 and the scores 1 and 0 of
the classes, 3/4 is computed instead of 1/2. -/
theorem C98_false : ¬ C98_claim := by
  intro h
  have := h [0, 0, 0, 1] (fun c => if c = 0 then 1 else 0) true (by decide)
  have e : Spec.classMean [0, 0, 0, 1] (fun c => if c = 0 then (1 : ℚ) else 0) = 1 / 2 := by
    unfold Spec.classMean
    rw [show [0, 0, 0, 1].toFinset = ({0, 1} : Finset Nat) by decide]
    norm_num
  rw [e] at this
  norm_num [macroAverage, scorerLabels] at this

/-- The weighted average is off as well: the weight of a class is its support times its number of
rows. -/
theorem C98_weighted {L : Type} [DecidableEq L] (y : List L) (support score : L → ℚ) (present : List L) :
    weightedAverage (scorerLabels true y) present support score
      = (∑ c ∈ y.toFinset, (y.count c : ℚ) * (support c * score c))
        / ∑ c ∈ y.toFinset, (y.count c : ℚ) * support c := by
  unfold weightedAverage scorerLabels
  simp only [if_true, Option.getD_some]
  rw [Finset.sum_list_map_count, Finset.sum_list_map_count]
  simp only [nsmul_eq_mul]

example : (∀ c ∈ [0, 1, 0, 1], [0, 1, 0, 1].count c = 2) := by decide

/-! ### C99 -/

namespace Spec

/-- What a categorical column is: one of objects, or one of numbers with at most ten different values,
all integers. -/
def Categorical (c : DColumn) : Prop :=
  c.dtype = .object ∨
  (c.dtype.numeric = true ∧ (∃ vs : List ℚ, vs.length ≤ 10 ∧ ∀ q, some q ∈ c.values → q ∈ vs) ∧
    (c.dtype = .int ∨ ∀ q, some q ∈ c.values → ∃ z : ℤ, q = z))

/-- The columns with types replaced. -/
def converted (cs cs' : List DColumn) : Prop :=
  List.Forall₂ (fun c c' => c'.values = c.values ∧
    (Categorical c → c'.dtype = .category) ∧ (¬ Categorical c → c'.dtype = c.dtype)) cs cs'

end Spec

/-- The full claim: whatever the types, the columns converted are the categorical ones. -/
def C99_claim : Prop := ∀ (python312 : Bool) (cs : List DColumn),
  ∃ cs', inferCategoricals python312 cs = .ok cs' ∧ Spec.converted cs cs'

theorem mem_distinct_values {α : Type} [DecidableEq α] (l : List α) (a : α) : a ∈ distinct l ↔ a ∈ l := by
  induction l with
  | nil => simp [distinct]
  | cons x l ih =>
    unfold distinct
    split_ifs with h
    · rw [ih]
      constructor
      · exact fun h' => List.mem_cons_of_mem _ h'
      · intro h'
        rcases List.mem_cons.1 h' with rfl | h'
        · exact h
        · exact h'
    · rw [List.mem_cons, List.mem_cons, ih]

theorem nodup_distinct_values {α : Type} [DecidableEq α] (l : List α) : (distinct l).Nodup := by
  induction l with
  | nil => simp [distinct]
  | cons x l ih =>
    unfold distinct
    split_ifs with h
    · exact ih
    · exact List.nodup_cons.2 ⟨fun hm => h ((mem_distinct_values l x).1 hm), ih⟩

theorem valueCount_le (vs : List (Option ℚ)) (n : Nat) :
    valueCount vs ≤ n ↔ ∃ us : List ℚ, us.length ≤ n ∧ ∀ q, some q ∈ vs → q ∈ us := by
  have hm : ∀ q, q ∈ distinct (vs.filterMap id) ↔ some q ∈ vs := by
    intro q; rw [mem_distinct_values]; simp
  constructor
  · intro h
    exact ⟨distinct (vs.filterMap id), h, fun q hq => (hm q).2 hq⟩
  · rintro ⟨us, hl, hus⟩
    have hsub : (distinct (vs.filterMap id)).Subperm us :=
      (nodup_distinct_values _).subperm fun q hq => hus q ((hm q).1 hq)
    exact le_trans hsub.length_le hl

theorem den_one_iff (q : ℚ) : (q.den == 1) = true ↔ ∃ z : ℤ, q = z := by
  rw [beq_iff_eq]
  constructor
  · intro h
    exact ⟨q.num, (Rat.den_eq_one_iff q).1 h |>.symm⟩
  · rintro ⟨z, rfl⟩; exact Rat.den_intCast z

theorem allIntegers_ok (python312 : Bool) (t : DType) (vs : List (Option ℚ))
    (h : ∀ q, elementIsInteger python312 t q = .ok (q.den == 1)) :
    ∃ b, allIntegers python312 t vs = .ok b ∧ (b = true ↔ ∀ q, some q ∈ vs → ∃ z : ℤ, q = z) := by
  induction vs with
  | nil => exact ⟨true, rfl, by simp⟩
  | cons v vs ih =>
    obtain ⟨b, hb, hiff⟩ := ih
    cases v with
    | none => exact ⟨b, hb, by simpa using hiff⟩
    | some q =>
      cases hq : (q.den == 1) with
      | false =>
        refine ⟨false, by simp [allIntegers, h, hq], ?_⟩
        simp only [Bool.false_eq_true, false_iff, not_forall]
        refine ⟨q, List.mem_cons_self, fun hz => ?_⟩
        rw [(den_one_iff q).2 hz] at hq
        simp at hq
      | true =>
        refine ⟨b, by simp [allIntegers, h, hq, hb], ?_⟩
        rw [hiff]
        constructor
        · intro hall r hr
          rcases List.mem_cons.1 hr with e | hr
          · cases e; exact (den_one_iff q).1 hq
          · exact hall r hr
        · exact fun hall r hr => hall r (List.mem_cons_of_mem _ hr)

theorem looksCategorical_ok (python312 : Bool) (c : DColumn)
    (h : c.dtype.numeric = true → c.dtype ≠ .int →
      ∀ q, elementIsInteger python312 c.dtype q = .ok (q.den == 1)) :
    ∃ b, looksCategorical python312 c = .ok b ∧ (b = true ↔ Spec.Categorical c) := by
  unfold looksCategorical Spec.Categorical
  by_cases ho : c.dtype = .object
  · exact ⟨true, by simp [ho], by simp [ho]⟩
  · rw [if_neg ho]
    by_cases hn : c.dtype.numeric = true
    · rw [if_pos hn]
      by_cases hi : c.dtype = .int
      · simp only [hi, if_true]
        refine ⟨_, rfl, ?_⟩
        rw [hi] at hn ho
        simp [hn, valueCount_le]
      · simp only [if_neg hi]
        obtain ⟨b, hb, hiff⟩ := allIntegers_ok python312 c.dtype c.values (h hn hi)
        rw [hb]
        refine ⟨_, rfl, ?_⟩
        rw [Bool.and_eq_true, decide_eq_true_eq, valueCount_le, hiff]
        constructor
        · rintro ⟨h1, h2⟩; exact .inr ⟨hn, h1, .inr h2⟩
        · rintro (h1 | ⟨-, h1, h2 | h2⟩)
          · exact absurd h1 ho
          · exact absurd h2 hi
          · exact ⟨h1, h2⟩
    · rw [if_neg hn]
      exact ⟨false, rfl, by simp [ho, hn]⟩

/-- **C99, the part that holds**: for columns that are neither complex nor, before Python 3.12,
unsigned or boolean, the conversion ends and converts exactly the categorical columns, changing no
values.  Missing: the other types. -/
theorem C99_partial (python312 : Bool) (cs : List DColumn)
    (h : ∀ c ∈ cs, c.dtype ≠ .complex ∧ (python312 = false → c.dtype ≠ .uint ∧ c.dtype ≠ .bool)) :
    ∃ cs', inferCategoricals python312 cs = .ok cs' ∧ Spec.converted cs cs' := by
  induction cs with
  | nil => exact ⟨[], rfl, .nil⟩
  | cons c cs ih =>
    obtain ⟨cs', he, hconv⟩ := ih fun x hx => h x (List.mem_cons_of_mem _ hx)
    obtain ⟨b, hb, hiff⟩ := looksCategorical_ok python312 c (by
      intro hn hi q
      obtain ⟨h1, h2⟩ := h c List.mem_cons_self
      cases hd : c.dtype <;> cases hp : python312 <;>
        simp_all [DType.numeric, elementIsInteger])
    refine ⟨(if b then { c with dtype := .category } else c) :: cs', by simp [inferCategoricals, hb, he], ?_⟩
    refine .cons ?_ hconv
    cases b with
    | true => exact ⟨rfl, fun _ => rfl, fun hn => absurd (hiff.1 rfl) hn⟩
    | false => exact ⟨rfl, fun hcat => absurd (hiff.2 hcat) (by simp), fun _ => rfl⟩

/-- **C99, failure.**  Before Python 3.12 a table with an unsigned or boolean column that has a value
cannot be fitted: an AttributeError. -/
theorem C99_unsigned (cs : List DColumn) (c : DColumn) (hc : c ∈ cs)
    (ht : c.dtype = .uint ∨ c.dtype = .bool) (q : ℚ) (hq : some q ∈ c.values) :
    inferCategoricals false cs = .error .attributeError := by
  have hall : ∀ vs : List (Option ℚ), some q ∈ vs →
      allIntegers false c.dtype vs = .error .attributeError := by
    intro vs hvs
    have he : ∀ r, elementIsInteger false c.dtype r = .error .attributeError := by
      intro r; rcases ht with e | e <;> rw [e] <;> rfl
    induction vs with
    | nil => simp at hvs
    | cons v vs ih =>
      cases v with
      | none => simpa [allIntegers] using ih (by simpa using hvs)
      | some r => simp [allIntegers, he]
  have hl : looksCategorical false c = .error .attributeError := by
    unfold looksCategorical
    rw [hall c.values hq]
    rcases ht with e | e <;> simp [e, DType.numeric]
  have herr : ∀ (d : DColumn) (e : Exn), looksCategorical false d = .error e → e = .attributeError := by
    intro d e hd
    have hei : ∀ (t : DType) (r : ℚ) (e : Exn), elementIsInteger false t r = .error e → e = .attributeError := by
      intro t r e h
      cases t <;> simp [elementIsInteger] at h <;> exact h.symm
    have hai : ∀ (t : DType) (vs : List (Option ℚ)) (e : Exn), allIntegers false t vs = .error e →
        e = .attributeError := by
      intro t vs
      induction vs with
      | nil => intro e h; simp [allIntegers] at h
      | cons v vs ih =>
        intro e h
        cases v with
        | none => exact ih e h
        | some r =>
          simp only [allIntegers] at h
          cases hr : elementIsInteger false t r with
          | error e' => rw [hr] at h; cases h; exact hei t r e hr
          | ok b => rw [hr] at h; cases b <;> [simp at h; exact ih e h]
    unfold looksCategorical at hd
    split_ifs at hd with h1 h2 h3
    · cases hx : allIntegers false d.dtype d.values with
      | error e' => simp only [hx] at hd; cases hd; exact hai _ _ e hx
      | ok b => simp [hx] at hd
  induction cs with
  | nil => simp at hc
  | cons d cs ih =>
    rcases List.mem_cons.1 hc with rfl | hc'
    · simp [inferCategoricals, hl]
    · simp only [inferCategoricals]
      cases hd : looksCategorical false d with
      | error e => rw [herr d e hd]
      | ok b => simp [ih hc']

/-- **C99 is false of the code**: one unsigned column, as of an image, is an error on the Python
versions (3.9 to 3.11) that scikit-learn below 1.3 supports. -/
theorem C99_false : ¬ C99_claim := by
  intro h
  obtain ⟨cs', hc, -⟩ := h false [⟨.uint, [some 3]⟩]
  rw [C99_unsigned [⟨.uint, [some 3]⟩] ⟨.uint, [some 3]⟩ (by simp) (.inl rfl) 3 (by simp)] at hc
  simp at hc

example : Spec.Categorical ⟨.float, [some 1, none, some 2]⟩ ∧
    ¬ Spec.Categorical ⟨.float, [some (1 / 2)]⟩ := by
  constructor
  · refine .inr ⟨rfl, ⟨[1, 2], by decide, ?_⟩, .inr ?_⟩
    · intro q hq; simpa using hq
    · intro q hq
      simp only [List.mem_cons, Option.some.injEq, List.not_mem_nil, or_false, reduceCtorEq, false_or] at hq
      rcases hq with rfl | rfl
      · exact ⟨1, by norm_num⟩
      · exact ⟨2, by norm_num⟩
  · rintro (h | ⟨-, -, h | h⟩)
    · simp at h
    · simp at h
    · obtain ⟨z, hz⟩ := h (1 / 2) (by simp)
      have h2 : (1 : ℚ) = ((2 * z : ℤ) : ℚ) := by push_cast; rw [← hz]; norm_num
      have h3 : (1 : ℤ) = 2 * z := by exact_mod_cast h2
      omega

/-! ### C100 -/

namespace Spec

/-- A table whose columns are labelled like those of the training table, have their types, and hold
the values of the array converted to them. -/
def Matches {D V : Type} (cast : D → List V → Except Exn (List V)) (train : List (ColName × D))
    (array : List (List V)) (t : TypedTable D V) : Prop :=
  t.map (fun c => (c.1, c.2.1)) = train ∧
  List.Forall₂ (fun (c : ColName × D × List V) vs => cast c.2.1 vs = .ok c.2.2) t array

/-- Every column can be converted to its type. -/
def Castable {D V : Type} (cast : D → List V → Except Exn (List V)) (ds : List D) (array : List (List V)) : Prop :=
  List.Forall₂ (fun d vs => ∃ vs', cast d vs = .ok vs') ds array

end Spec

/-- The full claim: an array with as many columns as the training data becomes a table with the
columns of the training data. -/
def C100_claim : Prop := ∀ (cast : Nat → List ℚ → Except Exn (List ℚ)) (plain : Nat)
  (train : List (ColName × Nat)) (array : List (List ℚ)), Spec.Castable cast (train.map Prod.snd) array →
  ∃ t, npToMatching cast plain (train.map Prod.snd) array = .ok t ∧ Spec.Matches cast train array t

theorem castColumn_skip {D V : Type} (cast : D → List V → Except Exn (List V)) (k : ColName) (d : D)
    (pre t t' : TypedTable D V) (hp : ∀ c ∈ pre, c.1 ≠ k) (h : castColumn cast k d t = .ok t') :
    castColumn cast k d (pre ++ t) = .ok (pre ++ t') := by
  induction pre with
  | nil => exact h
  | cons c pre ih =>
    obtain ⟨k', d', vs⟩ := c
    have hne : k' ≠ k := hp (k', d', vs) (by simp)
    simp [castColumn, hne, ih fun c hc => hp c (by simp [hc])]

theorem castColumns_all {D V : Type} (cast : D → List V → Except Exn (List V)) (plain : D)
    (ds : List D) (array : List (List V)) (h : Spec.Castable cast ds array) (i : Nat)
    (pre : TypedTable D V) (hp : ∀ c ∈ pre, ∃ j < i, c.1 = .num j) :
    ∃ t, castColumns cast i ds (pre ++ numberedColumns plain i array) = .ok (pre ++ t) ∧
      t.map (fun c => (c.1, c.2.1)) = (ds.zipIdx i).map (fun p => (ColName.num p.2, p.1)) ∧
      List.Forall₂ (fun (c : ColName × D × List V) vs => cast c.2.1 vs = .ok c.2.2) t array := by
  induction h generalizing i pre with
  | nil => exact ⟨[], rfl, rfl, .nil⟩
  | @cons d vs ds array hd hrest ih =>
    obtain ⟨vs', hvs⟩ := hd
    have hskip : ∀ c ∈ pre, c.1 ≠ ColName.num i := by
      intro c hc e
      obtain ⟨j, hj, hcj⟩ := hp c hc
      rw [hcj] at e
      cases e
      omega
    have hstep : castColumn cast (.num i) d (pre ++ numberedColumns plain i (vs :: array))
        = .ok (pre ++ ((.num i, d, vs') :: numberedColumns plain (i + 1) array)) :=
      castColumn_skip cast _ d pre _ _ hskip (by simp [numberedColumns, castColumn, hvs])
    obtain ⟨t, ht, h1, h2⟩ := ih (i + 1) (pre ++ [(.num i, d, vs')]) (by
      intro c hc
      rcases List.mem_append.1 hc with hc | hc
      · obtain ⟨j, hj, e⟩ := hp c hc; exact ⟨j, by omega, e⟩
      · rw [List.mem_singleton.1 hc]; exact ⟨i, by omega, rfl⟩)
    refine ⟨(.num i, d, vs') :: t, ?_, ?_, .cons hvs h2⟩
    · simp only [castColumns, hstep]
      rw [List.append_assoc] at ht
      simpa using ht
    · rw [List.map_cons, h1, List.zipIdx_cons, List.map_cons]

/-- **C100, the part that holds**: if the training data was an array as well -- its columns are
numbered --, an array with as many columns becomes a table with the same labels and types, holding the
values of the array converted.  Missing: training data with named columns. -/
theorem C100_partial {D V : Type} (cast : D → List V → Except Exn (List V)) (plain : D)
    (ds : List D) (array : List (List V)) (h : Spec.Castable cast ds array) :
    ∃ t, npToMatching cast plain ds array = .ok t ∧
      Spec.Matches cast (ds.zipIdx.map fun p => (.num p.2, p.1)) array t := by
  obtain ⟨t, ht, h1, h2⟩ := castColumns_all cast plain ds array h 0 [] (by simp)
  exact ⟨t, ht, h1, h2⟩

theorem castColumn_absent {D V : Type} (cast : D → List V → Except Exn (List V)) (k : ColName) (d : D)
    (t : TypedTable D V) (h : ∀ c ∈ t, c.1 ≠ k) : castColumn cast k d t = .error .keyError := by
  induction t with
  | nil => rfl
  | cons c t ih =>
    obtain ⟨k', d', vs⟩ := c
    have hne : k' ≠ k := h (k', d', vs) (by simp)
    simp [castColumn, hne, ih fun c hc => h c (by simp [hc])]

/-- **C100, refusals.**  An array with fewer columns than the training data is a KeyError. -/
theorem C100_short {D V : Type} (cast : D → List V → Except Exn (List V)) (plain : D)
    (ds rest : List D) (array : List (List V)) (h : Spec.Castable cast ds array) (hr : rest ≠ []) :
    npToMatching cast plain (ds ++ rest) array = .error .keyError := by
  have gen : ∀ (ds : List D) (i : Nat) (t t' : TypedTable D V), castColumns cast i ds t = .ok t' →
      castColumns cast i (ds ++ rest) t = castColumns cast (i + ds.length) rest t' := by
    intro ds
    induction ds with
    | nil => intro i t t' h; simp [castColumns] at h; subst h; simp
    | cons d ds ih =>
      intro i t t' h
      simp only [castColumns, List.cons_append] at h ⊢
      cases hc : castColumn cast (.num i) d t with
      | error e => rw [hc] at h; simp at h
      | ok t1 =>
        rw [hc] at h
        dsimp only at h ⊢
        rw [ih (i + 1) t1 t' h, List.length_cons]
        congr 1
        omega
  obtain ⟨t, ht, h1, h2⟩ := castColumns_all cast plain ds array h 0 [] (by simp)
  rw [List.nil_append, List.nil_append] at ht
  unfold npToMatching
  rw [gen ds 0 _ t ht]
  cases rest with
  | nil => exact absurd rfl hr
  | cons d rest =>
    have : castColumn cast (.num (0 + ds.length)) d t = .error .keyError := by
      apply castColumn_absent
      intro c hc e
      have hm : (c.1, c.2.1) ∈ (ds.zipIdx 0).map fun p => (ColName.num p.2, p.1) := by
        rw [← h1]; exact List.mem_map_of_mem (f := fun c : ColName × D × List V => (c.1, c.2.1)) hc
      obtain ⟨⟨d', j⟩, hj, e'⟩ := List.mem_map.1 hm
      have hlt := List.snd_lt_of_mem_zipIdx hj
      have : ColName.num j = c.1 := congrArg Prod.fst e'
      rw [e] at this
      cases this
      omega
    rw [castColumns, this]

/-- **C100 is false of the code**: for training data with a column named `a`, an array becomes a table
with a column numbered 0. -/
theorem C100_false : ¬ C100_claim := by
  intro h
  obtain ⟨t, ht, h1, -⟩ := h (fun _ vs => .ok vs) 0 [(.name ['a'], 1)] [[5]]
    (.cons ⟨_, rfl⟩ .nil)
  simp [npToMatching, numberedColumns, castColumns, castColumn] at ht
  subst ht
  simp at h1

example : Spec.Castable (fun (_ : Nat) (vs : List ℚ) => .ok vs) [1, 2] [[5], [6]] :=
  .cons ⟨_, rfl⟩ (.cons ⟨_, rfl⟩ .nil)

/-! ### C101 -/

namespace Spec

/-- A fit in which everything goes well, with what it stores. -/
def GoodFit {E L M : Type} (r : FitRun E L M) (enc : E) (l : Option L) (m : M) : Prop :=
  r.preprocess = .ok enc ∧ r.timeLeft = true ∧ r.search = .ok () ∧ r.model = .ok m ∧
  ((r.labels = none ∧ l = none) ∨ ∃ x, r.labels = some (.ok x) ∧ l = some x)

end Spec

/-- The full claim: after any fits, prediction uses encoding, labels and model of one and the same
fit. -/
def C101_claim : Prop := ∀ (rs : List (FitRun Nat Nat Nat)) (enc : Option Nat) (m : Nat) (l : Option Nat),
  (∀ r ∈ rs, r.labels ≠ none) →
  frontPredict (frontFits rs ⟨none, none, none⟩) = .ok (enc, m, l) →
  ∃ r ∈ rs, ∃ e, enc = some e ∧ Spec.GoodFit r e l m

theorem frontFit_good {E L M : Type} (r : FitRun E L M) (e : E) (l : Option L) (m : M)
    (h : Spec.GoodFit r e l m) (s : FitState E L M) (hl : r.labels = none → s.labels = none) :
    (frontFit r s).2 = ⟨some e, l, some m⟩ := by
  obtain ⟨h1, h2, h3, h4, h5⟩ := h
  rcases h5 with ⟨h5, rfl⟩ | ⟨x, h5, rfl⟩
  · simp [frontFit, gamaFit, h1, h2, h3, h4, h5, hl h5]
  · simp [frontFit, gamaFit, h1, h2, h3, h4, h5]

theorem frontFits_append {E L M : Type} (rs rs' : List (FitRun E L M)) (s : FitState E L M) :
    frontFits (rs ++ rs') s = frontFits rs' (frontFits rs s) := by
  induction rs generalizing s with
  | nil => rfl
  | cons r rs ih => exact ih _

/-- **C101, the part that holds**: if the last fit made its model -- whatever happened before, and
even if cleaning up after it failed --, prediction uses encoding, labels and model of that fit; without
any model there is no prediction.  Missing: a failing fit after one that made a model. -/
theorem C101_partial {E L M : Type} (rs : List (FitRun E L M)) (r : FitRun E L M) (e : E)
    (l : Option L) (m : M) (h : Spec.GoodFit r e l m) (s : FitState E L M)
    (hl : r.labels = none → (frontFits rs s).labels = none) :
    frontPredict (frontFits (rs ++ [r]) s) = .ok (some e, m, l) := by
  rw [frontFits_append]
  simp only [frontFits]
  rw [frontFit_good r e l m h _ hl]
  rfl

theorem gamaFit_model {E L M : Type} (r : FitRun E L M) (s : FitState E L M) (hs : s.model = none)
    (h : ∀ m, r.model ≠ .ok m) : (gamaFit r s).2.model = none := by
  unfold gamaFit
  cases r.preprocess with
  | error e => exact hs
  | ok enc =>
    dsimp only
    cases r.timeLeft with
    | false => exact hs
    | true =>
      cases r.search with
      | error e => exact hs
      | ok u =>
        cases hm : r.model with
        | error e => exact hs
        | ok m => exact absurd hm (h m)

/-- Before a fit has made a model, `predict` is an error. -/
theorem C101_unfitted {E L M : Type} (rs : List (FitRun E L M)) (h : ∀ r ∈ rs, ∀ m, r.model ≠ .ok m)
    (enc : Option E) (l : Option L) :
    frontPredict (frontFits rs ⟨enc, l, none⟩) = .error .attributeError := by
  have : ∀ s : FitState E L M, s.model = none → (frontFits rs s).model = none := by
    induction rs with
    | nil => exact fun s hs => hs
    | cons r rs ih =>
      intro s hs
      refine ih (fun x hx => h x (by simp [hx])) _ ?_
      have hr := h r (by simp)
      unfold frontFit
      cases r.labels with
      | none => exact gamaFit_model r s hs hr
      | some x =>
        cases x with
        | error e => exact hs
        | ok y => exact gamaFit_model r _ hs hr
  unfold frontPredict
  rw [this _ rfl]

/-- A fit that goes well, and one in which preprocessing took all the time. -/
def goodFit : FitRun Nat Nat Nat := ⟨some (.ok 1), .ok 1, true, .ok (), .ok 1, .ok ()⟩
def lateFit : FitRun Nat Nat Nat := ⟨some (.ok 2), .ok 2, false, .ok (), .ok 2, .ok ()⟩

example : Spec.GoodFit goodFit 1 (some 1) 1 := ⟨rfl, rfl, rfl, rfl, .inr ⟨1, rfl, rfl⟩⟩

/-- **C101 is false of the code**: after a second fit that failed, the model of the first is used with
encoding and labels of the second. -/
theorem C101_false : ¬ C101_claim := by
  intro h
  obtain ⟨r, hr, e, he, hg⟩ := h [goodFit, lateFit] (some 2) 1 (some 2) (by
    intro r hr
    simp only [List.mem_cons, List.not_mem_nil, or_false] at hr
    rcases hr with rfl | rfl <;> simp [goodFit, lateFit]) rfl
  simp only [List.mem_cons, List.not_mem_nil, or_false] at hr
  rcases hr with rfl | rfl
  · cases he
    have := hg.1
    simp [goodFit] at this
  · have := hg.2.1
    simp [lateFit] at this

/-! ### C102 -/

/-- **C102.**  Exporting before a fit, or to an existing file when asked not to, is an error and
changes no file.  Otherwise the code is returned; no other file than the one named is changed, which
holds the code, formatted; without a name no file is changed. -/
theorem C102_export (code : Option Str) (b : Str → Str) (file : Option Str) (raise : Bool) (fs : Files) :
    (code = none → exportScript code (some b) file raise fs = (.error .runtimeError, fs)) ∧
    (∀ f old, code ≠ none → raise = true → file = some f → fs f = some old →
      exportScript code (some b) file raise fs = (.error .fileExists, fs)) ∧
    (∀ text, code = some text → (raise = true → ∀ f, file = some f → fs f = none) →
      (exportScript code (some b) file raise fs).1 = .ok text ∧
      (file = none → (exportScript code (some b) file raise fs).2 = fs) ∧
      ∀ f, file = some f → f ≠ [] →
        (exportScript code (some b) file raise fs).2 f = some (b text) ∧
        ∀ g, g ≠ f → (exportScript code (some b) file raise fs).2 g = fs g) := by
  refine ⟨?_, ?_, ?_⟩
  · rintro rfl; rfl
  · rintro f old hc rfl rfl hf
    cases code with
    | none => exact absurd rfl hc
    | some text => simp [exportScript, fileTaken, hf]
  · rintro text rfl hno
    have hcond : (raise && fileTaken file fs) = false := by
      cases raise with
      | false => rfl
      | true =>
        cases file with
        | none => rfl
        | some f => simp [fileTaken, hno rfl f rfl]
    unfold exportScript
    simp only [hcond, Bool.false_eq_true, if_false]
    cases file with
    | none => exact ⟨rfl, fun _ => rfl, fun f h => by cases h⟩
    | some f =>
      cases f with
      | nil => exact ⟨rfl, fun h => (by cases h), fun f h hne => absurd (by cases h; rfl) hne⟩
      | cons c f =>
        refine ⟨rfl, fun h => (by cases h), ?_⟩
        rintro f' h -
        cases h
        refine ⟨by simp, ?_⟩
        intro g hg
        simp [hg]

/-- An empty name is treated as none, and if the formatter is missing the file is written but the
call fails. -/
theorem C102_edges (text : Str) (b : Str → Str) (fs : Files) (f : Str) (hf : f ≠ []) :
    exportScript (some text) (some b) (some []) false fs = (.ok text, fs) ∧
    (exportScript (some text) none (some f) false fs).1 = .error .fileNotFound ∧
    (exportScript (some text) none (some f) false fs).2 f = some text := by
  refine ⟨rfl, ?_, ?_⟩ <;> cases f with
  | nil => exact absurd rfl hf
  | cons c f => simp [exportScript]

/-! ### Cases of the theorems above -/

/-- `C98_weights`, `C98_partial`: one label three times and one once, and both twice. -/
example : macroAverage (scorerLabels true [0, 0, 0, 1]) [0, 1] (fun c : Nat => if c = 0 then 1 else 0) =
      ∑ c ∈ [0, 0, 0, 1].toFinset, (([0, 0, 0, 1].count c : ℚ) / 4) * (if c = 0 then 1 else 0) ∧
    macroAverage (scorerLabels true [0, 1, 0, 1]) [0, 1].dedup (fun c : Nat => if c = 0 then 1 else 0) =
      Spec.classMean [0, 1, 0, 1] fun c : Nat => if c = 0 then 1 else 0 :=
  ⟨C98_weights _ _ _, C98_partial [0, 1, 0, 1] _ true 2 (by simp) (.inr (by decide))⟩

/-- `C99_partial`, `C99_unsigned`. -/
example : (∃ cs', inferCategoricals false [⟨.float, [some 1, none, some 2]⟩, ⟨.object, [none]⟩] = .ok cs' ∧
      Spec.converted [⟨.float, [some 1, none, some 2]⟩, ⟨.object, [none]⟩] cs') ∧
    inferCategoricals false [⟨.uint, [some 1]⟩] = .error .attributeError :=
  ⟨C99_partial _ _ (by simp), C99_unsigned _ _ (List.mem_singleton.2 rfl) (.inl rfl) 1 (by simp)⟩

/-- `C100_partial`, `C100_short`. -/
example : (∃ t, npToMatching (fun (_ : Nat) (vs : List ℚ) => .ok vs) 0 [1, 2] [[5], [6]] = .ok t) ∧
    npToMatching (fun (_ : Nat) (vs : List ℚ) => .ok vs) 0 ([1, 2] ++ [3]) [[5], [6]] = .error .keyError :=
  have h : Spec.Castable (fun (_ : Nat) (vs : List ℚ) => .ok vs) [1, 2] [[5], [6]] := .cons ⟨_, rfl⟩ (.cons ⟨_, rfl⟩ .nil)
  ⟨let ⟨t, ht, _⟩ := C100_partial _ 0 _ _ h; ⟨t, ht⟩, C100_short _ 0 _ _ _ h (by simp)⟩

/-- `C101_partial`: a fit that ran out of time, then one that did not; `C101_unfitted`: no fit at all. -/
example (s : FitState Nat Nat Nat) : frontPredict (frontFits ([lateFit] ++ [goodFit]) s) = .ok (some 1, 1, some 1) ∧
    frontPredict (frontFits [] (⟨none, none, none⟩ : FitState Nat Nat Nat)) = .error .attributeError :=
  ⟨C101_partial [lateFit] goodFit 1 (some 1) 1 ⟨rfl, rfl, rfl, rfl, .inr ⟨1, rfl, rfl⟩⟩ s nofun,
    C101_unfitted [] (by simp) none none⟩

/-- `C102_export`: a file that exists is kept, a new one is written. -/
example (b : Str → Str) : let fs : Files := fun f => if f = ['a'] then some ['o'] else none
    exportScript (some ['t']) (some b) (some ['a']) true fs = (.error .fileExists, fs) ∧
    (exportScript (some ['t']) (some b) (some ['c']) true fs).2 ['c'] = some (b ['t']) :=
  ⟨(C102_export (some ['t']) b (some ['a']) true _).2.1 ['a'] ['o'] nofun rfl rfl rfl,
    (((C102_export (some ['t']) b (some ['c']) true _).2.2 ['t'] rfl (by rintro _ _ ⟨⟩; rfl)).2.2 ['c'] rfl (by simp)).1⟩

end Gama
