import Verif.Model.Encoding
import Verif.Props.Data
import Mathlib.Tactic.Linarith
import Mathlib.Tactic.FieldSimp

/-! # C148: no informative column is lost by encoding -/

namespace Gama

/-! ### Variance -/

theorem sum_sq_shift (l : List ℚ) (a c : ℚ) :
    (l.map fun x => (x - c) ^ 2).sum = (l.map fun x => (x - a) ^ 2).sum
      - 2 * (c - a) * (l.map fun x => x - a).sum + l.length * (c - a) ^ 2 := by
  induction l with
  | nil => simp
  | cons x l ih =>
    simp only [List.map_cons, List.sum_cons, List.length_cons, ih]
    push_cast
    ring

theorem sum_shift (l : List ℚ) (a : ℚ) : (l.map fun x => x - a).sum = l.sum - l.length * a := by
  induction l with
  | nil => simp
  | cons x l ih =>
    simp only [List.map_cons, List.sum_cons, List.length_cons, ih]
    push_cast
    ring

/-- The variance from the differences to any number `a`. -/
theorem sampleVariance_eq (l : List ℚ) (a : ℚ) (h : 1 < l.length) :
    sampleVariance l = some ((l.length * (l.map fun x => (x - a) ^ 2).sum - (l.map fun x => x - a).sum ^ 2)
      / (l.length * (l.length - 1))) := by
  unfold sampleVariance
  rw [if_neg (by omega), sum_sq_shift l a, sum_shift]
  have h0 : (l.length : ℚ) ≠ 0 := by
    have : (0 : ℚ) < l.length := by exact_mod_cast (by omega : 0 < l.length)
    exact ne_of_gt this
  have h1 : (l.length : ℚ) - 1 ≠ 0 := by
    have : (1 : ℚ) < l.length := by exact_mod_cast h
    linarith
  congr 1
  field_simp
  ring

/-- The number of values different from `a`. -/
def differing (l : List ℚ) (a : ℚ) : Nat := (l.filter fun x => decide (x ≠ a)).length

theorem sum_sq_nonneg (l : List ℚ) (a : ℚ) : 0 ≤ (l.map fun x => (x - a) ^ 2).sum := by
  induction l with
  | nil => simp
  | cons x l ih =>
    simp only [List.map_cons, List.sum_cons]
    nlinarith [sq_nonneg (x - a)]

theorem sq_sum_le (l : List ℚ) (a : ℚ) :
    (l.map fun x => x - a).sum ^ 2 ≤ differing l a * (l.map fun x => (x - a) ^ 2).sum := by
  induction l with
  | nil => simp [differing]
  | cons x l ih =>
    simp only [List.map_cons, List.sum_cons]
    by_cases hx : x = a
    · have : differing (x :: l) a = differing l a := by simp [differing, hx]
      rw [this, hx, sub_self]
      simpa using ih
    · have : differing (x :: l) a = differing l a + 1 := by simp [differing, hx]
      rw [this]
      push_cast
      generalize hS : (l.map fun x => x - a).sum = S at ih ⊢
      generalize hT : (l.map fun x => (x - a) ^ 2).sum = T at ih ⊢
      have hT0 : 0 ≤ T := by
        rw [← hT]
        exact sum_sq_nonneg l a
      have hq : (0 : ℚ) ≤ differing l a := Nat.cast_nonneg _
      generalize (differing l a : ℚ) = q at ih hq ⊢
      generalize x - a = y
      rcases hq.eq_or_lt with hq | hq
      · rw [← hq] at ih ⊢
        have : S = 0 := by nlinarith [sq_nonneg S]
        rw [this]
        nlinarith
      · have key : 2 * S * y ≤ T + q * y ^ 2 := by
          have : q * (2 * S * y) ≤ q * (T + q * y ^ 2) := by nlinarith [sq_nonneg (S - q * y)]
          exact le_of_mul_le_mul_left this hq
        nlinarith

theorem differing_le_sum_sq (l : List ℚ) (a : ℚ) (h : ∀ x ∈ l, x ≠ a → 1 ≤ (x - a) ^ 2) :
    (differing l a : ℚ) ≤ (l.map fun x => (x - a) ^ 2).sum := by
  induction l with
  | nil => simp [differing]
  | cons x l ih =>
    have ih := ih fun y hy => h y (List.mem_cons_of_mem _ hy)
    simp only [List.map_cons, List.sum_cons]
    by_cases hx : x = a
    · have : differing (x :: l) a = differing l a := by simp [differing, hx]
      rw [this]
      nlinarith [sq_nonneg (x - a)]
    · have : differing (x :: l) a = differing l a + 1 := by simp [differing, hx]
      rw [this]
      push_cast
      linarith [h x List.mem_cons_self hx]

/-- A column of whole numbers that are not all equal has variance at least 1/n. -/
theorem variance_ge (l : List ℚ) (a b : ℚ) (ha : a ∈ l) (hb : b ∈ l) (hab : a ≠ b)
    (h : ∀ x ∈ l, x ≠ a → 1 ≤ (x - a) ^ 2) :
    1 < l.length ∧ ∃ q, sampleVariance l = some q ∧ 1 / (l.length : ℚ) ≤ q := by
  have hd1 : 1 ≤ differing l a := by
    unfold differing
    exact List.length_pos_of_mem (List.mem_filter.2 ⟨hb, by simpa using fun e : b = a => hab e.symm⟩)
  have hd2 : differing l a + 1 ≤ l.length := by
    unfold differing
    have := List.length_filter_lt_length_iff_exists (p := fun x => decide (x ≠ a)) (l := l)
    exact this.2 ⟨a, ha, by simp⟩
  have hl : 1 < l.length := by omega
  refine ⟨hl, _, sampleVariance_eq l a hl, ?_⟩
  have s1 := sq_sum_le l a
  have s2 := differing_le_sum_sq l a h
  have c1 : (1 : ℚ) ≤ differing l a := by exact_mod_cast hd1
  have c2 : (differing l a : ℚ) + 1 ≤ l.length := by exact_mod_cast hd2
  generalize (differing l a : ℚ) = q at s1 s2 c1 c2
  generalize (l.map fun x => (x - a) ^ 2).sum = T at s1 s2 ⊢
  generalize (l.map fun x => x - a).sum = S at s1 ⊢
  generalize (l.length : ℚ) = n at c2 ⊢
  have hn : 0 < n := by linarith
  have hn1 : 0 < n - 1 := by linarith
  rw [div_le_div_iff₀ hn (mul_pos hn hn1)]
  have : n - 1 ≤ n * T - S ^ 2 := by nlinarith
  nlinarith

/-! ### Codes -/

section
variable {V : Type} [DecidableEq V]

theorem position_inj {α : Type} [DecidableEq α] {x y : α} {l : List α} {i : Nat}
    (hx : position x l = some i) (hy : position y l = some i) : x = y := by
  have mem : ∀ {z : α} {j : Nat}, position z l = some j → z ∈ l := by
    intro z j h
    clear hx hy
    induction l generalizing j with
    | nil => cases h
    | cons u l ih =>
      unfold position at h
      by_cases e : z = u
      · rw [e]; exact List.mem_cons_self
      · rw [if_neg e] at h
        cases h' : position z l with
        | none => rw [h'] at h; cases h
        | some k => exact List.mem_cons_of_mem _ (ih h')
  obtain ⟨i1, e1, f1⟩ := position_iff (mem hx)
  obtain ⟨i2, e2, f2⟩ := position_iff (mem hy)
  rw [hx] at e1
  rw [hy] at e2
  cases e1
  cases e2
  rw [f1] at f2
  exact Option.some.inj f2

/-- The code of a value. -/
def codeOf (enum : List (Option V)) (v : Option V) : ℚ := (((position v enum).getD 0 + 1 : Nat) : ℚ)

theorem codeOf_inj {enum : List (Option V)} {u v : Option V} (hu : u ∈ enum) (hv : v ∈ enum)
    (h : codeOf enum u = codeOf enum v) : u = v := by
  obtain ⟨i, e1, _⟩ := position_iff hu
  obtain ⟨j, e2, _⟩ := position_iff hv
  unfold codeOf at h
  rw [e1, e2] at h
  have h : i + 1 = j + 1 := by exact_mod_cast h
  have : i = j := by omega
  rw [this] at e1
  exact position_inj e1 e2

theorem whole_apart (m n : Nat) (h : (m : ℚ) ≠ n) : 1 ≤ ((m : ℚ) - n) ^ 2 := by
  have : m ≠ n := fun e => h (by rw [e])
  have : (1 : ℤ) ≤ ((m : ℤ) - n) ^ 2 := by
    have : ((m : ℤ) - n) ≠ 0 := by omega
    have : 0 < ((m : ℤ) - n) ^ 2 := by positivity
    omega
  exact_mod_cast this

/-- The full claim: a categorical column with different values is, encoded, among the features. -/
def C148_claim : Prop :=
  ∀ (x : List (DataColumn Nat)) (enum : DataColumn Nat → List (Option Nat)) (classification : Bool),
    (x.map DataColumn.name).Nodup → (∀ c ∈ x, ∀ v ∈ c.values, v ∈ enum c) →
    ∀ c ∈ x, (∃ u ∈ c.values, ∃ v ∈ c.values, u ≠ v) → c ∈ keptColumns enum classification x

/-- A column whose values differ is taken for an invariant one only if there are 10000 rows. -/
theorem invariant_rows {enum : List (Option V)} {values : List (Option V)} (he : ∀ v ∈ values, v ∈ enum)
    (hd : ∃ u ∈ values, ∃ v ∈ values, u ≠ v) (h : isInvariant (ordinalCodes enum values) = true) :
    10000 ≤ values.length := by
  obtain ⟨u, hu, v, hv, hne⟩ := hd
  have hl : (ordinalCodes enum values).length = values.length := List.length_map _
  obtain ⟨h1, q, e, hq⟩ := variance_ge (ordinalCodes enum values) (codeOf enum u) (codeOf enum v)
    (List.mem_map.2 ⟨u, hu, rfl⟩) (List.mem_map.2 ⟨v, hv, rfl⟩)
    (fun e => hne (codeOf_inj (he u hu) (he v hv) e)) (by
      intro z hz hza
      obtain ⟨w, _, rfl⟩ := List.mem_map.1 hz
      exact whole_apart _ _ hza)
  unfold isInvariant at h
  rw [e] at h
  have h := of_decide_eq_true h
  rw [hl] at hq h1
  have : (1 : ℚ) / values.length ≤ 1 / 10000 := le_trans hq h
  have hn : (0 : ℚ) < values.length := by exact_mod_cast (by omega : 0 < values.length)
  rw [div_le_div_iff₀ hn (by norm_num)] at this
  have : (10000 : ℚ) ≤ values.length := by linarith
  exact_mod_cast this

/-- **C148, the part that holds**: columns whose values differ are kept if there are less than 10000 rows,
or if they are not encoded ordinally (the factors are from 3 to 10, or 11 and more for regression, or the
column is not categorical).  Missing: ordinally encoded columns of 10000 or more rows. -/
theorem C148_partial (x : List (DataColumn V)) (enum : DataColumn V → List (Option V)) (classification : Bool)
    (he : ∀ c ∈ x, ∀ v ∈ c.values, v ∈ enum c) (c : DataColumn V) (hc : c ∈ x)
    (hd : ∃ u ∈ c.values, ∃ v ∈ c.values, u ≠ v)
    (h : c.values.length < 10000 ∨ c.name ∉ ordinalColumns (x.map DataColumn.summary) classification) :
    c ∈ keptColumns enum classification x := by
  unfold keptColumns
  refine List.mem_filter.2 ⟨hc, ?_⟩
  rw [Bool.not_eq_true', Bool.and_eq_false_iff]
  rcases h with h | h
  · right
    by_contra hi
    rw [Bool.not_eq_false] at hi
    have := invariant_rows (he c hc) hd hi
    omega
  · left
    simpa using h

/-- **With a single row no column is dropped.** -/
theorem C148_single (x : List (DataColumn V)) (enum : DataColumn V → List (Option V)) (classification : Bool)
    (h : ∀ c ∈ x, c.values.length = 1) : keptColumns enum classification x = x := by
  unfold keptColumns
  refine List.filter_eq_self.2 fun c hc => ?_
  have hl : (ordinalCodes (enum c) c.values).length = 1 := (List.length_map _).trans (h c hc)
  rw [Bool.not_eq_true', Bool.and_eq_false_iff]
  right
  unfold isInvariant sampleVariance
  rw [hl]
  rfl

/-- **Constant columns are dropped**: a column encoded ordinally of which all values (two or more) are
equal. -/
theorem C148_constant (x : List (DataColumn V)) (enum : DataColumn V → List (Option V)) (classification : Bool)
    (c : DataColumn V) (v : Option V) (hv : ∀ u ∈ c.values, u = v) (h2 : 2 ≤ c.values.length)
    (h : c.name ∈ ordinalColumns (x.map DataColumn.summary) classification) :
    c ∉ keptColumns enum classification x := by
  have hl : (ordinalCodes (enum c) c.values).length = c.values.length := List.length_map _
  have hz : ∀ (f : ℚ → ℚ), f (codeOf (enum c) v) = 0 → ((ordinalCodes (enum c) c.values).map f).sum = 0 := by
    intro f hf
    unfold ordinalCodes
    rw [List.map_map]
    refine List.sum_eq_zero ?_
    intro z hz
    obtain ⟨u, hu, rfl⟩ := List.mem_map.1 hz
    rw [hv u hu]
    exact hf
  have hi : isInvariant (ordinalCodes (enum c) c.values) = true := by
    unfold isInvariant
    rw [sampleVariance_eq _ (codeOf (enum c) v) (by omega), hz _ (by simp), hz _ (by simp)]
    refine decide_eq_true ?_
    norm_num
  unfold keptColumns
  intro hm
  have := (List.mem_filter.1 hm).2
  rw [hi, Bool.and_true, Bool.not_eq_true', List.contains_eq_mem, decide_eq_false_iff_not] at this
  exact this h

/-- The codes of a column with two values. -/
theorem two_codes (u v : Option V) (hne : u ≠ v) (a b : Nat) :
    ordinalCodes [u, v] (List.replicate a u ++ List.replicate b v) =
      List.replicate a 1 ++ List.replicate b 2 := by
  unfold ordinalCodes
  rw [List.map_append, List.map_replicate, List.map_replicate]
  have e1 : position u [u, v] = some 0 := by simp [position]
  have e2 : position v [u, v] = some 1 := by simp [position, Ne.symm hne]
  rw [e1, e2]
  norm_num

theorem two_variance (a b : Nat) (ha : 0 < a) (hb : 0 < b) :
    isInvariant (List.replicate a 1 ++ List.replicate b 2) = true ↔
      10000 * (a * b) ≤ (a + b) * (a + b - 1) := by
  have hl : (List.replicate a (1 : ℚ) ++ List.replicate b 2).length = a + b := by simp
  unfold isInvariant
  rw [sampleVariance_eq _ 1 (by omega)]
  rw [decide_eq_true_iff, hl, List.map_append, List.map_append, List.sum_append, List.sum_append]
  simp only [List.map_replicate, List.sum_replicate, nsmul_eq_mul, sub_self, mul_zero, zero_add]
  norm_num
  have hn : (0 : ℚ) < a + b := by exact_mod_cast (by omega : 0 < a + b)
  have hn1 : (0 : ℚ) < (a : ℚ) + b - 1 := by
    have : (1 : ℚ) < a + b := by exact_mod_cast (by omega : 1 < a + b)
    linarith
  rw [div_le_div_iff₀ (mul_pos hn hn1) (by norm_num)]
  have hc : ((10000 * (a * b) : Nat) : ℚ) ≤ (((a + b) * (a + b - 1) : Nat) : ℚ) ↔
      10000 * (a * b) ≤ (a + b) * (a + b - 1) := Nat.cast_le
  rw [← hc]
  have e : ((a + b - 1 : Nat) : ℚ) = (a : ℚ) + b - 1 := by
    rw [Nat.cast_sub (by omega)]; push_cast; ring
  push_cast [e]
  constructor <;> intro h <;> nlinarith

/-- **A feature that one row in n has is lost from n = 10000 rows on**, and generally one with two values
of which the rarer is rare enough. -/
theorem C148_rare (x : List (DataColumn V)) (enum : DataColumn V → List (Option V)) (classification : Bool)
    (c : DataColumn V) (u v : Option V) (hne : u ≠ v) (a b : Nat) (ha : 0 < a) (hb : 0 < b) (hc : c ∈ x)
    (hd : (x.map DataColumn.name).Nodup) (hcat : c.categorical = true)
    (hv : c.values = List.replicate a u ++ List.replicate b v) (he : enum c = [u, v]) :
    c ∉ keptColumns enum classification x ↔ 10000 * (a * b) ≤ (a + b) * (a + b - 1) := by
  have hf : (DataColumn.summary c).factors ≤ 2 := by
    show (distinct (c.values.filterMap id)).length ≤ 2
    have hsub : distinct (c.values.filterMap id) ⊆ [u, v].filterMap id := by
      intro z hz
      rw [mem_distinct, hv, List.mem_filterMap] at hz
      obtain ⟨w, hw, e⟩ := hz
      rw [List.mem_filterMap]
      refine ⟨w, ?_, e⟩
      rcases List.mem_append.1 hw with h | h
      · rw [(List.mem_replicate.1 h).2]; simp
      · rw [(List.mem_replicate.1 h).2]; simp
    have := (List.subperm_of_subset (nodup_distinct (c.values.filterMap id)) hsub).length_le
    exact le_trans this (List.length_filterMap_le _ _)
  have hd' : ((x.map DataColumn.summary).map Column.name).Nodup := by
    rw [List.map_map]
    exact hd
  have ho : c.name ∈ ordinalColumns (x.map DataColumn.summary) classification :=
    (C54_which _ hd' classification (DataColumn.summary c) (List.mem_map.2 ⟨c, hc, rfl⟩)).1.2
      ⟨hcat, .inl hf⟩
  unfold keptColumns
  rw [List.mem_filter, he, hv, two_codes u v hne, ← two_variance a b ha hb]
  simp [hc, ho]

end

/-- **C148 is false of the code**: of 20000 rows one is different, which is
far enough from the limit for rounding not to matter. -/
theorem C148_false : ¬ C148_claim := by
  intro h
  let c : DataColumn Nat := ⟨['f'], true, List.replicate 19999 (some 0) ++ List.replicate 1 (some 1)⟩
  have hmem : ∀ w ∈ c.values, w ∈ [some 0, some 1] := by
    intro w hw
    rcases List.mem_append.1 hw with h | h
    · rw [(List.mem_replicate.1 h).2]; simp
    · rw [(List.mem_replicate.1 h).2]; simp
  have := h [c] (fun _ => [some 0, some 1]) true (by simp) (by
    intro d hd
    rw [List.mem_singleton.1 hd]
    exact hmem) c (by simp) ⟨some 0,
      List.mem_append_left _ (List.mem_replicate.2 ⟨by decide, rfl⟩), some 1,
      List.mem_append_right _ (List.mem_replicate.2 ⟨by decide, rfl⟩), by simp⟩
  exact (C148_rare [c] (fun _ => [some 0, some 1]) true c (some 0) (some 1) (by simp) 19999 1 (by decide)
    (by decide) (by simp) (by simp) rfl rfl rfl).2 (by decide) this

/-- Four rows of which one differs are kept. -/
example : (keptColumns (fun _ => [some 0, some 1]) true
    [⟨['f'], true, [some 0, some 0, some 1, some 0]⟩, ⟨['g'], true, [some 3, some 3, some 3, some 3]⟩]).map
      (DataColumn.name (V := Nat)) = [['f']] := by decide +kernel

/-! ### Cases of the theorems above -/

/-- C148: one row with a column of one value. -/
example : keptColumns (fun _ => [some 3]) true [(⟨['g'], true, [some 3]⟩ : DataColumn Nat)]
    = [⟨['g'], true, [some 3]⟩] :=
  C148_single _ _ _ (by decide)

/-- `C148_partial`: a column with one differing value among four rows stays. -/
example : (⟨['f'], true, [some 0, some 0, some 1, some 0]⟩ : DataColumn Nat) ∈ keptColumns (fun _ => [some 0, some 1])
    true [⟨['f'], true, [some 0, some 0, some 1, some 0]⟩] :=
  C148_partial _ _ true (by simp) _ (by simp) ⟨some 0, by simp, some 1, by simp, by simp⟩ (.inl (by decide))

/-- `C148_constant`: a constant column goes when it is encoded by numbers. -/
example : (⟨['g'], true, [some 3, some 3, some 3]⟩ : DataColumn Nat) ∉ keptColumns (fun _ => [some 3])
    true [⟨['g'], true, [some 3, some 3, some 3]⟩] :=
  C148_constant _ _ true _ (some 3) (by simp) (by decide) (by decide +kernel)

/-- `C148_rare`: one value in ten thousand rows goes, one in nine thousand nine hundred and ninety-nine stays. -/
example : (⟨['f'], true, List.replicate 1 (some 0) ++ List.replicate 9999 (some 1)⟩ : DataColumn Nat) ∉
      keptColumns (fun _ => [some 0, some 1]) true [⟨['f'], true, List.replicate 1 (some 0) ++ List.replicate 9999 (some 1)⟩] ∧
    ¬ (⟨['f'], true, List.replicate 1 (some 0) ++ List.replicate 9998 (some 1)⟩ : DataColumn Nat) ∉
      keptColumns (fun _ => [some 0, some 1]) true [⟨['f'], true, List.replicate 1 (some 0) ++ List.replicate 9998 (some 1)⟩] :=
  ⟨(C148_rare _ _ true _ (some 0) (some 1) (by simp) 1 9999 (by decide) (by decide) (List.mem_singleton.2 rfl)
      (List.nodup_singleton _) rfl rfl rfl).2 (by decide),
   fun h => absurd ((C148_rare _ _ true _ (some 0) (some 1) (by simp) 1 9998 (by decide) (by decide)
      (List.mem_singleton.2 rfl) (List.nodup_singleton _) rfl rfl rfl).1 h) (by decide)⟩

/-! ## C163: names of columns -/

/-- **C163** in full: the columns to encode can be determined for every data frame. -/
def C163_claim : Prop :=
  ∀ (df : List Column) (classification : Bool), ∃ r, encodingColumns df classification = .ok r

theorem selectNamed_ok {df : List Column} (minF maxF : Option Nat) : ∀ cs : List Column,
    (∀ c ∈ cs, hasCategoricalDtype df c = .ok c.categorical) →
    selectNamed df minF maxF cs = .ok (selectColumns cs minF maxF)
  | [], _ => rfl
  | c :: cs, h => by
    have ih := selectNamed_ok minF maxF cs fun d hd => h d (List.mem_cons_of_mem _ hd)
    unfold selectNamed
    rw [h c List.mem_cons_self, ih]
    simp only [selectColumns, List.filter_cons]
    show Except.ok _ = Except.ok _
    congr 1
    cases minF <;> cases maxF <;> dsimp only <;> split <;> rfl

theorem selectNamed_error {df : List Column} (minF maxF : Option Nat) : ∀ cs : List Column,
    (∃ c ∈ cs, 1 < (df.map Column.name).count c.name ∧ c.name ≠ "dtype".toList) →
    selectNamed df minF maxF cs = .error .attributeError
  | [], h => by obtain ⟨c, hc, _⟩ := h; cases hc
  | c :: cs, h => by
    unfold selectNamed
    unfold hasCategoricalDtype
    by_cases h1 : 1 < (df.map Column.name).count c.name ∧ c.name ≠ "dtype".toList
    · rw [if_pos h1.1, if_neg h1.2]
      rfl
    · have : ∃ d ∈ cs, 1 < (df.map Column.name).count d.name ∧ d.name ≠ "dtype".toList := by
        obtain ⟨d, hd, hd'⟩ := h
        rcases List.mem_cons.1 hd with rfl | hd
        · exact absurd hd' h1
        · exact ⟨d, hd, hd'⟩
      rw [selectNamed_error minF maxF cs this]
      by_cases h2 : 1 < (df.map Column.name).count c.name
      · have h3 : c.name = "dtype".toList := by
          by_contra h3
          exact h1 ⟨h2, h3⟩
        rw [if_pos h2, if_pos h3]
        rfl
      · rw [if_neg h2]
        rfl

/-- **C163**, for names that are all different: `basic_encoding` encodes the columns that C54 is about.
(Missing: names that repeat, see `C163_refused`.) -/
theorem C163_partial (df : List Column) (classification : Bool) (hd : (df.map Column.name).Nodup) :
    encodingColumns df classification = .ok (ordinalColumns df classification, oneHotColumns df) := by
  have h : ∀ c ∈ df, hasCategoricalDtype df c = .ok c.categorical := by
    intro c _
    unfold hasCategoricalDtype
    rw [if_neg (not_lt.2 (List.nodup_iff_count_le_one.1 hd _))]
  unfold encodingColumns
  rw [selectNamed_ok _ _ _ h, selectNamed_ok _ _ _ h, selectNamed_ok _ _ _ h]
  cases classification <;> rfl

/-- If a name occurs twice, categorical or not, fitting raises an `AttributeError`. -/
theorem C163_refused (df : List Column) (classification : Bool) (name : Str)
    (h2 : 2 ≤ (df.map Column.name).count name) (hn : name ≠ "dtype".toList) :
    encodingColumns df classification = .error .attributeError := by
  have hm : name ∈ df.map Column.name := List.count_pos_iff.1 (by omega)
  obtain ⟨c, hc, rfl⟩ := List.mem_map.1 hm
  unfold encodingColumns
  rw [selectNamed_error _ _ _ ⟨c, hc, h2, hn⟩]
  rfl

/-- **C163** is false of the code: two columns of numbers with the same name. -/
theorem C163_false : ¬ C163_claim := by
  intro h
  obtain ⟨r, hr⟩ := h [⟨['a'], false, 5⟩, ⟨['a'], false, 7⟩] true
  rw [C163_refused _ true ['a'] (by decide) (by decide)] at hr
  cases hr

/-- `C163_partial`: a column of each kind. -/
example : encodingColumns [⟨['a'], true, 2⟩, ⟨['b'], true, 7⟩, ⟨['c'], true, 20⟩, ⟨['d'], false, 2⟩] true =
    .ok ([['a'], ['c']], [['b']]) :=
  C163_partial _ _ (by decide)

/-- `C163_refused`: the repeated column may be the last and need not be categorical. -/
example : encodingColumns [⟨['a'], true, 2⟩, ⟨['b'], false, 7⟩, ⟨['b'], false, 9⟩] false = .error .attributeError :=
  C163_refused _ _ ['b'] (by decide) (by decide)

end Gama
