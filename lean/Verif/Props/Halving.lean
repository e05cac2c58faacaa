import Verif.Model.Halving
import Verif.Props.Asha
import Verif.Props.Evaluate

/-!
# Successive halving with resources given as numbers of rows
-/

namespace Gama
open Spec

/-! ## C156: what resources are accepted -/

/-- The value used for a hyperparameter: that of the user, or the default. -/
def Spec.Used (u : Option Resource) (d : Resource) : Resource := u.getD d

/-- Resources that make sense: positive, and the minimum not above the maximum. -/
def Spec.Sensible (r R : Resource) : Prop := 0 < Spec.amount r ∧ Spec.amount r ≤ Spec.amount R

/-- Both a number of rows, or both a fraction. -/
def Spec.SameKind : Resource → Resource → Prop
  | .rows _, .rows _ => True
  | .fraction _, .fraction _ => True
  | _, _ => False

theorem sameKind_iff (r R : Resource) : Spec.SameKind r R ↔ r.sameType R = true := by
  cases r <;> cases R <;> simp [Spec.SameKind, Resource.sameType]

/-- A maximum that is not above the number of rows, or is not set, is used. -/
theorem halvingStart_kept (rf rate : Option Nat) (r R : Option Resource) (n : Nat)
    (h : ∀ v, R = some v → Spec.amount v ≤ n) :
    halvingStart (halvingTable rf r R rate) n =
      ashaSetup (rf.getD 3) (rate.getD 0) (r.getD (.fraction (1 / 8))) (R.getD (.fraction 1)) := by
  cases R with
  | none => cases rf <;> cases r <;> cases rate <;> rfl
  | some v =>
    have hv : ¬ (n : ℚ) < v.val := not_lt.2 (amount_val v ▸ h v rfl)
    have : ashaDefaults (halvingExceeds n) (halvingTable rf r (some v) rate) = .ok (halvingTable rf r (some v) rate) := by
      have hg : dget (halvingTable rf r (some v) rate) maxResourceKey =
          some (some (.resource v), some (.resource (.fraction 1))) := by
        cases rf <;> cases r <;> cases rate <;> rfl
      unfold ashaDefaults
      rw [hg]
      simp [halvingExceeds, hv]
    unfold halvingStart
    rw [this]
    cases rf <;> cases r <;> cases rate <;> rfl

/-- A maximum above the number of rows is replaced by all rows, as a fraction. -/
theorem halvingStart_replaced (rf rate : Option Nat) (r : Option Resource) (v : Resource) (n : Nat)
    (h : (n : ℚ) < Spec.amount v) :
    halvingStart (halvingTable rf r (some v) rate) n =
      ashaSetup (rf.getD 3) (rate.getD 0) (r.getD (.fraction (1 / 8))) (.fraction 1) := by
  rw [amount_val] at h
  have : ashaDefaults (halvingExceeds n) (halvingTable rf r (some v) rate) = .ok (halvingTable rf r none rate) := by
    have hg : dget (halvingTable rf r (some v) rate) maxResourceKey =
        some (some (.resource v), some (.resource (.fraction 1))) := by
      cases rf <;> cases r <;> cases rate <;> rfl
    unfold ashaDefaults
    rw [hg]
    simp only [halvingExceeds, h, decide_true, if_true]
    cases rf <;> cases r <;> cases rate <;> rfl
  unfold halvingStart
  rw [this]
  cases rf <;> cases r <;> cases rate <;> rfl

/-- The claim in full: sensible resources can be used with any data. -/
def C156_claim : Prop :=
  ∀ (rf rate : Option Nat) (r R : Resource) (n : Nat), 2 ≤ rf.getD 3 → 0 < n →
    Spec.Sensible r R → Spec.SameKind r R →
    ∃ rungs, halvingStart (halvingTable rf (some r) (some R) rate) n = .ok rungs

/-- **C156** for a maximum that is not above the number of rows, or fractions: the search starts, with rungs
from the minimum times the factor to the power of the early stopping rate, up to the maximum. -/
theorem C156_partial (rf rate : Option Nat) (r R : Option Resource) (n : Nat) (hrf : 2 ≤ rf.getD 3)
    (hn : ∀ v, R = some v → Spec.amount v ≤ n)
    (hs : Spec.Sensible (Spec.Used r (.fraction (1 / 8))) (Spec.Used R (.fraction 1)))
    (hk : Spec.SameKind (Spec.Used r (.fraction (1 / 8))) (Spec.Used R (.fraction 1))) :
    ∃ (m : Nat) (res : List (Nat × ℚ)), halvingStart (halvingTable rf r R rate) n = .ok ((m : Int), res) ∧
      res.map Prod.fst = (List.range (m + 1)).filter (fun k => rate.getD 0 ≤ k) ∧
      (∀ k q, (k, q) ∈ res →
        (k < m → q = Spec.amount (Spec.Used r (.fraction (1 / 8))) * (rf.getD 3 : Nat) ^ k ∧
          q < Spec.amount (Spec.Used R (.fraction 1))) ∧ (k = m → q = Spec.amount (Spec.Used R (.fraction 1)))) := by
  rw [halvingStart_kept rf rate r R n hn]
  obtain ⟨m, res, h1, h2, h3, _⟩ := C40_resources (rf.getD 3) (rate.getD 0) hrf _ _ ((sameKind_iff _ _).1 hk) hs.1 hs.2
  exact ⟨m, res, h1, h2, fun k q hq => (h3 k q hq).2.2⟩

/-- **C156**: a number of rows for one resource and a fraction for the other are refused with any data; in
particular a number of rows as minimum or maximum if the other is left to its default. -/
theorem C156_kinds (rf rate : Option Nat) (r R : Option Resource) (n : Nat)
    (hn : ∀ v, R = some v → Spec.amount v ≤ n)
    (hk : ¬ Spec.SameKind (Spec.Used r (.fraction (1 / 8))) (Spec.Used R (.fraction 1))) :
    halvingStart (halvingTable rf r R rate) n = .error .valueError := by
  rw [halvingStart_kept rf rate r R n hn]
  rw [sameKind_iff] at hk
  exact C40_types _ _ _ _ (Bool.eq_false_iff.2 hk)

/-- **C156**: with a maximum above the number of rows, a minimum that is a number of rows is refused, and one
that is a fraction, or is not set, is used with all rows as maximum. -/
theorem C156_too_many (rf rate : Option Nat) (r : Option Resource) (v : Resource) (n : Nat) (hv : (n : ℚ) < Spec.amount v) :
    (∀ k, r = some (.rows k) → halvingStart (halvingTable rf r (some v) rate) n = .error .valueError) ∧
    (2 ≤ rf.getD 3 → (∀ k, r ≠ some (.rows k)) → 0 < Spec.amount (Spec.Used r (.fraction (1 / 8))) →
      Spec.amount (Spec.Used r (.fraction (1 / 8))) ≤ 1 →
      ∃ (m : Nat) (res : List (Nat × ℚ)), halvingStart (halvingTable rf r (some v) rate) n = .ok ((m : Int), res) ∧
        ∀ q, (m, q) ∈ res → q = 1) := by
  rw [halvingStart_replaced rf rate r v n hv]
  constructor
  · rintro k rfl
    exact C40_types _ _ _ _ rfl
  · intro hrf hne h0 h1
    have hk : (Spec.Used r (.fraction (1 / 8))).sameType (.fraction 1) = true := by
      cases r with
      | none => rfl
      | some r =>
        cases r with
        | rows k => exact absurd rfl (hne k)
        | fraction q => rfl
    obtain ⟨m, res, e, _, h3, _⟩ := C40_resources (rf.getD 3) (rate.getD 0) hrf _ (.fraction 1) hk h0 h1
    exact ⟨m, res, e, fun q hq => ((h3 m q hq).2.2.2 rfl)⟩

/-- From 10 rows to 1000 on data of 500 rows: the maximum is replaced by a fraction, and the two are refused. -/
theorem C156_false : ¬ C156_claim := by
  intro h
  obtain ⟨x, hx⟩ := h none none (.rows 10) (.rows 1000) 500 (by decide) (by decide)
    (by constructor <;> norm_num [Spec.amount]) trivial
  rw [(C156_too_many none none (some (.rows 10)) (.rows 1000) 500 (by norm_num [Spec.amount])).1 10 rfl] at hx
  cases hx

/-- `C156_partial`: from 10 rows to 400 on data of 500. -/
example : ∃ (m : Nat) (res : List (Nat × ℚ)),
    halvingStart (halvingTable none (some (.rows 10)) (some (.rows 400)) none) 500 = .ok ((m : Int), res) := by
  obtain ⟨m, res, h, _⟩ := C156_partial none none (some (.rows 10)) (some (.rows 400)) 500 (by decide)
    (by rintro v ⟨rfl⟩; norm_num [Spec.amount]) (by constructor <;> norm_num [Spec.amount, Spec.Used]) trivial
  exact ⟨m, res, h⟩

/-- `C156_kinds`: a maximum in rows, and the default minimum. -/
example : halvingStart (halvingTable none none (some (.rows 400)) none) 500 = .error .valueError :=
  C156_kinds none none none (some (.rows 400)) 500 (by rintro v ⟨rfl⟩; norm_num [Spec.amount]) id

/-! ## C157: a rung on which nothing can be evaluated -/

/-- An evaluation without result. -/
def Spec.Failed {E V : Type} (r : PipeResult E V) : Prop :=
  r.prediction = none ∧ r.estimators = none ∧ r.error ≠ none ∧ ∀ s ∈ r.scores, s = .ninf

/-- The claim in full: if pipelines can be evaluated on all rows and the sampler draws from any training set
larger than the sample, then they can be evaluated on every rung. -/
def C157_claim : Prop :=
  ∀ (E V M : Type) (env : EvalEnv E V M) (rf rate : Nat) (r R : Int) (m : Int) (res : List (Nat × ℚ)) (fs : List Fold),
    2 ≤ rf → 0 < r → r ≤ R → R ≤ env.index.length → env.split = .ok fs →
    (∀ f ∈ fs, ∀ i ∈ f.1, i ∈ env.index) → (∀ train, ∃ idx, env.sample train = .ok idx) →
    ashaSetup rf rate (.rows r) (.rows R) = .ok (m, res) →
    ∀ k q, (k, q) ∈ res → ∃ folds, prepareFolds env (rungSubsample (.rows R) q) = .ok folds

variable {E V M : Type}

theorem rung_rows {rf rate : Nat} {r R : Int} {m : Int} {res : List (Nat × ℚ)} (hrf : 2 ≤ rf) (hr : 0 < r)
    (hR : r ≤ R) (h : ashaSetup rf rate (.rows r) (.rows R) = .ok (m, res)) {k : Nat} {q : ℚ} (hq : (k, q) ∈ res) :
    ∃ j : Nat, q = j ∧ 0 < j ∧ (j : Int) ≤ R ∧ rungSubsample (.rows R) q = .rows j := by
  obtain ⟨m', res', h1, h2, h3, _⟩ := C40_resources rf rate hrf (.rows r) (.rows R) rfl
    (by simpa [Spec.amount] using hr) (by simpa [Spec.amount] using hR)
  rw [h] at h1
  obtain ⟨rfl, rfl⟩ := Prod.mk.inj (Except.ok.inj h1)
  obtain ⟨a1, a2, a3, a4⟩ := h3 k q hq
  have hk : k ≤ m' := by
    have : k ∈ res.map Prod.fst := List.mem_map.2 ⟨_, hq, rfl⟩
    rw [h2, List.mem_filter, List.mem_range] at this
    omega
  have hint : ∃ z : Int, q = z := by
    rcases Nat.lt_or_eq_of_le hk with hlt | rfl
    · exact ⟨r * (rf : Int) ^ k, by rw [(a3 hlt).1]; simp [Spec.amount]⟩
    · exact ⟨R, a4 rfl⟩
  obtain ⟨z, rfl⟩ := hint
  have hz : r ≤ z := by simpa [Spec.amount] using a2
  have hz' : z ≤ R := by simpa [Spec.amount] using a1
  obtain ⟨j, rfl⟩ := Int.eq_ofNat_of_zero_le (show 0 ≤ z by omega)
  refine ⟨j, by simp, by omega, hz', ?_⟩
  simp [rungSubsample]

/-- **C157** for every rung that gets fewer rows than each training set has, or as many as there are. -/
theorem C157_partial (env : EvalEnv E V M) (rf rate : Nat) (r R : Int) (m : Int) (res : List (Nat × ℚ))
    (fs : List Fold) (hrf : 2 ≤ rf) (hr : 0 < r) (hR : r ≤ R) (hs : env.split = .ok fs)
    (hi : ∀ f ∈ fs, ∀ i ∈ f.1, i ∈ env.index) (hd : ∀ train, ∃ idx, env.sample train = .ok idx)
    (h : ashaSetup rf rate (.rows r) (.rows R) = .ok (m, res)) (k : Nat) (q : ℚ) (hq : (k, q) ∈ res)
    (hf : (∀ f ∈ fs, q < f.1.length) ∨ (env.index.length : ℚ) ≤ q) :
    ∃ folds, prepareFolds env (rungSubsample (.rows R) q) = .ok folds := by
  obtain ⟨j, rfl, h0, _, e⟩ := rung_rows hrf hr hR h hq
  rw [e]
  rcases hf with hf | hf
  · exact C86_partial env j fs h0 (fun f hm => by exact_mod_cast hf f hm) hs hi hd
  · have hf' : env.index.length ≤ j := by exact_mod_cast hf
    unfold prepareFolds
    rw [hs]
    dsimp only
    rw [if_neg (by simp [requireSubsample, hf'])]
    exact ⟨fs, rfl⟩

theorem subsampleFolds_error {env : EvalEnv E V M} {s : Subsample} : ∀ (fs : List Fold) (f : Fold), f ∈ fs →
    (∃ r, subsampleFold env s f = .error r) → ∃ r, subsampleFolds env s fs = .error r := by
  intro fs
  induction fs with
  | nil => intro f hf; cases hf
  | cons g fs ih =>
    intro f hf he
    unfold subsampleFolds
    cases hg : subsampleFold env s g with
    | error r => exact ⟨r, rfl⟩
    | ok g' =>
      rcases List.mem_cons.1 hf with rfl | hf
      · obtain ⟨r, hr⟩ := he
        rw [hr] at hg
        cases hg
      · obtain ⟨r, hr⟩ := ih f hf he
        exact ⟨r, by dsimp only; rw [hr]⟩

/-- **C157** is false for any other rung: every evaluation on it fails, whatever the pipeline. -/
theorem C157_nothing (env : EvalEnv E V M) (rf rate : Nat) (r R : Int) (m : Int) (res : List (Nat × ℚ))
    (fs : List Fold) (hrf : 2 ≤ rf) (hr : 0 < r) (hR : r ≤ R) (hs : env.split = .ok fs)
    (h : ashaSetup rf rate (.rows r) (.rows R) = .ok (m, res)) (k : Nat) (q : ℚ) (hq : (k, q) ∈ res)
    (f : Fold) (hf : f ∈ fs) (h1 : (f.1.length : ℚ) ≤ q) (h2 : q < env.index.length)
    (timeout : ℚ) (metrics : List M) (out : PipeResult E V)
    (ho : evaluatePipeline env timeout (rungSubsample (.rows R) q) metrics = .ok out) : Spec.Failed out := by
  obtain ⟨j, rfl, h0, _, e⟩ := rung_rows hrf hr hR h hq
  rw [e] at ho
  have h1' : f.1.length ≤ j := by exact_mod_cast h1
  have h2' : j < env.index.length := by exact_mod_cast h2
  have hp : ∃ x, prepareFolds env (.rows j) = .error x := by
    unfold prepareFolds
    rw [hs]
    dsimp only
    rw [if_pos (by simp [requireSubsample, h2'])]
    refine subsampleFolds_error fs f hf ?_
    unfold subsampleFold
    cases labelLookup env.index f.1 with
    | error x => exact ⟨x, rfl⟩
    | ok _ =>
      dsimp only
      rw [if_neg (by simp [sampleSizeOk]; omega)]
      exact ⟨_, rfl⟩
  obtain ⟨x, hx⟩ := hp
  have hb : pipelineBody env (.rows j) metrics = ((none, metrics.map fun _ => Score.ninf, none), some x) := by
    unfold pipelineBody
    rw [hx]
  have hsc : ∀ s ∈ metrics.map (fun _ => Score.ninf), s = .ninf := by
    intro s hm
    obtain ⟨_, _, rfl⟩ := List.mem_map.1 hm
    rfl
  unfold evaluatePipeline at ho
  rw [hb] at ho
  split at ho
  · cases ho
  split at ho
  · cases ho
  cases x with
  | own => cases ho; exact ⟨rfl, rfl, nofun, hsc⟩
  | outer => cases ho
  | base e => cases ho
  | exn e => cases ho; exact ⟨rfl, rfl, nofun, hsc⟩

/-- Ten rows in five folds. -/
def Ex.fiveFolds : List Fold :=
  [([2, 3, 4, 5, 6, 7, 8, 9], [0, 1]), ([0, 1, 4, 5, 6, 7, 8, 9], [2, 3]), ([0, 1, 2, 3, 6, 7, 8, 9], [4, 5]),
   ([0, 1, 2, 3, 4, 5, 8, 9], [6, 7]), ([0, 1, 2, 3, 4, 5, 6, 7], [8, 9])]

def Ex.tenRows : EvalEnv Nat Nat Unit := sampleEnv Ex.fiveFolds (List.range 10) fun t => t.take 1

/-- The rungs from one row to ten: one, three, nine and ten rows. -/
theorem Ex.tenRungs : ashaSetup 3 0 (.rows 1) (.rows 10) = .ok (3, [(0, 1), (1, 3), (2, 9), (3, 10)]) := by
  decide +kernel

/-- From one row to ten with five folds: training sets have eight rows, and nine cannot be drawn. -/
theorem C157_false : ¬ C157_claim := by
  intro h
  obtain ⟨folds, hf⟩ := h Nat Nat Unit Ex.tenRows 3 0 1 10 3 _ Ex.fiveFolds (by decide) (by decide) (by decide)
    (by decide) rfl (by decide) (fun t => ⟨_, rfl⟩) Ex.tenRungs 2 9 (by simp)
  have : rungSubsample (.rows 10) 9 = .rows 9 := rfl
  rw [this] at hf
  cases hf

/-- `C157_partial`: three rows can be drawn, and ten need not be. -/
example : (∃ folds, prepareFolds Ex.tenRows (rungSubsample (.rows 10) 3) = .ok folds) ∧
    ∃ folds, prepareFolds Ex.tenRows (rungSubsample (.rows 10) 10) = .ok folds :=
  ⟨C157_partial Ex.tenRows 3 0 1 10 3 _ Ex.fiveFolds (by decide) (by decide) (by decide) rfl (by decide)
      (fun t => ⟨_, rfl⟩) Ex.tenRungs 1 3 (by simp) (.inl (by decide +kernel)),
    C157_partial Ex.tenRows 3 0 1 10 3 _ Ex.fiveFolds (by decide) (by decide) (by decide) rfl (by decide)
      (fun t => ⟨_, rfl⟩) Ex.tenRungs 3 10 (by simp) (.inr (by decide +kernel))⟩

/-- `C157_nothing`: an evaluation on nine rows. -/
example : ∃ out, evaluatePipeline Ex.tenRows 1 (rungSubsample (.rows 10) 9) [()] = .ok out ∧ Spec.Failed out :=
  ⟨⟨none, [.ninf], none, some (.exn .valueError)⟩, by decide +kernel,
    C157_nothing Ex.tenRows 3 0 1 10 3 _ Ex.fiveFolds (by decide) (by decide) (by decide) rfl Ex.tenRungs 2 9 (by simp)
      ([2, 3, 4, 5, 6, 7, 8, 9], [0, 1]) (by simp [Ex.fiveFolds]) (by norm_num) (by decide +kernel) 1 [()] _
      (by decide +kernel)⟩

end Gama
