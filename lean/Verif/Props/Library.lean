import Verif.Lemmas.Library3

/-! # Properties of the evaluation library (C22 - C27) -/

namespace Gama
open PyM Spec

section
variable {E P K : Type} [LinearOrder K]

/-- The error-free evaluations of a history. -/
def errorFree (hist : List (EvalRec E P K)) : List (Ref E P K) :=
  (numbered hist).filter fun r => r.given.error.isNone

theorem perm_top_filter {c : LibConfig} {hist : List (EvalRec E P K)} {lost : List (Ref E P K)}
    {s : Lib E P K} (h : Holds c hist lost s) :
    (s.top ++ (s.other ++ lost).filter fun r => r.given.error.isNone).Perm (errorFree hist) := by
  have := h.perm.filter (fun r => r.given.error.isNone)
  rw [List.filter_append] at this
  have e : s.top.filter (fun r => r.given.error.isNone) = s.top := by
    rw [List.filter_eq_self]
    intro r hr
    simp [h.noerr r hr]
  rw [e] at this
  exact this

/-! ## C22 -/

theorem Holds.best_of {c : LibConfig} {hist : List (EvalRec E P K)} {lost : List (Ref E P K)} {s : Lib E P K}
    (h : Holds c hist lost s) :
    (∀ t ∈ s.top, t ∈ numbered hist ∧ t.given.error = none) ∧
    (∀ m, c.m = some m → BestOf (fun t : Ref E P K => t.given.score) m (errorFree hist) s.top) ∧
    (c.m = none → s.top.Perm (errorFree hist)) := by
  have hp := perm_top_filter h
  refine ⟨?_, ?_, ?_⟩
  · intro t ht
    exact ⟨h.perm.mem_iff.1 (List.mem_append_left _ ht), h.noerr t ht⟩
  · intro m hm
    refine ⟨_, hp, ?_, ?_⟩
    · have hl := hp.length_eq
      rw [List.length_append] at hl
      have hroom := h.room m hm
      cases hf : (s.other ++ lost).filter fun r => r.given.error.isNone with
      | nil =>
        rw [hf] at hl
        simp at hl
        omega
      | cons x xs =>
        have hx : x ∈ (s.other ++ lost).filter fun r => r.given.error.isNone := by rw [hf]; simp
        rw [List.mem_filter] at hx
        have := (h.best x hx.1 (by simpa using hx.2)).1
        rw [hm] at this
        injection this with this
        omega
    · intro t ht y hy
      rw [List.mem_filter] at hy
      exact (h.best y hy.1 (by simpa using hy.2)).2 t ht
  · intro hm
    have hnil : (s.other ++ lost).filter (fun r => r.given.error.isNone) = [] := by
      rw [List.filter_eq_nil_iff]
      intro y hy hye
      have := (h.best y hy (by simpa using hye)).1
      rw [hm] at this
      cases this
    rw [hnil, List.append_nil] at hp
    exact hp

/-- Whatever is saved, the evaluations kept with their models are the `m` best error-free ones
(all error-free ones without a limit). -/
theorem C22_keeps_best (c : LibConfig) (sample : Option (List Nat)) (rnd : Stream) (size : Nat)
    (hist : List (EvalRec E P K)) (hsize : SameSize size hist)
    (hsample : ∀ l, sample = some l → ∀ i ∈ l, i < size) :
    let s := saveAll c hist (libInit c sample rnd)
    (∀ t ∈ s.top, t ∈ numbered hist ∧ t.given.error = none) ∧
    (∀ m, c.m = some m → BestOf (fun t : Ref E P K => t.given.score) m (errorFree hist) s.top) ∧
    (c.m = none → s.top.Perm (errorFree hist)) := by
  intro s
  obtain ⟨lost, h⟩ := Holds.saveAll (size := size) hist [] [] (libInit c sample rnd)
    (holds_init c sample rnd) (cached_init (E := E) (P := P) (K := K) c sample rnd hsample).range hsize
  rw [List.nil_append] at h
  exact Holds.best_of h

/-! ## C23 -/

/-- Nothing is lost or duplicated, provided no individual is saved twice.  Missing for the full
property: individuals saved more than once, see `C23_false`. -/
theorem C23_no_loss_partial (c : LibConfig) (sample : Option (List Nat)) (rnd : Stream) (size : Nat)
    (hist : List (EvalRec E P K)) (hsize : SameSize size hist) (hids : DistinctIds hist)
    (hsample : ∀ l, sample = some l → ∀ i ∈ l, i < size) :
    let s := saveAll c hist (libInit c sample rnd)
    (s.top ++ s.other).Perm (numbered hist) := by
  intro s
  obtain ⟨h, _⟩ := Cached.saveAll (size := size) hist [] (libInit c sample rnd)
    (holds_init c sample rnd) (cached_init c sample rnd hsample) hsize (by simpa using hids)
  have := h.perm
  simpa using this

/-! ## C24 -/

/-- For every kept evaluation its models and its (sampled) predictions can be read back, the
cache directory holds exactly the files of the kept evaluations, and discarded evaluations hold
neither models nor predictions.  Missing: individuals saved more than once, see `C24_false`. -/
theorem C24_cache_partial (c : LibConfig) (sample : Option (List Nat)) (rnd : Stream) (size : Nat)
    (hist : List (EvalRec E P K)) (hsize : SameSize size hist) (hids : DistinctIds hist)
    (hsample : ∀ l, sample = some l → ∀ i ∈ l, i < size) :
    let s := saveAll c hist (libInit c sample rnd)
    (∀ t ∈ s.top, readEstimators s t = .ok t.given.estimators ∧
      ∃ v, readPredictions s t = .ok v ∧ (c.n = some 0 → v = none) ∧
        (c.n ≠ some 0 → Stored s.sample.toRows t.given.predictions v)) ∧
    (∀ f, s.disk f ≠ none ↔ ∃ t ∈ s.top, t.given.ident = f) ∧
    (∀ o ∈ s.other, readEstimators s o = .ok [] ∧ readPredictions s o = .ok none) := by
  intro s
  obtain ⟨_, h, _⟩ := Cached.saveAll (size := size) hist [] (libInit c sample rnd)
    (holds_init c sample rnd) (cached_init c sample rnd hsample) hsize (by simpa using hids)
  refine ⟨?_, ?_, ?_⟩
  · intro t ht
    obtain ⟨h1, v, h2, h3⟩ := h.kept t ht
    refine ⟨?_, v, ?_, h3⟩
    · simp [readEstimators, s, h1, h2]
    · simp [readPredictions, s, h1, h2]
  · intro f
    constructor
    · exact h.only f
    · rintro ⟨t, ht, rfl⟩
      obtain ⟨_, v, h2, _⟩ := h.kept t ht
      show (saveAll c hist (libInit c sample rnd)).disk _ ≠ none
      rw [h2]
      simp
  · intro o ho
    have := h.others o ho
    simp [readEstimators, readPredictions, s, this]

/-! ## C25 -/

theorem nlargest_spec {α : Type} (key : α → K) (n : Nat) (xs : List α) :
    (nlargest key n xs).Pairwise (fun a b => key b ≤ key a) ∧ BestOf key n xs (nlargest key n xs) := by
  unfold nlargest
  have hp := pySorted_perm (fun a b => decide (key b ≤ key a)) xs
  have hs := pySorted_sorted (le := fun a b => decide (key b ≤ key a))
    (fun a b c => by simpa using fun h1 h2 => le_trans h2 h1)
    (fun a b => by simpa using le_total (key b) (key a)) xs
  have hs' : (pySorted (fun a b => decide (key b ≤ key a)) xs).Pairwise (fun a b => key b ≤ key a) :=
    hs.imp (by simp)
  refine ⟨hs'.take, _, by rw [List.take_append_drop]; exact hp, ?_, ?_⟩
  · rw [List.length_take, hp.length_eq]
  · intro x hx y hy
    have e := List.take_append_drop n (pySorted (fun a b => decide (key b ≤ key a)) xs)
    rw [← e] at hs'
    exact (List.pairwise_append.1 hs').2.2 x hx y hy

theorem BestOf.trans {α : Type} {key : α → K} {n m : Nat} {all best best' : List α} (h : n ≤ m)
    (h1 : BestOf key m all best) (h2 : BestOf key n best best') : BestOf key n all best' := by
  obtain ⟨o1, p1, l1, b1⟩ := h1
  obtain ⟨o2, p2, l2, b2⟩ := h2
  refine ⟨o2 ++ o1, ?_, by omega, ?_⟩
  · rw [← List.append_assoc]
    exact (p2.append_right o1).trans p1
  · intro x hx y hy
    rcases List.mem_append.1 hy with hy | hy
    · exact b2 x hx y hy
    · exact b1 x (p2.mem_iff.1 (List.mem_append_left _ hx)) y hy

/-- `n_best` lists from best to worst; without a limit, and for `n` up to the limit, these are the
`n` best of all error-free evaluations saved. -/
theorem C25_n_best (c : LibConfig) (sample : Option (List Nat)) (rnd : Stream) (size : Nat)
    (hist : List (EvalRec E P K)) (hsize : SameSize size hist)
    (hsample : ∀ l, sample = some l → ∀ i ∈ l, i < size) (n : Nat) (withPipelines : Bool) :
    let s := saveAll c hist (libInit c sample rnd)
    let b := nBest c n withPipelines s
    b.Pairwise (fun a b => b.given.score ≤ a.given.score) ∧
    ((∀ m, c.m = some m → n ≤ m) →
      BestOf (fun t : Ref E P K => t.given.score) n (errorFree hist) b) := by
  intro s b
  obtain ⟨hmem, hbest, hall⟩ := C22_keeps_best c sample rnd size hist hsize hsample
  have hn := nlargest_spec (fun t : Ref E P K => t.given.score) n s.top
  by_cases hb : (withinLimit c.m n || withPipelines) = true
  · have e : b = nlargest (fun t : Ref E P K => t.given.score) n s.top := by
      show nBest c n withPipelines s = _
      unfold nBest
      rw [if_pos hb]
    rw [e]
    refine ⟨hn.1, ?_⟩
    intro hnm
    cases hm : c.m with
    | none =>
      obtain ⟨o, p, l, bb⟩ := hn.2
      exact ⟨o, p.trans (hall hm), by rw [l, (hall hm).length_eq], bb⟩
    | some m => exact BestOf.trans (hnm m hm) (hbest m hm) hn.2
  · have e : b = ((pySorted (fun a b => decide (a.given.score ≤ b.given.score))
        (s.top ++ s.other)).reverse).take n := by
      show nBest c n withPipelines s = _
      unfold nBest
      rw [if_neg hb]
    rw [e]
    refine ⟨?_, ?_⟩
    · refine List.Pairwise.take ?_
      rw [List.pairwise_reverse]
      have := pySorted_sorted (le := fun a b : Ref E P K => decide (a.given.score ≤ b.given.score))
        (fun a b c => by simpa using fun h1 h2 => le_trans h1 h2)
        (fun a b => by simpa using le_total a.given.score b.given.score) (s.top ++ s.other)
      exact this.imp (by simp)
    · intro hnm
      exfalso
      cases hm : c.m with
      | none => simp [withinLimit, hm] at hb
      | some m => simp [withinLimit, hm, hnm m hm] at hb

/-! ## C26 -/

/-- The last evaluation with a pipeline. -/
theorem numbered_last {k : Str} (hist : List (EvalRec E P K)) : (∃ g ∈ hist, g.pipeline = k) →
    ∃ r ∈ numbered hist, r.given.pipeline = k ∧
      ∀ r' ∈ numbered hist, r'.given.pipeline = k → r'.idx ≤ r.idx := by
  induction hist using List.reverseRecOn with
  | nil => rintro ⟨g, hg, _⟩; simp at hg
  | append_singleton l x ih =>
    intro hex
    rw [numbered_append]
    by_cases hx : x.pipeline = k
    · refine ⟨⟨l.length, x⟩, by simp, hx, ?_⟩
      intro r' hr' _
      rcases List.mem_append.1 hr' with hr' | hr'
      · exact le_of_lt (numbered_lt hr')
      · simp only [List.mem_singleton] at hr'; rw [hr']
    · obtain ⟨g, hg, hgk⟩ := hex
      have hgl : g ∈ l := by
        rcases List.mem_append.1 hg with hg | hg
        · exact hg
        · simp only [List.mem_singleton] at hg; exact absurd (hg ▸ hgk) hx
      obtain ⟨r, h1, h2, h3⟩ := ih ⟨g, hgl, hgk⟩
      refine ⟨r, List.mem_append_left _ h1, h2, ?_⟩
      intro r' hr' hk'
      rcases List.mem_append.1 hr' with hr' | hr'
      · exact h3 r' hr' hk'
      · simp only [List.mem_singleton] at hr'; rw [hr'] at hk'; exact absurd hk' hx

/-- A pipeline is reported as evaluated exactly if an evaluation with that pipeline string was
saved, and the lookup returns the latest one.  Missing: individuals saved more than once, see
`C26_false`. -/
theorem C26_lookup_partial (c : LibConfig) (sample : Option (List Nat)) (rnd : Stream) (size : Nat)
    (hist : List (EvalRec E P K)) (hsize : SameSize size hist) (hids : DistinctIds hist)
    (hsample : ∀ l, sample = some l → ∀ i ∈ l, i < size) :
    let s := saveAll c hist (libInit c sample rnd)
    (∀ k, s.lookup k ≠ none ↔ ∃ g ∈ hist, g.pipeline = k) ∧
    (∀ k r, s.lookup k = some r → hist[r.idx]? = some r.given ∧ r.given.pipeline = k ∧
      ∀ j g, hist[j]? = some g → g.pipeline = k → j ≤ r.idx) := by
  intro s
  obtain ⟨_, h, _⟩ := Cached.saveAll (size := size) hist [] (libInit c sample rnd)
    (holds_init c sample rnd) (cached_init c sample rnd hsample) hsize (by simpa using hids)
  have hl := h.latest
  rw [List.nil_append] at hl
  have part2 : ∀ k r, s.lookup k = some r → hist[r.idx]? = some r.given ∧ r.given.pipeline = k ∧
      ∀ j g, hist[j]? = some g → g.pipeline = k → j ≤ r.idx := by
    intro k r hr
    obtain ⟨h1, h2, h3⟩ := (hl k r).1 hr
    exact ⟨mem_numbered.1 h1, h2, fun j g hj hg => h3 ⟨j, g⟩ (mem_numbered.2 hj) hg⟩
  refine ⟨?_, part2⟩
  intro k
  constructor
  · intro hne
    obtain ⟨r, hr⟩ := Option.ne_none_iff_exists'.1 hne
    obtain ⟨h1, h2, _⟩ := part2 k r hr
    exact ⟨r.given, List.mem_of_getElem? h1, h2⟩
  · rintro ⟨g, hg, hk⟩
    obtain ⟨r, h1, h2, h3⟩ := numbered_last hist ⟨g, hg, hk⟩
    show (saveAll c hist (libInit c sample rnd)).lookup k ≠ none
    rw [(hl k r).2 ⟨h1, h2, h3⟩]
    simp

/-! ## C27 -/

/-- Within one search, all stored predictions are of the same rows: `n` distinct ones, or all
rows if there are at most `n`.  Missing: rows chosen anew by a second `fit`, see `C27_false`, and
individuals saved twice. -/
theorem C27_same_rows_partial (c : LibConfig) (rnd : Stream) (size n : Nat) (hn : c.n = some n)
    (hn0 : n ≠ 0) (hist : List (EvalRec E P K)) (hsize : SameSize size hist)
    (hids : DistinctIds hist) :
    let s := saveAll c hist (libInit c none rnd)
    ∃ rows : List Nat, rows.Nodup ∧ (∀ i ∈ rows, i < size) ∧ rows.length = min n size ∧
      (size ≤ n → rows = List.range size) ∧
      ∀ t ∈ s.top, ∀ l, t.given.predictions = some l →
        ∃ l', readPredictions s t = .ok (some l') ∧ RowsOf rows l l' := by
  intro s
  have hinit : (libInit c none rnd : Lib E P K).sample = .notSet := by simp [libInit, hn]
  obtain ⟨hh, h, hs⟩ := Cached.saveAll (size := size) hist [] (libInit c none rnd)
    (holds_init c none rnd) (cached_init c none rnd (fun l h => by cases h)) hsize (by simpa using hids)
  rw [List.nil_append] at hh h
  have hmem : ∀ t ∈ s.top, t.given ∈ hist := fun t ht =>
    numbered_given_mem (hh.perm.mem_iff.1 (List.mem_append_left _ ht))
  have hread := (C24_cache_partial c none rnd size hist hsize hids (fun l h => by cases h)).1
  have key : ∀ rows, s.sample.toRows = some rows ∨
      s.sample.toRows = none ∧ rows = List.range size →
      ∀ t ∈ s.top, ∀ l, t.given.predictions = some l →
        ∃ l', readPredictions s t = .ok (some l') ∧ RowsOf rows l l' := by
    intro rows hrows t ht l hl
    obtain ⟨_, v, hv, _, hst⟩ := hread t ht
    have hst := hst (by rw [hn]; simp [hn0])
    rw [hl] at hst
    obtain ⟨l', rfl, hrow⟩ := hst
    refine ⟨l', hv, ?_⟩
    rcases hrows with e | ⟨e, rfl⟩
    · have e' : (saveAll c hist (libInit c none rnd)).sample.toRows = some rows := e
      rw [e'] at hrow
      exact hrow
    · have e' : (saveAll c hist (libInit c none rnd)).sample.toRows = none := e
      rw [e'] at hrow
      subst hrow
      have hlen := hsize _ (hmem t ht) _ hl
      unfold RowsOf
      subst hlen
      apply List.ext_getElem?
      intro i
      rw [List.getElem?_map, List.getElem?_map]
      by_cases hi : i < l'.length
      · rw [List.getElem?_eq_getElem hi, List.getElem?_eq_getElem (by simpa using hi)]
        simp [List.getElem?_eq_getElem hi]
      · rw [List.getElem?_eq_none (by omega), List.getElem?_eq_none (by simp; omega)]
        rfl
  have hcase : s.sample = .notSet ∨ ChosenRows c.n size s.sample := by
    rcases hs with e | ⟨_, e⟩
    · exact .inl (e.trans hinit)
    · exact .inr e
  rcases hcase with e | e
  · -- no predictions at all
    have hnone := h.unset e (by rw [hn]; simp [hn0])
    refine ⟨List.range (min n size), List.nodup_range, ?_, by simp, ?_, ?_⟩
    · intro i hi; simp at hi; omega
    · intro h'; rw [Nat.min_eq_right h']
    · intro t ht l hl
      rw [hnone _ (hmem t ht)] at hl
      cases hl
  · cases hsm : s.sample with
    | notSet => rw [hsm] at e; exact absurd e id
    | all =>
      rw [hsm] at e
      have hle := e n hn
      refine ⟨List.range size, List.nodup_range, ?_, by simp; omega, fun _ => rfl, ?_⟩
      · intro i hi; simpa using hi
      · exact key _ (.inr ⟨by rw [hsm]; rfl, rfl⟩)
    | rows idx =>
      rw [hsm] at e
      obtain ⟨h1, h2, k, h3, h4, h5⟩ := e
      rw [hn] at h3
      injection h3 with h3
      subst h3
      refine ⟨idx, h1, h2, by omega, fun h' => by omega, ?_⟩
      exact key _ (.inl (by rw [hsm]; rfl))

end

/-! ## Concrete histories -/

namespace Ex

/-- An evaluation of individual `i` with a score, and two predictions. -/
def ev (i : Nat) (score : Nat) (p q : Nat) : EvalRec Nat Nat Nat :=
  ⟨i, ['p', Char.ofNat (48 + i)], score, none, [i], some [p, q]⟩

def failed (i : Nat) : EvalRec Nat Nat Nat := ⟨i, ['p', Char.ofNat (48 + i)], 0, some ['e'], [i], none⟩

def lib2 : LibConfig := ⟨some 2, some 1⟩

/-- Four evaluations of different individuals, one failed; room for two. -/
def hist4 : List (EvalRec Nat Nat Nat) := [ev 1 5 10 11, failed 2, ev 3 7 30 31, ev 4 6 40 41]

def s4 : Lib Nat Nat Nat := saveAll lib2 hist4 (libInit lib2 none fun _ => 1)

/-- The hypotheses of the theorems hold of it, the two best are kept, and row 1 is sampled. -/
example : SameSize 2 hist4 ∧ DistinctIds hist4 ∧ s4.top.map (fun r => r.given.ident) = [4, 3] ∧
    s4.other.map (fun r => r.given.ident) = [2, 1] ∧
    s4.top.map (readPredictions s4) = [.ok (some [41]), .ok (some [31])] ∧
    (nBest lib2 2 true s4).map (fun r => r.given.ident) = [3, 4] ∧
    ((s4.lookup ['p', '3']).map fun r => r.idx) = some 2 ∧ s4.disk 1 = none := by
  refine ⟨?_, by unfold DistinctIds; decide +kernel, by decide +kernel, by decide +kernel, ?_,
    by decide +kernel, by decide +kernel, by decide +kernel⟩
  · intro r hr ps hps
    simp only [hist4, List.mem_cons, List.not_mem_nil, or_false] at hr
    rcases hr with rfl | rfl | rfl | rfl <;> simp [ev, failed] at hps <;> subst hps <;> rfl
  · rfl

/-- The same individual is evaluated twice (with different results, as ASHA does on different
amounts of data), then pushed out by two better ones. -/
def twice : List (EvalRec Nat Nat Nat) := [ev 1 5 10 11, ev 1 6 20 21]

def pushedOut : List (EvalRec Nat Nat Nat) := twice ++ [ev 3 7 30 31, ev 4 8 40 41]

theorem twice_size : SameSize 2 pushedOut := by
  intro r hr ps hps
  simp only [pushedOut, twice, List.cons_append, List.nil_append, List.mem_cons,
    List.not_mem_nil, or_false] at hr
  rcases hr with rfl | rfl | rfl | rfl <;> simp [ev] at hps <;> subst hps <;> rfl

end Ex

open Ex

/-- C23 in full: nothing is lost, also if an individual is saved more than once. -/
def C23_claim : Prop := ∀ (c : LibConfig) (rnd : Stream) (size : Nat)
    (hist : List (EvalRec Nat Nat Nat)), SameSize size hist →
    let s := saveAll c hist (libInit c none rnd)
    ((s.top ++ s.other).map fun r => r.idx).Perm (List.range hist.length)

/-- The second eviction finds no file; the evaluation is then in neither list. -/
theorem C23_false : ¬ C23_claim := by
  intro h
  have := (h lib2 (fun _ => 1) 2 pushedOut twice_size).length_eq
  revert this
  decide +kernel

/-- C24 in full: the stored predictions of every kept evaluation can be read back. -/
def C24_claim : Prop := ∀ (c : LibConfig) (rnd : Stream) (size : Nat)
    (hist : List (EvalRec Nat Nat Nat)), SameSize size hist →
    let s := saveAll c hist (libInit c none rnd)
    ∀ t ∈ s.top, ∃ v, readPredictions s t = .ok v ∧
      (c.n ≠ some 0 → Stored s.sample.toRows t.given.predictions v)

/-- Both evaluations of an individual share a file: the first one reads the predictions of the
second. -/
theorem C24_false : ¬ C24_claim := by
  intro h
  have hm : (⟨0, ev 1 5 10 11⟩ : Ref Nat Nat Nat) ∈
      (saveAll lib2 twice (libInit lib2 none fun _ => 1)).top := by
    have e : (saveAll lib2 twice (libInit lib2 none fun _ => 1)).top
        = [⟨0, ev 1 5 10 11⟩, ⟨1, ev 1 6 20 21⟩] := rfl
    rw [e]; simp
  obtain ⟨v, hv, hs⟩ := h lib2 (fun _ => 1) 2 twice (fun r hr => twice_size r (List.mem_append_left _ hr)) _ hm
  have e1 : readPredictions (saveAll lib2 twice (libInit lib2 none fun _ => 1)) ⟨0, ev 1 5 10 11⟩
      = .ok (some [21]) := rfl
  have e2 : (saveAll lib2 twice (libInit lib2 none fun _ => 1)).sample.toRows = some [1] := rfl
  rw [e1] at hv
  injection hv with hv
  subst hv
  obtain ⟨l', h1, h2⟩ := hs (by decide)
  rw [e2] at h2
  injection h1 with h1
  subst h1
  revert h2
  show ¬ RowsOf [1] [10, 11] [21]
  unfold RowsOf
  decide

/-- C26 in full: every pipeline that was saved is reported as evaluated. -/
def C26_claim : Prop := ∀ (c : LibConfig) (rnd : Stream) (size : Nat)
    (hist : List (EvalRec Nat Nat Nat)), SameSize size hist →
    let s := saveAll c hist (libInit c none rnd)
    ∀ g ∈ hist, s.lookup g.pipeline ≠ none

theorem C26_false : ¬ C26_claim := by
  intro h
  have := h lib2 (fun _ => 1) 2 pushedOut twice_size (ev 4 8 40 41) (by simp [pushedOut])
  apply this
  decide +kernel

/-- What can happen to a library between its creation and its use: evaluations are saved, and
every `fit` of a classifier chooses rows (GamaClassifier.py l.133). -/
inductive LibEvent (E P K : Type)
  | save (g : EvalRec E P K)
  | fit (rows : Nat)

/-- Exceptions of `save` are swallowed, those of `fit` are not and end the run. -/
def runEvents {E P K : Type} [LinearOrder K] (c : LibConfig) : List (LibEvent E P K) → Lib E P K → Lib E P K
  | [], s => s
  | .save g :: es, s => runEvents c es (saveEvaluation c g s).2
  | .fit k :: es, s =>
    match determineSample c none none (some k) s with
    | (.ok _, s') => runEvents c es s'
    | (.error _, s') => s'

/-- C27 in full: also if `fit` is called again on data of the same size, all stored predictions
are of the same rows. -/
def C27_claim : Prop := ∀ (c : LibConfig) (rnd : Stream) (size : Nat) (es : List (LibEvent Nat Nat Nat)),
    (∀ k, .fit k ∈ es → k = size) →
    (∀ g, .save g ∈ es → ∃ ps, g.predictions = some ps ∧ ps.length = size) →
    let s := runEvents c es (libInit c none rnd)
    ∃ rows, ∀ t ∈ s.top, ∀ l, t.given.predictions = some l →
      ∃ l', readPredictions s t = .ok (some l') ∧ RowsOf rows l l'

/-- Each `fit` draws new rows, and the evaluations of the previous one stay. -/
theorem C27_false : ¬ C27_claim := by
  intro h
  obtain ⟨rows, hr⟩ := h lib2 (fun i => if i = 1 then 0 else 1) 2
    [.fit 2, .save (ev 1 5 10 11), .fit 2, .save (ev 2 6 20 21)]
    (by intro k hk; simp at hk; exact hk)
    (by
      intro g hg
      simp at hg
      rcases hg with rfl | rfl <;> exact ⟨_, rfl, rfl⟩)
  have e : (runEvents lib2 [.fit 2, .save (ev 1 5 10 11), .fit 2, .save (ev 2 6 20 21)]
      (libInit lib2 none (fun i => if i = 1 then 0 else 1))).top
      = [⟨0, ev 1 5 10 11⟩, ⟨1, ev 2 6 20 21⟩] := rfl
  obtain ⟨l1, a1, b1⟩ := hr ⟨0, ev 1 5 10 11⟩ (by rw [e]; simp) [10, 11] rfl
  obtain ⟨l2, a2, b2⟩ := hr ⟨1, ev 2 6 20 21⟩ (by rw [e]; simp) [20, 21] rfl
  have e1 : readPredictions (runEvents lib2 [.fit 2, .save (ev 1 5 10 11), .fit 2, .save (ev 2 6 20 21)]
      (libInit lib2 none (fun i => if i = 1 then 0 else 1))) ⟨0, ev 1 5 10 11⟩ = .ok (some [10]) := rfl
  have e2 : readPredictions (runEvents lib2 [.fit 2, .save (ev 1 5 10 11), .fit 2, .save (ev 2 6 20 21)]
      (libInit lib2 none (fun i => if i = 1 then 0 else 1))) ⟨1, ev 2 6 20 21⟩ = .ok (some [21]) := rfl
  rw [e1] at a1; rw [e2] at a2
  injection a1 with a1; injection a1 with a1; subst a1
  injection a2 with a2; injection a2 with a2; subst a2
  unfold RowsOf at b1 b2
  match rows, b1, b2 with
  | _ :: _ :: _, b1, _ => simp at b1
  | [i], b1, b2 =>
    simp at b1 b2
    match i, b1, b2 with
    | 0, b1, b2 => simp at b2
    | 1, b1, b2 => simp at b1
    | (n + 2), b1, b2 => simp at b1

/-! ### Cases of the theorems above -/

theorem Ex.hist4_size : SameSize 2 hist4 := by
  intro r hr ps hps
  simp only [hist4, List.mem_cons, List.not_mem_nil, or_false] at hr
  rcases hr with rfl | rfl | rfl | rfl <;> simp [ev, failed] at hps <;> subst hps <;> rfl

theorem Ex.hist4_ids : DistinctIds hist4 := by unfold DistinctIds; decide +kernel

/-- `C22_keeps_best`, `C23_no_loss_partial`, `C24_cache_partial`, `C25_n_best`, `C26_lookup_partial`,
`C27_same_rows_partial` on the four evaluations of `Ex.hist4`. -/
example : BestOf (fun t : Ref Nat Nat Nat => t.given.score) 2 (errorFree hist4) s4.top ∧
    (s4.top ++ s4.other).Perm (numbered hist4) ∧
    (∀ o ∈ s4.other, readEstimators s4 o = .ok [] ∧ readPredictions s4 o = .ok none) ∧
    BestOf (fun t : Ref Nat Nat Nat => t.given.score) 2 (errorFree hist4) (nBest lib2 2 true s4) ∧
    (∀ k, s4.lookup k ≠ none ↔ ∃ g ∈ hist4, g.pipeline = k) ∧
    ∃ rows : List Nat, rows.length = 1 ∧ ∀ t ∈ s4.top, ∀ l, t.given.predictions = some l →
        ∃ l', readPredictions s4 t = .ok (some l') ∧ RowsOf rows l l' :=
  ⟨(C22_keeps_best lib2 none (fun _ => 1) 2 hist4 hist4_size nofun).2.1 2 rfl,
    C23_no_loss_partial lib2 none (fun _ => 1) 2 hist4 hist4_size hist4_ids nofun,
    (C24_cache_partial lib2 none (fun _ => 1) 2 hist4 hist4_size hist4_ids nofun).2.2,
    (C25_n_best lib2 none (fun _ => 1) 2 hist4 hist4_size nofun 2 true).2 (by rintro _ ⟨⟩; exact le_refl _),
    (C26_lookup_partial lib2 none (fun _ => 1) 2 hist4 hist4_size hist4_ids nofun).1,
    let ⟨rows, _, _, hl, _, h⟩ := C27_same_rows_partial lib2 (fun _ => 1) 2 1 rfl (by decide) hist4 hist4_size hist4_ids
    ⟨rows, hl, h⟩⟩

end Gama
