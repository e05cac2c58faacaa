import Verif.Lemmas.Chance
import Verif.Props.Defaults
import Mathlib.Algebra.Order.Archimedean.Basic

/-!
# How likely pipelines are (C184, C185)
-/

namespace Gama
open Spec PyM

/-- Draws that are fair for this search space: every number of candidates there may be divides the
number of values of a draw. -/
structure Spec.FairFor (M : Nat) (ps : PSet) (lengths : Nat) : Prop where
  pos : 0 < M
  lengths : lengths ∣ M
  estimators : (ps.prims predictionKey).length ∣ M
  preprocessors : ps.prims dataTerminal ≠ [] → (ps.prims dataTerminal).length ∣ M
  values : ∀ k, k = predictionKey ∨ k = dataTerminal → ∀ p ∈ ps.prims k, ∀ i ∈ p.input,
    (ps.terms i).length ∣ M

/-- The share of one step among the algorithms of its kind and the values of its hyperparameters. -/
def Spec.stepShare (ps : PSet) (kind : Str) (s : Step) : ℚ :=
  1 / (ps.prims kind).length * (s.prim.input.map fun i => 1 / ((ps.terms i).length : ℚ)).prod

/-- The share of a pipeline among those with as many steps. -/
def Spec.pipelineShare (ps : PSet) : List Step → ℚ
  | [] => 0
  | e :: pre => stepShare ps predictionKey e * (pre.map (stepShare ps dataTerminal)).prod

/-! ### There are fair draws -/

theorem dvd_prod_of_mem {α : Type} (f : α → Nat) : ∀ {l : List α} {x : α}, x ∈ l → f x ∣ (l.map f).prod
  | [], _, h => by simp at h
  | y :: l, x, h => by
    rw [List.map_cons, List.prod_cons]
    rcases List.mem_cons.1 h with rfl | h
    · exact Nat.dvd_mul_right _ _
    · exact Nat.dvd_mul_left_of_dvd (dvd_prod_of_mem f h) _

theorem prod_pos_of {α : Type} (f : α → Nat) : ∀ {l : List α}, (∀ x ∈ l, 0 < f x) → 0 < (l.map f).prod
  | [], _ => by simp
  | y :: l, h => by
    rw [List.map_cons, List.prod_cons]
    exact Nat.mul_pos (h y (by simp)) (prod_pos_of f fun x hx => h x (by simp [hx]))

/-- There are fair draws for every search space. -/
theorem fair_exists {ps : PSet} (hps : PSetOk ps) (he : ps.prims predictionKey ≠ []) {n : Nat} (hn : 0 < n) :
    ∃ M, FairFor M ps n := by
  let F : Primitive → Nat := fun p => (p.input.map fun i => (ps.terms i).length).prod
  let A := ((ps.prims predictionKey).map F).prod
  let B := ((ps.prims dataTerminal).map F).prod
  have hF : ∀ k, ∀ p ∈ ps.prims k, 0 < F p := fun k p hp =>
    prod_pos_of _ fun i hi => List.length_pos_iff.2 (hps.nonempty k p i hp hi)
  have hA : 0 < A := prod_pos_of F (hF _)
  have hB : 0 < B := prod_pos_of F (hF _)
  by_cases hd : ps.prims dataTerminal = []
  · refine ⟨n * (ps.prims predictionKey).length * A * B, ?_, ?_, ?_, fun h => absurd hd h, ?_⟩
    · have := List.length_pos_iff.2 he
      positivity
    · exact ⟨(ps.prims predictionKey).length * A * B, by ring⟩
    · exact ⟨n * A * B, by ring⟩
    · rintro k (rfl | rfl) p hp i hi
      · have h1 : (ps.terms i).length ∣ F p := dvd_prod_of_mem _ hi
        have h2 : F p ∣ A := dvd_prod_of_mem F hp
        exact (h1.trans h2).trans ⟨n * (ps.prims predictionKey).length * B, by ring⟩
      · rw [hd] at hp; cases hp
  · refine ⟨n * (ps.prims predictionKey).length * (ps.prims dataTerminal).length * A * B, ?_, ?_, ?_,
      fun _ => ?_, ?_⟩
    · have := List.length_pos_iff.2 he
      have := List.length_pos_iff.2 hd
      positivity
    · exact ⟨(ps.prims predictionKey).length * (ps.prims dataTerminal).length * A * B, by ring⟩
    · exact ⟨n * (ps.prims dataTerminal).length * A * B, by ring⟩
    · exact ⟨n * (ps.prims predictionKey).length * A * B, by ring⟩
    · rintro k (rfl | rfl) p hp i hi
      · have h1 : (ps.terms i).length ∣ F p := dvd_prod_of_mem _ hi
        have h2 : F p ∣ A := dvd_prod_of_mem F hp
        exact (h1.trans h2).trans
          ⟨n * (ps.prims predictionKey).length * (ps.prims dataTerminal).length * B, by ring⟩
      · have h1 : (ps.terms i).length ∣ F p := dvd_prod_of_mem _ hi
        have h2 : F p ∣ B := dvd_prod_of_mem F hp
        exact (h1.trans h2).trans
          ⟨n * (ps.prims predictionKey).length * (ps.prims dataTerminal).length * A, by ring⟩

theorem Spec.FairFor.kind {M : Nat} {ps : PSet} {n : Nat} (h : FairFor M ps n) {k : Str}
    (hk : k = predictionKey ∨ k = dataTerminal) (hne : ps.prims k ≠ []) : (ps.prims k).length ∣ M := by
  rcases hk with rfl | rfl
  · exact h.estimators
  · exact h.preprocessors hne

/-! ### One step -/

theorem distinct_terms {ps : PSet} (hd : Distinct ps) (i : Str) : (ps.terms i).Nodup := by
  refine (hd.values i).imp ?_
  rintro a b h rfl
  rw [pyEq_refl] at h
  cases h

theorem odds_randomTerminals {M : Nat} {ps : PSet} (hd : Distinct ps) :
    ∀ {is : List Str} {ts : List Terminal} {w : World},
    List.Forall₂ (fun i t => t ∈ ps.terms i) is ts → (∀ i ∈ is, (ps.terms i).length ∣ M) →
    Odds M (randomTerminals ps is) w (fun ts' _ => ts' = ts)
      (is.map fun i => 1 / ((ps.terms i).length : ℚ)).prod
  | [], [], w, .nil, _ => by
    exact Odds.pure_yes (M := M) (P := fun (ts' : List Terminal) (_ : World) => ts' = []) (w := w) rfl
  | i :: is, t :: ts, w, .cons h hf, hM => by
    have hwp : ∀ s, wp (randomTerminals ps is) (fun _ _ => True) (fun _ _ => (0 : ℚ) = 0) (withRnd w s) :=
      fun s => wp_randomTerminals (fun _ _ _ _ => trivial) fun _ _ _ => rfl
    have ih := odds_randomTerminals (M := M) hd (w := w) hf fun j hj => hM j (by simp [hj])
    have key : ∀ x, Odds M (randomTerminals ps is >>= fun ts' => (pure (x :: ts') : GP _)) w
        (fun ts' _ => ts' = t :: ts)
        (if x = t then (is.map fun i => 1 / ((ps.terms i).length : ℚ)).prod else 0) := by
      intro x
      by_cases hx : x = t
      · subst hx
        have := ih.bind (f := fun ts' => (pure (x :: ts') : GP _)) (P := fun ts' _ => ts' = x :: ts)
          (q1 := 1) (q0 := 0) (Q := fun _ _ => True) (fun _ _ _ => Iff.rfl) hwp
          (fun a w' _ hR => Odds.pure_yes (by rw [hR])) (fun a w' _ hR => Odds.pure_no (by simpa using hR))
        rw [if_pos rfl]
        rwa [mul_one, mul_zero, add_zero] at this
      · have := ih.bind (f := fun ts' => (pure (x :: ts') : GP _)) (P := fun ts' _ => ts' = t :: ts)
          (q1 := 0) (q0 := 0) (Q := fun _ _ => True) (fun _ _ _ => Iff.rfl) hwp
          (fun a w' _ hR => Odds.pure_no (by simp [hx])) (fun a w' _ hR => Odds.pure_no (by simp [hx]))
        rw [if_neg hx]
        rwa [mul_zero, mul_zero, add_zero] at this
    have := Odds.pick (f := fun x => randomTerminals ps is >>= fun ts' => (pure (x :: ts') : GP _))
      (distinct_terms hd i) (hM i (by simp)) h (by have := key t; rwa [if_pos rfl] at this)
      (fun y _ hy => by have := key y; rwa [if_neg hy] at this)
    rw [List.map_cons, List.prod_cons, div_mul_eq_mul_div, one_mul]
    exact this

theorem HasTree.randomTerminals {M : Nat} {ps : PSet} : ∀ {is : List Str},
    (∀ i ∈ is, (ps.terms i).length ∣ M) → HasTree M (Gama.randomTerminals ps is)
  | [], _ => HasTree.pure _
  | i :: _, h => (HasTree.choice fun _ => h i (by simp)).bind fun _ =>
      (HasTree.randomTerminals fun j hj => h j (by simp [hj])).bind fun _ => HasTree.pure _

theorem HasTree.newNode {M : Nat} (p : Primitive) (d : Option Addr) (ts : List Terminal) :
    HasTree M (Gama.newNode p d ts) :=
  fun w => ⟨.leaf (.ok w.nodes.length) { w with nodes := w.nodes ++ [⟨p, sortTerms ts, d⟩] },
    fun _ => rfl, trivial⟩

theorem filter_const_none (l : List Primitive) : l.filter (fun p => decide (some p ≠ none)) = l := by
  rw [List.filter_eq_self]; intro a _; simp

theorem HasTree.randomPrimitiveNode {M : Nat} {ps : PSet} {n : Nat} (hM : FairFor M ps n) {k : Str}
    (hk : k = predictionKey ∨ k = dataTerminal) : HasTree M (Gama.randomPrimitiveNode k ps none) := by
  unfold Gama.randomPrimitiveNode
  rw [filter_const_none]
  exact HasTree.choiceBind (fun h => hM.kind hk h) fun p hp =>
    (HasTree.randomTerminals (hM.values k hk p hp)).bind fun ts => HasTree.newNode p none ts

theorem HasTree.getNode {M : Nat} (a : Addr) : HasTree M (Gama.getNode a) := HasTree.ofExcept fun _ _ => rfl

theorem HasTree.setNode {M : Nat} (a : Addr) (c : Cell) : HasTree M (Gama.setNode a c) :=
  HasTree.modify fun _ _ => rfl

theorem HasTree.extendChain {M : Nat} {ps : PSet} {n : Nat} (hM : FairFor M ps n) :
    ∀ k last, HasTree M (Gama.extendChain ps k last)
  | 0, _ => HasTree.pure _
  | k + 1, last => (HasTree.randomPrimitiveNode hM (Or.inr rfl)).bind fun a => (HasTree.getNode last).bind fun _ =>
      (HasTree.setNode _ _).bind fun _ => HasTree.extendChain hM k a

/-- Values drawn for the same hyperparameters print the same only if they are the same. -/
theorem sortTerms_inj {ps : PSet} (hps : PSetOk ps) {is : List Str} (hn : is.Nodup) {ts ts' : List Terminal}
    (h : List.Forall₂ (fun i t => t ∈ ps.terms i) is ts)
    (h' : List.Forall₂ (fun i t => t ∈ ps.terms i) is ts') (he : sortTerms ts = sortTerms ts') : ts = ts' := by
  have hp : ts.Perm ts' := (sortTerms_perm ts).symm.trans (he ▸ sortTerms_perm ts')
  have hm : ∀ {is ts}, List.Forall₂ (fun i t => t ∈ ps.terms i) is ts → ts.map Terminal.ident = is := by
    intro is ts h
    induction h with
    | nil => rfl
    | cons h _ ih => rw [List.map_cons, ih, hps.ident _ _ h]
  have key : ∀ {is : List Str} {ts ts' : List Terminal}, is.Nodup → ts.map Terminal.ident = is →
      ts'.map Terminal.ident = is → ts.Perm ts' → ts = ts' := by
    intro is
    induction is with
    | nil =>
      intro ts ts' _ h1 h2 _
      simp at h1 h2
      rw [h1, h2]
    | cons i is ih =>
      intro ts ts' hn h1 h2 hp
      cases ts with
      | nil => simp at h1
      | cons t ts =>
        cases ts' with
        | nil => simp at h2
        | cons t' ts' =>
          simp only [List.map_cons, List.cons.injEq] at h1 h2
          have hnd : ((t' :: ts').map Terminal.ident).Nodup := by
            rw [List.map_cons, h2.1, h2.2]; exact hn
          have e : t = t' := List.inj_on_of_nodup_map hnd (hp.mem_iff.1 (by simp)) (by simp)
            (h1.1.trans h2.1.symm)
          subst e
          rw [ih (List.nodup_cons.1 hn).2 h1.2 h2.2 ((List.perm_cons t).1 hp)]
  exact key hn (hm h) (hm h') hp

theorem odds_randomPrimitiveNode {M : Nat} {ps : PSet} (hps : PSetOk ps) (hd : Distinct ps) {n : Nat}
    (hM : FairFor M ps n) {k : Str} (hk : k = predictionKey ∨ k = dataTerminal) {s : Step}
    (hs : StepOk ps k s) {w : World} :
    Odds M (randomPrimitiveNode k ps none) w
      (fun _ w' => w'.nodes = w.nodes ++ [⟨s.prim, s.terms, none⟩]) (stepShare ps k s) := by
  obtain ⟨ts, hf, hts⟩ := StepOk.drawn hps hs
  unfold randomPrimitiveNode
  rw [filter_const_none]
  have key : ∀ p ∈ ps.prims k, Odds M (randomTerminals ps p.input >>= fun ts => newNode p none ts) w
      (fun _ w' => w'.nodes = w.nodes ++ [⟨s.prim, s.terms, none⟩])
      (if p = s.prim then (s.prim.input.map fun i => 1 / ((ps.terms i).length : ℚ)).prod else 0) := by
    intro p hp
    by_cases e : p = s.prim
    · subst e
      have := (odds_randomTerminals (M := M) hd (w := w) hf (hM.values k hk _ hp)).bind
        (f := fun ts => newNode s.prim none ts)
        (P := fun _ w' => w'.nodes = w.nodes ++ [⟨s.prim, s.terms, none⟩]) (q1 := 1) (q0 := 0)
        (Q := fun ts w' => w'.nodes = w.nodes ∧ List.Forall₂ (fun i t => t ∈ ps.terms i) s.prim.input ts)
        (fun _ _ _ => Iff.rfl)
        (fun r => wp_randomTerminals (fun ts' w' h1 h2 => ⟨h1.1, h2⟩) fun _ _ _ => rfl)
        (fun a w' hQ hR => Odds.yes (a := w'.nodes.length) (w₁ := { w' with nodes := w'.nodes ++ [⟨s.prim, sortTerms a, none⟩] })
          (fun _ => rfl) (by show w'.nodes ++ _ = _; rw [hQ.1, hR, hts]))
        (fun a w' hQ hR => Odds.no (a := w'.nodes.length) (w₁ := { w' with nodes := w'.nodes ++ [⟨s.prim, sortTerms a, none⟩] })
          (fun _ => rfl) (by
            intro he
            have he : w'.nodes ++ _ = _ := he
            rw [hQ.1] at he
            have he := List.append_cancel_left he
            simp only [List.cons.injEq, Cell.mk.injEq, true_and, and_true] at he
            exact hR (sortTerms_inj hps (hps.distinct k _ hp) hQ.2 hf (he.trans hts.symm))))
      rw [if_pos rfl]
      rwa [mul_one, mul_zero, add_zero] at this
    · rw [if_neg e]
      refine odds_never ((HasTree.randomTerminals (hM.values k hk _ hp)).bind fun ts => HasTree.newNode p none ts)
        (fun _ _ _ => Iff.rfl) (E := fun _ _ => True) ?_
      intro r
      rw [wp_bind]
      refine wp_randomTerminals (fun ts' w' h1 h2 => wp_newNode ?_) fun _ _ _ => trivial
      intro he
      have he : w'.nodes ++ _ = _ := he
      rw [h1.1] at he
      have he := List.append_cancel_left he
      simp only [List.cons.injEq, Cell.mk.injEq, and_true] at he
      exact e he.1
  have := Odds.pick (f := fun p => randomTerminals ps p.input >>= fun ts => newNode p none ts)
    (hd.prims k) (hM.kind hk (List.ne_nil_of_mem hs.offered)) hs.offered
    (by have := key s.prim hs.offered; rwa [if_pos rfl] at this)
    (fun y hy e => by have := key y hy; rwa [if_neg e] at this)
  rw [stepShare, div_mul_eq_mul_div, one_mul]
  exact this

/-! ### Whole pipelines -/

theorem getNode_run {w : World} {a : Addr} {c : Cell} (h : w.nodes[a]? = some c) (r : Stream) :
    getNode a (withRnd w r) = (.ok c, withRnd w r) := by
  show ((match w.nodes[a]? with | some c => Except.ok c | none => .error Exn.dangling), _) = _
  rw [h]

theorem odds_extendChain {M : Nat} {ps : PSet} (hps : PSetOk ps) (hd : Distinct ps) {n : Nat}
    (hM : FairFor M ps n) {d : Option Addr} :
    ∀ {ss : List Step} {last : Addr} {w : World} {pre : List (Addr × Step)} {s : Step},
    Chain w.nodes d (pre ++ [(last, s)]) → (∀ x ∈ ss, StepOk ps dataTerminal x) →
    Odds M (extendChain ps ss.length last) w
      (fun _ w' => ∃ l, Chain w'.nodes d l ∧ steps l = steps (pre ++ [(last, s)]) ++ ss)
      (ss.map (stepShare ps dataTerminal)).prod
  | [], last, w, pre, s, hc, _ => by
    exact Odds.pure_yes (M := M)
      (P := fun (_ : Unit) w' => ∃ l, Chain w'.nodes d l ∧ steps l = steps (pre ++ [(last, s)]) ++ [])
      (a := ()) (w := w) ⟨_, hc, by simp⟩
  | x :: ss, last, w, pre, s, hc, hok => by
    obtain ⟨nx, hx⟩ := hc.cell (a := last) (s := s) (by simp)
    have hlt : last < w.nodes.length := hc.lt (by simp [addrs])
    -- what is known once a node has been made
    have after : ∀ (w' : World) (y : Step), w'.nodes = w.nodes ++ [⟨y.prim, y.terms, none⟩] →
        w'.nodes[last]? = some ⟨s.prim, s.terms, nx⟩ ∧
        Chain (w'.nodes.set last ⟨s.prim, s.terms, some w.nodes.length⟩) d
          ((pre ++ [(last, s)]) ++ [(w.nodes.length, y)]) := by
      intro w' y hn
      have hlast : w'.nodes[last]? = some ⟨s.prim, s.terms, nx⟩ :=
        getElem?_prefix hx (by rw [hn]; exact List.prefix_append _ _)
      have hnew : w'.nodes[w.nodes.length]? = some ⟨y.prim, y.terms, none⟩ := by simp [hn]
      have hc' : Chain w'.nodes d (pre ++ (last, s) :: []) := by rw [hn]; exact hc.append_heap
      have h₂ : Chain w'.nodes (some w.nodes.length) [(w.nodes.length, y)] := by
        simp only [Chain]; exact ⟨trivial, none, hnew, rfl⟩
      have hc₂ := Chain.update s hc' h₂ (by
        simp only [addrs, List.map_cons, List.map_nil, List.mem_singleton]
        exact Nat.ne_of_lt hlt)
      exact ⟨hlast, by simpa using hc₂⟩
    have := (odds_randomPrimitiveNode (w := w) hps hd hM (Or.inr rfl) (hok x (by simp))).bind
      (f := fun a => do let c ← getNode last; setNode last { c with data := some a }; extendChain ps ss.length a)
      (P := fun _ w' => ∃ l, Chain w'.nodes d l ∧ steps l = steps (pre ++ [(last, s)]) ++ x :: ss)
      (q1 := (ss.map (stepShare ps dataTerminal)).prod) (q0 := 0)
      (Q := fun a w' => a = w.nodes.length ∧ ∃ p ts, w'.nodes = w.nodes ++ [⟨p, sortTerms ts, none⟩])
      (fun _ _ _ => Iff.rfl)
      (fun r => wp_randomPrimitiveNode (fun p ts w' _ _ _ h _ => ⟨rfl, p, ts, h⟩) fun _ _ _ => rfl)
      (by
        rintro a w' ⟨rfl, _⟩ hR
        obtain ⟨hlast, hc₂⟩ := after w' x hR
        refine Odds.det (a := ⟨s.prim, s.terms, nx⟩) (w₁ := w') (getNode_run hlast) ?_
        refine Odds.det (a := ())
          (w₁ := { w' with nodes := w'.nodes.set last ⟨s.prim, s.terms, some w.nodes.length⟩ })
          (fun r => rfl) ?_
        have ih := odds_extendChain (M := M) hps hd hM (d := d) (ss := ss) (pre := pre ++ [(last, s)]) (s := x)
          (last := w.nodes.length)
          (w := { w' with nodes := w'.nodes.set last ⟨s.prim, s.terms, some w.nodes.length⟩ })
          hc₂ (fun y hy => hok y (by simp [hy]))
        have e : steps (pre ++ [(last, s)] ++ [(w.nodes.length, x)]) ++ ss
            = steps (pre ++ [(last, s)]) ++ x :: ss := by simp [steps]
        rw [e] at ih
        exact ih)
      (by
        rintro a w' ⟨rfl, p, ts, hn⟩ hR
        obtain ⟨hlast, hc₂⟩ := after w' ⟨p, sortTerms ts⟩ hn
        refine odds_never ((HasTree.getNode last).bind fun _ => (HasTree.setNode _ _).bind fun _ =>
          HasTree.extendChain hM _ _) (fun _ _ _ => Iff.rfl) (E := fun _ _ => True) ?_
        intro r
        simp only [wp_bind]
        refine wp_getNode (w := withRnd w' r) hlast ?_
        simp only [setNode, wp_modify]
        refine wp_extendChain hps (A := 0) (d := d) (pre := pre ++ [(last, s)]) (s := ⟨p, sortTerms ts⟩)
          hc₂ (fun _ _ => Nat.zero_le _) (Nat.zero_le _) ?_ (fun _ _ _ _ => trivial)
        rintro w'' l' h1 - - - - - ⟨l, hl, hs⟩
        have := h1.det hl
        subst this
        simp only [steps, List.map_append, List.map_cons, List.append_assoc, List.append_cancel_left_eq,
          List.cons_append, List.nil_append, List.cons.injEq, true_and, List.map_nil] at hs
        obtain ⟨rfl, -⟩ := hs
        exact hR hn)
    rw [List.map_cons, List.prod_cons]
    rwa [mul_zero, add_zero] at this

theorem HasTree.createRandomExpression {M : Nat} {ps : PSet} {lo hi : Nat} (hM : FairFor M ps (hi - lo + 1)) :
    HasTree M (Gama.createRandomExpression ps lo hi) :=
  (HasTree.randint fun _ => hM.lengths).bind fun _ => (HasTree.randomPrimitiveNode hM (Or.inl rfl)).bind fun _ =>
    (HasTree.extendChain hM _ _).bind fun _ => HasTree.pure _

/-- After the learner has been made. -/
theorem learner_chain {w w' : World} {y : Step} (hn : w'.nodes = w.nodes ++ [⟨y.prim, y.terms, none⟩]) :
    Chain w'.nodes (some w.nodes.length) ([] ++ [(w.nodes.length, y)]) := by
  have hnew : w'.nodes[w.nodes.length]? = some ⟨y.prim, y.terms, none⟩ := by simp [hn]
  simp only [Chain, List.nil_append]
  exact ⟨trivial, none, hnew, rfl⟩

theorem odds_create {M : Nat} {ps : PSet} (hps : PSetOk ps) (hd : Distinct ps) {lo hi : Nat}
    (hM : FairFor M ps (hi - lo + 1)) (h1 : 1 ≤ lo) {ss : List Step} (hok : PipelineOk ps ss)
    (hlo : lo ≤ ss.length) (hhi : ss.length ≤ hi) {w : World} :
    Odds M (createRandomExpression ps lo hi) w
      (fun a w' => ∃ l, Chain w'.nodes (some a) l ∧ steps l = ss)
      (pipelineShare ps ss / ((hi - lo + 1 : Nat) : ℚ)) := by
  cases ss with
  | nil => exact hok.elim
  | cons e pre =>
    refine Odds.pickInt hM.lengths hlo hhi ?_ ?_
    · have := (odds_randomPrimitiveNode (w := w) hps hd hM (Or.inl rfl) hok.1).bind
        (f := fun a => do extendChain ps ((e :: pre).length - 1) a; (pure a : GP Addr))
        (P := fun a w' => ∃ l, Chain w'.nodes (some a) l ∧ steps l = e :: pre)
        (q1 := (pre.map (stepShare ps dataTerminal)).prod) (q0 := 0)
        (Q := fun a w' => a = w.nodes.length ∧ ∃ p ts, w'.nodes = w.nodes ++ [⟨p, sortTerms ts, none⟩])
        (fun _ _ _ => Iff.rfl)
        (fun r => wp_randomPrimitiveNode (fun p ts w' _ _ _ h _ => ⟨rfl, p, ts, h⟩) fun _ _ _ => rfl)
        (by
          rintro a w' ⟨rfl, _⟩ hR
          have := (odds_extendChain (M := M) hps hd hM (learner_chain hR) hok.2).bind
            (f := fun _ => (pure w.nodes.length : GP Addr))
            (P := fun a w' => ∃ l, Chain w'.nodes (some a) l ∧ steps l = e :: pre)
            (q1 := 1) (q0 := 0) (Q := fun _ _ => True) (fun _ _ _ => Iff.rfl)
            (fun r => wp_extendChain hps (A := 0) (w := withRnd w' r) (learner_chain hR) (fun _ _ => Nat.zero_le _)
              (Nat.zero_le _) (fun _ _ _ _ _ _ _ _ => trivial) fun _ _ _ _ => rfl)
            (fun _ w'' _ h => Odds.pure_yes (by simpa [steps] using h))
            (fun _ w'' _ h => Odds.pure_no (by simpa [steps] using h))
          rwa [mul_one, mul_zero, add_zero] at this)
        (by
          rintro a w' ⟨rfl, p, ts, hn⟩ hR
          refine odds_never ((HasTree.extendChain hM _ _).bind fun _ => HasTree.pure _)
            (fun _ _ _ => Iff.rfl) (E := fun _ _ => True) ?_
          intro r
          simp only [wp_bind, wp_pure]
          refine wp_extendChain hps (A := 0) (w := withRnd w' r) (d := some w.nodes.length)
            (learner_chain (y := ⟨p, sortTerms ts⟩) hn) (fun _ _ => Nat.zero_le _) (Nat.zero_le _) ?_
            (fun _ _ _ _ => trivial)
          rintro w'' l' h1 - - - - - ⟨l, hl, hs⟩
          have := h1.det hl
          subst this
          simp only [steps, List.nil_append, List.map_cons, List.cons.injEq] at hs
          obtain ⟨rfl, -⟩ := hs
          exact hR hn)
      rwa [mul_zero, add_zero] at this
    · intro y hy1 hy2 hne
      refine odds_never ((HasTree.randomPrimitiveNode hM (Or.inl rfl)).bind fun _ =>
        (HasTree.extendChain hM _ _).bind fun _ => HasTree.pure _) (fun _ _ _ => Iff.rfl) (E := fun _ _ => True) ?_
      intro r
      simp only [wp_bind, wp_pure]
      refine wp_randomPrimitiveNode ?_ (fun _ _ _ => trivial)
      intro p ts w' _ _ _ hn _
      refine wp_extendChain hps (A := 0) (d := some w.nodes.length)
        (learner_chain (y := ⟨p, sortTerms ts⟩) hn) (fun _ _ => Nat.zero_le _) (Nat.zero_le _) ?_
        (fun _ _ _ _ => trivial)
      rintro w'' l' h1 h2 - - - - ⟨l, hl, hs⟩
      have := h1.det hl
      subst this
      have := congrArg List.length hs
      simp [steps, h2] at this
      simp at hne
      omega

/-- What `OperatorSet.individual` does with an expression. -/
theorem individual_rest (a : Addr) (w : World) (s : Stream) :
    (do let n ← newInd a
        let ind ← getInd n
        setInd n { ind with md := { ind.md with origin := some "new".toList } }
        pure n : GP Nat) (withRnd w s)
      = (.ok w.inds.length, withRnd
          { w with inds := w.inds ++ [{ main := a, md := { origin := some "new".toList } }] } s) := by
  have h : (w.inds ++ [({ main := a } : IndCell)])[w.inds.length]? = some { main := a } := by simp
  have e1 : newInd a (withRnd w s)
      = (.ok w.inds.length, withRnd { w with inds := w.inds ++ [{ main := a }] } s) := rfl
  have e2 : getInd w.inds.length (withRnd { w with inds := w.inds ++ [{ main := a }] } s)
      = (.ok { main := a }, withRnd { w with inds := w.inds ++ [{ main := a }] } s) := by
    show ((match (w.inds ++ [({ main := a } : IndCell)])[w.inds.length]? with
      | some c => Except.ok c | none => .error Exn.dangling), _) = _
    rw [h]
  refine (bind_ok e1).trans ((bind_ok e2).trans ?_)
  have e3 : (w.inds ++ [({ main := a } : IndCell)]).set w.inds.length
      { main := a, md := { origin := some "new".toList } }
      = w.inds ++ [{ main := a, md := { origin := some "new".toList } }] := by simp
  show (Except.ok w.inds.length, (⟨w.nodes, (w.inds ++ [({ main := a } : IndCell)]).set w.inds.length
      { main := a, md := { origin := some "new".toList } }, s⟩ : World)) = _
  rw [e3]
  rfl

theorem odds_individual {M : Nat} {c : OpConfig} (hps : PSetOk c.ps) (hd : Distinct c.ps)
    (hM : FairFor M c.ps c.maxStart) {ss : List Step} (hok : PipelineOk c.ps ss)
    (hlen : ss.length ≤ c.maxStart) {w : World} :
    Odds M (opIndividual c) w (fun n w' => Is w' n ss) (pipelineShare c.ps ss / c.maxStart) := by
  have h1 : 1 ≤ ss.length := by
    cases ss with
    | nil => exact hok.elim
    | cons e pre => simp
  have e : c.maxStart - 1 + 1 = c.maxStart := by omega
  have hM' : FairFor M c.ps (c.maxStart - 1 + 1) := by rw [e]; exact hM
  have := (odds_create (w := w) hps hd hM' (Nat.le_refl 1) hok h1 hlen).bind
    (f := fun a => do
        let n ← newInd a
        let ind ← getInd n
        setInd n { ind with md := { ind.md with origin := some "new".toList } }
        (pure n : GP Nat))
    (P := fun n w' => Is w' n ss) (q1 := 1) (q0 := 0) (Q := fun _ _ => True) (fun _ _ _ => Iff.rfl)
    (fun r => wp_createRandomExpression hps (fun _ _ _ _ _ _ _ _ _ _ _ => trivial) fun _ _ _ _ _ => rfl)
    (fun a w' _ hR => Odds.yes (individual_rest a w') (by
      obtain ⟨l, hl, hs⟩ := hR
      exact is_iff.2 ⟨{ main := a, md := { origin := some "new".toList } }, l, by simp, hl, hs⟩))
    (fun a w' _ hR => Odds.no (individual_rest a w') (by
      intro h
      obtain ⟨ind, l, hi, hl, hs⟩ := is_iff.1 h
      simp at hi
      subst hi
      exact hR ⟨l, hl, hs⟩))
  rw [e] at this
  rwa [mul_one, mul_zero, add_zero] at this

/-! ## C184 -/

/-- **C184.** The chance that `OperatorSet.individual` makes a given pipeline of the search space: every number
of steps is equally likely, and among the pipelines with as many steps every algorithm of its kind and
every value of each of its hyperparameters, independently of one another. -/
theorem C184 {M : Nat} {c : OpConfig} (hps : PSetOk c.ps) (hd : Distinct c.ps)
    (hM : FairFor M c.ps c.maxStart) {ss : List Step} (hok : PipelineOk c.ps ss)
    (hlen : ss.length ≤ c.maxStart) (w : World) :
    Chance M (opIndividual c) w (fun n w' => Is w' n ss) (pipelineShare c.ps ss / c.maxStart) :=
  (odds_individual hps hd hM hok hlen).chance hM.pos fun _ _ _ => Iff.rfl

/-- **C184**: every other pipeline is never made. -/
theorem C184_never {M : Nat} {c : OpConfig} (hps : PSetOk c.ps) (hM : FairFor M c.ps c.maxStart)
    (h1 : 1 ≤ c.maxStart) {ss : List Step} (h : ¬ (PipelineOk c.ps ss ∧ ss.length ≤ c.maxStart)) (w : World) :
    Chance M (opIndividual c) w (fun n w' => Is w' n ss) 0 := by
  have e : c.maxStart - 1 + 1 = c.maxStart := by omega
  have ht : HasTree M (opIndividual c) := by
    refine (HasTree.createRandomExpression (by rw [e]; exact hM)).bind fun a => ?_
    intro w
    exact ⟨.leaf (.ok w.inds.length)
      { w with inds := w.inds ++ [{ main := a, md := { origin := some "new".toList } }] }, individual_rest a w,
      trivial⟩
  refine (odds_never ht (fun _ _ _ => Iff.rfl) (E := fun _ _ => True) ?_).chance hM.pos fun _ _ _ => Iff.rfl
  intro r
  refine wp_mono ?_ (fun _ _ _ => trivial) (wp_opIndividual hps)
  rintro n w' ⟨ss', h1, h2, h3, _⟩ h'
  obtain ⟨as', h'', _⟩ := h1.is
  have := h'.det ⟨as', h''⟩
  subst this
  exact h ⟨h2, h3⟩

/-- The rest of `create_random_expression` once the number of steps is drawn. -/
theorem wp_createRest {ps : PSet} (hps : PSetOk ps) (he : ps.prims predictionKey ≠ []) {k : Nat}
    (hp : 0 < k → ps.prims dataTerminal ≠ []) {w : World} :
    wp (do let a ← randomPrimitiveNode predictionKey ps none; extendChain ps k a; (pure a : GP Addr))
      (fun a w' => ∃ l, Chain w'.nodes (some a) l ∧ l.length = k + 1) (fun _ _ => False) w := by
  simp only [wp_bind, wp_pure]
  refine wp_randomPrimitiveNode ?_ ?_
  · intro p ts w' _ _ _ hn _
    refine wp_extendChain hps (A := 0) (d := some w.nodes.length)
      (learner_chain (y := ⟨p, sortTerms ts⟩) hn) (fun _ _ => Nat.zero_le _) (Nat.zero_le _) ?_ ?_
    · intro w'' l' h1 h2 _ _ _ _
      exact ⟨_, h1, by simp [h2]⟩
    · intro _ _ _ h
      exact hp h.1 h.2
  · intro w' _ h
    rw [filter_const_none] at h
    rcases h with h | ⟨p, hp', i, hi, h⟩
    · exact he h
    · exact hps.nonempty _ p i hp' hi h

theorem workable_start {c : OpConfig} (hu : Workable c) : 1 ≤ c.maxStart := by
  unfold OpConfig.maxStart
  cases h : c.maxLength with
  | none => simp
  | some m => exact hu.length m h

theorem workable_pre {c : OpConfig} (hu : Workable c) (h : 1 < c.maxStart) : c.ps.prims dataTerminal ≠ [] := by
  rcases hu.preprocessors with h' | h'
  · exact h'
  · simp [OpConfig.maxStart, h'] at h

/-- What the individual made is like follows from what the expression made is like. -/
theorem odds_individual_of {M : Nat} {c : OpConfig} (hps : PSetOk c.ps) {S : List Step → Prop} {q : ℚ} {w : World}
    (h : Odds M (createRandomExpression c.ps 1 c.maxStart) w
      (fun a w' => ∃ l, Chain w'.nodes (some a) l ∧ S (steps l)) q) :
    Odds M (opIndividual c) w (fun n w' => ∃ ss, Is w' n ss ∧ S ss) q := by
  have := h.bind
    (f := fun a => do
        let n ← newInd a
        let ind ← getInd n
        setInd n { ind with md := { ind.md with origin := some "new".toList } }
        (pure n : GP Nat))
    (P := fun n w' => ∃ ss, Is w' n ss ∧ S ss) (q1 := 1) (q0 := 0) (Q := fun _ _ => True) (fun _ _ _ => Iff.rfl)
    (fun r => wp_createRandomExpression hps (fun _ _ _ _ _ _ _ _ _ _ _ => trivial) fun _ _ _ _ _ => rfl)
    (fun a w' _ hR => Odds.yes (individual_rest a w') (by
      obtain ⟨l, hl, hs⟩ := hR
      exact ⟨steps l, is_iff.2 ⟨{ main := a, md := { origin := some "new".toList } }, l, by simp, hl, rfl⟩, hs⟩))
    (fun a w' _ hR => Odds.no (individual_rest a w') (by
      rintro ⟨ss, h, hS⟩
      obtain ⟨ind, l, hi, hl, hs⟩ := is_iff.1 h
      simp at hi
      subst hi
      exact hR ⟨l, hl, hs ▸ hS⟩))
  rwa [mul_one, mul_zero, add_zero] at this

/-- **C184**, the number of steps: every number from one up to the greatest is equally likely. -/
theorem C184_length {M : Nat} {c : OpConfig} (hu : Workable c) (hM : FairFor M c.ps c.maxStart)
    {n : Nat} (h1 : 1 ≤ n) (hn : n ≤ c.maxStart) (w : World) :
    Chance M (opIndividual c) w (fun i w' => ∃ ss, Is w' i ss ∧ ss.length = n) (1 / c.maxStart) := by
  have e : c.maxStart - 1 + 1 = c.maxStart := by omega
  have hM' : FairFor M c.ps (c.maxStart - 1 + 1) := by rw [e]; exact hM
  refine (odds_individual_of hu.ok (S := fun ss => ss.length = n) ?_).chance hM.pos fun _ _ _ => Iff.rfl
  have ht : ∀ y, HasTree M (do
      let a ← randomPrimitiveNode predictionKey c.ps none; extendChain c.ps (y - 1) a; (pure a : GP Addr)) :=
    fun y => (HasTree.randomPrimitiveNode hM (Or.inl rfl)).bind fun _ =>
      (HasTree.extendChain hM _ _).bind fun _ => HasTree.pure _
  have key : ∀ y, 1 ≤ y → y ≤ c.maxStart → ∀ r, wp (do
      let a ← randomPrimitiveNode predictionKey c.ps none; extendChain c.ps (y - 1) a; (pure a : GP Addr))
      (fun a w' => ∃ l, Chain w'.nodes (some a) l ∧ l.length = y - 1 + 1) (fun _ _ => False) (withRnd w r) :=
    fun y h1 h2 r => wp_createRest hu.ok hu.estimators (fun h => workable_pre hu (by omega))
  have := Odds.pickInt (M := M) (lo := 1) (hi := c.maxStart) (q := 1) (f := fun y => do
      let a ← randomPrimitiveNode predictionKey c.ps none; extendChain c.ps (y - 1) a; (pure a : GP Addr))
      (w := w) (P := fun a w' => ∃ l, Chain w'.nodes (some a) l ∧ (steps l).length = n) hM'.lengths h1 hn
      (odds_always (ht n) (fun _ _ _ => Iff.rfl) fun r => wp_mono (by
        rintro a w' ⟨l, hl, hl'⟩
        exact ⟨l, hl, by simp [steps, hl']; omega⟩) (fun _ _ h => h) (key n h1 hn r))
      (fun y hy1 hy2 hne => odds_never (ht y) (fun _ _ _ => Iff.rfl) (E := fun _ _ => True) fun r => wp_mono (by
        rintro a w' ⟨l, hl, hl'⟩ ⟨l2, hl2, hn2⟩
        have := hl.det hl2
        subst this
        simp [steps, hl'] at hn2
        omega) (fun _ _ _ => trivial) (key y hy1 hy2 r))
  rw [e] at this
  exact this

/-- **C184**, the estimator: every estimator of the search space is equally likely, however many steps. -/
theorem C184_estimator {M : Nat} {c : OpConfig} (hu : Workable c) (hM : FairFor M c.ps c.maxStart)
    {p : Primitive} (hp : p ∈ c.ps.prims predictionKey) (w : World) :
    Chance M (opIndividual c) w (fun i w' => ∃ ss, Is w' i ss ∧ ∃ ts pre, ss = ⟨p, ts⟩ :: pre)
      (1 / (c.ps.prims predictionKey).length) := by
  have h1 := workable_start hu
  have e : c.maxStart - 1 + 1 = c.maxStart := by omega
  have hM' : FairFor M c.ps (c.maxStart - 1 + 1) := by rw [e]; exact hM
  refine (odds_individual_of hu.ok (S := fun ss => ∃ ts pre, ss = ⟨p, ts⟩ :: pre) ?_).chance hM.pos fun _ _ _ => Iff.rfl
  -- the estimator drawn
  have first : Odds M (randomPrimitiveNode predictionKey c.ps none) w
      (fun _ w' => ∃ ts, w'.nodes = w.nodes ++ [⟨p, ts, none⟩]) (1 / (c.ps.prims predictionKey).length) := by
    unfold randomPrimitiveNode
    rw [filter_const_none]
    have ht : ∀ x ∈ c.ps.prims predictionKey,
        HasTree M (randomTerminals c.ps x.input >>= fun ts => newNode x none ts) := fun x hx =>
      (HasTree.randomTerminals (hM.values _ (Or.inl rfl) x hx)).bind fun ts => HasTree.newNode x none ts
    refine Odds.pick (hu.distinct.prims _) hM.estimators hp ?_ ?_
    · refine odds_always (ht p hp) (fun _ _ _ => Iff.rfl) fun r => ?_
      rw [wp_bind]
      refine wp_randomTerminals (fun ts w' h1 _ => wp_newNode ?_) ?_
      · exact ⟨sortTerms ts, by show w'.nodes ++ _ = _; rw [h1.1]; rfl⟩
      · rintro _ _ ⟨i, hi, h⟩
        exact hu.ok.nonempty _ p i hp hi h
    · intro y hy hne
      refine odds_never (ht y hy) (fun _ _ _ => Iff.rfl) (E := fun _ _ => True) fun r => ?_
      rw [wp_bind]
      refine wp_randomTerminals (fun ts w' h1 _ => wp_newNode ?_) fun _ _ _ => trivial
      rintro ⟨ts', h⟩
      have h : w'.nodes ++ _ = _ := h
      rw [h1.1] at h
      have h := List.append_cancel_left h
      simp only [List.cons.injEq, Cell.mk.injEq] at h
      exact hne h.1.1
  have each : ∀ y, 1 ≤ y → y ≤ c.maxStart → Odds M (do
      let a ← randomPrimitiveNode predictionKey c.ps none; extendChain c.ps (y - 1) a; (pure a : GP Addr)) w
      (fun a w' => ∃ l, Chain w'.nodes (some a) l ∧ ∃ ts pre, steps l = ⟨p, ts⟩ :: pre)
      (1 / (c.ps.prims predictionKey).length) := by
    intro y hy1 hy2
    have ht : ∀ a, HasTree M (do extendChain c.ps (y - 1) a; (pure a : GP Addr)) := fun a =>
      (HasTree.extendChain hM _ _).bind fun _ => HasTree.pure _
    have rest : ∀ (w' : World) (x : Step), w'.nodes = w.nodes ++ [⟨x.prim, x.terms, none⟩] → ∀ r,
        wp (do extendChain c.ps (y - 1) w.nodes.length; (pure w.nodes.length : GP Addr))
          (fun a w' => ∃ l', Chain w'.nodes (some a) ((w.nodes.length, x) :: l')) (fun _ _ => False) (withRnd w' r) := by
      intro w' x hn r
      simp only [wp_bind, wp_pure]
      refine wp_extendChain hu.ok (A := 0) (w := withRnd w' r) (d := some w.nodes.length)
        (learner_chain (y := x) hn) (fun _ _ => Nat.zero_le _) (Nat.zero_le _) ?_ ?_
      · intro w'' l' h1 _ _ _ _ _
        exact ⟨l', h1⟩
      · intro _ _ _ h
        exact workable_pre hu (by omega) h.2
    have := first.bind (f := fun a => do extendChain c.ps (y - 1) a; (pure a : GP Addr))
      (P := fun a w' => ∃ l, Chain w'.nodes (some a) l ∧ ∃ ts pre, steps l = ⟨p, ts⟩ :: pre)
      (q1 := 1) (q0 := 0)
      (Q := fun a w' => a = w.nodes.length ∧ ∃ p ts, w'.nodes = w.nodes ++ [⟨p, ts, none⟩])
      (fun _ _ _ => Iff.rfl)
      (fun r => wp_randomPrimitiveNode (fun p ts w' _ _ _ h _ => ⟨rfl, p, _, h⟩) fun _ _ _ => rfl)
      (by
        rintro a w' ⟨rfl, _⟩ ⟨ts, hts⟩
        refine odds_always (ht _) (fun _ _ _ => Iff.rfl) fun r => wp_mono ?_ (fun _ _ h => h)
          (rest w' ⟨p, ts⟩ hts r)
        rintro a w'' ⟨l', h⟩
        exact ⟨_, h, ts, steps l', rfl⟩)
      (by
        rintro a w' ⟨rfl, p', ts, hts⟩ hR
        refine odds_never (ht _) (fun _ _ _ => Iff.rfl) (E := fun _ _ => True) fun r =>
          wp_mono ?_ (fun _ _ _ => trivial) (rest w' ⟨p', ts⟩ hts r)
        rintro a w'' ⟨l', h⟩ ⟨l, hl, ts', pre, hs⟩
        have := h.det hl
        subst this
        simp only [steps, List.map_cons, List.cons.injEq, Step.mk.injEq] at hs
        obtain ⟨⟨rfl, -⟩, -⟩ := hs
        exact hR ⟨ts, hts⟩)
    rwa [mul_one, mul_zero, add_zero] at this
  have := Odds.randint (M := M) (f := fun y => do
      let a ← randomPrimitiveNode predictionKey c.ps none; extendChain c.ps (y - 1) a; (pure a : GP Addr))
      (g := fun _ => 1 / ((c.ps.prims predictionKey).length : ℚ)) h1 hM'.lengths each
  rw [sum_const, e] at this
  have hne : (c.maxStart : ℚ) ≠ 0 := by
    have : 0 < c.maxStart := h1
    exact_mod_cast this.ne'
  rw [mul_div_cancel_left₀ _ hne] at this
  exact this

/-! ## C185 -/

theorem wp_individual {c : OpConfig} (hu : Workable c) {w : World} :
    wp (opIndividual c) (fun x w' => (∃ ss, Is w' x ss) ∧ Extends w w') (fun _ _ => False) w := by
  refine wp_mono ?_ ?_ (wp_opIndividual hu.ok)
  · rintro n w' ⟨ss, h, _⟩
    obtain ⟨as, h1, _⟩ := h.is
    exact ⟨⟨ss, as, h1⟩, h.ext⟩
  · rintro e w' ⟨_, ⟨h, _⟩ | ⟨h, _⟩ | ⟨h1, h2, _⟩⟩
    · have := workable_start hu; omega
    · exact hu.estimators h
    · exact workable_pre hu h1 h2

theorem wp_freshPopulation {c : OpConfig} (hu : Workable c) : ∀ (n : Nat) {w : World},
    wp (freshPopulation c n) (fun l w' => (∀ x ∈ l, ∃ ss, Is w' x ss) ∧ Extends w w') (fun _ _ => False) w
  | 0, w => by
    simp only [freshPopulation, wp_pure]
    exact ⟨fun x hx => (by cases hx), Extends.refl w⟩
  | n + 1, w => by
    simp only [freshPopulation, wp_bind]
    refine wp_mono ?_ (fun _ _ h => h) (wp_individual hu)
    rintro x w1 ⟨⟨ss, hx⟩, hext⟩
    refine wp_mono ?_ (fun _ _ h => h) (wp_freshPopulation hu n)
    rintro l w2 ⟨hl, hext2⟩
    simp only [wp_pure]
    refine ⟨fun y hy => ?_, Extends.trans hext hext2⟩
    rcases List.mem_cons.1 hy with rfl | hy
    · exact ⟨ss, hx.mono hext2⟩
    · exact hl y hy

theorem HasTree.individual {M : Nat} {c : OpConfig} (hu : Workable c) (hM : FairFor M c.ps c.maxStart) :
    HasTree M (opIndividual c) := by
  have e : c.maxStart - 1 + 1 = c.maxStart := by have := workable_start hu; omega
  refine (HasTree.createRandomExpression (by rw [e]; exact hM)).bind fun a => ?_
  intro w
  exact ⟨.leaf (.ok w.inds.length)
    { w with inds := w.inds ++ [{ main := a, md := { origin := some "new".toList } }] }, individual_rest a w,
    trivial⟩

theorem HasTree.freshPopulation {M : Nat} {c : OpConfig} (hu : Workable c) (hM : FairFor M c.ps c.maxStart) :
    ∀ n, HasTree M (Gama.freshPopulation c n)
  | 0 => HasTree.pure _
  | n + 1 => (HasTree.individual hu hM).bind fun _ => (HasTree.freshPopulation hu hM n).bind fun _ => HasTree.pure _

theorem odds_freshPopulation {M : Nat} {c : OpConfig} (hu : Workable c) (hM : FairFor M c.ps c.maxStart)
    {ss : List Step} (hok : PipelineOk c.ps ss) (hlen : ss.length ≤ c.maxStart) : ∀ (n : Nat) {w : World},
    Odds M (freshPopulation c n) w (fun l w' => ∃ x ∈ l, Is w' x ss)
      (1 - (1 - pipelineShare c.ps ss / c.maxStart) ^ n)
  | 0, w => by
    have : (1 : ℚ) - (1 - pipelineShare c.ps ss / c.maxStart) ^ 0 = 0 := by simp
    rw [this]
    exact Odds.pure_no (by simp)
  | n + 1, w => by
    have := (odds_individual (w := w) hu.ok hu.distinct hM hok hlen).bind
      (f := fun x => do let rest ← freshPopulation c n; (pure (x :: rest) : GP (List Nat)))
      (P := fun l w' => ∃ x ∈ l, Is w' x ss) (q1 := 1)
      (q0 := 1 - (1 - pipelineShare c.ps ss / c.maxStart) ^ n)
      (Q := fun x w' => (∃ ss, Is w' x ss) ∧ Extends w w') (fun _ _ _ => Iff.rfl)
      (fun r => wp_mono (fun _ _ h => h) (fun _ _ h => h.elim) (wp_individual (w := withRnd w r) hu))
      (by
        rintro x w1 _ hx
        refine odds_always ((HasTree.freshPopulation hu hM n).bind fun _ => HasTree.pure _)
          (fun _ _ _ => Iff.rfl) fun r => ?_
        simp only [wp_bind, wp_pure]
        refine wp_mono ?_ (fun _ _ h => h) (wp_freshPopulation hu n)
        rintro l w2 ⟨_, hext⟩
        exact ⟨x, by simp, Is.mono (w := withRnd w1 r) hx hext⟩)
      (by
        rintro x w1 ⟨⟨ss', hss'⟩, _⟩ hx
        have := (odds_freshPopulation hu hM hok hlen n (w := w1)).bind
          (f := fun rest => (pure (x :: rest) : GP (List Nat)))
          (P := fun l w' => ∃ x ∈ l, Is w' x ss) (q1 := 1) (q0 := 0)
          (Q := fun _ w' => Extends w1 w') (fun _ _ _ => Iff.rfl)
          (fun r => wp_mono (fun _ _ h => h.2) (fun _ _ h => h.elim) (wp_freshPopulation (w := withRnd w1 r) hu n))
          (fun l w2 _ ⟨y, hy, hs⟩ => Odds.pure_yes ⟨y, by simp [hy], hs⟩)
          (fun l w2 hext hR => Odds.pure_no (by
            rintro ⟨y, hy, hs⟩
            rcases List.mem_cons.1 hy with rfl | hy
            · have := hs.det (hss'.mono hext)
              subst this
              exact hx hss'
            · exact hR ⟨y, hy, hs⟩))
        rwa [mul_one, mul_zero, add_zero] at this)
    have e : ∀ q : ℚ, q * 1 + (1 - q) * (1 - (1 - q) ^ n) = 1 - (1 - q) ^ (n + 1) := by
      intro q; rw [pow_succ]; ring
    rw [e] at this
    exact this

/-- **C185.** The chance that a pipeline of the search space is among `n` random ones, as among those a
search starts from: `1 - (1 - q)ⁿ`, where `q` is the chance that a random pipeline is that one. -/
theorem C185 {M : Nat} {c : OpConfig} (hu : Workable c) (hM : FairFor M c.ps c.maxStart)
    {ss : List Step} (hok : PipelineOk c.ps ss) (hlen : ss.length ≤ c.maxStart) (n : Nat) (w : World) :
    Chance M (freshPopulation c n) w (fun l w' => ∃ x ∈ l, Is w' x ss)
      (1 - (1 - pipelineShare c.ps ss / c.maxStart) ^ n) :=
  (odds_freshPopulation hu hM hok hlen n).chance hM.pos fun _ _ _ => Iff.rfl

theorem prod_share_pos {α : Type} (f : α → ℚ) : ∀ (l : List α), (∀ x ∈ l, 0 < f x ∧ f x ≤ 1) →
    0 < (l.map f).prod ∧ (l.map f).prod ≤ 1
  | [], _ => by simp
  | y :: l, h => by
    obtain ⟨h1, h2⟩ := prod_share_pos f l fun x hx => h x (by simp [hx])
    obtain ⟨h3, h4⟩ := h y (by simp)
    rw [List.map_cons, List.prod_cons]
    exact ⟨mul_pos h3 h1, mul_le_one₀ h4 h1.le h2⟩

theorem inv_share {n : Nat} (h : 0 < n) : 0 < 1 / (n : ℚ) ∧ 1 / (n : ℚ) ≤ 1 := by
  have h1 : (1 : ℚ) ≤ n := by exact_mod_cast h
  constructor
  · positivity
  · rw [div_le_one (by linarith)]; exact h1

theorem stepShare_pos {ps : PSet} (hps : PSetOk ps) {k : Str} {s : Step} (h : StepOk ps k s) :
    0 < stepShare ps k s ∧ stepShare ps k s ≤ 1 := by
  obtain ⟨h1, h2⟩ := inv_share (List.length_pos_iff.2 (List.ne_nil_of_mem h.offered))
  obtain ⟨h3, h4⟩ := prod_share_pos (fun i => 1 / ((ps.terms i).length : ℚ)) s.prim.input fun i hi =>
    inv_share (List.length_pos_iff.2 (hps.nonempty k _ i h.offered hi))
  exact ⟨mul_pos h1 h3, mul_le_one₀ h2 h3.le h4⟩

/-- The chance of a pipeline of the search space is positive. -/
theorem pipelineShare_pos {ps : PSet} (hps : PSetOk ps) {ss : List Step} (h : PipelineOk ps ss) :
    0 < pipelineShare ps ss ∧ pipelineShare ps ss ≤ 1 := by
  cases ss with
  | nil => exact h.elim
  | cons e pre =>
    obtain ⟨h1, h2⟩ := stepShare_pos hps h.1
    obtain ⟨h3, h4⟩ := prod_share_pos (stepShare ps dataTerminal) pre fun s hs => stepShare_pos hps (h.2 s hs)
    exact ⟨mul_pos h1 h3, mul_le_one₀ h2 h3.le h4⟩

/-- **C185**: whatever chance short of certainty is asked for, enough random pipelines contain a given
pipeline of the search space with at least that chance. -/
theorem C185_enough {M : Nat} {c : OpConfig} (hu : Workable c) (hM : FairFor M c.ps c.maxStart)
    {ss : List Step} (hok : PipelineOk c.ps ss) (hlen : ss.length ≤ c.maxStart) {ε : ℚ} (hε : 0 < ε) :
    ∃ N, ∀ n, N ≤ n → ∀ w, ∃ q, 1 - ε ≤ q ∧
      Chance M (freshPopulation c n) w (fun l w' => ∃ x ∈ l, Is w' x ss) q := by
  obtain ⟨h1, h2⟩ := pipelineShare_pos hu.ok hok
  obtain ⟨h3, h4⟩ := inv_share (n := c.maxStart) (workable_start hu)
  have hq0 : 0 < pipelineShare c.ps ss / c.maxStart := by
    rw [div_eq_mul_one_div]; exact mul_pos h1 h3
  have hq1 : pipelineShare c.ps ss / c.maxStart ≤ 1 := by
    rw [div_eq_mul_one_div]; exact mul_le_one₀ h2 h3.le h4
  obtain ⟨N, hN⟩ := exists_pow_lt_of_lt_one hε (y := 1 - pipelineShare c.ps ss / c.maxStart) (by linarith)
  refine ⟨N, fun n hn w => ⟨_, ?_, C185 hu hM hok hlen n w⟩⟩
  have : (1 - pipelineShare c.ps ss / c.maxStart) ^ n ≤ (1 - pipelineShare c.ps ss / c.maxStart) ^ N :=
    pow_le_pow_of_le_one (by linarith) (by linarith) hn
  linarith

/-- **C184** and **C185** for the search spaces that come with GAMA. -/
theorem C184_default {s} (hs : s ∈ shippedSpaces) {cfg : List Entry} (h : SeenAs s cfg) :
    ∃ ps checks, psetFromConfig cfg = .ok (ps, checks) ∧
    ∀ c : OpConfig, c.ps = ps → 0 < c.maxRetry → (∀ m, c.maxLength = some m → 1 ≤ m) →
    (∃ M, FairFor M ps c.maxStart) ∧ ∀ M, FairFor M ps c.maxStart → ∀ ss, PipelineOk ps ss →
      ss.length ≤ c.maxStart → ∀ w,
        0 < pipelineShare ps ss / c.maxStart ∧
        Chance M (opIndividual c) w (fun n w' => Is w' n ss) (pipelineShare ps ss / c.maxStart) ∧
        Chance M (freshPopulation c 50) w (fun l w' => ∃ x ∈ l, Is w' x ss)
          (1 - (1 - pipelineShare ps ss / c.maxStart) ^ 50) := by
  obtain ⟨ps, ch, h0, hu⟩ := usable_shipped hs h
  refine ⟨ps, ch, h0, ?_⟩
  intro c hc hr hm
  replace hu := hu c hc hr hm
  subst hc
  refine ⟨fair_exists hu.ok hu.estimators (workable_start hu), fun M hM ss hok hlen w =>
    ⟨?_, C184 hu.ok hu.distinct hM hok hlen w, C185 hu hM hok hlen 50 w⟩⟩
  rw [div_eq_mul_one_div]
  exact mul_pos (pipelineShare_pos hu.ok hok).1 (inv_share (workable_start hu)).1

/-! ### An example -/

namespace Ex

def chanceConfig : OpConfig := ⟨space, none, fun _ => false, 50⟩

theorem chance_workable : Workable chanceConfig where
  ok := space_ok
  distinct := space_distinct
  estimators := by decide
  preprocessors := Or.inl (by decide)
  retry := by decide
  length := by intro m hm; cases hm

theorem six_fair : FairFor 6 space 3 where
  pos := by decide
  lengths := by decide
  estimators := by decide
  preprocessors := fun _ => by decide
  values := by
    intro k _ p hp i hi
    rcases mem_prims hp with ⟨rfl, rfl | rfl⟩ | ⟨rfl, rfl | rfl⟩ <;>
      simp [pSC, pPCA, pNB, pDT] at hi
    · subst hi; decide
    · subst hi; decide
    · rcases hi with rfl | rfl <;> decide

/-- Three numbers of steps, two estimators with one or two hyperparameters of two values, two preprocessors
of which one has a hyperparameter: one random pipeline of 192 is this one. -/
theorem long_share : pipelineShare space long / 3 = 1 / 192 := by
  have e : ∀ k, k = alphaK ∨ k = depthK ∨ k = whitK → (space.terms k).length = 2 := by
    rintro k (rfl | rfl | rfl) <;> decide
  have e1 : (space.prims predictionKey).length = 2 := by decide
  have e2 : (space.prims dataTerminal).length = 2 := by decide
  simp only [pipelineShare, stepShare, long, pDT, pPCA, pSC, List.map_cons, List.map_nil, List.prod_cons,
    List.prod_nil, e1, e2, e alphaK (by simp), e depthK (by simp), e whitK (by simp)]
  norm_num

end Ex

example (r : Stream) : Chance 6 (opIndividual Ex.chanceConfig) (Ex.w0 r) (fun n w' => Is w' n Ex.long) (1 / 192) := by
  have := C184 (c := Ex.chanceConfig) Ex.space_ok space_distinct (M := 6) Ex.six_fair Ex.long_ok (by decide) (Ex.w0 r)
  have e : pipelineShare Ex.chanceConfig.ps Ex.long / (Ex.chanceConfig.maxStart : ℚ) = 1 / 192 := Ex.long_share
  rwa [e] at this

example (r : Stream) : Chance 6 (opIndividual Ex.chanceConfig) (Ex.w0 r)
    (fun n w' => ∃ ss, Is w' n ss ∧ ss.length = 2) (1 / 3) :=
  C184_length (c := Ex.chanceConfig) Ex.chance_workable Ex.six_fair (by decide) (by decide) _

example (r : Stream) : Chance 6 (freshPopulation Ex.chanceConfig 50) (Ex.w0 r)
    (fun l w' => ∃ x ∈ l, Is w' x Ex.long) (1 - (1 - 1 / 192) ^ 50) := by
  have := C185 (c := Ex.chanceConfig) (M := 6) Ex.chance_workable Ex.six_fair Ex.long_ok (by decide) 50 (Ex.w0 r)
  have e : pipelineShare Ex.chanceConfig.ps Ex.long / (Ex.chanceConfig.maxStart : ℚ) = 1 / 192 := Ex.long_share
  rwa [e] at this

end Gama
