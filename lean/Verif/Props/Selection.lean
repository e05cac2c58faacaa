import Verif.Model.Selection
import Verif.Props.Individuals
import Verif.Props.Pareto
import Verif.Props.Nsga2

/-!
# Selection operators (C21, C78)
-/

namespace Gama
open Spec PyM

/-- Individual `i` was evaluated and has these fitness values. -/
def Spec.HasFitness (w : World) (i : Nat) (v : List Score) : Prop :=
  ∃ ind, w.inds[i]? = some ind ∧ ind.fitness = some v

theorem Spec.HasFitness.det {w : World} {i : Nat} {v v' : List Score} (h : HasFitness w i v)
    (h' : HasFitness w i v') : v = v' := by
  obtain ⟨ind, h1, h2⟩ := h
  obtain ⟨ind', h1', h2'⟩ := h'
  rw [h1] at h1'; injection h1' with h1'; subst h1'
  rw [h2] at h2'; injection h2'

theorem fitnessValues_run {w : World} {i : Nat} {v : List Score} (h : HasFitness w i v) :
    fitnessValues i w = (.ok v, w) := by
  obtain ⟨ind, h1, h2⟩ := h
  have : getInd i w = (.ok ind, w) := by simp [getInd, PyM.ofExcept, h1]
  unfold fitnessValues
  rw [bind_ok this, h2]
  rfl

theorem mapGP_fitness {w : World} {k : Nat} : ∀ {pop : List Nat},
    (∀ i ∈ pop, ∃ v, HasFitness w i v ∧ v.length = k) →
    ∃ vs, mapGP fitnessValues pop w = (.ok vs, w) ∧ List.Forall₂ (HasFitness w) pop vs ∧
      ∀ v ∈ vs, v.length = k
  | [], _ => ⟨[], rfl, .nil, by simp⟩
  | i :: pop, h => by
    obtain ⟨v, hv, hk⟩ := h i (by simp)
    obtain ⟨vs, h1, h2, h3⟩ := mapGP_fitness (pop := pop) (fun j hj => h j (by simp [hj]))
    refine ⟨v :: vs, ?_, .cons hv h2, ?_⟩
    · show (fitnessValues i >>= _) w = _
      rw [bind_ok (fitnessValues_run hv), bind_ok h1]; rfl
    · intro u hu
      rcases List.mem_cons.1 hu with rfl | hu
      · exact hk
      · exact h3 u hu

theorem forall₂_idxOf {w : World} {pop : List Nat} {vs : List (List Score)}
    (h : List.Forall₂ (HasFitness w) pop vs) {i : Nat} (hi : i ∈ pop) :
    HasFitness w i (vs.getD (pop.idxOf i) []) := by
  induction h with
  | nil => simp at hi
  | @cons j v pop vs h1 _ ih =>
    by_cases hij : j = i
    · subst hij; simpa using h1
    · have : i ∈ pop := by
        rcases List.mem_cons.1 hi with h | h
        · exact absurd h.symm hij
        · exact h
      rw [List.idxOf_cons_ne _ hij]
      simpa using ih this

theorem below_neg {a b : List Score} :
    Below (a.map fun v => -v) (b.map fun v => -v) ↔ Below b a := by
  unfold Below
  rw [List.forall₂_map_left_iff, List.forall₂_map_right_iff]
  simp only [Score.neg_le_neg_iff]
  constructor
  · intro h; exact List.Forall₂.flip h
  · intro h; exact List.Forall₂.flip h

/-- **C21.** Elimination from a non-empty evaluated population returns one member such that
every member that is worse or equal on every objective has the same values; nothing is
modified besides the random state. -/
theorem C21_elimination {w : World} {pop : List Nat} {k : Nat} (hne : pop ≠ [])
    (hf : ∀ i ∈ pop, ∃ v, HasFitness w i v ∧ v.length = k) :
    ∃ x w', eliminateFromPareto pop 1 w = (.ok [x], w') ∧ x ∈ pop ∧
      w'.nodes = w.nodes ∧ w'.inds = w.inds ∧
      ∀ y ∈ pop, ∀ u v, HasFitness w x u → HasFitness w y v → Below v u → v = u := by
  obtain ⟨vs, h1, h2, h3⟩ := mapGP_fitness hf
  have hvals : frontValues pop w = (.ok (if pop.length < 2 then [] else vs), w) := by
    unfold frontValues
    split
    · rfl
    · exact h1
  generalize hv : (if pop.length < 2 then [] else vs) = values at hvals
  have hok : ∀ i ∈ pop, ∀ j ∈ pop,
      ((values.getD (pop.idxOf i) []).map fun v => -v).length =
        (if pop.length < 2 then 0 else k) := by
    intro i hi j hj
    rw [List.length_map]
    split at hv
    · next h => subst hv; simp [h]
    · next h =>
      subst hv
      rw [if_neg h]
      have := forall₂_idxOf h2 hi
      obtain ⟨v, hv, hk⟩ := hf i hi
      rw [this.det hv]; exact hk
  obtain ⟨front, g1, g2, g3, g4, g5, g6⟩ := C15_front_is_maximal (b := false)
    (val := fun i => (values.getD (pop.idxOf i) []).map fun v => -v) pop (fun i hi => hok i hi i hi)
  have hfne : front ≠ [] := by
    intro hfe
    obtain ⟨p, hp⟩ := List.exists_mem_of_ne_nil _ hne
    obtain ⟨y, hy, _⟩ := g4 p hp
    rw [hfe] at hy; simp at hy
  have hrun : eliminateFromPareto pop 1 w = (do let x ← choice front; pure [x] : GP (List Nat)) w := by
    unfold eliminateFromPareto
    rw [if_neg (by simp), bind_ok hvals]
    simp only [g1]
  have hw : wp (do let x ← choice front; pure [x] : GP (List Nat))
      (fun r w' => ∃ x ∈ front, r = [x] ∧ w'.nodes = w.nodes ∧ w'.inds = w.inds) (fun _ _ => False) w := by
    rw [wp_bind]
    refine wp_choice (fun h => absurd h hfne) (fun x hx => ?_)
    exact ⟨x, hx, rfl, rfl, rfl⟩
  cases hr : (do let x ← choice front; pure [x] : GP (List Nat)) w with
  | mk r w' =>
    cases r with
    | error e => exact (wp_error hw hr).elim
    | ok r =>
      obtain ⟨x, hx, rfl, hn, hi⟩ := wp_ok hw hr
      refine ⟨x, w', hrun.trans hr, g2 x hx, hn, hi, ?_⟩
      intro y hy u v hu hv' hb
      by_cases h2p : pop.length < 2
      · have hxy : x = y := by
          match pop, hne, h2p with
          | [p], _, _ =>
            have a1 := g2 x hx
            simp at a1 hy
            rw [a1, hy]
        subst hxy
        exact hv'.det hu
      · rw [if_neg h2p] at hv
        subst hv
        have eu := (forall₂_idxOf h2 (g2 x hx)).det hu
        have ev := (forall₂_idxOf h2 hy).det hv'
        have := ((g5 _).1 (List.mem_map.2 ⟨x, hx, rfl⟩)).2 y hy (by
          rw [eu, ev, below_neg]; exact hb)
        rw [eu, ev] at this
        exact List.map_injective_iff.2 (fun a b h => Score.neg_inj h) this

/-- **C21**, errors: any other number than one is refused, and so is an empty population. -/
theorem C21_errors (w : World) (pop : List Nat) :
    (∀ n : Int, n ≠ 1 → eliminateFromPareto pop n w = (.error .notImplemented, w)) ∧
    (∃ w', eliminateFromPareto [] 1 w = (.error .indexError, w')) := by
  refine ⟨fun n hn => ?_, ⟨_, rfl⟩⟩
  unfold eliminateFromPareto
  rw [if_pos hn]; rfl

/-- Three evaluated individuals; the third is best, the other two are incomparable. -/
def elimWorld : World :=
  { nodes := [], rnd := fun _ => 0,
    inds := [⟨0, {}, some [.fin 1, .fin 2]⟩, ⟨0, {}, some [.fin 2, .fin 1]⟩,
      ⟨0, {}, some [.fin 3, .fin 3]⟩] }

example : ∃ x w', eliminateFromPareto [0, 1, 2] 1 elimWorld = (.ok [x], w') ∧ x ∈ [0, 1, 2] := by
  obtain ⟨x, w', h1, h2, _⟩ := C21_elimination (w := elimWorld) (pop := [0, 1, 2]) (k := 2) (by simp)
    (by
      intro i hi
      simp at hi
      rcases hi with rfl | rfl | rfl
      · exact ⟨_, ⟨_, rfl, rfl⟩, rfl⟩
      · exact ⟨_, ⟨_, rfl, rfl⟩, rfl⟩
      · exact ⟨_, ⟨_, rfl, rfl⟩, rfl⟩)
  exact ⟨x, w', h1, h2⟩

/-! ## C78: offspring creation -/

theorem twoMetrics_wp {i : Nat} {w : World} : wp (twoMetrics i)
    (fun v w' => v.length = 2 ∧ w' = w) (fun _ w' => w' = w) w := by
  unfold twoMetrics
  rw [wp_bind]
  unfold fitnessValues
  rw [wp_bind]
  unfold getInd
  rw [wp_ofExcept]
  cases w.inds[i]? with
  | none => rfl
  | some ind =>
    dsimp only
    cases ind.fitness with
    | none => rfl
    | some v =>
      dsimp only
      refine wp_pure.2 ?_
      match v with
      | [] => rfl
      | [_] => rfl
      | _ :: _ :: _ => exact ⟨rfl, rfl⟩

theorem mapGP_twoMetrics {w : World} : ∀ {pop : List Nat}, wp (mapGP twoMetrics pop)
    (fun vs w' => vs.length = pop.length ∧ (∀ v ∈ vs, v.length = 2) ∧ w' = w) (fun _ w' => w' = w) w
  | [] => ⟨rfl, by simp, rfl⟩
  | i :: pop => by
    unfold mapGP
    rw [wp_bind]
    refine wp_mono ?_ (fun _ _ h => h) twoMetrics_wp
    rintro v w₁ ⟨h1, rfl⟩
    rw [wp_bind]
    refine wp_mono ?_ (fun _ _ h => h) (mapGP_twoMetrics (pop := pop))
    rintro vs w₂ ⟨h2, h3, rfl⟩
    refine wp_pure.2 ⟨by simp [h2], ?_, rfl⟩
    intro u hu
    rcases List.mem_cons.1 hu with rfl | hu
    · exact h1
    · exact h3 u hu

theorem nodes_only {w w' : World} {n : Nat} {ss : List Step} (h : Is w n ss)
    (hn : w'.nodes = w.nodes) (hi : w'.inds = w.inds) : Is w' n ss :=
  h.mono ⟨hn ▸ List.prefix_rfl, hi ▸ List.prefix_rfl⟩

theorem wp_offspringOf {c : OpConfig} (hps : PSetOk c.ps) {cxpb : ℚ} {w : World} {i j : Nat}
    {p q : List Step} (hi : Is w i p) (hj : Is w j q) (hp : PipelineOk c.ps p)
    (hq : PipelineOk c.ps q) :
    wp (offspringOf c cxpb i j)
      (fun n w' => ∃ child, Fresh w w' n child ∧ PipelineOk c.ps child ∧
        ((∃ kind, Mutated c.ps kind p child) ∨ ∃ other, Crossed p q child other))
      (fun _ w' => Extends w w') w := by
  have hmut : ∀ w₁, w₁.nodes = w.nodes → w₁.inds = w.inds → wp (opMutate c i)
      (fun n w' => ∃ child, Fresh w w' n child ∧ PipelineOk c.ps child ∧
        ((∃ kind, Mutated c.ps kind p child) ∨ ∃ other, Crossed p q child other))
      (fun _ w' => Extends w w') w₁ := by
    intro w₁ hn hi'
    have he : Extends w w₁ := ⟨hn ▸ List.prefix_rfl, hi' ▸ List.prefix_rfl⟩
    refine wp_mono ?_ ?_ (wp_opMutate hps (hi.mono he) hp)
    · rintro n w' ⟨ss', f, name, h1, h2, h3, h4, _⟩
      obtain ⟨as, g1, g2⟩ := h1.is
      refine ⟨ss', ⟨Extends.trans he h1.ext, ?_, as, g1, ?_⟩, h2.1, Or.inl
        ⟨_, mutShape_mutated h2 (by rintro k rfl; simp [MutFn.name] at h4)⟩⟩
      · rw [← hi']; exact h1.new
      · intro a ha; rw [← hn]; exact g2 a ha
    · rintro e w' ⟨h1, _⟩; exact Extends.trans he h1
  have hmate : ∀ w₁, w₁.nodes = w.nodes → w₁.inds = w.inds → wp (opMate c i j)
      (fun n w' => ∃ child, Fresh w w' n child ∧ PipelineOk c.ps child ∧
        ((∃ kind, Mutated c.ps kind p child) ∨ ∃ other, Crossed p q child other))
      (fun _ w' => Extends w w') w₁ := by
    intro w₁ hn hi'
    have he : Extends w w₁ := ⟨hn ▸ List.prefix_rfl, hi' ▸ List.prefix_rfl⟩
    refine wp_mono ?_ ?_ (wp_opMate hps (hi.mono he) (hj.mono he) hp hq)
    · rintro n w' ⟨c₁, c₂, h1, h2, h3, _⟩
      obtain ⟨as, g1, g2⟩ := h1.is
      refine ⟨c₁, ⟨Extends.trans he h1.ext, ?_, as, g1, ?_⟩, h3, Or.inr ⟨c₂, h2⟩⟩
      · rw [← hi']; exact h1.new
      · intro a ha; rw [← hn]; exact g2 a ha
    · rintro e w' ⟨h1, _⟩; exact Extends.trans he h1
  unfold offspringOf
  rw [wp_bind]
  unfold randomBelow
  rw [wp_bind]
  refine wp_draw (fun d => ?_)
  refine wp_pure.2 ?_
  rw [wp_ite]
  refine ⟨fun _ => ?_, fun _ => hmut _ rfl rfl⟩
  obtain ⟨ind₁, l₁, e1, e2, e3⟩ := is_iff.1 hi
  obtain ⟨ind₂, l₂, f1, f2, f3⟩ := is_iff.1 hj
  rw [wp_bind]
  refine wp_validCrossoverFunctions (w := advance w) e1 f1 e2 f2 ?_
  rw [wp_ite]
  exact ⟨fun _ => hmate _ rfl rfl, fun _ => hmut _ rfl rfl⟩

/-- `x` is an offspring of the pair `(i, j)` of individuals of `w`, made after `w`: a new
individual with a well-formed pipeline, a mutation of `i` or a crossing of `i` and `j`. -/
def Spec.OffspringOf (ps : PSet) (w w' : World) (i j x : Nat) : Prop :=
  w.inds.length ≤ x ∧ ∃ p q child, Is w i p ∧ Is w j q ∧ Is w' x child ∧ PipelineOk ps child ∧
    ((∃ kind, Mutated ps kind p child) ∨ ∃ other, Crossed p q child other)

theorem wp_mapOffspring {c : OpConfig} (hps : PSetOk c.ps) {cxpb : ℚ} {w₀ : World} (f g : Nat × Nat → Nat) :
    ∀ (pairs : List (Nat × Nat)) (w : World), Extends w₀ w →
    (∀ p ∈ pairs, (∃ ss, Is w₀ (f p) ss ∧ PipelineOk c.ps ss) ∧
      ∃ ss, Is w₀ (g p) ss ∧ PipelineOk c.ps ss) →
    wp (mapGP (fun p => offspringOf c cxpb (f p) (g p)) pairs)
      (fun xs w' => Extends w w' ∧ xs.Nodup ∧ (∀ x ∈ xs, w.inds.length ≤ x ∧ x < w'.inds.length) ∧
        List.Forall₂ (fun p x => OffspringOf c.ps w₀ w' (f p) (g p) x) pairs xs)
      (fun _ w' => Extends w w') w
  | [], w, _, _ => ⟨Extends.refl w, by simp, by simp, .nil⟩
  | p :: pairs, w, he, hp => by
    obtain ⟨⟨s1, h1, h1'⟩, s2, h2, h2'⟩ := hp p (by simp)
    unfold mapGP
    rw [wp_bind]
    refine wp_mono ?_ (fun _ _ h => h) (wp_offspringOf hps (h1.mono he) (h2.mono he) h1' h2')
    rintro x w₁ ⟨child, g1, g2, g3⟩
    rw [wp_bind]
    refine wp_mono ?_ (fun _ _ h => Extends.trans g1.ext h) (wp_mapOffspring hps f g pairs w₁
      (Extends.trans he g1.ext) (fun q hq => hp q (by simp [hq])))
    rintro xs w₂ ⟨k1, k2, k3, k4⟩
    obtain ⟨as, m1, m2⟩ := g1.is
    have hx : x < w₁.inds.length := by
      obtain ⟨ind, l, e, _⟩ := isAt_iff.1 m1
      exact (List.getElem?_eq_some_iff.1 e).1
    have hle : w.inds.length ≤ w₁.inds.length := g1.ext.2.length_le
    have hle2 : w₁.inds.length ≤ w₂.inds.length := k1.2.length_le
    have hle0 : w₀.inds.length ≤ w.inds.length := he.2.length_le
    refine wp_pure.2 ⟨Extends.trans g1.ext k1, ?_, ?_, .cons ?_ k4⟩
    · rw [List.nodup_cons]
      refine ⟨fun h => ?_, k2⟩
      have := (k3 x h).1
      omega
    · intro y hy
      rcases List.mem_cons.1 hy with rfl | hy
      · exact ⟨g1.new, by omega⟩
      · exact ⟨by have := (k3 y hy).1; omega, (k3 y hy).2⟩
    · exact ⟨by have := g1.new; omega, s1, s2, child, h1, h2, Is.mono ⟨as, m1⟩ k1, g2, g3⟩

/-- **C78.** If `create_from_population` returns, it returns as many individuals as asked for,
all new and different; each is well formed and is a mutation of a member of the population
or a crossing of members at two different places, which are two different members unless the
population lists an individual twice; no existing individual is modified. -/
theorem C78_offspring {c : OpConfig} (hps : PSetOk c.ps) {w w' : World} {pop xs : List Nat}
    (hpop : ∀ i ∈ pop, ∃ ss, Is w i ss ∧ PipelineOk c.ps ss) {n : Int} {cxpb : ℚ}
    (run : createFromPopulation c pop n cxpb w = (.ok xs, w')) :
    xs.length = n.toNat ∧ xs.Nodup ∧ Extends w w' ∧
    ∀ x ∈ xs, ∃ (p q i j : Nat), p ≠ q ∧ pop[p]? = some i ∧ pop[q]? = some j ∧ (pop.Nodup → i ≠ j) ∧
      OffspringOf c.ps w w' i j x := by
  have hw : wp (createFromPopulation c pop n cxpb)
      (fun xs w' => xs.length = n.toNat ∧ xs.Nodup ∧ Extends w w' ∧
        ∀ x ∈ xs, ∃ (p q i j : Nat), p ≠ q ∧ pop[p]? = some i ∧ pop[q]? = some j ∧ (pop.Nodup → i ≠ j) ∧
          OffspringOf c.ps w w' i j x) (fun _ _ => True) w := by
    unfold createFromPopulation
    rw [wp_ite]
    refine ⟨fun _ => trivial, fun hlen => ?_⟩
    rw [wp_bind]
    refine wp_mono ?_ (fun _ _ _ => trivial) mapGP_twoMetrics
    rintro vs w₁ ⟨h1, h2, rfl⟩
    rw [wp_bind]
    have hv : Vectors vs 2 := ⟨by decide, h2⟩
    refine wp_mono ?_ (fun _ _ h => h.elim) (wp_nsga2Select (P := Extends w₁)
      (fun _ h => h) hv n w₁ (Extends.refl _) (by omega))
    rintro ps w₂ ⟨⟨g2, g3⟩, hsame⟩
    refine wp_mono ?_ (fun _ _ _ => trivial) (wp_mapOffspring hps (fun p => pop.getD p.1 0)
      (fun p => pop.getD p.2 0) ps w₂ hsame ?_)
    · rintro xs w₃ ⟨k1, k2, k3, k4⟩
      refine ⟨by rw [← k4.length_eq]; exact g2, k2, Extends.trans hsame k1, ?_⟩
      intro x hx
      obtain ⟨p, hp, ho⟩ : ∃ p ∈ ps, OffspringOf c.ps w₁ w₃ (pop.getD p.1 0) (pop.getD p.2 0) x := by
        clear g2 g3 k2 k3
        induction k4 with
        | nil => simp at hx
        | cons h _ ih =>
          rcases List.mem_cons.1 hx with rfl | hx
          · exact ⟨_, by simp, h⟩
          · obtain ⟨p, hp, ho⟩ := ih hx
            exact ⟨p, by simp [hp], ho⟩
      obtain ⟨b1, b2, b3⟩ := g3 p hp
      rw [h1] at b1 b2
      rw [List.getD_eq_getElem _ _ b1, List.getD_eq_getElem _ _ b2] at ho
      exact ⟨_, _, _, _, b3, List.getElem?_eq_getElem b1, List.getElem?_eq_getElem b2,
        fun hnd h => b3 ((hnd.getElem_inj_iff).1 h), ho⟩
    · intro p hp
      obtain ⟨b1, b2, _⟩ := g3 p hp
      rw [h1] at b1 b2
      rw [List.getD_eq_getElem _ _ b1, List.getD_eq_getElem _ _ b2]
      exact ⟨hpop _ (List.getElem_mem b1), hpop _ (List.getElem_mem b2)⟩
  have := wp_ok hw run
  exact this

/-- The concrete population of `Ex.w0`, evaluated. -/
def selWorld : World :=
  ⟨Ex.nodes0, [⟨0, {}, some [.fin 1, .fin 2]⟩, ⟨3, {}, some [.fin 2, .fin 1]⟩,
    ⟨4, {}, some [.ninf, .fin 0]⟩], fun n => n⟩

/-- Two offspring are made of the three members. -/
example : ((createFromPopulation { ps := Ex.space, maxLength := some 4, completed := fun _ => false } [0, 1, 2] 2
    (1/2) selWorld).1).toOption.map List.length = some 2 := by decide +kernel

end Gama
