import Verif.Props.ChanceParents
import Verif.Props.Selection

/-!
# Which of equal items a front keeps, and how likely each elimination is

`ParetoFront`, `gama/utilities/generic/paretofront.py`; `eliminate_from_pareto`,
`gama/genetic_programming/selection.py` l.32-41.
-/

namespace Gama
open Spec PyM

/-- `x` is offered at a point before which nothing was at least as good on every objective, and nothing
better is offered after it. -/
def Spec.Earliest {α S : Type} [LE S] (val : α → List S) (items : List α) (x : α) : Prop :=
  ∃ before after, items = before ++ x :: after ∧ (∀ y ∈ before, ¬ Below (val x) (val y)) ∧
    ∀ y ∈ after, Below (val x) (val y) → val y = val x

section
variable {α S : Type} [DecidableEq α] [LinearOrder S]

theorem earliest_snoc {val : α → List S} {items : List α} {x new : α} :
    Earliest val (items ++ [new]) x ↔ (x = new ∧ ∀ y ∈ items, ¬ Below (val new) (val y)) ∨
      (Earliest val items x ∧ (Below (val x) (val new) → val new = val x)) := by
  constructor
  · rintro ⟨l, r, h, hl, hr⟩
    rcases List.eq_nil_or_concat r with rfl | ⟨r', z, rfl⟩
    · obtain ⟨e1, e2⟩ := List.append_inj' (t₁ := [new]) (t₂ := [x]) h rfl
      injection e2 with e2
      subst e2; subst e1
      exact Or.inl ⟨rfl, hl⟩
    · rw [List.concat_eq_append, ← List.cons_append, ← List.append_assoc] at h
      obtain ⟨e1, e2⟩ := List.append_inj' h rfl
      injection e2 with e2
      subst e2; subst e1
      exact Or.inr ⟨⟨l, r', rfl, hl, fun y hy => hr y (by simp [hy])⟩, hr _ (by simp)⟩
  · rintro (⟨rfl, h⟩ | ⟨⟨l, r, rfl, hl, hr⟩, h⟩)
    · exact ⟨items, [], rfl, h, by simp⟩
    · refine ⟨l, r ++ [new], by simp, hl, fun y hy => ?_⟩
      rcases List.mem_append.1 hy with hy | hy
      · exact hr y hy
      · rw [List.mem_singleton.1 hy]; exact h

theorem paretoOffer_snoc {b : Bool} {val : α → List S} (new : α) : ∀ {items front front' : List α},
    paretoOffer b val items front = (.ok (), front') →
    paretoOffer b val (items ++ [new]) front = (paretoUpdate b val new >>= fun _ => pure ()) front'
  | [], front, front', h => by cases h; rfl
  | x :: items, front, front', h => by
    have h : (paretoUpdate b val x >>= fun _ => paretoOffer b val items) front = (.ok (), front') := h
    show (paretoUpdate b val x >>= fun _ => paretoOffer b val (items ++ [new])) front = _
    cases hr : paretoUpdate b val x front with
    | mk r f =>
      cases r with
      | error e => rw [bind_error hr] at h; cases h
      | ok a =>
        rw [bind_ok hr] at h ⊢
        exact paretoOffer_snoc new h

/-- **C189.** The members of a front are, for every best vector of values, the item that was offered first
of those with these values. -/
theorem C189 {b : Bool} {val : α → List S} {k : Nat} (items : List α)
    (hk : ∀ x ∈ items, (val x).length = k) :
    ∃ front, paretoOffer b val items [] = (.ok (), front) ∧ front.Nodup ∧
      ∀ x, x ∈ front ↔ Earliest val items x := by
  obtain ⟨front, h1, hsub, hanti, hcov, hmax, hnd⟩ := C15_front_is_maximal (b := b) items hk
  refine ⟨front, h1, hnd.of_map, ?_⟩
  clear hsub hanti hcov hmax hnd
  induction items using List.reverseRecOn generalizing front with
  | nil =>
    cases h1
    intro x
    constructor
    · intro h; cases h
    · rintro ⟨l, r, h, _⟩; simp at h
  | append_singleton items new ih =>
    have hk' : ∀ x ∈ items, (val x).length = k := fun x hx => hk x (by simp [hx])
    obtain ⟨f, g1, hsub, hanti, hcov, _, _⟩ := C15_front_is_maximal (b := b) items hk'
    have ih := ih hk' f g1
    have hne : ∀ x ∈ f, ∀ y ∈ f, Below (val x) (val y) → val x = val y := by
      intro x hx y hy hb
      by_cases hxy : x = y
      · rw [hxy]
      · haveI : Std.Symm (fun x y => ¬ Below (val x) (val y) ∧ ¬ Below (val y) (val x)) :=
          ⟨fun _ _ h => ⟨h.2, h.1⟩⟩
        exact absurd hb (hanti.forall hx hy hxy).1
    obtain ⟨r, f', u1, u2, u3, u4⟩ := C16_update_result (b := b) hk' g1 (new := new) (hk new (by simp))
    rw [paretoOffer_snoc new g1, bind_ok u1] at h1
    cases h1
    intro x
    rw [earliest_snoc, ← ih]
    cases r with
    | true =>
      have hno := u2.1 rfl
      rw [(u3 rfl).2 x]
      have ha : ∀ y ∈ items, ¬ Below (val new) (val y) := by
        intro y hy hb
        obtain ⟨z, hz, hbz⟩ := hcov y hy
        exact hno ⟨z, hz, hb.trans hbz⟩
      constructor
      · rintro (h | ⟨h, h'⟩)
        · exact Or.inl ⟨h, ha⟩
        · exact Or.inr ⟨h, fun h'' => absurd h'' h'⟩
      · rintro (⟨h, _⟩ | ⟨h, h'⟩)
        · exact Or.inl h
        · refine Or.inr ⟨h, fun hb => hno ⟨x, h, ?_⟩⟩
          rw [h' hb]; exact Below.refl _
    | false =>
      have hex : ∃ z ∈ f, Below (val new) (val z) := by
        by_contra h
        exact Bool.noConfusion (u2.2 h)
      obtain ⟨z, hz, hbz⟩ := hex
      rw [u4 rfl]
      constructor
      · intro h
        refine Or.inr ⟨h, fun hb => ?_⟩
        have := hne x h z hz (hb.trans hbz)
        rw [← this] at hbz
        exact hbz.antisymm hb
      · rintro (⟨rfl, h⟩ | ⟨h, _⟩)
        · exact absurd hbz (h z (hsub z hz))
        · exact h

end

example : Earliest (fun x : Nat × Nat => [x.2]) [(0, 3), (1, 5), (2, 4), (3, 5)] (1, 5) :=
  ⟨[(0, 3)], [(2, 4), (3, 5)], rfl, by simp [Below], by simp [Below]⟩

/-! ## C190: how likely each elimination is -/

/-- `x` is a member of the population such that no earlier member is as bad or worse on every objective
and no later member is worse. -/
def Spec.FirstWorst (w : World) (pop : List Nat) (x : Nat) : Prop :=
  ∃ before after v, pop = before ++ x :: after ∧ HasFitness w x v ∧
    (∀ y ∈ before, ∀ u, HasFitness w y u → ¬ Below u v) ∧
    ∀ y ∈ after, ∀ u, HasFitness w y u → Below u v → u = v

theorem hasFitness_withRnd {w : World} {i : Nat} {v : List Score} (s : Stream) :
    HasFitness (withRnd w s) i v ↔ HasFitness w i v := Iff.rfl

theorem neg_list_inj {a b : List Score} (h : (a.map fun v => -v) = b.map fun v => -v) : a = b :=
  List.map_injective_iff.2 (fun _ _ h => Score.neg_inj h) h

/-- The members elimination chooses among. -/
theorem eliminate_choices {w : World} {pop : List Nat} {k : Nat}
    (hf : ∀ i ∈ pop, ∃ v, HasFitness w i v ∧ v.length = k) :
    ∃ front : List Nat, front.Nodup ∧ (∀ x, x ∈ front ↔ FirstWorst w pop x) ∧
      ∀ s, eliminateFromPareto pop 1 (withRnd w s)
        = (choice front >>= fun x => pure [x] : GP (List Nat)) (withRnd w s) := by
  obtain ⟨vs, h1, h2, h3⟩ := mapGP_fitness hf
  have hrun : ∀ s, mapGP fitnessValues pop (withRnd w s) = (.ok vs, withRnd w s) := by
    intro s
    obtain ⟨vs', h1', h2', h3'⟩ := mapGP_fitness (w := withRnd w s) hf
    have : vs = vs' := by
      clear h1 h1' h3 h3' hf
      induction h2 generalizing vs' with
      | nil => cases h2'; rfl
      | cons a _ ih => cases h2' with
        | cons a' b' => rw [a.det ((hasFitness_withRnd s).1 a'), ih _ b']
    rw [h1', this]
  by_cases h2p : pop.length < 2
  · match pop, h2p with
    | [], _ =>
      refine ⟨[], by simp, fun x => ?_, fun s => rfl⟩
      constructor
      · intro h; cases h
      · rintro ⟨l, r, v, h, _⟩; simp at h
    | [p], _ =>
      refine ⟨[p], by simp, fun x => ?_, fun s => rfl⟩
      obtain ⟨v, hv, _⟩ := hf p (by simp)
      constructor
      · intro h
        rw [List.mem_singleton.1 h]
        exact ⟨[], [], v, rfl, hv, by simp, by simp⟩
      · rintro ⟨l, r, v, h, _⟩
        rw [h]; simp
  · have hvals : ∀ s, frontValues pop (withRnd w s) = (.ok vs, withRnd w s) := by
      intro s; unfold frontValues; rw [if_neg h2p]; exact hrun s
    have hval : ∀ i ∈ pop, HasFitness w i (vs.getD (pop.idxOf i) []) := fun i hi => forall₂_idxOf h2 hi
    obtain ⟨front, g1, g2, g3⟩ := C189 (b := false) (k := k)
      (val := fun i => (vs.getD (pop.idxOf i) []).map fun v => -v) pop (fun i hi => by
        obtain ⟨v, hv, hk⟩ := hf i hi
        rw [List.length_map, (hval i hi).det hv]; exact hk)
    refine ⟨front, g2, fun x => ?_, fun s => ?_⟩
    · rw [g3]
      constructor
      · rintro ⟨l, r, h, hl, hr⟩
        have hx : x ∈ pop := by rw [h]; simp
        refine ⟨l, r, _, h, hval x hx, ?_, ?_⟩
        · intro y hy u hu hb
          have hy' : y ∈ pop := by rw [h]; simp [hy]
          rw [hu.det (hval y hy')] at hb
          exact hl y hy (below_neg.2 hb)
        · intro y hy u hu hb
          have hy' : y ∈ pop := by rw [h]; simp [hy]
          rw [hu.det (hval y hy')] at hb ⊢
          exact neg_list_inj (hr y hy (below_neg.2 hb))
      · rintro ⟨l, r, v, h, hv, hl, hr⟩
        have hx : x ∈ pop := by rw [h]; simp
        have hxv := hv.det (hval x hx)
        subst hxv
        refine ⟨l, r, h, ?_, ?_⟩
        · intro y hy hb
          have hy' : y ∈ pop := by rw [h]; simp [hy]
          exact hl y hy _ (hval y hy') (below_neg.1 hb)
        · intro y hy hb
          have hy' : y ∈ pop := by rw [h]; simp [hy]
          have := hr y hy _ (hval y hy') (below_neg.1 hb)
          show List.map _ _ = List.map _ _
          rw [this]
    · unfold eliminateFromPareto
      rw [if_neg (by simp), bind_ok (hvals s)]
      simp only [g1]

/-- **C190.** Elimination removes each of the worst members with the same chance, where members with the
same fitness count once and the first of them is meant. -/
theorem C190 {M : Nat} (hM : 0 < M) {w : World} {pop : List Nat} {k : Nat}
    (hf : ∀ i ∈ pop, ∃ v, HasFitness w i v ∧ v.length = k) {worst : List Nat} (hn : worst.Nodup)
    (hw : ∀ x, x ∈ worst ↔ FirstWorst w pop x) (hd : worst.length ∣ M) {x : Nat} (hx : x ∈ worst) :
    Chance M (eliminateFromPareto pop 1) w (fun r _ => r = [x]) (1 / worst.length) := by
  obtain ⟨front, g1, g2, g3⟩ := eliminate_choices hf
  have hp : front.Perm worst := (List.perm_ext_iff_of_nodup g1 hn).2 fun y => by rw [g2, hw]
  rw [← hp.length_eq] at hd ⊢
  have h : Odds M (choice front >>= fun x => pure [x] : GP (List Nat)) w (fun r _ => r = [x])
      (1 / front.length) :=
    Odds.pick g1 hd (hp.mem_iff.2 hx) (Odds.pure_yes rfl) (fun y _ hy => Odds.pure_no (by simpa using hy))
  obtain ⟨t, hb, ht, hq⟩ := h
  exact Odds.chance hM (fun _ _ _ => Iff.rfl) ⟨t, fun s => (g3 s).trans (hb s), ht, hq⟩

/-- **C190**: any other member is not removed. -/
theorem C190_never {w : World} {pop : List Nat} {k : Nat}
    (hf : ∀ i ∈ pop, ∃ v, HasFitness w i v ∧ v.length = k) {x : Nat} (hx : ¬ FirstWorst w pop x)
    {s : Stream} {r : List Nat} {w' : World} (h : eliminateFromPareto pop 1 (withRnd w s) = (.ok r, w')) :
    x ∉ r := by
  obtain ⟨front, _, g2, g3⟩ := eliminate_choices hf
  rw [g3] at h
  have hw : wp (choice front >>= fun x => pure [x] : GP (List Nat)) (fun r _ => x ∉ r) (fun _ _ => True)
      (withRnd w s) := by
    rw [wp_bind]
    refine wp_choice (fun _ => trivial) (fun y hy => ?_)
    show x ∉ [y]
    rintro h
    rw [List.mem_singleton.1 h] at hx
    exact hx ((g2 y).1 hy)
  exact wp_ok hw h

/-- Four members, of which the first and the third are as bad, and the second is bad in another way. -/
def tiedWorld : World :=
  { nodes := [], rnd := fun _ => 0,
    inds := [⟨0, {}, some [.fin 1, .fin 2]⟩, ⟨0, {}, some [.fin 2, .fin 1]⟩,
      ⟨0, {}, some [.fin 1, .fin 2]⟩, ⟨0, {}, some [.fin 3, .fin 3]⟩] }

theorem tied_worst : ∀ x, x ∈ [0, 1] ↔ FirstWorst tiedWorld [0, 1, 2, 3] x := by
  have hv : ∀ {i : Nat} {v u : List Score}, HasFitness tiedWorld i v → HasFitness tiedWorld i u → u = v :=
    fun h h' => (HasFitness.det h h').symm
  have f0 : HasFitness tiedWorld 0 [.fin 1, .fin 2] := ⟨_, rfl, rfl⟩
  have f1 : HasFitness tiedWorld 1 [.fin 2, .fin 1] := ⟨_, rfl, rfl⟩
  have f2 : HasFitness tiedWorld 2 [.fin 1, .fin 2] := ⟨_, rfl, rfl⟩
  have f3 : HasFitness tiedWorld 3 [.fin 3, .fin 3] := ⟨_, rfl, rfl⟩
  have n1 : ¬ Below [Score.fin 2, .fin 1] [.fin 1, .fin 2] := by
    rw [← allLe_iff (by rfl)]; decide +kernel
  have n2 : ¬ Below [Score.fin 1, .fin 2] [.fin 2, .fin 1] := by
    rw [← allLe_iff (by rfl)]; decide +kernel
  have n3 : ¬ Below [Score.fin 3, .fin 3] [.fin 1, .fin 2] := by
    rw [← allLe_iff (by rfl)]; decide +kernel
  have n4 : ¬ Below [Score.fin 3, .fin 3] [.fin 2, .fin 1] := by
    rw [← allLe_iff (by rfl)]; decide +kernel
  have y1 : Below [Score.fin 1, .fin 2] [.fin 3, .fin 3] := by
    rw [← allLe_iff (by rfl)]; decide +kernel
  intro x
  constructor
  · intro h
    rcases (by simpa using h : x = 0 ∨ x = 1) with rfl | rfl
    · refine ⟨[], [1, 2, 3], _, rfl, f0, by simp, ?_⟩
      intro y hy u hu hb
      rcases (by simpa using hy : y = 1 ∨ y = 2 ∨ y = 3) with rfl | rfl | rfl
      · rw [hv f1 hu] at hb; exact absurd hb n1
      · exact hv f2 hu
      · rw [hv f3 hu] at hb; exact absurd hb n3
    · refine ⟨[0], [2, 3], _, rfl, f1, ?_, ?_⟩
      · intro y hy u hu hb
        rw [List.mem_singleton.1 hy] at hu
        rw [hv f0 hu] at hb; exact n2 hb
      · intro y hy u hu hb
        rcases (by simpa using hy : y = 2 ∨ y = 3) with rfl | rfl
        · rw [hv f2 hu] at hb; exact absurd hb n2
        · rw [hv f3 hu] at hb; exact absurd hb n4
  · rintro ⟨l, r, v, h, hx, hl, hr⟩
    match l, h with
    | [], h => injection h with h _; subst h; simp
    | [_], h => injection h with h h'; injection h' with h' _; subst h'; simp
    | [a, b], h =>
      injection h with h h'; injection h' with h' h''; injection h'' with h'' _
      subst h; subst h'; subst h''
      exact absurd (by rw [hv f2 hx]; exact Below.refl _) (hl 0 (by simp) _ f0)
    | [a, b, c], h =>
      injection h with h h'; injection h' with h' h''; injection h'' with h'' h3; injection h3 with h3 _
      subst h; subst h'; subst h''; subst h3
      exact absurd (by rw [hv f3 hx]; exact y1) (hl 0 (by simp) _ f0)
    | a :: b :: c :: d :: l, h => simp at h

/-- The first two are equally likely to go, and the third stays although it is as bad as the first. -/
example : Chance 2 (eliminateFromPareto [0, 1, 2, 3] 1) tiedWorld (fun r _ => r = [1]) (1 / 2) :=
  C190 (k := 2) (by decide) (by
    intro i hi
    rcases (by simpa using hi : i = 0 ∨ i = 1 ∨ i = 2 ∨ i = 3) with rfl | rfl | rfl | rfl <;>
      exact ⟨_, ⟨_, rfl, rfl⟩, rfl⟩) (worst := [0, 1]) (by decide) tied_worst (by decide) (by decide)

end Gama
