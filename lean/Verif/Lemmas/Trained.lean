import Verif.Model.Trained
import Verif.Props.Phase
import Verif.Lemmas.Rungs
import Verif.Props.Best

/-! # The fitness of individuals in a whole fit -/

namespace Gama
open PyM Spec

theorem Moves.induct' {S I A B J Fn V X Ω E P : Type} {U : Setup S I A B J Fn V X Ω E P} {D : List (Str × V)}
    {Q : S × Lib E P (List Score) → Prop} {a b : S × Lib E P (List Score)} (h : Moves U D a b)
    (ha : Q a) (hs : ∀ x y, Moves U D a x → Move U D x y → Q x → Q y) : Q b := by
  induction h with
  | refl => exact ha
  | tail h1 h2 ih => exact hs _ _ h1 h2 ih

theorem valuesIn_of {w : World} {x : Nat} {v : List Score} (h : HasFitness w x v) : valuesIn w x = v := by
  obtain ⟨ind, h1, h2⟩ := h
  unfold valuesIn
  rw [h1]
  show ind.fitness.getD [] = v
  rw [h2]
  rfl

theorem trainedOf_eq {pop : List Nat} {w : World} (h : ∀ x ∈ pop, ∃ v, HasFitness w x v) :
    trainedOf pop w = bestFit (valuesIn w) pop := by
  have key : ∀ pop : List Nat, (∀ x ∈ pop, ∃ v, HasFitness w x v) → ∃ vs, mapGP fitnessValues pop w = (.ok vs, w) := by
    intro pop
    induction pop with
    | nil => intro _; exact ⟨[], rfl⟩
    | cons x pop ih =>
      intro h
      obtain ⟨v, hv⟩ := h x (by simp)
      obtain ⟨vs, h1⟩ := ih fun y hy => h y (by simp [hy])
      refine ⟨v :: vs, ?_⟩
      show (fitnessValues x >>= _) w = _
      rw [bind_ok (fitnessValues_run hv), bind_ok h1]; rfl
  obtain ⟨vs, hvs⟩ := key pop h
  unfold trainedOf
  rw [hvs]

theorem Grown.fitness {w w' : World} (h : Grown w w') {x : Nat} {v : List Score} (hx : HasFitness w x v) :
    HasFitness w' x v := by
  obtain ⟨t, ht⟩ := h
  obtain ⟨ind, h1, h2⟩ := hx
  have h3 : (w'.inds.map IndCell.fitness)[x]? = some (some v) := by
    rw [← ht, List.getElem?_append_left (by
      rw [List.length_map]; exact (List.getElem?_eq_some_iff.1 h1).1), List.getElem?_map, h1, ← h2]
    rfl
  rw [List.getElem?_map] at h3
  cases h4 : w'.inds[x]? with
  | none => rw [h4] at h3; cases h3
  | some ind' =>
    rw [h4] at h3
    exact ⟨ind', h4 ▸ rfl, Option.some.inj h3⟩

theorem hasFitness_record {w : World} {x : Nat} (hx : x < w.inds.length) (v : List Score) :
    HasFitness (recordFitness x v w) x v := by
  refine ⟨{ w.inds[x] with fitness := some v }, ?_, rfl⟩
  unfold recordFitness
  dsimp only
  rw [List.getElem?_modify, List.getElem?_eq_getElem hx]
  simp

theorem hasFitness_record_ne {w : World} {x y : Nat} (hxy : y ≠ x) {u : List Score} (h : HasFitness w x u)
    (v : List Score) : HasFitness (recordFitness y v w) x u := by
  obtain ⟨ind, h1, h2⟩ := h
  refine ⟨ind, ?_, h2⟩
  unfold recordFitness
  dsimp only
  rw [List.getElem?_modify, h1]
  simp [hxy]

section
variable {S I A B J Fn V X Ω E P : Type}

/-- Where the individuals of a search are. -/
structure Worldly (U : Setup S I A B J Fn V X Ω E P) : Prop where
  go : ∀ a q s, U.client.waits s = false → Grown (U.world s) (U.world (U.client.step (U.client.go a q) s))
  raises : ∀ e s, U.client.waits s = true → U.world (U.client.step (U.client.waited (.raises e)) s) = U.world s
  completes : ∀ r w s j, U.client.waits s = true →
    U.world (U.client.step (U.client.waited (.completes 0 r w)) (U.client.setPending [j] s)) = w

/-- The fitness of an individual is what the search was told last about it; all that it was told
satisfies `T`. -/
def LastFit (U : Setup S I A B J Fn V X Ω E P) (D : List (Str × V)) (T : S → EvalRec E P (List Score) → Prop)
    (s : S) : Prop :=
  ∃ told, List.Forall₂ (ToldAs U D) (results (U.client.history s)) told ∧
    (∀ t₁ r t₂, told = t₁ ++ r :: t₂ → (∀ r' ∈ t₂, r'.ident ≠ r.ident) → HasFitness (U.world s) r.ident r.score) ∧
    ∀ r ∈ told, T s r

theorem lastFit_move {U : Setup S I A B J Fn V X Ω E P} (hC : U.client.Lawful) (hW : Worldly U) {D : List (Str × V)}
    {T : S → EvalRec E P (List Score) → Prop} {x y : S × Lib E P (List Score)} (hm : Move U D x y)
    (hknown : ∀ j ∈ U.client.submitted x.1, U.ident j < (U.world x.1).inds.length)
    (hkeep : ∀ r, T x.1 r → T y.1 r)
    (hnew : ∀ j r, Expected U x.1 j → Returned U D j r → r.pipeline = pipelineOf (U.ident j) (U.world x.1) →
      T y.1 r)
    (h : LastFit U D T x.1) : LastFit U D T y.1 := by
  obtain ⟨told, h1, h2, h3⟩ := h
  replace h3 : ∀ r ∈ told, T y.1 r := fun r hr => hkeep r (h3 r hr)
  cases hm with
  | still => exact ⟨told, h1, h2, h3⟩
  | go b q hw =>
    rename_i s l
    obtain ⟨new, n1, n2, -⟩ := hC.go (U.look (inLibrary l) b) q s [] hw
    refine ⟨told, ?_, ?_, h3⟩
    · show List.Forall₂ _ (results (U.client.history (U.client.step _ s))) told
      rw [n2]; exact h1
    · intro t₁ r t₂ e hl
      exact (hW.go _ q s hw).fitness (h2 t₁ r t₂ e hl)
  | raised e hw =>
    rename_i s l
    obtain ⟨-, -, r3, -⟩ := hC.raises e s [] hw
    refine ⟨told, ?_, ?_, h3⟩
    · show List.Forall₂ _ (results (U.client.history (U.client.step _ s))) told
      rw [r3]; exact h1
    · intro t₁ r t₂ e' hl
      show HasFitness (U.world (U.client.step _ s)) _ _
      rw [hW.raises e s hw]; exact h2 t₁ r t₂ e' hl
  | failed j hw haw =>
    rename_i s l
    obtain ⟨-, -, c3⟩ := hC.completes .failed (U.world s) s [] j [] hw
    refine ⟨told, ?_, ?_, h3⟩
    · show List.Forall₂ _ (results (U.client.history (U.client.step _ _))) told
      rw [c3]
      unfold results at h1 ⊢
      rw [List.filter_append]
      simpa using h1
    · intro t₁ r t₂ e' hl
      show HasFitness (U.world (U.client.step _ _)) _ _
      rw [hW.completes .failed _ s j hw]; exact h2 t₁ r t₂ e' hl
  | saved j r sc hw haw hr hp hsc =>
    rename_i s l
    obtain ⟨-, -, c3⟩ := hC.completes (.result r.error.isNone sc) (recordFitness r.ident r.score (U.world s))
      s [] j [] hw
    refine ⟨told ++ [r], ?_, ?_, ?_⟩
    · show List.Forall₂ _ (results (U.client.history (U.client.step _ _))) _
      rw [c3]
      unfold results
      rw [List.filter_append]
      exact forall₂_snoc h1 ⟨hr, sc, rfl, hsc⟩
    · intro t₁ q t₂ e hl
      show HasFitness (U.world (U.client.step _ _)) _ _
      rw [hW.completes _ _ s j hw]
      rcases List.eq_nil_or_concat t₂ with rfl | ⟨t, z, rfl⟩
      · have := List.append_inj' e rfl
        obtain ⟨-, e2⟩ := this
        injection e2 with e2 _
        subst e2
        refine hasFitness_record ?_ _
        rw [ident_of_returned hr]
        exact hknown j (haw.subset (by simp))
      · rw [List.concat_eq_append] at e hl
        have e' : told ++ [r] = (t₁ ++ q :: t) ++ [z] := by rw [e]; simp
        obtain ⟨e1, e2⟩ := List.append_inj' e' rfl
        injection e2 with e2 _
        subst e2
        refine hasFitness_record_ne (hl r (by simp)) ?_ _
        exact h2 t₁ q t e1 fun r' hr' => hl r' (by simp [hr'])
    · intro r' hr'
      rcases List.mem_append.1 hr' with hr' | hr'
      · exact h3 r' hr'
      · rw [List.mem_singleton.1 hr']
        exact hnew j r haw hr hp
  | interrupted j r e hw haw hr hp =>
    rename_i s l
    obtain ⟨-, r2, r3, r4⟩ := hC.raises e s [] hw
    refine ⟨told, ?_, ?_, h3⟩
    · show List.Forall₂ _ (results (U.client.history (U.client.step _ s))) told
      rw [r3]; exact h1
    · intro t₁ r t₂ e' hl
      show HasFitness (U.world (U.client.step _ s)) _ _
      rw [hW.raises e s hw]; exact h2 t₁ r t₂ e' hl

/-- What is known of the individuals of jobs that are done stays. -/
theorem fit_kept {U : Setup S I A B J Fn V X Ω E P} (hW : Worldly U) {D : List (Str × V)}
    {x y : S × Lib E P (List Score)} (hm : Move U D x y) {z : Nat} {v : List Score}
    (hz : ∀ j, Expected U x.1 j → U.ident j ≠ z) (h : HasFitness (U.world x.1) z v) :
    HasFitness (U.world y.1) z v := by
  cases hm with
  | still => exact h
  | go b q hw => exact (hW.go _ q _ hw).fitness h
  | raised e hw => dsimp only; rw [hW.raises e _ hw]; exact h
  | failed j hw haw => dsimp only; rw [hW.completes .failed _ _ j hw]; exact h
  | saved j r sc hw haw hr hp hsc =>
    dsimp only
    rw [hW.completes _ _ _ j hw]
    exact hasFitness_record_ne (by rw [ident_of_returned hr]; exact hz j haw) h _
  | interrupted j r e hw haw hr hp => dsimp only; rw [hW.raises e _ hw]; exact h

end

/-! ### Evolution -/

theorem ea_grown (c : OpConfig) (cxpb : ℚ) (maxN : Option Int) (size : Nat) (i : EaInput World) (s : Ea World Nat)
    (hi : ∀ k r w, i.wait ≠ .completes k r w) :
    Grown s.world (eaStep (gamaOps c cxpb) maxN size i s).world := by
  obtain ⟨hcreate, helim, hnew, hgrow⟩ := gamaOps_new c cxpb
  obtain ⟨pc, world, population, pending, evaluated, history, submitted⟩ := s
  unfold eaStep
  cases pc with
  | start c => dsimp only; split <;> exact Grown.refl _
  | clear c => cases c <;> exact Grown.refl _
  | submit rest => cases rest <;> exact Grown.refl _
  | loop =>
    dsimp only
    split
    · cases hw : i.wait with
      | raises e => exact Grown.refl _
      | completes k r w => exact absurd hw (hi k r w)
    · exact Grown.refl _
  | got x r =>
    cases r with
    | failed => exact Grown.refl _
    | result b sc => cases b <;> exact Grown.refl _
  | full =>
    dsimp only
    split
    · have hg := helim population world
      cases ho : (gamaOps c cxpb).eliminate population world with
      | mk r w => rw [ho] at hg; cases r <;> exact hg
    · exact Grown.refl _
  | remove x => dsimp only; split <;> exact Grown.refl _
  | fill =>
    dsimp only
    split
    · have hg := (hcreate population).2 world
      cases ho : (gamaOps c cxpb).create population world with
      | mk r w => rw [ho] at hg; cases r <;> exact hg
    · exact Grown.refl _
  | restart => dsimp only; split <;> exact Grown.refl _
  | renew k made =>
    cases k with
    | zero => exact Grown.refl _
    | succ k =>
      dsimp only
      have hg := hgrow world
      cases ho : (gamaOps c cxpb).individual world with
      | mk r w => rw [ho] at hg; cases r <;> exact hg
  | returned => exact Grown.refl _
  | raised e => exact Grown.refl _

section
variable {Fn V X Ω E P : Type}

theorem evolution_worldly (c : OpConfig) (cxpb : ℚ) (maxN : Option Int) (size : Nat) (K : Coding Fn V Nat)
    (Jb : Jobs Fn V X Ω) (report : V → Findings E P) (lib : LibConfig) :
    Worldly (evolution c cxpb maxN size K Jb report lib) where
  go a q s _ := ea_grown { c with completed := a.1 } cxpb maxN size _ s (fun _ _ _ h => by cases h)
  raises e s hw := by
    have hw : eaWaits maxN s = true := hw
    have hpc : s.pc = .loop := by
      unfold eaWaits at hw
      cases h : s.pc <;> rw [h] at hw <;> first | rfl | cases hw
    have hm : eaMore maxN s.evaluated = true := by unfold eaWaits at hw; rw [hpc] at hw; exact hw
    show (eaStep _ maxN size ⟨.raises e, 0, false⟩ s).world = s.world
    unfold eaStep
    dsimp only
    rw [hpc]
    dsimp only
    rw [if_pos hm]
  completes r w s j hw := by
    have hw : eaWaits maxN s = true := hw
    have hpc : s.pc = .loop := by
      unfold eaWaits at hw
      cases h : s.pc <;> rw [h] at hw <;> first | rfl | cases hw
    have hm : eaMore maxN s.evaluated = true := by unfold eaWaits at hw; rw [hpc] at hw; exact hw
    show (eaStep _ maxN size ⟨.completes 0 r w, 0, false⟩ { s with pending := [j] }).world = w
    unfold eaStep
    dsimp only
    rw [hpc]
    dsimp only
    rw [if_pos hm]
    rfl

/-- Evolution that is never told to restart. -/
def steady (c : OpConfig) (cxpb : ℚ) (maxN : Option Int) (size : Nat) (K : Coding Fn V Nat)
    (Jb : Jobs Fn V X Ω) (report : V → Findings E P) (lib : LibConfig) :
    Setup (Ea World Nat) ((Str → Bool) × EaInput World) ((Str → Bool) × Bool) Bool Nat Fn V X Ω E P :=
  { evolution c cxpb maxN size K Jb report lib with look := fun d _ => (d, false) }

theorem steady_move {c : OpConfig} {cxpb : ℚ} {maxN : Option Int} {size : Nat} {K : Coding Fn V Nat}
    {Jb : Jobs Fn V X Ω} {report : V → Findings E P} {lib : LibConfig} {D : List (Str × V)}
    {x y : Ea World Nat × Lib E P (List Score)} (h : Move (steady c cxpb maxN size K Jb report lib) D x y) :
    Move (evolution c cxpb maxN size K Jb report lib) D x y := by
  cases h with
  | still => exact .still
  | go b q hw => exact .go (U := evolution c cxpb maxN size K Jb report lib) false q hw
  | raised e hw => exact .raised e hw
  | failed j hw haw => exact .failed (U := evolution c cxpb maxN size K Jb report lib) j hw haw
  | saved j r sc hw haw hr hp hsc =>
    exact .saved (U := evolution c cxpb maxN size K Jb report lib) j r sc hw haw hr hp hsc
  | interrupted j r e hw haw hr hp =>
    exact .interrupted (U := evolution c cxpb maxN size K Jb report lib) j r e hw haw hr hp

theorem steady_moves {c : OpConfig} {cxpb : ℚ} {maxN : Option Int} {size : Nat} {K : Coding Fn V Nat}
    {Jb : Jobs Fn V X Ω} {report : V → Findings E P} {lib : LibConfig} {D : List (Str × V)}
    {x y : Ea World Nat × Lib E P (List Score)} (h : Moves (steady c cxpb maxN size K Jb report lib) D x y) :
    Moves (evolution c cxpb maxN size K Jb report lib) D x y := by
  induction h with
  | refl => exact .refl
  | tail _ h2 ih => exact ih.tail (steady_move h2)

/-- A move is a step of `async_ea` without a restart. -/
theorem steady_step {c : OpConfig} {cxpb : ℚ} {maxN : Option Int} {size : Nat} {K : Coding Fn V Nat}
    {Jb : Jobs Fn V X Ω} {report : V → Findings E P} {lib : LibConfig} {D : List (Str × V)}
    {x y : Ea World Nat × Lib E P (List Score)} (h : Move (steady c cxpb maxN size K Jb report lib) D x y) :
    y.1 = x.1 ∨ ∃ d i p, i.restart = false ∧
      y.1 = eaStep (gamaOps { c with completed := d } cxpb) maxN size i { x.1 with pending := p } := by
  cases h with
  | still => exact Or.inl rfl
  | go b q hw =>
    rename_i s l
    exact Or.inr ⟨inLibrary l, ⟨.raises .runtimeError, q, false⟩, s.pending, rfl, rfl⟩
  | raised e hw =>
    rename_i s l
    exact Or.inr ⟨fun _ => false, ⟨.raises e, 0, false⟩, s.pending, rfl, rfl⟩
  | failed j hw haw =>
    rename_i s l
    exact Or.inr ⟨fun _ => false, ⟨.completes 0 .failed s.world, 0, false⟩, [j], rfl, rfl⟩
  | saved j r sc hw haw hr hp hsc =>
    rename_i s l
    exact Or.inr ⟨fun _ => false, ⟨.completes 0 (.result r.error.isNone sc)
      (recordFitness r.ident r.score s.world), 0, false⟩, [j], rfl, rfl⟩
  | interrupted j r e hw haw hr hp =>
    rename_i s l
    exact Or.inr ⟨fun _ => false, ⟨.raises e, 0, false⟩, s.pending, rfl, rfl⟩

/-- The search was not told to restart. -/
def Spec.Unrestarted (es : List (WholeEvent Bool Ω)) : Prop := ∀ b, .go b ∈ es → b = false

theorem steady_run {c : OpConfig} {cxpb : ℚ} {maxN : Option Int} {size : Nat} {K : Coding Fn V Nat}
    {Jb : Jobs Fn V X Ω} {report : V → Findings E P} {lib : LibConfig} :
    ∀ (es : List (WholeEvent Bool Ω)), Unrestarted es → ∀ (s : Whole (Ea World Nat) Fn V X E P),
      wholeRun (steady c cxpb maxN size K Jb report lib) es s =
        wholeRun (evolution c cxpb maxN size K Jb report lib) es s
  | [], _, _ => rfl
  | e :: es, h, s => by
    have h1 : wholeStep (steady c cxpb maxN size K Jb report lib) e s =
        wholeStep (evolution c cxpb maxN size K Jb report lib) e s := by
      cases e with
      | go b =>
        have : b = false := h b (by simp)
        subst this; rfl
      | wait => rfl
      | iterate r₁ r₂ r₃ o fin => rfl
      | worker pid act => rfl
    show wholeRun _ es (wholeStep _ e s) = wholeRun _ es (wholeStep _ e s)
    rw [h1]
    exact steady_run es (fun b hb => h b (by simp [hb])) _

theorem kept_mem {size : Nat} {s : Ea World Nat} (h : KeptSince size 0 s) (hc : ∀ c, s.pc ≠ .clear c)
    (hr : ∀ e, s.pc ≠ .raised e) : s.population ⊆ succeeded s.history := by
  obtain ⟨-, h⟩ := h
  rw [List.drop_zero] at h
  cases hpc : s.pc with
  | clear c => exact absurd hpc (hc c)
  | raised e => exact absurd hpc (hr e)
  | start c => rw [hpc] at h; exact h.elim
  | renew k m => rw [hpc] at h; exact h.elim
  | submit rest => rw [hpc] at h; exact h.sub.subset
  | loop => rw [hpc] at h; exact h.sub.subset
  | fill => rw [hpc] at h; exact h.sub.subset
  | restart => rw [hpc] at h; exact h.sub.subset
  | returned => rw [hpc] at h; exact h.sub.subset
  | full => rw [hpc] at h; exact h.2.2.subset
  | remove x => rw [hpc] at h; exact h.2.2.2.subset
  | got x r =>
    rw [hpc] at h
    cases r with
    | failed => exact h.sub.subset
    | result b sc =>
      cases b with
      | false => exact h.sub.subset
      | true =>
        obtain ⟨found, h1, h2⟩ := h
        rw [h1]
        intro y hy
        exact List.mem_append_left _ (h2.sub.subset hy)

theorem best_congr {size : Nat} {s : Ea World Nat} (hk : KeptSince size 0 s) {val val' : Nat → List Score}
    (hv : ∀ y ∈ succeeded s.history, val y = val' y) {v : List Score} (h : BestAt val v 0 s) : BestAt val' v 0 s := by
  have key : ∀ (p : List Nat), p ⊆ succeeded s.history →
      ((∀ y ∈ succeeded (s.history.drop 0), Below (val y) v) →
        (∃ y ∈ succeeded (s.history.drop 0), val y = v) → ∃ y ∈ p, val y = v) →
      (∀ y ∈ succeeded (s.history.drop 0), Below (val' y) v) →
        (∃ y ∈ succeeded (s.history.drop 0), val' y = v) → ∃ y ∈ p, val' y = v := by
    intro p hp h h1 ⟨y, hy, hyv⟩
    rw [List.drop_zero] at h h1 hy
    obtain ⟨z, hz, hzv⟩ := h (fun y hy => by rw [hv y hy]; exact h1 y hy) ⟨y, hy, by rw [hv y hy]; exact hyv⟩
    exact ⟨z, hz, by rw [← hv z (hp hz)]; exact hzv⟩
  have hmem := kept_mem hk
  obtain ⟨-, hk⟩ := hk
  unfold BestAt at h ⊢
  cases hpc : s.pc with
  | clear c => rw [hpc] at h; exact h
  | raised e => trivial
  | start c => rw [hpc] at h; exact h
  | renew k m => rw [hpc] at h; exact h
  | submit rest => rw [hpc] at h; exact key _ (hmem (by rw [hpc]; nofun) (by rw [hpc]; nofun)) h
  | loop => rw [hpc] at h; exact key _ (hmem (by rw [hpc]; nofun) (by rw [hpc]; nofun)) h
  | fill => rw [hpc] at h; exact key _ (hmem (by rw [hpc]; nofun) (by rw [hpc]; nofun)) h
  | restart => rw [hpc] at h; exact key _ (hmem (by rw [hpc]; nofun) (by rw [hpc]; nofun)) h
  | returned => rw [hpc] at h; exact key _ (hmem (by rw [hpc]; nofun) (by rw [hpc]; nofun)) h
  | full => rw [hpc] at h; exact key _ (hmem (by rw [hpc]; nofun) (by rw [hpc]; nofun)) h
  | remove x =>
    rw [hpc] at h
    exact key _ (List.Subset.trans (List.erase_subset) (hmem (by rw [hpc]; nofun) (by rw [hpc]; nofun))) h
  | got x r =>
    have hsub := hmem (by rw [hpc]; nofun) (by rw [hpc]; nofun)
    rw [hpc] at h hk
    cases r with
    | failed => exact key _ hsub h
    | result b sc =>
      cases b with
      | false => exact key _ hsub h
      | true =>
        dsimp only at h ⊢
        obtain ⟨found, f1, -⟩ := hk
        rw [List.drop_zero] at f1
        have := key (x :: s.population) (by
            intro y hy
            rcases List.mem_cons.1 hy with rfl | hy
            · rw [f1]; simp
            · exact hsub hy) (fun a b => by
          rcases h a b with h | ⟨y, hy, hyv⟩
          · exact ⟨x, by simp, h⟩
          · exact ⟨y, by simp [hy], hyv⟩)
        intro a b
        obtain ⟨y, hy, hyv⟩ := this a b
        rcases List.mem_cons.1 hy with rfl | hy
        · exact Or.inl hyv
        · exact Or.inr ⟨y, hy, hyv⟩

/-- The individuals of evaluations. -/
theorem told_idents {S I A B : Type} {U : Setup S I A B Nat Fn V X Ω E P} (hid : ∀ x, U.ident x = x)
    {D : List (Str × V)} {h : List (Nat × Completion)} {told : List (EvalRec E P (List Score))}
    (hf : List.Forall₂ (ToldAs U D) h told) : told.map EvalRec.ident = h.map Prod.fst := by
  induction hf with
  | nil => rfl
  | cons a _ ih =>
    rw [List.map_cons, List.map_cons, ih, ident_of_returned a.1, hid]

theorem told_succeeded {S I A B : Type} {U : Setup S I A B Nat Fn V X Ω E P} (hid : ∀ x, U.ident x = x)
    {D : List (Str × V)} : ∀ {h : List (Nat × Completion)} {told : List (EvalRec E P (List Score))},
    List.Forall₂ (ToldAs U D) (results h) told →
    succeeded h = (told.filter fun r => r.error.isNone).map EvalRec.ident
  | [], told, hf => by cases hf; rfl
  | (x, .failed) :: h, told, hf => told_succeeded hid (h := h) hf
  | (x, .result b sc) :: h, told, hf => by
    have hf : List.Forall₂ (ToldAs U D) ((x, .result b sc) :: results h) told := hf
    cases hf with
    | @cons _ r _ rest a hrest =>
      have ih := told_succeeded hid (h := h) hrest
      obtain ⟨a1, sc', a2, -⟩ := a
      have a2 : b = r.error.isNone := (Completion.result.inj a2).1
      cases hb : r.error.isNone with
      | true =>
        rw [hb] at a2
        subst a2
        rw [List.filter_cons, if_pos (by simpa using hb), List.map_cons, ← ih, ident_of_returned a1, hid]
        rfl
      | false =>
        rw [hb] at a2
        subst a2
        rw [List.filter_cons, if_neg (by simp [hb]), ← ih]
        rfl

theorem fits_of_last {S I A B : Type} {U : Setup S I A B Nat Fn V X Ω E P} (hid : ∀ x, U.ident x = x)
    {D : List (Str × V)} {T : S → EvalRec E P (List Score) → Prop} {s : S}
    (hn : ((U.client.history s).map Prod.fst).Nodup) (h : LastFit U D T s) :
    ∃ told, List.Forall₂ (ToldAs U D) (results (U.client.history s)) told ∧ (told.map EvalRec.ident).Nodup ∧
      (∀ r ∈ told, HasFitness (U.world s) r.ident r.score) ∧ ∀ r ∈ told, T s r := by
  obtain ⟨told, h1, h2, h3⟩ := h
  have hnd : (told.map EvalRec.ident).Nodup := by
    rw [told_idents hid h1]
    exact List.Nodup.sublist ((results_sublist _).map _) hn
  refine ⟨told, h1, hnd, fun r hr => ?_, h3⟩
  obtain ⟨t₁, t₂, e⟩ := List.append_of_mem hr
  refine h2 t₁ r t₂ e fun r' hr' he => ?_
  rw [e, List.map_append, List.map_cons, List.nodup_append, List.nodup_cons] at hnd
  exact hnd.2.1.1 (List.mem_map.2 ⟨r', hr', he⟩)

/-- What the best in the population is. -/
def BestKept (size : Nat) (s : Ea World Nat) : Prop :=
  (∃ c, s.pc = .start c ∧ s.history = []) ∨ (KeptSince size 0 s ∧ ∀ v, BestAt (valuesIn s.world) v 0 s)

theorem history_nodup {S I A B : Type} {U : Setup S I A B Nat Fn V X Ω E P} {s : S}
    (hn : (U.client.submitted s).Nodup)
    (hsub : ((U.client.history s).map Prod.fst).Subperm (U.client.submitted s)) :
    ((U.client.history s).map Prod.fst).Nodup := by
  obtain ⟨l', p, sl⟩ := hsub
  exact p.nodup_iff.1 (hn.sublist sl)

theorem succeeded_subset (h : List (Nat × Completion)) : succeeded h ⊆ h.map Prod.fst := by
  induction h with
  | nil => intro x hx; cases hx
  | cons p h ih =>
    obtain ⟨x, r⟩ := p
    have hcons : succeeded h ⊆ ((x, r) :: h).map Prod.fst := fun y hy => List.mem_cons_of_mem _ (ih hy)
    cases r with
    | failed => exact hcons
    | result b sc =>
      cases b with
      | false => exact hcons
      | true =>
        intro y hy
        rcases List.mem_cons.1 hy with rfl | hy
        · simp
        · exact hcons hy

/-- An evolution that was not told to restart. -/
theorem steady_best {c : OpConfig} {cxpb : ℚ} {maxN : Option Int} {size : Nat} (hz : 0 < size)
    {K : Coding Fn V Nat} {Jb : Jobs Fn V X Ω} {report : V → Findings E P} {lib : LibConfig} {k : Nat}
    (hs : ScoresAre (evolution c cxpb maxN size K Jb report lib) k) {D : List (Str × V)} {l out : List Nat}
    {w : World} (hl : l.Nodup) (hw : ∀ x ∈ l, x < w.inds.length) {lib₀ : Lib E P (List Score)}
    {x : Ea World Nat × Lib E P (List Score)}
    (h : Moves (steady c cxpb maxN size K Jb report lib) D (eaStart (.list l) out w, lib₀) x) :
    LastFit (evolution c cxpb maxN size K Jb report lib) D (fun _ _ => True) x.1 ∧ BestKept size x.1 := by
  have hC := evolveClient_lawful c cxpb maxN size
  have hW := evolution_worldly c cxpb maxN size K Jb report lib
  refine h.induct' (Q := fun x => LastFit (evolution c cxpb maxN size K Jb report lib) D (fun _ _ => True) x.1 ∧
    BestKept size x.1) ⟨⟨[], .nil, fun t₁ r t₂ e _ => (by simp at e), fun _ h => nomatch h⟩, Or.inl ⟨_, rfl, rfl⟩⟩ ?_
  rintro x y hms hm ⟨ih1, ih2⟩
  have hms := steady_moves hms
  have hm' := steady_move hm
  have hap := evolution_apart hl hw hms
  have hnd := (List.nodup_append.1 hap.once).1
  have hsub := history_subperm (U := evolution c cxpb maxN size K Jb report lib) hC rfl hms
  have hfit : LastFit (evolution c cxpb maxN size K Jb report lib) D (fun _ _ => True) y.1 :=
    lastFit_move hC hW hm' (fun j hj => hap.known j (List.mem_append_left _ hj)) (fun _ _ => trivial)
      (fun _ _ _ _ _ => trivial) ih1
  refine ⟨hfit, ?_⟩
  rcases steady_step hm with he | ⟨d, i, p, hi, he⟩
  · rw [he]; exact ih2
  have hh := history_nodup (U := evolution c cxpb maxN size K Jb report lib) hnd hsub
  obtain ⟨told, t1, t2, t3, -⟩ := fits_of_last (U := evolution c cxpb maxN size K Jb report lib) (fun _ => rfl) hh ih1
  rcases ih2 with ⟨cands, hpc, hhist⟩ | ⟨hk, hb⟩
  · right
    rw [he]
    unfold eaStep
    dsimp only
    rw [hpc]
    dsimp only
    split
    · exact ⟨⟨Nat.zero_le _, trivial⟩, fun _ => trivial⟩
    · refine ⟨⟨Nat.zero_le _, ?_⟩, fun _ => ?_⟩
      · show 0 = x.1.history.length
        rw [hhist]; rfl
      · show 0 = x.1.history.length
        rw [hhist]; rfl
  · right
    have hk' : KeptSince size 0 { x.1 with pending := p } := hk
    have hb' : ∀ v, BestAt (valuesIn x.1.world) v 0 { x.1 with pending := p } := hb
    -- the values of what succeeded
    have hval : ∀ z ∈ succeeded x.1.history, ∃ u, HasFitness x.1.world z u ∧ HasFitness y.1.world z u ∧ u.length = k := by
      intro z hz
      have hz' := hz
      have e : succeeded x.1.history = _ :=
        told_succeeded (U := evolution c cxpb maxN size K Jb report lib) (fun _ => rfl) t1
      rw [e] at hz'
      obtain ⟨r, hr, rfl⟩ := List.mem_map.1 hz'
      have hr := (List.mem_filter.1 hr).1
      have hf := t3 r hr
      obtain ⟨q, -, hq⟩ := forall₂_right t1 r hr
      refine ⟨r.score, hf, fit_kept hW hm' ?_ hf, scores_of_returned hs hq.1⟩
      intro j haw hj
      have hn : (x.1.history.map Prod.fst ++ [j]).Nodup := by
        obtain ⟨l', p, sl⟩ := haw
        exact p.nodup_iff.1 (hnd.sublist sl)
      have hj : j = r.ident := hj
      rw [List.nodup_append] at hn
      exact hn.2.2 j (by rw [hj]; exact succeeded_subset _ hz) j (by simp) rfl
    have hcongr : ∀ z ∈ succeeded x.1.history, valuesIn x.1.world z = valuesIn y.1.world z := by
      intro z hz
      obtain ⟨u, u1, u2, -⟩ := hval z hz
      rw [valuesIn_of u1, valuesIn_of u2]
    have hkey : KeptSince size 0 y.1 := by rw [he]; exact kept_step _ _ _ _ _ _ hk' hi
    refine ⟨hkey, fun v => ?_⟩
    have hb2 : BestAt (valuesIn y.1.world) v 0 { x.1 with pending := p } := best_congr hk' hcongr (hb' v)
    have := best_step { c with completed := d } cxpb maxN size hz (valuesIn y.1.world) k v 0 _ i hk' hb2 hi (by
      intro hpc z hz
      obtain ⟨u, u1, u2, u3⟩ := hval z (kept_mem hk' (by rw [hpc]; nofun) (by rw [hpc]; nofun) hz)
      rw [valuesIn_of u2]
      exact ⟨u1, u3⟩)
    rw [← he] at this
    exact this

/-! ### Random search -/

theorem random_worldly (c : OpConfig) (cxpb : ℚ) (maxN : Option Int) (K : Coding Fn V Nat)
    (Jb : Jobs Fn V X Ω) (report : V → Findings E P) (lib : LibConfig) :
    Worldly (randomSearching c cxpb maxN K Jb report lib) where
  go a q s hw := by
    obtain ⟨-, -, -, hgrow⟩ := gamaOps_new c cxpb
    show Grown s.world (rsStep (gamaOps c cxpb) maxN (.raises .runtimeError) s).world
    obtain ⟨pc, world, output, pending, history, submitted⟩ := s
    unfold rsStep
    cases pc with
    | submit rest => cases rest <;> exact Grown.refl _
    | loop => dsimp only; split <;> exact Grown.refl _
    | got x r => cases r <;> exact Grown.refl _
    | next =>
      dsimp only
      have hg := hgrow world
      cases ho : (gamaOps c cxpb).individual world with
      | mk r w => rw [ho] at hg; cases r <;> exact hg
    | returned => exact Grown.refl _
    | raised e => exact Grown.refl _
  raises e s hw := by
    have hw : rsWaits maxN s = true := hw
    have hpc : s.pc = .loop := by
      unfold rsWaits at hw
      cases h : s.pc <;> rw [h] at hw <;> first | rfl | cases hw
    have hm : rsMore maxN s.output.length = true := by unfold rsWaits at hw; rw [hpc] at hw; exact hw
    show (rsStep _ maxN (.raises e) s).world = s.world
    unfold rsStep
    rw [hpc]
    dsimp only
    rw [if_pos hm]
  completes r w s j hw := by
    have hw : rsWaits maxN s = true := hw
    have hpc : s.pc = .loop := by
      unfold rsWaits at hw
      cases h : s.pc <;> rw [h] at hw <;> first | rfl | cases hw
    have hm : rsMore maxN s.output.length = true := by unfold rsWaits at hw; rw [hpc] at hw; exact hw
    show (rsStep _ maxN (.completes 0 r w) { s with pending := [j] }).world = w
    unfold rsStep
    dsimp only
    rw [hpc]
    dsimp only
    rw [if_pos hm]
    rfl

theorem random_fit {c : OpConfig} {cxpb : ℚ} {maxN : Option Int} {K : Coding Fn V Nat}
    {Jb : Jobs Fn V X Ω} {report : V → Findings E P} {lib : LibConfig} {D : List (Str × V)} {l out : List Nat}
    {w : World} (hl : l.Nodup) (hw : ∀ x ∈ l, x < w.inds.length) {lib₀ : Lib E P (List Score)}
    {x : Rs World Nat × Lib E P (List Score)}
    (h : Moves (randomSearching c cxpb maxN K Jb report lib) D (rsStart (.list l) out w, lib₀) x) :
    LastFit (randomSearching c cxpb maxN K Jb report lib) D (fun _ _ => True) x.1 := by
  refine h.induct' (Q := fun x => LastFit (randomSearching c cxpb maxN K Jb report lib) D (fun _ _ => True) x.1)
    ⟨[], .nil, fun t₁ r t₂ e _ => (by simp at e), fun _ h => nomatch h⟩ ?_
  intro x y hms hm ih
  have hap := random_apart hl hw hms
  exact lastFit_move (rsClient_lawful (gamaOps c cxpb) maxN) (random_worldly c cxpb maxN K Jb report lib) hm
    (fun j hj => hap.known j (List.mem_append_left _ hj)) (fun _ _ => trivial) (fun _ _ _ _ _ => trivial) ih

theorem told_reported {S I A B : Type} {U : Setup S I A B Nat Fn V X Ω E P} (hid : ∀ x, U.ident x = x)
    {D : List (Str × V)} {h : List (Nat × Completion)} {told : List (EvalRec E P (List Score))}
    (hf : List.Forall₂ (ToldAs U D) (results h) told) : reported h = told.map EvalRec.ident := by
  rw [told_idents hid hf]
  clear hf
  induction h with
  | nil => rfl
  | cons p h ih =>
    obtain ⟨x, r⟩ := p
    cases r with
    | failed => exact ih
    | result b sc =>
      show x :: reported h = x :: (results h).map Prod.fst
      rw [ih]

/-- The output of a random search. -/
theorem random_output {c : OpConfig} {cxpb : ℚ} {maxN : Option Int} {K : Coding Fn V Nat}
    {Jb : Jobs Fn V X Ω} {report : V → Findings E P} {lib : LibConfig} (hK : Faithful K Jb)
    (ha : Agrees (randomSearching c cxpb maxN K Jb report lib)) (l out : List Nat) (w : World)
    (lib₀ : Lib E P (List Score)) (n : Nat) (limit : Option ℚ) (logfile : Bool) (D : List (Str × V))
    (es : List (WholeEvent Unit Ω)) :
    let s := (wholeRun (randomSearching c cxpb maxN K Jb report lib) es
        (wholeStart (rsStart (.list l) out w) lib₀ n limit logfile D)).joint.search
    (s.pc = .loop ∨ s.pc = .returned) → s.output = out ++ reported s.history := by
  intro s hpc
  have hok := whole_ok (U := randomSearching c cxpb maxN K Jb report lib) (rsClient_lawful (gamaOps c cxpb) maxN)
    (fun _ _ _ _ h => congrArg Rs.pending h) hK ha (start := rsStart (.list l) out w) rfl rfl rfl lib₀ n limit
    logfile D es
  obtain ⟨is, p, h1, -, -⟩ := hok.sim
  have e : ∀ (is : List (Wait World)) (s : Rs World Nat),
      (randomSearching c cxpb maxN K Jb report lib).client.run is s = rsRun (gamaOps c cxpb) maxN is s := by
    intro is
    induction is with
    | nil => intro s; rfl
    | cons i is ih => intro s; exact ih _
  have h3 : rsRun (gamaOps c cxpb) maxN is (rsStart (.list l) out w) = { s with pending := p } := by
    rw [← e]; exact h1
  exact (C38_reports_all (gamaOps c cxpb) maxN l out w is { s with pending := p } h3.symm hpc).1

end

/-! ### Successive halving -/

section
variable {S I A B J Fn V X Ω E P : Type}

theorem wholeRun_snoc (U : Setup S I A B J Fn V X Ω E P) : ∀ (es : List (WholeEvent B Ω)) (e : WholeEvent B Ω)
    (s : Whole S Fn V X E P), wholeRun U (es ++ [e]) s = wholeStep U e (wholeRun U es s)
  | [], _, _ => rfl
  | _ :: es, e, _ => wholeRun_snoc U es e _

/-- As `Moves.induct`, over the events. -/
theorem whole_induct {U : Setup S I A B J Fn V X Ω E P} (hC : U.client.Lawful)
    (hset : ∀ p q s t, U.client.setPending p s = U.client.setPending q t → p = q)
    (hK : Faithful U.coding U.jobs) (ha : Agrees U) {start : S}
    (hs : U.client.setPending [] start = start) (hh : U.client.history start = [])
    (hsub : U.client.submitted start = []) (lib₀ : Lib E P (List Score)) (n : Nat) (limit : Option ℚ)
    (logfile : Bool) (D : List (Str × V)) {Q : S × Lib E P (List Score) → Prop} (h0 : Q (start, lib₀))
    (hstep : ∀ (es : List (WholeEvent B Ω)) y,
      Move U D (wholeRun U es (wholeStart start lib₀ n limit logfile D)).core y →
      Q (wholeRun U es (wholeStart start lib₀ n limit logfile D)).core → Q y)
    (es : List (WholeEvent B Ω)) : Q (wholeRun U es (wholeStart start lib₀ n limit logfile D)).core := by
  induction es using List.reverseRecOn with
  | nil => exact h0
  | append_singleton es e ih =>
    rw [wholeRun_snoc]
    have hok := whole_ok (U := U) hC hset hK ha hs hh hsub lib₀ n limit logfile D es
    exact hstep es _ (whole_step hC hset hK ha hs hh hsub e _ hok).2 ih

end

theorem startJob_grown (oc : OpConfig) (cxpb : ℚ) (c : AshaConfig) (pick : Nat) (s : Asha World Nat) :
    Grown s.world (startJob (gamaOps oc cxpb) c pick s).2.world := by
  obtain ⟨-, -, -, hgrow⟩ := gamaOps_new oc cxpb
  have hg : Grown s.world (getJob (gamaOps oc cxpb) c pick s).2.world := by
    unfold getJob
    split
    · exact Grown.refl _
    · split
      · exact Grown.refl _
      · have hg := hgrow s.world
        cases ho : (gamaOps oc cxpb).individual s.world with
        | mk r w => rw [ho] at hg; cases r <;> exact hg
  unfold startJob
  cases hj : getJob (gamaOps oc cxpb) c pick s with
  | mk r s' =>
    rw [hj] at hg
    cases r with
    | error e => rw [bind_error hj]; exact hg
    | ok p =>
      rw [bind_ok hj]
      obtain ⟨x, rung⟩ := p
      dsimp only
      split <;> exact hg

section
variable {Fn V X Ω E P : Type}

theorem halving_worldly (c : OpConfig) (cxpb : ℚ) (a : AshaConfig) (K : Coding Fn V (Nat × Nat))
    (Jb : Jobs Fn V X Ω) (report : V → Findings E P) (lib : LibConfig) :
    Worldly (halving c cxpb a K Jb report lib) where
  go b q s hw := by
    have hj := startJob_grown c cxpb a b s
    show Grown s.world (ashaStep (gamaOps c cxpb) a ⟨.raises .runtimeError, b⟩ s).world
    unfold ashaStep
    dsimp only
    split
    · exact Grown.refl _
    · cases hs : startJob (gamaOps c cxpb) a b s with
      | mk r s' => rw [hs] at hj; cases r <;> exact hj
    · split
      · exact Grown.refl _
      · split <;> exact Grown.refl _
      · exact Grown.refl _
    · split <;> exact Grown.refl _
    · exact Grown.refl _
    · cases hs : startJob (gamaOps c cxpb) a b s with
      | mk r s' => rw [hs] at hj; cases r <;> exact hj
    · exact Grown.refl _
    · exact Grown.refl _
  raises e s hw := by
    have hw : ashaWaits a s = true := hw
    show (ashaStep (gamaOps c cxpb) a ⟨.raises e, 0⟩ s).world = s.world
    unfold ashaWaits at hw
    cases hpc : s.pc <;> rw [hpc] at hw <;> first | cases hw | skip
    dsimp only at hw
    unfold ashaStep
    dsimp only
    rw [hpc]
    dsimp only
    cases hm : ashaMore a s with
    | error e => rfl
    | ok b => rw [hm] at hw; dsimp only at hw; subst hw; rfl
  completes r w s j hw := by
    have hw : ashaWaits a s = true := hw
    show (ashaStep (gamaOps c cxpb) a ⟨.completes 0 r w, 0⟩ { s with pending := [j] }).world = w
    unfold ashaWaits at hw
    cases hpc : s.pc <;> rw [hpc] at hw <;> first | cases hw | skip
    dsimp only at hw
    obtain ⟨pc, world, rungs, promoted, candidates, pending, history, submitted⟩ := s
    dsimp only at hpc
    subst hpc
    cases hm : ashaMore a ⟨.loop, world, rungs, promoted, candidates, pending, history, submitted⟩ with
    | error e => rw [hm] at hw; cases hw
    | ok b =>
      rw [hm] at hw
      dsimp only at hw
      subst hw
      have hm' : ashaMore a ⟨.loop, world, rungs, promoted, candidates, [j], history, submitted⟩ = .ok true := hm
      unfold ashaStep
      dsimp only
      rw [hm']
      rfl

/-- An individual was evaluated on all rungs below. -/
theorem AshaCore.below {c : AshaConfig} {cands : List Nat} {rungs promoted : List (Nat × List (RungEntry Nat))}
    {candidates : List Nat} {pending submitted : List (Nat × Nat)} {history rec : List (Nat × Nat × Completion)}
    (h : AshaCore c cands rungs promoted candidates pending submitted history rec) (hrec : rec.Sublist history)
    {x : Nat} : ∀ {m : Nat}, (x, m) ∈ submitted → ∀ k, c.rate ≤ k → k < m → ∃ r, (x, k, r) ∈ history := by
  have hone : ∀ k, c.rate ≤ k → (x, k + 1) ∈ submitted → ∃ r, (x, k, r) ∈ history := by
    intro k hk hx
    have h1 : x ∈ jobsOn (k + 1) submitted := by
      unfold jobsOn
      exact List.mem_map.2 ⟨(x, k + 1), List.mem_filter.2 ⟨hx, by simp⟩, rfl⟩
    rw [h.sent k hk] at h1
    obtain ⟨p, hp, rfl⟩ := List.mem_map.1 h1
    have h2 := h.sub k hp
    have : ∀ (l : List (Nat × Nat × Completion)), p ∈ evaluatedOn k l → ∃ r, (p.2, k, r) ∈ l := by
      intro l
      induction l with
      | nil => intro h; cases h
      | cons q l ih =>
        obtain ⟨y, r, c⟩ := q
        cases c with
        | failed => intro h; obtain ⟨r, hr⟩ := ih h; exact ⟨r, by simp [hr]⟩
        | result b sc =>
          intro h
          unfold evaluatedOn at h
          split at h
          · rename_i hrk
            subst hrk
            rcases List.mem_cons.1 h with rfl | h
            · exact ⟨_, List.mem_cons_self⟩
            · obtain ⟨r, hr⟩ := ih h; exact ⟨r, by simp [hr]⟩
          · obtain ⟨r, hr⟩ := ih h; exact ⟨r, by simp [hr]⟩
    obtain ⟨r, hr⟩ := this rec h2
    exact ⟨r, hrec.subset hr⟩
  have hsub : ∀ k r, (x, k, r) ∈ history → (x, k) ∈ submitted := by
    intro k r hr
    exact h.jobs.mem_iff.2 (List.mem_append_right _ (List.mem_map.2 ⟨_, hr, rfl⟩))
  intro m
  induction m with
  | zero => intro _ k _ hk; omega
  | succ m ih =>
    intro hx k hk hlt
    by_cases hkm : k = m
    · subst hkm; exact hone k hk hx
    · obtain ⟨r, hr⟩ := hone m (by omega) hx
      exact ih (hsub _ _ hr) k hk (by omega)

/-- The evaluations of an individual come back in the order of the rungs. -/
def Climbing (s : Asha World Nat) : Prop := s.history.Pairwise fun p q => p.1 = q.1 → p.2.1 < q.2.1

theorem halving_fit {c : OpConfig} {cxpb : ℚ} {a : AshaConfig} {K : Coding Fn V (Nat × Nat)}
    {Jb : Jobs Fn V X Ω} {report : V → Findings E P} {lib : LibConfig} (hK : Faithful K Jb)
    (ha : Agrees (halving c cxpb a K Jb report lib)) {l : List Nat} (hl : l.Nodup) {w : World}
    (hw : ∀ x ∈ l, x < w.inds.length) (lib₀ : Lib E P (List Score)) (n : Nat) (limit : Option ℚ) (logfile : Bool)
    (D : List (Str × V)) (es : List (WholeEvent Nat Ω)) :
    let s := (wholeRun (halving c cxpb a K Jb report lib) es
        (wholeStart (ashaStart a l w) lib₀ n limit logfile D)).joint.search
    LastFit (halving c cxpb a K Jb report lib) D (fun _ _ => True) s ∧ Climbing s := by
  refine whole_induct (U := halving c cxpb a K Jb report lib) (ashaClient_lawful (gamaOps c cxpb) a)
    (fun _ _ _ _ h => congrArg Asha.pending h) hK ha (start := ashaStart a l w) rfl rfl rfl lib₀ n limit logfile D
    (Q := fun x => LastFit (halving c cxpb a K Jb report lib) D (fun _ _ => True) x.1 ∧ Climbing x.1)
    ⟨⟨[], .nil, fun t₁ r t₂ e _ => (by simp at e), fun _ h => nomatch h⟩, .nil⟩ ?_ es
  rintro es y hm ⟨ih1, ih2⟩
  obtain ⟨p, rec, hrec, hcore⟩ := halving_core c cxpb a hK ha l w lib₀ n limit logfile D es
  have hap := halving_apart hl hw (halving_moves c cxpb a hK ha l w lib₀ n limit logfile D es)
  have honce := halving_once c cxpb a hK ha hl hw lib₀ n limit logfile D es
  generalize hx : wholeRun (halving c cxpb a K Jb report lib) es
    (wholeStart (ashaStart a l w) lib₀ n limit logfile D) = t at *
  have hsub : ∀ x k r, (x, k, r) ∈ t.joint.search.history → (x, k) ∈ t.joint.search.submitted := by
    intro x k r hr
    exact hcore.jobs.mem_iff.2 (List.mem_append_right _ (List.mem_map.2 ⟨_, hr, rfl⟩))
  have hknown : ∀ j ∈ t.joint.search.submitted, j.1 < t.joint.search.world.inds.length := by
    rintro ⟨x, k⟩ hj
    refine hap.known x (List.mem_append_left _ ?_)
    have hk : a.rate ≤ k := (mem_levels.1 (hcore.onLevel _ hj)).1
    have : (x, a.rate) ∈ t.joint.search.submitted := by
      by_cases e : k = a.rate
      · rw [← e]; exact hj
      · obtain ⟨r, hr⟩ := hcore.below hrec hj a.rate (le_refl _) (by omega)
        exact hsub _ _ _ hr
    unfold jobsOn
    exact List.mem_map.2 ⟨_, List.mem_filter.2 ⟨this, by simp⟩, rfl⟩
  refine ⟨lastFit_move (ashaClient_lawful (gamaOps c cxpb) a) (halving_worldly c cxpb a K Jb report lib) hm hknown
    (fun _ _ => trivial) (fun _ _ _ _ _ => trivial) ih1, ?_⟩
  -- the order
  have hnew : ∀ (j : Nat × Nat) r, Expected (halving c cxpb a K Jb report lib) t.joint.search j →
      (t.joint.search.history ++ [(j.1, j.2, r)]).Pairwise
        fun (p q : Nat × Nat × Completion) => p.1 = q.1 → p.2.1 < q.2.1 := by
    intro j r haw
    have haw : (((t.joint.search.history.map fun x => ((x.1, x.2.1), x.2.2)).map Prod.fst) ++ [j]).Subperm
      t.joint.search.submitted := haw
    rw [List.map_map] at haw
    have hn : ((t.joint.search.history.map (Prod.fst ∘ fun x => ((x.1, x.2.1), x.2.2))) ++ [j]).Nodup := by
      obtain ⟨l', p, sl⟩ := haw
      exact p.nodup_iff.1 (honce.sublist sl)
    have hj := haw.subset (List.mem_append_right _ (List.mem_singleton.2 rfl))
    have hnot : ∀ r, (j.1, j.2, r) ∉ t.joint.search.history := by
      intro r hr
      rw [List.nodup_append] at hn
      exact hn.2.2 j (List.mem_map.2 ⟨_, hr, rfl⟩) j (by simp) rfl
    refine List.pairwise_append.2 ⟨ih2, List.pairwise_singleton _ _, ?_⟩
    rintro ⟨x, m, r'⟩ hp q hq he
    rw [List.mem_singleton.1 hq] at he ⊢
    dsimp only at he ⊢
    subst he
    by_contra hlt
    by_cases e : m = j.2
    · subst e; exact hnot _ hp
    · obtain ⟨r, hr⟩ := hcore.below hrec (hsub _ _ _ hp) j.2 (mem_levels.1 (hcore.onLevel _ hj)).1 (by omega)
      exact hnot _ hr
  have hC := ashaClient_lawful (gamaOps c cxpb) a
  have hinj : ∀ {h h' : List (Nat × Nat × Completion)},
      (h.map fun x => ((x.1, x.2.1), x.2.2)) = (h'.map fun x => ((x.1, x.2.1), x.2.2)) → h = h' := by
    intro h h' e
    refine List.map_injective_iff.2 ?_ e
    rintro ⟨a, b, c⟩ ⟨a', b', c'⟩ e
    simp only [Prod.mk.injEq] at e ⊢
    exact ⟨e.1.1, e.1.2, e.2⟩
  unfold Climbing at ih2 ⊢
  have hcore' : t.core.1 = t.joint.search := rfl
  cases hm with
  | still => exact ih2
  | go b q hw =>
    obtain ⟨new, n1, n2, -⟩ := hC.go b q t.joint.search [] hw
    have := hinj (h := (ashaStep (gamaOps c cxpb) a ⟨.raises .runtimeError, b⟩ t.joint.search).history) n2
    show (ashaStep (gamaOps c cxpb) a ⟨.raises .runtimeError, b⟩ t.joint.search).history.Pairwise _
    rw [this]; exact ih2
  | raised e hw =>
    obtain ⟨-, -, r3, -⟩ := hC.raises e t.joint.search [] hw
    have := hinj (h := (ashaStep (gamaOps c cxpb) a ⟨.raises e, 0⟩ t.joint.search).history) r3
    show (ashaStep (gamaOps c cxpb) a ⟨.raises e, 0⟩ t.joint.search).history.Pairwise _
    rw [this]; exact ih2
  | failed j hw haw =>
    obtain ⟨-, -, c3⟩ := hC.completes .failed t.joint.search.world t.joint.search [] j [] hw
    have := hinj (h := (ashaStep (gamaOps c cxpb) a ⟨.completes 0 .failed t.joint.search.world, 0⟩
      { t.joint.search with pending := [j] }).history) (h' := t.joint.search.history ++ [(j.1, j.2, .failed)])
      (c3.trans (by rw [List.map_append]; rfl))
    show (ashaStep (gamaOps c cxpb) a ⟨.completes 0 .failed t.joint.search.world, 0⟩
      { t.joint.search with pending := [j] }).history.Pairwise _
    rw [this]
    exact hnew j _ haw
  | saved j r sc hw haw hr hp hsc =>
    obtain ⟨-, -, c3⟩ := hC.completes (.result r.error.isNone sc)
      (recordFitness r.ident r.score t.joint.search.world) t.joint.search [] j [] hw
    have := hinj (h := (ashaStep (gamaOps c cxpb) a ⟨.completes 0 (.result r.error.isNone sc)
      (recordFitness r.ident r.score t.joint.search.world), 0⟩
      { t.joint.search with pending := [j] }).history)
      (h' := t.joint.search.history ++ [(j.1, j.2, .result r.error.isNone sc)])
      (c3.trans (by rw [List.map_append]; rfl))
    show (ashaStep (gamaOps c cxpb) a ⟨.completes 0 (.result r.error.isNone sc)
      (recordFitness r.ident r.score t.joint.search.world), 0⟩
      { t.joint.search with pending := [j] }).history.Pairwise _
    rw [this]
    exact hnew j _ haw
  | interrupted j r e hw haw hr hp =>
    obtain ⟨-, -, r3, -⟩ := hC.raises e t.joint.search [] hw
    have := hinj (h := (ashaStep (gamaOps c cxpb) a ⟨.raises e, 0⟩ t.joint.search).history) r3
    show (ashaStep (gamaOps c cxpb) a ⟨.raises e, 0⟩ t.joint.search).history.Pairwise _
    rw [this]; exact ih2

theorem halving_run (c : OpConfig) (cxpb : ℚ) (a : AshaConfig) {K : Coding Fn V (Nat × Nat)}
    {Jb : Jobs Fn V X Ω} {report : V → Findings E P} {lib : LibConfig} (hK : Faithful K Jb)
    (ha : Agrees (halving c cxpb a K Jb report lib)) (l : List Nat) (w : World)
    (lib₀ : Lib E P (List Score)) (n : Nat) (limit : Option ℚ) (logfile : Bool)
    (D : List (Str × V)) (es : List (WholeEvent Nat Ω)) :
    let s := (wholeRun (halving c cxpb a K Jb report lib) es
        (wholeStart (ashaStart a l w) lib₀ n limit logfile D)).joint.search
    ∃ is p, ashaRun (gamaOps c cxpb) a is (ashaStart a l w) = { s with pending := p } := by
  intro s
  have hok := whole_ok (U := halving c cxpb a K Jb report lib) (ashaClient_lawful (gamaOps c cxpb) a)
    (fun _ _ _ _ h => congrArg Asha.pending h) hK ha (start := ashaStart a l w) rfl rfl rfl lib₀ n limit logfile D es
  obtain ⟨is, p, h1, -, -⟩ := hok.sim
  have e : ∀ (is : List (AshaInput World)) (s : Asha World Nat),
      (halving c cxpb a K Jb report lib).client.run is s = ashaRun (gamaOps c cxpb) a is s := by
    intro is
    induction is with
    | nil => intro s; rfl
    | cons i is ih => intro s; exact ih _
  exact ⟨is, p, by rw [← e]; exact h1⟩

theorem zip_split {α β : Type} {R : α → β → Prop} : ∀ {a : List α} {b : List β}, List.Forall₂ R a b →
    ∀ p ∈ a.zip b, ∃ a₁ a₂ b₁ b₂, a = a₁ ++ p.1 :: a₂ ∧ b = b₁ ++ p.2 :: b₂ ∧ R p.1 p.2 ∧ List.Forall₂ R a₂ b₂
  | [], [], _, p, h => nomatch h
  | x :: a, y :: b, .cons h1 h2, p, h => by
    rcases List.mem_cons.1 h with rfl | h
    · exact ⟨[], a, [], b, rfl, rfl, h1, h2⟩
    · obtain ⟨a₁, a₂, b₁, b₂, e1, e2, e3, e4⟩ := zip_split h2 p h
      exact ⟨x :: a₁, a₂, y :: b₁, b₂, by rw [e1]; rfl, by rw [e2]; rfl, e3, e4⟩

/-- The jobs of successive halving with what came of them. -/
theorem evaluatedOn_results (k : Nat) : ∀ h : List (Nat × Nat × Completion),
    (evaluatedOn k h).map Prod.snd =
      ((results (h.map fun x => ((x.1, x.2.1), x.2.2))).filter fun p => p.1.2 = k).map fun p => p.1.1
  | [] => rfl
  | (x, m, .failed) :: h => evaluatedOn_results k h
  | (x, m, .result b sc) :: h => by
    have e : results (((x, m, .result b sc) :: h).map fun x => ((x.1, x.2.1), x.2.2)) =
        ((x, m), .result b sc) :: results (h.map fun x => ((x.1, x.2.1), x.2.2)) := rfl
    rw [e]
    unfold evaluatedOn
    by_cases hm : m = k
    · rw [if_pos hm, List.filter_cons, if_pos (by simpa using hm), List.map_cons, List.map_cons,
        evaluatedOn_results k h]
    · rw [if_neg hm, List.filter_cons, if_neg (by simpa using hm), evaluatedOn_results k h]

/-- The individuals on the highest rung have the fitness of their evaluation there. -/
theorem highest_fit {c : OpConfig} {cxpb : ℚ} {a : AshaConfig} {K : Coding Fn V (Nat × Nat)}
    {Jb : Jobs Fn V X Ω} {report : V → Findings E P} {lib : LibConfig} {D : List (Str × V)} {s : Asha World Nat}
    (hf : LastFit (halving c cxpb a K Jb report lib) D (fun _ _ => True) s) (hc : Climbing s) :
    ∃ told, List.Forall₂ (ToldAs (halving c cxpb a K Jb report lib) D)
        (results (s.history.map fun x => ((x.1, x.2.1), x.2.2))) told ∧
      ∀ p ∈ (results (s.history.map fun x => ((x.1, x.2.1), x.2.2))).zip told,
        p.2.ident = p.1.1.1 ∧
        ((∀ q ∈ (results (s.history.map fun x => ((x.1, x.2.1), x.2.2))).zip told, q.1.1.2 ≤ p.1.1.2) →
          HasFitness s.world p.2.ident p.2.score) := by
  obtain ⟨told, t1, t2, -⟩ := hf
  refine ⟨told, t1, fun p hp => ?_⟩
  have hclimb : (results (s.history.map fun x => ((x.1, x.2.1), x.2.2))).Pairwise
      fun p q => p.1.1 = q.1.1 → p.1.2 < q.1.2 := by
    refine List.Pairwise.sublist List.filter_sublist ?_
    rw [List.pairwise_map]
    exact hc
  have t1' : List.Forall₂ (ToldAs (halving c cxpb a K Jb report lib) D)
        (results (s.history.map fun x => ((x.1, x.2.1), x.2.2))) told := t1
  generalize results (s.history.map fun x => ((x.1, x.2.1), x.2.2)) = js at hp hclimb t1' ⊢
  obtain ⟨a₁, a₂, b₁, b₂, e1, e2, e3, e4⟩ := zip_split t1' p hp
  refine ⟨ident_of_returned e3.1, fun hmax => t2 b₁ p.2 b₂ e2 fun r' hr' he => ?_⟩
  obtain ⟨q, hq, hqr⟩ : ∃ q, (q, r') ∈ a₂.zip b₂ ∧ ToldAs (halving c cxpb a K Jb report lib) D q r' := by
    clear e2 hmax e1
    induction e4 with
    | nil => cases hr'
    | cons h1 h2 ih =>
      rcases List.mem_cons.1 hr' with rfl | hr'
      · exact ⟨_, List.mem_cons_self, h1⟩
      · obtain ⟨q, h3, h4⟩ := ih hr'
        exact ⟨q, List.mem_cons_of_mem _ h3, h4⟩
  have hlt : p.1.1.2 < q.1.2 := by
    rw [e1] at hclimb
    have := (List.pairwise_cons.1 (List.pairwise_append.1 hclimb).2.1).1 q (List.of_mem_zip hq).1
    refine this ?_
    have i1 : p.2.ident = p.1.1.1 := ident_of_returned e3.1
    have i2 : r'.ident = q.1.1 := ident_of_returned hqr.1
    rw [← i1, ← i2, he]
  have hlen : a₁.length = b₁.length := by
    have l1 := t1'.length_eq
    have l2 := e4.length_eq
    rw [e1, e2, List.length_append, List.length_append, List.length_cons, List.length_cons] at l1
    omega
  have hin : (q, r') ∈ js.zip told := by
    rw [e1, e2, List.zip_append hlen]
    exact List.mem_append_right _ (List.mem_cons_of_mem _ hq)
  have := hmax _ hin
  dsimp only at this
  omega

end
end Gama
