import Verif.Props.Search3
import Verif.Props.Selection
import Verif.Props.Ensemble2

/-!
# The pipeline that is fitted (C117)

Ties together the search, the elimination of individuals and best-fit post-processing.
-/

namespace Gama
open PyM Spec

/-! ### C117: the fitted pipeline is the best one found -/

/-- `val` are the values of the individuals in the population, `k` of each, whenever one is to be
eliminated. -/
def Spec.Valued (val : Nat → List Score) (k : Nat) (s : Ea World Nat) (_ : EaInput World) : Prop :=
  s.pc = .full → ∀ x ∈ s.population, HasFitness s.world x (val x) ∧ (val x).length = k

/-- **C117, the full claim:** without a restart, no individual that the evolutionary search evaluated
without error has a better first score than the one that best fit picks from its output. -/
def C117_claim : Prop :=
  ∀ (c : OpConfig) (cxpb : ℚ) (n : Int) (size k : Nat) (cands : List Nat) (w : World)
    (val : Nat → List Score) (is : List (EaInput World)) (s : Ea World Nat) (x y : Nat) (a b : Score),
    0 < size → (∀ i ∈ is, i.restart = false) →
    EaAlong (gamaOps c cxpb) (some n) size (Valued val k) is (eaStart (.list cands) [] w) →
    s = eaRun (gamaOps c cxpb) (some n) size is (eaStart (.list cands) [] w) → s.pc = .returned →
    bestFit val s.population = .ok x → y ∈ succeeded s.history →
    (val x).head? = some a → (val y).head? = some b → b ≤ a

/-- The greatest values so far, `v`, are in the population, or about to be. -/
def BestAt (val : Nat → List Score) (v : List Score) (N : Nat) (s : Ea World Nat) : Prop :=
  match s.pc with
  | .start _ => False
  | .clear _ => N = s.history.length
  | .got x (.result true _) => (∀ y ∈ succeeded (s.history.drop N), Below (val y) v) →
      (∃ y ∈ succeeded (s.history.drop N), val y = v) → val x = v ∨ ∃ y ∈ s.population, val y = v
  | .remove x => (∀ y ∈ succeeded (s.history.drop N), Below (val y) v) →
      (∃ y ∈ succeeded (s.history.drop N), val y = v) → ∃ y ∈ s.population.erase x, val y = v
  | .raised _ => True
  | .renew _ _ => False
  | _ => (∀ y ∈ succeeded (s.history.drop N), Below (val y) v) →
      (∃ y ∈ succeeded (s.history.drop N), val y = v) → ∃ y ∈ s.population, val y = v

theorem best_step (c : OpConfig) (cxpb : ℚ) (maxN : Option Int) (size : Nat) (hz : 0 < size)
    (val : Nat → List Score) (k : Nat) (v : List Score) (N : Nat) (s : Ea World Nat)
    (i : EaInput World) (hk : KeptSince size N s) (h : BestAt val v N s) (hr : i.restart = false)
    (hv : Valued val k s i) : BestAt val v N (eaStep (gamaOps c cxpb) maxN size i s) := by
  obtain ⟨hN, hk⟩ := hk
  unfold eaStep
  unfold BestAt at h
  cases hpc : s.pc with
  | start c => rw [hpc] at h; exact h.elim
  | clear c =>
    rw [hpc] at h
    dsimp only at h
    have : succeeded (s.history.drop N) = [] := by rw [h]; simp [succeeded]
    cases c <;> (dsimp only [BestAt]; rw [this]; simp)
  | submit rest => rw [hpc] at h; cases rest <;> exact h
  | loop =>
    rw [hpc] at h
    dsimp only at h ⊢
    split
    · cases i.wait with
      | raises e => trivial
      | completes j r w =>
        dsimp only
        cases ht : takePending s.pending j with
        | none => trivial
        | some p =>
          obtain ⟨x, rest⟩ := p
          have hd : (s.history ++ [(x, r)]).drop N = s.history.drop N ++ [(x, r)] :=
            List.drop_append_of_le_length hN
          cases r with
          | failed =>
            dsimp only [BestAt]; rw [hd, succeeded_append]; simpa [succeeded] using h
          | result b score =>
            cases b with
            | false => dsimp only [BestAt]; rw [hd, succeeded_append]; simpa [succeeded] using h
            | true =>
              dsimp only [BestAt]
              rw [hd, succeeded_append]
              intro h1 ⟨y, hy, hyv⟩
              simp only [succeeded, List.mem_append, List.mem_singleton] at hy h1
              rcases hy with hy | rfl
              · exact Or.inr (h (fun z hz => h1 z (Or.inl hz)) ⟨y, hy, hyv⟩)
              · exact Or.inl hyv
    · exact h
  | got x r =>
    rw [hpc] at h
    cases r with
    | failed => exact h
    | result b score =>
      cases b with
      | false => exact h
      | true =>
        dsimp only [BestAt] at h ⊢
        intro h1 h2
        rcases h h1 h2 with h3 | ⟨y, hy, hyv⟩
        · exact ⟨x, by simp, h3⟩
        · exact ⟨y, by simp [hy], hyv⟩
  | full =>
    rw [hpc] at h hk
    obtain ⟨-, -, hsub⟩ := hk
    dsimp only at h ⊢
    split
    · rename_i hlt
      have hne : s.population ≠ [] := by
        intro he; rw [he] at hlt; simp at hlt
      have hf := hv hpc
      obtain ⟨x, w', he, hx, -, -, hmin⟩ := C21_elimination (k := k) hne
        (fun j hj => ⟨val j, hf j hj⟩)
      have he' : (gamaOps c cxpb).eliminate s.population s.world = (.ok x, w') := by
        show firstOf (eliminateFromPareto s.population 1) s.world = _
        unfold firstOf
        simp only [bind, PyM.bind, he]
        rfl
      rw [he']
      dsimp only [BestAt]
      intro h1 h2
      obtain ⟨y, hy, hyv⟩ := h h1 h2
      by_cases hxv : val x = v
      · -- all values are those of `x`
        have hall : ∀ z ∈ s.population, val z = v := by
          intro z hz
          have := hmin z hz (val x) (val z) (hf x hx).1 (hf z hz).1
            (by rw [hxv]; exact h1 z (hsub.subset hz))
          rw [this, hxv]
        have hlen : 0 < (s.population.erase x).length := by
          rw [List.length_erase_of_mem hx]; omega
        obtain ⟨z, hz'⟩ := List.exists_mem_of_length_pos hlen
        exact ⟨z, hz', hall z (List.mem_of_mem_erase hz')⟩
      · refine ⟨y, (List.mem_erase_of_ne ?_).2 hy, hyv⟩
        rintro rfl
        exact hxv hyv
    · exact h
  | remove x =>
    rw [hpc] at h
    dsimp only at h ⊢
    split
    · exact h
    · trivial
  | fill =>
    rw [hpc] at h
    dsimp only at h ⊢
    split
    · cases (gamaOps c cxpb).create s.population s.world with
      | mk r w => cases r <;> first | trivial | exact h
    · exact h
  | restart =>
    rw [hpc] at h
    dsimp only at h ⊢
    rw [hr]
    exact h
  | renew k made => rw [hpc] at h; exact h.elim
  | returned => dsimp only; unfold BestAt; rw [hpc] at h ⊢; exact h
  | raised e => dsimp only; unfold BestAt; rw [hpc]; trivial

theorem best_run (c : OpConfig) (cxpb : ℚ) (maxN : Option Int) (size : Nat) (hz : 0 < size)
    (val : Nat → List Score) (k : Nat) (v : List Score) (N : Nat) :
    ∀ (is : List (EaInput World)) (s : Ea World Nat), KeptSince size N s → BestAt val v N s →
    (∀ i ∈ is, i.restart = false) → EaAlong (gamaOps c cxpb) maxN size (Valued val k) is s →
    BestAt val v N (eaRun (gamaOps c cxpb) maxN size is s) := by
  intro is
  induction is with
  | nil => intro s _ h _ _; exact h
  | cons i is ih =>
    intro s hk h hr hv
    exact ih _ (kept_step _ _ _ _ _ _ hk (hr i (by simp)))
      (best_step c cxpb maxN size hz val k v N s i hk h (hr i (by simp)) hv.1)
      (fun j hj => hr j (by simp [hj])) hv.2

/-- **C117** for the population: if one of the evaluations without error since the last restart is
at least as good as all others on every objective, then whenever the search waits or has returned the
population has an individual with its values. -/
theorem C117_kept_partial (c : OpConfig) (cxpb : ℚ) (maxN : Option Int) (size k : Nat) (hz : 0 < size)
    (val : Nat → List Score) (cands : Candidates Nat) (s₀ : Ea World Nat) (h0 : s₀.pc = .clear cands)
    (is : List (EaInput World)) (s : Ea World Nat) (hr : ∀ i ∈ is, i.restart = false)
    (hv : EaAlong (gamaOps c cxpb) maxN size (Valued val k) is s₀)
    (hs : s = eaRun (gamaOps c cxpb) maxN size is s₀) (hpc : s.pc = .loop ∨ s.pc = .returned)
    (x : Nat) (hx : x ∈ succeeded (s.history.drop s₀.history.length))
    (hbest : ∀ y ∈ succeeded (s.history.drop s₀.history.length), Below (val y) (val x)) :
    ∃ y ∈ s.population, val y = val x := by
  have h := best_run c cxpb maxN size hz val k (val x) s₀.history.length is s₀
    ⟨Nat.le_refl _, by rw [h0]⟩ (by unfold BestAt; rw [h0]) hr hv
  rw [← hs] at h
  unfold BestAt at h
  rcases hpc with hpc | hpc <;> (rw [hpc] at h; exact h hbest ⟨x, hx, rfl⟩)

theorem lexLt_of_below : ∀ {u v : List Score}, Below u v → u ≠ v → LexLt u v
  | [], _, h, hne => by cases h; exact absurd rfl hne
  | a :: u, _, h, hne => by
    cases h with
    | @cons _ b _ v hab h =>
      by_cases e : a = b
      · subst e
        have hne' : u ≠ v := fun he => hne (by rw [he])
        rcases lexLt_of_below h hne' with ⟨p, a', b', s, t, h1, h2, h3⟩ | ⟨a', s, h1⟩
        · exact Or.inl ⟨a :: p, a', b', s, t, by rw [h1]; rfl, by rw [h2]; rfl, h3⟩
        · exact Or.inr ⟨a', s, by rw [h1]; rfl⟩
      · exact Or.inl ⟨[], a, b, u, v, rfl, rfl, lt_of_le_of_ne hab e⟩

/-- **C117** when one of the individuals evaluated without error since the last restart is at least as
good as all others on every objective: best fit picks an individual with exactly its values. -/
theorem C117_partial (c : OpConfig) (cxpb : ℚ) (maxN : Option Int) (size k : Nat) (hz : 0 < size)
    (val : Nat → List Score) (cands : Candidates Nat) (s₀ : Ea World Nat) (h0 : s₀.pc = .clear cands)
    (is : List (EaInput World)) (s : Ea World Nat) (hr : ∀ i ∈ is, i.restart = false)
    (hv : EaAlong (gamaOps c cxpb) maxN size (Valued val k) is s₀)
    (hs : s = eaRun (gamaOps c cxpb) maxN size is s₀) (hpc : s.pc = .loop ∨ s.pc = .returned)
    (x : Nat) (hx : x ∈ succeeded (s.history.drop s₀.history.length))
    (hbest : ∀ y ∈ succeeded (s.history.drop s₀.history.length), Below (val y) (val x)) :
    ∃ y ∈ s.population, bestFit val s.population = .ok y ∧ val y = val x := by
  obtain ⟨z, hz', hzv⟩ := C117_kept_partial c cxpb maxN size k hz val cands s₀ h0 is s hr hv hs hpc x hx
    hbest
  obtain ⟨y, hy, he, hmax⟩ := (C48_best_fit val s.population).2 (List.ne_nil_of_mem hz')
  refine ⟨y, hy, he, ?_⟩
  by_contra hne
  have hsub := (C106_partial (gamaOps c cxpb) maxN size cands s₀ h0 is s hr hs hpc).2.subset hy
  exact hmax z hz' (by rw [hzv]; exact lexLt_of_below (hbest y hsub) hne)

/-- **C117** with one objective (no length regularisation), where the claim holds. -/
theorem C117_one_objective_partial (c : OpConfig) (cxpb : ℚ) (maxN : Option Int) (size : Nat)
    (hz : 0 < size) (val : Nat → List Score) (cands : Candidates Nat) (s₀ : Ea World Nat)
    (h0 : s₀.pc = .clear cands) (is : List (EaInput World)) (s : Ea World Nat)
    (hr : ∀ i ∈ is, i.restart = false) (hlen : ∀ x, (val x).length = 1)
    (hv : EaAlong (gamaOps c cxpb) maxN size (Valued val 1) is s₀)
    (hs : s = eaRun (gamaOps c cxpb) maxN size is s₀) (hpc : s.pc = .loop ∨ s.pc = .returned)
    (hne : succeeded (s.history.drop s₀.history.length) ≠ []) :
    ∃ y, bestFit val s.population = .ok y ∧
      ∀ x ∈ succeeded (s.history.drop s₀.history.length), Below (val x) (val y) := by
  have hex : ∀ l : List Nat, l ≠ [] → ∃ x ∈ l, ∀ y ∈ l, Below (val y) (val x) := by
    have hone : ∀ x, ∃ a, val x = [a] := fun x => List.length_eq_one_iff.1 (hlen x)
    have hrefl : ∀ x, Below (val x) (val x) := by
      intro x; obtain ⟨a, ha⟩ := hone x; rw [ha]; exact .cons le_rfl .nil
    have htrans : ∀ x y z, Below (val x) (val y) → Below (val y) (val z) → Below (val x) (val z) := by
      intro x y z h1 h2
      obtain ⟨a, ha⟩ := hone x; obtain ⟨b, hb⟩ := hone y; obtain ⟨d, hd⟩ := hone z
      rw [ha, hb] at h1; rw [hb, hd] at h2; rw [ha, hd]
      cases h1 with
      | cons h1 _ => cases h2 with
        | cons h2 _ => exact .cons (le_trans h1 h2) .nil
    intro l
    induction l with
    | nil => intro h; exact absurd rfl h
    | cons z l ih =>
      intro _
      by_cases hl : l = []
      · subst hl; exact ⟨z, by simp, by intro y hy; simp at hy; rw [hy]; exact hrefl z⟩
      · obtain ⟨x, hx, hm⟩ := ih hl
        obtain ⟨a, ha⟩ := hone x; obtain ⟨b, hb⟩ := hone z
        rcases le_total a b with h | h
        · have hxz : Below (val x) (val z) := by rw [ha, hb]; exact .cons h .nil
          refine ⟨z, by simp, fun y hy => ?_⟩
          rcases List.mem_cons.1 hy with rfl | hy
          · exact hrefl _
          · exact htrans _ _ _ (hm y hy) hxz
        · have hzx : Below (val z) (val x) := by rw [ha, hb]; exact .cons h .nil
          refine ⟨x, by simp [hx], fun y hy => ?_⟩
          rcases List.mem_cons.1 hy with rfl | hy
          · exact hzx
          · exact hm y hy
  obtain ⟨x, hx, hm⟩ := hex _ hne
  obtain ⟨y, _, he, hyv⟩ := C117_partial c cxpb maxN size 1 hz val cands s₀ h0 is s hr hv hs hpc x hx hm
  exact ⟨y, he, by rw [hyv]; exact hm⟩

/-- **C117** for random search, where it holds: best fit picks an individual that no reported one
exceeds, lexicographically. -/
theorem C117_random_partial {σ ι : Type} [DecidableEq ι] (o : SearchOps σ ι) (maxN : Option Int)
    (l out : List ι) (w : σ) (val : ι → List Score) (is : List (Wait σ)) (s : Rs σ ι)
    (hs : s = rsRun o maxN is (rsStart (.list l) out w)) (hpc : s.pc = .loop ∨ s.pc = .returned)
    (x : ι) (score : Score) (b : Bool) (hx : (x, .result b score) ∈ s.history) :
    ∃ y ∈ s.output, bestFit val s.output = .ok y ∧ ¬ LexLt (val y) (val x) := by
  have hm : x ∈ s.output := by
    rw [(C38_reports_all o maxN l out w is s hs hpc).1]
    refine List.mem_append_right _ ?_
    generalize s.history = h at hx
    induction h with
    | nil => cases hx
    | cons p h ih =>
      obtain ⟨z, r⟩ := p
      rcases List.mem_cons.1 hx with he | he
      · cases he; simp [reported]
      · cases r <;> simp [reported, ih he]
  obtain ⟨y, hy, he, hmax⟩ := (C48_best_fit val s.output).2 (List.ne_nil_of_mem hm)
  exact ⟨y, hy, he, hmax x hm⟩

/-! #### How a pipeline gets lost -/

/-- `x` is in the population or about to be, unless it got lost (`L`). -/
def HeldOr (x : Nat) (N : Nat) (L : Prop) (s : Ea World Nat) : Prop :=
  match s.pc with
  | .start _ => False
  | .clear _ => N = s.history.length
  | .got z (.result true _) => x ∈ succeeded (s.history.drop N) → x = z ∨ x ∈ s.population ∨ L
  | .remove z => x ∈ succeeded (s.history.drop N) → x ∈ s.population.erase z ∨ L
  | .raised _ => True
  | .renew _ _ => False
  | _ => x ∈ succeeded (s.history.drop N) → x ∈ s.population ∨ L

theorem held_step (c : OpConfig) (cxpb : ℚ) (maxN : Option Int) (size : Nat)
    (val : Nat → List Score) (k : Nat) (x N : Nat) (L : Prop) (s : Ea World Nat)
    (i : EaInput World) (hN : N ≤ s.history.length) (h : HeldOr x N L s) (hr : i.restart = false)
    (hv : Valued val k s i)
    (hL : s.pc = .full → size < s.population.length → x ∈ s.population →
      (∀ y ∈ s.population, Below (val y) (val x) → val y = val x) → L) :
    HeldOr x N L (eaStep (gamaOps c cxpb) maxN size i s) := by
  unfold eaStep
  unfold HeldOr at h
  cases hpc : s.pc with
  | start c => rw [hpc] at h; exact h.elim
  | clear c =>
    rw [hpc] at h
    dsimp only at h
    have : succeeded (s.history.drop N) = [] := by rw [h]; simp [succeeded]
    cases c <;> (dsimp only [HeldOr]; rw [this]; simp)
  | submit rest => rw [hpc] at h; cases rest <;> exact h
  | loop =>
    rw [hpc] at h
    dsimp only at h ⊢
    split
    · cases i.wait with
      | raises e => trivial
      | completes j r w =>
        dsimp only
        cases ht : takePending s.pending j with
        | none => trivial
        | some p =>
          obtain ⟨z, rest⟩ := p
          have hd : (s.history ++ [(z, r)]).drop N = s.history.drop N ++ [(z, r)] :=
            List.drop_append_of_le_length hN
          cases r with
          | failed => dsimp only [HeldOr]; rw [hd, succeeded_append]; simpa [succeeded] using h
          | result b score =>
            cases b with
            | false => dsimp only [HeldOr]; rw [hd, succeeded_append]; simpa [succeeded] using h
            | true =>
              dsimp only [HeldOr]
              rw [hd, succeeded_append]
              intro hx
              simp only [succeeded, List.mem_append, List.mem_singleton] at hx
              rcases hx with hx | rfl
              · exact Or.inr (h hx)
              · exact Or.inl rfl
    · exact h
  | got z r =>
    rw [hpc] at h
    cases r with
    | failed => exact h
    | result b score =>
      cases b with
      | false => exact h
      | true =>
        dsimp only [HeldOr] at h ⊢
        intro hx
        rcases h hx with h3 | h3 | h3
        · exact Or.inl (by simp [h3])
        · exact Or.inl (by simp [h3])
        · exact Or.inr h3
  | full =>
    rw [hpc] at h
    dsimp only at h ⊢
    split
    · rename_i hlt
      have hne : s.population ≠ [] := by
        intro he; rw [he] at hlt; simp at hlt
      have hf := hv hpc
      obtain ⟨z, w', he, hz, -, -, hmin⟩ := C21_elimination (k := k) hne
        (fun j hj => ⟨val j, hf j hj⟩)
      have he' : (gamaOps c cxpb).eliminate s.population s.world = (.ok z, w') := by
        show firstOf (eliminateFromPareto s.population 1) s.world = _
        unfold firstOf
        simp only [bind, PyM.bind, he]
        rfl
      rw [he']
      dsimp only [HeldOr]
      intro hx
      rcases h hx with h3 | h3
      · by_cases e : x = z
        · subst e
          exact Or.inr (hL hpc hlt h3 fun y hy hb =>
            hmin y hy (val x) (val y) (hf x h3).1 (hf y hy).1 hb)
        · exact Or.inl ((List.mem_erase_of_ne e).2 h3)
      · exact Or.inr h3
    · exact h
  | remove z =>
    rw [hpc] at h
    dsimp only at h ⊢
    split
    · exact h
    · trivial
  | fill =>
    rw [hpc] at h
    dsimp only at h ⊢
    split
    · cases (gamaOps c cxpb).create s.population s.world with
      | mk r w => cases r <;> first | trivial | exact h
    · exact h
  | restart =>
    rw [hpc] at h
    dsimp only at h ⊢
    rw [hr]
    exact h
  | renew k made => rw [hpc] at h; exact h.elim
  | returned => dsimp only; unfold HeldOr; rw [hpc] at h ⊢; exact h
  | raised e => dsimp only; unfold HeldOr; rw [hpc]; trivial

theorem held_run (c : OpConfig) (cxpb : ℚ) (maxN : Option Int) (size : Nat)
    (val : Nat → List Score) (k : Nat) (x N : Nat) (L : Prop) :
    ∀ (is : List (EaInput World)) (s : Ea World Nat), KeptSince size N s → HeldOr x N L s →
    (∀ i ∈ is, i.restart = false) → EaAlong (gamaOps c cxpb) maxN size (Valued val k) is s →
    (∀ is₁ is₂ s₁, is = is₁ ++ is₂ → s₁ = eaRun (gamaOps c cxpb) maxN size is₁ s →
      s₁.pc = .full → size < s₁.population.length → x ∈ s₁.population →
      (∀ y ∈ s₁.population, Below (val y) (val x) → val y = val x) → L) →
    HeldOr x N L (eaRun (gamaOps c cxpb) maxN size is s) := by
  intro is
  induction is with
  | nil => intro s _ h _ _ _; exact h
  | cons i is ih =>
    intro s hk h hr hv hL
    exact ih _ (kept_step _ _ _ _ _ _ hk (hr i (by simp)))
      (held_step c cxpb maxN size val k x N L s i hk.1 h (hr i (by simp)) hv.1
        (hL [] (i :: is) s rfl rfl))
      (fun j hj => hr j (by simp [hj])) hv.2
      fun is₁ is₂ s₁ e es => hL (i :: is₁) is₂ s₁ (by rw [e]; rfl) es

theorem eq_or_better : ∀ (u v : List Score), u.length = v.length → (Below u v → u = v) →
    u = v ∨ ∃ (j : Nat) (a b : Score), v[j]? = some a ∧ u[j]? = some b ∧ a < b := by
  intro u v hlen h
  by_cases hb : Below u v
  · exact Or.inl (h hb)
  · right
    clear h
    induction u generalizing v with
    | nil =>
      obtain rfl : v = [] := List.length_eq_zero_iff.1 hlen.symm
      exact absurd List.Forall₂.nil hb
    | cons a u ih =>
      obtain _ | ⟨b, v⟩ := v
      · simp at hlen
      · by_cases hab : a ≤ b
        · obtain ⟨j, p, q, h1, h2, h3⟩ := ih v (by simpa using hlen) (fun h => hb (.cons hab h))
          exact ⟨j + 1, p, q, by simpa using h1, by simpa using h2, h3⟩
        · exact ⟨0, b, a, rfl, rfl, not_le.1 hab⟩

theorem eaAlong_append {σ ι : Type} [DecidableEq ι] {o : SearchOps σ ι} {maxN : Option Int} {size : Nat}
    {C : Ea σ ι → EaInput σ → Prop} : ∀ {is₁ is₂ : List (EaInput σ)} {s : Ea σ ι},
    EaAlong o maxN size C (is₁ ++ is₂) s → EaAlong o maxN size C is₂ (eaRun o maxN size is₁ s)
  | [], _, _, h => h
  | _ :: is₁, _, _, h => eaAlong_append (is₁ := is₁) h.2

/-- **C117**, how a pipeline gets lost: an individual evaluated without error since the last restart
that is not in the population was in it at a moment when the population had outgrown its size and
every other individual in it was strictly better on some objective (or had the same values). -/
theorem C117_otherwise (c : OpConfig) (cxpb : ℚ) (maxN : Option Int) (size k : Nat)
    (val : Nat → List Score) (cands : Candidates Nat) (s₀ : Ea World Nat) (h0 : s₀.pc = .clear cands)
    (is : List (EaInput World)) (s : Ea World Nat) (hr : ∀ i ∈ is, i.restart = false)
    (hv : EaAlong (gamaOps c cxpb) maxN size (Valued val k) is s₀)
    (hs : s = eaRun (gamaOps c cxpb) maxN size is s₀) (hpc : s.pc = .loop ∨ s.pc = .returned)
    (x : Nat) (hx : x ∈ succeeded (s.history.drop s₀.history.length)) (hlost : x ∉ s.population) :
    ∃ is₁ is₂ s₁, is = is₁ ++ is₂ ∧ s₁ = eaRun (gamaOps c cxpb) maxN size is₁ s₀ ∧
      x ∈ s₁.population ∧ size < s₁.population.length ∧
      ∀ y ∈ s₁.population, val y = val x ∨
        ∃ (j : Nat) (a b : Score), (val x)[j]? = some a ∧ (val y)[j]? = some b ∧ a < b := by
  have h := held_run c cxpb maxN size val k x s₀.history.length
    (∃ is₁ is₂ s₁, is = is₁ ++ is₂ ∧ s₁ = eaRun (gamaOps c cxpb) maxN size is₁ s₀ ∧
      x ∈ s₁.population ∧ size < s₁.population.length ∧
      ∀ y ∈ s₁.population, val y = val x ∨
        ∃ (j : Nat) (a b : Score), (val x)[j]? = some a ∧ (val y)[j]? = some b ∧ a < b) is s₀
    ⟨Nat.le_refl _, by rw [h0]⟩ (by unfold HeldOr; rw [h0]) hr hv
    (fun is₁ is₂ s₁ e es hp hlt hm hmin => by
      have hf : ∀ y ∈ s₁.population, (val y).length = k := by
        cases is₂ with
        | nil =>
          rw [List.append_nil] at e
          rw [e, ← es] at hs
          rw [hs, hp] at hpc
          rcases hpc with h | h <;> cases h
        | cons i is₂ =>
          have := eaAlong_append (is₁ := is₁) (is₂ := i :: is₂) (e ▸ hv)
          rw [← es] at this
          exact fun y hy => (this.1 hp y hy).2
      exact ⟨is₁, is₂, s₁, e, es, hm, hlt, fun y hy =>
        eq_or_better _ _ ((hf y hy).trans (hf x hm).symm) (hmin y hy)⟩)
  rw [← hs] at h
  unfold HeldOr at h
  rcases hpc with hpc | hpc <;> (rw [hpc] at h; exact (h hx).resolve_left hlost)

/-! #### The best pipeline is eliminated -/

/-- Two evaluated individuals: the second has the better score and is longer. -/
def Ex.longWorld : World :=
  { nodes := [], rnd := fun _ => 1,
    inds := [⟨0, {}, some [.fin 1, .fin (-1)]⟩, ⟨0, {}, some [.fin 2, .fin (-2)]⟩] }

def Ex.longVal : Nat → List Score
  | 0 => [.fin 1, .fin (-1)]
  | _ => [.fin 2, .fin (-2)]

/-- Both are evaluated, in a population for one. -/
def Ex.longInputs : List (EaInput World) :=
  List.replicate 17 ⟨.completes 0 (.result true (.fin 1)) Ex.longWorld, 2, false⟩

def Ex.longRun : Ea World Nat :=
  eaRun (gamaOps Ex.config 0) (some 2) 1 Ex.longInputs (eaStart (.list [0, 1]) [] Ex.longWorld)

/-- `Valued` along a run of the example, as a program. -/
def valuedB (val : Nat → List Score) (k : Nat) : List (EaInput World) → Ea World Nat → Bool
  | [], _ => true
  | i :: is, s =>
    (match s.pc with
      | .full => s.population.all fun x => decide ((s.world.inds[x]?.bind fun r => r.fitness) = some (val x) ∧
          (val x).length = k)
      | _ => true) && valuedB val k is (eaStep (gamaOps Ex.config 0) (some 2) 1 i s)

theorem valuedB_sound (val : Nat → List Score) (k : Nat) : ∀ (is : List (EaInput World)) (s : Ea World Nat),
    valuedB val k is s = true → EaAlong (gamaOps Ex.config 0) (some 2) 1 (Valued val k) is s
  | [], _, _ => trivial
  | i :: is, s, h => by
    unfold valuedB at h
    rw [Bool.and_eq_true] at h
    refine ⟨fun hpc x hx => ?_, valuedB_sound val k is _ h.2⟩
    have h1 := h.1
    rw [hpc] at h1
    simp only [List.all_eq_true, decide_eq_true_eq] at h1
    obtain ⟨h2, h3⟩ := h1 x hx
    refine ⟨?_, h3⟩
    cases hw : s.world.inds[x]? with
    | none => rw [hw] at h2; cases h2
    | some r => rw [hw] at h2; exact ⟨r, hw, h2⟩

/-- **C117** fails with length regularisation: an individual that scores better and is longer is in
the worst front, and may be the one eliminated. -/
theorem C117_false : ¬ C117_claim := by
  intro h
  have hpc : Ex.longRun.pc = .returned := by
    have : (match Ex.longRun.pc with | .returned => true | _ => false) = true := by decide +kernel
    revert this
    cases Ex.longRun.pc <;> simp
  have hpop : Ex.longRun.population = [0] := by decide +kernel
  have := h Ex.config 0 2 1 2 [0, 1] Ex.longWorld Ex.longVal Ex.longInputs Ex.longRun 0 1 (.fin 1)
    (.fin 2) (by omega) (by simp [Ex.longInputs]) (valuedB_sound _ _ _ _ (by decide +kernel)) rfl hpc
    (by rw [hpop]; rfl) (by decide +kernel) rfl rfl
  revert this
  decide +kernel

/-- The hypotheses of `C117_otherwise`: individual 1 was evaluated without error and is lost. -/
example : EaAlong (gamaOps Ex.config 0) (some 2) 1 (Valued Ex.longVal 2) Ex.longInputs
      (eaStart (.list [0, 1]) [] Ex.longWorld) ∧
    1 ∈ succeeded Ex.longRun.history ∧ 1 ∉ Ex.longRun.population :=
  ⟨valuedB_sound _ _ _ _ (by decide +kernel), by decide +kernel, by decide +kernel⟩

/-- Two evaluated individuals: the first is better on both objectives. -/
def Ex.shortWorld : World :=
  { nodes := [], rnd := fun _ => 1,
    inds := [⟨0, {}, some [.fin 2, .fin (-1)]⟩, ⟨0, {}, some [.fin 1, .fin (-2)]⟩] }

def Ex.shortVal : Nat → List Score
  | 0 => [.fin 2, .fin (-1)]
  | _ => [.fin 1, .fin (-2)]

def Ex.shortInputs : List (EaInput World) :=
  List.replicate 16 ⟨.completes 0 (.result true (.fin 1)) Ex.shortWorld, 2, false⟩

def Ex.shortStart : Ea World Nat := ⟨.clear (.list [0, 1]), Ex.shortWorld, [], [], 0, [], []⟩

/-- The hypotheses of `C117_partial` are met: both are evaluated in a population for one, and the
first stays. -/
example : ∃ y ∈ (eaRun (gamaOps Ex.config 0) (some 2) 1 Ex.shortInputs Ex.shortStart).population,
    Ex.shortVal y = [.fin 2, .fin (-1)] := by
  have hpc : (eaRun (gamaOps Ex.config 0) (some 2) 1 Ex.shortInputs Ex.shortStart).pc = .returned := by
    have : (match (eaRun (gamaOps Ex.config 0) (some 2) 1 Ex.shortInputs Ex.shortStart).pc with
      | .returned => true | _ => false) = true := by decide +kernel
    revert this
    cases (eaRun (gamaOps Ex.config 0) (some 2) 1 Ex.shortInputs Ex.shortStart).pc <;> simp
  have hsucc : succeeded ((eaRun (gamaOps Ex.config 0) (some 2) 1 Ex.shortInputs
      Ex.shortStart).history.drop 0) = [0, 1] := by decide +kernel
  obtain ⟨y, h1, _, h2⟩ := C117_partial Ex.config 0 (some 2) 1 2 (by omega) Ex.shortVal (.list [0, 1])
    Ex.shortStart rfl Ex.shortInputs _ (by simp [Ex.shortInputs])
    (valuedB_sound _ _ _ _ (by decide +kernel)) rfl (Or.inr hpc) 0
    (by show 0 ∈ succeeded (List.drop 0 _); rw [hsucc]; simp)
    (by
      show ∀ y ∈ succeeded (List.drop 0 _), _
      rw [hsucc]
      intro y hy
      simp at hy
      rcases hy with rfl | rfl
      · exact .cons le_rfl (.cons le_rfl .nil)
      · exact .cons (by decide +kernel) (.cons (by decide +kernel) .nil))
  exact ⟨y, h1, h2⟩

/-! ### Cases of the theorems above -/

theorem Ex.short_returned :
    (eaRun (gamaOps Ex.config 0) (some 2) 1 Ex.shortInputs Ex.shortStart).pc = .returned := by
  have : (match (eaRun (gamaOps Ex.config 0) (some 2) 1 Ex.shortInputs Ex.shortStart).pc with
    | .returned => true | _ => false) = true := by decide +kernel
  revert this
  cases (eaRun (gamaOps Ex.config 0) (some 2) 1 Ex.shortInputs Ex.shortStart).pc <;> simp

theorem Ex.short_succeeded : succeeded ((eaRun (gamaOps Ex.config 0) (some 2) 1 Ex.shortInputs
    Ex.shortStart).history.drop 0) = [0, 1] := by decide +kernel

/-- `C117_kept_partial`: of two individuals the first, better on both objectives, stays. -/
example : ∃ y ∈ (eaRun (gamaOps Ex.config 0) (some 2) 1 Ex.shortInputs Ex.shortStart).population,
    Ex.shortVal y = Ex.shortVal 0 :=
  C117_kept_partial Ex.config 0 (some 2) 1 2 (by omega) Ex.shortVal (.list [0, 1])
    Ex.shortStart rfl Ex.shortInputs _ (by simp [Ex.shortInputs])
    (valuedB_sound _ _ _ _ (by decide +kernel)) rfl (Or.inr Ex.short_returned) 0
    (by show 0 ∈ succeeded (List.drop 0 _); rw [Ex.short_succeeded]; simp)
    (by
      show ∀ y ∈ succeeded (List.drop 0 _), _
      rw [Ex.short_succeeded]
      intro y hy
      rcases List.mem_cons.1 hy with rfl | hy
      · exact .cons le_rfl (.cons le_rfl .nil)
      · rcases List.mem_cons.1 hy with rfl | hy
        · exact .cons (by decide +kernel) (.cons (by decide +kernel) .nil)
        · cases hy)

/-- Two evaluated individuals with one objective, the second is better. -/
def Ex.oneWorld : World :=
  { nodes := [], rnd := fun _ => 1, inds := [⟨0, {}, some [.fin 1]⟩, ⟨0, {}, some [.fin 2]⟩] }

def Ex.oneVal : Nat → List Score
  | 0 => [.fin 1]
  | _ => [.fin 2]

def Ex.oneRun : Ea World Nat :=
  eaRun (gamaOps Ex.config 0) (some 2) 1
    (List.replicate 16 ⟨.completes 0 (.result true (.fin 1)) Ex.oneWorld, 2, false⟩)
    ⟨.clear (.list [0, 1]), Ex.oneWorld, [], [], 0, [], []⟩

/-- `C117_one_objective_partial`: both are evaluated in a population for one, the second is fitted. -/
example : ∃ y, bestFit Ex.oneVal Ex.oneRun.population = .ok y ∧ Below (Ex.oneVal 1) (Ex.oneVal y) := by
  have hpc : Ex.oneRun.pc = .returned := by
    have : (match Ex.oneRun.pc with | .returned => true | _ => false) = true := by decide +kernel
    revert this
    cases Ex.oneRun.pc <;> simp
  have hsucc : succeeded (Ex.oneRun.history.drop 0) = [0, 1] := by decide +kernel
  obtain ⟨y, h1, h2⟩ := C117_one_objective_partial Ex.config 0 (some 2) 1 (by omega) Ex.oneVal (.list [0, 1])
    ⟨.clear (.list [0, 1]), Ex.oneWorld, [], [], 0, [], []⟩ rfl
    (List.replicate 16 ⟨.completes 0 (.result true (.fin 1)) Ex.oneWorld, 2, false⟩) Ex.oneRun (by simp)
    (fun x => by cases x <;> rfl) (valuedB_sound _ _ _ _ (by decide +kernel)) rfl (Or.inr hpc)
    (by show succeeded (Ex.oneRun.history.drop 0) ≠ []; rw [hsucc]; simp)
  refine ⟨y, h1, h2 1 ?_⟩
  show 1 ∈ succeeded (Ex.oneRun.history.drop 0)
  rw [hsucc]
  simp

/-- Random search that evaluates two candidates. -/
def Ex.randomRun : Rs Unit Nat :=
  rsRun Ex.ops (some 2) ((List.range 10).map fun j => .completes 0 (.result true (.fin j)) ())
    (rsStart (.list [0, 1]) [] ())

/-- `C117_random_partial`. -/
example : ∃ y ∈ Ex.randomRun.output, bestFit Ex.oneVal Ex.randomRun.output = .ok y ∧
    ¬ LexLt (Ex.oneVal y) (Ex.oneVal 1) := by
  have hpc : Ex.randomRun.pc = .returned := by
    have : (match Ex.randomRun.pc with | .returned => true | _ => false) = true := by decide +kernel
    revert this
    cases Ex.randomRun.pc <;> simp
  exact C117_random_partial Ex.ops (some 2) [0, 1] [] () Ex.oneVal _ Ex.randomRun rfl (Or.inr hpc) 1 (.fin 6) true
    (by decide +kernel)

end Gama
