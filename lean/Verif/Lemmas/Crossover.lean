import Verif.Lemmas.Mutation

/-! Crossover of two individuals given by disjoint chains. -/

namespace Gama
open Spec PyM

/-- The individual list differs at most in `i` and `j`. -/
def FrameI2 (i j : Nat) (w w' : World) : Prop :=
  w'.inds.length = w.inds.length ∧ ∀ k, k ≠ i → k ≠ j → w'.inds[k]? = w.inds[k]?

structure Kept2 (w : World) (i j : Nat) (l₁ l₂ : List (Addr × Step)) (w' : World) : Prop where
  nodes : FrameN (addrs l₁ ++ addrs l₂) w.nodes w'.nodes
  inds : FrameI2 i j w w'

/-- Outcome of an in-place operation on two individuals. -/
structure Done2 (w : World) (i j : Nat) (l₁ l₂ : List (Addr × Step))
    (P : List Step → List Step → Prop) (w' : World) : Prop extends Kept2 w i j l₁ l₂ w' where
  chain : ∃ ind₁ ind₂ m₁ m₂, w'.inds[i]? = some ind₁ ∧ w'.inds[j]? = some ind₂ ∧
    Chain w'.nodes (some ind₁.main) m₁ ∧ Chain w'.nodes (some ind₂.main) m₂ ∧
    P (steps m₁) (steps m₂) ∧
    (∀ b ∈ addrs m₁, b ∈ addrs l₁ ++ addrs l₂) ∧ (∀ b ∈ addrs m₂, b ∈ addrs l₁ ++ addrs l₂) ∧
    (∀ b ∈ addrs m₁, b ∉ addrs m₂)

theorem Kept2.of_same {w w' : World} {i j l₁ l₂} (h : Same w w') : Kept2 w i j l₁ l₂ w' :=
  ⟨by rw [h.1]; exact FrameN.refl _ _, by unfold FrameI2; rw [h.2]; exact ⟨rfl, fun _ _ _ => rfl⟩⟩

theorem mem_sharedTerminals {t1 t2 : List Terminal} {k : Nat} {a : Terminal} {l : Nat}
    {b : Terminal} : (k, a, l, b) ∈ sharedTerminals t1 t2 ↔
      t1[k]? = some a ∧ t2[l]? = some b ∧ a.ident = b.ident ∧ a.value.pyEq b.value = false := by
  simp only [sharedTerminals, List.mem_flatMap, List.mem_filterMap, Prod.exists]
  constructor
  · rintro ⟨i, x, hx, j, y, hy, h⟩
    split at h
    · split at h
      · simp at h
      · next h1 h2 =>
        simp only [Option.some.injEq, Prod.mk.injEq] at h
        obtain ⟨rfl, rfl, rfl, rfl⟩ := h
        exact ⟨mem_enum.1 hx, mem_enum.1 hy, h1, by simpa using h2⟩
    · simp at h
  · rintro ⟨h1, h2, h3, h4⟩
    exact ⟨k, a, mem_enum.2 h1, l, b, mem_enum.2 h2, by simp [h3, h4]⟩

theorem chain_term_at {l : List (Addr × Step)} {pre a s post} {k j : Nat} {old : Terminal}
    (hk : (allTerms (steps l))[k]? = some old) (hl : l = pre ++ (a, s) :: post)
    (hpos : k = (allTerms (steps pre)).length + j) (hj : j < s.terms.length) :
    s.terms[j] = old := by
  have h1 : (allTerms (steps l))[k]? = some s.terms[j] := by
    subst hl
    have e : steps (pre ++ (a, s) :: post) = steps pre ++ s :: steps post := by simp [steps]
    rw [hpos, e, allTerms_append, List.getElem?_append_right (Nat.le_add_right _ _),
      Nat.add_sub_cancel_left]
    simp only [allTerms, List.flatMap_cons]
    rw [List.getElem?_append_left hj, List.getElem?_eq_getElem hj]
  rw [hk] at h1
  injection h1 with h1
  exact h1.symm

section
variable {ps : PSet} {i j : Nat} {w : World} {ind₁ ind₂ : IndCell} {l₁ l₂ : List (Addr × Step)}

/-- Shape of the two crossover functions. -/
def cxShape (ps : PSet) (f : CxFn) (p₁ p₂ c₁ c₂ : List Step) : Prop :=
  PipelineOk ps c₁ ∧ PipelineOk ps c₂ ∧ Crossed p₁ p₂ c₁ c₂ ∧
  match f with
  | .terminals => c₁.length = p₁.length ∧ c₂.length = p₂.length
  | .primitives => c₁.length + c₂.length = p₁.length + p₂.length

theorem wp_crossoverTerminals (hps : PSetOk ps)
    (hi : w.inds[i]? = some ind₁) (hj : w.inds[j]? = some ind₂)
    (hc₁ : Chain w.nodes (some ind₁.main) l₁) (hc₂ : Chain w.nodes (some ind₂.main) l₂)
    (hdis : ∀ a ∈ addrs l₁, a ∉ addrs l₂)
    (hok₁ : PipelineOk ps (steps l₁)) (hok₂ : PipelineOk ps (steps l₂)) :
    wp (crossoverTerminals i j)
      (fun _ w' => Done2 w i j l₁ l₂ (cxShape ps .terminals (steps l₁) (steps l₂)) w')
      (fun e w' => e = .indexError ∧ w' = w ∧
        sharedTerminals (allTerms (steps l₁)) (allTerms (steps l₂)) = []) w := by
  simp only [crossoverTerminals, wp_bind]
  apply wp_terminals hi hc₁
  apply wp_terminals hj hc₂
  apply wp_choice
  · intro h; exact ⟨rfl, rfl, h⟩
  rintro ⟨k, a, l, b⟩ hm
  obtain ⟨hk, hl, hid, hne⟩ := mem_sharedTerminals.1 hm
  simp only
  have hklt := (List.getElem?_eq_some_iff.1 hk).1
  have hllt := (List.getElem?_eq_some_iff.1 hl).1
  refine wp_replaceTerminal (l := l₁) (ind := ind₁) hi hc₁ ?_ (by intro h; omega)
    (by intro h; omega)
  intro pre a₁ s post k₁ e₁ hp₁ hk₁
  have ha := chain_term_at hk e₁ hp₁ hk₁
  refine ⟨?_, fun h => absurd hid (by rw [ha] at h; exact h)⟩
  intro _ c hch₁
  have hc₂' : Chain (w.nodes.set a₁ c) (some ind₂.main) l₂ :=
    hc₂.set_notin (hdis a₁ (by rw [e₁]; simp [addrs]))
  refine wp_replaceTerminal (w := { advance w with nodes := w.nodes.set a₁ c }) (l := l₂)
    (ind := ind₂) hj hc₂' ?_ (by intro h; omega) (by intro h; omega)
  intro pre₂ a₂ s₂ post₂ k₂ e₂ hp₂ hk₂
  have hb := chain_term_at hl e₂ hp₂ hk₂
  refine ⟨?_, fun h => absurd hid.symm (by rw [hb] at h; exact h)⟩
  intro _ c₂ hch₂
  have ha₁₂ : a₂ ∉ addrs l₁ := fun h => hdis a₂ h (by rw [e₂]; simp [addrs])
  have hea : addrs (pre ++ (a₁, { s with terms := s.terms.set k₁ b }) :: post) = addrs l₁ := by
    rw [e₁]; simp [addrs]
  have heb : addrs (pre₂ ++ (a₂, { s₂ with terms := s₂.terms.set k₂ a }) :: post₂) = addrs l₂ := by
    rw [e₂]; simp [addrs]
  obtain ⟨kd₁, hs₁⟩ := pipelineOk_kind hok₁ (s := s) (by rw [e₁]; simp [steps])
  obtain ⟨kd₂, hs₂⟩ := pipelineOk_kind hok₂ (s := s₂) (by rw [e₂]; simp [steps])
  have hta : s.terms[k₁] ∈ ps.terms (s₂.terms[k₂]).ident := by
    rw [hb, ← hid, ← ha]; exact hs₁.values _ (List.getElem_mem hk₁)
  have htb : s₂.terms[k₂] ∈ ps.terms (s.terms[k₁]).ident := by
    rw [ha, hid, ← hb]; exact hs₂.values _ (List.getElem_mem hk₂)
  refine { nodes := ?_, inds := ⟨rfl, fun _ _ _ => rfl⟩, chain := ⟨ind₁, ind₂, _, _, hi, hj,
    Chain.set_notin hch₁ (by rw [hea]; exact ha₁₂), hch₂, ?_, ?_, ?_, ?_⟩ }
  · refine FrameN.trans (B := [a₂]) (h' := w.nodes.set a₁ c) ?_ (FrameN.set (by simp)) ?_
    · exact FrameN.set (by rw [e₁]; simp [addrs])
    · intro x _ hx
      simp at hx; subst hx
      rw [e₂]; simp [addrs]
  · rw [e₁] at hok₁ ⊢
    rw [e₂] at hok₂ ⊢
    simp only [steps, List.map_append, List.map_cons] at hok₁ hok₂ ⊢
    have h1 := StepOk.setTerm hps hs₁ hk₁ htb
    have h2 := StepOk.setTerm hps hs₂ hk₂ hta
    rw [hb] at h1
    rw [ha] at h2
    refine ⟨pipelineOk_replace hps hok₁ (by rw [hps.kind _ _ hs₁.offered]; exact h1),
      pipelineOk_replace hps hok₂ (by rw [hps.kind _ _ hs₂.offered]; exact h2), ?_, ?_⟩
    · have := Crossed.values (List.map Prod.snd pre) s (List.map Prod.snd post)
        (List.map Prod.snd pre₂) s₂ (List.map Prod.snd post₂) k₁ k₂ hk₁ hk₂
        (by rw [ha, hb]; exact hid) (by rw [ha, hb]; exact hne)
      rw [ha, hb] at this
      exact this
    · simp
  · intro x hx; rw [hea] at hx; exact List.mem_append.2 (Or.inl hx)
  · intro x hx; rw [heb] at hx; exact List.mem_append.2 (Or.inr hx)
  · rw [hea, heb]; exact hdis

theorem mem_dropLast_split {α : Type} {l : List α} {x : α} (h : x ∈ l.dropLast) :
    ∃ pre post, l = pre ++ x :: post ∧ post ≠ [] := by
  rcases List.eq_nil_or_concat l with rfl | ⟨l', y, rfl⟩
  · simp at h
  · simp only [List.concat_eq_append, List.dropLast_concat] at h
    obtain ⟨p, q, rfl⟩ := List.append_of_mem h
    exact ⟨p, q ++ [y], by simp, by simp⟩

theorem wp_crossoverPrimitives
    (hi : w.inds[i]? = some ind₁) (hj : w.inds[j]? = some ind₂)
    (hc₁ : Chain w.nodes (some ind₁.main) l₁) (hc₂ : Chain w.nodes (some ind₂.main) l₂)
    (hdis : ∀ a ∈ addrs l₁, a ∉ addrs l₂)
    (hok₁ : PipelineOk ps (steps l₁)) (hok₂ : PipelineOk ps (steps l₂)) :
    wp (crossoverPrimitives i j)
      (fun _ w' => Done2 w i j l₁ l₂ (cxShape ps .primitives (steps l₁) (steps l₂)) w')
      (fun e w' => e = .indexError ∧ Same w w' ∧ (l₁.length ≤ 1 ∨ l₂.length ≤ 1)) w := by
  simp only [crossoverPrimitives, wp_bind]
  apply wp_primitives hi hc₁
  apply wp_choice
  · intro h
    refine ⟨rfl, Same.refl w, Or.inl ?_⟩
    have := congrArg List.length h
    simp [addrs] at this; omega
  intro p₁ hp₁
  refine wp_primitives (w := advance w) hj hc₂ ?_
  apply wp_choice
  · intro h
    refine ⟨rfl, Same.advance w, Or.inr ?_⟩
    have := congrArg List.length h
    simp [addrs] at this; omega
  intro p₂ hp₂
  have hd : ∀ {l : List (Addr × Step)} {p}, p ∈ (addrs l).dropLast →
      ∃ pre s post, l = pre ++ (p, s) :: post ∧ post ≠ [] := by
    intro l p h
    rw [addrs, ← List.map_dropLast] at h
    obtain ⟨⟨p', s⟩, hm, rfl⟩ := List.mem_map.1 h
    obtain ⟨pre, post, e, hne⟩ := mem_dropLast_split hm
    exact ⟨pre, s, post, e, hne⟩
  obtain ⟨pre₁, s₁, post₁, rfl, hne₁⟩ := hd hp₁
  obtain ⟨pre₂, s₂, post₂, rfl, hne₂⟩ := hd hp₂
  have f₁ := hc₁.suffix
  have f₂ := hc₂.suffix
  simp only [Chain] at f₁ f₂
  obtain ⟨_, n₁, hn₁, ct₁⟩ := f₁
  obtain ⟨_, n₂, hn₂, ct₂⟩ := f₂
  refine wp_getNode (w := advance (advance w)) hn₁ ?_
  refine wp_getNode (w := advance (advance w)) hn₂ ?_
  simp only [setNode, wp_modify, wp_bind]
  have hp₁₂ : p₁ ≠ p₂ := fun h => hdis p₁ (by simp [addrs]) (by rw [h]; simp [addrs])
  have hn₂' : (w.nodes.set p₁ ⟨s₁.prim, s₁.terms, n₂⟩)[p₂]? = some ⟨s₂.prim, s₂.terms, n₂⟩ := by
    rw [List.getElem?_set_ne hp₁₂, hn₂]
  refine wp_getNode (w := { advance (advance w) with nodes := w.nodes.set p₁ _ }) hn₂' ?_
  -- the first write
  have hp₁post₂ : p₁ ∉ addrs post₂ := fun h => hdis p₁ (by simp [addrs]) (by
    simp only [addrs, List.map_append, List.map_cons, List.mem_append, List.mem_cons]
    exact Or.inr (Or.inr h))
  have hp₂post₁ : p₂ ∉ addrs post₁ := fun h => hdis p₂ (by
    simp only [addrs, List.map_append, List.map_cons, List.mem_append, List.mem_cons]
    exact Or.inr (Or.inr h)) (by simp [addrs])
  have hp₂pre₁ : p₂ ∉ addrs pre₁ := fun h => hdis p₂ (by
    simp only [addrs, List.map_append, List.map_cons, List.mem_append, List.mem_cons]
    exact Or.inl h) (by simp [addrs])
  have d₁ := Chain.update s₁ hc₁ ct₂ hp₁post₂
  have d₂ : Chain (w.nodes.set p₁ ⟨s₁.prim, s₁.terms, n₂⟩) (some ind₂.main)
      (pre₂ ++ (p₂, s₂) :: post₂) := hc₂.set_notin (hdis p₁ (by simp [addrs]))
  have ct₁' : Chain (w.nodes.set p₁ ⟨s₁.prim, s₁.terms, n₂⟩) n₁ post₁ :=
    ct₁.set_notin hc₁.nodup_mid.2.1
  have e₂ := Chain.update s₂ d₂ ct₁' hp₂post₁
  have e₁ := d₁.set_notin (a := p₂) (c := ⟨s₂.prim, s₂.terms, n₁⟩) (by
    simp only [addrs, List.map_append, List.map_cons, List.mem_append, List.mem_cons]
    rintro (h | h | h)
    · exact hp₂pre₁ h
    · exact hp₁₂ h.symm
    · exact hc₂.nodup_mid.2.1 h)
  refine { nodes := ?_, inds := ⟨rfl, fun _ _ _ => rfl⟩,
           chain := ⟨ind₁, ind₂, _, _, hi, hj, e₁, e₂, ?_, ?_, ?_, ?_⟩ }
  · refine FrameN.trans (B := [p₂]) (h' := w.nodes.set p₁ ⟨s₁.prim, s₁.terms, n₂⟩)
      (FrameN.set (by simp [addrs])) (FrameN.set (by simp)) ?_
    intro x _ hx
    simp at hx; subst hx
    simp [addrs]
  · simp only [steps, List.map_append, List.map_cons] at hok₁ hok₂ ⊢
    have q : ∀ {pre post : List Step} {s : Step}, PipelineOk ps (pre ++ s :: post) →
        PipelineOk ps (pre ++ [s]) ∧ ∀ x ∈ post, StepOk ps dataTerminal x := by
      intro pre post s h
      refine ⟨pipelineOk_prefix (post := post) (by simpa using h) (by simp), ?_⟩
      rw [pipelineOk_append] at h
      rcases h with h | h
      · exact h.2.2
      · exact h.2.2.2
    have r : ∀ {pre post : List Step} {s : Step}, PipelineOk ps (pre ++ [s]) →
        (∀ x ∈ post, StepOk ps dataTerminal x) → PipelineOk ps (pre ++ s :: post) := by
      intro pre post s h hx
      rw [pipelineOk_append] at h ⊢
      rcases h with h | h
      · exact Or.inl ⟨h.1, h.2.1, hx⟩
      · exact Or.inr ⟨h.1, h.2.1, h.2.2.1, hx⟩
    have b₁ := q hok₁
    have b₂ := q hok₂
    refine ⟨r b₁.1 b₂.2, r b₂.1 b₁.2, ?_, by simp; omega⟩
    have := Crossed.tails (List.map Prod.snd pre₁ ++ [s₁]) (List.map Prod.snd post₁)
      (List.map Prod.snd pre₂ ++ [s₂]) (List.map Prod.snd post₂) (by simp) (by simp)
      (by simpa using hne₁) (by simpa using hne₂)
    simpa using this
  · intro x hx
    simp only [addrs, List.map_append, List.map_cons, List.mem_append, List.mem_cons] at hx ⊢
    rcases hx with h | h | h
    · exact Or.inl (Or.inl h)
    · exact Or.inl (Or.inr (Or.inl h))
    · exact Or.inr (Or.inr (Or.inr h))
  · intro x hx
    simp only [addrs, List.map_append, List.map_cons, List.mem_append, List.mem_cons] at hx ⊢
    rcases hx with h | h | h
    · exact Or.inr (Or.inl h)
    · exact Or.inr (Or.inr (Or.inl h))
    · exact Or.inl (Or.inr (Or.inr h))
  · intro x hx hx'
    simp only [addrs, List.map_append, List.map_cons, List.mem_append, List.mem_cons] at hx hx' hdis
    have m₁ := hc₁.nodup_mid
    have m₂ := hc₂.nodup_mid
    rcases hx with h | h | h <;> rcases hx' with h' | h' | h'
    · exact hdis x (Or.inl h) (Or.inl h')
    · exact hdis x (Or.inl h) (Or.inr (Or.inl h'))
    · exact m₁.2.2 x h h'
    · exact hdis x (Or.inr (Or.inl h)) (Or.inl h')
    · exact hp₁₂ (h.symm.trans h')
    · exact m₁.2.1 (by rw [h] at h'; exact h')
    · exact m₂.2.2 x h' h
    · exact m₂.2.1 (by rw [h'] at h; exact h)
    · exact hdis x (Or.inr (Or.inr h')) (Or.inr (Or.inr h))

/-- The valid crossover functions for two pipelines. -/
def cxValid (p₁ p₂ : List Step) : List CxFn :=
  (if (sharedTerminals (allTerms p₁) (allTerms p₂)).isEmpty then [] else [.terminals])
    ++ (if p₁.length ≥ 2 ∧ p₂.length ≥ 2 then [.primitives] else [])

theorem wp_validCrossoverFunctions
    (hi : w.inds[i]? = some ind₁) (hj : w.inds[j]? = some ind₂)
    (hc₁ : Chain w.nodes (some ind₁.main) l₁) (hc₂ : Chain w.nodes (some ind₂.main) l₂)
    {Q : List CxFn → World → Prop} {E : Exn → World → Prop}
    (hQ : Q (cxValid (steps l₁) (steps l₂)) w) :
    wp (validCrossoverFunctions i j) Q E w := by
  simp only [validCrossoverFunctions, wp_bind]
  apply wp_terminals hi hc₁
  apply wp_terminals hj hc₂
  apply wp_primitives hi hc₁
  apply wp_primitives hj hc₂
  simp only [wp_pure]
  simpa [cxValid, addrs, steps] using hQ

/-- What `random_crossover` guarantees on disjoint well-formed individuals. -/
theorem wp_randomCrossover (hps : PSetOk ps) {maxLength : Option Nat}
    (hi : w.inds[i]? = some ind₁) (hj : w.inds[j]? = some ind₂)
    (hc₁ : Chain w.nodes (some ind₁.main) l₁) (hc₂ : Chain w.nodes (some ind₂.main) l₂)
    (hdis : ∀ a ∈ addrs l₁, a ∉ addrs l₂)
    (hok₁ : PipelineOk ps (steps l₁)) (hok₂ : PipelineOk ps (steps l₂)) :
    wp (randomCrossover maxLength i j)
      (fun r w' => Done2 w i j l₁ l₂ (fun c₁ c₂ => Crossed (steps l₁) (steps l₂) c₁ c₂ ∧
          PipelineOk ps c₁ ∧ PipelineOk ps c₂ ∧
          c₁.length + c₂.length = l₁.length + l₂.length ∧
          (exceeds maxLength c₁.length = true → r = (j, i)) ∧
          (exceeds maxLength c₁.length = false → r = (i, j))) w' ∧
        exceeds maxLength l₁.length = false ∧ exceeds maxLength l₂.length = false ∧
        cxValid (steps l₁) (steps l₂) ≠ [])
      (fun e w' => e = .valueError ∧ w' = w ∧
        (exceeds maxLength l₁.length = true ∨ exceeds maxLength l₂.length = true ∨
          cxValid (steps l₁) (steps l₂) = [])) w := by
  simp only [randomCrossover, wp_bind]
  apply wp_primitives hi hc₁
  simp only [wp_ite, addrs, List.length_map]
  refine ⟨fun h => ⟨rfl, rfl, Or.inl h⟩, fun hx₁ => ?_⟩
  simp only [wp_bind]
  apply wp_primitives hj hc₂
  simp only [wp_ite, addrs, List.length_map]
  refine ⟨fun h => ⟨rfl, rfl, Or.inr (Or.inl h)⟩, fun hx₂ => ?_⟩
  simp only [wp_bind]
  apply wp_validCrossoverFunctions hi hj hc₁ hc₂
  simp only [wp_ite]
  refine ⟨fun h => ⟨rfl, rfl, Or.inr (Or.inr (List.length_eq_zero_iff.1 h))⟩, fun hx₃ => ?_⟩
  simp only [wp_bind]
  have hx₃' : cxValid (steps l₁) (steps l₂) ≠ [] := fun h => hx₃ (List.length_eq_zero_iff.2 h)
  apply wp_choice
  · intro h; exact absurd h hx₃'
  intro f hf
  have hap : wp (f.apply i j)
      (fun _ w' => Done2 w i j l₁ l₂ (cxShape ps f (steps l₁) (steps l₂)) w')
      (fun _ _ => False) (advance w) := by
    have hlen : ∀ l : List (Addr × Step), (steps l).length = l.length := by simp [steps]
    cases f with
    | terminals =>
      refine wp_mono (fun _ w' h => ?_) (fun e w' h => ?_)
        (wp_crossoverTerminals (w := advance w) hps hi hj hc₁ hc₂ hdis hok₁ hok₂)
      · exact { nodes := h.nodes, inds := h.inds, chain := h.chain }
      · simp only [cxValid, h.2.2, List.isEmpty_nil, if_true, List.nil_append] at hf
        split at hf <;> simp at hf
    | primitives =>
      refine wp_mono (fun _ w' h => ?_) (fun e w' h => ?_)
        (wp_crossoverPrimitives (ps := ps) (w := advance w) hi hj hc₁ hc₂ hdis hok₁ hok₂)
      · exact { nodes := h.nodes, inds := h.inds, chain := h.chain }
      · obtain ⟨_, _, h3⟩ := h
        simp only [cxValid, hlen] at hf
        split at hf <;> split at hf <;> simp at hf
        all_goals omega
  refine wp_mono (fun _ w' h => ?_) (fun e w' h => h.elim) hap
  obtain ⟨i₁, i₂, m₁, m₂, g1, g2, g3, g4, g5, g6, g7, g8⟩ := h.chain
  apply wp_primitives g1 g3
  have hlen : ∀ l : List (Addr × Step), (steps l).length = l.length := by simp [steps]
  have hsum : (steps m₁).length + (steps m₂).length = l₁.length + l₂.length := by
    have := g5.2.2.2
    cases f <;> simp only [hlen] at this ⊢ <;> omega
  simp only [wp_ite, addrs, List.length_map]
  have base : ∀ r : Nat × Nat, (exceeds maxLength m₁.length = true → r = (j, i)) →
      (exceeds maxLength m₁.length = false → r = (i, j)) →
      Done2 w i j l₁ l₂ (fun c₁ c₂ => Crossed (steps l₁) (steps l₂) c₁ c₂ ∧
          PipelineOk ps c₁ ∧ PipelineOk ps c₂ ∧
          c₁.length + c₂.length = l₁.length + l₂.length ∧
          (exceeds maxLength c₁.length = true → r = (j, i)) ∧
          (exceeds maxLength c₁.length = false → r = (i, j))) w' := by
    intro r hr1 hr2
    refine { nodes := h.nodes, inds := h.inds, chain := ⟨i₁, i₂, m₁, m₂, g1, g2, g3, g4,
      ⟨g5.2.2.1, g5.1, g5.2.1, hsum, ?_, ?_⟩, g6, g7, g8⟩ }
    · rw [hlen]; exact hr1
    · rw [hlen]; exact hr2
  constructor
  · intro hx
    refine wp_pure.2 ?_
    exact ⟨base _ (fun _ => rfl) (fun h => by rw [hx] at h; simp at h), by simpa using hx₁,
      by simpa using hx₂, hx₃'⟩
  · intro hx
    refine wp_pure.2 ?_
    exact ⟨base _ (fun h => absurd h hx) (fun _ => rfl), by simpa using hx₁,
      by simpa using hx₂, hx₃'⟩

end
end Gama
