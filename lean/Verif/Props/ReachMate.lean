import Verif.Props.Reach

/-! # Which pipelines crossover can make (C121) -/

namespace Gama
open Spec PyM

theorem Unif.validCrossoverFunctions (i j : Nat) : Unif (Gama.validCrossoverFunctions i j) :=
  (Unif.terminals i).bind fun _ => (Unif.terminals j).bind fun _ => (Unif.primitives i).bind fun _ =>
    (Unif.primitives j).bind fun _ => Unif.pure _

theorem Unif.crossoverPrimitives (i j : Nat) : Unif (Gama.crossoverPrimitives i j) :=
  (Unif.primitives i).bind fun _ => (Unif.choice _).bind fun _ => (Unif.primitives j).bind fun _ =>
    (Unif.choice _).bind fun _ => (Unif.getNode _).bind fun _ => (Unif.getNode _).bind fun _ =>
      (Unif.setNode _ _).bind fun _ => (Unif.getNode _).bind fun _ => Unif.setNode _ _

theorem Unif.crossoverTerminals (i j : Nat) : Unif (Gama.crossoverTerminals i j) :=
  (Unif.terminals i).bind fun _ => (Unif.terminals j).bind fun _ => (Unif.choice _).bind fun _ =>
    (Unif.replaceTerminal _ _ _).bind fun _ => Unif.replaceTerminal _ _ _

theorem Unif.cxApply (i j : Nat) : ∀ f : CxFn, Unif (f.apply i j)
  | .terminals => Unif.crossoverTerminals i j
  | .primitives => Unif.crossoverPrimitives i j

theorem Unif.randomCrossover (m : Option Nat) (i j : Nat) : Unif (Gama.randomCrossover m i j) := by
  unfold Gama.randomCrossover
  have last : ∀ f : CxFn, Unif (do
      f.apply i j
      let as ← Gama.primitives i
      if exceeds m as.length then Pure.pure (j, i) else Pure.pure (i, j)) := fun f =>
    (Unif.cxApply i j f).bind fun _ => (Unif.primitives i).bind fun _ =>
      Unif.ite (Unif.pure _) (Unif.pure _)
  have mid : ∀ fs : List CxFn, Unif (do
      let f ← Gama.choice fs
      f.apply i j
      let as ← Gama.primitives i
      if exceeds m as.length then Pure.pure (j, i) else Pure.pure (i, j)) := fun fs =>
    (Unif.choice _).bind fun f => last f
  refine (Unif.primitives i).bind fun as => Unif.ite ((Unif.raise _).bind fun _ => ?_) ?_
  all_goals
    refine (Unif.primitives j).bind fun bs => Unif.ite ((Unif.raise _).bind fun _ => ?_) ?_
    all_goals
      refine (Unif.validCrossoverFunctions i j).bind fun fs =>
        Unif.ite ((Unif.raise _).bind fun _ => ?_) ?_
      all_goals exact mid fs

theorem Unif.mateWithLog (c : OpConfig) (i j : Nat) : Unif (Gama.mateWithLog c i j) :=
  (Unif.copyAsNew i).bind fun n => (Unif.copyAsNew j).bind fun _ =>
    (Unif.randomCrossover _ _ _).bind fun _ => (Unif.getInd n).bind fun _ =>
      (Unif.setInd _ _).bind fun _ => Unif.pure _

theorem Unif.opMate (c : OpConfig) (i j : Nat) : Unif (Gama.opMate c i j) :=
  Unif.tryUntilNew _ (Unif.mateWithLog c i j) _ _

section
variable {ps : PSet} {i j : Nat} {w : World} {ind₁ ind₂ : IndCell} {l₁ l₂ : List (Addr × Step)}

theorem split_steps {l : List (Addr × Step)} {pre post : List Step} {s : Step}
    (h : steps l = pre ++ s :: post) :
    ∃ p a q, l = p ++ (a, s) :: q ∧ steps p = pre ∧ steps q = post := by
  unfold steps at h
  obtain ⟨p, q, rfl, rfl, hq⟩ := List.map_eq_append_iff.1 h
  obtain ⟨⟨a, s'⟩, q', rfl, hs, rfl⟩ := List.map_eq_cons_iff.1 hq
  dsimp only at hs
  subst hs
  exact ⟨p, a, q', rfl, rfl, rfl⟩

theorem reach_crossoverTerminals (hps : PSetOk ps)
    (hi : w.inds[i]? = some ind₁) (hj : w.inds[j]? = some ind₂)
    (hc₁ : Chain w.nodes (some ind₁.main) l₁) (hc₂ : Chain w.nodes (some ind₂.main) l₂)
    (hdis : ∀ a ∈ addrs l₁, a ∉ addrs l₂)
    {pre₁ post₁ pre₂ post₂ : List Step} {s₁ s₂ : Step} {k₁ k₂ : Nat}
    (h₁ : steps l₁ = pre₁ ++ s₁ :: post₁) (h₂ : steps l₂ = pre₂ ++ s₂ :: post₂)
    (hk₁ : k₁ < s₁.terms.length) (hk₂ : k₂ < s₂.terms.length)
    (same : s₁.terms[k₁].ident = s₂.terms[k₂].ident)
    (differs : s₁.terms[k₁].value.pyEq s₂.terms[k₂].value = false) :
    Reach (crossoverTerminals i j) w fun _ w' =>
      Is w' i (pre₁ ++ { s₁ with terms := s₁.terms.set k₁ s₂.terms[k₂] } :: post₁) := by
  have g₁ := allTerms_get (pre := pre₁) (post := post₁) hk₁
  have g₂ := allTerms_get (pre := pre₂) (post := post₂) hk₂
  rw [← h₁] at g₁
  rw [← h₂] at g₂
  have b₁ := (List.getElem?_eq_some_iff.1 g₁).1
  have b₂ := (List.getElem?_eq_some_iff.1 g₂).1
  refine reach_bind (Unif.terminals i) (reach_of_wp (wp_terminals hi hc₁ ?_))
  refine reach_bind (Unif.terminals j) (reach_of_wp (wp_terminals hj hc₂ ?_))
  refine reach_bind (Unif.choice _) (reach_choice
    (mem_sharedTerminals.2 ⟨g₁, g₂, same, differs⟩) fun r => ?_)
  refine reach_bind (Unif.replaceTerminal _ _ _) (reach_of_wp ?_)
  refine wp_replaceTerminal (l := l₁) (ind := ind₁) hi hc₁ ?_ (by intro h; omega) (by intro h; omega)
  intro p₁ a₁ t₁ q₁ m₁ e₁ hp₁ hm₁
  have hst₁ : steps l₁ = steps p₁ ++ t₁ :: steps q₁ := by rw [e₁]; simp [steps]
  obtain ⟨rfl, rfl, rfl, rfl⟩ := position_unique (h₁.symm.trans hst₁) hp₁ hk₁ hm₁
  refine ⟨?_, fun h => absurd same h⟩
  intro _ c hch₁
  have hc₂' : Chain (w.nodes.set a₁ c) (some ind₂.main) l₂ :=
    hc₂.set_notin (hdis a₁ (by rw [e₁]; simp [addrs]))
  refine reach_of_wp (wp_replaceTerminal (w := { withRnd w r with nodes := w.nodes.set a₁ c }) (l := l₂)
    (ind := ind₂) hj hc₂' ?_ (by intro h; omega) (by intro h; omega))
  intro p₂ a₂ t₂ q₂ m₂ e₂ hp₂ hm₂
  have hst₂ : steps l₂ = steps p₂ ++ t₂ :: steps q₂ := by rw [e₂]; simp [steps]
  obtain ⟨rfl, rfl, rfl, rfl⟩ := position_unique (h₂.symm.trans hst₂) hp₂ hk₂ hm₂
  refine ⟨?_, fun h => absurd same.symm h⟩
  intro _ c₂ _
  have ha₁₂ : a₂ ∉ addrs l₁ := fun h => hdis a₂ h (by rw [e₂]; simp [addrs])
  refine is_iff.2 ⟨ind₁, _, hi, Chain.set_notin hch₁ ?_, by simp [steps]⟩
  have hea : addrs (p₁ ++ (a₁, { s₁ with terms := s₁.terms.set k₁ s₂.terms[k₂] }) :: q₁) = addrs l₁ := by
    rw [e₁]; simp [addrs]
  rw [hea]
  exact ha₁₂

theorem mem_dropLast_of_split {α : Type} {x : α} {p q : List α} (hq : q ≠ []) :
    x ∈ (p ++ x :: q).dropLast := by
  rcases List.eq_nil_or_concat q with rfl | ⟨q', y, rfl⟩
  · exact absurd rfl hq
  · rw [show p ++ x :: (q'.concat y) = (p ++ x :: q') ++ [y] by simp, List.dropLast_concat]
    simp

theorem reach_crossoverPrimitives
    (hi : w.inds[i]? = some ind₁) (hj : w.inds[j]? = some ind₂)
    (hc₁ : Chain w.nodes (some ind₁.main) l₁) (hc₂ : Chain w.nodes (some ind₂.main) l₂)
    (hdis : ∀ a ∈ addrs l₁, a ∉ addrs l₂) {h₁ t₁ h₂ t₂ : List Step}
    (e₁ : steps l₁ = h₁ ++ t₁) (e₂ : steps l₂ = h₂ ++ t₂) (keep₁ : h₁ ≠ []) (keep₂ : h₂ ≠ [])
    (give₁ : t₁ ≠ []) (give₂ : t₂ ≠ []) :
    Reach (crossoverPrimitives i j) w fun _ w' => Is w' i (h₁ ++ t₂) := by
  obtain ⟨g₁, s₁, rfl⟩ := List.eq_nil_or_concat h₁ |>.resolve_left keep₁
  obtain ⟨g₂, s₂, rfl⟩ := List.eq_nil_or_concat h₂ |>.resolve_left keep₂
  simp only [List.concat_eq_append, List.append_assoc, List.cons_append, List.nil_append] at e₁ e₂ ⊢
  obtain ⟨pre₁, p₁, post₁, rfl, rfl, rfl⟩ := split_steps e₁
  obtain ⟨pre₂, p₂, post₂, rfl, rfl, rfl⟩ := split_steps e₂
  have ne₁ : post₁ ≠ [] := by rintro rfl; exact give₁ rfl
  have ne₂ : post₂ ≠ [] := by rintro rfl; exact give₂ rfl
  have hmem : ∀ {pre post : List (Addr × Step)} {p : Addr} {s : Step}, post ≠ [] →
      p ∈ (addrs (pre ++ (p, s) :: post)).dropLast := by
    intro pre post p s h
    have := mem_dropLast_of_split (x := p) (p := addrs pre) (q := addrs post)
      (by simpa [addrs] using h)
    simpa [addrs] using this
  refine reach_bind (Unif.primitives i) (reach_of_wp (wp_primitives hi hc₁ ?_))
  refine reach_bind (Unif.choice _) (reach_choice (hmem ne₁) fun r => ?_)
  refine reach_bind (Unif.primitives j) (reach_of_wp (wp_primitives (w := withRnd w r) hj hc₂ ?_))
  refine reach_bind (Unif.choice _) (reach_choice (hmem ne₂) fun r' => ?_)
  have f₁ := hc₁.suffix
  have f₂ := hc₂.suffix
  simp only [Chain] at f₁ f₂
  obtain ⟨_, n₁, hn₁, ct₁⟩ := f₁
  obtain ⟨_, n₂, hn₂, ct₂⟩ := f₂
  refine reach_of_wp ?_
  simp only [wp_bind]
  refine wp_getNode (w := withRnd w r') hn₁ ?_
  refine wp_getNode (w := withRnd w r') hn₂ ?_
  simp only [setNode, wp_modify, wp_bind]
  have hp₁₂ : p₁ ≠ p₂ := fun h => hdis p₁ (by simp [addrs]) (by rw [h]; simp [addrs])
  have hn₂' : (w.nodes.set p₁ ⟨s₁.prim, s₁.terms, n₂⟩)[p₂]? = some ⟨s₂.prim, s₂.terms, n₂⟩ := by
    rw [List.getElem?_set_ne hp₁₂, hn₂]
  refine wp_getNode (w := { withRnd w r' with nodes := w.nodes.set p₁ _ }) hn₂' ?_
  have hp₁post₂ : p₁ ∉ addrs post₂ := fun h => hdis p₁ (by simp [addrs]) (by
    simp only [addrs, List.map_append, List.map_cons, List.mem_append, List.mem_cons]
    exact Or.inr (Or.inr h))
  have hp₂pre₁ : p₂ ∉ addrs pre₁ := fun h => hdis p₂ (by
    simp only [addrs, List.map_append, List.map_cons, List.mem_append, List.mem_cons]
    exact Or.inl h) (by simp [addrs])
  have d₁ := Chain.update s₁ hc₁ ct₂ hp₁post₂
  have e₁ := d₁.set_notin (a := p₂) (c := ⟨s₂.prim, s₂.terms, n₁⟩) (by
    simp only [addrs, List.map_append, List.map_cons, List.mem_append, List.mem_cons]
    rintro (h | h | h)
    · exact hp₂pre₁ h
    · exact hp₁₂ h.symm
    · exact hc₂.nodup_mid.2.1 h)
  exact is_iff.2 ⟨ind₁, _, hi, e₁, by simp [steps]⟩

/-- Crossover itself can make every exchange. -/
theorem reach_randomCrossover (hps : PSetOk ps) {m : Option Nat}
    (hi : w.inds[i]? = some ind₁) (hj : w.inds[j]? = some ind₂)
    (hc₁ : Chain w.nodes (some ind₁.main) l₁) (hc₂ : Chain w.nodes (some ind₂.main) l₂)
    (hdis : ∀ a ∈ addrs l₁, a ∉ addrs l₂)
    (hx₁ : exceeds m l₁.length = false) (hx₂ : exceeds m l₂.length = false) {c₁ c₂ : List Step}
    (hx : Crossed (steps l₁) (steps l₂) c₁ c₂) :
    Reach (randomCrossover m i j) w fun _ w' => Is w' i c₁ := by
  have al : ∀ l : List (Addr × Step), (addrs l).length = l.length := by simp [addrs]
  have key : ∀ f ∈ cxValid (steps l₁) (steps l₂),
      (∀ r, Reach (f.apply i j) (withRnd w r) fun _ w' => Is w' i c₁) →
      Reach (randomCrossover m i j) w fun _ w' => Is w' i c₁ := by
    intro f hf hr
    unfold randomCrossover
    refine reach_bind (Unif.primitives i) (reach_of_wp (wp_primitives hi hc₁ ?_))
    rw [al, hx₁, if_neg (by simp)]
    refine reach_bind (Unif.primitives j) (reach_of_wp (wp_primitives hj hc₂ ?_))
    rw [al, hx₂, if_neg (by simp)]
    refine reach_bind (Unif.validCrossoverFunctions i j)
      (reach_of_wp (wp_validCrossoverFunctions hi hj hc₁ hc₂ ?_))
    rw [if_neg (by
      intro h
      rw [List.length_eq_zero_iff.1 h] at hf
      cases hf)]
    refine reach_bind (Unif.choice _) (reach_choice hf fun r => ?_)
    refine reach_bind (Unif.cxApply i j f) (reach_mono (hr r) fun _ w' h => ?_)
    obtain ⟨ind, l, h1, h2, h3⟩ := is_iff.1 h
    refine reach_bind (Unif.primitives i) (reach_of_wp (wp_primitives h1 h2 ?_))
    split <;> exact reach_pure h
  generalize hs₁ : steps l₁ = p₁ at hx
  generalize hs₂ : steps l₂ = p₂ at hx
  cases hx with
  | tails h₁ t₁ h₂ t₂ k₁ k₂ g₁ g₂ =>
    refine key .primitives ?_ fun r =>
      reach_crossoverPrimitives hi hj hc₁ hc₂ hdis hs₁ hs₂ k₁ k₂ g₁ g₂
    have a₁ := List.length_pos_iff.2 k₁
    have a₂ := List.length_pos_iff.2 k₂
    have b₁ := List.length_pos_iff.2 g₁
    have b₂ := List.length_pos_iff.2 g₂
    rw [cxValid, hs₁, hs₂]
    refine List.mem_append_right _ ?_
    rw [if_pos (by simp only [List.length_append]; omega)]
    simp
  | values pre₁ s₁ post₁ pre₂ s₂ post₂ k₁ k₂ hk₁ hk₂ same differs =>
    refine key .terminals ?_ fun r =>
      reach_crossoverTerminals hps hi hj hc₁ hc₂ hdis hs₁ hs₂ hk₁ hk₂ same differs
    rw [cxValid, hs₁, hs₂]
    refine List.mem_append_left _ ?_
    have hm := mem_sharedTerminals.2 ⟨allTerms_get (pre := pre₁) (post := post₁) hk₁,
      allTerms_get (pre := pre₂) (post := post₂) hk₂, same, differs⟩
    rw [if_neg (by rw [List.isEmpty_iff]; exact List.ne_nil_of_mem hm)]
    simp

end

theorem reach_mateWithLog {c : OpConfig} (hps : PSetOk c.ps) {w : World} {i j : Nat}
    {p₁ p₂ c₁ c₂ : List Step} (his : Is w i p₁) (hjs : Is w j p₂)
    (hok₁ : PipelineOk c.ps p₁) (hok₂ : PipelineOk c.ps p₂)
    (hlen : ∀ x, c.maxLength = some x → p₁.length ≤ x ∧ p₂.length ≤ x)
    (hx : Crossed p₁ p₂ c₁ c₂) :
    Reach (mateWithLog c i j) w fun n w' => Is w' n c₁ := by
  obtain ⟨ind₁, l₁, hi, hc₁, rfl⟩ := is_iff.1 his
  obtain ⟨ind₂, l₂, hj, hc₂, rfl⟩ := is_iff.1 hjs
  unfold mateWithLog
  refine reach_bind (Unif.copyAsNew i) (reach_of_wp (wp_copyAsNew hi hc₁ ?_))
  intro a m₁ new hm₁ hst₁ hnew₁
  rw [map_resort (fun s hs => pipelineOk_kind hok₁ hs)] at hst₁
  have hltj : j < w.inds.length := by
    by_contra h
    rw [List.getElem?_eq_none (by omega)] at hj
    cases hj
  refine reach_bind (Unif.copyAsNew j) (reach_of_wp (wp_copyAsNew
    (w := { w with nodes := w.nodes ++ new, inds := w.inds ++ [{ main := a }] }) (ind := ind₂)
    (by rw [List.getElem?_append_left hltj]; exact hj) hc₂.append_heap ?_))
  intro b m₂ new₂ hm₂ hst₂ hnew₂
  rw [map_resort (fun s hs => pipelineOk_kind hok₂ hs)] at hst₂
  have len₁ : m₁.length = (steps l₁).length := by rw [← hst₁]; simp [steps]
  have len₂ : m₂.length = (steps l₂).length := by rw [← hst₂]; simp [steps]
  refine reach_bind (Unif.randomCrossover _ _ _) (reach_mono
    (reach_randomCrossover (ps := c.ps) (ind₁ := { main := a }) (ind₂ := { main := b }) (l₁ := m₁) (l₂ := m₂)
      (c₁ := c₁) (c₂ := c₂) hps ?_ ?_ hm₁.append_heap hm₂ ?_ ?_ ?_ (by rw [hst₁, hst₂]; exact hx)) ?_)
  · simp
  · simp
  · intro x hx₁ hx₂
    have h1 := hm₁.lt hx₁
    have h2 := hnew₂ x hx₂
    exact Nat.lt_irrefl _ (Nat.lt_of_lt_of_le h1 h2)
  · rw [len₁]; exact not_exceeds fun x h => (hlen x h).1
  · rw [len₂]; exact not_exceeds fun x h => (hlen x h).2
  · intro _ w' h
    obtain ⟨ind, _, h2, _, _⟩ := is_iff.1 h
    refine reach_mono (reach_setMeta (f := fun _ => { parents := [i, j], origin := some "cx".toList }) h2 h) ?_
    rintro _ w₃ ⟨rfl, h3⟩
    exact h3

/-- **C121**, exactly: two well-formed parents within the maximum length have the offspring `ss`
for some random draws if and only if `ss` is the first child of an exchange between them, be it of
the steps at the data side or of two values of one hyperparameter. -/
theorem C121 {c : OpConfig} (hps : PSetOk c.ps) (hr : 0 < c.maxRetry) {w : World} {i j : Nat}
    {p₁ p₂ : List Step} (his : Is w i p₁) (hjs : Is w j p₂)
    (hok₁ : PipelineOk c.ps p₁) (hok₂ : PipelineOk c.ps p₂)
    (hlen : ∀ x, c.maxLength = some x → p₁.length ≤ x ∧ p₂.length ≤ x) (ss : List Step) :
    Reach (opMate c i j) w (fun n w' => Is w' n ss) ↔ ∃ ss₂, Crossed p₁ p₂ ss ss₂ := by
  constructor
  · rintro ⟨r, n, w', run, h⟩
    obtain ⟨c₁, c₂, h1, h2, _⟩ :=
      wp_ok (wp_opMate (w := withRnd w r) hps his hjs hok₁ hok₂) run
    have : ss = c₁ := by
      obtain ⟨as, h1, _⟩ := h1.is
      exact h.det ⟨as, h1⟩
    exact ⟨c₂, this ▸ h2⟩
  · rintro ⟨ss₂, hx⟩
    refine reach_tryUntilNew (P := fun w' => Extends w w') (Unif.mateWithLog c i j) ?_
      (Extends.refl w) (fun h => by omega)
    intro w₁ hex
    have h1 := reach_mateWithLog hps (his.mono hex) (hjs.mono hex) hok₁ hok₂ hlen hx
    obtain ⟨r, n, w', run, h⟩ := h1
    refine ⟨r, n, w', run, h, ?_⟩
    obtain ⟨_, _, hf, _⟩ := wp_ok (wp_mateWithLog (w := withRnd w₁ r) hps (his.mono hex) (hjs.mono hex)
      hok₁ hok₂) run
    exact Extends.trans hex hf.ext

/-- The tails of `SC > PCA > DT` and `PCA > NB`: two steps of the first may go to the second. -/
example (r : Stream) : Reach (opMate ⟨Ex.space, some 3, fun _ => false, 50⟩ 2 0) (Ex.w0 r) fun n w' =>
    Is w' n [⟨Ex.pNB, [Ex.alpha1]⟩, ⟨Ex.pPCA, [Ex.whitT]⟩, ⟨Ex.pSC, []⟩] :=
  (C121 (c := ⟨Ex.space, some 3, fun _ => false, 50⟩) Ex.space_ok (by decide) (Ex.is_double r) (Ex.is_long r)
    Ex.double_ok Ex.long_ok (by intro x hx; cases hx; decide) _).2
    ⟨_, Crossed.tails [⟨Ex.pNB, [Ex.alpha1]⟩] [⟨Ex.pPCA, [Ex.whitF]⟩] [⟨Ex.pDT, [Ex.alpha1, Ex.depth2]⟩]
      [⟨Ex.pPCA, [Ex.whitT]⟩, ⟨Ex.pSC, []⟩] (by simp) (by simp) (by simp) (by simp)⟩

/-- A value may go from one to the other. -/
example (r : Stream) : Reach (opMate ⟨Ex.space, some 3, fun _ => false, 50⟩ 2 1) (Ex.w0 r) fun n w' =>
    Is w' n [⟨Ex.pNB, [Ex.alpha2]⟩, ⟨Ex.pPCA, [Ex.whitF]⟩] :=
  (C121 (c := ⟨Ex.space, some 3, fun _ => false, 50⟩) Ex.space_ok (by decide) (Ex.is_double r) (Ex.is_single r)
    Ex.double_ok Ex.single_ok (by intro x hx; cases hx; decide) _).2
    ⟨_, Crossed.values [] ⟨Ex.pNB, [Ex.alpha1]⟩ [⟨Ex.pPCA, [Ex.whitF]⟩] [] ⟨Ex.pNB, [Ex.alpha2]⟩ [] 0 0
      (by decide) (by decide) (by decide) (by decide)⟩

end Gama
