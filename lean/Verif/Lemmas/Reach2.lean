import Verif.Lemmas.Reach
import Verif.Props.Operators

/-! Which mutants some random draws lead to. -/

namespace Gama
open Spec PyM

theorem position_unique : ∀ {pre pre₂ : List Step} {s s₂ : Step} {post post₂ : List Step} {k k₂ : Nat},
    pre ++ s :: post = pre₂ ++ s₂ :: post₂ →
    (allTerms pre).length + k = (allTerms pre₂).length + k₂ → k < s.terms.length →
    k₂ < s₂.terms.length → pre = pre₂ ∧ s = s₂ ∧ post = post₂ ∧ k = k₂
  | [], [], s, s₂, post, post₂, k, k₂, h, hk, _, _ => by
    simp only [List.nil_append, List.cons.injEq] at h
    exact ⟨rfl, h.1, h.2, by simpa [allTerms] using hk⟩
  | [], x :: pre₂, s, s₂, post, post₂, k, k₂, h, hk, hlt, _ => by
    simp only [List.nil_append, List.cons_append, List.cons.injEq] at h
    obtain ⟨rfl, _⟩ := h
    simp [allTerms] at hk
    omega
  | x :: pre, [], s, s₂, post, post₂, k, k₂, h, hk, _, hlt => by
    simp only [List.nil_append, List.cons_append, List.cons.injEq] at h
    obtain ⟨rfl, _⟩ := h
    simp [allTerms] at hk
    omega
  | x :: pre, y :: pre₂, s, s₂, post, post₂, k, k₂, h, hk, h₁, h₂ => by
    simp only [List.cons_append, List.cons.injEq] at h
    obtain ⟨rfl, h⟩ := h
    have hk' : (allTerms pre).length + k = (allTerms pre₂).length + k₂ := by
      simp [allTerms] at hk ⊢
      omega
    obtain ⟨rfl, e₂, e₃, e₄⟩ := position_unique h hk' h₁ h₂
    exact ⟨rfl, e₂, e₃, e₄⟩

section
variable {ps : PSet} {i : Nat} {w : World} {ind : IndCell} {l : List (Addr × Step)}

theorem allTerms_get {pre post : List Step} {s : Step} {k : Nat} (hk : k < s.terms.length) :
    (allTerms (pre ++ s :: post))[(allTerms pre).length + k]? = some s.terms[k] := by
  rw [allTerms_append, List.getElem?_append_right (Nat.le_add_right _ _), Nat.add_sub_cancel_left]
  simp only [allTerms, List.flatMap_cons]
  rw [List.getElem?_append_left hk, List.getElem?_eq_getElem hk]

theorem reach_mutReplaceTerminal (hps : PSetOk ps) (hi : w.inds[i]? = some ind)
    (hc : Chain w.nodes (some ind.main) l) {pre post : List Step} {s : Step}
    (hs : steps l = pre ++ s :: post) {k : Nat} (hk : k < s.terms.length) {t : Terminal}
    (ht : t ∈ ps.terms s.terms[k].ident) (hd : t.value.pyEq s.terms[k].value = false)
    (hlen : 1 < (ps.terms s.terms[k].ident).length) :
    Reach (mutReplaceTerminal i ps) w fun _ w' =>
      Is w' i (pre ++ { s with terms := s.terms.set k t } :: post) := by
  have hmem : ((allTerms pre).length + k, s.terms[k]) ∈ (enum (allTerms (steps l))).filter
      fun it => (ps.terms it.2.ident).length > 1 := by
    simp only [List.mem_filter, mem_enum, hs, allTerms_get hk, decide_eq_true_eq]
    exact ⟨trivial, hlen⟩
  refine reach_bind (Unif.terminals i) (reach_of_wp (wp_terminals hi hc ?_))
  rw [if_neg (by rw [List.isEmpty_iff]; exact List.ne_nil_of_mem hmem)]
  refine reach_bind (Unif.choice _) (reach_choice hmem fun r => ?_)
  refine reach_bind (Unif.choice _) (reach_choice (x := t) ?_ fun r' => ?_)
  · simp only [List.mem_filter, Bool.not_eq_true']
    exact ⟨ht, hd⟩
  refine reach_of_wp (wp_replaceTerminal (l := l) (ind := ind) hi hc ?_ ?_ ?_)
  · intro pre₂ a s₂ post₂ j hl hpos hj
    have hst : steps l = steps pre₂ ++ s₂ :: steps post₂ := by rw [hl]; simp [steps]
    obtain ⟨rfl, rfl, rfl, rfl⟩ := position_unique (hs.symm.trans hst) hpos hk hj
    constructor
    · intro _ c hch
      exact is_iff.2 ⟨ind, _, hi, hch, by simp [steps]⟩
    · intro hne
      rw [hps.ident _ _ ht] at hne
      exact absurd rfl hne
  · intro h
    have := (List.getElem?_eq_some_iff.1 (allTerms_get (pre := pre) (post := post) hk)).1
    rw [hs] at h; omega
  · intro h
    have := (List.getElem?_eq_some_iff.1 (allTerms_get (pre := pre) (post := post) hk)).1
    rw [hs] at h; omega

theorem reach_mutReplacePrimitive (hps : PSetOk ps) (hi : w.inds[i]? = some ind)
    (hc : Chain w.nodes (some ind.main) l) (hok : PipelineOk ps (steps l))
    {pre post : List Step} {s s' : Step}
    (hs : steps l = pre ++ s :: post) (hs' : StepOk ps s.prim.output s') (hd : s'.prim ≠ s.prim)
    (hlen : 1 < (ps.prims s.prim.output).length) :
    Reach (mutReplacePrimitive i ps) w fun _ w' => Is w' i (pre ++ s' :: post) := by
  refine reach_bind (Unif.primitives i) (reach_of_wp (wp_primitives hi hc ?_))
  refine reach_bind (Unif.getNodes _) (reach_of_wp (wp_getNodes (fun a s h => hc.cell h) ?_))
  intro cs hcs
  have hget : (steps l)[pre.length]? = some s := by rw [hs]; simp
  obtain ⟨old, hold, hcell⟩ : ∃ old, cs[pre.length]? = some old ∧ cellStep old = s := by
    rw [← hcs, List.getElem?_map, Option.map_eq_some_iff] at hget
    exact hget
  have hprim : old.prim = s.prim := by rw [← hcell]; rfl
  have hmem : (pre.length, old) ∈ (enum cs).filter
      fun it => (ps.prims it.2.prim.output).length > 1 := by
    simp only [List.mem_filter, mem_enum, hold, decide_eq_true_eq, hprim]
    exact ⟨trivial, hlen⟩
  rw [if_neg (by rw [List.isEmpty_iff]; exact List.ne_nil_of_mem hmem)]
  refine reach_bind (Unif.choice _) (reach_choice hmem fun r => ?_)
  show Reach (randomPrimitiveNode old.prim.output ps (some old.prim) >>= _) _ _
  rw [hprim]
  refine reach_bind (Unif.randomPrimitiveNode _ _ _)
    (reach_mono (reach_randomPrimitiveNode hps hs' (fun e => hd (Option.some.inj e))) ?_)
  rintro a w' ⟨rfl, hn, hi'⟩
  have hn : w'.nodes = w.nodes ++ [⟨s'.prim, s'.terms, none⟩] := hn
  have hi' : w'.inds = w.inds := hi'
  show Reach (replacePrimitive i pre.length w.nodes.length) w' _
  have hnew : w'.nodes[w.nodes.length]? = some ⟨s'.prim, s'.terms, none⟩ := by simp [hn]
  have hc' : Chain w'.nodes (some ind.main) l := by rw [hn]; exact hc.append_heap
  have hnl : w.nodes.length ∉ addrs l := fun hm => absurd (hc.lt hm) (by simp)
  refine reach_of_wp (wp_replacePrimitive (s' := s') (l := l) (by rw [hi']; exact hi) hc' hnew hnl
    ?_ ?_)
  · intro pre₂ b s₂ post₂ hl hlen₂
    have hst : steps l = steps pre₂ ++ s₂ :: steps post₂ := by rw [hl]; simp [steps]
    have hh := List.append_inj (hs.symm.trans hst) (by rw [← hlen₂]; simp [steps])
    obtain ⟨rfl, hh⟩ := hh
    injection hh with e₁ e₂
    subst e₁; subst e₂
    constructor
    · intro hbad
      exact absurd (hps.kind _ _ hs'.offered).symm hbad
    · intro _ w'' ind' l₂ h1 h2 h3 _ _ _ _ _
      have hpost : ∀ x ∈ steps post₂, ∃ k, StepOk ps k x := fun x hx =>
        pipelineOk_kind hok (by rw [hs]; simp [hx])
      rw [map_resort hpost] at h3
      refine is_iff.2 ⟨ind', _, h1, h2, ?_⟩
      simp only [steps, List.map_append, List.map_cons] at h3 ⊢
      rw [h3]
  · intro hge
    have := congrArg List.length hs
    simp [steps] at this
    omega

theorem reach_mutShrink (hi : w.inds[i]? = some ind)
    (hc : Chain w.nodes (some ind.main) l) {pre post : List Step}
    (hs : steps l = pre ++ post) (hpre : pre ≠ []) (hpost : post ≠ []) :
    Reach (mutShrink i none) w fun _ w' => Is w' i pre := by
  have hlen : l.length = pre.length + post.length := by
    have := congrArg List.length hs
    simpa [steps] using this
  have h1 : 0 < pre.length := List.length_pos_iff.2 hpre
  have h2 : 0 < post.length := List.length_pos_iff.2 hpost
  refine reach_bind (Unif.primitives i) (reach_of_wp (wp_primitives hi hc ?_))
  have hal : (addrs l).length = l.length := by simp [addrs]
  simp only [hal]
  refine reach_bind (Unif.randint _ _) (reach_randint (n := post.length) (by omega) (by omega)
    fun r => ?_)
  refine reach_bind (Unif.getInd _) (reach_of_wp ?_)
  simp only [getInd, wp_ofExcept]
  rw [show (withRnd w r).inds = w.inds from rfl, hi]
  refine reach_of_wp (wp_mono (fun _ w' h => ?_) (fun _ _ h => h)
    (wp_mutShrinkWalk (w := w) (l := l) hi hc (k := post.length) (by omega) (fun ss => ss = pre) ?_
      (w₁ := withRnd w r) ⟨rfl, rfl⟩ _))
  · obtain ⟨ind', l', h1, h2, h3, _⟩ := h.chain
    exact is_iff.2 ⟨ind', l', h1, h2, h3⟩
  · rw [hs, hlen, Nat.add_sub_cancel]
    exact List.take_left' rfl

theorem reach_mutInsert (hps : PSetOk ps) (hi : w.inds[i]? = some ind)
    (hc : Chain w.nodes (some ind.main) l) {pre post : List Step} {s' : Step}
    (hs : steps l = pre ++ post) (hpre : pre ≠ []) (hs' : StepOk ps dataTerminal s') :
    Reach (mutInsert i ps) w fun _ w' => Is w' i (pre ++ s' :: post) := by
  obtain ⟨pre₀, s, rfl⟩ : ∃ p s, pre = p ++ [s] :=
    ⟨_, _, (List.dropLast_append_getLast hpre).symm⟩
  have hget : (steps l)[pre₀.length]? = some s := by rw [hs]; simp
  obtain ⟨pre₁, a, post₁, hl, hp₁⟩ := steps_addrs_split hget
  have hst : steps l = steps pre₁ ++ s :: steps post₁ := by rw [hl]; simp [steps]
  have hh := List.append_inj (show pre₀ ++ (s :: post) = _ by
    rw [← hst, hs]; simp) (by rw [← hp₁]; simp [steps])
  obtain ⟨rfl, hh⟩ := hh
  injection hh with _ hh
  subst hh
  subst hl
  refine reach_bind (Unif.primitives i) (reach_of_wp (wp_primitives hi hc ?_))
  refine reach_bind (Unif.choice _) (reach_choice (x := a) (by simp [addrs]) fun r => ?_)
  refine reach_bind (Unif.randomPrimitiveNode _ _ _)
    (reach_mono (reach_randomPrimitiveNode hps hs' (by simp)) ?_)
  rintro b w' ⟨rfl, hn, hi'⟩
  have hn : w'.nodes = w.nodes ++ [⟨s'.prim, s'.terms, none⟩] := hn
  have hi' : w'.inds = w.inds := hi'
  refine reach_of_wp ?_
  show wp (do
    let p ← getNode a
    let n ← getNode w.nodes.length
    setNode w.nodes.length { n with data := p.data }
    let p ← getNode a
    setNode a { p with data := some w.nodes.length }) _ _ w'
  have hnew : w'.nodes[w.nodes.length]? = some ⟨s'.prim, s'.terms, none⟩ := by simp [hn]
  have hc' : Chain w'.nodes (some ind.main) (pre₁ ++ (a, s) :: post₁) := by
    rw [hn]; exact hc.append_heap
  have hnl : w.nodes.length ∉ addrs (pre₁ ++ (a, s) :: post₁) :=
    fun hm => absurd (hc.lt hm) (by simp)
  have hsuf := hc'.suffix
  simp only [Chain] at hsuf
  obtain ⟨_, n, hna, hpost⟩ := hsuf
  simp only [wp_bind]
  apply wp_getNode hna
  apply wp_getNode hnew
  simp only [setNode, wp_modify]
  have hanew : w.nodes.length ≠ a := fun e => hnl (by rw [e]; simp [addrs])
  have hna' : (w'.nodes.set w.nodes.length ⟨s'.prim, s'.terms, n⟩)[a]?
      = some ⟨s.prim, s.terms, n⟩ := by
    rw [List.getElem?_set_ne hanew, hna]
  refine wp_getNode (w := { w' with nodes := w'.nodes.set w.nodes.length _ }) hna' ?_
  have c1 : Chain (w'.nodes.set w.nodes.length ⟨s'.prim, s'.terms, n⟩) (some ind.main)
      (pre₁ ++ (a, s) :: post₁) := hc'.set_notin hnl
  have hnpost : w.nodes.length ∉ addrs post₁ := fun hm => hnl (by
    simp only [addrs, List.map_append, List.map_cons, List.mem_append, List.mem_cons]
    exact Or.inr (Or.inr hm))
  have c2 : Chain (w'.nodes.set w.nodes.length ⟨s'.prim, s'.terms, n⟩) (some w.nodes.length)
      ((w.nodes.length, s') :: post₁) := by
    simp only [Chain]
    refine ⟨trivial, n, ?_, hpost.set_notin hnpost⟩
    rw [List.getElem?_set_self (List.getElem?_eq_some_iff.1 hnew).1]
  have c3 := Chain.update (s' := s) c1 c2 (by
    simp only [addrs, List.map_cons, List.mem_cons]
    rintro (e | e)
    · exact hanew e.symm
    · exact c1.nodup_mid.2.1 e)
  exact is_iff.2 ⟨ind, _, by show w'.inds[i]? = _; rw [hi']; exact hi, c3, by simp [steps]⟩

end
end Gama
