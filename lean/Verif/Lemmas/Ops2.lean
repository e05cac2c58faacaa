import Verif.Lemmas.Ops

/-! Rules for random nodes, step replacement, shrinking and insertion. -/

namespace Gama
open Spec PyM

/-- Only the random state differs. -/
def Same (w w' : World) : Prop := w'.nodes = w.nodes ∧ w'.inds = w.inds

theorem Same.refl (w : World) : Same w w := ⟨rfl, rfl⟩
theorem Same.advance (w : World) : Same w (advance w) := ⟨rfl, rfl⟩
theorem Same.trans {a b c : World} (h : Same a b) (h' : Same b c) : Same a c :=
  ⟨h'.1.trans h.1, h'.2.trans h.2⟩

theorem wp_randomTerminals {ps : PSet} : ∀ {is : List Str} {w : World}
    {Q : List Terminal → World → Prop} {E : Exn → World → Prop},
    (∀ ts w', Same w w' → List.Forall₂ (fun i t => t ∈ ps.terms i) is ts → Q ts w') →
    (∀ w', Same w w' → (∃ i ∈ is, ps.terms i = []) → E .indexError w') →
    wp (randomTerminals ps is) Q E w
  | [], w, Q, E, hQ, _ => by
    simp only [randomTerminals, wp_pure]
    exact hQ [] w (Same.refl w) .nil
  | i :: is, w, Q, E, hQ, hE => by
    simp only [randomTerminals, wp_bind, wp_pure]
    apply wp_choice
    · intro h; exact hE w (Same.refl w) ⟨i, by simp, h⟩
    · intro t ht
      apply wp_randomTerminals
      · intro ts w' hs hf
        exact hQ (t :: ts) w' ((Same.advance w).trans hs) (.cons ht hf)
      · rintro w' hs ⟨j, hj, hj'⟩
        exact hE w' ((Same.advance w).trans hs) ⟨j, by simp [hj], hj'⟩

theorem wp_randomPrimitiveNode {out : Str} {ps : PSet} {ex : Option Primitive} {w : World}
    {Q : Addr → World → Prop} {E : Exn → World → Prop}
    (hQ : ∀ p ts w', p ∈ ps.prims out → some p ≠ ex →
      List.Forall₂ (fun i t => t ∈ ps.terms i) p.input ts →
      w'.nodes = w.nodes ++ [⟨p, sortTerms ts, none⟩] → w'.inds = w.inds → Q w.nodes.length w')
    (hE : ∀ w', Same w w' → ((ps.prims out).filter (fun p => some p ≠ ex) = [] ∨
      ∃ p ∈ ps.prims out, ∃ i ∈ p.input, ps.terms i = []) → E .indexError w') :
    wp (randomPrimitiveNode out ps ex) Q E w := by
  simp only [randomPrimitiveNode, wp_bind]
  apply wp_choice
  · intro h; exact hE w (Same.refl w) (Or.inl h)
  · intro p hp
    simp only [List.mem_filter, decide_eq_true_eq] at hp
    apply wp_randomTerminals
    · intro ts w' hs hf
      apply wp_newNode
      have e1 : w'.nodes = w.nodes := hs.1
      have e2 : w'.inds = w.inds := hs.2
      rw [e1]
      exact hQ p ts _ hp.1 hp.2 hf rfl e2
    · intro w' hs h
      exact hE w' ((Same.advance w).trans hs) (Or.inr ⟨p, hp.1, h⟩)

theorem forall₂_idents {ps : PSet} (hps : PSetOk ps) : ∀ {is : List Str} {ts : List Terminal},
    List.Forall₂ (fun i t => t ∈ ps.terms i) is ts → ts.map Terminal.ident = is
  | _, _, .nil => rfl
  | _, _, .cons h hf => by
    simp [hps.ident _ _ h, forall₂_idents hps hf]

theorem forall₂_mem {ps : PSet} : ∀ {is : List Str} {ts : List Terminal},
    List.Forall₂ (fun i t => t ∈ ps.terms i) is ts → ∀ t ∈ ts, ∃ i ∈ is, t ∈ ps.terms i
  | _, _, .nil, t, ht => by simp at ht
  | _, _, .cons h hf, t, ht => by
    rcases List.mem_cons.1 ht with rfl | ht
    · exact ⟨_, by simp, h⟩
    · obtain ⟨i, hi, hm⟩ := forall₂_mem hf t ht
      exact ⟨i, by simp [hi], hm⟩

/-- A node made by the constructor from one value per input is a correct step. -/
theorem stepOk_new {ps : PSet} (hps : PSetOk ps) {k : Str} {p : Primitive} {ts : List Terminal}
    (hp : p ∈ ps.prims k) (hf : List.Forall₂ (fun i t => t ∈ ps.terms i) p.input ts) :
    StepOk ps k ⟨p, sortTerms ts⟩ where
  offered := hp
  complete := by
    have := ((sortTerms_perm ts).map Terminal.ident)
    rw [forall₂_idents hps hf] at this
    exact this
  values := by
    intro t ht
    obtain ⟨i, _, hm⟩ := forall₂_mem hf t ((sortTerms_perm ts).mem_iff.1 ht)
    have := hps.ident _ _ hm
    rw [this]; exact hm
  ordered := sortTerms_sorted ts

theorem resort_stepOk {ps : PSet} {k : Str} {s : Step} (h : StepOk ps k s) : resort s = s := by
  cases s
  simp only [resort]
  rw [sortTerms_of_sorted h.ordered]

/-- The individual list differs at most in `i`'s main node. -/
def FrameI (i : Nat) (w w' : World) : Prop :=
  w'.inds.length = w.inds.length ∧ ∀ j, j ≠ i → w'.inds[j]? = w.inds[j]?

theorem FrameI.refl (i w) : FrameI i w w := ⟨rfl, fun _ _ => rfl⟩

theorem FrameI.of_eq {i} {w w' : World} (h : w'.inds = w.inds) : FrameI i w w' := by
  unfold FrameI; rw [h]; exact ⟨rfl, fun _ _ => rfl⟩

theorem FrameI.trans {i} {a b c : World} (h : FrameI i a b) (h' : FrameI i b c) : FrameI i a c :=
  ⟨h'.1.trans h.1, fun j hj => (h'.2 j hj).trans (h.2 j hj)⟩

/-- Effect of `attach` on an individual whose chain was `pre ++ post` when `new` heads the
chain `l₂` and `pre` ends in `last`. -/
theorem wp_attach {i : Nat} {new : Addr} {w : World} {ind : IndCell}
    {pre post l₂ : List (Addr × Step)} {Q : Unit → World → Prop} {E : Exn → World → Prop}
    (hi : w.inds[i]? = some ind) (hc : Chain w.nodes (some ind.main) (pre ++ post))
    (h₂ : Chain w.nodes (some new) l₂) (hdis : ∀ a ∈ addrs pre, a ∉ addrs l₂)
    (hQ : ∀ w' ind', w'.inds[i]? = some ind' → Chain w'.nodes (some ind'.main) (pre ++ l₂) →
      FrameN (addrs pre) w.nodes w'.nodes → FrameI i w w' → ind'.md = ind.md →
      w'.rnd = w.rnd → Q () w') :
    wp (attach i new (addrs pre).getLast?) Q E w := by
  rcases List.eq_nil_or_concat pre with rfl | ⟨pre', ⟨a, s⟩, rfl⟩
  · simp only [addrs, List.map_nil, List.getLast?_nil, attach, wp_bind, getInd, wp_ofExcept, hi,
      setInd, wp_modify]
    have hlt : i < w.inds.length := (List.getElem?_eq_some_iff.1 hi).1
    refine hQ _ { ind with main := new } ?_ h₂ (FrameN.refl _ _) ⟨by simp, ?_⟩ rfl rfl
    · simp [hlt]
    · intro j hj; simp [List.getElem?_set_ne (Ne.symm hj)]
  · have hc' : Chain w.nodes (some ind.main) (pre' ++ (a, s) :: post) := by
      simpa using hc
    obtain ⟨n, hn⟩ := hc'.cell (a := a) (s := s) (by simp)
    have hlast : (addrs (pre' ++ [(a, s)])).getLast? = some a := by simp [addrs]
    simp only [List.concat_eq_append] at hdis hQ hc ⊢
    rw [hlast]
    simp only [attach, wp_bind]
    apply wp_getNode hn
    simp only [setNode, wp_modify]
    refine hQ _ ind hi ?_ (FrameN.set (by simp [addrs])) (FrameI.refl _ _) rfl rfl
    have := Chain.update (s' := s) hc' h₂ (hdis a (by simp [addrs]))
    simpa using this

/-- Effect of the loop of `replace_primitive`. -/
theorem wp_replacePrimitiveLoop {i : Nat} {position : Nat} {new : Addr} {ind : IndCell}
    {s' : Step} {w : World} {Q : Unit → World → Prop} {E : Exn → World → Prop}
    (hi : w.inds[i]? = some ind)
    (hnew : w.nodes[new]? = some ⟨s'.prim, s'.terms, none⟩) :
    ∀ {post pre : List (Addr × Step)} {k : Nat}, k = pre.length → k ≤ position →
    Chain w.nodes (some ind.main) (pre ++ post) → new ∉ addrs (pre ++ post) →
    (∀ pre₂ a s post₂, pre ++ post = pre₂ ++ (a, s) :: post₂ → pre₂.length = position →
      (s.prim.output ≠ s'.prim.output → E .valueError w) ∧
      (s.prim.output = s'.prim.output → ∀ w' ind' l₂, w'.inds[i]? = some ind' →
        Chain w'.nodes (some ind'.main) (pre₂ ++ (new, s') :: l₂) →
        steps l₂ = (steps post₂).map resort → (∀ b ∈ addrs l₂, w.nodes.length ≤ b) →
        FrameN (new :: addrs (pre ++ post)) w.nodes w'.nodes → FrameI i w w' →
        ind'.md = ind.md → w'.rnd = w.rnd → Q () w')) →
    (pre.length + post.length ≤ position → ∀ w' ind', w'.inds[i]? = some ind' →
        Chain w'.nodes (some ind'.main) (pre ++ post ++ [(new, s')]) →
        FrameN (new :: addrs (pre ++ post)) w.nodes w'.nodes → FrameI i w w' →
        ind'.md = ind.md → w'.rnd = w.rnd → Q () w') →
    wp (replacePrimitiveLoop i position new (addrs post) k (addrs pre).getLast?) Q E w
  | [], pre, k, hk, hkp, hc, hn, _, hout => by
    simp only [addrs, List.map_nil, replacePrimitiveLoop]
    have h₂ : Chain w.nodes (some new) [(new, s')] := by
      simp only [Chain]; exact ⟨trivial, none, hnew, rfl⟩
    apply wp_attach hi hc h₂
    · intro a ha ha'
      simp [addrs] at ha'
      subst ha'; exact hn (by simpa [addrs] using ha)
    · intro w' ind' h1 h2 h3 h4 h5 h6
      refine hout (by simpa using (by omega : pre.length ≤ position)) w' ind' h1 (by simpa using h2)
        (h3.mono ?_) h4 h5 h6
      intro a _ ha
      simp [addrs] at ha ⊢
      exact Or.inr ha
  | (a, s) :: post, pre, k, hk, hkp, hc, hn, hin, hout => by
    simp only [addrs, List.map_cons, replacePrimitiveLoop, wp_ite]
    constructor
    · intro hkpos
      obtain ⟨hbad, hgood⟩ := hin pre a s post rfl (by omega)
      have hsuf := hc.suffix
      simp only [Chain] at hsuf
      obtain ⟨_, n, hna, hpost⟩ := hsuf
      simp only [wp_bind]
      apply wp_getNode hna
      apply wp_getNode hnew
      simp only [wp_ite]
      refine ⟨fun h => hbad h, fun h => ?_⟩
      have hout' : s.prim.output = s'.prim.output := by simpa using h
      -- the copied data node
      have key : ∀ (d : Option Addr) (l₂ : List (Addr × Step)) (w₁ : World),
          w₁.inds = w.inds → w₁.rnd = w.rnd → (∃ new', w₁.nodes = w.nodes ++ new') →
          Chain w₁.nodes d l₂ → steps l₂ = (steps post).map resort →
          (∀ b ∈ addrs l₂, w.nodes.length ≤ b) →
          wp (do
            let n ← getNode new
            setNode new { n with data := d }
            attach i new (addrs pre).getLast?) Q E w₁ := by
        intro d l₂ w₁ e1 e2 e3 hd hst hge
        obtain ⟨new', e3⟩ := e3
        have hlt : new < w.nodes.length := (List.getElem?_eq_some_iff.1 hnew).1
        have hnew₁ : w₁.nodes[new]? = some ⟨s'.prim, s'.terms, none⟩ := by
          rw [e3, List.getElem?_append_left hlt, hnew]
        simp only [wp_bind]
        apply wp_getNode hnew₁
        simp only [setNode, wp_modify]
        have hnl₂ : new ∉ addrs l₂ := fun hm => Nat.lt_irrefl _ (Nat.lt_of_lt_of_le hlt (hge new hm))
        have hnl : new ∉ addrs (pre ++ (a, s) :: post) := hn
        have f1 : FrameN [new] w₁.nodes (w₁.nodes.set new ⟨s'.prim, s'.terms, d⟩) :=
          FrameN.set (by simp)
        have f0 : FrameN [] w.nodes w₁.nodes := by rw [e3]; exact FrameN.append
        have c0 : Chain w₁.nodes (some ind.main) (pre ++ (a, s) :: post) :=
          Chain.frame f0 hc (by simp)
        have c1 : Chain (w₁.nodes.set new ⟨s'.prim, s'.terms, d⟩) (some ind.main)
            (pre ++ (a, s) :: post) := c0.set_notin hnl
        have c2 : Chain (w₁.nodes.set new ⟨s'.prim, s'.terms, d⟩) (some new) ((new, s') :: l₂) := by
          simp only [Chain]
          refine ⟨trivial, d, ?_, hd.set_notin hnl₂⟩
          rw [List.getElem?_set_self (List.getElem?_eq_some_iff.1 hnew₁).1]
        refine wp_attach (w := { w₁ with nodes := w₁.nodes.set new ⟨s'.prim, s'.terms, d⟩ })
          (ind := ind) (by rw [e1]; exact hi) c1 c2 ?_ ?_
        · intro b hb hb'
          simp only [addrs, List.map_cons, List.mem_cons] at hb'
          rcases hb' with rfl | hb'
          · exact hnl (by simp only [addrs, List.map_append, List.mem_append]; exact Or.inl hb)
          · have h1 := hge b hb'
            have h2 : b < w.nodes.length :=
              hc.lt (by simp only [addrs, List.map_append, List.mem_append]; exact Or.inl hb)
            exact Nat.lt_irrefl _ (Nat.lt_of_lt_of_le h2 h1)
        · intro w' ind' h1 h2 h3 h4 h5 h6
          refine hgood hout' w' ind' l₂ h1 h2 hst hge ?_ ?_ h5 (h6.trans e2)
          · have f2 : FrameN [new] w.nodes (w₁.nodes.set new ⟨s'.prim, s'.terms, d⟩) :=
              (f0.mono (B := [new]) (by simp)).trans f1 (fun b _ hb => hb)
            have f3 := f2.mono (B := new :: addrs (pre ++ (a, s) :: post))
              (fun b _ hb => by simp at hb; simp [hb])
            refine f3.trans h3 (fun b _ hb => ?_)
            simp only [addrs, List.map_append, List.mem_cons, List.mem_append]
            exact Or.inr (Or.inl hb)
          · have e1' : ({ w₁ with nodes := w₁.nodes.set new ⟨s'.prim, s'.terms, d⟩ } : World).inds
                = w.inds := e1
            exact FrameI.trans (FrameI.of_eq e1') h4
      cases n with
      | none =>
        simp only [copyData, wp_bind]
        refine wp_pure.2 ?_
        have hl : post = [] := by
          cases post with
          | nil => rfl
          | cons x l => obtain ⟨y, t⟩ := x; simp [Chain] at hpost
        subst hl
        have := key none [] w rfl rfl ⟨[], by simp⟩ rfl (by simp) (by simp)
        simpa only [wp_bind] using this
      | some d =>
        simp only [copyData, wp_bind, wp_pure]
        apply wp_copyNodeTop hpost
        intro a' l' new' h1 h2 h3
        have := key (some a') l' { w with nodes := w.nodes ++ new' } rfl rfl ⟨new', rfl⟩ h1 h2 h3
        simpa only [wp_bind] using this
    · intro hkpos
      have hl : (some a) = (addrs (pre ++ [(a, s)])).getLast? := by simp [addrs]
      rw [hl]
      have e : pre ++ (a, s) :: post = (pre ++ [(a, s)]) ++ post := by simp
      apply wp_replacePrimitiveLoop hi hnew (pre := pre ++ [(a, s)]) (post := post)
      · simp; omega
      · omega
      · rw [← e]; exact hc
      · rw [← e]; exact hn
      · rw [← e]; exact hin
      · rw [← e]; intro h; apply hout; simp at h ⊢; omega

theorem wp_replacePrimitive {i : Nat} {position : Nat} {new : Addr} {ind : IndCell}
    {s' : Step} {w : World} {l : List (Addr × Step)}
    {Q : Unit → World → Prop} {E : Exn → World → Prop}
    (hi : w.inds[i]? = some ind) (hc : Chain w.nodes (some ind.main) l)
    (hnew : w.nodes[new]? = some ⟨s'.prim, s'.terms, none⟩) (hn : new ∉ addrs l)
    (hin : ∀ pre₂ a s post₂, l = pre₂ ++ (a, s) :: post₂ → pre₂.length = position →
      (s.prim.output ≠ s'.prim.output → E .valueError w) ∧
      (s.prim.output = s'.prim.output → ∀ w' ind' l₂, w'.inds[i]? = some ind' →
        Chain w'.nodes (some ind'.main) (pre₂ ++ (new, s') :: l₂) →
        steps l₂ = (steps post₂).map resort → (∀ b ∈ addrs l₂, w.nodes.length ≤ b) →
        FrameN (new :: addrs l) w.nodes w'.nodes → FrameI i w w' →
        ind'.md = ind.md → w'.rnd = w.rnd → Q () w'))
    (hout : l.length ≤ position → ∀ w' ind', w'.inds[i]? = some ind' →
        Chain w'.nodes (some ind'.main) (l ++ [(new, s')]) →
        FrameN (new :: addrs l) w.nodes w'.nodes → FrameI i w w' →
        ind'.md = ind.md → w'.rnd = w.rnd → Q () w') :
    wp (replacePrimitive i position new) Q E w := by
  simp only [replacePrimitive, wp_bind]
  apply wp_primitives hi hc
  have := wp_replacePrimitiveLoop (Q := Q) (E := E) (position := position) hi hnew (post := l)
    (pre := []) (k := 0) rfl (Nat.zero_le _) (by simpa using hc) (by simpa using hn)
    (by simpa using hin) (by simpa using hout)
  simpa using this

/-- Effect of walking down and cutting. -/
theorem wp_shrinkWalk {shrinkBy : Nat} {d : Option Addr} : ∀ {left : Nat} {w : World}
    {pre post : List (Addr × Step)} {a : Addr} {s : Step}
    {Q : Unit → World → Prop} {E : Exn → World → Prop},
    Chain w.nodes d (pre ++ (a, s) :: post) → post.length = left →
    (∀ pre₂ b t post₂ c, pre ++ (a, s) :: post = pre₂ ++ (b, t) :: post₂ →
      post₂.length = min left shrinkBy →
      Chain (w.nodes.set b c) d (pre₂ ++ [(b, t)]) →
      Q () { w with nodes := w.nodes.set b c }) →
    wp (shrinkWalk shrinkBy left a) Q E w
  | 0, w, pre, post, a, s, Q, E, hc, hl, hQ => by
    obtain ⟨n, hn⟩ := hc.cell (a := a) (s := s) (by simp)
    simp only [shrinkWalk, shrinkWalk.cut, wp_bind]
    apply wp_getNode hn
    simp only [setNode, wp_modify]
    refine hQ pre a s post _ rfl (by omega) ?_
    exact Chain.update (s' := s) hc (e := none) (l₂ := []) rfl (by simp)
  | left + 1, w, pre, post, a, s, Q, E, hc, hl, hQ => by
    obtain ⟨n, hn⟩ := hc.cell (a := a) (s := s) (by simp)
    simp only [shrinkWalk, wp_ite]
    constructor
    · intro hlt
      simp only [wp_bind]
      apply wp_getNode hn
      cases post with
      | nil => simp at hl
      | cons x post =>
        obtain ⟨b, t⟩ := x
        have hsuf := hc.suffix
        simp only [Chain] at hsuf
        obtain ⟨_, n', hn', hpost⟩ := hsuf
        rw [hn] at hn'
        injection hn' with hn'
        injection hn' with _ _ hn'
        subst hn'
        rw [hpost.1]
        simp only
        apply wp_shrinkWalk (pre := pre ++ [(a, s)]) (post := post) (s := t)
        · simpa using hc
        · simpa using hl
        · intro pre₂ b' t' post₂ c he hlen hch
          refine hQ pre₂ b' t' post₂ c (by simpa using he) ?_ hch
          omega
    · intro hge
      simp only [shrinkWalk.cut, wp_bind]
      apply wp_getNode hn
      simp only [setNode, wp_modify]
      refine hQ pre a s post _ rfl (by omega) ?_
      exact Chain.update (s' := s) hc (e := none) (l₂ := []) rfl (by simp)

end Gama
