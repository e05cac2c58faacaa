import Verif.Props.ChanceMate

/-!
# How likely each child of a mutation is

`mut_replace_terminal`, `mut_replace_primitive`, `mut_insert`, `mut_shrink`,
`random_valid_mutation_in_place`, `gama/genetic_programming/mutation.py`; `random_primitive_node`,
`operations.py`; `OperatorSet.mutate`, `operator_set.py` l.71-78.
-/

namespace Gama
open Spec PyM

/-! ## What is asked for -/

/-- The mean of `g` over a list. -/
def Spec.meanOf {α : Type} (l : List α) (g : α → ℚ) : ℚ := (l.map g).sum / l.length

/-- The mean of `g` over the ways of giving each of some hyperparameters one of its values. -/
def Spec.valuesMean (ps : PSet) : List Str → (List Terminal → ℚ) → ℚ
  | [], g => g []
  | i :: is, g => meanOf (ps.terms i) fun t => valuesMean ps is fun ts => g (t :: ts)

/-- The mean of `g` over the steps with one of some algorithms, where each algorithm counts as much as
any other; a step has its values in the order of their text. -/
def Spec.stepsMean (ps : PSet) (algs : List Primitive) (g : Step → ℚ) : ℚ :=
  meanOf algs fun p => valuesMean ps p.input fun ts => g ⟨p, sortTerms ts⟩

open Classical in
/-- The share of the changes of one kind that lead to a pipeline in `P`. -/
noncomputable def Spec.changeShare (ps : PSet) (P : List Step → Prop) (ss : List Step) : Change → ℚ
  | .value => meanOf ((allTerms ss).zipIdx.filter fun tk => 1 < (ps.terms tk.1.ident).length) fun tk =>
      share P (((ps.terms tk.1.ident).filter fun t => t.value.pyEq tk.1.value = false).map
        (withValue ss tk.2))
  | .step => meanOf (ss.zipIdx.filter fun sk => 1 < (ps.prims sk.1.prim.output).length) fun sk =>
      stepsMean ps ((ps.prims sk.1.prim.output).filter fun p => p ≠ sk.1.prim) fun s =>
        if P (ss.set sk.2 s) then 1 else 0
  | .insert => meanOf (List.range ss.length) fun k => stepsMean ps (ps.prims dataTerminal) fun s =>
      if P (ss.take (k + 1) ++ s :: ss.drop (k + 1)) then 1 else 0
  | .remove => share P ((List.range (ss.length - 1)).map fun k => ss.take (ss.length - (k + 1)))

open Classical in
/-- The mean of those shares over the kinds of change that can be made. -/
noncomputable def Spec.mutantShare (ps : PSet) (maxLength : Option Nat) (P : List Step → Prop)
    (ss : List Step) : ℚ :=
  meanOf ([Change.step, .insert, .remove, .value].filter fun k => Possible ps maxLength ss k) (changeShare ps P ss)

/-- Draws below `M` are fair for every choice a mutation of `ss` makes: `M` is a multiple of all numbers up
to a bound on what there is to choose from. -/
structure Spec.FairChange (M : Nat) (ps : PSet) (ss : List Step) : Prop where
  bound : ∃ N, (∀ n, 0 < n → n ≤ N → n ∣ M) ∧ 4 ≤ N ∧ ss.length ≤ N ∧ (allTerms ss).length ≤ N ∧
    (∀ k, (ps.prims k).length ≤ N) ∧ ∀ i, (ps.terms i).length ≤ N

/-! ## Drawing a step -/

theorem gp_assoc {α β γ : Type} (m : GP α) (f : α → GP β) (g : β → GP γ) (w : World) :
    ((m >>= f) >>= g) w = (m >>= fun a => f a >>= g) w := by
  cases h : m w with
  | mk r w' =>
    cases r with
    | error e => rw [bind_error h]; exact bind_error (bind_error h)
    | ok a =>
      rw [bind_ok h]
      cases h2 : f a w' with
      | mk r2 w2 =>
        cases r2 with
        | error e => rw [bind_error h2]; exact bind_error ((bind_ok h).trans h2)
        | ok b => rw [bind_ok h2]; exact bind_ok ((bind_ok h).trans h2)

section
variable {β : Type} {M : Nat} {ps : PSet}

theorem odds_assoc {α γ : Type} {m : GP α} {f : α → GP β} {g : β → GP γ} {w : World} {P : γ → World → Prop} {q : ℚ}
    (h : Odds M (m >>= fun a => f a >>= g) w P q) : Odds M ((m >>= f) >>= g) w P q :=
  h.congr fun s => gp_assoc m f g _

theorem odds_values {w : World} {P : β → World → Prop} : ∀ {is : List Str} {f : List Terminal → GP β}
    {g : List Terminal → ℚ}, (∀ i ∈ is, ps.terms i ≠ [] ∧ (ps.terms i).length ∣ M) →
    (∀ ts, List.Forall₂ (fun i t => t ∈ ps.terms i) is ts → Odds M (f ts) w P (g ts)) →
    Odds M (randomTerminals ps is >>= f) w P (valuesMean ps is g)
  | [], f, g, _, h => Odds.det (w₁ := w) (a := []) (fun _ => rfl) (h [] .nil)
  | i :: is, f, g, hM, h => by
    unfold randomTerminals valuesMean
    refine odds_assoc (Odds.choice (hM i (by simp)).1 (hM i (by simp)).2 fun t ht => ?_)
    refine odds_assoc (odds_values (fun j hj => hM j (by simp [hj])) fun ts hts => ?_)
    exact Odds.det (w₁ := w) (a := t :: ts) (fun _ => rfl) (h _ (.cons ht hts))

theorem odds_newStep (hps : PSetOk ps) {k : Str} {ex : Option Primitive} {w : World} {P : β → World → Prop}
    {f : Addr → GP β} {g : Step → ℚ} (ht : ∀ i, 0 < (ps.terms i).length → (ps.terms i).length ∣ M)
    (hne : (ps.prims k).filter (fun p => some p ≠ ex) ≠ [])
    (hp : ((ps.prims k).filter fun p => some p ≠ ex).length ∣ M)
    (h : ∀ p ts, p ∈ ps.prims k → some p ≠ ex → List.Forall₂ (fun i t => t ∈ ps.terms i) p.input ts →
      Odds M (f w.nodes.length) { w with nodes := w.nodes ++ [⟨p, sortTerms ts, none⟩] } P (g ⟨p, sortTerms ts⟩)) :
    Odds M (randomPrimitiveNode k ps ex >>= f) w P
      (stepsMean ps ((ps.prims k).filter fun p => some p ≠ ex) g) := by
  unfold randomPrimitiveNode stepsMean
  refine odds_assoc (Odds.choice hne hp fun p hpm => ?_)
  obtain ⟨h1, h2⟩ := List.mem_filter.1 hpm
  have h2 : some p ≠ ex := of_decide_eq_true h2
  refine odds_assoc (odds_values (fun i hi => ?_) fun ts hts => ?_)
  · have := hps.nonempty _ p i h1 hi
    exact ⟨this, ht i (List.length_pos_iff.2 this)⟩
  · exact Odds.det (w₁ := { w with nodes := w.nodes ++ [⟨p, sortTerms ts, none⟩] }) (a := w.nodes.length)
      (fun _ => rfl) (h p ts h1 h2 hts)

theorem odds_choice_nil {α : Type} {w : World} {P : β → World → Prop} {f : α → GP β} {g : α → ℚ} :
    Odds M (choice [] >>= f) w P (meanOf [] g) :=
  ⟨.leaf (.error .indexError) w, fun _ => bind_error rfl, trivial, by simp [Tree.weight, meanOf]⟩

/-! ## More operations without draws -/

theorem Drawless.copyData : ∀ d, Drawless (Gama.copyData d)
  | none => Drawless.pure _
  | some d => (Drawless.copyNodeTop d).bind fun _ => Drawless.pure _
theorem Drawless.attach (i : Nat) (new : Addr) : ∀ l, Drawless (Gama.attach i new l)
  | none => (Drawless.getInd i).bind fun _ => Drawless.setInd _ _
  | some l => (Drawless.getNode l).bind fun _ => Drawless.setNode _ _
theorem Drawless.replacePrimitiveLoop (i pos : Nat) (new : Addr) :
    ∀ as k last, Drawless (Gama.replacePrimitiveLoop i pos new as k last)
  | [], k, last => Drawless.attach i new last
  | a :: as, k, last => by
    unfold Gama.replacePrimitiveLoop
    refine Drawless.ite ?_ (Drawless.replacePrimitiveLoop i pos new as _ _)
    refine (Drawless.getNode a).bind fun c => (Drawless.getNode new).bind fun n => ?_
    refine Drawless.ite ((Drawless.raise _).bind fun _ => ?_) ?_
    all_goals
      exact (Drawless.copyData _).bind fun _ => (Drawless.getNode new).bind fun _ =>
        (Drawless.setNode _ _).bind fun _ => Drawless.attach _ _ _
theorem Drawless.replacePrimitive (i pos : Nat) (new : Addr) : Drawless (Gama.replacePrimitive i pos new) :=
  (Drawless.primitives i).bind fun _ => Drawless.replacePrimitiveLoop i pos new _ _ _
theorem Drawless.shrinkCut (a : Addr) : Drawless (Gama.shrinkWalk.cut a) :=
  (Drawless.getNode a).bind fun _ => Drawless.setNode _ _
theorem Drawless.shrinkWalk (k : Nat) : ∀ left a, Drawless (Gama.shrinkWalk k left a)
  | 0, a => Drawless.shrinkCut a
  | left + 1, a => by
    unfold Gama.shrinkWalk
    refine Drawless.ite ((Drawless.getNode a).bind fun c => ?_) (Drawless.shrinkCut a)
    cases c.data with
    | none => exact Drawless.raise _
    | some d => exact Drawless.shrinkWalk k left d

end

/-! ## Means -/

theorem mean_congr {α : Type} {l : List α} {f g : α → ℚ} (h : ∀ x ∈ l, f x = g x) : meanOf l f = meanOf l g := by
  unfold meanOf
  rw [List.map_congr_left h]

theorem mean_map {α β : Type} (l : List α) (f : α → β) (g : β → ℚ) : meanOf (l.map f) g = meanOf l (g ∘ f) := by
  simp [meanOf]

theorem mean_enum {α β : Type} (cs : List β) (f : β → α) (c : α → Bool) (g : α → Nat → ℚ) :
    meanOf ((enum cs).filter fun it => c (f it.2)) (fun it => g (f it.2) it.1)
      = meanOf ((cs.map f).zipIdx.filter fun x => c x.1) fun x => g x.1 x.2 := by
  unfold enum
  rw [List.zipIdx_map, List.filter_map, List.filter_map, mean_map, mean_map]
  rfl

theorem map_idx {l : List Nat} (hn : l.Nodup) (G : Nat → ℚ) :
    (l.map fun x => G (l.idxOf x)) = (List.range l.length).map G := by
  apply List.ext_getElem
  · simp
  · intro k h1 h2
    simp only [List.getElem_map, List.getElem_range]
    rw [hn.idxOf_getElem]

theorem Done.settle {w w' : World} {i : Nat} {l : List (Addr × Step)} {ss : List Step}
    (h : Done w i l (fun x => x = ss) w') : Is w' i ss := by
  obtain ⟨ind, l', h1, h2, h3, _⟩ := h.chain
  exact is_iff.2 ⟨ind, l', h1, h2, h3⟩

/-! ## The four mutations -/

section
variable {M : Nat} {ps : PSet} {i : Nat} {w : World} {ind : IndCell} {l : List (Addr × Step)}

theorem fair_dvd {ss : List Step} (h : FairChange M ps ss) :
    (∀ i n, 0 < n → n ≤ (ps.terms i).length → n ∣ M) ∧ (∀ k n, 0 < n → n ≤ (ps.prims k).length → n ∣ M) ∧
    (∀ n, 0 < n → n ≤ ss.length → n ∣ M) ∧ (∀ n, 0 < n → n ≤ (allTerms ss).length → n ∣ M) ∧
    ∀ n, 0 < n → n ≤ 4 → n ∣ M := by
  obtain ⟨N, h0, h1, h2, h3, h4, h5⟩ := h.bound
  exact ⟨fun i n a b => h0 n a (b.trans (h5 i)), fun k n a b => h0 n a (b.trans (h4 k)),
    fun n a b => h0 n a (b.trans h2), fun n a b => h0 n a (b.trans h3), fun n a b => h0 n a (b.trans h1)⟩

theorem odds_mutShrink (hi : w.inds[i]? = some ind) (hc : Chain w.nodes (some ind.main) l)
    (P : List Step → Prop) (hf : FairChange M ps (steps l)) (h2 : 2 ≤ l.length) :
    Odds M (mutShrink i none) w (fun _ w' => Now i P w') (changeShare ps P (steps l) .remove) := by
  classical
  have al : (addrs l).length = l.length := by simp [addrs]
  have sl : (steps l).length = l.length := by simp [steps]
  unfold mutShrink
  refine Odds.quiet (Drawless.primitives i) (wp_primitives hi hc ?_)
  dsimp only
  rw [al]
  have := Odds.randint (M := M) (lo := 1) (hi := l.length - 1) (w := w) (P := fun _ w' => Now i P w')
    (f := fun k => getInd i >>= fun ind => shrinkWalk k (l.length - 1) ind.main)
    (g := fun k => if P ((steps l).take (l.length - k)) then 1 else 0) (by omega)
    ((fair_dvd hf).2.2.1 _ (by omega) (by rw [sl]; omega)) (fun k h1 h3 => by
      refine Odds.settled ((Drawless.getInd i).bind fun _ => Drawless.shrinkWalk _ _ _) ?_
      rw [wp_bind]
      simp only [getInd, wp_ofExcept, hi]
      exact wp_mono (fun _ _ h => Done.settle h) (fun _ _ h => h)
        (wp_mutShrinkWalk hi hc (by omega) (fun x => x = _) rfl (Same.refl w) (fun _ _ => False)))
  have e : l.length - 1 - 1 + 1 = l.length - 1 := by omega
  rw [e] at this
  show Odds M _ w _ (share P ((List.range ((steps l).length - 1)).map fun k =>
    (steps l).take ((steps l).length - (k + 1))))
  unfold share
  rw [sl, List.map_map, List.length_map, List.length_range]
  have e2 : ((fun x => if P x then (1 : ℚ) else 0) ∘ fun k => (steps l).take (l.length - (k + 1)))
      = fun j => if P ((steps l).take (l.length - (1 + j))) then 1 else 0 := by
    funext j; simp [Nat.add_comm]
  rw [e2]
  exact this

theorem odds_mutReplaceTerminal (hps : PSetOk ps) (hi : w.inds[i]? = some ind)
    (hc : Chain w.nodes (some ind.main) l) (P : List Step → Prop) (hf : FairChange M ps (steps l))
    (hn : ¬ mutFails ps .replaceTerminal (steps l)) :
    Odds M (mutReplaceTerminal i ps) w (fun _ w' => Now i P w') (changeShare ps P (steps l) .value) := by
  classical
  obtain ⟨d1, _, _, d4, _⟩ := fair_dvd hf
  unfold mutReplaceTerminal
  refine Odds.quiet (Drawless.terminals i) (wp_terminals hi hc ?_)
  have e := mean_enum (allTerms (steps l)) id (fun t => decide ((ps.terms t.ident).length > 1)) fun t k =>
    share P (((ps.terms t.ident).filter fun u => u.value.pyEq t.value = false).map (withValue (steps l) k))
  rw [List.map_id] at e
  simp only [id] at e
  unfold changeShare
  simp only [gt_iff_lt] at e
  rw [← e]
  have hne : ((enum (allTerms (steps l))).filter fun it => decide ((ps.terms it.2.ident).length > 1)) ≠ [] := by
    intro h
    refine hn (Or.inl fun t ht => ?_)
    simpa using enum_filter_nil (p := fun t => decide ((ps.terms t.ident).length > 1)) h t ht
  dsimp only
  rw [if_neg (by simpa using hne)]
  refine Odds.choice hne (d4 _ (List.length_pos_iff.2 hne) ?_) ?_
  · refine (List.length_filter_le _ _).trans (le_of_eq ?_)
    simp [enum]
  rintro ⟨k, old⟩ hk
  simp only [List.mem_filter, mem_enum] at hk
  obtain ⟨hk, hlen⟩ := hk
  have hlt := (List.getElem?_eq_some_iff.1 hk).1
  have ef : ((ps.terms old.ident).filter fun t => ! t.value.pyEq old.value)
      = (ps.terms old.ident).filter fun t => t.value.pyEq old.value = false := by
    apply List.filter_congr
    intro t _
    cases t.value.pyEq old.value <;> rfl
  have hne2 : (ps.terms old.ident).filter (fun t => t.value.pyEq old.value = false) ≠ [] := by
    intro h
    refine hn (Or.inr ⟨old, List.mem_of_getElem? hk, by simpa using hlen, fun t ht => ?_⟩)
    simpa using List.filter_eq_nil_iff.1 h t ht
  dsimp only
  rw [ef]
  unfold share
  rw [List.map_map, List.length_map]
  refine Odds.choice hne2 (d1 old.ident _ (List.length_pos_iff.2 hne2) (List.length_filter_le _ _)) ?_
  intro t ht
  have ht := (List.mem_filter.1 ht).1
  refine Odds.settled (Drawless.replaceTerminal _ _ _) ?_
  refine wp_replaceTerminal (l := l) (ind := ind) hi hc ?_ (by intro h; omega) (by intro h; omega)
  intro pre a s post j hl hpos hj
  have hold := chain_term_at hk hl hpos hj
  refine ⟨?_, fun h => absurd (hps.ident _ _ ht) (by rw [hold] at h; exact fun e => h e.symm)⟩
  intro _ c hch
  refine is_iff.2 ⟨ind, _, hi, hch, ?_⟩
  have e : steps l = steps pre ++ s :: steps post := by rw [hl]; simp [steps]
  rw [e, hpos, withValue_at t hj]
  simp [steps]

theorem odds_mutInsert (hps : PSetOk ps) (hi : w.inds[i]? = some ind)
    (hc : Chain w.nodes (some ind.main) l) (P : List Step → Prop) (hf : FairChange M ps (steps l))
    (hl : l ≠ []) (hn : ps.prims dataTerminal ≠ []) :
    Odds M (mutInsert i ps) w (fun _ w' => Now i P w') (changeShare ps P (steps l) .insert) := by
  classical
  obtain ⟨d1, d2, d3, _, _⟩ := fair_dvd hf
  have al : (addrs l).length = l.length := by simp [addrs]
  have sl : (steps l).length = l.length := by simp [steps]
  unfold mutInsert
  refine Odds.quiet (Drawless.primitives i) (wp_primitives hi hc ?_)
  unfold changeShare meanOf
  rw [sl, ← al, ← map_idx hc.nodup, List.length_range]
  have hlp : 0 < l.length := List.length_pos_iff.2 hl
  refine Odds.choice (by intro h; rw [h] at al; simp at al; omega) (d3 _ (by omega) (by rw [al, sl])) ?_
  intro parent hpar
  obtain ⟨⟨a, s⟩, hm, rfl⟩ := List.mem_map.1 hpar
  obtain ⟨pre, post, rfl⟩ := List.append_of_mem hm
  have hidx : (addrs (pre ++ (a, s) :: post)).idxOf a = pre.length := by
    have hnd := hc.nodup
    have e' : addrs (pre ++ (a, s) :: post) = addrs pre ++ a :: addrs post := by simp [addrs]
    rw [e'] at hnd ⊢
    rw [List.idxOf_append_of_notMem fun h => (List.nodup_append.1 hnd).2.2 a h a (by simp) rfl]
    simp [addrs]
  rw [hidx]
  have en : ((ps.prims dataTerminal).filter fun p => some p ≠ none) = ps.prims dataTerminal := by simp
  have key := odds_newStep (M := M) (ps := ps) (β := Unit) hps (k := dataTerminal) (ex := none) (w := w)
    (P := fun _ w' => Now i P w')
    (f := fun new => getNode a >>= fun p => getNode new >>= fun n => setNode new { n with data := p.data } >>= fun _ =>
      getNode a >>= fun p => setNode a { p with data := some new })
    (g := fun x => if P ((steps (pre ++ (a, s) :: post)).take (pre.length + 1) ++ x ::
      (steps (pre ++ (a, s) :: post)).drop (pre.length + 1)) then 1 else 0)
    (fun i h => d1 i _ h (Nat.le_refl _)) (by rw [en]; exact hn)
    (by rw [en]; exact d2 _ _ (List.length_pos_iff.2 hn) (Nat.le_refl _)) ?_
  · rw [en] at key
    exact key
  intro p ts hp _ hts
  refine Odds.settled ((Drawless.getNode _).bind fun _ => (Drawless.getNode _).bind fun _ =>
    (Drawless.setNode _ _).bind fun _ => (Drawless.getNode _).bind fun _ => Drawless.setNode _ _) ?_
  have hres : (steps (pre ++ (a, s) :: post)).take (pre.length + 1) ++ (⟨p, sortTerms ts⟩ : Step) ::
      (steps (pre ++ (a, s) :: post)).drop (pre.length + 1) = steps pre ++ s :: ⟨p, sortTerms ts⟩ :: steps post := by
    have e : steps (pre ++ (a, s) :: post) = (steps pre ++ [s]) ++ steps post := by simp [steps]
    rw [e, List.take_left' (by simp [steps]), List.drop_left' (by simp [steps])]
    simp
  rw [hres]
  generalize hw' : ({ w with nodes := w.nodes ++ [⟨p, sortTerms ts, none⟩] } : World) = w'
  have hwn : w'.nodes = w.nodes ++ [⟨p, sortTerms ts, none⟩] := by rw [← hw']
  have hwi : w'.inds = w.inds := by rw [← hw']
  have hnew : w'.nodes[w.nodes.length]? = some ⟨p, sortTerms ts, none⟩ := by simp [hwn]
  have hc' : Chain w'.nodes (some ind.main) (pre ++ (a, s) :: post) := by
    rw [hwn]; exact hc.append_heap
  have hnl : w.nodes.length ∉ addrs (pre ++ (a, s) :: post) :=
    fun hm => absurd (hc.lt hm) (by simp)
  have hsuf := hc'.suffix
  simp only [Chain] at hsuf
  obtain ⟨_, n, hna, hpost⟩ := hsuf
  simp only [wp_bind]
  apply wp_getNode hna
  apply wp_getNode hnew
  simp only [setNode, wp_modify]
  have hanew : w.nodes.length ≠ a := fun e => hnl (by rw [e]; simp [addrs])
  have hna' : (w'.nodes.set w.nodes.length ⟨p, sortTerms ts, n⟩)[a]?
      = some ⟨s.prim, s.terms, n⟩ := by
    rw [List.getElem?_set_ne hanew, hna]
  refine wp_getNode (w := { w' with nodes := w'.nodes.set w.nodes.length _ }) hna' ?_
  have c1 : Chain (w'.nodes.set w.nodes.length ⟨p, sortTerms ts, n⟩) (some ind.main)
      (pre ++ (a, s) :: post) := hc'.set_notin hnl
  have hnpost : w.nodes.length ∉ addrs post := fun hm => hnl (by
    simp only [addrs, List.map_append, List.map_cons, List.mem_append, List.mem_cons]
    exact Or.inr (Or.inr hm))
  have c2 : Chain (w'.nodes.set w.nodes.length ⟨p, sortTerms ts, n⟩) (some w.nodes.length)
      ((w.nodes.length, ⟨p, sortTerms ts⟩) :: post) := by
    simp only [Chain]
    refine ⟨trivial, n, ?_, hpost.set_notin hnpost⟩
    rw [List.getElem?_set_self (List.getElem?_eq_some_iff.1 hnew).1]
  have c3 := Chain.update (s' := s) c1 c2 (by
    simp only [addrs, List.map_cons, List.mem_cons]
    rintro (e | e)
    · exact hanew e.symm
    · exact c1.nodup_mid.2.1 e)
  exact is_iff.2 ⟨ind, _, by show w'.inds[i]? = _; rw [hwi]; exact hi, c3, by simp [steps]⟩

theorem odds_mutReplacePrimitive (hps : PSetOk ps) (hi : w.inds[i]? = some ind)
    (hc : Chain w.nodes (some ind.main) l) (hok : PipelineOk ps (steps l)) (P : List Step → Prop)
    (hf : FairChange M ps (steps l)) (hn : ¬ mutFails ps .replacePrimitive (steps l)) :
    Odds M (mutReplacePrimitive i ps) w (fun _ w' => Now i P w') (changeShare ps P (steps l) .step) := by
  classical
  obtain ⟨d1, d2, d3, _, _⟩ := fair_dvd hf
  unfold mutReplacePrimitive
  refine Odds.quiet (Drawless.primitives i) (wp_primitives hi hc ?_)
  refine Odds.quiet (Drawless.getNodes _) (wp_getNodes (fun a s h => hc.cell h) ?_)
  intro cs hcs
  have e := mean_enum cs cellStep (fun s => decide ((ps.prims s.prim.output).length > 1)) fun s k =>
    stepsMean ps ((ps.prims s.prim.output).filter fun p => p ≠ s.prim) fun x =>
        if P ((steps l).set k x) then 1 else 0
  rw [hcs] at e
  unfold changeShare
  simp only [gt_iff_lt] at e
  rw [← e]
  have hne : ((enum cs).filter fun it => decide ((ps.prims it.2.prim.output).length > 1)) ≠ [] := by
    intro h
    refine hn (Or.inl fun s hs => ?_)
    rw [← hcs] at hs
    obtain ⟨c, hc, rfl⟩ := List.mem_map.1 hs
    simpa [cellStep] using enum_filter_nil (p := fun c => decide ((ps.prims c.prim.output).length > 1)) h c hc
  dsimp only
  rw [if_neg (by simpa using hne)]
  refine Odds.choice hne (d3 _ (List.length_pos_iff.2 hne) ?_) ?_
  · refine (List.length_filter_le _ _).trans (le_of_eq ?_)
    rw [← hcs]; simp [enum]
  rintro ⟨k, old⟩ hk
  simp only [List.mem_filter, mem_enum] at hk
  obtain ⟨hk, hlen1⟩ := hk
  have hk' : (steps l)[k]? = some (cellStep old) := by
    rw [← hcs, List.getElem?_map, hk]; rfl
  obtain ⟨pre, a, post, hl, hpre⟩ := steps_addrs_split hk'
  have en : ((ps.prims old.prim.output).filter fun p => some p ≠ some old.prim)
      = (ps.prims old.prim.output).filter fun p => p ≠ old.prim := by
    apply List.filter_congr
    intro p _
    simp
  have hne2 : (ps.prims old.prim.output).filter (fun p => p ≠ old.prim) ≠ [] := by
    intro h
    refine hn (Or.inr ⟨cellStep old, List.mem_of_getElem? hk', by simpa [cellStep] using hlen1, fun p hp => ?_⟩)
    show p = old.prim
    simpa using List.filter_eq_nil_iff.1 h p hp
  dsimp only
  have key := odds_newStep (M := M) (ps := ps) (β := Unit) hps (k := old.prim.output) (ex := some old.prim) (w := w)
    (P := fun _ w' => Now i P w') (f := fun new => replacePrimitive i k new)
    (g := fun x => if P ((steps l).set k x) then 1 else 0)
    (fun i h => d1 i _ h (Nat.le_refl _)) (by rw [en]; exact hne2)
    (by rw [en]; exact d2 _ _ (List.length_pos_iff.2 hne2) (List.length_filter_le _ _)) ?_
  · rw [en] at key
    exact key
  intro p ts hp _ hts
  refine Odds.settled (Drawless.replacePrimitive _ _ _) ?_
  generalize hw' : ({ w with nodes := w.nodes ++ [⟨p, sortTerms ts, none⟩] } : World) = w'
  have hwn : w'.nodes = w.nodes ++ [⟨p, sortTerms ts, none⟩] := by rw [← hw']
  have hwi : w'.inds = w.inds := by rw [← hw']
  have hnew : w'.nodes[w.nodes.length]? = some ⟨p, sortTerms ts, none⟩ := by simp [hwn]
  have hc' : Chain w'.nodes (some ind.main) l := by rw [hwn]; exact hc.append_heap
  have hnl : w.nodes.length ∉ addrs l := fun hm => absurd (hc.lt hm) (by simp)
  refine wp_replacePrimitive (s' := ⟨p, sortTerms ts⟩) (l := l) (by rw [hwi]; exact hi) hc' hnew hnl ?_ ?_
  · intro pre₂ b s post₂ hl₂ hlen
    have : pre₂ = pre ∧ (b, s) :: post₂ = (a, cellStep old) :: post := by
      rw [hl] at hl₂
      have := List.append_inj hl₂ (by omega)
      exact ⟨this.1.symm, this.2.symm⟩
    obtain ⟨rfl, he⟩ := this
    injection he with he1 he2
    injection he1 with he3 he4
    subst he2; subst he3; subst he4
    refine ⟨fun hbad => absurd (hps.kind _ _ hp).symm hbad, ?_⟩
    intro _ w'' ind' l₂ h1 h2 h3 _ _ _ _ _
    have hpost : ∀ x ∈ steps post₂, ∃ k, StepOk ps k x := fun x hx =>
      pipelineOk_kind hok (by
        rw [hl]; simp only [steps, List.map_append, List.mem_append, List.map_cons,
          List.mem_cons]; exact Or.inr (Or.inr hx))
    rw [map_resort hpost] at h3
    refine is_iff.2 ⟨ind', _, h1, h2, ?_⟩
    have e1 : steps (pre₂ ++ (w.nodes.length, (⟨p, sortTerms ts⟩ : Step)) :: l₂)
        = steps pre₂ ++ ⟨p, sortTerms ts⟩ :: steps post₂ := by rw [← h3]; simp [steps]
    have e2 : steps l = steps pre₂ ++ cellStep old :: steps post₂ := by rw [hl]; simp [steps]
    rw [e1, e2, List.set_append_right _ _ (by simp [steps, hlen])]
    simp [steps, hlen]
  · intro h
    rw [hl] at h; simp at h; omega

/-! ## Any of them -/

open Classical in
theorem four_changes {a b c d : Prop} [Decidable a] [Decidable b] [Decidable c] [Decidable d] {L : List MutFn}
    (hL : (if a then [MutFn.replacePrimitive] else []) ++ (if b then [MutFn.insert] else [])
      ++ (if c then [MutFn.shrink] else []) ++ (if d then [MutFn.replaceTerminal] else []) = L) :
    L = ([Change.step, .insert, .remove, .value].filter fun k => changeFn k ∈ L).map changeFn := by
  by_cases ha : a <;> by_cases hb : b <;> by_cases hc : c <;> by_cases hd : d <;>
    simp only [ha, hb, hc, hd, if_true, if_false] at hL <;> subst hL <;> simp [changeFn]

theorem available_changes {m : Option Nat} {ss : List Step} (hlen : ∀ x, m = some x → ss.length ≤ x) :
    open Classical in availableMutations ps m (ss.map fun s => ⟨s.prim, s.terms, none⟩)
      = ([Change.step, .insert, .remove, .value].filter fun k => Possible ps m ss k).map changeFn := by
  classical
  have hne : exceeds m ss.length = false := not_exceeds hlen
  have h := fun k => mem_changeFn (ps := ps) hlen (k := k)
  simp only [← h]
  refine four_changes (a := ((ss.map fun s => (⟨s.prim, s.terms, none⟩ : Cell)).filter
    fun c => (ps.prims c.prim.output).length > 1).length > 1) (b := mayGrow m ss.length = true)
    (c := ss.length > 1) (d := (((ss.map fun s => (⟨s.prim, s.terms, none⟩ : Cell)).flatMap Cell.terms).filter
    fun t => (ps.terms t.ident).length > 1).length > 1) ?_
  unfold availableMutations
  simp only [List.length_map, hne, Bool.false_eq_true, if_false]

theorem odds_randomValidMutation {m : Option Nat} (hps : PSetOk ps) (hd : Distinct ps)
    (hdata : ps.prims dataTerminal ≠ [] ∨ m = some 1) (hi : w.inds[i]? = some ind)
    (hc : Chain w.nodes (some ind.main) l) (hok : PipelineOk ps (steps l)) (P : List Step → Prop)
    (hlen : ∀ x, m = some x → (steps l).length ≤ x) (hf : FairChange M ps (steps l)) :
    Odds M (randomValidMutation ps m i) w (fun f w' => (∃ k, f = changeFn k) ∧ Now i P w')
      (mutantShare ps m P (steps l)) := by
  classical
  have hne : steps l ≠ [] := by intro h; rw [h] at hok; exact hok.elim
  have hav := available_changes (ps := ps) hlen
  unfold randomValidMutation
  refine Odds.quiet (Drawless.primitives i) (wp_primitives hi hc ?_)
  refine Odds.quiet (Drawless.getNodes _) (wp_getNodes (fun a s h => hc.cell h) ?_)
  intro cs hcs
  have he : availableMutations ps m cs = availableMutations ps m
      ((steps l).map fun s => (⟨s.prim, s.terms, none⟩ : Cell)) := by
    rw [← hcs]
    simp only [availableMutations, List.length_map, List.map_map, List.flatMap_map,
      List.filter_map, Function.comp_def, cellStep]
  rw [he]
  let g : MutFn → ℚ := fun f => match f with
    | .replacePrimitive => changeShare ps P (steps l) .step
    | .insert => changeShare ps P (steps l) .insert
    | .shrink => changeShare ps P (steps l) .remove
    | .replaceTerminal => changeShare ps P (steps l) .value
    | .partialShrink _ => 0
  have hg : mutantShare ps m P (steps l) = meanOf (availableMutations ps m
      ((steps l).map fun s => (⟨s.prim, s.terms, none⟩ : Cell))) g := by
    rw [hav, mean_map]
    exact mean_congr fun k _ => by cases k <;> rfl
  rw [hg]
  by_cases hnil : availableMutations ps m ((steps l).map fun s => (⟨s.prim, s.terms, none⟩ : Cell)) = []
  · rw [hnil]
    exact odds_choice_nil
  refine Odds.choice hnil ((fair_dvd hf).2.2.2.2 _ (List.length_pos_iff.2 hnil) ?_) ?_
  · rw [hav, List.length_map]
    exact List.length_filter_le _ _
  intro f hfm
  obtain ⟨hno, _⟩ := no_mutFails hd hdata hne hlen hfm
  have hfk : ∃ k, f = changeFn k := by
    rw [hav] at hfm
    obtain ⟨k, _, rfl⟩ := List.mem_map.1 hfm
    exact ⟨k, rfl⟩
  refine Odds.andThen (R := fun _ w' => Now i P w') ?_ (fun _ => Drawless.pure _) (fun _ _ _ => Iff.rfl)
    (fun _ _ h => ⟨hfk, h⟩) (fun _ _ h h' => h h'.2) (fun _ _ _ => Iff.rfl)
  cases f with
  | replacePrimitive => exact odds_mutReplacePrimitive hps hi hc hok P hf hno
  | insert => exact odds_mutInsert hps hi hc P hf (by rintro rfl; exact hne rfl) hno
  | shrink =>
    have : ¬ (steps l).length ≤ 1 := hno
    simp only [steps, List.length_map] at this
    exact odds_mutShrink hi hc P hf (by omega)
  | replaceTerminal => exact odds_mutReplaceTerminal hps hi hc P hf hno
  | partialShrink n =>
    obtain ⟨k, hk⟩ := hfk
    cases k <;> cases hk

end

theorem odds_mutateWithLog {M : Nat} {c : OpConfig} (hu : Workable c) {w : World} {i : Nat}
    {ss : List Step} (his : Is w i ss) (hok : PipelineOk c.ps ss)
    (hlen : ∀ x, c.maxLength = some x → ss.length ≤ x) (P : List Step → Prop)
    (hf : FairChange M c.ps ss) :
    Odds M (mutateWithLog c i) w (fun n w' => ∃ child, Is w' n child ∧ P child)
      (mutantShare c.ps c.maxLength P ss) := by
  obtain ⟨ind, l, hi, hc, rfl⟩ := is_iff.1 his
  unfold mutateWithLog
  refine Odds.quiet (Drawless.copyAsNew i) (wp_copyAsNew hi hc ?_)
  intro a m new hm hst hnew
  rw [map_resort (fun s hs => pipelineOk_kind hok hs)] at hst
  have hdraw : ∀ f : MutFn, Drawless (match f.name with
      | .error e => raise e
      | .ok name => do
        let ind ← getInd w.inds.length
        setInd w.inds.length { ind with md := { parents := [i], origin := some name } }
        pure w.inds.length : GP Nat) := by
    intro f
    cases f.name with
    | error e => exact Drawless.raise _
    | ok name => exact (Drawless.getInd _).bind fun _ => (Drawless.setInd _ _).bind fun _ => Drawless.pure _
  refine Odds.andThen (R := fun f w' => (∃ k, f = changeFn k) ∧ Now w.inds.length P w') ?_ hdraw
    (fun _ _ _ => Iff.rfl) ?_ ?_ (fun _ _ _ => Iff.rfl)
  · rw [← hst] at hf hok hlen ⊢
    exact odds_randomValidMutation (ind := { main := a }) (l := m) hu.ok hu.distinct hu.preprocessors
      (by simp) hm hok P hlen hf
  · rintro f w' ⟨⟨k, rfl⟩, ss, h1, h2⟩
    obtain ⟨ind, l, g1, g2, g3⟩ := is_iff.1 h1
    rw [changeFn_name]
    simp only [wp_bind]
    refine wp_setMeta (f := fun _ => { parents := [i], origin := some (originName k) }) g1 ?_
    have hlt := (List.getElem?_eq_some_iff.1 g1).1
    exact ⟨ss, is_iff.2 ⟨{ ind with md := { parents := [i], origin := some (originName k) } }, l,
      by simp [hlt], g2, g3⟩, h2⟩
  · intro f w' h
    cases hname : f.name with
    | error e => exact trivial
    | ok name =>
      have hk : ∃ k, f = changeFn k := by
        cases f with
        | replacePrimitive => exact ⟨.step, rfl⟩
        | insert => exact ⟨.insert, rfl⟩
        | shrink => exact ⟨.remove, rfl⟩
        | replaceTerminal => exact ⟨.value, rfl⟩
        | partialShrink n => cases hname
      simp only [wp_bind]
      cases g1 : w'.inds[w.inds.length]? with
      | none =>
        simp only [getInd, wp_ofExcept, g1]
      | some ind =>
        refine wp_setMeta (f := fun _ => { parents := [i], origin := some name }) g1 ?_
        rintro ⟨ss, h1, h2⟩
        obtain ⟨ind', l, f1, f2, f3⟩ := is_iff.1 h1
        have hlt := (List.getElem?_eq_some_iff.1 g1).1
        have : ind' = { ind with md := { parents := [i], origin := some name } } := by
          simp only [List.getElem?_set_self hlt] at f1
          exact (Option.some.inj f1).symm
        subst this
        exact h ⟨hk, ss, is_iff.2 ⟨ind, l, g1, f2, f3⟩, h2⟩

theorem odds_opMutate {M : Nat} {c : OpConfig} (hu : Workable c) {w : World} {i : Nat} {ss : List Step}
    (his : Is w i ss) (hok : PipelineOk c.ps ss) (hlen : ∀ m, c.maxLength = some m → ss.length ≤ m)
    (hnew : ∀ k ss', Mutated c.ps k ss ss' → c.completed (printed ss') = false)
    (hf : FairChange M c.ps ss) (P : List Step → Prop) :
    Odds M (opMutate c i) w (fun n w' => ∃ child, Is w' n child ∧ P child)
      (mutantShare c.ps c.maxLength P ss) := by
  refine (odds_mutateWithLog hu his hok hlen P hf).congr fun s => ?_
  unfold opMutate
  obtain ⟨k, hk⟩ : ∃ k, c.maxRetry = k + 1 := ⟨c.maxRetry - 1, by have := hu.retry; omega⟩
  rw [hk, tryUntilNew]
  cases hrun : mutateWithLog c i (withRnd w s) with
  | mk r w' =>
    cases r with
    | error e => exact bind_error hrun
    | ok n =>
      obtain ⟨ss', f, name, g1, g2, _, g4, _⟩ := wp_ok (wp_mutateWithLog (w := withRnd w s) hu.ok his hok) hrun
      obtain ⟨as, g5, _⟩ := g1.is
      have e := pipelineStr_is (⟨as, g5⟩ : Is _ _ ss')
      refine (bind_ok hrun).trans ((bind_ok e).trans ?_)
      rw [hnew _ _ (mutShape_mutated g2 (by rintro k rfl; simp [MutFn.name] at g4))]
      rfl

/-- **C192.** If no child was evaluated before, mutation chooses among the kinds of change that can be made
with the same chance, then the place with the same chance among those that can be changed, then what is put
there: each other value, each (other) algorithm, and each value of each of its hyperparameters, with the same
chance. Where no change can be made there is no child. -/
theorem C192 {M : Nat} (hM : 0 < M) {c : OpConfig} (hu : Workable c) {w : World} {i : Nat} {ss : List Step}
    (his : Is w i ss) (hok : PipelineOk c.ps ss) (hlen : ∀ m, c.maxLength = some m → ss.length ≤ m)
    (hnew : ∀ k ss', Mutated c.ps k ss ss' → c.completed (printed ss') = false)
    (hf : FairChange M c.ps ss) (P : List Step → Prop) :
    Chance M (opMutate c i) w (fun n w' => ∃ child, Is w' n child ∧ P child)
      (mutantShare c.ps c.maxLength P ss) :=
  Odds.chance hM (fun _ _ _ => Iff.rfl) (odds_opMutate hu his hok hlen hnew hf P)

/-! ### An example -/

theorem mean_zero {α : Type} {l : List α} {g : α → ℚ} (h : ∀ x ∈ l, g x = 0) : meanOf l g = 0 := by
  have : meanOf l g = meanOf l fun _ => 0 := mean_congr h
  rw [this]; simp [meanOf]

theorem share_zero {α : Type} {l : List α} {P : α → Prop} (h : ∀ x ∈ l, ¬ P x) : share P l = 0 :=
  mean_zero fun x hx => if_neg (h x hx)

theorem valuesMean_zero (ps : PSet) : ∀ (is : List Str) {g : List Terminal → ℚ}, (∀ ts, g ts = 0) →
    valuesMean ps is g = 0
  | [], _, h => h _
  | _ :: is, _, h => mean_zero fun _ _ => valuesMean_zero ps is fun _ => h _

theorem stepsMean_zero {ps : PSet} {algs : List Primitive} {g : Step → ℚ} (h : ∀ s, g s = 0) :
    stepsMean ps algs g = 0 := mean_zero fun _ _ => valuesMean_zero ps _ fun _ => h _

theorem withValue_length (t : Terminal) : ∀ (ss : List Step) (k : Nat), (withValue ss k t).length = ss.length
  | [], _ => rfl
  | s :: ss, k => by
    unfold withValue
    split
    · rfl
    · simp [withValue_length t ss]

theorem Ex.fair {ss : List Step} (hs : ss.length ≤ 4) (ht : (allTerms ss).length ≤ 4) :
    FairChange 12 Ex.space ss where
  bound := by
    refine ⟨4, ?_, Nat.le_refl _, hs, ht, ?_, ?_⟩
    · intro n h1 h2
      rcases n with _ | _ | _ | _ | _ | n
      · omega
      all_goals first | decide | omega
    · intro k
      unfold Ex.space
      dsimp only
      split
      · decide
      · split <;> decide
    · intro k
      unfold Ex.space
      dsimp only
      split
      · decide
      · split
        · decide
        · split <;> decide

theorem Ex.fair_long : FairChange 12 Ex.space Ex.long := Ex.fair (by decide) (by decide)

/-- `SC > PCA > DT` loses exactly one step with a chance of one in eight: one of four kinds of change, and
then one of two numbers of steps. -/
example (r : Stream) : Chance 12 (opMutate Ex.chanceConfig 0) (Ex.w0 r)
    (fun n w' => ∃ child, Is w' n child ∧ child.length = 2) (1 / 8) := by
  classical
  have h := C192 (M := 12) (by decide) Ex.chance_workable (Ex.is_long r) Ex.long_ok (fun m hm => by cases hm)
    (fun _ _ _ => rfl) Ex.fair_long (fun child => child.length = 2)
  have e1 : changeShare Ex.space (fun child => child.length = 2) Ex.long .value = 0 := by
    refine mean_zero fun tk _ => share_zero fun x hx => ?_
    obtain ⟨t, _, rfl⟩ := List.mem_map.1 hx
    rw [withValue_length]; decide
  have e2 : changeShare Ex.space (fun child => child.length = 2) Ex.long .step = 0 := by
    refine mean_zero fun sk _ => stepsMean_zero fun s => if_neg ?_
    beta_reduce
    rw [List.length_set]; decide
  have e3 : changeShare Ex.space (fun child => child.length = 2) Ex.long .insert = 0 := by
    refine mean_zero fun k _ => stepsMean_zero fun s => if_neg ?_
    have : Ex.long.length = 3 := rfl
    simp only [List.length_append, List.length_cons, List.length_take, List.length_drop]
    omega
  have e4 : changeShare Ex.space (fun child => child.length = 2) Ex.long .remove = 1 / 2 := by
    show share _ ((List.range 2).map fun k => Ex.long.take (3 - (k + 1))) = _
    have : (List.range 2).map (fun k => Ex.long.take (3 - (k + 1))) = [Ex.long.take 2, Ex.long.take 1] := rfl
    rw [this]
    have l2 : (Ex.long.take 2).length = 2 := rfl
    have l1 : (Ex.long.take 1).length = 1 := rfl
    simp only [share, List.map_cons, List.map_nil, l2, l1]
    norm_num
  have e : mutantShare Ex.chanceConfig.ps Ex.chanceConfig.maxLength (fun child => child.length = 2) Ex.long
      = 1 / 8 := by
    show meanOf ([Change.step, .insert, .remove, .value].filter fun k => Possible Ex.space none Ex.long k)
      (changeShare Ex.space (fun child => child.length = 2) Ex.long) = _
    have : ([Change.step, .insert, .remove, .value].filter fun k => Possible Ex.space none Ex.long k)
        = [.step, .insert, .remove, .value] := by
      simp [Ex.long_possible]
    rw [this]
    simp only [meanOf, List.map_cons, List.map_nil, e1, e2, e3, e4]
    norm_num
  rwa [e] at h

end Gama
