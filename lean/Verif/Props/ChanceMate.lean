import Verif.Props.ChanceElim
import Verif.Props.ChanceVary

/-!
# How likely each child of a crossover is

`random_crossover`, `crossover_primitives`, `crossover_terminals`,
`gama/genetic_programming/crossover.py`; `OperatorSet.mate`, `operator_set.py` l.62-69.
-/

namespace Gama
open Spec PyM

/-! ## What is asked for -/

/-- The pipeline with its `k`-th hyperparameter value, counted over all steps, replaced by `t`. -/
def Spec.withValue : List Step → Nat → Terminal → List Step
  | [], _, _ => []
  | s :: ss, k, t => if k < s.terms.length then { s with terms := s.terms.set k t } :: ss
      else s :: withValue ss (k - s.terms.length) t

/-- The first children of exchanging two values of one hyperparameter, one for each two values that
differ. -/
def Spec.valueChildren (p q : List Step) : List (List Step) :=
  (allTerms p).zipIdx.flatMap fun ak => (allTerms q).filterMap fun b =>
    if ak.1.ident = b.ident ∧ ak.1.value.pyEq b.value = false then some (withValue p ak.2 b) else none

/-- The first children of exchanging the steps at the data side, one for each two places to cut. -/
def Spec.tailChildren (p q : List Step) : List (List Step) :=
  (List.range (p.length - 1)).flatMap fun a => (List.range (q.length - 1)).map fun b =>
    p.take (a + 1) ++ q.drop (b + 1)

open Classical in
/-- The share of a list that is in `P`. -/
noncomputable def Spec.share {α : Type} (P : α → Prop) (l : List α) : ℚ :=
  (l.map fun x => if P x then (1 : ℚ) else 0).sum / l.length

open Classical in
/-- The mean of the shares of the lists that are not empty. -/
noncomputable def Spec.mixedShare {α : Type} (P : α → Prop) (ls : List (List α)) : ℚ :=
  ((ls.filter fun l => l ≠ []).map (share P)).sum / (ls.filter fun l => l ≠ []).length

/-! ## Operations without draws -/

def Drawless {α : Type} (m : GP α) : Prop := ∀ w, ∃ r w₁, ∀ s, m (withRnd w s) = (r, withRnd w₁ s)

section
variable {α β : Type} {M : Nat}

theorem Drawless.hasTree {m : GP α} (h : Drawless m) : HasTree M m := fun w => by
  obtain ⟨r, w₁, h⟩ := h w
  exact ⟨.leaf r w₁, h, trivial⟩

theorem Drawless.pure (a : α) : Drawless (Pure.pure a : GP α) := fun w => ⟨.ok a, w, fun _ => rfl⟩
theorem Drawless.raise (e : Exn) : Drawless (PyM.raise e : GP α) := fun w => ⟨.error e, w, fun _ => rfl⟩
theorem Drawless.ofExcept {f : World → Except Exn α} (hf : ∀ w r, f (withRnd w r) = f w) :
    Drawless (PyM.ofExcept f) := fun w => ⟨f w, w, fun s => by
  show (f (withRnd w s), withRnd w s) = _
  rw [hf]⟩
theorem Drawless.modify {g : World → World} (h : ∀ w r, g (withRnd w r) = withRnd (g w) r) :
    Drawless (PyM.modify g) := fun w => ⟨.ok (), g w, fun s => by rw [modify_run, h]⟩
theorem Drawless.bind {m : GP α} {f : α → GP β} (hm : Drawless m) (hf : ∀ a, Drawless (f a)) : Drawless (m >>= f) := by
  intro w
  obtain ⟨r, w₁, h⟩ := hm w
  cases r with
  | error e => exact ⟨.error e, w₁, fun s => bind_error (h s)⟩
  | ok a =>
    obtain ⟨r', w₂, h'⟩ := hf a w₁
    exact ⟨r', w₂, fun s => (bind_ok (h s)).trans (h' s)⟩
theorem Drawless.ite {c : Prop} [Decidable c] {m₁ m₂ : GP α} (h₁ : Drawless m₁) (h₂ : Drawless m₂) :
    Drawless (if c then m₁ else m₂) := by
  by_cases h : c <;> simp [h, h₁, h₂]

theorem Drawless.getNode (a : Addr) : Drawless (Gama.getNode a) := Drawless.ofExcept fun _ _ => rfl
theorem Drawless.getInd (i : Nat) : Drawless (Gama.getInd i) := Drawless.ofExcept fun _ _ => rfl
theorem Drawless.setNode (a : Addr) (c : Cell) : Drawless (Gama.setNode a c) := Drawless.modify fun _ _ => rfl
theorem Drawless.setInd (i : Nat) (c : IndCell) : Drawless (Gama.setInd i c) := Drawless.modify fun _ _ => rfl
theorem Drawless.newNode (p : Primitive) (d : Option Addr) (ts : List Terminal) :
    Drawless (Gama.newNode p d ts) :=
  fun w => ⟨.ok w.nodes.length, { w with nodes := w.nodes ++ [⟨p, sortTerms ts, d⟩] }, fun _ => rfl⟩
theorem Drawless.newInd (m : Addr) : Drawless (Gama.newInd m) :=
  fun w => ⟨.ok w.inds.length, { w with inds := w.inds ++ [{ main := m }] }, fun _ => rfl⟩
theorem Drawless.primitives (i : Nat) : Drawless (Gama.primitives i) :=
  (Drawless.getInd i).bind fun _ => Drawless.ofExcept fun _ _ => rfl
theorem Drawless.getNodes : ∀ as, Drawless (Gama.getNodes as)
  | [] => Drawless.pure _
  | a :: as => (Drawless.getNode a).bind fun _ => (Drawless.getNodes as).bind fun _ => Drawless.pure _
theorem Drawless.terminals (i : Nat) : Drawless (Gama.terminals i) :=
  (Drawless.primitives i).bind fun _ => (Drawless.getNodes _).bind fun _ => Drawless.pure _
theorem Drawless.copyNode : ∀ fuel a, Drawless (Gama.copyNode fuel a)
  | 0, _ => Drawless.raise _
  | fuel + 1, a => (Drawless.getNode a).bind fun c => by
    cases c.data with
    | none => exact Drawless.newNode _ _ _
    | some b => exact (Drawless.copyNode fuel b).bind fun _ => Drawless.newNode _ _ _
theorem Drawless.copyNodeTop (a : Addr) : Drawless (Gama.copyNodeTop a) :=
  fun w => Drawless.copyNode w.nodes.length a w
theorem Drawless.copyAsNew (i : Nat) : Drawless (Gama.copyAsNew i) :=
  (Drawless.getInd i).bind fun _ => (Drawless.copyNodeTop _).bind fun _ => Drawless.newInd _
theorem Drawless.replaceTerminalLoop (pos : Nat) (t : Terminal) :
    ∀ as scan, Drawless (Gama.replaceTerminalLoop pos t as scan)
  | [], scan => by
    unfold Gama.replaceTerminalLoop
    exact Drawless.ite (Drawless.raise _) (Drawless.pure _)
  | a :: as, scan => by
    unfold Gama.replaceTerminalLoop
    refine (Drawless.getNode a).bind fun c => Drawless.ite ?_ (Drawless.replaceTerminalLoop pos t as _)
    cases c.terms[pos - scan]? with
    | none => exact Drawless.raise _
    | some old => exact Drawless.ite (Drawless.raise _) (Drawless.setNode _ _)
theorem Drawless.replaceTerminal (i pos : Nat) (t : Terminal) : Drawless (Gama.replaceTerminal i pos t) :=
  (Drawless.primitives i).bind fun _ => Drawless.replaceTerminalLoop pos t _ _
theorem Drawless.validCrossoverFunctions (i j : Nat) : Drawless (Gama.validCrossoverFunctions i j) :=
  (Drawless.terminals i).bind fun _ => (Drawless.terminals j).bind fun _ => (Drawless.primitives i).bind fun _ =>
    (Drawless.primitives j).bind fun _ => Drawless.pure _

theorem Odds.shift {m : GP α} {w : World} {P : α → World → Prop} {q : ℚ} {s : Stream} :
    Odds M m (withRnd w s) P q ↔ Odds M m w P q := Iff.rfl

/-- Something without draws goes first. -/
theorem Odds.quiet {m : GP α} {f : α → GP β} {w : World} {P : β → World → Prop} {q : ℚ} (hm : Drawless m)
    (h : wp m (fun a w' => Odds M (f a) w' P q) (fun _ _ => False) w) : Odds M (m >>= f) w P q := by
  obtain ⟨r, w₁, hr⟩ := hm w
  have e : m w = (r, withRnd w₁ w.rnd) := hr w.rnd
  cases r with
  | error e' => exact (wp_error h e).elim
  | ok a =>
    have h' : Odds M (f a) (withRnd w₁ w.rnd) P q := by
      have := h
      unfold wp at this
      rw [e] at this
      exact this
    exact Odds.det hr (Odds.shift.1 h')

/-- Something without draws goes last. -/
theorem Odds.andThen {m : GP α} {f : α → GP β} {w : World} {R : α → World → Prop} {P : β → World → Prop}
    {q : ℚ} (h : Odds M m w R q) (hf : ∀ a, Drawless (f a)) (hP : Still P)
    (hyes : ∀ a w', R a w' → wp (f a) P (fun _ _ => False) w')
    (hno : ∀ a w', ¬ R a w' → wp (f a) (fun b w'' => ¬ P b w'') (fun _ _ => True) w') (hR : Still R) :
    Odds M (m >>= f) w P q := by
  have := Odds.bind (q1 := 1) (q0 := 0) (P := P) (f := f) (Q := fun _ _ => True) h (fun _ _ _ => Iff.rfl)
    (fun s => wp_intro (fun _ _ _ => trivial) (fun _ _ _ => rfl))
    (fun a w' _ hr => odds_always (hf a).hasTree hP fun s => hyes a _ ((hR a w' s).2 hr))
    (fun a w' _ hr => odds_never (hf a).hasTree hP (E := fun _ _ => True) fun s =>
      hno a _ fun h => hr ((hR a w' s).1 h))
  simpa using this

/-- The pipeline of individual `i` is in `P`. -/
def Now (i : Nat) (P : List Step → Prop) (w : World) : Prop := ∃ ss, Is w i ss ∧ P ss

theorem now_still (i : Nat) (P : List Step → Prop) (w : World) (s : Stream) :
    Now i P (withRnd w s) ↔ Now i P w := Iff.rfl

open Classical in
theorem Odds.settled {m : GP α} {w : World} {i : Nat} {P : List Step → Prop} {ss : List Step} (hm : Drawless m)
    (h : wp m (fun _ w' => Is w' i ss) (fun _ _ => False) w) :
    Odds M m w (fun _ w' => Now i P w') (if P ss then 1 else 0) := by
  obtain ⟨r, w₁, hr⟩ := hm w
  have e : m w = (r, withRnd w₁ w.rnd) := hr w.rnd
  cases r with
  | error e' => exact (wp_error h e).elim
  | ok a =>
    have hi : Is w₁ i ss := by
      have := h
      unfold wp at this
      rw [e] at this
      exact this
    by_cases hP : P ss
    · rw [if_pos hP]; exact Odds.yes hr ⟨ss, hi, hP⟩
    · rw [if_neg hP]
      refine Odds.no hr ?_
      rintro ⟨ss', h1, h2⟩
      rw [h1.det hi] at h2
      exact hP h2

end

/-! ## Exchanging values -/

theorem withValue_at {pre : List Step} {s : Step} {post : List Step} {k : Nat} (t : Terminal)
    (hk : k < s.terms.length) : withValue (pre ++ s :: post) ((allTerms pre).length + k) t
      = pre ++ { s with terms := s.terms.set k t } :: post := by
  induction pre with
  | nil => simp [withValue, allTerms, hk]
  | cons x pre ih =>
    have e : (allTerms (x :: pre)).length = x.terms.length + (allTerms pre).length := by
      simp [allTerms]
    rw [List.cons_append, withValue, if_neg (by omega), e,
      show x.terms.length + (allTerms pre).length + k - x.terms.length = (allTerms pre).length + k by omega, ih]
    rfl

theorem valueChildren_eq (p q : List Step) : valueChildren p q =
    (sharedTerminals (allTerms p) (allTerms q)).map fun x => withValue p x.1 x.2.2.2 := by
  unfold valueChildren sharedTerminals enum
  rw [List.map_flatMap, List.flatMap_map]
  congr 1
  funext ak
  rw [List.map_filterMap]
  have : ∀ (l : List Terminal) (n : Nat), (l.filterMap fun b =>
      if ak.1.ident = b.ident ∧ ak.1.value.pyEq b.value = false then some (withValue p ak.2 b) else none)
      = ((l.zipIdx n).map fun p => (p.2, p.1)).filterMap fun x => Option.map
        (fun x : Nat × Terminal × Nat × Terminal => withValue p x.1 x.2.2.2)
        (if ak.1.ident = x.2.ident then if ak.1.value.pyEq x.2.value then none
          else some (ak.2, ak.1, x.1, x.2) else none) := by
    intro l
    induction l with
    | nil => intro n; rfl
    | cons b l ih =>
      intro n
      rw [List.zipIdx_cons, List.map_cons, List.filterMap_cons, List.filterMap_cons, ← ih (n + 1)]
      by_cases h1 : ak.1.ident = b.ident
      · cases h2 : ak.1.value.pyEq b.value <;> simp [h1, h2]
      · simp [h1]
  exact this _ 0

section
variable {M : Nat} {ps : PSet} {i j : Nat} {w : World} {ind₁ ind₂ : IndCell} {l₁ l₂ : List (Addr × Step)}

theorem odds_terminals (hi : w.inds[i]? = some ind₁) (hj : w.inds[j]? = some ind₂)
    (hc₁ : Chain w.nodes (some ind₁.main) l₁) (hc₂ : Chain w.nodes (some ind₂.main) l₂)
    (hdis : ∀ a ∈ addrs l₁, a ∉ addrs l₂) (P : List Step → Prop)
    (hne : valueChildren (steps l₁) (steps l₂) ≠ [])
    (hd : (valueChildren (steps l₁) (steps l₂)).length ∣ M) :
    Odds M (crossoverTerminals i j) w (fun _ w' => Now i P w') (share P (valueChildren (steps l₁) (steps l₂))) := by
  classical
  rw [valueChildren_eq] at *
  rw [List.length_map] at hd
  have hne : sharedTerminals (allTerms (steps l₁)) (allTerms (steps l₂)) ≠ [] := by
    intro h; rw [h] at hne; exact hne rfl
  unfold share
  rw [List.map_map, List.length_map]
  unfold crossoverTerminals
  refine Odds.quiet (Drawless.terminals i) (wp_terminals hi hc₁ ?_)
  refine Odds.quiet (Drawless.terminals j) (wp_terminals hj hc₂ ?_)
  refine Odds.choice hne hd ?_
  rintro ⟨k, a, l, b⟩ hm
  obtain ⟨hk, hl, hid, hne⟩ := mem_sharedTerminals.1 hm
  have hklt := (List.getElem?_eq_some_iff.1 hk).1
  have hllt := (List.getElem?_eq_some_iff.1 hl).1
  refine Odds.settled ((Drawless.replaceTerminal _ _ _).bind fun _ => Drawless.replaceTerminal _ _ _) ?_
  rw [wp_bind]
  refine wp_replaceTerminal (l := l₁) (ind := ind₁) hi hc₁ ?_ (by intro h; omega) (by intro h; omega)
  intro pre a₁ s post k₁ e₁ hp₁ hk₁
  have ha := chain_term_at hk e₁ hp₁ hk₁
  refine ⟨?_, fun h => absurd hid (by rw [ha] at h; exact h)⟩
  intro _ c hch₁
  have hc₂' : Chain (w.nodes.set a₁ c) (some ind₂.main) l₂ :=
    hc₂.set_notin (hdis a₁ (by rw [e₁]; simp [addrs]))
  refine wp_replaceTerminal (w := { w with nodes := w.nodes.set a₁ c }) (l := l₂)
    (ind := ind₂) hj hc₂' ?_ (by intro h; omega) (by intro h; omega)
  intro pre₂ a₂ s₂ post₂ k₂ e₂ hp₂ hk₂
  have hb := chain_term_at hl e₂ hp₂ hk₂
  refine ⟨?_, fun h => absurd hid.symm (by rw [hb] at h; exact h)⟩
  intro _ c₂ hch₂
  have ha₁₂ : a₂ ∉ addrs l₁ := fun h => hdis a₂ h (by rw [e₂]; simp [addrs])
  have hea : addrs (pre ++ (a₁, { s with terms := s.terms.set k₁ b }) :: post) = addrs l₁ := by
    rw [e₁]; simp [addrs]
  refine is_iff.2 ⟨ind₁, _, hi, Chain.set_notin hch₁ (by rw [hea]; exact ha₁₂), ?_⟩
  have e : steps l₁ = steps pre ++ s :: steps post := by rw [e₁]; simp [steps]
  show _ = withValue (steps l₁) k b
  rw [e, hp₁, withValue_at b hk₁]
  simp [steps]

/-! ## Exchanging tails -/

theorem sum_flatMap_map {α β γ : Type} (A : List α) (B : List β) (f : α → β → γ) (g : γ → ℚ) :
    ((A.flatMap fun a => B.map fun b => f a b).map g).sum = (A.map fun a => (B.map fun b => g (f a b)).sum).sum := by
  induction A with
  | nil => rfl
  | cons a A ih => simp [ih, Function.comp_def]

theorem map_dropLast_idx {l : List Nat} (hn : l.Nodup) (G : Nat → ℚ) :
    (l.dropLast.map fun x => G (l.idxOf x)) = (List.range (l.length - 1)).map G := by
  apply List.ext_getElem
  · simp
  · intro k h1 h2
    simp only [List.getElem_map, List.getElem_dropLast, List.getElem_range]
    rw [hn.idxOf_getElem]

theorem odds_primitives (hi : w.inds[i]? = some ind₁) (hj : w.inds[j]? = some ind₂)
    (hc₁ : Chain w.nodes (some ind₁.main) l₁) (hc₂ : Chain w.nodes (some ind₂.main) l₂)
    (hdis : ∀ a ∈ addrs l₁, a ∉ addrs l₂) (P : List Step → Prop)
    (h₁ : 2 ≤ l₁.length) (h₂ : 2 ≤ l₂.length) (hd₁ : l₁.length - 1 ∣ M) (hd₂ : l₂.length - 1 ∣ M) :
    Odds M (crossoverPrimitives i j) w (fun _ w' => Now i P w') (share P (tailChildren (steps l₁) (steps l₂))) := by
  classical
  have al : ∀ l : List (Addr × Step), (addrs l).length = l.length := by simp [addrs]
  have sl : ∀ l : List (Addr × Step), (steps l).length = l.length := by simp [steps]
  let G : Nat → Nat → ℚ := fun a b =>
    if P ((steps l₁).take (a + 1) ++ (steps l₂).drop (b + 1)) then 1 else 0
  let H : Nat → ℚ := fun a => ((List.range (l₂.length - 1)).map (G a)).sum / ((l₂.length - 1 : Nat) : ℚ)
  have hs : share P (tailChildren (steps l₁) (steps l₂))
      = ((List.range (l₁.length - 1)).map H).sum / ((l₁.length - 1 : Nat) : ℚ) := by
    have e : (tailChildren (steps l₁) (steps l₂)).length = (l₁.length - 1) * (l₂.length - 1) := by
      simp [tailChildren, sl]
    have e2 : ((List.range (l₁.length - 1)).map H).sum
        = ((List.range (l₁.length - 1)).map fun a => ((List.range (l₂.length - 1)).map (G a)).sum).sum
          / ((l₂.length - 1 : Nat) : ℚ) := by
      exact sum_map_div _ _ _
    unfold share
    rw [e, e2]
    unfold tailChildren
    rw [sum_flatMap_map, sl, sl, Nat.cast_mul, mul_comm, ← div_div]
  rw [hs]
  unfold crossoverPrimitives
  refine Odds.quiet (Drawless.primitives i) (wp_primitives hi hc₁ ?_)
  have k1 := map_dropLast_idx (hc₁.nodup) H
  have k2 := fun a => map_dropLast_idx (hc₂.nodup) (G a)
  rw [al] at k1
  rw [← k1, show ((l₁.length - 1 : Nat) : ℚ) = ((addrs l₁).dropLast.length : ℚ) by simp [al]]
  have hnil : ∀ l : List (Addr × Step), 2 ≤ l.length → (addrs l).dropLast ≠ [] := by
    intro l hl h
    have := congrArg List.length h
    simp [al] at this; omega
  refine Odds.choice (hnil _ h₁) (by simpa [al] using hd₁) ?_
  intro p₁ hp₁
  refine Odds.quiet (Drawless.primitives j) (wp_primitives hj hc₂ ?_)
  show Odds M _ w _ (((List.range (l₂.length - 1)).map (G ((addrs l₁).idxOf p₁))).sum / ((l₂.length - 1 : Nat) : ℚ))
  rw [al] at k2
  rw [← k2, show ((l₂.length - 1 : Nat) : ℚ) = ((addrs l₂).dropLast.length : ℚ) by simp [al]]
  refine Odds.choice (hnil _ h₂) (by simpa [al] using hd₂) ?_
  intro p₂ hp₂
  have hsplit : ∀ {l : List (Addr × Step)} {p : Addr}, (addrs l).Nodup → p ∈ (addrs l).dropLast →
      ∃ pre s post, l = pre ++ (p, s) :: post ∧ (addrs l).idxOf p = pre.length ∧ post ≠ [] := by
    intro l p hn hp
    obtain ⟨A, B, e, hB⟩ := mem_dropLast_split hp
    unfold addrs at e
    obtain ⟨pre, rest, rfl, rfl, hr⟩ := List.map_eq_append_iff.1 e
    obtain ⟨⟨p', s⟩, post, rfl, hs, rfl⟩ := List.map_eq_cons_iff.1 hr
    dsimp only at hs
    subst hs
    refine ⟨pre, s, post, rfl, ?_, by rintro rfl; exact hB rfl⟩
    have hnot : p' ∉ addrs pre := by
      intro h
      have e' : addrs (pre ++ (p', s) :: post) = addrs pre ++ p' :: addrs post := by simp [addrs]
      rw [e'] at hn
      exact (List.nodup_append.1 hn).2.2 p' h p' (by simp) rfl
    have e' : addrs (pre ++ (p', s) :: post) = addrs pre ++ p' :: addrs post := by simp [addrs]
    rw [e', List.idxOf_append_of_notMem hnot]
    simp [al]
  obtain ⟨pre₁, s₁, post₁, rfl, i₁, ne₁⟩ := hsplit hc₁.nodup hp₁
  obtain ⟨pre₂, s₂, post₂, rfl, i₂, ne₂⟩ := hsplit hc₂.nodup hp₂
  have hres : (steps (pre₁ ++ (p₁, s₁) :: post₁)).take (pre₁.length + 1)
      ++ (steps (pre₂ ++ (p₂, s₂) :: post₂)).drop (pre₂.length + 1) = steps pre₁ ++ s₁ :: steps post₂ := by
    have e : ∀ (pre post : List (Addr × Step)) (p : Addr) (s : Step),
        steps (pre ++ (p, s) :: post) = (steps pre ++ [s]) ++ steps post := by
      intro pre post p s; simp [steps]
    rw [e, e, List.take_left' (by simp [sl]), List.drop_left' (by simp [sl])]
    simp
  show Odds M _ w _ (G _ _)
  simp only [G, i₁, i₂, hres]
  refine Odds.settled ?_ ?_
  · exact (Drawless.getNode _).bind fun _ => (Drawless.getNode _).bind fun _ => (Drawless.setNode _ _).bind fun _ =>
      (Drawless.getNode _).bind fun _ => Drawless.setNode _ _
  have f₁ := hc₁.suffix
  have f₂ := hc₂.suffix
  simp only [Chain] at f₁ f₂
  obtain ⟨_, n₁, hn₁, ct₁⟩ := f₁
  obtain ⟨_, n₂, hn₂, ct₂⟩ := f₂
  simp only [wp_bind]
  refine wp_getNode (w := w) hn₁ ?_
  refine wp_getNode (w := w) hn₂ ?_
  simp only [setNode, wp_modify]
  have hp₁₂ : p₁ ≠ p₂ := fun h => hdis p₁ (by simp [addrs]) (by rw [h]; simp [addrs])
  have hn₂' : (w.nodes.set p₁ ⟨s₁.prim, s₁.terms, n₂⟩)[p₂]? = some ⟨s₂.prim, s₂.terms, n₂⟩ := by
    rw [List.getElem?_set_ne hp₁₂, hn₂]
  refine wp_getNode (w := { w with nodes := w.nodes.set p₁ _ }) hn₂' ?_
  have hp₁post₂ : p₁ ∉ addrs post₂ := fun h => hdis p₁ (by simp [addrs]) (by
    simp only [addrs, List.map_append, List.map_cons, List.mem_append, List.mem_cons]
    exact Or.inr (Or.inr h))
  have hp₂pre₁ : p₂ ∉ addrs pre₁ := fun h => hdis p₂ (by
    simp only [addrs, List.map_append, List.map_cons, List.mem_append, List.mem_cons]
    exact Or.inl h) (by simp [addrs])
  have d₁ := Chain.update s₁ hc₁ ct₂ hp₁post₂
  have e₁ := d₁.set_notin (a := p₂) (c := ⟨s₂.prim, s₂.terms, n₁⟩) (by
    simp only [addrs, List.map_append, List.map_cons, List.mem_append, List.mem_cons]
    rintro (h | h | h)
    · exact hp₂pre₁ h
    · exact hp₁₂ h.symm
    · exact hc₂.nodup_mid.2.1 h)
  exact is_iff.2 ⟨ind₁, _, hi, e₁, by simp [steps]⟩

/-! ## Either -/

theorem tailChildren_ne_nil {p q : List Step} : tailChildren p q ≠ [] ↔ 2 ≤ p.length ∧ 2 ≤ q.length := by
  have e : (tailChildren p q).length = (p.length - 1) * (q.length - 1) := by simp [tailChildren]
  rw [← List.length_pos_iff, e]
  constructor
  · intro h
    have h1 := Nat.pos_of_mul_pos_right h
    have h2 := Nat.pos_of_mul_pos_left h
    omega
  · intro h
    exact Nat.mul_pos (by omega) (by omega)

theorem cxValid_shares {p q : List Step} (P : List Step → Prop) :
    ((cxValid p q).map fun f => match f with
      | .terminals => share P (valueChildren p q)
      | .primitives => share P (tailChildren p q)).sum / (cxValid p q).length
      = mixedShare P [valueChildren p q, tailChildren p q] := by
  classical
  have hv : (sharedTerminals (allTerms p) (allTerms q)).isEmpty = true ↔ valueChildren p q = [] := by
    rw [valueChildren_eq, List.isEmpty_iff, List.map_eq_nil_iff]
  have ht := tailChildren_ne_nil (p := p) (q := q)
  unfold cxValid mixedShare
  by_cases h1 : valueChildren p q = [] <;> by_cases h2 : 2 ≤ p.length ∧ 2 ≤ q.length
  · simp [h1, hv.2 h1, h2, ht.2 h2]
  · have h2' : tailChildren p q = [] := by by_contra h; exact h2 (ht.1 h)
    simp [h1, hv.2 h1, h2, h2']
  · have h1' : (sharedTerminals (allTerms p) (allTerms q)).isEmpty = false := by
      rw [← Bool.not_eq_true, hv]; exact h1
    simp [h1, h1', h2, ht.2 h2]
  · have h1' : (sharedTerminals (allTerms p) (allTerms q)).isEmpty = false := by
      rw [← Bool.not_eq_true, hv]; exact h1
    have h2' : tailChildren p q = [] := by by_contra h; exact h2 (ht.1 h)
    simp [h1, h1', h2, h2']

theorem wp_primitives_still (i : Nat) (w : World) : wp (primitives i) (fun _ w' => w' = w) (fun _ _ => True) w := by
  simp only [primitives, wp_bind, getInd, wp_ofExcept]
  cases w.inds[i]? with
  | none => trivial
  | some ind =>
    dsimp only
    split <;> trivial

theorem odds_randomCrossover {m : Option Nat}
    (hi : w.inds[i]? = some ind₁) (hj : w.inds[j]? = some ind₂)
    (hc₁ : Chain w.nodes (some ind₁.main) l₁) (hc₂ : Chain w.nodes (some ind₂.main) l₂)
    (hdis : ∀ a ∈ addrs l₁, a ∉ addrs l₂)
    (hx₁ : exceeds m l₁.length = false) (hx₂ : exceeds m l₂.length = false) (P : List Step → Prop)
    (hcan : CanCross (steps l₁) (steps l₂)) (h2 : 2 ∣ M)
    (hV : valueChildren (steps l₁) (steps l₂) ≠ [] → (valueChildren (steps l₁) (steps l₂)).length ∣ M)
    (hd₁ : 2 ≤ l₁.length → l₁.length - 1 ∣ M) (hd₂ : 2 ≤ l₂.length → l₂.length - 1 ∣ M) :
    Odds M (randomCrossover m i j) w (fun _ w' => Now i P w')
      (mixedShare P [valueChildren (steps l₁) (steps l₂), tailChildren (steps l₁) (steps l₂)]) := by
  have al : ∀ l : List (Addr × Step), (addrs l).length = l.length := by simp [addrs]
  have sl : ∀ l : List (Addr × Step), (steps l).length = l.length := by simp [steps]
  rw [← cxValid_shares]
  unfold randomCrossover
  refine Odds.quiet (Drawless.primitives i) (wp_primitives hi hc₁ ?_)
  rw [al, hx₁, if_neg (by simp)]
  refine Odds.quiet (Drawless.primitives j) (wp_primitives hj hc₂ ?_)
  rw [al, hx₂, if_neg (by simp)]
  refine Odds.quiet (Drawless.validCrossoverFunctions i j) (wp_validCrossoverFunctions hi hj hc₁ hc₂ ?_)
  have hne := cxValid_ne_nil.2 hcan
  rw [if_neg (by
    intro h
    exact hne (List.length_eq_zero_iff.1 h))]
  have hlen : (cxValid (steps l₁) (steps l₂)).length ∣ M := by
    have : (cxValid (steps l₁) (steps l₂)).length = 1 ∨ (cxValid (steps l₁) (steps l₂)).length = 2 := by
      have h0 := List.length_pos_iff.2 hne
      have : (cxValid (steps l₁) (steps l₂)).length ≤ 2 := by
        unfold cxValid
        split <;> split <;> simp
      omega
    rcases this with h | h <;> rw [h]
    · exact one_dvd _
    · exact h2
  refine Odds.choice hne hlen ?_
  intro f hf
  refine Odds.andThen (R := fun _ w' => Now i P w') ?_ (fun _ => (Drawless.primitives i).bind fun _ =>
    Drawless.ite (Drawless.pure _) (Drawless.pure _)) (fun _ _ _ => Iff.rfl) ?_ ?_ (fun _ _ _ => Iff.rfl)
  · cases f with
    | terminals =>
      have hv : valueChildren (steps l₁) (steps l₂) ≠ [] := by
        intro h
        rw [valueChildren_eq, List.map_eq_nil_iff] at h
        unfold cxValid at hf
        rw [h] at hf
        simp at hf
      exact odds_terminals hi hj hc₁ hc₂ hdis P hv (hV hv)
    | primitives =>
      have hl : 2 ≤ l₁.length ∧ 2 ≤ l₂.length := by
        unfold cxValid at hf
        rw [sl, sl] at hf
        by_contra h
        rw [if_neg h] at hf
        split at hf <;> simp at hf
      exact odds_primitives hi hj hc₁ hc₂ hdis P hl.1 hl.2 (hd₁ hl.1) (hd₂ hl.2)
  · intro _ w' h
    obtain ⟨ss, h1, h2⟩ := h
    obtain ⟨ind, l, g1, g2, g3⟩ := is_iff.1 h1
    rw [wp_bind]
    refine wp_primitives g1 g2 ?_
    split <;> exact ⟨ss, h1, h2⟩
  · intro _ w' h
    rw [wp_bind]
    refine wp_mono ?_ (fun _ _ h => h) (wp_primitives_still i w')
    rintro as w'' rfl
    split <;> exact h

end

theorem odds_mateWithLog {M : Nat} {c : OpConfig} {w : World} {i j : Nat}
    {p q : List Step} (his : Is w i p) (hjs : Is w j q) (hok₁ : PipelineOk c.ps p) (hok₂ : PipelineOk c.ps q)
    (hlen : ∀ x, c.maxLength = some x → p.length ≤ x ∧ q.length ≤ x) (P : List Step → Prop)
    (hcan : CanCross p q) (h2 : 2 ∣ M)
    (hV : valueChildren p q ≠ [] → (valueChildren p q).length ∣ M)
    (hd₁ : 2 ≤ p.length → p.length - 1 ∣ M) (hd₂ : 2 ≤ q.length → q.length - 1 ∣ M) :
    Odds M (mateWithLog c i j) w (fun n w' => ∃ child, Is w' n child ∧ P child)
      (mixedShare P [valueChildren p q, tailChildren p q]) := by
  obtain ⟨ind₁, l₁, hi, hc₁, rfl⟩ := is_iff.1 his
  obtain ⟨ind₂, l₂, hj, hc₂, rfl⟩ := is_iff.1 hjs
  unfold mateWithLog
  refine Odds.quiet (Drawless.copyAsNew i) (wp_copyAsNew hi hc₁ ?_)
  intro a m₁ new hm₁ hst₁ hnew₁
  rw [map_resort (fun s hs => pipelineOk_kind hok₁ hs)] at hst₁
  have hltj : j < w.inds.length := by
    by_contra h
    rw [List.getElem?_eq_none (by omega)] at hj
    cases hj
  refine Odds.quiet (Drawless.copyAsNew j) (wp_copyAsNew
    (w := { w with nodes := w.nodes ++ new, inds := w.inds ++ [{ main := a }] }) (ind := ind₂)
    (by rw [List.getElem?_append_left hltj]; exact hj) hc₂.append_heap ?_)
  intro b m₂ new₂ hm₂ hst₂ hnew₂
  rw [map_resort (fun s hs => pipelineOk_kind hok₂ hs)] at hst₂
  have len₁ : m₁.length = (steps l₁).length := by rw [← hst₁]; simp [steps]
  have len₂ : m₂.length = (steps l₂).length := by rw [← hst₂]; simp [steps]
  rw [← len₁] at hd₁
  rw [← len₂] at hd₂
  refine Odds.andThen (R := fun _ w' => Now w.inds.length P w') ?_ (fun _ => (Drawless.getInd _).bind fun _ =>
    (Drawless.setInd _ _).bind fun _ => Drawless.pure _) (fun _ _ _ => Iff.rfl) ?_ ?_ (fun _ _ _ => Iff.rfl)
  · rw [← hst₁, ← hst₂] at hV hcan ⊢
    refine odds_randomCrossover (ind₁ := { main := a }) (ind₂ := { main := b }) (l₁ := m₁) (l₂ := m₂)
      ?_ ?_ hm₁.append_heap hm₂ ?_ ?_ ?_ P hcan h2 hV hd₁ hd₂
    · simp
    · simp
    · intro x hx₁ hx₂
      have h1 := hm₁.lt hx₁
      have h2 := hnew₂ x hx₂
      exact Nat.lt_irrefl _ (Nat.lt_of_lt_of_le h1 h2)
    · rw [len₁]; exact not_exceeds fun x h => (hlen x h).1
    · rw [len₂]; exact not_exceeds fun x h => (hlen x h).2
  · rintro _ w' ⟨ss, h1, h2⟩
    obtain ⟨ind, l, g1, g2, g3⟩ := is_iff.1 h1
    simp only [wp_bind]
    refine wp_setMeta (f := fun _ => { parents := [i, j], origin := some "cx".toList }) g1 ?_
    have hlt := (List.getElem?_eq_some_iff.1 g1).1
    exact ⟨ss, is_iff.2 ⟨{ ind with md := { parents := [i, j], origin := some "cx".toList } }, l,
      by simp [hlt], g2, g3⟩, h2⟩
  · intro _ w' h
    simp only [wp_bind]
    cases g1 : w'.inds[w.inds.length]? with
    | none =>
      simp only [getInd, wp_ofExcept, g1]
    | some ind =>
      refine wp_setMeta (f := fun _ => { parents := [i, j], origin := some "cx".toList }) g1 ?_
      rintro ⟨ss, h1, h2⟩
      obtain ⟨ind', l, f1, f2, f3⟩ := is_iff.1 h1
      have hlt := (List.getElem?_eq_some_iff.1 g1).1
      have : ind' = { ind with md := { parents := [i, j], origin := some "cx".toList } } := by
        simp only [List.getElem?_set_self hlt] at f1
        exact (Option.some.inj f1).symm
      subst this
      exact h ⟨ss, is_iff.2 ⟨ind, l, g1, f2, f3⟩, h2⟩

theorem odds_opMate {M : Nat} {c : OpConfig} (hps : PSetOk c.ps) (hr : 0 < c.maxRetry) {w : World}
    {i j : Nat} {p q : List Step} (his : Is w i p) (hjs : Is w j q) (hok₁ : PipelineOk c.ps p)
    (hok₂ : PipelineOk c.ps q) (hlen : ∀ x, c.maxLength = some x → p.length ≤ x ∧ q.length ≤ x)
    (hnew : ∀ a b, Crossed p q a b → c.completed (printed a) = false)
    (hcan : CanCross p q) (h2 : 2 ∣ M) (hV : valueChildren p q ≠ [] → (valueChildren p q).length ∣ M)
    (hd₁ : 2 ≤ p.length → p.length - 1 ∣ M) (hd₂ : 2 ≤ q.length → q.length - 1 ∣ M) (P : List Step → Prop) :
    Odds M (opMate c i j) w (fun n w' => ∃ child, Is w' n child ∧ P child)
      (mixedShare P [valueChildren p q, tailChildren p q]) := by
  refine (odds_mateWithLog his hjs hok₁ hok₂ hlen P hcan h2 hV hd₁ hd₂).congr fun s => ?_
  unfold opMate
  obtain ⟨k, hk⟩ : ∃ k, c.maxRetry = k + 1 := ⟨c.maxRetry - 1, by omega⟩
  rw [hk, tryUntilNew]
  cases hrun : mateWithLog c i j (withRnd w s) with
  | mk r w' =>
    cases r with
    | error e => exact bind_error hrun
    | ok n =>
      obtain ⟨c₁, c₂, g1, g2, _⟩ := wp_ok (wp_mateWithLog (w := withRnd w s) hps his hjs hok₁ hok₂) hrun
      obtain ⟨as, g5, _⟩ := g1.is
      have e := pipelineStr_is (⟨as, g5⟩ : Is _ _ c₁)
      refine (bind_ok hrun).trans ((bind_ok e).trans ?_)
      rw [hnew _ _ g2]
      rfl

/-- **C191.** If no child was evaluated before, crossover chooses between exchanging values and exchanging
steps, where both can be done, with the same chance, and then each exchange of that kind is equally likely:
the chance that the child is in `P` is the mean of the shares of the exchanges with a child in `P`. -/
theorem C191 {M : Nat} (hM : 0 < M) {c : OpConfig} (hps : PSetOk c.ps) (hr : 0 < c.maxRetry) {w : World}
    {i j : Nat} {p q : List Step} (his : Is w i p) (hjs : Is w j q) (hok₁ : PipelineOk c.ps p)
    (hok₂ : PipelineOk c.ps q) (hlen : ∀ x, c.maxLength = some x → p.length ≤ x ∧ q.length ≤ x)
    (hnew : ∀ a b, Crossed p q a b → c.completed (printed a) = false)
    (hcan : CanCross p q) (h2 : 2 ∣ M) (hV : valueChildren p q ≠ [] → (valueChildren p q).length ∣ M)
    (hd₁ : 2 ≤ p.length → p.length - 1 ∣ M) (hd₂ : 2 ≤ q.length → q.length - 1 ∣ M) (P : List Step → Prop) :
    Chance M (opMate c i j) w (fun n w' => ∃ child, Is w' n child ∧ P child)
      (mixedShare P [valueChildren p q, tailChildren p q]) :=
  Odds.chance hM (fun _ _ _ => Iff.rfl)
    (odds_opMate hps hr his hjs hok₁ hok₂ hlen hnew hcan h2 hV hd₁ hd₂ P)

/-- `PCA > NB` and `SC > PCA > DT`: one value can be exchanged and there are two ways of exchanging steps.
The first pipeline gets both other steps with a chance of one in four. -/
example (r : Stream) : Chance 2 (opMate ⟨Ex.space, some 3, fun _ => false, 50⟩ 2 0) (Ex.w0 r)
    (fun n w' => ∃ child, Is w' n child ∧
      child = [⟨Ex.pNB, [Ex.alpha1]⟩, ⟨Ex.pPCA, [Ex.whitT]⟩, ⟨Ex.pSC, []⟩]) (1 / 4) := by
  classical
  have hv : valueChildren Ex.double Ex.long = [[⟨Ex.pNB, [Ex.alpha1]⟩, ⟨Ex.pPCA, [Ex.whitT]⟩]] := by decide +kernel
  have ht : tailChildren Ex.double Ex.long = [[⟨Ex.pNB, [Ex.alpha1]⟩, ⟨Ex.pPCA, [Ex.whitT]⟩, ⟨Ex.pSC, []⟩], [⟨Ex.pNB, [Ex.alpha1]⟩, ⟨Ex.pSC, []⟩]] := by
    decide +kernel
  have h := C191 (M := 2) (by decide) (c := ⟨Ex.space, some 3, fun _ => false, 50⟩) Ex.space_ok (by decide)
    (Ex.is_double r) (Ex.is_long r) Ex.double_ok Ex.long_ok (by intro x hx; cases hx; decide)
    (fun _ _ _ => rfl) (Or.inr (by decide)) (by decide) (fun _ => by rw [hv]; decide) (by decide) (by decide)
    (fun child : List Step => child = [⟨Ex.pNB, [Ex.alpha1]⟩, ⟨Ex.pPCA, [Ex.whitT]⟩, ⟨Ex.pSC, []⟩])
  rw [hv, ht] at h
  have e : mixedShare (fun child : List Step => child = [⟨Ex.pNB, [Ex.alpha1]⟩, ⟨Ex.pPCA, [Ex.whitT]⟩, ⟨Ex.pSC, []⟩])
      [[[⟨Ex.pNB, [Ex.alpha1]⟩, ⟨Ex.pPCA, [Ex.whitT]⟩]],
        [[⟨Ex.pNB, [Ex.alpha1]⟩, ⟨Ex.pPCA, [Ex.whitT]⟩, ⟨Ex.pSC, []⟩], [⟨Ex.pNB, [Ex.alpha1]⟩, ⟨Ex.pSC, []⟩]]]
      = 1 / 4 := by
    simp [mixedShare, share]
    norm_num
  rwa [e] at h

end Gama
