import Verif.Model.Process

/-!
# C165, C166: instances and the rest of the process
-/

namespace Gama
namespace Spec
end Spec
open Spec

/-! ### C165: the random state given -/

/-- **C165** in full: whatever happens in the process after an instance was constructed with a seed, its
search draws the numbers of that seed. -/
def C165_claim : Prop :=
  ∀ (seeded : Nat → Stream) (r : Stream) (before after : List RandomEvent) (s : Nat),
    nextNumbers seeded r (before ++ .construct (some s) :: after) = seeded s

theorem nextNumbers_append (seeded : Nat → Stream) (as bs : List RandomEvent) :
    ∀ r, nextNumbers seeded r (as ++ bs) = nextNumbers seeded (nextNumbers seeded r as) bs := by
  induction as with
  | nil => intro r; rfl
  | cons e as ih =>
    intro r
    cases e with
    | construct seed => cases seed <;> exact ih _
    | draws n => exact ih _

/-- The seed given last, and how many numbers were drawn since. -/
def Spec.seedStep (p : Option Nat × Nat) : RandomEvent → Option Nat × Nat
  | .construct none => p
  | .construct (some s) => (some s, 0)
  | .draws n => (p.1, p.2 + n)

/-- As `seedStep`, of a process. -/
def Spec.drawnSince (es : List RandomEvent) : Option Nat × Nat := es.foldl seedStep (none, 0)

theorem nextNumbers_since (seeded : Nat → Stream) (es : List RandomEvent) : ∀ (r : Stream) (p : Option Nat × Nat),
    nextNumbers seeded (fun k => (p.1.elim r seeded) (p.2 + k)) es =
      fun k => ((es.foldl seedStep p).1.elim r seeded) ((es.foldl seedStep p).2 + k) := by
  induction es with
  | nil => intro r p; rfl
  | cons e es ih =>
    intro r p
    cases e with
    | construct seed =>
      cases seed with
      | none => exact ih r p
      | some s =>
        have h := ih r (some s, 0)
        have h0 : (fun k => ((some s, 0) : Option Nat × Nat).1.elim r seeded (((some s, 0) : Option Nat × Nat).2 + k)) =
            seeded s := by funext k; simp
        rw [h0] at h
        exact h
    | draws n =>
      have h := ih r (p.1, p.2 + n)
      rw [List.foldl_cons]
      refine Eq.trans ?_ h
      show nextNumbers seeded (fun k => p.1.elim r seeded (p.2 + (n + k))) es = _
      congr 1
      funext k
      rw [Nat.add_assoc]

/-- **C165**, exactly: a search draws the numbers of the seed given last in the process, from where the
others stopped. -/
theorem C165_exact (seeded : Nat → Stream) (r : Stream) (es : List RandomEvent) :
    nextNumbers seeded r es = fun k => ((drawnSince es).1.elim r seeded) ((drawnSince es).2 + k) := by
  have h := nextNumbers_since seeded es r (none, 0)
  simp only [Option.elim_none, Nat.zero_add] at h
  exact h

/-- **C165** if since the instance was constructed no numbers were drawn and no other instance was given a
seed. -/
theorem C165_partial (seeded : Nat → Stream) (r : Stream) (before after : List RandomEvent) (s : Nat)
    (h : ∀ e ∈ after, e = .construct none ∨ e = .draws 0) :
    nextNumbers seeded r (before ++ .construct (some s) :: after) = seeded s := by
  rw [nextNumbers_append]
  show nextNumbers seeded (seeded s) after = seeded s
  induction after with
  | nil => rfl
  | cons e es ih =>
    have hes := ih fun e' he => h e' (List.mem_cons_of_mem _ he)
    rcases h e List.mem_cons_self with rfl | rfl
    · exact hes
    · simpa [nextNumbers] using hes

/-- Two instances with the same seed, fitted one after the other: the second goes on where the first
stopped, whatever it drew. -/
theorem C165_second (seeded : Nat → Stream) (r : Stream) (s n : Nat) :
    nextNumbers seeded r [.construct (some s), .construct (some s), .draws n] = fun k => seeded s (n + k) := rfl

/-- **C165** is false of the code. -/
theorem C165_false : ¬ C165_claim := by
  intro h
  have := congrFun (h (fun s k => s + k) (fun _ => 0) [] [.construct (some 2)] 1) 0
  exact absurd this (by decide)

/-- `C165_partial`: another instance without a seed in between. -/
example (seeded : Nat → Stream) (r : Stream) :
    nextNumbers seeded r ([.draws 3] ++ .construct (some 42) :: [.construct none]) = seeded 42 :=
  C165_partial seeded r [.draws 3] [.construct none] 42 (by simp)

/-! ### C166: any number of instances -/

/-- The number of instances constructed. -/
def Spec.constructed (es : List GamaEvent) : Nat :=
  (es.filter fun e => match e with | .construct _ _ _ => true | .fit _ => false).length

/-- **C166** in full: however many instances were constructed in the process, a fit can make its
evaluator. -/
def C166_claim : Prop :=
  ∀ (frames : Nat) (es : List GamaEvent), 1000 ≤ frames →
    ∀ p ∈ evaluatorCalls frames [] es, ∃ a, p.2 = .ok a

theorem callInit_given (chain : List EvaluatorArgs) : ∀ (frames : Nat) (a : EvaluatorArgs),
    callInit frames chain (some a) = if chain.length < frames then .ok (some a) else .error .runtimeError := by
  induction chain with
  | nil => intro frames a; cases frames <;> simp [callInit]
  | cons b chain ih =>
    intro frames a
    cases frames with
    | zero => simp [callInit]
    | succ n => simp [callInit, ih]

/-- The arguments bound last are used, if there are frames enough. -/
theorem callInit_last (chain : List EvaluatorArgs) (frames : Nat) :
    callInit frames chain none =
      if chain.length < frames then .ok chain.head? else .error .runtimeError := by
  cases chain with
  | nil => cases frames <;> simp [callInit]
  | cons b chain =>
    cases frames with
    | zero => simp [callInit]
    | succ n => simp [callInit, callInit_given]

theorem evaluatorCalls_exact (frames : Nat) : ∀ (es : List GamaEvent) (chain : List EvaluatorArgs) (pre post : List GamaEvent)
    (i : Nat), es = pre ++ .fit i :: post →
    (evaluatorCalls frames chain es)[(pre.filter fun e => match e with | .fit _ => true | _ => false).length]? =
      some (i, if chain.length + constructed pre < frames then
        .ok (pre.foldl (fun d e => match e with | .construct j n m => some ⟨n, m, j⟩ | .fit _ => d) chain.head?)
        else .error .runtimeError) := by
  intro es
  induction es with
  | nil => intro chain pre post i h; simp at h
  | cons e es ih =>
    intro chain pre post i h
    cases pre with
    | nil =>
      cases h
      simp [evaluatorCalls, callInit_last, constructed]
    | cons e' pre =>
      rw [List.cons_append] at h
      injection h with h1 h2
      subst h1
      cases e with
      | construct j n m =>
        have h := ih (⟨n, m, j⟩ :: chain) pre post i h2
        have hc : chain.length + constructed (.construct j n m :: pre) =
            (⟨n, m, j⟩ :: chain : List EvaluatorArgs).length + constructed pre := by
          have : constructed (.construct j n m :: pre) = constructed pre + 1 := rfl
          rw [this, List.length_cons]
          omega
        rw [hc]
        exact h
      | fit j =>
        have h := ih chain pre post i h2
        have hc : constructed (.fit j :: pre) = constructed pre := rfl
        rw [hc]
        exact h

/-- **C166**, exactly: a fit can make its evaluator if and only if fewer instances were constructed so far
than there are frames left, and it is then made with the arguments of the one constructed last. -/
theorem C166_partial (frames : Nat) (pre post : List GamaEvent) (i : Nat) :
    (evaluatorCalls frames [] (pre ++ .fit i :: post))[
        (pre.filter fun e => match e with | .fit _ => true | _ => false).length]? =
      some (i, if constructed pre < frames then
        .ok (pre.foldl (fun d e => match e with | .construct j n m => some ⟨n, m, j⟩ | .fit _ => d) none)
        else .error .runtimeError) := by
  have := evaluatorCalls_exact frames _ [] pre post i rfl
  simpa using this

/-- **C166** is false of the code: with a thousand frames, a thousand instances are too many. -/
theorem C166_false : ¬ C166_claim := by
  intro h
  have hc := C166_partial 1000 (List.replicate 1000 (.construct 0 1 none)) [] 0
  have hn : constructed (List.replicate 1000 (.construct 0 1 none)) = 1000 := by
    unfold constructed
    rw [List.filter_replicate_of_pos (by rfl), List.length_replicate]
  rw [hn, if_neg (lt_irrefl _)] at hc
  obtain ⟨a, ha⟩ := h 1000 _ (le_refl _) _ (List.mem_of_getElem? hc)
  cases ha

/-- `C166_partial`: three instances, of which the first is fitted. -/
example : evaluatorCalls 4 [] [.construct 0 1 none, .construct 1 2 none, .construct 2 8 none, .fit 0] =
    [(0, .ok (some ⟨8, none, 2⟩))] ∧
    evaluatorCalls 3 [] [.construct 0 1 none, .construct 1 2 none, .construct 2 8 none, .fit 0] =
    [(0, .error .runtimeError)] := ⟨rfl, rfl⟩

end Gama
