import Verif.Lemmas.Heap
import Verif.Lemmas.StrOrder

/-! Weakest-precondition rules of the in-place operations on individuals. -/

namespace Gama
open Spec PyM

/-- Re-sorting the hyperparameters of a step, as the constructor of a node does. -/
def resort (s : Step) : Step := { s with terms := sortTerms s.terms }

theorem Spec.Chain.update {h : List Cell} {d e : Option Addr} {pre post l₂ : List (Addr × Step)}
    {a : Addr} {s : Step} (s' : Step)
    (hc : Chain h d (pre ++ (a, s) :: post)) (h₂ : Chain h e l₂) (ha : a ∉ addrs l₂) :
    Chain (h.set a ⟨s'.prim, s'.terms, e⟩) d (pre ++ (a, s') :: l₂) := by
  have hnd := hc.nodup
  obtain ⟨e₀, hs, hc₀⟩ := hc.split
  simp only [Chain] at hc₀
  obtain ⟨rfl, n, hn, _⟩ := hc₀
  have hlt : a < h.length := (List.getElem?_eq_some_iff.1 hn).1
  have hpre : a ∉ addrs pre := by
    simp only [addrs, List.map_append, List.map_cons] at hnd
    have := (List.nodup_append.1 hnd).2.2
    intro hm
    exact this a hm a (by simp) rfl
  refine Seg.chain (Seg.frame (FrameN.set (A := [a]) (by simp)) hs ?_) ?_
  · intro b hb hb'; simp at hb'; subst hb'; exact hpre hb
  · simp only [Chain]
    refine ⟨trivial, e, ?_, h₂.set_notin ha⟩
    rw [List.getElem?_set_self hlt]

theorem Spec.Chain.nodup_mid {h : List Cell} {d} {pre post : List (Addr × Step)} {a s}
    (hc : Chain h d (pre ++ (a, s) :: post)) :
    a ∉ addrs pre ∧ a ∉ addrs post ∧ (∀ b ∈ addrs pre, b ∉ addrs post) := by
  have hnd := hc.nodup
  simp only [addrs, List.map_append, List.map_cons] at hnd
  rw [List.nodup_append] at hnd
  obtain ⟨h1, h2, h3⟩ := hnd
  rw [List.nodup_cons] at h2
  refine ⟨fun hm => h3 a hm a (by simp) rfl, h2.1, fun b hb hb' => h3 b hb b (by simp [hb']) rfl⟩

theorem wp_newNode {p : Primitive} {d : Option Addr} {ts : List Terminal} {w : World}
    {Q : Addr → World → Prop} {E : Exn → World → Prop}
    (hQ : Q w.nodes.length { w with nodes := w.nodes ++ [⟨p, sortTerms ts, d⟩] }) :
    wp (newNode p d ts) Q E w := hQ

/-- Copying a chain allocates fresh nodes with the same (re-sorted) steps. -/
theorem wp_copyNode : ∀ {l : List (Addr × Step)} {fuel : Nat} {a : Addr} {w : World}
    {Q : Addr → World → Prop} {E : Exn → World → Prop},
    Chain w.nodes (some a) l → l.length ≤ fuel →
    (∀ a' l' new, Chain (w.nodes ++ new) (some a') l' → steps l' = (steps l).map resort →
      (∀ b ∈ addrs l', w.nodes.length ≤ b) → Q a' { w with nodes := w.nodes ++ new }) →
    wp (copyNode fuel a) Q E w
  | [], fuel, a, w, Q, E, hc, _, _ => by simp [Chain] at hc
  | (b, s) :: l, 0, a, w, Q, E, _, hf, _ => by simp at hf
  | (b, s) :: l, fuel + 1, a, w, Q, E, hc, hf, hQ => by
    simp only [Chain] at hc
    obtain ⟨hb, n, hn, hc⟩ := hc
    injection hb with hb
    subst hb
    simp only [copyNode, wp_bind]
    apply wp_getNode hn
    cases n with
    | none =>
      simp only
      apply wp_newNode
      cases l with
      | cons x l => obtain ⟨y, t⟩ := x; simp [Chain] at hc
      | nil =>
        refine hQ w.nodes.length [(w.nodes.length, resort s)] _ ?_ (by simp) (by simp)
        simp only [Chain]
        exact ⟨trivial, none, by simp [resort], rfl⟩
    | some c =>
      simp only [wp_bind]
      apply wp_copyNode hc (by simpa using hf)
      intro a' l' new hc' hs hge
      apply wp_newNode
      simp only
      have : (w.nodes ++ new) ++ [(⟨s.prim, sortTerms s.terms, some a'⟩ : Cell)]
          = w.nodes ++ (new ++ [⟨s.prim, sortTerms s.terms, some a'⟩]) := by simp
      rw [this]
      refine hQ _ (((w.nodes ++ new).length, resort s) :: l') _ ?_ (by simp [hs]) ?_
      · rw [← this]
        simp only [Chain]
        refine ⟨trivial, some a', by simp [resort], hc'.append_heap⟩
      · intro x hx
        simp only [addrs, List.map_cons, List.mem_cons] at hx
        rcases hx with rfl | hx
        · simp
        · exact hge x hx

theorem wp_copyNodeTop {l : List (Addr × Step)} {a : Addr} {w : World}
    {Q : Addr → World → Prop} {E : Exn → World → Prop}
    (hc : Chain w.nodes (some a) l)
    (hQ : ∀ a' l' new, Chain (w.nodes ++ new) (some a') l' → steps l' = (steps l).map resort →
      (∀ b ∈ addrs l', w.nodes.length ≤ b) → Q a' { w with nodes := w.nodes ++ new }) :
    wp (copyNodeTop a) Q E w := by
  simp only [copyNodeTop, wp_bind, wp_get]
  exact wp_copyNode hc hc.length_le hQ

theorem wp_copyAsNew {i : Nat} {w : World} {ind : IndCell} {l : List (Addr × Step)}
    {Q : Nat → World → Prop} {E : Exn → World → Prop}
    (hi : w.inds[i]? = some ind) (hc : Chain w.nodes (some ind.main) l)
    (hQ : ∀ a' l' new, Chain (w.nodes ++ new) (some a') l' → steps l' = (steps l).map resort →
      (∀ b ∈ addrs l', w.nodes.length ≤ b) →
      Q w.inds.length
        { w with nodes := w.nodes ++ new, inds := w.inds ++ [{ main := a' }] }) :
    wp (copyAsNew i) Q E w := by
  simp only [copyAsNew, wp_bind, getInd, wp_ofExcept, hi]
  apply wp_copyNodeTop hc
  intro a' l' new h1 h2 h3
  exact hQ a' l' new h1 h2 h3

/-- Everything `replace_terminal`'s loop can do. -/
theorem wp_replaceTerminalLoop {new : Terminal} {pos : Nat} :
    ∀ {l : List (Addr × Step)} {scan : Nat} {w : World}
    {Q : Unit → World → Prop} {E : Exn → World → Prop},
    (∀ a s, (a, s) ∈ l → ∃ n, w.nodes[a]? = some ⟨s.prim, s.terms, n⟩) → scan ≤ pos →
    (∀ pre a s post k, l = pre ++ (a, s) :: post →
      pos = scan + (allTerms (steps pre)).length + k → ∀ hk : k < s.terms.length,
      ∀ n, w.nodes[a]? = some ⟨s.prim, s.terms, n⟩ →
      (s.terms[k].ident = new.ident →
        Q () { w with nodes := w.nodes.set a ⟨s.prim, s.terms.set k new, n⟩ }) ∧
      (s.terms[k].ident ≠ new.ident → E .valueError w)) →
    (pos = scan + (allTerms (steps l)).length → Q () w) →
    (pos > scan + (allTerms (steps l)).length → E .valueError w) →
    wp (replaceTerminalLoop pos new (addrs l) scan) Q E w
  | [], scan, w, Q, E, _, _, _, heq, hgt => by
    simp only [addrs, List.map_nil, replaceTerminalLoop, wp_ite, wp_raise, wp_pure]
    simp only [allTerms, steps, List.map_nil, List.flatMap_nil, List.length_nil,
      Nat.add_zero] at heq hgt
    exact ⟨fun h => hgt h, fun h => heq (by omega)⟩
  | (a, s) :: l, scan, w, Q, E, hcell, hscan, hin, heq, hgt => by
    obtain ⟨n, hn⟩ := hcell a s (by simp)
    simp only [addrs, List.map_cons, replaceTerminalLoop, wp_bind]
    apply wp_getNode hn
    simp only [wp_ite]
    constructor
    · intro hlt
      have hk : pos - scan < s.terms.length := by omega
      obtain ⟨h1, h2⟩ := hin [] a s l (pos - scan) rfl (by simp [allTerms]; omega) hk n hn
      simp only [List.getElem?_eq_getElem hk]
      simp only [wp_ite, wp_raise]
      refine ⟨fun h => h2 h, fun h => ?_⟩
      simp only [setNode, wp_modify]
      exact h1 (by simpa using h)
    · intro hge
      apply wp_replaceTerminalLoop (l := l) (fun b t hb => hcell b t (by simp [hb])) (by omega)
      · intro pre b t post k hl hpos hk m hm
        refine hin ((a, s) :: pre) b t post k (by simp [hl]) ?_ hk m hm
        simp [allTerms] at hpos ⊢; omega
      · intro h; apply heq; simp [allTerms] at h ⊢; omega
      · intro h; apply hgt; simp [allTerms] at h ⊢; omega

/-- The effect of `replace_terminal` on an individual whose chain is `l`. -/
theorem wp_replaceTerminal {i : Nat} {w : World} {ind : IndCell} {l : List (Addr × Step)}
    {new : Terminal} {pos : Nat} {Q : Unit → World → Prop} {E : Exn → World → Prop}
    (hi : w.inds[i]? = some ind) (hc : Chain w.nodes (some ind.main) l)
    (hin : ∀ pre a s post k, l = pre ++ (a, s) :: post →
      pos = (allTerms (steps pre)).length + k → ∀ hk : k < s.terms.length,
      (s.terms[k].ident = new.ident → ∀ c : Cell,
        Chain (w.nodes.set a c) (some ind.main)
          (pre ++ (a, { s with terms := s.terms.set k new }) :: post) →
        Q () { w with nodes := w.nodes.set a c }) ∧
      (s.terms[k].ident ≠ new.ident → E .valueError w))
    (heq : pos = (allTerms (steps l)).length → Q () w)
    (hgt : pos > (allTerms (steps l)).length → E .valueError w) :
    wp (replaceTerminal i pos new) Q E w := by
  simp only [replaceTerminal, wp_bind]
  apply wp_primitives hi hc
  apply wp_replaceTerminalLoop (fun a s h => hc.cell h) (Nat.zero_le _)
  · intro pre a s post k hl hpos hk n hn
    obtain ⟨h1, h2⟩ := hin pre a s post k hl (by omega) hk
    refine ⟨fun h => h1 h _ ?_, h2⟩
    subst hl
    have hsuf := hc.suffix
    simp only [Chain] at hsuf
    obtain ⟨_, n', hn', hpost⟩ := hsuf
    rw [hn] at hn'
    injection hn' with hn'
    injection hn' with _ _ hn'
    subst hn'
    exact Chain.update (s' := { s with terms := s.terms.set k new }) hc hpost hc.nodup_mid.2.1
  · intro h; exact heq (by omega)
  · intro h; exact hgt (by omega)

end Gama
