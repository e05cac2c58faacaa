import Verif.Spec.Pipelines
import Verif.Model.Operators
import Mathlib.Data.List.Perm.Subperm
import Mathlib.Data.List.Basic
import Mathlib.Data.List.Nodup

/-! Heap lemmas: chains, frames, reading. -/

namespace Gama
open Spec PyM

abbrev addrs (l : List (Addr × Step)) : List Addr := l.map Prod.fst
abbrev steps (l : List (Addr × Step)) : List Step := l.map Prod.snd

theorem Spec.Chain.det {h : List Cell} : ∀ {l₁ l₂ : List (Addr × Step)} {d},
    Chain h d l₁ → Chain h d l₂ → l₁ = l₂
  | [], [], _, _, _ => rfl
  | [], (a, s) :: l, d, h₁, h₂ => by
    simp only [Chain] at h₁ h₂; rw [h₁] at h₂; simp at h₂
  | (a, s) :: l, [], d, h₁, h₂ => by
    simp only [Chain] at h₁ h₂; rw [h₂] at h₁; simp at h₁
  | (a, s) :: l, (b, t) :: m, d, h₁, h₂ => by
    simp only [Chain] at h₁ h₂
    obtain ⟨rfl, n, hn, hc⟩ := h₁
    obtain ⟨hd, n', hn', hc'⟩ := h₂
    injection hd with hd
    subst hd
    rw [hn] at hn'
    injection hn' with hn'
    injection hn' with h1 h2 h3
    subst h3
    have := Chain.det hc hc'
    subst this
    cases s; cases t; simp_all

theorem Spec.Chain.suffix {h : List Cell} : ∀ {l₁ : List (Addr × Step)} {a s l₂ d},
    Chain h d (l₁ ++ (a, s) :: l₂) → Chain h (some a) ((a, s) :: l₂)
  | [], a, s, l₂, d, hc => by
    simp only [List.nil_append, Chain] at hc ⊢
    exact ⟨trivial, hc.2⟩
  | (b, t) :: l₁, a, s, l₂, d, hc => by
    simp only [List.cons_append, Chain] at hc
    obtain ⟨_, n, _, hc⟩ := hc
    exact Chain.suffix hc

theorem Spec.Chain.nodup {h : List Cell} : ∀ {l : List (Addr × Step)} {d},
    Chain h d l → (addrs l).Nodup
  | [], _, _ => by simp
  | (a, s) :: l, d, hc => by
    have hc' := hc
    simp only [Chain] at hc
    obtain ⟨rfl, n, _, hn⟩ := hc
    simp only [addrs, List.map_cons, List.nodup_cons]
    refine ⟨?_, Chain.nodup hn⟩
    intro hmem
    obtain ⟨⟨b, t⟩, hb, hba⟩ := List.mem_map.1 hmem
    obtain ⟨p, q, rfl⟩ := List.append_of_mem hb
    simp only at hba
    subst hba
    have := Chain.det hc' (Chain.suffix hn)
    have := congrArg List.length this
    simp at this
    omega

theorem Spec.Chain.cell {h : List Cell} {l : List (Addr × Step)} {d a s}
    (hc : Chain h d l) (hm : (a, s) ∈ l) : ∃ n, h[a]? = some ⟨s.prim, s.terms, n⟩ := by
  obtain ⟨p, q, rfl⟩ := List.append_of_mem hm
  have := Chain.suffix hc
  simp only [Chain] at this
  obtain ⟨_, n, hn, _⟩ := this
  exact ⟨n, hn⟩

theorem Spec.Chain.lt {h : List Cell} {l : List (Addr × Step)} {d a}
    (hc : Chain h d l) (hm : a ∈ addrs l) : a < h.length := by
  obtain ⟨⟨b, s⟩, hb, rfl⟩ := List.mem_map.1 hm
  obtain ⟨n, hn⟩ := hc.cell hb
  exact (List.getElem?_eq_some_iff.1 hn).1

theorem Spec.Chain.length_le {h : List Cell} {l : List (Addr × Step)} {d}
    (hc : Chain h d l) : l.length ≤ h.length := by
  have h1 : (addrs l) ⊆ List.range h.length := fun a ha => by
    simpa using hc.lt ha
  have := (List.subperm_of_subset hc.nodup h1).length_le
  simpa [addrs] using this

theorem Spec.Chain.chainFrom {h : List Cell} : ∀ {l : List (Addr × Step)} {d fuel},
    Chain h d l → l.length ≤ fuel → chainFrom h fuel d = .ok (addrs l)
  | [], d, fuel, hc, _ => by
    simp only [Chain] at hc; subst hc; cases fuel <;> rfl
  | (a, s) :: l, d, 0, hc, hf => by simp at hf
  | (a, s) :: l, d, fuel + 1, hc, hf => by
    simp only [Chain] at hc
    obtain ⟨rfl, n, hn, hc⟩ := hc
    have := Chain.chainFrom (fuel := fuel) hc (by simpa using hf)
    simp [Gama.chainFrom, hn, this, addrs]

/-- Nodes outside `A` are unchanged, nothing disappears. -/
def FrameN (A : List Addr) (h h' : List Cell) : Prop :=
  h.length ≤ h'.length ∧ ∀ a, a < h.length → a ∉ A → h'[a]? = h[a]?

theorem FrameN.refl (A h) : FrameN A h h := ⟨Nat.le_refl _, fun _ _ _ => rfl⟩

theorem FrameN.trans {A B h h' h''} (h₁ : FrameN A h h') (h₂ : FrameN B h' h'')
    (hAB : ∀ a, a < h.length → a ∈ B → a ∈ A) : FrameN A h h'' :=
  ⟨Nat.le_trans h₁.1 h₂.1, fun a ha hA => by
    rw [h₂.2 a (Nat.lt_of_lt_of_le ha h₁.1) (fun hb => hA (hAB a ha hb)), h₁.2 a ha hA]⟩

theorem FrameN.mono {A B h h'} (hf : FrameN A h h') (hAB : ∀ a, a < h.length → a ∈ A → a ∈ B) :
    FrameN B h h' := ⟨hf.1, fun a ha hB => hf.2 a ha (fun hA => hB (hAB a ha hA))⟩

theorem FrameN.set {A h a c} (ha : a ∈ A) : FrameN A h (h.set a c) :=
  ⟨by simp, fun b _ hb => by
    rw [List.getElem?_set_ne]; rintro rfl; exact hb ha⟩

theorem FrameN.append {A h l} : FrameN A h (h ++ l) :=
  ⟨by simp, fun b hb _ => by rw [List.getElem?_append_left hb]⟩

theorem FrameN.prefix {h h' : List Cell} (hf : FrameN [] h h') : h <+: h' := by
  rw [List.prefix_iff_eq_take]
  apply List.ext_getElem?
  intro i
  by_cases hi : i < h.length
  · rw [List.getElem?_take_of_lt hi, hf.2 i hi (by simp)]
  · rw [List.getElem?_eq_none (by omega), List.getElem?_eq_none]
    simp; omega

/-- A chain survives changes outside of it. -/
theorem Spec.Chain.frame {A : List Addr} {h h' : List Cell} (hf : FrameN A h h') :
    ∀ {l : List (Addr × Step)} {d}, Chain h d l → (∀ a ∈ addrs l, a ∉ A) → Chain h' d l
  | [], _, hc, _ => hc
  | (a, s) :: l, d, hc, hA => by
    have hlt : a < h.length := hc.lt (by simp)
    simp only [Chain] at hc ⊢
    obtain ⟨rfl, n, hn, hc⟩ := hc
    refine ⟨rfl, n, ?_, Chain.frame hf hc (fun b hb => hA b (by simp at hb ⊢; right; exact hb))⟩
    rw [hf.2 a hlt (hA a (by simp)), hn]

theorem Spec.Chain.set_notin {h : List Cell} {l : List (Addr × Step)} {d a c}
    (hc : Chain h d l) (ha : a ∉ addrs l) : Chain (h.set a c) d l :=
  Chain.frame (FrameN.set (A := [a]) (by simp)) hc (by
    intro b hb hb'; simp at hb'; subst hb'; exact ha hb)

theorem Spec.Chain.append_heap {h l' : List Cell} {l : List (Addr × Step)} {d}
    (hc : Chain h d l) : Chain (h ++ l') d l :=
  Chain.frame (FrameN.append (A := [])) hc (by simp)

/-- Split a chain: a prefix segment ending in `d'`, then the chain from `d'`. -/
def Seg (h : List Cell) : Option Addr → List (Addr × Step) → Option Addr → Prop
  | d, [], e => d = e
  | d, (a, s) :: l, e => d = some a ∧ ∃ nxt, h[a]? = some ⟨s.prim, s.terms, nxt⟩ ∧ Seg h nxt l e

theorem Seg.chain {h : List Cell} : ∀ {l₁ l₂ : List (Addr × Step)} {d e},
    Seg h d l₁ e → Chain h e l₂ → Chain h d (l₁ ++ l₂)
  | [], l₂, d, e, hs, hc => by simp only [Seg] at hs; subst hs; exact hc
  | (a, s) :: l₁, l₂, d, e, hs, hc => by
    simp only [Seg] at hs
    obtain ⟨rfl, n, hn, hs⟩ := hs
    simp only [List.cons_append, Chain]
    exact ⟨trivial, n, hn, Seg.chain hs hc⟩

theorem Spec.Chain.split {h : List Cell} : ∀ {l₁ l₂ : List (Addr × Step)} {d},
    Chain h d (l₁ ++ l₂) → ∃ e, Seg h d l₁ e ∧ Chain h e l₂
  | [], l₂, d, hc => ⟨d, rfl, hc⟩
  | (a, s) :: l₁, l₂, d, hc => by
    simp only [List.cons_append, Chain] at hc
    obtain ⟨rfl, n, hn, hc⟩ := hc
    obtain ⟨e, hs, hc⟩ := Chain.split hc
    exact ⟨e, ⟨rfl, n, hn, hs⟩, hc⟩

theorem Seg.lt {h : List Cell} : ∀ {l : List (Addr × Step)} {d e a},
    Seg h d l e → a ∈ addrs l → a < h.length
  | (b, s) :: l, d, e, a, hs, hm => by
    simp only [Seg] at hs
    obtain ⟨rfl, n, hn, hs⟩ := hs
    simp only [addrs, List.map_cons, List.mem_cons] at hm
    rcases hm with rfl | hm
    · exact (List.getElem?_eq_some_iff.1 hn).1
    · exact Seg.lt hs hm

theorem Seg.frame {A : List Addr} {h h' : List Cell} (hf : FrameN A h h') :
    ∀ {l : List (Addr × Step)} {d e}, Seg h d l e → (∀ a ∈ addrs l, a ∉ A) → Seg h' d l e
  | [], _, _, hs, _ => hs
  | (a, s) :: l, d, e, hs, hA => by
    have hlt : a < h.length := Seg.lt hs (by simp)
    simp only [Seg] at hs ⊢
    obtain ⟨rfl, n, hn, hs⟩ := hs
    refine ⟨rfl, n, ?_, Seg.frame hf hs (fun b hb => hA b (by simp at hb ⊢; right; exact hb))⟩
    rw [hf.2 a hlt (hA a (by simp)), hn]

theorem Seg.append {h : List Cell} : ∀ {l₁ l₂ : List (Addr × Step)} {d e f},
    Seg h d l₁ e → Seg h e l₂ f → Seg h d (l₁ ++ l₂) f
  | [], l₂, d, e, f, hs, hc => by simp only [Seg] at hs; subst hs; exact hc
  | (a, s) :: l₁, l₂, d, e, f, hs, hc => by
    simp only [Seg] at hs
    obtain ⟨rfl, n, hn, hs⟩ := hs
    exact ⟨rfl, n, hn, Seg.append hs hc⟩

/-- Reading the individual's chain. -/
theorem wp_primitives {i : Nat} {w : World} {ind : IndCell} {l : List (Addr × Step)}
    {Q : List Addr → World → Prop} {E : Exn → World → Prop}
    (hi : w.inds[i]? = some ind) (hc : Chain w.nodes (some ind.main) l)
    (hQ : Q (addrs l) w) : wp (primitives i) Q E w := by
  simp only [primitives, wp_bind, getInd, wp_ofExcept, hi]
  rw [hc.chainFrom hc.length_le]
  exact hQ

theorem wp_getNode {a : Addr} {w : World} {c : Cell}
    {Q : Cell → World → Prop} {E : Exn → World → Prop}
    (ha : w.nodes[a]? = some c) (hQ : Q c w) : wp (getNode a) Q E w := by
  simp only [getNode, wp_ofExcept, ha]; exact hQ

/-- The cells at a chain's addresses carry the chain's steps. -/
def cellStep (c : Cell) : Step := ⟨c.prim, c.terms⟩

theorem wp_getNodes : ∀ {l : List (Addr × Step)} {w : World}
    {Q : List Cell → World → Prop} {E : Exn → World → Prop},
    (∀ a s, (a, s) ∈ l → ∃ n, w.nodes[a]? = some ⟨s.prim, s.terms, n⟩) →
    (∀ cs : List Cell, cs.map cellStep = steps l → Q cs w) →
    wp (getNodes (addrs l)) Q E w
  | [], w, Q, E, _, hQ => by simpa [getNodes, addrs] using hQ [] rfl
  | (a, s) :: l, w, Q, E, hc, hQ => by
    obtain ⟨n, hn⟩ := hc a s (by simp)
    simp only [addrs, List.map_cons, getNodes, wp_bind]
    apply wp_getNode hn
    apply wp_getNodes (l := l) (fun b t hb => hc b t (by simp [hb]))
    intro cs hcs
    simp only [wp_pure]
    apply hQ
    simp [hcs, cellStep]

theorem wp_terminals {i : Nat} {w : World} {ind : IndCell} {l : List (Addr × Step)}
    {Q : List Terminal → World → Prop} {E : Exn → World → Prop}
    (hi : w.inds[i]? = some ind) (hc : Chain w.nodes (some ind.main) l)
    (hQ : Q (allTerms (steps l)) w) : wp (terminals i) Q E w := by
  simp only [terminals, wp_bind]
  apply wp_primitives hi hc
  apply wp_getNodes (fun a s h => hc.cell h)
  intro cs hcs
  simp only [wp_pure]
  have : cs.flatMap Cell.terms = allTerms (steps l) := by
    rw [allTerms, ← hcs, List.flatMap_map]; rfl
  rw [this]; exact hQ

end Gama
