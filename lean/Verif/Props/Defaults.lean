import Verif.Props.Evolve
import Verif.Props.Shipped

/-!
# Searches with what comes with GAMA (C126, C127)
-/

namespace Gama
open PyM Spec

/-- The search spaces that come with GAMA can be used. -/
theorem usable_shipped {s} (hs : s ∈ shippedSpaces) {cfg : List Entry} (h : SeenAs s cfg) :
    ∃ ps checks, psetFromConfig cfg = .ok (ps, checks) ∧
      ∀ c : OpConfig, c.ps = ps → 0 < c.maxRetry → (∀ m, c.maxLength = some m → 1 ≤ m) → Workable c := by
  obtain ⟨ps, ch, h0, h1, h2, _, _, ⟨p, _, hp, _⟩, ⟨q, _, hq, _⟩⟩ := shipped_space hs h
  exact ⟨ps, ch, h0, fun c hc hr hm => ⟨hc ▸ h1, hc ▸ h2, hc ▸ List.ne_nil_of_mem hp,
    Or.inl (hc ▸ List.ne_nil_of_mem hq), hr, hm⟩⟩

/-- The population a first search starts from. -/
theorem freshPopulation_ok {c : OpConfig} (hu : Workable c) : ∀ (n : Nat) (w : World),
    ∃ l w', freshPopulation c n w = (.ok l, w') ∧ l.length = n ∧ KeepsAll w w' ∧
      ∀ x ∈ l, OfSpace c.ps w' x
  | 0, w => ⟨[], w, rfl, rfl, fun _ _ h => h, fun x hx => by cases hx⟩
  | n + 1, w => by
    obtain ⟨x, w1, he, ss, hf, hok⟩ := individual_ok hu w
    obtain ⟨l, w2, he2, hl, hk, hs⟩ := freshPopulation_ok hu n w1
    obtain ⟨as, ha, _⟩ := hf.is
    refine ⟨x :: l, w2, ?_, by simp [hl], fun y ss hy => hk y ss (hy.mono hf.ext), fun y hy => ?_⟩
    · show PyM.bind _ _ w = _
      unfold PyM.bind
      rw [he]
      show PyM.bind _ _ w1 = _
      unfold PyM.bind
      rw [he2]
      rfl
    · rcases List.mem_cons.1 hy with rfl | hy
      · exact ⟨ss, hk _ _ ⟨as, ha⟩, hok⟩
      · exact hs y hy

/-- **C126** for the search spaces that come with GAMA: the first search makes 50 candidates, which
are well-formed pipelines of the search space, and whichever search method is used all it evaluates are. -/
theorem C126_default {s} (hs : s ∈ shippedSpaces) {cfg : List Entry} (h : SeenAs s cfg) :
    ∃ ps checks, psetFromConfig cfg = .ok (ps, checks) ∧
    ∀ c : OpConfig, c.ps = ps → 0 < c.maxRetry → (∀ m, c.maxLength = some m → 1 ≤ m) → ∀ w0,
    ∃ l w, freshPopulation c 50 w0 = (.ok l, w) ∧ l.length = 50 ∧ (∀ x ∈ l, OfSpace ps w x) ∧
    ∀ cxpb maxN, eaRefused maxN = false →
      (∀ size k out is, 2 ≤ k → EvolveAlong c cxpb maxN size (Honest k) is (eaStart (.list l) out w) →
        ∀ x ∈ (evolve c cxpb maxN size is (eaStart (.list l) out w)).submitted,
          OfSpace ps (evolve c cxpb maxN size is (eaStart (.list l) out w)).world x) ∧
      (∀ out is, RsAlong (gamaOps c cxpb) maxN (fun s i => WaitKeeps s.world i) is (rsStart (.list l) out w) →
        ∀ x ∈ (rsRun (gamaOps c cxpb) maxN is (rsStart (.list l) out w)).submitted,
          OfSpace ps (rsRun (gamaOps c cxpb) maxN is (rsStart (.list l) out w)).world x) ∧
      (∀ a is, AshaAlong (gamaOps c cxpb) a (fun s i => WaitKeeps s.world i.wait) is (ashaStart a l w) →
        ∀ x rung, (x, rung) ∈ (ashaRun (gamaOps c cxpb) a is (ashaStart a l w)).submitted →
          OfSpace ps (ashaRun (gamaOps c cxpb) a is (ashaStart a l w)).world x) := by
  obtain ⟨ps, ch, h0, hu⟩ := usable_shipped hs h
  refine ⟨ps, ch, h0, ?_⟩
  intro c hc hr hm w0
  have hu' := hu c hc hr hm
  clear hu
  subst hc
  obtain ⟨l, w, h1, h2, _, h3⟩ := freshPopulation_ok hu' 50 w0
  refine ⟨l, w, h1, h2, h3, fun cxpb maxN hx => ⟨?_, ?_, ?_⟩⟩
  · intro size k out is hk hh x hx'
    obtain ⟨ss, g1, g2, _⟩ := (C126_evolution hu' hx hk h3 is [] (by rw [List.append_nil]; exact hh)).1 x hx'
    exact ⟨ss, g2, g1⟩
  · intro out is hh x hx'
    obtain ⟨ss, g1, g2, _⟩ := C126_random_search hu' h3 is [] (by rw [List.append_nil]; exact hh) x hx'
    exact ⟨ss, g2, g1⟩
  · intro a is hh x rung hx'
    obtain ⟨ss, g1, g2, _⟩ := C126_halving hu' h3 is [] (by rw [List.append_nil]; exact hh) x
      (Or.inl ⟨rung, hx'⟩)
    exact ⟨ss, g2, g1⟩

/-- **C127** for the search spaces that come with GAMA, a first search without maximum length and up to 46
workers: as long as evaluations succeed the search does not end itself. -/
theorem C127_default_partial {s} (hs : s ∈ shippedSpaces) {cfg : List Entry} (h : SeenAs s cfg) :
    ∃ ps checks, psetFromConfig cfg = .ok (ps, checks) ∧
    ∀ c : OpConfig, c.ps = ps → 0 < c.maxRetry → c.maxLength = none → ∀ w0,
    ∃ l w, freshPopulation c 50 w0 = (.ok l, w) ∧
    ∀ cxpb maxN size n k out is, eaRefused maxN = false → 3 ≤ size → 2 ≤ k → n ≤ 46 →
      EvolveAlong c cxpb maxN size (fun s i => Honest k s i ∧ Successful n size s i) is
        (eaStart (.list l) out w) →
      ∀ e, (evolve c cxpb maxN size is (eaStart (.list l) out w)).pc ≠ .raised e := by
  obtain ⟨ps, ch, h0, hu⟩ := usable_shipped hs h
  refine ⟨ps, ch, h0, ?_⟩
  intro c hc hr hm w0
  have hu := hu c hc hr (fun m h => by rw [hm] at h; cases h)
  obtain ⟨l, w, h1, h2, _, h3⟩ := freshPopulation_ok hu 50 w0
  refine ⟨l, w, h1, ?_⟩
  intro cxpb maxN size n k out is hx hsz hk hn hh e
  exact C127_unlimited_partial hu hm hx hsz hk (by omega) h3 hh e

/-- The hypotheses are met by the classifier's search space, with which all evaluations may succeed. -/
example (kind : Nat → Str) (w0 : World) (chs : List Ex.Choice) (hv : ∀ ch ∈ chs, ch.values.length = 2) :
    ∃ ps checks, psetFromConfig (configEntries kind clfConfig shippedHeap) = .ok (ps, checks) ∧
    ∃ l w, freshPopulation ⟨ps, none, fun _ => false, 50⟩ 50 w0 = (.ok l, w) ∧
      EvolveAlong ⟨ps, none, fun _ => false, 50⟩ (1 / 5) none 50 (fun s i => Honest 2 s i ∧ Successful 4 50 s i)
        (Ex.auto ⟨ps, none, fun _ => false, 50⟩ (1 / 5) none 50 4 chs (eaStart (.list l) [] w)) (eaStart (.list l) [] w) := by
  obtain ⟨ps, ch, h0, hu⟩ := usable_shipped (s := (clfConfig, shippedHeap)) List.mem_cons_self
    (seenAs_kind kind _)
  have hu := hu ⟨ps, none, fun _ => false, 50⟩ rfl (Nat.succ_pos _) (by intro m hm; cases hm)
  obtain ⟨l, w, h1, _, _, h3⟩ := freshPopulation_ok hu 50 w0
  refine ⟨ps, ch, h0, l, w, h1, Ex.evolveAlong_and _ _ ?_ (Ex.auto_successful _ _)⟩
  exact evolveAlong_mono (fun _ _ h => h.1) _ _
    (Ex.auto_along hu rfl (le_refl 2) chs _ hv (sound_start h3))

end Gama
