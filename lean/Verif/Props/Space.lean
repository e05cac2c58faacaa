import Verif.Lemmas.OpSet

/-!
# A concrete search space and a concrete population

Used by the examples beside the property theorems.
-/

namespace Gama.Ex
open Spec

def nb : Cls := { uid := 0, name := ['N', 'B'], classifier := true }
def dt : Cls := { uid := 1, name := ['D', 'T'], classifier := true }
def sc : Cls := { uid := 2, name := ['S', 'C'], transformer := true }
def pca : Cls := { uid := 3, name := ['P', 'C', 'A'], transformer := true }

def alphaK : Str := ['a']
def depthK : Str := ['D', 'T', '.', 'd']
def whitK : Str := ['P', '.', 'w']

def num (k : Int) (s : Str) : Value := .atom k s

def alpha1 : Terminal := ⟨num 1 ['1'], alphaK, alphaK⟩
def alpha2 : Terminal := ⟨num 2 ['2'], alphaK, alphaK⟩
def depth1 : Terminal := ⟨num 1 ['1'], ['d'], depthK⟩
def depth2 : Terminal := ⟨num 2 ['2'], ['d'], depthK⟩
def whitT : Terminal := ⟨num 1 ['T'], ['w'], whitK⟩
def whitF : Terminal := ⟨num 0 ['F'], ['w'], whitK⟩

def pNB : Primitive := ⟨[alphaK], predictionKey, nb⟩
def pDT : Primitive := ⟨[depthK, alphaK], predictionKey, dt⟩
def pSC : Primitive := ⟨[], dataTerminal, sc⟩
def pPCA : Primitive := ⟨[whitK], dataTerminal, pca⟩

/-- Two estimators, two preprocessors, one shared hyperparameter. -/
def space : PSet where
  prims k := if k = dataTerminal then [pSC, pPCA] else if k = predictionKey then [pNB, pDT] else []
  terms k := if k = alphaK then [alpha1, alpha2] else if k = depthK then [depth1, depth2]
    else if k = whitK then [whitT, whitF] else []

theorem mem_prims {k : Str} {p : Primitive} (h : p ∈ space.prims k) :
    (k = dataTerminal ∧ (p = pSC ∨ p = pPCA)) ∨ (k = predictionKey ∧ (p = pNB ∨ p = pDT)) := by
  simp only [space] at h
  split at h
  · next hk => exact Or.inl ⟨hk, by simpa using h⟩
  · split at h
    · next hk => exact Or.inr ⟨hk, by simpa using h⟩
    · simp at h

theorem mem_terms {k : Str} {t : Terminal} (h : t ∈ space.terms k) :
    (k = alphaK ∧ (t = alpha1 ∨ t = alpha2)) ∨ (k = depthK ∧ (t = depth1 ∨ t = depth2)) ∨
    (k = whitK ∧ (t = whitT ∨ t = whitF)) := by
  simp only [space] at h
  split at h
  · next hk => exact Or.inl ⟨hk, by simpa using h⟩
  · split at h
    · next hk => exact Or.inr (Or.inl ⟨hk, by simpa using h⟩)
    · split at h
      · next hk => exact Or.inr (Or.inr ⟨hk, by simpa using h⟩)
      · simp at h

theorem space_ok : PSetOk space where
  kind := by
    intro k p h
    rcases mem_prims h with ⟨rfl, rfl | rfl⟩ | ⟨rfl, rfl | rfl⟩ <;> rfl
  ident := by
    intro k t h
    rcases mem_terms h with ⟨rfl, rfl | rfl⟩ | ⟨rfl, rfl | rfl⟩ | ⟨rfl, rfl | rfl⟩ <;> rfl
  nonempty := by
    intro k p i h hi
    rcases mem_prims h with ⟨rfl, rfl | rfl⟩ | ⟨rfl, rfl | rfl⟩ <;>
      simp [pSC, pPCA, pNB, pDT] at hi
    · subst hi; decide
    · subst hi; decide
    · rcases hi with rfl | rfl <;> decide
  distinct := by
    intro k p h
    rcases mem_prims h with ⟨rfl, rfl | rfl⟩ | ⟨rfl, rfl | rfl⟩ <;> decide
  sameName := by
    intro k t t' h h'
    rcases mem_terms h with ⟨rfl, rfl | rfl⟩ | ⟨rfl, rfl | rfl⟩ | ⟨rfl, rfl | rfl⟩ <;>
    rcases mem_terms h' with ⟨e, rfl | rfl⟩ | ⟨e, rfl | rfl⟩ | ⟨e, rfl | rfl⟩ <;>
    first | rfl | (exfalso; revert e; decide)
  diffName := by
    intro k p i j t t' h hi hj hij ht ht' he
    have hk : ∀ {k : Str} {t : Terminal}, t ∈ space.terms k →
        t.output = (if k = alphaK then alphaK else if k = depthK then ['d']
          else ['w']) ∧ (k = alphaK ∨ k = depthK ∨ k = whitK) := by
      intro k t h
      rcases mem_terms h with ⟨rfl, rfl | rfl⟩ | ⟨rfl, rfl | rfl⟩ | ⟨rfl, rfl | rfl⟩ <;>
        exact ⟨by decide, by decide⟩
    obtain ⟨e1, h1⟩ := hk ht
    obtain ⟨e2, h2⟩ := hk ht'
    rw [e1, e2] at he
    rcases h1 with rfl | rfl | rfl <;> rcases h2 with rfl | rfl | rfl <;>
      first | exact hij rfl | (revert he; decide)
  noEq := by
    intro k t h
    rcases mem_terms h with ⟨rfl, rfl | rfl⟩ | ⟨rfl, rfl | rfl⟩ | ⟨rfl, rfl | rfl⟩ <;> decide

/-- SC > PCA > DT and NB on its own, and PCA > NB. -/
def nodes0 : List Cell :=
  [⟨pDT, [alpha1, depth2], some 1⟩, ⟨pPCA, [whitT], some 2⟩, ⟨pSC, [], none⟩,
   ⟨pNB, [alpha2], none⟩, ⟨pNB, [alpha1], some 5⟩, ⟨pPCA, [whitF], none⟩]

def w0 (r : Stream) : World := ⟨nodes0, [{ main := 0 }, { main := 3 }, { main := 4 }], r⟩

def long : List Step := [⟨pDT, [alpha1, depth2]⟩, ⟨pPCA, [whitT]⟩, ⟨pSC, []⟩]
def single : List Step := [⟨pNB, [alpha2]⟩]
def double : List Step := [⟨pNB, [alpha1]⟩, ⟨pPCA, [whitF]⟩]

theorem is_long (r : Stream) : Is (w0 r) 0 long :=
  ⟨[0, 1, 2], rfl, { main := 0 }, rfl, by simp [Chain, w0, nodes0, long]⟩
theorem is_single (r : Stream) : Is (w0 r) 1 single :=
  ⟨[3], rfl, { main := 3 }, rfl, by simp [Chain, w0, nodes0, single]⟩
theorem is_double (r : Stream) : Is (w0 r) 2 double :=
  ⟨[4, 5], rfl, { main := 4 }, rfl, by simp [Chain, w0, nodes0, double]⟩

theorem stepOk_mk {k : Str} {p : Primitive} {ts : List Terminal}
    (h1 : (decide (p ∈ space.prims k)) = true)
    (h2 : ((ts.map Terminal.ident).isPerm p.input) = true)
    (h3 : (ts.all fun t => decide (t ∈ space.terms t.ident)) = true)
    (h4 : (decide (ts.Pairwise fun a b => strLe a.str b.str = true)) = true) :
    StepOk space k ⟨p, ts⟩ where
  offered := by simpa using h1
  complete := by simpa [List.isPerm_iff] using h2
  values := by simpa using h3
  ordered := by simpa using h4

theorem long_ok : PipelineOk space long := by
  refine ⟨stepOk_mk (by decide) (by decide) (by decide) (by decide), ?_⟩
  intro s hs
  simp at hs
  rcases hs with rfl | rfl <;>
    exact stepOk_mk (by decide) (by decide) (by decide) (by decide)

theorem single_ok : PipelineOk space single :=
  ⟨stepOk_mk (by decide) (by decide) (by decide) (by decide), by simp⟩

theorem double_ok : PipelineOk space double := by
  refine ⟨stepOk_mk (by decide) (by decide) (by decide) (by decide), ?_⟩
  intro s hs
  simp at hs
  subst hs
  exact stepOk_mk (by decide) (by decide) (by decide) (by decide)

end Gama.Ex
