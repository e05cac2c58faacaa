import Verif.Model.Nsga2
import Mathlib.Data.List.Perm.Basic

/-! # random.sample -/

namespace Gama
open PyM

section
variable {σ : Type} [HasRand σ]

/-- `random.sample` of at most as many elements as there are.  `P` is any property that
drawing random numbers keeps. -/
theorem wp_sample {P : σ → Prop} (hP : ∀ s, P s → P (advance s)) {α : Type} :
    ∀ (k : Nat) (xs : List α) (s : σ), P s → k ≤ xs.length →
    wp (sample k xs) (fun r s' => (r.length = k ∧ ∃ rest, (r ++ rest).Perm xs) ∧ P s')
      (fun _ _ => False) s
  | 0, xs, s, hs, _ => ⟨⟨rfl, xs, by simp⟩, hs⟩
  | k + 1, xs, s, hs, h => by
    unfold sample
    rw [wp_bind]
    refine wp_draw (fun j => ?_)
    have hlt : j % xs.length < xs.length := Nat.mod_lt _ (by omega)
    rw [List.getElem?_eq_getElem hlt]
    dsimp only
    rw [wp_bind]
    refine wp_mono ?_ (fun _ _ h => h) (wp_sample hP k (xs.eraseIdx (j % xs.length)) (advance s)
      (hP s hs) (by rw [List.length_eraseIdx_of_lt hlt]; omega))
    rintro r s' ⟨⟨h1, rest, h2⟩, hs'⟩
    refine ⟨⟨by simp [h1], rest, ?_⟩, hs'⟩
    rw [List.cons_append]
    exact (List.Perm.cons _ h2).trans (List.getElem_cons_eraseIdx_perm hlt)

end
end Gama
