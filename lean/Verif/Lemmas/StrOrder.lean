import Verif.Spec.Pipelines
import Mathlib.Data.List.Forall2

/-! String comparison and the order of hyperparameters in a node. -/

namespace Gama
open Spec

theorem strLe_refl : ∀ a : Str, strLe a a = true
  | [] => rfl
  | a :: as => by
    have : ¬ a.val < a.val := UInt32.lt_irrefl _
    simp [strLe, this, strLe_refl as]

theorem strLe_total : ∀ a b : Str, (strLe a b || strLe b a) = true
  | [], _ => by simp [strLe]
  | _ :: _, [] => by simp [strLe]
  | a :: as, b :: bs => by
    simp only [strLe]
    by_cases h : a.val < b.val
    · simp [h]
    · by_cases h' : b.val < a.val
      · simp [h, h']
      · simpa [h, h'] using strLe_total as bs

theorem strLe_trans : ∀ a b c : Str, strLe a b = true → strLe b c = true → strLe a c = true
  | [], _, _, _, _ => by simp [strLe]
  | _ :: _, [], _, h, _ => by simp [strLe] at h
  | _ :: _, _ :: _, [], _, h => by simp [strLe] at h
  | a :: as, b :: bs, c :: cs, h₁, h₂ => by
    simp only [strLe] at *
    by_cases hab : a.val < b.val
    · by_cases hbc : b.val < c.val
      · simp [UInt32.lt_trans hab hbc]
      · by_cases hcb : c.val < b.val
        · simp [hbc, hcb] at h₂
        · have : b.val = c.val := UInt32.le_antisymm (UInt32.not_lt.1 hcb) (UInt32.not_lt.1 hbc)
          rw [this] at hab; simp [hab]
    · by_cases hba : b.val < a.val
      · simp [hab, hba] at h₁
      · have e : a.val = b.val := UInt32.le_antisymm (UInt32.not_lt.1 hba) (UInt32.not_lt.1 hab)
        rw [e]
        by_cases hbc : b.val < c.val
        · simp [hbc]
        · by_cases hcb : c.val < b.val
          · simp [hbc, hcb] at h₂
          · simp [hab, hba] at h₁
            simp [hbc, hcb] at h₂ ⊢
            exact strLe_trans as bs cs h₁ h₂

theorem sortTerms_perm (ts : List Terminal) : (sortTerms ts).Perm ts := pySorted_perm _ _

theorem sortTerms_sorted (ts : List Terminal) :
    (sortTerms ts).Pairwise fun a b => strLe a.str b.str = true :=
  pySorted_sorted (le := fun a b => strLe a.str b.str)
    (fun _ _ _ => strLe_trans _ _ _) (fun _ _ => strLe_total _ _) ts

theorem sortTerms_of_sorted {ts : List Terminal}
    (h : ts.Pairwise fun a b => strLe a.str b.str = true) : sortTerms ts = ts :=
  pySorted_of_sorted h

/-- Printed names that contain no '=' and differ decide the comparison, whatever follows. -/
theorem strLe_name : ∀ (a b x y : Str), a ≠ b → '=' ∉ a → '=' ∉ b →
    strLe (a ++ '=' :: x) (b ++ '=' :: y) = strLe (a ++ ['=']) (b ++ ['='])
  | [], [], _, _, h, _, _ => absurd rfl h
  | [], b :: bs, x, y, _, _, hb => by
    have hne : b ≠ '=' := fun h => hb (by simp [h])
    simp only [List.nil_append, List.cons_append, strLe]
    by_cases h1 : ('=' : Char).val < b.val
    · simp only [h1, if_true]
    · by_cases h2 : b.val < ('=' : Char).val
      · simp only [h1, h2, if_true, if_false]
      · exact absurd (Char.ext (UInt32.le_antisymm (UInt32.not_lt.1 h1) (UInt32.not_lt.1 h2))) hne
  | a :: as, [], x, y, _, ha, _ => by
    have hne : a ≠ '=' := fun h => ha (by simp [h])
    simp only [List.nil_append, List.cons_append, strLe]
    by_cases h1 : a.val < ('=' : Char).val
    · simp only [h1, if_true]
    · by_cases h2 : ('=' : Char).val < a.val
      · simp only [h1, h2, if_true, if_false]
      · exact absurd (Char.ext (UInt32.le_antisymm (UInt32.not_lt.1 h2) (UInt32.not_lt.1 h1))) hne
  | a :: as, b :: bs, x, y, h, ha, hb => by
    simp only [List.cons_append, strLe]
    by_cases h1 : a.val < b.val
    · simp [h1]
    · by_cases h2 : b.val < a.val
      · simp [h1, h2]
      · have hab : a = b := Char.ext (UInt32.le_antisymm (UInt32.not_lt.1 h2) (UInt32.not_lt.1 h1))
        simp only [h1, h2, if_false]
        exact strLe_name as bs x y (fun e => h (by simp [hab, e]))
          (fun e => ha (by simp [e])) (fun e => hb (by simp [e]))

theorem Terminal.strLe_congr {s t s' t' : Terminal} (hs : s.output = s'.output)
    (ht : t.output = t'.output) (hne : s.output ≠ t.output) (hs' : '=' ∉ s.output)
    (ht' : '=' ∉ t.output) : strLe s.str t.str = strLe s'.str t'.str := by
  unfold Terminal.str
  rw [← hs, ← ht, strLe_name _ _ _ _ hne hs' ht', strLe_name _ _ s'.value.fmt _ hne hs' ht']

/-- Order of hyperparameters is kept when values are exchanged for values with the same
printed name. -/
theorem pairwise_congr_names : ∀ {ts ts' : List Terminal},
    List.Forall₂ (fun t t' => t.output = t'.output) ts ts' →
    (ts.map Terminal.output).Nodup → (∀ t ∈ ts, '=' ∉ t.output) →
    (ts.Pairwise fun a b => strLe a.str b.str = true) →
    ts'.Pairwise fun a b => strLe a.str b.str = true := by
  intro ts ts' hf
  induction hf with
  | nil => intros; exact List.Pairwise.nil
  | @cons a b l l' hab hll ih =>
    intro hnd heq hp
    simp only [List.map_cons, List.nodup_cons] at hnd
    rw [List.pairwise_cons] at hp ⊢
    refine ⟨?_, ih hnd.2 (fun t ht => heq t (by simp [ht])) hp.2⟩
    intro t' ht'
    have hq : ∃ t ∈ l, t.output = t'.output := by
      clear ih hp hnd heq hab
      induction hll with
      | nil => simp at ht'
      | @cons c d m m' hcd hmm ih2 =>
        rcases List.mem_cons.1 ht' with rfl | hm
        · exact ⟨c, by simp, hcd⟩
        · obtain ⟨t, ht, e⟩ := ih2 hm
          exact ⟨t, by simp [ht], e⟩
    obtain ⟨t, ht, e⟩ := hq
    have hne : a.output ≠ t.output := fun h => hnd.1 (by rw [h]; exact List.mem_map_of_mem ht)
    rw [← Terminal.strLe_congr hab e hne (heq a (by simp)) (heq t (by simp [ht]))]
    exact hp.1 t ht

end Gama
