import Verif.Props.Nsga2

/-! # Crowding distances: C79, second part -/

namespace Gama
open PyM Spec

/-! ### Specification -/

/-- What one objective adds to the crowding distance of `x`, `none` for infinity: with the front in
the order `l` of their values, the ends count as infinitely far from the others, and any other member
gets the distance between its two neighbours relative to the distance between the ends, or nothing if
the ends have the same or infinite values. -/
def Spec.Gap (val : Nat → Score) (l : List Nat) (x : Nat) (g : Option ℚ) : Prop :=
  ∃ i : Nat, l[i]? = some x ∧
    (i = 0 ∨ i + 1 = l.length → g = none) ∧
    (0 < i → i + 1 < l.length → ∃ q, g = some q ∧
      ∀ a b lo hi, l[i - 1]? = some a → l[i + 1]? = some b → l[0]? = some lo →
        l[l.length - 1]? = some hi →
        ((val lo = val hi ∨ val lo = .ninf ∨ val lo = .pinf ∨ val hi = .ninf ∨ val hi = .pinf) →
          q = 0) ∧
        (∀ qa qb ql qh, val a = .fin qa → val b = .fin qb → val lo = .fin ql → val hi = .fin qh →
          ql ≠ qh → q = (qb - qa) / (qh - ql)))

/-- The sum of what the objectives add. -/
def Spec.total (gs : List (Option ℚ)) : Score :=
  if none ∈ gs then .pinf else .fin (gs.map (·.getD 0)).sum

/-- Objective `o` of the member at a position. -/
def Spec.objective (values : List (List Score)) (o i : Nat) : Score := (values.getD i []).getD o .ninf

/-- `dist` is the crowding distance within the front `f` for `k` objectives: for some order of the
front by each of the objectives, it is the sum of what these add. -/
def Spec.CrowdingIn (values : List (List Score)) (k : Nat) (f : List Nat) (dist : Nat → Score) : Prop :=
  ∃ orders : List (List Nat), orders.length = k ∧
    (∀ (o : Nat) l, orders[o]? = some l →
      l.Perm f ∧ l.Pairwise fun a b => objective values o a ≤ objective values o b) ∧
    ∀ x ∈ f, ∃ gs : List (Option ℚ), gs.length = k ∧ dist x = total gs ∧
      ∀ (o : Nat) l g, orders[o]? = some l → gs[o]? = some g → Gap (objective values o) l x g

/-! ### One objective -/

theorem addGaps_other (val : Nat → Score) (range : ℚ) (x : Nat) : ∀ (l : List Nat) (d : Nat → Score),
    (∀ i, 0 < i → i + 1 < l.length → l[i]? ≠ some x) → addGaps val range l d x = d x
  | a :: b :: c :: rest, d, h => by
    unfold addGaps
    rw [addGaps_other val range x (b :: c :: rest) _ (fun i hi hl => by
      have := h (i + 1) (by omega) (by simp at hl ⊢; omega)
      simpa using this)]
    have : b ≠ x := by
      have := h 1 (by omega) (by simp)
      simpa using this
    unfold upd
    rw [if_neg (fun h => this h.symm)]
  | [], d, _ => rfl
  | [_], d, _ => rfl
  | [_, _], d, _ => rfl

theorem addGaps_inner (val : Nat → Score) (range : ℚ) : ∀ (l : List Nat) (d : Nat → Score), l.Nodup →
    ∀ i a x b, l[i]? = some a → l[i + 1]? = some x → l[i + 2]? = some b →
      addGaps val range l d x = distAdd (d x) (((val b).toRat - (val a).toRat) / range)
  | a' :: b' :: c' :: rest, d, hn, i, a, x, b, ha, hx, hb => by
    unfold addGaps
    have hn' : (b' :: c' :: rest).Nodup := (List.nodup_cons.1 hn).2
    cases i with
    | zero =>
      simp only [List.getElem?_cons_zero, List.getElem?_cons_succ, Option.some.injEq] at ha hx hb
      subst ha hx hb
      rw [addGaps_other]
      · unfold upd; rw [if_pos rfl]
      · intro i hi _ h
        obtain ⟨j, rfl⟩ : ∃ j, i = j + 1 := ⟨i - 1, by omega⟩
        rw [List.getElem?_cons_succ] at h
        exact (List.nodup_cons.1 hn').1 (List.mem_of_getElem? h)
    | succ i =>
      rw [List.getElem?_cons_succ] at ha hx hb
      rw [addGaps_inner val range (b' :: c' :: rest) _ hn' i a x b ha hx hb]
      congr 1
      unfold upd
      rw [if_neg]
      intro h
      subst h
      rw [List.getElem?_cons_succ] at hx
      exact (List.nodup_cons.1 hn').1 (List.mem_of_getElem? hx)
  | [], d, _, i, a, x, b, ha, _, _ => by simp at ha
  | [_], d, _, i, a, x, b, _, hx, _ => by simp at hx
  | [_, _], d, _, i, a, x, b, _, _, hb => by simp at hb

/-- A distance and one more contribution. -/
def addGap (d : Score) : Option ℚ → Score
  | none => .pinf
  | some q => distAdd d q

theorem crowdStep_gap (val : Nat → Score) (l : List Nat) (d : Nat → Score) (hn : l.Nodup) :
    (∀ x ∈ l, ∃ g, Gap val l x g ∧ crowdStep val l d x = addGap (d x) g) ∧
    ∀ x, x ∉ l → crowdStep val l d x = d x := by
  cases hl : l with
  | nil => exact ⟨fun x hx => by simp at hx, fun _ _ => rfl⟩
  | cons y l' =>
    have hlast : (y :: l').getLastD y ∈ y :: l' := by
      rw [List.getLastD_cons]
      cases l' with
      | nil => simp
      | cons z l' => rw [List.getLastD_cons]; exact List.mem_cons_of_mem _ (List.getLastD_mem_cons ..)
    have hlast' : (y :: l')[(y :: l').length - 1]? = some ((y :: l').getLastD y) := by
      rw [← List.getLast?_eq_getElem?, List.getLast?_cons, List.getLastD_cons]
      simp [List.getLastD_eq_getLast?]
    rw [hl] at hn
    clear hl
    generalize hz : (y :: l').getLastD y = z at hlast hlast'
    generalize hl : y :: l' = l at hn hlast hlast' ⊢
    have hfirst : l[0]? = some y := by rw [← hl]; rfl
    have hstep : crowdStep val l d = (if val z = val y || (val y).isInf || (val z).isInf then
        upd (upd d z .pinf) y .pinf
        else addGaps val ((val z).toRat - (val y).toRat) l (upd (upd d z .pinf) y .pinf)) := by
      rw [← hl]; unfold crowdStep; dsimp only; rw [hz]
    rw [hstep]
    have hpos : ∀ (i j x : Nat), l[i]? = some x → l[j]? = some x → i = j := by
      intro i j x h1 h2
      obtain ⟨b1, e1⟩ := List.getElem?_eq_some_iff.1 h1
      obtain ⟨b2, e2⟩ := List.getElem?_eq_some_iff.1 h2
      exact (List.Nodup.getElem_inj_iff hn).1 (e1.trans e2.symm)
    have hends : ∀ x, x ≠ y → x ≠ z → upd (upd d z .pinf) y .pinf x = d x := by
      intro x h1 h2
      unfold upd
      rw [if_neg h1, if_neg h2]
    have hinf : ∀ x, x = y ∨ x = z → upd (upd d z .pinf) y .pinf x = .pinf := by
      intro x hx
      unfold upd
      rcases hx with rfl | rfl
      · rw [if_pos rfl]
      · split
        · rfl
        · rw [if_pos rfl]
    have hyl : y ∈ l := List.mem_of_getElem? hfirst
    refine ⟨fun x hx => ?_, fun x hx => ?_⟩
    · obtain ⟨i, hi⟩ := List.getElem?_of_mem hx
      have hil : i < l.length := (List.getElem?_eq_some_iff.1 hi).1
      by_cases hend : i = 0 ∨ i + 1 = l.length
      · refine ⟨none, ⟨i, hi, fun _ => rfl, fun h1 h2 => by omega⟩, ?_⟩
        have hxe : x = y ∨ x = z := by
          rcases hend with rfl | h
          · left; rw [hfirst] at hi; injection hi with hi; exact hi.symm
          · right
            rw [show l.length - 1 = i by omega, hi] at hlast'
            injection hlast'
        show _ = Score.pinf
        split
        · exact hinf x hxe
        · rw [addGaps_other]
          · exact hinf x hxe
          · intro j h1 h2 h3
            have := hpos i j x hi h3
            omega
      · have hxy : x ≠ y := by
          rintro rfl
          have := hpos i 0 x hi hfirst; omega
        have hxz : x ≠ z := by
          rintro rfl
          have := hpos i _ x hi hlast'; omega
        have ha : ∃ a, l[i - 1]? = some a := ⟨l[i - 1], List.getElem?_eq_getElem (by omega)⟩
        have hb : ∃ b, l[i + 1]? = some b := ⟨l[i + 1], List.getElem?_eq_getElem (by omega)⟩
        obtain ⟨a, ha⟩ := ha
        obtain ⟨b, hb⟩ := hb
        by_cases hc : (val z = val y || (val y).isInf || (val z).isInf) = true
        · refine ⟨some 0, ⟨i, hi, fun h => absurd h hend, fun _ _ => ⟨0, rfl, ?_⟩⟩, ?_⟩
          · intro a' b' lo hi' ha' hb' hlo hhi
            rw [hfirst] at hlo; rw [hlast'] at hhi
            cases hlo; cases hhi
            refine ⟨fun _ => rfl, ?_⟩
            intro qa qb ql qh _ _ h3 h4 h5
            rw [h3, h4] at hc
            simp only [Score.isInf, Bool.or_false, decide_eq_true_eq, Score.fin.injEq] at hc
            exact absurd hc.symm h5
          · rw [if_pos hc, hends x hxy hxz]
            show d x = distAdd (d x) 0
            cases d x <;> simp [distAdd]
        · refine ⟨some (((val b).toRat - (val a).toRat) / ((val z).toRat - (val y).toRat)),
            ⟨i, hi, fun h => absurd h hend, fun _ _ => ⟨_, rfl, ?_⟩⟩, ?_⟩
          · intro a' b' lo hi' ha' hb' hlo hhi
            rw [hfirst] at hlo; rw [hlast'] at hhi
            rw [ha] at ha'; rw [hb] at hb'
            cases hlo; cases hhi; cases ha'; cases hb'
            refine ⟨fun h => absurd ?_ hc, ?_⟩
            · rcases h with h | h | h | h | h <;> rw [h] <;> simp [Score.isInf]
            · intro qa qb ql qh h1 h2 h3 h4 _
              rw [h1, h2, h3, h4]; rfl
          · rw [if_neg hc]
            rw [addGaps_inner val _ l _ hn (i - 1) a x b ha (by rw [show i - 1 + 1 = i by omega]; exact hi)
              (by rw [show i - 1 + 2 = i + 1 by omega]; exact hb), hends x hxy hxz]
            rfl
    · have hxy : x ≠ y := fun h => hx (h ▸ hyl)
      have hxz : x ≠ z := fun h => hx (h ▸ hlast)
      split
      · exact hends x hxy hxz
      · rw [addGaps_other]
        · exact hends x hxy hxz
        · intro i _ _ h
          exact hx (List.mem_of_getElem? h)

/-! ### All objectives -/

theorem crowdLoop_gaps {vals : Nat → List Score} : ∀ (k m : Nat) (f : List Nat) (d : Nat → Score),
    f.Nodup →
    (∃ orders : List (List Nat), orders.length = k ∧
      (∀ (o : Nat) l, orders[o]? = some l →
        l.Perm f ∧ l.Pairwise fun a b => (vals a).getD (m + o) .ninf ≤ (vals b).getD (m + o) .ninf) ∧
      ∀ x ∈ f, ∃ gs : List (Option ℚ), gs.length = k ∧
        crowdLoop vals k m f d x = gs.foldl addGap (d x) ∧
        ∀ (o : Nat) l g, orders[o]? = some l → gs[o]? = some g →
          Gap (fun i => (vals i).getD (m + o) .ninf) l x g) ∧
    ∀ x, x ∉ f → crowdLoop vals k m f d x = d x
  | 0, m, f, d, _ =>
    ⟨⟨[], rfl, fun o l h => by simp at h, fun x _ => ⟨[], rfl, rfl, fun o l g h => by simp at h⟩⟩,
      fun _ _ => rfl⟩
  | k + 1, m, f, d, hn => by
    unfold crowdLoop
    dsimp only
    generalize hS : pySorted (fun a b => decide ((vals a).getD m .ninf ≤ (vals b).getD m .ninf)) f = S
    have hperm : S.Perm f := hS ▸ pySorted_perm _ _
    have hsorted : S.Pairwise fun a b => (vals a).getD m .ninf ≤ (vals b).getD m .ninf := by
      rw [← hS]
      refine (pySorted_sorted ?_ ?_ f).imp (fun h => by simpa using h)
      · intro a b c h1 h2
        simp only [decide_eq_true_eq] at *
        exact le_trans h1 h2
      · intro a b
        simp only [Bool.or_eq_true, decide_eq_true_eq]
        exact le_total _ _
    have hSn : S.Nodup := hperm.nodup_iff.2 hn
    obtain ⟨s1, s2⟩ := crowdStep_gap (fun i => (vals i).getD m .ninf) S d hSn
    obtain ⟨⟨orders, h1, h2, h3⟩, h4⟩ :=
      crowdLoop_gaps k (m + 1) S (crowdStep (fun i => (vals i).getD m .ninf) S d) hSn (vals := vals)
    refine ⟨⟨S :: orders, by simp [h1], ?_, ?_⟩, ?_⟩
    · intro o l hl
      cases o with
      | zero =>
        simp only [List.getElem?_cons_zero, Option.some.injEq] at hl
        subst hl
        exact ⟨hperm, hsorted⟩
      | succ o =>
        rw [List.getElem?_cons_succ] at hl
        obtain ⟨p1, p2⟩ := h2 o l hl
        rw [show m + (o + 1) = m + 1 + o by omega]
        exact ⟨p1.trans hperm, p2⟩
    · intro x hx
      have hx' := hperm.mem_iff.2 hx
      obtain ⟨g, g1, g2⟩ := s1 x hx'
      obtain ⟨gs, e1, e2, e3⟩ := h3 x hx'
      refine ⟨g :: gs, by simp [e1], ?_, ?_⟩
      · rw [e2, List.foldl_cons, g2]
      · intro o l g' hl hg
        cases o with
        | zero =>
          simp only [List.getElem?_cons_zero, Option.some.injEq] at hl hg
          subst hl hg
          exact g1
        | succ o =>
          rw [List.getElem?_cons_succ] at hl hg
          have := e3 o l g' hl hg
          rw [show m + (o + 1) = m + 1 + o by omega]
          exact this
    · intro x hx
      have hx' : x ∉ S := fun h => hx (hperm.mem_iff.1 h)
      rw [h4 x hx', s2 x hx']

theorem foldl_addGap_pinf (gs : List (Option ℚ)) : gs.foldl addGap .pinf = .pinf := by
  induction gs with
  | nil => rfl
  | cons g gs ih => cases g <;> exact ih

theorem foldl_addGap (gs : List (Option ℚ)) : ∀ a : ℚ, gs.foldl addGap (.fin a) =
    if none ∈ gs then .pinf else .fin (a + (gs.map (·.getD 0)).sum) := by
  induction gs with
  | nil => intro a; simp
  | cons g gs ih =>
    intro a
    cases g with
    | none => simp [addGap, foldl_addGap_pinf]
    | some q =>
      simp only [List.foldl_cons, addGap, distAdd, ih, List.mem_cons, reduceCtorEq, false_or,
        List.map_cons, Option.getD_some, List.sum_cons, add_assoc]

theorem foldl_addGap_total (gs : List (Option ℚ)) : gs.foldl addGap (.fin 0) = total gs := by
  rw [foldl_addGap, zero_add]; rfl

/-! ### All fronts -/

theorem crowdingIn_congr {values : List (List Score)} {k : Nat} {f : List Nat} {d d' : Nat → Score}
    (h : ∀ x ∈ f, d' x = d x) (hc : CrowdingIn values k f d) : CrowdingIn values k f d' := by
  obtain ⟨orders, h1, h2, h3⟩ := hc
  refine ⟨orders, h1, h2, fun x hx => ?_⟩
  obtain ⟨gs, g1, g2, g3⟩ := h3 x hx
  exact ⟨gs, g1, by rw [h x hx]; exact g2, g3⟩

theorem crowdingIn_perm {values : List (List Score)} {k : Nat} {f f' : List Nat} {d : Nat → Score}
    (h : f.Perm f') (hc : CrowdingIn values k f d) : CrowdingIn values k f' d := by
  obtain ⟨orders, h1, h2, h3⟩ := hc
  exact ⟨orders, h1, fun o l hl => ⟨(h2 o l hl).1.trans h, (h2 o l hl).2⟩,
    fun x hx => h3 x (h.mem_iff.2 hx)⟩

theorem crowdingIn_loop {values : List (List Score)} {k : Nat} {f : List Nat} {d : Nat → Score}
    (hn : f.Nodup) (hd : ∀ x ∈ f, d x = .fin 0) :
    CrowdingIn values k f (crowdLoop (fun i => values.getD i []) k 0 f d) := by
  obtain ⟨⟨orders, h1, h2, h3⟩, -⟩ := crowdLoop_gaps (vals := fun i => values.getD i []) k 0 f d hn
  refine ⟨orders, h1, ?_, ?_⟩
  · intro o l hl
    have := h2 o l hl
    rw [zero_add] at this
    exact this
  · intro x hx
    obtain ⟨gs, g1, g2, g3⟩ := h3 x hx
    refine ⟨gs, g1, by rw [g2, hd x hx, foldl_addGap_total], ?_⟩
    intro o l g hl hg
    have := g3 o l g hl hg
    rw [zero_add] at this
    exact this

theorem selectLoop_crowding {values : List (List Score)} {k : Nat} {rank : Nat → Nat} {n : Int}
    (harity : ∀ x, x < values.length → (values.getD x []).length = k) :
    ∀ (fronts : List (List Nat)) (sel : List Nat) (d : Nat → Score) (order : List Nat) (d' : Nat → Score),
    fronts.flatten.Nodup → (∀ x ∈ fronts.flatten, x < values.length ∧ d x = .fin 0 ∧ x ∉ sel) →
    selectLoop (fun i => values.getD i []) rank n fronts sel d = .ok (order, d') →
    (∀ f ∈ fronts, ∀ x ∈ f, x ∈ order → CrowdingIn values k f d') ∧
    (∀ x, x ∉ fronts.flatten → d' x = d x ∧ (x ∈ order → x ∈ sel))
  | [], sel, d, order, d', _, _, h => by
    unfold selectLoop at h
    split at h
    · cases h
    · cases h
      exact ⟨fun f hf => by simp at hf, fun x _ => ⟨rfl, id⟩⟩
  | f :: fs, sel, d, order, d', hn, hz, h => by
    rw [List.flatten_cons] at hn hz
    obtain ⟨hn1, hn2, hdis⟩ := List.nodup_append.1 hn
    unfold selectLoop at h
    by_cases hlt : (sel.length : Int) < n
    · rw [if_pos hlt] at h
      cases f with
      | nil => cases h
      | cons y f' =>
        have hk : (values.getD y []).length = k := harity y (hz y (by simp)).1
        have hcd : crowdingDistance (fun i => values.getD i []) (y :: f') d
            = .ok (crowdLoop (fun i => values.getD i []) k 0 (y :: f') d) := by
          unfold crowdingDistance; dsimp only; rw [hk]
        rw [hcd] at h
        dsimp only at h
        have hin := crowdingIn_loop (values := values) (k := k) hn1
          (fun x hx => (hz x (List.mem_append_left _ hx)).2.1)
        have hout := (crowdLoop_gaps (vals := fun i => values.getD i []) k 0 (y :: f') d hn1).2
        generalize crowdLoop (fun i => values.getD i []) k 0 (y :: f') d = d₁ at h hin hout
        have key : ∀ part : List Nat, (∀ x ∈ part, x ∈ y :: f') →
            selectLoop (fun i => values.getD i []) rank n fs (sel ++ part) d₁ = .ok (order, d') →
            (∀ f ∈ (y :: f') :: fs, ∀ x ∈ f, x ∈ order → CrowdingIn values k f d') ∧
            (∀ x, x ∉ ((y :: f') :: fs).flatten → d' x = d x ∧ (x ∈ order → x ∈ sel)) := by
          intro part hpart h
          have hfs : ∀ x ∈ fs.flatten, x ∉ y :: f' := fun x hx hx' => hdis x hx' x hx rfl
          obtain ⟨i1, i2⟩ := selectLoop_crowding harity fs (sel ++ part) d₁ order d' hn2 (by
            intro x hx
            have hz' := hz x (List.mem_append_right _ hx)
            refine ⟨hz'.1, by rw [hout x (hfs x hx)]; exact hz'.2.1, ?_⟩
            intro hm
            rcases List.mem_append.1 hm with hm | hm
            · exact hz'.2.2 hm
            · exact hfs x hx (hpart x hm)) h
          refine ⟨?_, ?_⟩
          · intro g hg x hx hxo
            rcases List.mem_cons.1 hg with rfl | hg
            · exact crowdingIn_congr (fun z hz => (i2 z (fun hz' => hfs z hz' hz)).1) hin
            · exact i1 g hg x hx hxo
          · intro x hx
            rw [List.flatten_cons, List.mem_append, not_or] at hx
            obtain ⟨j1, j2⟩ := i2 x hx.2
            refine ⟨j1.trans (hout x hx.1), fun hxo => ?_⟩
            rcases List.mem_append.1 (j2 hxo) with hm | hm
            · exact hm
            · exact absurd (hpart x hm) hx.1
        split at h
        · exact key _ (fun x hx => hx) h
        · refine key _ (fun x hx => ?_) h
          exact (pySorted_perm _ _).mem_iff.1 (List.mem_of_mem_take hx)
    · rw [if_neg hlt] at h
      cases h
      refine ⟨fun g hg x hx hxo => ?_, fun x _ => ⟨rfl, id⟩⟩
      have : x ∈ f ++ fs.flatten := by
        rw [← List.flatten_cons]; exact List.mem_flatten.2 ⟨g, hg, hx⟩
      exact absurd hxo (hz x this).2.2

/-- **C79**: the distances by which members are kept, and by which parents are chosen afterwards, are
the crowding distances within their front. -/
theorem C79_distances {values : List (List Score)} {k : Nat} (h : Vectors values k) {n : Int}
    {c : Selected} (run : nsga2 values n = .ok c) {L : List (List Nat)}
    (hL : Layering (DomAt values) values.length L) {m x : Nat} {f : List Nat} (hf : L[m]? = some f)
    (hx : x ∈ f) (hxo : x ∈ c.order) : CrowdingIn values k f c.dist := by
  obtain ⟨L', s, h1, h2, -, -⟩ := h.sort
  unfold nsga2 at run
  split at run
  · cases run
  dsimp only at run
  rw [h1] at run
  dsimp only at run
  cases hr : selectLoop (fun i => values.getD i []) s.rank n L' [] (fun _ => .fin 0) with
  | error e => rw [hr] at run; cases run
  | ok od =>
    obtain ⟨order, d⟩ := od
    rw [hr] at run
    dsimp only at run
    cases run
    have hnd : L'.flatten.Nodup := h2.partition.nodup_iff.2 List.nodup_range
    obtain ⟨i1, -⟩ := selectLoop_crowding (k := k) (fun x hx => by
        rw [List.getD_eq_getElem _ _ hx]; exact h.arity _ (List.getElem_mem hx)) L' [] _ order d hnd
      (fun x hx => ⟨List.mem_range.1 (h2.partition.mem_iff.1 hx), rfl, by simp⟩) hr
    have tr : ∀ i x, InFront L i x ↔ InFront L' i x := by
      intro i x
      have key : ∀ {L L' : List (List Nat)}, Layering (DomAt values) values.length L →
          Layering (DomAt values) values.length L' → InFront L i x → InFront L' i x := by
        intro L L' hL hL' hx
        obtain ⟨i', hi'⟩ := (Layering.mem_iff hL' x).1 ((Layering.mem_iff hL x).2 ⟨i, hx⟩)
        have : i = i' :=
          Nat.le_antisymm (layering_le hL hL' _ _ x hx hi') (layering_le hL' hL _ _ x hi' hx)
        rw [this]; exact hi'
      exact ⟨key hL h2, key h2 hL⟩
    obtain ⟨f', hf', hxf'⟩ := (tr m x).1 ⟨f, hf, hx⟩
    have sub : ∀ {L : List (List Nat)} {f : List Nat}, L[m]? = some f → L.flatten.Nodup → f.Nodup := by
      intro L f hf hn
      exact (List.nodup_flatten.1 hn).1 f (List.mem_of_getElem? hf)
    refine crowdingIn_perm ?_ (i1 f' (List.mem_of_getElem? hf') x hxf' hxo)
    refine (List.perm_ext_iff_of_nodup (sub hf' hnd)
      (sub hf (hL.partition.nodup_iff.2 List.nodup_range))).2 fun y => ?_
    constructor
    · intro hy
      obtain ⟨g, hg, hyg⟩ := (tr m y).2 ⟨f', hf', hy⟩
      rw [hf] at hg; cases hg; exact hyg
    · intro hy
      obtain ⟨g, hg, hyg⟩ := (tr m y).1 ⟨f, hf, hy⟩
      rw [hf'] at hg; cases hg; exact hyg

/-- Five members of one front: the ends are infinitely far, the others by what lies between their
neighbours. -/
example : (nsga2 [[.fin 0, .fin 10], [.fin 1, .fin 8], [.fin 4, .fin 6], [.fin 8, .fin 5],
      [.fin 10, .fin 0]] 3).toOption.map (fun c => (c.order, (List.range 5).map c.dist)) =
    some ([0, 4, 3], [.pinf, .fin (4 / 5), .fin 1, .fin (6 / 5), .pinf]) := by decide +kernel

end Gama
