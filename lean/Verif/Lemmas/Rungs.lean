import Verif.Props.Whole2

/-! # Successive halving evaluates an individual once on each rung -/

namespace Gama
open PyM Spec

section
variable {σ ι : Type} [DecidableEq ι]

omit [DecidableEq ι] in
theorem evaluatedOn_sublist (k : Nat) (h : List (ι × Nat × Completion)) :
    ((evaluatedOn k h).map Prod.snd).Sublist (jobsOn k (h.map fun x => (x.1, x.2.1))) := by
  induction h with
  | nil => exact .slnil
  | cons p h ih =>
    obtain ⟨x, r, c⟩ := p
    have hj : jobsOn k (((x, r, c) :: h).map fun x => (x.1, x.2.1)) =
        if r = k then x :: jobsOn k (h.map fun x => (x.1, x.2.1)) else jobsOn k (h.map fun x => (x.1, x.2.1)) := by
      unfold jobsOn
      by_cases e : r = k <;> simp [e]
    rw [hj]
    cases c with
    | failed =>
      by_cases e : r = k
      · rw [if_pos e]; exact ih.cons _
      · rw [if_neg e]; exact ih
    | result b sc =>
      unfold evaluatedOn
      by_cases e : r = k
      · rw [if_pos e, if_pos e]; exact ih.cons₂ _
      · rw [if_neg e, if_neg e]; exact ih

omit [DecidableEq ι] in
theorem jobsOn_nodup_of {l : List (ι × Nat)} (h : ∀ k, (jobsOn k l).Nodup) : l.Nodup := by
  rw [List.nodup_iff_sublist]
  intro p hp
  have h1 := ((hp.filter fun q => q.2 = p.2).map Prod.fst)
  have h2 := h p.2
  rw [List.nodup_iff_sublist] at h2
  refine h2 p.1 ?_
  unfold jobsOn
  simpa using h1

omit [DecidableEq ι] in
theorem AshaCore.once {c : AshaConfig} {cands : List ι} {rungs promoted : List (Nat × List (RungEntry ι))}
    {candidates : List ι} {pending submitted : List (ι × Nat)} {history rec : List (ι × Nat × Completion)}
    (h : AshaCore c cands rungs promoted candidates pending submitted history rec) (hrec : rec.Sublist history)
    (hb : (jobsOn c.rate submitted).Nodup) : submitted.Nodup := by
  have up : ∀ n, (jobsOn (c.rate + n) submitted).Nodup := by
    intro n
    induction n with
    | zero => exact hb
    | succ n ih =>
      have hs := h.sent (c.rate + n) (by omega)
      rw [show c.rate + (n + 1) = c.rate + n + 1 by omega, hs]
      have hev : ((evaluatedOn (c.rate + n) rec).map Prod.snd).Nodup := by
        have h1 := evaluatedOn_sublist (c.rate + n) rec
        have h2 : (jobsOn (c.rate + n) (rec.map fun x => (x.1, x.2.1))).Sublist
            (jobsOn (c.rate + n) (pending ++ history.map fun x => (x.1, x.2.1))) := by
          unfold jobsOn
          exact (((hrec.map _).trans (List.sublist_append_right _ _)).filter _).map _
        have h3 : (jobsOn (c.rate + n) (pending ++ history.map fun x => (x.1, x.2.1))).Nodup := by
          have : (jobsOn (c.rate + n) submitted).Perm
              (jobsOn (c.rate + n) (pending ++ history.map fun x => (x.1, x.2.1))) := by
            unfold jobsOn
            exact (h.jobs.filter _).map _
          exact this.nodup_iff.1 ih
        exact h3.sublist (h1.trans h2)
      refine List.Nodup.map_on ?_ (h.nodup _)
      intro a ha b hb e
      exact List.inj_on_of_nodup_map hev (h.sub _ ha) (h.sub _ hb) e
  refine jobsOn_nodup_of fun k => ?_
  by_cases hk : c.rate ≤ k
  · have := up (k - c.rate)
    rwa [show c.rate + (k - c.rate) = k by omega] at this
  · have : jobsOn k submitted = [] := by
      unfold jobsOn
      rw [List.map_eq_nil_iff, List.filter_eq_nil_iff]
      intro p hp e
      have := (mem_levels.1 (h.onLevel p hp)).1
      simp only [decide_eq_true_eq] at e
      omega
    rw [this]
    exact List.nodup_nil

end

/-- No candidate is submitted twice to the lowest rung. -/
structure AshaApart (c : AshaConfig) (s : Asha World Nat) : Prop where
  once : (jobsOn c.rate s.submitted ++ s.candidates).Nodup
  known : ∀ x ∈ jobsOn c.rate s.submitted ++ s.candidates, x < s.world.inds.length
  keys : ∀ k ∈ s.rungs.map Prod.fst, c.rate ≤ k

theorem ashaApart_startJob (oc : OpConfig) (cxpb : ℚ) (c : AshaConfig) (pick : Nat) (s : Asha World Nat)
    (h : AshaApart c s) : AshaApart c (startJob (gamaOps oc cxpb) c pick s).2 := by
  obtain ⟨-, -, hnew, hgrow⟩ := gamaOps_new oc cxpb
  obtain ⟨pc, world, rungs, promoted, candidates, pending, history, submitted⟩ := s
  obtain ⟨h1, h2, h3⟩ := h
  dsimp only at h1 h2 h3
  unfold startJob
  cases hf : findPromotion c.rf pick promoted rungs.tail with
  | some p =>
    obtain ⟨rung, x⟩ := p
    obtain ⟨inds, hm, -⟩ := findPromotion_some hf
    have hr : c.rate ≤ rung := h3 rung (List.mem_map.2 ⟨_, List.mem_of_mem_tail hm, rfl⟩)
    rw [bind_ok (a := (x.2, rung + 1)) (s' := ⟨pc, world, rungs,
      dset promoted rung ((dget promoted rung).getD [] ++ [x]), candidates, pending, history, submitted⟩)
      (by unfold getJob; dsimp only; rw [hf])]
    dsimp only
    by_cases hl : rung + 1 ∈ c.levels
    · rw [if_pos hl]
      have e : jobsOn c.rate (submitted ++ [(x.2, rung + 1)]) = jobsOn c.rate submitted := by
        rw [jobsOn_append, if_neg (by omega)]
      refine ⟨?_, ?_, h3⟩
      · show (jobsOn c.rate (submitted ++ [(x.2, rung + 1)]) ++ candidates).Nodup
        rw [e]; exact h1
      · show ∀ y ∈ jobsOn c.rate (submitted ++ [(x.2, rung + 1)]) ++ candidates, y < world.inds.length
        rw [e]; exact h2
    · rw [if_neg hl]
      exact ⟨h1, h2, h3⟩
  | none =>
    cases hc : candidates.getLast? with
    | some x =>
      obtain ⟨ys, rfl⟩ := List.getLast?_eq_some_iff.1 hc
      rw [bind_ok (a := (x, c.rate)) (s' := ⟨pc, world, rungs, promoted, ys, pending, history, submitted⟩)
        (by unfold getJob; dsimp only; rw [hf]; dsimp only; rw [hc]; simp)]
      dsimp only
      by_cases hl : c.rate ∈ c.levels
      · rw [if_pos hl]
        have e : jobsOn c.rate (submitted ++ [(x, c.rate)]) = jobsOn c.rate submitted ++ [x] := by
          rw [jobsOn_append, if_pos rfl]
        have hp : (jobsOn c.rate submitted ++ [x] ++ ys).Perm (jobsOn c.rate submitted ++ (ys ++ [x])) := by
          rw [List.append_assoc]
          exact List.Perm.append_left _ List.perm_append_comm
        refine ⟨?_, ?_, h3⟩
        · show (jobsOn c.rate (submitted ++ [(x, c.rate)]) ++ ys).Nodup
          rw [e, hp.nodup_iff]; exact h1
        · show ∀ y ∈ jobsOn c.rate (submitted ++ [(x, c.rate)]) ++ ys, y < world.inds.length
          rw [e]
          exact fun y hy => h2 y (hp.mem_iff.1 hy)
      · rw [if_neg hl]
        have hs : (jobsOn c.rate submitted ++ ys).Sublist (jobsOn c.rate submitted ++ (ys ++ [x])) :=
          (List.Sublist.refl _).append (List.sublist_append_left _ _)
        exact ⟨h1.sublist hs, fun y hy => h2 y (hs.subset hy), h3⟩
    | none =>
      have hnil : candidates = [] := by simpa using hc
      subst hnil
      have hg := (hgrow world).length
      cases ho : (gamaOps oc cxpb).individual world with
      | mk r w =>
        rw [ho] at hg
        cases r with
        | error e =>
          rw [bind_error (e := e) (s' := ⟨pc, w, rungs, promoted, [], pending, history, submitted⟩)
            (by unfold getJob; dsimp only; rw [hf]; dsimp only [List.getLast?]; rw [ho])]
          exact ⟨h1, fun y hy => Nat.lt_of_lt_of_le (h2 y hy) hg, h3⟩
        | ok x =>
          obtain ⟨a1, a2⟩ := hnew world x w ho
          rw [bind_ok (a := (x, c.rate)) (s' := ⟨pc, w, rungs, promoted, [], pending, history, submitted⟩)
            (by unfold getJob; dsimp only; rw [hf]; dsimp only [List.getLast?]; rw [ho])]
          dsimp only
          rw [List.append_nil] at h1 h2
          by_cases hl : c.rate ∈ c.levels
          · rw [if_pos hl]
            have e : jobsOn c.rate (submitted ++ [(x, c.rate)]) = jobsOn c.rate submitted ++ [x] := by
              rw [jobsOn_append, if_pos rfl]
            refine ⟨?_, ?_, h3⟩
            · show (jobsOn c.rate (submitted ++ [(x, c.rate)]) ++ []).Nodup
              rw [e, List.append_nil]
              exact nodup_new h1 h2 a1
            · show ∀ y ∈ jobsOn c.rate (submitted ++ [(x, c.rate)]) ++ [], y < w.inds.length
              rw [e, List.append_nil]
              exact known_new h2 hg a2
          · rw [if_neg hl]
            refine ⟨?_, ?_, h3⟩
            · show (jobsOn c.rate submitted ++ []).Nodup
              rw [List.append_nil]; exact h1
            · show ∀ y ∈ jobsOn c.rate submitted ++ [], y < w.inds.length
              rw [List.append_nil]
              exact fun y hy => Nat.lt_of_lt_of_le (h2 y hy) hg

theorem ashaApart_step (oc : OpConfig) (cxpb : ℚ) (c : AshaConfig) (i : AshaInput World) (s : Asha World Nat)
    (h : AshaApart c s) (hi : ∀ j r w, i.wait = .completes j r w → s.world.inds.length ≤ w.inds.length) :
    AshaApart c (ashaStep (gamaOps oc cxpb) c i s) := by
  have hj := ashaApart_startJob oc cxpb c i.pick s h
  have hh := h
  obtain ⟨h1, h2, h3⟩ := h
  unfold ashaStep
  cases hpc : s.pc with
  | starting k =>
    cases k with
    | zero => exact ⟨h1, h2, h3⟩
    | succ k =>
      dsimp only
      cases hs : startJob (gamaOps oc cxpb) c i.pick s with
      | mk r s' =>
        rw [hs] at hj
        cases r <;> exact ⟨hj.1, hj.2, hj.3⟩
  | loop =>
    dsimp only
    cases ashaMore c s with
    | error e => exact ⟨h1, h2, h3⟩
    | ok b =>
      cases b with
      | false =>
        dsimp only
        cases c.levels.head? <;> exact ⟨h1, h2, h3⟩
      | true =>
        dsimp only
        cases hw : i.wait with
        | raises e => exact ⟨h1, h2, h3⟩
        | completes k r w =>
          dsimp only
          cases takePending s.pending k with
          | none => exact ⟨h1, h2, h3⟩
          | some p => exact ⟨h1, fun x hx => Nat.lt_of_lt_of_le (h2 x hx) (hi k r w hw), h3⟩
  | got x rung r =>
    cases r with
    | failed => exact ⟨h1, h2, h3⟩
    | result b sc =>
      dsimp only
      cases hd : dget s.rungs rung with
      | none => exact ⟨h1, h2, h3⟩
      | some l =>
        refine ⟨h1, h2, ?_⟩
        show ∀ k ∈ (dset s.rungs rung (l ++ [(sc, x)])).map Prod.fst, c.rate ≤ k
        rw [keys_dset_of_mem (List.mem_map.2 ⟨_, dget_mem hd, rfl⟩)]
        exact h3
  | next =>
    dsimp only
    cases hs : startJob (gamaOps oc cxpb) c i.pick s with
    | mk r s' =>
      rw [hs] at hj
      cases r <;> exact ⟨hj.1, hj.2, hj.3⟩
  | returned l => exact hh
  | raised e => exact hh

section
variable {S I A B J Fn V X Ω E P : Type}

theorem whole_ok {U : Setup S I A B J Fn V X Ω E P} (hC : U.client.Lawful)
    (hset : ∀ p q s t, U.client.setPending p s = U.client.setPending q t → p = q)
    (hK : Faithful U.coding U.jobs) (ha : Agrees U) {start : S}
    (hs : U.client.setPending [] start = start) (hh : U.client.history start = [])
    (hsub : U.client.submitted start = []) (lib₀ : Lib E P (List Score)) (n : Nat) (limit : Option ℚ)
    (logfile : Bool) (D : List (Str × V)) (es : List (WholeEvent B Ω)) :
    JointOK U.client U.coding U.jobs D (fun _ _ _ => True) start
      (wholeRun U es (wholeStart start lib₀ n limit logfile D)).joint := by
  have key : ∀ (es : List (WholeEvent B Ω)) (s : Whole S Fn V X E P),
      JointOK U.client U.coding U.jobs D (fun _ _ _ => True) start s.joint →
      JointOK U.client U.coding U.jobs D (fun _ _ _ => True) start (wholeRun U es s).joint := by
    intro es
    induction es with
    | nil => intro s h; exact h
    | cons e es ih =>
      intro s h1
      exact ih _ (whole_step hC hset hK ha hs hh hsub e s h1).1
  exact key es _ (jointOK_start hs n limit logfile D)

end

section
variable {Fn V X Ω E P : Type}

/-- A move is a step of `asha`. -/
theorem halving_move {c : OpConfig} {cxpb : ℚ} {a : AshaConfig} {K : Coding Fn V (Nat × Nat)}
    {Jb : Jobs Fn V X Ω} {report : V → Findings E P} {lib : LibConfig} {D : List (Str × V)}
    {x y : Asha World Nat × Lib E P (List Score)}
    (h : Move (halving c cxpb a K Jb report lib) D x y) :
    y.1 = x.1 ∨ ∃ i p,
      y.1 = ashaStep (gamaOps c cxpb) a i { x.1 with pending := p } ∧
      ∀ k r w, i.wait = .completes k r w → w = x.1.world ∨ ∃ j v, w = recordFitness j v x.1.world := by
  cases h with
  | still => exact Or.inl rfl
  | go b q hw =>
    rename_i s l
    exact Or.inr ⟨⟨.raises .runtimeError, b⟩, s.pending, rfl, fun _ _ _ h => by cases h⟩
  | raised e hw =>
    rename_i s l
    exact Or.inr ⟨⟨.raises e, 0⟩, s.pending, rfl, fun _ _ _ h => by cases h⟩
  | failed j hw haw =>
    rename_i s l
    refine Or.inr ⟨⟨.completes 0 .failed s.world, 0⟩, [j], rfl, ?_⟩
    intro _ _ _ h
    cases h
    exact Or.inl rfl
  | saved j r sc hw haw hr hp hsc =>
    rename_i s l
    refine Or.inr ⟨⟨.completes 0 (.result r.error.isNone sc) (recordFitness r.ident r.score s.world), 0⟩, [j], rfl, ?_⟩
    intro _ _ _ h
    cases h
    exact Or.inr ⟨_, _, rfl⟩
  | interrupted j r e hw haw hr hp =>
    rename_i s l
    exact Or.inr ⟨⟨.raises e, 0⟩, s.pending, rfl, fun _ _ _ h => by cases h⟩

theorem halving_apart {c : OpConfig} {cxpb : ℚ} {a : AshaConfig} {K : Coding Fn V (Nat × Nat)}
    {Jb : Jobs Fn V X Ω} {report : V → Findings E P} {lib : LibConfig} {D : List (Str × V)} {l : List Nat}
    {w : World} (hl : l.Nodup) (hw : ∀ x ∈ l, x < w.inds.length) {lib₀ : Lib E P (List Score)}
    {x : Asha World Nat × Lib E P (List Score)}
    (h : Moves (halving c cxpb a K Jb report lib) D (ashaStart a l w, lib₀) x) : AshaApart a x.1 := by
  refine h.induct (Q := fun x => AshaApart a x.1) ⟨hl, hw, ?_⟩ ?_
  · intro k hk
    have : (ashaStart a l w : Asha World Nat).rungs.map Prod.fst = a.levels := by
      show (a.levels.map fun k => (k, ([] : List (RungEntry Nat)))).map Prod.fst = a.levels
      rw [List.map_map]
      exact List.map_id _
    rw [show ((ashaStart a l w, lib₀).1 : Asha World Nat).rungs.map Prod.fst = a.levels from this] at hk
    exact (mem_levels.1 hk).1
  · intro x y hm ih
    rcases halving_move hm with he | ⟨i, p, he, hi⟩
    · rw [he]; exact ih
    · rw [he]
      refine ashaApart_step _ _ _ _ _ ⟨ih.1, ih.2, ih.3⟩ ?_
      intro k r w hwait
      rcases hi k r w hwait with h | ⟨j, v, h⟩
      · rw [h]
      · rw [h, recordFitness_length]

theorem halving_moves (c : OpConfig) (cxpb : ℚ) (a : AshaConfig) {K : Coding Fn V (Nat × Nat)}
    {Jb : Jobs Fn V X Ω} {report : V → Findings E P} {lib : LibConfig} (hK : Faithful K Jb)
    (ha : Agrees (halving c cxpb a K Jb report lib)) (l : List Nat) (w : World)
    (lib₀ : Lib E P (List Score)) (n : Nat) (limit : Option ℚ) (logfile : Bool) (D : List (Str × V))
    (es : List (WholeEvent Nat Ω)) :
    Moves (halving c cxpb a K Jb report lib) D (ashaStart a l w, lib₀)
      (wholeRun (halving c cxpb a K Jb report lib) es
        (wholeStart (ashaStart a l w) lib₀ n limit logfile D)).core :=
  whole_moves (U := halving c cxpb a K Jb report lib) (ashaClient_lawful (gamaOps c cxpb) a)
    (fun _ _ _ _ h => congrArg Asha.pending h) hK ha rfl rfl rfl lib₀ n limit logfile D es

/-- The invariant of `asha` in a whole fit. -/
theorem halving_core (c : OpConfig) (cxpb : ℚ) (a : AshaConfig) {K : Coding Fn V (Nat × Nat)}
    {Jb : Jobs Fn V X Ω} {report : V → Findings E P} {lib : LibConfig} (hK : Faithful K Jb)
    (ha : Agrees (halving c cxpb a K Jb report lib)) (l : List Nat) (w : World)
    (lib₀ : Lib E P (List Score)) (n : Nat) (limit : Option ℚ) (logfile : Bool)
    (D : List (Str × V)) (es : List (WholeEvent Nat Ω)) :
    let s := (wholeRun (halving c cxpb a K Jb report lib) es
        (wholeStart (ashaStart a l w) lib₀ n limit logfile D)).joint.search
    ∃ p rec, rec.Sublist s.history ∧
      AshaCore a l s.rungs s.promoted s.candidates p s.submitted s.history rec := by
  intro s
  have hok := whole_ok (U := halving c cxpb a K Jb report lib) (ashaClient_lawful (gamaOps c cxpb) a)
    (fun _ _ _ _ h => congrArg Asha.pending h) hK ha (start := ashaStart a l w) rfl rfl rfl lib₀ n limit logfile D es
  obtain ⟨is, p, h1, -, -⟩ := hok.sim
  have h2 : AshaOK a l (ashaRun (gamaOps c cxpb) a is (ashaStart a l w)) := ashaOK_run _ _ _ _ _ (ashaOK_start _ _ _)
  have e : ∀ (is : List (AshaInput World)) (s : Asha World Nat),
      (halving c cxpb a K Jb report lib).client.run is s = ashaRun (gamaOps c cxpb) a is s := by
    intro is
    induction is with
    | nil => intro s; rfl
    | cons i is ih => intro s; exact ih _
  have h3 : ashaRun (gamaOps c cxpb) a is (ashaStart a l w) = { s with pending := p } := by
    rw [← e]; exact h1
  rw [h3] at h2
  refine ⟨p, _, ?_, h2.core⟩
  unfold recorded
  split
  · exact List.dropLast_sublist _
  · exact List.Sublist.refl _

/-- No individual is submitted twice to the same rung. -/
theorem halving_once (c : OpConfig) (cxpb : ℚ) (a : AshaConfig) {K : Coding Fn V (Nat × Nat)}
    {Jb : Jobs Fn V X Ω} {report : V → Findings E P} {lib : LibConfig} (hK : Faithful K Jb)
    (ha : Agrees (halving c cxpb a K Jb report lib)) {l : List Nat} (hl : l.Nodup) {w : World}
    (hw : ∀ x ∈ l, x < w.inds.length) (lib₀ : Lib E P (List Score)) (n : Nat) (limit : Option ℚ) (logfile : Bool)
    (D : List (Str × V)) (es : List (WholeEvent Nat Ω)) :
    (wholeRun (halving c cxpb a K Jb report lib) es
        (wholeStart (ashaStart a l w) lib₀ n limit logfile D)).joint.search.submitted.Nodup := by
  have hap := halving_apart hl hw (halving_moves c cxpb a hK ha l w lib₀ n limit logfile D es)
  obtain ⟨p, rec, h1, h2⟩ := halving_core c cxpb a hK ha l w lib₀ n limit logfile D es
  exact AshaCore.once h2 h1 (List.nodup_append.1 hap.once).1

/-- Only evaluations on the top rung are without an error, asha.py l.213-218. -/
theorem halving_oneEach (c : OpConfig) (cxpb : ℚ) (a : AshaConfig) {K : Coding Fn V (Nat × Nat)}
    {Jb : Jobs Fn V X Ω} {report : V → Findings E P} {lib : LibConfig} (hK : Faithful K Jb) :
    (∀ D j r, Returned (halving c cxpb a K Jb report lib) D j r → r.error = none → j.2 = a.maxRung) ∧
    OneEach (halving c cxpb a K Jb report lib) := by
  have top : ∀ D j r, Returned (halving c cxpb a K Jb report lib) D j r → r.error = none → j.2 = a.maxRung := by
    rintro D j r ⟨kw, ω, v, v', -, hc, hv, -, -, he, -⟩ hn
    rw [hn] at he
    have he : none = rungError (K.read v').1.2 a.maxRung (report v').error := he
    have hj : (K.read v').1 = j := by
      obtain ⟨r1, r2⟩ := hK.read j kw ω v hc
      rcases hv with rfl | ⟨-, rfl⟩
      · exact r1
      · exact r2
    rw [hj] at he
    exact ((C40_full _ _ _).1.1 he.symm).2
  refine ⟨top, ?_⟩
  intro D i j r r' hr hr' he he' hid
  have hid : i.1 = j.1 := hid
  exact Prod.ext hid ((top D i r hr he).trans (top D j r' hr' he').symm)

theorem asha_raised {a : AshaConfig} {o : SearchOps World Nat} {t : Asha World Nat} {e : Exn}
    (hw : ashaWaits a t = true) :
    (ashaStep o a ⟨.raises e, 0⟩ t).pc = ashaHandle (ashaStep o a ⟨.raises e, 0⟩ t).rungs e := by
  unfold ashaWaits at hw
  cases hpc : t.pc <;> rw [hpc] at hw <;> first | cases hw | skip
  cases hm : ashaMore a t with
  | error e => dsimp only at hw; rw [hm] at hw; cases hw
  | ok b =>
    dsimp only at hw
    rw [hm] at hw
    dsimp only at hw
    subst hw
    unfold ashaStep
    dsimp only
    rw [hpc]
    dsimp only
    rw [hm]

theorem halving_library (c : OpConfig) (cxpb : ℚ) (a : AshaConfig) {K : Coding Fn V (Nat × Nat)}
    {Jb : Jobs Fn V X Ω} {report : V → Findings E P} {lib : LibConfig} (hK : Faithful K Jb)
    (ha : Agrees (halving c cxpb a K Jb report lib)) {l : List Nat} (hl : l.Nodup) {w : World}
    (hw : ∀ x ∈ l, x < w.inds.length) {rows : Nat}
    (hrows : RowsAre (halving c cxpb a K Jb report lib) rows) {stratify : Option Nat}
    (hstrat : ∀ k, stratify = some k → k = rows) {rnd : Stream} {lib₀ : Lib E P (List Score)}
    (hlib : startLibrary lib stratify rnd = .ok lib₀) (n : Nat) (limit : Option ℚ) (logfile : Bool)
    (D : List (Str × V)) (es : List (WholeEvent Nat Ω)) :
    let U := halving c cxpb a K Jb report lib
    let s := wholeRun U es (wholeStart (ashaStart a l w) lib₀ n limit logfile D)
    ∃ told extra, List.Forall₂ (ToldAs U D)
        (results (s.joint.search.history.map fun x => ((x.1, x.2.1), x.2.2))) told ∧
      (extra = [] ∨ ∃ r j e, extra = [r] ∧ Returned U D j r ∧ j ∈ s.joint.search.submitted ∧
        j ∉ (s.joint.search.history.map fun x => (x.1, x.2.1)) ∧
        s.joint.search.pc = ashaHandle s.joint.search.rungs e) ∧
      s.lib = saveAll lib (told ++ extra) lib₀ ∧ SameSize rows (told ++ extra) ∧ DistinctIds (told ++ extra) ∧
      LibraryOf lib (told ++ extra) s.lib ∧
      ∀ g ∈ told ++ extra, ∃ j ∈ s.joint.search.submitted, Returned U D j g := by
  intro U s
  have hmoves := halving_moves c cxpb a hK ha l w lib₀ n limit logfile D es
  have honce := halving_once c cxpb a hK ha hl hw lib₀ n limit logfile D es
  have hrec : Records U D lib₀ (fun _ _ => True) s.core :=
    hmoves.induct ⟨[], [], rfl, .nil, Or.inl rfl, fun _ h => nomatch h⟩ fun x y hm ih =>
      records_move (ashaClient_lawful (gamaOps c cxpb) a) hm (fun _ _ => trivial) (fun _ _ _ _ _ => trivial) ih
  have hsp := history_subperm (U := U) (ashaClient_lawful (gamaOps c cxpb) a) rfl hmoves
  obtain ⟨told, extra, h1, h2, h3, h4, h5, h6, -⟩ := library_of_records (U := U) (x := s.core) (halving_oneEach c cxpb a hK).2
    hrows hstrat hlib honce hsp hrec
  have hsub : ∀ p ∈ (s.joint.search.history.map fun x => ((x.1, x.2.1), x.2.2)), p.1 ∈ s.joint.search.submitted := by
    intro p hp
    exact hsp.subset (List.mem_map.2 ⟨p, hp, rfl⟩)
  refine ⟨told, extra, h1, ?_, h3, h4, h5, h6, ?_⟩
  · rcases h2 with h2 | ⟨r, j, e1, e2, e3, e4, t, e, e5, e6⟩
    · exact Or.inl h2
    · refine Or.inr ⟨r, j, e, e1, e2, e3, ?_, ?_⟩
      · have e4 : j ∉ (s.joint.search.history.map fun x => ((x.1, x.2.1), x.2.2)).map Prod.fst := e4
        rw [List.map_map] at e4
        exact e4
      · show s.core.1.pc = ashaHandle s.core.1.rungs e
        rw [e6]
        exact asha_raised e5
  · intro g hg
    rcases List.mem_append.1 hg with hg | hg
    · obtain ⟨p, hp, hx⟩ := forall₂_right h1 g hg
      exact ⟨p.1, hsub p ((results_sublist _).subset hp), hx.1⟩
    · rcases h2 with rfl | ⟨r, j, rfl, e2, e3, -⟩
      · cases hg
      · rw [List.mem_singleton.1 hg]
        exact ⟨j, e3, e2⟩

end
end Gama
