import Verif.Lemmas.Loop

/-! Helper lemmas: the loop of `run_iteration(target_time)` under two iteration limits. -/

set_option linter.unusedSectionVars false

namespace Dorado

variable {K : Type} [Field K] [LinearOrder K] [IsStrictOrderedRing K] [FloorRing K] {A : Arith K} {F : Fun K A}

/-- A loop which was not stopped by the limit goes the same way under a larger one. -/
theorem targetLoop_more {P : PObj K} {ω : Nat → K} {target : Fl K} {m m' : Int} (hm : m ≤ m') {keys : List String} {ii : Nat} (fuel : Nat)
    {fuel' : Nat} (hf : fuel ≤ fuel') {wd out : WalkData K} {s s' : World K} {est : Fl K} {c : Int}
    (h : targetLoop A F P ω target m keys ii fuel wd s est c = .ok (out, s', false)) :
    targetLoop A F P ω target m' keys ii fuel' wd s est c = .ok (out, s', false) := by
  induction fuel generalizing fuel' wd s est c with
  | zero =>
    unfold targetLoop at h ⊢
    simp only [bind_ok] at h ⊢
    obtain ⟨t, ht, h⟩ := h
    refine ⟨t, ht, ?_⟩
    split at h
    · cases h
    · rename_i hc
      rw [if_neg hc]
      exact h
  | succ fuel ih =>
    obtain ⟨f, rfl⟩ : ∃ f, fuel' = f + 1 := ⟨fuel' - 1, by omega⟩
    unfold targetLoop at h ⊢
    simp only [bind_ok] at h ⊢
    obtain ⟨t, ht, h⟩ := h
    refine ⟨t, ht, ?_⟩
    split at h
    · rename_i hc
      rw [if_pos hc]
      simp only [bind_ok] at h ⊢
      obtain ⟨x, hx, y, hy, ⟨⟨news, times, upd⟩, s1⟩, hst, n, hn, h⟩ := h
      refine ⟨x, hx, y, hy, ((news, times, upd), s1), hst, n, hn, ?_⟩
      split at h
      · rename_i hne
        rw [if_pos hne]
        simp only [bind_ok] at h ⊢
        obtain ⟨t1, ht1, vals, hv, h⟩ := h
        refine ⟨t1, ht1, vals, hv, ?_⟩
        split at h
        · simp [pure, Except.pure] at h
        · rename_i hl
          rw [if_neg (by omega)]
          exact ih (by omega) h
      · rename_i hne
        rw [if_neg hne]
        exact h
    · rename_i hc
      rw [if_neg hc]
      exact h

/-- Under a larger limit the loop records at least what it records under the smaller one. -/
theorem targetLoop_begins {P : PObj K} (G : Good P) {ω : Nat → K} {target : Fl K} {m m' : Int} (hm : m ≤ m') {ii : Nat} (fuel : Nat)
    {fuel' : Nat} (hf : fuel ≤ fuel') {rows : List (Row K)} {out out' : WalkData K} {s sa sb : World K} {est : Fl K} {c : Int} {ha hb : Bool}
    (hw : PickEquiv A F P s.weight)
    (h : targetLoop A F P ω target m (keysOf P) ii fuel (ofRows (keysOf P) rows) s est c = .ok (out, sa, ha))
    (h' : targetLoop A F P ω target m' (keysOf P) ii fuel' (ofRows (keysOf P) rows) s est c = .ok (out', sb, hb)) :
    ∃ r r', out = ofRows (keysOf P) (rows.set ii r) ∧ out' = ofRows (keysOf P) (rows.set ii r') ∧ Row.Prefix r r' := by
  induction fuel generalizing fuel' rows s est c with
  | zero =>
    have : ha = false := by
      unfold targetLoop at h
      simp only [bind_ok] at h
      obtain ⟨t, -, h⟩ := h
      split at h
      · cases h
      · simp only [pure_ok, Prod.mk.injEq] at h
        exact h.2.2.symm
    subst this
    obtain ⟨-, r, r', est', e, n, -, rfl, -⟩ := targetLoop_inv A F G _ hw h
    rw [targetLoop_more hm _ hf h] at h'
    simp only [Except.ok.injEq, Prod.mk.injEq] at h'
    exact ⟨r', r', rfl, h'.1.symm, .refl _⟩
  | succ fuel ih =>
    cases hha : ha with
    | false =>
      subst hha
      obtain ⟨-, r, r', est', e, n, -, rfl, -⟩ := targetLoop_inv A F G _ hw h
      rw [targetLoop_more hm _ hf h] at h'
      simp only [Except.ok.injEq, Prod.mk.injEq] at h'
      exact ⟨r', r', rfl, h'.1.symm, .refl _⟩
    | true =>
      subst hha
      obtain ⟨f, rfl⟩ : ∃ f, fuel' = f + 1 := ⟨fuel' - 1, by omega⟩
      unfold targetLoop at h h'
      simp only [bind_ok] at h h'
      obtain ⟨t, ht, h⟩ := h
      obtain ⟨t', ht', h'⟩ := h'
      rw [ht] at ht'
      injection ht' with ht'; subst ht'
      obtain ⟨r, hr, -⟩ := lastAt_ofRows (f := fun r => r.ts) ht
      split at h
      · rename_i hc
        rw [if_pos hc] at h'
        simp only [bind_ok] at h h'
        obtain ⟨x, hx, y, hy, ⟨⟨news, times, upd⟩, s1⟩, hst, n, hn, h⟩ := h
        obtain ⟨x', hx', y', hy', ⟨⟨news', times', upd'⟩, s1'⟩, hst', n', hn', h'⟩ := h'
        rw [hx] at hx'
        injection hx' with hx'; subst hx'
        rw [hy] at hy'
        injection hy' with hy'; subst hy'
        rw [hst] at hst'
        simp only [Except.ok.injEq, Prod.mk.injEq] at hst'
        obtain ⟨⟨rfl, rfl, rfl⟩, rfl⟩ := hst'
        simp only at hn hn' h h'
        rw [hn] at hn'
        injection hn' with hn'; subst hn'
        obtain ⟨hw1, -⟩ := particleStepper_inv A F G hw hst
        split at h
        · rename_i hne
          rw [if_pos hne] at h'
          simp only [bind_ok] at h h'
          obtain ⟨t1, ht1, vals, hv, h⟩ := h
          obtain ⟨t1', ht1', vals', hv', h'⟩ := h'
          rw [ht1] at ht1'
          injection ht1' with ht1'; subst ht1'
          rw [hv] at hv'
          injection hv' with hv'; subst hv'
          obtain ⟨v, rfl, -⟩ := pickOpt_inv hv
          rw [appendRec_ofRows] at h h'
          have hmod : rows.modify ii (fun r => r.append n t1 v) = rows.set ii (r.append n t1 v) := by
            rw [List.modify_eq_set_getElem?, hr]; rfl
          rw [hmod] at h h'
          have hlt : ii < rows.length := (List.getElem?_eq_some_iff.1 hr).1
          split at h
          · simp only [pure_ok, Prod.mk.injEq] at h
            obtain ⟨rfl, -⟩ := h
            refine ⟨r.append n t1 v, ?_⟩
            split at h'
            · simp only [pure_ok, Prod.mk.injEq] at h'
              obtain ⟨rfl, -⟩ := h'
              exact ⟨_, rfl, rfl, .refl _⟩
            · obtain ⟨-, r3, r4, est4, e, k, hr3, hout, hrun, -⟩ := targetLoop_inv A F G _ hw1 h'
              rw [List.getElem?_set_self hlt] at hr3
              injection hr3 with hr3; subst hr3
              refine ⟨r4, rfl, ?_, hrun.steps.prefix⟩
              rw [hout, List.set_set]
          · rename_i hl
            rw [if_neg (by omega)] at h'
            obtain ⟨ra, rb, e1, e2, hp⟩ := ih (by omega) hw1 h h'
            refine ⟨ra, rb, ?_, ?_, hp⟩
            · rw [e1, List.set_set]
            · rw [e2, List.set_set]
        · simp [pure, Except.pure] at h
      · simp [pure, Except.pure] at h

theorem targetOne_more {P : PObj K} {ω : Nat → K} {target : Fl K} {m m' : Int} (hm : m ≤ m') {keys : List String} {ii : Nat}
    {wd out : WalkData K} {s s' : World K} (h : targetOne A F P ω target m keys wd s ii = .ok (out, s', false)) :
    targetOne A F P ω target m' keys wd s ii = .ok (out, s', false) := by
  unfold targetOne at h ⊢
  simp only [bind_ok] at h ⊢
  obtain ⟨ts, hts, x, hx, y, hy, h⟩ := h
  refine ⟨ts, hts, x, hx, y, hy, ?_⟩
  split at h
  · rename_i he
    rw [if_pos he]
    exact h
  · rename_i he
    rw [if_neg he]
    exact targetLoop_more hm _ (by omega) h

theorem targetOne_begins {P : PObj K} (G : Good P) {ω : Nat → K} {target : Fl K} {m m' : Int} (hm : m ≤ m') {ii : Nat}
    {rows : List (Row K)} {out out' : WalkData K} {s sa sb : World K} {ha hb : Bool} (hw : PickEquiv A F P s.weight)
    (h : targetOne A F P ω target m (keysOf P) (ofRows (keysOf P) rows) s ii = .ok (out, sa, ha))
    (h' : targetOne A F P ω target m' (keysOf P) (ofRows (keysOf P) rows) s ii = .ok (out', sb, hb)) :
    ∃ r r', out = ofRows (keysOf P) (rows.set ii r) ∧ out' = ofRows (keysOf P) (rows.set ii r') ∧ Row.Prefix r r' := by
  obtain ⟨-, r, r', -, hout, -⟩ := targetOne_inv A F G hw h
  unfold targetOne at h h'
  simp only [bind_ok] at h h'
  obtain ⟨ts, hts, x, hx, y, hy, h⟩ := h
  obtain ⟨ts', hts', x', hx', y', hy', h'⟩ := h'
  rw [hts] at hts'
  injection hts' with hts'; subst hts'
  rw [hx] at hx'
  injection hx' with hx'; subst hx'
  rw [hy] at hy'
  injection hy' with hy'; subst hy'
  split at h
  · rename_i he
    rw [if_pos he] at h'
    rw [h] at h'
    simp only [Except.ok.injEq, Prod.mk.injEq] at h'
    exact ⟨r', r', hout, h'.1 ▸ hout, .refl _⟩
  · rename_i he
    rw [if_neg he] at h'
    exact targetLoop_begins G hm _ (by omega) hw h h'

/-- A particle stopped by the limit has as many new records as the limit admits. -/
theorem TargetOutcome.full {P : PObj K} {ω : Nat → K} {target : Fl K} {m : Int} {r r' : Row K}
    (h : TargetOutcome A F P ω target m r r' true) : (r'.xs.length : Int) = r.xs.length + max 1 m := by
  obtain ⟨p, -, ⟨-, -, h0⟩ | ⟨-, est', e, n, hloop, hh⟩⟩ := h
  · cases h0
  · obtain ⟨hc, hb⟩ := hloop.count
    obtain ⟨-, -, -, -, -, -, h6, -⟩ := hloop.spec
    have := h6.1 (hh.1 rfl)
    rw [hc]
    push_cast
    have h1 := le_max_left 1 m
    have h2 := le_max_right 1 m
    have h3 := max_choice 1 m
    generalize max 1 m = M at h1 h2 h3
    omega

/-- If no particle of a list was stopped by the limit, the loop over the list is the same under a larger limit. -/
theorem targetAll_more {P : PObj K} (G : Good P) {ω : Nat → K} {target : Fl K} {m m' : Int} (hm : m ≤ m') (is : List Nat) (hnd : is.Nodup)
    {rows rows' : List (Row K)} {s s' : World K} {w0 warn : Option (List Nat)} {out : WalkData K} (hw : PickEquiv A F P s.weight)
    (h : targetAll A F P ω target m (keysOf P) is (ofRows (keysOf P) rows) s w0 = .ok (out, s', warn)) (ho : out = ofRows (keysOf P) rows')
    (hf : ∀ i ∈ is, ∀ r r', rows[i]? = some r → rows'[i]? = some r' → (r'.xs.length : Int) ≠ r.xs.length + max 1 m) :
    targetAll A F P ω target m' (keysOf P) is (ofRows (keysOf P) rows) s w0 = .ok (out, s', warn) := by
  induction is generalizing rows s w0 with
  | nil => exact h
  | cons a is ih =>
    have hall := h
    simp only [targetAll, bind_ok] at h ⊢
    obtain ⟨⟨wd1, s1, hit⟩, h1, h⟩ := h
    rw [List.nodup_cons] at hnd
    obtain ⟨hw1, r0, r1, hr0, rfl, hto⟩ := targetOne_inv A F G hw h1
    obtain ⟨-, rows2, hits, hout, hlen, hrows, -⟩ := targetAll_inv A F G is hnd.2 hw1 h
    have hlt : a < rows.length := (List.getElem?_eq_some_iff.1 hr0).1
    have hxs : ∀ i : Nat, (rows2[i]?).map (·.xs) = (rows'[i]?).map (·.xs) := by
      intro i
      have := congrArg WalkData.xinds (hout.symm.trans ho)
      have := congrArg (·[i]?) this
      simpa [ofRows] using this
    have hhit : hit = false := by
      cases hit with
      | false => rfl
      | true =>
        exfalso
        obtain ⟨r', hr', hn, -⟩ := hrows a r1 (List.getElem?_set_self hlt)
        have := hn hnd.1
        subst this
        have hx := hxs a
        rw [hr'] at hx
        cases hq : rows'[a]? with
        | none => rw [hq] at hx; cases hx
        | some r2 =>
          rw [hq] at hx
          simp only [Option.map_some, Option.some.injEq] at hx
          refine hf a (by simp) r0 r2 hr0 hq ?_
          rw [← hx]
          exact hto.full
    subst hhit
    refine ⟨(_, s1, false), targetOne_more hm h1, ?_⟩
    refine ih hnd.2 hw1 h ?_
    intro i hi r r' hr hr'
    have hia : i ≠ a := fun e => hnd.1 (e ▸ hi)
    rw [List.getElem?_set_ne (Ne.symm hia)] at hr
    exact hf i (by simp [hi]) r r' hr hr'

theorem targetAll_append {P : PObj K} {ω : Nat → K} {target : Fl K} {m : Int} {keys : List String} (l1 l2 : List Nat) (wd : WalkData K)
    (s : World K) (w0 : Option (List Nat)) : targetAll A F P ω target m keys (l1 ++ l2) wd s w0 =
      (targetAll A F P ω target m keys l1 wd s w0 >>= fun x => targetAll A F P ω target m keys l2 x.1 x.2.1 x.2.2) := by
  induction l1 generalizing wd s w0 with
  | nil => rfl
  | cons a l ih =>
    simp only [List.cons_append, targetAll]
    cases targetOne A F P ω target m keys wd s a with
    | error e => rfl
    | ok x =>
      obtain ⟨wd1, s1, hit⟩ := x
      simp only [ok_bind]
      exact ih _ _ _

/-- `run_iteration(target_time)` on rows: only the loop over the particles depends on the limit. -/
theorem runTarget_ok {P : PObj K} {ω : Nat → K} {tgt : Fl K} {m : Int} {s : PState K} {rows : List (Row K)} (hr : HasRows P s rows)
    {res : RunResult K} (h : runIteration A F P ω s (some tgt) m = .ok res) :
    (∃ out w1 l, targetAll A F P ω tgt m (keysOf P) (List.range rows.length) (ofRows (keysOf P) rows) s.world none = .ok (out, w1, some l) ∧
      res = ⟨out, ⟨w1, rows.length, some out⟩, if P.verbose then l else []⟩) ∧
    ∀ m' out w1 l, targetAll A F P ω tgt m' (keysOf P) (List.range rows.length) (ofRows (keysOf P) rows) s.world none = .ok (out, w1, some l) →
      runIteration A F P ω s (some tgt) m' = .ok ⟨out, ⟨w1, rows.length, some out⟩, if P.verbose then l else []⟩ := by
  have hnp' : (if s.np = 0 then (ofRows (keysOf P) rows).xinds.length else s.np) = rows.length := by
    rw [hr.2]
    split <;> simp [ofRows]
  have hkeys : (dictOf (keysOf P) fun k => rows.map fun r => r.os k).map (fun x => x.1) = keysOf P := by
    unfold dictOf; rw [List.map_map]; simp [Function.comp_def]
  have hwd : WalkData.mk (ofRows (keysOf P) rows).xinds (ofRows (keysOf P) rows).yinds
      (ofRows (keysOf P) rows).times (dictOf (keysOf P) fun k => rows.map fun r => r.os k) = ofRows (keysOf P) rows := rfl
  unfold runIteration at h ⊢
  rw [hr.1] at h ⊢
  simp only at h ⊢
  rw [hnp'] at h ⊢
  simp only [optionalVars_ofRows, bind_ok, hkeys, hwd] at h ⊢
  obtain ⟨sx, hsx, sy, hsy, st, hst, o, ho, ⟨out, w1, warn⟩, hall, h⟩ := h
  constructor
  · cases warn with
    | none => cases h
    | some l =>
      simp only [pure_ok] at h
      exact ⟨out, w1, l, hall, h.symm⟩
  · intro m' out' w1' l' hall'
    exact ⟨sx, hsx, sy, hsy, st, hst, o, ho, (out', w1', some l'), hall', rfl⟩

end Dorado
