import Verif.Lemmas.Total

/-! Helper lemmas: `run_iteration` succeeds on interior particles. -/

set_option linter.unusedSectionVars false

namespace Dorado

variable {K : Type} [Field K] [LinearOrder K] [IsStrictOrderedRing K] [FloorRing K] {A : Arith K} {F : Fun K A}

/-- Aligned row whose last position is interior. -/
structure RowOk (P : PObj K) (r : Row K) : Prop where
  vars : VarInv (fun _ _ _ => True) (keysOf P) r
  inside : ∀ p, r.lastPos p → Inside P.depth.rows P.depth.cols p

theorem RowOk.last {P : PObj K} {r : Row K} (h : RowOk P r) :
    ∃ p t, r.lastPos p ∧ r.ts.getLast? = some t ∧ Inside P.depth.rows P.depth.cols p := by
  obtain ⟨h1, h2, h3⟩ := h.vars.aligned
  have hx : r.xs ≠ [] := by rintro h0; rw [h0] at h3; simp at h3
  have hy : r.ys ≠ [] := by rintro h0; rw [h0] at h1; simp at h1; omega
  have ht : r.ts ≠ [] := by rintro h0; rw [h0] at h2; simp at h2; omega
  have hp : r.lastPos (r.xs.getLast hx, r.ys.getLast hy) := ⟨List.getLast?_eq_some_getLast hx, List.getLast?_eq_some_getLast hy⟩
  exact ⟨_, _, hp, List.getLast?_eq_some_getLast ht, h.inside _ hp⟩

theorem RowStep.rowOk {P : PObj K} (R : Routable A P) {ω : Nat → K} {r r' : Row K} (h : RowOk P r) (hs : RowStep A F P ω r r') :
    RowOk P r' := by
  refine ⟨rowStep_vars (fun _ _ _ _ _ => trivial) h.vars hs, fun q hq => ?_⟩
  obtain ⟨p, t, q', t', v, hp, ht, hso, hne, hv, rfl⟩ := hs
  have : q = q' := by
    obtain ⟨h1, h2⟩ := hq
    simp [Row.append] at h1 h2
    exact Prod.ext h1.symm h2.symm
  subst this
  obtain ⟨k, q0, d, m, m', dt, -, hq0, hd, rfl, -, -⟩ := hso
  exact dest_inside R.fields.good R.walk R.steps R.ring (h.inside p hp) hq0 hd

theorem targetLoop_total {P : PObj K} (R : Routable A P) {ω : Nat → K} (hω : Draws ω) {target : Fl K} {maxIter : Int} {ii : Nat} (fuel : Nat)
    {rows : List (Row K)} {s : World K} {est : Fl K} {count : Int} (hw : PickEquiv A F P s.weight) {r : Row K} (hr : rows[ii]? = some r)
    (hok : RowOk P r) (hf : 1 ≤ fuel) (hc : maxIter + 2 ≤ fuel + count) :
    ∃ res, targetLoop A F P ω target maxIter (keysOf P) ii fuel (ofRows (keysOf P) rows) s est count = .ok res := by
  induction fuel generalizing rows s est count r with
  | zero => omega
  | succ fuel ih =>
    obtain ⟨p, t, hp, ht, hin⟩ := hok.last
    unfold targetLoop
    rw [show lastAt (ofRows (keysOf P) rows).times ii = .ok t from lastAt_ofRows' (f := fun r => r.ts) hr ht]
    simp only [ok_bind]
    split
    · rw [show lastAt (ofRows (keysOf P) rows).xinds ii = .ok p.1 from lastAt_ofRows' (f := fun r => r.xs) hr hp.1]
      simp only [ok_bind]
      rw [show lastAt (ofRows (keysOf P) rows).yinds ii = .ok p.2 from lastAt_ofRows' (f := fun r => r.ys) hr hp.2]
      simp only [ok_bind]
      obtain ⟨news, times, upd, s1, hst, hupd⟩ := particleStepper_total (F := F) R hω hw (cur := [(p.1, p.2)]) (by simpa using hin) [t] (keysOf P)
        (fun _ h => h)
      rw [hst]
      simp only [ok_bind]
      obtain ⟨hw1, hlen, hstep, hopt⟩ := particleStepper_inv A F R.fields.good hw hst
      obtain ⟨q, t1, hq, ht1, hso⟩ := hstep 0 (p.1, p.2) t rfl rfl
      rw [listGet_ok.2 hq]
      simp only [ok_bind]
      by_cases hqp : q = (p.1, p.2)
      · simp only [hqp, ne_eq, not_true, if_false]
        exact ⟨_, rfl⟩
      · simp only [ne_eq, hqp, not_false_eq_true, if_true]
        rw [listGet_ok.2 ht1]
        simp only [ok_bind]
        obtain ⟨vals, hvals⟩ := pickOpt_total (upd := upd) (keys := keysOf P) (k := 0) (fun key hk => by
          obtain ⟨l, hl⟩ := hupd key hk
          obtain ⟨v, hv, -⟩ := hopt key l 0 q hl hq
          exact ⟨l, v, hl, hv⟩)
        rw [hvals]
        simp only [ok_bind]
        split
        · exact ⟨_, rfl⟩
        · obtain ⟨v, rfl, hv⟩ := pickOpt_inv hvals
          rw [appendRec_ofRows]
          refine ih hw1 (r := r.append q t1 v) (by rw [List.getElem?_modify]; simp [hr]) ?_ (by omega) (by push_cast at hc; omega)
          refine RowStep.rowOk (F := F) R hok (ω := ω) ⟨p, t, q, t1, v, hp, ht, hso, hqp, fun key hkey => ?_, rfl⟩
          obtain ⟨l, hl, hl'⟩ := hv key hkey
          obtain ⟨w, hw2, hw3⟩ := hopt key l 0 q hl hq
          rw [hl'] at hw2
          injection hw2 with hw2
          rw [hw2]; exact hw3
    · exact ⟨_, rfl⟩

theorem targetOne_total {P : PObj K} (R : Routable A P) {ω : Nat → K} (hω : Draws ω) {target : Fl K} {maxIter : Int} {ii : Nat}
    {rows : List (Row K)} {s : World K} (hw : PickEquiv A F P s.weight) {r : Row K} (hr : rows[ii]? = some r) (hok : RowOk P r) :
    ∃ res, targetOne A F P ω target maxIter (keysOf P) (ofRows (keysOf P) rows) s ii = .ok res := by
  obtain ⟨p, t, hp, ht, hin⟩ := hok.last
  unfold targetOne
  have hts : listGet (ofRows (keysOf P) rows).times ii = .ok r.ts := by
    rw [listGet_ok]
    show (rows.map _)[ii]? = _
    rw [List.getElem?_map, hr]; rfl
  rw [hts]
  simp only [ok_bind]
  rw [show lastAt (ofRows (keysOf P) rows).xinds ii = .ok p.1 from lastAt_ofRows' (f := fun r => r.xs) hr hp.1]
  simp only [ok_bind]
  rw [show lastAt (ofRows (keysOf P) rows).yinds ii = .ok p.2 from lastAt_ofRows' (f := fun r => r.ys) hr hp.2]
  simp only [ok_bind]
  split
  · exact ⟨_, rfl⟩
  · exact targetLoop_total R hω _ hw hr hok (by omega) (by push_cast; omega)

theorem targetAll_total {P : PObj K} (R : Routable A P) {ω : Nat → K} (hω : Draws ω) {target : Fl K} {maxIter : Int} (is : List Nat)
    {rows : List (Row K)} {s : World K} (hw : PickEquiv A F P s.weight) (hi : ∀ i ∈ is, i < rows.length) (hok : ∀ r ∈ rows, RowOk P r)
    (w : Option (List Nat)) :
    ∃ out s' w', targetAll A F P ω target maxIter (keysOf P) is (ofRows (keysOf P) rows) s w = .ok (out, s', w') ∧
      (w' = none → is = [] ∧ w = none) := by
  induction is generalizing rows s w with
  | nil => exact ⟨_, _, _, rfl, fun h => ⟨rfl, h⟩⟩
  | cons a is ih =>
    have ha := List.getElem?_eq_getElem (hi a (by simp))
    obtain ⟨⟨out, s1, hit⟩, h1⟩ := targetOne_total (F := F) R hω (target := target) (maxIter := maxIter) hw ha (hok _ (List.getElem_mem _))
    obtain ⟨hw1, r, r', hr, rfl, hto⟩ := targetOne_inv A F R.fields.good hw h1
    unfold targetAll
    rw [h1]
    simp only [ok_bind]
    have hok' : ∀ x ∈ rows.set a r', RowOk P x := by
      intro x hx
      rcases List.mem_or_eq_of_mem_set hx with hx | rfl
      · exact hok x hx
      · exact (hto.steps A F).inv A F (Q := RowOk P) (fun r r' h hs => RowStep.rowOk (F := F) R h hs) (hok r (List.mem_of_getElem? hr))
    obtain ⟨out2, s2, w2, h2, h3⟩ := ih hw1 (fun i hi' => by simpa using hi i (by simp [hi'])) hok' (some (if hit then [a] else []))
    refine ⟨out2, s2, w2, h2, fun h => ?_⟩
    cases (h3 h).2

/-- `run_iteration` succeeds. -/
theorem runIteration_total {P : PObj K} (R : Routable A P) {ω : Nat → K} (hω : Draws ω) {s : PState K} {rows : List (Row K)}
    {target : Option (Fl K)} {maxIter : Int} (hw : PickEquiv A F P s.world.weight) (hrows : HasRows P s rows)
    (hok : ∀ r ∈ rows, RowOk P r) (ht : target = none ∨ rows ≠ []) : ∃ res, runIteration A F P ω s target maxIter = .ok res := by
  unfold runIteration
  rw [hrows.1]
  simp only
  have hnp' : (if s.np = 0 then (ofRows (keysOf P) rows).xinds.length else s.np) = rows.length := by
    rw [hrows.2]
    split
    · simp [ofRows]
    · rfl
  rw [hnp']
  simp only [optionalVars_ofRows]
  have hget : ∀ i ∈ List.range rows.length, ∃ r, rows[i]? = some r ∧ RowOk P r := fun i hi => by
    have hi : i < rows.length := by simpa using hi
    exact ⟨_, List.getElem?_eq_getElem hi, hok _ (List.getElem_mem hi)⟩
  obtain ⟨sx, hsx⟩ := mapE_exists (f := lastAt (ofRows (keysOf P) rows).xinds) (l := List.range rows.length) fun i hi => by
    obtain ⟨r, hr, hro⟩ := hget i hi
    obtain ⟨p, t, hp, ht, -⟩ := hro.last
    exact ⟨_, lastAt_ofRows' (f := fun r => r.xs) hr hp.1⟩
  obtain ⟨sy, hsy⟩ := mapE_exists (f := lastAt (ofRows (keysOf P) rows).yinds) (l := List.range rows.length) fun i hi => by
    obtain ⟨r, hr, hro⟩ := hget i hi
    obtain ⟨p, t, hp, ht, -⟩ := hro.last
    exact ⟨_, lastAt_ofRows' (f := fun r => r.ys) hr hp.2⟩
  obtain ⟨st, hst⟩ := mapE_exists (f := lastAt (ofRows (keysOf P) rows).times) (l := List.range rows.length) fun i hi => by
    obtain ⟨r, hr, hro⟩ := hget i hi
    obtain ⟨p, t, hp, ht, -⟩ := hro.last
    exact ⟨_, lastAt_ofRows' (f := fun r => r.ts) hr ht⟩
  obtain ⟨so, hso⟩ := mapE_exists (f := fun e : String × List (List (Val K)) => mapE (lastAt e.2) (List.range rows.length))
      (l := dictOf (keysOf P) fun k => rows.map fun r => r.os k) fun e he => by
    unfold dictOf at he
    obtain ⟨k, hk, rfl⟩ := List.mem_map.1 he
    refine mapE_exists fun i hi => ?_
    obtain ⟨r, hr, hro⟩ := hget i hi
    have hl := hro.vars.len k hk
    have h3 := hro.vars.aligned.2.2
    have hne : r.os k ≠ [] := by rintro h0; rw [h0] at hl; simp at hl; omega
    exact ⟨_, lastAt_ofRows' (f := fun r => r.os k) hr (List.getLast?_eq_some_getLast hne)⟩
  rw [hsx, hsy, hst]
  simp only [ok_bind]
  rw [hso]
  simp only [ok_bind]
  have hkeys : (dictOf (keysOf P) fun k => rows.map fun r => r.os k).map (fun x => x.1) = keysOf P := by
    unfold dictOf; rw [List.map_map]; simp [Function.comp_def]
  rw [hkeys]
  have hwd : WalkData.mk (ofRows (keysOf P) rows).xinds (ofRows (keysOf P) rows).yinds
      (ofRows (keysOf P) rows).times (dictOf (keysOf P) fun k => rows.map fun r => r.os k) = ofRows (keysOf P) rows := rfl
  rw [hwd]
  have hlx := mapE_length hsx
  have hly := mapE_length hsy
  have hlt := mapE_length hst
  cases target with
  | none =>
    simp only
    have hcur : ∀ p ∈ sx.zip sy, Inside P.depth.rows P.depth.cols p := by
      intro p hp
      obtain ⟨i, hi⟩ := List.getElem?_of_mem hp
      rw [List.getElem?_zip_eq_some] at hi
      obtain ⟨a, ha, ha'⟩ := mapE_get' hsx hi.1
      obtain ⟨b, hb, hb'⟩ := mapE_get' hsy hi.2
      rw [ha] at hb
      cases hb
      obtain ⟨r, hr, hx⟩ := lastAt_ofRows (f := fun r => r.xs) ha'
      obtain ⟨r2, hr2, hy⟩ := lastAt_ofRows (f := fun r => r.ys) hb'
      rw [hr] at hr2
      cases hr2
      exact (hok r (List.mem_of_getElem? hr)).inside p ⟨hx, hy⟩
    obtain ⟨news, times, upd, s1, hstep, hupd⟩ := particleStepper_total (F := F) R hω hw hcur st (keysOf P) (fun _ h => h)
    obtain ⟨hw1, hlen, hst1, hopt⟩ := particleStepper_inv A F R.fields.good hw hstep
    rw [hstep]
    simp only [ok_bind]
    obtain ⟨out, hout⟩ := storeSteps_total (starts := sx.zip sy) (news := news) (times := times) (upd := upd) (keys := keysOf P)
      (List.range rows.length) (fun i hi => by
        have hi' : i < rows.length := by simpa using hi
        have hp : ∃ p, (sx.zip sy)[i]? = some p := ⟨_, List.getElem?_eq_getElem (by simp [List.length_zip]; simp at hlx hly; omega)⟩
        have ht : ∃ t, st[i]? = some t := ⟨_, List.getElem?_eq_getElem (by simp at hlt; omega)⟩
        obtain ⟨p, hp⟩ := hp
        obtain ⟨t, ht⟩ := ht
        obtain ⟨q, t1, hq, ht1, -⟩ := hst1 i p t hp ht
        refine ⟨⟨q, hq⟩, ⟨p, hp⟩, ⟨t1, ht1⟩, fun key hk => ?_⟩
        obtain ⟨l, hl⟩ := hupd key hk
        obtain ⟨v, hv, -⟩ := hopt key l i q hl hq
        exact ⟨l, v, hl, hv⟩) (ofRows (keysOf P) rows)
    rw [hout]
    exact ⟨_, rfl⟩
  | some tgt =>
    simp only
    obtain ⟨out, s1, w, hall, hwn⟩ := targetAll_total (F := F) R hω (target := tgt) (maxIter := maxIter) (List.range rows.length) hw
      (fun i hi => by simpa using hi) hok none
    rw [hall]
    simp only [ok_bind]
    cases w with
    | none =>
      have := (hwn rfl).1
      rcases ht with h | h
      · cases h
      · exact absurd (by simpa using this) h
    | some l => exact ⟨_, rfl⟩

end Dorado
