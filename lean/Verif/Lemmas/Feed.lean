import Verif.Lemmas.Machine

/-! Helper lemmas: `run_iteration` deals draws to the machines of its particles. -/

set_option linter.unusedSectionVars false

namespace Dorado

open MeasureTheory

noncomputable section

section deal

variable {ι St : Type}

open Classical in
/-- The effect of an operation, whether it takes the draw or not. -/
def Op.act (o : Op St) (x : St) (u : ℝ) : St := if o.need x then o.draw x u else o.skip x

open Classical in
theorem dealStep_act (ω : Nat → ℝ) (st : ι → St) (pos : Nat) (io : ι × Op St) :
    dealStep ω (st, pos) io = (Function.update st io.1 (io.2.act (st io.1) (ω pos)), pos + if io.2.need (st io.1) then 1 else 0) := by
  unfold dealStep Op.act
  by_cases h : io.2.need (st io.1) <;> simp [h]

theorem deal_nil (ω : Nat → ℝ) (x : (ι → St) × Nat) : deal ω [] x = x := rfl

theorem deal_cons (ω : Nat → ℝ) (io : ι × Op St) (L : List (ι × Op St)) (x : (ι → St) × Nat) : deal ω (io :: L) x = deal ω L (dealStep ω x io) := rfl

theorem deal_append (ω : Nat → ℝ) (L L' : List (ι × Op St)) (x : (ι → St) × Nat) : deal ω (L ++ L') x = deal ω L' (deal ω L x) := by
  unfold deal
  rw [List.foldl_append]

open Classical in
theorem deal_untouched (ω : Nat → ℝ) {L : List (ι × Op St)} {i : ι} (h : ∀ io ∈ L, io.1 ≠ i) (x : (ι → St) × Nat) : (deal ω L x).1 i = x.1 i := by
  induction L generalizing x with
  | nil => rfl
  | cons io L ih =>
    obtain ⟨st, pos⟩ := x
    rw [deal_cons, ih (fun o ho => h o (by simp [ho])), dealStep_act]
    exact Function.update_of_ne (fun e => h io (by simp) e.symm) _ _

open Classical in
/-- One operation for each particle of a list. -/
theorem deal_common (ω : Nat → ℝ) (o : Op St) {l : List ι} (hl : l.Nodup) (st : ι → St) (pos : Nat) :
    (deal ω (l.map fun i => (i, o)) (st, pos)).2 = pos + l.countP (fun j => decide (o.need (st j))) ∧
    ∀ (n : Nat) i, l[n]? = some i → (deal ω (l.map fun i => (i, o)) (st, pos)).1 i =
      o.act (st i) (ω (pos + (l.take n).countP (fun j => decide (o.need (st j))))) := by
  induction l generalizing st pos with
  | nil => exact ⟨rfl, by simp⟩
  | cons a l ih =>
    rw [List.nodup_cons] at hl
    rw [List.map_cons, deal_cons, dealStep_act]
    obtain ⟨h1, h2⟩ := ih hl.2 (Function.update st a (o.act (st a) (ω pos))) (pos + if o.need (st a) then 1 else 0)
    have hc : ∀ l' : List ι, l' ⊆ l → l'.countP (fun j => decide (o.need (Function.update st a (o.act (st a) (ω pos)) j))) =
        l'.countP (fun j => decide (o.need (st j))) := by
      intro l' hs
      refine List.countP_congr fun j hj => ?_
      rw [Function.update_of_ne (fun e : j = a => hl.1 (e ▸ hs hj))]
    refine ⟨?_, fun n i hi => ?_⟩
    · rw [h1, hc l (List.Subset.refl _), List.countP_cons]
      simp only [decide_eq_true_eq]
      omega
    · cases n with
      | zero =>
        simp only [List.getElem?_cons_zero, Option.some.injEq] at hi
        subst hi
        rw [deal_untouched ω (fun io hio => by
          obtain ⟨j, hj, rfl⟩ := List.mem_map.1 hio
          exact fun e => hl.1 (e ▸ hj))]
        simp
      | succ n =>
        simp only [List.getElem?_cons_succ] at hi
        have hia : i ≠ a := fun e => hl.1 (e ▸ List.mem_of_getElem? hi)
        rw [h2 n i hi, Function.update_of_ne hia, hc _ (List.take_subset _ _), List.take_succ_cons, List.countP_cons]
        simp only [decide_eq_true_eq]
        congr 2
        omega

end deal

variable {A : Arith ℝ} {F : Fun ℝ A} {P : PObj ℝ}

/-- The row of a particle and the state of its machine. -/
structure Match (r : Row ℝ) (m : Mach) : Prop where
  xs : r.xs = m.1.cells.map (·.1)
  ys : r.ys = m.1.cells.map (·.2)
  ts : r.ts = (List.range m.1.cells.length).map m.2.1
  ne : m.1.cells ≠ []

theorem Match.pos {r : Row ℝ} {m : Mach} (h : Match r m) : r.lastPos m.1.cur := by
  unfold Row.lastPos Disc.cur
  rw [h.xs, h.ys, List.getLast?_map, List.getLast?_map, List.getLast?_eq_some_getLast h.ne]
  simp [List.getLastD_eq_getLast?, List.getLast?_eq_some_getLast h.ne]

theorem Match.time {r : Row ℝ} {m : Mach} (h : Match r m) : r.ts.getLast? = some m.time := by
  have hl : 0 < m.1.cells.length := List.length_pos_iff.2 h.ne
  rw [h.ts, List.getLast?_map, List.getLast?_range]
  rw [if_neg (by omega)]
  rfl

theorem Match.est {r : Row ℝ} {m : Mach} (h : Match r m) : initEst A r.ts = m.est0 A := by
  have hl : 0 < m.1.cells.length := List.length_pos_iff.2 h.ne
  rw [h.ts]
  unfold initEst Mach.est0
  obtain ⟨n, hn⟩ : ∃ n, m.1.cells.length = n + 1 := ⟨_, (Nat.succ_pred_eq_of_pos hl).symm⟩
  rw [hn, List.range_succ]
  cases n with
  | zero => simp
  | succ n =>
    rw [List.range_succ]
    simp

theorem Match.step {r : Row ℝ} {m : Mach} (h : Match r m) (u : ℝ) (v : String → Val ℝ) :
    Match (r.append (destOf A P m.1.cur m.1.pick) (A.add m.time (durOf A F P m.1.cur m.1.pick u)) v) (m.step A F P u) := by
  unfold Mach.step Row.append
  refine ⟨?_, ?_, ?_, by simp⟩
  · simp [h.xs]
  · simp [h.ys]
  · simp only [List.length_append, List.length_singleton, List.range_succ, List.map_append, List.map_cons, List.map_nil, Function.update_self, h.ts]
    congr 1
    refine List.map_congr_left fun n hn => ?_
    rw [Function.update_of_ne (by simp at hn; omega)]

theorem Match.congr {r : Row ℝ} {m m' : Mach} (h : Match r m) (h1 : m'.1.cells = m.1.cells) (h2 : m'.2.1 = m.2.1) : Match r m' :=
  ⟨by rw [h1, h.xs], by rw [h1, h.ys], by rw [h1, h2, h.ts], by rw [h1]; exact h.ne⟩

/-- The machine of a row. -/
def machOf (r : Row ℝ) : Mach := (⟨r.xs.zip r.ys, 0, false, 0⟩, (fun n => r.ts.getD n .nan, .nan))

theorem machOf_match {r : Row ℝ} (h : r.aligned) : Match r (machOf r) := by
  obtain ⟨h1, h2, h3⟩ := h
  unfold machOf
  refine ⟨?_, ?_, ?_, ?_⟩
  · simp only
    rw [List.map_fst_zip (by omega)]
  · simp only
    rw [List.map_snd_zip (by omega)]
  · simp only
    refine List.ext_getElem? fun n => ?_
    rw [List.getElem?_map]
    by_cases hn : n < r.ts.length
    · rw [List.getElem?_range (by simp; omega), Option.map_some, List.getD_eq_getElem?_getD, List.getElem?_eq_getElem hn]
      rfl
    · rw [List.getElem?_eq_none (by omega), List.getElem?_eq_none (by simp; omega)]
      rfl
  · simp only
    intro h0
    have := congrArg List.length h0
    rw [List.length_zip, List.length_nil] at this
    omega

/-- The steps and their durations, with the draws that decide them. -/
theorem particleStepper_feed (G : Good P) {ω : Nat → ℝ} {s s' : World ℝ} {cur news : List (Int × Int)}
    {times times' : List (Fl ℝ)} {vars : List String} {upd : List (String × List (Val ℝ))}
    (hw : PickEquiv A F P s.weight) (h0 : ∀ p ∈ cur, p ≠ (0, 0))
    (h : particleStepper A F P ω s cur times vars = .ok ((news, times', upd), s')) {i : Nat} {p q : Int × Int} {t : Fl ℝ}
    (hp : cur[i]? = some p) (hq : news[i]? = some q) (ht : times[i]? = some t) :
    q = destOf A P p (pickOf A F P p (ω (s.pos + i))) ∧
    times'[i]? = some (A.add t (durOf A F P p (pickOf A F P p (ω (s.pos + i))) (ω (s.pos + cur.length +
      if 0 < P.diffCoeff then ((cur.take i).zip (news.take i)).countP fun x => decide (x.1 ≠ x.2) else 0)))) := by
  unfold particleStepper at h
  simp only [bind_ok, pure_ok, Prod.exists, Prod.mk.injEq] at h
  obtain ⟨cells, s1, hcells, inds0, hinds0, dist, hdist, temp, pos', htemp, opt, hopt, ⟨rfl, rfl, rfl⟩, rfl⟩ := h
  obtain ⟨hpos, hc⟩ := cells_at G hw h0 hcells
  have hlen1 : cells.length = cur.length :=
    (mapAcc_inv (fun _ => True) (fun _ _ => True) (fun _ _ _ _ _ _ => ⟨trivial, trivial⟩) trivial hcells).2.length_eq.symm
  have hlen2 := mapE_length hinds0
  have hlen3 := mapE_length hdist
  have hlenN : (checkForBoundary (List.zipWith zeroDist inds0 dist) cur P.cellType).length = cur.length := by
    unfold checkForBoundary
    simp [hlen2, hlen3, hlen1]
  have hi : i < cells.length := by rw [hlen1]; exact (List.getElem?_eq_some_iff.1 hp).1
  have hk := List.getElem?_eq_getElem hi
  have hz : (cur.zip cells)[i]? = some (p, cells[i]) := by
    rw [List.getElem?_zip_eq_some]; exact ⟨hp, hk⟩
  obtain ⟨q0, hq0, hq0'⟩ := mapE_get hinds0 hz
  obtain ⟨d, hd, hd'⟩ := mapE_get hdist hk
  have hq' := hq
  unfold checkForBoundary at hq'
  rw [List.getElem?_zipWith_eq_some] at hq'
  obtain ⟨z, p', hz', hp', hqe⟩ := hq'
  rw [hp] at hp'
  cases hp'
  rw [List.getElem?_zipWith_eq_some] at hz'
  obtain ⟨q0', d', h1, h2, rfl⟩ := hz'
  rw [hq0] at h1; cases h1
  rw [hd] at h2; cases h2
  have hx : ((cells.zip cur).zip ((checkForBoundary (List.zipWith zeroDist inds0 dist) cur P.cellType).zip dist))[i]? =
      some ((cells[i], p), (q, d)) := by
    rw [List.getElem?_zip_eq_some, List.getElem?_zip_eq_some, List.getElem?_zip_eq_some]
    exact ⟨⟨hk, hp⟩, hq, hd⟩
  obtain ⟨a, b, ha, hb, hpick⟩ := hc i p _ hp hk
  have epick : pickOf A F P p (ω (s.pos + i)) = cells[i] := by
    unfold pickOf
    rw [ha, hb]
    simp only [hpick, Except.toOption, Option.getD_some]
  have edest : destOf A P p cells[i] = q := by
    unfold destOf
    rw [hq0', hd']
    exact hqe
  obtain ⟨dt, m, hdt, hm⟩ := times_at htemp hx
  rw [epick, edest]
  refine ⟨rfl, ?_⟩
  rw [List.getElem?_zipWith_eq_some]
  refine ⟨t, dt, ht, hdt, ?_⟩
  congr 1
  have ecount : s1.pos + (if 0 < P.diffCoeff then (((cells.zip cur).zip ((checkForBoundary (List.zipWith zeroDist inds0 dist) cur P.cellType).zip dist)).take i).countP
      (fun q => decide (q.1.2 ≠ q.2.1)) else 0) = s.pos + cur.length + if 0 < P.diffCoeff then
        ((cur.take i).zip ((checkForBoundary (List.zipWith zeroDist inds0 dist) cur P.cellType).take i)).countP (fun x => decide (x.1 ≠ x.2)) else 0 := by
    rw [hpos, take_zip4]
    congr 2
    rw [countP_moved]
    · simp [hlen1]
    · rw [List.length_take, List.length_take, hlenN]
    · rw [List.length_take, List.length_take, hlen3, hlen1]
  rw [ecount] at hm
  obtain ⟨m2, hm2⟩ := calcTravelTime_draw (ω' := fun _ => ω (s.pos + cur.length + if 0 < P.diffCoeff then
        ((cur.take i).zip ((checkForBoundary (List.zipWith zeroDist inds0 dist) cur P.cellType).take i)).countP (fun x => decide (x.1 ≠ x.2)) else 0)) (m' := 0) hm rfl
  unfold durOf
  rw [hd']
  simp only [edest, hm2]

theorem durOf_still (hd : ¬ 0 < P.diffCoeff) (p : Int × Int) (k : Nat) (u u' : ℝ) : durOf A F P p k u = durOf A F P p k u' := by
  unfold durOf calcTravelTime
  simp only [if_neg hd]

theorem timeOp_act (m : Mach) (u : ℝ) : (timeOp A F P).act m u = m.move A F P u := by
  unfold Op.act
  by_cases hnd : (timeOp A F P).need m
  · rw [if_pos hnd]; rfl
  · rw [if_neg hnd]
    show m.move A F P 0 = _
    unfold Mach.move
    by_cases hg : m.1.goes A P
    · rw [if_pos hg, if_pos hg]
      unfold Mach.step
      rw [durOf_still (fun hd => hnd ⟨hg, hd⟩) _ _ 0 u]
    · rw [if_neg hg, if_neg hg]

theorem loopTime_act (maxIter : Int) (m : Mach) (u : ℝ) : (loopTime A F P maxIter).act m u = m.advance A F P maxIter u := by
  unfold Op.act
  by_cases hnd : (loopTime A F P maxIter).need m
  · rw [if_pos hnd]; rfl
  · rw [if_neg hnd]
    show m.advance A F P maxIter 0 = _
    unfold Mach.advance
    by_cases ho : m.1.on = true
    · rw [if_pos ho, if_pos ho]
      by_cases hg : m.1.goes A P
      · rw [if_pos hg, if_pos hg]
        unfold Mach.step
        rw [durOf_still (fun hd => hnd ⟨ho, hg, hd⟩) _ _ 0 u]
      · rw [if_neg hg, if_neg hg]
    · rw [if_neg ho, if_neg ho]

/-- A plain iteration: the call of the stepper and the rows stored. -/
theorem runIteration_parts {ω : Nat → ℝ} {s : PState ℝ} {rows : List (Row ℝ)} {maxIter : Int} {res : RunResult ℝ} (hr : HasRows P s rows)
    (h : runIteration A F P ω s none maxIter = .ok res) :
    ∃ cur st news times upd, particleStepper A F P ω s.world cur st (keysOf P) = .ok ((news, times, upd), res.state.world) ∧
      cur.length = rows.length ∧
      (∀ (i : Nat) r, rows[i]? = some r → ∃ p t, cur[i]? = some p ∧ st[i]? = some t ∧ r.lastPos p ∧ r.ts.getLast? = some t) ∧
      ∃ rows', HasRows P res.state rows' ∧ rows'.length = rows.length ∧
        ∀ (i : Nat) r, rows[i]? = some r → ∃ r' q p, rows'[i]? = some r' ∧ news[i]? = some q ∧ cur[i]? = some p ∧
          ((q = p ∧ r' = r) ∨ (q ≠ p ∧ ∃ t v, times[i]? = some t ∧ r' = r.append q t v)) := by
  obtain ⟨hwalk, hnp⟩ := hr
  unfold runIteration at h
  rw [hwalk] at h
  simp only at h
  have hnp' : (if s.np = 0 then (ofRows (keysOf P) rows).xinds.length else s.np) = rows.length := by
    by_cases hz : s.np = 0
    · rw [if_pos hz]; simp [ofRows]
    · rw [if_neg hz, hnp]
  rw [hnp'] at h
  simp only [optionalVars_ofRows, bind_ok] at h
  obtain ⟨sx, hsx, sy, hsy, st, hst, -, -, h⟩ := h
  have hkeys : (dictOf (keysOf P) fun k => rows.map fun r => r.os k).map (fun x => x.1) = keysOf P := by
    unfold dictOf; rw [List.map_map]; simp [Function.comp_def]
  rw [hkeys] at h
  have hwd : WalkData.mk (ofRows (keysOf P) rows).xinds (ofRows (keysOf P) rows).yinds
      (ofRows (keysOf P) rows).times (dictOf (keysOf P) fun k => rows.map fun r => r.os k) = ofRows (keysOf P) rows := rfl
  rw [hwd] at h
  obtain ⟨⟨⟨news, times, upd⟩, w1⟩, hstep, out, hout, h⟩ := h
  simp only [pure_ok] at h
  subst h
  have hlx := mapE_length hsx
  have hly := mapE_length hsy
  rw [List.length_range] at hlx hly
  obtain ⟨rows', rfl, hl, hrows⟩ := storeSteps_inv (List.range rows.length) List.nodup_range hout
  refine ⟨sx.zip sy, st, news, times, upd, hstep, by rw [List.length_zip, hlx, hly, min_self], fun i r hri => ?_, rows', ⟨?_, ?_⟩, hl, fun i r hri => ?_⟩
  · have hi : i < rows.length := (List.getElem?_eq_some_iff.1 hri).1
    have hrange : (List.range rows.length)[i]? = some i := List.getElem?_range hi
    obtain ⟨x, hx, hx'⟩ := mapE_get hsx hrange
    obtain ⟨y, hy, hy'⟩ := mapE_get hsy hrange
    obtain ⟨t, ht, ht'⟩ := mapE_get hst hrange
    obtain ⟨r1, hr1, hx'⟩ := lastAt_ofRows (f := fun r => r.xs) hx'
    obtain ⟨r2, hr2, hy'⟩ := lastAt_ofRows (f := fun r => r.ys) hy'
    obtain ⟨r3, hr3, ht'⟩ := lastAt_ofRows (f := fun r => r.ts) ht'
    rw [hri] at hr1 hr2 hr3
    injection hr1 with hr1; subst hr1
    injection hr2 with hr2; subst hr2
    injection hr3 with hr3; subst hr3
    exact ⟨(x, y), t, by rw [List.getElem?_zip_eq_some]; exact ⟨hx, hy⟩, ht, ⟨hx', hy'⟩, ht'⟩
  · have hm : mergeOpt (ofRows (keysOf P) rows).opt (ofRows (keysOf P) rows').opt = (ofRows (keysOf P) rows').opt := mergeOpt_dictOf _ _ _
    simp only [hm]
  · simp only [hl]
  · have hi : i < rows.length := (List.getElem?_eq_some_iff.1 hri).1
    obtain ⟨r', hr', -, hmem⟩ := hrows i r hri
    obtain ⟨q, p, hq, hp, hcase⟩ := hmem (by simpa using hi)
    refine ⟨r', q, p, hr', hq, hp, hcase.imp_right ?_⟩
    rintro ⟨hne, t, v, ht, -, e⟩
    exact ⟨hne, t, v, ht, e⟩

/-- Rows and machines of `N` particles. -/
def Matches {N : Nat} (rows : List (Row ℝ)) (st : Fin N → Mach) : Prop := rows.length = N ∧ ∀ (i : Fin N) r, rows[i.val]? = some r → Match r (st i)

theorem finRange_take {N : Nat} (f g : Fin N → Int × Int) (n : Nat) {cur news : List (Int × Int)} (hc : cur = (List.finRange N).map f)
    (hn : news = (List.finRange N).map g) :
    ((cur.take n).zip (news.take n)).countP (fun x => decide (x.1 ≠ x.2)) = ((List.finRange N).take n).countP fun j => decide (g j ≠ f j) := by
  subst hc hn
  rw [← List.map_take, ← List.map_take, List.zip_map', List.countP_map]
  refine List.countP_congr fun j _ => ?_
  simp only [Function.comp, decide_eq_true_eq]
  exact ⟨fun h e => h e.symm, fun h e => h e.symm⟩

open Classical in
/-- A plain iteration deals one draw to each particle, then one draw for the duration to each particle that moves. -/
theorem runIteration_feed (G : Good P) {N : Nat} {ω : Nat → ℝ} {s : PState ℝ} {rows : List (Row ℝ)} {maxIter : Int} {res : RunResult ℝ}
    (hw : PickEquiv A F P s.world.weight) (hr : HasRows P s rows) (h0 : ∀ r ∈ rows, ∀ p, r.lastPos p → p ≠ (0, 0))
    {st : Fin N → Mach} (hm : Matches rows st) (h : runIteration A F P ω s none maxIter = .ok res) :
    ∃ rows', HasRows P res.state rows' ∧
      Matches rows' (deal ω (callOps A F P (List.finRange N) (none, maxIter)) (st, s.world.pos)).1 ∧
      res.state.world.pos = (deal ω (callOps A F P (List.finRange N) (none, maxIter)) (st, s.world.pos)).2 := by
  obtain ⟨cur, ts, news, times, upd, hstep, hcl, hcur, rows', hrows', hl', hout⟩ := runIteration_parts hr h
  obtain ⟨hN, hmatch⟩ := hm
  have hne : ∀ p ∈ cur, p ≠ (0, 0) := by
    intro p hp
    obtain ⟨i, hi⟩ := List.getElem?_of_mem hp
    have hlt : i < rows.length := by rw [← hcl]; exact (List.getElem?_eq_some_iff.1 hi).1
    obtain ⟨p', t, hp', -, hlast, -⟩ := hcur i _ (List.getElem?_eq_getElem hlt)
    rw [hi] at hp'
    cases hp'
    exact h0 _ (List.getElem_mem hlt) p hlast
  obtain ⟨hnl, -, hpos⟩ := particleStepper_law G hw hne hstep
  have hc : ∀ i : Fin N, cur[i.val]? = some (st i).1.cur ∧ ts[i.val]? = some (st i).time := by
    intro i
    have hlt : i.val < rows.length := by omega
    obtain ⟨p, t, hp, ht, hlast, htime⟩ := hcur i.val _ (List.getElem?_eq_getElem hlt)
    have hM := hmatch i _ (List.getElem?_eq_getElem hlt)
    refine ⟨by rw [hp, Row.lastPos_unique hlast hM.pos], ?_⟩
    rw [ht, ← htime, hM.time]
  -- after the choices
  let st1 : Fin N → Mach := (deal ω ((List.finRange N).map fun i => (i, pickOp A F P)) (st, s.world.pos)).1
  obtain ⟨d1, d2⟩ := deal_common ω (pickOp A F P) (List.nodup_finRange N) st s.world.pos
  have hall : ∀ l : List (Fin N), l.countP (fun j => decide ((pickOp A F P).need (st j))) = l.length := by
    intro l
    rw [List.countP_eq_length]
    intro j _
    exact decide_eq_true trivial
  rw [hall, List.length_finRange] at d1
  have hst1 : ∀ i : Fin N, st1 i = ({ (st i).1 with pick := pickOf A F P (st i).1.cur (ω (s.world.pos + i.val)) }, (st i).2) := by
    intro i
    have := d2 i.val i (by simp)
    rw [hall, List.length_take, List.length_finRange, min_eq_left i.isLt.le] at this
    show (deal _ _ _).1 i = _
    rw [this]
    simp [Op.act, pickOp]
  obtain ⟨e1, e2⟩ := deal_common ω (timeOp A F P) (List.nodup_finRange N) st1 (s.world.pos + N)
  have hdeal : deal ω (callOps A F P (List.finRange N) (none, maxIter)) (st, s.world.pos) =
      deal ω ((List.finRange N).map fun i => (i, timeOp A F P)) (st1, s.world.pos + N) := by
    unfold callOps
    rw [deal_append, ← d1]
  have hnews : ∀ i : Fin N, news[i.val]? = some (destOf A P (st1 i).1.cur (st1 i).1.pick) ∧
      times[i.val]? = some (A.add (st i).time (durOf A F P (st1 i).1.cur (st1 i).1.pick (ω (s.world.pos + N +
        if 0 < P.diffCoeff then ((cur.take i).zip (news.take i)).countP fun x => decide (x.1 ≠ x.2) else 0)))) := by
    intro i
    have hlt : i.val < news.length := by omega
    obtain ⟨c1, c2⟩ := hc i
    have hq := List.getElem?_eq_getElem hlt
    obtain ⟨f1, f2⟩ := particleStepper_feed G hw hne hstep c1 hq c2
    have : (st1 i).1.cur = (st i).1.cur := by rw [hst1 i]; rfl
    rw [this, hst1 i]
    refine ⟨by rw [hq, f1], ?_⟩
    rw [f2, hcl, hN]
  have hcurE : cur = (List.finRange N).map fun i => (st1 i).1.cur := by
    refine List.ext_getElem? fun n => ?_
    by_cases hn : n < N
    · have := (hc ⟨n, hn⟩).1
      simp only at this
      rw [this, List.getElem?_map]
      simp [hn, hst1 ⟨n, hn⟩, Disc.cur]
    · rw [List.getElem?_eq_none (by omega), List.getElem?_eq_none (by simp; omega)]
  have hnewsE : news = (List.finRange N).map fun i => destOf A P (st1 i).1.cur (st1 i).1.pick := by
    refine List.ext_getElem? fun n => ?_
    by_cases hn : n < N
    · have := (hnews ⟨n, hn⟩).1
      simp only at this
      rw [this, List.getElem?_map]
      simp [hn]
    · rw [List.getElem?_eq_none (by omega), List.getElem?_eq_none (by simp; omega)]
  have hcount : ∀ n, (if 0 < P.diffCoeff then ((cur.take n).zip (news.take n)).countP fun x => decide (x.1 ≠ x.2) else 0) =
      ((List.finRange N).take n).countP fun j => decide ((timeOp A F P).need (st1 j)) := by
    intro n
    rw [finRange_take _ _ n hcurE hnewsE]
    by_cases hd : 0 < P.diffCoeff
    · rw [if_pos hd]
      refine List.countP_congr fun j _ => ?_
      simp [timeOp, hd, Disc.goes]
    · rw [if_neg hd]
      symm
      rw [List.countP_eq_zero]
      intro j _
      simp [timeOp, hd]
  refine ⟨rows', hrows', ⟨by omega, fun i r' hri' => ?_⟩, ?_⟩
  · have hlt : i.val < rows.length := by omega
    obtain ⟨r2, q, p, hr2, hq, hp, hcase⟩ := hout i.val _ (List.getElem?_eq_getElem hlt)
    rw [hri'] at hr2
    cases hr2
    have hM := hmatch i _ (List.getElem?_eq_getElem hlt)
    have hM1 : Match rows[i.val] (st1 i) := hM.congr (by rw [hst1 i]) (by rw [hst1 i])
    obtain ⟨n1, n2⟩ := hnews i
    rw [hdeal, e2 i.val i (by simp), ← hcount]
    rw [timeOp_act]
    rw [n1] at hq
    cases hq
    have hcp : p = (st1 i).1.cur := by
      have := (hc i).1
      rw [hp] at this
      cases this
      rw [hst1 i]
      rfl
    subst hcp
    unfold Mach.move
    rcases hcase with ⟨e, rfl⟩ | ⟨e, t, v, ht, rfl⟩
    · rw [if_neg (fun hg => hg e)]
      exact hM1
    · rw [if_pos (show (st1 i).1.goes A P from e)]
      rw [n2] at ht
      cases ht
      have ht1 : (st i).time = (st1 i).time := by rw [hst1 i]; rfl
      rw [ht1]
      exact hM1.step _ v
  · rw [hdeal, e1, hpos, hcl, hN]
    congr 1
    have := hcount N
    rw [List.take_of_length_le (by omega), List.take_of_length_le (by omega), List.take_of_length_le (by simp)] at this
    exact this

/-! ## Calls with a target time -/

/-- The operations of the loop, for one particle. -/
def loopOps (A : Arith ℝ) (F : Fun ℝ A) (P : PObj ℝ) (target : Fl ℝ) (maxIter : Int) (n : Nat) : List (Op Mach) :=
  (List.replicate n [loopPick A F P target, loopTime A F P maxIter]).flatten

theorem loopOps_succ (target : Fl ℝ) (maxIter : Int) (n : Nat) :
    loopOps A F P target maxIter (n + 1) = loopPick A F P target :: loopTime A F P maxIter :: loopOps A F P target maxIter n := by
  unfold loopOps
  rw [List.replicate_succ, List.flatten_cons]
  rfl

theorem Disc.off {d : Disc} (h : d.on = false) : ({ d with on := false } : Disc) = d := by
  cases d
  simp only at h
  subst h
  rfl

variable {ι : Type} [DecidableEq ι]

theorem dealStep_eq (ω : Nat → ℝ) (st : ι → Mach) (pos : Nat) (i : ι) (o : Op Mach) [Decidable (o.need (st i))] :
    dealStep ω (st, pos) (i, o) = (Function.update st i (o.act (st i) (ω pos)), pos + if o.need (st i) then 1 else 0) := by
  rw [dealStep_act]
  congr 1
  · funext j
    by_cases h : j = i
    · subst h; simp
    · rw [Function.update_of_ne h]
      exact @Function.update_of_ne _ _ (fun a b => Classical.propDecidable (a = b)) _ _ h _ _
  · congr 1
    split_ifs <;> rfl

open Classical in
/-- A particle that has left the loop is left alone. -/
theorem deal_off (ω : Nat → ℝ) {target : Fl ℝ} {maxIter : Int} (n : Nat) {i : ι} {st : ι → Mach} (pos : Nat) (h : (st i).1.on = false) :
    deal ω ((loopOps A F P target maxIter n).map fun o => (i, o)) (st, pos) = (st, pos) := by
  induction n with
  | zero => rfl
  | succ n ih =>
    have h1 : (loopPick A F P target).act (st i) (ω pos) = st i := by
      unfold Op.act
      rw [if_neg (fun hn => by have := hn.1; rw [h] at this; cases this)]
      show (({ (st i).1 with on := false }, (st i).2) : Mach) = _
      rw [Disc.off h]
    have n1 : ¬ (loopPick A F P target).need (st i) := fun hn => by have := hn.1; rw [h] at this; cases this
    have n2 : ¬ (loopTime A F P maxIter).need (st i) := fun hn => by have := hn.1; rw [h] at this; cases this
    have h2 : ∀ u, (loopTime A F P maxIter).act (st i) u = st i := by
      intro u
      rw [loopTime_act]
      unfold Mach.advance
      rw [if_neg (by rw [h]; simp)]
    rw [loopOps_succ, List.map_cons, List.map_cons, deal_cons, deal_cons, dealStep_eq ω st, h1, if_neg n1, Function.update_eq_self, Nat.add_zero, dealStep_eq, h2,
      if_neg n2, Function.update_eq_self, Nat.add_zero, ih]

open Classical in
/-- The loop of one particle. -/
theorem targetLoop_feed (R : Routable A P) {ω : Nat → ℝ} {target : Fl ℝ} {maxIter : Int} {ii : Nat} (fuel : Nat) {i : ι}
    {rows : List (Row ℝ)} {s s' : World ℝ} {est : Fl ℝ} {count : Int} {out : WalkData ℝ} {hit : Bool} {r : Row ℝ}
    (hw : PickEquiv A F P s.weight) (hr : rows[ii]? = some r) (hok : RowOk P r) {st : ι → Mach} (hm : Match r (st i)) (hon : (st i).1.on = true)
    (hcount : (st i).1.count = count) (hest : (st i).2.2 = est)
    (h : targetLoop A F P ω target maxIter (keysOf P) ii fuel (ofRows (keysOf P) rows) s est count = .ok (out, s', hit)) :
    ∃ r', out = ofRows (keysOf P) (rows.set ii r') ∧ RowOk P r' ∧ PickEquiv A F P s'.weight ∧
      Match r' ((deal ω ((loopOps A F P target maxIter fuel).map fun o => (i, o)) (st, s.pos)).1 i) ∧
      s'.pos = (deal ω ((loopOps A F P target maxIter fuel).map fun o => (i, o)) (st, s.pos)).2 := by
  induction fuel generalizing rows s est count r st with
  | zero =>
    unfold targetLoop at h
    simp only [bind_ok] at h
    obtain ⟨t, ht, h⟩ := h
    split at h
    · cases h
    · simp only [pure_ok, Prod.mk.injEq] at h
      obtain ⟨rfl, rfl, rfl⟩ := h
      exact ⟨r, by rw [set_self_of_get hr], hok, hw, hm, rfl⟩
  | succ fuel ih =>
    unfold targetLoop at h
    simp only [bind_ok] at h
    obtain ⟨t, ht, h⟩ := h
    obtain ⟨r0, hr0, ht⟩ := lastAt_ofRows (f := fun r => r.ts) ht
    rw [hr] at hr0
    injection hr0 with hr0; subst hr0
    have htime : t = (st i).time := by
      have := hm.time
      rw [ht] at this
      injection this
    rw [loopOps_succ, List.map_cons, List.map_cons, deal_cons, deal_cons, dealStep_eq ω st]
    split at h
    · rename_i hcond
      have hneed : (loopPick A F P target).need (st i) := by
        refine ⟨hon, ?_⟩
        unfold Mach.closer
        rw [← htime, hest]
        exact hcond
      rw [if_pos hneed]
      simp only [bind_ok] at h
      obtain ⟨x, hx, y, hy, ⟨⟨news, times, upd⟩, s1⟩, hst, h⟩ := h
      obtain ⟨r1, hr1, hx⟩ := lastAt_ofRows (f := fun r => r.xs) hx
      obtain ⟨r2, hr2, hy⟩ := lastAt_ofRows (f := fun r => r.ys) hy
      rw [hr] at hr1 hr2
      injection hr1 with hr1; subst hr1
      injection hr2 with hr2; subst hr2
      have hp : r.lastPos (x, y) := ⟨hx, hy⟩
      have hcur : (x, y) = (st i).1.cur := Row.lastPos_unique hp hm.pos
      have hin := hok.inside _ hp
      have hne0 : ∀ p ∈ [(x, y)], p ≠ (0, 0) := by
        intro p hp' e
        simp only [List.mem_singleton] at hp'
        rw [hp'] at e
        rw [e] at hin
        have := hin.1
        simp at this
      obtain ⟨hw1, hlen, hstep, hopt⟩ := particleStepper_inv A F R.fields.good hw hst
      obtain ⟨-, -, hpos⟩ := particleStepper_law R.fields.good hw hne0 hst
      simp only at h
      obtain ⟨q, hq, h⟩ := h
      rw [listGet_ok] at hq
      obtain ⟨f1, f2⟩ := particleStepper_feed R.fields.good hw hne0 hst (i := 0) (p := (x, y)) (t := t) rfl hq rfl
      have hnews : news = [q] := by
        cases news with
        | nil => simp at hq
        | cons a l =>
          simp at hlen hq
          subst hq
          rw [hlen]
      simp only [List.take_zero, List.zip_nil_right, List.countP_nil, ite_self, List.length_singleton, Nat.add_zero] at f1 f2
      rw [hnews] at hpos
      simp only [List.length_singleton, List.zip_cons_cons, List.zip_nil_right, List.countP_cons, List.countP_nil, Nat.zero_add] at hpos
      let m1 : Mach := ({ (st i).1 with pick := pickOf A F P (st i).1.cur (ω s.pos) }, (st i).2)
      have hact1 : (loopPick A F P target).act (st i) (ω s.pos) = m1 := by
        unfold Op.act
        rw [if_pos hneed]
        rfl
      have hcur1 : m1.1.cur = (x, y) := by rw [hcur]; rfl
      have hdest : destOf A P m1.1.cur m1.1.pick = q := by
        rw [hcur1]
        show destOf A P (x, y) (pickOf A F P (st i).1.cur (ω s.pos)) = q
        rw [← hcur]
        exact f1.symm
      have hm1 : Match r m1 := hm.congr rfl rfl
      have htime1 : t = m1.time := htime
      have hst1 : Function.update st i m1 i = m1 := Function.update_self _ _ _
      have hupd2 : ∀ x, Function.update (Function.update st i m1) i x = Function.update st i x := fun x => Function.update_idem _ _ _
      rw [hact1, dealStep_eq, hst1, hupd2, loopTime_act]
      have hneed2 : (loopTime A F P maxIter).need m1 ↔ q ≠ (x, y) ∧ 0 < P.diffCoeff := by
        show m1.1.on = true ∧ destOf A P m1.1.cur m1.1.pick ≠ m1.1.cur ∧ 0 < P.diffCoeff ↔ _
        rw [hdest, hcur1]
        exact ⟨fun h => h.2, fun h => ⟨hon, h⟩⟩
      have hposE : s.pos + 1 + (if (loopTime A F P maxIter).need m1 then 1 else 0) = s1.pos := by
        rw [hpos]
        by_cases hd : 0 < P.diffCoeff
        · rw [if_pos hd]
          by_cases hqp : q = (x, y)
          · rw [if_neg (fun hn => (hneed2.1 hn).1 hqp), hqp]
            simp
          · rw [if_pos (hneed2.2 ⟨hqp, hd⟩), if_pos (by simpa using fun e => hqp e.symm)]
        · rw [if_neg hd, if_neg (fun hn => hd (hneed2.1 hn).2)]
      rw [hposE]
      by_cases hqp : q = (x, y)
      · simp only [hqp, ne_eq, not_true, if_false, pure_ok, Prod.mk.injEq] at h
        obtain ⟨rfl, rfl, rfl⟩ := h
        have hadv : m1.advance A F P maxIter (ω (s.pos + 1)) = ({ m1.1 with on := false }, m1.2) := by
          unfold Mach.advance
          rw [if_pos hon, if_neg]
          show ¬ destOf A P m1.1.cur m1.1.pick ≠ m1.1.cur
          rw [hdest, hcur1, hqp]
          simp
        rw [hadv, deal_off _ _ _ (by rw [Function.update_self])]
        refine ⟨r, by rw [set_self_of_get hr], hok, hw1, ?_, rfl⟩
        simp only [Function.update_self]
        exact hm.congr rfl rfl
      · simp only [ne_eq, hqp, not_false_eq_true, if_true, bind_ok] at h
        obtain ⟨t1, ht1, vals, hvals, h⟩ := h
        obtain ⟨v, hve, hv⟩ := pickOpt_inv hvals
        subst hve
        rw [appendRec_ofRows] at h
        have hmod : rows.modify ii (fun r => r.append q t1 v) = rows.set ii (r.append q t1 v) := by
          rw [List.modify_eq_set_getElem?, hr]; rfl
        rw [hmod] at h
        have hlt : ii < rows.length := (List.getElem?_eq_some_iff.1 hr).1
        rw [listGet_ok] at ht1
        have ht1' : t1 = A.add m1.time (durOf A F P m1.1.cur m1.1.pick (ω (s.pos + 1))) := by
          rw [f2] at ht1
          injection ht1 with ht1
          rw [← ht1, htime1, hcur1]
          show _ = A.add _ (durOf A F P (x, y) (pickOf A F P (st i).1.cur (ω s.pos)) _)
          rw [← hcur]
        have hok' : RowOk P (r.append q t1 v) := by
          obtain ⟨q', t1', hq', ht1'', hso⟩ := hstep 0 (x, y) t rfl rfl
          rw [hq] at hq'
          cases hq'
          rw [ht1] at ht1''
          cases ht1''
          refine RowStep.rowOk (F := F) R hok (ω := ω) ⟨(x, y), t, q, t1, v, hp, ht, hso, hqp, fun key hkey => ?_, rfl⟩
          obtain ⟨l, hl, hl'⟩ := hv key hkey
          obtain ⟨w, hw2, hw3⟩ := hopt key l 0 q hl hq
          rw [hl'] at hw2
          injection hw2 with hw2
          rw [hw2]; exact hw3
        let m2 : Mach := m1.step A F P (ω (s.pos + 1))
        have hm2 : Match (r.append q t1 v) m2 := by
          have := hm1.step (A := A) (F := F) (P := P) (ω (s.pos + 1)) v
          rw [← ht1', hdest] at this
          exact this
        have ht2 : m2.time = t1 := by
          have := hm2.time
          simp only [Row.append, List.getLast?_append, List.getLast?_singleton] at this
          injection this with this
          exact this.symm
        let m3 : Mach := ({ m2.1 with on := !(decide (m1.1.count + 1 > maxIter)), count := m1.1.count + 1 },
          (m2.2.1, Fl.pyMax (.fin (A.rnd (1 / 10))) (A.sub m2.time m1.time)))
        have hadv : m1.advance A F P maxIter (ω (s.pos + 1)) = m3 := by
          unfold Mach.advance
          rw [if_pos hon, if_pos]
          show destOf A P m1.1.cur m1.1.pick ≠ m1.1.cur
          rw [hdest, hcur1]
          exact hqp
        have hm3 : Match (r.append q t1 v) m3 := hm2.congr rfl rfl
        have hc3 : m1.1.count = count := hcount
        rw [hadv]
        split at h
        · rename_i hlim
          simp only [pure_ok, Prod.mk.injEq] at h
          obtain ⟨rfl, rfl, rfl⟩ := h
          rw [deal_off _ _ _ (by
            rw [Function.update_self]
            show (!(decide (m1.1.count + 1 > maxIter))) = false
            rw [hc3, decide_eq_true hlim]
            rfl)]
          refine ⟨_, rfl, hok', hw1, ?_, rfl⟩
          simp only [Function.update_self]
          exact hm3
        · rename_i hlim
          obtain ⟨r', hout, h1, h2, h3, h4⟩ := ih (st := Function.update st i m3) hw1 (List.getElem?_set_self hlt) hok' (by rw [Function.update_self]; exact hm3)
            (by
              rw [Function.update_self]
              show (!(decide (m1.1.count + 1 > maxIter))) = true
              rw [hc3, decide_eq_false hlim]
              rfl)
            (by
              rw [Function.update_self]
              show m1.1.count + 1 = count + 1
              rw [hc3])
            (by
              rw [Function.update_self]
              show Fl.pyMax _ (A.sub m2.time m1.time) = _
              rw [ht2, ← htime1]) h
          exact ⟨r', by rw [hout, List.set_set], h1, h2, h3, h4⟩
    · rename_i hcond
      simp only [pure_ok, Prod.mk.injEq] at h
      obtain ⟨rfl, rfl, rfl⟩ := h
      have hneed : ¬ (loopPick A F P target).need (st i) := by
        rintro ⟨-, hc⟩
        unfold Mach.closer at hc
        rw [← htime, hest] at hc
        exact hcond hc
      rw [if_neg hneed]
      have hact : (loopPick A F P target).act (st i) (ω s.pos) = ({ (st i).1 with on := false }, (st i).2) := by
        unfold Op.act
        rw [if_neg hneed]
        rfl
      rw [hact, Nat.add_zero]
      have := deal_off (A := A) (F := F) (P := P) (target := target) (maxIter := maxIter) ω fuel (i := i)
        (st := Function.update st i ({ (st i).1 with on := false }, (st i).2)) s.pos (by rw [Function.update_self])
      have hoff : (Function.update st i (({ (st i).1 with on := false }, (st i).2) : Mach) i).1.on = false := by rw [Function.update_self]
      rw [dealStep_eq, loopTime_act]
      have n2 : ¬ (loopTime A F P maxIter).need (Function.update st i (({ (st i).1 with on := false }, (st i).2) : Mach) i) := fun hn => by
        have := hn.1; rw [hoff] at this; cases this
      have h2 : ∀ u, Mach.advance A F P maxIter (Function.update st i (({ (st i).1 with on := false }, (st i).2) : Mach) i) u =
          Function.update st i (({ (st i).1 with on := false }, (st i).2) : Mach) i := by
        intro u
        unfold Mach.advance
        rw [if_neg (by rw [hoff]; simp)]
      rw [h2, if_neg n2, Function.update_eq_self, Nat.add_zero, this]
      refine ⟨r, by rw [set_self_of_get hr], hok, hw, ?_, rfl⟩
      simp only [Function.update_self]
      exact hm.congr rfl rfl

end

end Dorado
