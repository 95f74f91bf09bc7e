import Verif.Lemmas.Law
import Verif.Lemmas.Time

/-! Helper lemmas: which draw decides the duration of which step. -/

set_option linter.unusedSectionVars false

namespace Dorado

variable {K : Type} [Field K] [LinearOrder K] [IsStrictOrderedRing K] {A : Arith K} {F : Fun K A}

/-- The duration of a step depends on one draw only. -/
theorem calcTravelTime_draw {P : PObj K} {ω ω' : Nat → K} {m m1 m' k : Nat} {p q : Int × Int} {d dt : Fl K}
    (h : calcTravelTime A F P ω m k p q d = .ok (dt, m1)) (he : ω m = ω' m') : ∃ m2, calcTravelTime A F P ω' m' k p q d = .ok (dt, m2) := by
  unfold calcTravelTime at h ⊢
  by_cases hne : p ≠ q
  · rw [if_pos hne] at h ⊢
    simp only [bind_ok] at h ⊢
    obtain ⟨v1, h1, v2, h2, h⟩ := h
    by_cases hd : 0 < P.diffCoeff
    · simp only [if_pos hd] at h ⊢
      obtain ⟨a, ha, va, hva, c, hc, h⟩ := h
      simp only [pure_ok, Prod.mk.injEq] at h
      refine ⟨m' + 1, v1, h1, v2, h2, a, ha, va, hva, c, hc, ?_⟩
      simp only [pure_ok, Prod.mk.injEq]
      rw [← he]
      exact ⟨h.1, trivial⟩
    · simp only [if_neg hd] at h ⊢
      obtain ⟨a, ha, va, hva, c, hc, h⟩ := h
      simp only [pure_ok, Prod.mk.injEq] at h
      refine ⟨m', v1, h1, v2, h2, a, ha, va, hva, c, hc, ?_⟩
      simp only [pure_ok, Prod.mk.injEq]
      exact ⟨h.1, trivial⟩
  · rw [if_neg hne] at h ⊢
    simp only [pure_ok, Prod.mk.injEq] at h ⊢
    exact ⟨m', h.1, rfl⟩

/-- The draw used for each entry. -/
theorem times_at {P : PObj K} {ω : Nat → K} {pos pos' : Nat} {l : List ((Nat × (Int × Int)) × ((Int × Int) × Fl K))} {ts : List (Fl K)}
    (h : mapAcc (fun pos q => calcTravelTime A F P ω pos q.1.1 q.1.2 q.2.1 q.2.2) pos l = .ok (ts, pos')) {i : Nat}
    {x : (Nat × (Int × Int)) × ((Int × Int) × Fl K)} (hx : l[i]? = some x) :
    ∃ t m, ts[i]? = some t ∧ calcTravelTime A F P ω (pos + if 0 < P.diffCoeff then (l.take i).countP fun q => decide (q.1.2 ≠ q.2.1) else 0)
      x.1.1 x.1.2 x.2.1 x.2.2 = .ok (t, m) := by
  induction l generalizing pos ts i with
  | nil => simp at hx
  | cons y l ih =>
    simp only [mapAcc, bind_ok, pure_ok, Prod.exists, Prod.mk.injEq] at h
    obtain ⟨k, s1, hk, ks, s2, hks, rfl, rfl⟩ := h
    cases i with
    | zero =>
      simp at hx
      subst hx
      exact ⟨k, s1, rfl, by simpa using hk⟩
    | succ i =>
      simp at hx
      obtain ⟨t, m, ht, hm⟩ := ih hks hx
      refine ⟨t, m, by simpa using ht, ?_⟩
      have h1 := times_pos (l := [y]) (ts := [k]) (pos' := s1) (A := A) (F := F) (P := P) (ω := ω) (pos := pos) (by
        simp only [mapAcc, hk, ok_bind, pure_def])
      rw [← hm]
      congr 1
      rw [h1, List.take_succ_cons]
      by_cases hd : 0 < P.diffCoeff
      · simp only [if_pos hd, List.countP_cons, List.countP_nil]
        omega
      · simp [if_neg hd]

theorem take_zip4 {α β γ δ : Type} (a : List α) (b : List β) (c : List γ) (d : List δ) (n : Nat) :
    ((a.zip b).zip (c.zip d)).take n = ((a.take n).zip (b.take n)).zip ((c.take n).zip (d.take n)) := by
  rw [List.zip, List.take_zipWith, ← List.zip]
  unfold List.zip
  rw [List.take_zipWith, List.take_zipWith]

/-- The step of a particle and its duration, with the draw that decides it. -/
theorem particleStepper_delay {P : PObj K} (G : Good P) {ω : Nat → K} {s s' : World K} {cur news : List (Int × Int)}
    {times times' : List (Fl K)} {vars : List String} {upd : List (String × List (Val K))}
    (hw : PickEquiv A F P s.weight) (h0 : ∀ p ∈ cur, p ≠ (0, 0))
    (h : particleStepper A F P ω s cur times vars = .ok ((news, times', upd), s')) {i : Nat} {p q : Int × Int} {t : Fl K}
    (hp : cur[i]? = some p) (hq : news[i]? = some q) (ht : times[i]? = some t) :
    ∃ k q0 d dt m, newInd1 P p k = .ok q0 ∧ stepUpdate A k P.distances P.dx = .ok d ∧ q = checkForBoundary1 (zeroDist q0 d) p P.cellType ∧
      calcTravelTime A F P ω (s.pos + cur.length + if 0 < P.diffCoeff then ((cur.take i).zip (news.take i)).countP fun x => decide (x.1 ≠ x.2)
        else 0) k p q d = .ok (dt, m) ∧ times'[i]? = some (A.add t dt) := by
  unfold particleStepper at h
  simp only [bind_ok, pure_ok, Prod.exists, Prod.mk.injEq] at h
  obtain ⟨cells, s1, hcells, inds0, hinds0, dist, hdist, temp, pos', htemp, opt, hopt, ⟨rfl, rfl, rfl⟩, rfl⟩ := h
  obtain ⟨hpos, hc⟩ := cells_at G hw h0 hcells
  have hlen1 : cells.length = cur.length :=
    (mapAcc_inv (fun _ => True) (fun _ _ => True) (fun _ _ _ _ _ _ => ⟨trivial, trivial⟩) trivial hcells).2.length_eq.symm
  have hlen2 := mapE_length hinds0
  have hlen3 := mapE_length hdist
  have hlenN : (checkForBoundary (List.zipWith zeroDist inds0 dist) cur P.cellType).length = cur.length := by
    unfold checkForBoundary
    simp [hlen2, hlen3, hlen1]
  have hi : i < cells.length := by rw [hlen1]; exact (List.getElem?_eq_some_iff.1 hp).1
  have hk := List.getElem?_eq_getElem hi
  have hz : (cur.zip cells)[i]? = some (p, cells[i]) := by
    rw [List.getElem?_zip_eq_some]; exact ⟨hp, hk⟩
  obtain ⟨q0, hq0, hq0'⟩ := mapE_get hinds0 hz
  obtain ⟨d, hd, hd'⟩ := mapE_get hdist hk
  have hq' := hq
  unfold checkForBoundary at hq'
  rw [List.getElem?_zipWith_eq_some] at hq'
  obtain ⟨z, p', hz', hp', hqe⟩ := hq'
  rw [hp] at hp'
  cases hp'
  rw [List.getElem?_zipWith_eq_some] at hz'
  obtain ⟨q0', d', h1, h2, rfl⟩ := hz'
  rw [hq0] at h1; cases h1
  rw [hd] at h2; cases h2
  have hx : ((cells.zip cur).zip ((checkForBoundary (List.zipWith zeroDist inds0 dist) cur P.cellType).zip dist))[i]? =
      some ((cells[i], p), (q, d)) := by
    rw [List.getElem?_zip_eq_some, List.getElem?_zip_eq_some, List.getElem?_zip_eq_some]
    exact ⟨⟨hk, hp⟩, hq, hd⟩
  obtain ⟨dt, m, hdt, hm⟩ := times_at htemp hx
  refine ⟨cells[i], q0, d, dt, m, hq0', hd', hqe.symm, ?_, ?_⟩
  · rw [← hm, hpos, take_zip4]
    congr 3
    rw [countP_moved]
    · simp [hlen1]
    · rw [List.length_take, List.length_take, hlenN]
    · rw [List.length_take, List.length_take, hlen3, hlen1]
  · rw [List.getElem?_zipWith_eq_some]
    exact ⟨t, dt, ht, hdt, rfl⟩

variable [FloorRing K]

/-- One call of `run_iteration()`: the last recorded time of each particle before and after. -/
theorem runIteration_delay {P : PObj K} (G : Good P) {ω : Nat → K} {s : PState K} {rows rows' : List (Row K)} {maxIter : Int} {res : RunResult K}
    (hw : PickEquiv A F P s.world.weight) (hr : HasRows P s rows) (h0 : ∀ r ∈ rows, ∀ p, r.lastPos p → p ≠ (0, 0))
    (h : runIteration A F P ω s none maxIter = .ok res) (hr' : HasRows P res.state rows') {cur news : List (Int × Int)}
    (hcl : cur.length = rows.length) (hnl : news.length = rows.length)
    (hcur : ∀ (i : Nat) r p, rows[i]? = some r → r.lastPos p → cur[i]? = some p)
    (hnews : ∀ (i : Nat) r' q, rows'[i]? = some r' → news[i]? = some q → r'.lastPos q) {i : Nat} {r r' : Row K} {p q : Int × Int} {t : Fl K}
    (hri : rows[i]? = some r) (hri' : rows'[i]? = some r') (hp : r.lastPos p) (hq : r'.lastPos q) (ht : r.ts.getLast? = some t) :
    (p = q ∧ r'.ts.getLast? = some t) ∨ (p ≠ q ∧
    ∃ k q0 d dt m, newInd1 P p k = .ok q0 ∧ stepUpdate A k P.distances P.dx = .ok d ∧ q = checkForBoundary1 (zeroDist q0 d) p P.cellType ∧
      calcTravelTime A F P ω (s.world.pos + rows.length +
        if 0 < P.diffCoeff then ((cur.take i).zip (news.take i)).countP fun x => decide (x.1 ≠ x.2) else 0) k p q d = .ok (dt, m) ∧
      r'.ts.getLast? = some (A.add t dt)) := by
  obtain ⟨hwalk, hnp⟩ := hr
  obtain ⟨hwalkA, hnpA⟩ := hr'
  have hstate := h
  unfold runIteration at h
  rw [hwalk] at h
  simp only at h
  have hnp' : (if s.np = 0 then (ofRows (keysOf P) rows).xinds.length else s.np) = rows.length := by
    by_cases hz : s.np = 0
    · rw [if_pos hz]; simp [ofRows]
    · rw [if_neg hz, hnp]
  rw [hnp'] at h
  simp only [optionalVars_ofRows, bind_ok] at h
  obtain ⟨sx, hsx, sy, hsy, st, hst, -, -, h⟩ := h
  have hkeys : (dictOf (keysOf P) fun k => rows.map fun r => r.os k).map (fun x => x.1) = keysOf P := by
    unfold dictOf; rw [List.map_map]; simp [Function.comp_def]
  rw [hkeys] at h
  have hwd : WalkData.mk (ofRows (keysOf P) rows).xinds (ofRows (keysOf P) rows).yinds
      (ofRows (keysOf P) rows).times (dictOf (keysOf P) fun k => rows.map fun r => r.os k) = ofRows (keysOf P) rows := rfl
  rw [hwd] at h
  obtain ⟨⟨⟨nws, times, upd⟩, w1⟩, hstep, out, hout, h⟩ := h
  simp only [pure_ok] at h
  subst h
  have hlx := mapE_length hsx
  have hly := mapE_length hsy
  rw [List.length_range] at hlx hly
  have hclz : (sx.zip sy).length = rows.length := by rw [List.length_zip, hlx, hly, min_self]
  have hcurz : ∀ (i : Nat) r, rows[i]? = some r → ∃ p, (sx.zip sy)[i]? = some p ∧ r.lastPos p := by
    intro i r hri
    have hi : i < rows.length := (List.getElem?_eq_some_iff.1 hri).1
    have hrange : (List.range rows.length)[i]? = some i := List.getElem?_range hi
    obtain ⟨x, hx, hx'⟩ := mapE_get hsx hrange
    obtain ⟨y, hy, hy'⟩ := mapE_get hsy hrange
    obtain ⟨r1, hr1, hx'⟩ := lastAt_ofRows (f := fun r => r.xs) hx'
    obtain ⟨r2, hr2, hy'⟩ := lastAt_ofRows (f := fun r => r.ys) hy'
    rw [hri] at hr1 hr2
    injection hr1 with hr1; subst hr1
    injection hr2 with hr2; subst hr2
    exact ⟨(x, y), by rw [List.getElem?_zip_eq_some]; exact ⟨hx, hy⟩, hx', hy'⟩
  have hne : ∀ p ∈ sx.zip sy, p ≠ (0, 0) := by
    intro p hp
    obtain ⟨i, hi⟩ := List.getElem?_of_mem hp
    have hlt : i < rows.length := by rw [← hclz]; exact (List.getElem?_eq_some_iff.1 hi).1
    obtain ⟨p', hp', hlast⟩ := hcurz i _ (List.getElem?_eq_getElem hlt)
    rw [hi] at hp'
    cases hp'
    exact h0 _ (List.getElem_mem hlt) p hlast
  obtain ⟨hnlz, -, -⟩ := particleStepper_law G hw hne hstep
  obtain ⟨rows1, rfl, hl, hrows⟩ := storeSteps_inv (List.range rows.length) List.nodup_range hout
  have hE : rows'.length = rows1.length ∧ ∀ i : Nat, (rows'[i]?).map (fun r => (r.xs, r.ys, r.ts)) = (rows1[i]?).map fun r => (r.xs, r.ys, r.ts) := by
    simp only [Option.some.injEq] at hwalkA
    have h1 := congrArg WalkData.xinds hwalkA
    have h2 := congrArg WalkData.yinds hwalkA
    have h3 := congrArg WalkData.times hwalkA
    simp only [ofRows] at h1 h2 h3
    refine ⟨by simpa using (congrArg List.length h1).symm, fun i => ?_⟩
    have a1 := congrArg (·[i]?) h1
    have a2 := congrArg (·[i]?) h2
    have a3 := congrArg (·[i]?) h3
    simp only [List.getElem?_map] at a1 a2 a3
    cases hA : rows'[i]? <;> cases hB : rows1[i]? <;> rw [hA, hB] at a1 a2 a3 <;> simp_all
  have hcz : sx.zip sy = cur := by
    refine List.ext_getElem? fun j => ?_
    by_cases hj : j < rows.length
    · obtain ⟨p', hp', hlast⟩ := hcurz j _ (List.getElem?_eq_getElem hj)
      rw [hp', hcur j _ _ (List.getElem?_eq_getElem hj) hlast]
    · rw [List.getElem?_eq_none (by omega), List.getElem?_eq_none (by omega)]
  have hlastz : ∀ (j : Nat) r1 q, rows1[j]? = some r1 → nws[j]? = some q → r1.lastPos q := by
    intro j r1 q hr1 hq
    have hj : j < rows.length := by rw [← hl]; exact (List.getElem?_eq_some_iff.1 hr1).1
    obtain ⟨r2, hr2, -, hmem⟩ := hrows j _ (List.getElem?_eq_getElem hj)
    obtain ⟨q', p, hq', hp, hcase⟩ := hmem (by simpa using hj)
    rw [hq] at hq'
    cases hq'
    rw [hr1] at hr2
    cases hr2
    rcases hcase with ⟨rfl, rfl⟩ | ⟨hqp, t2, v, ht2, hv, rfl⟩
    · obtain ⟨p', hp', hlast⟩ := hcurz j _ (List.getElem?_eq_getElem hj)
      rw [hp] at hp'
      cases hp'
      exact hlast
    · simp [Row.append, Row.lastPos]
  have hlast' : ∀ (j : Nat) r' r1, rows'[j]? = some r' → rows1[j]? = some r1 → r'.xs = r1.xs ∧ r'.ys = r1.ys ∧ r'.ts = r1.ts := by
    intro j r' r1 h1 h2
    have e := hE.2 j
    rw [h1, h2] at e
    simpa using e
  have hnz : nws = news := by
    refine List.ext_getElem? fun j => ?_
    by_cases hj : j < rows.length
    · have hj1 : j < nws.length := by omega
      have hj2 : j < news.length := by omega
      have hj3 : j < rows1.length := by omega
      have hj4 : j < rows'.length := by omega
      have b1 := hlastz j _ _ (List.getElem?_eq_getElem hj3) (List.getElem?_eq_getElem hj1)
      have b2 := hnews j _ _ (List.getElem?_eq_getElem hj4) (List.getElem?_eq_getElem hj2)
      obtain ⟨e1, e2, -⟩ := hlast' j _ _ (List.getElem?_eq_getElem hj4) (List.getElem?_eq_getElem hj3)
      unfold Row.lastPos at b2
      rw [e1, e2] at b2
      rw [List.getElem?_eq_getElem hj1, List.getElem?_eq_getElem hj2, Row.lastPos_unique b1 b2]
    · rw [List.getElem?_eq_none (by omega), List.getElem?_eq_none (by omega)]
  subst hcz hnz
  have hi : i < rows.length := (List.getElem?_eq_some_iff.1 hri).1
  have hsti : st[i]? = some t := by
    have hrange : (List.range rows.length)[i]? = some i := List.getElem?_range hi
    obtain ⟨x, hx, hx'⟩ := mapE_get hst hrange
    obtain ⟨r1, hr1, hx'⟩ := lastAt_ofRows (f := fun r => r.ts) hx'
    rw [hri] at hr1
    injection hr1 with hr1; subst hr1
    rw [ht] at hx'
    injection hx' with hx'
    rw [hx, hx']
  obtain ⟨r2, hr2, -, hmem⟩ := hrows i _ hri
  obtain ⟨q', p', hq', hp', hcase⟩ := hmem (by simpa using hi)
  obtain ⟨e1, e2, e3⟩ := hlast' i _ _ hri' hr2
  have hpc := hcur i r p hri hp
  rw [hp'] at hpc
  cases hpc
  have hqq : q' = q := by
    have := hnews i r' q' hri' hq'
    exact Row.lastPos_unique this hq
  subst hqq
  rcases hcase with ⟨rfl, rfl⟩ | ⟨hqp, t2, v, ht2, hv, rfl⟩
  · exact .inl ⟨rfl, by rw [e3, ht]⟩
  · refine .inr ⟨fun e => hqp e.symm, ?_⟩
    obtain ⟨k, q0, d, dt, m, c1, c2, c3, c4, c5⟩ := particleStepper_delay G hw hne hstep hp' hq' hsti
    rw [hclz] at c4
    refine ⟨k, q0, d, dt, m, c1, c2, c3, c4, ?_⟩
    rw [c5] at ht2
    cases ht2
    rw [e3]
    simp [Row.append]

end Dorado
