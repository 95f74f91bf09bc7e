import Verif.Lemmas.Moves
import Verif.Lemmas.Safe

/-! Helper lemmas: which draw decides which particle, and how many draws an iteration takes. -/

set_option linter.unusedSectionVars false

namespace Dorado

variable {K : Type} [Field K] [LinearOrder K] [IsStrictOrderedRing K] {A : Arith K} {F : Fun K A}

/-- A particle at `p` goes to `q` with the draw `u`. -/
def Lands (A : Arith K) (F : Fun K A) (P : PObj K) (p : Int × Int) (u : K) (q : Int × Int) : Prop :=
  ∃ i j k q0 d, pyIdx P.stage.rows p.1 = .ok i ∧ pyIdx P.stage.cols p.2 = .ok j ∧
    pickFrom A (maskOf P (makeWeight A F P i j)) u = .ok k ∧ newInd1 P p k = .ok q0 ∧ stepUpdate A k P.distances P.dx = .ok d ∧
    q = checkForBoundary1 (zeroDist q0 d) p P.cellType

theorem Lands.unique {P : PObj K} {p q q' : Int × Int} {u : K} (h : Lands A F P p u q) (h' : Lands A F P p u q') : q = q' := by
  obtain ⟨i, j, k, q0, d, h1, h2, h3, h4, h5, rfl⟩ := h
  obtain ⟨i', j', k', q0', d', h1', h2', h3', h4', h5', rfl⟩ := h'
  rw [h1] at h1'; cases h1'
  rw [h2] at h2'; cases h2'
  rw [h3] at h3'; cases h3'
  rw [h4] at h4'; cases h4'
  rw [h5] at h5'; cases h5'
  rfl

theorem cells_at {P : PObj K} (G : Good P) {ω : Nat → K} {s s' : World K} {cur : List (Int × Int)} {cells : List Nat}
    (hw : PickEquiv A F P s.weight) (h0 : ∀ p ∈ cur, p ≠ (0, 0)) (h : mapAcc (newCell1 A P ω) s cur = .ok (cells, s')) :
    s'.pos = s.pos + cur.length ∧ ∀ (i : Nat) p k, cur[i]? = some p → cells[i]? = some k → ∃ a b, pyIdx P.stage.rows p.1 = .ok a ∧
      pyIdx P.stage.cols p.2 = .ok b ∧ pickFrom A (maskOf P (makeWeight A F P a b)) (ω (s.pos + i)) = .ok k := by
  induction cur generalizing s cells with
  | nil =>
    simp [mapAcc] at h
    obtain ⟨rfl, rfl⟩ := h
    exact ⟨rfl, by simp⟩
  | cons p cur ih =>
    simp only [mapAcc, bind_ok, pure_ok, Prod.exists, Prod.mk.injEq] at h
    obtain ⟨k, s1, hk, ks, s2, hks, rfl, rfl⟩ := h
    unfold newCell1 at hk
    rw [if_pos (h0 p (by simp))] at hk
    obtain ⟨hw1, hpos, i, j, hi, hj, hpick⟩ := getWeight_inv A F G hw hk
    obtain ⟨h1, h2⟩ := ih hw1 (fun q hq => h0 q (by simp [hq])) hks
    refine ⟨by rw [h1, hpos, List.length_cons]; omega, fun n q k' hq hk' => ?_⟩
    cases n with
    | zero =>
      simp at hq hk'
      subst hq hk'
      exact ⟨i, j, hi, hj, hpick⟩
    | succ n =>
      simp at hq hk'
      obtain ⟨a, b, ha, hb, hab⟩ := h2 n q k' hq hk'
      rw [hpos] at hab
      exact ⟨a, b, ha, hb, by rw [show s.pos + (n + 1) = s.pos + 1 + n by omega]; exact hab⟩

theorem times_pos {P : PObj K} {ω : Nat → K} {pos pos' : Nat} {l : List ((Nat × (Int × Int)) × ((Int × Int) × Fl K))} {ts : List (Fl K)}
    (h : mapAcc (fun pos q => calcTravelTime A F P ω pos q.1.1 q.1.2 q.2.1 q.2.2) pos l = .ok (ts, pos')) :
    pos' = pos + if 0 < P.diffCoeff then l.countP fun q => decide (q.1.2 ≠ q.2.1) else 0 := by
  induction l generalizing pos ts with
  | nil =>
    simp [mapAcc] at h
    obtain ⟨-, rfl⟩ := h
    simp
  | cons x l ih =>
    simp only [mapAcc, bind_ok, pure_ok, Prod.exists, Prod.mk.injEq] at h
    obtain ⟨k, s1, hk, ks, s2, hks, rfl, rfl⟩ := h
    rw [ih hks]
    unfold calcTravelTime at hk
    rw [List.countP_cons]
    by_cases hne : x.1.2 ≠ x.2.1
    · rw [if_pos hne] at hk
      simp only [bind_ok] at hk
      obtain ⟨v1, -, v2, -, hk⟩ := hk
      by_cases hd : 0 < P.diffCoeff
      · simp only [if_pos hd] at hk ⊢
        obtain ⟨a, -, va, -, c, -, hk⟩ := hk
        simp only [pure_ok, Prod.mk.injEq] at hk
        rw [if_pos (decide_eq_true hne)]
        omega
      · simp only [if_neg hd] at hk ⊢
        obtain ⟨a, -, va, -, c, -, hk⟩ := hk
        simp only [pure_ok, Prod.mk.injEq] at hk
        omega
    · rw [if_neg hne] at hk
      simp only [pure_ok, Prod.mk.injEq] at hk
      simp only [hne, decide_false]
      simp [hk.2]

theorem countP_moved (f : List Nat) (cur news : List (Int × Int)) (dist : List (Fl K)) (h1 : f.length = cur.length) (h2 : news.length = cur.length)
    (h3 : dist.length = cur.length) :
    ((f.zip cur).zip (news.zip dist)).countP (fun q => decide (q.1.2 ≠ q.2.1)) = (cur.zip news).countP fun x => decide (x.1 ≠ x.2) := by
  induction cur generalizing f news dist with
  | nil => simp
  | cons c cur ih =>
    cases f with
    | nil => simp at h1
    | cons a f =>
      cases news with
      | nil => simp at h2
      | cons b news =>
        cases dist with
        | nil => simp at h3
        | cons d dist =>
          simp only [List.length_cons, Nat.add_right_cancel_iff] at h1 h2 h3
          simp only [List.zip_cons_cons, List.countP_cons, ih f news dist h1 h2 h3]

/-- The draw that decides each particle, and the number of draws taken. -/
theorem particleStepper_law {P : PObj K} (G : Good P) {ω : Nat → K} {s s' : World K} {cur news : List (Int × Int)}
    {times times' : List (Fl K)} {vars : List String} {upd : List (String × List (Val K))}
    (hw : PickEquiv A F P s.weight) (h0 : ∀ p ∈ cur, p ≠ (0, 0))
    (h : particleStepper A F P ω s cur times vars = .ok ((news, times', upd), s')) :
    news.length = cur.length ∧ (∀ (i : Nat) p q, cur[i]? = some p → news[i]? = some q → Lands A F P p (ω (s.pos + i)) q) ∧
    s'.pos = s.pos + cur.length + if 0 < P.diffCoeff then (cur.zip news).countP fun x => decide (x.1 ≠ x.2) else 0 := by
  unfold particleStepper at h
  simp only [bind_ok, pure_ok, Prod.exists, Prod.mk.injEq] at h
  obtain ⟨cells, s1, hcells, inds0, hinds0, dist, hdist, temp, pos', htemp, opt, hopt, ⟨rfl, rfl, rfl⟩, rfl⟩ := h
  obtain ⟨hpos, hc⟩ := cells_at G hw h0 hcells
  have hlen1 : cells.length = cur.length :=
    (mapAcc_inv (fun _ => True) (fun _ _ => True) (fun _ _ _ _ _ _ => ⟨trivial, trivial⟩) trivial hcells).2.length_eq.symm
  have hlen2 := mapE_length hinds0
  have hlen3 := mapE_length hdist
  have hlenN : (checkForBoundary (List.zipWith zeroDist inds0 dist) cur P.cellType).length = cur.length := by
    unfold checkForBoundary
    simp [hlen2, hlen3, hlen1]
  refine ⟨hlenN, fun i p q hp hq => ?_, ?_⟩
  · have hi : i < cells.length := by rw [hlen1]; exact (List.getElem?_eq_some_iff.1 hp).1
    have hk := List.getElem?_eq_getElem hi
    obtain ⟨a, b, ha, hb, hpick⟩ := hc i p _ hp hk
    have hz : (cur.zip cells)[i]? = some (p, cells[i]) := by
      rw [List.getElem?_zip_eq_some]; exact ⟨hp, hk⟩
    obtain ⟨q0, hq0, hq0'⟩ := mapE_get hinds0 hz
    obtain ⟨d, hd, hd'⟩ := mapE_get hdist hk
    refine ⟨a, b, _, q0, d, ha, hb, hpick, hq0', hd', ?_⟩
    unfold checkForBoundary at hq
    rw [List.getElem?_zipWith_eq_some] at hq
    obtain ⟨z, p', hz', hp', rfl⟩ := hq
    rw [hp] at hp'
    cases hp'
    rw [List.getElem?_zipWith_eq_some] at hz'
    obtain ⟨q0', d', h1, h2, rfl⟩ := hz'
    rw [hq0] at h1; cases h1
    rw [hd] at h2; cases h2
    rfl
  · simp only
    rw [times_pos htemp, hpos, countP_moved _ _ _ _ hlen1 hlenN (by rw [hlen3, hlen1])]

variable [FloorRing K]

/-- One call of `run_iteration()`: the new position of particle `i` is decided by the draw `pos + i`. -/
theorem runIteration_law {P : PObj K} (G : Good P) {ω : Nat → K} {s : PState K} {rows : List (Row K)} {maxIter : Int} {res : RunResult K}
    (hw : PickEquiv A F P s.world.weight) (hr : HasRows P s rows) (h0 : ∀ r ∈ rows, ∀ p, r.lastPos p → p ≠ (0, 0))
    (h : runIteration A F P ω s none maxIter = .ok res) :
    ∃ rows', HasRows P res.state rows' ∧ rows'.length = rows.length ∧ ∃ cur news : List (Int × Int), cur.length = rows.length ∧
      news.length = rows.length ∧
      (∀ (i : Nat) r p, rows[i]? = some r → r.lastPos p → cur[i]? = some p) ∧
      (∀ (i : Nat) r' q, rows'[i]? = some r' → news[i]? = some q → r'.lastPos q) ∧
      (∀ (i : Nat) p q, cur[i]? = some p → news[i]? = some q → Lands A F P p (ω (s.world.pos + i)) q) ∧
      res.state.world.pos = s.world.pos + rows.length + if 0 < P.diffCoeff then (cur.zip news).countP fun x => decide (x.1 ≠ x.2) else 0 := by
  have hinv := runIteration_inv A F G hw hr.1 (Or.inl hr.2) h
  obtain ⟨-, rowsA, hlA, -, hwalkA, hnpA, -⟩ := hinv
  obtain ⟨hwalk, hnp⟩ := hr
  unfold runIteration at h
  rw [hwalk] at h
  simp only at h
  have hnp' : (if s.np = 0 then (ofRows (keysOf P) rows).xinds.length else s.np) = rows.length := by
    by_cases hz : s.np = 0
    · rw [if_pos hz]; simp [ofRows]
    · rw [if_neg hz, hnp]
  rw [hnp'] at h
  simp only [optionalVars_ofRows, bind_ok] at h
  obtain ⟨sx, hsx, sy, hsy, st, hst, -, -, h⟩ := h
  have hkeys : (dictOf (keysOf P) fun k => rows.map fun r => r.os k).map (fun x => x.1) = keysOf P := by
    unfold dictOf; rw [List.map_map]; simp [Function.comp_def]
  rw [hkeys] at h
  have hwd : WalkData.mk (ofRows (keysOf P) rows).xinds (ofRows (keysOf P) rows).yinds
      (ofRows (keysOf P) rows).times (dictOf (keysOf P) fun k => rows.map fun r => r.os k) = ofRows (keysOf P) rows := rfl
  rw [hwd] at h
  obtain ⟨⟨⟨news, times, upd⟩, w1⟩, hstep, out, hout, h⟩ := h
  simp only [pure_ok] at h
  subst h
  have hlx := mapE_length hsx
  have hly := mapE_length hsy
  rw [List.length_range] at hlx hly
  have hcl : (sx.zip sy).length = rows.length := by rw [List.length_zip, hlx, hly, min_self]
  have hcur : ∀ (i : Nat) r, rows[i]? = some r → ∃ p, (sx.zip sy)[i]? = some p ∧ r.lastPos p := by
    intro i r hri
    have hi : i < rows.length := (List.getElem?_eq_some_iff.1 hri).1
    have hrange : (List.range rows.length)[i]? = some i := List.getElem?_range hi
    obtain ⟨x, hx, hx'⟩ := mapE_get hsx hrange
    obtain ⟨y, hy, hy'⟩ := mapE_get hsy hrange
    obtain ⟨r1, hr1, hx'⟩ := lastAt_ofRows (f := fun r => r.xs) hx'
    obtain ⟨r2, hr2, hy'⟩ := lastAt_ofRows (f := fun r => r.ys) hy'
    rw [hri] at hr1 hr2
    injection hr1 with hr1; subst hr1
    injection hr2 with hr2; subst hr2
    exact ⟨(x, y), by rw [List.getElem?_zip_eq_some]; exact ⟨hx, hy⟩, hx', hy'⟩
  have hne : ∀ p ∈ sx.zip sy, p ≠ (0, 0) := by
    intro p hp
    obtain ⟨i, hi⟩ := List.getElem?_of_mem hp
    have hlt : i < rows.length := by rw [← hcl]; exact (List.getElem?_eq_some_iff.1 hi).1
    obtain ⟨p', hp', hlast⟩ := hcur i _ (List.getElem?_eq_getElem hlt)
    rw [hi] at hp'
    cases hp'
    exact h0 _ (List.getElem_mem hlt) p hlast
  obtain ⟨hnl, hland, hpos⟩ := particleStepper_law G hw hne hstep
  obtain ⟨rows', rfl, hl, hrows⟩ := storeSteps_inv (List.range rows.length) List.nodup_range hout
  have hE : rowsA.length = rows'.length ∧ ∀ i : Nat, (rowsA[i]?).map (fun r => (r.xs, r.ys)) = (rows'[i]?).map fun r => (r.xs, r.ys) := by
    simp only [Option.some.injEq] at hwalkA
    have h1 := congrArg WalkData.xinds hwalkA
    have h2 := congrArg WalkData.yinds hwalkA
    simp only [ofRows] at h1 h2
    refine ⟨by rw [hlA, hl], fun i => ?_⟩
    have a1 := congrArg (·[i]?) h1
    have a2 := congrArg (·[i]?) h2
    simp only [List.getElem?_map] at a1 a2
    cases hA : rowsA[i]? <;> cases hB : rows'[i]? <;> rw [hA, hB] at a1 a2 <;> simp_all
  refine ⟨rowsA, ⟨hwalkA, by rw [hnpA, hlA]⟩, hlA, sx.zip sy, news, hcl, by rw [hnl, hcl], fun i r p hri hp => ?_, fun i r' q hr' hq => ?_, hland, ?_⟩
  · obtain ⟨p', hp', hlast⟩ := hcur i r hri
    rwa [Row.lastPos_unique hp hlast]
  · have hi : i < rows.length := by rw [← hlA]; exact (List.getElem?_eq_some_iff.1 hr').1
    have hri := List.getElem?_eq_getElem hi
    obtain ⟨r2, hr2, -, hmem⟩ := hrows i _ hri
    obtain ⟨q', p, hq', hp, hcase⟩ := hmem (by simpa using hi)
    rw [hq] at hq'
    cases hq'
    have e := hE.2 i
    rw [hr', hr2] at e
    simp only [Option.map_some, Option.some.injEq, Prod.mk.injEq] at e
    unfold Row.lastPos
    rw [e.1, e.2]
    rcases hcase with ⟨rfl, rfl⟩ | ⟨hqp, t2, v, ht2, hv, rfl⟩
    · obtain ⟨p', hp', hlast⟩ := hcur i _ hri
      rw [hp] at hp'
      cases hp'
      exact hlast
    · simp [Row.append]
  · simp only
    rw [hpos, hcl]

end Dorado
