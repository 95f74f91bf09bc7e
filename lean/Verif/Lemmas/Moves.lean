import Verif.Lemmas.Records
import Verif.Lemmas.Exact

/-! Helper lemmas: where one step leads. -/

set_option linter.unusedSectionVars false

namespace Dorado

variable {K : Type} [Field K] [LinearOrder K] [IsStrictOrderedRing K] {A : Arith K} {F : Fun K A}

theorem normalise_zero (A : Arith K) {w : Arr3 K} {i j k : Nat} (h : w i j k = .fin 0) : normalise A w i j k = .fin 0 := by
  unfold normalise
  simp only
  split
  · rename_i hl
    rw [h]
    cases hn : nansum9 A (w i j) with
    | nan => rw [hn] at hl; simp [Fl.lt] at hl
    | ninf => rw [hn] at hl; simp [Fl.lt] at hl
    | pinf => rfl
    | fin S =>
      rw [hn] at hl
      have : S ≠ 0 := by
        intro hS
        subst hS
        simp [Fl.lt] at hl
      simp [Arith.div, this, A.zero]
  · exact h

theorem normalise_nan (A : Arith K) {w : Arr3 K} {i j k : Nat} (h : w i j k = .nan) : normalise A w i j k = .nan := by
  unfold normalise
  simp only
  split
  · rw [h]; rfl
  · exact h

/-- The cell itself has no flow-derived weight. -/
theorem weightFlow_self {P : PObj K} (G : Good P) (hS : SelfZero P) {i j : Nat} (h : Interior P i j) :
    (weightFlow A F P i j 4).nanTo0 = .fin 0 := by
  rw [weightFlow_eq]
  by_cases hm : dryMask P i j 4 = true
  · rw [if_pos hm]; rfl
  · rw [if_neg hm]
    have hm' : dryMask P i j 4 = false := by simpa using hm
    obtain ⟨d, hd, hdry⟩ := dryMask_false G h (by omega : 4 < 9) hm'
    have hd0 : 0 < d := lt_of_le_of_lt G.dry_nonneg hdry
    obtain ⟨y, hy, -⟩ := F.pow_pos d P.theta hd0
    rw [hd, hy]
    have hb : ¬(i = 0 ∨ j = 0 ∨ i + 1 = P.stage.rows ∨ j + 1 = P.stage.cols) := by
      have := G.stage_rows; have := G.stage_cols
      unfold Interior at h
      omega
    obtain ⟨dd, hdd, hdd0⟩ := G.dist_pos 4 (by omega)
    obtain ⟨hi, hj⟩ := (⟨by unfold Interior at h; omega, by unfold Interior at h; omega⟩ : i < P.depth.rows ∧ j < P.depth.cols)
    have hint : maskZero (dryMask P) (weightInt0 A P) i j 4 = .fin 0 := by
      unfold maskZero
      rw [if_neg hm]
      unfold weightInt0 clearBorders clipPos tileDomain tileLocal
      beta_reduce
      rw [if_neg hb, hS.1, hS.2, hdd]
      obtain ⟨a, ha⟩ := G.qx_fin i j hi hj
      obtain ⟨b, hb⟩ := G.qy_fin i j hi hj
      rw [ha, hb]
      simp [Arith.mul, Arith.add, A.zero, Arith.div, hdd0.ne', Fl.le]
    have hsfc : maskZero (dryMask P) (weightSfc0 A P) i j 4 = .fin 0 ∨ maskZero (dryMask P) (weightSfc0 A P) i j 4 = .nan := by
      unfold maskZero
      rw [if_neg hm]
      unfold weightSfc0 clearBorders clipPos tileDomain tileLocal
      beta_reduce
      rw [if_neg hb, hdd]
      have hI : interiorB P.stage.rows P.stage.cols i j = true := by
        rw [G.stage_rows, G.stage_cols]; exact interiorB_true h
      unfold bigSlidingWindow
      rw [if_pos hI]
      have : winRow i 4 = i ∧ winCol j 4 = j := by unfold winRow winCol; omega
      rw [this.1, this.2]
      rcases G.stage_fin i j hi hj with hs | ⟨x, hs⟩
      · right; rw [hs]; rfl
      · left; rw [hs]
        simp [Arith.sub, Fl.neg, Arith.add, A.zero, Arith.div, hdd0.ne', Fl.le]
    rw [normalise_zero A hint]
    rcases hsfc with hs | hs
    · rw [normalise_zero A hs]
      simp [Arith.mul, Arith.add, Arith.sub, Fl.neg, A.zero, Fl.nanTo0, Fl.isNan]
    · rw [normalise_nan A hs]
      simp [Arith.mul, Arith.add, Arith.sub, Fl.neg, A.zero, Fl.nanTo0, Fl.isNan]

/-- Away from dead ends steepest descent finds a neighbour other than the cell itself. -/
theorem flow_self_ok {P : PObj K} (G : Good P) (hS : SelfZero P) {i j : Nat} (h : Interior P i j) (hd : ¬ NoFlowWeight A F P i j) :
    ∃ k x, k < 9 ∧ k ≠ 4 ∧ makeWeight A F P i j k = .fin x ∧ 0 < x ∧ ∀ y, makeWeight A F P i j 4 = .fin y → y ≤ x := by
  unfold NoFlowWeight at hd
  push Not at hd
  obtain ⟨k, hk, hne⟩ := hd
  have hd' : ¬ NoFlowWeight A F P i j := fun hh => hne (hh k hk)
  have h4 := weightFlow_self (A := A) (F := F) G hS h
  have hk4 : k ≠ 4 := by rintro rfl; exact hne h4
  rcases weightFlow_NN A F G h hk with hn | ⟨x, hx, hx0, -⟩
  · rw [hn] at hne; exact absurd rfl hne
  · have hx1 : 0 < x := lt_of_le_of_ne hx0 (fun h0 => hne (by rw [hx, ← h0]; rfl))
    refine ⟨k, x, hk, hk4, by rw [makeWeight_flow A F G h hd', hx], hx1, fun y hy => ?_⟩
    rw [makeWeight_flow A F G h hd'] at hy
    rw [hy] at h4
    simp [Fl.nanTo0, Fl.isNan] at h4
    rw [h4]; exact hx0

/-- The window test for edges. -/
theorem edgeInWindow_iff {ct : Grid Int} {a b : Nat} (ha : 1 ≤ a) (hb : 1 ≤ b) :
    edgeInWindow ct (a : Int) (b : Int) = true ↔
      ∃ i j, i < ct.rows ∧ j < ct.cols ∧ (a ≤ i + 1 ∧ i ≤ a + 1) ∧ (b ≤ j + 1 ∧ j ≤ b + 1) ∧ ct.at' i j = -1 := by
  unfold edgeInWindow sliceBound
  simp only [List.any_eq_true, List.mem_range, Bool.and_eq_true, decide_eq_true_eq, beq_iff_eq]
  constructor
  · rintro ⟨i, hi, j, hj, ⟨h1, h2, h3, h4⟩, h5⟩
    refine ⟨i, j, hi, hj, ?_, ?_, h5⟩
    · split at h1 <;> split at h2 <;> omega
    · split at h3 <;> split at h4 <;> omega
  · rintro ⟨i, j, hi, hj, h1, h2, h5⟩
    refine ⟨i, hi, j, hj, ⟨?_, ?_, ?_, ?_⟩, h5⟩ <;> split <;> omega

theorem nearEdge_iff {P : PObj K} {a b : Nat} (ha : 1 ≤ a) (hb : 1 ≤ b) :
    edgeInWindow P.cellType (a : Int) (b : Int) = true ↔ NearEdge P a b := edgeInWindow_iff ha hb

/-- Where a step from a cell away from edges leads. -/
theorem StepOf.dest {P : PObj K} (G : Good P) (hw : DefaultWalk P) (hz : StepsNonzero A P) {ω : Nat → K} {a b : Nat}
    (h : Interior P a b) (he : ¬ NearEdge P a b) {q : Int × Int} {t t' : Fl K}
    (hs : StepOf A F P ω ((a : Int), (b : Int)) t q t') :
    ∃ k n, k < 9 ∧ pickFrom A (maskOf P (makeWeight A F P a b)) (ω n) = .ok k ∧
      q = (((Flow.nr a k : Nat) : Int), ((Flow.nc b k : Nat) : Int)) := by
  obtain ⟨k, q0, d, m, m', dt, hc, hq0, hd, hq, ht, rfl⟩ := hs
  have ha : 1 ≤ a := h.1
  have hb : 1 ≤ b := h.2.2.1
  have hk : k < 9 ∧ A.mul (P.distances k) (.fin P.dx) = d := by
    unfold stepUpdate flat9 at hd
    simp only [bind_ok, pure_ok] at hd
    obtain ⟨a, ha, rfl⟩ := hd
    split at ha
    · injection ha with ha; subst ha; exact ⟨‹_›, rfl⟩
    · cases ha
  obtain ⟨hk, rfl⟩ := hk
  have hzd : zeroDist q0 (A.mul (P.distances k) (.fin P.dx)) = q0 := by
    unfold zeroDist
    rw [if_neg]
    have := hz k hk
    intro hh
    cases hm : A.mul (P.distances k) (.fin P.dx) <;> rw [hm] at hh this <;> simp [Fl.eq] at hh
    exact this (by rw [hh])
  rw [hzd] at hq
  unfold checkForBoundary1 at hq
  rw [if_neg (fun hh => he ((nearEdge_iff ha hb).1 hh))] at hq
  have hdest : q = (((Flow.nr a k : Nat) : Int), ((Flow.nc b k : Nat) : Int)) := by
    rw [← default_dest hw hk ha hb, hq]
    unfold newInd1 calculateNewInd flat9 at hq0
    by_cases h4 : k = 4
    · subst h4
      simp at hq0
      rw [← hq0, hw.1, hw.2]
      simp [defaultIwalk, defaultJwalk]
    · rw [if_pos h4, if_pos hk, if_pos hk] at hq0
      simp only [ok_bind, pure_ok] at hq0
      rw [← hq0]
  rcases hc with ⟨h', -⟩ | ⟨-, n, i, j, hi, hj, hpick⟩
  · simp at h'; omega
  · have hi' := pyIdx_cast (by have := G.stage_rows; have := h.2.1; omega) hi
    have hj' := pyIdx_cast (by have := G.stage_cols; have := h.2.2.2; omega) hj
    subst hi' hj'
    exact ⟨k, n, hk, hpick, hdest⟩

/-- A move from an interior cell. -/
theorem Move.interior {P : PObj K} (G : Good P) (hw : DefaultWalk P) {ω : Nat → K} {a b : Nat}
    (h : Interior P a b) {q : Int × Int} {t t' : Fl K} {i j k : Nat} {r : K}
    (hm : Move A F P ω ((a : Int), (b : Int)) t q t' i j k r) :
    i = a ∧ j = b ∧ q = (((Flow.nr a k : Nat) : Int), ((Flow.nc b k : Nat) : Int)) := by
  refine ⟨pyIdx_cast (by have := G.stage_rows; have := h.2.1; omega) hm.row,
    pyIdx_cast (by have := G.stage_cols; have := h.2.2.2; omega) hm.col, ?_⟩
  rw [hm.dest, default_dest hw hm.lt h.1 h.2.2.1]

/-- A neighbour with positive flow-derived weight is wet and not land. -/
theorem passable_of_pos {P : PObj K} (G : Good P) {a b : Nat} (h : Interior P a b) (hd : ¬ NoFlowWeight A F P a b) {k : Nat} (hk : k < 9)
    {x : K} (hx : makeWeight A F P a b k = .fin x) (h0 : 0 < x) :
    (∃ d, P.depth.at' (Flow.nr a k) (Flow.nc b k) = .fin d ∧ P.dryDepth < d) ∧ P.cellType.at' (Flow.nr a k) (Flow.nc b k) ≠ 2 := by
  rw [makeWeight_flow A F G h hd] at hx
  have hm : dryMask P a b k = false := by
    by_contra hc
    rw [weightFlow_masked A F (by simpa using hc)] at hx
    injection hx with hx
    exact absurd h0 (by rw [← hx]; exact lt_irrefl _)
  obtain ⟨d, hd1, hd2⟩ := dryMask_false G h hk hm
  refine ⟨⟨d, ?_, hd2⟩, ?_⟩
  · unfold bigSlidingWindow at hd1
    rw [if_pos (interiorB_true h)] at hd1
    exact hd1
  · unfold dryMask at hm
    simp only [Bool.or_eq_false_iff, beq_eq_false_iff_ne] at hm
    have h2 := hm.2
    unfold bigSlidingWindowInt at h2
    rw [G.ct_rows, G.ct_cols, if_pos (interiorB_true h)] at h2
    exact h2

/-- Last position of a row as an observation. -/
theorem lastPos_ofRows {keys : List String} {rows : List (Row K)} {i : Nat} {p : Int × Int} :
    (ofRows keys rows).lastPos i = some p ↔ ∃ r, rows[i]? = some r ∧ r.lastPos p := by
  unfold WalkData.lastPos ofRows Row.lastPos
  simp only [List.getElem?_map]
  cases h : rows[i]? with
  | none => simp
  | some r =>
    simp only [Option.map_some, Option.bind_eq_bind, Option.bind_some, Option.some.injEq, exists_eq_left']
    cases r.xs.getLast? <;> cases r.ys.getLast? <;> simp [Prod.ext_iff, pure]

theorem lastTime_ofRows {keys : List String} {rows : List (Row K)} {i : Nat} {t : Fl K} :
    (ofRows keys rows).lastTime i = some t ↔ ∃ r, rows[i]? = some r ∧ r.ts.getLast? = some t := by
  unfold WalkData.lastTime ofRows
  simp only [List.getElem?_map]
  cases h : rows[i]? <;> simp

theorem RowStep.lastPos {P : PObj K} {ω : Nat → K} {r r' : Row K} (h : RowStep A F P ω r r') {p q : Int × Int} (hp : r.lastPos p)
    (hq : r'.lastPos q) : ∃ t t', r.ts.getLast? = some t ∧ r'.ts.getLast? = some t' ∧ StepOf A F P ω p t q t' ∧ q ≠ p := by
  obtain ⟨p', t, q', t', v, hp', ht, hst, hne, -, rfl⟩ := h
  have e1 : p' = p := Prod.ext (by have := hp.1.symm.trans hp'.1; injection this with h; exact h.symm)
    (by have := hp.2.symm.trans hp'.2; injection this with h; exact h.symm)
  have e2 : q' = q := by
    simp [Row.lastPos, Row.append] at hq
    exact Prod.ext hq.1 hq.2
  subst e1 e2
  exact ⟨t, t', ht, by simp [Row.append], hst, hne⟩

theorem RowStill.lastPos {P : PObj K} {ω : Nat → K} {r : Row K} (h : RowStill A F P ω r) {p : Int × Int} (hp : r.lastPos p) :
    ∃ t t', r.ts.getLast? = some t ∧ StepOf A F P ω p t p t' := by
  obtain ⟨p', t, t', hp', ht, hst⟩ := h
  have e1 : p' = p := Prod.ext (by have := hp.1.symm.trans hp'.1; injection this with h; exact h.symm)
    (by have := hp.2.symm.trans hp'.2; injection this with h; exact h.symm)
  subst e1
  exact ⟨t, t', ht, hst⟩

end Dorado
