import Verif.Lemmas.Moves
import Verif.Lemmas.Init
import Verif.Lemmas.Bisim
import Verif.Lemmas.Measure
import Verif.Spec.Demo

/-! # C01, C02, C10-C12: choosing the next cell -/

set_option linter.unusedSectionVars false

namespace Dorado

open MeasureTheory Finset

variable {K : Type} [Field K] [LinearOrder K] [IsStrictOrderedRing K] [FloorRing K] {A : Arith K} {F : Fun K A}

/-! ## C01

Full claim: "... whatever the random numbers are". False at the draw 0 (`C01_zero_draw_counterexample`), hence `_partial`. -/

/-- Any rounding: in any history with non-zero draws, a particle that leaves an interior cell with some flow-derived weight is
recorded next in a cell deeper than `dry_depth` that is not land. Both routing modes. -/
theorem C01_wet_neighbour_partial {P0 : PObj K} (hB : Built A F P0) (hw : DefaultWalk P0) (hS : SelfZero P0) (hz : StepsNonzero A P0)
    {P : PObj K} {s : PState K} (h : Reach A F (· = P0) (NonzeroDraws A) AnySeed P s) {wd : WalkData K} (hwd : s.walk = some wd)
    {i n a b : Nat} {q : Int × Int} (hp : wd.posAt i n = some ((a : Int), (b : Int))) (hq : wd.posAt i (n + 1) = some q)
    (hin : Interior P0 a b) (hd : ¬ NoFlowWeight A F P0 a b) :
    ∃ c d : Nat, q = ((c : Int), (d : Int)) ∧ (∃ x, P0.depth.at' c d = .fin x ∧ P0.dryDepth < x) ∧ P0.cellType.at' c d ≠ 2 := by
  have G := hB.good
  obtain ⟨rows, rfl, -, hrows⟩ := Reach.walk (I := fun _ _ => True)
    (R := fun p t q t' => ∃ ω, NonzeroDraws A ω ∧ StepOf A F P0 ω p t q t')
    (fun P hP => by subst hP; exact G) (fun _ _ _ _ _ _ _ _ _ _ => trivial)
    (fun P ω p t q t' hP hω _ hs _ => ⟨trivial, ω, hω, by subst hP; exact hs⟩) h hwd
  obtain ⟨r, hr, hx, hy⟩ := posAt_ofRows.1 hp
  obtain ⟨r', hr', hx', hy'⟩ := posAt_ofRows.1 hq
  rw [hr] at hr'
  cases hr'
  have hI := hrows r (List.mem_of_getElem? hr)
  obtain ⟨t, -, hrec⟩ := rec_of_pos hI.aligned hx hy
  obtain ⟨t', -, hrec'⟩ := rec_of_pos hI.aligned hx' hy'
  obtain ⟨hne, ω, hω, hs⟩ := hI.pairs n _ _ _ _ hrec hrec'
  obtain ⟨i', j', k, u, hm⟩ := StepOf.move hz hs hne
  obtain ⟨rfl, rfl, hdest⟩ := hm.interior G hw hin
  obtain ⟨m, rfl⟩ := hm.draw
  have hi : i' < P0.stage.rows := by have := G.stage_rows; have := hin.2.1; omega
  have hj : j' < P0.stage.cols := by have := G.stage_cols; have := hin.2.2.2; omega
  obtain ⟨x, hx1, -, hx0⟩ := pick_positive G hi hj (hω.1 m).1 (hω.1 m).2 (hω.2 m)
    (mask_some_pos G hin (fun _ => flow_self_ok G hS hin hd)) hm.pick
  exact ⟨_, _, hdest, passable_of_pos G hin hd hm.lt hx1 hx0⟩

/-- Exact arithmetic, in terms of the closed formula: a particle that leaves an interior cell that is not a dead end of the flow
field goes to a neighbour that is wet and not land. -/
theorem C01_passable_partial {F : Fun K Arith.exact} {P0 : PObj K} (hB : Built Arith.exact F P0) (hw : DefaultWalk P0)
    (hS : SelfZero P0) (hdx : P0.dx ≠ 0)
    {P : PObj K} {s : PState K} (h : Reach Arith.exact F (· = P0) (fun ω => ∀ n, 0 < ω n ∧ ω n < 1) AnySeed P s)
    {wd : WalkData K} (hwd : s.walk = some wd)
    {i n a b : Nat} {q : Int × Int} (hp : wd.posAt i n = some ((a : Int), (b : Int))) (hq : wd.posAt i (n + 1) = some q)
    (hin : Interior P0 a b) (hd : ¬ (flowOf F P0).DeadEnd a b) :
    ∃ k, k < 9 ∧ k ≠ 4 ∧ q = (((Flow.nr a k : Nat) : Int), ((Flow.nc b k : Nat) : Int)) ∧ (flowOf F P0).Passable a b k := by
  have G := hB.good
  have hz : StepsNonzero Arith.exact P0 := by
    intro k hk
    obtain ⟨d, hd, hd0⟩ := G.dist_pos k hk
    rw [hd]
    simp [Arith.mul, Arith.exact, hd0.ne', hdx]
  obtain ⟨rows, rfl, -, hrows⟩ := Reach.walk (I := fun _ _ => True)
    (R := fun p t q t' => ∃ ω : Nat → K, (∀ n, 0 < ω n ∧ ω n < 1) ∧ StepOf Arith.exact F P0 ω p t q t')
    (fun P hP => by subst hP; exact G) (fun _ _ _ _ _ _ _ _ _ _ => trivial)
    (fun P ω p t q t' hP hω _ hs _ => ⟨trivial, ω, hω, by subst hP; exact hs⟩) h hwd
  obtain ⟨r, hr, hx, hy⟩ := posAt_ofRows.1 hp
  obtain ⟨r', hr', hx', hy'⟩ := posAt_ofRows.1 hq
  rw [hr] at hr'
  cases hr'
  have hI := hrows r (List.mem_of_getElem? hr)
  obtain ⟨t, -, hrec⟩ := rec_of_pos hI.aligned hx hy
  obtain ⟨t', -, hrec'⟩ := rec_of_pos hI.aligned hx' hy'
  obtain ⟨hne, ω, hω, hs⟩ := hI.pairs n _ _ _ _ hrec hrec'
  obtain ⟨i', j', k, u, hm⟩ := StepOf.move hz hs hne
  obtain ⟨rfl, rfl, hdest⟩ := hm.interior G hw hin
  obtain ⟨m, rfl⟩ := hm.draw
  have hR := represents_flowOf (F := F) G
  have hd' : ¬ NoFlowWeight Arith.exact F P0 i' j' := fun hh => hd ((deadEnd_repr G hR hin).1 hh)
  have hi : i' < P0.stage.rows := by have := G.stage_rows; have := hin.2.1; omega
  have hj : j' < P0.stage.cols := by have := G.stage_cols; have := hin.2.2.2; omega
  have hnz : NonzeroDraw Arith.exact (ω m) := fun x hx _ => (mul_pos hx (hω m).1).ne'
  obtain ⟨x, hx1, -, hx0⟩ := pick_positive G hi hj (hω m).1.le (hω m).2 hnz
    (mask_some_pos G hin (fun _ => flow_self_ok G hS hin hd')) hm.pick
  refine ⟨k, hm.lt, hm.ne4, hdest, ?_⟩
  by_contra hnp
  rw [makeWeight_flow Arith.exact F G hin hd'] at hx1
  have hmask : dryMask P0 i' j' k = true := by
    by_contra hc
    exact hnp ((dryMask_repr G hR hin hm.lt).1 (by simpa using hc))
  rw [weightFlow_masked Arith.exact F hmask] at hx1
  injection hx1 with hx1
  exact absurd hx0 (by rw [← hx1]; exact lt_irrefl _)

/-! ## C02

Full claim: "the step goes to a cell of the window whose depth is the maximum", for all draws and both modes. False at the draw
0, and false with `steepest_descent` when the cell itself is the only deepest one, hence `_partial`. -/

theorem pick_deepest {P : PObj K} (G : Good P) {a b : Nat} (h : Interior P a b) (hd : NoFlowWeight A F P a b)
    (hst : P.steepest = true → ∃ k, k < 9 ∧ k ≠ 4 ∧ (flowOf F P).Deepest a b k) {r : K} (hr : 0 ≤ r ∧ r < 1) (hnz : NonzeroDraw A r)
    {k : Nat} (hk : k < 9) (hp : pickFrom A (maskOf P (makeWeight A F P a b)) r = .ok k) : (flowOf F P).Deepest a b k := by
  have hi : a < P.stage.rows := by have := G.stage_rows; have := h.2.1; omega
  have hj : b < P.stage.cols := by have := G.stage_cols; have := h.2.2.2; omega
  obtain ⟨d, hdw⟩ := depthWin G h
  have heff := fun (k : Nat) (hk : k < 9) => makeWeight_dead_eff A F G h hd (fun m hm => (hdw m hm).1) hk
  have hdd : ∀ m, m < 9 → (flowOf F P).depth (Flow.nr a m) (Flow.nc b m) = d m := by
    intro m hm
    have := (hdw m hm).2
    change P.depth.at' (Flow.nr a m) (Flow.nc b m) = _ at this
    change (P.depth.at' (Flow.nr a m) (Flow.nc b m)).num = _
    rw [this]; rfl
  have hdeep : ∀ k, k < 9 → ((flowOf F P).Deepest a b k ↔ ∀ m, m < 9 → d m ≤ d k) := by
    intro k hk
    unfold Flow.Deepest
    constructor
    · intro hh m hm; have := hh m hm; rwa [hdd m hm, hdd k hk] at this
    · intro hh m hm; rw [hdd m hm, hdd k hk]; exact hh m hm
  obtain ⟨x, hx1, -, hx0⟩ := pick_positive G hi hj hr.1 hr.2 hnz
    (mask_some_pos G h (fun hs => by
      obtain ⟨k, hk, hk4, hkd⟩ := hst hs
      have h1 := heff k hk
      rw [if_pos ((hdeep k hk).1 hkd)] at h1
      have h2 : makeWeight A F P a b k = .fin 1 := by
        rcases makeWeight_NN A F G h hk with hn | ⟨x, hx, -⟩
        · rw [hn] at h1; simp [Fl.nanTo0, Fl.isNan] at h1
        · rw [hx] at h1 ⊢; simpa [Fl.nanTo0, Fl.isNan] using h1
      refine ⟨k, 1, hk, hk4, h2, one_pos, fun y hy => ?_⟩
      have h4 := heff 4 (by omega)
      rw [hy] at h4
      simp only [Fl.nanTo0, Fl.isNan, Bool.false_eq_true, if_false, Fl.fin.injEq] at h4
      rw [h4]
      split
      · exact le_refl _
      · exact zero_le_one)) hp
  have h1 := heff k hk
  rw [hx1] at h1
  simp only [Fl.nanTo0, Fl.isNan, Bool.false_eq_true, if_false, Fl.fin.injEq] at h1
  rw [hdeep k hk]
  by_contra hc
  rw [if_neg hc] at h1
  exact absurd hx0 (by rw [h1]; exact lt_irrefl _)

/-- Every recorded move away from a dead end goes to a deepest cell of the window: any rounding, any history with non-zero draws,
with or without target times. -/
theorem C02_records_partial {P0 : PObj K} (hB : Built A F P0) (hw : DefaultWalk P0) (hz : StepsNonzero A P0)
    {P : PObj K} {s : PState K} (h : Reach A F (· = P0) (NonzeroDraws A) AnySeed P s) {wd : WalkData K} (hwd : s.walk = some wd)
    {i n a b : Nat} {q : Int × Int} (hp : wd.posAt i n = some ((a : Int), (b : Int))) (hq : wd.posAt i (n + 1) = some q)
    (hin : Interior P0 a b) (hd : NoFlowWeight A F P0 a b)
    (hst : P0.steepest = true → ∃ k, k < 9 ∧ k ≠ 4 ∧ (flowOf F P0).Deepest a b k) :
    ∃ k, k < 9 ∧ q = (((Flow.nr a k : Nat) : Int), ((Flow.nc b k : Nat) : Int)) ∧ (flowOf F P0).Deepest a b k := by
  have G := hB.good
  obtain ⟨rows, rfl, -, hrows⟩ := Reach.walk (I := fun _ _ => True)
    (R := fun p t q t' => ∃ ω, NonzeroDraws A ω ∧ StepOf A F P0 ω p t q t')
    (fun P hP => by subst hP; exact G) (fun _ _ _ _ _ _ _ _ _ _ => trivial)
    (fun P ω p t q t' hP hω _ hs _ => ⟨trivial, ω, hω, by subst hP; exact hs⟩) h hwd
  obtain ⟨r, hr, hx, hy⟩ := posAt_ofRows.1 hp
  obtain ⟨r', hr', hx', hy'⟩ := posAt_ofRows.1 hq
  rw [hr] at hr'
  cases hr'
  have hI := hrows r (List.mem_of_getElem? hr)
  obtain ⟨t, -, hrec⟩ := rec_of_pos hI.aligned hx hy
  obtain ⟨t', -, hrec'⟩ := rec_of_pos hI.aligned hx' hy'
  obtain ⟨hne, ω, hω, hs⟩ := hI.pairs n _ _ _ _ hrec hrec'
  obtain ⟨i', j', k, u, hm⟩ := StepOf.move hz hs hne
  obtain ⟨rfl, rfl, hdest⟩ := hm.interior G hw hin
  obtain ⟨m, rfl⟩ := hm.draw
  exact ⟨k, hm.lt, hdest, pick_deepest G hin hd hst (hω.1 m) (hω.2 m) hm.lt hm.pick⟩

/-- One `run_iteration()` (no target): a particle at an interior dead end without edge cells nearby is afterwards at a deepest
cell of its window (possibly its own cell). -/
theorem C02_step_partial {P0 : PObj K} (hB : Built A F P0) (hw : DefaultWalk P0) (hz : StepsNonzero A P0)
    {Ω : (Nat → K) → Prop} {Sd : PObj K → List Int → List Int → Fl K → Prop}
    {P : PObj K} {s : PState K} (h : Reach A F (· = P0) Ω Sd P s) {ω : Nat → K} (hω : NonzeroDraws A ω) {maxIter : Int}
    {res : RunResult K} (hrun : runIteration A F P ω s none maxIter = .ok res) {wd wd' : WalkData K} (hwd : s.walk = some wd)
    (hwd' : res.state.walk = some wd')
    {i a b : Nat} (hp : wd.lastPos i = some ((a : Int), (b : Int)))
    (hin : Interior P0 a b) (hne : ¬ NearEdge P0 a b) (hd : NoFlowWeight A F P0 a b)
    (hst : P0.steepest = true → ∃ k, k < 9 ∧ k ≠ 4 ∧ (flowOf F P0).Deepest a b k) :
    ∃ k, k < 9 ∧ wd'.lastPos i = some (((Flow.nr a k : Nat) : Int), ((Flow.nc b k : Nat) : Int)) ∧ (flowOf F P0).Deepest a b k := by
  have G := hB.good
  have hP : P = P0 := h.obj
  subst hP
  obtain ⟨hpe, hw2⟩ := Reach.rows (Q := fun _ => True) (fun P hP => by subst hP; exact G)
    (fun _ _ _ _ _ _ _ _ _ _ _ _ => trivial) (fun _ _ _ _ _ _ _ _ => trivial) h
  rcases hw2 with hn | ⟨rows, ⟨hrw, hnp⟩, -⟩
  · rw [hn] at hwd; cases hwd
  · rw [hrw] at hwd
    cases hwd
    obtain ⟨-, rows', -, -, hwk, -, -, hout⟩ := runIteration_inv A F G hpe hrw (Or.inl hnp) hrun
    rw [hwk] at hwd'
    cases hwd'
    obtain ⟨r, hr, hlast⟩ := lastPos_ofRows.1 hp
    obtain ⟨r', hr', hcase⟩ := hout i r hr
    have key : ∃ q t t', r'.lastPos q ∧ StepOf A F P ω ((a : Int), (b : Int)) t q t' := by
      rcases hcase with ⟨rfl, hstill⟩ | hstep
      · obtain ⟨t, t', -, hs⟩ := hstill.lastPos hlast
        exact ⟨_, t, t', hlast, hs⟩
      · obtain ⟨p, t, q, t', v, hp', ht, hs, -, -, rfl⟩ := hstep
        have e1 : p = ((a : Int), (b : Int)) := Prod.ext (by have := hlast.1.symm.trans hp'.1; injection this with h; exact h.symm)
          (by have := hlast.2.symm.trans hp'.2; injection this with h; exact h.symm)
        subst e1
        exact ⟨q, t, t', by simp [Row.lastPos, Row.append], hs⟩
    obtain ⟨q, t, t', hq, hs⟩ := key
    obtain ⟨k, n, hk, hpick, rfl⟩ := hs.dest G hw hz hin hne
    exact ⟨k, hk, lastPos_ofRows.2 ⟨r', hr', hq⟩, pick_deepest G hin hd hst (hω.1 n) (hω.2 n) hk hpick⟩

/-! ## C10 -/

/-- Weighted walk, exact arithmetic: the draws selecting neighbour `k` have Lebesgue measure `x k / sum x`, where `x` are the
weights with NaN read as 0; and every draw in [0,1) selects some neighbour. -/
theorem C10_proportional {p : Nat → Fl ℝ} {x : Nat → ℝ} (hp : ∀ k, k < 9 → (p k).nanTo0 = .fin (x k)) (hx : ∀ k, k < 9 → 0 ≤ x k)
    (hS : 0 < ∑ m ∈ range 9, x m) :
    (∀ k, k < 9 → volume {r : ℝ | 0 ≤ r ∧ r < 1 ∧ ∃ p', randomPick Arith.exact p r = .ok (k, p')} =
      ENNReal.ofReal (x k / ∑ m ∈ range 9, x m)) ∧
    ∀ r : ℝ, 0 ≤ r → r < 1 → ∃ k p', k < 9 ∧ randomPick Arith.exact p r = .ok (k, p') := by
  have hiff : ∀ (r : ℝ) (k : Nat), (∃ p', randomPick Arith.exact p r = .ok (k, p')) ↔ pickFrom Arith.exact (zeroNan p) r = .ok k := by
    intro r k
    unfold randomPick
    simp only [bind_ok, pure_ok]
    constructor
    · rintro ⟨p', k', hk', he⟩
      simp only [Prod.mk.injEq] at he
      rw [← he.1]; exact hk'
    · intro h; exact ⟨_, k, h, rfl⟩
  refine ⟨fun k hk => ?_, fun r h0 h1 => ?_⟩
  · have := pick_volume (p := zeroNan p) (x := x) hp hx hS hk
    rw [← this]
    congr 1
    ext r
    simp only [Set.mem_ofPred_eq, hiff]
  · obtain ⟨k, hk, h2, -⟩ := pickFrom_spec Arith.exact (p := zeroNan p) hp hx rfl h1
    obtain ⟨p', hp'⟩ := (hiff r k).2 h2
    exact ⟨k, p', hk, hp'⟩

/-- The same for the routing decision of an object in any reachable state, in terms of the closed formula for the weights. -/
theorem C10_object {F : Fun ℝ Arith.exact} {P0 : PObj ℝ} (hB : Built Arith.exact F P0) (hst : P0.steepest = false)
    {Ω : (Nat → ℝ) → Prop} {Sd : PObj ℝ → List Int → List Int → Fl ℝ → Prop}
    {P : PObj ℝ} {s : PState ℝ} (h : Reach Arith.exact F (· = P0) Ω Sd P s) {a b : Nat} (hin : Interior P0 a b) {k : Nat} (hk : k < 9) :
    volume {r : ℝ | 0 ≤ r ∧ r < 1 ∧ ∃ w', getWeight Arith.exact P (fun _ => r) s.world ((a : Int), (b : Int)) = .ok (k, w')} =
      ENNReal.ofReal ((flowOf F P0).weight a b k / ∑ m ∈ range 9, (flowOf F P0).weight a b m) := by
  have G := hB.good
  have hP : P = P0 := h.obj
  subst hP
  obtain ⟨hpe, -⟩ := Reach.rows (Q := fun _ => True) (fun P hP => by subst hP; exact G)
    (fun _ _ _ _ _ _ _ _ _ _ _ _ => trivial) (fun _ _ _ _ _ _ _ _ => trivial) h
  have hR := represents_flowOf (F := F) G
  have hi : a < P.stage.rows := by have := G.stage_rows; have := hin.2.1; omega
  have hj : b < P.stage.cols := by have := G.stage_cols; have := hin.2.2.2; omega
  have hrep := fun (k : Nat) (hk : k < 9) => makeWeight_repr G hR hin hk
  have hnn : ∀ k, k < 9 → 0 ≤ (flowOf F P).weight a b k := by
    intro k hk
    obtain ⟨x, hx, h0, -⟩ := (makeWeight_NN Arith.exact F G hin hk).nanTo0
    rw [hrep k hk] at hx
    injection hx with hx
    rw [hx]; exact h0
  have hpos : 0 < ∑ m ∈ range 9, (flowOf F P).weight a b m := by
    obtain ⟨k, hk, x, hx, h0⟩ := makeWeight_some_pos Arith.exact F G hin
    have := hrep k hk
    rw [hx] at this
    simp only [Fl.nanTo0, Fl.isNan, Bool.false_eq_true, if_false, Fl.fin.injEq] at this
    exact sum_pos' (fun m hm => hnn m (mem_range.1 hm)) ⟨k, mem_range.2 hk, by rw [← this]; exact h0⟩
  have hmask : ∀ k, k < 9 → maskOf P (s.world.weight a b) k = .fin ((flowOf F P).weight a b k) := by
    intro k hk
    rw [hpe a b hi hj k hk]
    unfold maskOf
    rw [hst]
    exact hrep k hk
  rw [← pick_volume hmask hnn hpos hk]
  congr 1
  ext r
  simp only [Set.mem_ofPred_eq]
  refine and_congr_right fun _ => and_congr_right fun _ => ?_
  rw [getWeight_eq, pyIdx_nonneg (by omega) (by simpa using hi), pyIdx_nonneg (by omega) (by simpa using hj)]
  simp only [ok_bind, Int.toNat_natCast, bind_ok, pure_ok, Prod.mk.injEq]
  constructor
  · rintro ⟨w', k', hk', rfl, -⟩; exact hk'
  · intro hh; exact ⟨_, k, hh, rfl, rfl⟩

/-! ## C11 -/

/-- Steepest descent: if a neighbour other than the cell itself attains the maximal positive weight `m`, every non-zero draw
selects a neighbour of weight `m`. Any rounding. -/
theorem C11_picks_maximum {p : Nat → Fl K} (hp : ∀ k, k < 9 → p k = .nan ∨ ∃ x, p k = .fin x ∧ 0 ≤ x ∧ A.rnd x = x) {m : K}
    (hm : 0 < m) (hmax : ∀ k x, k < 9 → p k = .fin x → x ≤ m) (hat : ∃ k, k < 9 ∧ k ≠ 4 ∧ p k = .fin m)
    {r : K} (hr : 0 ≤ r ∧ r < 1) (hnz : NonzeroDraw A r) :
    ∃ k p', k < 9 ∧ k ≠ 4 ∧ p k = .fin m ∧ steepDescent A p r = .ok (k, p') := by
  obtain ⟨k0, hk0, hk04, hk0m⟩ := hat
  have hnn : ∀ k, k < 9 → NN A (p k) := hp
  have hmx : nanmax9 p = .fin m := by
    rcases nanmax9_spec A hnn with ⟨-, h2⟩ | ⟨m', h1, -, h3, k1, hk1, hk1m⟩
    · rw [h2 k0 hk0] at hk0m; cases hk0m
    · rw [h1]
      congr 1
      exact le_antisymm (hmax k1 m' hk1 hk1m) (h3 k0 m hk0 hk0m)
  have hst := fun (k : Nat) (hk : k < 9) => steepMask_eq A hnn hmx hmax hk
  set x : Nat → K := fun k => if k ≠ 4 ∧ p k = .fin m then m else 0 with hxdef
  have hx : ∀ k, k < 9 → steepMask p k = .fin (x k) := by
    intro k hk
    rw [hst k hk, hxdef]
    simp only
    split <;> rfl
  have hx0 : ∀ k, k < 9 → 0 ≤ x k := by
    intro k _
    rw [hxdef]
    simp only
    split
    · exact hm.le
    · exact le_refl _
  have hmr : A.rnd m = m := by
    rcases hp k0 hk0 with h | ⟨y, hy, -, hyr⟩
    · rw [h] at hk0m; cases hk0m
    · rw [hk0m] at hy; injection hy with hy; rw [hy]; exact hyr
  have hxr : ∀ k, k ≤ 8 → A.rnd (x k) = x k := by
    intro k _
    rw [hxdef]
    simp only
    split
    · exact hmr
    · exact A.zero
  obtain ⟨k, hk, hpick, -⟩ := pickFrom_spec A hx hx0 (hxr 0 (by omega)) hr.2
  have hc8 : 0 < csum A x 8 := by
    have h1 : x k0 ≤ csum A x k0 := csum_ge A (n := 8) hxr (fun k hk => hx0 k (by omega)) (by omega)
    have h2 := csum_mono A (hxr 0 (by omega)) (n := 8) (fun k hk => hx0 k (by omega)) (show k0 ≤ 8 by omega) (le_refl _)
    have : x k0 = m := by rw [hxdef]; simp only; rw [if_pos ⟨hk04, hk0m⟩]
    rw [this] at h1
    exact lt_of_lt_of_le hm (le_trans h1 h2)
  have hpos := pickFrom_pos A hx hx0 (hxr 0 (by omega)) hr.1 hr.2 (hnz _ hc8 (csum_rep A (hxr 0 (by omega)) 8)) hpick
  have hkm : k ≠ 4 ∧ p k = .fin m := by
    by_contra hc
    rw [hxdef] at hpos
    simp only at hpos
    rw [if_neg hc] at hpos
    exact lt_irrefl _ hpos
  refine ⟨k, steepMask p, hk, hkm.1, hkm.2, ?_⟩
  unfold steepDescent
  simp only [hpick, ok_bind]
  rfl

/-- Exact arithmetic: each of the tied neighbours is selected on a set of draws of measure 1/(number of ties), every other
neighbour on a null set. -/
theorem C11_ties_even {p : Nat → Fl ℝ} (hp : ∀ k, k < 9 → p k = .nan ∨ ∃ x, p k = .fin x ∧ 0 ≤ x) {m : ℝ}
    (hm : 0 < m) (hmax : ∀ k x, k < 9 → p k = .fin x → x ≤ m) (hat : ∃ k, k < 9 ∧ k ≠ 4 ∧ p k = .fin m)
    {k : Nat} (hk : k < 9) :
    volume {r : ℝ | 0 ≤ r ∧ r < 1 ∧ ∃ p', steepDescent Arith.exact p r = .ok (k, p')} =
      if k ≠ 4 ∧ p k = .fin m then ENNReal.ofReal (1 / (#{j ∈ range 9 | j ≠ 4 ∧ p j = .fin m} : ℝ)) else 0 := by
  obtain ⟨k0, hk0, hk04, hk0m⟩ := hat
  have hnn : ∀ k, k < 9 → NN Arith.exact (p k) := fun k hk => (hp k hk).imp_right fun ⟨x, h1, h2⟩ => ⟨x, h1, h2, rfl⟩
  have hmx : nanmax9 p = .fin m := by
    rcases nanmax9_spec Arith.exact hnn with ⟨-, h2⟩ | ⟨m', h1, -, h3, k1, hk1, hk1m⟩
    · rw [h2 k0 hk0] at hk0m; cases hk0m
    · rw [h1]
      congr 1
      exact le_antisymm (hmax k1 m' hk1 hk1m) (h3 k0 m hk0 hk0m)
  have hst := fun (k : Nat) (hk : k < 9) => steepMask_eq Arith.exact hnn hmx hmax hk
  set x : Nat → ℝ := fun k => if k ≠ 4 ∧ p k = .fin m then m else 0 with hxdef
  have hx : ∀ k, k < 9 → steepMask p k = .fin (x k) := by
    intro k hk
    rw [hst k hk, hxdef]
    simp only
    split <;> rfl
  have hx0 : ∀ k, k < 9 → 0 ≤ x k := by
    intro k _
    rw [hxdef]
    simp only
    split
    · exact hm.le
    · exact le_refl _
  have hsum : ∑ j ∈ range 9, x j = #{j ∈ range 9 | j ≠ 4 ∧ p j = .fin m} * m := by
    rw [hxdef, sum_ite, sum_const_zero, add_zero, sum_const, nsmul_eq_mul]
  have hc : 0 < (#{j ∈ range 9 | j ≠ 4 ∧ p j = .fin m} : ℝ) := by
    rw [Nat.cast_pos, card_pos]
    exact ⟨k0, mem_filter.2 ⟨mem_range.2 hk0, hk04, hk0m⟩⟩
  have hpos : 0 < ∑ j ∈ range 9, x j := by rw [hsum]; exact mul_pos hc hm
  have hset : {r : ℝ | 0 ≤ r ∧ r < 1 ∧ ∃ p', steepDescent Arith.exact p r = .ok (k, p')} =
      {r : ℝ | 0 ≤ r ∧ r < 1 ∧ pickFrom Arith.exact (steepMask p) r = .ok k} := by
    ext r
    simp only [Set.mem_ofPred_eq]
    refine and_congr_right fun _ => and_congr_right fun _ => ?_
    unfold steepDescent
    simp only [bind_ok, pure_ok, Prod.mk.injEq]
    constructor
    · rintro ⟨w', k', hk', rfl, -⟩; exact hk'
    · intro hh; exact ⟨_, k, hh, rfl, rfl⟩
  rw [hset, pick_volume hx hx0 hpos hk, hsum]
  by_cases hkm : k ≠ 4 ∧ p k = .fin m
  · rw [if_pos hkm]
    congr 1
    rw [hxdef]
    simp only
    rw [if_pos hkm]
    field_simp
  · rw [if_neg hkm, hxdef]
    simp only
    rw [if_neg hkm]
    simp

/-! ## C12 -/

/-- Whatever happened to the object before, `run_iteration` gives the results a freshly built object holding the same walk data
at the same position of the random stream would give. Any rounding, both modes, with or without target time. -/
theorem C12_memoryless {P0 : PObj K} (hB : Built A F P0)
    {Ω : (Nat → K) → Prop} {Sd : PObj K → List Int → List Int → Fl K → Prop}
    {P : PObj K} {s : PState K} (h : Reach A F (· = P0) Ω Sd P s) (ω : Nat → K) (target : Option (Fl K)) (maxIter : Int) :
    (runIteration A F P ω s target maxIter).map (fun r => (r.returned, r.state.walk, r.state.np, r.state.world.pos, r.warned)) =
    (runIteration A F P ω { initState A F P s.world.pos with np := s.np, walk := s.walk } target maxIter).map
      (fun r => (r.returned, r.state.walk, r.state.np, r.state.world.pos, r.warned)) := by
  have G := hB.good
  have hP : P = P0 := h.obj
  subst hP
  obtain ⟨hpe, -⟩ := Reach.rows (Q := fun _ => True) (fun P hP => by subst hP; exact G)
    (fun _ _ _ _ _ _ _ _ _ _ _ _ => trivial) (fun _ _ _ _ _ _ _ _ => trivial) h
  have := runIteration_rel (A := A) (F := F) (P := P) G ω (s := s)
    (s' := { initState A F P s.world.pos with np := s.np, walk := s.walk })
    ⟨hpe, PickEquiv.fresh A F P, rfl⟩ rfl rfl target maxIter
  refine this.map_eq ?_
  rintro x y ⟨h1, h2, h3, h4, h5, -⟩
  rw [h1, h2, h3, h4, h5]

/-- The cell chosen at a location with a given draw is the one the fresh object chooses. -/
theorem C12_same_choice {P0 : PObj K} (hB : Built A F P0)
    {Ω : (Nat → K) → Prop} {Sd : PObj K → List Int → List Int → Fl K → Prop}
    {P : PObj K} {s : PState K} (h : Reach A F (· = P0) Ω Sd P s) (ω : Nat → K) (loc : Int × Int) :
    (getWeight A P ω s.world loc).map Prod.fst = (getWeight A P ω (initState A F P s.world.pos).world loc).map Prod.fst := by
  have G := hB.good
  have hP : P = P0 := h.obj
  subst hP
  obtain ⟨hpe, -⟩ := Reach.rows (Q := fun _ => True) (fun P hP => by subst hP; exact G)
    (fun _ _ _ _ _ _ _ _ _ _ _ _ => trivial) (fun _ _ _ _ _ _ _ _ => trivial) h
  have := getWeight_rel (A := A) (F := F) (P := P) G ω (w := s.world) (w' := (initState A F P s.world.pos).world)
    ⟨hpe, PickEquiv.fresh A F P, rfl⟩ loc
  exact this.map_eq fun _ _ hr => hr.1

/-! ## Concrete cases and counterexamples -/

instance (A : Arith ℚ) (F : Fun ℚ A) (P : PObj ℚ) (i j : Nat) : Decidable (NoFlowWeight A F P i j) := by
  unfold NoFlowWeight; infer_instance

instance (P : PObj ℚ) : Decidable (StepsNonzero Arith.exact P) := by unfold StepsNonzero; infer_instance

instance (P : PObj ℚ) : Decidable (SelfZero P) := by unfold SelfZero; infer_instance

instance (P : PObj ℚ) (i j k : Nat) : Decidable ((flowOf Fun.toy P).Deepest i j k) := by
  unfold Flow.Deepest flowOf; infer_instance

/-- C01 hypotheses hold along a real run: two steps down the open channel. -/
example : ∃ s wd, Reach Arith.exact Fun.toy (· = objOf chanOpen) (NonzeroDraws Arith.exact) AnySeed (objOf chanOpen) s ∧
    s.walk = some wd ∧ wd.posAt 0 0 = some (1, 2) ∧ wd.posAt 0 1 = some (2, 2) ∧ wd.posAt 0 2 = some (3, 2) ∧
    Interior (objOf chanOpen) 1 2 ∧ ¬ NoFlowWeight Arith.exact Fun.toy (objOf chanOpen) 1 2 ∧ StepsNonzero Arith.exact (objOf chanOpen) ∧
    SelfZero (objOf chanOpen) ∧ DefaultWalk (objOf chanOpen) ∧ ¬ (flowOf Fun.toy (objOf chanOpen)).DeadEnd 1 2 := by
  obtain ⟨s, hs, ho⟩ := demo_obs (x := demo chanOpen (fun _ => 1 / 2) 1 [1] [2] [(none, 10), (none, 10)])
    (f := fun s => s.walk.bind fun wd => some (wd.posAt 0 0, wd.posAt 0 1, wd.posAt 0 2))
    (b := (some (1, 2), some (2, 2), some (3, 2))) (by decide +kernel)
  have hr := demo_reach (p := chanOpen) half_draws (Sd := AnySeed) trivial hs
  cases hw : s.walk with
  | none => rw [hw] at ho; cases ho
  | some wd =>
    rw [hw] at ho
    simp only [Option.bind_some, Option.some.injEq, Prod.mk.injEq] at ho
    have hd : ¬ NoFlowWeight Arith.exact Fun.toy (objOf chanOpen) 1 2 := by decide +kernel
    have hi : Interior (objOf chanOpen) 1 2 := by decide +kernel
    exact ⟨s, wd, hr, hw, ho.1, ho.2.1, ho.2.2, hi, hd, by decide +kernel, by decide +kernel, ⟨rfl, rfl⟩,
      fun hh => hd ((deadEnd_repr chanOpen_built.good (represents_flowOf chanOpen_built.good) hi).2 hh)⟩

/-- The channel with a dry north-west neighbour of the centre. -/
def chanDry : Params ℚ := { chan with
  depth := some (gridOf [
    [some 1, some 1, some 1, some 1, some 1],
    [some 1, some 0, some 3, some 2, some 1],
    [some 1, some 2, some 3, some 2, some 1],
    [some 1, some 0, some 3, some 2, some 1],
    [some 1, some 1, some 1, some 1, some 1]]) }

theorem chanDry_valid : ValidParams chanDry := { chan_valid with depth := fun g hg => by cases hg; exact gridOf_finOrNan _ }
theorem chanDry_built : Built Arith.exact Fun.toy (objOf chanDry) := ⟨chanDry, chanDry_valid, rfl⟩

/-- The full claim C01 is false: with the draw 0 the particle moves from a cell that is no dead end onto a dry cell. -/
theorem C01_zero_draw_counterexample :
    ∃ s wd, Reach Arith.exact Fun.toy (· = objOf chanDry) Draws AnySeed (objOf chanDry) s ∧ s.walk = some wd ∧
      wd.posAt 0 0 = some (((2 : Nat) : Int), ((2 : Nat) : Int)) ∧ wd.posAt 0 1 = some (((1 : Nat) : Int), ((1 : Nat) : Int)) ∧
      Interior (objOf chanDry) 2 2 ∧ ¬ (flowOf Fun.toy (objOf chanDry)).DeadEnd 2 2 ∧
      (objOf chanDry).depth.at' 1 1 = .fin 0 ∧ (objOf chanDry).cellType.at' 1 1 = 2 := by
  obtain ⟨s, hs, ho⟩ := demo_obs (x := demo chanDry (fun _ => 0) 1 [2] [2] [(none, 10)])
    (f := fun s => s.walk.bind fun wd => some (wd.posAt 0 0, wd.posAt 0 1))
    (b := (some (2, 2), some (1, 1))) (by decide +kernel)
  have hr := demo_reach (p := chanDry) zero_draws (Sd := AnySeed) trivial hs
  cases hw : s.walk with
  | none => rw [hw] at ho; cases ho
  | some wd =>
    rw [hw] at ho
    simp only [Option.bind_some, Option.some.injEq, Prod.mk.injEq] at ho
    have hd : ¬ NoFlowWeight Arith.exact Fun.toy (objOf chanDry) 2 2 := by decide +kernel
    have hi : Interior (objOf chanDry) 2 2 := by decide +kernel
    exact ⟨s, wd, hr, hw, ho.1, ho.2, hi,
      fun hh => hd ((deadEnd_repr chanDry_built.good (represents_flowOf chanDry_built.good) hi).2 hh), by decide +kernel, by decide +kernel⟩

/-- A pit: still water, flat surface, one deepest cell in the centre, a dry cell to the north-west. -/
def pit : Params ℚ := { chanDry with
  stage := some ⟨5, 5, fun _ _ => .fin 5⟩
  qx := some ⟨5, 5, fun _ _ => .fin 0⟩
  depth := some (gridOf [
    [some 1, some 1, some 1, some 1, some 1],
    [some 1, some 0, some 2, some 2, some 1],
    [some 1, some 2, some 3, some 2, some 1],
    [some 1, some 0, some 2, some 2, some 1],
    [some 1, some 1, some 1, some 1, some 1]]) }

/-- The pit with steepest descent. -/
def pitSteep : Params ℚ := { pit with steepest := some true }

/-- The pit with the deepest cell moved to the east neighbour of the centre. -/
def pitEast : Params ℚ := { pitSteep with
  depth := some (gridOf [
    [some 1, some 1, some 1, some 1, some 1],
    [some 1, some 0, some 2, some 2, some 1],
    [some 1, some 2, some 2, some 3, some 1],
    [some 1, some 0, some 2, some 2, some 1],
    [some 1, some 1, some 1, some 1, some 1]]) }

theorem pit_valid : ValidParams pit := { chanDry_valid with
  depth := fun g hg => by cases hg; exact gridOf_finOrNan _
  stage := fun g hg => by cases hg; exact fun _ _ _ _ => Or.inr ⟨_, rfl⟩
  qx := fun g hg => by cases hg; exact fun _ _ _ _ => Or.inr ⟨_, rfl⟩ }
theorem pitSteep_valid : ValidParams pitSteep := { pit_valid with }
theorem pitEast_valid : ValidParams pitEast := { pit_valid with depth := fun g hg => by cases hg; exact gridOf_finOrNan _ }
theorem pit_built : Built Arith.exact Fun.toy (objOf pit) := ⟨pit, pit_valid, rfl⟩
theorem pitSteep_built : Built Arith.exact Fun.toy (objOf pitSteep) := ⟨pitSteep, pitSteep_valid, rfl⟩
theorem pitEast_built : Built Arith.exact Fun.toy (objOf pitEast) := ⟨pitEast, pitEast_valid, rfl⟩

/-- C02 hypotheses hold along a real run with steepest descent. -/
example : ∃ s wd, Reach Arith.exact Fun.toy (· = objOf pitEast) (NonzeroDraws Arith.exact) AnySeed (objOf pitEast) s ∧
    s.walk = some wd ∧ wd.posAt 0 0 = some (2, 2) ∧ wd.posAt 0 1 = some (2, 3) ∧
    Interior (objOf pitEast) 2 2 ∧ NoFlowWeight Arith.exact Fun.toy (objOf pitEast) 2 2 ∧ StepsNonzero Arith.exact (objOf pitEast) ∧
    DefaultWalk (objOf pitEast) ∧ (flowOf Fun.toy (objOf pitEast)).Deepest 2 2 5 := by
  obtain ⟨s, hs, ho⟩ := demo_obs (x := demo pitEast (fun _ => 1 / 2) 1 [2] [2] [(none, 10)])
    (f := fun s => s.walk.bind fun wd => some (wd.posAt 0 0, wd.posAt 0 1))
    (b := (some (2, 2), some (2, 3))) (by decide +kernel)
  have hr := demo_reach (p := pitEast) half_draws (Sd := AnySeed) trivial hs
  cases hw : s.walk with
  | none => rw [hw] at ho; cases ho
  | some wd =>
    rw [hw] at ho
    simp only [Option.bind_some, Option.some.injEq, Prod.mk.injEq] at ho
    exact ⟨s, wd, hr, hw, ho.1, ho.2, by decide +kernel, by decide +kernel, by decide +kernel, ⟨rfl, rfl⟩, by decide +kernel⟩

/-- The full claim C02 is false with steepest descent: a particle sitting at the only deepest cell of a dead end is moved to the
north-west neighbour, here a dry land cell, whatever the draw (here 1/2). -/
theorem C02_steepest_counterexample :
    ∃ s wd, Reach Arith.exact Fun.toy (· = objOf pitSteep) (NonzeroDraws Arith.exact) AnySeed (objOf pitSteep) s ∧ s.walk = some wd ∧
      wd.posAt 0 0 = some (2, 2) ∧ wd.posAt 0 1 = some (1, 1) ∧
      Interior (objOf pitSteep) 2 2 ∧ NoFlowWeight Arith.exact Fun.toy (objOf pitSteep) 2 2 ∧
      (flowOf Fun.toy (objOf pitSteep)).Deepest 2 2 4 ∧ ¬ (flowOf Fun.toy (objOf pitSteep)).Deepest 2 2 0 := by
  obtain ⟨s, hs, ho⟩ := demo_obs (x := demo pitSteep (fun _ => 1 / 2) 1 [2] [2] [(none, 10)])
    (f := fun s => s.walk.bind fun wd => some (wd.posAt 0 0, wd.posAt 0 1))
    (b := (some (2, 2), some (1, 1))) (by decide +kernel)
  have hr := demo_reach (p := pitSteep) half_draws (Sd := AnySeed) trivial hs
  cases hw : s.walk with
  | none => rw [hw] at ho; cases ho
  | some wd =>
    rw [hw] at ho
    simp only [Option.bind_some, Option.some.injEq, Prod.mk.injEq] at ho
    exact ⟨s, wd, hr, hw, ho.1, ho.2, by decide +kernel, by decide +kernel, by decide +kernel, by decide +kernel⟩

/-- The full claim C02 is false in the weighted walk at the draw 0. -/
theorem C02_zero_draw_counterexample :
    ∃ s wd, Reach Arith.exact Fun.toy (· = objOf pit) Draws AnySeed (objOf pit) s ∧ s.walk = some wd ∧
      wd.posAt 0 0 = some (2, 2) ∧ wd.posAt 0 1 = some (1, 1) ∧
      Interior (objOf pit) 2 2 ∧ NoFlowWeight Arith.exact Fun.toy (objOf pit) 2 2 ∧
      ¬ (flowOf Fun.toy (objOf pit)).Deepest 2 2 0 := by
  obtain ⟨s, hs, ho⟩ := demo_obs (x := demo pit (fun _ => 0) 1 [2] [2] [(none, 10)])
    (f := fun s => s.walk.bind fun wd => some (wd.posAt 0 0, wd.posAt 0 1))
    (b := (some (2, 2), some (1, 1))) (by decide +kernel)
  have hr := demo_reach (p := pit) zero_draws (Sd := AnySeed) trivial hs
  cases hw : s.walk with
  | none => rw [hw] at ho; cases ho
  | some wd =>
    rw [hw] at ho
    simp only [Option.bind_some, Option.some.injEq, Prod.mk.injEq] at ho
    exact ⟨s, wd, hr, hw, ho.1, ho.2, by decide +kernel, by decide +kernel, by decide +kernel⟩

/-- C10 on a concrete weight vector: NaN, zeros and a total of 4; the fourth of the draws in (3/4,1) selects index 5. -/
example : volume {r : ℝ | 0 ≤ r ∧ r < 1 ∧ ∃ p', randomPick Arith.exact
      (fun k => if k = 0 then .nan else if k = 1 then .fin 3 else if k = 5 then .fin 1 else .fin 0) r = .ok (5, p')} =
    ENNReal.ofReal (1 / 4) := by
  have h := C10_proportional (p := fun k => if k = 0 then .nan else if k = 1 then .fin 3 else if k = 5 then .fin 1 else .fin 0)
    (x := fun k => if k = 1 then 3 else if k = 5 then 1 else 0)
    (fun k hk => by interval_cases k <;> simp [Fl.nanTo0, Fl.isNan]) (fun k hk => by interval_cases k <;> norm_num)
    (by norm_num [sum_range_succ])
  rw [h.1 5 (by omega)]
  norm_num [sum_range_succ]

/-- C11 on a concrete weight vector with two tied maxima. -/
example : volume {r : ℝ | 0 ≤ r ∧ r < 1 ∧ ∃ p', steepDescent Arith.exact
      (fun k => if k = 0 then .nan else if k = 1 ∨ k = 7 then .fin 3 else if k = 5 then .fin 1 else .fin 0) r = .ok (7, p')} =
    ENNReal.ofReal (1 / 2) := by
  have h := C11_ties_even (p := fun k => if k = 0 then .nan else if k = 1 ∨ k = 7 then .fin 3 else if k = 5 then .fin 1 else .fin 0)
    (m := 3) (fun k hk => by interval_cases k <;> simp) (by norm_num)
    (fun k x hk hx => by interval_cases k <;> simp at hx <;> subst hx <;> norm_num) ⟨1, by omega, by omega, by simp⟩
    (k := 7) (by omega)
  rw [h]
  have : ({j ∈ range 9 | j ≠ 4 ∧ (if j = 0 then (.nan : Fl ℝ) else if j = 1 ∨ j = 7 then .fin 3 else if j = 5 then .fin 1 else .fin 0) =
      .fin 3} : Finset Nat) = {1, 7} := by
    ext j
    simp only [mem_filter, mem_range, mem_insert, mem_singleton]
    constructor
    · rintro ⟨hj, h4, h5⟩
      interval_cases j <;> simp at h5 h4 ⊢
    · rintro (rfl | rfl) <;> simp
  rw [this]
  simp

/-- C12: after one step the weight array really differs from the fresh one. -/
example : (∃ s, Reach Arith.exact Fun.toy (· = objOf pitSteep) (NonzeroDraws Arith.exact) AnySeed (objOf pitSteep) s ∧
      s.world.weight 2 2 4 = .fin 0) ∧ (initState Arith.exact Fun.toy (objOf pitSteep) 0).world.weight 2 2 4 = .fin 1 := by
  obtain ⟨s, hs, ho⟩ := demo_obs (x := demo pitSteep (fun _ => 1 / 2) 1 [2] [2] [(none, 10)])
    (f := fun s => some (s.world.weight 2 2 4)) (b := .fin 0) (by decide +kernel)
  exact ⟨⟨s, demo_reach half_draws trivial hs, by simpa using ho⟩, by decide +kernel⟩

end Dorado
