import Verif.Lemmas.Downstream
import Verif.Props.Final
import Verif.Props.Pick

/-! # Particles go with the flow: C120

Every move away from a cell with a flow-derived weight goes downstream (`Downstream`): to a wet neighbour where the water surface is lower or which
lies along the discharge. Hence no quantity that falls downstream can rise along a walk, a walk cannot return to a cell, and where every cell has
a neighbour downstream the particles are next to an edge after a number of calls known in advance. -/

set_option linter.unusedSectionVars false

namespace Dorado

open MeasureTheory Finset

section general

variable {K : Type} [Field K] [LinearOrder K] [IsStrictOrderedRing K] [FloorRing K] {A : Arith K} {F : Fun K A}

/-- Both kinds of arithmetic round alike on both sides of zero. -/
theorem odd_exact : OddRounding (Arith.exact : Arith K) := fun _ => rfl

theorem odd_double : OddRounding (Arith.double : Arith K) := fun _ => rndFloat_neg _

/-- The cell picked at a cell with a flow-derived weight lies downstream. -/
theorem pick_downstream {P : PObj K} (ho : OddRounding A) (hv : DefaultVectors A F P) (G : Good P) {a b : Nat} (h : Interior P a b)
    (hd : ¬ NoFlowWeight A F P a b) {r : K} (hr : 0 ≤ r ∧ r < 1) (hnz : NonzeroDraw A r) {k : Nat} (hk : k < 9)
    (hp : pickFrom A (maskOf P (makeWeight A F P a b)) r = .ok k) : Downstream P a b (Flow.nr a k) (Flow.nc b k) := by
  have hi : a < P.stage.rows := by have := G.stage_rows; have := h.2.1; omega
  have hj : b < P.stage.cols := by have := G.stage_cols; have := h.2.2.2; omega
  obtain ⟨x, hx1, -, hx0⟩ := pick_positive G hi hj hr.1 hr.2 hnz (mask_some_pos G h (fun _ => flow_self_ok G hv.self h hd)) hp
  refine downstream_of_pos ho hv G h hd hk ?_ hx1 hx0
  rintro rfl
  have := weightFlow_self (A := A) (F := F) G hv.self h
  rw [← makeWeight_flow A F G h hd, hx1] at this
  injection this with this
  exact hx0.ne' this

/-- C120: any odd rounding, any history with non-zero draws, both routing modes, with or without target times: a recorded move from an interior cell
with some flow-derived weight goes downstream. -/
theorem C120_moves (ho : OddRounding A) {P0 : PObj K} (hB : Built A F P0) (hw : DefaultWalk P0) (hv : DefaultVectors A F P0) (hz : StepsNonzero A P0)
    {P : PObj K} {s : PState K} (h : Reach A F (· = P0) (NonzeroDraws A) AnySeed P s) {wd : WalkData K} (hwd : s.walk = some wd)
    {i n a b : Nat} {q : Int × Int} (hp : wd.posAt i n = some ((a : Int), (b : Int))) (hq : wd.posAt i (n + 1) = some q)
    (hin : Interior P0 a b) (hd : ¬ NoFlowWeight A F P0 a b) :
    ∃ c d : Nat, q = ((c : Int), (d : Int)) ∧ Downstream P0 a b c d := by
  have G := hB.good
  obtain ⟨rows, rfl, -, hrows⟩ := Reach.walk (I := fun _ _ => True)
    (R := fun p t q t' => ∃ ω, NonzeroDraws A ω ∧ StepOf A F P0 ω p t q t')
    (fun P hP => by subst hP; exact G) (fun _ _ _ _ _ _ _ _ _ _ => trivial)
    (fun P ω p t q t' hP hω _ hs _ => ⟨trivial, ω, hω, by subst hP; exact hs⟩) h hwd
  obtain ⟨r, hr, hx, hy⟩ := posAt_ofRows.1 hp
  obtain ⟨r', hr', hx', hy'⟩ := posAt_ofRows.1 hq
  rw [hr] at hr'
  cases hr'
  have hI := hrows r (List.mem_of_getElem? hr)
  obtain ⟨t, -, hrec⟩ := rec_of_pos hI.aligned hx hy
  obtain ⟨t', -, hrec'⟩ := rec_of_pos hI.aligned hx' hy'
  obtain ⟨hne, ω, hω, hs⟩ := hI.pairs n _ _ _ _ hrec hrec'
  obtain ⟨i', j', k, u, hm⟩ := StepOf.move hz hs hne
  obtain ⟨rfl, rfl, hdest⟩ := hm.interior G hw hin
  obtain ⟨m, rfl⟩ := hm.draw
  exact ⟨_, _, hdest, pick_downstream ho hv G hin hd (hω.1 m) (hω.2 m) hm.lt hm.pick⟩

/-- C120, exact arithmetic: if some neighbour of an interior cell lies downstream, every recorded move from the cell goes downstream. -/
theorem C120_exact {F : Fun K Arith.exact} {P0 : PObj K} (hB : Built Arith.exact F P0) (hw : DefaultWalk P0) (hv : DefaultVectors Arith.exact F P0)
    (hz : StepsNonzero Arith.exact P0) (hpow : ∀ x, 0 < x → F.pow (.fin x) P0.theta ≠ .fin 0)
    {P : PObj K} {s : PState K} (h : Reach Arith.exact F (· = P0) (NonzeroDraws Arith.exact) AnySeed P s) {wd : WalkData K} (hwd : s.walk = some wd)
    {i n a b : Nat} {q : Int × Int} (hp : wd.posAt i n = some ((a : Int), (b : Int))) (hq : wd.posAt i (n + 1) = some q)
    (hin : Interior P0 a b) (hd : ∃ c d, Downstream P0 a b c d) :
    ∃ c d : Nat, q = ((c : Int), (d : Int)) ∧ Downstream P0 a b c d := by
  obtain ⟨c, d, hd⟩ := hd
  exact C120_moves odd_exact hB hw hv hz h hwd hp hq hin (flow_of_downstream hpow hv hB.good hin hd)

/-- C120: a quantity that falls with every step downstream falls along every stretch of a walk through interior cells with flow-derived weight. -/
theorem C120_falls (ho : OddRounding A) {P0 : PObj K} (hB : Built A F P0) (hw : DefaultWalk P0) (hv : DefaultVectors A F P0) (hz : StepsNonzero A P0)
    {P : PObj K} {s : PState K} (h : Reach A F (· = P0) (NonzeroDraws A) AnySeed P s) {wd : WalkData K} (hwd : s.walk = some wd)
    {φ : Nat → Nat → K} (hφ : FallsDownstream P0 φ) {i n m : Nat} (hnm : n < m)
    (hpath : ∀ j, n ≤ j → j < m → ∃ a b : Nat, wd.posAt i j = some ((a : Int), (b : Int)) ∧ Interior P0 a b ∧ ¬ NoFlowWeight A F P0 a b)
    {a b c d : Nat} (hp : wd.posAt i n = some ((a : Int), (b : Int))) (hq : wd.posAt i m = some ((c : Int), (d : Int))) : φ c d < φ a b := by
  induction m generalizing c d with
  | zero => omega
  | succ m ih =>
    obtain ⟨a', b', h1, h2, h3⟩ := hpath m (by omega) (by omega)
    obtain ⟨c', d', e, hdn⟩ := C120_moves ho hB hw hv hz h hwd h1 hq h2 h3
    obtain ⟨rfl, rfl⟩ : c = c' ∧ d = d' := by simpa using e
    have hstep : φ c d < φ a' b' := by
      obtain ⟨g1, g2, g3⟩ := hdn.1
      have k1 := h2.2.1
      have k2 := h2.2.2.2
      exact hφ _ _ _ _ (by omega) (by omega) (by omega) (by omega) hdn
    rcases Nat.lt_or_ge n m with hlt | hge
    · exact hstep.trans (ih hlt (fun j h4 h5 => hpath j h4 (by omega)) h1)
    · obtain rfl : n = m := by omega
      rw [h1] at hp
      obtain ⟨rfl, rfl⟩ : a' = a ∧ b' = b := by simpa using hp
      exact hstep

/-- C120: if some quantity falls downstream, such a stretch of a walk does not come back to a cell. -/
theorem C120_no_return (ho : OddRounding A) {P0 : PObj K} (hB : Built A F P0) (hw : DefaultWalk P0) (hv : DefaultVectors A F P0) (hz : StepsNonzero A P0)
    {P : PObj K} {s : PState K} (h : Reach A F (· = P0) (NonzeroDraws A) AnySeed P s) {wd : WalkData K} (hwd : s.walk = some wd)
    {φ : Nat → Nat → K} (hφ : FallsDownstream P0 φ) {i n m : Nat} (hnm : n < m)
    (hpath : ∀ j, n ≤ j → j < m → ∃ a b : Nat, wd.posAt i j = some ((a : Int), (b : Int)) ∧ Interior P0 a b ∧ ¬ NoFlowWeight A F P0 a b) :
    wd.posAt i n ≠ wd.posAt i m := by
  intro he
  obtain ⟨a, b, h1, -⟩ := hpath n le_rfl hnm
  exact lt_irrefl _ (C120_falls ho hB hw hv hz h hwd hφ hnm hpath h1 (he ▸ h1))

/-- With `gamma = 1` the water surface falls downstream. -/
theorem falls_stage {P : PObj K} (hg : P.gamma = 1) : FallsDownstream P fun a b => (P.stage.at' a b).num := by
  rintro a b c d - - - - ⟨-, -, -, -, ⟨-, e, e', h1, h2, h3⟩ | ⟨h, -⟩⟩
  · simpa [h1, h2, Fl.num] using h3
  · rw [hg] at h
    exact absurd h (lt_irrefl _)

/-- C120, `gamma = 1`: along such a stretch of a walk the water surface falls strictly, and no cell is visited twice. -/
theorem C120_surface (ho : OddRounding A) {P0 : PObj K} (hB : Built A F P0) (hw : DefaultWalk P0) (hv : DefaultVectors A F P0) (hz : StepsNonzero A P0)
    (hg : P0.gamma = 1) {P : PObj K} {s : PState K} (h : Reach A F (· = P0) (NonzeroDraws A) AnySeed P s) {wd : WalkData K} (hwd : s.walk = some wd)
    {i n m : Nat} (hnm : n < m)
    (hpath : ∀ j, n ≤ j → j < m → ∃ a b : Nat, wd.posAt i j = some ((a : Int), (b : Int)) ∧ Interior P0 a b ∧ ¬ NoFlowWeight A F P0 a b)
    {a b c d : Nat} (hp : wd.posAt i n = some ((a : Int), (b : Int))) (hq : wd.posAt i m = some ((c : Int), (d : Int))) :
    Below P0 a b c d ∧ (c, d) ≠ (a, b) := by
  have hlt := C120_falls ho hB hw hv hz h hwd (falls_stage hg) hnm hpath hp hq
  have hknown : ∃ e, P0.stage.at' a b = .fin e := by
    obtain ⟨a', b', h1, h2, h3⟩ := hpath n le_rfl hnm
    rw [h1] at hp
    obtain ⟨rfl, rfl⟩ : a' = a ∧ b' = b := by simpa using hp
    unfold NoFlowWeight at h3
    push Not at h3
    obtain ⟨k, hk, hne⟩ := h3
    have h3' : ¬ NoFlowWeight A F P0 a' b' := fun hh => hne (hh k hk)
    have h4 : k ≠ 4 := by rintro rfl; exact hne (weightFlow_self hB.good hv.self h2)
    rcases weightFlow_NN A F hB.good h2 hk with hn | ⟨x, hx, hx0, -⟩
    · rw [hn] at hne; exact absurd rfl hne
    · have hx1 : 0 < x := lt_of_le_of_ne hx0 (fun h0 => hne (by rw [hx, ← h0]; rfl))
      exact (downstream_of_pos ho hv hB.good h2 h3' hk h4 (by rw [makeWeight_flow A F hB.good h2 h3', hx]) hx1).2.2.1
  have hknown' : ∃ e, P0.stage.at' c d = .fin e := by
    obtain ⟨m, rfl⟩ : ∃ l, m = l + 1 := ⟨m - 1, by omega⟩
    obtain ⟨a', b', h1, h2, h3⟩ := hpath m (by omega) (by omega)
    obtain ⟨c', d', e, hdn⟩ := C120_moves ho hB hw hv hz h hwd h1 hq h2 h3
    obtain ⟨rfl, rfl⟩ : c = c' ∧ d = d' := by simpa using e
    exact hdn.2.2.2.1
  obtain ⟨e, he⟩ := hknown
  obtain ⟨e', he'⟩ := hknown'
  simp only [he, he', Fl.num] at hlt
  refine ⟨⟨e, e', he, he', hlt⟩, fun hh => ?_⟩
  simp only [Prod.mk.injEq] at hh
  rw [hh.1, hh.2, he] at he'
  cases he'
  exact lt_irrefl _ hlt

/-- The discharge everywhere points in one direction `(x, y)` or vanishes. -/
def OneDirection (P : PObj K) (x y : K) : Prop :=
  ∀ a b, a < P.depth.rows → b < P.depth.cols → ∃ l, 0 ≤ l ∧ P.qx.at' a b = .fin (l * x) ∧ P.qy.at' a b = .fin (l * y)

/-- C120, `gamma = 0` and discharge in one direction: along such a stretch of a walk the particle only gets further in that direction. -/
theorem C120_direction (ho : OddRounding A) {P0 : PObj K} (hB : Built A F P0) (hw : DefaultWalk P0) (hv : DefaultVectors A F P0) (hz : StepsNonzero A P0)
    (hg : P0.gamma = 0) {x y : K} (hxy : OneDirection P0 x y)
    {P : PObj K} {s : PState K} (h : Reach A F (· = P0) (NonzeroDraws A) AnySeed P s) {wd : WalkData K} (hwd : s.walk = some wd)
    {i n m : Nat} (hnm : n < m)
    (hpath : ∀ j, n ≤ j → j < m → ∃ a b : Nat, wd.posAt i j = some ((a : Int), (b : Int)) ∧ Interior P0 a b ∧ ¬ NoFlowWeight A F P0 a b)
    {a b c d : Nat} (hp : wd.posAt i n = some ((a : Int), (b : Int))) (hq : wd.posAt i m = some ((c : Int), (d : Int))) :
    x * a + y * b < x * c + y * d := by
  have hφ : FallsDownstream P0 fun a b => -(x * (a : K) + y * (b : K)) := by
    rintro a b c d ha hb - - ⟨-, -, -, -, ⟨h, -⟩ | ⟨-, u, v, hu, hv, hpos⟩⟩
    · rw [hg] at h
      exact absurd h (lt_irrefl _)
    · obtain ⟨l, hl, h1, h2⟩ := hxy a b ha hb
      rw [hu] at h1
      rw [hv] at h2
      cases h1
      cases h2
      have : 0 < l * (x * ((c : K) - a) + y * ((d : K) - b)) := by linarith
      have hl' : 0 < l := lt_of_le_of_ne hl fun e => by rw [← e, zero_mul] at this; exact lt_irrefl _ this
      have := (mul_pos_iff_of_pos_left hl').1 this
      linarith
  have := C120_falls ho hB hw hv hz h hwd hφ hnm hpath hp hq
  linarith

/-- C120: one `run_iteration()` with non-zero draws takes a particle at an interior cell with flow-derived weight, away from edges, downstream. -/
theorem C120_step (ho : OddRounding A) {Ω : (Nat → K) → Prop} {Sd : PObj K → List Int → List Int → Fl K → Prop}
    {P : PObj K} {s : PState K} (h : Reach A F (Built A F) Ω Sd P s) (hw : DefaultWalk P) (hv : DefaultVectors A F P) (hz : StepsNonzero A P)
    {ω : Nat → K} (hω : NonzeroDraws A ω) {maxIter : Int}
    {res : RunResult K} (hrun : runIteration A F P ω s none maxIter = .ok res) {wd wd' : WalkData K} (hwd : s.walk = some wd)
    (hwd' : res.state.walk = some wd') {i a b : Nat} (hp : wd.lastPos i = some ((a : Int), (b : Int)))
    (hin : Interior P a b) (hne : ¬ NearEdge P a b) (hd : ¬ NoFlowWeight A F P a b) :
    ∃ c d : Nat, wd'.lastPos i = some ((c : Int), (d : Int)) ∧ Downstream P a b c d := by
  have hG : ∀ P, Built A F P → Good P := fun P hP => hP.good
  have G := hG _ h.obj
  obtain ⟨hpe, hn | ⟨rows, hrw, hnp⟩⟩ := h.state hG
  · rw [hn] at hwd; cases hwd
  rw [hrw] at hwd
  cases hwd
  obtain ⟨-, rows', -, -, hwk, -, -, hout⟩ := runIteration_inv A F G hpe hrw (Or.inl hnp) hrun
  rw [hwk] at hwd'
  cases hwd'
  obtain ⟨r, hr, hlast⟩ := lastPos_ofRows.1 hp
  obtain ⟨r', hr', hcase⟩ := hout i r hr
  have key : ∃ q t t', r'.lastPos q ∧ StepOf A F P ω ((a : Int), (b : Int)) t q t' := by
    rcases hcase with ⟨rfl, hstill⟩ | hstep
    · obtain ⟨t, t', -, hs⟩ := hstill.lastPos hlast
      exact ⟨_, t, t', hlast, hs⟩
    · obtain ⟨p, t, q, t', v, hp', ht, hs, -, -, rfl⟩ := hstep
      have e1 : p = ((a : Int), (b : Int)) := Prod.ext (by have := hlast.1.symm.trans hp'.1; injection this with h; exact h.symm)
        (by have := hlast.2.symm.trans hp'.2; injection this with h; exact h.symm)
      subst e1
      exact ⟨q, t, t', by simp [Row.lastPos, Row.append], hs⟩
  obtain ⟨q, t, t', hq, hs⟩ := key
  obtain ⟨k, n, hk, hpick, rfl⟩ := hs.dest G hw hz hin hne
  exact ⟨_, _, lastPos_ofRows.2 ⟨r', hr', hq⟩, pick_downstream ho hv G hin hd (hω.1 n) (hω.2 n) hk hpick⟩

/-- C120 in terms of the parameters: along the discharge means along the discharge `qx` (to the right), `qy` (upwards) the user gave. -/
theorem C120_given {p : Params K} {P : PObj K} (h : initParticles A F p = .ok P) (hd : p.deltaRCM = false) {gx gy : Grid (Fl K)} (hx : p.qx = some gx)
    (hy : p.qy = some gy) {a b c d : Nat} : WithFlow P a b c d ↔ AlongXY gx gy a b c d := by
  obtain ⟨u, v, X⟩ := init_parts A F h
  have hf := X.flow
  unfold initFlow at hf
  rw [hd, hx, hy] at hf
  simp only [flowFromQ, bind_ok, pure_ok, Prod.mk.injEq] at hf
  obtain ⟨-, -, -, -, e1, e2, -, -⟩ := hf
  have e1' : P.qx.at' a b = (gy.at' a b).neg.nanTo0 := by rw [← e1]; rfl
  have e2' : P.qy.at' a b = (gx.at' a b).nanTo0 := by rw [← e2]; rfl
  unfold WithFlow AlongXY
  rw [e1', e2']
  have hn : ∀ (w : Fl K) (x : K), w.neg.nanTo0 = .fin x ↔ w.nanTo0 = .fin (-x) := by
    intro w x
    cases w <;> simp [Fl.neg, Fl.nanTo0, Fl.isNan, neg_eq_iff_eq_neg, eq_comm (a := (0 : K))]
  constructor
  · rintro ⟨x, y, h1, h2, h3⟩
    exact ⟨y, -x, h2, (hn _ _).1 h1, by linarith⟩
  · rintro ⟨x, y, h1, h2, h3⟩
    exact ⟨-y, x, (hn _ _).2 (by rw [neg_neg]; exact h2), h1, by linarith⟩

/-- C120 in terms of the parameters, exact arithmetic: if velocities were given, along the discharge means along the velocity, in cells that are not
below zero depth. -/
theorem C120_velocity {F : Fun K Arith.exact} {p : Params K} {P : PObj K} (h : initParticles Arith.exact F p = .ok P) (hd : p.deltaRCM = false)
    (hq : p.qx = none ∨ p.qy = none) {gu gv : Grid (Fl K)} (hu : p.u = some gu) (hv : p.v = some gv) {a b c d : Nat} {z : K}
    (hz : P.depth.at' a b = .fin z) (hz0 : 0 ≤ z) (hw : WithFlow P a b c d) : AlongXY gu gv a b c d := by
  obtain ⟨u, v, X⟩ := init_parts Arith.exact F h
  have hf := X.flow
  have hf' : flowFromU Arith.exact (negGrid gv) gu P.depth = .ok (P.qx, P.qy, u, v) := by
    unfold initFlow at hf
    rw [hd, hu, hv] at hf
    rcases hq with hq | hq <;> rw [hq] at hf
    · exact hf
    · cases hx : p.qx <;> rw [hx] at hf <;> exact hf
  simp only [flowFromU, bind_ok, pure_ok, Prod.mk.injEq] at hf'
  obtain ⟨-, -, -, -, e1, e2, -, -⟩ := hf'
  obtain ⟨x, y, h1, h2, h3⟩ := hw
  have e1' : P.qx.at' a b = Arith.exact.mul (gv.at' a b).neg.nanTo0 (P.depth.at' a b) := by rw [← e1]; rfl
  have e2' : P.qy.at' a b = Arith.exact.mul (gu.at' a b).nanTo0 (P.depth.at' a b) := by rw [← e2]; rfl
  rw [e1', hz] at h1
  rw [e2', hz] at h2
  have hm : ∀ (w : Fl K) (r : K), Arith.exact.mul w (.fin z) = .fin r → (∃ t, w = .fin t ∧ r = t * z) := by
    intro w r hw
    cases w with
    | fin t => exact ⟨t, rfl, (Fl.fin.inj hw).symm⟩
    | nan => cases hw
    | pinf =>
      have hw : Arith.infMul z = .fin r := hw
      unfold Arith.infMul at hw; split_ifs at hw
    | ninf =>
      have hw : (Arith.infMul z).neg = .fin r := hw
      unfold Arith.infMul at hw; split_ifs at hw <;> cases hw
  obtain ⟨t1, k1, rfl⟩ := hm _ _ h1
  obtain ⟨t2, k2, rfl⟩ := hm _ _ h2
  have hn : (gv.at' a b).nanTo0 = .fin (-t1) := by
    cases hg : gv.at' a b <;> rw [hg] at k1 <;> simp [Fl.neg, Fl.nanTo0, Fl.isNan] at k1 ⊢
    · exact k1.symm
    · rw [← k1, neg_neg]
  refine ⟨t2, -t1, k2, hn, ?_⟩
  have : 0 < z * (t2 * ((d : K) - b) + -t1 * ((a : K) - c)) := by linarith
  exact (mul_pos_iff.1 this).elim (fun h => h.2) fun h => absurd h.1 (not_lt.2 hz0)

end general

/-! ## Leaving after a known number of calls -/

section leave

variable {F : Fun ℝ Arith.exact} {R C : Nat} {P : PObj ℝ} {s : PState ℝ}

/-- The values of a quantity on the grid. -/
noncomputable def valuesOn (R C : Nat) (φ : Nat → Nat → ℝ) : Finset ℝ := (range R ×ˢ range C).image fun c => φ c.1 c.2

/-- C120: if some quantity falls downstream and every cell away from the edges has a neighbour downstream, every particle is next to an edge after as
many calls of `run_iteration()` as the quantity has values: for every stream of non-zero draws, whatever happened before. -/
theorem C120_leaves (h : Reach Arith.exact F (Enclosed Arith.exact F R C) Draws (InsideSeeds R C) P s) (hv : DefaultVectors Arith.exact F P)
    (hpow : ∀ x, 0 < x → F.pow (.fin x) P.theta ≠ .fin 0) {φ : Nat → Nat → ℝ} (hφ : FallsDownstream P φ)
    (hway : ∀ a b, Interior P a b → ¬ NearEdge P a b → ∃ c d, Downstream P a b c d) {wd : WalkData ℝ} (hwd : s.walk = some wd)
    {ω : Nat → ℝ} (hω : NonzeroDraws Arith.exact ω) {i : Nat} (hi : i < wd.xinds.length) {n : Nat} (hn : (valuesOn R C φ).card ≤ n) :
    ArrivedBy F P ω s n i := by
  have hE : Enclosed Arith.exact F R C P := h.obj
  have key : ∀ n, ArrivedBy F P ω s n i ∨ ∃ s' w wd' a b, AfterRuns Arith.exact F P ω s n s' w ∧ s'.walk = some wd' ∧ i < wd'.xinds.length ∧
      Reach Arith.exact F (Enclosed Arith.exact F R C) Draws (InsideSeeds R C) P s' ∧
      wd'.lastPos i = some (((a : Nat) : Int), ((b : Nat) : Int)) ∧ Interior P a b ∧
      ((valuesOn R C φ).filter (· < φ a b)).card + n < (valuesOn R C φ).card := by
    intro n
    induction n with
    | zero =>
      right
      obtain ⟨p, hp, hin⟩ := last_inside h hwd hi
      obtain ⟨a, b, rfl, h1, h2, h3, h4⟩ := hin.nat
      refine ⟨s, none, wd, a, b, .zero, hwd, hi, h, hp, ⟨h1, by rw [hE.rows]; exact h2, h3, by rw [hE.cols]; exact h4⟩, ?_⟩
      rw [add_zero]
      refine card_lt_card (filter_ssubset.2 ⟨φ a b, ?_, lt_irrefl _⟩)
      exact mem_image.2 ⟨(a, b), by simp; omega, rfl⟩
    | succ n ih =>
      rcases ih with hA | ⟨s', w, wd', a, b, hr, hw', hi', hre, hp, hin, hcard⟩
      · exact Or.inl (hA.mono h hwd hω.1 hi (by omega))
      by_cases he : NearEdge P a b
      · exact Or.inl (ArrivedBy.mono ⟨s', w, wd', _, hr, hw', hp, by simpa using he⟩ h hwd hω.1 hi (by omega))
      right
      obtain ⟨s2, w2, wd2, hr2, hw2, hl2, hre2⟩ := follows_some h hwd hω.1 (n + 1)
      cases hr2 with
      | @succ _ s3 w3 r hr3 hrun =>
        obtain ⟨rfl, -⟩ := hr.unique hr3
        obtain ⟨c0, d0, hdn0⟩ := hway a b hin he
        obtain ⟨c, d, hl, hdn⟩ := C120_step odd_exact (hre.mono fun _ hP => hP.built) hE.walk hv hE.steps hω hrun hw' hw2 hp hin he
          (flow_of_downstream hpow hv hE.built.good hin hdn0)
        obtain ⟨q, hq, hqi⟩ := last_inside hre2 hw2 (i := i) (by rw [hl2]; exact hi)
        rw [hl] at hq
        cases hq
        obtain ⟨c', d', e, k1, k2, k3, k4⟩ := hqi.nat
        obtain ⟨rfl, rfl⟩ : c = c' ∧ d = d' := by simpa using e
        have hin2 : Interior P c d := ⟨k1, by rw [hE.rows]; exact k2, k3, by rw [hE.cols]; exact k4⟩
        refine ⟨_, _, wd2, c, d, .succ hr hrun, hw2, by rw [hl2]; exact hi, hre2, hl, hin2, ?_⟩
        have hlt : φ c d < φ a b := hφ _ _ _ _ (by have := hin.2.1; omega) (by have := hin.2.2.2; omega) (by have := hin2.2.1; omega)
          (by have := hin2.2.2.2; omega) hdn
        have : ((valuesOn R C φ).filter (· < φ c d)).card < ((valuesOn R C φ).filter (· < φ a b)).card := by
          refine card_lt_card ((ssubset_iff_of_subset fun x hx => ?_).2 ⟨φ c d, ?_, ?_⟩)
          · rw [mem_filter] at hx ⊢
            exact ⟨hx.1, hx.2.trans hlt⟩
          · rw [mem_filter]
            exact ⟨mem_image.2 ⟨(c, d), by simp; omega, rfl⟩, hlt⟩
          · simp
        omega
  rcases key n with hA | ⟨_, _, _, _, _, _, _, _, _, _, _, hlt⟩
  · exact hA
  · omega

/-- C120: under these conditions, with probability one all particles are next to an edge after as many calls as the quantity has values. -/
theorem C120_leaves_surely (h : Reach Arith.exact F (Enclosed Arith.exact F R C) Draws (InsideSeeds R C) P s) (hv : DefaultVectors Arith.exact F P)
    (hpow : ∀ x, 0 < x → F.pow (.fin x) P.theta ≠ .fin 0) {φ : Nat → Nat → ℝ} (hφ : FallsDownstream P φ)
    (hway : ∀ a b, Interior P a b → ¬ NearEdge P a b → ∃ c d, Downstream P a b c d) {wd : WalkData ℝ} (hwd : s.walk = some wd) :
    ∀ᵐ ω ∂uniformDraws, ∀ i, i < wd.xinds.length → ArrivedBy F P ω s (valuesOn R C φ).card i := by
  filter_upwards [uniformDraws_nonzero] with ω hω i hi
  exact C120_leaves h hv hpow hφ hway hwd hω hi le_rfl

end leave

/-! ## Concrete cases -/

/-- The open channel routed by the water surface alone. -/
def chanFall : Params ℚ := { chanOpen with gamma := some 1 }

/-- The open channel routed by the discharge alone. -/
def chanDrift : Params ℚ := { chanOpen with gamma := some 0 }

/-- A whirlpool in the open channel: the discharge turns around the middle of four cells. -/
def whirl : Params ℚ := { chanDrift with
  qx := some (gridOf [
    [some 0, some 0, some 0, some 0, some 0],
    [some 0, some 0, some 1, some 0, some 0],
    [some 0, some (-1), some 0, some 0, some 0],
    [some 0, some 0, some 0, some 0, some 0],
    [some 0, some 0, some 0, some 0, some 0]])
  qy := some (gridOf [
    [some 0, some 0, some 0, some 0, some 0],
    [some 0, some 1, some 0, some 0, some 0],
    [some 0, some 0, some (-1), some 0, some 0],
    [some 0, some 0, some 0, some 0, some 0],
    [some 0, some 0, some 0, some 0, some 0]])
  steepest := some true }

theorem chanFall_valid : ValidParams chanFall := { chanOpen_valid with gamma := fun x hx => by cases hx; norm_num }
theorem chanDrift_valid : ValidParams chanDrift := { chanOpen_valid with gamma := fun x hx => by cases hx; norm_num }
theorem whirl_valid : ValidParams whirl := { chanDrift_valid with
  qx := fun g hg => by cases hg; exact gridOf_finOrNan _
  qy := fun g hg => by cases hg; exact gridOf_finOrNan _ }
theorem chanFall_built : Built Arith.exact Fun.toy (objOf chanFall) := ⟨chanFall, chanFall_valid, rfl⟩
theorem chanDrift_built : Built Arith.exact Fun.toy (objOf chanDrift) := ⟨chanDrift, chanDrift_valid, rfl⟩
theorem whirl_built : Built Arith.exact Fun.toy (objOf whirl) := ⟨whirl, whirl_valid, rfl⟩

/-- Two steps down the channel by the surface alone: `C120_moves`, `C120_exact`, `C120_surface` apply to the whole walk. -/
example : ∃ s wd, Reach Arith.exact Fun.toy (· = objOf chanFall) (NonzeroDraws Arith.exact) AnySeed (objOf chanFall) s ∧ s.walk = some wd ∧
    wd.posAt 0 0 = some (1, 2) ∧ wd.posAt 0 2 = some (3, 2) ∧ DefaultVectors Arith.exact Fun.toy (objOf chanFall) ∧ Below (objOf chanFall) 1 2 3 2 := by
  obtain ⟨s, hs, ho⟩ := demo_obs (x := demo chanFall (fun _ => 1 / 2) 1 [1] [2] [(none, 10), (none, 10)])
    (f := fun s => s.walk.bind fun wd => some (wd.posAt 0 0, wd.posAt 0 1, wd.posAt 0 2))
    (b := (some (1, 2), some (2, 2), some (3, 2))) (by decide +kernel)
  have hr := demo_reach (p := chanFall) half_draws (Sd := AnySeed) trivial hs
  cases hw : s.walk with
  | none => rw [hw] at ho; cases ho
  | some wd =>
    rw [hw] at ho
    simp only [Option.bind_some, Option.some.injEq, Prod.mk.injEq] at ho
    refine ⟨s, wd, hr, hw, ho.1, ho.2.2, ⟨rfl, rfl⟩, (C120_surface (n := 0) (m := 2) (i := 0) odd_exact chanFall_built ⟨rfl, rfl⟩ ⟨rfl, rfl⟩ (by decide +kernel) rfl hr hw
      (by omega) (fun j _ h2 => ?_) (a := 1) (b := 2) (c := 3) (d := 2) ho.1 ho.2.2).1⟩
    interval_cases j
    · exact ⟨1, 2, ho.1, by decide +kernel, by decide +kernel⟩
    · exact ⟨2, 2, ho.2.1, by decide +kernel, by decide +kernel⟩

/-- Two steps down the channel by the discharge alone: `C120_direction` applies, and so does `C120_no_return`. -/
example : ∃ s wd, Reach Arith.exact Fun.toy (· = objOf chanDrift) (NonzeroDraws Arith.exact) AnySeed (objOf chanDrift) s ∧ s.walk = some wd ∧
    OneDirection (objOf chanDrift) 1 0 ∧ ∃ c d : Nat, wd.posAt 0 2 = some ((c : Int), (d : Int)) ∧ (1 : ℚ) * (1 : Nat) + 0 * (2 : Nat) < 1 * c + 0 * d := by
  obtain ⟨s, hs, ho⟩ := demo_obs (x := demo chanDrift (fun _ => 1 / 2) 1 [1] [2] [(none, 10), (none, 10)])
    (f := fun s => s.walk.bind fun wd => some (wd.posAt 0 0, wd.posAt 0 1, wd.posAt 0 2))
    (b := (some (1, 2), some (2, 2), some (3, 2))) (by decide +kernel)
  have hr := demo_reach (p := chanDrift) half_draws (Sd := AnySeed) trivial hs
  have hone : OneDirection (objOf chanDrift) 1 0 := fun a b _ _ => ⟨2, by norm_num, by rw [mul_one]; rfl, by rw [mul_zero]; rfl⟩
  cases hw : s.walk with
  | none => rw [hw] at ho; cases ho
  | some wd =>
    rw [hw] at ho
    simp only [Option.bind_some, Option.some.injEq, Prod.mk.injEq] at ho
    refine ⟨s, wd, hr, hw, hone, 3, 2, ho.2.2, C120_direction (n := 0) (m := 2) (i := 0) odd_exact chanDrift_built ⟨rfl, rfl⟩ ⟨rfl, rfl⟩ (by decide +kernel)
      rfl hone hr hw (by omega) (fun j _ h2 => ?_) (a := 1) (b := 2) ho.1 ho.2.2⟩
    interval_cases j
    · exact ⟨1, 2, ho.1, by decide +kernel, by decide +kernel⟩
    · exact ⟨2, 2, ho.2.1, by decide +kernel, by decide +kernel⟩

/-- The channel in the user's own directions: discharge towards the bottom of the grid. -/
def chanSouth : Params ℚ := { chanDrift with deltaRCM := false, qx := some ⟨5, 5, fun _ _ => .fin 0⟩, qy := some ⟨5, 5, fun _ _ => .fin (-2)⟩ }

/-- The same given as a velocity. -/
def chanSpeed : Params ℚ := { chanDrift with deltaRCM := false, qx := none, qy := none, u := some ⟨5, 5, fun _ _ => .fin 0⟩, v := some ⟨5, 5, fun _ _ => .fin (-1)⟩ }

/-- `C120_given` and `C120_velocity`: the step down from (1,2) goes along the given field, the step up does not. -/
example : initParticles Arith.exact Fun.toy chanSouth = .ok (objOf chanSouth) ∧ AlongXY ⟨5, 5, fun _ _ => .fin (0 : ℚ)⟩ ⟨5, 5, fun _ _ => .fin (-2)⟩ 1 2 2 2 ∧
    WithFlow (objOf chanSouth) 1 2 2 2 ∧ ¬ WithFlow (objOf chanSouth) 2 2 1 2 := by
  have h : initParticles Arith.exact Fun.toy chanSouth = .ok (objOf chanSouth) := rfl
  have h1 : AlongXY ⟨5, 5, fun _ _ => .fin (0 : ℚ)⟩ ⟨5, 5, fun _ _ => .fin (-2)⟩ 1 2 2 2 := ⟨0, -2, rfl, rfl, by norm_num⟩
  refine ⟨h, h1, (C120_given h rfl rfl rfl).2 h1, fun h2 => ?_⟩
  obtain ⟨x, y, hx, hy, hp⟩ := (C120_given h rfl rfl rfl).1 h2
  cases hx
  cases hy
  norm_num at hp

example : initParticles Arith.exact Fun.toy chanSpeed = .ok (objOf chanSpeed) ∧ WithFlow (objOf chanSpeed) 1 2 2 2 ∧
    AlongXY ⟨5, 5, fun _ _ => .fin (0 : ℚ)⟩ ⟨5, 5, fun _ _ => .fin (-1)⟩ 1 2 2 2 := by
  have h : initParticles Arith.exact Fun.toy chanSpeed = .ok (objOf chanSpeed) := rfl
  have h1 : WithFlow (objOf chanSpeed) 1 2 2 2 := ⟨3, 0, by decide +kernel, by decide +kernel, by norm_num⟩
  exact ⟨h, h1, C120_velocity (z := 3) h rfl (.inl rfl) rfl rfl (by decide +kernel) (by norm_num) h1⟩

set_option synthInstance.maxSize 1024 in
/-- Every step goes downstream and yet the particle is back where it started after four steps: in a whirlpool no quantity falls downstream. -/
theorem C120_whirlpool :
    (¬ ∃ φ, FallsDownstream (objOf whirl) φ) ∧
    ∃ s wd, Reach Arith.exact Fun.toy (· = objOf whirl) (NonzeroDraws Arith.exact) AnySeed (objOf whirl) s ∧ s.walk = some wd ∧
      wd.posAt 0 0 = some (1, 1) ∧ wd.posAt 0 1 = some (1, 2) ∧ wd.posAt 0 4 = some (1, 1) := by
  obtain ⟨s, hs, ho⟩ := demo_obs (x := demo whirl (fun _ => 1 / 2) 1 [1] [1] [(none, 10), (none, 10), (none, 10), (none, 10)])
    (f := fun s => s.walk.bind fun wd => some (wd.posAt 0 0, wd.posAt 0 1, wd.posAt 0 2, wd.posAt 0 3, wd.posAt 0 4))
    (b := (some (1, 1), some (1, 2), some (2, 2), some (2, 1), some (1, 1))) (by decide +kernel)
  have hr := demo_reach (p := whirl) half_draws (Sd := AnySeed) trivial hs
  cases hw : s.walk with
  | none => rw [hw] at ho; cases ho
  | some wd =>
    rw [hw] at ho
    simp only [Option.bind_some, Option.some.injEq, Prod.mk.injEq] at ho
    refine ⟨?_, s, wd, hr, hw, ho.1, ho.2.1, ho.2.2.2.2⟩
    rintro ⟨φ, hφ⟩
    refine C120_no_return (n := 0) (m := 4) (i := 0) odd_exact whirl_built ⟨rfl, rfl⟩ ⟨rfl, rfl⟩ (by decide +kernel) hr hw hφ (by omega) (fun j _ h2 => ?_)
      (ho.1.trans ho.2.2.2.2.symm)
    interval_cases j
    · exact ⟨1, 1, ho.1, by decide +kernel, by decide +kernel⟩
    · exact ⟨1, 2, ho.2.1, by decide +kernel, by decide +kernel⟩
    · exact ⟨2, 2, ho.2.2.1, by decide +kernel, by decide +kernel⟩
    · exact ⟨2, 1, ho.2.2.2.1, by decide +kernel, by decide +kernel⟩

/-- In the wide channel the row number grows downstream. -/
theorem wideObj_falls : FallsDownstream wideObj fun a _ => -(a : ℝ) := by
  have hst : ∀ i j, wideObj.stage.at' i j = .fin (2 - (i : ℝ) / 100) := by
    intro i j
    change ((if Fl.eq (.fin (1 : ℝ)) (.fin 0) then Fl.nan else .fin (2 - (i : ℝ) / 100)) : Fl ℝ) = _
    rw [if_neg (by simp [Fl.eq])]
  rintro a b c d - - - - ⟨-, -, -, -, ⟨-, e, e', h1, h2, h3⟩ | ⟨-, x, y, hx, hy, hpos⟩⟩
  · rw [hst] at h1 h2
    cases h1
    cases h2
    linarith
  · change Fl.fin (1 + (b : ℝ) / 10) = .fin x at hx
    change Fl.fin (0 : ℝ) = .fin y at hy
    cases hx
    cases hy
    rw [zero_mul, add_zero] at hpos
    have := (mul_pos_iff_of_pos_left (show (0 : ℝ) < 1 + (b : ℝ) / 10 by positivity)).1 hpos
    linarith

theorem wideObj_way {a b : Nat} : Downstream wideObj a b (a + 1) b := by
  have hst : ∀ i j, ∃ e, wideObj.stage.at' i j = .fin e := by
    intro i j
    refine ⟨2 - (i : ℝ) / 100, ?_⟩
    change ((if Fl.eq (.fin (1 : ℝ)) (.fin 0) then Fl.nan else .fin (2 - (i : ℝ) / 100)) : Fl ℝ) = _
    rw [if_neg (by simp [Fl.eq])]
  refine ⟨⟨by simp, by omega, by omega⟩, ⟨⟨1, rfl, ?_⟩, ?_⟩, hst _ _, hst _ _, Or.inr ⟨?_, 1 + (b : ℝ) / 10, 0, rfl, rfl, ?_⟩⟩
  · change (1 / 10 : ℝ) < 1
    norm_num
  · change ¬ ((if interiorB 11 11 (a + 1) b then (if Fl.lt (.fin (1 : ℝ)) (.fin (1 / 10)) then 2 else 0) else -1) : Int) = 2
    have : Fl.lt (.fin (1 : ℝ)) (.fin (1 / 10)) = false := by simp [Fl.lt]; norm_num
    rw [this]
    split_ifs <;> simp_all
  · change (1 / 20 : ℝ) < 1
    norm_num
  · push_cast
    rw [zero_mul, add_zero, show (a : ℝ) + 1 - a = 1 by ring, mul_one]
    positivity

theorem wideObj_pow : ∀ x, 0 < x → Fun.real.pow (.fin x) wideObj.theta ≠ .fin 0 := by
  intro x hx h
  change ((if (1 : ℝ) = 0 then Fl.fin 1 else if (0 : ℝ) < x then .fin (x ^ (1 : ℝ)) else _) : Fl ℝ) = .fin 0 at h
  rw [if_neg one_ne_zero, if_pos hx, Real.rpow_one] at h
  cases h
  exact lt_irrefl _ hx

/-- Eleven rows, so eleven calls: particles seeded anywhere inside the wide channel are next to an edge after eleven calls of `run_iteration()`, whatever
the (non-zero) draws. -/
example : ∃ (s : PState ℝ) (wd : WalkData ℝ), Reach Arith.exact Fun.real (Enclosed Arith.exact Fun.real 11 11) Draws (InsideSeeds 11 11) wideObj s ∧
    s.walk = some wd ∧ wd.xinds.length = 2 ∧ wd.lastPos 0 = some (2, 3) ∧ (valuesOn 11 11 fun a _ => -(a : ℝ)).card ≤ 11 ∧
    ∀ ω, NonzeroDraws Arith.exact ω → ∀ i, i < 2 → ArrivedBy Fun.real wideObj ω s 11 i := by
  obtain ⟨s0, h0, wd, hwd, hlen, hl⟩ : ∃ s0, generateParticles Arith.exact wideObj (fun _ => 1 / 2) (initState Arith.exact Fun.real wideObj 0) (.int 2)
      (.list [.int 2, .int 5]) (.list [.int 3, .int 5]) (.int 0) (.str "exact") none = .ok s0 ∧
      ∃ wd, s0.walk = some wd ∧ wd.xinds.length = 2 ∧ wd.lastPos 0 = some (2, 3) := ⟨_, rfl, _, rfl, rfl, rfl⟩
  have hc : genInputCheck (K := ℝ) (.int 2) (.list [.int 2, .int 5]) (.list [.int 3, .int 5]) (.int 0) (.str "exact") =
    .ok (2, [2, 5], [3, 5], .fin ((0 : Int) : ℝ), .exact) := rfl
  have hR : Reach Arith.exact Fun.real (Enclosed Arith.exact Fun.real 11 11) Draws (InsideSeeds 11 11) wideObj s0 :=
    .generate (.new 0 wideObj_enclosed) (fun _ => by norm_num) hc (by norm_num) (fun x hx y hy => by
      simp at hx hy
      rcases hx with rfl | rfl <;> rcases hy with rfl | rfl <;> (unfold Inside; decide)) h0
  have hcard : (valuesOn 11 11 fun a _ => -(a : ℝ)).card ≤ 11 := by
    have e : valuesOn 11 11 (fun a _ => -(a : ℝ)) ⊆ (range 11).image fun a : Nat => -(a : ℝ) := by
      intro x hx
      obtain ⟨c, h1, h2⟩ := mem_image.1 hx
      exact mem_image.2 ⟨c.1, (mem_product.1 h1).1, h2⟩
    exact (card_le_card e).trans (card_image_le.trans (by simp))
  exact ⟨s0, wd, hR, hwd, hlen, hl, hcard, fun ω hω i hi => C120_leaves hR ⟨rfl, rfl⟩ wideObj_pow wideObj_falls (fun a b _ _ => ⟨_, _, wideObj_way⟩) hwd hω
    (by omega) hcard⟩

end Dorado
