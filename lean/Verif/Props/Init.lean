import Verif.Lemmas.Init
import Verif.Spec.Sample

/-! # C35, C36: the constructor -/

set_option linter.unusedSectionVars false

namespace Dorado

variable {K : Type} [Field K] [LinearOrder K] [IsStrictOrderedRing K] {A : Arith K} {F : Fun K A}

/-- The number 1e-8. -/
def tiny8 : K := 1 / 10 ^ 8

theorem eps8_eq_tiny8 : eps8 A = A.rnd tiny8 := by
  unfold eps8 tiny8
  norm_num

/-! ## C35 -/

/-- C35: after construction from arrays with finite entries or NaN, all fields are finite on the whole grid, except that the stage may be
NaN; it is NaN wherever the depth is zero; speeds and absolute velocity components are at least 1e-8 (as rounded). -/
theorem C35_fields {P : PObj K} (hB : Built A F P) {i j : Nat} (hi : i < P.depth.rows) (hj : j < P.depth.cols) :
    (∃ d, P.depth.at' i j = .fin d) ∧ (P.depth.at' i j = .fin 0 → P.stage.at' i j = .nan) ∧
    (∃ x, P.qx.at' i j = .fin x) ∧ (∃ x, P.qy.at' i j = .fin x) ∧
    (∃ x, P.u.at' i j = .fin x ∧ A.rnd tiny8 ≤ |x|) ∧ (∃ x, P.v.at' i j = .fin x ∧ A.rnd tiny8 ≤ |x|) ∧
    ∃ x, P.velocity.at' i j = .fin x ∧ A.rnd tiny8 ≤ x := by
  have Fd := hB.fields
  obtain ⟨u, hu⟩ := Fd.u.1 i j (by rw [Fd.u.2.1]; exact hi) (by rw [Fd.u.2.2]; exact hj)
  obtain ⟨v, hv⟩ := Fd.v.1 i j (by rw [Fd.v.2.1]; exact hi) (by rw [Fd.v.2.2]; exact hj)
  rw [← eps8_eq_tiny8]
  exact ⟨Fd.good.depth_fin i j hi hj, Fd.stage_nan i j, Fd.good.qx_fin i j hi hj, Fd.good.qy_fin i j hi hj,
    ⟨u, hu, Fd.u_abs i j u hi hj hu⟩, ⟨v, hv, Fd.v_abs i j v hi hj hv⟩, Fd.vel i j hi hj⟩

/-- C35: all arrays have the shape of the depth array. -/
theorem C35_shapes {P : PObj K} (hB : Built A F P) :
    (P.stage.rows, P.stage.cols) = (P.depth.rows, P.depth.cols) ∧ (P.qx.rows, P.qx.cols) = (P.depth.rows, P.depth.cols) ∧
    (P.qy.rows, P.qy.cols) = (P.depth.rows, P.depth.cols) ∧ (P.u.rows, P.u.cols) = (P.depth.rows, P.depth.cols) ∧
    (P.v.rows, P.v.cols) = (P.depth.rows, P.depth.cols) ∧ (P.velocity.rows, P.velocity.cols) = (P.depth.rows, P.depth.cols) ∧
    (P.cellType.rows, P.cellType.cols) = (P.depth.rows, P.depth.cols) := by
  have Fd := hB.fields
  have G := Fd.good
  refine ⟨?_, ?_, ?_, ?_, ?_, ?_, ?_⟩ <;> simp only [Prod.mk.injEq]
  · exact ⟨G.stage_rows, G.stage_cols⟩
  · exact ⟨Fd.qx.2.1, Fd.qx.2.2⟩
  · exact ⟨Fd.qy.2.1, Fd.qy.2.2⟩
  · exact ⟨Fd.u.2.1, Fd.u.2.2⟩
  · exact ⟨Fd.v.2.1, Fd.v.2.2⟩
  · exact ⟨Fd.vel_rows, Fd.vel_cols⟩
  · exact ⟨G.ct_rows, G.ct_cols⟩

/-- C35: values given as finite numbers are kept: depth and, in wet cells, stage are the given ones; for DeltaRCM input so are the
discharges; other input is rotated (`qx` is the negative of the given y-component, `qy` the given x-component). -/
theorem C35_keeps_inputs {p : Params K} {P : PObj K} (h : initParticles A F p = .ok P) (i j : Nat) :
    (∀ g x, p.depth = some g → g.at' i j = .fin x → P.depth.at' i j = .fin x) ∧
    (∀ g x, p.stage = some g → g.at' i j = .fin x → P.depth.at' i j ≠ .fin 0 → P.stage.at' i j = .fin x) ∧
    (∀ gx gy x y, p.qx = some gx → p.qy = some gy → gx.at' i j = .fin x → gy.at' i j = .fin y →
      if p.deltaRCM then P.qx.at' i j = .fin x ∧ P.qy.at' i j = .fin y else P.qx.at' i j = .fin (-y) ∧ P.qy.at' i j = .fin x) := by
  unfold initParticles at h
  simp only [bind_ok, pure_ok, Prod.exists] at h
  obtain ⟨dx, hdx, d, hd, s, hs, qx, qy, u, v, hf, ct, hct, ru, hroi, rfl⟩ := h
  refine ⟨fun g x hg hx => ?_, fun g x hg hx hne => ?_, fun gx gy x y hgx hgy hx hy => ?_⟩
  · unfold initDepth at hd
    rw [hg] at hd
    simp only [Except.ok.injEq] at hd
    subst hd
    simp [nanZeroGrid, Grid.map, hx, Fl.nanTo0, Fl.isNan]
  · unfold initStage at hs
    rw [hg] at hs
    simp only [bind_ok, pure_ok] at hs
    obtain ⟨-, -, rfl⟩ := hs
    simp only [stageNan, Grid.zip]
    simp only at hne
    rw [if_neg, hx]
    intro he
    apply hne
    cases hdv : d.at' i j with
    | fin y => rw [hdv] at he; simp [Fl.eq] at he; rw [he]
    | _ => rw [hdv] at he; simp [Fl.eq] at he
  · unfold initFlow at hf
    rw [hgx, hgy] at hf
    cases hm : p.deltaRCM with
    | true =>
      rw [hm] at hf
      simp only [flowFromQ, bind_ok, pure_ok, Prod.mk.injEq] at hf
      obtain ⟨-, -, -, -, rfl, rfl, -, -⟩ := hf
      simp [nanZeroGrid, Grid.map, hx, hy, Fl.nanTo0, Fl.isNan]
    | false =>
      rw [hm] at hf
      simp only [flowFromQ, bind_ok, pure_ok, Prod.mk.injEq] at hf
      obtain ⟨-, -, -, -, rfl, rfl, -, -⟩ := hf
      simp [nanZeroGrid, negGrid, Grid.map, hx, hy, Fl.nanTo0, Fl.isNan, Fl.neg]

/-! ## C36 -/

/-- All arrays that are given, except the region grid, have `R` rows and `C` columns. -/
structure CommonShape (R C : Nat) (p : Params K) : Prop where
  depth : ∀ g, p.depth = some g → g.rows = R ∧ g.cols = C
  stage : ∀ g, p.stage = some g → g.rows = R ∧ g.cols = C
  topography : ∀ g, p.topography = some g → g.rows = R ∧ g.cols = C
  qx : ∀ g, p.qx = some g → g.rows = R ∧ g.cols = C
  qy : ∀ g, p.qy = some g → g.rows = R ∧ g.cols = C
  u : ∀ g, p.u = some g → g.rows = R ∧ g.cols = C
  v : ∀ g, p.v = some g → g.rows = R ∧ g.cols = C
  cellType : ∀ g, p.cellType = some g → g.rows = R ∧ g.cols = C

/-- The parameters the constructor needs: cell size, two of depth, stage, topography (or depth and stage), a pair of discharge or velocity
components. -/
structure Complete (p : Params K) : Prop where
  dx : p.dx ≠ none
  depth : p.depth ≠ none ∨ (p.stage ≠ none ∧ p.topography ≠ none)
  stage : p.stage ≠ none ∨ (p.topography ≠ none ∧ p.depth ≠ none)
  flow : (p.qx ≠ none ∧ p.qy ≠ none) ∨ (p.u ≠ none ∧ p.v ≠ none)

/-- The region grid, if given, has `R` rows and `C` columns. -/
def RoiFits (R C : Nat) (p : Params K) : Prop := ∀ g, p.roi = some g → g.rows = R ∧ g.cols = C

theorem needShape_same {α β : Type} {g : Grid α} {h : Grid β} {R C : Nat} (hg : g.rows = R ∧ g.cols = C) (hh : h.rows = R ∧ h.cols = C) :
    needShape g h = .ok () := by
  unfold needShape Grid.sameShape
  rw [if_pos]
  simp [hg, hh]

theorem initDepth_total {R C : Nat} {p : Params K} (hs : CommonShape R C p) :
    (∃ d, initDepth A p = .ok d ∧ d.rows = R ∧ d.cols = C ∧ (p.depth ≠ none ∨ (p.stage ≠ none ∧ p.topography ≠ none))) ∨
    (initDepth A p = .error .valueError ∧ ¬ (p.depth ≠ none ∨ (p.stage ≠ none ∧ p.topography ≠ none))) := by
  unfold initDepth
  cases hd : p.depth with
  | some d => exact Or.inl ⟨_, rfl, (hs.depth d hd).1, (hs.depth d hd).2, Or.inl (by simp)⟩
  | none =>
    cases hst : p.stage with
    | none => exact Or.inr ⟨rfl, by simp⟩
    | some s =>
      cases ht : p.topography with
      | none => exact Or.inr ⟨rfl, by simp⟩
      | some t =>
        left
        simp only [needShape_same (hs.stage s hst) (hs.topography t ht), ok_bind]
        exact ⟨_, rfl, (hs.stage s hst).1, (hs.stage s hst).2, Or.inr ⟨by simp, by simp⟩⟩

theorem initStage_total {R C : Nat} {p : Params K} (hs : CommonShape R C p) {d : Grid (Fl K)} (hd : d.rows = R ∧ d.cols = C) :
    ((∃ s, initStage A p d = .ok s) ∧ (p.stage ≠ none ∨ (p.topography ≠ none ∧ p.depth ≠ none))) ∨
    (initStage A p d = .error .valueError ∧ ¬ (p.stage ≠ none ∨ (p.topography ≠ none ∧ p.depth ≠ none))) := by
  unfold initStage
  cases hst : p.stage with
  | some s =>
    left
    simp only [needShape_same (hs.stage s hst) hd, ok_bind]
    exact ⟨⟨_, rfl⟩, Or.inl (by simp)⟩
  | none =>
    cases ht : p.topography with
    | none => exact Or.inr ⟨rfl, by simp⟩
    | some t =>
      cases hdp : p.depth with
      | none => exact Or.inr ⟨rfl, by simp⟩
      | some d' =>
        left
        simp only [needShape_same (hs.topography t ht) hd, ok_bind]
        exact ⟨⟨_, rfl⟩, Or.inr ⟨by simp, by simp⟩⟩

theorem flowFromQ_total {R C : Nat} {a b d : Grid (Fl K)} (ha : a.rows = R ∧ a.cols = C) (hb : b.rows = R ∧ b.cols = C)
    (hd : d.rows = R ∧ d.cols = C) : ∃ r, flowFromQ A a b d = .ok r := by
  unfold flowFromQ
  rw [needShape_same ha hd, needShape_same hb hd]
  exact ⟨_, rfl⟩

theorem flowFromU_total {R C : Nat} {a b d : Grid (Fl K)} (ha : a.rows = R ∧ a.cols = C) (hb : b.rows = R ∧ b.cols = C)
    (hd : d.rows = R ∧ d.cols = C) : ∃ r, flowFromU A a b d = .ok r := by
  unfold flowFromU
  rw [needShape_same ha hd, needShape_same hb hd]
  exact ⟨_, rfl⟩

theorem initFlow_total {R C : Nat} {p : Params K} (hs : CommonShape R C p) {d : Grid (Fl K)} (hd : d.rows = R ∧ d.cols = C) :
    ((∃ r, initFlow A p d = .ok r) ∧ ((p.qx ≠ none ∧ p.qy ≠ none) ∨ (p.u ≠ none ∧ p.v ≠ none))) ∨
    (initFlow A p d = .error .valueError ∧ ¬ ((p.qx ≠ none ∧ p.qy ≠ none) ∨ (p.u ≠ none ∧ p.v ≠ none))) := by
  have hneg : ∀ g : Grid (Fl K), g.rows = R ∧ g.cols = C → (negGrid g).rows = R ∧ (negGrid g).cols = C := fun g h => h
  unfold initFlow
  cases hm : p.deltaRCM <;> cases h1 : p.qx <;> cases h2 : p.qy <;> cases h3 : p.u <;> cases h4 : p.v <;>
    first
    | (right; exact ⟨rfl, by simp⟩)
    | (left; exact ⟨flowFromQ_total (hs.qx _ h1) (hs.qy _ h2) hd, Or.inl ⟨by simp, by simp⟩⟩)
    | (left; exact ⟨flowFromQ_total (hneg _ (hs.qy _ h2)) (hs.qx _ h1) hd, Or.inl ⟨by simp, by simp⟩⟩)
    | (left; exact ⟨flowFromU_total (hs.u _ h3) (hs.v _ h4) hd, Or.inr ⟨by simp, by simp⟩⟩)
    | (left; exact ⟨flowFromU_total (hneg _ (hs.v _ h4)) (hs.u _ h3) hd, Or.inr ⟨by simp, by simp⟩⟩)

/-- The smallest arrays the constructor can work with: one cell if the cell types are given, else two rows and two columns. -/
def LargeEnough (R C : Nat) (p : Params K) : Prop := if p.cellType = none then 2 ≤ R ∧ 2 ≤ C else 1 ≤ R ∧ 1 ≤ C

theorem initCellType_total {R C : Nat} {p : Params K} (hs : CommonShape R C p) {d : Grid (Fl K)} (hd : d.rows = R ∧ d.cols = C) (dry : K) :
    ((∃ c, initCellType p d dry = .ok c) ∧ LargeEnough R C p) ∨ (initCellType p d dry = .error .indexError ∧ ¬ LargeEnough R C p) := by
  obtain ⟨rfl, rfl⟩ := hd
  unfold initCellType LargeEnough
  cases h : p.cellType with
  | none =>
    by_cases hb : d.rows < 2 ∨ d.cols < 2
    · right; simp only [if_pos hb, if_true, true_and]; omega
    · left; simp only [if_neg hb, if_true]; exact ⟨⟨_, rfl⟩, by omega, by omega⟩
  | some c =>
    simp only [needShape_same (hs.cellType c h) ⟨rfl, rfl⟩, ok_bind]
    by_cases hb : d.rows = 0 ∨ d.cols = 0
    · right; simp only [if_pos hb, reduceCtorEq, if_false, true_and]; omega
    · left; simp only [if_neg hb, reduceCtorEq, if_false]; exact ⟨⟨_, rfl⟩, by omega, by omega⟩

/-- C36: for arrays of one common shape the constructor raises ValueError if the parameters are incomplete or the region grid does not fit.
Otherwise it succeeds if the arrays are large enough, and raises IndexError if not. -/
theorem C36_decides {R C : Nat} {p : Params K} (hs : CommonShape R C p) :
    (Complete p ∧ RoiFits R C p ∧ LargeEnough R C p → ∃ P, initParticles A F p = .ok P) ∧
    (Complete p ∧ RoiFits R C p ∧ ¬ LargeEnough R C p → initParticles A F p = .error .indexError) ∧
    (¬ (Complete p ∧ RoiFits R C p) → initParticles A F p = .error .valueError) := by
  unfold initParticles
  have hdx : (∃ x, initDx p = .ok x ∧ p.dx ≠ none) ∨ (initDx p = .error .valueError ∧ ¬ p.dx ≠ none) := by
    unfold initDx
    cases p.dx with
    | none => exact Or.inr ⟨rfl, by simp⟩
    | some x => exact Or.inl ⟨x, rfl, by simp⟩
  obtain ⟨x, hx, cx⟩ | ⟨hx, cx⟩ := hdx
  swap
  · exact ⟨fun h => absurd h.1.dx cx, fun h => absurd h.1.dx cx, fun _ => by rw [hx]; rfl⟩
  obtain ⟨d, hd, r1, r2, cd⟩ | ⟨hd, cd⟩ := initDepth_total (A := A) hs
  swap
  · exact ⟨fun h => absurd h.1.depth cd, fun h => absurd h.1.depth cd, fun _ => by rw [hx, hd]; rfl⟩
  obtain ⟨⟨s, hst⟩, cs⟩ | ⟨hst, cs⟩ := initStage_total (A := A) hs ⟨r1, r2⟩
  swap
  · exact ⟨fun h => absurd h.1.stage cs, fun h => absurd h.1.stage cs, fun _ => by rw [hx, hd]; simp only [ok_bind, hst]; rfl⟩
  obtain ⟨⟨⟨qx, qy, u, v⟩, hf⟩, cf⟩ | ⟨hf, cf⟩ := initFlow_total (A := A) hs ⟨r1, r2⟩
  swap
  · exact ⟨fun h => absurd h.1.flow cf, fun h => absurd h.1.flow cf, fun _ => by rw [hx, hd]; simp only [ok_bind, hst, hf]; rfl⟩
  have hroi : (checkRoi p d = .ok () ∧ RoiFits R C p) ∨ (checkRoi p d = .error .valueError ∧ ¬ RoiFits R C p) := by
    unfold checkRoi RoiFits
    cases hr : p.roi with
    | none => exact Or.inl ⟨rfl, by simp⟩
    | some g =>
      simp only [needShape]
      by_cases hg : g.rows = R ∧ g.cols = C
      · left
        rw [if_pos (by simp [Grid.sameShape, hg, r1, r2])]
        exact ⟨rfl, fun g' h => by cases h; exact hg⟩
      · right
        rw [if_neg (by simpa [Grid.sameShape, r1, r2] using hg)]
        exact ⟨rfl, fun h => hg (h g rfl)⟩
  rw [hx, hd]
  simp only [ok_bind, hst, hf]
  obtain ⟨hr, cr⟩ | ⟨hr, cr⟩ := hroi
  · rw [hr]
    obtain ⟨⟨ct, hct⟩, cl⟩ | ⟨hct, cl⟩ := initCellType_total hs ⟨r1, r2⟩ (p.dryDepth.getD (A.rnd (1 / 10)))
    · simp only [ok_bind, hct]
      exact ⟨fun _ => ⟨_, rfl⟩, fun h => absurd cl h.2.2, fun h => absurd ⟨⟨cx, cd, cs, cf⟩, cr⟩ h⟩
    · simp only [ok_bind, hct]
      exact ⟨fun h => absurd h.2.2 cl, fun _ => rfl, fun h => absurd ⟨⟨cx, cd, cs, cf⟩, cr⟩ h⟩
  · rw [hr]
    exact ⟨fun h => absurd h.2.1 cr, fun h => absurd h.2.1 cr, fun _ => rfl⟩

/-! ## Concrete cases -/

/-- Depth derived from stage and topography with NaNs, velocities given, rotated input, a dry cell. -/
def chanTopo : Params ℚ where
  dx := some 10
  stage := some (gridOf [[some 5, some 5, some 5], [some 5, none, some 4], [some 3, some 3, some 3]])
  topography := some (gridOf [[some 1, some 1, some 1], [some 1, some 1, some 6], [some 1, none, some 1]])
  u := some (gridOf [[some 1, some 1, some 1], [none, some 0, some 1], [some 1, some 1, some 1]])
  v := some (gridOf [[some 1, some 1, some 1], [some 2, some 0, some 1], [some 1, some 1, some 1]])

theorem chanTopo_built : Built Arith.exact Fun.toy (objOf chanTopo) := by
  refine ⟨chanTopo, ?_, rfl⟩
  constructor
  all_goals first
    | (intro g hg; cases hg; exact gridOf_finOrNan _)
    | (intro g hg; cases hg)

example : (List.range 3).map (fun i => (List.range 3).map fun j => ((objOf chanTopo).depth.at' i j, (objOf chanTopo).stage.at' i j)) =
    [[(.fin 4, .fin 5), (.fin 4, .fin 5), (.fin 4, .fin 5)], [(.fin 4, .fin 5), (.fin 0, .nan), (.fin 0, .nan)],
      [(.fin 2, .fin 3), (.fin 0, .nan), (.fin 2, .fin 3)]] := by decide +kernel

example : (objOf chanTopo).u.at' 1 0 = .fin (-2) ∧ (objOf chanTopo).v.at' 1 0 = .fin (1 / 10 ^ 8) ∧
    (objOf chanTopo).velocity.at' 1 1 = .fin (1 / 10 ^ 8) := by decide +kernel

/-- C35_fields applied to a cell with a NaN input. -/
example := C35_fields chanTopo_built (i := 1) (j := 1) (by decide) (by decide)

theorem chan_shape : CommonShape 5 5 chan := by
  constructor <;> (intro g hg; cases hg) <;> exact ⟨rfl, rfl⟩

/-- C36: complete parameters, and the same without the y-discharge or with a region grid of the wrong shape. At the end a single row of cells, without and
with cell types. -/
example : ∃ P, initParticles Arith.exact Fun.toy chan = .ok P :=
  (C36_decides chan_shape).1 ⟨⟨by simp [chan], Or.inl (by simp [chan]), Or.inl (by simp [chan]), Or.inl ⟨by simp [chan], by simp [chan]⟩⟩,
    fun g hg => (by cases hg), by simp [LargeEnough, chan]⟩

def chanNoQy : Params ℚ := { chan with qy := none }

def chanWrongRoi : Params ℚ := { chan with roi := some (gridOf [[some 1]]) }

example : initParticles Arith.exact Fun.toy chanNoQy = .error .valueError :=
  (C36_decides (R := 5) (C := 5) (by constructor <;> (intro g hg; cases hg) <;> exact ⟨rfl, rfl⟩)).2.2 fun h => by
    rcases h.1.flow with h | h
    · exact h.2 rfl
    · exact h.1 rfl

example : initParticles Arith.exact Fun.toy chanWrongRoi = .error .valueError :=
  (C36_decides (R := 5) (C := 5) (by constructor <;> (intro g hg; cases hg) <;> exact ⟨rfl, rfl⟩)).2.2 fun h =>
    absurd (h.2 _ rfl).1 (by decide)

def chanRow : Params ℚ where
  dx := some 10
  depth := some (gridOf [[some 1, some 2, some 3]])
  stage := some (gridOf [[some 1, some 2, some 3]])
  qx := some (gridOf [[some 1, some 1, some 1]])
  qy := some (gridOf [[some 1, some 0, some 1]])

def chanRowTyped : Params ℚ := { chanRow with cellType := some ⟨1, 3, fun _ _ => 0⟩ }

example : initParticles Arith.exact Fun.toy chanRow = .error .indexError :=
  (C36_decides (R := 1) (C := 3) (by constructor <;> (intro g hg; cases hg) <;> exact ⟨rfl, rfl⟩)).2.1
    ⟨⟨by simp [chanRow], Or.inl (by simp [chanRow]), Or.inl (by simp [chanRow]), Or.inl ⟨by simp [chanRow], by simp [chanRow]⟩⟩,
      fun g hg => (by cases hg), by simp [LargeEnough, chanRow]⟩

example : ∃ P, initParticles Arith.exact Fun.toy chanRowTyped = .ok P :=
  (C36_decides (R := 1) (C := 3) (by constructor <;> (intro g hg; cases hg) <;> exact ⟨rfl, rfl⟩)).1
    ⟨⟨by simp [chanRowTyped, chanRow], Or.inl (by simp [chanRowTyped, chanRow]), Or.inl (by simp [chanRowTyped, chanRow]),
      Or.inl ⟨by simp [chanRowTyped, chanRow], by simp [chanRowTyped, chanRow]⟩⟩, fun g hg => (by cases hg), by simp [LargeEnough, chanRowTyped]⟩

end Dorado
