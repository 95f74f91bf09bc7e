import Verif.Lemmas.Transform
import Verif.Props.Weights

/-! # C08, C09, C13: invariances of the routing weights and flow orientation -/

set_option linter.unusedSectionVars false

set_option linter.unusedSimpArgs false

namespace Dorado

variable {K : Type} [Field K] [LinearOrder K] [IsStrictOrderedRing K] {F : Fun K Arith.exact}

/-! ## C08 -/

theorem interior_of_shape {P P' : PObj K} (hr : P'.depth.rows = P.depth.rows) (hc : P'.depth.cols = P.depth.cols) {i j : Nat}
    (h : Interior P i j) : Interior P' i j := by unfold Interior at *; rw [hr, hc]; exact h

theorem valid_scale {c : K} {p : Params K} (h : ValidParams p) : ValidParams (p.scaleFlow c) := by
  have hm : ∀ g : Grid (Fl K), g.FinOrNan → (g.map (Arith.exact.mul (.fin c))).FinOrNan := by
    intro g hg i j hi hj
    rcases hg i j hi hj with h | ⟨x, h⟩
    · left; simp [Grid.map, h, Arith.mul]
    · right; exact ⟨c * x, by simp [Grid.map, h, Arith.mul, Arith.exact]⟩
  exact { h with
    qx := valid_map h.qx hm
    qy := valid_map h.qy hm
    u := valid_map h.u hm
    v := valid_map h.v hm }

theorem valid_shift {c : K} {p : Params K} (h : ValidParams p) : ValidParams (p.shiftDatum c) := by
  have hm : ∀ g : Grid (Fl K), g.FinOrNan → (g.map (Arith.exact.add (.fin c))).FinOrNan := by
    intro g hg i j hi hj
    rcases hg i j hi hj with h | ⟨x, h⟩
    · left; simp [Grid.map, h, Arith.add]
    · right; exact ⟨c + x, by simp [Grid.map, h, Arith.add, Arith.exact]⟩
  exact { h with stage := valid_map h.stage hm, topography := valid_map h.topography hm }

/-- Multiplying all discharges and velocities by a positive constant changes no weight. -/
theorem C08_discharge_scaling {c : K} (hc : 0 < c) {p : Params K} (hv : ValidParams p) {P : PObj K}
    (hP : initParticles Arith.exact F p = .ok P) :
    ∃ P', initParticles Arith.exact F (p.scaleFlow c) = .ok P' ∧
      ∀ i j, i < P.depth.rows → j < P.depth.cols → ∀ k, k < 9 →
        (P'.weight Arith.exact F i j k).nanTo0 = (P.weight Arith.exact F i j k).nanTo0 := by
  obtain ⟨u, v, X⟩ := init_parts _ _ hP
  have hf := initFlow_scale hc X.flow
  have hct : initCellType (p.scaleFlow c) P.depth ((p.scaleFlow c).dryDepth.getD (Arith.exact.rnd (1 / 10))) = .ok P.cellType := by
    have := X.ct
    rw [X.dry] at this
    exact this
  obtain ⟨P', hP', h1, h2, h3, h4, h5⟩ := init_mk (F := F) (p := p.scaleFlow c) X.dx X.depth X.stage hf hct X.roiShape
  obtain ⟨u2, v2, X'⟩ := init_parts _ _ hP'
  have hB : Built Arith.exact F P := ⟨p, hv, hP⟩
  have hB' : Built Arith.exact F P' := ⟨_, valid_scale hv, hP'⟩
  refine ⟨P', hP', fun i j hi hj k hk => ?_⟩
  by_cases hin : Interior P i j
  · have hin' : Interior P' i j := interior_of_shape (by rw [h1]) (by rw [h1]) hin
    have R := represents_flowOf (F := F) hB.good
    have R' : Represents F P' ((flowOf F P).scaled c) := by
      constructor
      · rw [h1]; exact R.rows
      · rw [h1]; exact R.cols
      · intro a b ha hb; rw [h1]; exact R.depth a b ha hb
      · intro a b ha hb; rw [h2]; exact R.stage a b ha hb
      · intro a b ha hb
        rw [h3]
        show Arith.exact.mul (.fin c) (P.qx.at' a b) = _
        rw [R.a a b ha hb]; rfl
      · intro a b ha hb
        rw [h4]
        show Arith.exact.mul (.fin c) (P.qy.at' a b) = _
        rw [R.b a b ha hb]; rfl
      · intro a b ha hb; rw [h5]; exact R.land a b ha hb
      · rw [X'.gamma]; exact X.gamma.symm
      · rw [X'.dry]; exact X.dry.symm
      · intro x hx; rw [X'.theta]; have := R.pw x hx; rw [X.theta] at this; exact this
      · intro k hk; rw [X'.distances]; have := R.dist k hk; rw [X.distances] at this; exact this
      · intro k hk; rw [X'.jvec]; have := R.rowVec k hk; rw [X.jvec] at this; exact this
      · intro k hk; rw [X'.ivec]; have := R.colVec k hk; rw [X.ivec] at this; exact this
    rw [C04_closed_formula_represented hB' R' hin' hk, C04_closed_formula_represented hB R hin hk, Flow.scaled_weight _ hc hk]
  · have hin' : ¬ Interior P' i j := fun h => hin (interior_of_shape (by rw [h1]) (by rw [h1]) h)
    rw [(C03_usable_distribution _ _ hB).2 i j hi hj hin k hk,
      (C03_usable_distribution _ _ hB').2 i j (by rw [h1]; exact hi) (by rw [h1]; exact hj) hin' k hk]

/-- Adding a constant to stage and topography changes no weight. -/
theorem C08_datum_shift (c : K) {p : Params K} (hv : ValidParams p) {P : PObj K}
    (hP : initParticles Arith.exact F p = .ok P) :
    ∃ P', initParticles Arith.exact F (p.shiftDatum c) = .ok P' ∧
      ∀ i j, i < P.depth.rows → j < P.depth.cols → ∀ k, k < 9 →
        (P'.weight Arith.exact F i j k).nanTo0 = (P.weight Arith.exact F i j k).nanTo0 := by
  obtain ⟨u, v, X⟩ := init_parts _ _ hP
  have hct : initCellType (p.shiftDatum c) P.depth ((p.shiftDatum c).dryDepth.getD (Arith.exact.rnd (1 / 10))) = .ok P.cellType := by
    have := X.ct
    rw [X.dry] at this
    exact this
  obtain ⟨P', hP', h1, h2, h3, h4, h5⟩ := init_mk (F := F) (p := p.shiftDatum c) X.dx
    (by rw [initDepth_shift]; exact X.depth) (initStage_shift c X.stage) X.flow hct X.roiShape
  obtain ⟨u2, v2, X'⟩ := init_parts _ _ hP'
  have hB : Built Arith.exact F P := ⟨p, hv, hP⟩
  have hB' : Built Arith.exact F P' := ⟨_, valid_shift hv, hP'⟩
  refine ⟨P', hP', fun i j hi hj k hk => ?_⟩
  by_cases hin : Interior P i j
  · have hin' : Interior P' i j := interior_of_shape (by rw [h1]) (by rw [h1]) hin
    have R := represents_flowOf (F := F) hB.good
    have R' : Represents F P' ((flowOf F P).shifted c) := by
      constructor
      · rw [h1]; exact R.rows
      · rw [h1]; exact R.cols
      · intro a b ha hb; rw [h1]; exact R.depth a b ha hb
      · intro a b ha hb
        rw [h2]
        show Arith.exact.add (.fin c) (P.stage.at' a b) = _
        have := R.stage a b ha hb
        rw [this]
        simp only [Flow.shifted]
        cases (flowOf F P).stage a b <;> rfl
      · intro a b ha hb; rw [h3]; exact R.a a b ha hb
      · intro a b ha hb; rw [h4]; exact R.b a b ha hb
      · intro a b ha hb; rw [h5]; exact R.land a b ha hb
      · rw [X'.gamma]; exact X.gamma.symm
      · rw [X'.dry]; exact X.dry.symm
      · intro x hx; rw [X'.theta]; have := R.pw x hx; rw [X.theta] at this; exact this
      · intro k hk; rw [X'.distances]; have := R.dist k hk; rw [X.distances] at this; exact this
      · intro k hk; rw [X'.jvec]; have := R.rowVec k hk; rw [X.jvec] at this; exact this
      · intro k hk; rw [X'.ivec]; have := R.colVec k hk; rw [X.ivec] at this; exact this
    rw [C04_closed_formula_represented hB' R' hin' hk, C04_closed_formula_represented hB R hin hk, Flow.shifted_weight _ c hk]
  · have hin' : ¬ Interior P' i j := fun h => hin (interior_of_shape (by rw [h1]) (by rw [h1]) h)
    rw [(C03_usable_distribution _ _ hB).2 i j hi hj hin k hk,
      (C03_usable_distribution _ _ hB').2 i j (by rw [h1]; exact hi) (by rw [h1]; exact hj) hin' k hk]

example : ∃ P', initParticles Arith.exact Fun.toy (chan.scaleFlow 3) = .ok P' ∧ P'.qx.at' 2 2 = .fin 6 ∧
    P'.weight Arith.exact Fun.toy 2 2 7 = .fin (15 / 8) :=
  ⟨objOf (chan.scaleFlow 3), rfl, by decide +kernel, by decide +kernel⟩

example : ∃ P', initParticles Arith.exact Fun.toy (chan.shiftDatum 100) = .ok P' ∧ P'.stage.at' 2 2 = .fin 104 ∧
    P'.weight Arith.exact Fun.toy 2 2 7 = .fin (15 / 8) :=
  ⟨objOf (chan.shiftDatum 100), rfl, by decide +kernel, by decide +kernel⟩

/-! ## C09 -/

/-- Default tables as numbers. -/
theorem default_tables {p : Params K} {P : PObj K} (hT : DefaultTables p) (hP : initParticles Arith.exact F p = .ok P) :
    P.distances = defaultDistances Arith.exact F ∧ P.ivec = defaultIvec Arith.exact F ∧ P.jvec = defaultJvec Arith.exact F := by
  obtain ⟨u, v, X⟩ := init_parts _ _ hP
  rw [X.distances, X.ivec, X.jvec, hT.1, hT.2.1, hT.2.2]
  exact ⟨rfl, rfl, rfl⟩

/-- Mirroring the domain left-right mirrors the weights. -/
theorem C09_mirror_leftRight {p : Params K} (hv : ValidParams p) (hT : DefaultTables p) {P : PObj K}
    (hP : initParticles Arith.exact F p = .ok P) :
    ∃ P', initParticles Arith.exact F p.mirrorLR = .ok P' ∧ P'.depth.rows = P.depth.rows ∧ P'.depth.cols = P.depth.cols ∧
      ∀ i j, Interior P' i j → ∀ k, k < 9 →
        (P'.weight Arith.exact F i j k).nanTo0 =
          (P.weight Arith.exact F i (P.depth.cols - 1 - j) (mirrorK k)).nanTo0 := by
  obtain ⟨P', hP', h1, h2, h3, h4, h5, h6, h7, h8, h9, h10, h11⟩ := init_act (swap := false) (φ := phiLR)
    (fun L W i j hi hj => by
      simp only [cond] at hi hj
      rw [Bool.eq_iff_iff, interiorB_iff, interiorB_iff]; simp only [phiLR, cond]; omega) (actLR p) hP (fun u v h => flowLR h)
  have hB : Built Arith.exact F P := ⟨p, hv, hP⟩
  have hB' : Built Arith.exact F P' := ⟨_, validLR hv, hP'⟩
  have hr : P'.depth.rows = P.depth.rows := by rw [h1]; rfl
  have hc : P'.depth.cols = P.depth.cols := by rw [h1]; rfl
  refine ⟨P', hP', hr, hc, fun i j hin' k hk => ?_⟩
  have hint := hin'
  unfold Interior at hint
  rw [hr, hc] at hint
  obtain ⟨i1, i2, j1, j2⟩ := hint
  have hin : Interior P i (P.depth.cols - 1 - j) := by unfold Interior; omega
  have hG := hB.good
  have hm : mirrorK k < 9 := by unfold mirrorK; omega
  rw [C04_closed_formula hB' hin' hk, C04_closed_formula hB hin hm]
  congr 1
  obtain ⟨d1, d2, d3⟩ := default_tables hT hP
  obtain ⟨s1, s2, s3, s4⟩ := flow_shape hP
  refine FlowSym.weight (act_flowSym hG h1 h2 h5 h6 h7 h8 (π := mirrorK) ?_ ?_ ?_ ?_ ?_) hk
  · intro k hk; unfold mirrorK; omega
  · rfl
  · intro k hk
    simp only [phiLR, Flow.nr, Flow.nc, mirrorK, Prod.mk.injEq, cond]
    omega
  · intro k hk
    rw [h3, h4, h10, h11, d2, d3]
    simp only [negGrid, Grid.map, gact_at, phiLR, s2, s4, num_neg]
    interval_cases k <;> simp [defaultIvec, defaultJvec, mirrorK, Fl.num]
  · intro k hk
    rw [h9, d1]
    interval_cases k <;> rfl

/-- Mirroring the domain up-down mirrors the weights. -/
theorem C09_mirror_upDown {p : Params K} (hv : ValidParams p) (hT : DefaultTables p) {P : PObj K}
    (hP : initParticles Arith.exact F p = .ok P) :
    ∃ P', initParticles Arith.exact F p.mirrorUD = .ok P' ∧ P'.depth.rows = P.depth.rows ∧ P'.depth.cols = P.depth.cols ∧
      ∀ i j, Interior P' i j → ∀ k, k < 9 →
        (P'.weight Arith.exact F i j k).nanTo0 =
          (P.weight Arith.exact F (P.depth.rows - 1 - i) j (flipK k)).nanTo0 := by
  obtain ⟨P', hP', h1, h2, h3, h4, h5, h6, h7, h8, h9, h10, h11⟩ := init_act (swap := false) (φ := phiUD)
    (fun L W i j hi hj => by
      simp only [cond] at hi hj
      rw [Bool.eq_iff_iff, interiorB_iff, interiorB_iff]; simp only [phiUD, cond]; omega) (actUD p) hP (fun u v h => flowUD h)
  have hB : Built Arith.exact F P := ⟨p, hv, hP⟩
  have hB' : Built Arith.exact F P' := ⟨_, validUD hv, hP'⟩
  have hr : P'.depth.rows = P.depth.rows := by rw [h1]; rfl
  have hc : P'.depth.cols = P.depth.cols := by rw [h1]; rfl
  refine ⟨P', hP', hr, hc, fun i j hin' k hk => ?_⟩
  have hint := hin'
  unfold Interior at hint
  rw [hr, hc] at hint
  obtain ⟨i1, i2, j1, j2⟩ := hint
  have hin : Interior P (P.depth.rows - 1 - i) j := by unfold Interior; omega
  have hG := hB.good
  have hm : flipK k < 9 := by unfold flipK; omega
  rw [C04_closed_formula hB' hin' hk, C04_closed_formula hB hin hm]
  congr 1
  obtain ⟨d1, d2, d3⟩ := default_tables hT hP
  obtain ⟨s1, s2, s3, s4⟩ := flow_shape hP
  refine FlowSym.weight (act_flowSym hG h1 h2 h5 h6 h7 h8 (π := flipK) ?_ ?_ ?_ ?_ ?_) hk
  · intro k hk; unfold flipK; omega
  · rfl
  · intro k hk
    simp only [phiUD, Flow.nr, Flow.nc, flipK, Prod.mk.injEq, cond]
    omega
  · intro k hk
    rw [h3, h4, h10, h11, d2, d3]
    simp only [negGrid, Grid.map, gact_at, phiUD, s1, s3, num_neg]
    interval_cases k <;> simp [defaultIvec, defaultJvec, flipK, Fl.num]
  · intro k hk
    rw [h9, d1]
    interval_cases k <;> rfl

/-- Transposing the domain transposes the weights. -/
theorem C09_transposition {p : Params K} (hv : ValidParams p) (hT : DefaultTables p) {P : PObj K}
    (hP : initParticles Arith.exact F p = .ok P) :
    ∃ P', initParticles Arith.exact F p.transpose = .ok P' ∧ P'.depth.rows = P.depth.cols ∧ P'.depth.cols = P.depth.rows ∧
      ∀ i j, Interior P' i j → ∀ k, k < 9 →
        (P'.weight Arith.exact F i j k).nanTo0 = (P.weight Arith.exact F j i (transpK k)).nanTo0 := by
  obtain ⟨P', hP', h1, h2, h3, h4, h5, h6, h7, h8, h9, h10, h11⟩ := init_act (swap := true) (φ := phiT)
    (fun L W i j hi hj => by
      simp only [cond] at hi hj
      rw [Bool.eq_iff_iff, interiorB_iff, interiorB_iff]; simp only [phiT, cond]; omega) (actT p) hP (fun u v h => flowT h)
  have hB : Built Arith.exact F P := ⟨p, hv, hP⟩
  have hB' : Built Arith.exact F P' := ⟨_, validT hv, hP'⟩
  have hr : P'.depth.rows = P.depth.cols := by rw [h1]; rfl
  have hc : P'.depth.cols = P.depth.rows := by rw [h1]; rfl
  refine ⟨P', hP', hr, hc, fun i j hin' k hk => ?_⟩
  have hint := hin'
  unfold Interior at hint
  rw [hr, hc] at hint
  obtain ⟨i1, i2, j1, j2⟩ := hint
  have hin : Interior P j i := by unfold Interior; omega
  have hG := hB.good
  have hm : transpK k < 9 := by unfold transpK; omega
  rw [C04_closed_formula hB' hin' hk, C04_closed_formula hB hin hm]
  congr 1
  obtain ⟨d1, d2, d3⟩ := default_tables hT hP
  refine FlowSym.weight (act_flowSym hG h1 h2 h5 h6 h7 h8 (π := transpK) ?_ ?_ ?_ ?_ ?_) hk
  · intro k hk; unfold transpK; omega
  · rfl
  · intro k hk
    simp only [phiT, Flow.nr, Flow.nc, transpK, Prod.mk.injEq, cond]
    omega
  · intro k hk
    rw [h3, h4, h10, h11, d2, d3]
    simp only [gact_at, phiT]
    interval_cases k <;> simp [defaultIvec, defaultJvec, transpK, Fl.num] <;> ring
  · intro k hk
    rw [h9, d1]
    interval_cases k <;> rfl

/-- A channel flowing south-east in the non-DeltaRCM convention. -/
def chanXY : Params ℚ := { chan with
  deltaRCM := false
  qx := some ⟨5, 5, fun _ _ => .fin 1⟩
  qy := some ⟨5, 5, fun _ _ => .fin (-2)⟩ }

theorem chanXY_valid : ValidParams chanXY := { chan_valid with
  qx := by rintro g ⟨rfl⟩ i j _ _; exact Or.inr ⟨_, rfl⟩
  qy := by rintro g ⟨rfl⟩ i j _ _; exact Or.inr ⟨_, rfl⟩ }

example : ValidParams chan ∧ DefaultTables chan ∧ ValidParams chanXY ∧ DefaultTables chanXY ∧
    (objOf chanXY).weight Arith.exact Fun.toy 2 2 8 ≠ (objOf chanXY).weight Arith.exact Fun.toy 2 2 6 ∧
    (objOf chanXY.mirrorLR).weight Arith.exact Fun.toy 2 2 6 = (objOf chanXY).weight Arith.exact Fun.toy 2 2 8 ∧
    (objOf chanXY.transpose).weight Arith.exact Fun.toy 2 2 5 = (objOf chanXY).weight Arith.exact Fun.toy 2 2 7 :=
  ⟨chan_valid, ⟨rfl, rfl, rfl⟩, chanXY_valid, ⟨rfl, rfl, rfl⟩, by decide +kernel, by decide +kernel, by decide +kernel⟩

/-! ## C13 -/

/-- Row offset of neighbour `k`. -/
def dRow (k : Nat) : Int := (k / 3 : Nat) - 1
/-- Column offset of neighbour `k`. -/
def dCol (k : Nat) : Int := (k % 3 : Nat) - 1

/-- Component of the input vector `(x, y)` towards neighbour `k`: for DeltaRCM input `x` points down the rows and `y` along the
columns, otherwise `x` points along the columns and `y` up the rows. -/
def towards (deltaRCM : Bool) (x y : K) (k : Nat) : K :=
  if deltaRCM then x * dRow k + y * dCol k else x * dCol k - y * dRow k

theorem default_proj {P : PObj K} (d2 : P.ivec = defaultIvec Arith.exact F) (d3 : P.jvec = defaultJvec Arith.exact F)
    (a b : K) {k : Nat} (hk : k < 9) :
    ∃ s, 0 < s ∧ a * (P.jvec k).num + b * (P.ivec k).num = s * (a * dRow k + b * dCol k) := by
  have hs := F.sqrt_pos (1 / 2) (by positivity)
  rw [d2, d3]
  by_cases hcor : isCorner k = true
  · refine ⟨F.sqrt (1 / 2), hs, ?_⟩
    interval_cases k <;> simp [isCorner] at hcor <;> simp [defaultIvec, defaultJvec, Fl.num, dRow, dCol] <;> ring
  · refine ⟨1, one_pos, ?_⟩
    interval_cases k <;> simp [isCorner] at hcor <;> simp [defaultIvec, defaultJvec, Fl.num, dRow, dCol]

/-- Core of C13: the internal discharge is a positive multiple of the (rotated) input. -/
theorem orientation_core {p : Params K} (hv : ValidParams p) (hT : DefaultTables p) {P : PObj K}
    (hP : initParticles Arith.exact F p = .ok P) (hg : P.gamma = 0) {i j : Nat} (hin : Interior P i j) {x y c : K} (hc : 0 < c)
    (hqx : P.qx.at' i j = .fin (c * cond p.deltaRCM x (-y))) (hqy : P.qy.at' i j = .fin (c * cond p.deltaRCM y x))
    {k : Nat} (hk : k < 9)
    (hwet : (flowOf F P).Passable i j k) (hst : (P.stage.at' i j).isNan = false ∧
      (P.stage.at' (Flow.nr i k) (Flow.nc j k)).isNan = false)
    (hpow : ∀ d : K, 0 < d → ∃ y, F.pow (.fin d) P.theta = .fin y ∧ 0 < y)
    (hdead : ¬ (flowOf F P).DeadEnd i j) :
    (∃ w, P.weight Arith.exact F i j k = .fin w ∧ 0 < w) ↔ 0 < towards p.deltaRCM x y k := by
  have hB : Built Arith.exact F P := ⟨p, hv, hP⟩
  have G := hB.good
  have R := represents_flowOf (F := F) G
  have hw : (P.weight Arith.exact F i j k).nanTo0 = .fin ((flowOf F P).flow i j k) := by
    rw [C04_closed_formula hB hin hk]
    unfold Flow.weight
    rw [if_neg hdead]
  have h1 : (∃ w, P.weight Arith.exact F i j k = .fin w ∧ 0 < w) ↔ 0 < (flowOf F P).flow i j k := by
    constructor
    · rintro ⟨w, hw', h0⟩
      rw [hw'] at hw
      have : w = (flowOf F P).flow i j k := by simpa [Fl.nanTo0, Fl.isNan] using hw
      rwa [← this]
    · intro h0
      refine ⟨_, ?_, h0⟩
      rw [← hw]
      cases hh : P.weight Arith.exact F i j k <;> rw [hh] at hw <;> simp [Fl.nanTo0, Fl.isNan] at hw ⊢
      exact absurd hw h0.ne
  rw [h1]
  obtain ⟨d1, d2, d3⟩ := default_tables hT hP
  obtain ⟨s, hs, hproj⟩ := default_proj d2 d3 ((P.qx.at' i j).num) ((P.qy.at' i j).num) hk
  have hwin := win_lt hin hk
  have hstage : ((flowOf F P).stage i j).isSome ∧ ((flowOf F P).stage (Flow.nr i k) (Flow.nc j k)).isSome := by
    simp only [flowOf]
    constructor
    · rcases G.stage_fin i j (by have := hin.2.1; omega) (by have := hin.2.2.2; omega) with h | ⟨e, h⟩
      · rw [h] at hst; simp [Fl.isNan] at hst
      · rw [h]; rfl
    · rcases G.stage_fin (Flow.nr i k) (Flow.nc j k) hwin.1 hwin.2 with h | ⟨e, h⟩
      · rw [h] at hst; simp [Fl.isNan] at hst
      · rw [h]; rfl
  have hdepth : 0 < (flowOf F P).depth (Flow.nr i k) (Flow.nc j k) := lt_of_le_of_lt G.dry_nonneg hwet.1
  have hpw : 0 < (flowOf F P).pw ((flowOf F P).depth (Flow.nr i k) (Flow.nc j k)) := by
    obtain ⟨y, hy, hy0⟩ := hpow _ hdepth
    have := R.pw _ hdepth
    rw [hy] at this
    injection this with this
    rwa [← this]
  have hdist : 0 < (flowOf F P).dist k := by
    obtain ⟨d, hd, hd0⟩ := G.dist_pos k hk
    simp only [flowOf, hd, Fl.num]
    exact hd0
  have hflow : (flowOf F P).flow i j k =
      (flowOf F P).pw ((flowOf F P).depth (Flow.nr i k) (Flow.nc j k)) * Flow.share ((flowOf F P).inertia i j) k := by
    unfold Flow.flow
    rw [if_pos ⟨hwet, hstage.1, hstage.2⟩, show (flowOf F P).gamma = 0 from hg]
    ring
  have hshare : 0 < Flow.share ((flowOf F P).inertia i j) k ↔ 0 < (flowOf F P).inertia i j k := by
    unfold Flow.share
    have hsum : (flowOf F P).inertia i j k ≤ ∑ m ∈ Finset.range 9, (flowOf F P).inertia i j m :=
      Finset.single_le_sum (f := fun m => (flowOf F P).inertia i j m) (fun m _ => inertia_nonneg _ i j m) (Finset.mem_range.2 hk)
    constructor
    · intro h
      rcases (inertia_nonneg (flowOf F P) i j k).eq_or_lt with h0 | h0
      · rw [← h0, zero_div] at h; exact absurd h (lt_irrefl _)
      · exact h0
    · intro h; exact div_pos h (lt_of_lt_of_le h hsum)
  have hin' : 0 < (flowOf F P).inertia i j k ↔ 0 < towards p.deltaRCM x y k := by
    unfold Flow.inertia
    rw [if_pos hwet, lt_max_iff]
    simp only [lt_irrefl, false_or]
    have e : (flowOf F P).a i j * (flowOf F P).rowVec k + (flowOf F P).b i j * (flowOf F P).colVec k =
        (s * c) * towards p.deltaRCM x y k := by
      simp only [flowOf]
      rw [hproj, hqx, hqy]
      simp only [Fl.num, towards]
      cases p.deltaRCM <;> simp only [cond, Bool.false_eq_true, if_true, if_false] <;> ring
    rw [e]
    constructor
    · intro h
      by_contra hn
      exact absurd h (not_lt.2 (div_nonpos_of_nonpos_of_nonneg
        (mul_nonpos_of_nonneg_of_nonpos (mul_pos hs hc).le (not_lt.1 hn)) hdist.le))
    · intro h; exact div_pos (mul_pos (mul_pos hs hc) h) hdist
  rw [hflow, ← hin', ← hshare]
  exact mul_pos_iff_of_pos_left hpw

/-- Discharge in, weights out: with `gamma = 0`, away from dead ends, a wet non-land neighbour with known stages (and positive
depth weight) gets a positive weight iff the given discharge has a positive component towards it. -/
theorem C13_discharge_orientation {p : Params K} (hv : ValidParams p) (hT : DefaultTables p) {P : PObj K}
    (hP : initParticles Arith.exact F p = .ok P) (hg : P.gamma = 0) {gx gy : Grid (Fl K)} (hx : p.qx = some gx)
    (hy : p.qy = some gy) {i j : Nat} (hin : Interior P i j) {x y : K} (hxv : gx.at' i j = .fin x) (hyv : gy.at' i j = .fin y)
    {k : Nat} (hk : k < 9)
    (hwet : (flowOf F P).Passable i j k) (hst : (P.stage.at' i j).isNan = false ∧
      (P.stage.at' (Flow.nr i k) (Flow.nc j k)).isNan = false)
    (hpow : ∀ d : K, 0 < d → ∃ y, F.pow (.fin d) P.theta = .fin y ∧ 0 < y)
    (hdead : ¬ (flowOf F P).DeadEnd i j) :
    (∃ w, P.weight Arith.exact F i j k = .fin w ∧ 0 < w) ↔ 0 < towards p.deltaRCM x y k := by
  obtain ⟨u, v, X⟩ := init_parts _ _ hP
  obtain ⟨isQ, ex, ey, hi, -, -, h1, h2, -, -⟩ := initFlow_parts X.flow
  have hq : isQ = true ∧ ex = gx ∧ ey = gy := by
    rcases hi with ⟨h0, h1, h2⟩ | ⟨-, h1, -⟩
    · rw [hx] at h1; rw [hy] at h2; injection h1 with h1; injection h2 with h2; exact ⟨h0, h1.symm, h2.symm⟩
    · rw [hx, hy] at h1; simp at h1
  obtain ⟨rfl, rfl, rfl⟩ := hq
  refine orientation_core hv hT hP hg hin one_pos ?_ ?_ hk hwet hst hpow hdead
  · rw [h1]
    cases p.deltaRCM <;> simp [qComp, nanZeroGrid, negGrid, Grid.map, hxv, hyv, Fl.neg, Fl.nanTo0, Fl.isNan]
  · rw [h2]
    cases p.deltaRCM <;> simp [qComp, nanZeroGrid, negGrid, Grid.map, hxv, hyv, Fl.neg, Fl.nanTo0, Fl.isNan]

/-- The same for velocity input at a cell of positive depth. -/
theorem C13_velocity_input_orientation {p : Params K} (hv : ValidParams p) (hT : DefaultTables p) {P : PObj K}
    (hP : initParticles Arith.exact F p = .ok P) (hg : P.gamma = 0) {gx gy : Grid (Fl K)} (hnq : p.qx = none ∨ p.qy = none)
    (hx : p.u = some gx) (hy : p.v = some gy) {i j : Nat} (hin : Interior P i j) {x y d : K} (hxv : gx.at' i j = .fin x)
    (hyv : gy.at' i j = .fin y) (hd : P.depth.at' i j = .fin d) (hd0 : 0 < d) {k : Nat} (hk : k < 9)
    (hwet : (flowOf F P).Passable i j k) (hst : (P.stage.at' i j).isNan = false ∧
      (P.stage.at' (Flow.nr i k) (Flow.nc j k)).isNan = false)
    (hpow : ∀ d : K, 0 < d → ∃ y, F.pow (.fin d) P.theta = .fin y ∧ 0 < y)
    (hdead : ¬ (flowOf F P).DeadEnd i j) :
    (∃ w, P.weight Arith.exact F i j k = .fin w ∧ 0 < w) ↔ 0 < towards p.deltaRCM x y k := by
  obtain ⟨u, v, X⟩ := init_parts _ _ hP
  obtain ⟨isQ, ex, ey, hi, -, -, h1, h2, -, -⟩ := initFlow_parts X.flow
  have hq : isQ = false ∧ ex = gx ∧ ey = gy := by
    rcases hi with ⟨-, h1, h2⟩ | ⟨h0, -, h1, h2⟩
    · rw [h1, h2] at hnq; simp at hnq
    · rw [hx] at h1; rw [hy] at h2; injection h1 with h1; injection h2 with h2; exact ⟨h0, h1.symm, h2.symm⟩
  obtain ⟨rfl, rfl, rfl⟩ := hq
  refine orientation_core hv hT hP hg hin hd0 ?_ ?_ hk hwet hst hpow hdead
  · rw [h1]
    cases p.deltaRCM <;>
      simp [qComp, Grid.zip, nanZeroGrid, negGrid, Grid.map, hxv, hyv, hd, Fl.neg, Fl.nanTo0, Fl.isNan, Arith.mul, Arith.exact,
        mul_comm]
  · rw [h2]
    cases p.deltaRCM <;>
      simp [qComp, Grid.zip, nanZeroGrid, negGrid, Grid.map, hxv, hyv, hd, Fl.neg, Fl.nanTo0, Fl.isNan, Arith.mul, Arith.exact,
        mul_comm]

/-- At every cell of positive depth, `u` has the sign of `qx` and `v` that of `qy`, unless the value is the lower clamp `1e-8`
(which replaces velocities of magnitude below `1e-8`, whatever their sign). -/
theorem C13_velocity_direction {p : Params K} (hv : ValidParams p) {P : PObj K} (hP : initParticles Arith.exact F p = .ok P)
    {i j : Nat} (hi : i < P.depth.rows) (hj : j < P.depth.cols) {d : K} (hd : P.depth.at' i j = .fin d) (hd0 : 0 < d) :
    (P.u.at' i j = .fin (1 / 100000000) ∨ ∃ x a, P.u.at' i j = .fin x ∧ P.qx.at' i j = .fin a ∧ (0 < x ↔ 0 < a) ∧ (x < 0 ↔ a < 0)) ∧
    (P.v.at' i j = .fin (1 / 100000000) ∨ ∃ x a, P.v.at' i j = .fin x ∧ P.qy.at' i j = .fin a ∧ (0 < x ↔ 0 < a) ∧ (x < 0 ↔ a < 0)) := by
  have hB : Built Arith.exact F P := ⟨p, hv, hP⟩
  have G := hB.good
  obtain ⟨u, v, X⟩ := init_parts _ _ hP
  obtain ⟨isQ, ex, ey, hinp, hsx, hsy, h1, h2, h3, h4⟩ := initFlow_parts X.flow
  have key : ∀ (e q w : Grid (Fl K)) (a : K), q = qComp Arith.exact isQ e P.depth → q.at' i j = .fin a →
      w = cond isQ (velFromQ Arith.exact q P.depth) (nanZeroGrid e) →
      (e.at' i j = .nan ∨ ∃ z, e.at' i j = .fin z) →
      ((clampSmall Arith.exact w).at' i j = .fin (eps8 Arith.exact) ∨ ∃ x a, (clampSmall Arith.exact w).at' i j = .fin x ∧ q.at' i j = .fin a ∧
        (0 < x ↔ 0 < a) ∧ (x < 0 ↔ a < 0)) := by
    intro e q w a hq ha hw he
    have heps : (0 : K) < eps8 Arith.exact := eps8_pos _
    have hwv : ∃ r, w.at' i j = .fin r ∧ (0 < r ↔ 0 < a) ∧ (r < 0 ↔ a < 0) := by
      cases isQ with
      | true =>
        have hden : 0 < d * d + eps8 Arith.exact := by positivity
        refine ⟨a * d / (d * d + eps8 Arith.exact), ?_, ?_, ?_⟩
        · rw [hw]
          generalize hx : eps8 (Arith.exact : Arith K) = x at hden
          simp [velFromQ, nanZeroGrid, Grid.map, Grid.zip, ha, hd, hx, Arith.mul, Arith.add, Arith.div]
          simp [Arith.exact, hden.ne', Fl.nanTo0, Fl.isNan]
        · rw [div_pos_iff_of_pos_right hden, mul_pos_iff_of_pos_right hd0]
        · rw [div_neg_iff]
          constructor
          · rintro (⟨-, h⟩ | ⟨h, -⟩)
            · exact absurd h (not_lt.2 hden.le)
            · by_contra hn; exact absurd h (not_lt.2 (mul_nonneg (not_lt.1 hn) hd0.le))
          · intro h; exact Or.inr ⟨mul_neg_of_neg_of_pos h hd0, hden⟩
      | false =>
        have : ∃ r, (nanZeroGrid e).at' i j = .fin r := by
          rcases he with h | ⟨z, h⟩
          · exact ⟨0, by simp [nanZeroGrid, Grid.map, h, Fl.nanTo0, Fl.isNan]⟩
          · exact ⟨z, by simp [nanZeroGrid, Grid.map, h, Fl.nanTo0, Fl.isNan]⟩
        obtain ⟨r, hr⟩ := this
        have hra : a = r * d := by
          rw [hq] at ha
          simp only [qComp, cond, Grid.zip, hr, hd, Arith.mul, Arith.exact, id] at ha
          injection ha with ha
          exact ha.symm
        refine ⟨r, by rw [hw]; exact hr, ?_, ?_⟩
        · rw [hra, mul_pos_iff_of_pos_right hd0]
        · rw [hra]
          constructor
          · intro h; exact mul_neg_of_neg_of_pos h hd0
          · intro h; by_contra hn; exact absurd h (not_lt.2 (mul_nonneg (not_lt.1 hn) hd0.le))
    obtain ⟨r, hr, hr1, hr2⟩ := hwv
    simp only [clampSmall, Grid.map, hr]
    by_cases hl : Fl.lt (Fl.abs (.fin r)) (.fin (eps8 Arith.exact)) = true
    · left; rw [if_pos hl]
    · right; rw [if_neg hl]; exact ⟨r, a, rfl, ha, hr1, hr2⟩
  obtain ⟨a, ha⟩ := G.qx_fin i j hi hj
  obtain ⟨b, hb⟩ := G.qy_fin i j hi hj
  have hfin : ∀ g : Grid (Fl K), g.FinOrNan → needShape g P.depth = .ok () → g.at' i j = .nan ∨ ∃ z, g.at' i j = .fin z := by
    intro g hg hs
    obtain ⟨hr, hc⟩ := needShape_ok.1 hs
    exact hg i j (by omega) (by omega)
  have hexy : ex.FinOrNan ∧ ey.FinOrNan := by
    rcases hinp with ⟨-, a, b⟩ | ⟨-, -, a, b⟩
    · exact ⟨hv.qx _ a, hv.qy _ b⟩
    · exact ⟨hv.u _ a, hv.v _ b⟩
  have hx' := hfin ex hexy.1 hsx
  have hy' := hfin ey hexy.2 hsy
  rw [X.uEq, X.vEq]
  refine ⟨key _ _ _ a h1 ha h3 ?_, key _ _ _ b h2 hb h4 ?_⟩
  · cases p.deltaRCM
    · rcases hy' with h | ⟨z, h⟩ <;> simp [negGrid, Grid.map, h, Fl.neg]
    · exact hx'
  · cases p.deltaRCM
    · exact hx'
    · exact hy'

/-! ### Concrete cases for C13 -/

/-- Not DeltaRCM: discharge to the east and a little north, so row index decreases. -/
def chanE : Params ℚ := { chan with
  deltaRCM := false
  gamma := some 0
  qx := some ⟨5, 5, fun _ _ => .fin 2⟩
  qy := some ⟨5, 5, fun _ _ => .fin 1⟩ }
theorem chanE_valid : ValidParams chanE := { chan_valid with
  gamma := by rintro x ⟨rfl⟩; norm_num
  qx := by rintro g ⟨rfl⟩ i j _ _; exact Or.inr ⟨_, rfl⟩
  qy := by rintro g ⟨rfl⟩ i j _ _; exact Or.inr ⟨_, rfl⟩ }

/-- The same with velocities. -/
def chanEu : Params ℚ := { chan with
  deltaRCM := false
  gamma := some 0
  qx := none
  qy := none
  u := some ⟨5, 5, fun _ _ => .fin 2⟩
  v := some ⟨5, 5, fun _ _ => .fin 1⟩ }
theorem chanEu_valid : ValidParams chanEu := { chan_valid with
  gamma := by rintro x ⟨rfl⟩; norm_num
  qx := by rintro g ⟨⟩
  qy := by rintro g ⟨⟩
  u := by rintro g ⟨rfl⟩ i j _ _; exact Or.inr ⟨_, rfl⟩
  v := by rintro g ⟨rfl⟩ i j _ _; exact Or.inr ⟨_, rfl⟩ }

/-- Hypotheses of the orientation theorems hold at (2,2); the north-east neighbour (2) gets a weight, the south (7) none. -/
example : DefaultTables chanE ∧ initParticles Arith.exact Fun.toy chanE = .ok (objOf chanE) ∧ (objOf chanE).gamma = 0 ∧
    Interior (objOf chanE) 2 2 ∧ ¬ NoFlowWeight Arith.exact Fun.toy (objOf chanE) 2 2 ∧
    (flowOf Fun.toy (objOf chanE)).Passable 2 2 7 ∧
    (∀ d : ℚ, 0 < d → ∃ y, Fun.toy.pow (.fin d) (objOf chanE).theta = .fin y ∧ 0 < y) ∧
    0 < towards false (2 : ℚ) 1 2 ∧ ¬ 0 < towards false (2 : ℚ) 1 7 ∧
    (objOf chanE).weight Arith.exact Fun.toy 2 2 7 = .fin 0 ∧
    Fl.lt (.fin 0) ((objOf chanE).weight Arith.exact Fun.toy 2 2 2) = true :=
  ⟨⟨rfl, rfl, rfl⟩, rfl, rfl, by decide +kernel, fun h => absurd (h 2 (by omega)) (by decide +kernel),
    ⟨by decide +kernel, by change ¬ ((objOf chanE).cellType.at' 3 2 = 2); decide +kernel⟩, fun d hd => ⟨d, rfl, hd⟩, by decide +kernel, by decide +kernel,
    by decide +kernel, by decide +kernel⟩

example : initParticles Arith.exact Fun.toy chanEu = .ok (objOf chanEu) ∧ (objOf chanEu).depth.at' 2 2 = .fin 3 ∧
    (objOf chanEu).weight Arith.exact Fun.toy 2 2 7 = .fin 0 ∧
    Fl.lt (.fin 0) ((objOf chanEu).weight Arith.exact Fun.toy 2 2 2) = true ∧
    ((objOf chanEu).u.at' 2 2, (objOf chanEu).qx.at' 2 2) = (.fin (-1), .fin (-3)) :=
  ⟨rfl, by decide +kernel, by decide +kernel, by decide +kernel, by decide +kernel⟩

end Dorado
