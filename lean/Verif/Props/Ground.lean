import Verif.Lemmas.Ground
import Verif.Props.Elsewhere

/-! # C125: the dry depth and the cell types count only through the impassable cells and the edges -/

set_option linter.unusedSectionVars false

namespace Dorado

section ground

variable {K : Type} [Field K] [LinearOrder K] [IsStrictOrderedRing K] [FloorRing K] {A : Arith K} {F : Fun K A} {p : Params K} {P P' : PObj K} {dd : Option K}
  {ct : Option (Grid Int)}

/-- Any rounding: the same weights are computed from the same inputs with another dry depth and other cell types, if the impassable cells and the edges are the same. -/
theorem C125_weights (hP : initParticles A F p = .ok P) (hB : Built A F P) (hP' : initParticles A F { p with dryDepth := dd, cellType := ct } = .ok P')
    (hB' : Built A F P') (S : SameGround P P') {i j k : Nat} (hk : k < 9) : P'.weight A F i j k = P.weight A F i j k :=
  makeWeight_ground hB.good hB'.good (init_ground hP hP') S hk

/-- Any rounding: from the start nothing that is seen of any sequence of calls (positions, times, tracked variables, warnings, exceptions, consumption of random numbers;
with and without target times) changes with the dry depth and the cell types, if the impassable cells and the edges are the same. -/
theorem C125_walks (hv : ValidParams p) (hdd : ∀ x, dd = some x → 0 ≤ x) (hP : initParticles A F p = .ok P)
    (hP' : initParticles A F { p with dryDepth := dd, cellType := ct } = .ok P') (S : SameGround P P') (ω : Nat → K) (pos : Nat) (cs : List (ApiCall K)) :
    transcript A F P' ω cs (initState A F P' pos) = transcript A F P ω cs (initState A F P pos) := by
  have hB : Built A F P := ⟨p, hv, hP⟩
  have hv' : ValidParams { p with dryDepth := dd, cellType := ct } := { hv with dryDepth := hdd }
  have hB' : Built A F P' := ⟨_, hv', hP'⟩
  have H : Twin A F Eq P P' := twin_ground hB.good hB'.good (init_ground hP hP') S
  exact (seenRel_eq ((H.routes (T := Eq) ω fun _ _ _ _ h1 h2 => by rw [h1, h2]).alike.transcript (forall₂_refl (callRel_refl _ ω) cs)
    (Twin.init _ _ _ P P' pos))).symm

/-- Estimated cell types: raising or lowering the dry depth makes no difference if no cell is as deep as the larger one or shallower and deeper than the smaller one. -/
theorem C125_threshold {x : K} (hc : p.cellType = none) (hP : initParticles A F p = .ok P) (hB : Built A F P)
    (hP' : initParticles A F { p with dryDepth := some x, cellType := none } = .ok P')
    (hgap : ∀ i j d, i < P.depth.rows → j < P.depth.cols → P.depth.at' i j = .fin d → (d ≤ x ↔ d ≤ P.dryDepth)) : SameGround P P' := by
  obtain ⟨-, ⟨g, e, -⟩ | ⟨-, e⟩⟩ := init_ct hP
  · rw [hc] at e; cases e
  obtain ⟨e1, ⟨g, e2, -⟩ | ⟨-, e2⟩⟩ := init_ct hP'
  · cases e2
  have hd : P'.depth = P.depth := by rw [init_ground hP hP']
  have e1 : P'.dryDepth = x := e1
  have key : ∀ Q : PObj K, Q.depth = P.depth → Q.cellType = defaultCellType Q.depth Q.dryDepth → ∀ i j d, P.depth.at' i j = .fin d → (Impassable Q i j ↔ d ≤ Q.dryDepth) := by
    intro Q hQ hQc i j d hij
    unfold Impassable
    rw [hQc, hQ, hij]
    constructor
    · rintro (⟨d', h1, h2⟩ | h)
      · cases h1; exact h2
      · unfold defaultCellType at h
        simp only [hij] at h
        split_ifs at h with h1 h2
        · simp only [Fl.lt, decide_eq_true_eq] at h2
          exact h2.le
        · cases h
    · exact fun h => Or.inl ⟨d, rfl, h⟩
  have edge : ∀ (D : Grid (Fl K)) (y : K) i j, (defaultCellType D y).at' i j = -1 ↔ ¬ interiorB D.rows D.cols i j := by
    intro D y i j
    unfold defaultCellType
    simp only
    split_ifs with h1 h2 <;> simp [h1]
  refine ⟨fun i j hi hj => ?_, fun i j hi hj => ?_⟩
  · obtain ⟨d, hij⟩ := hB.good.depth_fin i j hi hj
    rw [key P' hd e2 i j d hij, key P rfl e i j d hij, e1]
    exact hgap i j d hi hj hij
  · rw [e2, e, edge, edge, hd]

/-- Given cell types: only where they are -1 and where they are 2 makes a difference. -/
theorem C125_codes {g g' : Grid Int} (hc : p.cellType = some g) (hP : initParticles A F p = .ok P)
    (hP' : initParticles A F { p with dryDepth := p.dryDepth, cellType := some g' } = .ok P')
    (h1 : ∀ i j, i < P.depth.rows → j < P.depth.cols → (g'.at' i j = -1 ↔ g.at' i j = -1))
    (h2 : ∀ i j, i < P.depth.rows → j < P.depth.cols → (g'.at' i j = 2 ↔ g.at' i j = 2)) : SameGround P P' := by
  obtain ⟨d1, ⟨c, e, e'⟩ | ⟨e, -⟩⟩ := init_ct hP <;> rw [hc] at e <;> cases e
  obtain ⟨d2, ⟨c, e2, e2'⟩ | ⟨e2, -⟩⟩ := init_ct hP' <;> cases e2
  have hd : P'.depth = P.depth := by rw [init_ground hP hP']
  have hdry : P'.dryDepth = P.dryDepth := d2.trans d1.symm
  refine ⟨fun i j hi hj => ?_, fun i j hi hj => ?_⟩
  · unfold Impassable
    rw [hd, hdry, e', e2', h2 i j hi hj]
  · rw [e', e2', h1 i j hi hj]

/-- Leaving out the cell types is the same as giving an array that is -1 on the outer ring and neither -1 nor 2 elsewhere: that cells up to the dry depth are called
land adds nothing. -/
theorem C125_estimated {g : Grid Int} (hc : p.cellType = none) (hP : initParticles A F p = .ok P)
    (hP' : initParticles A F { p with dryDepth := p.dryDepth, cellType := some g } = .ok P') (hB : Built A F P)
    (hring : ∀ i j, i < P.depth.rows → j < P.depth.cols → i = 0 ∨ j = 0 ∨ i + 1 = P.depth.rows ∨ j + 1 = P.depth.cols → g.at' i j = -1)
    (hin : ∀ i j, Interior P i j → g.at' i j ≠ -1 ∧ g.at' i j ≠ 2) : SameGround P P' := by
  obtain ⟨d1, ⟨c, e, -⟩ | ⟨-, e⟩⟩ := init_ct hP
  · rw [hc] at e; cases e
  obtain ⟨d2, ⟨c, e2, e2'⟩ | ⟨e2, -⟩⟩ := init_ct hP' <;> cases e2
  have hd : P'.depth = P.depth := by rw [init_ground hP hP']
  have hdry : P'.dryDepth = P.dryDepth := d2.trans d1.symm
  refine ⟨fun i j hi hj => ?_, fun i j hi hj => ?_⟩
  · obtain ⟨d, hij⟩ := hB.good.depth_fin i j hi hj
    unfold Impassable
    rw [hd, hdry, e2', e, hij]
    unfold defaultCellType
    simp only [interiorB, decide_eq_true_eq, hij]
    by_cases hI : Interior P i j
    · rw [if_pos (show 1 ≤ i ∧ i + 1 < P.depth.rows ∧ 1 ≤ j ∧ j + 1 < P.depth.cols from hI)]
      have := (hin i j hI).2
      constructor
      · rintro (h | h)
        · exact Or.inl h
        · exact absurd h this
      · rintro (h | h)
        · exact Or.inl h
        · split_ifs at h with h3
          · simp only [Fl.lt, decide_eq_true_eq] at h3
            exact Or.inl ⟨d, rfl, h3.le⟩
          · cases h
    · rw [if_neg (show ¬ (1 ≤ i ∧ i + 1 < P.depth.rows ∧ 1 ≤ j ∧ j + 1 < P.depth.cols) from hI), hring i j hi hj (by unfold Interior at hI; omega)]
  · rw [e2', e]
    unfold defaultCellType
    simp only [interiorB, decide_eq_true_eq]
    by_cases hI : Interior P i j
    · rw [if_pos (show 1 ≤ i ∧ i + 1 < P.depth.rows ∧ 1 ≤ j ∧ j + 1 < P.depth.cols from hI)]
      have := (hin i j hI).1
      split_ifs <;> simp [this]
    · rw [if_neg (show ¬ (1 ≤ i ∧ i + 1 < P.depth.rows ∧ 1 ≤ j ∧ j + 1 < P.depth.cols) from hI), hring i j hi hj (by unfold Interior at hI; omega)]

end ground

noncomputable section

variable {A : Arith ℝ} {F : Fun ℝ A} {p : Params ℝ} {P P' : PObj ℝ} {R C : Nat} {s s' : PState ℝ} {dd : Option ℝ} {ct : Option (Grid Int)}

/-- Any non-negative dry depth and any cell types of the right shape are accepted in place of the given ones; the outer ring is still edge if the edges are the same. -/
theorem C125_accepted (hv : ValidParams p) (hP : initParticles A F p = .ok P) (hE : Enclosed A F R C P) (hR : 2 ≤ R) (hC : 2 ≤ C)
    (hdd : ∀ x, dd = some x → 0 ≤ x) (hct : ∀ g, ct = some g → g.rows = R ∧ g.cols = C) :
    ∃ P', initParticles A F { p with dryDepth := dd, cellType := ct } = .ok P' ∧ (SameGround P P' → Enclosed A F R C P') := by
  have hv' : ValidParams { p with dryDepth := dd, cellType := ct } := { hv with dryDepth := hdd }
  have acc : ∃ P', initParticles A F { p with dryDepth := dd, cellType := ct } = .ok P' := by
    have h := hP
    unfold initParticles at h ⊢
    simp only [bind_ok, pure_ok, Prod.exists] at h ⊢
    obtain ⟨dx, h1, d, h2, st, h3, qx, qy, u, v, h4, r, h5, c, h6, rfl⟩ := h
    have hr : d.rows = R := hE.rows
    have hc : d.cols = C := hE.cols
    cases ct with
    | none =>
      exact ⟨_, dx, h1, d, h2, st, h3, qx, qy, u, v, h4, r, h5, _, initCellType_ok.2 (Or.inr ⟨rfl, by omega, by omega, rfl⟩), rfl⟩
    | some g =>
      obtain ⟨e1, e2⟩ := hct g rfl
      exact ⟨_, dx, h1, d, h2, st, h3, qx, qy, u, v, h4, r, h5, g, initCellType_ok.2 (Or.inl ⟨rfl, by omega, by omega, by omega, by omega⟩), rfl⟩
  obtain ⟨P', hP'⟩ := acc
  refine ⟨P', hP', fun S => ?_⟩
  have e := init_ground hP hP'
  have hb : Built A F P' := ⟨_, hv', hP'⟩
  have hd : P'.depth = P.depth := by rw [e]
  have G := hE.built.good
  have G' := hb.good
  refine ⟨hb, by rw [hd, hE.rows], by rw [hd, hE.cols], ?_, ⟨by rw [e]; exact hE.walk.1, by rw [e]; exact hE.walk.2⟩, ?_, ?_⟩
  · intro i j hi hj hij
    rw [G'.ct_rows, hd] at hi hij
    rw [G'.ct_cols, hd] at hj hij
    exact (S.edge i j hi hj).2 (hE.ring i j (by rw [G.ct_rows]; exact hi) (by rw [G.ct_cols]; exact hj) (by rw [G.ct_rows, G.ct_cols]; exact hij))
  · intro k hk
    have := hE.steps k hk
    rw [e]
    exact this
  · have := hE.angles
    unfold AnglesOk at this ⊢
    rw [e]
    exact this

/-- Any rounding, any two histories that have led to the same records, any draws, any sequence of calls: the same inputs with another dry depth and other cell types give the
same positions and times, if the impassable cells and the edges are the same. -/
theorem C125_same (hP : initParticles A F p = .ok P) (hP' : initParticles A F { p with dryDepth := dd, cellType := ct } = .ok P') (S : SameGround P P')
    (h : Reach A F (Enclosed A F R C) Draws (InsideSeeds R C) P s) {wd : WalkData ℝ} (hwd : s.walk = some wd)
    (h' : Reach A F (Enclosed A F R C) Draws (InsideSeeds R C) P' s') {wd' : WalkData ℝ} (hwd' : s'.walk = some wd')
    (hx : wd'.xinds = wd.xinds) (hy : wd'.yinds = wd.yinds) (ht : wd'.times = wd.times) (hpos : s'.world.pos = s.world.pos)
    {ω : Nat → ℝ} (hω : Draws ω) (calls : List (Option (Fl ℝ) × Int)) {i : Nat} (hi : i < wd.xinds.length) :
    historyIn i (runCalls A F P' ω calls s') = historyIn i (runCalls A F P ω calls s) := by
  have M := moves_ground h.obj h'.obj.built (init_ground hP hP') S
  have M' : MovesSame A F (fun q => Inside R C q ∧ Surrounded (fun _ _ => True) q) P P' :=
    ⟨fun q hq => M.pick q hq.1, fun q hq => M.dest q hq.1, fun q hq => M.dur q hq.1, fun q hq => M.edge q hq.1, M.diff⟩
  exact M'.records h hwd h' hwd' hx hy ht hpos hω calls (fun j hj n m hm x y ex ey a b _ _ => trivial) hi

/-! ## Concrete cases -/

/-- The wide channel with a shoal: columns seven and up are five centimetres deep. -/
def shoalChan : Params ℝ where
  dx := some 10
  depth := some (wideField fun _ j => if 7 ≤ j then 1 / 20 else 1)
  stage := some (wideField fun i _ => 2 - i / 100)
  deltaRCM := true
  qx := some (wideField fun _ j => 1 + j / 10)
  qy := some (wideField fun _ _ => 0)

theorem shoalChan_valid : ValidParams shoalChan := { wideChan_valid with depth := fun g hg => by cases hg; exact wideField_ok _ }

/-- The object for the channel with the shoal. -/
def shoalObj : PObj ℝ := (initParticles Arith.exact Fun.real shoalChan).toOption.get rfl

theorem shoalObj_init : initParticles Arith.exact Fun.real shoalChan = .ok shoalObj := rfl

theorem shoalObj_enclosed : Enclosed Arith.exact Fun.real 11 11 shoalObj := by
  obtain ⟨h1, h2, h3⟩ := C17_default_ring (p := shoalChan) rfl rfl rfl rfl shoalObj_init
  have hb : Built Arith.exact Fun.real shoalObj := ⟨shoalChan, shoalChan_valid, shoalObj_init⟩
  refine ⟨hb, rfl, rfl, h1, h2, ?_, h3⟩
  intro k hk h0
  obtain ⟨d, hd, hd0⟩ := hb.good.dist_pos k hk
  rw [hd] at h0
  injection h0 with h0
  exact (mul_pos hd0 (show (0 : ℝ) < shoalObj.dx by change (0 : ℝ) < 10; norm_num)).ne' h0

/-- The depths of the channel with the shoal. -/
theorem shoalObj_depth (i j : Nat) : shoalObj.depth.at' i j = .fin (if 7 ≤ j then 1 / 20 else 1) := rfl

/-- The edges are -1, the other cells of the deep part 1, those of the shoal 0. -/
def shoalTypes : Grid Int := ⟨11, 11, fun i j => if i = 0 ∨ j = 0 ∨ i = 10 ∨ j = 10 then -1 else if 7 ≤ j then 0 else 1⟩

/-- C125: a dry depth of half a metre in place of ten centimetres, or cell types by hand in place of estimated ones: a particle in the channel takes the same way with the same
draws. -/
example : ∃ (P1 P2 : PObj ℝ) (s s1 s2 : PState ℝ) (wd : WalkData ℝ),
    initParticles Arith.exact Fun.real { shoalChan with dryDepth := some (1 / 2), cellType := none } = .ok P1 ∧
    initParticles Arith.exact Fun.real { shoalChan with dryDepth := none, cellType := some shoalTypes } = .ok P2 ∧
    s.walk = some wd ∧ wd.xinds = [[4]] ∧ P1.dryDepth ≠ shoalObj.dryDepth ∧ P2.cellType.at' 5 7 ≠ shoalObj.cellType.at' 5 7 ∧ Impassable shoalObj 5 7 ∧
    ∀ ω, Draws ω → ∀ calls, historyIn 0 (runCalls Arith.exact Fun.real P1 ω calls s1) = historyIn 0 (runCalls Arith.exact Fun.real shoalObj ω calls s) ∧
      historyIn 0 (runCalls Arith.exact Fun.real P2 ω calls s2) = historyIn 0 (runCalls Arith.exact Fun.real shoalObj ω calls s) := by
  have hB : Built Arith.exact Fun.real shoalObj := shoalObj_enclosed.built
  have hdry : shoalObj.dryDepth = 1 / 10 := rfl
  obtain ⟨P1, h1, E1⟩ := C125_accepted (dd := some (1 / 2)) (ct := none) shoalChan_valid shoalObj_init shoalObj_enclosed (by norm_num) (by norm_num)
    (by rintro x ⟨⟩; norm_num) (by rintro g ⟨⟩)
  obtain ⟨P2, h2, E2⟩ := C125_accepted (dd := none) (ct := some shoalTypes) shoalChan_valid shoalObj_init shoalObj_enclosed (by norm_num) (by norm_num)
    (by rintro x ⟨⟩) (by rintro g ⟨⟩; exact ⟨rfl, rfl⟩)
  have S1 : SameGround shoalObj P1 := C125_threshold rfl shoalObj_init hB h1 fun i j d _ _ hd => by
    rw [shoalObj_depth] at hd
    cases hd
    rw [hdry]
    split_ifs <;> norm_num
  have S2 : SameGround shoalObj P2 := C125_estimated (g := shoalTypes) rfl shoalObj_init h2 hB
    (fun i j _ _ hij => if_pos (by rw [show shoalObj.depth.rows = 11 from rfl, show shoalObj.depth.cols = 11 from rfl] at hij; omega))
    (fun i j hI => by
      have hI : 1 ≤ i ∧ i + 1 < 11 ∧ 1 ≤ j ∧ j + 1 < 11 := hI
      unfold shoalTypes
      simp only
      rw [if_neg (by omega)]
      split_ifs <;> norm_num)
  have hc : genInputCheck (K := ℝ) (.int 1) (.list [.int 4]) (.list [.int 5]) (.int 0) (.str "exact") = .ok (1, [4], [5], .fin ((0 : Int) : ℝ), .exact) := rfl
  have hseed : ∀ x ∈ ([4] : List Int), ∀ y ∈ ([5] : List Int), Inside 11 11 (x, y) := by
    intro x hx y hy
    simp at hx hy
    subst hx hy
    unfold Inside
    decide
  have gen : ∀ Q, Q = { shoalObj with dryDepth := Q.dryDepth, cellType := Q.cellType } → Enclosed Arith.exact Fun.real 11 11 Q → ∃ s0, Reach Arith.exact Fun.real (Enclosed Arith.exact Fun.real 11 11) Draws (InsideSeeds 11 11) Q s0 ∧
      ∃ wd, s0.walk = some wd ∧ wd.xinds = [[4]] ∧ wd.yinds = [[5]] ∧ wd.times = [[.fin ((0 : Int) : ℝ)]] ∧ s0.world.pos = 0 := by
    intro Q e hQ
    obtain ⟨s0, h0, hr⟩ : ∃ s0, generateParticles Arith.exact Q (fun _ => 1 / 2) (initState Arith.exact Fun.real Q 0) (.int 1) (.list [.int 4]) (.list [.int 5]) (.int 0)
        (.str "exact") none = .ok s0 ∧ ∃ wd, s0.walk = some wd ∧ wd.xinds = [[4]] ∧ wd.yinds = [[5]] ∧ wd.times = [[.fin ((0 : Int) : ℝ)]] ∧ s0.world.pos = 0 := by
      rw [e]
      exact ⟨_, rfl, _, rfl, rfl, rfl, rfl, rfl⟩
    exact ⟨s0, .generate (.new 0 hQ) (fun _ => by norm_num) hc (by norm_num) hseed h0, hr⟩
  obtain ⟨s, r, wd, hwd, hx, hy, ht, hp⟩ := gen shoalObj rfl shoalObj_enclosed
  obtain ⟨s1, r1, wd1, hwd1, hx1, hy1, ht1, hp1⟩ := gen P1 (init_ground shoalObj_init h1) (E1 S1)
  obtain ⟨s2, r2, wd2, hwd2, hx2, hy2, ht2, hp2⟩ := gen P2 (init_ground shoalObj_init h2) (E2 S2)
  refine ⟨P1, P2, s, s1, s2, wd, h1, h2, hwd, hx, ?_, ?_, Or.inl ⟨1 / 20, by rw [shoalObj_depth, if_pos (by norm_num)], by rw [hdry]; norm_num⟩, fun ω hω calls => ⟨?_, ?_⟩⟩
  · rw [(init_ct h1).1, hdry]
    change (1 / 2 : ℝ) ≠ 1 / 10
    norm_num
  · obtain ⟨-, ⟨c, e, e'⟩ | ⟨e, -⟩⟩ := init_ct h2 <;> cases e
    rw [e', show shoalTypes.at' 5 7 = 0 from rfl]
    obtain ⟨-, ⟨c, e, -⟩ | ⟨-, e⟩⟩ := init_ct shoalObj_init
    · cases e
    rw [e]
    unfold defaultCellType
    simp only [shoalObj_depth, hdry]
    rw [if_pos (by rfl), if_pos (by simp only [Fl.lt]; norm_num)]
    norm_num
  · exact C125_same shoalObj_init h1 S1 r hwd r1 hwd1 (by rw [hx, hx1]) (by rw [hy, hy1]) (by rw [ht, ht1]) (by rw [hp, hp1]) hω calls (by rw [hx]; norm_num)
  · exact C125_same shoalObj_init h2 S2 r hwd r2 hwd2 (by rw [hx, hx2]) (by rw [hy, hy2]) (by rw [ht, ht2]) (by rw [hp, hp2]) hω calls (by rw [hx]; norm_num)

/-- The same edges, the other cells are 1. -/
def plainTypes : Grid Int := ⟨11, 11, fun i j => if i = 0 ∨ j = 0 ∨ i = 10 ∨ j = 10 then -1 else 1⟩

/-- C125: cells of the shoal called ocean or channel: the same weights, and the same is seen of all calls. -/
example : ∃ P1 P2 : PObj ℝ, initParticles Arith.exact Fun.real { shoalChan with dryDepth := none, cellType := some shoalTypes } = .ok P1 ∧
    initParticles Arith.exact Fun.real { shoalChan with dryDepth := none, cellType := some plainTypes } = .ok P2 ∧ P2.cellType.at' 5 7 ≠ P1.cellType.at' 5 7 ∧
    SameGround P1 P2 ∧ (∀ i j k, k < 9 → P2.weight Arith.exact Fun.real i j k = P1.weight Arith.exact Fun.real i j k) ∧
    ∀ ω pos cs, transcript Arith.exact Fun.real P2 ω cs (initState Arith.exact Fun.real P2 pos) =
      transcript Arith.exact Fun.real P1 ω cs (initState Arith.exact Fun.real P1 pos) := by
  have hv : ∀ c, ValidParams { shoalChan with dryDepth := none, cellType := some c } := fun c => { shoalChan_valid with dryDepth := by rintro x ⟨⟩ }
  obtain ⟨P1, h1, -⟩ := C125_accepted (dd := none) (ct := some shoalTypes) shoalChan_valid shoalObj_init shoalObj_enclosed (by norm_num) (by norm_num)
    (by rintro x ⟨⟩) (by rintro g ⟨⟩; exact ⟨rfl, rfl⟩)
  obtain ⟨P2, h2, -⟩ := C125_accepted (dd := none) (ct := some plainTypes) shoalChan_valid shoalObj_init shoalObj_enclosed (by norm_num) (by norm_num)
    (by rintro x ⟨⟩) (by rintro g ⟨⟩; exact ⟨rfl, rfl⟩)
  have h2' : initParticles Arith.exact Fun.real { ({ shoalChan with dryDepth := none, cellType := some shoalTypes } : Params ℝ) with
    dryDepth := none, cellType := some plainTypes } = .ok P2 := h2
  have S : SameGround P1 P2 := by
    refine C125_codes (p := { shoalChan with dryDepth := none, cellType := some shoalTypes }) rfl h1 h2' (fun i j _ _ => ?_) (fun i j _ _ => ?_) <;>
      (unfold plainTypes shoalTypes; simp only; split_ifs <;> norm_num)
  refine ⟨P1, P2, h1, h2, ?_, S, fun i j k hk => C125_weights h1 ⟨_, hv _, h1⟩ h2' ⟨_, hv _, h2⟩ S hk,
    fun ω pos cs => C125_walks (hv _) (by rintro x ⟨⟩) h1 h2' S ω pos cs⟩
  obtain ⟨-, ⟨c, e, e'⟩ | ⟨e, -⟩⟩ := init_ct h1 <;> cases e
  obtain ⟨-, ⟨c, e2, e2'⟩ | ⟨e2, -⟩⟩ := init_ct h2 <;> cases e2
  rw [e', e2']
  decide

end

end Dorado
