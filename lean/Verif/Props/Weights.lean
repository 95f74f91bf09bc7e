import Verif.Lemmas.Local
import Verif.Lemmas.Exact
import Verif.Spec.Sample

/-! # C03-C08: the routing weights -/

set_option linter.unusedSectionVars false

namespace Dorado

variable {K : Type} [Field K] [LinearOrder K] [IsStrictOrderedRing K] (A : Arith K) (F : Fun K A)

/-- The attribute `weight` of a freshly built object (particle_track.py:405). -/
def PObj.weight (P : PObj K) : Arr3 K := (initState A F P 0).world.weight

/-! ## C03 -/

/-- At every interior cell the nine weights (NaN read as 0) are finite and non-negative and one is positive; at every border
cell all are exactly 0. For every rounding, every valid input. -/
theorem C03_usable_distribution {P : PObj K} (hP : Built A F P) :
    (∀ i j, Interior P i j →
      (∀ k, k < 9 → ∃ x, (P.weight A F i j k).nanTo0 = .fin x ∧ 0 ≤ x) ∧
      (∃ k, k < 9 ∧ ∃ x, P.weight A F i j k = .fin x ∧ 0 < x)) ∧
    (∀ i j, i < P.depth.rows → j < P.depth.cols → ¬ Interior P i j → ∀ k, k < 9 → P.weight A F i j k = .fin 0) := by
  have G := hP.good
  refine ⟨fun i j h => ⟨fun k hk => ?_, makeWeight_some_pos A F G h⟩, fun i j hi hj hb k _ => ?_⟩
  · obtain ⟨x, hx, h0, -⟩ := (makeWeight_NN A F G h hk).nanTo0
    exact ⟨x, hx, h0⟩
  · apply makeWeight_border
    have := G.stage_rows
    have := G.stage_cols
    unfold Interior at hb
    omega

example : Built Arith.exact Fun.toy (objOf chan) ∧ Interior (objOf chan) 2 2 ∧
    ((objOf chan).weight Arith.exact Fun.toy 2 2 7, (objOf chan).weight Arith.exact Fun.toy 2 2 6) =
      (Fl.fin (15 / 8), Fl.fin 0) := ⟨chan_built, by decide +kernel, by decide +kernel⟩

/-! ## C04 -/

/-- In exact arithmetic the weight of every neighbour of every interior cell (NaN read as 0) is the closed formula. -/
theorem C04_closed_formula {F : Fun K Arith.exact} {P : PObj K} (hP : Built Arith.exact F P) {i j : Nat} (h : Interior P i j)
    {k : Nat} (hk : k < 9) :
    (P.weight Arith.exact F i j k).nanTo0 = .fin ((flowOf F P).weight i j k) :=
  makeWeight_repr hP.good (represents_flowOf hP.good) h hk

/-- The same for every mathematical flow field that the arrays of the object represent. -/
theorem C04_closed_formula_represented {F : Fun K Arith.exact} {P : PObj K} (hP : Built Arith.exact F P) {f : Flow K}
    (R : Represents F P f) {i j : Nat} (h : Interior P i j) {k : Nat} (hk : k < 9) :
    (P.weight Arith.exact F i j k).nanTo0 = .fin (f.weight i j k) := makeWeight_repr hP.good R h hk

example : Represents Fun.toy (objOf chan) (flowOf Fun.toy (objOf chan)) ∧ (flowOf Fun.toy (objOf chan)).stage 3 1 = none ∧
    (flowOf Fun.toy (objOf chan)).stage 3 2 = some 3 :=
  ⟨represents_flowOf (chan_built.good), by decide +kernel, by decide +kernel⟩

/-! ## C05 -/

/-- Two objects with the same parameters and grid shape. -/
structure SameSetup (P P' : PObj K) : Prop where
  rows : P'.depth.rows = P.depth.rows
  cols : P'.depth.cols = P.depth.cols
  theta : P'.theta = P.theta
  gamma : P'.gamma = P.gamma
  dry : P'.dryDepth = P.dryDepth
  distances : P'.distances = P.distances
  ivec : P'.ivec = P.ivec
  jvec : P'.jvec = P.jvec

/-- Cell `(a,b)` is in the 3×3 window of `(i,j)`. -/
def InWindow (i j a b : Nat) : Prop := a ≤ i + 1 ∧ i ≤ a + 1 ∧ b ≤ j + 1 ∧ j ≤ b + 1

theorem win_inWindow {i j k : Nat} (hi : 1 ≤ i) (hj : 1 ≤ j) (hk : k < 9) : InWindow i j (winRow i k) (winCol j k) := by
  unfold InWindow winRow winCol; omega

theorem interiorB_iff {L W i j : Nat} : interiorB L W i j = true ↔ 1 ≤ i ∧ i + 1 < L ∧ 1 ≤ j ∧ j + 1 < W := by
  unfold interiorB; simp

theorem bsw_congr {g g' : Grid (Fl K)} (hr : g'.rows = g.rows) (hc : g'.cols = g.cols) {i j k : Nat} (hk : k < 9)
    (h : ∀ a b, InWindow i j a b → g'.at' a b = g.at' a b) : bigSlidingWindow g' i j k = bigSlidingWindow g i j k := by
  unfold bigSlidingWindow
  rw [hr, hc]
  split
  · rename_i hin
    rw [interiorB_iff] at hin
    exact h _ _ (win_inWindow hin.1 hin.2.2.1 hk)
  · rfl

theorem dryMask_congr {P P' : PObj K} (G : Good P) (G' : Good P') (S : SameSetup P P') {i j k : Nat} (hk : k < 9)
    (hd : ∀ a b, InWindow i j a b → P'.depth.at' a b = P.depth.at' a b)
    (hct : ∀ a b, InWindow i j a b → P'.cellType.at' a b = P.cellType.at' a b) : dryMask P' i j k = dryMask P i j k := by
  unfold dryMask bigSlidingWindowInt
  rw [bsw_congr S.rows S.cols hk hd, S.dry, G.ct_rows, G.ct_cols, G'.ct_rows, G'.ct_cols, S.rows, S.cols]
  split
  · rename_i hin
    rw [interiorB_iff] at hin
    rw [hct _ _ (win_inWindow hin.1 hin.2.2.1 hk)]
  · rfl

/-- Routing is local: objects with the same parameters whose depth, stage and cell type agree on the 3×3 window of a cell and
whose discharges agree at the cell have the same nine weights there, for every rounding. -/
theorem C05_local {P P' : PObj K} (hP : Built A F P) (hP' : Built A F P') (S : SameSetup P P') {i j : Nat}
    (hd : ∀ a b, InWindow i j a b → P'.depth.at' a b = P.depth.at' a b)
    (hs : ∀ a b, InWindow i j a b → P'.stage.at' a b = P.stage.at' a b)
    (hct : ∀ a b, InWindow i j a b → P'.cellType.at' a b = P.cellType.at' a b)
    (hqx : P'.qx.at' i j = P.qx.at' i j) (hqy : P'.qy.at' i j = P.qy.at' i j) :
    ∀ k, k < 9 → P'.weight A F i j k = P.weight A F i j k := by
  have G := hP.good
  have G' := hP'.good
  have hr : P'.stage.rows = P.stage.rows := by rw [G.stage_rows, G'.stage_rows, S.rows]
  have hc : P'.stage.cols = P.stage.cols := by rw [G.stage_cols, G'.stage_cols, S.cols]
  intro k hk
  refine makeWeight_congr A F hr hc (fun k hk => ?_) (Or.inr fun k hk => bsw_congr S.rows S.cols hk hd) hk
  refine weightFlow_congr A F S.theta S.gamma (fun k hk => dryMask_congr G G' S hk hd hct)
    (fun k hk => Or.inl (by rw [bsw_congr S.rows S.cols hk hd])) (fun k hk => Or.inl ?_) (fun k hk => Or.inl ?_) hk
  · unfold weightSfc0 clearBorders clipPos tileDomain tileLocal
    simp only [hr, hc, S.distances, bsw_congr hr hc hk hs, hs i j (by unfold InWindow; omega)]
  · unfold weightInt0 clearBorders clipPos tileDomain tileLocal
    simp only [hr, hc, S.distances, S.ivec, S.jvec, hqx, hqy]

/-- The channel with a different discharge in its last row. -/
def chanFar : Params ℚ := { chan with qx := some ⟨5, 5, fun i _ => if i = 4 then .fin 7 else .fin 2⟩ }

theorem chanFar_valid : ValidParams chanFar := { chan_valid with
  qx := by
    rintro g ⟨rfl⟩ i j _ _
    dsimp only
    split
    · exact Or.inr ⟨_, rfl⟩
    · exact Or.inr ⟨_, rfl⟩ }

example : Built Arith.exact Fun.toy (objOf chanFar) ∧ SameSetup (objOf chan) (objOf chanFar) ∧
    (objOf chanFar).qx.at' 4 4 ≠ (objOf chan).qx.at' 4 4 ∧ (objOf chanFar).qx.at' 2 2 = (objOf chan).qx.at' 2 2 ∧
    (∀ a b, InWindow 2 2 a b → (objOf chanFar).depth.at' a b = (objOf chan).depth.at' a b) :=
  ⟨⟨_, chanFar_valid, rfl⟩, ⟨rfl, rfl, rfl, rfl, rfl, rfl, rfl, rfl⟩, by decide +kernel, by decide +kernel, fun _ _ _ => rfl⟩

/-! ## C06 -/

/-- With `gamma = 1` the weights do not depend on the discharge, for every rounding. -/
theorem C06_gamma_one {P P' : PObj K} (hP : Built A F P) (hP' : Built A F P') (S : SameSetup P P') (hg : P.gamma = 1)
    (hd : P'.depth = P.depth) (hs : P'.stage = P.stage) (hct : P'.cellType = P.cellType) {i j : Nat} (h : Interior P i j) :
    ∀ k, k < 9 → P'.weight A F i j k = P.weight A F i j k := by
  have G := hP.good
  have G' := hP'.good
  have h' : Interior P' i j := by unfold Interior; rw [hd]; exact h
  intro k hk
  refine makeWeight_congr A F (by rw [hs]) (by rw [hs]) (fun k hk => ?_) (Or.inr fun k hk => by rw [hd]) hk
  have hm : ∀ k, dryMask P' i j k = dryMask P i j k := by intro k; unfold dryMask; rw [hd, hct, S.dry]
  have hsfc : weightSfc0 A P' = weightSfc0 A P := by unfold weightSfc0; rw [hs, S.distances]
  have hmz : maskZero (dryMask P') (weightSfc0 A P) i j = maskZero (dryMask P) (weightSfc0 A P) i j := by
    funext k; unfold maskZero; rw [hm]
  have hn : normalise A (maskZero (dryMask P') (weightSfc0 A P)) i j k = normalise A (maskZero (dryMask P) (weightSfc0 A P)) i j k :=
    normalise_congr A (fun k _ => congrFun hmz k) hk
  have hint : ∀ Q : PObj K, Good Q → Interior Q i j →
      ∃ x, normalise A (maskZero (dryMask Q) (weightInt0 A Q)) i j k = .fin x := by
    intro Q GQ hQ
    have hv : ∀ k, k < 9 → ∃ x, maskZero (dryMask Q) (weightInt0 A Q) i j k = .fin x ∧ 0 ≤ x ∧ A.rnd x = x := by
      intro k hk
      obtain ⟨h1, h2⟩ := weightInt0_NN A GQ hQ hk
      unfold maskZero
      split
      · exact ⟨0, rfl, le_refl _, A.zero⟩
      · exact h1.resolve_left h2
    have hNN := normalise_NN A (fun k hk => (Or.inr (hv k hk) : NN A _)) hk
    rcases hNN with h | ⟨x, hx, -⟩
    · exfalso
      obtain ⟨x, hx, -⟩ := hv k hk
      unfold normalise at h
      rw [hx] at h
      obtain ⟨y, hy, hy0, hyr⟩ := NN_vec A (fun k hk => (Or.inr (hv k hk) : NN A _))
      obtain ⟨S, hS, -⟩ := nansum9_NN hy hy0 hyr
      rw [hS] at h
      simp only [Fl.lt, decide_eq_true_eq] at h
      split at h
      · rename_i hpos; simp [Arith.div, ne_of_gt hpos] at h
      · cases h
    · exact ⟨x, hx⟩
  obtain ⟨x, hx⟩ := hint P G h
  obtain ⟨x', hx'⟩ := hint P' G' h'
  rw [weightFlow_eq, weightFlow_eq, hm, hd, S.theta, S.gamma, hsfc, hn, hx, hx', hg]
  simp [Arith.sub, Arith.add, Arith.mul, Fl.neg, A.zero]

/-- With `gamma = 0` the weights do not depend on the stage values (only on where stage is NaN), for every rounding. -/
theorem C06_gamma_zero {P P' : PObj K} (hP : Built A F P) (hP' : Built A F P') (S : SameSetup P P') (hg : P.gamma = 0)
    (hd : P'.depth = P.depth) (hqx : P'.qx = P.qx) (hqy : P'.qy = P.qy) (hct : P'.cellType = P.cellType)
    (hnan : ∀ a b, a < P.depth.rows → b < P.depth.cols → (P'.stage.at' a b = .nan ↔ P.stage.at' a b = .nan))
    {i j : Nat} (h : Interior P i j) :
    ∀ k, k < 9 → P'.weight A F i j k = P.weight A F i j k := by
  have G := hP.good
  have G' := hP'.good
  have h' : Interior P' i j := by unfold Interior; rw [hd]; exact h
  have hr : P'.stage.rows = P.stage.rows := by rw [G.stage_rows, G'.stage_rows, S.rows]
  have hc : P'.stage.cols = P.stage.cols := by rw [G.stage_cols, G'.stage_cols, S.cols]
  intro k hk
  refine makeWeight_congr A F hr hc (fun k hk => ?_) (Or.inr fun k hk => by rw [hd]) hk
  have hm : ∀ k, dryMask P' i j k = dryMask P i j k := by intro k; unfold dryMask; rw [hd, hct, S.dry]
  have hint : weightInt0 A P' = weightInt0 A P := by
    unfold weightInt0; rw [hr, hc, S.distances, S.ivec, S.jvec, hqx, hqy]
  have hn : normalise A (maskZero (dryMask P') (weightInt0 A P)) i j k = normalise A (maskZero (dryMask P) (weightInt0 A P)) i j k :=
    normalise_congr A (fun k _ => by unfold maskZero; rw [hm]) hk
  -- the surface component is NaN at the same places and otherwise finite
  have hraw : ∀ Q : PObj K, Good Q → Interior Q i j → ∀ k, k < 9 →
      (weightSfc0 A Q i j k = .nan ↔ Q.stage.at' i j = .nan ∨ Q.stage.at' (winRow i k) (winCol j k) = .nan) := by
    intro Q GQ hQ k hk
    unfold weightSfc0
    simp only [GQ.stage_rows, GQ.stage_cols]
    rw [clearBorders_interior hQ]
    unfold clipPos tileDomain tileLocal bigSlidingWindow
    beta_reduce
    rw [GQ.stage_rows, GQ.stage_cols, if_pos (interiorB_true hQ)]
    obtain ⟨d, hd, hd0⟩ := GQ.dist_pos k hk
    rw [hd]
    have hw := win_lt hQ hk
    rcases GQ.stage_fin i j (by have := hQ.2.1; omega) (by have := hQ.2.2.2; omega) with h1 | ⟨a, h1⟩ <;>
      rcases GQ.stage_fin _ _ hw.1 hw.2 with h2 | ⟨b, h2⟩ <;> rw [h1, h2] <;>
      simp [Arith.sub, Arith.add, Fl.neg, Arith.div, Fl.le, ne_of_gt hd0]
    split <;> simp
  have hmask : ∀ Q : PObj K, Good Q → Interior Q i j → ∀ k, k < 9 →
      (normalise A (maskZero (dryMask Q) (weightSfc0 A Q)) i j k = .nan ↔
        dryMask Q i j k = false ∧ weightSfc0 A Q i j k = .nan) ∧
      (normalise A (maskZero (dryMask Q) (weightSfc0 A Q)) i j k = .nan ∨
        ∃ x, normalise A (maskZero (dryMask Q) (weightSfc0 A Q)) i j k = .fin x) := by
    intro Q GQ hQ k hk
    have hv : ∀ k, k < 9 → NN A (maskZero (dryMask Q) (weightSfc0 A Q) i j k) := fun k hk =>
      maskZero_NN A (weightSfc0_NN A GQ hQ hk)
    refine ⟨?_, ?_⟩
    · obtain ⟨y, hy, hy0, hyr⟩ := NN_vec A hv
      obtain ⟨S, hS, -⟩ := nansum9_NN hy hy0 hyr
      unfold normalise
      rw [hS]
      simp only [Fl.lt, decide_eq_true_eq]
      have hmz : maskZero (dryMask Q) (weightSfc0 A Q) i j k = .nan ↔ dryMask Q i j k = false ∧ weightSfc0 A Q i j k = .nan := by
        unfold maskZero
        cases dryMask Q i j k <;> simp
      rw [← hmz]
      split
      · rename_i hpos
        rcases hv k hk with h | ⟨x, hx, -⟩
        · rw [h]; simp [Arith.div]
        · rw [hx]; simp [Arith.div, ne_of_gt hpos]
      · rfl
    · rcases normalise_NN A hv hk with h | ⟨x, hx, -⟩
      · exact Or.inl h
      · exact Or.inr ⟨x, hx⟩
  have hwin := win_lt h hk
  have hiff : normalise A (maskZero (dryMask P') (weightSfc0 A P')) i j k = .nan ↔
      normalise A (maskZero (dryMask P) (weightSfc0 A P)) i j k = .nan := by
    rw [(hmask P' G' h' k hk).1, (hmask P G h k hk).1, hraw P' G' h' k hk, hraw P G h k hk, hm,
      hnan i j (by have := h.2.1; omega) (by have := h.2.2.2; omega), hnan _ _ hwin.1 hwin.2]
  have hzero : A.mul (.fin P.gamma) (normalise A (maskZero (dryMask P') (weightSfc0 A P')) i j k) =
      A.mul (.fin P.gamma) (normalise A (maskZero (dryMask P) (weightSfc0 A P)) i j k) := by
    rw [hg]
    rcases (hmask P' G' h' k hk).2 with h1 | ⟨x, h1⟩
    · rw [h1, hiff.1 h1]
    · rcases (hmask P G h k hk).2 with h2 | ⟨y, h2⟩
      · rw [h2, hiff.2 h2]
      · rw [h1, h2]; simp [Arith.mul]
  rw [weightFlow_eq, weightFlow_eq, hm, hd, S.theta, S.gamma, hint, hn, hzero]

/-- The channel routed by surface slope only. -/
def chanG1 : Params ℚ := { chan with gamma := some 1 }
/-- The same with a different discharge. -/
def chanG1' : Params ℚ := { chan with gamma := some 1, qx := some ⟨5, 5, fun _ _ => .fin (-3)⟩ }
/-- The channel routed by discharge only. -/
def chanG0 : Params ℚ := { chan with gamma := some 0 }
/-- The same with a different stage. -/
def chanG0' : Params ℚ := { chan with gamma := some 0, stage := some ⟨5, 5, fun i j => .fin (i + 2 * j)⟩ }

theorem chanG1_valid : ValidParams chanG1 := { chan_valid with gamma := by rintro x ⟨rfl⟩; norm_num }
theorem chanG1'_valid : ValidParams chanG1' := { chan_valid with
  gamma := by rintro x ⟨rfl⟩; norm_num
  qx := by rintro g ⟨rfl⟩ i j _ _; exact Or.inr ⟨_, rfl⟩ }
theorem chanG0_valid : ValidParams chanG0 := { chan_valid with gamma := by rintro x ⟨rfl⟩; norm_num }
theorem chanG0'_valid : ValidParams chanG0' := { chan_valid with
  gamma := by rintro x ⟨rfl⟩; norm_num
  stage := by rintro g ⟨rfl⟩ i j _ _; exact Or.inr ⟨_, rfl⟩ }

example : Built Arith.exact Fun.toy (objOf chanG1) ∧ Built Arith.exact Fun.toy (objOf chanG1') ∧
    SameSetup (objOf chanG1) (objOf chanG1') ∧ (objOf chanG1).gamma = 1 ∧
    (objOf chanG1').depth = (objOf chanG1).depth ∧ (objOf chanG1').stage = (objOf chanG1).stage ∧
    (objOf chanG1').cellType = (objOf chanG1).cellType ∧ (objOf chanG1').qx.at' 2 2 ≠ (objOf chanG1).qx.at' 2 2 ∧
    (objOf chanG1).weight Arith.exact Fun.toy 2 2 7 = .fin (7 / 4) :=
  ⟨⟨_, chanG1_valid, rfl⟩, ⟨_, chanG1'_valid, rfl⟩, ⟨rfl, rfl, rfl, rfl, rfl, rfl, rfl, rfl⟩, rfl, rfl, rfl, rfl,
    by decide +kernel, by decide +kernel⟩

example : Built Arith.exact Fun.toy (objOf chanG0) ∧ Built Arith.exact Fun.toy (objOf chanG0') ∧
    SameSetup (objOf chanG0) (objOf chanG0') ∧ (objOf chanG0).gamma = 0 ∧
    (objOf chanG0').depth = (objOf chanG0).depth ∧ (objOf chanG0').qx = (objOf chanG0).qx ∧
    (objOf chanG0').cellType = (objOf chanG0).cellType ∧ (objOf chanG0').stage.at' 2 2 ≠ (objOf chanG0).stage.at' 2 2 ∧
    (∀ a, a < 5 → ∀ b, b < 5 → ((objOf chanG0').stage.at' a b = .nan ↔ (objOf chanG0).stage.at' a b = .nan)) ∧
    (objOf chanG0).stage.at' 3 1 = .nan :=
  ⟨⟨_, chanG0_valid, rfl⟩, ⟨_, chanG0'_valid, rfl⟩, ⟨rfl, rfl, rfl, rfl, rfl, rfl, rfl, rfl⟩, rfl, rfl, rfl, rfl,
    by decide +kernel, by decide +kernel, by decide +kernel⟩

/-! ## C07 -/

/-- With `theta = 0` two depth fields with the same wet/dry pattern (and the same stage) give identical weights at every
interior cell that is not a dead end (i.e. where some flow-derived weight is positive), for every rounding. -/
theorem C07_theta_zero {P P' : PObj K} (hP : Built A F P) (hP' : Built A F P') (S : SameSetup P P') (ht : P.theta = 0)
    (hs : P'.stage = P.stage) (hqx : P'.qx = P.qx) (hqy : P'.qy = P.qy)
    (hwet : ∀ a b, a < P.depth.rows → b < P.depth.cols →
      ((Fl.le (P'.depth.at' a b) (.fin P.dryDepth) = true ∨ P'.cellType.at' a b = 2) ↔
        (Fl.le (P.depth.at' a b) (.fin P.dryDepth) = true ∨ P.cellType.at' a b = 2)))
    {i j : Nat} (h : Interior P i j) (hd : ¬ NoFlowWeight A F P i j) :
    ∀ k, k < 9 → P'.weight A F i j k = P.weight A F i j k := by
  have G := hP.good
  have G' := hP'.good
  have h' : Interior P' i j := by unfold Interior; rw [S.rows, S.cols]; exact h
  have hm : ∀ k, k < 9 → dryMask P' i j k = dryMask P i j k := by
    intro k hk
    have hw := win_lt h hk
    have := hwet _ _ hw.1 hw.2
    unfold dryMask bigSlidingWindow bigSlidingWindowInt
    rw [G.ct_rows, G.ct_cols, G'.ct_rows, G'.ct_cols, if_pos (interiorB_true h), if_pos (interiorB_true h),
      if_pos (interiorB_true h'), if_pos (interiorB_true h'), S.dry, Bool.eq_iff_iff]
    simpa using this
  have hfl : ∀ k, k < 9 → weightFlow A F P' i j k = weightFlow A F P i j k := by
    intro k hk
    refine weightFlow_congr A F S.theta S.gamma hm (fun k hk => ?_) (fun k hk => Or.inl ?_) (fun k hk => Or.inl ?_) hk
    · left
      have hw := win_lt h hk
      obtain ⟨d, hd⟩ := G.depth_fin _ _ hw.1 hw.2
      obtain ⟨d', hd'⟩ := G'.depth_fin _ _ (win_lt h' hk).1 (win_lt h' hk).2
      unfold bigSlidingWindow
      rw [if_pos (interiorB_true h), if_pos (interiorB_true h'), hd, hd', ht, F.pow_zero, F.pow_zero]
    · unfold weightSfc0; rw [hs, S.distances]
    · unfold weightInt0; rw [hs, S.distances, S.ivec, S.jvec, hqx, hqy]
  intro k hk
  refine makeWeight_congr A F (by rw [hs]) (by rw [hs]) hfl (Or.inl ?_) hk
  rw [← Bool.not_eq_true, deadEnd_iff A F G h]
  exact hd

/-- The same in exact arithmetic, with the dead-end condition of the closed formula. -/
theorem C07_theta_zero_exact {F : Fun K Arith.exact} {P P' : PObj K} (hP : Built Arith.exact F P) (hP' : Built Arith.exact F P')
    (S : SameSetup P P') (ht : P.theta = 0) (hs : P'.stage = P.stage) (hqx : P'.qx = P.qx) (hqy : P'.qy = P.qy)
    (hwet : ∀ a b, a < P.depth.rows → b < P.depth.cols →
      ((Fl.le (P'.depth.at' a b) (.fin P.dryDepth) = true ∨ P'.cellType.at' a b = 2) ↔
        (Fl.le (P.depth.at' a b) (.fin P.dryDepth) = true ∨ P.cellType.at' a b = 2)))
    {i j : Nat} (h : Interior P i j) (hd : ¬ (flowOf F P).DeadEnd i j) :
    ∀ k, k < 9 → P'.weight Arith.exact F i j k = P.weight Arith.exact F i j k :=
  C07_theta_zero Arith.exact F hP hP' S ht hs hqx hqy hwet h
    fun hn => hd ((deadEnd_repr hP.good (represents_flowOf hP.good) h).1 hn)

/-- The channel without depth weighting. -/
def chanT0 : Params ℚ := { chan with theta := some 0 }
/-- The same with other depths and the same wet/dry pattern. -/
def chanT0' : Params ℚ := { chan with
  theta := some 0
  depth := some (gridOf [
    [some 1, some 1, some 1, some 1, some 1],
    [some 1, some 2, some 3, some 2, some 1],
    [some 1, some 2, some 4, some 2, some 1],
    [some 1, some 0, some 9, some 2, some 1],
    [some 1, some 1, some 1, some 1, some 1]]) }

theorem chanT0_valid : ValidParams chanT0 := { chan_valid with }
theorem chanT0'_valid : ValidParams chanT0' := { chan_valid with depth := by rintro g ⟨rfl⟩; exact gridOf_finOrNan _ }

example : Built Arith.exact Fun.toy (objOf chanT0) ∧ Built Arith.exact Fun.toy (objOf chanT0') ∧
    SameSetup (objOf chanT0) (objOf chanT0') ∧ (objOf chanT0).theta = 0 ∧ (objOf chanT0').qx = (objOf chanT0).qx ∧
    (objOf chanT0').depth.at' 2 2 ≠ (objOf chanT0).depth.at' 2 2 ∧ ¬ NoFlowWeight Arith.exact Fun.toy (objOf chanT0) 2 2 ∧
    ((objOf chanT0).weight Arith.exact Fun.toy 2 2 7, (objOf chanT0').weight Arith.exact Fun.toy 2 2 7) =
      (.fin (5 / 8), .fin (5 / 8)) :=
  ⟨⟨_, chanT0_valid, rfl⟩, ⟨_, chanT0'_valid, rfl⟩, ⟨rfl, rfl, rfl, rfl, rfl, rfl, rfl, rfl⟩, rfl, rfl,
    by decide +kernel, fun h => absurd (h 7 (by omega)) (by decide +kernel), by decide +kernel⟩

theorem chanT0_built : Built Arith.exact Fun.toy (objOf chanT0) := ⟨_, chanT0_valid, rfl⟩

example : ¬ (flowOf Fun.toy (objOf chanT0)).DeadEnd 2 2 := fun h =>
  absurd ((deadEnd_repr chanT0_built.good (represents_flowOf chanT0_built.good) (i := 2) (j := 2) (by decide +kernel)).2 h
    7 (by omega)) (by decide +kernel)

end Dorado
