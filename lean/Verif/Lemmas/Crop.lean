import Verif.Spec.Crop
import Verif.Lemmas.Transform
import Verif.Lemmas.Local
import Verif.Lemmas.Ensemble

/-! Helper lemmas for C112: the object built from part of the domain. -/

set_option linter.unusedSectionVars false

namespace Dorado

section build

variable {K : Type} [Field K] [LinearOrder K] [IsStrictOrderedRing K] {A : Arith K} {F : Fun K A} {p : Params K} {r c R C : Nat}

theorem needShape_cut {α β : Type} (g : Grid α) (h : Grid β) : needShape (g.cut r c R C) (h.cut r c R C) = .ok () := by
  simp [needShape, Grid.sameShape, Grid.cut]

theorem initDepth_crop {d : Grid (Fl K)} (hd : initDepth A p = .ok d) : initDepth A (p.crop r c R C) = .ok (d.cut r c R C) := by
  unfold initDepth at hd ⊢
  simp only [Params.crop]
  cases e1 : p.depth with
  | some g =>
    simp only [e1, Option.map_some] at hd ⊢
    rw [← Except.ok.inj hd]
    rfl
  | none =>
    cases e2 : p.stage with
    | none => simp [e1, e2] at hd
    | some s =>
      cases e3 : p.topography with
      | none => simp [e1, e2, e3] at hd
      | some t =>
        simp only [e1, e2, e3, Option.map_some, Option.map_none, bind_ok, pure_ok] at hd ⊢
        obtain ⟨u, hu, rfl⟩ := hd
        exact ⟨(), needShape_cut _ _, rfl⟩

theorem initStage_crop {d s : Grid (Fl K)} (hs : initStage A p d = .ok s) :
    initStage A (p.crop r c R C) (d.cut r c R C) = .ok (s.cut r c R C) := by
  unfold initStage at hs ⊢
  simp only [Params.crop]
  cases e1 : p.stage with
  | some g =>
    simp only [e1, Option.map_some, bind_ok, pure_ok] at hs ⊢
    obtain ⟨u, hu, rfl⟩ := hs
    exact ⟨(), needShape_cut _ _, rfl⟩
  | none =>
    cases e2 : p.topography with
    | none => simp [e1, e2] at hs
    | some t =>
      cases e3 : p.depth with
      | none => simp [e1, e2, e3] at hs
      | some g =>
        simp only [e1, e2, e3, Option.map_some, Option.map_none, bind_ok, pure_ok] at hs ⊢
        obtain ⟨u, hu, rfl⟩ := hs
        exact ⟨(), needShape_cut _ _, rfl⟩

theorem flowFromQ_cut {x y d qx qy u v : Grid (Fl K)} (hf : flowFromQ A x y d = .ok (qx, qy, u, v)) :
    flowFromQ A (x.cut r c R C) (y.cut r c R C) (d.cut r c R C) = .ok (qx.cut r c R C, qy.cut r c R C, u.cut r c R C, v.cut r c R C) := by
  unfold flowFromQ at hf ⊢
  simp only [bind_ok, pure_ok, Prod.mk.injEq] at hf ⊢
  obtain ⟨s, hs, s', hs', rfl, rfl, rfl, rfl⟩ := hf
  exact ⟨(), needShape_cut _ _, (), needShape_cut _ _, rfl, rfl, rfl, rfl⟩

theorem flowFromU_cut {x y d qx qy u v : Grid (Fl K)} (hf : flowFromU A x y d = .ok (qx, qy, u, v)) :
    flowFromU A (x.cut r c R C) (y.cut r c R C) (d.cut r c R C) = .ok (qx.cut r c R C, qy.cut r c R C, u.cut r c R C, v.cut r c R C) := by
  unfold flowFromU at hf ⊢
  simp only [bind_ok, pure_ok, Prod.mk.injEq] at hf ⊢
  obtain ⟨s, hs, s', hs', rfl, rfl, rfl, rfl⟩ := hf
  exact ⟨(), needShape_cut _ _, (), needShape_cut _ _, rfl, rfl, rfl, rfl⟩

theorem negGrid_cut (g : Grid (Fl K)) : negGrid (g.cut r c R C) = (negGrid g).cut r c R C := rfl

theorem initFlow_crop {d qx qy u v : Grid (Fl K)} (hf : initFlow A p d = .ok (qx, qy, u, v)) :
    initFlow A (p.crop r c R C) (d.cut r c R C) = .ok (qx.cut r c R C, qy.cut r c R C, u.cut r c R C, v.cut r c R C) := by
  unfold initFlow at hf ⊢
  simp only [Params.crop]
  cases e0 : p.deltaRCM <;> cases e1 : p.qx <;> cases e2 : p.qy <;> cases e3 : p.u <;> cases e4 : p.v <;>
    simp only [e0, e1, e2, e3, e4, Option.map_some, Option.map_none] at hf ⊢ <;>
    first
    | cases hf
    | (first | rw [negGrid_cut] | skip
       first | exact flowFromQ_cut hf | exact flowFromU_cut hf)

/-- The cell types of the part: those of the domain at interior cells, -1 on the outer ring. -/
theorem initCellType_crop {d : Grid (Fl K)} {dry : K} {ct : Grid Int} (hct : initCellType p d dry = .ok ct) (hr : r + R ≤ d.rows) (hc : c + C ≤ d.cols)
    (hR : 2 ≤ R) (hC : 2 ≤ C) :
    ∃ ct', initCellType (p.crop r c R C) (d.cut r c R C) dry = .ok ct' ∧ ct'.rows = R ∧ ct'.cols = C ∧
      ∀ i j, i < R → j < C → ct'.at' i j = (ct.cutRing r c R C).at' i j := by
  unfold initCellType at hct ⊢
  simp only [Params.crop]
  cases e : p.cellType with
  | some g =>
    simp only [e, Option.map_some, bind_ok] at hct ⊢
    obtain ⟨u, hu, hct⟩ := hct
    split at hct
    · cases hct
    · rw [pure_ok] at hct
      subst hct
      refine ⟨_, ⟨(), by simp [needShape, Grid.sameShape, Grid.cut, Grid.cutRing], ?_⟩, rfl, rfl, fun i j _ _ => rfl⟩
      rw [if_neg (by simp only [Grid.cut]; omega)]
      rfl
  | none =>
    simp only [e, Option.map_none] at hct ⊢
    split at hct
    · cases hct
    · rw [← Except.ok.inj hct]
      rw [if_neg (by simp only [Grid.cut]; omega)]
      refine ⟨_, rfl, rfl, rfl, fun i j hi hj => ?_⟩
      show (if interiorB R C i j then (if Fl.lt (d.at' (i + r) (j + c)) (.fin dry) then (2 : Int) else 0) else -1) =
        if i = 0 ∨ j = 0 ∨ i + 1 = R ∨ j + 1 = C then -1 else
          if interiorB d.rows d.cols (i + r) (j + c) then (if Fl.lt (d.at' (i + r) (j + c)) (.fin dry) then 2 else 0) else -1
      by_cases hb : i = 0 ∨ j = 0 ∨ i + 1 = R ∨ j + 1 = C
      · have e : interiorB R C i j = false := decide_eq_false (by omega)
        rw [if_pos hb, e]
        rfl
      · have e : interiorB R C i j = true := decide_eq_true (by omega)
        have e' : interiorB d.rows d.cols (i + r) (j + c) = true := decide_eq_true (by omega)
        rw [if_neg hb, e, e']

/-- The object of the part, compared with that of the domain. -/
structure CutOf (A : Arith K) (F : Fun K A) (r c R C : Nat) (P P' : PObj K) : Prop where
  fitR : r + R ≤ P.depth.rows
  fitC : c + C ≤ P.depth.cols
  depth : P'.depth = P.depth.cut r c R C
  stage : P'.stage = P.stage.cut r c R C
  qx : P'.qx = P.qx.cut r c R C
  qy : P'.qy = P.qy.cut r c R C
  u : P'.u = P.u.cut r c R C
  v : P'.v = P.v.cut r c R C
  velocity : P'.velocity = P.velocity.cut r c R C
  velocityAngle : P'.velocityAngle = P.velocityAngle.cut r c R C
  ctRows : P'.cellType.rows = R
  ctCols : P'.cellType.cols = C
  cellType : ∀ i j, i < R → j < C → P'.cellType.at' i j = (P.cellType.cutRing r c R C).at' i j
  dx : P'.dx = P.dx
  theta : P'.theta = P.theta
  gamma : P'.gamma = P.gamma
  diff : P'.diffCoeff = P.diffCoeff
  dry : P'.dryDepth = P.dryDepth
  steepest : P'.steepest = P.steepest
  distances : P'.distances = P.distances
  ivec : P'.ivec = P.ivec
  jvec : P'.jvec = P.jvec
  iwalk : P'.iwalk = P.iwalk
  jwalk : P'.jwalk = P.jwalk
  angles : P'.angles = P.angles

theorem init_crop {P : PObj K} (hP : initParticles A F p = .ok P) (hr : r + R ≤ P.depth.rows) (hc : c + C ≤ P.depth.cols)
    (hR : 2 ≤ R) (hC : 2 ≤ C) : ∃ P', initParticles A F (p.crop r c R C) = .ok P' ∧ CutOf A F r c R C P P' := by
  obtain ⟨u, v, X⟩ := init_parts _ _ hP
  obtain ⟨ct', hct, h6, h7, h8⟩ := initCellType_crop X.ct hr hc hR hC
  have hdryp : (p.crop r c R C).dryDepth.getD (A.rnd (1 / 10)) = P.dryDepth := X.dry.symm
  have hroi : checkRoi (p.crop r c R C) (P.depth.cut r c R C) = .ok () := by
    unfold checkRoi
    simp only [Params.crop]
    cases p.roi with
    | none => rfl
    | some g => exact needShape_cut _ _
  obtain ⟨P', hP', h1, h2, h3, h4, h5⟩ := init_mk (F := F) (p := p.crop r c R C) (dx := P.dx) X.dx
    (initDepth_crop X.depth) (initStage_crop X.stage) (initFlow_crop X.flow) (by rw [hdryp]; exact hct) hroi
  obtain ⟨u2, v2, Y⟩ := init_parts _ _ hP'
  have hx := Y.flow
  rw [h1, initFlow_crop X.flow] at hx
  have hx := (Except.ok.inj hx)
  simp only [Prod.mk.injEq] at hx
  have hu : P'.u = P.u.cut r c R C := by rw [Y.uEq, X.uEq, ← hx.2.2.1]; rfl
  have hv : P'.v = P.v.cut r c R C := by rw [Y.vEq, X.vEq, ← hx.2.2.2]; rfl
  refine ⟨P', hP', hr, hc, h1, h2, h3, h4, hu, hv, ?_, ?_, by rw [h5, h6], by rw [h5, h7], by rw [h5]; exact h8, ?_, ?_, ?_, ?_, ?_, ?_, ?_, ?_, ?_, ?_, ?_, ?_⟩
  · rw [Y.vel, X.vel, ← hx.2.2.1, ← hx.2.2.2]; rfl
  · rw [Y.ang, X.ang, hu, hv]; rfl
  · have h1 := Y.dx
    have h2 := X.dx
    have : (p.crop r c R C).dx = p.dx := rfl
    rw [this, h2] at h1
    exact (Option.some.inj h1).symm
  · rw [Y.theta, X.theta]; rfl
  · rw [Y.gamma, X.gamma]; rfl
  · rw [Y.diff, X.diff]; rfl
  · rw [Y.dry, X.dry]; rfl
  · rw [Y.steepest, X.steepest]; rfl
  · rw [Y.distances, X.distances]; rfl
  · rw [Y.ivec, X.ivec]; rfl
  · rw [Y.jvec, X.jvec]; rfl
  · rw [Y.iwalk, X.iwalk]; rfl
  · rw [Y.jwalk, X.jwalk]; rfl
  · rw [Y.angles, X.angles]; rfl

theorem valid_crop {L W : Nat} (hv : ValidParams p) (hs : p.Shape L W) (hr : r + R ≤ L) (hc : c + C ≤ W) : ValidParams (p.crop r c R C) := by
  have hm : ∀ g : Grid (Fl K), g.FinOrNan → g.rows = L ∧ g.cols = W → (g.cut r c R C).FinOrNan := by
    intro g hg hs i j hi hj
    simp only [Grid.cut] at hi hj ⊢
    exact hg (i + r) (j + c) (by omega) (by omega)
  have key : ∀ o : Option (Grid (Fl K)), (∀ g, o = some g → g.FinOrNan) → (∀ g, o = some g → g.rows = L ∧ g.cols = W) →
      ∀ g, o.map (Grid.cut r c R C) = some g → g.FinOrNan := by
    intro o h1 h2 g hg
    rw [Option.map_eq_some_iff] at hg
    obtain ⟨a, ha, rfl⟩ := hg
    exact hm a (h1 a ha) (h2 a ha)
  exact { hv with
    depth := key _ hv.depth hs.depth
    stage := key _ hv.stage hs.stage
    topography := key _ hv.topography hs.topography
    qx := key _ hv.qx hs.qx
    qy := key _ hv.qy hs.qy
    u := key _ hv.u hs.u
    v := key _ hv.v hs.v }

/-! ### Weights -/

variable {P P' : PObj K}

theorem window_cut (g : Grid (Fl K)) {i j : Nat} (hr : r + R ≤ g.rows) (hc : c + C ≤ g.cols) (hi : 1 ≤ i) (hi' : i + 1 < R) (hj : 1 ≤ j) (hj' : j + 1 < C) (k : Nat) :
    bigSlidingWindow (g.cut r c R C) i j k = bigSlidingWindow g (i + r) (j + c) k := by
  unfold bigSlidingWindow
  have h1 : interiorB (g.cut r c R C).rows (g.cut r c R C).cols i j = true := decide_eq_true ⟨hi, hi', hj, hj'⟩
  have h2 : interiorB g.rows g.cols (i + r) (j + c) = true := decide_eq_true (by omega)
  rw [if_pos h1, if_pos h2]
  show g.at' (winRow i k + r) (winCol j k + c) = _
  unfold winRow winCol
  congr 1 <;> omega

theorem normalise_move {w w' : Arr3 K} {i j i' j' : Nat} (h : ∀ k, k < 9 → w' i' j' k = w i j k) {k : Nat} (hk : k < 9) :
    normalise A w' i' j' k = normalise A w i j k := by
  unfold normalise
  rw [nansum9_congr A h, h k hk]

/-- The weights of a cell that is not next to the outer ring of the part. -/
theorem CutOf.weight (H : CutOf A F r c R C P P') (G : Good P) {i j : Nat} (hi : 2 ≤ i) (hi' : i + 2 < R) (hj : 2 ≤ j) (hj' : j + 2 < C) {k : Nat} (hk : k < 9) :
    makeWeight A F P' i j k = makeWeight A F P (i + r) (j + c) k := by
  have hfr := H.fitR
  have hfc := H.fitC
  have hd : ∀ k, bigSlidingWindow P'.depth i j k = bigSlidingWindow P.depth (i + r) (j + c) k := fun k => by
    rw [H.depth]; exact window_cut _ hfr hfc (by omega) (by omega) (by omega) (by omega) k
  have hs : ∀ k, bigSlidingWindow P'.stage i j k = bigSlidingWindow P.stage (i + r) (j + c) k := fun k => by
    rw [H.stage]
    exact window_cut _ (by rw [G.stage_rows]; exact hfr) (by rw [G.stage_cols]; exact hfc) (by omega) (by omega) (by omega) (by omega) k
  have hct : ∀ k, k < 9 → bigSlidingWindowInt P'.cellType i j k = bigSlidingWindowInt P.cellType (i + r) (j + c) k := fun k hk => by
    unfold bigSlidingWindowInt
    have h1 : interiorB P'.cellType.rows P'.cellType.cols i j = true := by
      rw [H.ctRows, H.ctCols]; exact decide_eq_true (by omega)
    have h2 : interiorB P.cellType.rows P.cellType.cols (i + r) (j + c) = true := by
      rw [G.ct_rows, G.ct_cols]; exact decide_eq_true (by omega)
    rw [if_pos h1, if_pos h2, H.cellType _ _ (by unfold winRow; omega) (by unfold winCol; omega)]
    show (if _ then _ else _) = _
    rw [if_neg (by unfold winRow winCol; omega)]
    unfold winRow winCol
    congr 1 <;> omega
  have hmask : ∀ k, k < 9 → dryMask P' i j k = dryMask P (i + r) (j + c) k := fun k hk => by
    unfold dryMask
    rw [hd, hct k hk, H.dry]
  have hrows : P'.stage.rows = R := by rw [H.stage]; rfl
  have hcols : P'.stage.cols = C := by rw [H.stage]; rfl
  have hb' : ¬ (i = 0 ∨ j = 0 ∨ i + 1 = P'.stage.rows ∨ j + 1 = P'.stage.cols) := by rw [hrows, hcols]; omega
  have hb : ¬ (i + r = 0 ∨ j + c = 0 ∨ i + r + 1 = P.stage.rows ∨ j + c + 1 = P.stage.cols) := by rw [G.stage_rows, G.stage_cols]; omega
  have hsfc : ∀ k, weightSfc0 A P' i j k = weightSfc0 A P (i + r) (j + c) k := fun k => by
    unfold weightSfc0 clearBorders clipPos tileDomain tileLocal
    simp only [if_neg hb, if_neg hb', hs]
    rw [H.distances, H.stage]
    rfl
  have hint : ∀ k, weightInt0 A P' i j k = weightInt0 A P (i + r) (j + c) k := fun k => by
    unfold weightInt0 clearBorders clipPos tileDomain tileLocal
    simp only [if_neg hb, if_neg hb']
    rw [H.distances, H.qx, H.qy, H.ivec, H.jvec]
    rfl
  have mz : ∀ w w' : Arr3 K, (∀ k, w' i j k = w (i + r) (j + c) k) → ∀ k, k < 9 →
      maskZero (dryMask P') w' i j k = maskZero (dryMask P) w (i + r) (j + c) k := by
    intro w w' h k hk
    unfold maskZero
    rw [hmask k hk, h]
  have hflow : ∀ k, k < 9 → weightFlow A F P' i j k = weightFlow A F P (i + r) (j + c) k := fun k hk => by
    rw [weightFlow_eq, weightFlow_eq, hmask k hk, hd, H.theta, H.gamma, normalise_move (mz _ _ hsfc) hk, normalise_move (mz _ _ hint) hk]
  unfold makeWeight
  simp only [clearBorders, if_neg hb, if_neg hb', hflow k hk, nansum9_congr A hflow, hd, max9_congr fun k _ => hd k]

theorem get_cut {α : Type} (g : Grid α) {q : Int × Int} (hr : r + R ≤ g.rows) (hc : c + C ≤ g.cols) (h1 : 0 ≤ q.1 - r) (h2 : q.1 - r < R)
    (h3 : 0 ≤ q.2 - c) (h4 : q.2 - c < C) : (g.cut r c R C).get (q.1 - r) (q.2 - c) = g.get q.1 q.2 := by
  have a1 : pyIdx R (q.1 - r) = .ok (q.1 - r).toNat := if_pos ⟨h1, h2⟩
  have a2 : pyIdx C (q.2 - c) = .ok (q.2 - c).toNat := if_pos ⟨h3, h4⟩
  have a3 : pyIdx g.rows q.1 = .ok q.1.toNat := if_pos (by omega)
  have a4 : pyIdx g.cols q.2 = .ok q.2.toNat := if_pos (by omega)
  unfold Grid.get
  simp only [Grid.cut, a1, a2, a3, a4, ok_bind]
  have e1 : (q.1 - (r : Int)).toNat + r = q.1.toNat := by omega
  have e2 : (q.2 - (c : Int)).toNat + c = q.2.toNat := by omega
  rw [e1, e2]

/-- The window test at a cell that is not next to the outer ring of the part. -/
theorem CutOf.edge (H : CutOf A F r c R C P P') (G : Good P) {q : Int × Int} (hq : Deep R C (offset r c q)) :
    edgeInWindow P'.cellType (offset r c q).1 (offset r c q).2 = edgeInWindow P.cellType q.1 q.2 := by
  have hfr := H.fitR
  have hfc := H.fitC
  obtain ⟨x, y⟩ := q
  simp only [Deep, offset] at hq ⊢
  obtain ⟨a, ha⟩ : ∃ a : Nat, x - (r : Int) = a := ⟨(x - r).toNat, by omega⟩
  obtain ⟨b, hb⟩ : ∃ b : Nat, y - (c : Int) = b := ⟨(y - c).toNat, by omega⟩
  have ex : x = ((a + r : Nat) : Int) := by push_cast; omega
  have ey : y = ((b + c : Nat) : Int) := by push_cast; omega
  rw [ha, hb, ex, ey, Bool.eq_iff_iff, edgeInWindow_iff (by omega) (by omega), edgeInWindow_iff (by omega) (by omega)]
  rw [H.ctRows, H.ctCols, G.ct_rows, G.ct_cols]
  constructor
  · rintro ⟨i, j, hi, hj, h1, h2, h3⟩
    rw [H.cellType i j hi hj] at h3
    refine ⟨i + r, j + c, by omega, by omega, by omega, by omega, ?_⟩
    have h4 : (if i = 0 ∨ j = 0 ∨ i + 1 = R ∨ j + 1 = C then (-1 : Int) else P.cellType.at' (i + r) (j + c)) = -1 := h3
    rwa [if_neg (by omega)] at h4
  · rintro ⟨i, j, hi, hj, h1, h2, h3⟩
    refine ⟨i - r, j - c, by omega, by omega, by omega, by omega, ?_⟩
    rw [H.cellType _ _ (by omega) (by omega)]
    show (if _ then (-1 : Int) else P.cellType.at' (i - r + r) (j - c + c)) = -1
    rw [if_neg (by omega), show i - r + r = i by omega, show j - c + c = j by omega, h3]

/-- Cells next to the outer ring of the part. -/
theorem CutOf.edgeNear (H : CutOf A F r c R C P P') {q : Int × Int} (hin : Inside R C q) (hq : ¬ Deep R C q) :
    edgeInWindow P'.cellType q.1 q.2 = true := by
  obtain ⟨x, y⟩ := q
  simp only [Deep, Inside] at hq hin
  obtain ⟨a, rfl⟩ : ∃ a : Nat, x = a := ⟨x.toNat, by omega⟩
  obtain ⟨b, rfl⟩ : ∃ b : Nat, y = b := ⟨y.toNat, by omega⟩
  rw [edgeInWindow_iff (by omega) (by omega), H.ctRows, H.ctCols]
  have key : ∀ i j, i < R → j < C → (i = 0 ∨ j = 0 ∨ i + 1 = R ∨ j + 1 = C) → P'.cellType.at' i j = -1 := by
    intro i j hi hj h
    rw [H.cellType i j hi hj]
    exact if_pos h
  by_cases h1 : a = 1
  · exact ⟨0, b, by omega, by omega, by omega, by omega, key _ _ (by omega) (by omega) (by omega)⟩
  by_cases h2 : a + 2 = R
  · exact ⟨a + 1, b, by omega, by omega, by omega, by omega, key _ _ (by omega) (by omega) (by omega)⟩
  by_cases h3 : b = 1
  · exact ⟨a, 0, by omega, by omega, by omega, by omega, key _ _ (by omega) (by omega) (by omega)⟩
  exact ⟨a, b + 1, by omega, by omega, by omega, by omega, key _ _ (by omega) (by omega) (by omega)⟩

end build

end Dorado
