import Verif.Spec.Elsewhere
import Verif.Lemmas.CropReach
import Verif.Props.Weights
import Verif.Props.Safety

/-! Helper lemmas for C122: objects built from inputs that agree in part of the domain. -/

set_option linter.unusedSectionVars false

namespace Dorado

section build

variable {K : Type} [Field K] [LinearOrder K] [IsStrictOrderedRing K] {A : Arith K} {F : Fun K A} {p p' : Params K} {T : Nat → Nat → Prop}

theorem SameAtOpt.cases {α : Type} {o o' : Option (Grid α)} (h : SameAtOpt T o o') :
    (o = none ∧ o' = none) ∨ ∃ g g', o = some g ∧ o' = some g' ∧ g.SameAt T g' := by
  cases o <;> cases o'
  · exact Or.inl ⟨rfl, rfl⟩
  · exact h.elim
  · exact h.elim
  · exact Or.inr ⟨_, _, rfl, rfl, h⟩

theorem Grid.SameAt.map {α β : Type} {g g' : Grid α} (h : g.SameAt T g') (f : α → β) : (g.map f).SameAt T (g'.map f) :=
  ⟨h.rows, h.cols, fun i j hi hj ht => congrArg f (h.val i j hi hj ht)⟩

theorem needShape_iff {α β : Type} {g : Grid α} {h : Grid β} : needShape g h = .ok () ↔ g.rows = h.rows ∧ g.cols = h.cols := by
  simp [needShape, Grid.sameShape]

theorem Grid.SameAt.zip {α β γ : Type} {g g' : Grid α} {k k' : Grid β} (h : g.SameAt T g') (h' : k.SameAt T k') (hs : g.rows = k.rows ∧ g.cols = k.cols)
    (f : α → β → γ) : (Grid.zip f g k).SameAt T (Grid.zip f g' k') :=
  ⟨h.rows, h.cols, fun i j hi hj ht => by
    show f (g'.at' i j) (k'.at' i j) = f (g.at' i j) (k.at' i j)
    rw [h.val i j hi hj ht, h'.val i j (hs.1 ▸ hi) (hs.2 ▸ hj) ht]⟩

theorem needShape_sameAt {α β : Type} {T T' : Nat → Nat → Prop} {g g' : Grid α} {k k' : Grid β} (h : g.SameAt T g') (h' : k.SameAt T' k')
    (hn : needShape g k = .ok ()) : needShape g' k' = .ok () := by
  rw [needShape_iff] at hn ⊢
  rw [h.rows, h.cols, h'.rows, h'.cols]
  exact hn

theorem initDepth_same (hS : p.SameAt T p') {d : Grid (Fl K)} (hd : initDepth A p = .ok d) : ∃ d', initDepth A p' = .ok d' ∧ d.SameAt T d' := by
  unfold initDepth at hd ⊢
  rcases hS.depth.cases with ⟨e1, e1'⟩ | ⟨g, g', e1, e1', hg⟩
  · rcases hS.stage.cases with ⟨e2, e2'⟩ | ⟨s, s', e2, e2', hs⟩
    · simp [e1, e2] at hd
    · rcases hS.topography.cases with ⟨e3, e3'⟩ | ⟨t, t', e3, e3', ht⟩
      · simp [e1, e2, e3] at hd
      · simp only [e1, e2, e3, bind_ok, pure_ok] at hd
        obtain ⟨u, hu, rfl⟩ := hd
        simp only [e1', e2', e3', bind_ok, pure_ok]
        exact ⟨_, ⟨(), needShape_sameAt hs ht hu, rfl⟩, ((hs.zip ht (needShape_iff.1 hu) _).map _).map _⟩
  · simp only [e1] at hd
    simp only [e1']
    rw [← Except.ok.inj hd]
    exact ⟨_, rfl, hg.map _⟩

theorem initStage_same (hS : p.SameAt T p') {d d' s : Grid (Fl K)} (hdd : d.SameAt T d') (hs : initStage A p d = .ok s) :
    ∃ s', initStage A p' d' = .ok s' ∧ s.SameAt T s' := by
  unfold initStage at hs ⊢
  rcases hS.stage.cases with ⟨e1, e1'⟩ | ⟨g, g', e1, e1', hg⟩
  · rcases hS.topography.cases with ⟨e2, e2'⟩ | ⟨t, t', e2, e2', ht⟩
    · simp [e1, e2] at hs
    · rcases hS.depth.cases with ⟨e3, e3'⟩ | ⟨g, g', e3, e3', hg⟩
      · simp [e1, e2, e3] at hs
      · simp only [e1, e2, e3, bind_ok, pure_ok] at hs
        obtain ⟨u, hu, rfl⟩ := hs
        simp only [e1', e2', e3', bind_ok, pure_ok]
        exact ⟨_, ⟨(), needShape_sameAt ht hdd hu, rfl⟩, (ht.zip hdd (needShape_iff.1 hu) _).zip hdd (needShape_iff.1 hu) _⟩
  · simp only [e1, bind_ok, pure_ok] at hs
    obtain ⟨u, hu, rfl⟩ := hs
    simp only [e1', bind_ok, pure_ok]
    exact ⟨_, ⟨(), needShape_sameAt hg hdd hu, rfl⟩, hg.zip hdd (needShape_iff.1 hu) _⟩

/-- The four flow fields agree. -/
def SameFlow (T : Nat → Nat → Prop) (x x' : Grid (Fl K) × Grid (Fl K) × Grid (Fl K) × Grid (Fl K)) : Prop :=
  x.1.SameAt T x'.1 ∧ x.2.1.SameAt T x'.2.1 ∧ x.2.2.1.SameAt T x'.2.2.1 ∧ x.2.2.2.SameAt T x'.2.2.2 ∧
    x.2.2.1.rows = x.2.2.2.rows ∧ x.2.2.1.cols = x.2.2.2.cols

theorem flowFromQ_same {a a' b b' d d' : Grid (Fl K)} (ha : a.SameAt T a') (hb : b.SameAt T b') (hd : d.SameAt T d') {x}
    (h : flowFromQ A a b d = .ok x) : ∃ x', flowFromQ A a' b' d' = .ok x' ∧ SameFlow T x x' := by
  unfold flowFromQ at h ⊢
  simp only [bind_ok, pure_ok] at h ⊢
  obtain ⟨u, hu, v, hv, rfl⟩ := h
  refine ⟨_, ⟨(), needShape_sameAt ha hd hu, (), needShape_sameAt hb hd hv, rfl⟩, ha.map _, hb.map _, ?_, ?_, ?_, ?_⟩
  · exact ((ha.map _).zip hd (needShape_iff.1 hu) _).map _
  · exact ((hb.map _).zip hd (needShape_iff.1 hv) _).map _
  · exact (needShape_iff.1 hu).1.trans (needShape_iff.1 hv).1.symm
  · exact (needShape_iff.1 hu).2.trans (needShape_iff.1 hv).2.symm

theorem flowFromU_same {a a' b b' d d' : Grid (Fl K)} (ha : a.SameAt T a') (hb : b.SameAt T b') (hd : d.SameAt T d') {x}
    (h : flowFromU A a b d = .ok x) : ∃ x', flowFromU A a' b' d' = .ok x' ∧ SameFlow T x x' := by
  unfold flowFromU at h ⊢
  simp only [bind_ok, pure_ok] at h ⊢
  obtain ⟨u, hu, v, hv, rfl⟩ := h
  refine ⟨_, ⟨(), needShape_sameAt ha hd hu, (), needShape_sameAt hb hd hv, rfl⟩, ?_, ?_, ha.map _, hb.map _, ?_, ?_⟩
  · exact (ha.map _).zip hd (needShape_iff.1 hu) _
  · exact (hb.map _).zip hd (needShape_iff.1 hv) _
  · exact (needShape_iff.1 hu).1.trans (needShape_iff.1 hv).1.symm
  · exact (needShape_iff.1 hu).2.trans (needShape_iff.1 hv).2.symm

theorem initFlow_same (hS : p.SameAt T p') {d d' : Grid (Fl K)} (hdd : d.SameAt T d') {x} (hf : initFlow A p d = .ok x) :
    ∃ x', initFlow A p' d' = .ok x' ∧ SameFlow T x x' := by
  have hm : p'.deltaRCM = p.deltaRCM := (by have h := congrArg Params.deltaRCM hS.bare; exact h)
  unfold initFlow at hf ⊢
  rw [hm]
  cases e0 : p.deltaRCM <;> rcases hS.qx.cases with ⟨e1, e1'⟩ | ⟨g1, g1', e1, e1', h1⟩ <;> rcases hS.qy.cases with ⟨e2, e2'⟩ | ⟨g2, g2', e2, e2', h2⟩ <;>
    rcases hS.u.cases with ⟨e3, e3'⟩ | ⟨g3, g3', e3, e3', h3⟩ <;> rcases hS.v.cases with ⟨e4, e4'⟩ | ⟨g4, g4', e4, e4', h4⟩ <;>
    simp only [e0, e1, e2, e3, e4] at hf <;> simp only [e1', e2', e3', e4'] <;>
    first
    | cases hf
    | exact flowFromQ_same h1 h2 hdd hf
    | exact flowFromU_same h3 h4 hdd hf
    | exact flowFromQ_same (h2.map _) h1 hdd hf
    | exact flowFromU_same (h4.map _) h3 hdd hf

theorem initCellType_same (hS : p.SameAt T p') {d d' : Grid (Fl K)} (hdd : d.SameAt T d') {dry : K} {ct : Grid Int} (hct : initCellType p d dry = .ok ct) :
    ∃ ct', initCellType p' d' dry = .ok ct' ∧ ct.SameAt T ct' := by
  unfold initCellType at hct ⊢
  rcases hS.cellType.cases with ⟨e, e'⟩ | ⟨g, g', e, e', hg⟩
  · simp only [e] at hct
    simp only [e']
    rw [hdd.rows, hdd.cols]
    split at hct
    · cases hct
    · rename_i hne
      rw [if_neg hne, ← Except.ok.inj hct]
      refine ⟨_, rfl, hdd.rows, hdd.cols, fun i j hi hj ht => ?_⟩
      unfold defaultCellType
      simp only
      rw [hdd.rows, hdd.cols, hdd.val i j hi hj ht]
  · simp only [e, bind_ok] at hct
    simp only [e', bind_ok]
    obtain ⟨u, hu, hct⟩ := hct
    rw [hdd.rows, hdd.cols]
    split at hct
    · cases hct
    · rename_i hne
      rw [pure_ok] at hct
      subst hct
      exact ⟨_, ⟨(), needShape_sameAt hg hdd hu, by rw [if_neg hne]; rfl⟩, hg⟩

/-- Two objects that agree in the cells `T`. -/
structure ObjSameAt (T : Nat → Nat → Prop) (P P' : PObj K) : Prop where
  depth : P.depth.SameAt T P'.depth
  stage : P.stage.SameAt T P'.stage
  qx : P.qx.SameAt T P'.qx
  qy : P.qy.SameAt T P'.qy
  velocity : P.velocity.SameAt T P'.velocity
  velocityAngle : P.velocityAngle.SameAt T P'.velocityAngle
  cellType : P.cellType.SameAt T P'.cellType
  dx : P'.dx = P.dx
  theta : P'.theta = P.theta
  gamma : P'.gamma = P.gamma
  diff : P'.diffCoeff = P.diffCoeff
  dry : P'.dryDepth = P.dryDepth
  steepest : P'.steepest = P.steepest
  distances : P'.distances = P.distances
  ivec : P'.ivec = P.ivec
  jvec : P'.jvec = P.jvec
  iwalk : P'.iwalk = P.iwalk
  jwalk : P'.jwalk = P.jwalk
  angles : P'.angles = P.angles

theorem init_same (hS : p.SameAt T p') {P : PObj K} (hP : initParticles A F p = .ok P) :
    ∃ P', initParticles A F p' = .ok P' ∧ ObjSameAt T P P' := by
  obtain ⟨u, v, X⟩ := init_parts _ _ hP
  have b := hS.bare
  have bdx : p'.dx = p.dx := (by have h := congrArg Params.dx b; exact h)
  have bdry : p'.dryDepth = p.dryDepth := (by have h := congrArg Params.dryDepth b; exact h)
  obtain ⟨d', hd', sd⟩ := initDepth_same hS X.depth
  obtain ⟨s', hs', ss⟩ := initStage_same hS sd X.stage
  obtain ⟨⟨qx', qy', u', v'⟩, hf', sqx, sqy, su, sv, e1, e2⟩ := initFlow_same hS sd X.flow
  obtain ⟨ct', hct', sct⟩ := initCellType_same hS sd X.ct
  have hroi : checkRoi p' d' = .ok () := by
    have := X.roiShape
    unfold checkRoi at this ⊢
    rcases hS.roi.cases with ⟨e, e'⟩ | ⟨g, g', e, e', hg⟩
    · rw [e']
    · rw [e] at this
      rw [e']
      exact needShape_sameAt hg sd this
  obtain ⟨P', hP', h1, h2, h3, h4, h5⟩ := init_mk (F := F) (p := p') (dx := P.dx) (bdx.trans X.dx) hd' hs' hf'
    (by rw [bdry, ← X.dry]; exact hct') hroi
  obtain ⟨u2, v2, Y⟩ := init_parts _ _ hP'
  have hx := Y.flow
  rw [h1, hf'] at hx
  have hx := Except.ok.inj hx
  simp only [Prod.mk.injEq] at hx
  obtain ⟨-, -, rfl, rfl⟩ := hx
  refine ⟨P', hP', by rw [h1]; exact sd, by rw [h2]; exact ss, by rw [h3]; exact sqx, by rw [h4]; exact sqy, ?_, ?_, by rw [h5]; exact sct, ?_, ?_, ?_, ?_, ?_, ?_, ?_, ?_, ?_, ?_, ?_, ?_⟩
  · rw [Y.vel, X.vel]
    exact (su.zip sv ⟨e1, e2⟩ _).map _
  · rw [Y.ang, X.ang, Y.uEq, Y.vEq, X.uEq, X.vEq]
    exact ((su.map _).map _).zip (sv.map _) ⟨e1, e2⟩ _
  · have := bdx.symm.trans Y.dx
    rw [X.dx] at this
    exact (Option.some.inj this).symm
  · rw [Y.theta, X.theta, show p'.theta = p.theta from (by have h := congrArg Params.theta b; exact h)]
  · rw [Y.gamma, X.gamma, show p'.gamma = p.gamma from (by have h := congrArg Params.gamma b; exact h)]
  · rw [Y.diff, X.diff]
    unfold initDiff
    rw [show p'.diffCoeff = p.diffCoeff from (by have h := congrArg Params.diffCoeff b; exact h), show p'.steepest = p.steepest from (by have h := congrArg Params.steepest b; exact h)]
  · rw [Y.dry, X.dry, bdry]
  · rw [Y.steepest, X.steepest, show p'.steepest = p.steepest from (by have h := congrArg Params.steepest b; exact h)]
  · rw [Y.distances, X.distances, show p'.distances = p.distances from (by have h := congrArg Params.distances b; exact h)]
  · rw [Y.ivec, X.ivec, show p'.ivec = p.ivec from (by have h := congrArg Params.ivec b; exact h)]
  · rw [Y.jvec, X.jvec, show p'.jvec = p.jvec from (by have h := congrArg Params.jvec b; exact h)]
  · rw [Y.iwalk, X.iwalk, show p'.iwalk = p.iwalk from (by have h := congrArg Params.iwalk b; exact h)]
  · rw [Y.jwalk, X.jwalk, show p'.jwalk = p.jwalk from (by have h := congrArg Params.jwalk b; exact h)]
  · rw [Y.angles, X.angles, show p'.angles = p.angles from (by have h := congrArg Params.angles b; exact h)]

end build

noncomputable section

variable {A : Arith ℝ} {F : Fun ℝ A} {P P' : PObj ℝ} {R C : Nat} {T : Nat → Nat → Prop}

/-- What of two objects decides how particles at the cells `S` move. -/
structure MovesSame (A : Arith ℝ) (F : Fun ℝ A) (S : Int × Int → Prop) (P P' : PObj ℝ) : Prop where
  pick : ∀ q, S q → ∀ u, pickOf A F P' q u = pickOf A F P q u
  dest : ∀ q, S q → ∀ k, destOf A P' q k = destOf A P q k
  dur : ∀ q, S q → ∀ k v, durOf A F P' q k v = durOf A F P q k v
  edge : ∀ q, S q → edgeInWindow P'.cellType q.1 q.2 = edgeInWindow P.cellType q.1 q.2
  diff : P'.diffCoeff = P.diffCoeff

theorem get_same {α : Type} {g g' : Grid α} (h : g.SameAt T g') {q : Int × Int} (h1 : 0 ≤ q.1) (h2 : q.1 < g.rows) (h3 : 0 ≤ q.2) (h4 : q.2 < g.cols)
    (ht : T q.1.toNat q.2.toNat) : g'.get q.1 q.2 = g.get q.1 q.2 := by
  have a1 : pyIdx g.rows q.1 = .ok q.1.toNat := if_pos ⟨h1, h2⟩
  have a2 : pyIdx g.cols q.2 = .ok q.2.toNat := if_pos ⟨h3, h4⟩
  unfold Grid.get
  simp only [h.rows, h.cols, a1, a2, ok_bind]
  rw [h.val _ _ (by omega) (by omega) ht]

theorem ObjSameAt.moves (H : ObjSameAt T P P') (hE : Enclosed A F R C P) (hB' : Built A F P') :
    MovesSame A F (fun q => Inside R C q ∧ Surrounded T q) P P' := by
  have G := hE.built.good
  have G' := hB'.good
  have hf := hE.built.fields
  have hR := hE.rows
  have hC := hE.cols
  have hedge : ∀ q, Inside R C q ∧ Surrounded T q → edgeInWindow P'.cellType q.1 q.2 = edgeInWindow P.cellType q.1 q.2 := by
    rintro ⟨x, y⟩ ⟨hi, hs⟩
    simp only [Inside] at hi
    obtain ⟨a, rfl⟩ : ∃ a : Nat, x = a := ⟨x.toNat, by omega⟩
    obtain ⟨b, rfl⟩ : ∃ b : Nat, y = b := ⟨y.toNat, by omega⟩
    rw [Bool.eq_iff_iff, edgeInWindow_iff (by omega) (by omega), edgeInWindow_iff (by omega) (by omega), H.cellType.rows, H.cellType.cols]
    refine exists_congr fun i => exists_congr fun j => and_congr_right fun h1 => and_congr_right fun h2 => and_congr_right fun h3 => and_congr_right fun h4 => ?_
    rw [H.cellType.val i j h1 h2 (hs i j (by rw [abs_le]; simp only; omega) (by rw [abs_le]; simp only; omega))]
  have hdest : ∀ q, Inside R C q ∧ Surrounded T q → ∀ k, destOf A P' q k = destOf A P q k := by
    intro q hq k
    unfold destOf newInd1 calculateNewInd checkForBoundary1
    rw [H.distances, H.dx, H.iwalk, H.jwalk, hedge q hq]
  refine ⟨?_, hdest, ?_, hedge, H.diff⟩
  · rintro ⟨x, y⟩ ⟨hi, hs⟩ u
    simp only [Inside] at hi
    have sr := G.stage_rows
    have sc := G.stage_cols
    unfold pickOf
    rw [H.stage.rows, H.stage.cols]
    have a1 : pyIdx P.stage.rows x = .ok x.toNat := if_pos (by omega)
    have a2 : pyIdx P.stage.cols y = .ok y.toNat := if_pos (by omega)
    simp only [a1, a2]
    have hT : ∀ a b, InWindow x.toNat y.toNat a b → T a b ∧ a < P.depth.rows ∧ b < P.depth.cols := by
      intro a b hw
      unfold InWindow at hw
      exact ⟨hs a b (by rw [abs_le]; simp only; omega) (by rw [abs_le]; simp only; omega), by omega, by omega⟩
    have hwt := C05_local A F hE.built hB' ⟨H.depth.rows, H.depth.cols, H.theta, H.gamma, H.dry, H.distances, H.ivec, H.jvec⟩ (i := x.toNat) (j := y.toNat)
      (fun a b hw => H.depth.val a b (hT a b hw).2.1 (hT a b hw).2.2 (hT a b hw).1)
      (fun a b hw => H.stage.val a b (by have := (hT a b hw).2.1; omega) (by have := (hT a b hw).2.2; omega) (hT a b hw).1)
      (fun a b hw => H.cellType.val a b (by rw [G.ct_rows]; exact (hT a b hw).2.1) (by rw [G.ct_cols]; exact (hT a b hw).2.2) (hT a b hw).1)
      (H.qx.val _ _ (by rw [hf.qx.2.1]; omega) (by rw [hf.qx.2.2]; omega) (hT _ _ (by unfold InWindow; omega)).1)
      (H.qy.val _ _ (by rw [hf.qy.2.1]; omega) (by rw [hf.qy.2.2]; omega) (hT _ _ (by unfold InWindow; omega)).1)
    have hm : ∀ k, k < 9 → maskOf P' (makeWeight A F P' x.toNat y.toNat) k = maskOf P (makeWeight A F P x.toNat y.toNat) k := by
      intro k hk
      unfold maskOf
      rw [H.steepest]
      split
      · exact steepMask_congr hwt hk
      · unfold zeroNan
        exact congrArg Fl.nanTo0 (hwt k hk)
    rw [pickFrom_congr A hm]
  · intro q hq k v
    unfold durOf
    rw [H.distances, H.dx, hdest q hq k]
    obtain ⟨hi, hs⟩ := hq
    obtain ⟨n1, n2⟩ := destOf_near hE.walk hE.steps q k
    simp only [Inside] at hi
    rw [abs_le] at n1 n2
    have hcalc : ∀ d, calcTravelTime A F P' (fun _ => v) 0 k q (destOf A P q k) d = calcTravelTime A F P (fun _ => v) 0 k q (destOf A P q k) d := by
      intro d
      unfold calcTravelTime
      have vr := hf.vel_rows
      have vc := hf.vel_cols
      have ar := hf.ang.2.1
      have ac := hf.ang.2.2
      have ts : T q.1.toNat q.2.toNat := hs _ _ (by rw [abs_le]; omega) (by rw [abs_le]; omega)
      rw [get_same H.velocity (by omega) (by omega) (by omega) (by omega) ts, get_same H.velocityAngle (by omega) (by omega) (by omega) (by omega) ts,
        get_same H.velocity (by omega) (by omega) (by omega) (by omega) (hs _ _ (by rw [abs_le]; omega) (by rw [abs_le]; omega)), H.angles, H.diff]
    simp only [hcalc]

/-! ### Machines -/

/-- Two actions that do the same to particles at the cells `S`. -/
structure OpSame (S : Int × Int → Prop) (o o' : Op Mach) : Prop where
  need : ∀ m : Mach, S m.1.cur → (o.need m ↔ o'.need m)
  draw : ∀ m : Mach, S m.1.cur → ∀ u, o'.draw m u = o.draw m u
  skip : ∀ m : Mach, S m.1.cur → o'.skip m = o.skip m
  grows : ∀ m x, o.out m x → Adds m x

variable {S : Int × Int → Prop} (H : MovesSame A F S P P')

include H in
theorem step_same {m : Mach} (h : S m.1.cur) (v : ℝ) : m.step A F P' v = m.step A F P v := by
  unfold Mach.step
  rw [H.dest _ h, H.dur _ h]

include H in
theorem goes_same {m : Mach} (h : S m.1.cur) : m.1.goes A P' ↔ m.1.goes A P := by
  unfold Disc.goes
  rw [H.dest _ h]

include H in
theorem move_same {m : Mach} (h : S m.1.cur) (v : ℝ) : m.move A F P' v = m.move A F P v := by
  unfold Mach.move
  rw [step_same H h, propext (goes_same H h)]

include H in
theorem advance_same (maxIter : Int) {m : Mach} (h : S m.1.cur) (v : ℝ) : m.advance A F P' maxIter v = m.advance A F P maxIter v := by
  unfold Mach.advance
  rw [step_same H h, propext (goes_same H h)]

include H in
theorem callOps_same {ι : Type} (l : List ι) (x : Option (Fl ℝ) × Int) :
    List.Forall₂ (fun a b : ι × Op Mach => a.1 = b.1 ∧ OpSame S a.2 b.2) (callOps A F P l x) (callOps A F P' l x) := by
  have h1 : OpSame S (pickOp A F P) (pickOp A F P') :=
    ⟨fun _ _ => Iff.rfl, fun m h u => by show (_, _) = (_, _); rw [H.pick _ h], fun _ _ => rfl, by rintro m x (rfl | ⟨u, rfl⟩) <;> exact .same rfl rfl⟩
  have h2 : OpSame S (timeOp A F P) (timeOp A F P') :=
    ⟨fun m h => by show _ ∧ _ ↔ _ ∧ _; rw [goes_same H h, H.diff], fun m h u => move_same H h u, fun m h => move_same H h 0, by
      rintro m x (rfl | ⟨u, rfl⟩) <;> exact move_grows m _⟩
  obtain ⟨_ | target, maxIter⟩ := x
  · refine List.rel_append ?_ ?_
    · induction l with
      | nil => exact .nil
      | cons i l ih => exact .cons ⟨rfl, h1⟩ ih
    · induction l with
      | nil => exact .nil
      | cons i l ih => exact .cons ⟨rfl, h2⟩ ih
  · have h3 : OpSame S (startOp A P) (startOp A P') :=
      ⟨fun _ _ => Iff.rfl, fun _ _ _ => rfl, fun m h => by show (_, _) = (_, _); rw [H.edge _ h], by rintro m x (rfl | ⟨u, rfl⟩) <;> exact .same rfl rfl⟩
    have h4 : OpSame S (loopPick A F P target) (loopPick A F P' target) :=
      ⟨fun _ _ => Iff.rfl, fun m h u => by show (_, _) = (_, _); rw [H.pick _ h], fun _ _ => rfl, by rintro m x (rfl | ⟨u, rfl⟩) <;> exact .same rfl rfl⟩
    have h5 : OpSame S (loopTime A F P maxIter) (loopTime A F P' maxIter) :=
      ⟨fun m h => by show _ ∧ _ ∧ _ ↔ _ ∧ _ ∧ _; rw [goes_same H h, H.diff], fun m h u => advance_same H maxIter h u,
        fun m h => advance_same H maxIter h 0, by rintro m x (rfl | ⟨u, rfl⟩) <;> exact advance_grows maxIter m _⟩
    have hops : List.Forall₂ (OpSame S) (targetOps A F P target maxIter) (targetOps A F P' target maxIter) := by
      refine .cons h3 ?_
      generalize maxIter.toNat + 1 = n
      induction n with
      | zero => exact .nil
      | succ n ih => exact .cons h4 (.cons h5 ih)
    show List.Forall₂ _ (l.flatMap _) (l.flatMap _)
    induction l with
    | nil => exact .nil
    | cons i l ih =>
      refine List.rel_append ?_ ih
      rw [List.forall₂_map_left_iff, List.forall₂_map_right_iff]
      exact hops.imp fun _ _ h => ⟨rfl, h⟩

include H in
theorem callsOps_same {N : Nat} (calls : List (Option (Fl ℝ) × Int)) :
    List.Forall₂ (fun a b : Fin N × Op Mach => a.1 = b.1 ∧ OpSame S a.2 b.2) (callsOps A F P N calls) (callsOps A F P' N calls) := by
  unfold callsOps
  induction calls with
  | nil => exact .nil
  | cons x calls ih => exact List.rel_append (callOps_same H _ x) ih

theorem deal_adds {ι : Type} {L L' : List (ι × Op Mach)} (hL : List.Forall₂ (fun a b : ι × Op Mach => a.1 = b.1 ∧ OpSame S a.2 b.2) L L') (ω : Nat → ℝ)
    (x : (ι → Mach) × Nat) (i : ι) : ∃ l, ((deal ω L x).1 i).1.cells = (x.1 i).1.cells ++ l := by
  classical
  induction hL generalizing x with
  | nil => exact ⟨[], by simp [deal_nil]⟩
  | @cons a b L L' hab _ ih =>
    rw [deal_cons]
    obtain ⟨l, hl⟩ := ih (dealStep ω x a)
    obtain ⟨y, hy, h1, h2⟩ := dealStep_out ω x a
    rw [hl]
    by_cases hi : i = a.1
    · subst hi
      obtain ⟨⟨l', hl', -⟩, -⟩ := hab.2.grows _ _ hy
      exact ⟨l' ++ l, by rw [h1, hl', List.append_assoc]⟩
    · exact ⟨l, by rw [h2 i hi]⟩

/-- All particles together, as long as none leaves the cells `S`. -/
theorem deal_same {ι : Type} {L L' : List (ι × Op Mach)} (hL : List.Forall₂ (fun a b : ι × Op Mach => a.1 = b.1 ∧ OpSame S a.2 b.2) L L') (ω : Nat → ℝ)
    {x : (ι → Mach) × Nat} (hne : ∀ i, (x.1 i).1.cells ≠ []) (hd : ∀ i, ∀ p ∈ ((deal ω L x).1 i).1.cells, S p) : deal ω L' x = deal ω L x := by
  classical
  induction hL generalizing x with
  | nil => rfl
  | @cons a b L L' hab hL ih =>
    have hcur : S (x.1 a.1).1.cur := by
      refine hd a.1 _ ?_
      obtain ⟨l, hl⟩ := deal_adds (List.Forall₂.cons hab hL) ω x a.1
      rw [hl]
      refine List.mem_append_left _ ?_
      unfold Disc.cur
      rw [List.getLastD_eq_getLast?, List.getLast?_eq_some_getLast (hne _)]
      exact List.getLast_mem (hne _)
    rw [deal_cons] at hd
    rw [deal_cons, deal_cons]
    have e : dealStep ω x b = dealStep ω x a := by
      obtain ⟨i, o⟩ := a
      obtain ⟨i', o'⟩ := b
      obtain ⟨rfl, hp⟩ : i = i' ∧ OpSame S o o' := hab
      unfold dealStep
      simp only at hcur ⊢
      rw [hp.draw _ hcur, hp.skip _ hcur]
      exact if_congr (hp.need _ hcur).symm rfl rfl
    rw [e]
    refine ih (fun i => ?_) hd
    obtain ⟨y, hy, h1, h2⟩ := dealStep_out ω x a
    by_cases hi : i = a.1
    · subst hi
      obtain ⟨⟨l', hl', -⟩, -⟩ := hab.2.grows _ _ hy
      rw [h1, hl']
      simp [hne]
    · rw [h2 i hi]
      exact hne i

end

end Dorado
