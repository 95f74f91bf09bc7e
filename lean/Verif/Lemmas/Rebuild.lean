import Verif.Lemmas.Build

/-! # Lemmas about building twice from the same arrays -/

set_option linter.unusedSectionVars false

namespace Dorado

variable {K : Type} [Field K] [LinearOrder K] [IsStrictOrderedRing K] {A : Arith K} {F : Fun K A}

/-- The same array up to missing values. -/
def CleanOf (g g' : Grid (Fl K)) : Prop := nanZeroGrid g' = nanZeroGrid g

theorem CleanOf.rows {g g' : Grid (Fl K)} (h : CleanOf g g') : g'.rows = g.rows := by
  have := congrArg Grid.rows h; exact this
theorem CleanOf.cols {g g' : Grid (Fl K)} (h : CleanOf g g') : g'.cols = g.cols := by
  have := congrArg Grid.cols h; exact this

theorem CleanOf.shape {g g' : Grid (Fl K)} (h : CleanOf g g') (d : Grid (Fl K)) : needShape g' d = needShape g d := by
  unfold needShape Grid.sameShape; rw [h.rows, h.cols]

theorem CleanOf.neg {g g' : Grid (Fl K)} (h : CleanOf g g') : CleanOf (negGrid g) (negGrid g') := by
  unfold CleanOf at *; rw [nanZero_neg, nanZero_neg, h]

theorem flowFromQ_clean {a a' b b' d : Grid (Fl K)} (ha : CleanOf a a') (hb : CleanOf b b') :
    flowFromQ A a' b' d = flowFromQ A a b d := by
  unfold flowFromQ
  rw [ha.shape, hb.shape, show nanZeroGrid a' = _ from ha, show nanZeroGrid b' = _ from hb]

theorem flowFromU_clean {a a' b b' d : Grid (Fl K)} (ha : CleanOf a a') (hb : CleanOf b b') :
    flowFromU A a' b' d = flowFromU A a b d := by
  unfold flowFromU
  rw [ha.shape, hb.shape, show nanZeroGrid a' = _ from ha, show nanZeroGrid b' = _ from hb]

theorem initFlow_clean {h h' : ArrHeap K} {p : RParams K} (hc : ∀ r ∈ p.flowRefs, CleanOf (h.arr r) (h'.arr r)) (d : Grid (Fl K)) :
    initFlow A (p.val h') d = initFlow A (p.val h) d := by
  have c1 : ∀ r, p.qx = some r → CleanOf (h.arr r) (h'.arr r) := fun r hr => hc r (mem_flowRefs.2 (by tauto))
  have c2 : ∀ r, p.qy = some r → CleanOf (h.arr r) (h'.arr r) := fun r hr => hc r (mem_flowRefs.2 (by tauto))
  have c3 : ∀ r, p.u = some r → CleanOf (h.arr r) (h'.arr r) := fun r hr => hc r (mem_flowRefs.2 (by tauto))
  have c4 : ∀ r, p.v = some r → CleanOf (h.arr r) (h'.arr r) := fun r hr => hc r (mem_flowRefs.2 (by tauto))
  unfold initFlow
  simp only [RParams.val]
  cases hm : p.base.deltaRCM <;> cases hqx : p.qx <;> cases hqy : p.qy <;> cases hua : p.u <;> cases hvb : p.v <;>
    simp only [Option.map_some, Option.map_none] <;>
    first
    | rfl
    | exact flowFromQ_clean (c1 _ hqx) (c2 _ hqy)
    | exact flowFromQ_clean (c2 _ hqy).neg (c1 _ hqx)
    | exact flowFromU_clean (c3 _ hua) (c4 _ hvb)
    | exact flowFromU_clean (c4 _ hvb).neg (c3 _ hua)

theorem NoSmall.clamp {g : Grid (Fl K)} (h : NoSmall A g) : clampSmall A (nanZeroGrid g) = g := by
  unfold clampSmall nanZeroGrid Grid.map
  cases g with
  | mk r c f =>
    congr 1; funext i j
    obtain ⟨h1, h2⟩ := h i j
    have e : Fl.nanTo0 (f i j) = f i j := by
      simp only at h1
      cases hf : f i j <;> simp_all [Fl.nanTo0, Fl.isNan]
    simp only [e]
    simp only at h2
    rw [if_neg]
    show ¬ Fl.lt (Fl.abs (f i j)) (.fin (A.rnd (1 / 100000000))) = true
    rw [h2]; simp

/-- Depth and stage as read by a second construction. -/
theorem SameArrays.flowRefs {p p2 : RParams K} (hs : SameArrays p p2) : p2.flowRefs = p.flowRefs := by
  unfold RParams.flowRefs; rw [hs.qx, hs.qy, hs.u, hs.v]

theorem SameArrays.refs {p p2 : RParams K} (hs : SameArrays p p2) : p2.refs = p.refs := by
  unfold RParams.refs; rw [hs.flowRefs, hs.depth, hs.stage, hs.topography]

theorem SameArrays.apart {h h' : ArrHeap K} {p p2 : RParams K} (hs : SameArrays p p2) (ha : Apart h p) (hn : h.next ≤ h'.next) :
    Apart h' p2 := by
  constructor
  · intro r hr; rw [hs.refs] at hr; exact (ha.used r hr).trans_le hn
  · rw [hs.depth, hs.stage, hs.topography]; exact ha.nodup
  · rw [hs.depth, hs.stage, hs.topography, hs.flowRefs]; exact ha.flow

theorem initDepth_congr {p p' : Params K} (h1 : p'.depth = p.depth) (h2 : p'.stage = p.stage) (h3 : p'.topography = p.topography) :
    initDepth A p' = initDepth A p := by
  unfold initDepth; rw [h1, h2, h3]

theorem SameArrays.initDepth {p p2 : RParams K} (hs : SameArrays p p2) (h : ArrHeap K) :
    initDepth A (p2.val h) = initDepth A (p.val h) := by
  refine initDepth_congr ?_ ?_ ?_ <;> simp only [RParams.val, hs.depth, hs.stage, hs.topography]

theorem Fl.eq_zero {x : Fl K} (h : Fl.eq x (.fin 0) = true) : x = .fin 0 := by
  cases x <;> simp_all [Fl.eq]

theorem sub_nan_left (b : Fl K) : A.sub .nan b = .nan := by cases b <;> rfl

theorem depth_cell (a b : Fl K) (z : Fl K → Fl K) (hz : z = fun x => Fl.nanTo0 (if Fl.lt x (.fin 0) = true then .fin 0 else x)) :
    z (A.sub (if Fl.eq (z (A.sub a b)) (.fin 0) = true then .nan else a) b) = z (A.sub a b) := by
  by_cases h : Fl.eq (z (A.sub a b)) (.fin 0) = true
  · rw [if_pos h, sub_nan_left, Fl.eq_zero h, hz]; rfl
  · rw [if_neg h]

section post
variable {h h' : ArrHeap K} {p p' p2 : RParams K} {o : RObj K}

theorem BuildPost.depthVal (B : BuildPost A F h p h' p' o) : initDepth A (p.val h) = .ok (h'.arr o.depth) := by
  obtain ⟨u, v, X⟩ := init_parts A F B.init
  exact X.depth

/-- A flow array is unchanged, or cleaned, or cleaned and clamped. -/
theorem BuildPost.flowArr (B : BuildPost A F h p h' p' o) (ha : Apart h p) {r : Nat} (hr : r ∈ p.flowRefs) :
    h'.arr r = h.arr r ∨ (p.GivesQ ∧ h'.arr r = nanZeroGrid (h.arr r)) ∨
    (¬p.GivesQ ∧ (p.u = some r ∨ p.base.deltaRCM = true ∧ p.v = some r) ∧ h'.arr r = clampSmall A (nanZeroGrid (h.arr r))) := by
  obtain ⟨fd, fs, ft, ff⟩ := ha.facts
  rcases B.changes r (ff r hr) with h | ⟨hd, h⟩ | ⟨hd, h⟩ | ⟨g, hd, h⟩ | ⟨g, hd, h⟩
  · exact Or.inl h
  · exact absurd hr (fd r hd).2.2.2
  · exact absurd hr (fs r hd).2.2
  · exact Or.inr (Or.inl ⟨g, h⟩)
  · exact Or.inr (Or.inr ⟨g, hd, h⟩)

theorem BuildPost.topoArr (B : BuildPost A F h p h' p' o) (ha : Apart h p) {r : Nat} (hr : p.topography = some r) : h'.arr r = h.arr r := by
  obtain ⟨fd, fs, ft, ff⟩ := ha.facts
  obtain ⟨hn, hf⟩ := ft r hr
  rw [mem_flowRefs] at hf
  rcases B.changes r hn with h | ⟨hd, h⟩ | ⟨hd, h⟩ | ⟨g, hd, h⟩ | ⟨g, hd, h⟩
  · exact h
  · exact absurd hr (fd r hd).2.2.1
  · exact absurd hr (fs r hd).2.1
  · exact absurd hd (by tauto)
  · exact absurd hd (by tauto)

theorem BuildPost.depthArr (B : BuildPost A F h p h' p' o) (_ha : Apart h p) {r : Nat} (hr : p.depth = some r) :
    h'.arr r = nanZeroGrid (h.arr r) := by
  have hv := B.depthVal
  rcases B.depthRef with hd | ⟨hd, -⟩
  · rw [hr] at hd; injection hd with hd; subst hd
    unfold Dorado.initDepth at hv
    simp only [RParams.val, hr, Option.map_some] at hv
    injection hv with hv
    exact hv.symm
  · rw [hr] at hd; cases hd

theorem BuildPost.stageArr (B : BuildPost A F h p h' p' o) (_ha : Apart h p) {r : Nat} (hr : p.stage = some r) :
    h'.arr r = stageNan (h.arr r) (h'.arr o.depth) := by
  obtain ⟨u, v, X⟩ := init_parts A F B.init
  have hv : initStage A (p.val h) (h'.arr o.depth) = .ok (h'.arr o.stage) := X.stage
  rcases B.stageRef with hd | ⟨hd, -⟩
  · rw [hr] at hd; injection hd with hd; subst hd
    unfold initStage at hv
    simp only [RParams.val, hr, Option.map_some, bind_ok, pure_ok] at hv
    obtain ⟨x, -, hv⟩ := hv
    exact hv.symm
  · rw [hr] at hd; cases hd

theorem BuildPost.depthAgain (B : BuildPost A F h p h' p' o) (ha : Apart h p) (hs : SameArrays p p2) :
    initDepth A (p2.val h') = initDepth A (p2.val h) := by
  rw [hs.initDepth, hs.initDepth]
  have hv := B.depthVal
  cases hd : p.depth with
  | some d =>
    unfold Dorado.initDepth
    simp only [RParams.val, hd, Option.map_some, B.depthArr ha hd, nanZero_idem]
  | none =>
    cases hst : p.stage with
    | none => unfold Dorado.initDepth; simp [RParams.val, hd, hst]
    | some s =>
      cases ht : p.topography with
      | none => unfold Dorado.initDepth; simp [RParams.val, hd, hst, ht]
      | some t =>
        rw [hv]
        unfold Dorado.initDepth at hv ⊢
        simp only [RParams.val, hd, hst, ht, Option.map_some, Option.map_none, bind_ok, pure_ok, B.topoArr ha ht, B.stageArr ha hst] at hv ⊢
        obtain ⟨x, hx, hv⟩ := hv
        refine ⟨x, hx, ?_⟩
        rw [← hv]
        unfold nanZeroGrid Grid.map stageNan Grid.zip
        dsimp only
        congr 1
        funext i j
        exact depth_cell _ _ _ rfl

theorem BuildPost.stageAgain (B : BuildPost A F h p h' p' o) (ha : Apart h p) (hs : SameArrays p p2) {D : Grid (Fl K)}
    (hD : initDepth A (p2.val h) = .ok D) : initStage A (p2.val h') D = initStage A (p2.val h) D := by
  have hD' : D = h'.arr o.depth := by
    rw [hs.initDepth, B.depthVal] at hD; injection hD with hD; exact hD.symm
  unfold initStage
  simp only [RParams.val, hs.stage, hs.topography, hs.depth]
  cases hst : p.stage with
  | some s =>
    simp only [Option.map_some, B.stageArr ha hst, ← hD', stageNan_idem]
    rfl
  | none =>
    cases ht : p.topography with
    | none => simp
    | some t => cases hd : p.depth <;> simp [B.topoArr ha ht]

theorem initParticles_again {h h' : ArrHeap K} {p : RParams K} (hd : initDepth A (p.val h') = initDepth A (p.val h))
    (hst : ∀ D, initDepth A (p.val h) = .ok D → initStage A (p.val h') D = initStage A (p.val h) D)
    (hf : ∀ D, initDepth A (p.val h) = .ok D → initFlow A (p.val h') D = initFlow A (p.val h) D)
    (hv : initVars (p.val h') = initVars (p.val h)) : initParticles A F (p.val h') = initParticles A F (p.val h) := by
  unfold initParticles
  rw [hd, hv]
  cases e : initDepth A (p.val h) with
  | error x =>
    show (initDx (p.val h') >>= fun _ => _) = (initDx (p.val h) >>= fun _ => _)
    simp only [error_bind]
    rfl
  | ok D =>
    simp only [ok_bind, hst D e, hf D e]
    rfl

theorem BuildPost.varsAgain (B : BuildPost A F h p h' p' o) (hs : SameArrays p p2)
    (hroi : p.base.roi = none ∨ p2.base.roi.isSome ∨ ∀ r, p.vars = some r → "roi_flag" ∈ h.strs r) :
    initVars (p2.val h') = initVars (p2.val h) := by
  unfold initVars
  simp only [RParams.val, hs.vars]
  cases hv : p.vars with
  | none => rfl
  | some r =>
    have := B.strs r
    rw [if_pos hv] at this
    simp only [Option.map_some, Option.getD_some, this]
    unfold initVars
    simp only [Option.getD_some]
    rcases hroi with hr | hr | hr
    · simp [hr]
    · by_cases hc : "roi_flag" ∈ h.strs r
      · simp [hc]
      · cases hr1 : p.base.roi <;> simp [hc, hr]
    · have := hr r hv
      simp [this]

theorem BuildPost.flowAgain (B : BuildPost A F h p h' p' o) (ha : Apart h p) (hs : SameArrays p p2)
    (hsmall : p.GivesQ ∨ ∀ r, p.u = some r ∨ p.v = some r → NoSmall A (h.arr r)) (D : Grid (Fl K)) :
    initFlow A (p2.val h') D = initFlow A (p2.val h) D := by
  refine initFlow_clean (fun r hr => ?_) D
  rw [hs.flowRefs] at hr
  unfold CleanOf
  rcases B.flowArr ha hr with h | ⟨-, h⟩ | ⟨g, hu, h⟩
  · rw [h]
  · rw [h, nanZero_idem]
  · rcases hsmall with hq | hq
    · exact absurd hq g
    · rw [h, (hq r (by tauto)).clamp]

theorem BuildPost.again (B : BuildPost A F h p h' p' o) (ha : Apart h p) (hs : SameArrays p p2)
    (hsmall : p.GivesQ ∨ ∀ r, p.u = some r ∨ p.v = some r → NoSmall A (h.arr r))
    (hroi : p.base.roi = none ∨ p2.base.roi.isSome ∨ ∀ r, p.vars = some r → "roi_flag" ∈ h.strs r) :
    initParticles A F (p2.val h') = initParticles A F (p2.val h) :=
  initParticles_again (B.depthAgain ha hs) (fun _ hD => B.stageAgain ha hs hD) (fun D _ => B.flowAgain ha hs hsmall D) (B.varsAgain hs hroi)

theorem flowFromQ_fixed {a b d : Grid (Fl K)} {qx qy u v} (e : flowFromQ A a b d = .ok (qx, qy, u, v)) :
    nanZeroGrid qx = qx ∧ nanZeroGrid qy = qy := by
  unfold flowFromQ at e
  simp only [bind_ok, pure_ok, Prod.mk.injEq] at e
  obtain ⟨_, -, _, -, rfl, rfl, -, -⟩ := e
  exact ⟨nanZero_idem _, nanZero_idem _⟩

theorem flowFromU_fixed {a b d : Grid (Fl K)} {qx qy u v} (e : flowFromU A a b d = .ok (qx, qy, u, v)) :
    nanZeroGrid u = u ∧ nanZeroGrid v = v := by
  unfold flowFromU at e
  simp only [bind_ok, pure_ok, Prod.mk.injEq] at e
  obtain ⟨_, -, _, -, -, -, rfl, rfl⟩ := e
  exact ⟨nanZero_idem _, nanZero_idem _⟩

theorem initFlow_fixed {p : RParams K} {h : ArrHeap K} {d : Grid (Fl K)} {qx qy u v} (e : initFlow A (p.val h) d = .ok (qx, qy, u, v)) :
    (p.GivesQ → nanZeroGrid qx = qx ∧ nanZeroGrid qy = qy) ∧ (¬p.GivesQ → nanZeroGrid u = u ∧ nanZeroGrid v = v) := by
  unfold initFlow at e
  simp only [RParams.val] at e
  unfold RParams.GivesQ
  cases hqx : p.qx <;> cases hqy : p.qy <;> cases hua : p.u <;> cases hvb : p.v <;> cases hm : p.base.deltaRCM <;>
    simp only [hqx, hqy, hua, hvb, hm, Option.map_some, Option.map_none, reduceCtorEq] at e <;>
    simp only [Option.isSome_some, Option.isSome_none, Bool.false_eq_true, and_false, and_self, not_true, not_false_iff,
      forall_const, false_imp_iff, true_and, and_true] <;>
    first
    | exact flowFromQ_fixed e
    | exact flowFromU_fixed e

/-- The arrays of an object either are not the caller's, or are the caller's and a further construction leaves them as they are. -/
structure Settled (A : Arith K) (k : ArrHeap K) (p : RParams K) (o : RObj K) : Prop where
  apart : Apart k p
  lt : o.depth < k.next ∧ o.stage < k.next ∧ o.qx < k.next ∧ o.qy < k.next ∧ o.u < k.next ∧ o.v < k.next
  val : initDepth A (p.val k) = .ok (k.arr o.depth)
  depth : o.depth ∉ p.refs ∨ p.depth = some o.depth ∧ nanZeroGrid (k.arr o.depth) = k.arr o.depth
  stage : o.stage ∉ p.refs ∨ p.stage = some o.stage ∧ stageNan (k.arr o.stage) (k.arr o.depth) = k.arr o.stage
  flow : ∀ r, r = o.qx ∨ r = o.qy ∨ r = o.u ∨ r = o.v → r ∉ p.refs ∨ r ∈ p.flowRefs ∧ (p.GivesQ → nanZeroGrid (k.arr r) = k.arr r) ∧
    (¬p.GivesQ → clampSmall A (nanZeroGrid (k.arr r)) = k.arr r)

theorem mem_refs {r : Nat} : r ∈ p.refs ↔ p.depth = some r ∨ p.stage = some r ∨ p.topography = some r ∨ r ∈ p.flowRefs := by
  unfold RParams.refs; simp

theorem BuildPost.settled (B : BuildPost A F h p h' p' o) (ha : Apart h p) : Settled A h' p o := by
  have same : SameArrays p p := ⟨rfl, rfl, rfl, rfl, rfl, rfl, rfl, rfl⟩
  have fresh : ∀ {r}, h.next ≤ r → r ∉ p.refs := fun hr hm => absurd (ha.used _ hm) (by omega)
  obtain ⟨pu, pv, X⟩ := init_parts A F B.init
  have hqv : p.GivesQ → nanZeroGrid (h'.arr o.qx) = h'.arr o.qx ∧ nanZeroGrid (h'.arr o.qy) = h'.arr o.qy := (initFlow_fixed X.flow).1
  have huv : ¬p.GivesQ → clampSmall A (nanZeroGrid (h'.arr o.u)) = h'.arr o.u ∧ clampSmall A (nanZeroGrid (h'.arr o.v)) = h'.arr o.v := by
    intro g
    obtain ⟨e1, e2⟩ := (initFlow_fixed X.flow).2 g
    have hu : h'.arr o.u = clampSmall A pu := X.uEq
    have hv : h'.arr o.v = clampSmall A pv := X.vEq
    constructor
    · rw [hu, ← e1, clampSmall_nanZero, clampSmall_idem]
    · rw [hv, ← e2, clampSmall_nanZero, clampSmall_idem]
  constructor
  · exact same.apart ha B.next
  · exact B.lt
  · rw [B.depthAgain ha same, B.depthVal]
  · rcases B.depthRef with hd | ⟨-, hd⟩
    · exact Or.inr ⟨hd, by rw [B.depthArr ha hd, nanZero_idem]⟩
    · exact Or.inl (fresh hd)
  · rcases B.stageRef with hd | ⟨-, hd⟩
    · refine Or.inr ⟨hd, ?_⟩
      conv_lhs => rw [B.stageArr ha hd]
      rw [stageNan_idem, ← B.stageArr ha hd]
    · exact Or.inl (fresh hd)
  · have mem : ∀ r, (p.qx = some r ∨ p.qy = some r ∨ p.u = some r ∨ p.v = some r) → r ∈ p.flowRefs := fun r hr => mem_flowRefs.2 hr
    intro r hr
    rcases B.flow with ⟨g, -, a, b, x, y⟩ | ⟨g, -, a, b, x, y⟩ | ⟨g, -, a, b, x, y⟩ | ⟨g, -, a, b, x, y⟩
    · rcases hr with rfl | rfl | rfl | rfl
      · exact Or.inr ⟨mem _ (by tauto), fun _ => (hqv g).1, fun h => absurd g h⟩
      · exact Or.inr ⟨mem _ (by tauto), fun _ => (hqv g).2, fun h => absurd g h⟩
      · exact Or.inl (fresh x)
      · exact Or.inl (fresh y)
    · rcases hr with rfl | rfl | rfl | rfl
      · exact Or.inl (fresh a)
      · exact Or.inr ⟨mem _ (by tauto), fun _ => (hqv g).2, fun h => absurd g h⟩
      · exact Or.inl (fresh x)
      · exact Or.inl (fresh y)
    · rcases hr with rfl | rfl | rfl | rfl
      · exact Or.inl (fresh a)
      · exact Or.inl (fresh b)
      · exact Or.inr ⟨mem _ (by tauto), fun h => absurd h g, fun _ => (huv g).1⟩
      · exact Or.inr ⟨mem _ (by tauto), fun h => absurd h g, fun _ => (huv g).2⟩
    · rcases hr with rfl | rfl | rfl | rfl
      · exact Or.inl (fresh a)
      · exact Or.inl (fresh b)
      · exact Or.inl (fresh x)
      · exact Or.inr ⟨mem _ (by tauto), fun h => absurd h g, fun _ => (huv g).2⟩

/-- A further construction with the same arrays leaves a settled object as it is. -/
theorem Settled.step {k k' : ArrHeap K} {p2' : RParams K} {o2 : RObj K} (S : Settled A k p o) (hs : SameArrays p p2)
    (B : BuildPost A F k p2 k' p2' o2) : o.val k' = o.val k ∧ Settled A k' p o := by
  have ha2 : Apart k p2 := hs.apart S.apart le_rfl
  obtain ⟨l1, l2, l3, l4, l5, l6⟩ := S.lt
  have gq : p2.GivesQ ↔ p.GivesQ := by unfold RParams.GivesQ; rw [hs.qx, hs.qy]
  have hD2 : k'.arr o2.depth = k.arr o.depth := by
    have h1 := B.depthVal
    rw [hs.initDepth, S.val] at h1
    injection h1 with h1; exact h1.symm
  have fresh : ∀ r, r < k.next → r ∉ p.refs → k'.arr r = k.arr r := by
    intro r hr hn
    rw [mem_refs] at hn
    rw [mem_flowRefs] at hn
    rcases B.changes r hr with h | ⟨hd, -⟩ | ⟨hd, -⟩ | ⟨-, hd, -⟩ | ⟨-, hd, -⟩
    · exact h
    · rw [hs.depth] at hd; tauto
    · rw [hs.stage] at hd; tauto
    · rw [hs.qx, hs.qy] at hd; tauto
    · rw [hs.u, hs.v] at hd; tauto
  have dep : k'.arr o.depth = k.arr o.depth := by
    rcases S.depth with hd | ⟨hd, e⟩
    · exact fresh _ l1 hd
    · rw [B.depthArr ha2 (hs.depth.trans hd), e]
  have sta : k'.arr o.stage = k.arr o.stage := by
    rcases S.stage with hd | ⟨hd, e⟩
    · exact fresh _ l2 hd
    · rw [B.stageArr ha2 (hs.stage.trans hd), hD2, e]
  have fl : ∀ r, r < k.next → r = o.qx ∨ r = o.qy ∨ r = o.u ∨ r = o.v → k'.arr r = k.arr r := by
    intro r hlt hr
    rcases S.flow r hr with hn | ⟨hm, h1, h2⟩
    · exact fresh r hlt hn
    · rcases B.flowArr ha2 (hs.flowRefs ▸ hm) with h | ⟨g, h⟩ | ⟨g, -, h⟩
      · exact h
      · rw [h, h1 (gq.1 g)]
      · rw [h, h2 (fun g' => g (gq.2 g'))]
  have lts : ∀ r, r = o.qx ∨ r = o.qy ∨ r = o.u ∨ r = o.v → r < k.next := by rintro r (rfl | rfl | rfl | rfl) <;> assumption
  refine ⟨?_, ?_⟩
  · unfold RObj.val
    rw [dep, sta, fl o.qx l3 (by tauto), fl o.qy l4 (by tauto), fl o.u l5 (by tauto), fl o.v l6 (by tauto)]
  · have self : SameArrays p2 p := ⟨hs.depth.symm, hs.stage.symm, hs.topography.symm, hs.qx.symm, hs.qy.symm, hs.u.symm, hs.v.symm, hs.vars.symm⟩
    have hn := B.next
    constructor
    · exact (⟨rfl, rfl, rfl, rfl, rfl, rfl, rfl, rfl⟩ : SameArrays p p).apart S.apart hn
    · exact ⟨by omega, by omega, by omega, by omega, by omega, by omega⟩
    · rw [B.depthAgain ha2 self, S.val, dep]
    · rw [dep]; exact S.depth
    · rw [dep, sta]; exact S.stage
    · intro r hr
      rw [fl r (lts r hr) hr]
      exact S.flow r hr

/-- A second construction does not change the arrays of the first object. -/
theorem BuildPost.kept {h'' : ArrHeap K} {p2' : RParams K} {o2 : RObj K} (B : BuildPost A F h p h' p' o) (ha : Apart h p) (hs : SameArrays p p2)
    (B2 : BuildPost A F h' p2 h'' p2' o2) : o.val h'' = o.val h' := ((B.settled ha).step hs B2).1

/-- The flow arrays agree up to the replacement of missing and small values. -/
theorem initFlow_clamp {h h' : ArrHeap K} {p : RParams K} {d : Grid (Fl K)} (g : ¬p.GivesQ)
    (hu : ∀ r, p.u = some r → clampSmall A (nanZeroGrid (h'.arr r)) = clampSmall A (nanZeroGrid (h.arr r)))
    (hv : ∀ r, p.v = some r → if p.base.deltaRCM = true then clampSmall A (nanZeroGrid (h'.arr r)) = clampSmall A (nanZeroGrid (h.arr r))
      else h'.arr r = h.arr r) {qx qy u v} (e : initFlow A (p.val h) d = .ok (qx, qy, u, v)) :
    ∃ qx' qy' u' v', initFlow A (p.val h') d = .ok (qx', qy', u', v') ∧ clampSmall A u' = clampSmall A u ∧ clampSmall A v' = clampSmall A v := by
  have key : ∀ {a a' b b' : Grid (Fl K)}, clampSmall A (nanZeroGrid a') = clampSmall A (nanZeroGrid a) →
      clampSmall A (nanZeroGrid b') = clampSmall A (nanZeroGrid b) → flowFromU A a b d = .ok (qx, qy, u, v) →
      ∃ qx' qy' u' v', flowFromU A a' b' d = .ok (qx', qy', u', v') ∧ clampSmall A u' = clampSmall A u ∧ clampSmall A v' = clampSmall A v := by
    intro a a' b b' h1 h2 e
    unfold flowFromU at e ⊢
    have sh : ∀ {x x' : Grid (Fl K)}, clampSmall A (nanZeroGrid x') = clampSmall A (nanZeroGrid x) → needShape x' d = needShape x d := by
      intro x x' hx
      have hr : (clampSmall A (nanZeroGrid x')).rows = (clampSmall A (nanZeroGrid x)).rows := congrArg Grid.rows hx
      have hc : (clampSmall A (nanZeroGrid x')).cols = (clampSmall A (nanZeroGrid x)).cols := congrArg Grid.cols hx
      unfold needShape Grid.sameShape; rw [show x'.rows = x.rows from hr, show x'.cols = x.cols from hc]
    rw [sh h1, sh h2]
    simp only [bind_ok, pure_ok, Prod.mk.injEq] at e ⊢
    obtain ⟨x, hx, y, hy, rfl, rfl, rfl, rfl⟩ := e
    exact ⟨_, _, _, _, ⟨x, hx, y, hy, rfl, rfl, rfl, rfl⟩, h1, h2⟩
  unfold initFlow at e ⊢
  simp only [RParams.val] at e ⊢
  unfold RParams.GivesQ at g
  cases hm : p.base.deltaRCM with
  | true =>
    simp only [hm, if_true] at hv
    cases hqx : p.qx <;> cases hqy : p.qy <;> cases hua : p.u <;> cases hvb : p.v <;>
      simp only [hqx, hqy, hua, hvb, hm, Option.map_some, Option.map_none, reduceCtorEq] at e ⊢ <;>
      first
      | exact key (hu _ hua) (hv _ hvb) e
      | (exfalso; simp_all)
  | false =>
    simp only [hm, Bool.false_eq_true, if_false] at hv
    cases hqx : p.qx <;> cases hqy : p.qy <;> cases hua : p.u <;> cases hvb : p.v <;>
      simp only [hqx, hqy, hua, hvb, hm, Option.map_some, Option.map_none, reduceCtorEq] at e ⊢ <;>
      first
      | exact key (by rw [hv _ hvb]) (hu _ hua) e
      | (exfalso; simp_all)

theorem initParticles_clamp {h h' : ArrHeap K} {p : RParams K} {P : PObj K} (hd : initDepth A (p.val h') = initDepth A (p.val h))
    (hst : ∀ D, initDepth A (p.val h) = .ok D → initStage A (p.val h') D = initStage A (p.val h) D)
    (hf : ∀ D qx qy u v, initFlow A (p.val h) D = .ok (qx, qy, u, v) → ∃ qx' qy' u' v', initFlow A (p.val h') D = .ok (qx', qy', u', v') ∧
      clampSmall A u' = clampSmall A u ∧ clampSmall A v' = clampSmall A v)
    (hv : initVars (p.val h') = initVars (p.val h)) (e : initParticles A F (p.val h) = .ok P) :
    ∃ qx qy w, initParticles A F (p.val h') = .ok { P with qx := qx, qy := qy, velocity := w } := by
  unfold initParticles at e ⊢
  rw [hd, hv]
  simp only [bind_ok, pure_ok, Prod.exists] at e
  obtain ⟨dx, hdx, D, hD, S, hS, qx, qy, u, v, hF, x, hr, ct, hct, rfl⟩ := e
  obtain ⟨qx', qy', u', v', hF', eu, ev⟩ := hf D _ _ _ _ hF
  refine ⟨qx', qy', initVelocity A F u' v', ?_⟩
  have hdx' : initDx (p.val h') = .ok dx := hdx
  have hct' : initCellType (p.val h') D ((p.val h').dryDepth.getD (A.rnd (1 / 10))) = .ok ct := hct
  have hr' : checkRoi (p.val h') D = .ok x := hr
  have hS' : initStage A (p.val h') D = .ok S := (hst D hD).trans hS
  rw [hdx', hD]
  simp only [ok_bind, hS', hF', hct', hr', eu, ev]
  rfl

/-- The state of the caller's arrays and lists in which a further construction gives the same as the first one would have. -/
theorem BuildPost.steady (B : BuildPost A F h p h' p' o) (ha : Apart h p)
    (hs : SameArrays p p2) (hstill : NoStill A h p) : NoStill A h' p2 := by
  unfold NoStill at *
  rcases hstill with g | hsm
  · exact Or.inl ⟨by rw [hs.qx]; exact g.1, by rw [hs.qy]; exact g.2⟩
  · by_cases g : p.GivesQ
    · exact Or.inl ⟨by rw [hs.qx]; exact g.1, by rw [hs.qy]; exact g.2⟩
    · refine Or.inr fun r hr => ?_
      rw [hs.u, hs.v] at hr
      have hm := hsm r hr
      rcases B.flowArr ha (r := r) (mem_flowRefs.2 (by tauto)) with e | ⟨g', -⟩ | ⟨-, -, e⟩
      · rw [e]; exact hm
      · exact absurd g' g
      · rw [e, hm.clamp]; exact hm

/-- One step of a loop of constructions. -/
theorem sweep_step {h h2 : ArrHeap K} {p q q' : RParams K} {o : RObj K} {ps : List (RParams K)} (ha : Apart h p)
    (hs : ∀ x ∈ q :: ps, SameArrays p x) (hstill : NoStill A h p) (hroi : RoiSteady h (q :: ps)) (e : buildParticles A F h q = .ok (h2, q', o)) :
    Apart h q ∧ NoStill A h q ∧ (∀ x ∈ ps, SameArrays q x) ∧ BuildPost A F h q h2 q' o ∧ RoiSteady h2 ps ∧
    ∀ x ∈ ps, initParticles A F (x.val h2) = initParticles A F (x.val h) := by
  have hq := hs q List.mem_cons_self
  have haq : Apart h q := hq.apart ha le_rfl
  have hst : NoStill A h q := by
    unfold NoStill at *
    rw [hq.u, hq.v]
    rcases hstill with g | g
    · exact Or.inl ⟨by rw [hq.qx]; exact g.1, by rw [hq.qy]; exact g.2⟩
    · exact Or.inr g
  have hsame : ∀ x ∈ ps, SameArrays q x := fun x hx => by
    have := hs x (List.mem_cons_of_mem _ hx)
    exact ⟨this.depth.trans hq.depth.symm, this.stage.trans hq.stage.symm, this.topography.trans hq.topography.symm, this.qx.trans hq.qx.symm,
      this.qy.trans hq.qy.symm, this.u.trans hq.u.symm, this.v.trans hq.v.symm, this.vars.trans hq.vars.symm⟩
  have B := build_ok haq e
  have hroi2 : RoiSteady h2 ps := by
    rcases hroi with g | g | g
    · exact Or.inl fun x hx => g x (List.mem_cons_of_mem _ hx)
    · exact Or.inr (Or.inl fun x hx => g x (List.mem_cons_of_mem _ hx))
    · refine Or.inr (Or.inr fun x hx r hr => ?_)
      have hm := g x (List.mem_cons_of_mem _ hx) r hr
      rw [B.strs r]
      unfold initVars
      split
      · simp only [Option.getD_some]; split
        · exact List.mem_append_left _ hm
        · exact hm
      · exact hm
  refine ⟨haq, hst, hsame, B, hroi2, fun x hxm => B.again haq (hsame x hxm) hst ?_⟩
  rcases hroi with g | g | g
  · exact Or.inl (g q List.mem_cons_self)
  · exact Or.inr (Or.inl (g x (List.mem_cons_of_mem _ hxm)))
  · exact Or.inr (Or.inr fun r hr => g q List.mem_cons_self r hr)

end post

end Dorado
