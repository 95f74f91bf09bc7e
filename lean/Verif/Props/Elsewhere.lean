import Verif.Lemmas.Elsewhere
import Verif.Props.Crop
import Verif.Props.Downstream
import Verif.Props.Estimate

/-! # C122: input data away from where the particles go has no influence on them -/

set_option linter.unusedSectionVars false

namespace Dorado

noncomputable section

variable {A : Arith ℝ} {F : Fun ℝ A} {p p' : Params ℝ} {P P' : PObj ℝ} {R C : Nat} {T : Nat → Nat → Prop} {s s' : PState ℝ}

/-- Inputs that differ from accepted ones only in the values of arrays are accepted, if they are valid; the outer ring is edge again if it is made by the constructor or
unchanged. -/
theorem C122_accepted (hS : p.SameAt T p') (hv : ValidParams p') (hP : initParticles A F p = .ok P) (hE : Enclosed A F R C P)
    (hring : (p.cellType = none ∧ p.iwalk = none ∧ p.jwalk = none ∧ p.angles = none) ∨ ∀ a b, a = 0 ∨ b = 0 ∨ a + 1 = R ∨ b + 1 = C → T a b) :
    ∃ P', initParticles A F p' = .ok P' ∧ Enclosed A F R C P' := by
  obtain ⟨P', hP', H⟩ := init_same hS hP
  have hb : Built A F P' := ⟨p', hv, hP'⟩
  have G := hE.built.good
  refine ⟨P', hP', hb, by rw [H.depth.rows, hE.rows], by rw [H.depth.cols, hE.cols], ?_, ⟨by rw [H.iwalk, hE.walk.1], by rw [H.jwalk, hE.walk.2]⟩, ?_, ?_⟩
  · rcases hring with ⟨h1, h2, h3, h4⟩ | hT
    · have e := hS.cellType
      rw [h1] at e
      have hct : p'.cellType = none := by
        cases h : p'.cellType with
        | none => rfl
        | some g => rw [h] at e; exact e.elim
      refine (C17_default_ring hct ?_ ?_ ?_ hP').1
      · have := congrArg Params.iwalk hS.bare
        exact Eq.trans this h2
      · have := congrArg Params.jwalk hS.bare
        exact Eq.trans this h3
      · have := congrArg Params.angles hS.bare
        exact Eq.trans this h4
    · intro i j hi hj hb
      rw [H.cellType.rows] at hi hb
      rw [H.cellType.cols] at hj hb
      rw [H.cellType.val i j hi hj (hT i j ?_)]
      · exact hE.ring i j hi hj hb
      · rw [← hE.rows, ← hE.cols, ← G.ct_rows, ← G.ct_cols]
        omega
  · intro k hk
    rw [H.distances, H.dx]
    exact hE.steps k hk
  · have := hE.angles
    unfold AnglesOk at this ⊢
    rw [H.angles]
    exact this

/-- Objects that move particles alike at the cells the particles come to record the same. -/
theorem MovesSame.records (H : MovesSame A F (fun q => Inside R C q ∧ Surrounded T q) P P')
    (h : Reach A F (Enclosed A F R C) Draws (InsideSeeds R C) P s) {wd : WalkData ℝ} (hwd : s.walk = some wd)
    (h' : Reach A F (Enclosed A F R C) Draws (InsideSeeds R C) P' s') {wd' : WalkData ℝ} (hwd' : s'.walk = some wd')
    (hx : wd'.xinds = wd.xinds) (hy : wd'.yinds = wd.yinds) (ht : wd'.times = wd.times) (hpos : s'.world.pos = s.world.pos)
    {ω : Nat → ℝ} (hω : Draws ω) (calls : List (Option (Fl ℝ) × Int))
    (hvis : ∀ i < wd.xinds.length, ∀ n, (historyIn i (runCalls A F P ω calls s)).staysIn (Surrounded T) n) {i : Nat} (hi : i < wd.xinds.length) :
    historyIn i (runCalls A F P' ω calls s') = historyIn i (runCalls A F P ω calls s) := by
  obtain ⟨hRt, rows, hrows, hs⟩ := Enclosed.sound h hwd
  obtain ⟨hRt', rows', hrows', hs'⟩ := Enclosed.sound h' hwd'
  have hsame : wd.SameRecords 0 0 wd' := ⟨by simp [hx], by simp [hy], ht⟩
  obtain ⟨st, st', hm, hm', hst, hne, -⟩ := crop_machs hsame hrows hrows' (fun r hr => (hs.ok r hr).vars.aligned) rfl
  have est : st' = st := funext fun j => by
    have e0 : offset 0 0 = id := by funext q; simp [offset]
    rw [hst j, e0, List.map_id]
  rw [est] at hm'
  have e := historyIn_feed hRt hω calls hs hm
  have e' := historyIn_feed hRt' hω calls hs' hm' ⟨i, hi⟩
  rw [hpos] at e'
  rw [e', e ⟨i, hi⟩]
  obtain ⟨s2, rows2, h1, h2, h3⟩ := calls_feed hRt hω (Fin.pos ⟨i, hi⟩) calls hs hm
  have hreach := reach_calls hω calls h h1
  rw [deal_same (callsOps_same H calls) (fun n => ω (n + s.world.pos)) (x := (st, 0)) hne fun j q hq => ?_]
  have hj := hvis j j.2
  rw [e j] at hj
  obtain ⟨n, hn⟩ := List.getElem?_of_mem hq
  refine ⟨?_, Mach.staysIn.1 (hj (n + 1)) q (List.mem_of_getElem? (i := n) (by rw [List.getElem?_take, if_pos (by omega), hn]))⟩
  have e2 := e j
  rw [h1] at e2
  simp only [historyIn, h2.has.1] at e2
  have e3 := congrFun e2 n
  simp only [WalkData.history, Mach.history, hn, Option.map_some, Prod.mk.injEq] at e3
  refine C17_inside hreach h2.has.1 (i := j) (n := n) (p := q) ?_
  unfold WalkData.posAt
  obtain ⟨xs, a1, a2⟩ := Option.bind_eq_some_iff.1 e3.1
  obtain ⟨ys, b1, b2⟩ := Option.bind_eq_some_iff.1 e3.2.1
  simp [a1, b1, a2, b2]

/-- Any rounding, any two histories that have led to the same records, any draws, any sequence of calls: if the inputs agree at all cells the particles come to and at
the neighbours of these cells, then the simulations record the same positions and times. -/
theorem C122_visited (hS : p.SameAt T p') (hP : initParticles A F p = .ok P) (hP' : initParticles A F p' = .ok P')
    (h : Reach A F (Enclosed A F R C) Draws (InsideSeeds R C) P s) {wd : WalkData ℝ} (hwd : s.walk = some wd)
    (h' : Reach A F (Enclosed A F R C) Draws (InsideSeeds R C) P' s') {wd' : WalkData ℝ} (hwd' : s'.walk = some wd')
    (hx : wd'.xinds = wd.xinds) (hy : wd'.yinds = wd.yinds) (ht : wd'.times = wd.times) (hpos : s'.world.pos = s.world.pos)
    {ω : Nat → ℝ} (hω : Draws ω) (calls : List (Option (Fl ℝ) × Int))
    (hvis : ∀ i < wd.xinds.length, ∀ n, (historyIn i (runCalls A F P ω calls s)).staysIn (Surrounded T) n) {i : Nat} (hi : i < wd.xinds.length) :
    historyIn i (runCalls A F P' ω calls s') = historyIn i (runCalls A F P ω calls s) := by
  refine MovesSame.records ?_ h hwd h' hwd' hx hy ht hpos hω calls hvis hi
  obtain ⟨P2, hP2, H⟩ := init_same hS hP
  rw [hP'] at hP2
  cases hP2
  exact H.moves h.obj h'.obj.built

/-- The flow leads from cells `S` to cells `S` only: unless it is next to an edge, every cell of `S` has flow-derived weight and its neighbours downstream are in `S`. -/
def FlowsWithin (A : Arith ℝ) (F : Fun ℝ A) (S : Int × Int → Prop) (P : PObj ℝ) : Prop :=
  ∀ a b : Nat, S ((a : Int), (b : Int)) → ¬ NearEdge P a b →
    ¬ NoFlowWeight A F P a b ∧ ∀ c d : Nat, Downstream P a b c d → S ((c : Int), (d : Int))

/-- Any odd rounding, any history with non-zero draws in which all objects lead particles from cells `S` to cells `S` only and all particles start there: all recorded
positions are among the cells `S`. -/
theorem C122_region (ho : OddRounding A) {S : Int × Int → Prop} (hin : ∀ q, S q → Inside R C q)
    (h : Reach A F (fun Q => Enclosed A F R C Q ∧ DefaultVectors A F Q ∧ FlowsWithin A F S Q) (NonzeroDraws A) (SeedsIn S) P s) {wd : WalkData ℝ}
    (hwd : s.walk = some wd) {i n : Nat} {q : Int × Int} (hq : wd.posAt i n = some q) : S q := by
  obtain ⟨rows, rfl, -, hrows⟩ := Reach.walk (I := fun q _ => S q) (R := fun _ _ _ _ => True) (fun Q hQ => hQ.1.built.good)
    (fun Q xs ys t x y _ hS hx hy => hS x hx y hy)
    (fun Q ω q t q' t' hQ hω hS hs hne => ⟨by
      obtain ⟨hE, hv, hW⟩ := hQ
      have G := hE.built.good
      have hq := hin q hS
      obtain ⟨x, y⟩ := q
      simp only [Inside] at hq
      obtain ⟨a, rfl⟩ : ∃ a : Nat, x = a := ⟨x.toNat, by omega⟩
      obtain ⟨b, rfl⟩ : ∃ b : Nat, y = b := ⟨y.toNat, by omega⟩
      have hi : Interior Q a b := by
        have h1 := hE.rows
        have h2 := hE.cols
        unfold Interior
        omega
      have hfar : ¬ NearEdge Q a b := by
        intro hnear
        obtain ⟨k, q0, d, m, m', dt, -, -, -, hqe, -⟩ := hs
        apply hne
        rw [hqe]
        unfold checkForBoundary1
        rw [if_pos ((edgeInWindow_iff (by omega) (by omega)).2 hnear)]
      obtain ⟨h1, h2⟩ := hW a b hS hfar
      obtain ⟨i', j', k, u, hm⟩ := StepOf.move hE.steps hs hne
      obtain ⟨rfl, rfl, hdest⟩ := hm.interior G hE.walk hi
      obtain ⟨m, rfl⟩ := hm.draw
      rw [hdest]
      exact h2 _ _ (pick_downstream ho hv G hi h1 (hω.1 m) (hω.2 m) hm.lt hm.pick), trivial⟩) h hwd
  obtain ⟨r, hr, hx, hy⟩ := posAt_ofRows.1 hq
  have hI := hrows r (List.mem_of_getElem? hr)
  obtain ⟨t, -, hrec⟩ := rec_of_pos hI.aligned hx hy
  exact hI.recs n _ _ hrec

/-- Any odd rounding: particles start in cells `S`, the flow leads from `S` to `S` only, and the inputs agree at the cells of `S` and next to them. Then what the inputs say
elsewhere has no influence on the particles, whatever is drawn and however `run_iteration` is called. -/
theorem C122_upstream (ho : OddRounding A) {S : Int × Int → Prop} (hin : ∀ q, S q → Inside R C q) (hT : ∀ q, S q → Surrounded T q)
    (hS : p.SameAt T p') (hP : initParticles A F p = .ok P) (hP' : initParticles A F p' = .ok P')
    (h : Reach A F (fun Q => Enclosed A F R C Q ∧ DefaultVectors A F Q ∧ FlowsWithin A F S Q) (NonzeroDraws A) (SeedsIn S) P s) {wd : WalkData ℝ}
    (hwd : s.walk = some wd) (h' : Reach A F (Enclosed A F R C) Draws (InsideSeeds R C) P' s') {wd' : WalkData ℝ} (hwd' : s'.walk = some wd')
    (hx : wd'.xinds = wd.xinds) (hy : wd'.yinds = wd.yinds) (ht : wd'.times = wd.times) (hpos : s'.world.pos = s.world.pos)
    {ω : Nat → ℝ} (hω : NonzeroDraws A ω) (calls : List (Option (Fl ℝ) × Int)) {i : Nat} (hi : i < wd.xinds.length) :
    historyIn i (runCalls A F P' ω calls s') = historyIn i (runCalls A F P ω calls s) := by
  have hr : Reach A F (Enclosed A F R C) Draws (InsideSeeds R C) P s :=
    ((h.mono fun Q hQ => hQ.1).monoDraws fun ω hω => hω.1).monoSd fun Q xs ys t hs x hx y hy => hin _ (hs x hx y hy)
  refine C122_visited hS hP hP' hr hwd h' hwd' hx hy ht hpos hω.1 calls (fun j hj n m hm x y ex ey => ?_) hi
  generalize hrun : runCalls A F P ω calls s = out at ex ey
  cases out with
  | error e => cases ex
  | ok s2 =>
    have h2 : Reach A F (fun Q => Enclosed A F R C Q ∧ DefaultVectors A F Q ∧ FlowsWithin A F S Q) (NonzeroDraws A) (SeedsIn S) P s2 := by
      clear hwd hpos ex ey hr
      induction calls generalizing s with
      | nil => cases hrun; exact h
      | cons c cs ih =>
        unfold runCalls at hrun
        obtain ⟨r, a1, a2⟩ := bind_ok.1 hrun
        exact ih (.run h hω a1) a2
    cases hw : s2.walk with
    | none => simp [historyIn, hw] at ex
    | some wd2 =>
      simp only [historyIn, hw] at ex ey
      refine hT _ (C122_region ho hin h2 hw (i := j) (n := m) ?_)
      unfold WalkData.posAt
      obtain ⟨xs, a1, a2⟩ := Option.bind_eq_some_iff.1 ex
      obtain ⟨ys, b1, b2⟩ := Option.bind_eq_some_iff.1 ey
      simp [a1, b1, a2, b2]

/-- In exact arithmetic it suffices that every cell of `S` away from the edges has a neighbour downstream. -/
theorem C122_flows {F : Fun ℝ Arith.exact} {S : Int × Int → Prop} (hE : Enclosed Arith.exact F R C P) (hv : DefaultVectors Arith.exact F P)
    (hpow : ∀ x, 0 < x → F.pow (.fin x) P.theta ≠ .fin 0) (hin : ∀ q, S q → Inside R C q)
    (hway : ∀ a b : Nat, S ((a : Int), (b : Int)) → ¬ NearEdge P a b → (∃ c d, Downstream P a b c d) ∧ ∀ c d : Nat, Downstream P a b c d → S ((c : Int), (d : Int))) :
    FlowsWithin Arith.exact F S P := by
  intro a b hS hfar
  obtain ⟨⟨c, d, hd⟩, hall⟩ := hway a b hS hfar
  refine ⟨flow_of_downstream hpow hv hE.built.good ?_ hd, hall⟩
  have h1 := hE.rows
  have h2 := hE.cols
  have := hin _ hS
  simp only [Inside] at this
  unfold Interior
  omega

/-- Exact arithmetic, uniform draws: the joint law of the histories of all particles is the same. -/
theorem C122_law {F : Fun ℝ Arith.exact} {S : Int × Int → Prop} (hin : ∀ q, S q → Inside R C q) (hT : ∀ q, S q → Surrounded T q)
    (hS : p.SameAt T p') (hP : initParticles Arith.exact F p = .ok P) (hP' : initParticles Arith.exact F p' = .ok P')
    (h : Reach Arith.exact F (fun Q => Enclosed Arith.exact F R C Q ∧ DefaultVectors Arith.exact F Q ∧ FlowsWithin Arith.exact F S Q) (NonzeroDraws Arith.exact) (SeedsIn S) P s)
    {wd : WalkData ℝ} (hwd : s.walk = some wd) (h' : Reach Arith.exact F (Enclosed Arith.exact F R C) Draws (InsideSeeds R C) P' s') {wd' : WalkData ℝ}
    (hwd' : s'.walk = some wd') (hx : wd'.xinds = wd.xinds) (hy : wd'.yinds = wd.yinds) (ht : wd'.times = wd.times) (hpos : s'.world.pos = s.world.pos)
    (calls : List (Option (Fl ℝ) × Int)) :
    uniformDraws.map (fun ω (i : Fin wd.xinds.length) => historyIn i (runCalls Arith.exact F P' ω calls s')) =
      uniformDraws.map fun ω (i : Fin wd.xinds.length) => historyIn i (runCalls Arith.exact F P ω calls s) := by
  refine MeasureTheory.Measure.map_congr ?_
  filter_upwards [uniformDraws_nonzero] with ω hω
  funext i
  exact C122_upstream odd_exact hin hT hS hP hP' h hwd h' hwd' hx hy ht hpos hω calls i.2

/-! ## Concrete cases -/

/-- The wide channel with deep water, an adverse slope and reversed discharge in the first four rows. -/
def upChan : Params ℝ where
  dx := some 10
  depth := some (wideField fun i _ => if i < 4 then 5 else 1)
  stage := some (wideField fun i _ => if i < 4 then i else 2 - i / 100)
  deltaRCM := true
  qx := some (wideField fun i j => if i < 4 then -3 else 1 + j / 10)
  qy := some (wideField fun i _ => if i < 4 then 1 else 0)

theorem upChan_valid : ValidParams upChan where
  depth g hg := by cases hg; exact wideField_ok _
  stage g hg := by cases hg; exact wideField_ok _
  topography g hg := by cases hg
  qx g hg := by cases hg; exact wideField_ok _
  qy g hg := by cases hg; exact wideField_ok _
  u g hg := by cases hg
  v g hg := by cases hg
  gamma x hx := by cases hx
  dryDepth x hx := by cases hx
  distances t ht := by cases ht
  ivec t ht := by cases ht
  jvec t ht := by cases ht

theorem upChan_same : wideChan.SameAt (fun a _ => 4 ≤ a) upChan := by
  have hval : ∀ f g : Nat → Nat → ℝ, (wideField f).SameAt (fun a _ => 4 ≤ a) (wideField fun i j => if i < 4 then g i j else f i j) := fun f g =>
    ⟨rfl, rfl, fun i j _ _ hi => by
      change Fl.fin (if i < 4 then g i j else f i j) = Fl.fin (f i j)
      rw [if_neg (by omega)]⟩
  exact ⟨rfl, hval (fun _ _ => 1) _, hval (fun i _ => 2 - i / 100) _, trivial, hval (fun _ j => 1 + j / 10) _, hval (fun _ _ => 0) _, trivial, trivial, trivial, trivial⟩

/-- The object for the changed channel. -/
def upObj : PObj ℝ := (initParticles Arith.exact Fun.real upChan).toOption.get rfl

theorem upObj_init : initParticles Arith.exact Fun.real upChan = .ok upObj := rfl

theorem upObj_enclosed : Enclosed Arith.exact Fun.real 11 11 upObj := by
  obtain ⟨P', h1, h2⟩ := C122_accepted upChan_same upChan_valid wideObj_init wideObj_enclosed (Or.inl ⟨rfl, rfl, rfl, rfl⟩)
  rw [upObj_init] at h1
  cases h1
  exact h2

/-- From row five on the flow of the wide channel leads onwards. -/
theorem wideObj_within : FlowsWithin Arith.exact Fun.real (fun q => Inside 11 11 q ∧ 5 ≤ q.1) wideObj := by
  refine C122_flows wideObj_enclosed ⟨rfl, rfl⟩ wideObj_pow (fun q hq => hq.1) fun a b hS hfar => ⟨⟨_, _, wideObj_way⟩, fun c d hd => ?_⟩
  obtain ⟨hi, h5⟩ := hS
  simp only [Inside] at hi h5 ⊢
  have ring := wideObj_enclosed.ring
  have near : ∀ i j : Nat, i < 11 → j < 11 → (a ≤ i + 1 ∧ i ≤ a + 1) → (b ≤ j + 1 ∧ j ≤ b + 1) → (i = 0 ∨ j = 0 ∨ i + 1 = 11 ∨ j + 1 = 11) → False :=
    fun i j h1 h2 h3 h4 h5 => hfar ⟨i, j, h1, h2, h3, h4, ring i j h1 h2 h5⟩
  have ha : a ≤ 8 := by by_contra hc; exact near 10 b (by omega) (by omega) (by omega) (by omega) (by omega)
  have hb : 2 ≤ b := by by_contra hc; exact near a 0 (by omega) (by omega) (by omega) (by omega) (by omega)
  have hb' : b ≤ 8 := by by_contra hc; exact near a 10 (by omega) (by omega) (by omega) (by omega) (by omega)
  obtain ⟨h1, h2, h3⟩ := hd.1
  have hlt := wideObj_falls a b c d (show a < 11 by omega) (show b < 11 by omega) (show c < 11 by omega) (show d < 11 by omega) hd
  have : a < c := by
    have : (a : ℝ) < c := by linarith
    exact_mod_cast this
  omega

/-- C122: two particles in rows five and six. The four rows upstream of row four may be changed at will: with the same draws the same is recorded, for every sequence of calls. -/
example : ∃ (s s' : PState ℝ) (wd : WalkData ℝ), s.walk = some wd ∧ wd.xinds = [[5], [6]] ∧
    Reach Arith.exact Fun.real (Enclosed Arith.exact Fun.real 11 11) Draws (InsideSeeds 11 11) upObj s' ∧
    wideObj.depth.at' 3 5 ≠ upObj.depth.at' 3 5 ∧
    (∀ ω, NonzeroDraws Arith.exact ω → ∀ calls, ∀ i < 2, historyIn i (runCalls Arith.exact Fun.real upObj ω calls s') =
      historyIn i (runCalls Arith.exact Fun.real wideObj ω calls s)) ∧
    ∀ calls, uniformDraws.map (fun ω (i : Fin 2) => historyIn i (runCalls Arith.exact Fun.real upObj ω calls s')) =
      uniformDraws.map fun ω (i : Fin 2) => historyIn i (runCalls Arith.exact Fun.real wideObj ω calls s) := by
  obtain ⟨s0, h0, wd, hwd, hx, hy, ht, hp0⟩ : ∃ s0, generateParticles Arith.exact wideObj (fun _ => 1 / 2) (initState Arith.exact Fun.real wideObj 0) (.int 2)
    (.list [.int 5, .int 6]) (.list [.int 5, .int 4]) (.int 0) (.str "exact") none = .ok s0 ∧ ∃ wd, s0.walk = some wd ∧ wd.xinds = [[5], [6]] ∧
      wd.yinds = [[5], [4]] ∧ wd.times = [[.fin ((0 : Int) : ℝ)], [.fin ((0 : Int) : ℝ)]] ∧ s0.world.pos = 0 := ⟨_, rfl, _, rfl, rfl, rfl, rfl, rfl⟩
  obtain ⟨s1, h1, wd1, hwd1, hx1, hy1, ht1, hp1⟩ : ∃ s1, generateParticles Arith.exact upObj (fun _ => 1 / 2) (initState Arith.exact Fun.real upObj 0) (.int 2)
    (.list [.int 5, .int 6]) (.list [.int 5, .int 4]) (.int 0) (.str "exact") none = .ok s1 ∧ ∃ wd, s1.walk = some wd ∧ wd.xinds = [[5], [6]] ∧
      wd.yinds = [[5], [4]] ∧ wd.times = [[.fin ((0 : Int) : ℝ)], [.fin ((0 : Int) : ℝ)]] ∧ s1.world.pos = 0 := ⟨_, rfl, _, rfl, rfl, rfl, rfl, rfl⟩
  have hc : genInputCheck (K := ℝ) (.int 2) (.list [.int 5, .int 6]) (.list [.int 5, .int 4]) (.int 0) (.str "exact") =
    .ok (2, [5, 6], [5, 4], .fin ((0 : Int) : ℝ), .exact) := rfl
  have hseed : ∀ x ∈ ([5, 6] : List Int), ∀ y ∈ ([5, 4] : List Int), Inside 11 11 (x, y) ∧ 5 ≤ x := by
    intro x hx y hy
    simp at hx hy
    rcases hx with rfl | rfl <;> rcases hy with rfl | rfl <;> (unfold Inside; decide)
  have hnz : NonzeroDraws Arith.exact (fun _ => (1 / 2 : ℝ)) := ⟨fun _ => by norm_num, fun _ x hx _ => (mul_pos hx (by norm_num : (0 : ℝ) < 1 / 2)).ne'⟩
  have r0 : Reach Arith.exact Fun.real (fun Q => Enclosed Arith.exact Fun.real 11 11 Q ∧ DefaultVectors Arith.exact Fun.real Q ∧
      FlowsWithin Arith.exact Fun.real (fun q => Inside 11 11 q ∧ 5 ≤ q.1) Q) (NonzeroDraws Arith.exact) (SeedsIn fun q => Inside 11 11 q ∧ 5 ≤ q.1) wideObj s0 :=
    .generate (.new 0 ⟨wideObj_enclosed, ⟨rfl, rfl⟩, wideObj_within⟩) hnz hc (by norm_num) hseed h0
  have r1 : Reach Arith.exact Fun.real (Enclosed Arith.exact Fun.real 11 11) Draws (InsideSeeds 11 11) upObj s1 :=
    .generate (.new 0 upObj_enclosed) (fun _ => by norm_num) hc (by norm_num) (fun x hx y hy => (hseed x hx y hy).1) h1
  have hT : ∀ q : Int × Int, Inside 11 11 q ∧ 5 ≤ q.1 → Surrounded (fun a _ => 4 ≤ a) q := by
    intro q hq a b ha _
    rw [abs_le] at ha
    have := hq.2
    omega
  refine ⟨s0, s1, wd, hwd, hx, r1, ?_, fun ω hω calls i hi => ?_, fun calls => ?_⟩
  · change Fl.fin (1 : ℝ) ≠ Fl.fin (if 3 < 4 then 5 else 1)
    simp
  · exact C122_upstream odd_exact (fun q hq => hq.1) hT upChan_same wideObj_init upObj_init r0 hwd r1 hwd1 (by rw [hx, hx1]) (by rw [hy, hy1]) (by rw [ht, ht1])
      (by rw [hp0, hp1]) hω calls (by rw [hx]; exact hi)
  · have := C122_law (fun q hq => hq.1) hT upChan_same wideObj_init upObj_init r0 hwd r1 hwd1 (by rw [hx, hx1]) (by rw [hy, hy1]) (by rw [ht, ht1])
      (by rw [hp0, hp1]) calls
    rwa [hx] at this

end

end Dorado
