import Verif.Lemmas.CropReach
import Verif.Props.Ensemble
import Verif.Props.TimeReal

/-! # A simulation on part of the domain: C112 -/

set_option linter.unusedSectionVars false

namespace Dorado

open MeasureTheory

variable {A : Arith ℝ} {F : Fun ℝ A} {r c R C L W : Nat} {p : Params ℝ} {P P' : PObj ℝ} {s s' : PState ℝ}

/-- Any rounding: the constructor accepts the inputs for any part of the domain of at least two rows and columns, and the object made is again one whose outer
ring is all edge. -/
theorem C112_accepted (hv : ValidParams p) (hs : p.Shape L W) (hP : initParticles A F p = .ok P) (hE : Enclosed A F L W P) (hr : r + R ≤ L) (hc : c + C ≤ W)
    (hR : 2 ≤ R) (hC : 2 ≤ C) : ∃ P', initParticles A F (p.crop r c R C) = .ok P' ∧ Enclosed A F R C P' := by
  obtain ⟨P', hP', H⟩ := init_crop hP (by rw [hE.rows]; exact hr) (by rw [hE.cols]; exact hc) hR hC
  refine ⟨P', hP', ⟨_, valid_crop hv hs hr hc, hP'⟩, by rw [H.depth]; rfl, by rw [H.depth]; rfl, ?_, ?_, ?_, ?_⟩
  · intro i j hi hj hb
    rw [H.ctRows] at hi hb
    rw [H.ctCols] at hj hb
    rw [H.cellType i j hi hj]
    exact if_pos hb
  · exact ⟨by rw [H.iwalk, hE.walk.1], by rw [H.jwalk, hE.walk.2]⟩
  · intro k hk
    rw [H.distances, H.dx]
    exact hE.steps k hk
  · intro k hk
    rw [H.angles]
    exact hE.angles k hk

/-- The two objects move particles alike. -/
theorem crop_alike (hP : initParticles A F p = .ok P) (hE : Enclosed A F L W P) (hP' : initParticles A F (p.crop r c R C) = .ok P') (hr : r + R ≤ L) (hc : c + C ≤ W)
    (hR : 2 ≤ R) (hC : 2 ≤ C) : MovesAlike A F r c R C P P' := by
  obtain ⟨P2, hP2, H⟩ := init_crop hP (by rw [hE.rows]; exact hr) (by rw [hE.cols]; exact hc) hR hC
  rw [hP'] at hP2
  cases hP2
  have hf := hE.built.fields
  exact H.alike hf.good hE.walk hE.steps hf.vel_rows hf.vel_cols hf.ang.2.1 hf.ang.2.2

/-- Machines for the records in the domain and in the part. -/
theorem crop_machs {wd wd' : WalkData ℝ} (hs : wd.SameRecords r c wd') {keys keys' : List String} {rows rows' : List (Row ℝ)} (hrows : wd = ofRows keys rows)
    (hrows' : wd' = ofRows keys' rows') (hal : ∀ r ∈ rows, r.aligned) {N : Nat} (hN : wd.xinds.length = N) :
    ∃ st st' : Fin N → Mach, Matches rows st ∧ Matches rows' st' ∧ (∀ i, InStep r c (st i) (st' i)) ∧
      (∀ i, (st i).1.cells ≠ []) ∧ (∀ (i : Fin N) n, wd.posAt i n = (st i).1.cells[n]?) ∧ ∀ i : Fin N, wd.lastPos i = some (st i).1.cur := by
  subst hrows hrows'
  have hl : rows.length = N := by simpa [ofRows] using hN
  have hl' : rows'.length = N := by
    have := congrArg List.length hs.xinds
    simp only [ofRows, List.length_map] at this
    omega
  let st : Fin N → Mach := fun j => machOf (rows[j.val]'(by omega))
  have hm : ∀ j : Fin N, Match (rows[j.val]'(by omega)) (st j) := fun j => machOf_match (hal _ (List.getElem_mem _))
  refine ⟨st, fun j => ({ (st j).1 with cells := (st j).1.cells.map (offset r c) }, (st j).2), ⟨by omega, fun j x hx => ?_⟩, ⟨by omega, fun j x hx => ?_⟩,
    fun _ => rfl, fun j => (hm j).ne, fun j n => ?_, fun j => ?_⟩
  · rw [List.getElem?_eq_getElem (by omega)] at hx
    cases hx
    exact hm j
  · have a0 := List.getElem?_eq_getElem (show j.val < rows.length by omega)
    have a1 := congrArg (fun l => l[j.val]?) hs.xinds
    have a2 := congrArg (fun l => l[j.val]?) hs.yinds
    have a3 := congrArg (fun l => l[j.val]?) hs.times
    simp only [ofRows, List.getElem?_map, hx, a0, Option.map_some, Option.some.injEq] at a1 a2 a3
    refine ⟨?_, ?_, ?_, ?_⟩
    · rw [a1, (hm j).xs]; simp [offset, Function.comp_def]
    · rw [a2, (hm j).ys]; simp [offset, Function.comp_def]
    · rw [a3, (hm j).ts]; simp
    · simpa using (hm j).ne
  · have a0 := List.getElem?_eq_getElem (show j.val < rows.length by omega)
    unfold WalkData.posAt
    simp only [ofRows, List.getElem?_map, a0, Option.map_some, Option.bind_eq_bind, Option.bind_some, (hm j).xs, (hm j).ys]
    cases (st j).1.cells[n]? <;> rfl
  · have a0 := List.getElem?_eq_getElem (show j.val < rows.length by omega)
    unfold WalkData.lastPos Disc.cur
    simp only [ofRows, List.getElem?_map, a0, Option.map_some, Option.bind_eq_bind, Option.bind_some, (hm j).xs, (hm j).ys]
    rw [List.getLast?_map, List.getLast?_map, List.getLastD_eq_getLast?, List.getLast?_eq_some_getLast (hm j).ne]
    rfl

theorem single_pairs (H : MovesAlike A F r c R C P P') (calls : List (Option (Fl ℝ) × Int)) :
    Pairs r c R C P' (calls.flatMap (callOps A F P [()])) (calls.flatMap (callOps A F P' [()])) := by
  induction calls with
  | nil => exact .nil
  | cons x calls ih => exact List.rel_append (callOps_pairs H _ x) ih

/-- Any rounding, any history, any draws, any sequence of calls: if no particle ever comes next to the outer ring of the part, the simulation on the part records
for all particles the same positions (in the coordinates of the part) and the same times as the simulation on the domain. -/
theorem C112_together (hP : initParticles A F p = .ok P) (h : Reach A F (Enclosed A F L W) Draws (InsideSeeds L W) P s) {wd : WalkData ℝ} (hwd : s.walk = some wd)
    (hP' : initParticles A F (p.crop r c R C) = .ok P') (h' : Reach A F (Enclosed A F R C) Draws (InsideSeeds R C) P' s') {wd' : WalkData ℝ}
    (hwd' : s'.walk = some wd') (hr : r + R ≤ L) (hc : c + C ≤ W) (hR : 2 ≤ R) (hC : 2 ≤ C) (hsame : wd.SameRecords r c wd')
    (hpos : s'.world.pos = s.world.pos) {ω : Nat → ℝ} (hω : Draws ω) (calls : List (Option (Fl ℝ) × Int))
    (hdeep : ∀ i < wd.xinds.length, ∀ n, (historyIn i (runCalls A F P ω calls s)).staysIn (fun q => Deep R C (offset r c q)) n) {i : Nat}
    (hi : i < wd.xinds.length) :
    historyIn i (runCalls A F P' ω calls s') = (historyIn i (runCalls A F P ω calls s)).offset r c := by
  obtain ⟨hRt, rows, hrows, hs⟩ := Enclosed.sound h hwd
  obtain ⟨hRt', rows', hrows', hs'⟩ := Enclosed.sound h' hwd'
  obtain ⟨st, st', hm, hm', hst, hne, -⟩ := crop_machs hsame hrows hrows' (fun r hr => (hs.ok r hr).vars.aligned) rfl
  have H := crop_alike hP h.obj hP' hr hc hR hC
  have e := historyIn_feed hRt hω calls hs hm
  have e' := historyIn_feed hRt' hω calls hs' hm' ⟨i, hi⟩
  rw [hpos] at e'
  rw [e', e ⟨i, hi⟩]
  refine (deal_inStep (callsOps_pairs H calls) _ hst hne (fun j q hq => ?_) ⟨i, hi⟩).history
  have hj := hdeep j j.2
  rw [e j] at hj
  obtain ⟨n, hn⟩ := List.getElem?_of_mem hq
  exact Mach.staysIn.1 (hj (n + 1)) q (List.mem_of_getElem? (i := n) (by rw [List.getElem?_take, if_pos (by omega), hn]))

/-- Any rounding, any history, any draws, any sequence of calls: particles that start far enough from the outer ring of the part for the number of moves asked for
are recorded alike by the simulation on the part and by the one on the domain. What lies outside the part has no influence on them. -/
theorem C112_horizon (hP : initParticles A F p = .ok P) (h : Reach A F (Enclosed A F L W) Draws (InsideSeeds L W) P s) {wd : WalkData ℝ} (hwd : s.walk = some wd)
    (hP' : initParticles A F (p.crop r c R C) = .ok P') (h' : Reach A F (Enclosed A F R C) Draws (InsideSeeds R C) P' s') {wd' : WalkData ℝ}
    (hwd' : s'.walk = some wd') (hr : r + R ≤ L) (hc : c + C ≤ W) (hR : 2 ≤ R) (hC : 2 ≤ C) (hsame : wd.SameRecords r c wd')
    (hpos : s'.world.pos = s.world.pos) (calls : List (Option (Fl ℝ) × Int))
    (hpast : ∀ i n q, wd.posAt i n = some q → Deep R C (offset r c q))
    (hfar : ∀ i q, wd.lastPos i = some q → Far (calls.map maxMoves).sum R C (offset r c q))
    {ω : Nat → ℝ} (hω : Draws ω) {i : Nat} (hi : i < wd.xinds.length) :
    historyIn i (runCalls A F P' ω calls s') = (historyIn i (runCalls A F P ω calls s)).offset r c := by
  refine C112_together hP h hwd hP' h' hwd' hr hc hR hC hsame hpos hω calls (fun j hj n => ?_) hi
  obtain ⟨hRt, rows, hrows, hs⟩ := Enclosed.sound h hwd
  obtain ⟨-, rows', hrows', hs'⟩ := Enclosed.sound h' hwd'
  obtain ⟨st, st', hm, -, -, -, hat, hlast⟩ := crop_machs hsame hrows hrows' (fun r hr => (hs.ok r hr).vars.aligned) rfl
  have e := historyIn_feed hRt hω calls hs hm ⟨j, hj⟩
  rw [e, Mach.staysIn]
  intro q hq
  have hq := List.mem_of_mem_take hq
  obtain ⟨m, hm, hcost⟩ := callsOps_costs (F := F) hRt.walk hRt.steps (⟨j, hj⟩ : Fin wd.xinds.length) calls
  rcases deal_reach hcost _ _ q hq with h0 | h0
  · obtain ⟨k, hk⟩ := List.getElem?_of_mem h0
    exact hpast j k q ((hat ⟨j, hj⟩ k).trans hk)
  · have := hfar j _ (hlast ⟨j, hj⟩)
    simp only [Far, offset, Deep, abs_le] at this h0 ⊢
    omega

/-- Any rounding, any history, any draws, any sequence of calls, one particle by itself: the simulation on the part records what the simulation on the domain
records up to the first position next to the outer ring of the part, and nothing after. -/
theorem C112_stopped (hP : initParticles A F p = .ok P) (h : Reach A F (Enclosed A F L W) Draws (InsideSeeds L W) P s) {wd : WalkData ℝ} (hwd : s.walk = some wd)
    (hP' : initParticles A F (p.crop r c R C) = .ok P') (h' : Reach A F (Enclosed A F R C) Draws (InsideSeeds R C) P' s') {wd' : WalkData ℝ}
    (hwd' : s'.walk = some wd') (hr : r + R ≤ L) (hc : c + C ≤ W) (hR : 2 ≤ R) (hC : 2 ≤ C) (hsame : wd.SameRecords r c wd')
    (hpos : s'.world.pos = s.world.pos) (hpast : ∀ i n q, wd.posAt i n = some q → Deep R C (offset r c q))
    {ω : Nat → ℝ} (hω : Draws ω) (calls : List (Option (Fl ℝ) × Int)) {i : Nat} (hi : i < wd.xinds.length) :
    historyIn 0 (runCalls A F P' ω calls (alone s'.world (wd'.only i))) =
      ((historyIn 0 (runCalls A F P ω calls (alone s.world (wd.only i)))).upTo fun q => Deep R C (offset r c q)).offset r c := by
  obtain ⟨hRt, rows, hrows, hs⟩ := Enclosed.sound h hwd
  obtain ⟨hRt', rows', hrows', hs'⟩ := Enclosed.sound h' hwd'
  obtain ⟨st, st', hm, hm', hst, hne, hat, -⟩ := crop_machs hsame hrows hrows' (fun r hr => (hs.ok r hr).vars.aligned) rfl
  have H := crop_alike hP h.obj hP' hr hc hR hC
  have hl := hm.1
  have hl' := hm'.1
  have hri := List.getElem?_eq_getElem (show i < rows.length by omega)
  have hri' := List.getElem?_eq_getElem (show i < rows'.length by omega)
  have e := historyIn_feed hRt hω (N := 1) calls (hs.single hwd hri) (st := fun _ => st ⟨i, hi⟩) ⟨rfl, fun j x hx => by
    have : j.val = 0 := by omega
    rw [this] at hx
    cases hx
    exact hm.2 ⟨i, hi⟩ _ hri⟩ 0
  have e' := historyIn_feed hRt' hω (N := 1) calls (hs'.single hwd' hri') (st := fun _ => st' ⟨i, hi⟩) ⟨rfl, fun j x hx => by
    have : j.val = 0 := by omega
    rw [this] at hx
    cases hx
    exact hm'.2 ⟨i, hi⟩ _ hri'⟩ 0
  rw [deal_single] at e e'
  have hp1 : (alone s'.world (wd'.only i)).world.pos = (alone s.world (wd.only i)).world.pos := hpos
  rw [hp1] at e'
  refine Eq.trans e' (Eq.trans ?_ (congrArg (fun h => (History.upTo (fun q => Deep R C (offset r c q)) h).offset r c) e.symm))
  refine Shadows.history (deal_follows H.near (single_pairs H calls) _ ?_)
  exact Or.inl ⟨rfl, ⟨hne _, fun q hq => by
    obtain ⟨k, hk⟩ := List.getElem?_of_mem hq
    exact hpast i k q ((hat ⟨i, hi⟩ k).trans hk)⟩, hst _⟩

theorem single_measurable (m : Mach) (calls : List (Option (Fl ℝ) × Int)) :
    Measurable fun ω : Nat → ℝ => ((deal ω (calls.flatMap (callOps A F P [()])) (fun _ => m, 0)).1 ()).history := by
  have e : (fun ω : Nat → ℝ => ((deal ω (calls.flatMap (callOps A F P [()])) (fun _ => m, 0)).1 ()).history) =
      fun ω => ((deal ω (callsOps A F P 1 calls) (fun _ => m, 0)).1 0).history := by
    funext ω
    rw [deal_single]
  rw [e]
  exact Mach.history_measurable.comp ((measurable_pi_apply 0).comp ((deal_measurable callsOps_meas 0).comp (measurable_const.prodMk measurable_id)))

/-- The law of the history of a particle by itself. -/
theorem law_single (hR : Routable A P) {x : Row ℝ} (hs : Sound A F P s [x]) {m : Mach} (hm : Match x m) (calls : List (Option (Fl ℝ) × Int)) :
    uniformDraws.map (fun ω => historyIn 0 (runCalls A F P ω calls s)) =
      uniformDraws.map fun ω => ((deal ω (calls.flatMap (callOps A F P [()])) (fun _ => m, 0)).1 ()).history := by
  have hsh := uniformDraws_shift s.world.pos
  conv_rhs => rw [← hsh.map_eq]
  rw [Measure.map_map (single_measurable m calls) hsh.measurable]
  refine Measure.map_congr ?_
  filter_upwards [uniformDraws_nonzero] with ω hω
  have := historyIn_feed hR hω.1 (N := 1) calls hs (st := fun _ => m) ⟨rfl, fun j y hy => by
    have : j.val = 0 := by omega
    rw [this] at hy
    cases hy
    exact hm⟩ 0
  rw [deal_single] at this
  exact this

/-- Any rounding, any history, any sequence of calls, any number of particles: the joint law of what the simulation on the part records is the joint law of what the
simulation on the domain records, each particle up to its first position next to the outer ring of the part. -/
theorem C112_law (hP : initParticles A F p = .ok P) (h : Reach A F (Enclosed A F L W) Draws (InsideSeeds L W) P s) {wd : WalkData ℝ} (hwd : s.walk = some wd)
    (hP' : initParticles A F (p.crop r c R C) = .ok P') (h' : Reach A F (Enclosed A F R C) Draws (InsideSeeds R C) P' s') {wd' : WalkData ℝ}
    (hwd' : s'.walk = some wd') (hr : r + R ≤ L) (hc : c + C ≤ W) (hR : 2 ≤ R) (hC : 2 ≤ C) (hsame : wd.SameRecords r c wd')
    (hpast : ∀ i n q, wd.posAt i n = some q → Deep R C (offset r c q)) (calls : List (Option (Fl ℝ) × Int)) :
    uniformDraws.map (fun ω (i : Fin wd.xinds.length) => historyIn i (runCalls A F P' ω calls s')) =
      uniformDraws.map fun ω (i : Fin wd.xinds.length) =>
        ((historyIn i (runCalls A F P ω calls s)).upTo fun q => Deep R C (offset r c q)).offset r c := by
  have hm := fun i => history_aemeasurable h hwd calls i
  have hm' := fun i => history_aemeasurable h' hwd' calls i
  have hN : wd'.xinds.length = wd.xinds.length := by rw [hsame.xinds, List.length_map]
  have hjoint := C107_joint_law h hwd calls
  have hjoint' := C107_joint_law h' hwd' calls
  generalize hn : wd.xinds.length = N at *
  generalize hn' : wd'.xinds.length = N' at *
  subst hN
  set g : History ℝ → History ℝ := fun k => (k.upTo fun q => Deep R C (offset r c q)).offset r c with hg
  have hgm : Measurable g := (offset_measurable r c).comp (upTo_measurable _)
  have hpm : ∀ i : Fin N', IsProbabilityMeasure (uniformDraws.map fun ω => historyIn 0 (runCalls A F P ω calls (alone s.world (wd.only i)))) :=
    fun i => Measure.isProbabilityMeasure_map (hm i).2
  have hpm2 : ∀ i : Fin N', IsProbabilityMeasure ((uniformDraws.map fun ω => historyIn 0 (runCalls A F P ω calls (alone s.world (wd.only i)))).map g) :=
    fun i => Measure.isProbabilityMeasure_map hgm.aemeasurable
  have e1 : uniformDraws.map (fun ω (i : Fin N') => g (historyIn i (runCalls A F P ω calls s))) =
      (uniformDraws.map fun ω (i : Fin N') => historyIn i (runCalls A F P ω calls s)).map fun x i => g (x i) := by
    rw [AEMeasurable.map_map_of_aemeasurable]
    · rfl
    · exact (measurable_pi_iff.2 fun i => hgm.comp (measurable_pi_apply i)).aemeasurable
    · exact aemeasurable_pi_lambda _ fun i => (hm i).1
  refine hjoint'.trans (Eq.trans ?_ e1.symm)
  rw [hjoint, Measure.pi_map_pi fun i => hgm.aemeasurable]
  congr 1
  funext i
  obtain ⟨hRt, rows, hrows, hs⟩ := Enclosed.sound h hwd
  obtain ⟨hRt', rows', hrows', hs'⟩ := Enclosed.sound h' hwd'
  obtain ⟨st, st', hma, hma', hst, hne, hat, -⟩ := crop_machs hsame hrows hrows' (fun r hr => (hs.ok r hr).vars.aligned) hn
  have H := crop_alike hP h.obj hP' hr hc hR hC
  have hri := List.getElem?_eq_getElem (show i.val < rows.length by rw [hma.1]; exact i.2)
  have hri' := List.getElem?_eq_getElem (show i.val < rows'.length by rw [hma'.1]; exact i.2)
  have e := law_single hRt (hs.single hwd hri) (hma.2 i _ hri) calls
  have e' := law_single hRt' (hs'.single hwd' hri') (hma'.2 i _ hri') calls
  have hmd : ∀ (Q : PObj ℝ) (m : Mach), Measurable fun ω : Nat → ℝ => ((deal ω (calls.flatMap (callOps A F Q [()])) (fun _ => m, 0)).1 ()).history :=
    fun Q m => single_measurable m calls
  refine e'.trans (Eq.trans ?_ (congrArg (Measure.map g) e.symm))
  rw [Measure.map_map hgm (hmd P _)]
  congr 1
  funext ω
  refine Shadows.history (deal_follows H.near (single_pairs H calls) ω (x := (fun _ => st i, 0)) (x' := (fun _ => st' i, 0)) ?_)
  exact Or.inl ⟨rfl, ⟨hne _, fun q hq => by
    obtain ⟨k, hk⟩ := List.getElem?_of_mem hq
    exact hpast i k q ((hat i k).trans hk)⟩, hst _⟩

/-! ## Concrete cases -/

/-- A field on 11 rows and 11 columns. -/
noncomputable def wideField (f : Nat → Nat → ℝ) : Grid (Fl ℝ) := ⟨11, 11, fun i j => .fin (f i j)⟩

/-- A channel whose water surface falls by one centimetre a row and whose discharge changes across the flow. -/
noncomputable def wideChan : Params ℝ where
  dx := some 10
  depth := some (wideField fun _ _ => 1)
  stage := some (wideField fun i _ => 2 - i / 100)
  deltaRCM := true
  qx := some (wideField fun _ j => 1 + j / 10)
  qy := some (wideField fun _ _ => 0)

theorem wideField_ok (f : Nat → Nat → ℝ) : (wideField f).FinOrNan := fun _ _ _ _ => Or.inr ⟨_, rfl⟩

theorem wideChan_valid : ValidParams wideChan where
  depth g hg := by cases hg; exact wideField_ok _
  stage g hg := by cases hg; exact wideField_ok _
  topography g hg := by cases hg
  qx g hg := by cases hg; exact wideField_ok _
  qy g hg := by cases hg; exact wideField_ok _
  u g hg := by cases hg
  v g hg := by cases hg
  gamma x hx := by cases hx
  dryDepth x hx := by cases hx
  distances t ht := by cases ht
  ivec t ht := by cases ht
  jvec t ht := by cases ht

theorem wideChan_shape : wideChan.Shape 11 11 where
  depth g hg := by cases hg; exact ⟨rfl, rfl⟩
  stage g hg := by cases hg; exact ⟨rfl, rfl⟩
  topography g hg := by cases hg
  qx g hg := by cases hg; exact ⟨rfl, rfl⟩
  qy g hg := by cases hg; exact ⟨rfl, rfl⟩
  u g hg := by cases hg
  v g hg := by cases hg

/-- The object for the channel. -/
noncomputable def wideObj : PObj ℝ := (initParticles Arith.exact Fun.real wideChan).toOption.get rfl

theorem wideObj_init : initParticles Arith.exact Fun.real wideChan = .ok wideObj := rfl

theorem wideObj_enclosed : Enclosed Arith.exact Fun.real 11 11 wideObj := by
  obtain ⟨h1, h2, h3⟩ := C17_default_ring (p := wideChan) rfl rfl rfl rfl wideObj_init
  have hb : Built Arith.exact Fun.real wideObj := ⟨wideChan, wideChan_valid, wideObj_init⟩
  refine ⟨hb, rfl, rfl, h1, h2, ?_, h3⟩
  intro k hk h0
  obtain ⟨d, hd, hd0⟩ := hb.good.dist_pos k hk
  rw [hd] at h0
  injection h0 with h0
  exact (mul_pos hd0 (show (0 : ℝ) < wideObj.dx by change (0 : ℝ) < 10; norm_num)).ne' h0

/-- The object for rows 1 to 9 and columns 1 to 9 of the channel. -/
noncomputable def partObj : PObj ℝ := (initParticles Arith.exact Fun.real (wideChan.crop 1 1 9 9)).toOption.get rfl

theorem partObj_init : initParticles Arith.exact Fun.real (wideChan.crop 1 1 9 9) = .ok partObj := rfl

theorem partObj_enclosed : Enclosed Arith.exact Fun.real 9 9 partObj := by
  obtain ⟨P', h1, h2⟩ := C112_accepted (r := 1) (c := 1) (R := 9) (C := 9) wideChan_valid wideChan_shape wideObj_init wideObj_enclosed (by norm_num) (by norm_num) (by norm_num) (by norm_num)
  rw [partObj_init] at h1
  cases h1
  exact h2

/-- C112: two particles at the centre. For two plain iterations the part of the channel gives what the whole gives, whatever is drawn; for any sequence of calls a
particle by itself is recorded by the part up to the first position next to the ring of the part, and the law of what the part records is that of the records of the whole up to the first position next to the ring of the part. -/
example : ∃ (s s' : PState ℝ) (wd wd' : WalkData ℝ), s.walk = some wd ∧ s'.walk = some wd' ∧ Reach Arith.exact Fun.real (Enclosed Arith.exact Fun.real 11 11) Draws (InsideSeeds 11 11) wideObj s ∧
    Reach Arith.exact Fun.real (Enclosed Arith.exact Fun.real 9 9) Draws (InsideSeeds 9 9) partObj s' ∧
    (∀ ω, Draws ω → ∀ i < 2, historyIn i (runCalls Arith.exact Fun.real partObj ω [(none, 10), (none, 10)] s') =
      (historyIn i (runCalls Arith.exact Fun.real wideObj ω [(none, 10), (none, 10)] s)).offset 1 1) ∧
    (∀ ω, Draws ω → ∀ calls, historyIn 0 (runCalls Arith.exact Fun.real partObj ω calls (alone s'.world (wd'.only 1))) =
      ((historyIn 0 (runCalls Arith.exact Fun.real wideObj ω calls (alone s.world (wd.only 1)))).upTo fun q => Deep 9 9 (offset 1 1 q)).offset 1 1) ∧
    ∀ calls, uniformDraws.map (fun ω (i : Fin 2) => historyIn i (runCalls Arith.exact Fun.real partObj ω calls s')) =
      uniformDraws.map fun ω (i : Fin 2) =>
        ((historyIn i (runCalls Arith.exact Fun.real wideObj ω calls s)).upTo fun q => Deep 9 9 (offset 1 1 q)).offset 1 1 := by
  obtain ⟨s0, h0, wd, hwd, hx, hy, ht, hp0⟩ : ∃ s0, generateParticles Arith.exact wideObj (fun _ => 1 / 2) (initState Arith.exact Fun.real wideObj 0) (.int 2)
    (.list [.int 5, .int 5]) (.list [.int 5, .int 5]) (.int 0) (.str "exact") none = .ok s0 ∧ ∃ wd, s0.walk = some wd ∧ wd.xinds = [[5], [5]] ∧
      wd.yinds = [[5], [5]] ∧ wd.times = [[.fin ((0 : Int) : ℝ)], [.fin ((0 : Int) : ℝ)]] ∧ s0.world.pos = 0 := ⟨_, rfl, _, rfl, rfl, rfl, rfl, rfl⟩
  obtain ⟨s1, h1, wd1, hwd1, hx1, hy1, ht1, hp1⟩ : ∃ s1, generateParticles Arith.exact partObj (fun _ => 1 / 2) (initState Arith.exact Fun.real partObj 0) (.int 2)
    (.list [.int 4, .int 4]) (.list [.int 4, .int 4]) (.int 0) (.str "exact") none = .ok s1 ∧ ∃ wd, s1.walk = some wd ∧ wd.xinds = [[4], [4]] ∧
      wd.yinds = [[4], [4]] ∧ wd.times = [[.fin ((0 : Int) : ℝ)], [.fin ((0 : Int) : ℝ)]] ∧ s1.world.pos = 0 := ⟨_, rfl, _, rfl, rfl, rfl, rfl, rfl⟩
  have hc : ∀ k : Int, genInputCheck (K := ℝ) (.int 2) (.list [.int k, .int k]) (.list [.int k, .int k]) (.int 0) (.str "exact") =
    .ok (2, [k, k], [k, k], .fin ((0 : Int) : ℝ), .exact) := fun _ => rfl
  have r0 : Reach Arith.exact Fun.real (Enclosed Arith.exact Fun.real 11 11) Draws (InsideSeeds 11 11) wideObj s0 :=
    .generate (.new 0 wideObj_enclosed) (fun _ => by norm_num) (hc 5) (by norm_num)
      (by intro x hx y hy; simp at hx hy; subst hx hy; unfold Inside; decide) h0
  have r1 : Reach Arith.exact Fun.real (Enclosed Arith.exact Fun.real 9 9) Draws (InsideSeeds 9 9) partObj s1 :=
    .generate (.new 0 partObj_enclosed) (fun _ => by norm_num) (hc 4) (by norm_num)
      (by intro x hx y hy; simp at hx hy; subst hx hy; unfold Inside; decide) h1
  have hsame : wd.SameRecords 1 1 wd1 := ⟨by rw [hx, hx1]; rfl, by rw [hy, hy1]; rfl, by rw [ht, ht1]⟩
  have hpast : ∀ i n q, wd.posAt i n = some q → q = (5, 5) := by
    intro i n q hq
    unfold WalkData.posAt at hq
    rw [hx, hy] at hq
    match i, n with
    | 0, 0 => simpa using hq.symm
    | 1, 0 => simpa using hq.symm
    | 0, n + 1 => simp at hq
    | 1, n + 1 => simp at hq
    | i + 2, n => simp at hq
  have hlast : ∀ i q, wd.lastPos i = some q → q = (5, 5) := by
    intro i q hq
    unfold WalkData.lastPos at hq
    rw [hx, hy] at hq
    match i with
    | 0 => simpa using hq.symm
    | 1 => simpa using hq.symm
    | i + 2 => simp at hq
  refine ⟨s0, s1, wd, wd1, hwd, hwd1, r0, r1, fun ω hω i hi => ?_, fun ω hω calls => ?_, fun calls => ?_⟩
  · exact C112_horizon wideObj_init r0 hwd partObj_init r1 hwd1 (by norm_num) (by norm_num) (by norm_num) (by norm_num) hsame (by rw [hp0, hp1])
      _ (fun i n q hq => by rw [hpast i n q hq]; decide) (fun i q hq => by rw [hlast i q hq]; unfold Far; decide) hω (by rw [hx]; exact hi)
  · exact C112_stopped wideObj_init r0 hwd partObj_init r1 hwd1 (by norm_num) (by norm_num) (by norm_num) (by norm_num) hsame (by rw [hp0, hp1])
      (fun i n q hq => by rw [hpast i n q hq]; decide) hω calls (by rw [hx]; decide)
  · have := C112_law wideObj_init r0 hwd partObj_init r1 hwd1 (by norm_num) (by norm_num) (by norm_num) (by norm_num) hsame
      (fun i n q hq => by rw [hpast i n q hq]; decide) calls
    rwa [hx] at this

end Dorado
