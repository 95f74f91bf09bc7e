import Verif.Spec.Outlet
import Verif.Lemmas.Outlet
import Verif.Lemmas.CourseSym
import Verif.Props.Arrival
import Verif.Props.Final
import Verif.Props.StayMap

/-! # Where particles leave, and mean travel and exposure times, from the routing equations: C121 -/

set_option linter.unusedSectionVars false

namespace Dorado

open MeasureTheory Finset

theorem indep_limit {Ω : Type} [MeasurableSpace Ω] {μ : Measure Ω} [IsProbabilityMeasure μ] {N : Nat} {En : Nat → Fin N → Ω → ℝ} {E : Fin N → Ω → ℝ}
    (hmn : ∀ n i, AEMeasurable (En n i) μ) (hm : ∀ i, AEMeasurable (E i) μ) (hind : ∀ n, ProbabilityTheory.iIndepFun (En n) μ)
    (hev : ∀ᵐ ω ∂μ, ∀ᶠ n in Filter.atTop, ∀ i, En n i ω = E i ω) : ProbabilityTheory.iIndepFun E μ := by
  have hone : ∀ i, ∀ S : Set ℝ, MeasurableSet S → Filter.Tendsto (fun n => μ (En n i ⁻¹' S)) Filter.atTop (nhds (μ (E i ⁻¹' S))) := by
    intro i S hS
    refine tendsto_measure_eventually (fun n => (hmn n i).nullMeasurableSet_preimage hS) ((hm i).nullMeasurableSet_preimage hS) ?_
    filter_upwards [hev] with ω hω
    refine hω.mono fun n hn => ?_
    rw [Set.mem_preimage, Set.mem_preimage, hn i]
  rw [ProbabilityTheory.iIndepFun_iff_measure_inter_preimage_eq_mul]
  intro T S hS
  have h1 : Filter.Tendsto (fun n => μ (⋂ i ∈ T, En n i ⁻¹' S i)) Filter.atTop (nhds (μ (⋂ i ∈ T, E i ⁻¹' S i))) := by
    refine tendsto_measure_eventually (fun n => NullMeasurableSet.biInter T.countable_toSet fun i hi => (hmn n i).nullMeasurableSet_preimage (hS i hi))
      (NullMeasurableSet.biInter T.countable_toSet fun i hi => (hm i).nullMeasurableSet_preimage (hS i hi)) ?_
    filter_upwards [hev] with ω hω
    refine hω.mono fun n hn => ?_
    simp only [Set.mem_iInter, Set.mem_preimage, hn]
  have h2 : Filter.Tendsto (fun n => ∏ i ∈ T, μ (En n i ⁻¹' S i)) Filter.atTop (nhds (∏ i ∈ T, μ (E i ⁻¹' S i))) :=
    ENNReal.tendsto_finsetProd_of_ne_top _ (fun i hi => hone i (S i) (hS i hi)) fun i _ => measure_ne_top _ _
  have h3 : ∀ n, μ (⋂ i ∈ T, En n i ⁻¹' S i) = ∏ i ∈ T, μ (En n i ⁻¹' S i) := fun n =>
    (ProbabilityTheory.iIndepFun_iff_measure_inter_preimage_eq_mul.1 (hind n)) T hS
  simp only [h3] at h1
  exact tendsto_nhds_unique h1 h2

section
variable {F : Fun ℝ Arith.exact} {R C : Nat} {P : PObj ℝ} {s : PState ℝ}

/-- The interior cells from which particles get out. -/
noncomputable def freeCells (F : Fun ℝ Arith.exact) (P : PObj ℝ) (R C : Nat) : Finset (Int × Int) :=
  (((inside_finite R C).subset fun _ hp => hp.1 : {p | Inside R C p ∧ Escapes (flowOf F P) P p}.Finite)).toFinset

theorem mem_freeCells (p : Int × Int) : p ∈ freeCells F P R C ↔ Inside R C p ∧ Escapes (flowOf F P) P p := by
  unfold freeCells
  rw [Set.Finite.mem_toFinset]
  rfl

theorem free_gets (p : Int × Int) (hp : Inside R C p ∧ Escapes (flowOf F P) P p) :
    ∃ n, Gets (moveProb (flowOf F P) P) (AtEdge P) n p := by
  obtain ⟨e, h1, h2⟩ := hp.2 p .refl
  exact Gets.of_path h1 h2

/-- A sum over neighbours is a sum over cells. -/
theorem neighbour_sum (hP : Enclosed Arith.exact F R C P) {p : Int × Int} (hp : Inside R C p ∧ Escapes (flowOf F P) P p)
    (hn : ¬ NearEdge P p.1.toNat p.2.toNat) (f : Int × Int → ℝ) :
    ∑ k ∈ range 9, ((flowOf F P).chooseProb P.steepest p.1.toNat p.2.toNat k).toReal * f (neighbour p k) =
      ∑ q ∈ freeCells F P R C, (moveProb (flowOf F P) P p q).toReal * f q := by
  classical
  have hm : ∀ q, moveProb (flowOf F P) P p q = ∑ k ∈ range 9, if q = neighbour p k then (flowOf F P).chooseProb P.steepest p.1.toNat p.2.toNat k else 0 := by
    intro q
    unfold moveProb
    rw [if_neg hn]
    refine sum_congr rfl fun k _ => ?_
    unfold neighbour
    congr 1
  have hle : ∀ k ∈ range 9, (flowOf F P).chooseProb P.steepest p.1.toNat p.2.toNat k ≤ moveProb (flowOf F P) P p (neighbour p k) := by
    intro k hk
    rw [hm]
    refine le_trans ?_ (single_le_sum (fun _ _ => zero_le) hk)
    rw [if_pos rfl]
  have hfin : ∀ k ∈ range 9, (flowOf F P).chooseProb P.steepest p.1.toNat p.2.toNat k ≠ ⊤ := fun k hk =>
    ne_top_of_le_ne_top ((chain_free hP).w_ne_top hp _) (hle k hk)
  have e : ∀ q ∈ freeCells F P R C, (moveProb (flowOf F P) P p q).toReal * f q = ∑ k ∈ range 9,
      if q = neighbour p k then ((flowOf F P).chooseProb P.steepest p.1.toNat p.2.toNat k).toReal * f (neighbour p k) else 0 := by
    intro q _
    rw [hm, ENNReal.toReal_sum fun k hk => by
      split_ifs
      · exact hfin k hk
      · simp, sum_mul]
    refine sum_congr rfl fun k _ => ?_
    split_ifs with hq
    · rw [hq]
    · simp
  rw [sum_congr rfl e, sum_comm]
  refine sum_congr rfl fun k hk => ?_
  rw [sum_ite_eq']
  split_ifs with hq
  · rfl
  · have h0 : moveProb (flowOf F P) P p (neighbour p k) = 0 := (chain_free hP).inside p _ hp fun hc => hq ((mem_freeCells _).2 hc)
    have := hle k hk
    rw [h0] at this
    rw [le_zero_iff.1 this]
    simp

theorem balances_iff (hP : Enclosed Arith.exact F R C P) {rim : Int × Int → ℝ} {gain : Int × Int → Int × Int → ℝ} {V : Int × Int → ℝ} :
    Balances F P R C rim gain V ↔ Solves (moveProb (flowOf F P) P) (AtEdge P) (fun p => Inside R C p ∧ Escapes (flowOf F P) P p) (freeCells F P R C) gain rim V := by
  constructor
  · rintro ⟨h1, h2⟩
    exact ⟨fun p hp hs => h1 p hp.1 hp.2 hs, fun p hp hs => (h2 p hp.1 hp.2 hs).trans (neighbour_sum hP hp hs fun q => gain p q + V q)⟩
  · rintro ⟨h1, h2⟩
    exact ⟨fun p hp he hs => h1 p ⟨hp, he⟩ hs, fun p hp he hs => (h2 p ⟨hp, he⟩ hs).trans (neighbour_sum hP ⟨hp, he⟩ hs fun q => gain p q + V q).symm⟩

/-- C121: the routing equations have a solution, and at the cells from which particles get out only one. -/
theorem C121_solvable (hP : Enclosed Arith.exact F R C P) (rim : Int × Int → ℝ) (gain : Int × Int → Int × Int → ℝ) :
    (∃ V, Balances F P R C rim gain V) ∧ ∀ V V', Balances F P R C rim gain V → Balances F P R C rim gain V' →
      ∀ p, Inside R C p → Escapes (flowOf F P) P p → V p = V' p := by
  have hc := chain_free hP
  constructor
  · obtain ⟨V, hV⟩ := hc.solution (J := freeCells F P R C) mem_freeCells free_gets gain rim
    exact ⟨V, (balances_iff hP).2 hV⟩
  · intro V V' hV hV' p hp he
    rw [balances_iff hP] at hV hV'
    have hd : Solves (moveProb (flowOf F P) P) (AtEdge P) (fun p => Inside R C p ∧ Escapes (flowOf F P) P p) (freeCells F P R C) (fun _ _ => 0) (fun _ => 0)
        (fun p => V p - V' p) :=
      ⟨fun p hp hs => by rw [hV.stop p hp hs, hV'.stop p hp hs, sub_self], fun p hp hs => by
        rw [hV.step p hp hs, hV'.step p hp hs, ← sum_sub_distrib]
        exact sum_congr rfl fun q _ => by ring⟩
    have h0 : Solves (moveProb (flowOf F P) P) (AtEdge P) (fun p => Inside R C p ∧ Escapes (flowOf F P) P p) (freeCells F P R C) (fun _ _ => 0) (fun _ => 0)
        (fun _ => 0) := ⟨fun _ _ _ => rfl, fun _ _ _ => by simp⟩
    have l1 := hc.gains_tendsto mem_freeCells free_gets (fun _ _ _ => rfl) hd ⟨hp, he⟩
    have l2 := hc.gains_tendsto mem_freeCells free_gets (fun _ _ _ => rfl) h0 ⟨hp, he⟩
    exact sub_eq_zero.1 (tendsto_nhds_unique l1 l2)

/-- After `n` calls particle `i` is in a cell of `O` next to an edge. -/
def LeftAt (F : Fun ℝ Arith.exact) (P : PObj ℝ) (ω : Nat → ℝ) (s : PState ℝ) (i : Nat) (O : Set (Int × Int)) (n : Nat) : Prop :=
  ∃ s' w wd e, AfterRuns Arith.exact F P ω s n s' w ∧ s'.walk = some wd ∧ wd.lastPos i = some e ∧ NearEdge P e.1.toNat e.2.toNat ∧ e ∈ O

theorem left_iff {wd : WalkData ℝ} (hwd : s.walk = some wd) {ω : Nat → ℝ} {n i : Nat} {c : Course n} (hc : HasCourse F P ω s n i c)
    {p : Int × Int} (hp : wd.lastPos i = some p) {O : Set (Int × Int)} : LeftAt F P ω s i O n ↔ AtEdge P (endCell p c) ∧ endCell p c ∈ O := by
  have key : ∃ s' w wd', AfterRuns Arith.exact F P ω s n s' w ∧ s'.walk = some wd' ∧ wd'.lastPos i = some (endCell p c) := by
    cases n with
    | zero => exact ⟨s, none, wd, .zero, hwd, hp⟩
    | succ n => exact (hc (Fin.last n)).1
  obtain ⟨s1, w1, wd1, r1, e1, l1⟩ := key
  constructor
  · rintro ⟨s2, w2, wd2, q, r2, e2, l2, hq⟩
    obtain ⟨rfl, -⟩ := r1.unique r2
    rw [e1] at e2
    cases e2
    rw [l1] at l2
    cases l2
    exact hq
  · exact fun he => ⟨_, _, _, _, r1, e1, l1, he⟩

theorem left_mono (h : Reach Arith.exact F (Enclosed Arith.exact F R C) Draws (InsideSeeds R C) P s) {wd : WalkData ℝ} (hwd : s.walk = some wd)
    {ω : Nat → ℝ} (hω : Draws ω) {n m i : Nat} (hi : i < wd.xinds.length) (hnm : n ≤ m) {O : Set (Int × Int)} (hA : LeftAt F P ω s i O n) :
    LeftAt F P ω s i O m := by
  obtain ⟨s1, w1, wd1, e, r1, e1, l1, he, hO⟩ := hA
  obtain ⟨s2, w2, wd2, r2, e2, hlen2, -⟩ := follows_some h hwd hω m
  obtain ⟨s3, w3, wd3, r3, e3, hlen3, hre⟩ := follows_some h hwd hω n
  obtain ⟨rfl, -⟩ := r1.unique r3
  obtain ⟨wa, wb, ea, eb, hl, -⟩ := arrived_frozen h hwd hω hi hnm ⟨_, _, _, _, r1, e1, l1, he⟩ r1 r2
  rw [e1] at ea e3
  rw [e2] at eb
  cases ea
  cases eb
  cases e3
  exact ⟨_, _, _, _, r2, e2, (lastPos_lists hre e1 (by omega) hl).trans l1, he, hO⟩

theorem leavesBy_iff {ω : Nat → ℝ} {i : Nat} {O : Set (Int × Int)} : LeavesBy F P ω s i O ↔ ∃ n, LeftAt F P ω s i O n := Iff.rfl

theorem end_law (F : Fun ℝ Arith.exact) (P : PObj ℝ) (n : Nat) (p : Int × Int) (T : Int × Int → Prop) :
    courseLaw F P n p {c | ¬ T (endCell p c)} = stay (moveProb (flowOf F P) P) T n p := by
  classical
  rw [← stay_paths n p]
  refine (courseLaw_cells F P n p fun q => ¬ T (Fin.cons (α := fun _ => Int × Int) p q (Fin.last n))).trans (tsum_congr fun q => ?_)
  congr 1
  unfold stay
  split_ifs <;> rfl

open Classical in
/-- Where the particles are after `n` calls: independent, with probabilities that satisfy the recursion. -/
theorem left_law (h : Reach Arith.exact F (Enclosed Arith.exact F R C) Draws (InsideSeeds R C) P s)
    (ha : ∀ k, k < 9 → k ≠ 4 → ∃ a, P.angles k = .fin a) {wd : WalkData ℝ} (hwd : s.walk = some wd)
    (ht0 : ∀ i, i < wd.xinds.length → ∃ t, wd.lastTime i = some (.fin t)) (O : Set (Int × Int)) (n : Nat) :
    (∀ i : Fin wd.xinds.length, NullMeasurableSet {ω | LeftAt F P ω s i O n} uniformDraws ∧ ∀ p, wd.lastPos i = some p →
      uniformDraws {ω | LeftAt F P ω s i O n} = stay (moveProb (flowOf F P) P) (fun p => ¬ (AtEdge P p ∧ p ∈ O)) n p) ∧
    ProbabilityTheory.iIndepFun (fun (i : Fin wd.xinds.length) ω => if LeftAt F P ω s i O n then (1 : ℝ) else 0) uniformDraws := by
  have ex := fun (ω : Nat → ℝ) (hω : Draws ω) (i : Fin wd.xinds.length) => course_exists h ha hwd ht0 hω n i.2
  obtain ⟨X, hX⟩ : ∃ X : Fin wd.xinds.length → (Nat → ℝ) → Course n, ∀ ω, Draws ω → ∀ i : Fin wd.xinds.length, HasCourse F P ω s n i (X i ω) :=
    ⟨fun i ω => if hω : Draws ω then (ex ω hω i).choose else fun _ => ((0, 0), 0), fun ω hω i => by
      simp only [dif_pos hω]
      exact (ex ω hω i).choose_spec⟩
  choose pos hpos _ using fun i : Fin wd.xinds.length => last_inside h hwd i.2
  have hm := course_measurable h ha hwd ht0 hX hpos
  obtain ⟨hind, hlaw⟩ := C104_independent h ha hwd ht0 hX hpos
  have hS : ∀ p, MeasurableSet {c : Course n | AtEdge P (endCell p c) ∧ endCell p c ∈ O} := fun p =>
    cells_measurable fun q => AtEdge P (Fin.cons (α := fun _ => Int × Int) p q (Fin.last n)) ∧ Fin.cons (α := fun _ => Int × Int) p q (Fin.last n) ∈ O
  have hiff : ∀ ω, Draws ω → ∀ i : Fin wd.xinds.length, LeftAt F P ω s i O n ↔ AtEdge P (endCell (pos i) (X i ω)) ∧ endCell (pos i) (X i ω) ∈ O :=
    fun ω hω i => left_iff hwd (hX ω hω i) (hpos i)
  have hae : ∀ i : Fin wd.xinds.length, {ω | LeftAt F P ω s i O n} =ᵐ[uniformDraws] X i ⁻¹' {c | AtEdge P (endCell (pos i) c) ∧ endCell (pos i) c ∈ O} := by
    intro i
    rw [Filter.eventuallyEq_set]
    filter_upwards [uniformDraws_nonzero] with ω hω
    exact hiff ω hω.1 i
  refine ⟨fun i => ⟨((hm i).nullMeasurableSet_preimage (hS _)).congr (hae i).symm, fun p hp => ?_⟩, ?_⟩
  · have hpi : pos i = p := by
      have := hpos i
      rw [hp] at this
      exact (Option.some.inj this).symm
    rw [measure_congr (hae i), ← Measure.map_apply_of_aemeasurable (hm i) (hS _), hlaw i, hpi, ← end_law]
    simp only [not_not]
  · refine (hind.comp (fun i c => if AtEdge P (endCell (pos i) c) ∧ endCell (pos i) c ∈ O then (1 : ℝ) else 0) fun i =>
      Measurable.ite (hS (pos i)) measurable_const measurable_const).congr fun i => ?_
    filter_upwards [uniformDraws_nonzero] with ω hω
    simp only [Function.comp, hiff ω hω.1 i]

theorem leaves_measurable (h : Reach Arith.exact F (Enclosed Arith.exact F R C) Draws (InsideSeeds R C) P s)
    (ha : ∀ k, k < 9 → k ≠ 4 → ∃ a, P.angles k = .fin a) {wd : WalkData ℝ} (hwd : s.walk = some wd)
    (ht0 : ∀ i, i < wd.xinds.length → ∃ t, wd.lastTime i = some (.fin t)) (O : Set (Int × Int)) {i : Nat} (hi : i < wd.xinds.length) :
    NullMeasurableSet {ω | LeavesBy F P ω s i O} uniformDraws := by
  have : {ω | LeavesBy F P ω s i O} = ⋃ n, {ω | LeftAt F P ω s i O n} := by
    ext ω
    simp only [Set.mem_iUnion]
    rfl
  rw [this]
  exact NullMeasurableSet.iUnion fun n => ((left_law h ha hwd ht0 O n).1 ⟨i, hi⟩).1

theorem leaves_eventually (h : Reach Arith.exact F (Enclosed Arith.exact F R C) Draws (InsideSeeds R C) P s) {wd : WalkData ℝ} (hwd : s.walk = some wd)
    {ω : Nat → ℝ} (hω : Draws ω) {i : Nat} (hi : i < wd.xinds.length) (O : Set (Int × Int)) :
    ∀ᶠ n in Filter.atTop, (LeftAt F P ω s i O n ↔ LeavesBy F P ω s i O) := by
  by_cases hL : LeavesBy F P ω s i O
  · obtain ⟨n, hn⟩ := hL
    exact Filter.eventually_atTop.2 ⟨n, fun m hm => ⟨fun hc => ⟨m, hc⟩, fun _ => left_mono h hwd hω hi hm hn⟩⟩
  · exact Filter.Eventually.of_forall fun n => ⟨fun hc => ⟨n, hc⟩, fun hc => (hL hc).elim⟩

/-- C121: the probability of leaving by the cells `O` is the solution of the routing equations that is 1 at the cells of `O` next to an edge and 0 at the others,
with nothing gained on the way. -/
theorem C121_fraction (h : Reach Arith.exact F (Enclosed Arith.exact F R C) Draws (InsideSeeds R C) P s)
    (ha : ∀ k, k < 9 → k ≠ 4 → ∃ a, P.angles k = .fin a) {wd : WalkData ℝ} (hwd : s.walk = some wd)
    (ht0 : ∀ i, i < wd.xinds.length → ∃ t, wd.lastTime i = some (.fin t)) {O : Set (Int × Int)} {V : Int × Int → ℝ}
    (hV : Balances F P R C (O.indicator fun _ => 1) (fun _ _ => 0) V) {i : Nat} (hi : i < wd.xinds.length) {p : Int × Int}
    (hp : wd.lastPos i = some p) (hesc : Escapes (flowOf F P) P p) : uniformDraws.real {ω | LeavesBy F P ω s i O} = V p := by
  classical
  have hin : Inside R C p := by
    obtain ⟨x, hx, hin⟩ := last_inside h hwd hi
    rw [hp] at hx
    cases hx
    exact hin
  have hc := chain_free h.obj
  have hI : Inside R C p ∧ Escapes (flowOf F P) P p := ⟨hin, hesc⟩
  have hlaw := fun n => (left_law h ha hwd ht0 O n).1 ⟨i, hi⟩
  have h1 : Filter.Tendsto (fun n => uniformDraws {ω | LeftAt F P ω s i O n}) Filter.atTop (nhds (uniformDraws {ω | LeavesBy F P ω s i O})) := by
    refine tendsto_measure_eventually (fun n => (hlaw n).1) (leaves_measurable h ha hwd ht0 O hi) ?_
    filter_upwards [uniformDraws_nonzero] with ω hω
    exact leaves_eventually h hwd hω.1 hi O
  have h2 := (ENNReal.tendsto_toReal (measure_ne_top _ _)).comp h1
  have hs : Solves (moveProb (flowOf F P) P) (AtEdge P) (fun p => Inside R C p ∧ Escapes (flowOf F P) P p) (freeCells F P R C) (fun _ _ => 0)
      (fun p => @ite ℝ (¬ (AtEdge P p ∧ p ∈ O)) (Classical.propDecidable _) 0 1) V := by
    have hb := (balances_iff h.obj).1 hV
    refine ⟨fun p hp hs => (hb.stop p hp hs).trans ?_, hb.step⟩
    by_cases hO : p ∈ O <;> simp [hs, hO]
  have h3 := hc.gains_tendsto mem_freeCells free_gets (fun _ _ _ => rfl) hs hI
  refine tendsto_nhds_unique h2 (h3.congr fun n => ?_)
  rw [← (hc.stay_gains mem_freeCells (fun p => ¬ (AtEdge P p ∧ p ∈ O)) n hI).2, Function.comp, (hlaw n).2 p hp]

open Classical in
/-- C121: particles leave independently of each other, and the share of them that leave by `O` differs by `ε` or more from the mean of the solution over their
present cells with probability at most `2 exp(-2 N ε²)`. -/
theorem C121_share (h : Reach Arith.exact F (Enclosed Arith.exact F R C) Draws (InsideSeeds R C) P s)
    (ha : ∀ k, k < 9 → k ≠ 4 → ∃ a, P.angles k = .fin a) {wd : WalkData ℝ} (hwd : s.walk = some wd)
    (ht0 : ∀ i, i < wd.xinds.length → ∃ t, wd.lastTime i = some (.fin t)) {O : Set (Int × Int)} {V : Int × Int → ℝ}
    (hV : Balances F P R C (O.indicator fun _ => 1) (fun _ _ => 0) V) {N : Nat} (hN : wd.xinds.length = N) (h0 : 0 < N) {p : Nat → Int × Int}
    (hp : ∀ i, i < N → wd.lastPos i = some (p i)) (hesc : ∀ i, i < N → Escapes (flowOf F P) P (p i)) {ε : ℝ} (hε : 0 < ε) :
    uniformDraws.real {ω | ε ≤ |(((range N).filter fun i => LeavesBy F P ω s i O).card : ℝ) / N - (∑ i ∈ range N, V (p i)) / N|} ≤
      2 * Real.exp (-2 * N * ε ^ 2) := by
  subst hN
  set Z : Fin wd.xinds.length → (Nat → ℝ) → ℝ := fun i ω => if LeavesBy F P ω s i O then 1 else 0 with hZ
  have hmeas : ∀ {A : Set (Nat → ℝ)}, NullMeasurableSet A uniformDraws → AEMeasurable (fun ω => if ω ∈ A then (1 : ℝ) else 0) uniformDraws := fun hA =>
    (aemeasurable_const (b := (1 : ℝ))).indicator₀ hA
  have hm : ∀ i, AEMeasurable (Z i) uniformDraws := fun i => hmeas (leaves_measurable h ha hwd ht0 O i.2)
  have hlaw := fun n => left_law h ha hwd ht0 O n
  have hind : ProbabilityTheory.iIndepFun Z uniformDraws := by
    refine indep_limit (fun n i => hmeas ((hlaw n).1 i).1) hm (fun n => (hlaw n).2) ?_
    filter_upwards [uniformDraws_nonzero] with ω hω
    refine Filter.eventually_all.2 fun i => (leaves_eventually h hwd hω.1 i.2 O).mono fun n hn => ?_
    simp only [hZ, hn]
  have hcut : Measurable fun x : ℝ => max 0 (min x 1) := by fun_prop
  have key := hoeffding_mean h0 hm hind (fun i => rfl) hcut (fun c => le_max_left _ _) (fun c => max_le zero_le_one (min_le_right _ _)) hε
  have hcutZ : ∀ i ω, max 0 (min (Z i ω) 1) = Z i ω := by
    intro i ω
    simp only [hZ]
    split_ifs <;> simp
  have hmean : ∀ i : Fin wd.xinds.length, ∫ x, max 0 (min x 1) ∂(uniformDraws.map (Z i)) = V (p i) := by
    intro i
    rw [integral_map (hm i) hcut.aestronglyMeasurable]
    simp only [hcutZ]
    have : Z i = Set.indicator {ω | LeavesBy F P ω s i O} fun _ => 1 := rfl
    rw [this, integral_indicator₀ (leaves_measurable h ha hwd ht0 O i.2)]
    simp only [integral_const, smul_eq_mul, mul_one, measureReal_restrict_apply_univ]
    exact C121_fraction h ha hwd ht0 hV i.2 (hp i i.2) (hesc i i.2)
  simp only [hcutZ, hmean] at key
  rw [Fin.sum_univ_eq_sum_range (fun i => V (p i))] at key
  convert key using 6
  rename_i ω
  rw [card_filter]
  push_cast
  rw [← Fin.sum_univ_eq_sum_range (fun i => if LeavesBy F P ω s i O then (1 : ℝ) else 0)]

theorem course_mean (hP : Enclosed Arith.exact F R C P) (n : Nat) (g : Grid Int) {p : Int × Int} (hp : Inside R C p ∧ Escapes (flowOf F P) P p) :
    ∫ c, Course.exposure g p c ∂courseLaw F P n p =
      gains (moveProb (flowOf F P) P) (freeCells F P R C) (fun p q => freeDur F P p q * ((cellMark g p + cellMark g q) / 2)) (fun _ => 0) n p ∧
    ∑' q : Fin n → Int × Int, (∏ j, moveProb (flowOf F P) P (prevCell p q j) (q j)).toReal *
      ∑ j, freeDur F P (prevCell p q j) (q j) * ((cellMark g (prevCell p q j) + cellMark g (q j)) / 2) =
      gains (moveProb (flowOf F P) P) (freeCells F P R C) (fun p q => freeDur F P p q * ((cellMark g p + cellMark g q) / 2)) (fun _ => 0) n p := by
  obtain ⟨b, hb⟩ := freeDur_bound F P R C
  have hsum := ((chain_free hP).gains_paths mem_freeCells (r := fun p q => freeDur F P p q * ((cellMark g p + cellMark g q) / 2)) (b := b)
    (fun p q hp hq => by
      rw [abs_mul]
      have e1 := cellMark_range g p
      have e2 := cellMark_range g q
      have e3 : |(cellMark g p + cellMark g q) / 2| ≤ 1 := abs_le.2 ⟨by linarith, by linarith⟩
      calc _ ≤ |freeDur F P p q| * 1 := mul_le_mul_of_nonneg_left e3 (abs_nonneg _)
        _ ≤ b := by rw [mul_one]; exact hb p q hp.1 hq.1) n hp).tsum_eq
  refine ⟨?_, hsum⟩
  rw [← hsum]
  have hcm := fun (q : Fin n → Int × Int) (hq : ∏ j, moveProb (flowOf F P) P (prevCell p q j) (q j) ≠ 0) => component_mean g p q P.diffCoeff
    (fun j => freeDur F P (prevCell p q j) (q j)) (fun j => hb _ _ (path_cells hP hp.1 hq j).1 (path_cells hP hp.1 hq j).2)
  obtain ⟨-, -, m3⟩ := mixture_mean (μ := fun q : Fin n → Int × Int => Measure.pi fun j => (Measure.dirac (q j)).prod
    (durLaw P.diffCoeff (freeDur F P (prevCell p q j) (q j)))) (w := fun q => ∏ j, moveProb (flowOf F P) P (prevCell p q j) (q j))
    (fun q _ => inferInstance) (path_sum hP n hp.1) (f := fun c => Course.exposure g p c)
    ((exposure_measurable g n).comp (measurable_const.prodMk measurable_id))
    (fun q hq => (hcm q hq).1)
  refine m3.trans (tsum_congr fun q => ?_)
  by_cases hq : ∏ j, moveProb (flowOf F P) P (prevCell p q j) (q j) = 0
  · rw [hq]
    simp only [ENNReal.toReal_zero, zero_mul]
    refine (zero_eq_mul.2 (.inl ?_))
    change (∏ j, moveProb (flowOf F P) P (prevCell p q j) (q j)).toReal = 0
    rw [hq, ENNReal.toReal_zero]
  · rw [(hcm q hq).2]
    rfl

/-- Travel time in terms of the course. -/
theorem time_course {wd : WalkData ℝ} (hwd : s.walk = some wd) {i : Nat} {t : ℝ} (ht : wd.lastTime i = some (.fin t)) {ω : Nat → ℝ} {n : Nat} {c : Course n}
    (hc : HasCourse F P ω s n i c) : TimeAfter Arith.exact F P ω s n i (t + ∑ j, (c j).2) := by
  induction n with
  | zero => exact ⟨s, none, wd, .zero, hwd, by simpa using ht⟩
  | succ n ih =>
    have h1 := ih (c := fun j => c j.castSucc) fun j => hc j.castSucc
    obtain ⟨u, h2, h3⟩ := (hc (Fin.last n)).2
    have e : u = t + ∑ j : Fin n, (c j.castSucc).2 := h2.unique h1
    rw [Fin.sum_univ_castSucc, ← add_assoc, ← e]
    exact h3

/-- C121: the mean time of arrival next to an edge, beyond the present travel time, is the solution of the routing equations that is 0 next to an edge and gains
the diffusion-free duration with every step. -/
theorem C121_mean (h : Reach Arith.exact F (Enclosed Arith.exact F R C) Draws (InsideSeeds R C) P s)
    (ha : ∀ k, k < 9 → k ≠ 4 → ∃ a, P.angles k = .fin a) {wd : WalkData ℝ} (hwd : s.walk = some wd)
    (ht0 : ∀ i, i < wd.xinds.length → ∃ t, wd.lastTime i = some (.fin t)) {V : Int × Int → ℝ}
    (hV : Balances F P R C (fun _ => 0) (freeDur F P) V) {i : Nat} (hi : i < wd.xinds.length) {p : Int × Int} {t : ℝ}
    (hp : wd.lastPos i = some p) (ht : wd.lastTime i = some (.fin t)) (hesc : Escapes (flowOf F P) P p) {τ : (Nat → ℝ) → ℝ}
    (hτ : ∀ᵐ ω ∂uniformDraws, ArrivalTime F P ω s i (τ ω)) : Integrable τ uniformDraws ∧ ∫ ω, τ ω ∂uniformDraws = t + V p := by
  classical
  have hin : Inside R C p := by
    obtain ⟨x, hx, hin⟩ := last_inside h hwd hi
    rw [hp] at hx
    cases hx
    exact hin
  have hI : Inside R C p ∧ Escapes (flowOf F P) P p := ⟨hin, hesc⟩
  obtain ⟨M, hM⟩ := C116_mean h.obj ha
  obtain ⟨hint, -, hlim⟩ := hM s h wd hwd ht0 i p t hi hp ht hesc τ hτ
  refine ⟨hint, ?_⟩
  set g : Grid Int := ⟨R, C, fun _ _ => 1⟩ with hg
  have hmark : ∀ q, cellMark g q = 1 := fun q => rfl.trans (if_pos rfl)
  have hexp : ∀ (n : Nat) (c : Course n), Course.exposure g p c = ∑ j, (c j).2 := by
    intro n c
    unfold Course.exposure
    refine sum_congr rfl fun j _ => ?_
    rw [hmark, hmark]
    norm_num
  have ex := fun (n : Nat) (ω : Nat → ℝ) (hω : Draws ω) (i : Fin wd.xinds.length) => course_exists h ha hwd ht0 hω n i.2
  have exX : ∀ n, ∃ X : Fin wd.xinds.length → (Nat → ℝ) → Course n, ∀ ω, Draws ω → ∀ i : Fin wd.xinds.length, HasCourse F P ω s n i (X i ω) := fun n =>
    ⟨fun i ω => if hω : Draws ω then (ex n ω hω i).choose else fun _ => ((0, 0), 0), fun ω hω i => by
      simp only [dif_pos hω]
      exact (ex n ω hω i).choose_spec⟩
  choose X hX using exX
  choose pos hpos _ using fun i : Fin wd.xinds.length => last_inside h hwd i.2
  have hpi : pos ⟨i, hi⟩ = p := by
    have := hpos ⟨i, hi⟩
    rw [hp] at this
    exact (Option.some.inj this).symm
  have hl := hlim (fun n ω => t + Course.exposure g p (X n ⟨i, hi⟩ ω)) fun n ω hω => by
    rw [hexp]
    exact time_course hwd ht (hX n ω hω ⟨i, hi⟩)
  have hmeas : ∀ n, Measurable fun c : Course n => Course.exposure g p c := fun n => (exposure_measurable g n).comp (measurable_const.prodMk measurable_id)
  have hmean : ∀ n, ∫ ω, (t + Course.exposure g p (X n ⟨i, hi⟩ ω)) ∂uniformDraws =
      t + gains (moveProb (flowOf F P) P) (freeCells F P R C) (freeDur F P) (fun _ => 0) n p := by
    intro n
    have hm := course_measurable h ha hwd ht0 (hX n) hpos ⟨i, hi⟩
    have hlaw := (C104_independent h ha hwd ht0 (hX n) hpos).2 ⟨i, hi⟩
    rw [hpi] at hlaw
    have hr : (fun p q => freeDur F P p q * ((cellMark g p + cellMark g q) / 2)) = freeDur F P := by
      funext p q
      rw [hmark, hmark]
      norm_num
    have e := (course_mean h.obj n g hI).1
    rw [hr, ← hlaw, integral_map hm (hmeas n).aestronglyMeasurable] at e
    have hi2 : Integrable (fun ω => t + Course.exposure g p (X n ⟨i, hi⟩ ω)) uniformDraws := by
      choose! t0 ht0' using ht0
      choose! p0 hp0 using fun (i : Nat) (hi : i < wd.xinds.length) => last_inside h hwd hi
      refine (mean_formula h ha hwd rfl (fun i hi => (hp0 i hi).1) ht0' n hi (T := fun ω => t + Course.exposure g p (X n ⟨i, hi⟩ ω)) fun ω hω => ?_).1
      rw [hexp]
      exact time_course hwd ht (hX n ω hω ⟨i, hi⟩)
    have hi3 : Integrable (fun ω => Course.exposure g p (X n ⟨i, hi⟩ ω)) uniformDraws := by
      refine (hi2.sub (integrable_const t)).congr (Filter.Eventually.of_forall fun ω => ?_)
      change t + _ - t = _
      ring
    rw [integral_add (integrable_const t) hi3, e]
    simp
  simp only [hmean] at hl
  have hlim2 := (chain_free h.obj).gains_tendsto mem_freeCells free_gets (fun p _ _ => freeDur_self h.obj.walk p) ((balances_iff h.obj).1 hV) hI
  exact tendsto_nhds_unique hl (hlim2.const_add t)

theorem seedProb_mean {xs ys : List Int} {J : Finset (Int × Int)} (hJ : ∀ x ∈ xs, ∀ y ∈ ys, (x, y) ∈ J) (V : Int × Int → ℝ) :
    ∑ p ∈ J, (seedProb xs ys p).toReal * V p = (xs.map fun x => (ys.map fun y => V (x, y)).sum).sum / (xs.length * ys.length) := by
  classical
  have hsub : xs.toFinset ×ˢ ys.toFinset ⊆ J := fun p hp => by
    rw [mem_product, List.mem_toFinset, List.mem_toFinset] at hp
    exact hJ p.1 hp.1 p.2 hp.2
  rw [← sum_subset hsub fun p _ hp => by
    have : seedProb xs ys p = 0 := by
      by_contra hc
      exact hp (by rw [mem_product, List.mem_toFinset, List.mem_toFinset]; exact seedProb_mem hc)
    rw [this, ENNReal.toReal_zero, zero_mul], sum_product]
  simp only [Finset.sum_list_map_count, sum_div, nsmul_eq_mul, mul_sum]
  refine sum_congr rfl fun x _ => sum_congr rfl fun y _ => ?_
  unfold seedProb
  rw [ENNReal.toReal_mul, ENNReal.toReal_ofReal (by positivity), ENNReal.toReal_ofReal (by positivity)]
  ring

/-- C121: the mean final exposure time of randomly seeded particles is the mean over the seeding cells of the solution of the routing equations that is 0 next to
an edge and gains with every step its diffusion-free duration times half the number of its ends in the region. -/
theorem C121_exposure {N : Nat} {xs ys : List Int} {t : ℝ} {g : Grid Int}
    (h : Reach Arith.exact F (Enclosed Arith.exact F R C) Draws (InsideSeeds R C) P s) (hw : s.walk = none)
    (ha : ∀ k, k < 9 → k ≠ 4 → ∃ a, P.angles k = .fin a) (hv : ∀ var, OptVar P var → Trackable P var) (hx : xs ≠ []) (hy : ys ≠ [])
    (hxy : ∀ x ∈ xs, ∀ y ∈ ys, Inside R C (x, y) ∧ Escapes (flowOf F P) P (x, y)) (hb : Binary g) (hgr : g.rows = R) (hgc : g.cols = C)
    {V : Int × Int → ℝ} (hV : Balances F P R C (fun _ => 0) (fun p q => freeDur F P p q * ((cellMark g p + cellMark g q) / 2)) V)
    {E : Fin N → (Nat → ℝ) → ℝ} (hE : ∀ᵐ ω ∂uniformDraws, ∃ n, SettledExposure F P ω s N xs ys t n g fun i => E i ω) (i : Fin N) :
    ∫ ω, E i ω ∂uniformDraws = (xs.map fun x => (ys.map fun y => V (x, y)).sum).sum / (xs.length * ys.length) := by
  have hl := (C117_mean h hw ha hv hx hy hxy hb hgr hgc hE i).2
  have hJ : ∀ x ∈ xs, ∀ y ∈ ys, (x, y) ∈ freeCells F P R C := fun x hx y hy => (mem_freeCells _).2 (hxy x hx y hy)
  rw [← seedProb_mean hJ]
  have hr := fun p (_ : Inside R C p ∧ Escapes (flowOf F P) P p) (_ : AtEdge P p) =>
    (show freeDur F P p p * ((cellMark g p + cellMark g p) / 2) = 0 by rw [freeDur_self h.obj.walk p, zero_mul])
  have hlim := fun p (hp : p ∈ freeCells F P R C) => (chain_free h.obj).gains_tendsto mem_freeCells free_gets hr ((balances_iff h.obj).1 hV) ((mem_freeCells p).1 hp)
  refine tendsto_nhds_unique hl ((tendsto_finsetSum _ fun p hp => (hlim p hp).const_mul (seedProb xs ys p).toReal).congr fun n => ?_)
  unfold meanExposure
  rw [tsum_eq_sum (s := freeCells F P R C) fun p hp => by
    have : seedProb xs ys p = 0 := by
      by_contra hc
      exact hp (hJ _ (seedProb_mem hc).1 _ (seedProb_mem hc).2)
    rw [this, ENNReal.toReal_zero, zero_mul]]
  refine sum_congr rfl fun p hp => ?_
  rw [(course_mean h.obj n g ((mem_freeCells p).1 hp)).2]

end

/-! ## Concrete cases -/

theorem realObj_rim {a b : Nat} (ha : 1 ≤ a) (ha' : a ≤ 3) (hb : 1 ≤ b) (hb' : b ≤ 3) (h : ¬ (a = 2 ∧ b = 2)) : NearEdge realObj a b := by
  have e : ∀ i j, realObj.cellType.at' i j = if interiorB 5 5 i j then (if Fl.lt (.fin (1 : ℝ)) (.fin (1 / 10)) then 2 else 0) else -1 := fun _ _ => rfl
  have key : ∀ i j, i < 5 → j < 5 → i ≤ a + 1 → a ≤ i + 1 → j ≤ b + 1 → b ≤ j + 1 → interiorB 5 5 i j = false → NearEdge realObj a b :=
    fun i j hi hj h1 h2 h3 h4 h5 => ⟨i, j, hi, hj, by omega, by omega, by rw [e, h5]; rfl⟩
  have : a = 1 ∨ a = 3 ∨ b = 1 ∨ b = 3 := by omega
  rcases this with rfl | rfl | rfl | rfl
  · exact key 0 b (by omega) (by omega) (by omega) (by omega) (by omega) (by omega) (by unfold interiorB; simp)
  · exact key 4 b (by omega) (by omega) (by omega) (by omega) (by omega) (by omega) (by unfold interiorB; simp)
  · exact key a 0 (by omega) (by omega) (by omega) (by omega) (by omega) (by omega) (by unfold interiorB; simp)
  · exact key a 4 (by omega) (by omega) (by omega) (by omega) (by omega) (by omega) (by unfold interiorB; simp)

theorem realObj_choose {k : Nat} (hk : k < 9) :
    ((flowOf Fun.real realObj).chooseProb realObj.steepest 2 2 k).toReal = if k = 7 then 1 / 2 else if k = 6 ∨ k = 8 then 1 / 4 else 0 := by
  have hW : ∑ m ∈ range 9, (flowOf Fun.real realObj).weight 2 2 m = 19 / 20 := by
    rw [sum_congr rfl fun m hm => realObj_weight (mem_range.1 hm)]
    norm_num [sum_range_succ]
  have e : (flowOf Fun.real realObj).chooseProb realObj.steepest 2 2 k =
      ENNReal.ofReal ((flowOf Fun.real realObj).weight 2 2 k / ∑ m ∈ range 9, (flowOf Fun.real realObj).weight 2 2 m) := rfl
  rw [e, hW, realObj_weight hk, ENNReal.toReal_ofReal (by split_ifs <;> norm_num)]
  split_ifs <;> norm_num

theorem realObj_escapes {p : Int × Int} (hp : Inside 5 5 p) : Escapes (flowOf Fun.real realObj) realObj p := by
  intro q hq
  have hin : Inside 5 5 q := by
    induction hq with
    | refl => exact hp
    | tail _ hm ih =>
      by_contra hc
      exact (pos_iff_ne_zero.1 hm) (moveProb_outside realObj_enclosed ih hc)
  obtain ⟨a, b, rfl, h1, h2, h3, h4⟩ := hin.nat
  by_cases h : a = 2 ∧ b = 2
  · obtain ⟨rfl, rfl⟩ := h
    refine ⟨(3, 2), .single ?_, realObj_rim (a := 3) (b := 2) (by omega) (by omega) (by omega) (by omega) (by omega)⟩
    change 0 < moveProb (flowOf Fun.real realObj) realObj (2, 2) (3, 2)
    rw [realObj_half]
    simp
  · exact ⟨_, .refl, realObj_rim (by omega) (by omega) (by omega) (by omega) (by simpa using h)⟩

/-- The routing equations of the 5 by 5 channel, whose only interior cell that is not next to an edge is the centre. -/
theorem realObj_balances {rim : Int × Int → ℝ} {gain : Int × Int → Int × Int → ℝ} {V : Int × Int → ℝ} (h1 : ∀ p, p ≠ (2, 2) → V p = rim p)
    (h2 : V (2, 2) = 1 / 4 * (gain (2, 2) (3, 1) + V (3, 1)) + 1 / 2 * (gain (2, 2) (3, 2) + V (3, 2)) + 1 / 4 * (gain (2, 2) (3, 3) + V (3, 3))) :
    Balances Fun.real realObj 5 5 rim gain V := by
  constructor
  · intro p _ _ hn
    refine h1 p ?_
    rintro rfl
    exact realObj_far hn
  · intro p hp _ hn
    obtain ⟨a, b, rfl, g1, g2, g3, g4⟩ := hp.nat
    have h : a = 2 ∧ b = 2 := by
      by_contra hc
      exact hn (realObj_rim (by omega) (by omega) (by omega) (by omega) (by simpa using hc))
    obtain ⟨rfl, rfl⟩ := h
    have e : ∀ k ∈ range 9, ((flowOf Fun.real realObj).chooseProb realObj.steepest (((2 : Nat) : Int), ((2 : Nat) : Int)).1.toNat
        (((2 : Nat) : Int), ((2 : Nat) : Int)).2.toNat k).toReal * (gain (((2 : Nat) : Int), ((2 : Nat) : Int)) (neighbour (((2 : Nat) : Int), ((2 : Nat) : Int)) k) +
          V (neighbour (((2 : Nat) : Int), ((2 : Nat) : Int)) k)) =
        (if k = 7 then 1 / 2 else if k = 6 ∨ k = 8 then 1 / 4 else 0) * (gain (2, 2) (neighbour (2, 2) k) + V (neighbour (2, 2) k)) := by
      intro k hk
      rw [← realObj_choose (mem_range.1 hk)]
      rfl
    rw [sum_congr rfl e]
    have n6 : neighbour (2, 2) 6 = (3, 1) := by decide
    have n7 : neighbour (2, 2) 7 = (3, 2) := by decide
    have n8 : neighbour (2, 2) 8 = (3, 3) := by decide
    simp only [sum_range_succ, sum_range_zero]
    norm_num [n6, n7, n8]
    rw [h2]

/-- C121: eight particles at the centre of the 5 by 5 channel. Each leaves by the cell ahead with probability one half and by the one to its left with
probability a quarter; the share that leave to the left is within one half of a quarter except with probability `2 exp(-4)`; and the mean time of
arrival is the mean of the three diffusion-free durations. -/
example : ∃ (s : PState ℝ) (wd : WalkData ℝ) (τ : (Nat → ℝ) → ℝ), s.walk = some wd ∧ wd.xinds.length = 8 ∧
    Reach Arith.exact Fun.real (Enclosed Arith.exact Fun.real 5 5) Draws (InsideSeeds 5 5) realObj s ∧
    uniformDraws.real {ω | LeavesBy Fun.real realObj ω s 0 {(3, 2)}} = 1 / 2 ∧ uniformDraws.real {ω | LeavesBy Fun.real realObj ω s 0 {(3, 1)}} = 1 / 4 ∧
    uniformDraws.real {ω | 1 / 2 ≤ |((Finset.card (@Finset.filter _ (fun i => LeavesBy Fun.real realObj ω s i {(3, 1)}) (Classical.decPred _) (range 8)) : ℝ)) /
      (8 : Nat) - 1 / 4|} ≤ 2 * Real.exp (-4) ∧
    (∀ᵐ ω ∂uniformDraws, ArrivalTime Fun.real realObj ω s 0 (τ ω)) ∧
    ∫ ω, τ ω ∂uniformDraws = 1 / 4 * freeDur Fun.real realObj (2, 2) (3, 1) + 1 / 2 * freeDur Fun.real realObj (2, 2) (3, 2) +
      1 / 4 * freeDur Fun.real realObj (2, 2) (3, 3) := by
  classical
  have hg : ∃ s0, generateParticles Arith.exact realObj (fun _ => 1 / 2) (initState Arith.exact Fun.real realObj 0) (.int 8)
    (.list [.int 2]) (.list [.int 2]) (.int 0) (.str "exact") none = .ok s0 ∧
      ∃ wd, s0.walk = some wd ∧ wd.xinds.length = 8 ∧ ∀ i, i < 8 → wd.lastPos i = some (2, 2) ∧ wd.lastTime i = some (.fin ((0 : Int) : ℝ)) := by
    refine ⟨_, rfl, _, rfl, rfl, fun i hi => ?_⟩
    interval_cases i <;> exact ⟨rfl, rfl⟩
  obtain ⟨s0, h0, wd, hwd, hlen, hall⟩ := hg
  have hc : genInputCheck (K := ℝ) (.int 8) (.list [.int 2]) (.list [.int 2]) (.int 0) (.str "exact") =
    .ok (8, [2], [2], .fin ((0 : Int) : ℝ), .exact) := rfl
  have hreach : Reach Arith.exact Fun.real (Enclosed Arith.exact Fun.real 5 5) Draws (InsideSeeds 5 5) realObj s0 :=
    .generate (.new 0 realObj_enclosed) (fun _ => by norm_num) hc (by norm_num)
      (by intro x hx y hy; simp at hx hy; subst hx hy; unfold Inside; decide) h0
  have hesc : Escapes (flowOf Fun.real realObj) realObj (2, 2) := realObj_escapes (by unfold Inside; decide)
  have ht : ∀ i, i < wd.xinds.length → ∃ t, wd.lastTime i = some (.fin t) := fun i hi => ⟨_, (hall i (by omega)).2⟩
  have ex : ∃ τ : (Nat → ℝ) → ℝ, ∀ᵐ ω ∂uniformDraws, ArrivalTime Fun.real realObj ω s0 0 (τ ω) := by
    refine ⟨fun ω => if h : ∃ τ, ArrivalTime Fun.real realObj ω s0 0 τ then h.choose else 0, ?_⟩
    filter_upwards [C116_arrives hreach realObj_angles hwd ht (i := 0) (by omega) (hall 0 (by omega)).1 hesc] with ω hω
    rw [dif_pos hω.exists]
    exact hω.exists.choose_spec
  obtain ⟨τ, hτ⟩ := ex
  have hV1 : Balances Fun.real realObj 5 5 (Set.indicator {(3, 2)} fun _ => 1) (fun _ _ => 0) fun p => if p = (2, 2) then 1 / 2 else if p = (3, 2) then 1 else 0 := by
    refine realObj_balances (fun p hp => ?_) (by norm_num)
    by_cases h : p = (3, 2) <;> simp [h, hp]
  have hV2 : Balances Fun.real realObj 5 5 (Set.indicator {(3, 1)} fun _ => 1) (fun _ _ => 0) fun p => if p = (2, 2) then 1 / 4 else if p = (3, 1) then 1 else 0 := by
    refine realObj_balances (fun p hp => ?_) (by norm_num)
    by_cases h : p = (3, 1) <;> simp [h, hp]
  have hV3 : Balances Fun.real realObj 5 5 (fun _ => 0) (freeDur Fun.real realObj) fun p => if p = (2, 2) then 1 / 4 * freeDur Fun.real realObj (2, 2) (3, 1) +
      1 / 2 * freeDur Fun.real realObj (2, 2) (3, 2) + 1 / 4 * freeDur Fun.real realObj (2, 2) (3, 3) else 0 :=
    realObj_balances (fun p hp => if_neg hp) (by norm_num)
  have hp0 := (hall 0 (by omega)).1
  refine ⟨s0, wd, τ, hwd, hlen, hreach, ?_, ?_, ?_, hτ, ?_⟩
  · exact (C121_fraction hreach realObj_angles hwd ht hV1 (i := 0) (by omega) hp0 hesc).trans (if_pos rfl)
  · exact (C121_fraction hreach realObj_angles hwd ht hV2 (i := 0) (by omega) hp0 hesc).trans (if_pos rfl)
  · have := C121_share hreach realObj_angles hwd ht hV2 hlen (by norm_num) (p := fun _ => (2, 2)) (fun i hi => (hall i hi).1) (fun _ _ => hesc)
      (ε := 1 / 2) (by norm_num)
    rw [sum_const, card_range, nsmul_eq_mul, if_pos rfl, mul_div_cancel_left₀ _ (by norm_num),
      show (-2 * (8 : Nat) * (1 / 2) ^ 2 : ℝ) = -4 by norm_num] at this
    convert this
  · rw [(C121_mean hreach realObj_angles hwd ht hV3 (i := 0) (by omega) hp0 (hall 0 (by omega)).2 hesc hτ).2]
    simp

/-- C121: in the wide channel, where walks take many steps, the equations for leaving by the last row and for the exposure time of the lower part have
solutions, one each, and these are the probability and the mean for a particle at the centre. -/
example : ∃ (V U : Int × Int → ℝ) (s : PState ℝ) (E : Fin 3 → (Nat → ℝ) → ℝ), ¬ NearEdge wideObj 5 5 ∧
    Balances Fun.real wideObj 11 11 (Set.indicator {p | p.1 = 9} fun _ => 1) (fun _ _ => 0) V ∧
    Balances Fun.real wideObj 11 11 (fun _ => 0) (fun p q => freeDur Fun.real wideObj p q * ((cellMark lowerWide p + cellMark lowerWide q) / 2)) U ∧
    uniformDraws.real {ω | LeavesBy Fun.real wideObj ω s 0 {p | p.1 = 9}} = V (5, 5) ∧
    (∀ᵐ ω ∂uniformDraws, ∃ n, SettledExposure Fun.real wideObj ω (initState Arith.exact Fun.real wideObj 0) 3 [5] [5] 0 n lowerWide fun i => E i ω) ∧
    ∀ i, ∫ ω, E i ω ∂uniformDraws = U (5, 5) := by
  classical
  obtain ⟨V, hV⟩ := (C121_solvable wideObj_enclosed (Set.indicator {p | p.1 = 9} fun _ => 1) fun _ _ => 0).1
  obtain ⟨U, hU⟩ := (C121_solvable wideObj_enclosed (fun _ => 0)
    (fun p q => freeDur Fun.real wideObj p q * ((cellMark lowerWide p + cellMark lowerWide q) / 2))).1
  obtain ⟨s0, h0, wd, hwd, hlen, hl0, ht0⟩ : ∃ s0, generateParticles Arith.exact wideObj (fun _ => 1 / 2) (initState Arith.exact Fun.real wideObj 0) (.int 1)
    (.list [.int 5]) (.list [.int 5]) (.int 0) (.str "exact") none = .ok s0 ∧
      ∃ wd, s0.walk = some wd ∧ wd.xinds.length = 1 ∧ wd.lastPos 0 = some (5, 5) ∧ wd.lastTime 0 = some (.fin ((0 : Int) : ℝ)) :=
    ⟨_, rfl, _, rfl, rfl, rfl, rfl⟩
  have hc : genInputCheck (K := ℝ) (.int 1) (.list [.int 5]) (.list [.int 5]) (.int 0) (.str "exact") =
    .ok (1, [5], [5], .fin ((0 : Int) : ℝ), .exact) := rfl
  have hreach : Reach Arith.exact Fun.real (Enclosed Arith.exact Fun.real 11 11) Draws (InsideSeeds 11 11) wideObj s0 :=
    .generate (.new 0 wideObj_enclosed) (fun _ => by norm_num) hc (by norm_num)
      (by intro x hx y hy; simp at hx hy; subst hx hy; unfold Inside; decide) h0
  have hin : Inside 11 11 ((5, 5) : Int × Int) := by unfold Inside; decide
  have hesc : Escapes (flowOf Fun.real wideObj) wideObj (5, 5) := wideObj_escapes hin
  have ht : ∀ i, i < wd.xinds.length → ∃ t, wd.lastTime i = some (.fin t) := fun i hi => by
    obtain rfl : i = 0 := by omega
    exact ⟨_, ht0⟩
  have h : Reach Arith.exact Fun.real (Enclosed Arith.exact Fun.real 11 11) Draws (InsideSeeds 11 11) wideObj (initState Arith.exact Fun.real wideObj 0) :=
    .new 0 wideObj_enclosed
  have hv : ∀ var, OptVar wideObj var → Trackable wideObj var := by
    rintro var ⟨hm, -⟩
    have e : wideObj.particleVars = [] := rfl
    rw [e] at hm
    simp at hm
  have hxy : ∀ x ∈ ([5] : List Int), ∀ y ∈ ([5] : List Int), Inside 11 11 (x, y) ∧ Escapes (flowOf Fun.real wideObj) wideObj (x, y) := by
    intro x hx y hy
    simp at hx hy
    subst hx hy
    exact ⟨hin, hesc⟩
  have hb : Binary lowerWide := by
    intro i j _ _
    unfold lowerWide
    simp only
    split_ifs <;> simp
  have hfin := C117_final (N := 3) (t := 0) h rfl wideObj_angles hv (by simp) (by simp) hxy hb rfl rfl
  obtain ⟨E, hE⟩ : ∃ E : Fin 3 → (Nat → ℝ) → ℝ, ∀ᵐ ω ∂uniformDraws,
      ∃ n, SettledExposure Fun.real wideObj ω (initState Arith.exact Fun.real wideObj 0) 3 [5] [5] 0 n lowerWide fun i => E i ω := by
    refine ⟨fun i ω => if hω : ∃ E, ∃ n, SettledExposure Fun.real wideObj ω (initState Arith.exact Fun.real wideObj 0) 3 [5] [5] 0 n lowerWide E
      then hω.choose i else 0, ?_⟩
    filter_upwards [hfin] with ω hω
    simp only [dif_pos hω.exists]
    exact hω.exists.choose_spec
  refine ⟨V, U, s0, E, wideObj_far (by omega) (by omega) (by omega) (by omega), hV, hU, C121_fraction hreach wideObj_angles hwd ht hV (i := 0) (by omega) hl0 hesc, hE, fun i => ?_⟩
  rw [C121_exposure h rfl wideObj_angles hv (by simp) (by simp) hxy hb rfl rfl hU hE i]
  simp

end Dorado
