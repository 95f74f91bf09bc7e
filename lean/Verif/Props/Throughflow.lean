import Verif.Spec.Throughflow
import Verif.Lemmas.Throughflow
import Verif.Props.Outlet

/-! # The balance of particles in every cell: C123 -/

set_option linter.unusedSectionVars false

namespace Dorado

open MeasureTheory Finset

section
variable {F : Fun ℝ Arith.exact} {R C : Nat} {P : PObj ℝ} {s : PState ℝ}

/-- The interior cells. -/
noncomputable def innerCells (R C : Nat) : Finset (Int × Int) := (inside_finite R C).toFinset

theorem mem_innerCells (p : Int × Int) : p ∈ innerCells R C ↔ Inside R C p := by
  unfold innerCells
  rw [Set.Finite.mem_toFinset]
  rfl

theorem gridSum_cells {J : Finset (Int × Int)} (hJ : ∀ p ∈ J, Inside R C p) {f : Int × Int → ℝ} (hf : ∀ p, p ∉ J → f p = 0) :
    gridSum R C f = ∑ p ∈ J, f p := by
  classical
  unfold gridSum
  rw [← sum_product' (range R) (range C) fun a b => f ((a : Int), (b : Int))]
  refine sum_bij_ne_zero (fun x _ _ => ((x.1 : Int), (x.2 : Int))) ?_ ?_ ?_ ?_
  · intro x _ hx
    by_contra hc
    exact hx (hf _ hc)
  · intro x _ _ y _ _ e
    simp only [Prod.mk.injEq, Nat.cast_inj] at e
    exact Prod.ext e.1 e.2
  · intro p hp hne
    obtain ⟨a, b, rfl, h1, h2, h3, h4⟩ := (hJ p hp).nat
    exact ⟨(a, b), by simp only [mem_product, mem_range]; omega, hne, rfl⟩
  · intro x _ _
    rfl

/-- Probability of a step in terms of the neighbours. -/
theorem move_real (hP : Enclosed Arith.exact F R C P) {q : Int × Int} (hq : Inside R C q) (hn : ¬ NearEdge P q.1.toNat q.2.toNat) (c : Int × Int) :
    (moveProb (flowOf F P) P q c).toReal =
      ∑ k ∈ range 9, if neighbour q k = c then ((flowOf F P).chooseProb P.steepest q.1.toNat q.2.toNat k).toReal else 0 := by
  classical
  have hm : ∀ c, moveProb (flowOf F P) P q c = ∑ k ∈ range 9, if neighbour q k = c then (flowOf F P).chooseProb P.steepest q.1.toNat q.2.toNat k else 0 := by
    intro c
    unfold moveProb
    rw [if_neg hn]
    refine sum_congr rfl fun k _ => ?_
    unfold neighbour
    simp only [eq_comm]
  have hfin : ∀ k ∈ range 9, (flowOf F P).chooseProb P.steepest q.1.toNat q.2.toNat k ≠ ⊤ := by
    intro k hk
    have hle : (flowOf F P).chooseProb P.steepest q.1.toNat q.2.toNat k ≤ moveProb (flowOf F P) P q (neighbour q k) := by
      rw [hm]
      refine le_trans ?_ (single_le_sum (fun _ _ => zero_le) hk)
      rw [if_pos rfl]
    refine ne_top_of_le_ne_top ?_ hle
    have h1 := ENNReal.le_tsum (f := fun c => moveProb (flowOf F P) P q c) (neighbour q k)
    rw [moveProb_sum hP hq] at h1
    exact (h1.trans_lt ENNReal.one_lt_top).ne
  rw [hm, ENNReal.toReal_sum fun k hk => by
    split_ifs
    · exact hfin k hk
    · simp]
  refine sum_congr rfl fun k _ => ?_
  split_ifs <;> rfl

open Classical in
/-- The inflow in terms of the probabilities of steps. -/
theorem inflow_cells (hP : Enclosed Arith.exact F R C P) {J : Finset (Int × Int)} (hJ : ∀ p ∈ J, Inside R C p) {u : Int × Int → ℝ}
    (hu : ∀ p, p ∉ J → ¬ NearEdge P p.1.toNat p.2.toNat → u p = 0) (c : Int × Int) :
    inflow F P R C u c = ∑ q ∈ J, if AtEdge P q then 0 else u q * (moveProb (flowOf F P) P q c).toReal := by
  unfold inflow
  rw [gridSum_cells hJ fun p hp => by
    split_ifs with hn
    · rfl
    · refine sum_eq_zero fun k _ => ?_
      rw [hu p hp hn]
      simp]
  refine sum_congr rfl fun q hq => ?_
  by_cases hn : NearEdge P q.1.toNat q.2.toNat
  · rw [if_pos hn, if_pos (show AtEdge P q from hn)]
  · rw [if_neg hn, if_neg (show ¬ AtEdge P q from hn), move_real hP (hJ q hq) hn, mul_sum]
    refine sum_congr rfl fun k _ => ?_
    split_ifs <;> simp

theorem found_iff {wd : WalkData ℝ} (hwd : s.walk = some wd) {ω : Nat → ℝ} {n i : Nat} {x : Course n} (hx : HasCourse F P ω s n i x)
    {p : Int × Int} (hp : wd.lastPos i = some p) {c : Int × Int} : FoundAt F P ω s n i c ↔ endCell p x = c := by
  have key : ∃ s' w wd', AfterRuns Arith.exact F P ω s n s' w ∧ s'.walk = some wd' ∧ wd'.lastPos i = some (endCell p x) := by
    cases n with
    | zero => exact ⟨s, none, wd, .zero, hwd, hp⟩
    | succ n => exact (hx (Fin.last n)).1
  obtain ⟨s1, w1, wd1, r1, e1, l1⟩ := key
  constructor
  · rintro ⟨s2, w2, wd2, r2, e2, l2⟩
    obtain ⟨rfl, -⟩ := r1.unique r2
    rw [e1] at e2
    cases e2
    rw [l1] at l2
    exact Option.some.inj l2
  · rintro rfl
    exact ⟨_, _, _, r1, e1, l1⟩

open Classical in
/-- Where the particles are after `n` calls. -/
theorem found_law (h : Reach Arith.exact F (Enclosed Arith.exact F R C) Draws (InsideSeeds R C) P s)
    (ha : ∀ k, k < 9 → k ≠ 4 → ∃ a, P.angles k = .fin a) {wd : WalkData ℝ} (hwd : s.walk = some wd)
    (ht0 : ∀ i, i < wd.xinds.length → ∃ t, wd.lastTime i = some (.fin t)) (c : Int × Int) (n : Nat) :
    (∀ i : Fin wd.xinds.length, NullMeasurableSet {ω | FoundAt F P ω s n i c} uniformDraws ∧ ∀ p, wd.lastPos i = some p →
      uniformDraws.real {ω | FoundAt F P ω s n i c} = atProb (moveProb (flowOf F P) P) n p c) ∧
    ProbabilityTheory.iIndepFun (fun (i : Fin wd.xinds.length) ω => if FoundAt F P ω s n i c then (1 : ℝ) else 0) uniformDraws := by
  have ex := fun (ω : Nat → ℝ) (hω : Draws ω) (i : Fin wd.xinds.length) => course_exists h ha hwd ht0 hω n i.2
  obtain ⟨X, hX⟩ : ∃ X : Fin wd.xinds.length → (Nat → ℝ) → Course n, ∀ ω, Draws ω → ∀ i : Fin wd.xinds.length, HasCourse F P ω s n i (X i ω) :=
    ⟨fun i ω => if hω : Draws ω then (ex ω hω i).choose else fun _ => ((0, 0), 0), fun ω hω i => by
      simp only [dif_pos hω]
      exact (ex ω hω i).choose_spec⟩
  choose pos hpos _ using fun i : Fin wd.xinds.length => last_inside h hwd i.2
  have hm := course_measurable h ha hwd ht0 hX hpos
  obtain ⟨hind, hlaw⟩ := C104_independent h ha hwd ht0 hX hpos
  have hS : ∀ p, MeasurableSet {x : Course n | endCell p x = c} := fun p =>
    cells_measurable fun q => Fin.cons (α := fun _ => Int × Int) p q (Fin.last n) = c
  have hiff : ∀ ω, Draws ω → ∀ i : Fin wd.xinds.length, FoundAt F P ω s n i c ↔ endCell (pos i) (X i ω) = c :=
    fun ω hω i => found_iff hwd (hX ω hω i) (hpos i)
  have hae : ∀ i : Fin wd.xinds.length, {ω | FoundAt F P ω s n i c} =ᵐ[uniformDraws] X i ⁻¹' {x | endCell (pos i) x = c} := by
    intro i
    rw [Filter.eventuallyEq_set]
    filter_upwards [uniformDraws_nonzero] with ω hω
    exact hiff ω hω.1 i
  refine ⟨fun i => ⟨((hm i).nullMeasurableSet_preimage (hS _)).congr (hae i).symm, fun p hp => ?_⟩, ?_⟩
  · have hpi : pos i = p := by
      have := hpos i
      rw [hp] at this
      exact (Option.some.inj this).symm
    unfold atProb
    rw [measureReal_def, measure_congr (hae i), ← Measure.map_apply_of_aemeasurable (hm i) (hS _), hlaw i, hpi, ← end_law]
    simp only [ne_eq, not_not]
  · refine (hind.comp (fun i x => if endCell (pos i) x = c then (1 : ℝ) else 0) fun i =>
      Measurable.ite (hS (pos i)) measurable_const measurable_const).congr fun i => ?_
    filter_upwards [uniformDraws_nonzero] with ω hω
    simp only [Function.comp, hiff ω hω.1 i]

theorem countAt_sum (F : Fun ℝ Arith.exact) (P : PObj ℝ) (ω : Nat → ℝ) (s : PState ℝ) (N n : Nat) (c : Int × Int) :
    countAt F P ω s N n c = ∑ i : Fin N, Set.indicator {ω | FoundAt F P ω s n i c} (fun _ => (1 : ℝ)) ω := by
  classical
  unfold countAt
  rw [card_filter]
  push_cast
  rw [← Fin.sum_univ_eq_sum_range (fun i => if FoundAt F P ω s n i c then (1 : ℝ) else 0)]
  refine sum_congr rfl fun i _ => ?_
  unfold Set.indicator
  congr

theorem meanAt_sum (h : Reach Arith.exact F (Enclosed Arith.exact F R C) Draws (InsideSeeds R C) P s)
    (ha : ∀ k, k < 9 → k ≠ 4 → ∃ a, P.angles k = .fin a) {wd : WalkData ℝ} (hwd : s.walk = some wd)
    (ht0 : ∀ i, i < wd.xinds.length → ∃ t, wd.lastTime i = some (.fin t)) {p : Nat → Int × Int}
    (hp : ∀ i, i < wd.xinds.length → wd.lastPos i = some (p i)) (n : Nat) (c : Int × Int) :
    meanAt F P s wd.xinds.length n c = ∑ i ∈ range wd.xinds.length, atProb (moveProb (flowOf F P) P) n (p i) c := by
  unfold meanAt
  simp only [countAt_sum]
  have hl := (found_law h ha hwd ht0 c n).1
  rw [integral_finsetSum _ fun i _ => (integrable_const (1 : ℝ)).indicator₀ (hl i).1,
    ← Fin.sum_univ_eq_sum_range (fun i => atProb (moveProb (flowOf F P) P) n (p i) c)]
  refine sum_congr rfl fun i _ => ?_
  rw [integral_indicator₀ (hl i).1]
  simp only [integral_const, smul_eq_mul, mul_one, measureReal_restrict_apply_univ]
  exact (hl i).2 _ (hp i i.2)

/-- Cells of the particles. -/
theorem seats_inside (h : Reach Arith.exact F (Enclosed Arith.exact F R C) Draws (InsideSeeds R C) P s) {wd : WalkData ℝ} (hwd : s.walk = some wd) :
    ∃ p : Nat → Int × Int, ∀ i, i < wd.xinds.length → wd.lastPos i = some (p i) ∧ Inside R C (p i) := by
  choose! p hp using fun (i : Nat) (hi : i < wd.xinds.length) => last_inside h hwd hi
  exact ⟨p, hp⟩

open Classical in
/-- C123: before any call the numbers are those of the last records. -/
theorem C123_start {wd : WalkData ℝ} (hwd : s.walk = some wd) (N : Nat) (c : Int × Int) :
    meanAt F P s N 0 c = ((range N).filter fun i => wd.lastPos i = some c).card := by
  have e : ∀ ω i, FoundAt F P ω s 0 i c ↔ wd.lastPos i = some c := by
    intro ω i
    constructor
    · rintro ⟨s', w, wd', g1, g2, g3⟩
      cases g1
      rw [hwd] at g2
      cases g2
      exact g3
    · exact fun g => ⟨s, none, wd, .zero, hwd, g⟩
  unfold meanAt countAt
  simp only [e]
  simp

open Classical in
/-- C123: with every call of `run_iteration()` the expected number of particles in a cell becomes what its neighbours hand over, plus what was there if the cell is
next to an edge. -/
theorem C123_step (h : Reach Arith.exact F (Enclosed Arith.exact F R C) Draws (InsideSeeds R C) P s)
    (ha : ∀ k, k < 9 → k ≠ 4 → ∃ a, P.angles k = .fin a) {wd : WalkData ℝ} (hwd : s.walk = some wd)
    (ht0 : ∀ i, i < wd.xinds.length → ∃ t, wd.lastTime i = some (.fin t)) {N : Nat} (hN : wd.xinds.length = N) (n : Nat) {c : Int × Int} (hc : Inside R C c) :
    meanAt F P s N (n + 1) c = (if NearEdge P c.1.toNat c.2.toNat then meanAt F P s N n c else 0) + inflow F P R C (meanAt F P s N n) c := by
  subst hN
  obtain ⟨p, hp⟩ := seats_inside h hwd
  have hch := chain_of h.obj
  have hm := meanAt_sum h ha hwd ht0 fun i hi => (hp i hi).1
  rw [inflow_cells h.obj (J := innerCells R C) (fun q hq => (mem_innerCells q).1 hq) fun q hq _ => by
    rw [hm]
    exact sum_eq_zero fun i hi => hch.atProb_out mem_innerCells n (hp i (mem_range.1 hi)).2 fun hc => hq ((mem_innerCells q).2 hc)]
  rw [hm, sum_congr rfl fun i hi => hch.atProb_last mem_innerCells n (hp i (mem_range.1 hi)).2 c, sum_comm]
  have e := hch.forward mem_innerCells hc (meanAt F P s wd.xinds.length n)
  refine Eq.trans (sum_congr rfl fun q _ => ?_) e
  rw [hm, sum_mul]

/-- C123: no particle is lost or made: the expected numbers in the cells of the grid add up to the number of particles, and outside the interior there are none. -/
theorem C123_conserved (h : Reach Arith.exact F (Enclosed Arith.exact F R C) Draws (InsideSeeds R C) P s)
    (ha : ∀ k, k < 9 → k ≠ 4 → ∃ a, P.angles k = .fin a) {wd : WalkData ℝ} (hwd : s.walk = some wd)
    (ht0 : ∀ i, i < wd.xinds.length → ∃ t, wd.lastTime i = some (.fin t)) {N : Nat} (hN : wd.xinds.length = N) (n : Nat) :
    gridSum R C (meanAt F P s N n) = N ∧ ∀ c, ¬ Inside R C c → meanAt F P s N n c = 0 := by
  subst hN
  obtain ⟨p, hp⟩ := seats_inside h hwd
  have hch := chain_of h.obj
  have hm := meanAt_sum h ha hwd ht0 fun i hi => (hp i hi).1
  have hout : ∀ c, ¬ Inside R C c → meanAt F P s wd.xinds.length n c = 0 := fun c hc => by
    rw [hm]
    exact sum_eq_zero fun i hi => hch.atProb_out mem_innerCells n (hp i (mem_range.1 hi)).2 hc
  refine ⟨?_, hout⟩
  rw [gridSum_cells (J := innerCells R C) (fun q hq => (mem_innerCells q).1 hq) fun q hq => hout q fun hc => hq ((mem_innerCells q).2 hc)]
  simp only [hm]
  rw [sum_comm, sum_congr rfl fun i hi => hch.atProb_sum mem_innerCells n (hp i (mem_range.1 hi)).2]
  simp

/-- C123: the share of the particles in a cell after `n` calls differs by `ε` or more from the expected share with probability at most `2 exp(-2 N ε²)`. -/
theorem C123_share (h : Reach Arith.exact F (Enclosed Arith.exact F R C) Draws (InsideSeeds R C) P s)
    (ha : ∀ k, k < 9 → k ≠ 4 → ∃ a, P.angles k = .fin a) {wd : WalkData ℝ} (hwd : s.walk = some wd)
    (ht0 : ∀ i, i < wd.xinds.length → ∃ t, wd.lastTime i = some (.fin t)) {N : Nat} (hN : wd.xinds.length = N) (h0 : 0 < N) (n : Nat) (c : Int × Int)
    {ε : ℝ} (hε : 0 < ε) :
    uniformDraws.real {ω | ε ≤ |countAt F P ω s N n c / N - meanAt F P s N n c / N|} ≤ 2 * Real.exp (-2 * N * ε ^ 2) := by
  classical
  subst hN
  obtain ⟨p, hp⟩ := seats_inside h hwd
  obtain ⟨hl, hind⟩ := found_law h ha hwd ht0 c n
  set Z : Fin wd.xinds.length → (Nat → ℝ) → ℝ := fun i ω => if FoundAt F P ω s n i c then 1 else 0 with hZ
  have hZi : ∀ i : Fin wd.xinds.length, Z i = Set.indicator {ω | FoundAt F P ω s n i c} fun _ => 1 := fun i => by
    funext ω
    simp only [hZ, Set.indicator]
    congr
  have hm : ∀ i, AEMeasurable (Z i) uniformDraws := fun i => by
    rw [hZi]
    exact aemeasurable_const.indicator₀ (hl i).1
  have hcut : Measurable fun x : ℝ => max 0 (min x 1) := by fun_prop
  have key := hoeffding_mean h0 hm hind (fun i => rfl) hcut (fun c => le_max_left _ _) (fun c => max_le zero_le_one (min_le_right _ _)) hε
  have hcutZ : ∀ i ω, max 0 (min (Z i ω) 1) = Z i ω := by
    intro i ω
    simp only [hZ]
    split_ifs <;> simp
  have hmean : ∀ i : Fin wd.xinds.length, ∫ x, max 0 (min x 1) ∂(uniformDraws.map (Z i)) = atProb (moveProb (flowOf F P) P) n (p i) c := by
    intro i
    rw [integral_map (hm i) hcut.aestronglyMeasurable]
    simp only [hcutZ]
    rw [hZi, integral_indicator₀ (hl i).1]
    simp only [integral_const, smul_eq_mul, mul_one, measureReal_restrict_apply_univ]
    exact (hl i).2 _ (hp i i.2).1
  simp only [hcutZ, hmean] at key
  rw [Fin.sum_univ_eq_sum_range (fun i => atProb (moveProb (flowOf F P) P) n (p i) c), ← meanAt_sum h ha hwd ht0 (fun i hi => (hp i hi).1) n c] at key
  simp only [countAt_sum]
  simp only [hZi] at key
  exact key

theorem leaves_tendsto (h : Reach Arith.exact F (Enclosed Arith.exact F R C) Draws (InsideSeeds R C) P s)
    (ha : ∀ k, k < 9 → k ≠ 4 → ∃ a, P.angles k = .fin a) {wd : WalkData ℝ} (hwd : s.walk = some wd)
    (ht0 : ∀ i, i < wd.xinds.length → ∃ t, wd.lastTime i = some (.fin t)) {i : Nat} (hi : i < wd.xinds.length) {p : Int × Int} (hp : wd.lastPos i = some p)
    {c : Int × Int} (hc : AtEdge P c) :
    Filter.Tendsto (fun n => atProb (moveProb (flowOf F P) P) n p c) Filter.atTop (nhds (uniformDraws.real {ω | LeavesBy F P ω s i {c}})) := by
  have h1 : Filter.Tendsto (fun n => uniformDraws {ω | LeftAt F P ω s i {c} n}) Filter.atTop (nhds (uniformDraws {ω | LeavesBy F P ω s i {c}})) := by
    refine tendsto_measure_eventually (fun n => ((left_law h ha hwd ht0 {c} n).1 ⟨i, hi⟩).1) (leaves_measurable h ha hwd ht0 {c} hi) ?_
    filter_upwards [uniformDraws_nonzero] with ω hω
    exact leaves_eventually h hwd hω.1 hi {c}
  refine ((ENNReal.tendsto_toReal (measure_ne_top _ _)).comp h1).congr fun n => ?_
  rw [← ((found_law h ha hwd ht0 c n).1 ⟨i, hi⟩).2 p hp, Function.comp, measureReal_def]
  congr 2
  ext ω
  constructor
  · rintro ⟨s', w, wd', e, g1, g2, g3, -, rfl⟩
    exact ⟨s', w, wd', g1, g2, g3⟩
  · rintro ⟨s', w, wd', g1, g2, g3⟩
    exact ⟨s', w, wd', c, g1, g2, g3, hc, rfl⟩

open Classical in
/-- C123: if all particles can get out, the expected number `U c` of calls that find a particle in a cell `c` that is not next to an edge is finite; it is the
number of particles there now plus what the neighbours hand over in all; these equations have no other solution that is zero where no particle can get out;
and the expected number of particles that leave by a cell next to an edge is what is there now plus what its neighbours hand over in all. -/
theorem C123_through (h : Reach Arith.exact F (Enclosed Arith.exact F R C) Draws (InsideSeeds R C) P s)
    (ha : ∀ k, k < 9 → k ≠ 4 → ∃ a, P.angles k = .fin a) {wd : WalkData ℝ} (hwd : s.walk = some wd)
    (ht0 : ∀ i, i < wd.xinds.length → ∃ t, wd.lastTime i = some (.fin t)) {N : Nat} (hN : wd.xinds.length = N)
    (hesc : ∀ i p, i < N → wd.lastPos i = some p → Escapes (flowOf F P) P p) :
    ∃ U : Int × Int → ℝ, (∀ c, ¬ NearEdge P c.1.toNat c.2.toNat → HasSum (fun n => meanAt F P s N n c) (U c)) ∧
      (∀ c, Inside R C c → ¬ NearEdge P c.1.toNat c.2.toNat → U c = meanAt F P s N 0 c + inflow F P R C U c) ∧
      (∀ U' : Int × Int → ℝ, (∀ c, ¬ (Inside R C c ∧ Escapes (flowOf F P) P c) → U' c = 0) →
        (∀ c, Inside R C c → ¬ NearEdge P c.1.toNat c.2.toNat → U' c = meanAt F P s N 0 c + inflow F P R C U' c) →
        ∀ c, Inside R C c → ¬ NearEdge P c.1.toNat c.2.toNat → U' c = U c) ∧
      ∀ c, Inside R C c → NearEdge P c.1.toNat c.2.toNat →
        ∑ i ∈ range N, uniformDraws.real {ω | LeavesBy F P ω s i {c}} = meanAt F P s N 0 c + inflow F P R C U c := by
  subst hN
  obtain ⟨p, hp⟩ := seats_inside h hwd
  have hch := chain_free h.obj
  have hI : ∀ i, i < wd.xinds.length → Inside R C (p i) ∧ Escapes (flowOf F P) P (p i) := fun i hi => ⟨(hp i hi).2, hesc i _ hi (hp i hi).1⟩
  have hm := meanAt_sum h ha hwd ht0 fun i hi => (hp i hi).1
  set w := moveProb (flowOf F P) P with hw
  set J := freeCells F P R C with hJ
  have mem : ∀ q, q ∈ J ↔ Inside R C q ∧ Escapes (flowOf F P) P q := mem_freeCells
  set T : Nat → Int × Int → ℝ := fun i c => ∑' n, atProb w n (p i) c with hT
  have hsum : ∀ i, i < wd.xinds.length → ∀ c, ¬ AtEdge P c → HasSum (fun n => atProb w n (p i) c) (T i c) := fun i hi c hc =>
    (hch.visits mem free_gets hc (hI i hi)).hasSum
  have hTout : ∀ i, i < wd.xinds.length → ∀ c, c ∉ J → T i c = 0 := fun i hi c hc => by
    simp only [hT]
    rw [tsum_congr fun n => hch.atProb_out mem n (hI i hi) fun hx => hc ((mem c).2 hx), tsum_zero]
  have hin : ∀ q ∈ J, Inside R C q := fun q hq => ((mem q).1 hq).1
  -- what is handed over to `c` in all
  have hflow : ∀ i, i < wd.xinds.length → ∀ c, HasSum (fun n => ∑ q ∈ J, if AtEdge P q then 0 else atProb w n (p i) q * (w q c).toReal)
      (∑ q ∈ J, if AtEdge P q then 0 else T i q * (w q c).toReal) := by
    intro i hi c
    refine hasSum_sum fun q _ => ?_
    by_cases hq : AtEdge P q
    · simp only [hq, if_true]
      exact hasSum_zero
    · simp only [hq, if_false]
      exact (hsum i hi q hq).mul_right _
  have hstep : ∀ i, i < wd.xinds.length → ∀ c, ∀ n, atProb w (n + 1) (p i) c =
      (if AtEdge P c then atProb w n (p i) c else 0) + ∑ q ∈ J, if AtEdge P q then 0 else atProb w n (p i) q * (w q c).toReal := by
    intro i hi c n
    by_cases hc : Inside R C c ∧ Escapes (flowOf F P) P c
    · rw [hch.atProb_last mem n (hI i hi) c]
      exact hch.forward mem hc _
    · rw [hch.atProb_out mem (n + 1) (hI i hi) hc, hch.atProb_out mem n (hI i hi) hc, ite_self, zero_add]
      refine (sum_eq_zero fun q hq => ?_).symm
      rw [hch.inside q c ((mem q).1 hq) hc, ENNReal.toReal_zero, mul_zero, ite_self]
  set U : Int × Int → ℝ := fun c => if AtEdge P c then 0 else ∑ i ∈ range wd.xinds.length, T i c with hU
  have hUout : ∀ q, q ∉ J → ¬ NearEdge P q.1.toNat q.2.toNat → U q = 0 := fun q hq _ => by
    simp only [hU]
    rw [sum_eq_zero fun i hi => hTout i (mem_range.1 hi) q hq, ite_self]
  have hinU : ∀ c, inflow F P R C U c = ∑ i ∈ range wd.xinds.length, ∑ q ∈ J, if AtEdge P q then 0 else T i q * (w q c).toReal := by
    intro c
    rw [inflow_cells h.obj hin hUout, sum_comm]
    refine sum_congr rfl fun q _ => ?_
    by_cases hq : AtEdge P q
    · simp [hq]
    · simp only [hU, hq, if_false]
      rw [sum_mul]
  have hUc : ∀ c, Inside R C c → ¬ AtEdge P c → U c = meanAt F P s wd.xinds.length 0 c + inflow F P R C U c := by
    intro c _ hc'
    rw [hinU, hm, ← sum_add_distrib]
    simp only [hU, hc', if_false]
    refine sum_congr rfl fun i hi => ?_
    have h1 := hsum i (mem_range.1 hi) c hc'
    have h2 := hflow i (mem_range.1 hi) c
    have h3 := (hasSum_nat_add_iff' 1).2 h1
    have e : (fun n => atProb w (n + 1) (p i) c) = fun n => ∑ q ∈ J, if AtEdge P q then 0 else atProb w n (p i) q * (w q c).toReal := by
      funext n
      rw [hstep i (mem_range.1 hi) c n, if_neg hc', zero_add]
    rw [e] at h3
    have := h3.unique h2
    rw [sum_range_one] at this
    linarith
  refine ⟨U, fun c hc => ?_, hUc, fun U' h0 hU' c hc hn => ?_, fun c _ hc => ?_⟩
  · have hc' : ¬ AtEdge P c := hc
    simp only [hU, hc', if_false, hm]
    exact hasSum_sum fun i hi => hsum i (mem_range.1 hi) c hc'
  · by_cases hcJ : c ∈ J
    · have key := hch.forward_unique mem free_gets (W := fun c => U' c - U c) (fun c hc hs => by
        rw [hU' c hc.1 hs, hUc c hc.1 hs, inflow_cells h.obj hin hUout,
          inflow_cells h.obj hin (u := U') fun q hq _ => h0 q fun hx => hq ((mem q).2 hx), add_sub_add_left_eq_sub, ← sum_sub_distrib]
        refine sum_congr rfl fun q _ => ?_
        split_ifs
        · exact sub_zero 0
        · ring) ((mem c).1 hcJ) hn
      exact sub_eq_zero.1 key
    · rw [h0 c fun hx => hcJ ((mem c).2 hx), hUout c hcJ hn]
  · have hc' : AtEdge P c := hc
    rw [hinU, hm, ← sum_add_distrib]
    refine sum_congr rfl fun i hi => ?_
    have h1 := leaves_tendsto h ha hwd ht0 (mem_range.1 hi) (hp i (mem_range.1 hi)).1 hc'
    have h2 := (hflow i (mem_range.1 hi) c).tendsto_sum_nat.const_add (atProb w 0 (p i) c)
    refine tendsto_nhds_unique h1 (h2.congr fun n => ?_)
    induction n with
    | zero => rw [sum_range_zero, add_zero]
    | succ n ih =>
      rw [sum_range_succ, ← add_assoc, ih, hstep i (mem_range.1 hi) c n, if_pos hc']

open Classical in
/-- C123: and all particles leave: the expected numbers that leave by the cells next to an edge add up to the number of particles. -/
theorem C123_out (h : Reach Arith.exact F (Enclosed Arith.exact F R C) Draws (InsideSeeds R C) P s)
    (ha : ∀ k, k < 9 → k ≠ 4 → ∃ a, P.angles k = .fin a) {wd : WalkData ℝ} (hwd : s.walk = some wd)
    (ht0 : ∀ i, i < wd.xinds.length → ∃ t, wd.lastTime i = some (.fin t)) {N : Nat} (hN : wd.xinds.length = N)
    (hesc : ∀ i p, i < N → wd.lastPos i = some p → Escapes (flowOf F P) P p) :
    gridSum R C (fun c => if NearEdge P c.1.toNat c.2.toNat then ∑ i ∈ range N, uniformDraws.real {ω | LeavesBy F P ω s i {c}} else 0) = N := by
  subst hN
  obtain ⟨p, hp⟩ := seats_inside h hwd
  have hch := chain_free h.obj
  have hI : ∀ i, i < wd.xinds.length → Inside R C (p i) ∧ Escapes (flowOf F P) P (p i) := fun i hi => ⟨(hp i hi).2, hesc i _ hi (hp i hi).1⟩
  set f : Int × Int → ℝ := fun c => if NearEdge P c.1.toNat c.2.toNat then ∑ i ∈ range wd.xinds.length, uniformDraws.real {ω | LeavesBy F P ω s i {c}} else 0 with hf
  have hlim : ∀ c, Filter.Tendsto (fun n => ∑ i ∈ range wd.xinds.length, atProb (moveProb (flowOf F P) P) n (p i) c) Filter.atTop (nhds (f c)) := by
    intro c
    simp only [hf]
    by_cases hc : NearEdge P c.1.toNat c.2.toNat
    · rw [if_pos hc]
      exact tendsto_finsetSum _ fun i hi => leaves_tendsto h ha hwd ht0 (mem_range.1 hi) (hp i (mem_range.1 hi)).1 hc
    · rw [if_neg hc, ← sum_const_zero (s := range wd.xinds.length)]
      exact tendsto_finsetSum _ fun i hi => (hch.visits mem_freeCells free_gets hc (hI i (mem_range.1 hi))).tendsto_atTop_zero
  rw [gridSum_cells (J := freeCells F P R C) (fun q hq => ((mem_freeCells q).1 hq).1) fun c hc => by
    refine tendsto_nhds_unique (hlim c) (Filter.Tendsto.congr (fun n => ?_) tendsto_const_nhds)
    exact (sum_eq_zero fun i hi => hch.atProb_out mem_freeCells n (hI i (mem_range.1 hi)) fun hx => hc ((mem_freeCells c).2 hx)).symm]
  refine tendsto_nhds_unique (tendsto_finsetSum (freeCells F P R C) fun c _ => hlim c) (Filter.Tendsto.congr (fun n => ?_) tendsto_const_nhds)
  rw [sum_comm, sum_congr rfl fun i hi => hch.atProb_sum mem_freeCells n (hI i (mem_range.1 hi))]
  simp

end

/-! ## Concrete cases -/

/-- In the 5 by 5 channel only the centre hands over particles. -/
theorem realObj_inflow {u : Int × Int → ℝ} (hu : ∀ p, ¬ Inside 5 5 p → u p = 0) : inflow Fun.real realObj 5 5 u (3, 2) = u (2, 2) / 2 := by
  classical
  rw [inflow_cells realObj_enclosed (J := {(2, 2)}) (by intro p hp; rw [mem_singleton] at hp; subst hp; unfold Inside; decide) fun p hp hn => by
    refine hu p fun hin => ?_
    obtain ⟨a, b, rfl, g1, g2, g3, g4⟩ := hin.nat
    refine hn (realObj_rim (by omega) (by omega) (by omega) (by omega) ?_)
    rintro ⟨e1, e2⟩
    apply hp
    simp only [Int.toNat_natCast] at e1 e2
    subst e1 e2
    simp]
  rw [sum_singleton, if_neg (show ¬ AtEdge realObj (2, 2) from realObj_far), realObj_half]
  simp
  ring

/-- C123: eight particles at the centre of the 5 by 5 channel: four are expected in the cell ahead after one call and after any further call, four are expected to
leave there, and the share found there is within one half of the expected one except with probability `2 exp(-4)`. -/
example : ∃ (s : PState ℝ) (wd : WalkData ℝ), s.walk = some wd ∧ wd.xinds.length = 8 ∧
    Reach Arith.exact Fun.real (Enclosed Arith.exact Fun.real 5 5) Draws (InsideSeeds 5 5) realObj s ∧
    meanAt Fun.real realObj s 8 0 (2, 2) = 8 ∧ meanAt Fun.real realObj s 8 1 (3, 2) = 4 ∧
    ∑ i ∈ range 8, uniformDraws.real {ω | LeavesBy Fun.real realObj ω s i {(3, 2)}} = 4 ∧
    uniformDraws.real {ω | 1 / 2 ≤ |countAt Fun.real realObj ω s 8 1 (3, 2) / (8 : Nat) - 1 / 2|} ≤ 2 * Real.exp (-4) := by
  classical
  have hg : ∃ s0, generateParticles Arith.exact realObj (fun _ => 1 / 2) (initState Arith.exact Fun.real realObj 0) (.int 8)
    (.list [.int 2]) (.list [.int 2]) (.int 0) (.str "exact") none = .ok s0 ∧
      ∃ wd, s0.walk = some wd ∧ wd.xinds.length = 8 ∧ ∀ i, i < 8 → wd.lastPos i = some (2, 2) ∧ wd.lastTime i = some (.fin ((0 : Int) : ℝ)) := by
    refine ⟨_, rfl, _, rfl, rfl, fun i hi => ?_⟩
    interval_cases i <;> exact ⟨rfl, rfl⟩
  obtain ⟨s0, h0, wd, hwd, hlen, hall⟩ := hg
  have hc : genInputCheck (K := ℝ) (.int 8) (.list [.int 2]) (.list [.int 2]) (.int 0) (.str "exact") =
    .ok (8, [2], [2], .fin ((0 : Int) : ℝ), .exact) := rfl
  have hreach : Reach Arith.exact Fun.real (Enclosed Arith.exact Fun.real 5 5) Draws (InsideSeeds 5 5) realObj s0 :=
    .generate (.new 0 realObj_enclosed) (fun _ => by norm_num) hc (by norm_num)
      (by intro x hx y hy; simp at hx hy; subst hx hy; unfold Inside; decide) h0
  have ht : ∀ i, i < wd.xinds.length → ∃ t, wd.lastTime i = some (.fin t) := fun i hi => ⟨_, (hall i (by omega)).2⟩
  have hin : Inside 5 5 ((3, 2) : Int × Int) := by unfold Inside; decide
  have hnear : NearEdge realObj ((3, 2) : Int × Int).1.toNat ((3, 2) : Int × Int).2.toNat := realObj_rim (a := 3) (b := 2) (by omega) (by omega) (by omega) (by omega) (by omega)
  have hout := fun n => (C123_conserved hreach realObj_angles hwd ht hlen n).2
  have m0 : ∀ c, meanAt Fun.real realObj s0 8 0 c = if c = (2, 2) then 8 else 0 := by
    intro c
    rw [C123_start hwd]
    by_cases e : c = (2, 2)
    · subst e
      rw [if_pos rfl, filter_true_of_mem fun i hi => (hall i (mem_range.1 hi)).1]
      simp
    · rw [if_neg e, filter_false_of_mem fun i hi hx => by
        rw [(hall i (mem_range.1 hi)).1] at hx
        exact e (Option.some.inj hx).symm]
      simp
  have m1 : meanAt Fun.real realObj s0 8 1 (3, 2) = 4 := by
    rw [C123_step hreach realObj_angles hwd ht hlen 0 hin, if_pos hnear, realObj_inflow (hout 0), m0, m0]
    norm_num
  have hesc : ∀ i p, i < 8 → wd.lastPos i = some p → Escapes (flowOf Fun.real realObj) realObj p := by
    intro i p hi hp
    rw [(hall i hi).1] at hp
    cases hp
    exact realObj_escapes (by unfold Inside; decide)
  refine ⟨s0, wd, hwd, hlen, hreach, (m0 _).trans (if_pos rfl), m1, ?_, ?_⟩
  · obtain ⟨U, hU1, hU2, -, hU4⟩ := C123_through hreach realObj_angles hwd ht hlen hesc
    have hU0 : ∀ p, ¬ Inside 5 5 p → ¬ NearEdge realObj p.1.toNat p.2.toNat → U p = 0 := fun p hp hn => by
      have := hU1 p hn
      simp only [hout _ p hp] at this
      exact this.unique hasSum_zero
    have key : ∀ c, inflow Fun.real realObj 5 5 U c = U (2, 2) * (moveProb (flowOf Fun.real realObj) realObj (2, 2) c).toReal := by
      intro c
      rw [inflow_cells realObj_enclosed (J := {(2, 2)}) (by intro p hp; rw [mem_singleton] at hp; subst hp; unfold Inside; decide) fun p hp hn => by
        refine hU0 p (fun hin => ?_) hn
        obtain ⟨a, b, rfl, g1, g2, g3, g4⟩ := hin.nat
        refine hn (realObj_rim (by omega) (by omega) (by omega) (by omega) ?_)
        rintro ⟨e1, e2⟩
        apply hp
        simp only [Int.toNat_natCast] at e1 e2
        subst e1 e2
        simp]
      rw [sum_singleton, if_neg (show ¬ AtEdge realObj (2, 2) from realObj_far)]
    have hstay : (moveProb (flowOf Fun.real realObj) realObj (2, 2) (2, 2)).toReal = 0 := by
      rw [move_real realObj_enclosed (q := (2, 2)) (by unfold Inside; decide) realObj_far]
      refine sum_eq_zero fun k hk => ?_
      have hk9 := mem_range.1 hk
      split_ifs with e
      · change ((flowOf Fun.real realObj).chooseProb realObj.steepest 2 2 k).toReal = 0
        rw [realObj_choose hk9]
        interval_cases k <;> first | (exact absurd e (by decide)) | norm_num
      · rfl
    have e22 := hU2 (2, 2) (by unfold Inside; decide) realObj_far
    rw [key, hstay, m0, if_pos rfl] at e22
    rw [hU4 _ hin hnear, key, realObj_half, m0, e22]
    norm_num
  · have := C123_share hreach realObj_angles hwd ht hlen (by norm_num) 1 (3, 2) (ε := 1 / 2) (by norm_num)
    rw [m1, show (-2 * (8 : Nat) * (1 / 2) ^ 2 : ℝ) = -4 by norm_num] at this
    rw [show (1 / 2 : ℝ) = 4 / (8 : Nat) by norm_num] at *
    exact this

/-- C123: in the wide channel, where walks take many steps, the throughflow of three particles from the centre exists and all three leave. -/
example : ∃ (s : PState ℝ) (U : Int × Int → ℝ), ¬ NearEdge wideObj 5 5 ∧ meanAt Fun.real wideObj s 3 0 (5, 5) = 3 ∧
    HasSum (fun n => meanAt Fun.real wideObj s 3 n (5, 5)) (U (5, 5)) ∧ U (5, 5) = 3 + inflow Fun.real wideObj 11 11 U (5, 5) ∧
    gridSum 11 11 (fun c => @ite ℝ (NearEdge wideObj c.1.toNat c.2.toNat) (Classical.propDecidable _)
      (∑ i ∈ range 3, uniformDraws.real {ω | LeavesBy Fun.real wideObj ω s i {c}}) 0) = 3 := by
  classical
  obtain ⟨s0, h0, wd, hwd, hlen, hall⟩ : ∃ s0, generateParticles Arith.exact wideObj (fun _ => 1 / 2) (initState Arith.exact Fun.real wideObj 0) (.int 3)
    (.list [.int 5]) (.list [.int 5]) (.int 0) (.str "exact") none = .ok s0 ∧
      ∃ wd, s0.walk = some wd ∧ wd.xinds.length = 3 ∧ ∀ i, i < 3 → wd.lastPos i = some (5, 5) ∧ wd.lastTime i = some (.fin ((0 : Int) : ℝ)) := by
    refine ⟨_, rfl, _, rfl, rfl, fun i hi => ?_⟩
    interval_cases i <;> exact ⟨rfl, rfl⟩
  have hc : genInputCheck (K := ℝ) (.int 3) (.list [.int 5]) (.list [.int 5]) (.int 0) (.str "exact") =
    .ok (3, [5], [5], .fin ((0 : Int) : ℝ), .exact) := rfl
  have hreach : Reach Arith.exact Fun.real (Enclosed Arith.exact Fun.real 11 11) Draws (InsideSeeds 11 11) wideObj s0 :=
    .generate (.new 0 wideObj_enclosed) (fun _ => by norm_num) hc (by norm_num)
      (by intro x hx y hy; simp at hx hy; subst hx hy; unfold Inside; decide) h0
  have hin : Inside 11 11 ((5, 5) : Int × Int) := by unfold Inside; decide
  have ht : ∀ i, i < wd.xinds.length → ∃ t, wd.lastTime i = some (.fin t) := fun i hi => ⟨_, (hall i (by omega)).2⟩
  have hesc : ∀ i p, i < 3 → wd.lastPos i = some p → Escapes (flowOf Fun.real wideObj) wideObj p := by
    intro i p hi hp
    rw [(hall i hi).1] at hp
    cases hp
    exact wideObj_escapes hin
  have hfar : ¬ NearEdge wideObj 5 5 := wideObj_far (by omega) (by omega) (by omega) (by omega)
  have m0 : meanAt Fun.real wideObj s0 3 0 (5, 5) = 3 := by
    rw [C123_start hwd, filter_true_of_mem fun i hi => (hall i (mem_range.1 hi)).1]
    simp
  obtain ⟨U, hU1, hU2, -⟩ := C123_through hreach wideObj_angles hwd ht hlen hesc
  refine ⟨s0, U, hfar, m0, hU1 (5, 5) hfar, ?_, ?_⟩
  · have := hU2 (5, 5) hin hfar
    rwa [m0] at this
  · have := C123_out hreach wideObj_angles hwd ht hlen hesc
    simpa using this

end Dorado
