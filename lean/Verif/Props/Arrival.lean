import Verif.Spec.Arrival
import Verif.Props.Leave
import Verif.Props.ExposureLaw

/-! # The mean travel time to the edge is finite and free of diffusion: C116 -/

set_option linter.unusedSectionVars false

namespace Dorado

open MeasureTheory Finset

section
variable {F : Fun ℝ Arith.exact} {R C : Nat} {P : PObj ℝ} {s : PState ℝ}

theorem lastTime_lists (h : Reach Arith.exact F (Enclosed Arith.exact F R C) Draws (InsideSeeds R C) P s) {wd wd' : WalkData ℝ} (hwd : s.walk = some wd)
    {i : Nat} (hi : i < wd.xinds.length) (hl : wd'.lists i = wd.lists i) : wd'.lastTime i = wd.lastTime i := by
  obtain ⟨-, hbad | ⟨rows, hr, -⟩⟩ := Enclosed.rowsOk h
  · rw [hwd] at hbad; cases hbad
  rw [hr.1] at hwd
  cases hwd
  have hi' : i < rows.length := by simpa [ofRows] using hi
  have e : (ofRows (keysOf P) rows).lists i = some (rows[i].xs, rows[i].ys, rows[i].ts) := by
    simp [WalkData.lists, ofRows, List.getElem?_eq_getElem hi']
  rw [e] at hl
  unfold WalkData.lists at hl
  unfold WalkData.lastTime
  cases hx : wd'.xinds[i]? with
  | none => simp [hx] at hl
  | some xs =>
    cases hy : wd'.yinds[i]? with
    | none => simp [hx, hy] at hl
    | some ys =>
      cases ht : wd'.times[i]? with
      | none => simp [hx, hy, ht] at hl
      | some ts =>
        simp only [hx, hy, ht, Option.bind_eq_bind, Option.bind_some, Option.pure_def, Option.some.injEq, Prod.mk.injEq] at hl
        obtain ⟨-, -, rfl⟩ := hl
        simp [ofRows, List.getElem?_eq_getElem hi']

/-- After the arrival the travel time does not change. -/
theorem time_frozen (h : Reach Arith.exact F (Enclosed Arith.exact F R C) Draws (InsideSeeds R C) P s) {wd : WalkData ℝ} (hwd : s.walk = some wd)
    {ω : Nat → ℝ} (hω : Draws ω) {n m i : Nat} (hi : i < wd.xinds.length) (hnm : n ≤ m) (hA : ArrivedBy F P ω s n i) {t t' : ℝ}
    (h1 : TimeAfter Arith.exact F P ω s n i t) (h2 : TimeAfter Arith.exact F P ω s m i t') : t' = t := by
  obtain ⟨s1, w1, wd1, r1, e1, l1⟩ := h1
  obtain ⟨s2, w2, wd2, r2, e2, l2⟩ := h2
  obtain ⟨wd3, wd4, e3, e4, hl, -⟩ := arrived_frozen h hwd hω hi hnm hA r1 r2
  rw [e1] at e3
  rw [e2] at e4
  cases e3
  cases e4
  obtain ⟨s5, w5, wd5, r5, e5, n5, hre⟩ := follows_some h hwd hω n
  obtain ⟨rfl, -⟩ := r1.unique r5
  rw [e1] at e5
  cases e5
  rw [lastTime_lists hre e1 (by omega) hl, l1] at l2
  simpa using l2.symm

/-- What one call adds to the travel time is bounded. -/
theorem step_bound (h : Reach Arith.exact F (Enclosed Arith.exact F R C) Draws (InsideSeeds R C) P s)
    (ha : ∀ k, k < 9 → k ≠ 4 → ∃ a, P.angles k = .fin a) {wd : WalkData ℝ} (hwd : s.walk = some wd)
    (ht0 : ∀ i, i < wd.xinds.length → ∃ t, wd.lastTime i = some (.fin t)) {b : ℝ} (hb : ∀ p q, Inside R C p → Inside R C q → |freeDur F P p q| ≤ b)
    {ω : Nat → ℝ} (hω : Draws ω) {n i : Nat} (hi : i < wd.xinds.length) {t t' : ℝ}
    (h1 : TimeAfter Arith.exact F P ω s n i t) (h2 : TimeAfter Arith.exact F P ω s (n + 1) i t') : |t' - t| ≤ b * (1 + |P.diffCoeff| / 2) := by
  choose! t0 ht0 using ht0
  obtain ⟨x, hx, -⟩ := follows_unique h hwd hω (n + 1)
  have h0 : ∀ i, i < wd.xinds.length → wd.lastPos i = some (pathOf x 0 i) := by
    obtain ⟨s2, w2, wd2, r2, e2, l2⟩ := hx 0 (by omega)
    obtain ⟨rfl, -⟩ := r2.unique .zero
    rw [hwd] at e2
    cases e2
    exact l2
  have hin : ∀ j, j ≤ n + 1 → Inside R C (pathOf x j i) := by
    intro j hj
    obtain ⟨s', w, wd', hr, hw, hl, hre⟩ := follows_some h hwd hω j
    obtain ⟨s2, w2, wd2, r2, e2, l2⟩ := hx j hj
    obtain ⟨rfl, -⟩ := r2.unique hr
    rw [hw] at e2
    cases e2
    obtain ⟨p, hp, hpin⟩ := last_inside hre hw (i := i) (by rw [hl]; exact hi)
    have := l2 i (by rw [hl]; exact hi)
    rw [hp] at this
    cases this
    exact hpin
  obtain ⟨hstart, -⟩ := start_onPath h hwd rfl h0
  have hT := fun j (hj : j ≤ n + 1) => path_times (R := R) (C := C) ha hω (hstart ω) (t0 := t0) (fun i hi => ⟨s, none, wd, .zero, hwd, ht0 i hi⟩)
    (fun j hj i hi => follows_free h ha hwd hω h0 hx hj hi) hx hj hi
  have e1 := h1.unique (hT n (by omega))
  have e2 := h2.unique (hT (n + 1) le_rfl)
  rw [e1, e2, sum_range_succ, ← add_assoc, add_sub_cancel_left, abs_mul]
  have hu : |1 / 2 - ω (delayDraw P s.world.pos wd.xinds.length (pathOf x) n i)| ≤ 1 / 2 := by
    obtain ⟨h3, h4⟩ := hω (delayDraw P s.world.pos wd.xinds.length (pathOf x) n i)
    rw [abs_le]
    constructor <;> linarith
  refine mul_le_mul (hb _ _ (hin n (by omega)) (hin (n + 1) le_rfl)) ?_ (abs_nonneg _) ((abs_nonneg _).trans (hb _ _ (hin n (by omega)) (hin (n + 1) le_rfl)))
  refine (abs_add_le _ _).trans ?_
  rw [abs_one, abs_mul]
  have := mul_le_mul_of_nonneg_right hu (abs_nonneg P.diffCoeff)
  linarith

open Classical in
/-- Number of calls before the arrival of particle `i`. -/
noncomputable def callsBefore (F : Fun ℝ Arith.exact) (P : PObj ℝ) (s : PState ℝ) (i : Nat) (ω : Nat → ℝ) : ENNReal :=
  ∑' n, Set.indicator {ω | ¬ ArrivedBy F P ω s n i} (fun _ => 1) ω

/-- The expected number of calls before the arrival is bounded by a constant of the object. -/
theorem calls_mean (hP : Enclosed Arith.exact F R C P) (ha : ∀ k, k < 9 → k ≠ 4 → ∃ a, P.angles k = .fin a) :
    ∃ T : NNReal, ∀ s, Reach Arith.exact F (Enclosed Arith.exact F R C) Draws (InsideSeeds R C) P s → ∀ wd, s.walk = some wd →
      (∀ i, i < wd.xinds.length → ∃ t, wd.lastTime i = some (.fin t)) → ∀ i p, i < wd.xinds.length → wd.lastPos i = some p → Escapes (flowOf F P) P p →
        AEMeasurable (callsBefore F P s i) uniformDraws ∧ ∫⁻ ω, callsBefore F P s i ω ∂uniformDraws ≤ T := by
  obtain ⟨L, ρ, hL, hρ, hb⟩ := (chain_free hP).rate ((inside_finite R C).subset fun p hp => hp.1) fun p hp => by
    obtain ⟨e, h1, h2⟩ := hp.2 p .refl
    exact Gets.of_path h1 h2
  have hne : (L * (1 - ENNReal.ofNNReal ρ)⁻¹ : ENNReal) ≠ ⊤ := by
    refine ENNReal.mul_ne_top (ENNReal.natCast_ne_top L) (ENNReal.inv_ne_top.2 ?_)
    exact (tsub_pos_of_lt (by exact_mod_cast hρ)).ne'
  refine ⟨(L * (1 - ENNReal.ofNNReal ρ)⁻¹ : ENNReal).toNNReal, fun s h wd hwd ht0 i p hi hp hesc => ?_⟩
  have hin : Inside R C p := by
    obtain ⟨x, hx, hin⟩ := last_inside h hwd hi
    rw [hp] at hx
    cases hx
    exact hin
  have hlaw := fun n => arrived_law h ha hwd ht0 n hi hp
  have hm : ∀ n, AEMeasurable (Set.indicator {ω | ¬ ArrivedBy F P ω s n i} fun _ => (1 : ENNReal)) uniformDraws :=
    fun n => aemeasurable_const.indicator₀ (hlaw n).1
  refine ⟨AEMeasurable.tsum hm, ?_⟩
  unfold callsBefore
  rw [lintegral_tsum hm, ENNReal.coe_toNNReal hne, ← geometric_blocks hL]
  refine ENNReal.tsum_le_tsum fun n => ?_
  rw [lintegral_indicator_const₀ (hlaw n).1, one_mul, (hlaw n).2]
  exact hb n p ⟨hin, hesc⟩

/-- How far the travel time can have grown. -/
theorem time_growth (h : Reach Arith.exact F (Enclosed Arith.exact F R C) Draws (InsideSeeds R C) P s)
    (ha : ∀ k, k < 9 → k ≠ 4 → ∃ a, P.angles k = .fin a) {wd : WalkData ℝ} (hwd : s.walk = some wd)
    (ht0 : ∀ i, i < wd.xinds.length → ∃ t, wd.lastTime i = some (.fin t)) {b : ℝ} (hb : ∀ p q, Inside R C p → Inside R C q → |freeDur F P p q| ≤ b)
    {ω : Nat → ℝ} (hω : Draws ω) {i : Nat} (hi : i < wd.xinds.length) {T : Nat → ℝ} (hT : ∀ n, TimeAfter Arith.exact F P ω s n i (T n))
    (hfin : callsBefore F P s i ω ≠ ⊤) (n : Nat) : |T n - T 0| ≤ b * (1 + |P.diffCoeff| / 2) * (callsBefore F P s i ω).toReal := by
  classical
  have hb0 : 0 ≤ b * (1 + |P.diffCoeff| / 2) := (abs_nonneg _).trans (step_bound h ha hwd ht0 hb hω hi (hT 0) (hT 1))
  have hsum : ∀ n, |T n - T 0| ≤ b * (1 + |P.diffCoeff| / 2) * ∑ j ∈ range n, if ArrivedBy F P ω s j i then 0 else 1 := by
    intro n
    induction n with
    | zero => simp
    | succ n ih =>
      rw [sum_range_succ, mul_add]
      have h1 : |T (n + 1) - T n| ≤ b * (1 + |P.diffCoeff| / 2) * if ArrivedBy F P ω s n i then 0 else 1 := by
        split_ifs with hA
        · rw [time_frozen h hwd hω hi (Nat.le_succ n) hA (hT n) (hT (n + 1))]
          simp
        · rw [mul_one]
          exact step_bound h ha hwd ht0 hb hω hi (hT n) (hT (n + 1))
      calc |T (n + 1) - T 0| = |(T n - T 0) + (T (n + 1) - T n)| := by congr 1; ring
        _ ≤ |T n - T 0| + |T (n + 1) - T n| := abs_add_le _ _
        _ ≤ _ := add_le_add ih h1
  refine (hsum n).trans (mul_le_mul_of_nonneg_left ?_ hb0)
  have e : (∑ j ∈ range n, if ArrivedBy F P ω s j i then (0 : ℝ) else 1) =
      (∑ j ∈ range n, Set.indicator {ω | ¬ ArrivedBy F P ω s j i} (fun _ => (1 : ENNReal)) ω).toReal := by
    rw [ENNReal.toReal_sum fun j _ => by
      unfold Set.indicator
      split_ifs <;> simp]
    refine sum_congr rfl fun j _ => ?_
    unfold Set.indicator
    by_cases hA : ArrivedBy F P ω s j i <;> simp [hA]
  rw [e]
  exact ENNReal.toReal_mono hfin (ENNReal.sum_le_tsum _)

/-- C116: a particle all of whose possible cells have a way out arrives next to an edge at a well-defined time, with probability one. -/
theorem C116_arrives (h : Reach Arith.exact F (Enclosed Arith.exact F R C) Draws (InsideSeeds R C) P s)
    (ha : ∀ k, k < 9 → k ≠ 4 → ∃ a, P.angles k = .fin a) {wd : WalkData ℝ} (hwd : s.walk = some wd)
    (ht0 : ∀ i, i < wd.xinds.length → ∃ t, wd.lastTime i = some (.fin t)) {i : Nat} (hi : i < wd.xinds.length) {p : Int × Int}
    (hp : wd.lastPos i = some p) (hesc : Escapes (flowOf F P) P p) : ∀ᵐ ω ∂uniformDraws, ∃! τ, ArrivalTime F P ω s i τ := by
  choose! t0 ht0' using ht0
  filter_upwards [(C115_iff h ha hwd (fun i hi => ⟨_, ht0' i hi⟩) hi hp).2 hesc, uniformDraws_nonzero] with ω hA hω
  obtain ⟨n, hA⟩ := hA
  obtain ⟨t, ht⟩ := time_exists h ha hwd ht0' hω.1 n hi
  refine ⟨t, ⟨n, hA, ht⟩, ?_⟩
  rintro t' ⟨m, hA', ht'⟩
  rcases Nat.le_total n m with hnm | hmn
  · exact time_frozen h hwd hω.1 hi hnm hA ht ht'
  · exact (time_frozen h hwd hω.1 hi hmn hA' ht' ht).symm

/-- C116: the time of arrival has a mean, the limit of the mean travel times after `n` calls; and its mean distance from the present travel time is bounded
by a constant that depends only on the object. -/
theorem C116_mean (hP : Enclosed Arith.exact F R C P) (ha : ∀ k, k < 9 → k ≠ 4 → ∃ a, P.angles k = .fin a) :
    ∃ M : ℝ, ∀ s, Reach Arith.exact F (Enclosed Arith.exact F R C) Draws (InsideSeeds R C) P s → ∀ wd, s.walk = some wd →
      (∀ i, i < wd.xinds.length → ∃ t, wd.lastTime i = some (.fin t)) → ∀ i p t, i < wd.xinds.length → wd.lastPos i = some p →
        wd.lastTime i = some (.fin t) → Escapes (flowOf F P) P p → ∀ τ : (Nat → ℝ) → ℝ, (∀ᵐ ω ∂uniformDraws, ArrivalTime F P ω s i (τ ω)) →
          Integrable τ uniformDraws ∧ ∫ ω, |τ ω - t| ∂uniformDraws ≤ M ∧
          ∀ T : Nat → (Nat → ℝ) → ℝ, (∀ n ω, Draws ω → TimeAfter Arith.exact F P ω s n i (T n ω)) →
            Filter.Tendsto (fun n => ∫ ω, T n ω ∂uniformDraws) Filter.atTop (nhds (∫ ω, τ ω ∂uniformDraws)) := by
  obtain ⟨K, hK⟩ := calls_mean hP ha
  obtain ⟨b, hb⟩ := freeDur_bound F P R C
  refine ⟨b * (1 + |P.diffCoeff| / 2) * K, fun s h wd hwd ht0 i p t hi hp ht hesc τ hτ => ?_⟩
  obtain ⟨hm, hle⟩ := hK s h wd hwd ht0 i p hi hp hesc
  have hfin : ∫⁻ ω, callsBefore F P s i ω ∂uniformDraws ≠ ⊤ := (hle.trans_lt ENNReal.coe_lt_top).ne
  have hae := ae_lt_top' hm hfin
  have hint : Integrable (fun ω => (callsBefore F P s i ω).toReal) uniformDraws := integrable_toReal_of_lintegral_ne_top hm hfin
  choose! t0 ht0' using ht0
  have ex := fun (n : Nat) (ω : Nat → ℝ) (hω : Draws ω) => time_exists h ha hwd ht0' hω n hi
  have hzero : ∀ {ω : Nat → ℝ} {x : ℝ}, TimeAfter Arith.exact F P ω s 0 i x → x = t := fun hx => hx.unique ⟨s, none, wd, .zero, hwd, ht⟩
  have key : ∀ T : Nat → (Nat → ℝ) → ℝ, (∀ n ω, Draws ω → TimeAfter Arith.exact F P ω s n i (T n ω)) → ∀ᵐ ω ∂uniformDraws,
      (∀ n, |T n ω - t| ≤ b * (1 + |P.diffCoeff| / 2) * (callsBefore F P s i ω).toReal) ∧ ∀ᶠ n in Filter.atTop, T n ω = τ ω := by
    intro T hT
    filter_upwards [hτ, hae, uniformDraws_nonzero] with ω h1 h2 hω
    constructor
    · intro n
      have := time_growth h ha hwd (fun i hi => ⟨_, ht0' i hi⟩) hb hω.1 hi (fun n => hT n ω hω.1) h2.ne n
      rwa [hzero (hT 0 ω hω.1)] at this
    · obtain ⟨n, hA, hn⟩ := h1
      exact Filter.eventually_atTop.2 ⟨n, fun m hm => time_frozen h hwd hω.1 hi hm hA hn (hT m ω hω.1)⟩
  choose! T hT using ex
  choose! p0 hp0 using fun (i : Nat) (hi : i < wd.xinds.length) => last_inside h hwd hi
  have hTi : ∀ T : Nat → (Nat → ℝ) → ℝ, (∀ n ω, Draws ω → TimeAfter Arith.exact F P ω s n i (T n ω)) → ∀ n, Integrable (T n) uniformDraws :=
    fun T hT n => (mean_formula h ha hwd rfl (fun i hi => (hp0 i hi).1) ht0' n hi (hT n)).1
  have hlim : ∀ᵐ ω ∂uniformDraws, Filter.Tendsto (fun n => T n ω) Filter.atTop (nhds (τ ω)) := by
    filter_upwards [key T hT] with ω hω
    exact tendsto_const_nhds.congr' (hω.2.mono fun n hn => hn.symm)
  have hτm : AEStronglyMeasurable τ uniformDraws := aestronglyMeasurable_of_tendsto_ae Filter.atTop (fun n => (hTi T hT n).aestronglyMeasurable) hlim
  have hbound : ∀ᵐ ω ∂uniformDraws, |τ ω - t| ≤ b * (1 + |P.diffCoeff| / 2) * (callsBefore F P s i ω).toReal := by
    filter_upwards [key T hT] with ω hω
    obtain ⟨n, hn⟩ := hω.2.exists
    rw [← hn]
    exact hω.1 n
  have hd : Integrable (fun ω => τ ω - t) uniformDraws :=
    (hint.const_mul (b * (1 + |P.diffCoeff| / 2))).mono' (hτm.sub aestronglyMeasurable_const) hbound
  have hτi : Integrable τ uniformDraws := by
    refine (hd.add (integrable_const t)).congr (Filter.Eventually.of_forall fun ω => ?_)
    change τ ω - t + t = τ ω
    ring
  refine ⟨hτi, ?_, fun T hT => ?_⟩
  · refine (integral_mono_ae hd.abs (hint.const_mul _) hbound).trans ?_
    have hω0 : Draws (fun _ : Nat => (1 / 2 : ℝ)) := fun _ => by norm_num
    have hb0 : 0 ≤ b * (1 + |P.diffCoeff| / 2) :=
      (abs_nonneg _).trans (step_bound h ha hwd (fun i hi => ⟨_, ht0' i hi⟩) hb hω0 hi (hT 0 _ hω0) (hT 1 _ hω0))
    rw [integral_const_mul]
    refine mul_le_mul_of_nonneg_left ?_ hb0
    rw [integral_toReal hm hae]
    exact ENNReal.toReal_le_coe_of_le_coe hle
  · refine tendsto_integral_of_dominated_convergence (fun ω => |t| + b * (1 + |P.diffCoeff| / 2) * (callsBefore F P s i ω).toReal)
      (fun n => (hTi T hT n).aestronglyMeasurable) ((integrable_const _).add (hint.const_mul _)) (fun n => ?_) ?_
    · filter_upwards [key T hT] with ω hω
      have := hω.1 n
      rw [Real.norm_eq_abs]
      have e : T n ω = t + (T n ω - t) := by ring
      rw [e]
      exact (abs_add_le _ _).trans (by linarith)
    · filter_upwards [key T hT] with ω hω
      exact tendsto_const_nhds.congr' (hω.2.mono fun n hn => hn.symm)

/-- C116: the mean time of arrival does not depend on `diff_coeff`. -/
theorem C116_unbiased {P' : PObj ℝ} {D : ℝ} (hPP : P' = { P with diffCoeff := D }) {s' : PState ℝ}
    (h : Reach Arith.exact F (Enclosed Arith.exact F R C) Draws (InsideSeeds R C) P s)
    (h' : Reach Arith.exact F (Enclosed Arith.exact F R C) Draws (InsideSeeds R C) P' s')
    (ha : ∀ k, k < 9 → k ≠ 4 → ∃ a, P.angles k = .fin a) {wd wd' : WalkData ℝ} (hwd : s.walk = some wd) (hwd' : s'.walk = some wd')
    (hlen : wd'.xinds.length = wd.xinds.length) (hpos : ∀ i, i < wd.xinds.length → wd'.lastPos i = wd.lastPos i)
    (htime : ∀ i, i < wd.xinds.length → ∃ t, wd.lastTime i = some (.fin t) ∧ wd'.lastTime i = some (.fin t)) {i : Nat}
    (hi : i < wd.xinds.length) {p : Int × Int} (hp : wd.lastPos i = some p) (hesc : Escapes (flowOf F P) P p) {τ τ' : (Nat → ℝ) → ℝ}
    (hτ : ∀ᵐ ω ∂uniformDraws, ArrivalTime F P ω s i (τ ω)) (hτ' : ∀ᵐ ω ∂uniformDraws, ArrivalTime F P' ω s' i (τ' ω)) :
    ∫ ω, τ ω ∂uniformDraws = ∫ ω, τ' ω ∂uniformDraws := by
  have ha' : ∀ k, k < 9 → k ≠ 4 → ∃ a, P'.angles k = .fin a := by rw [hPP]; exact ha
  have hesc' : Escapes (flowOf F P') P' p := by subst hPP; exact hesc
  obtain ⟨t, ht, ht'⟩ := htime i hi
  choose T T' hT hT' _ _ heq using fun n => C103_unbiased hPP h h' ha hwd hwd' hlen hpos htime n hi
  obtain ⟨M, hM⟩ := C116_mean h.obj ha
  obtain ⟨M', hM'⟩ := C116_mean h'.obj ha'
  have l1 := (hM s h wd hwd (fun i hi => ⟨_, (htime i hi).choose_spec.1⟩) i p t hi hp ht hesc τ hτ).2.2 T hT
  have l2 := (hM' s' h' wd' hwd' (fun i hi => ⟨_, (htime i (by omega)).choose_spec.2⟩) i p t (by omega) ((hpos i hi).trans hp) ht' hesc' τ' hτ').2.2 T' hT'
  simp only [heq] at l1
  exact tendsto_nhds_unique l1 l2

end

/-! ## Concrete cases -/

/-- The wide channel with diffusion coefficient 1. -/
noncomputable def wideSpread : PObj ℝ := (initParticles Arith.exact Fun.real { wideChan with diffCoeff := some 1 }).toOption.get rfl

theorem wideSpread_eq : wideSpread = { wideObj with diffCoeff := 1 } := by
  have : wideSpread = { wideObj with diffCoeff := if (1 : ℝ) < 0 then 0 else 1 } := rfl
  rw [this, if_neg (by norm_num)]

theorem wideSpread_enclosed : Enclosed Arith.exact Fun.real 11 11 wideSpread := by
  have hi : initParticles Arith.exact Fun.real { wideChan with diffCoeff := some 1 } = .ok wideSpread := rfl
  have hv : ValidParams { wideChan with diffCoeff := some 1 } := by
    have h := wideChan_valid
    exact ⟨h.depth, h.stage, h.topography, h.qx, h.qy, h.u, h.v, h.gamma, h.dryDepth, h.distances, h.ivec, h.jvec⟩
  obtain ⟨h1, h2, h3⟩ := C17_default_ring (p := { wideChan with diffCoeff := some 1 }) rfl rfl rfl rfl hi
  exact ⟨⟨_, hv, hi⟩, rfl, rfl, h1, h2, wideObj_enclosed.steps, h3⟩

/-- C116: a particle at the centre of the wide channel, with diffusion coefficient 0.2 and with 1. Both have a time of arrival, with probability one; its mean
is finite and the same. -/
example : ∃ (s s' : PState ℝ) (τ τ' : (Nat → ℝ) → ℝ), ¬ NearEdge wideObj 5 5 ∧
    Reach Arith.exact Fun.real (Enclosed Arith.exact Fun.real 11 11) Draws (InsideSeeds 11 11) wideObj s ∧
    Reach Arith.exact Fun.real (Enclosed Arith.exact Fun.real 11 11) Draws (InsideSeeds 11 11) wideSpread s' ∧
    (∀ᵐ ω ∂uniformDraws, ArrivalTime Fun.real wideObj ω s 0 (τ ω)) ∧ (∀ᵐ ω ∂uniformDraws, ArrivalTime Fun.real wideSpread ω s' 0 (τ' ω)) ∧
    Integrable τ uniformDraws ∧ ∫ ω, τ ω ∂uniformDraws = ∫ ω, τ' ω ∂uniformDraws := by
  obtain ⟨s0, h0, wd, hwd, hlen, hl0, ht0⟩ : ∃ s0, generateParticles Arith.exact wideObj (fun _ => 1 / 2) (initState Arith.exact Fun.real wideObj 0) (.int 1)
    (.list [.int 5]) (.list [.int 5]) (.int 0) (.str "exact") none = .ok s0 ∧
      ∃ wd, s0.walk = some wd ∧ wd.xinds.length = 1 ∧ wd.lastPos 0 = some (5, 5) ∧ wd.lastTime 0 = some (.fin ((0 : Int) : ℝ)) :=
    ⟨_, rfl, _, rfl, rfl, rfl, rfl⟩
  obtain ⟨s1, h1, wd1, hwd1, hlen1, hl1, ht1⟩ : ∃ s0, generateParticles Arith.exact wideSpread (fun _ => 1 / 2) (initState Arith.exact Fun.real wideSpread 0) (.int 1)
    (.list [.int 5]) (.list [.int 5]) (.int 0) (.str "exact") none = .ok s0 ∧
      ∃ wd, s0.walk = some wd ∧ wd.xinds.length = 1 ∧ wd.lastPos 0 = some (5, 5) ∧ wd.lastTime 0 = some (.fin ((0 : Int) : ℝ)) :=
    ⟨_, rfl, _, rfl, rfl, rfl, rfl⟩
  have hc : genInputCheck (K := ℝ) (.int 1) (.list [.int 5]) (.list [.int 5]) (.int 0) (.str "exact") =
    .ok (1, [5], [5], .fin ((0 : Int) : ℝ), .exact) := rfl
  have hreach : Reach Arith.exact Fun.real (Enclosed Arith.exact Fun.real 11 11) Draws (InsideSeeds 11 11) wideObj s0 :=
    .generate (.new 0 wideObj_enclosed) (fun _ => by norm_num) hc (by norm_num)
      (by intro x hx y hy; simp at hx hy; subst hx hy; unfold Inside; decide) h0
  have hreach1 : Reach Arith.exact Fun.real (Enclosed Arith.exact Fun.real 11 11) Draws (InsideSeeds 11 11) wideSpread s1 :=
    .generate (.new 0 wideSpread_enclosed) (fun _ => by norm_num) hc (by norm_num)
      (by intro x hx y hy; simp at hx hy; subst hx hy; unfold Inside; decide) h1
  have hesc : Escapes (flowOf Fun.real wideObj) wideObj (5, 5) := wideObj_escapes (by unfold Inside; decide)
  have ha1 : ∀ k, k < 9 → k ≠ 4 → ∃ a, wideSpread.angles k = .fin a := by rw [wideSpread_eq]; exact wideObj_angles
  have hesc1 : Escapes (flowOf Fun.real wideSpread) wideSpread (5, 5) := by rw [wideSpread_eq]; exact hesc
  have ht : ∀ i, i < wd.xinds.length → ∃ t, wd.lastTime i = some (.fin t) := fun i hi => by
    obtain rfl : i = 0 := by omega
    exact ⟨_, ht0⟩
  have ht1' : ∀ i, i < wd1.xinds.length → ∃ t, wd1.lastTime i = some (.fin t) := fun i hi => by
    obtain rfl : i = 0 := by omega
    exact ⟨_, ht1⟩
  have ex : ∃ τ : (Nat → ℝ) → ℝ, ∀ᵐ ω ∂uniformDraws, ArrivalTime Fun.real wideObj ω s0 0 (τ ω) := by
    classical
    refine ⟨fun ω => if h : ∃ τ, ArrivalTime Fun.real wideObj ω s0 0 τ then h.choose else 0, ?_⟩
    filter_upwards [C116_arrives hreach wideObj_angles hwd ht (i := 0) (by omega) hl0 hesc] with ω hω
    rw [dif_pos hω.exists]
    exact hω.exists.choose_spec
  have ex1 : ∃ τ : (Nat → ℝ) → ℝ, ∀ᵐ ω ∂uniformDraws, ArrivalTime Fun.real wideSpread ω s1 0 (τ ω) := by
    classical
    refine ⟨fun ω => if h : ∃ τ, ArrivalTime Fun.real wideSpread ω s1 0 τ then h.choose else 0, ?_⟩
    filter_upwards [C116_arrives hreach1 ha1 hwd1 ht1' (i := 0) (by omega) hl1 hesc1] with ω hω
    rw [dif_pos hω.exists]
    exact hω.exists.choose_spec
  obtain ⟨τ, hτ⟩ := ex
  obtain ⟨τ', hτ'⟩ := ex1
  obtain ⟨M, hM⟩ := C116_mean wideObj_enclosed wideObj_angles
  refine ⟨s0, s1, τ, τ', ?_, hreach, hreach1, hτ, hτ', (hM s0 hreach wd hwd ht 0 (5, 5) _ (by omega) hl0 ht0 hesc τ hτ).1,
    C116_unbiased wideSpread_eq hreach hreach1 wideObj_angles hwd hwd1 (by omega) (fun i hi => ?_) (fun i hi => ?_) (by omega) hl0 hesc hτ hτ'⟩
  · rintro ⟨i, j, hi, hj, h1, h2, h3⟩
    have : wideObj.cellType.at' i j = if interiorB 11 11 i j then (if Fl.lt (.fin (1 : ℝ)) (.fin (1 / 10)) then 2 else 0) else -1 := rfl
    rw [this, if_pos (by unfold interiorB; simp; omega)] at h3
    split_ifs at h3
  · obtain rfl : i = 0 := by omega
    rw [hl0, hl1]
  · obtain rfl : i = 0 := by omega
    exact ⟨_, ht0, ht1⟩

end Dorado
