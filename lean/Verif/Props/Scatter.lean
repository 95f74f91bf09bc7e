import Verif.Props.Delay

/-! # C129: how diffusion scatters travel times

The variance of the travel time of a particle is a constant plus a multiple of the square of `diff_coeff`. -/

set_option linter.unusedSectionVars false

namespace Dorado

open MeasureTheory ProbabilityTheory Finset

/-- The integral over all runs as a sum over the paths. -/
theorem integral_paths {F : Fun ℝ Arith.exact} {R C : Nat} {P : PObj ℝ} {s : PState ℝ}
    (h : Reach Arith.exact F (Enclosed Arith.exact F R C) Draws (InsideSeeds R C) P s) {wd : WalkData ℝ} (hwd : s.walk = some wd) {N : Nat}
    (hN : wd.xinds.length = N) {p0 : Nat → Int × Int} (hp0 : ∀ i, i < N → wd.lastPos i = some (p0 i)) (n : Nat) {f : (Nat → ℝ) → ℝ}
    (hf : Integrable f uniformDraws) :
    ∫ ω, f ω ∂uniformDraws = ∑ x : Fin (n + 1) → Fin N → Fin R × Fin C,
      if ∀ i, i < N → p0 i = pathOf x 0 i then ∫ ω in {ω | Follows Arith.exact F P ω s n (pathOf x)}, f ω ∂uniformDraws else 0 := by
  subst hN
  set E : (Fin (n + 1) → Fin wd.xinds.length → Fin R × Fin C) → Set (Nat → ℝ) := fun x => {ω | Follows Arith.exact F P ω s n (pathOf x)} with hE
  have hother : ∀ x, (¬ ∀ i, i < wd.xinds.length → p0 i = pathOf x 0 i) → E x = ∅ := by
    intro x hx
    ext ω
    simp only [hE, Set.mem_ofPred_eq, Set.mem_empty_iff_false, iff_false]
    intro hF
    obtain ⟨s2, w2, wd2, r2, e2, l2⟩ := hF 0 (by omega)
    obtain ⟨rfl, -⟩ := r2.unique .zero
    rw [hwd] at e2
    cases e2
    refine hx fun i hi => ?_
    have := (hp0 i hi).symm.trans (l2 i hi)
    simpa using this
  have hone : ∀ x : Fin (n + 1) → Fin wd.xinds.length → Fin R × Fin C, (∀ i, i < wd.xinds.length → p0 i = pathOf x 0 i) → ∀ i, i < wd.xinds.length → wd.lastPos i = some (pathOf x 0 i) := by
    intro x hx i hi
    rw [← hx i hi]
    exact hp0 i hi
  have hnull : ∀ x, NullMeasurableSet (E x) uniformDraws := by
    intro x
    by_cases hx : ∀ i, i < wd.xinds.length → p0 i = pathOf x 0 i
    · exact follows_null h hwd rfl n (hone x hx)
    · rw [hother x hx]
      exact MeasurableSet.empty.nullMeasurableSet
  have hdis : Pairwise (Function.onFun (AEDisjoint uniformDraws) E) := by
    intro x y hxy
    refine measure_eq_zero_iff_ae_notMem.2 ?_
    filter_upwards [uniformDraws_nonzero] with ω hω hmem
    exact hxy ((follows_unique h hwd hω.1 n).unique hmem.1 hmem.2)
  have hall : (⋃ x, E x) =ᵐ[uniformDraws] Set.univ := by
    rw [Filter.eventuallyEq_set]
    filter_upwards [uniformDraws_nonzero] with ω hω
    obtain ⟨x, hx, -⟩ := follows_unique h hwd hω.1 n
    simp only [Set.mem_iUnion, Set.mem_univ, iff_true]
    exact ⟨x, hx⟩
  rw [← setIntegral_univ, ← Measure.restrict_congr_set hall, integral_iUnion_ae hnull hdis hf.integrableOn, tsum_fintype]
  refine sum_congr rfl fun x _ => ?_
  by_cases hx : ∀ i, i < wd.xinds.length → p0 i = pathOf x 0 i
  · rw [if_pos hx]
  · rw [if_neg hx, hother x hx]
    simp

/-- The travel time as a function of path and draws. -/
theorem time_on_path {F : Fun ℝ Arith.exact} {R C : Nat} {P : PObj ℝ} {s : PState ℝ}
    (h : Reach Arith.exact F (Enclosed Arith.exact F R C) Draws (InsideSeeds R C) P s)
    (ha : ∀ k, k < 9 → k ≠ 4 → ∃ a, P.angles k = .fin a) {wd : WalkData ℝ} (hwd : s.walk = some wd)
    {t0 : Nat → ℝ} (ht0 : ∀ i, i < wd.xinds.length → wd.lastTime i = some (.fin (t0 i))) {n i : Nat} (hi : i < wd.xinds.length) {ω : Nat → ℝ}
    (hω : Draws ω) {t : ℝ} (ht : TimeAfter Arith.exact F P ω s n i t) {path : Nat → Nat → Int × Int} (hF : Follows Arith.exact F P ω s n path) :
    t = t0 i + ∑ l ∈ range n, freeDur F P (path l i) (path (l + 1) i) *
      (1 + (1 / 2 - ω (delayDraw P s.world.pos wd.xinds.length path l i)) * P.diffCoeff) := by
  have h0 : ∀ i, i < wd.xinds.length → wd.lastPos i = some (path 0 i) := by
    obtain ⟨s2, w2, wd2, r2, e2, l2⟩ := hF 0 (by omega)
    obtain ⟨rfl, -⟩ := r2.unique .zero
    rw [hwd] at e2
    cases e2
    exact l2
  obtain ⟨hstart, -⟩ := start_onPath h hwd rfl h0
  exact ht.unique (path_times (R := R) (C := C) ha hω (hstart ω) (t0 := t0) (fun i hi => ⟨s, none, wd, .zero, hwd, ht0 i hi⟩)
    (base := fun l i => freeDur F P (path l i) (path (l + 1) i)) (fun j hj i hi => follows_free h ha hwd hω h0 hF hj hi) hF le_rfl hi)

/-- Travel times after a number of iterations are bounded. -/
theorem time_bounded {F : Fun ℝ Arith.exact} {R C : Nat} {P : PObj ℝ} {s : PState ℝ}
    (h : Reach Arith.exact F (Enclosed Arith.exact F R C) Draws (InsideSeeds R C) P s)
    (ha : ∀ k, k < 9 → k ≠ 4 → ∃ a, P.angles k = .fin a) {wd : WalkData ℝ} (hwd : s.walk = some wd)
    {t0 : Nat → ℝ} (ht0 : ∀ i, i < wd.xinds.length → wd.lastTime i = some (.fin (t0 i))) (n : Nat) {i : Nat} (hi : i < wd.xinds.length) :
    ∃ B : ℝ, ∀ ω t, Draws ω → TimeAfter Arith.exact F P ω s n i t → |t| ≤ B := by
  refine ⟨|t0 i| + ∑ x : Fin (n + 1) → Fin wd.xinds.length → Fin R × Fin C, ∑ l ∈ range n,
    |freeDur F P (pathOf x l i) (pathOf x (l + 1) i)| * (1 + |P.diffCoeff|), fun ω t hω ht => ?_⟩
  obtain ⟨x, hx, -⟩ := follows_unique h hwd hω n
  rw [time_on_path h ha hwd ht0 hi hω ht hx]
  refine (abs_add_le _ _).trans (add_le_add_right ((abs_sum_le_sum_abs _ _).trans ?_) _)
  refine le_trans ?_ (single_le_sum (f := fun x : Fin (n + 1) → Fin wd.xinds.length → Fin R × Fin C => ∑ l ∈ range n,
    |freeDur F P (pathOf x l i) (pathOf x (l + 1) i)| * (1 + |P.diffCoeff|)) (fun x _ => sum_nonneg fun l _ => by positivity) (mem_univ x))
  refine sum_le_sum fun l _ => ?_
  rw [abs_mul]
  refine mul_le_mul_of_nonneg_left ?_ (abs_nonneg _)
  refine (abs_add_le _ _).trans ?_
  rw [abs_one, abs_mul]
  have hr := hω (delayDraw P s.world.pos wd.xinds.length (pathOf x) l i)
  have : |1 / 2 - ω (delayDraw P s.world.pos wd.xinds.length (pathOf x) l i)| ≤ 1 := by
    rw [abs_le]
    constructor <;> linarith [hr.1, hr.2]
  nlinarith [abs_nonneg P.diffCoeff]

/-- Mean square of the travel time along one path. -/
theorem path_square {F : Fun ℝ Arith.exact} {R C : Nat} {P : PObj ℝ} {s : PState ℝ}
    (h : Reach Arith.exact F (Enclosed Arith.exact F R C) Draws (InsideSeeds R C) P s)
    (ha : ∀ k, k < 9 → k ≠ 4 → ∃ a, P.angles k = .fin a) {wd : WalkData ℝ} (hwd : s.walk = some wd)
    {t0 : Nat → ℝ} (ht0 : ∀ i, i < wd.xinds.length → wd.lastTime i = some (.fin (t0 i))) (n : Nat) {path : Nat → Nat → Int × Int}
    (h0 : ∀ i, i < wd.xinds.length → wd.lastPos i = some (path 0 i)) {i : Nat} (hi : i < wd.xinds.length) {T : (Nat → ℝ) → ℝ}
    (hT : ∀ ω, Draws ω → TimeAfter Arith.exact F P ω s n i (T ω)) (hT2 : Integrable (fun ω => T ω ^ 2) uniformDraws) :
    ∫ ω in {ω | Follows Arith.exact F P ω s n path}, T ω ^ 2 ∂uniformDraws =
      (∏ j ∈ range n, ∏ i ∈ range wd.xinds.length, moveProb (flowOf F P) P (path j i) (path (j + 1) i)).toReal *
        ((t0 i + ∑ l ∈ range n, freeDur F P (path l i) (path (l + 1) i)) ^ 2 +
          (∑ l ∈ range n, freeDur F P (path l i) (path (l + 1) i) ^ 2) / 12 * P.diffCoeff ^ 2) := by
  have hlaw := C75_law h hwd rfl n path h0
  by_cases hz : uniformDraws {ω | Follows Arith.exact F P ω s n path} = 0
  · rw [← hlaw, hz, Measure.restrict_eq_zero.2 hz]
    simp
  have hz' : ¬ ∀ᵐ ω ∂uniformDraws, ¬ (Draws ω ∧ Follows Arith.exact F P ω s n path) := by
    intro hc
    refine hz (measure_eq_zero_iff_ae_notMem.2 ?_)
    filter_upwards [hc, uniformDraws_nonzero] with ω h1 h2 h3
    exact h1 ⟨h2.1, h3⟩
  obtain ⟨ω0, hω0, hF0⟩ : ∃ ω, Draws ω ∧ Follows Arith.exact F P ω s n path := by
    by_contra hc
    push Not at hc
    exact hz' (Filter.Eventually.of_forall fun ω hω => hc ω hω.1 hω.2)
  obtain ⟨h1, h2, h3⟩ := C103_mean h ha hwd rfl ht0 h0 (base := fun l i => freeDur F P (path l i) (path (l + 1) i))
    (fun j hj i hi => follows_free h ha hwd hω0 h0 hF0 hj hi) hi fun ω hω _ => hT ω hω
  set E := {ω | Follows Arith.exact F P ω s n path} with hE
  set M := t0 i + ∑ l ∈ range n, freeDur F P (path l i) (path (l + 1) i) with hM
  have e : ∀ ω, (T ω - M) ^ 2 = T ω ^ 2 - 2 * M * T ω + M ^ 2 := fun ω => by ring
  simp only [e] at h3
  have hd : Integrable (fun ω => T ω ^ 2 - 2 * M * T ω) (uniformDraws.restrict E) := hT2.integrableOn.sub (h1.const_mul _)
  rw [integral_add hd (integrable_const _), integral_sub hT2.integrableOn (h1.const_mul _),
    integral_const_mul, h2] at h3
  simp only [integral_const, smul_eq_mul, measureReal_restrict_apply MeasurableSet.univ, Set.univ_inter] at h3
  have hp : (∏ j ∈ range n, ∏ i ∈ range wd.xinds.length, moveProb (flowOf F P) P (path j i) (path (j + 1) i)).toReal = uniformDraws.real E := by
    rw [← hlaw]
    rfl
  rw [hp]
  have hs : ∑ l ∈ range n, (freeDur F P (path l i) (path (l + 1) i) * P.diffCoeff) ^ 2 / 12 =
      (∑ l ∈ range n, freeDur F P (path l i) (path (l + 1) i) ^ 2) / 12 * P.diffCoeff ^ 2 := by
    rw [sum_div, sum_mul]
    exact sum_congr rfl fun l _ => by ring
  rw [hs] at h3
  linear_combination h3

/-- Exact arithmetic, independent uniform draws, random or steepest-descent routing, any number of particles and iterations. Given the flow field, the
cells and times from which the particles start, the mean `μ` of the travel time of particle `i` after `n` iterations does not depend on `diff_coeff`, and
its variance is a constant plus a multiple of the square of `diff_coeff`. So diffusion never narrows the distribution of the travel times, and it widens
it strictly unless the particle uses no time at all. -/
theorem C129_variance (F : Fun ℝ Arith.exact) (R C : Nat) (P : PObj ℝ) (ha : ∀ k, k < 9 → k ≠ 4 → ∃ a, P.angles k = .fin a) (N : Nat)
    (p0 : Nat → Int × Int) (t0 : Nat → ℝ) (n : Nat) {i : Nat} (hi : i < N) :
    ∃ μ v c : ℝ, 0 ≤ c ∧ ∀ (D : ℝ) (s : PState ℝ) (wd : WalkData ℝ),
      Reach Arith.exact F (Enclosed Arith.exact F R C) Draws (InsideSeeds R C) { P with diffCoeff := D } s → s.walk = some wd →
      wd.xinds.length = N → (∀ i, i < N → wd.lastPos i = some (p0 i)) → (∀ i, i < N → wd.lastTime i = some (.fin (t0 i))) →
      ∀ T : (Nat → ℝ) → ℝ, (∀ ω, Draws ω → TimeAfter Arith.exact F { P with diffCoeff := D } ω s n i (T ω)) →
        Integrable T uniformDraws ∧ Integrable (fun ω => T ω ^ 2) uniformDraws ∧ ∫ ω, T ω ∂uniformDraws = μ ∧
        ∫ ω, (T ω - μ) ^ 2 ∂uniformDraws = v + c * D ^ 2 ∧ (c = 0 → ∀ᵐ ω ∂uniformDraws, T ω = t0 i) := by
  set p : (Fin (n + 1) → Fin N → Fin R × Fin C) → ℝ := fun x => if ∀ i, i < N → p0 i = pathOf x 0 i then
    (∏ j ∈ range n, ∏ i ∈ range N, moveProb (flowOf F P) P (pathOf x j i) (pathOf x (j + 1) i)).toReal else 0 with hp
  set b : (Fin (n + 1) → Fin N → Fin R × Fin C) → Nat → ℝ := fun x l => freeDur F P (pathOf x l i) (pathOf x (l + 1) i) with hb
  have hp0 : ∀ x, 0 ≤ p x := by
    intro x
    simp only [hp]
    split
    · exact ENNReal.toReal_nonneg
    · exact le_refl _
  have hterm : ∀ x, 0 ≤ p x * ((∑ l ∈ range n, b x l ^ 2) / 12) := fun x =>
    mul_nonneg (hp0 x) (div_nonneg (sum_nonneg fun l _ => sq_nonneg _) (by norm_num))
  refine ⟨∑ x, p x * (t0 i + ∑ l ∈ range n, b x l), ∑ x, p x * (t0 i + ∑ l ∈ range n, b x l) ^ 2 - (∑ x, p x * (t0 i + ∑ l ∈ range n, b x l)) ^ 2,
    ∑ x, p x * ((∑ l ∈ range n, b x l ^ 2) / 12), sum_nonneg fun x _ => hterm x, fun D s wd h hwd hN hpos htime T hT => ?_⟩
  obtain ⟨hI, hmean⟩ := mean_formula h ha hwd hN hpos htime n hi hT
  have hmean' : ∫ ω, T ω ∂uniformDraws = ∑ x, p x * (t0 i + ∑ l ∈ range n, b x l) := by
    rw [hmean]
    refine sum_congr rfl fun x _ => ?_
    simp only [hp]
    split
    · rfl
    · simp
  obtain ⟨B, hB⟩ := time_bounded h ha hwd (fun i hi => htime i (hN ▸ hi)) n (i := i) (hN ▸ hi)
  have hI2 : Integrable (fun ω => T ω ^ 2) uniformDraws := by
    refine Integrable.of_bound (hI.aestronglyMeasurable.pow 2) (B ^ 2) ?_
    filter_upwards [uniformDraws_nonzero] with ω hω
    rw [Real.norm_eq_abs, abs_pow]
    exact pow_le_pow_left₀ (abs_nonneg _) (hB ω _ hω.1 (hT ω hω.1)) 2
  have hsq : ∫ ω, T ω ^ 2 ∂uniformDraws = ∑ x, p x * ((t0 i + ∑ l ∈ range n, b x l) ^ 2 + (∑ l ∈ range n, b x l ^ 2) / 12 * D ^ 2) := by
    rw [integral_paths h hwd hN hpos n hI2]
    refine sum_congr rfl fun x _ => ?_
    simp only [hp]
    split
    · rename_i hx
      subst hN
      exact path_square h ha hwd htime n (fun i hi => by rw [← hx i hi]; exact hpos i hi) hi hT hI2
    · simp
  refine ⟨hI, hI2, hmean', ?_, fun hc => ?_⟩
  · generalize hM : ∑ x, p x * (t0 i + ∑ l ∈ range n, b x l) = M at *
    have e : ∀ ω, (T ω - M) ^ 2 = T ω ^ 2 - 2 * M * T ω + M ^ 2 := fun ω => by ring
    simp only [e]
    have hd : Integrable (fun ω => T ω ^ 2 - 2 * M * T ω) uniformDraws := hI2.sub (hI.const_mul _)
    rw [integral_add hd (integrable_const _), integral_sub hI2 (hI.const_mul _), integral_const_mul, hmean', hsq]
    simp only [integral_const, smul_eq_mul, probReal_univ, mul_add, sum_add_distrib]
    have : ∑ x, p x * ((∑ l ∈ range n, b x l ^ 2) / 12 * D ^ 2) = (∑ x, p x * ((∑ l ∈ range n, b x l ^ 2) / 12)) * D ^ 2 := by
      rw [sum_mul]
      exact sum_congr rfl fun x _ => by ring
    rw [this]
    ring
  · have hz := (sum_eq_zero_iff_of_nonneg fun x _ => hterm x).1 hc
    have hnull : ∀ x : Fin (n + 1) → Fin N → Fin R × Fin C, ∀ᵐ ω ∂uniformDraws, Draws ω → Follows Arith.exact F { P with diffCoeff := D } ω s n (pathOf x) →
        T ω = t0 i := by
      intro x
      subst hN
      by_cases hx : ∀ i, i < wd.xinds.length → p0 i = pathOf x 0 i
      · rcases mul_eq_zero.1 (hz x (mem_univ x)) with h1 | h1
        · have hlaw := C75_law h hwd rfl n (pathOf x) (fun i hi => by rw [← hx i hi]; exact hpos i hi)
          have hfin : uniformDraws {ω | Follows Arith.exact F { P with diffCoeff := D } ω s n (pathOf x)} ≠ ⊤ := measure_ne_top _ _
          simp only [hp, if_pos hx] at h1
          have hzero : uniformDraws {ω | Follows Arith.exact F { P with diffCoeff := D } ω s n (pathOf x)} = 0 := by
            rcases (ENNReal.toReal_eq_zero_iff _).1 h1 with h2 | h2
            · rw [hlaw]; exact h2
            · rw [hlaw] at hfin; exact absurd h2 hfin
          filter_upwards [measure_eq_zero_iff_ae_notMem.1 hzero] with ω hω _ hF
          exact absurd hF hω
        · have hb0 : ∀ l ∈ range n, b x l = 0 := by
            have h2 : ∑ l ∈ range n, b x l ^ 2 = 0 := by linarith
            intro l hl
            exact pow_eq_zero_iff (two_ne_zero) |>.1 ((sum_eq_zero_iff_of_nonneg fun l _ => sq_nonneg _).1 h2 l hl)
          refine Filter.Eventually.of_forall fun ω hω hF => ?_
          rw [time_on_path h ha hwd htime hi hω (hT ω hω) hF, sum_eq_zero, add_zero]
          intro l hl
          have : freeDur F { P with diffCoeff := D } (pathOf x l i) (pathOf x (l + 1) i) = b x l := rfl
          rw [this, hb0 l hl, zero_mul]
      · refine Filter.Eventually.of_forall fun ω _ hF => ?_
        exfalso
        obtain ⟨s2, w2, wd2, r2, e2, l2⟩ := hF 0 (by omega)
        obtain ⟨rfl, -⟩ := r2.unique .zero
        rw [hwd] at e2
        cases e2
        refine hx fun i hi => ?_
        have := (hpos i hi).symm.trans (l2 i hi)
        simpa using this
    filter_upwards [ae_all_iff.2 hnull, uniformDraws_nonzero] with ω h1 h2
    subst hN
    obtain ⟨x, hx, -⟩ := follows_unique h hwd h2.1 n
    exact h1 x h2.1 hx

/-- C129: particles in the same two channels, with the default diffusion coefficient 0.2 and with 1. The one has the variance `v + c/25`, the other `v + c`. -/
example (n : Nat) : ∃ (s s' : PState ℝ) (T T' : (Nat → ℝ) → ℝ) (μ v c : ℝ), 0 ≤ c ∧
    Reach Arith.exact Fun.real (Enclosed Arith.exact Fun.real 5 5) Draws (InsideSeeds 5 5) realObj s ∧
    Reach Arith.exact Fun.real (Enclosed Arith.exact Fun.real 5 5) Draws (InsideSeeds 5 5) realSpread s' ∧
    (∀ ω, Draws ω → TimeAfter Arith.exact Fun.real realObj ω s n 0 (T ω)) ∧ (∀ ω, Draws ω → TimeAfter Arith.exact Fun.real realSpread ω s' n 0 (T' ω)) ∧
    ∫ ω, (T ω - μ) ^ 2 ∂uniformDraws = v + c / 25 ∧ ∫ ω, (T' ω - μ) ^ 2 ∂uniformDraws = v + c := by
  obtain ⟨s0, h0, wd, hwd, hlen, hl0, ht0⟩ : ∃ s0, generateParticles Arith.exact realObj (fun _ => 1 / 2) (initState Arith.exact Fun.real realObj 0) (.int 1)
    (.list [.int 2]) (.list [.int 2]) (.int 0) (.str "exact") none = .ok s0 ∧
      ∃ wd, s0.walk = some wd ∧ wd.xinds.length = 1 ∧ wd.lastPos 0 = some (2, 2) ∧ wd.lastTime 0 = some (.fin ((0 : Int) : ℝ)) :=
    ⟨_, rfl, _, rfl, rfl, rfl, rfl⟩
  obtain ⟨s1, h1, wd1, hwd1, hlen1, hl1, ht1⟩ : ∃ s0, generateParticles Arith.exact realSpread (fun _ => 1 / 2) (initState Arith.exact Fun.real realSpread 0) (.int 1)
    (.list [.int 2]) (.list [.int 2]) (.int 0) (.str "exact") none = .ok s0 ∧
      ∃ wd, s0.walk = some wd ∧ wd.xinds.length = 1 ∧ wd.lastPos 0 = some (2, 2) ∧ wd.lastTime 0 = some (.fin ((0 : Int) : ℝ)) :=
    ⟨_, rfl, _, rfl, rfl, rfl, rfl⟩
  have hc : genInputCheck (K := ℝ) (.int 1) (.list [.int 2]) (.list [.int 2]) (.int 0) (.str "exact") =
    .ok (1, [2], [2], .fin ((0 : Int) : ℝ), .exact) := rfl
  have hreach : Reach Arith.exact Fun.real (Enclosed Arith.exact Fun.real 5 5) Draws (InsideSeeds 5 5) realObj s0 :=
    .generate (.new 0 realObj_enclosed) (fun _ => by norm_num) hc (by norm_num)
      (by intro x hx y hy; simp at hx hy; subst hx hy; unfold Inside; decide) h0
  have hreach1 : Reach Arith.exact Fun.real (Enclosed Arith.exact Fun.real 5 5) Draws (InsideSeeds 5 5) realSpread s1 :=
    .generate (.new 0 realSpread_enclosed) (fun _ => by norm_num) hc (by norm_num)
      (by intro x hx y hy; simp at hx hy; subst hx hy; unfold Inside; decide) h1
  have zero : ∀ {i : Nat}, i < 1 → i = 0 := fun hi => by omega
  have ex := fun (ω : Nat → ℝ) (hω : Draws ω) => time_exists hreach realObj_angles hwd (t0 := fun _ => ((0 : Int) : ℝ))
    (fun i hi => by rw [hlen] at hi; rw [zero hi]; exact ht0) hω n (i := 0) (by rw [hlen]; norm_num)
  have ex' := fun (ω : Nat → ℝ) (hω : Draws ω) => time_exists hreach1 (by rw [realSpread_eq]; exact realObj_angles) hwd1 (t0 := fun _ => ((0 : Int) : ℝ))
    (fun i hi => by rw [hlen1] at hi; rw [zero hi]; exact ht1) hω n (i := 0) (by rw [hlen1]; norm_num)
  choose! T hT using ex
  choose! T' hT' using ex'
  obtain ⟨μ, v, c, hcn, hall⟩ := C129_variance Fun.real 5 5 realObj realObj_angles 1 (fun _ => (2, 2)) (fun _ => ((0 : Int) : ℝ)) n (i := 0) (by norm_num)
  have hself : ({ realObj with diffCoeff := (1 / 5 : ℝ) } : PObj ℝ) = realObj := rfl
  have r1 := hall (1 / 5) s0 wd (by rw [hself]; exact hreach) hwd hlen (fun i hi => by rw [zero hi]; exact hl0) (fun i hi => by rw [zero hi]; exact ht0) T
    (by rw [hself]; exact hT)
  have r2 := hall 1 s1 wd1 (by rw [← realSpread_eq]; exact hreach1) hwd1 hlen1 (fun i hi => by rw [zero hi]; exact hl1) (fun i hi => by rw [zero hi]; exact ht1)
    T' (by rw [← realSpread_eq]; exact hT')
  refine ⟨s0, s1, T, T', μ, v, c, hcn, hreach, hreach1, hT, hT', ?_, ?_⟩
  · rw [r1.2.2.2.1]; ring
  · rw [r2.2.2.2.1]; ring

end Dorado
