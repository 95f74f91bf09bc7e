import Verif.Props.Course
import Verif.Props.Scatter
import Mathlib.Probability.Moments.Variance

/-! # C130: standard error of the mean travel time

The travel times of the particles are independent, and mean and variance of each depend on its starting cell only. So the variance of their average over `N`
particles of one starting cell is the variance of a single one, divided by `N`. -/

set_option linter.unusedSectionVars false

namespace Dorado

open MeasureTheory ProbabilityTheory Finset

/-- The durations of a course add up to the travel time. -/
theorem course_time {F : Fun ℝ Arith.exact} {P : PObj ℝ} {ω : Nat → ℝ} {s : PState ℝ} {i : Nat} {t0 : ℝ} (h0 : TimeAfter Arith.exact F P ω s 0 i t0) :
    ∀ {n : Nat} {c : Course n}, HasCourse F P ω s n i c → TimeAfter Arith.exact F P ω s n i (t0 + ∑ j, (c j).2) := by
  intro n
  induction n with
  | zero => intro c _; simpa using h0
  | succ n ih =>
    intro c hc
    have h1 := ih (c := fun j => c j.castSucc) fun j => hc j.castSucc
    obtain ⟨-, t, h2, h3⟩ := hc (Fin.last n)
    have e := h2.unique h1
    rw [Fin.sum_univ_castSucc, ← add_assoc, ← e]
    exact h3

/-- Exact arithmetic, independent uniform draws, random or steepest-descent routing, plain `run_iteration()` calls, any number of particles and iterations,
any history. Given the grid and the options there are functions `m` and `v` of the starting cell such that the travel time of every particle after `n` iterations
has mean `t0 + m` and variance `v`, whatever the other particles do; the variance of the average over the `N` particles is the sum of their variances over `N²`; and
the average is off its mean by `ε` or more with probability at most that variance over `ε²`. -/
theorem C130_standard_error (F : Fun ℝ Arith.exact) (R C : Nat) (P : PObj ℝ) (ha : ∀ k, k < 9 → k ≠ 4 → ∃ a, P.angles k = .fin a) (n : Nat) :
    ∃ m v : Int × Int → ℝ, (∀ p, 0 ≤ v p) ∧ ∀ (s : PState ℝ) (wd : WalkData ℝ),
      Reach Arith.exact F (Enclosed Arith.exact F R C) Draws (InsideSeeds R C) P s → s.walk = some wd →
      ∀ (N : Nat) (p : Nat → Int × Int) (t0 : Nat → ℝ), wd.xinds.length = N → 0 < N → (∀ i, i < N → wd.lastPos i = some (p i)) →
      (∀ i, i < N → wd.lastTime i = some (.fin (t0 i))) →
      ∀ T : Nat → (Nat → ℝ) → ℝ, (∀ i, i < N → ∀ ω, Draws ω → TimeAfter Arith.exact F P ω s n i (T i ω)) →
        (∀ i, i < N → ∫ ω, T i ω ∂uniformDraws = t0 i + m (p i) ∧ ∫ ω, (T i ω - (t0 i + m (p i))) ^ 2 ∂uniformDraws = v (p i)) ∧
        ∫ ω, (∑ i ∈ range N, T i ω) / N ∂uniformDraws = (∑ i ∈ range N, (t0 i + m (p i))) / N ∧
        ∫ ω, ((∑ i ∈ range N, T i ω) / N - (∑ i ∈ range N, (t0 i + m (p i))) / N) ^ 2 ∂uniformDraws = (∑ i ∈ range N, v (p i)) / N ^ 2 ∧
        ∀ ε : ℝ, 0 < ε → uniformDraws.real {ω | ε ≤ |(∑ i ∈ range N, T i ω) / N - (∑ i ∈ range N, (t0 i + m (p i))) / N|} ≤
          (∑ i ∈ range N, v (p i)) / N ^ 2 / ε ^ 2 := by
  set m : Int × Int → ℝ := fun q => ∫ c : Course n, ∑ j, (c j).2 ∂courseLaw F P n q with hm
  set v : Int × Int → ℝ := fun q => ∫ c : Course n, (∑ j, (c j).2 - m q) ^ 2 ∂courseLaw F P n q with hv
  refine ⟨m, v, fun q => integral_nonneg fun c => sq_nonneg _, ?_⟩
  intro s wd h hwd N p t0 hN hpos hp ht T hT
  subst hN
  have ht' : ∀ i, i < wd.xinds.length → ∃ t, wd.lastTime i = some (.fin t) := fun i hi => ⟨_, ht i hi⟩
  have ex := fun (ω : Nat → ℝ) (hω : Draws ω) (i : Fin wd.xinds.length) => course_exists h ha hwd ht' hω n i.2
  obtain ⟨X, hX⟩ : ∃ X : Fin wd.xinds.length → (Nat → ℝ) → Course n, ∀ ω, Draws ω → ∀ i : Fin wd.xinds.length, HasCourse F P ω s n i (X i ω) := by
    classical
    exact ⟨fun i ω => if hω : Draws ω then (ex ω hω i).choose else fun _ => ((0, 0), 0), fun ω hω i => by
      simp only [dif_pos hω]
      exact (ex ω hω i).choose_spec⟩
  have hp' : ∀ i : Fin wd.xinds.length, wd.lastPos i = some ((fun i => p i.1 : Fin wd.xinds.length → Int × Int) i) := fun i => hp i i.2
  have hmeas := course_measurable h ha hwd ht' hX hp'
  obtain ⟨hind, hlaw⟩ := C104_independent h ha hwd ht' hX hp'
  have hS : Measurable fun c : Course n => ∑ j, (c j).2 := by fun_prop
  have hTX : ∀ i : Fin wd.xinds.length, T i =ᵐ[uniformDraws] fun ω => t0 i + ∑ j, (X i ω j).2 := by
    intro i
    filter_upwards [uniformDraws_nonzero] with ω hω
    exact (hT i i.2 ω hω.1).unique (course_time ⟨s, none, wd, .zero, hwd, ht i i.2⟩ (hX ω hω.1 i))
  have hTm : ∀ i : Fin wd.xinds.length, AEMeasurable (T i) uniformDraws := fun i =>
    ((hS.comp_aemeasurable (hmeas i)).const_add (t0 i)).congr (hTX i).symm
  have hL : ∀ i : Fin wd.xinds.length, MemLp (T i) 2 uniformDraws := by
    intro i
    obtain ⟨B, hB⟩ := time_bounded h ha hwd ht n i.2
    refine MemLp.of_bound (hTm i).aestronglyMeasurable B ?_
    filter_upwards [uniformDraws_nonzero] with ω hω
    exact hB ω _ hω.1 (hT i i.2 ω hω.1)
  have hTi : ∀ i : Fin wd.xinds.length, Integrable (T i) uniformDraws := fun i => (hL i).integrable (by norm_num)
  have hpr : ∀ i : Fin wd.xinds.length, IsProbabilityMeasure (courseLaw F P n (p i)) := fun i => by
    rw [← hlaw i]
    exact Measure.isProbabilityMeasure_map (hmeas i)
  have hmean : ∀ i : Fin wd.xinds.length, ∫ ω, T i ω ∂uniformDraws = t0 i + m (p i) := by
    intro i
    have hI := (hTi i).congr (hTX i)
    have hI2 : Integrable (fun ω => ∑ j, (X i ω j).2) uniformDraws := by
      refine (hI.sub (integrable_const (t0 i))).congr (Filter.Eventually.of_forall fun ω => ?_)
      simp
    rw [integral_congr_ae (hTX i), integral_add (integrable_const _) hI2]
    simp only [integral_const, probReal_univ, one_smul, hm]
    rw [← hlaw i, integral_map (hmeas i) hS.aestronglyMeasurable]
  have hvar : ∀ i : Fin wd.xinds.length, ∫ ω, (T i ω - (t0 i + m (p i))) ^ 2 ∂uniformDraws = v (p i) := by
    intro i
    have e : (fun ω => (T i ω - (t0 i + m (p i))) ^ 2) =ᵐ[uniformDraws] fun ω => (∑ j, (X i ω j).2 - m (p i)) ^ 2 := by
      filter_upwards [hTX i] with ω hω
      rw [hω, add_sub_add_left_eq_sub]
    rw [integral_congr_ae e]
    simp only [hv]
    have hS2 : Measurable fun c : Course n => (∑ j, (c j).2 - m (p i)) ^ 2 := by fun_prop
    have := integral_map (hmeas i) (f := fun c : Course n => (∑ j, (c j).2 - m (p i)) ^ 2) hS2.aestronglyMeasurable
    rw [hlaw i] at this
    exact this.symm
  have hvar' : ∀ i : Fin wd.xinds.length, variance (T i) uniformDraws = v (p i) := by
    intro i
    rw [variance_eq_integral (hTm i), hmean i]
    exact hvar i
  have hpair : ∀ i j : Fin wd.xinds.length, i ≠ j → IndepFun (T i) (T j) uniformDraws := by
    intro i j hij
    have hi : Measurable fun c : Course n => t0 i + ∑ j, (c j).2 := by fun_prop
    have hj : Measurable fun c : Course n => t0 j + ∑ j, (c j).2 := by fun_prop
    exact ((hind.indepFun hij).comp hi hj).congr (hTX i).symm (hTX j).symm
  have hsumv : variance (∑ i : Fin wd.xinds.length, T i) uniformDraws = ∑ i : Fin wd.xinds.length, v (p i) := by
    rw [IndepFun.variance_sum (fun i _ => hL i) fun i _ j _ hij => hpair i j hij]
    exact sum_congr rfl fun i _ => hvar' i
  have hsum : ∀ ω, (∑ i ∈ range wd.xinds.length, T i ω) = ∑ i : Fin wd.xinds.length, T i ω := fun ω => sum_range fun i => T i ω
  have hLm : MemLp (fun ω => (∑ i : Fin wd.xinds.length, T i ω) / wd.xinds.length) 2 uniformDraws := by
    have := (memLp_finsetSum univ fun i _ => hL i).mul_const ((wd.xinds.length : ℝ)⁻¹)
    simpa only [div_eq_mul_inv] using this
  have hmm : ∫ ω, (∑ i : Fin wd.xinds.length, T i ω) / wd.xinds.length ∂uniformDraws = (∑ i : Fin wd.xinds.length, (t0 i + m (p i))) / wd.xinds.length := by
    rw [integral_div, integral_finsetSum _ fun i _ => hTi i]
    congr 1
    exact sum_congr rfl fun i _ => hmean i
  have hvm : variance (fun ω => (∑ i : Fin wd.xinds.length, T i ω) / wd.xinds.length) uniformDraws = (∑ i : Fin wd.xinds.length, v (p i)) / wd.xinds.length ^ 2 := by
    have e : (fun ω => (∑ i : Fin wd.xinds.length, T i ω) / wd.xinds.length) = fun ω => (∑ i : Fin wd.xinds.length, T i) ω * (wd.xinds.length : ℝ)⁻¹ := by
      funext ω
      rw [Finset.sum_apply, div_eq_mul_inv]
    rw [e, variance_mul_const, hsumv, inv_pow, div_eq_mul_inv]
  refine ⟨fun i hi => ⟨hmean ⟨i, hi⟩, hvar ⟨i, hi⟩⟩, ?_⟩
  simp only [hsum]
  rw [sum_range fun i => t0 i + m (p i), sum_range fun i => v (p i)]
  refine ⟨hmm, ?_, fun ε hε => ?_⟩
  · rw [← hvm, variance_eq_integral hLm.aestronglyMeasurable.aemeasurable, hmm]
  · have hch := meas_ge_le_variance_div_sq hLm hε
    rw [hvm, hmm] at hch
    refine ENNReal.toReal_le_of_le_ofReal ?_ hch
    exact div_nonneg (div_nonneg (sum_nonneg fun i _ => integral_nonneg fun c => sq_nonneg _) (sq_nonneg _)) (sq_nonneg _)

/-- C130: four particles in the middle of the channel, seeded together. The variance of their mean travel time is a quarter of the variance of a single one, so its
standard error is half as large. -/
example (n : Nat) : ∃ (s : PState ℝ) (T : Nat → (Nat → ℝ) → ℝ) (μ v : ℝ), 0 ≤ v ∧
    Reach Arith.exact Fun.real (Enclosed Arith.exact Fun.real 5 5) Draws (InsideSeeds 5 5) realObj s ∧
    (∀ i, i < 4 → ∀ ω, Draws ω → TimeAfter Arith.exact Fun.real realObj ω s n i (T i ω)) ∧
    (∀ i, i < 4 → ∫ ω, T i ω ∂uniformDraws = μ ∧ ∫ ω, (T i ω - μ) ^ 2 ∂uniformDraws = v) ∧
    ∫ ω, ((∑ i ∈ range 4, T i ω) / (4 : Nat) - μ) ^ 2 ∂uniformDraws = v / 4 ∧
    ∀ ε : ℝ, 0 < ε → uniformDraws.real {ω | ε ≤ |(∑ i ∈ range 4, T i ω) / (4 : Nat) - μ|} ≤ v / 4 / ε ^ 2 := by
  obtain ⟨s0, h0, wd, hwd, hlen, hl0, ht0⟩ : ∃ s0, generateParticles Arith.exact realObj (fun _ => 1 / 2) (initState Arith.exact Fun.real realObj 0) (.int 4)
    (.list [.int 2, .int 2, .int 2, .int 2]) (.list [.int 2, .int 2, .int 2, .int 2])
    (.int 0) (.str "exact") none = .ok s0 ∧ ∃ wd, s0.walk = some wd ∧ wd.xinds.length = 4 ∧ (∀ i, i < 4 → wd.lastPos i = some (2, 2)) ∧
      ∀ i, i < 4 → wd.lastTime i = some (.fin ((0 : Int) : ℝ)) :=
    ⟨_, rfl, _, rfl, rfl, fun i hi => by interval_cases i <;> rfl, fun i hi => by interval_cases i <;> rfl⟩
  have hc : genInputCheck (K := ℝ) (.int 4) (.list [.int 2, .int 2, .int 2, .int 2])
    (.list [.int 2, .int 2, .int 2, .int 2]) (.int 0) (.str "exact") =
    .ok (4, [2, 2, 2, 2], [2, 2, 2, 2], .fin ((0 : Int) : ℝ), .exact) := rfl
  have hreach : Reach Arith.exact Fun.real (Enclosed Arith.exact Fun.real 5 5) Draws (InsideSeeds 5 5) realObj s0 :=
    .generate (.new 0 realObj_enclosed) (fun _ => by norm_num) hc (by norm_num)
      (by intro x hx y hy; simp at hx hy; subst hx hy; unfold Inside; decide) h0
  have ex := fun (i : Nat) (hi : i < 4) (ω : Nat → ℝ) (hω : Draws ω) => time_exists hreach realObj_angles hwd (t0 := fun _ => ((0 : Int) : ℝ))
    (fun i hi => ht0 i (by omega)) hω n (i := i) (by omega)
  choose! T hT using ex
  obtain ⟨m, v, hv, hall⟩ := C130_standard_error Fun.real 5 5 realObj realObj_angles n
  obtain ⟨h1, -, h3, h4⟩ := hall s0 wd hreach hwd 4 (fun _ => (2, 2)) (fun _ => ((0 : Int) : ℝ)) hlen (by norm_num) hl0 ht0 T hT
  have e1 : (∑ i ∈ range 4, (((0 : Int) : ℝ) + m (2, 2))) / (4 : Nat) = ((0 : Int) : ℝ) + m (2, 2) := by
    rw [sum_const, card_range, nsmul_eq_mul]
    push_cast
    ring
  have e2 : (∑ i ∈ range 4, v (2, 2)) / ((4 : Nat) : ℝ) ^ 2 = v (2, 2) / 4 := by
    rw [sum_const, card_range, nsmul_eq_mul]
    push_cast
    ring
  rw [e1, e2] at h3
  simp only [e1, e2] at h4
  exact ⟨s0, T, _, _, hv (2, 2), hreach, hT, h1, h3, h4⟩

end Dorado
