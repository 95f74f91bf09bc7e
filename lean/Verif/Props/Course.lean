import Verif.Spec.Course
import Verif.Props.Delay
import Mathlib.Probability.Moments.SubGaussian

/-! # Particles are independent samples: C104 -/

set_option linter.unusedSectionVars false

namespace Dorado

open MeasureTheory Finset

instance durLaw_prob (D x : ℝ) : IsProbabilityMeasure (durLaw D x) := by
  constructor
  unfold durLaw
  rw [Measure.map_apply (by fun_prop) MeasurableSet.univ, Set.preimage_univ, Measure.restrict_apply_univ, Real.volume_Icc]
  norm_num

theorem durLaw_apply {D x : ℝ} {B : Set ℝ} (hB : MeasurableSet B) : durLaw D x B = delayProb D x B := by
  have hm : Measurable fun u : ℝ => x * (1 + u * D) := by fun_prop
  unfold durLaw delayProb
  rw [Measure.map_apply hm hB, Measure.restrict_apply (hm hB)]
  congr 1
  ext u
  simp only [Set.mem_inter_iff, Set.mem_preimage, Set.mem_Icc, Set.mem_ofPred_eq, abs_le]
  tauto

/-- The courses through the cells `q` with durations in `B`. -/
def rect {n : Nat} (q : Fin n → Int × Int) (B : Fin n → Set ℝ) : Set (Course n) := Set.pi Set.univ fun j => {q j} ×ˢ B j

theorem mem_rect {n : Nat} {q : Fin n → Int × Int} {B : Fin n → Set ℝ} {c : Course n} : c ∈ rect q B ↔ ∀ j, (c j).1 = q j ∧ (c j).2 ∈ B j := by
  simp [rect, Set.mem_pi, Set.mem_prod]

theorem rect_measurable {n : Nat} (q : Fin n → Int × Int) {B : Fin n → Set ℝ} (hB : ∀ j, MeasurableSet (B j)) : MeasurableSet (rect q B) :=
  MeasurableSet.univ_pi fun j => (MeasurableSet.singleton _).prod (hB j)

def rects (n : Nat) : Set (Set (Course n)) := {S | ∃ q B, (∀ j, MeasurableSet (B j)) ∧ S = rect q B}

theorem rects_pi (n : Nat) : IsPiSystem (rects n) := by
  rintro _ ⟨q, B, hB, rfl⟩ _ ⟨q', B', hB', rfl⟩ ⟨c, h1, h2⟩
  rw [mem_rect] at h1 h2
  obtain rfl : q = q' := funext fun j => (h1 j).1.symm.trans (h2 j).1
  refine ⟨q, fun j => B j ∩ B' j, fun j => (hB j).inter (hB' j), ?_⟩
  ext c
  simp only [Set.mem_inter_iff, mem_rect]
  exact ⟨fun h j => ⟨(h.1 j).1, (h.1 j).2, (h.2 j).2⟩, fun h => ⟨fun j => ⟨(h j).1, (h j).2.1⟩, fun j => ⟨(h j).1, (h j).2.2⟩⟩⟩

theorem rects_generate (n : Nat) : MeasurableSpace.generateFrom (rects n) = MeasurableSpace.pi := by
  refine le_antisymm (MeasurableSpace.generateFrom_le ?_) (iSup_le fun j => ?_)
  · rintro _ ⟨q, B, hB, rfl⟩
    exact rect_measurable q hB
  · rintro _ ⟨A, hA, rfl⟩
    have : (fun c : Course n => c j) ⁻¹' A = ⋃ q : Fin n → Int × Int, rect q fun k => if k = j then {y | (q j, y) ∈ A} else Set.univ := by
      ext c
      simp only [Set.mem_preimage, Set.mem_iUnion, mem_rect]
      constructor
      · intro h
        refine ⟨fun k => (c k).1, fun k => ⟨rfl, ?_⟩⟩
        by_cases hk : k = j
        · subst hk
          rw [if_pos rfl]
          exact h
        · rw [if_neg hk]
          trivial
      · rintro ⟨q, hq⟩
        have := (hq j).2
        rw [if_pos rfl] at this
        rw [← (hq j).1] at this
        exact this
    rw [this]
    refine @MeasurableSet.iUnion _ _ (MeasurableSpace.generateFrom (rects n)) _ _ fun q => MeasurableSpace.measurableSet_generateFrom ⟨q, _, fun k => ?_, rfl⟩
    by_cases hk : k = j
    · rw [if_pos hk]
      exact (by fun_prop : Measurable fun y : ℝ => (q j, y)) hA
    · rw [if_neg hk]
      exact MeasurableSet.univ

theorem courseLaw_rect (F : Fun ℝ Arith.exact) (P : PObj ℝ) {n : Nat} (p : Int × Int) (q : Fin n → Int × Int) {B : Fin n → Set ℝ}
    (hB : ∀ j, MeasurableSet (B j)) : courseLaw F P n p (rect q B) =
      ∏ j, moveProb (flowOf F P) P (prevCell p q j) (q j) * delayProb P.diffCoeff (freeDur F P (prevCell p q j) (q j)) (B j) := by
  unfold courseLaw
  rw [Measure.sum_apply _ (rect_measurable q hB), tsum_eq_single q]
  · rw [Measure.smul_apply, rect, Measure.pi_pi, smul_eq_mul, prod_mul_distrib]
    congr 1
    refine prod_congr rfl fun j _ => ?_
    rw [Measure.prod_prod, Measure.dirac_apply' _ (MeasurableSet.singleton _), durLaw_apply (hB j)]
    simp
  · intro q' hne
    obtain ⟨j, hj⟩ := Function.ne_iff.1 hne
    rw [Measure.smul_apply, rect, Measure.pi_pi, smul_eq_mul]
    refine mul_eq_zero_of_right _ (prod_eq_zero (mem_univ j) ?_)
    rw [Measure.prod_prod, Measure.dirac_apply' _ (MeasurableSet.singleton _)]
    simp [hj]

/-- A move leads somewhere. -/
theorem moveProb_sum {F : Fun ℝ Arith.exact} {R C : Nat} {P : PObj ℝ} (hP : Enclosed Arith.exact F R C P) {p : Int × Int} (hp : Inside R C p) :
    ∑' q, moveProb (flowOf F P) P p q = 1 := by
  unfold moveProb
  by_cases hn : NearEdge P p.1.toNat p.2.toNat
  · simp only [if_pos hn]
    rw [tsum_eq_single p fun q hq => if_neg hq, if_pos rfl]
  simp only [if_neg hn]
  rw [Summable.tsum_finsetSum fun k _ => ENNReal.summable]
  have e : ∀ k ∈ range 9, ∑' q : Int × Int, (if q = (((Flow.nr p.1.toNat k : Nat) : Int), ((Flow.nc p.2.toNat k : Nat) : Int)) then
      (flowOf F P).chooseProb P.steepest p.1.toNat p.2.toNat k else 0) = (flowOf F P).chooseProb P.steepest p.1.toNat p.2.toNat k := by
    intro k _
    rw [tsum_eq_single _ fun q hq => if_neg hq, if_pos rfl]
  rw [sum_congr rfl e]
  obtain ⟨a, b, rfl, ha, ha', hb, hb'⟩ := hp.nat
  have hin : Interior P a b := ⟨ha, by rw [hP.rows]; exact ha', hb, by rw [hP.cols]; exact hb'⟩
  obtain ⟨-, hnn, hpos⟩ := candidates_exact (F := F) hP.built.good hin
  change ∑ k ∈ range 9, (flowOf F P).chooseProb P.steepest a b k = 1
  unfold Flow.chooseProb
  by_cases h : P.steepest = true ∧ ∀ m, m < 9 → (flowOf F P).candidate P.steepest a b m = 0
  · simp only [if_pos h]
    rw [sum_ite_eq' (range 9) 0 (fun _ => (1 : ENNReal)), if_pos (by simp)]
  · simp only [if_neg h]
    have hS : 0 < ∑ m ∈ range 9, (flowOf F P).candidate P.steepest a b m := by
      cases hst : P.steepest with
      | false => rw [hst] at hpos; exact hpos rfl
      | true =>
        rw [hst] at h hnn
        push Not at h
        obtain ⟨m, hm, hne⟩ := h rfl
        exact sum_pos' (fun k hk => hnn k (mem_range.1 hk)) ⟨m, mem_range.2 hm, lt_of_le_of_ne (hnn m hm) (Ne.symm hne)⟩
    rw [← ENNReal.ofReal_sum_of_nonneg fun k hk => div_nonneg (hnn k (mem_range.1 hk)) hS.le, ← sum_div, div_self hS.ne', ENNReal.ofReal_one]

theorem path_sum {F : Fun ℝ Arith.exact} {R C : Nat} {P : PObj ℝ} (hP : Enclosed Arith.exact F R C P) (n : Nat) :
    ∀ {p : Int × Int}, Inside R C p → ∑' q : Fin n → Int × Int, ∏ j, moveProb (flowOf F P) P (prevCell p q j) (q j) = 1 := by
  induction n with
  | zero => intro p _; simp
  | succ n ih =>
    intro p hp
    rw [← (Fin.consEquiv fun _ => Int × Int).tsum_eq, ENNReal.tsum_prod']
    have e : ∀ (q0 : Int × Int) (q : Fin n → Int × Int), ∏ j, moveProb (flowOf F P) P
        (prevCell p ((Fin.consEquiv fun _ => Int × Int) (q0, q)) j) ((Fin.consEquiv fun _ => Int × Int) (q0, q) j) =
        moveProb (flowOf F P) P p q0 * ∏ j, moveProb (flowOf F P) P (prevCell q0 q j) (q j) := by
      intro q0 q
      rw [Fin.prod_univ_succ]
      rfl
    simp only [e, ENNReal.tsum_mul_left]
    rw [← moveProb_sum hP hp]
    refine tsum_congr fun q0 => ?_
    by_cases hq : Inside R C q0
    · rw [ih hq, mul_one]
    · rw [moveProb_outside hP hp hq, zero_mul]

theorem courseLaw_prob {F : Fun ℝ Arith.exact} {R C : Nat} {P : PObj ℝ} (hP : Enclosed Arith.exact F R C P) (n : Nat) {p : Int × Int}
    (hp : Inside R C p) : IsProbabilityMeasure (courseLaw F P n p) := by
  constructor
  unfold courseLaw
  rw [Measure.sum_apply _ MeasurableSet.univ]
  simp only [Measure.smul_apply, measure_univ, smul_eq_mul, mul_one]
  exact path_sum hP n hp

/-- A finite cover by rectangles. -/
noncomputable def rects_span {F : Fun ℝ Arith.exact} {R C : Nat} {P : PObj ℝ} (hP : Enclosed Arith.exact F R C P) (n : Nat) {p : Int × Int}
    (hp : Inside R C p) : (courseLaw F P n p).FiniteSpanningSetsIn (rects n) where
  set k := rect ((exists_surjective_nat (Fin n → Int × Int)).choose k) fun _ => Set.univ
  set_mem k := ⟨_, _, fun _ => MeasurableSet.univ, rfl⟩
  finite k := by
    have := courseLaw_prob hP n hp
    exact measure_lt_top _ _
  spanning := by
    refine Set.eq_univ_of_forall fun c => Set.mem_iUnion.2 ?_
    obtain ⟨k, hk⟩ := (exists_surjective_nat (Fin n → Int × Int)).choose_spec fun j => (c j).1
    refine ⟨k, mem_rect.2 fun j => ⟨?_, trivial⟩⟩
    rw [hk]

/-- The joint path in which particle `i` starts at `p i` and reaches the cells `q i`. -/
def jointPath {n N : Nat} (p : Fin N → Int × Int) (q : Fin N → Fin n → Int × Int) (j i : Nat) : Int × Int :=
  if h : j < n + 1 ∧ i < N then Fin.cons (α := fun _ => Int × Int) (p ⟨i, h.2⟩) (q ⟨i, h.2⟩) ⟨j, h.1⟩ else (0, 0)

theorem jointPath_zero {n N : Nat} (p : Fin N → Int × Int) (q : Fin N → Fin n → Int × Int) (i : Fin N) : jointPath p q 0 i = p i := by
  unfold jointPath
  rw [dif_pos ⟨by omega, i.2⟩]
  rfl

theorem jointPath_succ {n N : Nat} (p : Fin N → Int × Int) (q : Fin N → Fin n → Int × Int) (i : Fin N) (j : Fin n) :
    jointPath p q (j + 1) i = q i j := by
  unfold jointPath
  rw [dif_pos ⟨by omega, i.2⟩]
  rfl

theorem jointPath_prev {n N : Nat} (p : Fin N → Int × Int) (q : Fin N → Fin n → Int × Int) (i : Fin N) (j : Fin n) :
    jointPath p q j i = prevCell (p i) (q i) j := by
  unfold jointPath
  rw [dif_pos ⟨by omega, i.2⟩]
  rfl

/-- Hoeffding's inequality for the average of independent samples of a quantity between 0 and 1. -/
theorem hoeffding_mean {Ω β : Type} [MeasurableSpace Ω] [MeasurableSpace β] {μ : Measure Ω} [IsProbabilityMeasure μ] {N : Nat} (hN : 0 < N)
    {X : Fin N → Ω → β} (hm : ∀ i, AEMeasurable (X i) μ) (hind : ProbabilityTheory.iIndepFun X μ) {ν : Fin N → Measure β}
    (hmarg : ∀ i, μ.map (X i) = ν i) {f : β → ℝ} (hf : Measurable f) (hf0 : ∀ c, 0 ≤ f c) (hf1 : ∀ c, f c ≤ 1) {ε : ℝ} (hε : 0 < ε) :
    μ.real {ω | ε ≤ |(∑ i, f (X i ω)) / N - (∑ i, ∫ c, f c ∂ν i) / N|} ≤ 2 * Real.exp (-2 * N * ε ^ 2) := by
  have hint : ∀ i, ∫ ω, f (X i ω) ∂μ = ∫ c, f c ∂ν i := by
    intro i
    rw [← hmarg i, integral_map (hm i) hf.aestronglyMeasurable]
  have hsub : ∀ i, ProbabilityTheory.HasSubgaussianMGF (fun ω => f (X i ω) - ∫ c, f c ∂ν i) ((‖(1 : ℝ) - 0‖₊ / 2) ^ 2) μ := by
    intro i
    rw [← hint i]
    exact ProbabilityTheory.hasSubgaussianMGF_of_mem_Icc (X := fun ω => f (X i ω)) (hf.comp_aemeasurable (hm i))
      (Filter.Eventually.of_forall fun ω => ⟨hf0 _, hf1 _⟩)
  have hi1 : ProbabilityTheory.iIndepFun (fun i ω => f (X i ω) - ∫ c, f c ∂ν i) μ :=
    hind.comp (fun i c => f c - ∫ c, f c ∂ν i) fun i => hf.sub_const _
  have hi2 : ProbabilityTheory.iIndepFun (fun i ω => -(f (X i ω) - ∫ c, f c ∂ν i)) μ :=
    hind.comp (fun i c => -(f c - ∫ c, f c ∂ν i)) fun i => (hf.sub_const _).neg
  have hN' : (0 : ℝ) < N := by exact_mod_cast hN
  have hε' : 0 ≤ (N : ℝ) * ε := by positivity
  have b1 := ProbabilityTheory.HasSubgaussianMGF.measure_sum_ge_le_of_iIndepFun hi1 (s := univ) (fun i _ => hsub i) hε'
  have b2 := ProbabilityTheory.HasSubgaussianMGF.measure_sum_ge_le_of_iIndepFun hi2 (s := univ) (fun i _ => (hsub i).neg) hε'
  have hexp : -((N : ℝ) * ε) ^ 2 / (2 * ((∑ i : Fin N, (‖(1 : ℝ) - 0‖₊ / 2) ^ 2 : NNReal) : ℝ)) = -2 * N * ε ^ 2 := by
    rw [sum_const, card_univ, Fintype.card_fin]
    push_cast
    simp
    field_simp
  rw [hexp] at b1 b2
  have hset : {ω | ε ≤ |(∑ i, f (X i ω)) / N - (∑ i, ∫ c, f c ∂ν i) / N|} ⊆
      {ω | (N : ℝ) * ε ≤ ∑ i, (f (X i ω) - ∫ c, f c ∂ν i)} ∪ {ω | (N : ℝ) * ε ≤ ∑ i, -(f (X i ω) - ∫ c, f c ∂ν i)} := by
    intro ω hω
    simp only [Set.mem_ofPred_eq, Set.mem_union] at hω ⊢
    rw [sum_neg_distrib, sum_sub_distrib]
    rw [← sub_div, abs_div, abs_of_pos hN', le_div_iff₀ hN', le_abs, mul_comm] at hω
    exact hω
  calc _ ≤ μ.real _ := measureReal_mono hset
    _ ≤ _ := measureReal_union_le _ _
    _ ≤ _ := by linarith

section
variable {F : Fun ℝ Arith.exact} {R C : Nat} {P : PObj ℝ} {s : PState ℝ}

/-- `C103_law` with the free durations filled in. -/
theorem joint_law (h : Reach Arith.exact F (Enclosed Arith.exact F R C) Draws (InsideSeeds R C) P s)
    (ha : ∀ k, k < 9 → k ≠ 4 → ∃ a, P.angles k = .fin a) {wd : WalkData ℝ} (hwd : s.walk = some wd) {N : Nat} (hN : wd.xinds.length = N)
    (ht0 : ∀ i, i < N → ∃ t, wd.lastTime i = some (.fin t)) (n : Nat) (path : Nat → Nat → Int × Int)
    (h0 : ∀ i, i < N → wd.lastPos i = some (path 0 i)) (B : Nat → Nat → Set ℝ) (hB : ∀ j i, MeasurableSet (B j i)) :
    uniformDraws {ω | Follows Arith.exact F P ω s n path ∧ ∀ j, j < n → ∀ i, i < N → TakesIn Arith.exact F P ω s j i (B j i)} =
      ∏ j ∈ range n, ∏ i ∈ range N, moveProb (flowOf F P) P (path j i) (path (j + 1) i) *
        delayProb P.diffCoeff (freeDur F P (path j i) (path (j + 1) i)) (B j i) := by
  subst hN
  by_cases hz : uniformDraws {ω | Follows Arith.exact F P ω s n path} = 0
  · rw [measure_mono_null (fun ω hω => hω.1) hz]
    have := C75_law h hwd rfl n path h0
    rw [hz] at this
    simp only [prod_mul_distrib]
    rw [← this, zero_mul]
  · obtain ⟨ω0, hω0, hF0⟩ : ∃ ω, Draws ω ∧ Follows Arith.exact F P ω s n path := by
      by_contra hc
      push Not at hc
      refine hz (measure_eq_zero_iff_ae_notMem.2 ?_)
      filter_upwards [uniformDraws_nonzero] with ω h2
      exact hc ω h2.1
    exact C103_law h ha hwd rfl ht0 n path h0 _ (fun j hj i hi => follows_free h ha hwd hω0 h0 hF0 hj hi) B hB

/-- Every particle has a course. -/
theorem course_exists (h : Reach Arith.exact F (Enclosed Arith.exact F R C) Draws (InsideSeeds R C) P s)
    (ha : ∀ k, k < 9 → k ≠ 4 → ∃ a, P.angles k = .fin a) {wd : WalkData ℝ} (hwd : s.walk = some wd)
    (ht0 : ∀ i, i < wd.xinds.length → ∃ t, wd.lastTime i = some (.fin t)) {ω : Nat → ℝ} (hω : Draws ω) (n : Nat) {i : Nat} (hi : i < wd.xinds.length) :
    ∃ c, HasCourse F P ω s n i c := by
  choose! t0 ht0 using ht0
  have hT := fun j => time_exists h ha hwd ht0 hω j hi
  choose t ht using hT
  have hst := fun j => follows_some h hwd hω j
  choose st w wds hruns hw hlen hre using hst
  have hpos := fun j => last_inside (hre j) (hw j) (i := i) (by rw [hlen]; exact hi)
  choose pos hpos hin using hpos
  refine ⟨fun j => (pos (j + 1), t (j + 1) - t j), fun j => ⟨⟨_, _, _, hruns _, hw _, hpos _⟩, t j, ht j, ?_⟩⟩
  simp only [add_sub_cancel]
  exact ht _

/-- Which rectangles the courses of the particles belong to. -/
theorem course_rect {wd : WalkData ℝ} (hwd : s.walk = some wd) {ω : Nat → ℝ} {n : Nat} {X : Fin wd.xinds.length → Course n}
    (h : Reach Arith.exact F (Enclosed Arith.exact F R C) Draws (InsideSeeds R C) P s) (hω : Draws ω)
    (hX : ∀ i : Fin wd.xinds.length, HasCourse F P ω s n i (X i))
    {p : Fin wd.xinds.length → Int × Int} (hp : ∀ i : Fin wd.xinds.length, wd.lastPos i = some (p i)) (q : Fin wd.xinds.length → Fin n → Int × Int)
    {B : Nat → Nat → Set ℝ} : (∀ i, X i ∈ rect (q i) fun j => B j i) ↔
      Follows Arith.exact F P ω s n (jointPath p q) ∧ ∀ j, j < n → ∀ i, i < wd.xinds.length → TakesIn Arith.exact F P ω s j i (B j i) := by
  constructor
  · intro hr
    simp only [mem_rect] at hr
    refine ⟨fun j hj => ?_, fun j hj i hi => ?_⟩
    · cases j with
      | zero => exact ⟨s, none, wd, .zero, hwd, fun i hi => by rw [hp ⟨i, hi⟩, jointPath_zero p q ⟨i, hi⟩]⟩
      | succ j =>
        obtain ⟨s', w, wd', hr', hw', hl, -⟩ := follows_some h hwd hω (j + 1)
        refine ⟨s', w, wd', hr', hw', fun i hi => ?_⟩
        rw [hl] at hi
        obtain ⟨⟨s2, w2, wd2, r2, e2, l2⟩, -⟩ := hX ⟨i, hi⟩ ⟨j, by omega⟩
        obtain ⟨rfl, -⟩ := r2.unique hr'
        rw [hw'] at e2
        cases e2
        rw [l2, (hr ⟨i, hi⟩ ⟨j, by omega⟩).1]
        exact congrArg some (jointPath_succ p q ⟨i, hi⟩ ⟨j, by omega⟩).symm
    · obtain ⟨-, t, h1, h2⟩ := hX ⟨i, hi⟩ ⟨j, hj⟩
      refine ⟨_, _, h1, h2, ?_⟩
      rw [add_sub_cancel_left]
      exact (hr ⟨i, hi⟩ ⟨j, hj⟩).2
  · rintro ⟨hF, hT⟩ i
    rw [mem_rect]
    intro j
    obtain ⟨⟨s2, w2, wd2, r2, e2, l2⟩, t, h1, h2⟩ := hX i j
    constructor
    · obtain ⟨s', w, wd', hr', hw', hl, -⟩ := follows_some h hwd hω (j + 1)
      obtain ⟨s3, w3, wd3, r3, e3, l3⟩ := hF (j + 1) (by omega)
      obtain ⟨rfl, -⟩ := r2.unique hr'
      obtain ⟨rfl, -⟩ := r3.unique hr'
      rw [hw'] at e2 e3
      cases e2
      cases e3
      have := l3 i (by rw [hl]; exact i.2)
      rw [l2, jointPath_succ p q i j] at this
      exact Option.some.inj this
    · obtain ⟨t1, t2, g1, g2, g3⟩ := hT j j.2 i i.2
      rw [g1.unique h1, g2.unique h2, add_sub_cancel_left] at g3
      exact g3

theorem course_measurable (h : Reach Arith.exact F (Enclosed Arith.exact F R C) Draws (InsideSeeds R C) P s)
    (ha : ∀ k, k < 9 → k ≠ 4 → ∃ a, P.angles k = .fin a) {wd : WalkData ℝ} (hwd : s.walk = some wd)
    (ht0 : ∀ i, i < wd.xinds.length → ∃ t, wd.lastTime i = some (.fin t)) {n : Nat} {X : Fin wd.xinds.length → (Nat → ℝ) → Course n}
    (hX : ∀ ω, Draws ω → ∀ i : Fin wd.xinds.length, HasCourse F P ω s n i (X i ω))
    {p : Fin wd.xinds.length → Int × Int} (hp : ∀ i : Fin wd.xinds.length, wd.lastPos i = some (p i)) (i : Fin wd.xinds.length) :
    AEMeasurable (X i) uniformDraws := by
  choose! t0 ht0 using ht0
  have hp' : ∀ (q : Fin wd.xinds.length → Fin n → Int × Int) (i : Nat), i < wd.xinds.length → wd.lastPos i = some (jointPath p q 0 i) := fun q i hi => by
    rw [hp ⟨i, hi⟩, jointPath_zero p q ⟨i, hi⟩]
  have hU : (⋃ q : Fin wd.xinds.length → Fin n → Int × Int, {ω | Follows Arith.exact F P ω s n (jointPath p q)}) =ᵐ[uniformDraws] Set.univ := by
    rw [Filter.eventuallyEq_set]
    filter_upwards [uniformDraws_nonzero] with ω hω
    simp only [Set.mem_iUnion, Set.mem_ofPred_eq, Set.mem_univ, iff_true]
    refine ⟨fun i j => (X i ω j).1, ((course_rect (B := fun _ _ => Set.univ) hwd h hω.1 (hX ω hω.1) hp _).1 fun i => ?_).1⟩
    exact mem_rect.2 fun j => ⟨rfl, trivial⟩
  rw [← Measure.restrict_univ (μ := uniformDraws), ← Measure.restrict_congr_set hU, aemeasurable_iUnion_iff]
  intro q
  refine ⟨fun ω j => (q i j, freeDur F P (jointPath p q j i) (jointPath p q (j + 1) i) *
    (1 + (1 / 2 - ω (delayDraw P s.world.pos wd.xinds.length (jointPath p q) j i)) * P.diffCoeff)), by fun_prop, ?_⟩
  rw [Filter.EventuallyEq, ae_restrict_iff'₀ (follows_null h hwd rfl n (hp' q))]
  filter_upwards [uniformDraws_nonzero] with ω hω hF
  obtain ⟨hstart, -⟩ := start_onPath h hwd rfl (hp' q)
  have hT := fun l (hl : l ≤ n) => path_times (R := R) (C := C) ha hω.1 (hstart ω) (t0 := t0)
      (fun i hi => ⟨s, none, wd, .zero, hwd, ht0 i hi⟩) (fun j hj i hi => follows_free h ha hwd hω.1 (hp' q) hF hj hi) hF hl i.2
  have hm := (course_rect (B := fun j i => {y | ∃ t, TimeAfter Arith.exact F P ω s j i t ∧ TimeAfter Arith.exact F P ω s (j + 1) i (t + y)})
    hwd h hω.1 (hX ω hω.1) hp q).2 ⟨hF, fun j hj i hi => by
      obtain ⟨-, t, h1, h2⟩ := hX ω hω.1 ⟨i, hi⟩ ⟨j, hj⟩
      exact ⟨_, _, h1, h2, t, h1, by simpa using h2⟩⟩ i
  rw [mem_rect] at hm
  funext j
  refine Prod.ext (hm j).1 ?_
  obtain ⟨t, h1, h2⟩ := (hm j).2
  have g1 := hT j (by omega)
  have g2 := hT (j + 1) (by omega)
  rw [sum_range_succ, ← add_assoc, ← h1.unique g1] at g2
  exact add_left_cancel (h2.unique g2)

/-- Exact arithmetic, independent uniform draws, any state with interior seeds and finite times, any number of particles: the courses of the particles
in the next `n` calls of `run_iteration()` are jointly distributed like independent courses, each with the law given by its starting cell. -/
theorem C104_law (h : Reach Arith.exact F (Enclosed Arith.exact F R C) Draws (InsideSeeds R C) P s)
    (ha : ∀ k, k < 9 → k ≠ 4 → ∃ a, P.angles k = .fin a) {wd : WalkData ℝ} (hwd : s.walk = some wd)
    (ht0 : ∀ i, i < wd.xinds.length → ∃ t, wd.lastTime i = some (.fin t)) {n : Nat} {X : Fin wd.xinds.length → (Nat → ℝ) → Course n}
    (hX : ∀ ω, Draws ω → ∀ i : Fin wd.xinds.length, HasCourse F P ω s n i (X i ω))
    {p : Fin wd.xinds.length → Int × Int} (hp : ∀ i : Fin wd.xinds.length, wd.lastPos i = some (p i)) :
    uniformDraws.map (fun ω i => X i ω) = Measure.pi fun i => courseLaw F P n (p i) := by
  have hm := course_measurable h ha hwd ht0 hX hp
  have hin : ∀ i, Inside R C (p i) := by
    intro i
    obtain ⟨x, hx, hin⟩ := last_inside h hwd i.2
    rw [hp i] at hx
    cases hx
    exact hin
  refine (Measure.pi_eq_generateFrom (fun _ => rects_generate n) (fun _ => rects_pi n) (fun i => rects_span h.obj n (hin i)) ?_).symm
  intro S hS
  choose q B hB hSe using hS
  have hSm : MeasurableSet (Set.pi Set.univ S) := MeasurableSet.univ_pi fun i => by rw [hSe i]; exact rect_measurable _ (hB i)
  rw [Measure.map_apply_of_aemeasurable (aemeasurable_pi_lambda _ hm) hSm]
  set B' : Nat → Nat → Set ℝ := fun j i => if h : j < n ∧ i < wd.xinds.length then B ⟨i, h.2⟩ ⟨j, h.1⟩ else Set.univ with hB'
  have eB : ∀ (i : Fin wd.xinds.length) (j : Fin n), B' j i = B i j := fun i j => by simp only [hB']; rw [dif_pos ⟨j.2, i.2⟩]
  have hev : (fun ω i => X i ω) ⁻¹' Set.pi Set.univ S =ᵐ[uniformDraws] {ω | Follows Arith.exact F P ω s n (jointPath p q) ∧
      ∀ j, j < n → ∀ i, i < wd.xinds.length → TakesIn Arith.exact F P ω s j i (B' j i)} := by
    rw [Filter.eventuallyEq_set]
    filter_upwards [uniformDraws_nonzero] with ω hω
    simp only [Set.mem_preimage, Set.mem_pi, Set.mem_univ, true_implies]
    rw [← course_rect hwd h hω.1 (hX ω hω.1) hp]
    simp only [hSe, eB]
  rw [measure_congr hev, joint_law h ha hwd rfl ht0 n (jointPath p q) (fun i hi => by rw [hp ⟨i, hi⟩, jointPath_zero p q ⟨i, hi⟩]) B'
    (fun j i => by
      simp only [hB']
      split_ifs
      · exact hB _ _
      · exact MeasurableSet.univ)]
  rw [prod_comm, ← Fin.prod_univ_eq_prod_range (fun i => ∏ j ∈ range n, moveProb (flowOf F P) P (jointPath p q j i) (jointPath p q (j + 1) i) *
        delayProb P.diffCoeff (freeDur F P (jointPath p q j i) (jointPath p q (j + 1) i)) (B' j i))]
  refine prod_congr rfl fun i _ => ?_
  rw [hSe i, courseLaw_rect F P _ _ (hB i), ← Fin.prod_univ_eq_prod_range (fun j => moveProb (flowOf F P) P (jointPath p q j i) (jointPath p q (j + 1) i) *
        delayProb P.diffCoeff (freeDur F P (jointPath p q j i) (jointPath p q (j + 1) i)) (B' j i))]
  refine prod_congr rfl fun j _ => ?_
  rw [jointPath_prev, jointPath_succ, eB]

/-- The particles are independent of each other, and the course of each has the law given by its starting cell: it does not matter how many other particles
there are, where they are, which place the particle has in the list and what happened before. -/
theorem C104_independent (h : Reach Arith.exact F (Enclosed Arith.exact F R C) Draws (InsideSeeds R C) P s)
    (ha : ∀ k, k < 9 → k ≠ 4 → ∃ a, P.angles k = .fin a) {wd : WalkData ℝ} (hwd : s.walk = some wd)
    (ht0 : ∀ i, i < wd.xinds.length → ∃ t, wd.lastTime i = some (.fin t)) {n : Nat} {X : Fin wd.xinds.length → (Nat → ℝ) → Course n}
    (hX : ∀ ω, Draws ω → ∀ i : Fin wd.xinds.length, HasCourse F P ω s n i (X i ω))
    {p : Fin wd.xinds.length → Int × Int} (hp : ∀ i : Fin wd.xinds.length, wd.lastPos i = some (p i)) :
    ProbabilityTheory.iIndepFun X uniformDraws ∧ ∀ i, uniformDraws.map (X i) = courseLaw F P n (p i) := by
  have hm := course_measurable h ha hwd ht0 hX hp
  have hlaw := C104_law h ha hwd ht0 hX hp
  have hpr : ∀ i, IsProbabilityMeasure (courseLaw F P n (p i)) := by
    intro i
    obtain ⟨x, hx, hin⟩ := last_inside h hwd i.2
    rw [hp i] at hx
    cases hx
    exact courseLaw_prob h.obj n hin
  have hmarg : ∀ i, uniformDraws.map (X i) = courseLaw F P n (p i) := by
    intro i
    have e := (measurePreserving_eval (fun i => courseLaw F P n (p i)) i).map_eq
    rw [← hlaw, AEMeasurable.map_map_of_aemeasurable (measurable_pi_apply i).aemeasurable (aemeasurable_pi_lambda _ hm)] at e
    exact e
  refine ⟨(ProbabilityTheory.iIndepFun_iff_map_fun_eq_pi_map hm).2 ?_, hmarg⟩
  rw [hlaw]
  simp only [hmarg]

/-- Monte-Carlo error: the average over `N` particles of a quantity between 0 and 1 that depends on what a particle does in the next `n` iterations
differs by `ε` or more from its expectation with probability at most `2 exp(-2 N ε²)`. -/
theorem C104_monte_carlo (h : Reach Arith.exact F (Enclosed Arith.exact F R C) Draws (InsideSeeds R C) P s)
    (ha : ∀ k, k < 9 → k ≠ 4 → ∃ a, P.angles k = .fin a) {wd : WalkData ℝ} (hwd : s.walk = some wd)
    (ht0 : ∀ i, i < wd.xinds.length → ∃ t, wd.lastTime i = some (.fin t)) {n : Nat} {X : Fin wd.xinds.length → (Nat → ℝ) → Course n}
    (hX : ∀ ω, Draws ω → ∀ i : Fin wd.xinds.length, HasCourse F P ω s n i (X i ω))
    {p : Fin wd.xinds.length → Int × Int} (hp : ∀ i : Fin wd.xinds.length, wd.lastPos i = some (p i)) (hN : 0 < wd.xinds.length)
    {f : Course n → ℝ} (hf : Measurable f) (hf0 : ∀ c, 0 ≤ f c) (hf1 : ∀ c, f c ≤ 1) {ε : ℝ} (hε : 0 < ε) :
    uniformDraws.real {ω | ε ≤ |(∑ i, f (X i ω)) / wd.xinds.length - (∑ i, ∫ c, f c ∂courseLaw F P n (p i)) / wd.xinds.length|} ≤
      2 * Real.exp (-2 * wd.xinds.length * ε ^ 2) := by
  have hm := course_measurable h ha hwd ht0 hX hp
  obtain ⟨hind, hmarg⟩ := C104_independent h ha hwd ht0 hX hp
  exact hoeffding_mean hN hm hind hmarg hf hf0 hf1 hε

end

/-- The law of the first step at the centre of the uniform real channel. -/
theorem realObj_first : courseLaw Fun.real realObj 1 (2, 2) {c | (c 0).1 = (3, 2)} = ENNReal.ofReal (1 / 2) := by
  have e : {c : Course 1 | (c 0).1 = (3, 2)} = rect (fun _ => (3, 2)) fun _ => Set.univ := by
    ext c
    rw [mem_rect]
    simp
  rw [e, courseLaw_rect _ _ _ _ fun _ => MeasurableSet.univ, Fin.prod_univ_one, ← durLaw_apply MeasurableSet.univ, measure_univ, mul_one]
  exact realObj_half

/-- C104: eight particles at the centre of the channel. The share of them that goes straight ahead in the next iteration
differs by one half or more from one half (so is 0 or 1) with probability at most `2 exp(-4)`. -/
example : ∃ (s : PState ℝ) (wd : WalkData ℝ) (X : Fin wd.xinds.length → (Nat → ℝ) → Course 1),
    Reach Arith.exact Fun.real (Enclosed Arith.exact Fun.real 5 5) Draws (InsideSeeds 5 5) realObj s ∧ s.walk = some wd ∧ wd.xinds.length = 8 ∧
    (∀ ω, Draws ω → ∀ i : Fin wd.xinds.length, HasCourse Fun.real realObj ω s 1 i (X i ω)) ∧
    ProbabilityTheory.iIndepFun X uniformDraws ∧ (∀ i, uniformDraws.map (X i) = courseLaw Fun.real realObj 1 (2, 2)) ∧
    uniformDraws.real {ω | 1 / 2 ≤ |(∑ i, Set.indicator {c : Course 1 | (c 0).1 = (3, 2)} (fun _ => (1 : ℝ)) (X i ω)) / 8 - 1 / 2|} ≤
      2 * Real.exp (-4) := by
  obtain ⟨s0, h0, wd, hwd, hlen, hl0, ht0⟩ : ∃ s0, generateParticles Arith.exact realObj (fun _ => 1 / 2) (initState Arith.exact Fun.real realObj 0) (.int 8)
    (.list [.int 2, .int 2, .int 2, .int 2, .int 2, .int 2, .int 2, .int 2]) (.list [.int 2, .int 2, .int 2, .int 2, .int 2, .int 2, .int 2, .int 2])
    (.int 0) (.str "exact") none = .ok s0 ∧ ∃ wd, s0.walk = some wd ∧ wd.xinds.length = 8 ∧ (∀ i, i < 8 → wd.lastPos i = some (2, 2)) ∧
      ∀ i, i < 8 → wd.lastTime i = some (.fin ((0 : Int) : ℝ)) :=
    ⟨_, rfl, _, rfl, rfl, fun i hi => by interval_cases i <;> rfl, fun i hi => by interval_cases i <;> rfl⟩
  have hc : genInputCheck (K := ℝ) (.int 8) (.list [.int 2, .int 2, .int 2, .int 2, .int 2, .int 2, .int 2, .int 2])
    (.list [.int 2, .int 2, .int 2, .int 2, .int 2, .int 2, .int 2, .int 2]) (.int 0) (.str "exact") =
    .ok (8, [2, 2, 2, 2, 2, 2, 2, 2], [2, 2, 2, 2, 2, 2, 2, 2], .fin ((0 : Int) : ℝ), .exact) := rfl
  have hreach : Reach Arith.exact Fun.real (Enclosed Arith.exact Fun.real 5 5) Draws (InsideSeeds 5 5) realObj s0 :=
    .generate (.new 0 realObj_enclosed) (fun _ => by norm_num) hc (by norm_num)
      (by intro x hx y hy; simp at hx hy; subst hx hy; unfold Inside; decide) h0
  have ht : ∀ i, i < wd.xinds.length → ∃ t, wd.lastTime i = some (.fin t) := fun i hi => ⟨_, ht0 i (by omega)⟩
  have ex := fun (ω : Nat → ℝ) (hω : Draws ω) (i : Fin wd.xinds.length) => course_exists hreach realObj_angles hwd ht hω 1 i.2
  have ex' : ∃ X : Fin wd.xinds.length → (Nat → ℝ) → Course 1, ∀ ω, Draws ω → ∀ i : Fin wd.xinds.length, HasCourse Fun.real realObj ω s0 1 i (X i ω) := by
    classical
    exact ⟨fun i ω => if hω : Draws ω then (ex ω hω i).choose else fun _ => ((0, 0), 0), fun ω hω i => by
      simp only [dif_pos hω]
      exact (ex ω hω i).choose_spec⟩
  obtain ⟨X, hX⟩ := ex'
  have hp : ∀ i : Fin wd.xinds.length, wd.lastPos i = some ((fun _ => (2, 2) : Fin wd.xinds.length → Int × Int) i) := fun i => hl0 i (by omega)
  obtain ⟨hi1, hi2⟩ := C104_independent hreach realObj_angles hwd ht hX hp
  refine ⟨s0, wd, X, hreach, hwd, hlen, hX, hi1, hi2, ?_⟩
  have hS : MeasurableSet {c : Course 1 | (c 0).1 = (3, 2)} :=
    (by fun_prop : Measurable fun c : Course 1 => (c 0).1) (MeasurableSet.singleton (3, 2))
  have hmc := C104_monte_carlo hreach realObj_angles hwd ht hX hp (by omega) (f := Set.indicator {c : Course 1 | (c 0).1 = (3, 2)} fun _ => (1 : ℝ))
    (measurable_const.indicator hS) (fun c => Set.indicator_nonneg (fun _ _ => zero_le_one) c)
    (fun c => Set.indicator_le' (fun _ _ => le_rfl) (fun _ _ => zero_le_one) c) (ε := 1 / 2) (by norm_num)
  have hI : ∫ c, Set.indicator {c : Course 1 | (c 0).1 = (3, 2)} (fun _ => (1 : ℝ)) c ∂courseLaw Fun.real realObj 1 (2, 2) = 1 / 2 := by
    rw [integral_indicator_const _ hS, Measure.real, realObj_first, ENNReal.toReal_ofReal (by norm_num)]
    simp
  simp only [hI] at hmc
  rw [sum_const, card_univ, Fintype.card_fin] at hmc
  have e8 : (wd.xinds.length : ℝ) = 8 := by rw [hlen]; norm_num
  rw [nsmul_eq_mul, e8] at hmc
  norm_num at hmc ⊢
  exact hmc

end Dorado
