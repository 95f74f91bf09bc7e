import Verif.Props.Course
import Mathlib.Probability.CDF

/-! Helper lemmas for C113: how far the distribution of a sample is from the distribution sampled. -/

set_option linter.unusedSectionVars false

namespace Dorado

open MeasureTheory ProbabilityTheory Filter

section
variable (ν : Measure ℝ) [IsProbabilityMeasure ν]

/-- The point where the distribution function passes `a`. -/
noncomputable def quantile (a : ℝ) : ℝ := sInf {t | a ≤ cdf ν t}

variable {ν} {a : ℝ}

theorem quantile_le (ha : 0 < a) {t : ℝ} (ht : a ≤ cdf ν t) : quantile ν a ≤ t := by
  refine csInf_le ?_ ht
  obtain ⟨b, hb⟩ := ((tendsto_order.1 (tendsto_cdf_atBot ν)).2 a ha).exists
  refine ⟨b, fun x hx => ?_⟩
  by_contra h
  exact absurd hb (not_lt.2 (hx.trans (monotone_cdf ν (le_of_lt (not_le.1 h)))))

theorem cdf_quantile (ha : 0 < a) (ha1 : a < 1) : a ≤ cdf ν (quantile ν a) := by
  have hne : {t | a ≤ cdf ν t}.Nonempty := by
    obtain ⟨b, hb⟩ := ((tendsto_order.1 (tendsto_cdf_atTop ν)).1 a ha1).exists
    exact ⟨b, hb.le⟩
  have hright := (cdf ν).right_continuous (quantile ν a)
  by_contra hlt
  have hlt := not_le.1 hlt
  have := (tendsto_order.1 (hright.tendsto)).2 a hlt
  rw [eventually_nhdsWithin_iff, Metric.eventually_nhds_iff] at this
  obtain ⟨δ, hδ, h⟩ := this
  obtain ⟨t, ht, htl⟩ := exists_lt_of_csInf_lt hne (show sInf {t | a ≤ cdf ν t} < quantile ν a + δ by unfold quantile; linarith)
  have hq := quantile_le ha ht
  have := h (show dist t (quantile ν a) < δ by rw [Real.dist_eq, abs_of_nonneg (by linarith)]; linarith) hq
  exact absurd ht (not_le.2 this)

theorem Iio_quantile (ha : 0 < a) : ν.real (Set.Iio (quantile ν a)) ≤ a := by
  have hU : Set.Iio (quantile ν a) = ⋃ n : ℕ, Set.Iic (quantile ν a - 1 / (n + 1)) := by
    ext x
    simp only [Set.mem_Iio, Set.mem_iUnion, Set.mem_Iic]
    constructor
    · intro hx
      obtain ⟨n, hn⟩ := exists_nat_one_div_lt (sub_pos.2 hx)
      exact ⟨n, by linarith⟩
    · rintro ⟨n, hn⟩
      have : (0 : ℝ) < 1 / (n + 1) := by positivity
      linarith
  have hmono : Monotone fun n : ℕ => Set.Iic (quantile ν a - 1 / ((n : ℝ) + 1)) := by
    intro n m hnm x hx
    simp only [Set.mem_Iic] at hx ⊢
    have : 1 / ((m : ℝ) + 1) ≤ 1 / (n + 1) := one_div_le_one_div_of_le (by positivity) (by exact_mod_cast Nat.succ_le_succ hnm)
    linarith
  have ht := tendsto_measure_iUnion_atTop (μ := ν) hmono
  rw [← hU] at ht
  have ht2 := (ENNReal.tendsto_toReal (measure_ne_top ν _)).comp ht
  refine le_of_tendsto ht2 (Eventually.of_forall fun n => ?_)
  show ν.real _ ≤ a
  rw [← cdf_eq_real]
  by_contra h
  have h1 := quantile_le (ν := ν) ha (not_le.1 h).le
  have : (0 : ℝ) < 1 / ((n : ℝ) + 1) := by positivity
  linarith

end

variable {Ω : Type} [MeasurableSpace Ω] {μ : Measure Ω} [IsProbabilityMeasure μ]

/-- The fraction of the numbers `x i` that lie in `B`. -/
noncomputable def fractionIn {N : Nat} (B : Set ℝ) (x : Fin N → ℝ) : ℝ := (∑ i, B.indicator (fun _ => (1 : ℝ)) (x i)) / N

theorem fractionIn_mono {N : Nat} {B B' : Set ℝ} (h : B ⊆ B') (x : Fin N → ℝ) : fractionIn B x ≤ fractionIn B' x := by
  unfold fractionIn
  gcongr

theorem fractionIn_nonneg {N : Nat} {B : Set ℝ} (x : Fin N → ℝ) : 0 ≤ fractionIn B x := by
  unfold fractionIn
  exact div_nonneg (Finset.sum_nonneg fun i _ => Set.indicator_nonneg (fun _ _ => zero_le_one) _) (by positivity)

theorem fractionIn_le_one {N : Nat} (hN : 0 < N) {B : Set ℝ} (x : Fin N → ℝ) : fractionIn B x ≤ 1 := by
  unfold fractionIn
  rw [div_le_one (by positivity)]
  refine (Finset.sum_le_sum fun i _ => Set.indicator_le' (fun _ _ => le_rfl) (fun _ _ => zero_le_one) (x i)).trans (by simp)

theorem fraction_hoeffding {N : Nat} (hN : 0 < N) {X : Fin N → Ω → ℝ} (hm : ∀ i, AEMeasurable (X i) μ) (hind : iIndepFun X μ) {ν : Measure ℝ}
    (hmarg : ∀ i, μ.map (X i) = ν) {B : Set ℝ} (hB : MeasurableSet B) {ε : ℝ} (hε : 0 < ε) :
    μ.real {ω | ε ≤ |fractionIn B (fun i => X i ω) - ν.real B|} ≤ 2 * Real.exp (-2 * N * ε ^ 2) := by
  have := hoeffding_mean hN hm hind (ν := fun _ => ν) hmarg (f := B.indicator fun _ => (1 : ℝ)) (measurable_const.indicator hB)
    (fun c => Set.indicator_nonneg (fun _ _ => zero_le_one) c) (fun c => Set.indicator_le' (fun _ _ => le_rfl) (fun _ _ => zero_le_one) c) hε
  have e : (∑ _i : Fin N, ∫ c, B.indicator (fun _ => (1 : ℝ)) c ∂ν) / N = ν.real B := by
    rw [Finset.sum_const, Finset.card_univ, Fintype.card_fin, nsmul_eq_mul, mul_div_cancel_left₀ _ (by positivity), integral_indicator_const _ hB]
    simp
  rw [e] at this
  exact this

/-- The whole distribution function of a sample is uniformly close to the one sampled. -/
theorem uniform_cdf {N : Nat} (hN : 0 < N) {X : Fin N → Ω → ℝ} (hm : ∀ i, AEMeasurable (X i) μ) (hind : iIndepFun X μ) {ν : Measure ℝ}
    [IsProbabilityMeasure ν] (hmarg : ∀ i, μ.map (X i) = ν) {ε : ℝ} (hε : 0 < ε) {m : Nat} (hm0 : 0 < m) :
    μ.real {ω | ∃ t, ε + 1 / m < |fractionIn (Set.Iic t) (fun i => X i ω) - ν.real (Set.Iic t)|} ≤ 4 * m * Real.exp (-2 * N * ε ^ 2) := by
  have hmR : (0 : ℝ) < m := by exact_mod_cast hm0
  let q : Nat → ℝ := fun j => quantile ν (j / m)
  let bad : Set ℝ → Set Ω := fun B => {ω | ε ≤ |fractionIn B (fun i => X i ω) - ν.real B|}
  have hsub : {ω | ∃ t, ε + 1 / m < |fractionIn (Set.Iic t) (fun i => X i ω) - ν.real (Set.Iic t)|} ⊆
      ⋃ j ∈ Finset.Ico 1 m, (bad (Set.Iic (q j)) ∪ bad (Set.Iio (q j))) := by
    rintro ω ⟨t, ht⟩
    by_contra hno
    simp only [Set.mem_iUnion, Set.mem_union, not_exists, not_or, Finset.mem_Ico, bad, Set.mem_ofPred_eq, not_le] at hno
    have hF : ν.real (Set.Iic t) = cdf ν t := (cdf_eq_real ν t).symm
    rw [hF] at ht
    have hF0 := cdf_nonneg ν t
    have hF1 := cdf_le_one ν t
    have hG0 := fractionIn_nonneg (B := Set.Iic t) fun i => X i ω
    have hG1 := fractionIn_le_one hN (B := Set.Iic t) fun i => X i ω
    have hfl := Nat.floor_le (show (0 : ℝ) ≤ m * cdf ν t by positivity)
    have hfu := Nat.lt_floor_add_one (m * cdf ν t)
    have h1m : (0 : ℝ) < 1 / m := by positivity
    have hmul : (m : ℝ) * (1 / m) = 1 := by field_simp
    refine absurd ht (not_lt.2 (abs_le.2 ⟨?_, ?_⟩))
    · -- not too small
      by_cases hj : 1 ≤ min ⌊(m : ℝ) * cdf ν t⌋₊ (m - 1)
      · generalize hjd : min ⌊(m : ℝ) * cdf ν t⌋₊ (m - 1) = j at hj
        have hjm : j < m := by omega
        have hjR : (0 : ℝ) < (j : ℝ) / m := by positivity
        have hj1 : (j : ℝ) / m < 1 := by rw [div_lt_one hmR]; exact_mod_cast hjm
        have hjf : (j : ℝ) ≤ m * cdf ν t := le_trans (by exact_mod_cast (show j ≤ ⌊(m : ℝ) * cdf ν t⌋₊ by omega)) hfl
        have hqt : q j ≤ t := quantile_le hjR (by rw [div_le_iff₀ hmR]; linarith)
        have hup : (m : ℝ) * cdf ν t ≤ j + 1 := by
          rcases Nat.lt_or_ge ⌊(m : ℝ) * cdf ν t⌋₊ (m - 1) with h | h
          · have : j = ⌊(m : ℝ) * cdf ν t⌋₊ := by omega
            rw [this]; exact hfu.le
          · have : j + 1 = m := by omega
            have : ((j : ℝ) + 1) = m := by exact_mod_cast this
            rw [this]; nlinarith
        have hb := (abs_lt.1 (hno j ⟨hj, hjm⟩).1).1
        rw [← cdf_eq_real] at hb
        have hq := cdf_quantile (ν := ν) hjR hj1
        have hmon := fractionIn_mono (Set.Iic_subset_Iic.2 hqt) fun i => X i ω
        have e1 : cdf ν t ≤ (j : ℝ) / m + 1 / m := by rw [← add_div, le_div_iff₀ hmR]; linarith
        change (j : ℝ) / m ≤ cdf ν (q j) at hq
        linarith
      · have hlt : (m : ℝ) * cdf ν t ≤ 1 := by
          rcases Nat.lt_or_ge ⌊(m : ℝ) * cdf ν t⌋₊ 1 with h | h
          · have h0 : ⌊(m : ℝ) * cdf ν t⌋₊ = 0 := by omega
            rw [h0] at hfu
            simp only [Nat.cast_zero, zero_add] at hfu
            exact hfu.le
          · have : m = 1 := by omega
            rw [this]; simpa using hF1
        have e1 : cdf ν t ≤ 1 / m := by rw [le_div_iff₀ hmR]; linarith
        linarith
    · -- not too large
      by_cases hj : ⌊(m : ℝ) * cdf ν t⌋₊ + 1 < m
      · generalize hjd : ⌊(m : ℝ) * cdf ν t⌋₊ + 1 = j at hj
        have hjR : (0 : ℝ) < (j : ℝ) / m := by
          have : 0 < j := by omega
          positivity
        have hj1 : (j : ℝ) / m < 1 := by rw [div_lt_one hmR]; exact_mod_cast hj
        have hjc : (j : ℝ) = ⌊(m : ℝ) * cdf ν t⌋₊ + 1 := by rw [← hjd]; push_cast; rfl
        have htq : t < q j := by
          by_contra h
          have h1 := monotone_cdf ν (not_lt.1 h)
          have h2 := cdf_quantile (ν := ν) hjR hj1
          change (j : ℝ) / m ≤ cdf ν (q j) at h2
          have h3 : (j : ℝ) ≤ m * cdf ν t := by
            have := h2.trans h1
            rw [div_le_iff₀ hmR] at this
            linarith
          linarith
        have hb := (abs_lt.1 (hno j ⟨by omega, hj⟩).2).2
        have hq := Iio_quantile (ν := ν) hjR
        change ν.real (Set.Iio (q j)) ≤ (j : ℝ) / m at hq
        have hmon := fractionIn_mono (show Set.Iic t ⊆ Set.Iio (q j) from fun x hx => lt_of_le_of_lt hx htq) fun i => X i ω
        have e1 : (j : ℝ) / m ≤ cdf ν t + 1 / m := by
          rw [div_le_iff₀ hmR, add_mul]
          have : 1 / (m : ℝ) * m = 1 := by field_simp
          linarith
        linarith
      · have h1 : (m : ℝ) ≤ m * cdf ν t + 1 := by
          have : (m : ℝ) ≤ (⌊(m : ℝ) * cdf ν t⌋₊ : ℝ) + 1 := by exact_mod_cast not_lt.1 hj
          linarith
        have e1 : 1 ≤ cdf ν t + 1 / m := by
          have : m * (cdf ν t + 1 / m) = m * cdf ν t + 1 := by rw [mul_add, hmul]
          nlinarith
        linarith
  refine (measureReal_mono hsub (measure_ne_top _ _)).trans ?_
  refine (measureReal_biUnion_finset_le _ _).trans ?_
  have hb : ∀ j ∈ Finset.Ico 1 m, μ.real (bad (Set.Iic (q j)) ∪ bad (Set.Iio (q j))) ≤ 4 * Real.exp (-2 * N * ε ^ 2) := fun j _ => by
    refine (measureReal_union_le _ _).trans ?_
    have h1 := fraction_hoeffding hN hm hind hmarg (measurableSet_Iic (a := q j)) hε
    have h2 := fraction_hoeffding hN hm hind hmarg (measurableSet_Iio (a := q j)) hε
    linarith
  refine (Finset.sum_le_sum hb).trans ?_
  rw [Finset.sum_const, Nat.card_Ico, nsmul_eq_mul]
  have : ((m - 1 : Nat) : ℝ) ≤ m := by exact_mod_cast Nat.sub_le m 1
  have h0 : (0 : ℝ) ≤ 4 * Real.exp (-2 * N * ε ^ 2) := by positivity
  nlinarith [mul_le_mul_of_nonneg_right this h0]

end Dorado
