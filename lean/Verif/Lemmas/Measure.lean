import Verif.Lemmas.Records
import Mathlib.MeasureTheory.Measure.Lebesgue.Basic

/-! Helper lemmas: Lebesgue measure of the draws that select an index (exact arithmetic over the reals). -/

set_option linter.unusedSectionVars false

namespace Dorado

open MeasureTheory Finset

theorem csum_exact (x : Nat → ℝ) (k : Nat) : csum Arith.exact x k = ∑ m ∈ range (k + 1), x m := by
  induction k with
  | zero => simp [csum]
  | succ k ih => rw [sum_range_succ, ← ih]; rfl

/-- The draws selecting index `k`. -/
theorem pick_iff {p : Nat → Fl ℝ} {x : Nat → ℝ} (hp : ∀ k, k < 9 → p k = .fin (x k)) (hx : ∀ k, k < 9 → 0 ≤ x k)
    {r : ℝ} (hr1 : r < 1) {k : Nat} :
    pickFrom Arith.exact p r = .ok k ↔ k < 9 ∧ (∑ m ∈ range 9, x m) * r ≤ ∑ m ∈ range (k + 1), x m ∧
      (0 < k → ∑ m ∈ range k, x m < (∑ m ∈ range 9, x m) * r) := by
  obtain ⟨k', hk', h1, h2, h3⟩ := pickFrom_spec Arith.exact hp hx rfl hr1
  simp only [csum_exact] at h2 h3
  change (∑ m ∈ range (8 + 1), x m) * r ≤ _ at h2
  change ∀ m, m < k' → _ < (∑ m ∈ range (8 + 1), x m) * r at h3
  rw [h1]
  constructor
  · intro h
    injection h with h
    subst h
    refine ⟨hk', h2, fun h0 => ?_⟩
    have := h3 (k' - 1) (by omega)
    rwa [show k' - 1 + 1 = k' by omega] at this
  · rintro ⟨hk, h4, h5⟩
    have mono : ∀ a b, a ≤ b → b ≤ 9 → ∑ m ∈ range a, x m ≤ ∑ m ∈ range b, x m := fun a b hab hb =>
      sum_le_sum_of_subset_of_nonneg (range_mono hab) (fun m hm _ => hx m (by have := mem_range.1 hm; omega))
    rcases lt_trichotomy k k' with h | h | h
    · exact absurd (h3 k h) (not_lt.2 h4)
    · rw [h]
    · have := h5 (by omega)
      have h6 := mono (k' + 1) k (by omega) (by omega)
      exact absurd (lt_of_le_of_lt h6 this) (not_lt.2 h2)

/-- Index `k` is selected on a set of draws of measure `x k / sum x`. -/
theorem pick_volume {p : Nat → Fl ℝ} {x : Nat → ℝ} (hp : ∀ k, k < 9 → p k = .fin (x k)) (hx : ∀ k, k < 9 → 0 ≤ x k)
    (hS : 0 < ∑ m ∈ range 9, x m) {k : Nat} (hk : k < 9) :
    volume {r : ℝ | 0 ≤ r ∧ r < 1 ∧ pickFrom Arith.exact p r = .ok k} = ENNReal.ofReal (x k / ∑ m ∈ range 9, x m) := by
  set S := ∑ m ∈ range 9, x m with hSdef
  set lo := (∑ m ∈ range k, x m) / S with hlo
  set hi := (∑ m ∈ range (k + 1), x m) / S with hhi
  have hlo0 : 0 ≤ lo := div_nonneg (sum_nonneg fun m hm => hx m (by have := mem_range.1 hm; omega)) hS.le
  have hhi1 : hi ≤ 1 := by
    rw [hhi, div_le_one hS]
    exact sum_le_sum_of_subset_of_nonneg (range_mono (by omega)) (fun m hm _ => hx m (mem_range.1 hm))
  have hdiff : hi - lo = x k / S := by rw [hhi, hlo, sum_range_succ]; ring
  have hsub1 : Set.Ioo lo hi ⊆ {r : ℝ | 0 ≤ r ∧ r < 1 ∧ pickFrom Arith.exact p r = .ok k} := by
    rintro r ⟨h1, h2⟩
    have hr1 : r < 1 := lt_of_lt_of_le h2 hhi1
    refine ⟨le_trans hlo0 h1.le, hr1, (pick_iff hp hx hr1).2 ⟨hk, ?_, fun _ => ?_⟩⟩
    · rw [hhi, lt_div_iff₀ hS] at h2; linarith
    · rw [hlo, div_lt_iff₀ hS] at h1; linarith
  have hsub2 : {r : ℝ | 0 ≤ r ∧ r < 1 ∧ pickFrom Arith.exact p r = .ok k} ⊆ Set.Icc lo hi := by
    rintro r ⟨h0, h1, h2⟩
    obtain ⟨-, h3, h4⟩ := (pick_iff hp hx h1).1 h2
    refine ⟨?_, ?_⟩
    · rcases Nat.eq_zero_or_pos k with hk0 | hk0
      · subst hk0; simpa [hlo] using h0
      · have := h4 hk0
        rw [hlo, div_le_iff₀ hS]; linarith
    · rw [hhi, le_div_iff₀ hS]; linarith
  rw [← hdiff]
  apply le_antisymm
  · calc _ ≤ volume (Set.Icc lo hi) := measure_mono hsub2
      _ = _ := Real.volume_Icc
  · calc _ = volume (Set.Ioo lo hi) := Real.volume_Ioo.symm
      _ ≤ _ := measure_mono hsub1

end Dorado
