import Verif.Lemmas.Seed
import Mathlib.MeasureTheory.Measure.Lebesgue.Basic

/-! Helper lemmas: Lebesgue measure of the draws with which `random_pick_seed` returns a given value (exact arithmetic over the reals). -/

set_option linter.unusedSectionVars false

namespace Dorado

open MeasureTheory Finset

/-- The draws selecting entry `k` of a list of length `n`. -/
def entrySet (n k : Nat) : Set ℝ := if k = 0 then Set.Icc 0 (1 / (n : ℝ)) ∩ Set.Iio 1 else Set.Ioc ((k : ℝ) / n) ((k + 1 : ℝ) / n) ∩ Set.Iio 1

theorem entrySet_measurable (n k : Nat) : MeasurableSet (entrySet n k) := by
  unfold entrySet
  split_ifs
  · exact measurableSet_Icc.inter measurableSet_Iio
  · exact measurableSet_Ioc.inter measurableSet_Iio

theorem entrySet_volume {n k : Nat} (hk : k < n) : volume (entrySet n k) = ENNReal.ofReal (1 / n) := by
  have hn : (0 : ℝ) < n := by exact_mod_cast (by omega : 0 < n)
  have hle : ((k + 1 : ℝ) / n) ≤ 1 := by rw [div_le_one hn]; exact_mod_cast hk
  have hd : (k + 1 : ℝ) / n - k / n = 1 / n := by ring
  have hsub1 : Set.Ioo ((k : ℝ) / n) ((k + 1 : ℝ) / n) ⊆ entrySet n k := by
    rintro r ⟨h1, h2⟩
    unfold entrySet
    split_ifs with h0
    · subst h0
      simp only [Nat.cast_zero, zero_div, zero_add] at h1 h2 hle
      exact ⟨⟨h1.le, h2.le⟩, lt_of_lt_of_le h2 hle⟩
    · exact ⟨⟨h1, h2.le⟩, lt_of_lt_of_le h2 hle⟩
  have hsub2 : entrySet n k ⊆ Set.Icc ((k : ℝ) / n) ((k + 1 : ℝ) / n) := by
    intro r hr
    unfold entrySet at hr
    split_ifs at hr with h0
    · subst h0; simpa using hr.1
    · exact ⟨hr.1.1.le, hr.1.2⟩
  rw [← hd]
  apply le_antisymm
  · calc _ ≤ volume (Set.Icc ((k : ℝ) / n) ((k + 1 : ℝ) / n)) := measure_mono hsub2
      _ = _ := Real.volume_Icc
  · calc _ = volume (Set.Ioo ((k : ℝ) / n) ((k + 1 : ℝ) / n)) := Real.volume_Ioo.symm
      _ ≤ _ := measure_mono hsub1

theorem mem_entrySet {n k : Nat} (hk : k < n) {r : ℝ} : r ∈ entrySet n k ↔ 0 ≤ r ∧ r < 1 ∧ n * r ≤ (k + 1 : Nat) ∧ ∀ m : Nat, m < k → ((m + 1 : Nat) : ℝ) < n * r := by
  have hn : (0 : ℝ) < n := by exact_mod_cast (by omega : 0 < n)
  unfold entrySet
  split_ifs with h0
  · subst h0
    simp only [Set.mem_inter_iff, Set.mem_Icc, Set.mem_Iio, le_div_iff₀ hn, Nat.zero_add, Nat.cast_one, Nat.not_lt_zero, false_imp_iff, implies_true, and_true]
    constructor
    · rintro ⟨⟨h1, h2⟩, h3⟩; exact ⟨h1, h3, by linarith⟩
    · rintro ⟨h1, h2, h3⟩; exact ⟨⟨h1, by linarith⟩, h2⟩
  · simp only [Set.mem_inter_iff, Set.mem_Ioc, Set.mem_Iio, le_div_iff₀ hn, div_lt_iff₀ hn]
    constructor
    · rintro ⟨⟨h1, h2⟩, h3⟩
      refine ⟨?_, h3, by push_cast; linarith, fun m hm => ?_⟩
      · by_contra hcon
        push Not at hcon
        have : r * n < 0 := mul_neg_of_neg_of_pos hcon hn
        have : (0 : ℝ) ≤ k := Nat.cast_nonneg k
        linarith
      · have : ((m + 1 : Nat) : ℝ) ≤ k := by exact_mod_cast hm
        linarith
    · rintro ⟨h1, h2, h3, h4⟩
      have := h4 (k - 1) (by omega)
      rw [show k - 1 + 1 = k by omega] at this
      push_cast at h3
      exact ⟨⟨by linarith, by linarith⟩, h2⟩

theorem entrySet_disjoint {n j k : Nat} (hj : j < n) (hk : k < n) (h : j ≠ k) : Disjoint (entrySet n j) (entrySet n k) := by
  rw [Set.disjoint_left]
  intro r h1 h2
  obtain ⟨-, -, a1, a2⟩ := (mem_entrySet hj).1 h1
  obtain ⟨-, -, b1, b2⟩ := (mem_entrySet hk).1 h2
  rcases lt_or_gt_of_ne h with h | h
  · exact absurd (b2 j h) (not_lt.2 a1)
  · exact absurd (a2 k h) (not_lt.2 b1)

theorem pickSeed_iff {l : List Int} (hl : l ≠ []) {r : ℝ} (hr0 : 0 ≤ r) (hr1 : r < 1) (a : Int) :
    randomPickSeed Arith.exact l r = .ok a ↔ ∃ k, k < l.length ∧ l[k]? = some a ∧ r ∈ entrySet l.length k := by
  obtain ⟨k, b, h1, h2, h3, h4⟩ := randomPickSeed_spec (A := Arith.exact) hl rfl hr0 hr1
  have hk : k < l.length := (List.getElem?_eq_some_iff.1 h1).1
  have hm : r ∈ entrySet l.length k := (mem_entrySet hk).2 ⟨hr0, hr1, h3, h4⟩
  rw [h2]
  constructor
  · intro h; cases h; exact ⟨k, hk, h1, hm⟩
  · rintro ⟨j, hj, hja, hjm⟩
    by_cases hjk : j = k
    · subst hjk
      rw [h1] at hja
      cases hja; rfl
    · exact absurd hm (Set.disjoint_left.1 (entrySet_disjoint hj hk hjk) hjm)

theorem pickSeed_measurable {l : List Int} (hl : l ≠ []) (a : Int) :
    MeasurableSet {r : ℝ | 0 ≤ r ∧ r < 1 ∧ randomPickSeed Arith.exact l r = .ok a} := by
  have hset : {r : ℝ | 0 ≤ r ∧ r < 1 ∧ randomPickSeed Arith.exact l r = .ok a} =
      ⋃ k ∈ {k ∈ range l.length | l[k]? = some a}, entrySet l.length k := by
    ext r
    simp only [Set.mem_ofPred_eq, Set.mem_iUnion, mem_filter, mem_range, exists_prop]
    constructor
    · rintro ⟨h0, h1, h2⟩
      obtain ⟨k, h3, h4, h5⟩ := (pickSeed_iff hl h0 h1 a).1 h2
      exact ⟨k, ⟨h3, h4⟩, h5⟩
    · rintro ⟨k, ⟨h3, h4⟩, h5⟩
      obtain ⟨h0, h1, -⟩ := (mem_entrySet h3).1 h5
      exact ⟨h0, h1, (pickSeed_iff hl h0 h1 a).2 ⟨k, h3, h4, h5⟩⟩
  rw [hset]
  exact Finset.measurableSet_biUnion _ fun k _ => entrySet_measurable _ _

theorem pickSeed_volume {l : List Int} (hl : l ≠ []) (a : Int) :
    volume {r : ℝ | 0 ≤ r ∧ r < 1 ∧ randomPickSeed Arith.exact l r = .ok a} = ENNReal.ofReal (l.count a / l.length) := by
  have hset : {r : ℝ | 0 ≤ r ∧ r < 1 ∧ randomPickSeed Arith.exact l r = .ok a} =
      ⋃ k ∈ {k ∈ range l.length | l[k]? = some a}, entrySet l.length k := by
    ext r
    simp only [Set.mem_ofPred_eq, Set.mem_iUnion, mem_filter, mem_range, exists_prop]
    constructor
    · rintro ⟨h0, h1, h2⟩
      obtain ⟨k, h3, h4, h5⟩ := (pickSeed_iff hl h0 h1 a).1 h2
      exact ⟨k, ⟨h3, h4⟩, h5⟩
    · rintro ⟨k, ⟨h3, h4⟩, h5⟩
      obtain ⟨h0, h1, -⟩ := (mem_entrySet h3).1 h5
      exact ⟨h0, h1, (pickSeed_iff hl h0 h1 a).2 ⟨k, h3, h4, h5⟩⟩
  have hcard : ∀ l : List Int, #{k ∈ range l.length | l[k]? = some a} = l.count a := by
    intro l
    induction l with
    | nil => rfl
    | cons b l ih =>
      rw [List.length_cons, range_add_one', filter_insert, List.count_cons, ← ih]
      have hm : filter (fun k => (b :: l)[k]? = some a) (map ⟨fun i => i + 1, fun _ _ h => by simpa using h⟩ (range l.length)) =
          map ⟨fun i => i + 1, fun _ _ h => by simpa using h⟩ {k ∈ range l.length | l[k]? = some a} := by
        rw [filter_map]
        congr 1
      rw [hm]
      by_cases hb : b = a
      · subst hb
        simp
      · simp [hb]
  rw [hset, measure_biUnion_finset (fun j hj k hk h => entrySet_disjoint (by simp at hj; omega) (by simp at hk; omega) h)
    (fun k _ => entrySet_measurable _ _)]
  rw [sum_congr rfl fun k hk => entrySet_volume (mem_range.1 (mem_filter.1 hk).1), sum_const, hcard]
  rw [nsmul_eq_mul, ← ENNReal.ofReal_natCast, ← ENNReal.ofReal_mul (Nat.cast_nonneg _)]
  congr 1
  ring

end Dorado
