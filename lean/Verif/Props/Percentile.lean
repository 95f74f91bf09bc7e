import Verif.Lemmas.Percentile
import Verif.Props.Spatial
import Verif.Base.Inst

/-!
# Exposure percentiles per chunk (C59)
-/

set_option linter.unusedSectionVars false

namespace Dorado

variable {K : Type} [Field K] [LinearOrder K] [IsStrictOrderedRing K] [FloorRing K] {A : Arith K}

/-- A density estimate from the data `l`: finite non-negative numbers, positive at the data. -/
structure DensityFor (A : Arith K) (l : List (Fl K)) (dens : Fl K → Fl K) : Prop where
  fin : ∀ x, ∃ d, dens (.fin x) = .fin d ∧ 0 ≤ d ∧ A.rnd d = d
  pos : ∀ x, .fin x ∈ l → ∀ d, dens (.fin x) = .fin d → 0 < d

/-- The exposure times of a chunk: finite floating-point numbers. -/
def FloatTimes (A : Arith K) (l : List (Fl K)) : Prop := ∀ t ∈ l, ∃ x, t = .fin x ∧ A.rnd x = x

/-- `lo` and `hi` are the smallest and the largest non-zero time. -/
def NonzeroRange (l : List (Fl K)) (lo hi : K) : Prop :=
  (.fin lo ∈ l ∧ lo ≠ 0) ∧ (.fin hi ∈ l ∧ hi ≠ 0) ∧ ∀ x, .fin x ∈ l → x ≠ 0 → lo ≤ x ∧ x ≤ hi

theorem extremes {l : List (Fl K)} (hl : ∀ t ∈ l, ∃ x, t = .fin x) (hne : usedTimes l ≠ []) :
    ∃ lo hi, minTime (usedTimes l) = .ok (.fin lo) ∧ maxTime (usedTimes l) = .ok (.fin hi) ∧ NonzeroRange l lo hi ∧ lo ≤ hi := by
  have hu : ∀ t ∈ usedTimes l, ∃ x, t = .fin x := fun t ht => hl t (List.mem_filter.1 ht).1
  obtain ⟨lo, h1, h2, h3⟩ := endTime_ok hne hu false
  obtain ⟨hi, g1, g2, g3⟩ := endTime_ok hne hu true
  simp only [Bool.false_eq_true, if_false] at h1 h3
  simp only [if_true] at g1 g3
  exact ⟨lo, hi, h1, g1, ⟨usedTimes_mem.1 h2, usedTimes_mem.1 g2, fun x hx h0 => ⟨h3 x (usedTimes_mem.2 ⟨hx, h0⟩), g3 x (usedTimes_mem.2 ⟨hx, h0⟩)⟩⟩, h3 hi g2⟩

/-- C59, for every rounding in which the last but one point of the grid `linspace(lo, hi, 1000)` does not pass `hi`: with at least five different non-zero times
the three percentiles of a chunk are ordered and lie between the smallest and the largest non-zero time, each divided by `timedelta`. -/
theorem C59_ordered {kde : List (Fl K) → Except PyErr (Fl K → Fl K)} {l : List (Fl K)} (hl : FloatTimes A l) (h5 : 5 ≤ (usedTimes l).dedup.length)
    {dens : Fl K → Fl K} (hk : kde (usedTimes l) = .ok dens) (hd : DensityFor A (usedTimes l) dens) {td : K} (htd : 0 < td)
    (hgrid : ∀ lo hi, NonzeroRange l lo hi → Fl.le ((linspace A (.fin lo) (.fin hi) 1000).getD 998 .nan) (.fin hi) = true) :
    ∃ lo hi p50 p75 p90, NonzeroRange l lo hi ∧ chunkPercentiles A kde td (some l) = .ok (.fin p50, .fin p75, .fin p90) ∧
      A.rnd (lo / td) ≤ p50 ∧ p50 ≤ p75 ∧ p75 ≤ p90 ∧ p90 ≤ A.rnd (hi / td) := by
  have hne : usedTimes l ≠ [] := fun h => by rw [h] at h5; simp at h5
  obtain ⟨lo, hi, m1, m2, hr, hlh⟩ := extremes (fun t ht => (hl t ht).imp fun _ h => h.1) hne
  have repr : ∀ x, Fl.fin x ∈ l → A.rnd x = x := fun x hx => by
    obtain ⟨y, hy, hy'⟩ := hl _ hx
    cases hy
    exact hy'
  have hlast : gridK A lo hi 999 (999 - 1) ≤ hi := by
    have := hgrid lo hi hr
    rw [linspace_eq A lo hi (n := 999) (by norm_num), List.getD_eq_getElem?_getD, List.getElem?_map, List.getElem?_range (by norm_num)] at this
    simpa [Fl.le] using this
  choose d hd1 hd2 hd3 using fun k => hd.fin (gridK A lo hi 999 k)
  have hmap : (linspace A (.fin lo) (.fin hi) 1000).map dens = (List.range (999 + 1)).map fun k => Fl.fin (d k) := by
    rw [linspace_eq A lo hi (n := 999) (by norm_num), List.map_map]
    exact List.map_congr_left fun k _ => hd1 k
  have hpos : 0 < csum A d 999 := by
    have h1 : 0 < d 999 := hd.pos hi (usedTimes_mem.2 hr.2.1) _ (by rw [← hd1 999, gridK_last])
    exact lt_of_lt_of_le h1 (csum_ge A (n := 999) (fun k _ => hd3 k) (fun k _ => hd2 k) le_rfl)
  obtain ⟨ix, i1, i2, i3⟩ := percentile_index A (n := 999) (d := d) (hd3 0) (fun k _ => hd2 k) hpos
  have hget : ∀ k, k ≤ 999 → (linspace A (.fin lo) (.fin hi) 1000)[k]? = some (.fin (gridK A lo hi 999 k)) := fun k hk => by
    rw [linspace_eq A lo hi (n := 999) (by norm_num), List.getElem?_map, List.getElem?_range (by omega)]
    rfl
  have o1 : A.rnd (1 / 2) ≤ A.rnd (3 / 4) := A.mono _ _ (by norm_num)
  have o2 : A.rnd (3 / 4) ≤ A.rnd (9 / 10) := A.mono _ _ (by norm_num)
  have o3 : A.rnd (9 / 10) ≤ 1 := by
    have := A.mono (9 / 10) 1 (by norm_num)
    rwa [A.one] at this
  have k3 := i1 _ o3
  have k2 := i2 _ _ o2
  have k1 := i2 _ _ o1
  have hdiv : ∀ {x y : K}, x ≤ y → A.rnd (x / td) ≤ A.rnd (y / td) := fun h => A.mono _ _ (div_le_div_of_nonneg_right h htd.le)
  have hm := fun {a b : Nat} (h1 : a ≤ b) (h2 : b ≤ 999) => gridK_mono A hlh hlast h1 h2
  refine ⟨lo, hi, _, _, _, hr, ?_, ?_, hdiv (hm k1 (k2.trans k3)), hdiv (hm k2 k3), ?_⟩
  · unfold chunkPercentiles
    dsimp only
    have hlen : l.length ≠ 0 := fun h => hne (by rw [List.length_eq_zero_iff.1 h]; rfl)
    rw [if_neg (by omega), hk, m1, m2]
    simp only [ok_bind]
    rw [hmap, i3, i3, i3, hget _ (by omega), hget _ (by omega), hget _ k3]
    simp only [perTime, ok_bind, Arith.div, if_neg htd.ne']
    rfl
  · refine hdiv ?_
    have := hm (Nat.zero_le (ix (A.rnd (1 / 2)))) (by omega)
    rwa [gridK_zero A (by norm_num) (repr lo hr.1.1)] at this
  · refine hdiv ?_
    have := hm k3 le_rfl
    rwa [gridK_last] at this

/-- C59 for floating-point numbers: rounding with a relative error of at most 1/8000 (binary64 has 2⁻⁵³, away from underflow). -/
theorem C59_float {kde : List (Fl K) → Except PyErr (Fl K → Fl K)} {l : List (Fl K)} (hl : FloatTimes A l) (h5 : 5 ≤ (usedTimes l).dedup.length)
    {dens : Fl K → Fl K} (hk : kde (usedTimes l) = .ok dens) (hd : DensityFor A (usedTimes l) dens) {td : K} (htd : 0 < td)
    {ε : K} (hε : ε ≤ 1 / 8000) (hrel : ∀ x, |A.rnd x - x| ≤ ε * |x|) :
    ∃ lo hi p50 p75 p90, NonzeroRange l lo hi ∧ chunkPercentiles A kde td (some l) = .ok (.fin p50, .fin p75, .fin p90) ∧
      A.rnd (lo / td) ≤ p50 ∧ p50 ≤ p75 ∧ p75 ≤ p90 ∧ p90 ≤ A.rnd (hi / td) := by
  refine C59_ordered hl h5 hk hd htd fun lo hi hr => ?_
  rw [linspace_eq A lo hi (n := 999) (by norm_num), List.getD_eq_getElem?_getD, List.getElem?_map, List.getElem?_range (by norm_num)]
  have hlh : lo ≤ hi := (hr.2.2 hi hr.2.1.1 hr.2.1.2).1
  obtain ⟨y, hy, hy'⟩ := hl _ hr.2.1.1
  cases hy
  have := gridK_rel A hlh hy' hε hrel
  simpa [Fl.le] using this

/-- C59, the remaining chunks: NaN entries, and chunks with fewer than five different non-zero times, have NaN percentiles. -/
theorem C59_nan {kde : List (Fl K) → Except PyErr (Fl K → Fl K)} {td : K} {item : Option (List (Fl K))}
    (h : ∀ l, item = some l → (usedTimes l).dedup.length < 5) : chunkPercentiles A kde td item = .ok (.nan, .nan, .nan) := by
  cases item with
  | none => rfl
  | some l =>
    unfold chunkPercentiles
    dsimp only
    rw [if_pos (Or.inr (h l rfl))]

/-- C56, the maps: `compute_thresholds` on one entry per chunk returns three maps with one value per chunk. -/
theorem C56_maps {kde : List (Fl K) → Except PyErr (Fl K → Fl K)} {data : List (Option (List (Fl K)))} {R C res : Nat} (hres : 0 < res)
    (hl : data.length = R / res * (C / res)) {td : K} (htd : td ≠ 0) {w : Int} {th : Fl K} (hk : ∀ l, 5 ≤ l.dedup.length → ∃ d, kde l = .ok d) :
    ∃ m50 m75 m90, computeThresholds A kde data (R, C) td res w th = .ok (m50, m75, m90) ∧ m50.rows = R / res ∧ m50.cols = C / res ∧
      m75.rows = R / res ∧ m75.cols = C / res ∧ m90.rows = R / res ∧ m90.cols = C / res := by
  refine compute_shape hres hl fun item _ => ?_
  by_cases h : ∀ l, item = some l → (usedTimes l).dedup.length < 5
  · exact ⟨_, C59_nan h⟩
  · push Not at h
    obtain ⟨l, rfl, h5⟩ := h
    obtain ⟨d, hd⟩ := hk _ h5
    unfold chunkPercentiles
    dsimp only
    have hper : ∀ p : Option (Fl K), ∃ x, perTime A p td = .ok x := by
      intro p
      cases p with
      | none => exact ⟨_, if_neg htd⟩
      | some x => exact ⟨_, rfl⟩
    by_cases h0 : l.length = 0 ∨ (usedTimes l).dedup.length < 5
    · rw [if_pos h0]
      exact ⟨_, rfl⟩
    · rw [if_neg h0, hd]
      cases hu : usedTimes l with
      | nil => rw [hu] at h5; simp at h5
      | cons a t =>
        simp only [ok_bind, minTime, maxTime]
        obtain ⟨x1, e1⟩ := hper (percentileFromCdf (cdfOf A ((linspace A (t.foldl (fun m a => if Fl.lt a m then a else m) a)
          (t.foldl (fun m a => if Fl.lt m a then a else m) a) 1000).map d)) (linspace A (t.foldl (fun m a => if Fl.lt a m then a else m) a)
          (t.foldl (fun m a => if Fl.lt m a then a else m) a) 1000) (A.rnd (1 / 2)))
        obtain ⟨x2, e2⟩ := hper (percentileFromCdf (cdfOf A ((linspace A (t.foldl (fun m a => if Fl.lt a m then a else m) a)
          (t.foldl (fun m a => if Fl.lt m a then a else m) a) 1000).map d)) (linspace A (t.foldl (fun m a => if Fl.lt a m then a else m) a)
          (t.foldl (fun m a => if Fl.lt m a then a else m) a) 1000) (A.rnd (3 / 4)))
        obtain ⟨x3, e3⟩ := hper (percentileFromCdf (cdfOf A ((linspace A (t.foldl (fun m a => if Fl.lt a m then a else m) a)
          (t.foldl (fun m a => if Fl.lt m a then a else m) a) 1000).map d)) (linspace A (t.foldl (fun m a => if Fl.lt a m then a else m) a)
          (t.foldl (fun m a => if Fl.lt m a then a else m) a) 1000) (A.rnd (9 / 10)))
        rw [e1, e2, e3]
        exact ⟨_, rfl⟩

/-! A flat density on the times 1, …, 5. -/

def fiveTimes : List (Fl ℚ) := [.fin 3, .fin 0, .fin 1, .fin 5, .fin 2, .fin 4]

def flatKde : List (Fl ℚ) → Except PyErr (Fl ℚ → Fl ℚ) := fun _ => .ok fun _ => .fin 1

example : ∃ lo hi p50 p75 p90, NonzeroRange fiveTimes lo hi ∧ chunkPercentiles Arith.exact flatKde 2 (some fiveTimes) = .ok (.fin p50, .fin p75, .fin p90) ∧
    lo / 2 ≤ p50 ∧ p50 ≤ p75 ∧ p75 ≤ p90 ∧ p90 ≤ hi / 2 :=
  C59_float (A := Arith.exact) (ε := 0) (dens := fun _ => .fin 1) (fun t ht => by
      simp only [fiveTimes, List.mem_cons, List.not_mem_nil, or_false] at ht
      rcases ht with rfl | rfl | rfl | rfl | rfl | rfl <;> exact ⟨_, rfl, rfl⟩) (by decide +kernel) rfl
    ⟨fun _ => ⟨1, rfl, by norm_num, rfl⟩, fun _ _ d hd => by cases hd; norm_num⟩ (by norm_num) (by norm_num) (fun x => by simp [Arith.exact])

example : chunkPercentiles Arith.exact flatKde 2 (some [.fin 1, .fin 2, .fin 0]) = .ok (.nan, .nan, .nan) :=
  C59_nan fun l h => by cases h; decide +kernel

example : ∃ m50 m75 m90, computeThresholds Arith.exact flatKde [some fiveTimes, none] (3, 5) 2 2 5 (.fin 3) = .ok (m50, m75, m90) ∧ m50.rows = 1 ∧ m50.cols = 2 ∧
    m75.rows = 1 ∧ m75.cols = 2 ∧ m90.rows = 1 ∧ m90.cols = 2 :=
  C56_maps (R := 3) (C := 5) (res := 2) (by norm_num) rfl (by norm_num) fun _ _ => ⟨_, rfl⟩

end Dorado
