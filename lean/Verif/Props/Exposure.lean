import Verif.Lemmas.Exposure
import Verif.Lemmas.Float
import Mathlib.Data.Rat.Floor

/-! # C40-C43: exposure time -/

set_option linter.unusedSectionVars false

namespace Dorado

variable {K : Type} [Field K] [LinearOrder K] [IsStrictOrderedRing K] {A : Arith K}

/-! ## C42 -/

/-- C42: `exposure_time` returns, per particle in order, the sum over its steps of the duration times half the number of end points in the
region (exact arithmetic). -/
theorem C42_formula {wd : WalkData K} {g : Grid Int} (hp : Proper wd) (hr : OnRaster g.rows g.cols wd) (hb : Binary g) :
    ∃ res, exposureTime Arith.exact wd g = .ok res ∧ res.times = (List.range wd.count).map fun i => .fin (wd.exposure g i) := by
  obtain ⟨res, h, hl, ht, -⟩ := exposureTime_eq (A := Arith.exact) hp hr
  refine ⟨res, h, ?_⟩
  apply List.ext_getElem?
  intro i
  by_cases hi : i < wd.count
  · rw [ht i hi, List.getElem?_map, List.getElem?_range hi]
    simp only [Option.map_some, expoRec_exact hb hr]
    rfl
  · rw [List.getElem?_eq_none (by omega), List.getElem?_eq_none (by simpa using hi)]

theorem mark_zero {wd : WalkData K} {g : Grid Int} {i n : Nat} (h : ¬ wd.inRegion g i n) : wd.mark g i n = 0 := if_neg h

theorem mark_one {wd : WalkData K} {g : Grid Int} {i n : Nat} (h : wd.inRegion g i n) : wd.mark g i n = 1 := if_pos h

theorem mark_bounds {wd : WalkData K} {g : Grid Int} (i n : Nat) : 0 ≤ wd.mark g i n ∧ wd.mark g i n ≤ 1 := by
  unfold WalkData.mark
  split_ifs
  · exact ⟨zero_le_one, le_rfl⟩
  · exact ⟨le_rfl, zero_le_one⟩

theorem duration_eq_sum (wd : WalkData K) (i : Nat) :
    wd.duration i = ∑ n ∈ Finset.range (wd.records i - 1), (wd.tau i (n + 1) - wd.tau i n) :=
  (Finset.sum_range_sub (wd.tau i) _).symm

theorem exposure_extremes {wd : WalkData K} {g : Grid Int} {i : Nat} :
    ((∀ n, n < wd.records i → ¬ wd.inRegion g i n) → wd.exposure g i = 0) ∧
    ((∀ n, n < wd.records i → wd.inRegion g i n) → wd.exposure g i = wd.duration i) := by
  constructor
  · intro h
    apply Finset.sum_eq_zero
    intro n hn
    have hn := Finset.mem_range.1 hn
    rw [mark_zero (h n (by omega)), mark_zero (h (n + 1) (by omega))]
    simp
  · intro h
    rw [duration_eq_sum]
    apply Finset.sum_congr rfl
    intro n hn
    have hn := Finset.mem_range.1 hn
    rw [mark_one (h n (by omega)), mark_one (h (n + 1) (by omega))]
    norm_num

/-- The returned exposure time of particle `i` (exact arithmetic). -/
theorem times_get {wd : WalkData K} {g : Grid Int} (hp : Proper wd) (hr : OnRaster g.rows g.cols wd) (hb : Binary g)
    {res : ExposureResult K} (h : exposureTime Arith.exact wd g = .ok res) {i : Nat} (hi : i < wd.count) :
    res.times[i]? = some (.fin (wd.exposure g i)) := by
  obtain ⟨res', h', e⟩ := C42_formula hp hr hb
  rw [h'] at h
  cases h
  rw [e, List.getElem?_map, List.getElem?_range hi]
  rfl

/-- C42: a particle never inside has exposure 0, one always inside the whole travel time. -/
theorem C42_extremes {wd : WalkData K} {g : Grid Int} (hp : Proper wd) (hr : OnRaster g.rows g.cols wd) (hb : Binary g) {i : Nat}
    (hi : i < wd.count) {res : ExposureResult K} (h : exposureTime Arith.exact wd g = .ok res) :
    ((∀ n, n < wd.records i → ¬ wd.inRegion g i n) → res.times[i]? = some (.fin 0)) ∧
    ((∀ n, n < wd.records i → wd.inRegion g i n) → res.times[i]? = some (.fin (wd.duration i))) := by
  rw [times_get hp hr hb h hi]
  exact ⟨fun hh => by rw [exposure_extremes.1 hh], fun hh => by rw [exposure_extremes.2 hh]⟩

/-! ## C40 -/

theorem exposure_bounds {wd : WalkData K} {g : Grid Int} (hm : TimesMono wd) (i : Nat) :
    0 ≤ wd.exposure g i ∧ wd.exposure g i ≤ wd.duration i := by
  rw [duration_eq_sum]
  have hstep : ∀ n ∈ Finset.range (wd.records i - 1), 0 ≤ wd.tau i (n + 1) - wd.tau i n := by
    intro n hn
    have hn := Finset.mem_range.1 hn
    have := hm i n (by omega)
    linarith
  constructor
  · apply Finset.sum_nonneg
    intro n hn
    have h1 := mark_bounds (wd := wd) (g := g) i n
    have h2 := mark_bounds (wd := wd) (g := g) i (n + 1)
    exact mul_nonneg (hstep n hn) (by linarith)
  · apply Finset.sum_le_sum
    intro n hn
    have h1 := mark_bounds (wd := wd) (g := g) i n
    have h2 := mark_bounds (wd := wd) (g := g) i (n + 1)
    have := mul_le_mul_of_nonneg_left (show (wd.mark g i n + wd.mark g i (n + 1)) / 2 ≤ 1 by linarith) (hstep n hn)
    linarith

/-- C40: with non-decreasing times every exposure time is between 0 and the total travel time (exact arithmetic). -/
theorem C40_bounds {wd : WalkData K} {g : Grid Int} (hp : Proper wd) (hr : OnRaster g.rows g.cols wd) (hb : Binary g) (hm : TimesMono wd) :
    ∃ res, exposureTime Arith.exact wd g = .ok res ∧ res.times.length = wd.count ∧
      ∀ i, i < wd.count → ∃ e, res.times[i]? = some (.fin e) ∧ 0 ≤ e ∧ e ≤ wd.duration i := by
  obtain ⟨res, h, e⟩ := C42_formula hp hr hb
  exact ⟨res, h, by simp [e], fun i hi => ⟨_, times_get hp hr hb h hi, exposure_bounds hm i⟩⟩

/-- The region `g` is contained in the region `h` of the same raster. -/
def SubRegion (g h : Grid Int) : Prop := g.rows = h.rows ∧ g.cols = h.cols ∧ ∀ i j, i < g.rows → j < g.cols → g.at' i j = 1 → h.at' i j = 1

/-- C40, for every rounding: with non-decreasing times exposure times are non-negative, and enlarging the region never decreases them. -/
theorem C40_monotone {wd : WalkData K} {g h : Grid Int} (hp : Proper wd) (hr : OnRaster g.rows g.cols wd) (hm : TimesMono wd)
    (bg : Binary g) (bh : Binary h) (hs : SubRegion g h) :
    ∃ r1 r2, exposureTime A wd g = .ok r1 ∧ exposureTime A wd h = .ok r2 ∧ r1.times.length = wd.count ∧ r2.times.length = wd.count ∧
      ∀ i, i < wd.count → ∃ e1 e2, r1.times[i]? = some (.fin e1) ∧ r2.times[i]? = some (.fin e2) ∧ 0 ≤ e1 ∧ e1 ≤ e2 := by
  have hr' : OnRaster h.rows h.cols wd := by rw [← hs.1, ← hs.2.1]; exact hr
  obtain ⟨r1, h1, l1, t1, -⟩ := exposureTime_eq (A := A) hp hr
  obtain ⟨r2, h2, l2, t2, -⟩ := exposureTime_eq (A := A) hp hr'
  refine ⟨r1, r2, h1, h2, l1, l2, fun i hi => ⟨_, _, t1 i hi, t2 i hi, ?_⟩⟩
  have hle : ∀ n, wd.regVal g i n ≤ wd.regVal h i n := by
    intro n
    rcases regVal_binary bg hr i n with e | e
    · rw [e]
      rcases regVal_binary bh hr' i n with e' | e' <;> omega
    · have : wd.regVal h i n = 1 := by
        rw [← inRegion_iff] at e ⊢
        obtain ⟨p, hp1, hp2⟩ := e
        obtain ⟨a, b, c, d⟩ := hr i n p hp1
        exact ⟨p, hp1, hs.2.2 _ _ (by omega) (by omega) hp2⟩
      omega
  have main : ∀ k, k ≤ wd.records i - 1 → 0 ≤ expoRec A (wd.regVal g i) (wd.tau i) k ∧
      expoRec A (wd.regVal g i) (wd.tau i) k ≤ expoRec A (wd.regVal h i) (wd.tau i) k := by
    intro k
    induction k with
    | zero => intro _; simp [expoRec]
    | succ k ih =>
      intro hk
      obtain ⟨i1, i2⟩ := ih (by omega)
      have hd : 0 ≤ A.rnd (wd.tau i (k + 1) - wd.tau i k) := by
        have := hm i k (by omega)
        have := A.mono 0 _ (show 0 ≤ wd.tau i (k + 1) - wd.tau i k by linarith)
        rwa [A.zero] at this
      obtain ⟨d, hd'⟩ : ∃ d, d = A.rnd (wd.tau i (k + 1) - wd.tau i k) := ⟨_, rfl⟩
      have hhalf : 0 ≤ A.rnd (1 / 2 * d) := by
        have := A.mono 0 (1 / 2 * d) (by rw [hd']; linarith)
        rwa [A.zero] at this
      have hhalf2 : A.rnd (1 / 2 * d) ≤ d := by
        calc A.rnd (1 / 2 * d) ≤ A.rnd d := A.mono _ _ (by rw [hd']; linarith)
          _ = d := by rw [hd', A.idem]
      have hfix : ∀ (r : Nat → Int) (m : Nat), A.rnd (expoRec A r (wd.tau i) m) = expoRec A r (wd.tau i) m := by
        intro r m
        induction m with
        | zero => simp [expoRec, A.zero]
        | succ m ih =>
          simp only [expoRec]
          split_ifs
          · rw [A.idem]
          · rw [A.idem]
          · exact ih
      have up : ∀ x y : K, A.rnd x = x → x ≤ y → x ≤ A.rnd y := fun x y hx hxy => by
        rw [← hx]
        exact A.mono _ _ hxy
      rw [← hd'] at hd
      obtain ⟨a, ha⟩ : ∃ a, a = expoRec A (wd.regVal g i) (wd.tau i) k := ⟨_, rfl⟩
      obtain ⟨b, hb⟩ : ∃ b, b = expoRec A (wd.regVal h i) (wd.tau i) k := ⟨_, rfl⟩
      have fa := hfix (wd.regVal g i) k
      have fb := hfix (wd.regVal h i) k
      simp only [expoRec, ← hd']
      rw [← ha] at i1 i2 fa ⊢
      rw [← hb] at i2 fb ⊢
      have z1 := up a (a + d) fa (by linarith)
      have z2 := up a (a + A.rnd (1 / 2 * d)) fa (by linarith)
      have z3 := up b (b + d) fb (by linarith)
      have z4 := up b (b + A.rnd (1 / 2 * d)) fb (by linarith)
      have m1 := A.mono (a + d) (b + d) (by linarith)
      have m2 := A.mono (a + A.rnd (1 / 2 * d)) (b + A.rnd (1 / 2 * d)) (by linarith)
      have m3 := A.mono (a + A.rnd (1 / 2 * d)) (b + d) (by linarith)
      have q1 := hle k
      have q2 := hle (k + 1)
      rcases regVal_binary bg hr i k with g1 | g1 <;> rcases regVal_binary bg hr i (k + 1) with g2 | g2 <;>
        rcases regVal_binary bh hr' i k with h1 | h1 <;> rcases regVal_binary bh hr' i (k + 1) with h2 | h2 <;>
        rw [g1, h1] at q1 <;> rw [g2, h2] at q2 <;> rw [g1, g2, h1, h2] <;> (try norm_num at q1 q2) <;> norm_num <;> constructor <;> linarith
  exact main _ le_rfl

/-! ## C41 -/

/-- `u` is the union of the disjoint regions `g` and `h`. -/
def DisjointUnion (g h u : Grid Int) : Prop :=
  g.rows = u.rows ∧ g.cols = u.cols ∧ h.rows = u.rows ∧ h.cols = u.cols ∧ ∀ i j, i < u.rows → j < u.cols →
    u.at' i j = g.at' i j + h.at' i j

theorem exposure_additive {wd : WalkData K} {g h u : Grid Int} (hr : OnRaster u.rows u.cols wd) (bg : Binary g) (bh : Binary h) (bu : Binary u)
    (hd : DisjointUnion g h u) (i : Nat) (hp : Proper wd) (hi : i < wd.count) :
    wd.exposure u i = wd.exposure g i + wd.exposure h i := by
  obtain ⟨d1, d2, d3, d4, d5⟩ := hd
  have hrg : OnRaster g.rows g.cols wd := by rw [d1, d2]; exact hr
  have hrh : OnRaster h.rows h.cols wd := by rw [d3, d4]; exact hr
  have hm : ∀ n, n < wd.records i → wd.mark u i n = wd.mark g i n + wd.mark h i n := by
    intro n hn
    obtain ⟨p, hp'⟩ := hp.pos hi hn
    obtain ⟨a, b, c, d⟩ := hr i n p hp'
    have e := d5 p.1.toNat p.2.toNat (by omega) (by omega)
    have eu : wd.inRegion u i n ↔ u.at' p.1.toNat p.2.toNat = 1 := by simp [WalkData.inRegion, hp']
    have eg : wd.inRegion g i n ↔ g.at' p.1.toNat p.2.toNat = 1 := by simp [WalkData.inRegion, hp']
    have eh : wd.inRegion h i n ↔ h.at' p.1.toNat p.2.toNat = 1 := by simp [WalkData.inRegion, hp']
    have b1 := bg p.1.toNat p.2.toNat (by omega) (by omega)
    have b2 := bh p.1.toNat p.2.toNat (by omega) (by omega)
    have b3 := bu p.1.toNat p.2.toNat (by omega) (by omega)
    unfold WalkData.mark
    simp only [eu, eg, eh]
    rcases b1 with b1 | b1 <;> rcases b2 with b2 | b2 <;> rw [b1, b2] at e <;> rw [e, b1, b2] <;> norm_num
    omega
  unfold WalkData.exposure
  rw [← Finset.sum_add_distrib]
  apply Finset.sum_congr rfl
  intro n hn
  have hn := Finset.mem_range.1 hn
  rw [hm n (by omega), hm (n + 1) (by omega)]
  ring

/-- C41: exposure is additive over disjoint regions (exact arithmetic). -/
theorem C41_additive {wd : WalkData K} {g h u : Grid Int} (hp : Proper wd) (hr : OnRaster u.rows u.cols wd) (bg : Binary g)
    (bh : Binary h) (bu : Binary u) (hd : DisjointUnion g h u) :
    ∃ rg rh ru, exposureTime Arith.exact wd g = .ok rg ∧ exposureTime Arith.exact wd h = .ok rh ∧
      exposureTime Arith.exact wd u = .ok ru ∧ ru.times.length = wd.count ∧
      ∀ i, i < wd.count → ∃ a b, rg.times[i]? = some (.fin a) ∧ rh.times[i]? = some (.fin b) ∧ ru.times[i]? = some (.fin (a + b)) := by
  have hrg : OnRaster g.rows g.cols wd := by rw [hd.1, hd.2.1]; exact hr
  have hrh : OnRaster h.rows h.cols wd := by rw [hd.2.2.1, hd.2.2.2.1]; exact hr
  obtain ⟨rg, h1, -⟩ := C42_formula hp hrg bg
  obtain ⟨rh, h2, -⟩ := C42_formula hp hrh bh
  obtain ⟨ru, h3, e⟩ := C42_formula hp hr bu
  refine ⟨rg, rh, ru, h1, h2, h3, by simp [e], fun i hi => ⟨_, _, times_get hp hrg bg h1 hi, times_get hp hrh bh h2 hi, ?_⟩⟩
  rw [times_get hp hr bu h3 hi, exposure_additive hr bg bh bu hd i hp hi]

/-- The region of all cells. -/
def fullRegion (R C : Nat) : Grid Int := ⟨R, C, fun _ _ => 1⟩

/-- C41: the exposure times to a region and to its complement add up to the travel time. -/
theorem C41_complement {wd : WalkData K} {g h : Grid Int} (hp : Proper wd) (hr : OnRaster g.rows g.cols wd) (bg : Binary g)
    (bh : Binary h) (hd : DisjointUnion g h (fullRegion g.rows g.cols)) :
    ∃ rg rh, exposureTime Arith.exact wd g = .ok rg ∧ exposureTime Arith.exact wd h = .ok rh ∧ rg.times.length = wd.count ∧
      ∀ i, i < wd.count → ∃ a b, rg.times[i]? = some (.fin a) ∧ rh.times[i]? = some (.fin b) ∧ a + b = wd.duration i := by
  have hr' : OnRaster (fullRegion g.rows g.cols).rows (fullRegion g.rows g.cols).cols wd := hr
  have bu : Binary (fullRegion g.rows g.cols) := fun _ _ _ _ => Or.inr rfl
  have hrh : OnRaster h.rows h.cols wd := by rw [hd.2.2.1, hd.2.2.2.1]; exact hr
  obtain ⟨rg, h1, e⟩ := C42_formula hp hr bg
  obtain ⟨rh, h2, -⟩ := C42_formula hp hrh bh
  refine ⟨rg, rh, h1, h2, by simp [e], fun i hi => ⟨_, _, times_get hp hr bg h1 hi, times_get hp hrh bh h2 hi, ?_⟩⟩
  rw [← exposure_additive hr' bg bh bu hd i hp hi]
  apply exposure_extremes.2
  intro n hn
  obtain ⟨p, hp'⟩ := hp.pos hi hn
  exact ⟨p, hp', rfl⟩

/-! ## C43 -/

/-- C43, for every rounding: the message names exactly the particles with at least two records whose last recorded position is in the
region, in order; there is no message iff there are none. -/
theorem C43_message {wd : WalkData K} {g : Grid Int} (hp : Proper wd) (hr : OnRaster g.rows g.cols wd) :
    ∃ res, exposureTime A wd g = .ok res ∧
      (∀ l, res.message = some l → l.Pairwise (· < ·) ∧ ∀ i, i ∈ l ↔ i < wd.count ∧ 2 ≤ wd.records i ∧ wd.inRegion g i (wd.records i - 1)) ∧
      (res.message = none ↔ ∀ i, ¬ (i < wd.count ∧ 2 ≤ wd.records i ∧ wd.inRegion g i (wd.records i - 1))) := by
  obtain ⟨res, h, -, -, hm⟩ := exposureTime_eq (A := A) hp hr
  refine ⟨res, h, ?_, ?_⟩
  · intro l hl
    rw [hm] at hl
    split_ifs at hl
    cases hl
    refine ⟨List.Pairwise.filter _ List.pairwise_lt_range, fun i => ?_⟩
    simp [inRegion_iff]
  · rw [hm]
    simp only [inRegion_iff]
    split_ifs with hc
    · simp only [false_iff]
      obtain ⟨i, hi⟩ := hc
      exact fun hh => hh i hi
    · simp only [true_iff]
      exact fun i hi => hc ⟨i, hi⟩

/-! ## Concrete cases -/

/-- A 2×3 raster whose middle and right columns form the region. -/
def demoRegion : Grid Int := ⟨2, 3, fun _ j => if j = 0 then 0 else 1⟩

/-- The left column. -/
def demoRegion' : Grid Int := ⟨2, 3, fun _ j => if j = 0 then 1 else 0⟩

/-- Three particles: one passing through, one staying inside, one with a single record. -/
def demoWalks : WalkData ℚ :=
  { xinds := [[0, 0, 0, 1, 1], [0, 1], [1]], yinds := [[0, 1, 2, 1, 0], [1, 1], [1]]
    times := [[.fin 0, .fin 2, .fin 3, .fin 7, .fin 8], [.fin 1, .fin 4], [.fin 5]], opt := [] }

theorem demoWalks_proper : Proper demoWalks where
  cols := rfl
  times := rfl
  same := by
    intro i xs ys ts h1 h2 h3
    match i with
    | 0 => cases h1; cases h2; cases h3; decide
    | 1 => cases h1; cases h2; cases h3; decide
    | 2 => cases h1; cases h2; cases h3; decide
    | n + 3 => simp [demoWalks] at h1
  fin := by
    intro i n t h
    match i, n with
    | 0, 0 => cases h; exact ⟨_, rfl⟩
    | 0, 1 => cases h; exact ⟨_, rfl⟩
    | 0, 2 => cases h; exact ⟨_, rfl⟩
    | 0, 3 => cases h; exact ⟨_, rfl⟩
    | 0, 4 => cases h; exact ⟨_, rfl⟩
    | 0, n + 5 => simp [WalkData.timeAt, demoWalks] at h
    | 1, 0 => cases h; exact ⟨_, rfl⟩
    | 1, 1 => cases h; exact ⟨_, rfl⟩
    | 1, n + 2 => simp [WalkData.timeAt, demoWalks] at h
    | 2, 0 => cases h; exact ⟨_, rfl⟩
    | 2, n + 1 => simp [WalkData.timeAt, demoWalks] at h
    | i + 3, n => simp [WalkData.timeAt, demoWalks] at h

theorem demoWalks_on : OnRaster 2 3 demoWalks := by
  intro i n p h
  match i, n with
  | 0, 0 => cases h; decide
  | 0, 1 => cases h; decide
  | 0, 2 => cases h; decide
  | 0, 3 => cases h; decide
  | 0, 4 => cases h; decide
  | 0, n + 5 => simp [WalkData.posAt, demoWalks] at h
  | 1, 0 => cases h; decide
  | 1, 1 => cases h; decide
  | 1, n + 2 => simp [WalkData.posAt, demoWalks] at h
  | 2, 0 => cases h; decide
  | 2, n + 1 => simp [WalkData.posAt, demoWalks] at h
  | i + 3, n => simp [WalkData.posAt, demoWalks] at h

theorem demoWalks_mono : TimesMono demoWalks := by
  intro i n h
  match i, n with
  | 0, 0 => decide +kernel
  | 0, 1 => decide +kernel
  | 0, 2 => decide +kernel
  | 0, 3 => decide +kernel
  | 0, n + 4 => simp [WalkData.records, demoWalks] at h; omega
  | 1, 0 => decide +kernel
  | 1, n + 1 => simp [WalkData.records, demoWalks] at h; omega
  | 2, n => simp [WalkData.records, demoWalks] at h
  | i + 3, n => simp [WalkData.records, demoWalks] at h

theorem demoRegion_binary : Binary demoRegion := by
  intro i j _ _
  simp only [demoRegion]
  split_ifs <;> simp

theorem demoRegion'_binary : Binary demoRegion' := by
  intro i j _ _
  simp only [demoRegion']
  split_ifs <;> simp

/-- The result: half of the entering and leaving steps are counted; particle 1 is still inside, particle 2 has only one record. -/
example : (exposureTime Arith.exact demoWalks demoRegion).toOption.map (fun r => (r.times, r.message)) =
    some ([.fin (13 / 2), .fin 3, .fin 0], some [1]) := by decide +kernel

example := C42_formula demoWalks_proper demoWalks_on demoRegion_binary
example := C40_bounds demoWalks_proper demoWalks_on demoRegion_binary demoWalks_mono

/-- Double precision. -/
example := C40_monotone (A := Arith.double) demoWalks_proper demoWalks_on demoWalks_mono demoRegion_binary (h := fullRegion 2 3)
  (fun _ _ _ _ => Or.inr rfl) ⟨rfl, rfl, fun _ _ _ _ _ => rfl⟩

example := C41_complement demoWalks_proper demoWalks_on demoRegion_binary demoRegion'_binary
  (⟨rfl, rfl, rfl, rfl, fun i j _ _ => by by_cases h : j = 0 <;> simp [demoRegion, demoRegion', fullRegion, h]⟩)

example := C43_message (A := Arith.double) demoWalks_proper demoWalks_on (g := demoRegion)

end Dorado
