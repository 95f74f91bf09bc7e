import Verif.Lemmas.Curve
import Verif.Props.Slices

/-!
# Cumulative exposure curves (C63, C69)
-/

set_option linter.unusedSectionVars false

namespace Dorado

variable {K : Type} [Field K] [LinearOrder K] [IsStrictOrderedRing K] [FloorRing K] {A : Arith K}

/-- The last slice of aligned walk data has the final times. -/
theorem lastSlice {wd : WalkData K} (h : AlignedWalk wd) : ∃ g, getState wd (-1) = .ok g ∧ keys g.opt = keys wd.opt ∧ g.ts.length = wd.xinds.length ∧
    ∀ i, g.ts[i]? = wd.lastTime i := by
  obtain ⟨g, hg, hs⟩ := C54_slice h (-1)
  refine ⟨g, hg, hs.fields, hs.tnum, fun i => ?_⟩
  rcases Nat.lt_or_ge i wd.xinds.length with hi | hi
  · have hx := List.getElem?_eq_getElem hi
    have hy := List.getElem?_eq_getElem (show i < wd.yinds.length by rw [h.ynum]; exact hi)
    have ht := List.getElem?_eq_getElem (show i < wd.times.length by rw [h.tnum]; exact hi)
    obtain ⟨j, hj, hjl, -, -, htj, -⟩ := hs.pick i _ _ _ (by unfold WalkData.lists; rw [hx, hy, ht]; rfl)
    rw [htj]
    unfold WalkData.lastTime
    rw [ht]
    show _ = (wd.times[i]'(by rw [h.tnum]; exact hi)).getLast?
    rw [List.getLast?_eq_getElem?]
    congr 1
    unfold RecordNo at hj
    split_ifs at hj <;> omega
  · have h1 : g.ts[i]? = none := List.getElem?_eq_none (by rw [hs.tnum]; exact hi)
    have h2 : wd.times[i]? = none := List.getElem?_eq_none (by rw [h.tnum]; exact hi)
    rw [h1]
    unfold WalkData.lastTime
    rw [h2]
    rfl

/-- The end time of the curve. -/
theorem curve_end {wd : WalkData K} (hT : ProperTimes A wd) {ts : List (Fl K)} (hts : ∀ i, ts[i]? = wd.lastTime i) (hne : ts ≠ []) (u : Bool) :
    ∃ e, (if u then maxTime ts else minTime ts) = .ok (.fin e) ∧ EndOf wd u e ∧ 0 ≤ e ∧ A.rnd e = e := by
  have hfin : ∀ t ∈ ts, ∃ x, t = .fin x ∧ 0 ≤ x ∧ A.rnd x = x := by
    intro t ht
    obtain ⟨i, hi⟩ := List.getElem?_of_mem ht
    rw [hts, WalkData.lastTime] at hi
    cases hl : wd.times[i]? with
    | none => rw [hl] at hi; cases hi
    | some l =>
      rw [hl] at hi
      exact hT l (List.mem_of_getElem? hl) t (List.mem_of_getLast? hi)
  obtain ⟨e, h1, h2, h3⟩ := endTime_ok hne (fun t ht => (hfin t ht).imp fun x hx => hx.1) u
  obtain ⟨x, hx, hx0, hxr⟩ := hfin _ h2
  cases hx
  refine ⟨e, h1, ⟨?_, fun i x hx => ?_⟩, hx0, hxr⟩
  · obtain ⟨i, hi⟩ := List.getElem?_of_mem h2
    exact ⟨i, by rw [← hts]; exact hi⟩
  · exact h3 x (List.mem_of_getElem? (by rw [hts]; exact hx))

/-! ## The two functions as a curve followed by a smoothing step -/

theorem plot_inv {wd : WalkData K} {expo : List (Fl K)} {td : K} {nbins : Int} {u th : Bool} {r : ExposurePlot K}
    (h : plotExposureTime A wd expo td nbins u th = .ok r) :
    ∃ g, getState wd (-1) = .ok g ∧ g.opt ≠ [] ∧ exposureCurve A wd.xinds.length g.ts expo u = .ok r.curve ∧ smoothCurve A r.curve nbins = .ok r.smooth ∧
      (th = true → mapE (levelTime A r.curve td) (levels A) = .ok r.reported) ∧ 2 ≤ nbins ∧
      densityCurve A r.curve r.smooth.1 td = .ok r.density := by
  have hsplit : ∃ g, getState wd (-1) = .ok g ∧ ∃ a, unpack4 g = .ok a ∧ ∃ c, exposureCurve A wd.xinds.length a.2.2.1 expo u = .ok c ∧
      ∃ sm, smoothCurve A c nbins = .ok sm ∧ ∃ rep, (if th = true then mapE (levelTime A c td) (levels A) else .ok []) = .ok rep ∧
      ∃ d, densityCurve A c sm.1 td = .ok d ∧ ({ curve := c, smooth := sm, reported := rep, density := d } : ExposurePlot K) = r := by
    unfold plotExposureTime at h
    cases th <;> simpa only [Bool.false_eq_true, if_false, if_true, bind_ok, pure_ok] using h
  clear h
  obtain ⟨g, hg, a, ha, c, hc, sm, hsm, rep, hrep, d, hd, rfl⟩ := hsplit
  unfold unpack4 at ha
  by_cases ho : g.opt = []
  · rw [if_pos ho] at ha; cases ha
  rw [if_neg ho] at ha
  cases ha
  refine ⟨g, hg, ho, hc, hsm, fun ht => by rw [ht, if_pos rfl] at hrep; exact hrep, ?_, hd⟩
  unfold densityCurve at hd
  simp only [bind_ok, listGet_ok] at hd
  obtain ⟨ys, -, t1, ht1, -⟩ := hd
  unfold smoothCurve at hsm
  by_cases hb : nbins < 0
  · rw [if_pos hb] at hsm; cases hsm
  rw [if_neg hb] at hsm
  simp only [bind_ok, pure_ok] at hsm
  obtain ⟨zs, -, rfl⟩ := hsm
  have := (List.getElem?_eq_some_iff.1 ht1).1
  simp only [linspace0, List.length_map, List.length_range] at this
  omega

theorem thresholds_inv {wd : WalkData K} {expo : List (Fl K)} {td : K} {nbins : Int} {u : Bool} {r : ThresholdPlot K}
    (h : plotExposureTimeThresholds A wd expo td nbins u = .ok r) :
    ∃ g, getState wd (-1) = .ok g ∧ g.opt = [] ∧ exposureCurve A wd.xinds.length g.ts expo u = .ok r.curve ∧ smoothCurve A r.curve nbins = .ok r.smooth ∧
      mapE (smoothLevel A r.smooth td) (levels A) = .ok r.reported := by
  unfold plotExposureTimeThresholds at h
  simp only [bind_ok, pure_ok] at h
  obtain ⟨g, hg, a, ha, c, hc, sm, hsm, rep, hrep, rfl⟩ := h
  unfold unpack3 at ha
  by_cases ho : g.opt = []
  · rw [if_pos ho] at ha
    cases ha
    exact ⟨g, hg, ho, hc, hsm, hrep⟩
  · rw [if_neg ho] at ha; cases ha

/-! ## C63 -/

/-- The vectors computed by `plot_exposure_time` form a sub-distribution function of the counted exposure times: any rounding, any aligned walk
data with proper times. -/
theorem C63_curve {wd : WalkData K} (h : AlignedWalk wd) (hT : ProperTimes A wd) {expo : List (Fl K)} (hlen : expo.length ≤ wd.xinds.length)
    {td : K} {nbins : Int} {u th : Bool} {r : ExposurePlot K} (hr : plotExposureTime A wd expo td nbins u th = .ok r) :
    ∃ e, EndOf wd u e ∧ SubDistribution A expo wd.xinds.length e r.curve := by
  obtain ⟨g, hg, -, hc, -⟩ := plot_inv hr
  obtain ⟨g', hg', -, hn, hts⟩ := lastSlice h
  rw [hg] at hg'
  cases hg'
  have hne : g.ts ≠ [] := by
    intro h0
    rw [h0] at hc
    cases u <;> cases hc
  obtain ⟨e, he, hE, h0, hr⟩ := curve_end hT hts hne u
  refine ⟨e, hE, curve_ok ?_ he h0 hr hlen hc⟩
  rw [← hn]
  exact List.length_pos_iff.2 hne

/-- The same for `plot_exposure_time_thresholds`. -/
theorem C63_thresholds {wd : WalkData K} (h : AlignedWalk wd) (hT : ProperTimes A wd) {expo : List (Fl K)} (hlen : expo.length ≤ wd.xinds.length)
    {td : K} {nbins : Int} {u : Bool} {r : ThresholdPlot K} (hr : plotExposureTimeThresholds A wd expo td nbins u = .ok r) :
    ∃ e, EndOf wd u e ∧ SubDistribution A expo wd.xinds.length e r.curve := by
  obtain ⟨g, hg, -, hc, -⟩ := thresholds_inv hr
  obtain ⟨g', hg', -, hn, hts⟩ := lastSlice h
  rw [hg] at hg'
  cases hg'
  have hne : g.ts ≠ [] := by
    intro h0
    rw [h0] at hc
    cases u <;> cases hc
  obtain ⟨e, he, hE, h0, hr⟩ := curve_end hT hts hne u
  refine ⟨e, hE, curve_ok ?_ he h0 hr hlen hc⟩
  rw [← hn]
  exact List.length_pos_iff.2 hne

theorem linspace_fin (A : Arith K) (e : K) (n : Nat) : ∀ x ∈ linspace0 A (.fin e) n, x ≠ .nan := by
  intro x hx
  obtain ⟨k, hk, rfl⟩ := List.mem_map.1 hx
  rw [List.mem_range] at hk
  split_ifs with h1 h2
  · simp
  · simp
  · have h3 : (1 : K) ≤ A.rnd ((n - 1 : Nat) : K) := by
      conv_lhs => rw [← A.one]
      exact A.mono _ _ (by exact_mod_cast (by omega : 1 ≤ n - 1))
    unfold Arith.div
    simp only
    rw [if_neg (by linarith)]
    simp [Arith.mul]

/-- Values of a smoothed curve. -/
theorem smooth_values {n : Nat} (hn : 0 < n) {ends expo : List (Fl K)} {u : Bool} {e : K} (he : (if u then maxTime ends else minTime ends) = .ok (.fin e))
    (h0 : 0 ≤ e) (hre : A.rnd e = e) (hlen : expo.length ≤ n) {c : Curve K} (hc : exposureCurve A n ends expo u = .ok c) {nbins : Int}
    {sm : List (Fl K) × List (Fl K)} (hsm : smoothCurve A c nbins = .ok sm) :
    (sm.1.length : Int) = nbins ∧ sm.2 = sm.1.map fun x => fraction A (countUpTo A e expo x) n := by
  have hsd := curve_ok hn he h0 hre hlen hc
  obtain ⟨l, h1, h2, h3, h4, h5, hp, h6⟩ := curve_eq (A := A) (expo := expo) hn he
  rw [h6] at hc
  cases hc
  have hs := hsd.sorted
  simp only [List.pairwise_map, Fl.le, decide_eq_true_eq] at hs
  unfold smoothCurve at hsm
  by_cases hb : nbins < 0
  · rw [if_pos hb] at hsm; cases hsm
  rw [if_neg hb] at hsm
  simp only [bind_ok, pure_ok] at hsm
  obtain ⟨ys, hys, rfl⟩ := hsm
  refine ⟨by simp [linspace0]; omega, ?_⟩
  apply List.ext_getElem?
  intro i
  simp only
  have hl := mapE_length hys
  rcases Nat.lt_or_ge i (linspace0 A (.fin e) nbins.toNat).length with hi | hi
  · have hx := List.getElem?_eq_getElem hi
    obtain ⟨y, hy, hxy⟩ := mapE_get hys hx
    rw [List.getElem?_map, hx, hy]
    simp only [Option.map_some, Option.some.injEq]
    rw [← h4]
    exact prevInterp_curve hs hxy (linspace_fin A e _ _ (List.getElem_mem hi))
  · rw [List.getElem?_eq_none (by omega), List.getElem?_eq_none (by simpa using hi)]

/-- The smoothed curve plotted has `nbins` points, and its value at time `x` is the fraction of the particles with a counted exposure time up to
`x`. -/
theorem C63_smooth {wd : WalkData K} (h : AlignedWalk wd) (hT : ProperTimes A wd) {expo : List (Fl K)} (hlen : expo.length ≤ wd.xinds.length)
    {td : K} {nbins : Int} {u th : Bool} {r : ExposurePlot K} (hr : plotExposureTime A wd expo td nbins u th = .ok r) :
    ∃ e, EndOf wd u e ∧ (r.smooth.1.length : Int) = nbins ∧ r.smooth.2 = r.smooth.1.map fun x => fraction A (countUpTo A e expo x) wd.xinds.length := by
  obtain ⟨g, hg, -, hc, hsm, -⟩ := plot_inv hr
  obtain ⟨g', hg', -, hn, hts⟩ := lastSlice h
  rw [hg] at hg'
  cases hg'
  have hne : g.ts ≠ [] := by
    intro h0
    rw [h0] at hc
    cases u <;> cases hc
  obtain ⟨e, he, hE, h0, hr⟩ := curve_end hT hts hne u
  refine ⟨e, hE, smooth_values ?_ he h0 hr hlen hc hsm⟩
  rw [← hn]
  exact List.length_pos_iff.2 hne

/-! ## C69 -/

theorem levels_pos (A : Arith K) : ∀ lv ∈ levels A, 0 < lv := by
  intro lv hlv
  have : ∀ x : K, 1 / 10 ^ 100 ≤ x → 0 < A.rnd x := fun x hx => A.tiny.trans_le (A.mono _ _ hx)
  simp only [levels, List.mem_cons, List.not_mem_nil, or_false] at hlv
  rcases hlv with rfl | rfl | rfl <;> exact this _ (by norm_num)

/-- The three reported times: for each level either the smallest counted exposure time at which the computed fraction reaches the level, or (if the
level is missed by at most the tolerance 1e-12) the end time, or "not reached"; any rounding. -/
theorem C69_reported {wd : WalkData K} (h : AlignedWalk wd) (hT : ProperTimes A wd) {expo : List (Fl K)}
    {td : K} {nbins : Int} {u : Bool} {r : ExposurePlot K} (hr : plotExposureTime A wd expo td nbins u true = .ok r) :
    ∃ e, EndOf wd u e ∧ r.reported.length = 3 ∧ ∀ (i : Nat) lv, [A.rnd (1 / 2), A.rnd (3 / 4), A.rnd (9 / 10)][i]? = some lv →
      (Fl.le (.fin lv) (fraction A (countAll A e expo) wd.xinds.length) = true →
        ∃ t, FirstReach A expo wd.xinds.length e lv t ∧ r.reported[i]? = some (some (A.div t (.fin td)))) ∧
      (Fl.le (.fin lv) (fraction A (countAll A e expo) wd.xinds.length) = false → r.reported[i]? = some
        (if Fl.le (.fin lv) (A.add (fraction A (countAll A e expo) wd.xinds.length) (.fin (A.rnd (1 / 1000000000000)))) = true
          then some (A.div (.fin e) (.fin td)) else none)) := by
  obtain ⟨g, hg, -, hc, hsm, hrep, -, -⟩ := plot_inv hr
  obtain ⟨g', hg', -, hn, hts⟩ := lastSlice h
  rw [hg] at hg'
  cases hg'
  have hne : g.ts ≠ [] := by
    intro h0
    rw [h0] at hc
    cases u <;> cases hc
  obtain ⟨e, he, hE, h0, hr⟩ := curve_end hT hts hne u
  have hpos : 0 < wd.xinds.length := by
    rw [← hn]
    exact List.length_pos_iff.2 hne
  refine ⟨e, hE, by rw [mapE_length (hrep rfl)]; rfl, fun i lv hlv => ?_⟩
  obtain ⟨y, hy, hly⟩ := mapE_get (hrep rfl) hlv
  obtain ⟨ha, hb⟩ := levelTime_spec hpos he hc (levels_pos A lv (List.mem_of_getElem? hlv)) td
  constructor
  · intro hle
    obtain ⟨t, ht, hlt⟩ := ha hle
    rw [hly] at hlt
    cases hlt
    exact ⟨t, ht, hy⟩
  · intro hle
    have := hb hle
    rw [hly] at this
    cases this
    exact hy

/-- Exact arithmetic, fewer than 10^10 particles: level `lv` is reported exactly if at least `lv` of the particles have a counted exposure time, and
the time reported is the smallest time up to which the exposure times of at least `lv` of the particles are counted. -/
theorem C69_exact {wd : WalkData K} (h : AlignedWalk wd) (hT : ProperTimes (Arith.exact (K := K)) wd) {expo : List (Fl K)}
    (hmany : wd.xinds.length ≤ 10 ^ 10) {td : K} (htd : td ≠ 0) {nbins : Int} {u : Bool} {r : ExposurePlot K}
    (hr : plotExposureTime Arith.exact wd expo td nbins u true = .ok r) :
    ∃ e, EndOf wd u e ∧ r.reported.length = 3 ∧ ∀ (i : Nat) lv, [(1 / 2 : K), 3 / 4, 9 / 10][i]? = some lv →
      (lv * wd.xinds.length ≤ countAll Arith.exact e expo → ∃ t, (.fin t ∈ expo ∧ Counted Arith.exact e (.fin t)) ∧
        lv * wd.xinds.length ≤ countUpTo Arith.exact e expo (.fin t) ∧
        (∀ x, .fin x ∈ expo → Counted Arith.exact e (.fin x) → lv * wd.xinds.length ≤ countUpTo Arith.exact e expo (.fin x) → t ≤ x) ∧
        r.reported[i]? = some (some (.fin (t / td)))) ∧
      (countAll Arith.exact e expo < lv * wd.xinds.length → r.reported[i]? = some none) := by
  obtain ⟨e, hE, hl, hall⟩ := C69_reported h hT hr
  have hpos : 0 < wd.xinds.length := by
    obtain ⟨i, hi⟩ := hE.1
    by_contra hc
    have hz : wd.times = [] := List.length_eq_zero_iff.1 (by rw [h.tnum]; omega)
    unfold WalkData.lastTime at hi
    rw [hz] at hi
    cases hi
  have hposK : (0 : K) < wd.xinds.length := by exact_mod_cast hpos
  have hfr : ∀ (k : Nat) (lv : K), Fl.le (.fin lv) (fraction Arith.exact k wd.xinds.length) = true ↔ lv * wd.xinds.length ≤ k := by
    intro k lv
    show decide (lv ≤ (k : K) / (wd.xinds.length : K)) = true ↔ _
    rw [decide_eq_true_eq, le_div_iff₀ hposK]
  refine ⟨e, hE, hl, fun i lv hlv => ?_⟩
  obtain ⟨ha, hb⟩ := hall i lv hlv
  constructor
  · intro hle
    obtain ⟨t, ⟨ht1, ht2, ht3⟩, ht4⟩ := ha ((hfr _ _).2 hle)
    obtain ⟨x, rfl, -⟩ := id ht1.2
    refine ⟨x, ht1, (hfr _ _).1 ht2, fun y hy hy' hy'' => ?_, ?_⟩
    · have := ht3 _ hy hy' ((hfr _ _).2 hy'')
      simpa [Fl.le] using this
    · rw [ht4]
      simp only [Arith.div, if_neg htd]
      rfl
  · intro hlt
    have hf : Fl.le (.fin lv) (fraction Arith.exact (countAll Arith.exact e expo) wd.xinds.length) = false := by
      rw [Bool.eq_false_iff]
      intro hc
      exact absurd ((hfr _ _).1 hc) (not_le.2 hlt)
    rw [hb hf, if_neg]
    show ¬ (decide (lv ≤ (countAll Arith.exact e expo : K) / (wd.xinds.length : K) + 1 / 1000000000000) = true)
    rw [decide_eq_true_eq, not_le]
    have h20 : ∃ m : Nat, lv * 20 = m := by
      match i, hlv with
      | 0, hlv => cases hlv; exact ⟨10, by norm_num⟩
      | 1, hlv => cases hlv; exact ⟨15, by norm_num⟩
      | 2, hlv => cases hlv; exact ⟨18, by norm_num⟩
    obtain ⟨m, hm⟩ := h20
    have hN : ((wd.xinds.length : K)) ≤ 10 ^ 10 := by exact_mod_cast hmany
    have hint : countAll Arith.exact e expo * 20 + 1 ≤ m * wd.xinds.length := by
      have : ((countAll Arith.exact e expo * 20 : Nat) : K) < ((m * wd.xinds.length : Nat) : K) := by
        push_cast
        rw [← hm]
        linarith
      exact_mod_cast this
    have hintK : (countAll Arith.exact e expo : K) * 20 + 1 ≤ lv * 20 * wd.xinds.length := by
      rw [hm]
      exact_mod_cast hint
    have : (countAll Arith.exact e expo : K) / (wd.xinds.length : K) < lv - 1 / 1000000000000 := by
      rw [div_lt_iff₀ hposK]
      linarith
    linarith

/-! ### `plot_exposure_time_thresholds` -/

theorem prevInterp_bound {A : Arith K} {n : Nat} {l : List K} {e : K} (hs : (0 :: l ++ [e]).Pairwise (· ≤ ·)) {x : K} {y : Fl K}
    (h : prevInterp (((0 :: l ++ [e]).map Fl.fin).zip ((List.range (l.length + 1)).map (fun k => fraction A k n) ++ [fraction A l.length n])) (.fin x) =
      .ok y) : 0 ≤ x ∧ x ≤ e := by
  set T := (0 :: l ++ [e]).map (Fl.fin (K := K)) with hT
  set G := (List.range (l.length + 1)).map (fun k => fraction A k n) ++ [fraction A l.length n] with hG
  have hTs : T.Pairwise fun a b => Fl.le a b = true := by
    rw [hT, List.pairwise_map]
    simpa [Fl.le] using hs
  have hz : (T.zip G).insertionSort (fun a b => Fl.le a.1 b.1 = true) = T.zip G := List.Pairwise.insertionSort_eq (zip_pairwise hTs)
  have hcons : ∃ G', T.zip G = (.fin 0, fraction A 0 n) :: G' := by
    refine ⟨(List.map Fl.fin (l ++ [e])).zip ((List.range l.length).map (fun k => fraction A (k + 1) n) ++ [fraction A l.length n]), ?_⟩
    rw [hT, hG, List.range_succ_eq_map]
    simp [Function.comp_def]
  have hlast : (T.zip G).getLast? = some (.fin e, fraction A l.length n) := by
    rw [hT, hG, List.map_append, List.zip_append (by simp)]
    simp
  unfold prevInterp at h
  rw [hz] at h
  obtain ⟨G', hG'⟩ := hcons
  simp only [hlast] at h
  rw [hG'] at h
  simp only at h
  rw [← hG'] at h
  split at h
  · cases h
  rename_i hb
  simp only [Fl.lt, Bool.or_eq_true, decide_eq_true_eq, not_or, not_lt] at hb
  exact hb

theorem linspace_get (A : Arith K) (e : K) {n k : Nat} (hk : k < n) :
    (linspace0 A (.fin e) n)[k]? = some (.fin (if k + 1 = n ∧ 1 < n then e else if n = 1 then 0 else
      A.rnd (A.rnd (k : K) * A.rnd (e / A.rnd ((n - 1 : Nat) : K))))) := by
  unfold linspace0
  rw [List.getElem?_map, List.getElem?_range hk]
  simp only [Option.map_some, Option.some.injEq]
  split_ifs with h1 h2
  · rfl
  · rfl
  · have h3 : (1 : K) ≤ A.rnd ((n - 1 : Nat) : K) := by
      conv_lhs => rw [← A.one]
      exact A.mono _ _ (by exact_mod_cast (by omega : 1 ≤ n - 1))
    unfold Arith.div
    simp only
    rw [if_neg (by linarith)]
    rfl

theorem countUpTo_mono (A : Arith K) (e : K) (expo : List (Fl K)) {x y : Fl K} (h : Fl.le x y = true) : countUpTo A e expo x ≤ countUpTo A e expo y := by
  unfold countUpTo
  apply List.countP_mono_left
  intro z _ hz
  rw [Bool.and_eq_true] at hz ⊢
  exact ⟨hz.1, Fl.le_trans' hz.2 h⟩

/-- The times of a smoothed curve increase. -/
theorem smooth_sorted {n : Nat} (hn : 0 < n) {ends expo : List (Fl K)} {u : Bool} {e : K} (he : (if u then maxTime ends else minTime ends) = .ok (.fin e))
    (h0 : 0 ≤ e) (hre : A.rnd e = e) (hlen : expo.length ≤ n) {c : Curve K} (hc : exposureCurve A n ends expo u = .ok c) {nbins : Int}
    {sm : List (Fl K) × List (Fl K)} (hsm : smoothCurve A c nbins = .ok sm) :
    (∀ x ∈ sm.1, ∃ y, x = .fin y ∧ 0 ≤ y ∧ y ≤ e) ∧ ∀ (a b : Nat) x y, a ≤ b → sm.1[a]? = some x → sm.1[b]? = some y → Fl.le x y = true := by
  have hsd := curve_ok hn he h0 hre hlen hc
  obtain ⟨l, h1, h2, h3, h4, h5, hp, h6⟩ := curve_eq (A := A) (expo := expo) hn he
  rw [h6] at hc
  cases hc
  have hs := hsd.sorted
  simp only [List.pairwise_map, Fl.le, decide_eq_true_eq] at hs
  unfold smoothCurve at hsm
  by_cases hb : nbins < 0
  · rw [if_pos hb] at hsm; cases hsm
  rw [if_neg hb] at hsm
  simp only [bind_ok, pure_ok] at hsm
  obtain ⟨ys, hys, rfl⟩ := hsm
  have hlenl : (linspace0 A (.fin e) nbins.toNat).length = nbins.toNat := by simp [linspace0]
  have hbd : ∀ (i : Nat) x, (linspace0 A (.fin e) nbins.toNat)[i]? = some (.fin x) → 0 ≤ x ∧ x ≤ e := by
    intro i x hx
    obtain ⟨y, hy, hxy⟩ := mapE_get hys hx
    exact prevInterp_bound hs hxy
  constructor
  · intro x hx
    obtain ⟨i, hi⟩ := List.getElem?_of_mem hx
    have hin : i < nbins.toNat := by rw [← hlenl]; exact (List.getElem?_eq_some_iff.1 hi).1
    have := linspace_get A e hin
    simp only at hi
    rw [this] at hi
    cases hi
    exact ⟨_, rfl, hbd i _ this⟩
  · intro a b x y hab hx hy
    simp only at hx hy
    have hbn : b < nbins.toNat := by rw [← hlenl]; exact (List.getElem?_eq_some_iff.1 hy).1
    have han : a < nbins.toNat := by omega
    have hX := linspace_get A e han
    have hY := linspace_get A e hbn
    rw [hX] at hx
    rw [hY] at hy
    have hbx := hbd a _ hX
    cases hx
    cases hy
    simp only [Fl.le, decide_eq_true_eq]
    by_cases hlb : b + 1 = nbins.toNat ∧ 1 < nbins.toNat
    · rw [if_pos hlb]
      exact hbx.2
    · rw [if_neg hlb]
      have hla : ¬ (a + 1 = nbins.toNat ∧ 1 < nbins.toNat) := by omega
      rw [if_neg hla]
      split_ifs with h7
      · exact le_refl _
      · apply A.mono
        have h8 : A.rnd (a : K) ≤ A.rnd (b : K) := A.mono _ _ (by exact_mod_cast hab)
        have h9 : (0 : K) ≤ A.rnd (e / A.rnd ((nbins.toNat - 1 : Nat) : K)) := by
          conv_lhs => rw [← A.zero]
          apply A.mono
          have : (0 : K) ≤ A.rnd ((nbins.toNat - 1 : Nat) : K) := by
            conv_lhs => rw [← A.zero]
            exact A.mono _ _ (by positivity)
          positivity
        gcongr

/-- The whole numbers reported by `plot_exposure_time_thresholds`: for each level the first time of the smoothed curve at which the fraction of
counted exposure times reaches the level, in units of `timedelta` and rounded down; any rounding. -/
theorem C69_thresholds {wd : WalkData K} (h : AlignedWalk wd) (hT : ProperTimes A wd) {expo : List (Fl K)} (hlen : expo.length ≤ wd.xinds.length)
    {td : K} (htd : 0 < td) {nbins : Int} {u : Bool} {r : ThresholdPlot K} (hr : plotExposureTimeThresholds A wd expo td nbins u = .ok r) :
    ∃ e, EndOf wd u e ∧ r.reported.length = 3 ∧ ∀ (i : Nat) lv, [A.rnd (1 / 2), A.rnd (3 / 4), A.rnd (9 / 10)][i]? = some lv →
      ∃ (k : Nat) (x : K), r.smooth.1[k]? = some (.fin x) ∧ r.reported[i]? = some ⌊A.rnd (x / td)⌋ ∧
        Fl.le (.fin lv) (fraction A (countUpTo A e expo (.fin x)) wd.xinds.length) = true ∧
        ∀ (m : Nat) y, m < k → r.smooth.1[m]? = some y → Fl.lt (fraction A (countUpTo A e expo y) wd.xinds.length) (.fin lv) = true := by
  obtain ⟨g, hg, -, hc, hsm, hrep⟩ := thresholds_inv hr
  obtain ⟨g', hg', -, hn, hts⟩ := lastSlice h
  rw [hg] at hg'
  cases hg'
  have hne : g.ts ≠ [] := by
    intro h0
    rw [h0] at hc
    cases u <;> cases hc
  obtain ⟨e, he, hE, h0, hre⟩ := curve_end hT hts hne u
  have hpos : 0 < wd.xinds.length := by
    rw [← hn]
    exact List.length_pos_iff.2 hne
  obtain ⟨hl, hv⟩ := smooth_values hpos he h0 hre hlen hc hsm
  obtain ⟨hfin, hsorted⟩ := smooth_sorted hpos he h0 hre hlen hc hsm
  refine ⟨e, hE, by rw [mapE_length hrep]; rfl, fun i lv hlv => ?_⟩
  obtain ⟨z, hz, hlz⟩ := mapE_get hrep hlv
  unfold smoothLevel at hlz
  simp only [bind_ok, listGet_ok] at hlz
  obtain ⟨t, ht, hlz⟩ := hlz
  have hlen2 : r.smooth.2.length = r.smooth.1.length := by rw [hv, List.length_map]
  have hgetD : ∀ (m : Nat) y, r.smooth.1[m]? = some y → r.smooth.2.getD m .nan = fraction A (countUpTo A e expo y) wd.xinds.length := by
    intro m y hy
    rw [List.getD_eq_getElem?_getD, hv, List.getElem?_map, hy]
    rfl
  have hss := searchSorted_spec (fun m => Fl.lt (r.smooth.2.getD m .nan) (.fin lv)) r.smooth.2.length (by
    intro a b hab hb hlt
    have hb1 := List.getElem?_eq_getElem (show b < r.smooth.1.length by omega)
    have ha1 := List.getElem?_eq_getElem (show a < r.smooth.1.length by omega)
    rw [hgetD b _ hb1] at hlt
    rw [hgetD a _ ha1]
    have := fraction_le A (countUpTo_mono A e expo (hsorted a b _ _ hab ha1 hb1)) hpos
    simp only [fraction, Fl.le, Fl.lt, decide_eq_true_eq] at *
    exact lt_of_le_of_lt this hlt)
  simp only at hss
  generalize searchSorted (fun m => Fl.lt (r.smooth.2.getD m .nan) (.fin lv)) r.smooth.2.length = k at *
  obtain ⟨hk1, hk2, hk3⟩ := hss
  obtain ⟨x, rfl, hx0, -⟩ := hfin t (List.mem_of_getElem? ht)
  refine ⟨k, x, ht, ?_, ?_, ?_⟩
  · have hq : A.div (.fin x) (.fin td) = .fin (A.rnd (x / td)) := by
      unfold Arith.div
      simp only
      rw [if_neg htd.ne']
    rw [hq] at hlz
    simp only [pure_ok] at hlz
    have : (0 : K) ≤ A.rnd (x / td) := by
      conv_lhs => rw [← A.zero]
      exact A.mono _ _ (by positivity)
    rw [if_pos this] at hlz
    rw [hz, ← hlz]
  · have hkl : k < r.smooth.1.length := (List.getElem?_eq_some_iff.1 ht).1
    have := hk3 k le_rfl (by omega)
    rw [hgetD k _ ht] at this
    simpa [fraction, Fl.lt, Fl.le] using this
  · intro m y hm hy
    have := hk2 m hm
    rwa [hgetD m _ hy] at this

/-- Six particles with a tracked variable. -/
def curveDemo : WalkData ℚ :=
  { xinds := List.replicate 6 [1, 2], yinds := List.replicate 6 [3, 3]
    times := [[.fin 0, .fin 80], [.fin 0, .fin 90], [.fin 0, .fin 100], [.fin 0, .fin 110], [.fin 0, .fin 95], [.fin 0, .fin 97]]
    opt := [("depth", List.replicate 6 [.num (.fin 1), .num (.fin 2)])] }

theorem curveDemo_rows : curveDemo = ofRows ["depth"] ([80, 90, 100, 110, 95, 97].map fun t => ⟨[1, 2], [3, 3], [.fin 0, .fin t],
    fun _ => [.num (.fin 1), .num (.fin 2)]⟩) := rfl

theorem curveDemo_aligned : AlignedWalk curveDemo := by
  rw [curveDemo_rows]
  refine rows_aligned (by decide) fun r hr => ?_
  obtain ⟨t, -, rfl⟩ := List.mem_map.1 hr
  exact ⟨⟨rfl, rfl, by simp⟩, fun _ _ => rfl⟩

theorem curveDemo_proper : ProperTimes Arith.exact curveDemo := by
  intro ts hts t ht
  rw [curveDemo_rows] at hts
  simp only [ofRows, List.map_cons, List.map_nil, List.mem_cons, List.not_mem_nil, or_false] at hts
  rcases hts with rfl | rfl | rfl | rfl | rfl | rfl <;>
  · simp only [List.mem_cons, List.not_mem_nil, or_false] at ht
    rcases ht with rfl | rfl <;> exact ⟨_, rfl, by norm_num, rfl⟩

/-- Exposure times 30, 0, 20, 79.5, 20, 20: the zero and the one above 79.2 are not counted; E50 is 20 (3 of 6 particles), E75 and E90 are not
reached. -/
example : plotExposureTime Arith.exact curveDemo [.fin 30, .fin 0, .fin 20, .fin (795 / 10), .fin 20, .fin 20] 2 5 false true =
    .ok { curve := { times := [.fin 0, .fin 20, .fin 20, .fin 20, .fin 30, .fin 80]
                     fracs := [.fin 0, .fin (1 / 6), .fin (1 / 3), .fin (1 / 2), .fin (2 / 3), .fin (2 / 3)], endTime := .fin 80 }
          smooth := ([.fin 0, .fin 20, .fin 40, .fin 60, .fin 80], [.fin 0, .fin (1 / 2), .fin (2 / 3), .fin (2 / 3), .fin (2 / 3)])
          reported := [some (.fin 10), none, none]
          density := [.fin (1 / 20), .fin (1 / 30), .fin (1 / 120), .fin 0, .fin 0] } := by decide +kernel

/-- The same with the largest final time as the end: one more exposure time is counted. -/
example : (plotExposureTime Arith.exact curveDemo [.fin 30, .fin 0, .fin 20, .fin (795 / 10), .fin 20, .fin 20] 2 5 true true).toOption.map
    (fun r => (r.curve.endTime, r.reported)) = some (.fin 110, [some (.fin 10), some (.fin (795 / 20)), none]) := by decide +kernel

/-- Without optional variables `plot_exposure_time_thresholds` works, if the curve reaches 90 per cent. -/
example : (plotExposureTimeThresholds Arith.exact { curveDemo with opt := [] } [.fin 30, .fin 1, .fin 20, .fin 79, .fin 20, .fin 20] 2 5 false).toOption.map
    (fun r => (r.curve.fracs, r.reported)) = some ([.fin 0, .fin (1 / 6), .fin (1 / 3), .fin (1 / 2), .fin (2 / 3), .fin (5 / 6), .fin 1, .fin 1],
      [10, 20, 40]) := by decide +kernel

end Dorado
