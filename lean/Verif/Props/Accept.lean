import Verif.Props.Curve
import Verif.Props.Safety

/-!
# Which walk data the plotting helpers accept (C65)

`get_state` and `get_time_state` return three values for walk data without optional variables and four otherwise; each caller unpacks a fixed number.
-/

set_option linter.unusedSectionVars false

namespace Dorado

variable {K : Type} [Field K] [LinearOrder K] [IsStrictOrderedRing K] [FloorRing K] {A : Arith K} {F : Fun K A}

theorem keys_nil {α : Type} {l : List (String × α)} : keys l = [] ↔ l = [] := by
  unfold keys
  exact List.map_eq_nil_iff

theorem unpack3_iff {wd : WalkData K} {g : GotState K} (hg : keys g.opt = keys wd.opt) : (∃ r, unpack3 g = .ok r) ↔ wd.opt = [] := by
  rw [← keys_nil, ← hg, keys_nil]
  unfold unpack3
  split_ifs with ho <;> simp [ho]

/-! ## `plot_state` -/

/-- `plot_state` accepts aligned walk data exactly if they have no optional variables. Missing from C65: walk data with optional variables. -/
theorem C65_state_partial {wd : WalkData K} (h : AlignedWalk wd) (k : Int) {target : Option (Fl K)}
    (hT : ∀ T, target = some T → ∀ ts ∈ wd.times, ∀ t ∈ ts, A.sub t T ≠ .nan) :
    (∃ r, plotState A wd k target = .ok r) ↔ wd.opt = [] := by
  unfold plotState
  cases target with
  | none =>
    obtain ⟨g, hg, hs⟩ := C54_slice h k
    rw [← unpack3_iff hs.fields]
    simp only [hg, ok_bind, bind_ok, pure_ok]
    exact ⟨fun ⟨r, a, ha, _⟩ => ⟨a, ha⟩, fun ⟨a, ha⟩ => ⟨_, a, ha, rfl⟩⟩
  | some t =>
    obtain ⟨g, hg, hs⟩ := C55_nearest (A := A) h (hT t rfl)
    rw [← unpack3_iff hs.fields]
    simp only [hg, ok_bind, bind_ok, pure_ok]
    exact ⟨fun ⟨r, a, ha, _⟩ => ⟨a, ha⟩, fun ⟨a, ha⟩ => ⟨_, a, ha, rfl⟩⟩

/-- The dots at rows `xs` and columns `ys`: one per particle, at the position of the record of the particle selected by `sel`. -/
def DotsOf (wd : WalkData K) (xs ys : List Int) (sel : List (Fl K) → Nat → Prop) : Prop :=
  xs.length = wd.xinds.length ∧ ys.length = wd.xinds.length ∧ ∀ i hx hy ts, wd.lists i = some (hx, hy, ts) →
    ∃ j, sel ts j ∧ j < ts.length ∧ xs[i]? = hx[j]? ∧ ys[i]? = hy[j]?

/-- Without target time `plot_state` draws, for aligned walk data without optional variables, every particle at its record `k` (the last one if it
has none). -/
theorem C54_plot_state {wd : WalkData K} (h : AlignedWalk wd) (ho : wd.opt = []) (k : Int) :
    ∃ xs ys, plotState A wd k none = .ok (xs, ys) ∧ DotsOf wd xs ys fun ts j => RecordNo ts.length k j := by
  obtain ⟨g, hg, hs⟩ := C54_slice h k
  refine ⟨g.xs, g.ys, ?_, hs.xnum, hs.ynum, fun i hx hy ts hi => ?_⟩
  · have hgo : g.opt = [] := by
      have := hs.fields
      rw [ho] at this
      simpa [keys] using this
    simp only [plotState, hg, ok_bind, unpack3, hgo, if_true]
    rfl
  · obtain ⟨j, h1, h2, h3, h4, -⟩ := hs.pick i hx hy ts hi
    exact ⟨j, h1, h2, h3, h4⟩

/-- With a target time `plot_state` draws every particle at the first of the records nearest to this time. -/
theorem C55_plot_state {wd : WalkData K} (h : AlignedWalk wd) (ho : wd.opt = []) (k : Int) {T : Fl K}
    (hT : ∀ ts ∈ wd.times, ∀ t ∈ ts, A.sub t T ≠ .nan) :
    ∃ xs ys, plotState A wd k (some T) = .ok (xs, ys) ∧ DotsOf wd xs ys (FirstNearest fun t => Fl.abs (A.sub t T)) := by
  obtain ⟨g, hg, hs⟩ := C55_nearest (A := A) h hT
  refine ⟨g.xs, g.ys, ?_, hs.xnum, hs.ynum, fun i hx hy ts hi => ?_⟩
  · have hgo : g.opt = [] := by
      have := hs.fields
      rw [ho] at this
      simpa [keys] using this
    simp only [plotState, hg, ok_bind, unpack3, hgo, if_true]
    rfl
  · obtain ⟨j, h1, h2, h3, h4, -⟩ := hs.pick i hx hy ts hi
    exact ⟨j, h1, h2, h3, h4⟩

/-- Two particles, one with a single record: the dots for iteration 1 and for time 9. -/
example : plotState Arith.exact (⟨[[4, 5, 6], [1]], [[7, 7, 8], [2]], [[.fin 0, .fin 10, .fin 20], [.fin 0]], []⟩ : WalkData ℚ) 1 none =
      .ok ([5, 1], [7, 2]) ∧
    (plotState Arith.exact (⟨[[4, 5, 6], [1]], [[7, 7, 8], [2]], [[.fin 0, .fin 10, .fin 20], [.fin 0]], []⟩ : WalkData ℚ) (-1) (some (.fin 9))).toOption =
      some ([5, 1], [7, 2]) := ⟨rfl, by decide +kernel⟩

/-! ## `plot_exposure_time` -/

/-- Interpolation succeeds inside the range of the curve. -/
theorem prevInterp_ok {A : Arith K} {n : Nat} {l : List K} {e : K} (hs : (0 :: l ++ [e]).Pairwise (· ≤ ·)) {x : K} (h0 : 0 ≤ x) (he : x ≤ e) :
    ∃ y, prevInterp (((0 :: l ++ [e]).map Fl.fin).zip ((List.range (l.length + 1)).map (fun k => fraction A k n) ++ [fraction A l.length n])) (.fin x) =
      .ok y := by
  set T := (0 :: l ++ [e]).map (Fl.fin (K := K)) with hT
  set G := (List.range (l.length + 1)).map (fun k => fraction A k n) ++ [fraction A l.length n] with hG
  have hTs : T.Pairwise fun a b => Fl.le a b = true := by
    rw [hT, List.pairwise_map]
    simpa [Fl.le] using hs
  have hz : (T.zip G).insertionSort (fun a b => Fl.le a.1 b.1 = true) = T.zip G := List.Pairwise.insertionSort_eq (zip_pairwise hTs)
  have hcons : ∃ G', T.zip G = (.fin 0, fraction A 0 n) :: G' := by
    refine ⟨(List.map Fl.fin (l ++ [e])).zip ((List.range l.length).map (fun k => fraction A (k + 1) n) ++ [fraction A l.length n]), ?_⟩
    rw [hT, hG, List.range_succ_eq_map]
    simp [Function.comp_def]
  have hlast : (T.zip G).getLast? = some (.fin e, fraction A l.length n) := by
    rw [hT, hG, List.map_append, List.zip_append (by simp)]
    simp
  unfold prevInterp
  rw [hz]
  obtain ⟨G', hG'⟩ := hcons
  simp only [hlast]
  rw [hG']
  simp only
  rw [if_neg (by simp [Fl.lt, h0, he])]
  split
  · exact ⟨_, rfl⟩
  · exact ⟨_, rfl⟩

theorem linspace_exact {e : K} (h0 : 0 ≤ e) {n : Nat} : ∀ x ∈ linspace0 Arith.exact (.fin e) n, ∃ y, x = .fin y ∧ 0 ≤ y ∧ y ≤ e := by
  intro x hx
  obtain ⟨k, hk⟩ := List.getElem?_of_mem hx
  have hkn : k < n := by
    have := (List.getElem?_eq_some_iff.1 hk).1
    simpa [linspace0] using this
  rw [linspace_get Arith.exact e hkn] at hk
  cases hk
  refine ⟨_, rfl, ?_⟩
  split_ifs with h1 h2
  · exact ⟨h0, le_refl _⟩
  · exact ⟨le_refl _, h0⟩
  · show 0 ≤ (k : K) * (e / ((n - 1 : Nat) : K)) ∧ (k : K) * (e / ((n - 1 : Nat) : K)) ≤ e
    have h3 : (0 : K) < ((n - 1 : Nat) : K) := by exact_mod_cast (by omega : 0 < n - 1)
    refine ⟨by positivity, ?_⟩
    rw [← mul_div_assoc, div_le_iff₀ h3, mul_comm]
    have : (k : K) ≤ ((n - 1 : Nat) : K) := by exact_mod_cast (by omega : k ≤ n - 1)
    exact mul_le_mul_of_nonneg_left this h0

/-- Smoothing succeeds in exact arithmetic. -/
theorem smooth_ok {n : Nat} (hn : 0 < n) {ends expo : List (Fl K)} {u : Bool} {e : K} (he : (if u then maxTime ends else minTime ends) = .ok (.fin e))
    (h0 : 0 ≤ e) (hlen : expo.length ≤ n) {c : Curve K} (hc : exposureCurve Arith.exact n ends expo u = .ok c) {nbins : Int} (hb : 0 ≤ nbins) :
    ∃ sm, smoothCurve Arith.exact c nbins = .ok sm := by
  have hsd := curve_ok hn he h0 rfl hlen hc
  obtain ⟨l, h1, h2, h3, h4, h5, hp, h6⟩ := curve_eq (A := Arith.exact) (expo := expo) hn he
  rw [h6] at hc
  cases hc
  have hs := hsd.sorted
  simp only [List.pairwise_map, Fl.le, decide_eq_true_eq] at hs
  unfold smoothCurve
  rw [if_neg (by omega)]
  obtain ⟨ys, hys⟩ := mapE_exists (f := prevInterp (((0 :: l ++ [e]).map Fl.fin).zip
    ((List.range (l.length + 1)).map (fun k => fraction Arith.exact k n) ++ [fraction Arith.exact l.length n])))
    (l := linspace0 Arith.exact (.fin e) nbins.toNat) (fun x hx => by
      obtain ⟨y, rfl, hy0, hye⟩ := linspace_exact h0 x hx
      exact prevInterp_ok hs hy0 hye)
  simp only
  rw [hys]
  exact ⟨_, rfl⟩

/-- The differential curve exists when the smoothed one does and has two points. -/
theorem density_ok {c : Curve K} {nbins : Int} {sm : List (Fl K) × List (Fl K)} (hsm : smoothCurve A c nbins = .ok sm) (hb : 2 ≤ nbins) (td : K) :
    ∃ d, densityCurve A c sm.1 td = .ok d := by
  unfold smoothCurve at hsm
  rw [if_neg (by omega)] at hsm
  simp only [bind_ok, pure_ok] at hsm
  obtain ⟨zs, hzs, rfl⟩ := hsm
  obtain ⟨ys, hys⟩ := mapE_exists (f := linInterp A (c.times.zip c.fracs)) (l := linspace0 A c.endTime nbins.toNat) fun x hx => by
    obtain ⟨i, hi⟩ := List.getElem?_of_mem hx
    obtain ⟨y, -, hy⟩ := mapE_get hzs hi
    exact linInterp_ok hy
  have hl : (linspace0 A c.endTime nbins.toNat).length = nbins.toNat := by simp [linspace0]
  unfold densityCurve
  rw [hys]
  simp only [ok_bind]
  rw [listGet_ok.2 (List.getElem?_eq_getElem (by omega : 1 < (linspace0 A c.endTime nbins.toNat).length)),
    listGet_ok.2 (List.getElem?_eq_getElem (by omega : 0 < (linspace0 A c.endTime nbins.toNat).length))]
  exact ⟨_, rfl⟩

/-- Exact arithmetic: `plot_exposure_time` accepts aligned walk data of at least one particle exactly if they have optional variables. Missing from
C65: walk data without optional variables. -/
theorem C65_exposure_partial {wd : WalkData K} (h : AlignedWalk wd) (hT : ProperTimes (Arith.exact (K := K)) wd) (hne : wd.xinds ≠ [])
    {expo : List (Fl K)} (hlen : expo.length ≤ wd.xinds.length) (td : K) {nbins : Int} (hb : 2 ≤ nbins) (u th : Bool) :
    (∃ r, plotExposureTime Arith.exact wd expo td nbins u th = .ok r) ↔ wd.opt ≠ [] := by
  obtain ⟨g, hg, hkeys, hn, hts⟩ := lastSlice h
  have ho : g.opt = [] ↔ wd.opt = [] := by rw [← keys_nil, hkeys, keys_nil]
  constructor
  · rintro ⟨r, hr⟩
    obtain ⟨g', hg', ho', -⟩ := plot_inv hr
    rw [hg] at hg'
    cases hg'
    exact fun hc => ho' (ho.2 hc)
  · intro hopt
    have hpos : 0 < wd.xinds.length := List.length_pos_iff.2 hne
    have hne' : g.ts ≠ [] := by
      intro hc
      rw [hc] at hn
      simp at hn
      omega
    obtain ⟨e, he, hE, h0, -⟩ := curve_end hT hts hne' u
    obtain ⟨l, -, -, -, -, -, -, hc⟩ := curve_eq (A := Arith.exact) (expo := expo) hpos he
    obtain ⟨sm, hsm⟩ := smooth_ok hpos he h0 hlen hc (nbins := nbins) (by omega)
    unfold plotExposureTime unpack4
    rw [hg]
    simp only [ok_bind]
    rw [if_neg (fun hc => hopt (ho.1 hc))]
    simp only [ok_bind]
    rw [hc]
    simp only [ok_bind]
    rw [hsm]
    simp only [ok_bind]
    obtain ⟨d, hd⟩ := density_ok (A := Arith.exact) hsm hb td
    cases th with
    | false =>
      simp only [Bool.false_eq_true, if_false]
      rw [hd]
      exact ⟨_, rfl⟩
    | true =>
      simp only [if_true]
      obtain ⟨rep, hrep⟩ := mapE_exists (f := levelTime Arith.exact
        { times := (0 :: l ++ [e]).map Fl.fin
          fracs := (List.range (l.length + 1)).map (fun k => fraction Arith.exact k wd.xinds.length) ++ [fraction Arith.exact l.length wd.xinds.length]
          endTime := .fin e } td) (l := levels Arith.exact) (fun lv hlv => by
        obtain ⟨ha, hb⟩ := levelTime_spec (A := Arith.exact) hpos he hc (levels_pos Arith.exact lv hlv) td
        cases hle : Fl.le (.fin lv) (fraction Arith.exact (countAll Arith.exact e expo) wd.xinds.length) with
        | true => obtain ⟨t, -, ht⟩ := ha hle; exact ⟨_, ht⟩
        | false => exact ⟨_, hb hle⟩)
      rw [hrep]
      simp only [ok_bind]
      rw [hd]
      exact ⟨_, rfl⟩

/-! ## `plot_exposure_time_thresholds` -/

/-- Exact arithmetic: `plot_exposure_time_thresholds` accepts aligned walk data exactly if they have no optional variables and at least 90 per cent
of the particles have a counted exposure time. Missing from C65: all other walk data. -/
theorem C65_thresholds_partial {wd : WalkData K} (h : AlignedWalk wd) (hT : ProperTimes (Arith.exact (K := K)) wd) (hne : wd.xinds ≠ [])
    {expo : List (Fl K)} (hlen : expo.length ≤ wd.xinds.length) {td : K} (htd : 0 < td) {nbins : Int} (hb : 2 ≤ nbins) (u : Bool) {e : K}
    (hE : EndOf wd u e) :
    (∃ r, plotExposureTimeThresholds Arith.exact wd expo td nbins u = .ok r) ↔
      wd.opt = [] ∧ 9 / 10 * (wd.xinds.length : K) ≤ countAll Arith.exact e expo := by
  obtain ⟨g, hg, hkeys, hn, hts⟩ := lastSlice h
  have ho : g.opt = [] ↔ wd.opt = [] := by rw [← keys_nil, hkeys, keys_nil]
  have hpos : 0 < wd.xinds.length := List.length_pos_iff.2 hne
  have hposK : (0 : K) < wd.xinds.length := by exact_mod_cast hpos
  have hne' : g.ts ≠ [] := by
    intro hc
    rw [hc] at hn
    simp at hn
    omega
  obtain ⟨e', he, hE', h0, -⟩ := curve_end hT hts hne' u
  have hee : e' = e := by
    obtain ⟨i, hi⟩ := hE.1
    obtain ⟨j, hj⟩ := hE'.1
    have h1 := hE.2 _ _ hj
    have h2 := hE'.2 _ _ hi
    cases u
    · exact le_antisymm h2 h1
    · exact le_antisymm h1 h2
  subst hee
  have hfr : ∀ (k : Nat) (lv : K), Fl.le (.fin lv) (fraction Arith.exact k wd.xinds.length) = true ↔ lv * wd.xinds.length ≤ k := by
    intro k lv
    show decide (lv ≤ (k : K) / (wd.xinds.length : K)) = true ↔ _
    rw [decide_eq_true_eq, le_div_iff₀ hposK]
  constructor
  · rintro ⟨r, hr⟩
    obtain ⟨g', hg', ho', -⟩ := thresholds_inv hr
    rw [hg] at hg'
    cases hg'
    refine ⟨ho.1 ho', ?_⟩
    obtain ⟨e2, hE2, -, hrep⟩ := C69_thresholds h hT hlen htd hr
    have : e2 = e' := by
      obtain ⟨i, hi⟩ := hE2.1
      obtain ⟨j, hj⟩ := hE.1
      have h1 := hE2.2 _ _ hj
      have h2 := hE.2 _ _ hi
      cases u
      · exact le_antisymm h1 h2
      · exact le_antisymm h2 h1
    subst this
    obtain ⟨k, x, -, -, hx, -⟩ := hrep 2 _ rfl
    rw [hfr] at hx
    refine le_trans (a := (9 / 10 : K) * wd.xinds.length) hx ?_
    have : countUpTo Arith.exact e2 expo (.fin x) ≤ countAll Arith.exact e2 expo := by
      unfold countUpTo countAll
      apply List.countP_mono_left
      intro z _ hz
      rw [Bool.and_eq_true] at hz
      exact hz.1
    exact_mod_cast this
  · rintro ⟨hopt, h90⟩
    obtain ⟨l, -, -, -, -, -, -, hc⟩ := curve_eq (A := Arith.exact) (expo := expo) hpos he
    generalize hcv : ({ times := (0 :: l ++ [e']).map Fl.fin
                        fracs := (List.range (l.length + 1)).map (fun k => fraction Arith.exact k wd.xinds.length) ++
                          [fraction Arith.exact l.length wd.xinds.length]
                        endTime := .fin e' } : Curve K) = cv at hc
    obtain ⟨sm, hsm⟩ := smooth_ok hpos he h0 hlen hc (nbins := nbins) (by omega)
    obtain ⟨hl, hv⟩ := smooth_values hpos he h0 rfl hlen hc hsm
    obtain ⟨hfin, hsorted⟩ := smooth_sorted hpos he h0 rfl hlen hc hsm
    have hlastx : sm.1[nbins.toNat - 1]? = some (.fin e') := by
      have hs1 : sm.1 = linspace0 Arith.exact (.fin e') nbins.toNat := by
        unfold smoothCurve at hsm
        rw [if_neg (by omega)] at hsm
        simp only [bind_ok, pure_ok] at hsm
        obtain ⟨ys, -, rfl⟩ := hsm
        rw [← hcv]
      rw [hs1, linspace_get _ _ (by omega), if_pos (by omega)]
    have hcall : countUpTo Arith.exact e' expo (.fin e') = countAll Arith.exact e' expo := by
      unfold countUpTo countAll
      congr 1
      funext z
      by_cases hz : Counted Arith.exact e' z
      · obtain ⟨y, rfl, -, hy⟩ := id hz
        have : y ≤ e' := by
          change y < 99 / 100 * e' at hy
          linarith
        simp [hz, Fl.le, this]
      · simp [hz]
    have hlen2 : sm.2.length = sm.1.length := by rw [hv, List.length_map]
    have hgetD : ∀ (m : Nat) y, sm.1[m]? = some y → sm.2.getD m .nan = fraction Arith.exact (countUpTo Arith.exact e' expo y) wd.xinds.length := by
      intro m y hy
      rw [List.getD_eq_getElem?_getD, hv, List.getElem?_map, hy]
      rfl
    obtain ⟨rep, hrep⟩ := mapE_exists (f := smoothLevel Arith.exact sm td) (l := levels Arith.exact) (fun lv hlv => by
      have hlv9 : lv ≤ 9 / 10 := by
        change lv ∈ [(1 / 2 : K), 3 / 4, 9 / 10] at hlv
        simp only [List.mem_cons, List.not_mem_nil, or_false] at hlv
        rcases hlv with rfl | rfl | rfl <;> norm_num
      have hss := searchSorted_spec (fun m => Fl.lt (sm.2.getD m .nan) (.fin lv)) sm.2.length (by
        intro a b hab hb hlt
        have hb1 := List.getElem?_eq_getElem (show b < sm.1.length by omega)
        have ha1 := List.getElem?_eq_getElem (show a < sm.1.length by omega)
        rw [hgetD b _ hb1] at hlt
        rw [hgetD a _ ha1]
        have := fraction_le (K := K) Arith.exact (countUpTo_mono Arith.exact e' expo (hsorted a b _ _ hab ha1 hb1)) hpos
        simp only [fraction, Fl.le, Fl.lt, decide_eq_true_eq] at *
        exact lt_of_le_of_lt this hlt)
      simp only at hss
      unfold smoothLevel
      generalize searchSorted (fun m => Fl.lt (sm.2.getD m .nan) (.fin lv)) sm.2.length = k at *
      obtain ⟨hk1, hk2, hk3⟩ := hss
      have hk : k < sm.1.length := by
        by_contra hcon
        have := hk2 (nbins.toNat - 1) (by omega)
        rw [hgetD _ _ hlastx, hcall] at this
        have h5 : Fl.le (.fin lv) (fraction Arith.exact (countAll Arith.exact e' expo) wd.xinds.length) = true := by
          rw [hfr]
          refine le_trans ?_ h90
          gcongr
        simp only [fraction, Fl.le, Fl.lt, decide_eq_true_eq] at this h5
        exact absurd this (not_lt.2 h5)
      have hget := List.getElem?_eq_getElem hk
      obtain ⟨y, hy, -⟩ := hfin _ (List.getElem_mem hk)
      rw [hy] at hget
      rw [(listGet_ok).2 hget]
      simp only [ok_bind]
      unfold Arith.div
      simp only
      rw [if_neg htd.ne']
      exact ⟨_, rfl⟩)
    unfold plotExposureTimeThresholds unpack3
    rw [hg]
    simp only [ok_bind]
    rw [if_pos (ho.2 hopt)]
    simp only [ok_bind]
    rw [hc]
    simp only [ok_bind]
    rw [hsm]
    simp only [ok_bind]
    rw [hrep]
    exact ⟨_, rfl⟩

/-! ## `steady_plots` and `time_plots` -/

theorem plotStep_ok {R C : Nat} {P : PObj K} {s : PState K} (h : Reach A F (Enclosed A F R C) Draws (InsideSeeds R C) P s)
    (hwd : s.walk ≠ none) {ω : Nat → K} (hω : Draws ω) {plot times : Bool} (hp : plot = true → keysOf P = []) (ht : times = true → s.np ≠ 0)
    (st : PlotLoop K) (hst : st.obj = s) (i : Nat) :
    ∃ st' w, plotStep A F P ω plot times st i = .ok st' ∧ Reach A F (Enclosed A F R C) Draws (InsideSeeds R C) P st'.obj ∧ st'.obj.walk = some w ∧
      st'.walk = some w ∧ st'.obj.np = s.np := by
  obtain ⟨r, hr⟩ := C17_no_crash h hwd hω none 10000 (Or.inl rfl)
  have hG : ∀ P, Enclosed A F R C P → Good P := fun P hP => hP.built.good
  obtain ⟨hpe, h0 | ⟨rows, hrows⟩⟩ := h.state hG
  · exact absurd h0 hwd
  obtain ⟨-, rows', hlen, hret, hwalk, hnp, -⟩ := runIteration_inv A F (hG P h.obj) hpe hrows.1 (Or.inl hrows.2) hr
  have hreach : Reach A F (Enclosed A F R C) Draws (InsideSeeds R C) P r.state := .run h hω hr
  have hres : r.state.walk = some r.returned := by rw [hret, hwalk]
  unfold plotStep
  rw [hst, hr]
  simp only [ok_bind]
  cases plot with
  | false => exact ⟨_, r.returned, rfl, hreach, hres, rfl, by rw [← hrows.2] at *; exact hnp⟩
  | true =>
    simp only [if_true]
    have hal := (C54_reachable (hreach.mono fun P hP => hP.built) hres 0).1
    have hopt : r.returned.opt = [] := by
      rw [hret]
      show dictOf (keysOf P) _ = []
      rw [hp rfl]
      rfl
    obtain ⟨g, hg, hkeys, hn, -⟩ := lastSlice hal
    obtain ⟨g0, hg0, hs0⟩ := C54_slice hal 0
    obtain ⟨a, ha⟩ := (unpack3_iff hkeys).2 hopt
    obtain ⟨b, hb⟩ := (unpack3_iff hs0.fields).2 hopt
    have hat : times = true → a.2.2 ≠ [] := by
      intro htt hc
      have hts : a.2.2 = g.ts := by
        unfold unpack3 at ha
        split_ifs at ha
        cases ha
        rfl
      rw [hts] at hc
      rw [hc] at hn
      apply ht htt
      rw [hrows.2, ← hlen]
      rw [hret] at hn
      simpa [ofRows] using hn.symm
    rw [hg]
    simp only [ok_bind, ha]
    have hcond : ¬ ((times : Prop) ∧ a.2.2 = []) := fun hc => hat hc.1 hc.2
    have hstart : ∃ m, startMarks r.returned i st.start = .ok m := by
      unfold startMarks
      split_ifs
      · rw [hg0]
        simp only [ok_bind, hb]
        exact ⟨_, rfl⟩
      · exact ⟨_, rfl⟩
    obtain ⟨m, hm⟩ := hstart
    simp only [hm, ok_bind]
    rw [if_neg hcond]
    exact ⟨_, r.returned, rfl, hreach, hres, rfl, by rw [hnp, hrows.2]⟩

theorem plotLoop_ok {R C : Nat} {P : PObj K} {ω : Nat → K} (hω : Draws ω) {plot times : Bool} (hp : plot = true → keysOf P = []) :
    ∀ (l : List Nat) (st0 : PlotLoop K), Reach A F (Enclosed A F R C) Draws (InsideSeeds R C) P st0.obj → st0.obj.walk ≠ none →
      (times = true → st0.obj.np ≠ 0) →
      ∃ st, foldE (plotStep A F P ω plot times) st0 l = .ok st ∧ (l ≠ [] → st.walk ≠ none) ∧ (st0.walk ≠ none → st.walk ≠ none) := by
  intro l
  induction l with
  | nil => exact fun st0 _ _ _ => ⟨_, rfl, by simp, id⟩
  | cons i l ih =>
    intro st0 h hwd ht
    obtain ⟨st1, w, hs, hr, hw, hw', hnp⟩ := plotStep_ok h hwd hω hp ht st0 rfl i
    obtain ⟨st, hst, -, h2⟩ := ih st1 hr (by rw [hw]; simp) (fun hc => by rw [hnp]; exact ht hc)
    refine ⟨st, ?_, fun _ => h2 (by simp [hw']), fun _ => h2 (by simp [hw'])⟩
    simp only [foldE, hs]
    exact hst

theorem plotStep_fail {R C : Nat} {P : PObj K} {s : PState K} (h : Reach A F (Enclosed A F R C) Draws (InsideSeeds R C) P s)
    (hwd : s.walk ≠ none) {ω : Nat → K} (hω : Draws ω) (hp : keysOf P ≠ []) (times : Bool)
    (st : PlotLoop K) (hst : st.obj = s) (i : Nat) : plotStep A F P ω true times st i = .error .valueError := by
  obtain ⟨r, hr⟩ := C17_no_crash h hwd hω none 10000 (Or.inl rfl)
  have hG : ∀ P, Enclosed A F R C P → Good P := fun P hP => hP.built.good
  obtain ⟨hpe, h0 | ⟨rows, hrows⟩⟩ := h.state hG
  · exact absurd h0 hwd
  obtain ⟨-, rows', hlen, hret, hwalk, hnp, -⟩ := runIteration_inv A F (hG P h.obj) hpe hrows.1 (Or.inl hrows.2) hr
  have hreach : Reach A F (Enclosed A F R C) Draws (InsideSeeds R C) P r.state := .run h hω hr
  have hres : r.state.walk = some r.returned := by rw [hret, hwalk]
  have hal := (C54_reachable (hreach.mono fun P hP => hP.built) hres 0).1
  obtain ⟨g, hg, hkeys, -, -⟩ := lastSlice hal
  have hgo : g.opt ≠ [] := by
    intro hc
    rw [hc, hret] at hkeys
    have : keys (dictOf (keysOf P) fun k => rows'.map (·.os k)) = [] := hkeys.symm
    rw [keys_dictOf] at this
    exact hp this
  unfold plotStep unpack3
  rw [hst, hr]
  simp only [ok_bind, if_true]
  rw [hg]
  simp only [ok_bind]
  rw [if_neg hgo]
  rfl

theorem opt_keys {Ob : PObj K → Prop} {Ω : (Nat → K) → Prop} {Sd : PObj K → List Int → List Int → Fl K → Prop} (hG : ∀ P, Ob P → Good P)
    {P : PObj K} {s : PState K} (h : Reach A F Ob Ω Sd P s) {wd : WalkData K} (hwd : s.walk = some wd) : wd.opt = [] ↔ keysOf P = [] := by
  obtain ⟨-, h0 | ⟨rows, hrows⟩⟩ := h.state hG
  · rw [h0] at hwd; cases hwd
  rw [hrows.1] at hwd
  cases hwd
  rw [← keys_nil]
  show keys (dictOf (keysOf P) _) = [] ↔ _
  rw [keys_dictOf]

/-- `steady_plots` on an enclosed object after any history, any rounding and any draws: it succeeds exactly if nothing is plotted or there are no
optional variables. Missing from C65: plotting with optional variables. -/
theorem C65_steady_partial {R C : Nat} {P : PObj K} {s : PState K} (h : Reach A F (Enclosed A F R C) Draws (InsideSeeds R C) P s)
    {wd : WalkData K} (hwd : s.walk = some wd) {ω : Nat → K} (hω : Draws ω) {numIter : Int} (hn : 1 ≤ numIter) (save : Bool) :
    (∃ r, steadyPlots A F P ω s numIter save = .ok r) ↔ save = false ∨ wd.opt = [] := by
  rw [opt_keys (fun P hP => hP.built.good) h hwd]
  have hw : s.walk ≠ none := by rw [hwd]; simp
  have hl : List.range numIter.toNat = 0 :: (List.range (numIter.toNat - 1)).map Nat.succ := by
    obtain ⟨n, hn'⟩ : ∃ n, numIter.toNat = n + 1 := ⟨numIter.toNat - 1, by omega⟩
    rw [hn', List.range_succ_eq_map]
    rfl
  unfold steadyPlots plotRuns
  constructor
  · rintro ⟨r, hr⟩
    by_contra hc
    rw [not_or] at hc
    have hsv : save = true := by simpa using hc.1
    subst hsv
    rw [hl] at hr
    simp only [foldE] at hr
    rw [plotStep_fail h hw hω hc.2 _ _ rfl] at hr
    cases hr
  · intro hc
    obtain ⟨st, hst, h1, -⟩ := plotLoop_ok (times := false) hω (plot := save) (P := P) (fun hs => by
      rcases hc with hc | hc
      · rw [hc] at hs; cases hs
      · exact hc) (List.range numIter.toNat) ⟨s, none, [], []⟩ h hw (by simp)
    rw [hst]
    have := h1 (by rw [hl]; simp)
    simp only [ok_bind]
    split
    · rename_i h2; exact absurd h2 this
    · exact ⟨_, rfl⟩

/-- `time_plots` on an enclosed object with particles after any history: it succeeds exactly if there are no optional variables. Missing from C65:
optional variables. -/
theorem C65_time_partial {R C : Nat} {P : PObj K} {s : PState K} (h : Reach A F (Enclosed A F R C) Draws (InsideSeeds R C) P s)
    {wd : WalkData K} (hwd : s.walk = some wd) (hnp : s.np ≠ 0) {ω : Nat → K} (hω : Draws ω) {numIter : Int} (hn : 1 ≤ numIter) :
    (∃ r, timePlots A F P ω s numIter = .ok r) ↔ wd.opt = [] := by
  rw [opt_keys (fun P hP => hP.built.good) h hwd]
  have hw : s.walk ≠ none := by rw [hwd]; simp
  have hl : List.range numIter.toNat = 0 :: (List.range (numIter.toNat - 1)).map Nat.succ := by
    obtain ⟨n, hn'⟩ : ∃ n, numIter.toNat = n + 1 := ⟨numIter.toNat - 1, by omega⟩
    rw [hn', List.range_succ_eq_map]
    rfl
  unfold timePlots plotRuns
  constructor
  · rintro ⟨r, hr⟩
    by_contra hc
    rw [hl] at hr
    simp only [foldE] at hr
    rw [plotStep_fail h hw hω hc _ _ rfl] at hr
    cases hr
  · intro hc
    obtain ⟨st, hst, h1, -⟩ := plotLoop_ok (times := true) hω (plot := true) (P := P) (fun _ => hc) (List.range numIter.toNat) ⟨s, none, [], []⟩ h hw (fun _ => hnp)
    rw [hst]
    have := h1 (by rw [hl]; simp)
    simp only [ok_bind]
    split
    · rename_i h2; exact absurd h2 this
    · exact ⟨_, rfl⟩

/-! ## The property as stated is false -/

theorem chan_enclosed : Enclosed Arith.exact Fun.toy 5 5 (objOf chan) where
  built := chan_built
  rows := rfl
  cols := rfl
  ring := (C17_default_ring rfl rfl rfl rfl chan_init).1
  walk := ⟨rfl, rfl⟩
  steps := fun k hk => by interval_cases k <;> decide +kernel
  angles := (C17_default_ring rfl rfl rfl rfl chan_init).2.2

set_option synthInstance.maxSize 1024 in
/-- Two states reached by seeding two particles and running three iterations. With tracked variables `plot_state`, `plot_exposure_time_thresholds`,
`steady_plots` and `time_plots` raise; without tracked variables `plot_exposure_time` raises, and so does `plot_exposure_time_thresholds` (for a
different reason: the curve does not reach 90 per cent). -/
theorem C65_counterexample :
    (∃ s wd, Reach Arith.exact Fun.toy (Enclosed Arith.exact Fun.toy 5 5) Draws (InsideSeeds 5 5) (objOf chanVars) s ∧ s.walk = some wd ∧
      plotState Arith.exact wd (-1) none = .error .valueError ∧ plotState Arith.exact wd 0 (some (.fin 10)) = .error .valueError ∧
      plotExposureTimeThresholds Arith.exact wd [.fin 4, .fin 5] 1 10 true = .error .valueError ∧
      (¬ ∃ r, steadyPlots Arith.exact Fun.toy (objOf chanVars) (fun _ => 1 / 2) s 3 true = .ok r) ∧
      ¬ ∃ r, timePlots Arith.exact Fun.toy (objOf chanVars) (fun _ => 1 / 2) s 3 = .ok r) ∧
    ∃ s wd, Reach Arith.exact Fun.toy (Enclosed Arith.exact Fun.toy 5 5) Draws (InsideSeeds 5 5) (objOf chan) s ∧ s.walk = some wd ∧
      plotExposureTime Arith.exact wd [.fin 4, .fin 5] 1 10 true false = .error .valueError ∧
      plotExposureTimeThresholds Arith.exact wd [.fin 4, .fin 0] 1 10 true = .error .indexError := by
  constructor
  · obtain ⟨s, wd, hr, hw, hf, hd⟩ := demo_walk (p := chanVars) (ω := fun _ => 1 / 2) (n := 2) (xs := [2, 1]) (ys := [2, 1])
      (runs := [(none, 1), (none, 1), (none, 1)]) (Ob := Enclosed Arith.exact Fun.toy 5 5) (Ω := Draws) (Sd := InsideSeeds 5 5)
      chanVars_enclosed half_draws.1 (fun x hx y hy => by simp at hx hy; rcases hx with rfl | rfl <;> rcases hy with rfl | rfl <;> (unfold Inside; decide))
      (f := fun wd => (plotState Arith.exact wd (-1) none, plotState Arith.exact wd 0 (some (.fin 10)),
        plotExposureTimeThresholds Arith.exact wd [.fin 4, .fin 5] 1 10 true, keys wd.opt))
      (b := (.error .valueError, .error .valueError, .error .valueError, ["depth", "u", "roi_flag"])) (by decide +kernel)
    simp only [Prod.mk.injEq] at hf
    have hopt : wd.opt ≠ [] := fun hc => by have := hf.2.2.2; rw [hc] at this; cases this
    have hnp : s.np ≠ 0 := by
      have h2 : (demo chanVars (fun _ => 1 / 2) 2 [2, 1] [2, 1] [(none, 1), (none, 1), (none, 1)]).toOption.map (·.np) = some 2 := by decide +kernel
      rw [hd] at h2
      simp only [Except.toOption, Option.map_some, Option.some.injEq] at h2
      omega
    refine ⟨s, wd, hr, hw, hf.1, hf.2.1, hf.2.2.1, fun hc => ?_, fun hc => ?_⟩
    · rw [C65_steady_partial hr hw half_draws.1 (by norm_num)] at hc
      simp [hopt] at hc
    · rw [C65_time_partial hr hw hnp half_draws.1 (by norm_num)] at hc
      exact hopt hc
  · obtain ⟨s, wd, hr, hw, hf, -⟩ := demo_walk (p := chan) (ω := fun _ => 1 / 2) (n := 2) (xs := [2, 1]) (ys := [2, 1])
      (runs := [(none, 1), (none, 1), (none, 1)]) (Ob := Enclosed Arith.exact Fun.toy 5 5) (Ω := Draws) (Sd := InsideSeeds 5 5)
      chan_enclosed half_draws.1 (fun x hx y hy => by simp at hx hy; rcases hx with rfl | rfl <;> rcases hy with rfl | rfl <;> (unfold Inside; decide))
      (f := fun wd => (plotExposureTime Arith.exact wd [.fin 4, .fin 5] 1 10 true false,
        plotExposureTimeThresholds Arith.exact wd [.fin 4, .fin 0] 1 10 true))
      (b := (.error .valueError, .error .indexError)) (by decide +kernel)
    simp only [Prod.mk.injEq] at hf
    exact ⟨s, wd, hr, hw, hf⟩

/-- The hypotheses of the positive statements hold together: `plot_exposure_time` on the walk data of `curveDemo` and `plot_state`, `steady_plots`
and `time_plots` on a state without tracked variables. -/
example : AlignedWalk curveDemo ∧ ProperTimes Arith.exact curveDemo ∧ curveDemo.xinds ≠ [] ∧ curveDemo.opt ≠ [] ∧ EndOf curveDemo false 80 := by
  refine ⟨curveDemo_aligned, curveDemo_proper, by decide, by decide, ⟨0, rfl⟩, fun i x hx => ?_⟩
  match i with
  | 0 | 1 | 2 | 3 | 4 | 5 => cases hx; norm_num
  | n + 6 => cases hx

set_option synthInstance.maxSize 1024 in
example : ∃ s wd, Reach Arith.exact Fun.toy (Enclosed Arith.exact Fun.toy 5 5) Draws (InsideSeeds 5 5) (objOf chan) s ∧ s.walk = some wd ∧ s.np = 2 ∧
    wd.opt = [] ∧ plotState Arith.exact wd 1 none = .ok ([3, 1], [2, 1]) ∧
    (timePlots Arith.exact Fun.toy (objOf chan) (fun _ => 1 / 2) s 2).toOption.map (·.1.xinds) = some [[2, 3], [1]] := by
  obtain ⟨s, hd, hf⟩ := demo_obs (x := demo chan (fun _ => 1 / 2) 2 [2, 1] [2, 1] [(none, 1)])
    (f := fun s => s.walk.map fun wd => (s.np, wd.opt, plotState Arith.exact wd 1 none,
      (timePlots Arith.exact Fun.toy (objOf chan) (fun _ => 1 / 2) s 2).toOption.map (·.1.xinds)))
    (b := (2, [], .ok ([3, 1], [2, 1]), some [[2, 3], [1]])) (by decide +kernel)
  cases hw : s.walk with
  | none => rw [hw] at hf; cases hf
  | some wd =>
    rw [hw] at hf
    simp only [Option.map_some, Option.some.injEq, Prod.mk.injEq] at hf
    refine ⟨s, wd, (demo_reach (Ω := Draws) (Sd := InsideSeeds 5 5) half_draws.1 (fun x hx y hy => by
      simp at hx hy; rcases hx with rfl | rfl <;> rcases hy with rfl | rfl <;> (unfold Inside; decide)) hd).mono
      (fun P hP => by rw [hP]; exact chan_enclosed), hw, hf⟩

end Dorado
