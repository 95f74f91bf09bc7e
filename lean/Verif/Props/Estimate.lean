import Verif.Lemmas.Estimate
import Verif.Props.Curve

/-! # What the post-processing functions say about many particles estimates what happens to one: C113 -/

set_option linter.unusedSectionVars false

namespace Dorado

open MeasureTheory ProbabilityTheory

variable {A : Arith ℝ} {F : Fun ℝ A} {R C : Nat} {P : PObj ℝ} {s : PState ℝ}

theorem reach_calls {Ob : PObj ℝ → Prop} {Sd : PObj ℝ → List Int → List Int → Fl ℝ → Prop} {ω : Nat → ℝ} (hω : Draws ω)
    (calls : List (Option (Fl ℝ) × Int)) {s s' : PState ℝ} (h : Reach A F Ob Draws Sd P s) (hr : runCalls A F P ω calls s = .ok s') :
    Reach A F Ob Draws Sd P s' := by
  induction calls generalizing s with
  | nil => cases hr; exact h
  | cons c cs ih =>
    unfold runCalls at hr
    obtain ⟨r, h1, h2⟩ := bind_ok.1 hr
    exact ih (.run h hω h1) h2

theorem Routed.enclosedReach (h : Reach A F (Routed A F R C) Draws (GoodSeeds A R C) P s) :
    Reach A F (Enclosed A F R C) Draws (InsideSeeds R C) P s := (h.mono fun _ hP => hP.enclosed).monoSd fun _ _ _ _ hS => hS.1

theorem history_good {wd : WalkData ℝ} (hp : Proper wd) (hr : OnRaster R C wd) (i : Nat) : (wd.history i).Good R C := by
  refine fun n => ⟨fun t ht => hp.fin i n t ?_, fun x y hx hy => hr i n (x, y) ?_⟩
  · simpa [WalkData.history, WalkData.timeAt] using ht
  · simp only [WalkData.history] at hx hy
    obtain ⟨xs, hxs, hx⟩ := Option.bind_eq_some_iff.1 hx
    obtain ⟨ys, hys, hy⟩ := Option.bind_eq_some_iff.1 hy
    simp [WalkData.posAt, hxs, hys, hx, hy]

/-- All particles together. -/
theorem company_good (hh : A.rnd (-(1 / 2)) = -(1 / 2)) (h1 : A.rnd (-1) = -1) (h : Reach A F (Routed A F R C) Draws (GoodSeeds A R C) P s)
    {wd : WalkData ℝ} (hwd : s.walk = some wd) (hN : 0 < wd.xinds.length) {ω : Nat → ℝ} (hω : Draws ω) (calls : List (Option (Fl ℝ) × Int)) :
    ∃ s' rows', runCalls A F P ω calls s = .ok s' ∧ Sound A F P s' rows' ∧ rows'.length = wd.xinds.length ∧
      ∀ i, (historyIn i (.ok s')).Good R C := by
  obtain ⟨hR, rows, hrows, hs⟩ := Enclosed.sound (Routed.enclosedReach h) hwd
  have hl : wd.xinds.length = rows.length := by rw [hrows]; simp [ofRows]
  have hal : ∀ r ∈ rows, r.aligned := fun r hr => (hs.ok r hr).vars.aligned
  obtain ⟨s', rows', e1, e2, e3⟩ := calls_feed hR hω (N := rows.length) (by omega) calls hs (st := fun j => machOf rows[j.val]) ⟨rfl, fun j r hr => by
    rw [List.getElem?_eq_getElem j.2] at hr
    cases hr
    exact machOf_match (hal _ (List.getElem_mem _))⟩
  refine ⟨s', rows', e1, e2, by have := e3.1; omega, fun i => ?_⟩
  obtain ⟨hp, hr, -⟩ := C67_valid hh h1 (reach_calls hω calls h e1) e2.has.1
  have := history_good hp hr i
  unfold historyIn
  simp only [e2.has.1]
  exact this

/-- One of the particles by itself. -/
theorem single_good (hh : A.rnd (-(1 / 2)) = -(1 / 2)) (h1 : A.rnd (-1) = -1) (h : Reach A F (Routed A F R C) Draws (GoodSeeds A R C) P s)
    {wd : WalkData ℝ} (hwd : s.walk = some wd) (hN : 0 < wd.xinds.length) (calls : List (Option (Fl ℝ) × Int)) :
    ∀ᵐ ω ∂uniformDraws, ∃ s' r', runCalls A F P ω calls (alone s.world (wd.only 0)) = .ok s' ∧ Sound A F P s' [r'] ∧
      (historyIn 0 (.ok s')).Good R C := by
  have hE := Routed.enclosedReach h
  have hm := history_aemeasurable hE hwd calls ⟨0, hN⟩
  have hlaw := C107_own_law hE hwd calls ⟨0, hN⟩
  have hgood : ∀ᵐ ω ∂uniformDraws, (historyIn 0 (runCalls A F P ω calls (alone s.world (wd.only 0)))).Good R C := by
    have hB := History.good_measurable R C
    refine (ae_map_iff hm.2 hB).1 ?_
    rw [← hlaw]
    refine (ae_map_iff hm.1 hB).2 ?_
    filter_upwards [uniformDraws_nonzero] with ω hω
    obtain ⟨s', rows', e1, -, -, e4⟩ := company_good hh h1 h hwd hN hω.1 calls
    rw [e1]
    exact e4 0
  obtain ⟨hR, rows, hrows, hs⟩ := Enclosed.sound hE hwd
  have hl : wd.xinds.length = rows.length := by rw [hrows]; simp [ofRows]
  have hri := List.getElem?_eq_getElem (show 0 < rows.length by omega)
  filter_upwards [uniformDraws_nonzero, hgood] with ω hω hg
  obtain ⟨s2, rows2, e1, e2, e3⟩ := calls_feed hR hω.1 (N := 1) (by omega) calls (hs.single hwd hri) (st := fun _ => machOf rows[0]) ⟨rfl, fun j r hr => by
    have : j.val = 0 := by omega
    rw [this] at hr
    cases hr
    exact machOf_match (hs.ok _ (List.getElem_mem _)).vars.aligned⟩
  obtain ⟨r', rfl⟩ := List.length_eq_one_iff.1 e3.1
  rw [e1] at hg
  exact ⟨s2, r', e1, e2, hg⟩

section
variable (hh : A.rnd (-(1 / 2)) = -(1 / 2)) (h1 : A.rnd (-1) = -1) (h : Reach A F (Routed A F R C) Draws (GoodSeeds A R C) P s)
  {wd : WalkData ℝ} (hwd : s.walk = some wd) (hN : 0 < wd.xinds.length) (calls : List (Option (Fl ℝ) × Int))
include hh h1 h hwd hN

/-- Any rounding: `exposure_time` and `get_time_state` succeed on the walk data of any simulation, with one finite exposure time and one cell on the
raster per particle. -/
theorem C113_reported {ω : Nat → ℝ} (hω : Draws ω) {g : Grid Int} (hgr : g.rows = R) (hgc : g.cols = C) (T : ℝ) :
    (exposuresIn A g (runCalls A F P ω calls s)).length = wd.xinds.length ∧ (cellsAt A (.fin T) (runCalls A F P ω calls s)).length = wd.xinds.length ∧
      (∀ x ∈ exposuresIn A g (runCalls A F P ω calls s), ∃ y, x = .fin y) ∧
      ∀ p ∈ cellsAt A (.fin T) (runCalls A F P ω calls s), 0 ≤ p.1 ∧ p.1 < R ∧ 0 ≤ p.2 ∧ p.2 < C := by
  obtain ⟨s', rows', e1, e2, e3, e4⟩ := company_good hh h1 h hwd hN hω calls
  obtain ⟨f, f1, f2⟩ := cellsAt_eq e2 (fun i _ => e4 i) T
  rw [e1, exposures_eq e2 g fun i _ => by rw [hgr, hgc]; exact e4 i, f1]
  refine ⟨by simp [e3], by simp [e3], fun x hx => ?_, fun p hp => ?_⟩
  · obtain ⟨i, -, rfl⟩ := List.mem_map.1 hx
    exact ⟨_, rfl⟩
  · obtain ⟨i, hi, rfl⟩ := List.mem_map.1 hp
    obtain ⟨j, x, y, -, hx, hy, he⟩ := (f2 i (List.mem_range.1 hi) {f i}).1 rfl
    rw [← Set.mem_singleton_iff.1 he]
    exact (e4 i j).2 x y hx hy

/-- The exposure times are independent samples. -/
theorem exposures_sample (hsame : ∀ i, i < wd.xinds.length → wd.only i = wd.only 0) {g : Grid Int} (hgr : g.rows = R) (hgc : g.cols = C) :
    ∃ (X : Fin wd.xinds.length → (Nat → ℝ) → ℝ) (ν : Measure ℝ), IsProbabilityMeasure ν ∧ (∀ i, AEMeasurable (X i) uniformDraws) ∧ iIndepFun X uniformDraws ∧
      (∀ i, uniformDraws.map (X i) = ν) ∧
      (∀ᵐ ω ∂uniformDraws, ∀ t, fractionWith (fun x => Fl.le x (.fin t) = true) (exposuresIn A g (runCalls A F P ω calls s)) =
        fractionIn (Set.Iic t) fun i => X i ω) ∧
      (∀ t : ℝ, uniformDraws.real {ω | ∃ x, exposuresIn A g (runCalls A F P ω calls (alone s.world (wd.only 0))) = [x] ∧ Fl.le x (.fin t) = true} =
        ν.real (Set.Iic t)) ∧
      ∀ B, MeasurableSet B → uniformDraws.real {ω | ∃ y, exposuresIn A g (runCalls A F P ω calls (alone s.world (wd.only 0))) = [.fin y] ∧ y ∈ B} = ν.real B := by
  have hE := Routed.enclosedReach h
  have hm := fun i => history_aemeasurable hE hwd calls i
  have hX := History.expo_measurable (A := A) g
  have hm0 : AEMeasurable (fun ω => (historyIn 0 (runCalls A F P ω calls (alone s.world (wd.only 0)))).expo A g) uniformDraws := hX.comp_aemeasurable (hm ⟨0, hN⟩).2
  refine ⟨fun i ω => (historyIn i (runCalls A F P ω calls s)).expo A g,
    uniformDraws.map fun ω => (historyIn 0 (runCalls A F P ω calls (alone s.world (wd.only 0)))).expo A g, Measure.isProbabilityMeasure_map hm0,
    fun i => hX.comp_aemeasurable (hm i).1, (C107_independent hE hwd calls).comp (fun _ => History.expo A g) fun _ => hX, fun i => ?_, ?_, fun t => ?_, fun B hB => ?_⟩
  · have := C107_own_law hE hwd calls i
    rw [hsame i i.2] at this
    have h2 := congrArg (Measure.map (History.expo A g)) this
    have hm2 := (hm i).2
    rw [hsame i i.2] at hm2
    rw [AEMeasurable.map_map_of_aemeasurable hX.aemeasurable (hm i).1, AEMeasurable.map_map_of_aemeasurable hX.aemeasurable hm2] at h2
    exact h2
  · filter_upwards [uniformDraws_nonzero] with ω hω t
    obtain ⟨s', rows', e1, e2, e3, e4⟩ := company_good hh h1 h hwd hN hω.1 calls
    rw [e1, exposures_eq e2 g fun i _ => by rw [hgr, hgc]; exact e4 i, e3, fractionWith_map]
    unfold fractionIn
    congr 1
    refine Finset.sum_congr rfl fun i _ => ?_
    by_cases hi : (historyIn i (.ok s')).expo A g ≤ t
    · rw [Set.indicator_of_mem (show _ ∈ {a | Fl.le a (.fin t) = true} by simpa [Fl.le] using hi), Set.indicator_of_mem (show _ ∈ Set.Iic t from hi)]
    · rw [Set.indicator_of_notMem (show _ ∉ {a | Fl.le a (.fin t) = true} by simpa [Fl.le] using hi), Set.indicator_of_notMem (show _ ∉ Set.Iic t from hi)]
  · rw [map_measureReal_apply_of_aemeasurable hm0 measurableSet_Iic]
    refine measureReal_congr ?_
    filter_upwards [single_good hh h1 h hwd hN calls] with ω hω
    obtain ⟨s', r', e1, e2, e3⟩ := hω
    refine propext ?_
    show (∃ x, _ ∧ _) ↔ (historyIn 0 (runCalls A F P ω calls (alone s.world (wd.only 0)))).expo A g ≤ t
    rw [e1, exposures_eq e2 g fun i hi => by
      rw [hgr, hgc]
      have : i = 0 := by simpa using hi
      rw [this]
      exact e3]
    simp [Fl.le]
  · rw [map_measureReal_apply_of_aemeasurable hm0 hB]
    refine measureReal_congr ?_
    filter_upwards [single_good hh h1 h hwd hN calls] with ω hω
    obtain ⟨s', r', e1, e2, e3⟩ := hω
    refine propext ?_
    show (∃ y, _ ∧ _) ↔ (historyIn 0 (runCalls A F P ω calls (alone s.world (wd.only 0)))).expo A g ∈ B
    rw [e1, exposures_eq e2 g fun i hi => by
      rw [hgr, hgc]
      have : i = 0 := by simpa using hi
      rw [this]
      exact e3]
    simp

/-- Any rounding, both routing modes, any history of the object and any sequence of calls, particles with the same records so far: the fraction of the `N`
particles that stay in the region for at most the time `t` is within `ε` of the probability that a single particle does, up to a probability of at most
`2 exp (-2 N ε²)`. -/
theorem C113_residence (hsame : ∀ i, i < wd.xinds.length → wd.only i = wd.only 0) {g : Grid Int} (hgr : g.rows = R) (hgc : g.cols = C) (t : ℝ) {ε : ℝ}
    (hε : 0 < ε) :
    uniformDraws.real {ω | ε ≤ |fractionWith (fun x => Fl.le x (.fin t) = true) (exposuresIn A g (runCalls A F P ω calls s)) -
      uniformDraws.real {ω' | ∃ x, exposuresIn A g (runCalls A F P ω' calls (alone s.world (wd.only 0))) = [x] ∧ Fl.le x (.fin t) = true}|} ≤
      2 * Real.exp (-2 * wd.xinds.length * ε ^ 2) := by
  obtain ⟨X, ν, hν, hm, hind, hmarg, hfrac, hone, -⟩ := exposures_sample hh h1 h hwd hN calls hsame hgr hgc
  rw [hone t]
  refine le_trans (le_of_eq (measureReal_congr ?_)) (fraction_hoeffding hN hm hind hmarg (measurableSet_Iic (a := t)) hε)
  filter_upwards [hfrac] with ω hω
  refine propext ?_
  show ε ≤ _ ↔ ε ≤ _
  rw [hω t]

/-- The same for the whole cumulative distribution of the exposure times: it is nowhere farther than `ε + 1 / m` from that of a single particle, up to a
probability of at most `4 m exp (-2 N ε²)`. -/
theorem C113_curve (hsame : ∀ i, i < wd.xinds.length → wd.only i = wd.only 0) {g : Grid Int} (hgr : g.rows = R) (hgc : g.cols = C) {ε : ℝ}
    (hε : 0 < ε) {m : Nat} (hm0 : 0 < m) :
    uniformDraws.real {ω | ∃ t, ε + 1 / m < |fractionWith (fun x => Fl.le x (.fin t) = true) (exposuresIn A g (runCalls A F P ω calls s)) -
      uniformDraws.real {ω' | ∃ x, exposuresIn A g (runCalls A F P ω' calls (alone s.world (wd.only 0))) = [x] ∧ Fl.le x (.fin t) = true}|} ≤
      4 * m * Real.exp (-2 * wd.xinds.length * ε ^ 2) := by
  obtain ⟨X, ν, hν, hm, hind, hmarg, hfrac, hone, -⟩ := exposures_sample hh h1 h hwd hN calls hsame hgr hgc
  refine le_trans (le_of_eq (measureReal_congr ?_)) (uniform_cdf hN hm hind hmarg hε hm0)
  filter_upwards [hfrac] with ω hω
  refine propext (exists_congr fun t => ?_)
  rw [hω t, hone t]

/-- The fraction of the particles that `get_time_state` finds in a set of cells at the time `T` is within `ε` of the probability that a single particle is
found there, up to a probability of at most `2 exp (-2 N ε²)`. -/
theorem C113_snapshot (hsame : ∀ i, i < wd.xinds.length → wd.only i = wd.only 0) (T : ℝ) (S : Set (Int × Int)) {ε : ℝ} (hε : 0 < ε) :
    uniformDraws.real {ω | ε ≤ |fractionWith (· ∈ S) (cellsAt A (.fin T) (runCalls A F P ω calls s)) -
      uniformDraws.real {ω' | ∃ p ∈ S, cellsAt A (.fin T) (runCalls A F P ω' calls (alone s.world (wd.only 0))) = [p]}|} ≤
      2 * Real.exp (-2 * wd.xinds.length * ε ^ 2) := by
  have hE := Routed.enclosedReach h
  have hB := History.atTime_measurable (A := A) (.fin T) S
  have hm := history_aemeasurable hE hwd calls ⟨0, hN⟩
  have := C107_monte_carlo hE hwd hN hsame calls (f := {h : History ℝ | h.AtTime A (.fin T) S}.indicator fun _ => (1 : ℝ))
    (measurable_const.indicator hB) (fun c => Set.indicator_nonneg (fun _ _ => zero_le_one) c)
    (fun c => Set.indicator_le' (fun _ _ => le_rfl) (fun _ _ => zero_le_one) c) hε
  have e : ∫ ω', {h : History ℝ | h.AtTime A (.fin T) S}.indicator (fun _ => (1 : ℝ)) (historyIn 0 (runCalls A F P ω' calls (alone s.world (wd.only 0))))
      ∂uniformDraws = uniformDraws.real {ω' | ∃ p ∈ S, cellsAt A (.fin T) (runCalls A F P ω' calls (alone s.world (wd.only 0))) = [p]} := by
    rw [← integral_map (φ := fun ω' => historyIn 0 (runCalls A F P ω' calls (alone s.world (wd.only 0)))) hm.2
      (f := {h : History ℝ | h.AtTime A (.fin T) S}.indicator fun _ => (1 : ℝ)) (measurable_const.indicator hB).aestronglyMeasurable,
      integral_indicator_const _ hB, map_measureReal_apply_of_aemeasurable hm.2 hB]
    simp only [smul_eq_mul, mul_one]
    refine measureReal_congr ?_
    filter_upwards [single_good hh h1 h hwd hN calls] with ω hω
    obtain ⟨s', r', e1, e2, e3⟩ := hω
    refine propext ?_
    show (historyIn 0 (runCalls A F P ω calls (alone s.world (wd.only 0)))).AtTime A (.fin T) S ↔ ∃ p ∈ S, _
    obtain ⟨f, f1, f2⟩ := cellsAt_eq e2 (R := R) (C := C) (fun i hi => by
      have : i = 0 := by simpa using hi
      rw [this]
      exact e3) T
    rw [e1, f1, ← f2 0 (by simp) S]
    simp
  rw [e] at this
  refine le_trans (le_of_eq (measureReal_congr ?_)) this
  filter_upwards [uniformDraws_nonzero] with ω hω
  refine propext ?_
  show ε ≤ _ ↔ ε ≤ _
  obtain ⟨s', rows', e1, e2, e3, e4⟩ := company_good hh h1 h hwd hN hω.1 calls
  obtain ⟨f, f1, f2⟩ := cellsAt_eq e2 (fun i _ => e4 i) T
  rw [e1, f1, e3, fractionWith_map]
  have e5 : ∀ i : Fin wd.xinds.length, {a | a ∈ S}.indicator (fun _ => (1 : ℝ)) (f i) =
      {h : History ℝ | h.AtTime A (.fin T) S}.indicator (fun _ => (1 : ℝ)) (historyIn i (.ok s')) := fun i => by
    have := f2 i (by omega) S
    by_cases hi : f i ∈ S
    · rw [Set.indicator_of_mem (show f i ∈ {a | a ∈ S} from hi), Set.indicator_of_mem (show _ ∈ {h : History ℝ | h.AtTime A (.fin T) S} from this.1 hi)]
    · rw [Set.indicator_of_notMem (show f i ∉ {a | a ∈ S} from hi),
        Set.indicator_of_notMem (show _ ∉ {h : History ℝ | h.AtTime A (.fin T) S} from fun h => hi (this.2 h))]
  rw [Finset.sum_congr rfl fun i _ => e5 i]

end

theorem drawn_fraction {F : Fun ℝ Arith.exact} {rows : List (Row ℝ)} (hs : Sound Arith.exact F P s rows) {g : Grid Int} {x v : ℝ}
    (h : Drawn g (.ok s) x v) :
    v = fractionWith (fun a => Fl.le a (.fin x) = true) (exposuresIn Arith.exact g (.ok s)) -
      fractionWith (fun a => Fl.le a (.fin (1 / 1000000)) = true) (exposuresIn Arith.exact g (.ok s)) := by
  obtain ⟨s', wd, res, td, nbins, u, th, plot, e, k, h0, hwd, hT, hres, hplot, hE, hx, hv, hx0, hx1⟩ := h
  cases h0
  have hal : AlignedWalk wd := by
    have := hs.has.1
    rw [hwd] at this
    cases this
    exact rows_aligned (keysOf_nodup P) fun r hr => ⟨(hs.ok r hr).vars.aligned, (hs.ok r hr).vars.len⟩
  have hlen : res.times.length = wd.xinds.length := by
    unfold exposureTime at hres
    obtain ⟨l, hl, h2⟩ := bind_ok.1 hres
    have := (mapE_ok_iff.1 hl).length_eq
    cases h2
    simpa using this.symm
  obtain ⟨e', hE', -, hsm⟩ := C63_smooth hal hT hlen.le hplot
  have hee : e' = e := by
    obtain ⟨i, hi⟩ := hE.1
    obtain ⟨j, hj⟩ := hE'.1
    have a := hE.2 j _ hj
    have b := hE'.2 i _ hi
    cases u
    · exact le_antisymm (by simpa using b) (by simpa using a)
    · exact le_antisymm (by simpa using a) (by simpa using b)
  subst hee
  rw [hsm, List.getElem?_map, hx] at hv
  simp only [Option.map_some, Option.some.injEq, fraction, Arith.exact, Fl.fin.injEq, id] at hv
  unfold exposuresIn
  simp only [hwd, hres]
  unfold fractionWith
  rw [hlen, ← sub_div, ← hv]
  congr 1
  unfold countUpTo
  have key : ∀ l : List (Fl ℝ), ((l.countP fun a => decide (Counted Arith.exact e' a) && Fl.le a (.fin x)) : ℝ) =
      ((l.filter fun a => @decide (Fl.le a (.fin x) = true) (Classical.propDecidable _)).length : ℝ) -
        (l.filter fun a => @decide (Fl.le a (.fin (1 / 1000000)) = true) (Classical.propDecidable _)).length := by
    intro l
    induction l with
    | nil => simp
    | cons a l ih =>
      rw [List.countP_cons, List.filter_cons, List.filter_cons]
      have c1 : (decide (Counted Arith.exact e' a) && Fl.le a (.fin x)) = (Fl.le a (.fin x) && !Fl.le a (.fin (1 / 1000000))) := by
        rw [Bool.eq_iff_iff]
        cases a with
        | fin y =>
          simp only [Bool.and_eq_true, decide_eq_true_eq, Counted, Fl.fin.injEq, exists_eq_left', Arith.exact, id, Fl.le, Bool.not_eq_true', decide_eq_false_iff_not,
            not_le]
          constructor
          · rintro ⟨⟨a1, -⟩, a3⟩
            exact ⟨a3, a1⟩
          · rintro ⟨a1, a2⟩
            exact ⟨⟨a2, lt_of_le_of_lt a1 hx1⟩, a1⟩
        | nan => simp [Counted, Fl.le]
        | ninf => simp [Counted, Fl.le]
        | pinf => simp [Counted, Fl.le]
      have c2 : Fl.le a (.fin (1 / 1000000)) = true → Fl.le a (.fin x) = true := by
        cases a <;> simp [Fl.le]
        intro h
        linarith
      rw [c1]
      push_cast
      rw [ih]
      by_cases q1 : Fl.le a (.fin x) = true <;> by_cases q2 : Fl.le a (.fin (1 / 1000000)) = true
      · simp only [q1, q2, decide_true, if_true, Bool.not_true, Bool.and_false, Bool.false_eq_true, if_false, List.length_cons]
        push_cast
        ring
      · simp only [q1, q2, decide_true, decide_false, if_true, Bool.not_false, Bool.and_true, Bool.false_eq_true, if_false, List.length_cons]
        push_cast
        ring
      · exact absurd (c2 q2) q1
      · simp only [q1, q2, decide_false, Bool.false_and, Bool.false_eq_true, if_false, add_zero]
  exact key res.times

/-- Exact arithmetic: no point `(x, v)` of the curve drawn by `plot_exposure_time` from the simulated particles is farther than `2 (ε + 1 / m)` from the
probability that a single particle stays in the region for longer than 1e-6 and at most `x`, up to a probability of at most `4 m exp (-2 N ε²)`. -/
theorem C113_drawn {F : Fun ℝ Arith.exact} (h : Reach Arith.exact F (Routed Arith.exact F R C) Draws (GoodSeeds Arith.exact R C) P s)
    {wd : WalkData ℝ} (hwd : s.walk = some wd) (hN : 0 < wd.xinds.length) (calls : List (Option (Fl ℝ) × Int))
    (hsame : ∀ i, i < wd.xinds.length → wd.only i = wd.only 0) {g : Grid Int} (hgr : g.rows = R) (hgc : g.cols = C) {ε : ℝ} (hε : 0 < ε) {m : Nat}
    (hm0 : 0 < m) :
    uniformDraws.real {ω | ∃ x v, Drawn g (runCalls Arith.exact F P ω calls s) x v ∧ 2 * (ε + 1 / m) < |v -
      uniformDraws.real {ω' | ∃ y, exposuresIn Arith.exact g (runCalls Arith.exact F P ω' calls (alone s.world (wd.only 0))) = [.fin y] ∧
        1 / 1000000 < y ∧ y ≤ x}|} ≤ 4 * m * Real.exp (-2 * wd.xinds.length * ε ^ 2) := by
  obtain ⟨X, ν, hν, hm, hind, hmarg, hfrac, -, hset⟩ := exposures_sample rfl rfl h hwd hN calls hsame hgr hgc
  refine le_trans (ENNReal.toReal_mono (measure_ne_top _ _) (measure_mono_ae ?_)) (uniform_cdf hN hm hind hmarg hε hm0)
  filter_upwards [hfrac, uniformDraws_nonzero] with ω hω hd
  rintro ⟨x, v, hdr, hlt⟩
  obtain ⟨s', rows', e1, e2, -⟩ := company_good rfl rfl h hwd hN hd.1 calls
  have hv := drawn_fraction e2 (e1 ▸ hdr)
  rw [← e1, hω, hω] at hv
  obtain ⟨-, -, -, -, -, -, -, -, -, -, -, -, -, -, -, -, -, -, hx0, -⟩ := hdr
  have hsplit : uniformDraws.real {ω' | ∃ y, exposuresIn Arith.exact g (runCalls Arith.exact F P ω' calls (alone s.world (wd.only 0))) = [.fin y] ∧
      1 / 1000000 < y ∧ y ≤ x} = ν.real (Set.Iic x) - ν.real (Set.Iic (1 / 1000000)) := by
    have := hset (Set.Ioc (1 / 1000000) x) measurableSet_Ioc
    rw [show Set.Ioc (1 / 1000000) x = Set.Iic x \ Set.Iic (1 / 1000000) by
      ext; simp [and_comm],
      measureReal_sdiff (Set.Iic_subset_Iic.2 hx0) measurableSet_Iic] at this
    rw [← this]
    congr 1
    ext ω'
    simp only [Set.mem_ofPred_eq, Set.mem_sdiff, Set.mem_Iic, not_le, and_comm (a := _ ≤ x)]
  rw [hsplit, hv] at hlt
  by_contra hno
  have hno : ∀ t, |fractionIn (Set.Iic t) (fun i => X i ω) - ν.real (Set.Iic t)| ≤ ε + 1 / m := fun t => by
    by_contra hc
    exact hno ⟨t, not_le.1 hc⟩
  have a := abs_le.1 (hno x)
  have b := abs_le.1 (hno (1 / 1000000))
  refine absurd hlt (not_lt.2 (abs_le.2 ⟨?_, ?_⟩)) <;> linarith [a.1, a.2, b.1, b.2]

theorem realObj_routed : Routed Arith.exact Fun.real 5 5 realObj :=
  ⟨realObj_enclosed, show (_ : ℝ) ≤ 2 by change (1 / 5 : ℝ) ≤ 2; norm_num, show (0 : ℝ) ≤ _ by change (0 : ℝ) ≤ 10; norm_num⟩

/-- The hypotheses are met: eight particles in the middle of a grid, driven by a plain call, a call with a target time and another plain call. The fraction
of them that stay at most 3 seconds in the lower part of the grid differs by one half or more from the probability for a single particle in fewer than
4 percent of the cases, and likewise the fraction found there at time 4; the whole distributions differ by more than three quarters somewhere in fewer than
30 percent. -/
example : ∃ (s : PState ℝ) (wd : WalkData ℝ) (g : Grid Int),
    Reach Arith.exact Fun.real (Routed Arith.exact Fun.real 5 5) Draws (GoodSeeds Arith.exact 5 5) realObj s ∧ s.walk = some wd ∧ wd.xinds.length = 8 ∧
    uniformDraws.real {ω | 1 / 2 ≤ |fractionWith (fun x => Fl.le x (.fin 3) = true)
      (exposuresIn Arith.exact g (runCalls Arith.exact Fun.real realObj ω [(none, 10000), (some (.fin 5), 100), (none, 10000)] s)) -
      uniformDraws.real {ω' | ∃ x, exposuresIn Arith.exact g (runCalls Arith.exact Fun.real realObj ω' [(none, 10000), (some (.fin 5), 100), (none, 10000)]
        (alone s.world (wd.only 0))) = [x] ∧ Fl.le x (.fin 3) = true}|} ≤ 2 * Real.exp (-4) ∧
    uniformDraws.real {ω | 1 / 2 ≤ |fractionWith (· ∈ {p : Int × Int | 3 ≤ p.1})
      (cellsAt Arith.exact (.fin 4) (runCalls Arith.exact Fun.real realObj ω [(none, 10000), (some (.fin 5), 100), (none, 10000)] s)) -
      uniformDraws.real {ω' | ∃ p ∈ {p : Int × Int | 3 ≤ p.1}, cellsAt Arith.exact (.fin 4)
        (runCalls Arith.exact Fun.real realObj ω' [(none, 10000), (some (.fin 5), 100), (none, 10000)] (alone s.world (wd.only 0))) = [p]}|} ≤
      2 * Real.exp (-4) ∧
    uniformDraws.real {ω | ∃ t, 3 / 4 < |fractionWith (fun x => Fl.le x (.fin t) = true)
      (exposuresIn Arith.exact g (runCalls Arith.exact Fun.real realObj ω [(none, 10000), (some (.fin 5), 100), (none, 10000)] s)) -
      uniformDraws.real {ω' | ∃ x, exposuresIn Arith.exact g (runCalls Arith.exact Fun.real realObj ω' [(none, 10000), (some (.fin 5), 100), (none, 10000)]
        (alone s.world (wd.only 0))) = [x] ∧ Fl.le x (.fin t) = true}|} ≤ 16 * Real.exp (-4) := by
  obtain ⟨s0, h0, wd, hwd, hlen, hsame⟩ : ∃ s0, generateParticles Arith.exact realObj (fun _ => 1 / 2) (initState Arith.exact Fun.real realObj 0) (.int 8)
    (.list [.int 2, .int 2, .int 2, .int 2, .int 2, .int 2, .int 2, .int 2]) (.list [.int 2, .int 2, .int 2, .int 2, .int 2, .int 2, .int 2, .int 2])
    (.int 0) (.str "exact") none = .ok s0 ∧ ∃ wd, s0.walk = some wd ∧ wd.xinds.length = 8 ∧ ∀ i, i < 8 → wd.only i = wd.only 0 :=
    ⟨_, rfl, _, rfl, rfl, fun i hi => by interval_cases i <;> rfl⟩
  have hc : genInputCheck (K := ℝ) (.int 8) (.list [.int 2, .int 2, .int 2, .int 2, .int 2, .int 2, .int 2, .int 2])
    (.list [.int 2, .int 2, .int 2, .int 2, .int 2, .int 2, .int 2, .int 2]) (.int 0) (.str "exact") =
    .ok (8, [2, 2, 2, 2, 2, 2, 2, 2], [2, 2, 2, 2, 2, 2, 2, 2], .fin ((0 : Int) : ℝ), .exact) := rfl
  have hreach : Reach Arith.exact Fun.real (Routed Arith.exact Fun.real 5 5) Draws (GoodSeeds Arith.exact 5 5) realObj s0 :=
    .generate (.new 0 realObj_routed) (fun _ => by norm_num) hc (by norm_num)
      ⟨by intro x hx y hy; simp at hx hy; subst hx hy; unfold Inside; decide, _, rfl, rfl⟩ h0
  refine ⟨s0, wd, ⟨5, 5, fun i _ => if 3 ≤ i then 1 else 0⟩, hreach, hwd, hlen, ?_, ?_, ?_⟩
  · refine (C113_residence rfl rfl hreach hwd (by omega) _ (fun i hi => hsame i (by omega)) rfl rfl 3 (ε := 1 / 2) (by norm_num)).trans (le_of_eq ?_)
    rw [hlen]
    norm_num
  · refine (C113_snapshot rfl rfl hreach hwd (by omega) _ (fun i hi => hsame i (by omega)) 4 _ (ε := 1 / 2) (by norm_num)).trans (le_of_eq ?_)
    rw [hlen]
    norm_num
  · have := C113_curve rfl rfl hreach hwd (by omega) [(none, 10000), (some (.fin 5), 100), (none, 10000)] (fun i hi => hsame i (by omega))
      (g := ⟨5, 5, fun i _ => if 3 ≤ i then 1 else 0⟩) rfl rfl (ε := 1 / 2) (m := 4) (by norm_num) (by norm_num)
    rw [hlen, show (1 / 2 + 1 / ((4 : ℕ) : ℝ)) = 3 / 4 by norm_num, show 4 * ((4 : ℕ) : ℝ) * Real.exp (-2 * ((8 : ℕ) : ℝ) * (1 / 2) ^ 2) = 16 * Real.exp (-4) by
      norm_num] at this
    exact this

end Dorado
