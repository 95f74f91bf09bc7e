import Verif.Lemmas.AreaVisits

/-! # The nourishment map of many particles estimates the map of the expected visits: C114 -/

set_option linter.unusedSectionVars false

namespace Dorado

open MeasureTheory ProbabilityTheory

variable {A : Arith ℝ} {F : Fun ℝ A} {R C : Nat} {P : PObj ℝ} {s : PState ℝ}

/-- Visits of the particles together and of each by itself, from the histories. -/
theorem visits_read (h : Reach A F (Enclosed A F R C) Draws (InsideSeeds R C) P s) {wd : WalkData ℝ} (hwd : s.walk = some wd) (hN : 0 < wd.xinds.length)
    (calls : List (Option (Fl ℝ) × Int)) {L : Nat} (hL : ∀ i, i < wd.xinds.length → wd.records i + (calls.map maxMoves).sum ≤ L) (c : Int × Int) {ω : Nat → ℝ}
    (hω : Draws ω) :
    (visitsIn c (runCalls A F P ω calls s) : ℝ) = ∑ i : Fin wd.xinds.length, (historyIn i (runCalls A F P ω calls s)).seen c L ∧
    ∀ i : Fin wd.xinds.length, (visitsIn c (runCalls A F P ω calls (alone s.world (wd.only i))) : ℝ) =
      (historyIn 0 (runCalls A F P ω calls (alone s.world (wd.only i)))).seen c L := by
  obtain ⟨hR, rows, hrows, hs⟩ := Enclosed.sound h hwd
  have hl : wd.xinds.length = rows.length := by rw [hrows]; simp [ofRows]
  have hrec : ∀ (i : Nat) r, rows[i]? = some r → r.ts.length + (calls.map maxMoves).sum ≤ L := by
    intro i r hr
    have hi := (List.getElem?_eq_some_iff.1 hr).1
    have := hL i (by omega)
    rw [hrows] at this
    simpa [WalkData.records, ofRows, hr] using this
  constructor
  · obtain ⟨s', rows', e1, e2, e3, e4⟩ := records_bound hR hs (by omega) hω calls
    rw [e1, visits_eq e2 (L := L) (fun r' hr' => ?_) c]
    · have : rows'.length = wd.xinds.length := by omega
      rw [← Finset.sum_range fun i => (historyIn i (.ok s')).seen c L, this, Finset.sum_range]
    · obtain ⟨i, hi⟩ := List.getElem?_of_mem hr'
      have hlt := (List.getElem?_eq_some_iff.1 hi).1
      have hri := List.getElem?_eq_getElem (show i < rows.length by omega)
      exact (e4 i _ _ hri hi).trans (hrec i _ hri)
  · intro i
    have hri := List.getElem?_eq_getElem (show i.val < rows.length by omega)
    obtain ⟨s', rows', e1, e2, e3, e4⟩ := records_bound hR (hs.single hwd hri) (by simp) hω calls
    obtain ⟨r', rfl⟩ := List.length_eq_one_iff.1 e3
    rw [e1, visits_eq e2 (L := L) (fun q hq => ?_) c]
    · simp
    · rw [List.mem_singleton.1 hq]
      exact (e4 0 _ _ rfl rfl).trans (hrec i _ hri)

section
variable (h : Reach A F (Enclosed A F R C) Draws (InsideSeeds R C) P s) {wd : WalkData ℝ} (hwd : s.walk = some wd) (hN : 0 < wd.xinds.length)
  (calls : List (Option (Fl ℝ) × Int))
include h hwd hN

theorem exists_length : ∃ L : Nat, ∀ i, i < wd.xinds.length → wd.records i + (calls.map maxMoves).sum ≤ L := by
  refine ⟨∑ i ∈ Finset.range wd.xinds.length, (wd.records i + (calls.map maxMoves).sum), fun i hi => ?_⟩
  exact Finset.single_le_sum (f := fun i => wd.records i + (calls.map maxMoves).sum) (fun _ _ => Nat.zero_le _) (Finset.mem_range.2 hi)

theorem expected_eq {L : Nat} (hL : ∀ i, i < wd.xinds.length → wd.records i + (calls.map maxMoves).sum ≤ L) (c : Int × Int) :
    expectedVisits A F P calls s wd c = (∑ i : Fin wd.xinds.length, ∫ x, History.seen c L x ∂(uniformDraws.map fun ω =>
      historyIn 0 (runCalls A F P ω calls (alone s.world (wd.only i))))) / wd.xinds.length := by
  unfold expectedVisits
  congr 1
  refine Finset.sum_congr rfl fun i _ => ?_
  rw [integral_map (history_aemeasurable h hwd calls i).2 (History.seen_measurable c L).aestronglyMeasurable]
  refine integral_congr_ae ?_
  filter_upwards [uniformDraws_nonzero] with ω hω
  exact (visits_read h hwd hN calls hL c hω.1).2 i

theorem seen_integrable (L : Nat) (c : Int × Int) (i : Fin wd.xinds.length) :
    Integrable (fun ω => (historyIn i (runCalls A F P ω calls s)).seen c L) uniformDraws := by
  refine Integrable.of_bound ((History.seen_measurable c L).comp_aemeasurable (history_aemeasurable h hwd calls i).1).aestronglyMeasurable L ?_
  filter_upwards with ω
  rw [Real.norm_of_nonneg (History.seen_nonneg c L _)]
  exact History.seen_le c L _

/-- Any rounding: the expected number of visits to a cell, divided by the number of particles, is the expected number of visits of a particle simulated by itself. -/
theorem C114_unbiased (c : Int × Int) :
    ∫ ω, (visitsIn c (runCalls A F P ω calls s) : ℝ) / wd.xinds.length ∂uniformDraws = expectedVisits A F P calls s wd c := by
  obtain ⟨L, hL⟩ := exists_length (wd := wd) h hwd hN calls
  rw [expected_eq h hwd hN calls hL c, integral_div]
  congr 1
  rw [integral_congr_ae (g := fun ω => ∑ i : Fin wd.xinds.length, (historyIn i (runCalls A F P ω calls s)).seen c L), integral_finsetSum]
  · refine Finset.sum_congr rfl fun i _ => ?_
    rw [← C107_own_law h hwd calls i, integral_map (history_aemeasurable h hwd calls i).1 (History.seen_measurable c L).aestronglyMeasurable]
  · exact fun i _ => seen_integrable h hwd hN calls L c i
  · filter_upwards [uniformDraws_nonzero] with ω hω
    exact (visits_read h hwd hN calls hL c hω.1).1

/-- Any rounding, both routing modes, any history of the object, any sequence of calls, particles seeded anywhere, `L` at least the number of records each
particle can have: the number of visits per particle is within `δ` of its expected value in every cell of the raster at once, up to a probability of at most
`2 R C exp (-2 N (δ / L)²)`. -/
theorem C114_visits {L : Nat} (hL : ∀ i, i < wd.xinds.length → wd.records i + (calls.map maxMoves).sum ≤ L) {δ : ℝ} (hδ : 0 < δ) :
    uniformDraws.real {ω | ∃ i j, i < R ∧ j < C ∧ δ ≤ |(visitsIn ((i : Int), (j : Int)) (runCalls A F P ω calls s) : ℝ) / wd.xinds.length -
      expectedVisits A F P calls s wd ((i : Int), (j : Int))|} ≤ 2 * R * C * Real.exp (-2 * wd.xinds.length * (δ / L) ^ 2) := by
  have hL0 : 0 < L := by
    obtain ⟨-, rows, hrows, hs⟩ := Enclosed.sound h hwd
    have hl : wd.xinds.length = rows.length := by rw [hrows]; simp [ofRows]
    have hri := List.getElem?_eq_getElem (show 0 < rows.length by omega)
    have h1 := hL 0 hN
    have h2 : wd.records 0 = rows[0].ts.length := by
      have e : ∀ w : WalkData ℝ, w = ofRows (keysOf P) rows → w.records 0 = rows[0].ts.length := by
        rintro w rfl
        simp [WalkData.records, ofRows, hri]
      exact e wd hrows
    obtain ⟨a, b, c⟩ := (hs.ok _ (List.getElem_mem (show 0 < rows.length by omega))).vars.aligned
    omega
  have hLr : (0 : ℝ) < L := by exact_mod_cast hL0
  have hone : ∀ c : Int × Int, uniformDraws.real {ω | δ ≤ |(visitsIn c (runCalls A F P ω calls s) : ℝ) / wd.xinds.length -
      expectedVisits A F P calls s wd c|} ≤ 2 * Real.exp (-2 * wd.xinds.length * (δ / L) ^ 2) := by
    intro c
    have hm := fun i => history_aemeasurable h hwd calls i
    have := hoeffding_mean hN (fun i => (hm i).1) (C107_independent h hwd calls)
      (ν := fun i => uniformDraws.map fun ω => historyIn 0 (runCalls A F P ω calls (alone s.world (wd.only i))))
      (fun i => C107_own_law h hwd calls i) (f := fun x => History.seen c L x / L) ((History.seen_measurable c L).div_const _)
      (fun x => div_nonneg (History.seen_nonneg c L x) hLr.le) (fun x => (div_le_one hLr).2 (History.seen_le c L x)) (ε := δ / L) (by positivity)
    refine le_trans (le_of_eq (measureReal_congr ?_)) this
    filter_upwards [uniformDraws_nonzero] with ω hω
    refine propext ?_
    show δ ≤ _ ↔ δ / L ≤ |_|
    rw [expected_eq h hwd hN calls hL c, (visits_read h hwd hN calls hL c hω.1).1]
    simp only [integral_div]
    rw [← Finset.sum_div, ← Finset.sum_div, div_right_comm _ (L : ℝ), div_right_comm _ (L : ℝ), ← sub_div _ _ (L : ℝ), abs_div _ (L : ℝ), abs_of_pos hLr, div_le_div_iff_of_pos_right hLr]
  have hsub : {ω | ∃ i j, i < R ∧ j < C ∧ δ ≤ |(visitsIn ((i : Int), (j : Int)) (runCalls A F P ω calls s) : ℝ) / wd.xinds.length -
      expectedVisits A F P calls s wd ((i : Int), (j : Int))|} = ⋃ q ∈ Finset.range R ×ˢ Finset.range C,
        {ω | δ ≤ |(visitsIn ((q.1 : Int), (q.2 : Int)) (runCalls A F P ω calls s) : ℝ) / wd.xinds.length -
          expectedVisits A F P calls s wd ((q.1 : Int), (q.2 : Int))|} := by
    ext ω
    simp only [Set.mem_ofPred_eq, Set.mem_iUnion, Finset.mem_product, Finset.mem_range, exists_prop, Prod.exists]
    constructor
    · rintro ⟨i, j, hi, hj, hd⟩
      exact ⟨i, j, ⟨hi, hj⟩, hd⟩
    · rintro ⟨i, j, ⟨hi, hj⟩, hd⟩
      exact ⟨i, j, hi, hj, hd⟩
  rw [hsub]
  refine (measureReal_biUnion_finset_le _ _).trans ((Finset.sum_le_card_nsmul _ _ _ fun q _ => hone _).trans (le_of_eq ?_))
  rw [Finset.card_product, Finset.card_range, Finset.card_range, nsmul_eq_mul]
  push_cast
  ring

end

theorem expectedVisits_nonneg (calls : List (Option (Fl ℝ) × Int)) (wd : WalkData ℝ) (c : Int × Int) : 0 ≤ expectedVisits A F P calls s wd c :=
  div_nonneg (Finset.sum_nonneg fun _ _ => integral_nonneg fun _ => Nat.cast_nonneg _) (Nat.cast_nonneg _)

theorem some_visit {wd' : WalkData ℝ} (hp : Proper wd') (hr : OnRaster R C wd') (hc : 0 < wd'.count) :
    ∃ i j : Nat, i < R ∧ j < C ∧ 0 < wd'.visits ((i : Int), (j : Int)) := by
  obtain ⟨xs, hx⟩ : ∃ xs, wd'.xinds[0]? = some xs := ⟨_, List.getElem?_eq_getElem (show 0 < wd'.xinds.length from hc)⟩
  obtain ⟨ys, hy⟩ : ∃ ys, wd'.yinds[0]? = some ys := ⟨_, List.getElem?_eq_getElem (show 0 < wd'.yinds.length by rw [hp.cols]; exact hc)⟩
  obtain ⟨ts, ht⟩ : ∃ ts, wd'.times[0]? = some ts := ⟨_, List.getElem?_eq_getElem (show 0 < wd'.times.length by rw [hp.times]; exact hc)⟩
  obtain ⟨a, b, d⟩ := hp.same 0 _ _ _ hx hy ht
  obtain ⟨x, hx0⟩ : ∃ x, xs[0]? = some x := ⟨_, List.getElem?_eq_getElem (by omega)⟩
  obtain ⟨y, hy0⟩ : ∃ y, ys[0]? = some y := ⟨_, List.getElem?_eq_getElem (by omega)⟩
  have hpos : wd'.posAt 0 0 = some (x, y) := by
    simp only [WalkData.posAt, hx, hy, Option.bind_eq_bind, Option.bind_some, hx0, hy0]
    rfl
  obtain ⟨h1, h2, h3, h4⟩ := hr 0 0 _ hpos
  simp only at h1 h2 h3 h4
  refine ⟨x.toNat, y.toNat, by omega, by omega, ?_⟩
  rw [Int.toNat_of_nonneg h1, Int.toNat_of_nonneg h3]
  unfold WalkData.visits
  refine Finset.sum_pos' (fun _ _ => Nat.zero_le _) ⟨0, Finset.mem_range.2 hc, Finset.sum_pos' (fun _ _ => Nat.zero_le _) ⟨0, ?_, ?_⟩⟩
  · rw [Finset.mem_range]
    simp only [WalkData.records, ht, Option.map_some, Option.getD_some]
    omega
  · rw [if_pos hpos]
    exact one_pos

section
variable {F : Fun ℝ Arith.exact} (h : Reach Arith.exact F (Routed Arith.exact F R C) Draws (GoodSeeds Arith.exact R C) P s) {wd : WalkData ℝ}
  (hwd : s.walk = some wd) (hN : 0 < wd.xinds.length) (calls : List (Option (Fl ℝ) × Int))
include h hwd hN

/-- The walk data after the calls. -/
theorem company_walk {ω : Nat → ℝ} (hω : Draws ω) : ∃ s' wd', runCalls Arith.exact F P ω calls s = .ok s' ∧ s'.walk = some wd' ∧ Proper wd' ∧
    OnRaster R C wd' ∧ 0 < wd'.count := by
  obtain ⟨s', rows', e1, e2, e3, -⟩ := company_good rfl rfl h hwd hN hω calls
  obtain ⟨hp, hr, -⟩ := C67_valid rfl rfl (reach_calls hω calls h e1) e2.has.1
  exact ⟨s', _, e1, e2.has.1, hp, hr, by simp only [WalkData.count, ofRows, List.length_map]; omega⟩

/-- Exact arithmetic, any averaging smoothing, any clipping percentile: `nourishment_area` returns a map for the simulated particles that differs from the map
of the expected visits (limited, smoothed and divided by its maximum `top` in the same way) by more than `2 δ / top` in some cell only with probability at most
`2 R C exp (-2 N (δ / L)²)`. -/
theorem C114_map {L : Nat} (hL : ∀ i, i < wd.xinds.length → wd.records i + (calls.map maxMoves).sum ≤ L) {smooth : Option (Grid (Fl ℝ) → Grid (Fl ℝ))}
    (hs : SmoothOK smooth) (hav : Averaging smooth) {clip : ℝ} (h0 : 0 ≤ clip) (h1 : clip ≤ 100) {m : Nat → Nat → ℝ} {top : ℝ}
    (hm : IsMapOf R C smooth clip (fun i j => expectedVisits Arith.exact F P calls s wd ((i : Int), (j : Int))) m top) {δ : ℝ} (hδ : 0 < δ) :
    uniformDraws.real {ω | OffBy R C smooth (2 * δ / top) (areaIn Arith.exact R C smooth clip (runCalls Arith.exact F P ω calls s)) m} ≤
      2 * R * C * Real.exp (-2 * wd.xinds.length * (δ / L) ^ 2) := by
  refine le_trans (ENNReal.toReal_mono (measure_ne_top _ _) (measure_mono_ae ?_)) (C114_visits (Routed.enclosedReach h) hwd hN calls hL hδ)
  filter_upwards [uniformDraws_nonzero] with ω hω hoff
  by_contra hno
  have hno : ∀ i j, i < R → j < C → |(visitsIn ((i : Int), (j : Int)) (runCalls Arith.exact F P ω calls s) : ℝ) / wd.xinds.length -
      expectedVisits Arith.exact F P calls s wd ((i : Int), (j : Int))| ≤ δ := fun i j hi hj => by
    by_contra hc
    exact hno ⟨i, j, hi, hj, (not_le.1 hc).le⟩
  obtain ⟨s', wd', e1, e2, hp, hr, hc⟩ := company_walk h hwd hN calls hω.1
  obtain ⟨i, j, hi, hj, -⟩ := some_visit hp hr hc
  change OffBy R C smooth (2 * δ / top) (areaIn Arith.exact R C smooth clip (runCalls Arith.exact F P ω calls s)) m at hoff
  rw [e1] at hno hoff
  simp only [visitsIn, areaIn, e2] at hno hoff
  exact map_close hp hr (by omega) (by omega) h0 h1 hs hav (fun i j => expectedVisits_nonneg calls wd _) hm (by exact_mod_cast hN) hno hoff

/-- Some cell is visited in expectation. -/
theorem expected_pos : ∃ i j, i < R ∧ j < C ∧ 0 < expectedVisits Arith.exact F P calls s wd ((i : Int), (j : Int)) := by
  have hE := Routed.enclosedReach h
  obtain ⟨L, hL⟩ := exists_length (wd := wd) hE hwd hN calls
  by_contra hno
  have hz : ∀ i j, i < R → j < C → expectedVisits Arith.exact F P calls s wd ((i : Int), (j : Int)) = 0 := fun i j hi hj => by
    by_contra hc
    exact hno ⟨i, j, hi, hj, lt_of_le_of_ne (expectedVisits_nonneg calls wd _) (Ne.symm hc)⟩
  have hae : ∀ i j : Nat, ∀ᵐ ω ∂uniformDraws, i < R → j < C → (visitsIn ((i : Int), (j : Int)) (runCalls Arith.exact F P ω calls s) : ℝ) / wd.xinds.length = 0 := by
    intro i j
    by_cases hij : i < R ∧ j < C
    · have h1 := C114_unbiased hE hwd hN calls ((i : Int), (j : Int))
      rw [hz i j hij.1 hij.2, integral_eq_zero_iff_of_nonneg (fun ω => div_nonneg (Nat.cast_nonneg _) (Nat.cast_nonneg _))] at h1
      · filter_upwards [h1] with ω hω _ _ using hω
      · refine Integrable.div_const ?_ _
        refine (integrable_finsetSum Finset.univ fun k _ => seen_integrable hE hwd hN calls L ((i : Int), (j : Int)) k).congr ?_
        filter_upwards [uniformDraws_nonzero] with ω hω
        exact ((visits_read hE hwd hN calls hL _ hω.1).1).symm
    · filter_upwards with ω h1 h2
      exact absurd ⟨h1, h2⟩ hij
  have hall := ae_all_iff.2 fun i => ae_all_iff.2 (hae i)
  obtain ⟨ω, hω, hω2⟩ := (hall.and uniformDraws_nonzero).exists
  obtain ⟨s', wd', e1, e2, hp, hr, hc⟩ := company_walk h hwd hN calls hω2.1
  obtain ⟨i, j, hi, hj, hv⟩ := some_visit hp hr hc
  have := hω i j hi hj
  rw [e1] at this
  simp only [visitsIn, e2] at this
  have h2 : (0 : ℝ) < (wd'.visits ((i : Int), (j : Int)) : ℝ) / wd.xinds.length := div_pos (by exact_mod_cast hv) (by exact_mod_cast hN)
  linarith

end

/-! ## A smoothing operator -/

theorem percentile_top {l : List ℝ} {v x : ℝ} (h : Percentile l 100 v) (hx : x ∈ l) : x ≤ v := by
  obtain ⟨s, hs, ho, k, t, a, b, h0, h1, hk, ha, hb, rfl⟩ := h
  have hlt := (List.getElem?_eq_some_iff.1 ha).1
  have hk : (k : ℝ) + t = ((s.length - 1 : Nat) : ℝ) := by rw [hk]; ring
  have hk1 : k = s.length - 1 := by
    have e1 : (k : ℝ) < ((s.length - 1 : Nat) : ℝ) + 1 := by linarith
    have e2 : ((s.length - 1 : Nat) : ℝ) < (k : ℝ) + 1 := by linarith
    have e1 : k < (s.length - 1) + 1 := by exact_mod_cast e1
    have e2 : (s.length - 1) < k + 1 := by exact_mod_cast e2
    omega
  have ht : t = 0 := by rw [hk1] at hk; linarith
  subst ht
  obtain ⟨n, hn⟩ := List.getElem?_of_mem (hs.mem_iff.2 hx)
  obtain ⟨hn1, hn2⟩ := List.getElem?_eq_some_iff.1 hn
  have ha' := (List.getElem?_eq_some_iff.1 ha).2
  rw [zero_mul, add_zero, ← ha', ← hn2]
  rcases Nat.lt_or_ge n k with h | h
  · exact List.pairwise_iff_getElem.1 ho n k hn1 hlt h
  · have : n = k := by omega
    subst this
    exact le_rfl

/-- The mean of a cell and its right neighbour. -/
noncomputable def pairMean (g : Grid (Fl ℝ)) : Grid (Fl ℝ) :=
  ⟨g.rows, g.cols, fun i j => Arith.exact.div (Arith.exact.add (g.at' i j) (g.at' i (if j + 1 < g.cols then j + 1 else j))) (.fin 2)⟩

theorem pairMean_val {g : Grid (Fl ℝ)} {i j : Nat} {x y : ℝ} (hx : g.at' i j = .fin x) (hy : g.at' i (if j + 1 < g.cols then j + 1 else j) = .fin y) :
    (pairMean g).at' i j = .fin ((x + y) / 2) := by
  unfold pairMean
  simp only [hx, hy]
  simp [Arith.add, Arith.div, Arith.exact]

theorem pairMean_ok : SmoothOK (some pairMean) := by
  rintro f ⟨⟩ g hg
  refine ⟨rfl, rfl, fun i j hi hj => ?_⟩
  obtain ⟨x, hx, hx0⟩ := hg i j hi hj
  obtain ⟨y, hy, hy0⟩ := hg i (if j + 1 < g.cols then j + 1 else j) hi (by change j < g.cols at hj; split <;> omega)
  exact ⟨_, pairMean_val hx hy, by positivity⟩

theorem pairMean_averaging : Averaging (some pairMean) := by
  rintro f ⟨⟩ R C a a' - - c d - hnear i j x x' hi hj hx hx'
  have hj' : (if j + 1 < C then j + 1 else j) < C := by split <;> omega
  have e1 := hnear i j _ _ hi hj rfl rfl
  have e2 := hnear i _ _ _ hi hj' rfl rfl
  rw [pairMean_val (g := rasterOf R C a) rfl rfl] at hx
  rw [pairMean_val (g := rasterOf R C a') rfl rfl] at hx'
  cases hx
  cases hx'
  change |c * ((a i j + a i (if j + 1 < C then j + 1 else j)) / 2) - (a' i j + a' i (if j + 1 < C then j + 1 else j)) / 2| ≤ d
  generalize (if j + 1 < C then j + 1 else j) = k at *
  rw [abs_le] at *
  constructor <;> linarith [e1.1, e1.2, e2.1, e2.2]

/-- The hypotheses are met, with and without smoothing: 32 particles in two cells of a grid, two plain calls. In fewer than 5 percent of the cases is the number
of visits per particle off its expectation by 1 or more in some of the 25 cells, and likewise for the maps. -/
example : ∃ (s : PState ℝ) (wd : WalkData ℝ),
    Reach Arith.exact Fun.real (Routed Arith.exact Fun.real 5 5) Draws (GoodSeeds Arith.exact 5 5) realObj s ∧ s.walk = some wd ∧ wd.xinds.length = 32 ∧
    uniformDraws.real {ω | ∃ i j : Nat, i < 5 ∧ j < 5 ∧ 1 ≤ |(visitsIn ((i : Int), (j : Int)) (runCalls Arith.exact Fun.real realObj ω [(none, 10000), (none, 10000)] s) :
      ℝ) / 32 - expectedVisits Arith.exact Fun.real realObj [(none, 10000), (none, 10000)] s wd ((i : Int), (j : Int))|} ≤ 50 * Real.exp (-64 / 9) ∧
    ∀ smooth, smooth = none ∨ smooth = some pairMean → ∃ m top, IsMapOf 5 5 smooth 100
      (fun i j => expectedVisits Arith.exact Fun.real realObj [(none, 10000), (none, 10000)] s wd ((i : Int), (j : Int))) m top ∧
      uniformDraws.real {ω | OffBy 5 5 smooth (2 * 1 / top) (areaIn Arith.exact 5 5 smooth 100
        (runCalls Arith.exact Fun.real realObj ω [(none, 10000), (none, 10000)] s)) m} ≤ 50 * Real.exp (-64 / 9) := by
  obtain ⟨s0, h0, wd, hwd, hlen, hrec⟩ : ∃ s0, generateParticles Arith.exact realObj (fun _ => 1 / 2) (initState Arith.exact Fun.real realObj 0) (.int 32)
    (.list [.int 2, .int 1, .int 2, .int 1, .int 2, .int 1, .int 2, .int 1, .int 2, .int 1, .int 2, .int 1, .int 2, .int 1, .int 2, .int 1, .int 2, .int 1, .int 2, .int 1, .int 2, .int 1, .int 2, .int 1, .int 2, .int 1, .int 2, .int 1, .int 2, .int 1, .int 2, .int 1])
    (.list [.int 2, .int 2, .int 2, .int 2, .int 2, .int 2, .int 2, .int 2, .int 2, .int 2, .int 2, .int 2, .int 2, .int 2, .int 2, .int 2, .int 2, .int 2, .int 2, .int 2, .int 2, .int 2, .int 2, .int 2, .int 2, .int 2, .int 2, .int 2, .int 2, .int 2, .int 2, .int 2])
    (.int 0) (.str "exact") none = .ok s0 ∧ ∃ wd, s0.walk = some wd ∧ wd.xinds.length = 32 ∧ ∀ i, i < 32 → wd.records i = 1 :=
    ⟨_, rfl, _, rfl, rfl, fun i hi => by interval_cases i <;> rfl⟩
  have hc : genInputCheck (K := ℝ) (.int 32) (.list [.int 2, .int 1, .int 2, .int 1, .int 2, .int 1, .int 2, .int 1, .int 2, .int 1, .int 2, .int 1, .int 2, .int 1, .int 2, .int 1, .int 2, .int 1, .int 2, .int 1, .int 2, .int 1, .int 2, .int 1, .int 2, .int 1, .int 2, .int 1, .int 2, .int 1, .int 2, .int 1])
    (.list [.int 2, .int 2, .int 2, .int 2, .int 2, .int 2, .int 2, .int 2, .int 2, .int 2, .int 2, .int 2, .int 2, .int 2, .int 2, .int 2, .int 2, .int 2, .int 2, .int 2, .int 2, .int 2, .int 2, .int 2, .int 2, .int 2, .int 2, .int 2, .int 2, .int 2, .int 2, .int 2]) (.int 0) (.str "exact") =
    .ok (32, [2, 1, 2, 1, 2, 1, 2, 1, 2, 1, 2, 1, 2, 1, 2, 1, 2, 1, 2, 1, 2, 1, 2, 1, 2, 1, 2, 1, 2, 1, 2, 1], [2, 2, 2, 2, 2, 2, 2, 2, 2, 2, 2, 2, 2, 2, 2, 2, 2, 2, 2, 2, 2, 2, 2, 2, 2, 2, 2, 2, 2, 2, 2, 2], .fin ((0 : Int) : ℝ), .exact) := rfl
  have hreach : Reach Arith.exact Fun.real (Routed Arith.exact Fun.real 5 5) Draws (GoodSeeds Arith.exact 5 5) realObj s0 :=
    .generate (.new 0 realObj_routed) (fun _ => by norm_num) hc (by norm_num)
      ⟨fun x hx y hy => by
        simp at hx hy
        subst hy
        have hx : x = 1 ∨ x = 2 := by omega
        rcases hx with rfl | rfl <;> (unfold Inside; decide), _, rfl, rfl⟩ h0
  have hN : 0 < wd.xinds.length := by omega
  have hL : ∀ i, i < wd.xinds.length → wd.records i + ([((none : Option (Fl ℝ)), (10000 : Int)), (none, 10000)].map maxMoves).sum ≤ 3 := fun i hi => by
    rw [hrec i (by omega)]
    simp [maxMoves]
  have hnum : 2 * ((5 : Nat) : ℝ) * ((5 : Nat) : ℝ) * Real.exp (-2 * ((32 : Nat) : ℝ) * (1 / ((3 : Nat) : ℝ)) ^ 2) = 50 * Real.exp (-64 / 9) := by norm_num
  refine ⟨s0, wd, hreach, hwd, hlen, ?_, fun smooth hsm => ?_⟩
  · have := C114_visits (Routed.enclosedReach hreach) hwd hN [(none, 10000), (none, 10000)] hL one_pos
    rw [hlen, hnum] at this
    rw [show ((32 : Nat) : ℝ) = 32 by norm_num] at this
    exact this
  · have hs : SmoothOK smooth := by
      rcases hsm with rfl | rfl
      · rintro f ⟨⟩
      · exact pairMean_ok
    have hav : Averaging smooth := by
      rcases hsm with rfl | rfl
      · rintro f ⟨⟩
      · exact pairMean_averaging
    obtain ⟨m, top, hm⟩ := exists_map (R := 5) (C := 5) (clip := 100) hs (by norm_num) (by norm_num) (by norm_num) le_rfl
      (a := fun i j => expectedVisits Arith.exact Fun.real realObj [(none, 10000), (none, 10000)] s0 wd ((i : Int), (j : Int)))
      (fun i j => expectedVisits_nonneg _ wd _) fun v hv => by
        obtain ⟨i, j, hi, hj, hpos⟩ := expected_pos hreach hwd hN [(none, 10000), (none, 10000)]
        have hle := percentile_top hv (x := expectedVisits Arith.exact Fun.real realObj [(none, 10000), (none, 10000)] s0 wd ((i : Int), (j : Int))) (by
          rw [values_raster]
          exact mem_flat.2 ⟨i, j, hi, hj, rfl⟩)
        have hmin : 0 < min (expectedVisits Arith.exact Fun.real realObj [(none, 10000), (none, 10000)] s0 wd ((i : Int), (j : Int))) v :=
          lt_min hpos (lt_of_lt_of_le hpos hle)
        rcases hsm with rfl | rfl
        · exact ⟨i, j, _, hi, hj, hmin, rfl⟩
        · refine ⟨i, j, _, hi, hj, ?_, pairMean_val rfl rfl⟩
          have : ∀ k : Nat, 0 ≤ min (expectedVisits Arith.exact Fun.real realObj [(none, 10000), (none, 10000)] s0 wd ((i : Int), (k : Int))) v :=
            fun k => le_min (expectedVisits_nonneg _ wd _) (hpos.le.trans hle)
          exact half_pos (add_pos_of_pos_of_nonneg hmin (this _))
    refine ⟨m, top, hm, ?_⟩
    have := C114_map hreach hwd hN [(none, 10000), (none, 10000)] hL hs hav (by norm_num) le_rfl hm one_pos
    rw [hlen, hnum] at this
    exact this

end Dorado
