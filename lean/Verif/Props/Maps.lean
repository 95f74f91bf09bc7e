import Verif.Lemmas.Maps
import Verif.Props.Nourish
import Verif.Props.Curve

/-! # Nourishment maps: C78 -/

set_option linter.unusedSectionVars false

namespace Dorado

variable {K : Type} [Field K] [LinearOrder K] [IsStrictOrderedRing K] [FloorRing K] {A : Arith K} {R C : Nat} {g : Grid (Fl K)}

theorem clipTo_fin (lo hi x : K) : clipTo (.fin lo) (.fin hi) (.fin x) = .fin (min (max x lo) hi) := by
  rw [clipTo, npMax_fin, npMin_fin]

theorem clipTo_nan (lo hi : Fl K) : clipTo lo hi .nan = .nan := by
  simp [clipTo, Fl.npMax, Fl.npMin, Fl.isNan]

theorem sub_zero_fin (A : Arith K) (x : K) : A.sub (.fin x) (.fin 0) = .fin (A.rnd x) := by
  simp [Arith.sub, Arith.add, Fl.neg]

theorem div_fin (A : Arith K) (x : K) {y : K} (h : y ≠ 0) : A.div (.fin x) (.fin y) = .fin (A.rnd (x / y)) := by
  simp [Arith.div, h]

/-- Opacities for a positive percentile. -/
theorem heatAlphas_pos {q : K} {v α : K} (hq : nanpercentile A g q = .ok (.fin v)) (hv : 0 < v) (hr : A.rnd v = v) :
    heatAlphas A g q (.fin α) = .ok (g.map fun x => clipTo (.fin α) (.fin 1) (A.div (A.sub (clipTo (.fin 0) (.fin v) x) (.fin 0)) (.fin v))) := by
  unfold heatAlphas normalizeMap
  rw [hq]
  simp only [ok_bind, Fl.eq, hv.ne, decide_false, Bool.false_eq_true, if_false, Fl.lt, not_lt.2 hv.le, if_true]
  rw [sub_zero_fin, hr]
  rfl

/-- Any rounding: a map with positive values that is drawn has opacities in `[min_alpha, 1]`, larger where the value is larger. -/
theorem alphas_mono {q α : K} (hq0 : 0 ≤ q) (hq1 : q ≤ 100) (hg : PositiveMap R C g) (hα : α ≤ 1) {a : Grid (Fl K)}
    (ha : heatAlphas A g q (.fin α) = .ok a) {i j i' j' : Nat} (hi : i < R) (hj : j < C) {x y : K}
    (hx : g.at' i j = .fin x) (hy : g.at' i' j' = .fin y) (hxy : x ≤ y) :
    ∃ s t, a.at' i j = .fin s ∧ a.at' i' j' = .fin t ∧ α ≤ s ∧ s ≤ t ∧ t ≤ 1 := by
  have hne : g.values ≠ [] := List.ne_nil_of_mem ((mem_values hg x).2 ⟨i, j, hi, hj, hx⟩)
  have hnp := nanpercentile_values (A := A) hg hq0 hq1 hne
  obtain ⟨v, hv, hrv⟩ := percK_fin A g.values q
  rw [hv] at hnp
  rcases lt_trichotomy v 0 with h | h | h
  · unfold heatAlphas normalizeMap at ha
    rw [hnp] at ha
    simp only [ok_bind, Fl.eq, h.ne', decide_false, Bool.false_eq_true, if_false, Fl.lt, h, decide_true, if_true] at ha
    cases ha
  · unfold heatAlphas normalizeMap at ha
    rw [hnp, h] at ha
    simp only [ok_bind, Fl.eq, decide_true, if_true] at ha
    cases ha
    have h1 : clipTo (.fin α) (.fin 1) (.fin (0 : K)) = .fin (min (max 0 α) 1) := clipTo_fin _ _ _
    exact ⟨_, _, h1, h1, le_min (le_max_right _ _) hα, le_rfl, min_le_right _ _⟩
  · rw [heatAlphas_pos hnp h hrv] at ha
    cases ha
    have hc : ∀ z : K, clipTo (.fin α) (.fin 1) (A.div (A.sub (clipTo (.fin 0) (.fin v) (.fin z)) (.fin 0)) (.fin v)) =
        .fin (min (max (A.rnd (A.rnd (min (max z 0) v) / v)) α) 1) := by
      intro z
      rw [clipTo_fin, sub_zero_fin, div_fin A _ h.ne', clipTo_fin]
    refine ⟨_, _, by simp only [Grid.map, hx]; exact hc x, by simp only [Grid.map, hy]; exact hc y, le_min (le_max_right _ _) hα, ?_, min_le_right _ _⟩
    have h1 : A.rnd (min (max x 0) v) ≤ A.rnd (min (max y 0) v) := A.mono _ _ (min_le_min (max_le_max hxy le_rfl) le_rfl)
    exact min_le_min (max_le_max (A.mono _ _ (div_le_div_of_nonneg_right h1 h.le)) le_rfl) le_rfl

/-- Any rounding: `show_nourishment_area` draws cells with more visits at least as opaque, all opacities in `[min_alpha, 1]`. -/
theorem C78_area_opacity (hg : PositiveMap R C g) {wd : Option (WalkData K)} {sigma α : K} (hα : α ≤ 1) {sh : Bool} {p : HeatPlot K}
    (hp : showNourishmentArea A g wd sigma (.fin α) sh = .ok p) {i j i' j' : Nat} (hi : i < R) (hj : j < C) {x y : K}
    (hx : g.at' i j = .fin x) (hy : g.at' i' j' = .fin y) (hxy : x ≤ y) :
    ∃ s t, p.alpha.at' i j = .fin s ∧ p.alpha.at' i' j' = .fin t ∧ α ≤ s ∧ s ≤ t ∧ t ≤ 1 := by
  unfold showNourishmentArea at hp
  simp only [bind_ok, pure_ok] at hp
  obtain ⟨a, ha, lo, -, c, -, s, -, rfl⟩ := hp
  exact alphas_mono (by split_ifs <;> norm_num) (by split_ifs <;> norm_num) hg hα ha hi hj hx hy hxy

/-- Any rounding: the same for `show_nourishment_time`. -/
theorem C78_time_opacity (hg : PositiveMap R C g) {wd : Option (WalkData K)} {α : K} (hα : α ≤ 1) {sh : Bool} {p : HeatPlot K}
    (hp : showNourishmentTime A g wd (.fin α) sh = .ok p) {i j i' j' : Nat} (hi : i < R) (hj : j < C) {x y : K}
    (hx : g.at' i j = .fin x) (hy : g.at' i' j' = .fin y) (hxy : x ≤ y) :
    ∃ s t, p.alpha.at' i j = .fin s ∧ p.alpha.at' i' j' = .fin t ∧ α ≤ s ∧ s ≤ t ∧ t ≤ 1 := by
  unfold showNourishmentTime at hp
  simp only [bind_ok, pure_ok] at hp
  obtain ⟨a, ha, lo, -, hi0, -, c, -, s, -, rfl⟩ := hp
  exact alphas_mono (by norm_num) (by norm_num) hg hα ha hi hj hx hy hxy

theorem seedMarker_ok {wd : Option (WalkData K)} {showSeed : Bool} {m : Option (Int × Int)} (h : seedMarker wd showSeed = .ok m) :
    MarkedAt wd showSeed m := by
  unfold seedMarker at h
  split at h
  · simp only [bind_ok, pure_ok, listGet_ok] at h
    obtain ⟨ys, h1, y, h2, xs, h3, x, h4, rfl⟩ := h
    exact Or.inr ⟨_, (y, x), rfl, rfl, rfl, xs, ys, h3, h1, h4, h2⟩
  · rename_i hno
    cases h
    refine Or.inl ⟨rfl, ?_⟩
    cases wd with
    | none => exact Or.inl rfl
    | some w =>
      cases showSeed
      · exact Or.inr rfl
      · exact absurd rfl (hno w rfl)

theorem seedMarker_total {wd : Option (WalkData K)} {showSeed : Bool} (h : ∀ w, wd = some w → showSeed = true → HasSeed w) :
    ∃ m, seedMarker wd showSeed = .ok m := by
  unfold seedMarker
  split
  · rename_i w
    obtain ⟨pt, xs, ys, h1, h2, h3, h4⟩ := h w rfl rfl
    refine ⟨some pt, ?_⟩
    simp only [bind_ok, pure_ok, listGet_ok]
    exact ⟨ys, h2, pt.1, h4, xs, h1, pt.2, h3, rfl⟩
  · exact ⟨none, rfl⟩

theorem alphas_exact (hg : PositiveMap R C g) {lo hi : K} (hr : Range R C g lo hi) {q α : K} (hq0 : 0 ≤ q) (hq1 : q ≤ 100) :
    ∃ v a, Percentile g.values q v ∧ 0 < v ∧ heatAlphas Arith.exact g q (.fin α) = .ok a ∧ a.rows = g.rows ∧ a.cols = g.cols ∧ ∀ i j, i < R → j < C →
      (g.at' i j = .nan → a.at' i j = .nan) ∧ ∀ x, g.at' i j = .fin x → a.at' i j = .fin (min 1 (max α (x / v))) := by
  have hne : g.values ≠ [] := List.ne_nil_of_mem ((mem_values hg lo).2 hr.1)
  have hnp := nanpercentile_values (A := Arith.exact) hg hq0 hq1 hne
  obtain ⟨v, hv, hpc⟩ := percK_spec hq0 hq1 hne
  have hpos : ∀ x ∈ g.values, 0 < x := by
    intro x hx
    obtain ⟨i, j, hi', hj', hx'⟩ := (mem_values hg x).1 hx
    rcases hg.2.2 i j hi' hj' with h | ⟨y, h, hy⟩
    · rw [hx'] at h; cases h
    · rw [hx'] at h; cases h; exact hy
  have h0 := hpc.pos hpos
  rw [hv] at hnp
  refine ⟨v, _, hpc, h0, heatAlphas_pos hnp h0 rfl, rfl, rfl, fun i j hi' hj' => ⟨fun h => ?_, fun x hx => ?_⟩⟩
  · simp only [Grid.map, h, clipTo_nan]
    exact clipTo_nan _ _
  · simp only [Grid.map, hx]
    have hx0 := hpos x ((mem_values hg x).2 ⟨i, j, hi', hj', hx⟩)
    rw [clipTo_fin, sub_zero_fin, div_fin _ _ h0.ne', clipTo_fin]
    congr 1
    show min (max (min (max x 0) v / v) α) 1 = _
    rw [max_eq_left hx0.le, ← min_div_div_right h0.le, div_self h0.ne']
    rcases le_total (x / v) 1 with h1 | h1
    · rw [min_eq_left h1, max_comm, min_comm]
    · rw [min_eq_right h1, min_comm, min_eq_left (le_max_left _ _), min_eq_left (le_trans h1 (le_max_right _ _))]

/-- Exact arithmetic: `show_nourishment_area` for a map with values up to 1, such as `nourishment_area` returns. Cells without value have no opacity;
the opacity of the others is the value relative to the 60th percentile (30th for `sigma < 0.125`), clipped to `[min_alpha, 1]`. The least value gets
the bottom of the colour map, the others their proportional place. Not proved, because false: that the greatest value gets the top even if all values
are equal (`C78_uniform_counterexample`). -/
theorem C78_area_partial (hg : PositiveMap R C g) {lo : K} (hr : Range R C g lo 1) {wd : Option (WalkData K)} {sigma α : K} {sh : Bool}
    (hs : ∀ w, wd = some w → sh = true → HasSeed w) :
    ∃ p v, showNourishmentArea Arith.exact g wd sigma (.fin α) sh = .ok p ∧ MarkedAt wd sh p.seed ∧
      Percentile g.values (if 1 / 8 ≤ sigma then 60 else 30) v ∧ 0 < v ∧ p.alpha.rows = R ∧ p.alpha.cols = C ∧ p.color.rows = R ∧ p.color.cols = C ∧
      ∀ i j, i < R → j < C → (g.at' i j = .nan → p.alpha.at' i j = .nan) ∧ ∀ x, g.at' i j = .fin x →
        p.alpha.at' i j = .fin (min 1 (max α (x / v))) ∧ (lo < 1 → p.color.at' i j = .fin ((x - lo) / (1 - lo))) := by
  obtain ⟨v, a, h1, h2, h3, h3r, h3c, h4⟩ := alphas_exact (α := α) hg hr (q := if 1 / 8 ≤ sigma then 60 else 30) (by split_ifs <;> norm_num)
    (by split_ifs <;> norm_num)
  obtain ⟨m, hm⟩ := seedMarker_total hs
  have hle : lo ≤ 1 := (hr.2.2 _ hr.1).2
  obtain ⟨c, hc, hcr, hcc, hcv⟩ : ∃ c, normalizeMap Arith.exact (.fin lo) (.fin 1) false g = .ok c ∧ c.rows = g.rows ∧ c.cols = g.cols ∧
      ∀ i j x, g.at' i j = .fin x → lo < 1 → c.at' i j = .fin ((x - lo) / (1 - lo)) := by
    unfold normalizeMap
    by_cases h : lo = 1
    · rw [if_pos (by simp [Fl.eq, h])]
      exact ⟨_, rfl, rfl, rfl, fun _ _ _ _ h' => absurd h h'.ne⟩
    · rw [if_neg (by simpa [Fl.eq] using h), if_neg (by simpa [Fl.lt] using hle)]
      refine ⟨_, rfl, rfl, rfl, fun i j x hx h' => ?_⟩
      have h5 : ∀ y z : K, (Arith.exact (K := K)).sub (.fin y) (.fin z) = .fin (y - z) := fun y z => by
        simp [Arith.sub, Arith.add, Fl.neg, Arith.exact, sub_eq_add_neg]
      simp only [Grid.map, hx, Bool.false_eq_true, if_false]
      rw [h5, h5, div_fin _ _ (sub_pos.2 h').ne']
      rfl
  refine ⟨⟨a, c, m⟩, v, ?_, seedMarker_ok hm, h1, h2, h3r.trans hg.1, h3c.trans hg.2.1, hcr.trans hg.1, hcc.trans hg.2.1, fun i j hi hj =>
    ⟨(h4 i j hi hj).1, fun x hx => ⟨(h4 i j hi hj).2 x hx, hcv i j x hx⟩⟩⟩
  unfold showNourishmentArea
  rw [h3, (gridNanmin_ok hg hr).1]
  simp only [ok_bind, hc, hm]
  rfl

/-- Exact arithmetic: `show_nourishment_time`, with the 20th percentile; the colour map runs from the least to the greatest value. -/
theorem C78_time_partial (hg : PositiveMap R C g) {lo hi : K} (hr : Range R C g lo hi) {wd : Option (WalkData K)} {α : K} {sh : Bool}
    (hs : ∀ w, wd = some w → sh = true → HasSeed w) :
    ∃ p v, showNourishmentTime Arith.exact g wd (.fin α) sh = .ok p ∧ MarkedAt wd sh p.seed ∧
      Percentile g.values 20 v ∧ 0 < v ∧ p.alpha.rows = R ∧ p.alpha.cols = C ∧ p.color.rows = R ∧ p.color.cols = C ∧
      ∀ i j, i < R → j < C → (g.at' i j = .nan → p.alpha.at' i j = .nan) ∧ ∀ x, g.at' i j = .fin x →
        p.alpha.at' i j = .fin (min 1 (max α (x / v))) ∧ (lo < hi → p.color.at' i j = .fin ((x - lo) / (hi - lo))) := by
  obtain ⟨v, a, h1, h2, h3, h3r, h3c, h4⟩ := alphas_exact (α := α) hg hr (q := 20) (by norm_num) (by norm_num)
  obtain ⟨m, hm⟩ := seedMarker_total hs
  have hle : lo ≤ hi := (hr.2.2 _ hr.1).2
  obtain ⟨c, hc, hcr, hcc, hcv⟩ : ∃ c, normalizeMap Arith.exact (.fin lo) (.fin hi) false g = .ok c ∧ c.rows = g.rows ∧ c.cols = g.cols ∧
      ∀ i j x, g.at' i j = .fin x → lo < hi → c.at' i j = .fin ((x - lo) / (hi - lo)) := by
    unfold normalizeMap
    by_cases h : lo = hi
    · rw [if_pos (by simp [Fl.eq, h])]
      exact ⟨_, rfl, rfl, rfl, fun _ _ _ _ h' => absurd h h'.ne⟩
    · rw [if_neg (by simpa [Fl.eq] using h), if_neg (by simpa [Fl.lt] using hle)]
      refine ⟨_, rfl, rfl, rfl, fun i j x hx h' => ?_⟩
      have h5 : ∀ y z : K, (Arith.exact (K := K)).sub (.fin y) (.fin z) = .fin (y - z) := fun y z => by
        simp [Arith.sub, Arith.add, Fl.neg, Arith.exact, sub_eq_add_neg]
      simp only [Grid.map, hx, Bool.false_eq_true, if_false]
      rw [h5, h5, div_fin _ _ (sub_pos.2 h').ne']
      rfl
  refine ⟨⟨a, c, m⟩, v, ?_, seedMarker_ok hm, h1, h2, h3r.trans hg.1, h3c.trans hg.2.1, hcr.trans hg.1, hcc.trans hg.2.1, fun i j hi hj =>
    ⟨(h4 i j hi hj).1, fun x hx => ⟨(h4 i j hi hj).2 x hx, hcv i j x hx⟩⟩⟩
  unfold showNourishmentTime
  rw [h3, (gridNanmin_ok hg hr).1, (gridNanmin_ok hg hr).2]
  simp only [ok_bind, hc, hm]
  rfl

/-- Equal values everywhere: the greatest value is at the bottom of the colour map, in both functions. -/
theorem C78_uniform_counterexample (hg : PositiveMap R C g) {x : K} (hr : Range R C g x x) {α : K} :
    (∃ p, showNourishmentTime Arith.exact g none (.fin α) true = .ok p ∧ ∀ i j, p.color.at' i j = .fin 0) ∧
      (x = 1 → ∀ sigma, ∃ p, showNourishmentArea Arith.exact g none sigma (.fin α) true = .ok p ∧ ∀ i j, p.color.at' i j = .fin 0) := by
  have hn : normalizeMap Arith.exact (.fin x) (.fin x) false g = .ok (g.map fun _ => .fin 0) := by
    unfold normalizeMap
    rw [if_pos (by simp [Fl.eq])]
  constructor
  · obtain ⟨v, a, -, -, h3, -⟩ := alphas_exact (α := α) hg hr (q := 20) (by norm_num) (by norm_num)
    refine ⟨⟨a, g.map fun _ => .fin 0, none⟩, ?_, fun _ _ => rfl⟩
    unfold showNourishmentTime
    rw [h3, (gridNanmin_ok hg hr).1, (gridNanmin_ok hg hr).2]
    simp only [ok_bind, hn]
    rfl
  · rintro rfl sigma
    obtain ⟨v, a, -, -, h3, -⟩ := alphas_exact (α := α) hg hr (q := if 1 / 8 ≤ sigma then 60 else 30) (by split_ifs <;> norm_num)
      (by split_ifs <;> norm_num)
    refine ⟨⟨a, g.map fun _ => .fin 0, none⟩, ?_, fun _ _ => rfl⟩
    unfold showNourishmentArea
    rw [h3, (gridNanmin_ok hg hr).1]
    simp only [ok_bind, hn]
    rfl

/-- The map of a proper walk: no value at all, or positive values up to 1. -/
theorem nourishmentArea_map {wd : WalkData K} {clip : K} {smooth : Option (Grid (Fl K) → Grid (Fl K))} (hp : Proper wd) (hr : OnRaster R C wd)
    (hR : 0 < R) (hC : 0 < C) (h0 : 0 ≤ clip) (h1 : clip ≤ 100) (hsm : SmoothOK smooth) :
    ∃ g, nourishmentArea Arith.exact wd (R, C) smooth clip = .ok g ∧ PositiveMap R C g ∧ (AllNan R C g ∨ ∃ lo, Range R C g lo 1) := by
  obtain ⟨h, v, hc, v0, -, e⟩ := nourishArea_steps (A := Arith.exact) hp hr hR hC h0 h1 smooth
  obtain ⟨m, e1, r1, c1, hm⟩ := smoothOrNan_pos hsm (nonneg_finGrid (R := R) (C := C) (h := fun i j => min (h i j) v)
    fun i j => le_min (hc i j).1 v0) hR hC
  change m.rows = R at r1
  change m.cols = C at c1
  have hm' : ∀ i j, i < m.rows → j < m.cols → m.at' i j = .nan ∨ ∃ x, m.at' i j = .fin x ∧ 0 < x := by
    intro i j hi hj
    exact hm i j (by rw [← r1]; exact hi) (by rw [← c1]; exact hj)
  obtain ⟨top, e2, ht⟩ := normalise_pos (by omega) (by omega) hm'
  rw [r1, c1] at ht hm'
  rw [e, e1]
  simp only [ok_bind, e2, pure_def]
  refine ⟨_, rfl, ?_⟩
  rcases ht with ⟨rfl, hn⟩ | ⟨t, rfl, ht0, ⟨i0, j0, hi0, hj0, hij⟩, htop⟩
  · have hall : AllNan R C (m.map fun x => (Arith.exact (K := K)).div x .nan) := by
      intro i j hi hj
      simp only [Grid.map]
      rw [hn i j hi hj]
      rfl
    exact ⟨⟨r1, c1, fun i j hi hj => Or.inl (hall i j hi hj)⟩, Or.inl hall⟩
  · have hv : ∀ i j x, m.at' i j = .fin x → (m.map fun x => (Arith.exact (K := K)).div x (.fin t)).at' i j = .fin (x / t) := by
      intro i j x hx
      simp only [Grid.map, hx]
      exact div_fin _ _ ht0.ne'
    have hpm : PositiveMap R C (m.map fun x => (Arith.exact (K := K)).div x (.fin t)) := by
      refine ⟨r1, c1, fun i j hi hj => ?_⟩
      rcases hm' i j hi hj with hn | ⟨x, hx, hx0⟩
      · left
        simp only [Grid.map, hn]
        rfl
      · exact Or.inr ⟨x / t, hv i j x hx, div_pos hx0 ht0⟩
    have hone : HasValue R C (m.map fun x => (Arith.exact (K := K)).div x (.fin t)) 1 := ⟨i0, j0, hi0, hj0, by rw [hv _ _ _ hij, div_self ht0.ne']⟩
    refine ⟨hpm, Or.inr ?_⟩
    obtain ⟨lo, hi, hlo, hhi, hall⟩ := exists_range hpm hone
    have : hi = 1 := by
      apply le_antisymm _ (hall 1 hone).2
      obtain ⟨i, j, h3, h4, h5⟩ := hhi
      rcases hm' i j h3 h4 with hn | ⟨x, hx, hx0⟩
      · simp only [Grid.map, hn] at h5
        cases h5
      · rw [hv i j x hx] at h5
        cases h5
        exact (div_le_one ht0).2 (htop i j x h3 h4 hx).2
    subst this
    exact ⟨lo, hlo, hhi, hall⟩

/-- A limit that is NaN. -/
theorem normalize_nan {lo hi : Fl K} (h : lo = .nan ∨ hi = .nan) (cl : Bool) (g : Grid (Fl K)) :
    ∃ c, normalizeMap A lo hi cl g = .ok c ∧ ∀ i j, g.at' i j = .nan → c.at' i j = .nan := by
  have h1 : Fl.eq lo hi = false := by
    rcases h with rfl | rfl
    · cases hi <;> rfl
    · cases lo <;> rfl
  have h2 : Fl.lt hi lo = false := by
    rcases h with rfl | rfl
    · cases hi <;> rfl
    · cases lo <;> rfl
  unfold normalizeMap
  rw [h1, h2]
  refine ⟨_, rfl, fun i j hn => ?_⟩
  simp only [Grid.map, hn, clipTo_nan, ite_self]
  rfl

/-- A map without values is drawn without opacity. -/
theorem blank_alphas {α : Fl K} {p : K} (h0 : 0 ≤ p) (h1 : p ≤ 100) (hg : PositiveMap R C g) (hn : AllNan R C g) :
    ∃ a, heatAlphas Arith.exact g p α = .ok a ∧ ∀ i j, i < R → j < C → a.at' i j = .nan := by
  have hf : g.flat.filter (fun x => !x.isNan) = [] := by
    rw [List.filter_eq_nil_iff]
    intro y hy
    obtain ⟨i, j, hi, hj, rfl⟩ := mem_flat.1 hy
    rw [hn i j (by rw [← hg.1]; exact hi) (by rw [← hg.2.1]; exact hj)]
    simp [Fl.isNan]
  have hp : nanpercentile Arith.exact g p = .ok .nan := by
    unfold nanpercentile
    rw [if_neg (by push Not; exact ⟨h0, h1⟩), hf]
    rfl
  obtain ⟨c, hc, hcn⟩ := normalize_nan (A := Arith.exact) (lo := .fin 0) (hi := .nan) (Or.inr rfl) true g
  refine ⟨c.map (clipTo α (.fin 1)), ?_, ?_⟩
  · unfold heatAlphas
    rw [hp]
    simp only [ok_bind, hc]
    rfl
  · intro i j hi hj
    simp only [Grid.map, hcn i j (hn i j hi hj), clipTo_nan]

/-- The least and greatest value of a map without values. -/
theorem blank_limits (hR : 0 < R) (hC : 0 < C) (hg : PositiveMap R C g) (hn : AllNan R C g) : gridNanmin g = .ok .nan ∧ gridNanmax g = .ok .nan := by
  obtain ⟨x, l, hl⟩ := flat_ne_nil (g := g) (by rw [hg.1]; exact hR) (by rw [hg.2.1]; exact hC)
  have hnan : ∀ y ∈ x :: l, y = .nan := by
    intro y hy
    rw [← hl] at hy
    obtain ⟨i, j, hi, hj, rfl⟩ := mem_flat.1 hy
    exact hn i j (by rw [← hg.1]; exact hi) (by rw [← hg.2.1]; exact hj)
  unfold gridNanmin gridNanmax
  rw [hl]
  constructor
  · rcases nanMin_list (fun y hy => Or.inl (hnan y hy)) with ⟨h5, -⟩ | ⟨z, -, h5, -⟩
    · exact congrArg Except.ok h5
    · exact absurd (hnan _ h5) (by simp)
  · rcases nanMax_list (fun y hy => Or.inl (hnan y hy)) with ⟨h5, -⟩ | ⟨z, -, h5, -⟩
    · exact congrArg Except.ok h5
    · exact absurd (hnan _ h5) (by simp)

/-- The map computed from walks and then drawn: drawing succeeds, and exactly the cells with a value have an opacity. -/
theorem C78_area_run {wd : WalkData K} {clip : K} {smooth : Option (Grid (Fl K) → Grid (Fl K))} (hp : Proper wd) (hr : OnRaster R C wd)
    (hR : 0 < R) (hC : 0 < C) (h0 : 0 ≤ clip) (h1 : clip ≤ 100) (hsm : SmoothOK smooth) {sigma α : K} {sh : Bool} (hs : sh = true → HasSeed wd) :
    ∃ g p, nourishmentArea Arith.exact wd (R, C) smooth clip = .ok g ∧ showNourishmentArea Arith.exact g (some wd) sigma (.fin α) sh = .ok p ∧
      MarkedAt (some wd) sh p.seed ∧ ∀ i j, i < R → j < C → (g.at' i j = .nan ↔ p.alpha.at' i j = .nan) := by
  obtain ⟨g, hg, hpm, ha | ⟨lo, hlo⟩⟩ := nourishmentArea_map hp hr hR hC h0 h1 hsm
  · obtain ⟨a, h2, h3⟩ := blank_alphas (α := .fin α) (p := if 1 / 8 ≤ sigma then 60 else 30) (by split_ifs <;> norm_num) (by split_ifs <;> norm_num)
      hpm ha
    obtain ⟨m, hm⟩ := seedMarker_total (wd := some wd) (showSeed := sh) fun w hw h' => by cases hw; exact hs h'
    obtain ⟨c, hc, -⟩ := normalize_nan (A := Arith.exact) (lo := .nan) (hi := .fin 1) (Or.inl rfl) false g
    refine ⟨g, ⟨a, c, m⟩, hg, ?_, seedMarker_ok hm, fun i j hi hj => by simp [h3 i j hi hj, ha i j hi hj]⟩
    unfold showNourishmentArea
    rw [h2, (blank_limits hR hC hpm ha).1]
    simp only [ok_bind, hm, hc]
    rfl
  · obtain ⟨p, v, h2, h3, -, -, -, -, -, -, h4⟩ := C78_area_partial (sigma := sigma) (α := α) hpm hlo (wd := some wd) (sh := sh)
      fun w hw h' => by cases hw; exact hs h'
    refine ⟨g, p, hg, h2, h3, fun i j hi hj => ⟨(h4 i j hi hj).1, fun h5 => ?_⟩⟩
    rcases hpm.2.2 i j hi hj with h6 | ⟨x, h6, -⟩
    · exact h6
    · rw [((h4 i j hi hj).2 x h6).1] at h5
      cases h5

/-- The same for the mean times. -/
theorem C78_time_run {wd : WalkData K} {clip : K} {smooth : Option (Grid (Fl K) → Grid (Fl K))} (hp : Proper wd) (hr : OnRaster R C wd)
    (ht : TimesMono wd) (hR : 0 < R) (hC : 0 < C) (h0 : 0 ≤ clip) (h1 : clip ≤ 100) (hsm : SmoothOK smooth) {α : K} {sh : Bool}
    (hs : sh = true → HasSeed wd) :
    ∃ g p, nourishmentTime Arith.exact wd (R, C) smooth clip = .ok g ∧ showNourishmentTime Arith.exact g (some wd) (.fin α) sh = .ok p ∧
      MarkedAt (some wd) sh p.seed ∧ ∀ i j, i < R → j < C → (g.at' i j = .nan ↔ p.alpha.at' i j = .nan) := by
  obtain ⟨g, hg, hpm⟩ := C46_nonneg (A := Arith.exact) hp hr ht hR hC h0 h1 hsm
  by_cases hx : ∃ x, HasValue R C g x
  · obtain ⟨x, hx⟩ := hx
    obtain ⟨lo, hi, hlo⟩ := exists_range hpm hx
    obtain ⟨p, v, h2, h3, -, -, -, -, -, -, h4⟩ := C78_time_partial (α := α) hpm hlo (wd := some wd) (sh := sh)
      fun w hw h' => by cases hw; exact hs h'
    refine ⟨g, p, hg, h2, h3, fun i j hi hj => ⟨(h4 i j hi hj).1, fun h5 => ?_⟩⟩
    rcases hpm.2.2 i j hi hj with h6 | ⟨x, h6, -⟩
    · exact h6
    · rw [((h4 i j hi hj).2 x h6).1] at h5
      cases h5
  · have ha : AllNan R C g := by
      intro i j hi hj
      rcases hpm.2.2 i j hi hj with h6 | ⟨x, h6, -⟩
      · exact h6
      · exact absurd ⟨x, i, j, hi, hj, h6⟩ hx
    obtain ⟨a, h2, h3⟩ := blank_alphas (α := .fin α) (p := 20) (by norm_num) (by norm_num) hpm ha
    obtain ⟨m, hm⟩ := seedMarker_total (wd := some wd) (showSeed := sh) fun w hw h' => by cases hw; exact hs h'
    obtain ⟨c, hc, -⟩ := normalize_nan (A := Arith.exact) (lo := .nan) (hi := .nan) (Or.inl rfl) false g
    refine ⟨g, ⟨a, c, m⟩, hg, ?_, seedMarker_ok hm, fun i j hi hj => by simp [h3 i j hi hj, ha i j hi hj]⟩
    unfold showNourishmentTime
    rw [h2, (blank_limits hR hC hpm ha).1, (blank_limits hR hC hpm ha).2]
    simp only [ok_bind, hm, hc]
    rfl

/-- A map of visit frequencies. -/
def heatDemo : Grid (Fl ℚ) := ⟨2, 2, fun i j => if i = 0 ∧ j = 0 then .nan else if i = 0 then .fin (1 / 4) else if j = 0 then .fin (1 / 2) else .fin 1⟩

/-- It meets the hypotheses: positive, from 1/4 to 1. -/
example : PositiveMap 2 2 heatDemo ∧ Range 2 2 heatDemo (1 / 4) 1 := by
  refine ⟨⟨rfl, rfl, ?_⟩, ⟨0, 1, by decide +kernel⟩, ⟨1, 1, by decide +kernel⟩, ?_⟩
  · intro i j hi hj
    interval_cases i <;> interval_cases j <;> simp [heatDemo]
  · rintro x ⟨i, j, hi, hj, h⟩
    interval_cases i <;> interval_cases j <;> simp [heatDemo] at h <;> subst h <;> norm_num

/-- The 60th percentile is 0.6: half the visits have opacity 5/6, a quarter 5/12. -/
example : ((showNourishmentArea Arith.exact heatDemo (some curveDemo) (7 / 10) (.fin 0) true).toOption.map fun p => (p.alpha.flat, p.color.flat, p.seed)) =
    some ([.nan, .fin (5 / 12), .fin (5 / 6), .fin 1], [.nan, .fin 0, .fin (1 / 3), .fin 1], some (3, 1)) := by decide +kernel

/-- One visited cell: fully opaque, but in the lowest colour. -/
example : ((showNourishmentArea Arith.exact (⟨1, 2, fun _ j => if j = 0 then .fin 1 else .nan⟩ : Grid (Fl ℚ)) none (7 / 10) (.fin 0) true).toOption.map
    fun p => (p.alpha.flat, p.color.flat, p.seed)) = some ([.fin 1, .nan], [.fin 0, .fin 0], none) := by decide +kernel

/-- Walk data without particles: IndexError. -/
example : (showNourishmentTime Arith.exact heatDemo (some ⟨[], [], [], []⟩) (.fin (3 / 10)) true).toOption.map (·.seed) = none := by decide +kernel

end Dorado
