import Verif.Spec.AreaMap
import Verif.Lemmas.Maps
import Verif.Lemmas.Nourish

/-! Helper lemmas for C114: percentiles and maps of similar numbers are similar. -/

set_option linter.unusedSectionVars false

namespace Dorado

/-! ## Percentiles -/

theorem sorted_count {s : List ℝ} (hs : s.Pairwise (· ≤ ·)) {k : Nat} {x t : ℝ} (hk : s[k]? = some x) (ht : t < x) : s.countP (fun y => decide (y ≤ t)) ≤ k := by
  obtain ⟨hlt, hx⟩ := List.getElem?_eq_some_iff.1 hk
  rw [← List.take_append_drop k s, List.countP_append]
  have h1 : (s.take k).countP (fun y => decide (y ≤ t)) ≤ k := List.countP_le_length.trans (by simp)
  have h2 : (s.drop k).countP (fun y => decide (y ≤ t)) = 0 := by
    rw [List.countP_eq_zero]
    intro y hy
    obtain ⟨n, hn⟩ := List.getElem?_of_mem hy
    rw [List.getElem?_drop] at hn
    obtain ⟨hlt', hy'⟩ := List.getElem?_eq_some_iff.1 hn
    have : x ≤ y := by
      rcases Nat.eq_zero_or_pos n with h0 | h0
      · subst h0
        rw [← hx, ← hy']
        simp
      · rw [← hx, ← hy']
        exact List.pairwise_iff_getElem.1 hs k (k + n) hlt hlt' (by omega)
    simpa using lt_of_lt_of_le ht this
  omega

theorem sorted_count_ge {s : List ℝ} (hs : s.Pairwise (· ≤ ·)) {k : Nat} {x : ℝ} (hk : s[k]? = some x) : k + 1 ≤ s.countP (fun y => decide (y ≤ x)) := by
  obtain ⟨hlt, hx⟩ := List.getElem?_eq_some_iff.1 hk
  have h1 : (s.take (k + 1)).countP (fun y => decide (y ≤ x)) = k + 1 := by
    rw [List.countP_eq_length.2 ?_]
    · simp; omega
    · intro y hy
      obtain ⟨n, hn⟩ := List.getElem?_of_mem hy
      rw [List.getElem?_take] at hn
      split at hn
      · obtain ⟨hlt', hy'⟩ := List.getElem?_eq_some_iff.1 hn
        rw [← hx, ← hy']
        rcases Nat.lt_or_ge n k with h | h
        · simpa using List.pairwise_iff_getElem.1 hs n k hlt' hlt h
        · have : n = k := by omega
          subst this
          simp
      · cases hn
  rw [← List.take_append_drop (k + 1) s, List.countP_append]
  omega

/-- Sorting does not enlarge the greatest difference. -/
theorem sorted_close {l l' s s' : List ℝ} {d : ℝ} (h : List.Forall₂ (fun x y => x ≤ y + d) l l') (hs : s.Perm l) (hs' : s'.Perm l')
    (ho : s.Pairwise (· ≤ ·)) (ho' : s'.Pairwise (· ≤ ·)) {k : Nat} {x y : ℝ} (hx : s[k]? = some x) (hy : s'[k]? = some y) : x ≤ y + d := by
  by_contra hc
  have h1 := sorted_count ho hx (not_le.1 hc)
  have h2 := sorted_count_ge ho' hy
  rw [hs.countP_eq] at h1
  rw [hs'.countP_eq] at h2
  have : ∀ {l l' : List ℝ}, List.Forall₂ (fun x y => x ≤ y + d) l l' → l'.countP (fun z => decide (z ≤ y)) ≤ l.countP (fun z => decide (z ≤ y + d)) := by
    intro l l' h
    induction h with
    | nil => simp
    | @cons a b l l' hab _ ih =>
      rw [List.countP_cons, List.countP_cons]
      by_cases hb : b ≤ y
      · have : a ≤ y + d := by linarith
        simp only [hb, this, decide_true, if_true]
        omega
      · simp only [hb, decide_false, Bool.false_eq_true, if_false]
        split <;> omega
  have := this h
  omega

theorem Percentile.le_add {l l' : List ℝ} {d q v v' : ℝ} (h : List.Forall₂ (fun x y => x ≤ y + d) l l') (hv : Percentile l q v) (hv' : Percentile l' q v') :
    v ≤ v' + d := by
  obtain ⟨s, hs, ho, k, t, a, b, h0, h1, hk, ha, hb, rfl⟩ := hv
  obtain ⟨s', hs', ho', k', t', a', b', h0', h1', hk', ha', hb', rfl⟩ := hv'
  have hlen : s.length = s'.length := by rw [hs.length_eq, hs'.length_eq, h.length_eq]
  rw [hlen, ← hk'] at hk
  have hkk : k = k' := by
    have e1 : (k : ℝ) < k' + 1 := by linarith
    have e2 : (k' : ℝ) < k + 1 := by linarith
    have e1 : k < k' + 1 := by exact_mod_cast e1
    have e2 : k' < k + 1 := by exact_mod_cast e2
    omega
  subst hkk
  have htt : t = t' := by linarith
  subst htt
  have e1 := sorted_close h hs hs' ho ho' ha ha'
  by_cases ht : t = 0
  · subst ht
    linarith
  · have e2 := sorted_close h hs hs' ho ho' (hb.resolve_left ht) (hb'.resolve_left ht)
    have e3 : (1 - t) * a ≤ (1 - t) * (a' + d) := mul_le_mul_of_nonneg_left e1 (by linarith)
    have e4 : t * b ≤ t * (b' + d) := mul_le_mul_of_nonneg_left e2 h0
    linarith

theorem Percentile.close {l l' : List ℝ} {d q v v' : ℝ} (h : List.Forall₂ (fun x y => |x - y| ≤ d) l l') (hv : Percentile l q v) (hv' : Percentile l' q v') :
    |v - v'| ≤ d := by
  have a := hv.le_add (h.imp fun x y hxy => by linarith [(abs_le.1 hxy).2]) hv'
  have b := hv'.le_add (h.flip.imp fun x y hxy => by linarith [(abs_le.1 hxy).1]) hv
  exact abs_le.2 ⟨by linarith, by linarith⟩

theorem Percentile.scale {l : List ℝ} {q v c : ℝ} (hc : 0 < c) (hv : Percentile l q v) : Percentile (l.map (c * ·)) q (c * v) := by
  obtain ⟨s, hs, ho, k, t, a, b, h0, h1, hk, ha, hb, rfl⟩ := hv
  refine ⟨s.map (c * ·), hs.map _, List.pairwise_map.2 (ho.imp fun h => mul_le_mul_of_nonneg_left h hc.le), k, t, c * a, c * b, h0, h1, by simpa using hk,
    by simp [ha], hb.imp id fun h => by simp [h], by ring⟩

theorem Percentile.nonneg {l : List ℝ} {q v : ℝ} (h : Percentile l q v) (hp : ∀ x ∈ l, 0 ≤ x) : 0 ≤ v := by
  obtain ⟨s, hs, -, k, t, a, b, h0, h1, -, ha, hb, rfl⟩ := h
  have hap : 0 ≤ a := hp a (hs.mem_iff.1 (List.mem_of_getElem? ha))
  rcases hb with rfl | hb
  · simpa using hap
  · have hbp : 0 ≤ b := hp b (hs.mem_iff.1 (List.mem_of_getElem? hb))
    have h3 := mul_nonneg (show 0 ≤ 1 - t by linarith) hap
    have h4 := mul_nonneg h0 hbp
    linarith

/-! ## Rasters -/

variable {R C : Nat}

theorem values_raster (a : Nat → Nat → ℝ) : (rasterOf R C a).values = Grid.flat ⟨R, C, a⟩ := by
  unfold Grid.values Grid.flat rasterOf
  refine congrArg List.flatten ?_
  refine List.map_congr_left fun i _ => ?_
  simp only [Fl.number?]
  rw [← List.filterMap_eq_map]
  rfl

theorem flat_forall₂ {a a' : Nat → Nat → ℝ} {p : ℝ → ℝ → Prop} (h : ∀ i j, i < R → j < C → p (a i j) (a' i j)) :
    List.Forall₂ p (Grid.flat ⟨R, C, a⟩) (Grid.flat ⟨R, C, a'⟩) := by
  unfold Grid.flat
  refine List.rel_flatten ?_
  rw [List.forall₂_map_left_iff, List.forall₂_map_right_iff, List.forall₂_same]
  intro i hi
  rw [List.forall₂_map_left_iff, List.forall₂_map_right_iff, List.forall₂_same]
  intro j hj
  exact h i j (List.mem_range.1 hi) (List.mem_range.1 hj)

/-- Values before normalisation: kept, or removed as background. -/
theorem smoothOrNan_vals {smooth : Option (Grid (Fl ℝ) → Grid (Fl ℝ))} (hs : SmoothOK smooth) {h : Nat → Nat → ℝ} (h0 : ∀ i j, 0 ≤ h i j) (hR : 0 < R)
    (hC : 0 < C) : ∃ (X : Nat → Nat → ℝ) (m : Grid (Fl ℝ)), smoothOrNan smooth (rasterOf R C h) = .ok m ∧ m.rows = R ∧ m.cols = C ∧
      ∀ i j, i < R → j < C → (smoothed smooth (rasterOf R C h)).at' i j = .fin (X i j) ∧ 0 ≤ X i j ∧
        (m.at' i j = .fin (X i j) ∨ m.at' i j = .nan ∧ (∀ i' j', i' < R → j' < C → X i j ≤ X i' j') ∧ (smooth = none → X i j = 0)) := by
  have hg : NonnegGrid (rasterOf R C h) := fun i j _ _ => ⟨h i j, rfl, h0 i j⟩
  cases smooth with
  | none =>
    refine ⟨h, _, rfl, rfl, rfl, fun i j hi hj => ⟨rfl, h0 i j, ?_⟩⟩
    simp only [nanWhere, Grid.map, rasterOf, Fl.eq, decide_eq_true_eq]
    split_ifs with hz
    · exact .inr ⟨rfl, fun i' j' _ _ => by rw [hz]; exact h0 _ _, fun _ => hz⟩
    · exact .inl rfl
  | some f =>
    obtain ⟨e1, e2, hn⟩ := hs f rfl _ hg
    change (f (rasterOf R C h)).rows = R at e1
    change (f (rasterOf R C h)).cols = C at e2
    obtain ⟨x, l, hl⟩ := flat_ne_nil (g := f (rasterOf R C h)) (by omega) (by omega)
    have hall : ∀ y ∈ (f (rasterOf R C h)).flat, ∃ z, y = .fin z ∧ 0 ≤ z := by
      intro y hy
      obtain ⟨i, j, hi, hj, rfl⟩ := mem_flat.1 hy
      exact hn i j hi hj
    rw [hl] at hall
    obtain ⟨x', rfl, hx'⟩ := hall x (by simp)
    obtain ⟨m, h1, h2, h3⟩ := npMin_list (x := x') (l := l) (fun y hy => by
      obtain ⟨z, hz, -⟩ := hall y (by simp [hy])
      exact ⟨z, hz⟩)
    have hX : ∀ i j, i < R → j < C → (f (rasterOf R C h)).at' i j = .fin (((f (rasterOf R C h)).at' i j).number?.getD 0) ∧
        0 ≤ ((f (rasterOf R C h)).at' i j).number?.getD 0 := by
      intro i j hi hj
      obtain ⟨z, hz, hz0⟩ := hn i j (by omega) (by omega)
      rw [hz]
      exact ⟨rfl, hz0⟩
    refine ⟨fun i j => ((f (rasterOf R C h)).at' i j).number?.getD 0, nanWhere (.fin m) (f (rasterOf R C h)), ?_, e1, e2, fun i j hi hj =>
      ⟨(hX i j hi hj).1, (hX i j hi hj).2, ?_⟩⟩
    · simp only [smoothOrNan, gridMin, hl, h1, ok_bind, pure_def]
    · have hle : ∀ i' j', i' < R → j' < C → m ≤ ((f (rasterOf R C h)).at' i' j').number?.getD 0 := fun i' j' hi' hj' =>
        h3 _ (by rw [← hl]; exact mem_flat.2 ⟨i', j', by omega, by omega, (hX i' j' hi' hj').1⟩)
      have hy := (hX i j hi hj).1
      generalize hz : ((f (rasterOf R C h)).at' i j).number?.getD 0 = y at hy
      simp only [nanWhere, Grid.map, hy, Fl.eq, decide_eq_true_eq]
      split_ifs with h
      · exact .inr ⟨rfl, fun i' j' hi' hj' => by rw [h]; exact hle i' j' hi' hj', fun e => by cases e⟩
      · exact .inl rfl

/-- The map of walk data, before and after normalisation. -/
theorem area_vals {wd : WalkData ℝ} {clip : ℝ} {smooth : Option (Grid (Fl ℝ) → Grid (Fl ℝ))} (hp : Proper wd) (hr : OnRaster R C wd) (hR : 0 < R)
    (hC : 0 < C) (h0 : 0 ≤ clip) (h1 : clip ≤ 100) (hs : SmoothOK smooth) :
    ∃ (v : ℝ) (X : Nat → Nat → ℝ) (g : Grid (Fl ℝ)), Percentile (rasterOf R C fun i j => (wd.visits ((i : Int), (j : Int)) : ℝ)).values clip v ∧ 0 ≤ v ∧
      nourishmentArea Arith.exact wd (R, C) smooth clip = .ok g ∧
      (∀ i j, i < R → j < C → (smoothed smooth (rasterOf R C fun i j => min (wd.visits ((i : Int), (j : Int)) : ℝ) v)).at' i j = .fin (X i j) ∧ 0 ≤ X i j) ∧
      ((∀ i j, i < R → j < C → g.at' i j = .nan ∧ (smooth = none → X i j = 0)) ∨
        ∃ t, 0 < t ∧ (∃ i j, i < R ∧ j < C ∧ X i j = t) ∧ ∀ i j, i < R → j < C → X i j ≤ t ∧
          (g.at' i j = .fin (X i j / t) ∨ g.at' i j = .nan ∧ (smooth = none → X i j = 0))) := by
  obtain ⟨h, v, hc, v0, ev, e⟩ := nourishArea_steps (A := Arith.exact) hp hr hR hC h0 h1 smooth
  have heq : h = fun (i j : Nat) => (wd.visits ((i : Int), (j : Int)) : ℝ) := by
    funext i j
    exact (hc i j).2.2.2 fun _ => rfl
  subst heq
  have hne : Grid.flat (⟨R, C, fun i j => (wd.visits ((i : Int), (j : Int)) : ℝ)⟩ : Grid ℝ) ≠ [] := by
    intro e
    have := flat_length (⟨R, C, fun i j => (wd.visits ((i : Int), (j : Int)) : ℝ)⟩ : Grid ℝ)
    rw [e] at this
    simp at this
    omega
  obtain ⟨v', ev', hperc⟩ := percK_spec h0 h1 hne
  rw [ev] at ev'
  cases ev'
  have hnn : ∀ i j : Nat, 0 ≤ min (wd.visits ((i : Int), (j : Int)) : ℝ) v := fun i j => le_min (Nat.cast_nonneg _) v0
  obtain ⟨X, m, e1, r1, c1, hX⟩ := smoothOrNan_vals hs hnn hR hC
  have hpos : ∀ i j, i < R → j < C → m.at' i j = .nan ∨ ∃ x, m.at' i j = .fin x ∧ 0 < x := by
    obtain ⟨m', em, -, -, hm'⟩ := smoothOrNan_pos hs (nonneg_finGrid (R := R) (C := C) hnn) hR hC
    change smoothOrNan smooth (rasterOf R C _) = _ at em
    rw [e1] at em
    cases em
    exact hm'
  obtain ⟨top, e2, ht⟩ := normalise_pos (m := m) (by omega) (by omega) (by rw [r1, c1]; exact hpos)
  rw [r1, c1] at ht
  change nourishmentArea _ _ _ _ _ = (do
    let masked ← smoothOrNan smooth (rasterOf R C fun i j => min (wd.visits ((i : Int), (j : Int)) : ℝ) v)
    let top ← gridNanmax masked
    return masked.map fun x => Arith.exact.div x top) at e
  rw [e1] at e
  simp only [ok_bind, e2, pure_def] at e
  refine ⟨v, X, _, by rw [values_raster]; exact hperc, v0, e, fun i j hi hj => ⟨(hX i j hi hj).1, (hX i j hi hj).2.1⟩, ?_⟩
  rcases ht with ⟨rfl, hn⟩ | ⟨t, rfl, t0, ⟨i0, j0, hi0, hj0, hij⟩, hle⟩
  · left
    intro i j hi hj
    simp only [Grid.map, hn i j hi hj]
    refine ⟨rfl, fun hsm => ?_⟩
    rcases (hX i j hi hj).2.2 with h3 | h3
    · rw [hn i j hi hj] at h3; cases h3
    · exact h3.2.2 hsm
  · right
    have hX0 : X i0 j0 = t := by
      rcases (hX i0 j0 hi0 hj0).2.2 with h3 | h3
      · rw [hij] at h3; cases h3; rfl
      · rw [hij] at h3; cases h3.1
    refine ⟨t, t0, ⟨i0, j0, hi0, hj0, hX0⟩, fun i j hi hj => ?_⟩
    rcases (hX i j hi hj).2.2 with h3 | ⟨h3, h4, h5⟩
    · refine ⟨(hle i j _ hi hj h3).2, .inl ?_⟩
      simp only [Grid.map, h3]
      simp [Arith.div, t0.ne', Arith.exact]
    · refine ⟨by rw [← hX0]; exact h4 _ _ hi0 hj0, .inr ⟨?_, h5⟩⟩
      simp only [Grid.map, h3]
      rfl

theorem ratio_close {a b s t d : ℝ} (ht : 0 < t) (hs : 0 < s) (ha0 : 0 ≤ a) (has : a ≤ s) (hab : |a - b| ≤ d) (hst : |s - t| ≤ d) :
    |a / s - b / t| ≤ 2 * d / t := by
  have e : a / s - b / t = ((a - b) + a / s * (t - s)) / t := by
    field_simp
    ring
  rw [e, abs_div, abs_of_pos ht]
  refine div_le_div_of_nonneg_right ?_ ht.le
  have h1 : |a / s * (t - s)| ≤ d := by
    rw [abs_mul, abs_of_nonneg (div_nonneg ha0 hs.le), abs_sub_comm]
    have : a / s ≤ 1 := (div_le_one hs).2 has
    calc a / s * |s - t| ≤ 1 * |s - t| := mul_le_mul_of_nonneg_right this (abs_nonneg _)
      _ ≤ d := by rw [one_mul]; exact hst
  calc |a - b + a / s * (t - s)| ≤ |a - b| + |a / s * (t - s)| := abs_add_le _ _
    _ ≤ 2 * d := by linarith

/-- Similar numbers have similar maps. -/
theorem map_close {wd : WalkData ℝ} {clip : ℝ} {smooth : Option (Grid (Fl ℝ) → Grid (Fl ℝ))} (hp : Proper wd) (hr : OnRaster R C wd) (hR : 0 < R)
    (hC : 0 < C) (h0 : 0 ≤ clip) (h1 : clip ≤ 100) (hs : SmoothOK smooth) (hav : Averaging smooth) {a m : Nat → Nat → ℝ} {top : ℝ} (ha : ∀ i j, 0 ≤ a i j)
    (hm : IsMapOf R C smooth clip a m top) {N : ℝ} (hN : 0 < N) {d : ℝ}
    (hd : ∀ i j, i < R → j < C → |(wd.visits ((i : Int), (j : Int)) : ℝ) / N - a i j| ≤ d) :
    ¬ OffBy R C smooth (2 * d / top) (nourishmentArea Arith.exact wd (R, C) smooth clip).toOption m := by
  obtain ⟨w, X, g, hw, w0, eg, hX, hg⟩ := area_vals hp hr hR hC h0 h1 hs
  obtain ⟨v, hv, ht0, hm, i1, j1, hi1, hj1, hm1⟩ := hm
  have hd0 : 0 ≤ d := (abs_nonneg _).trans (hd 0 0 hR hC)
  have hN' : (0 : ℝ) < N⁻¹ := inv_pos.2 hN
  have hv0 : 0 ≤ v := hv.nonneg fun x hx => by
    rw [values_raster] at hx
    obtain ⟨i, j, -, -, rfl⟩ := mem_flat.1 hx
    exact ha i j
  have hwv : |N⁻¹ * w - v| ≤ d := by
    rw [values_raster] at hw hv
    have hw' := hw.scale hN'
    rw [← flat_map] at hw'
    refine hw'.close (flat_forall₂ (a := fun i j => N⁻¹ * (wd.visits ((i : Int), (j : Int)) : ℝ)) fun i j hi hj => ?_) hv
    have := hd i j hi hj
    rwa [div_eq_inv_mul] at this
  have hmin : Near R C N⁻¹ d (rasterOf R C fun i j => min (wd.visits ((i : Int), (j : Int)) : ℝ) w) (rasterOf R C fun i j => min (a i j) v) := by
    intro i j x x' hi hj hx hx'
    simp only [rasterOf, Fl.fin.injEq] at hx hx'
    subst hx hx'
    rw [mul_min_of_nonneg _ _ hN'.le]
    have h3 := hd i j hi hj
    rw [div_eq_inv_mul] at h3
    exact (abs_min_sub_min_le_max _ _ _ _).trans (max_le h3 hwv)
  have hXm : ∀ i j, i < R → j < C → |N⁻¹ * X i j - m i j * top| ≤ d := by
    intro i j hi hj
    have hnear : Near R C N⁻¹ d (smoothed smooth (rasterOf R C fun i j => min (wd.visits ((i : Int), (j : Int)) : ℝ) w))
        (smoothed smooth (rasterOf R C fun i j => min (a i j) v)) := by
      cases hsm : smooth with
      | none => exact hmin
      | some f => exact hav f hsm R C _ _ (fun i j => le_min (Nat.cast_nonneg _) w0) (fun i j => le_min (ha i j) hv0) _ _ hN' hmin
    exact hnear i j _ _ hi hj (hX i j hi hj).1 (hm i j hi hj).1
  rw [eg]
  rintro (h | ⟨g', hg', i, j, hi, hj, h⟩)
  · cases h
  cases hg'
  have hcell := hXm i j hi hj
  have hbg : smooth = none → (smooth = none → X i j = 0) → m i j ≤ 2 * d / top := by
    intro hsm hz
    rw [hz hsm, mul_zero, zero_sub, abs_neg] at hcell
    rw [le_div_iff₀ ht0]
    linarith [le_abs_self (m i j * top)]
  rcases hg with hg | ⟨t, t0, ⟨i0, j0, hi0, hj0, hX0⟩, hg⟩
  · rcases h with ⟨x, hx, -⟩ | ⟨hsm, -, hlt⟩
    · rw [(hg i j hi hj).1] at hx; cases hx
    · exact absurd hlt (not_lt.2 (hbg hsm (hg i j hi hj).2))
  · obtain ⟨hle, hval⟩ := hg i j hi hj
    rcases h with ⟨x, hx, hlt⟩ | ⟨hsm, hn, hlt⟩
    · rcases hval with hval | hval
      · rw [hval] at hx
        cases hx
        have htt : |N⁻¹ * t - top| ≤ d := by
          have e1 := abs_le.1 (hXm i0 j0 hi0 hj0)
          have e2 := abs_le.1 (hXm i1 j1 hi1 hj1)
          have e3 : N⁻¹ * X i1 j1 ≤ N⁻¹ * t := mul_le_mul_of_nonneg_left (hg i1 j1 hi1 hj1).1 hN'.le
          have e4 : m i0 j0 * top ≤ 1 * top := mul_le_mul_of_nonneg_right (hm i0 j0 hi0 hj0).2 ht0.le
          rw [hX0] at e1
          rw [hm1] at e2
          exact abs_le.2 ⟨by linarith [e2.2], by linarith [e1.2]⟩
        have := ratio_close ht0 (mul_pos hN' t0) (mul_nonneg hN'.le (hX i j hi hj).2) (mul_le_mul_of_nonneg_left hle hN'.le) hcell htt
        rw [mul_div_mul_left _ _ hN'.ne', mul_div_cancel_right₀ _ ht0.ne'] at this
        exact absurd hlt (not_lt.2 this)
      · rw [hval.1] at hx; cases hx
    · rcases hval with hval | hval
      · rw [hval] at hn; cases hn
      · exact absurd hlt (not_lt.2 (hbg hsm hval.2))

/-- Positive numbers have a map. -/
theorem exists_map {clip : ℝ} {smooth : Option (Grid (Fl ℝ) → Grid (Fl ℝ))} (hs : SmoothOK smooth) (hR : 0 < R) (hC : 0 < C) (h0 : 0 ≤ clip) (h1 : clip ≤ 100)
    {a : Nat → Nat → ℝ} (ha : ∀ i j, 0 ≤ a i j)
    (hpos : ∀ v, Percentile (rasterOf R C a).values clip v → ∃ i j x, i < R ∧ j < C ∧ 0 < x ∧
      (smoothed smooth (rasterOf R C fun i j => min (a i j) v)).at' i j = .fin x) :
    ∃ m top, IsMapOf R C smooth clip a m top := by
  have hne : Grid.flat (⟨R, C, a⟩ : Grid ℝ) ≠ [] := by
    intro e
    have := flat_length (⟨R, C, a⟩ : Grid ℝ)
    rw [e] at this
    simp at this
    omega
  obtain ⟨v, -, hv⟩ := percK_spec h0 h1 hne
  rw [← values_raster] at hv
  have hv0 : 0 ≤ v := hv.nonneg fun x hx => by
    rw [values_raster] at hx
    obtain ⟨i, j, -, -, rfl⟩ := mem_flat.1 hx
    exact ha i j
  obtain ⟨X, _, _, _, _, hX⟩ := smoothOrNan_vals hs (fun i j => le_min (ha i j) hv0) hR hC
  obtain ⟨i, j, x, hi, hj, hx, he⟩ := hpos v hv
  obtain ⟨q, hq, hmax⟩ := Finset.exists_max_image (Finset.range R ×ˢ Finset.range C) (fun q => X q.1 q.2) ⟨(i, j), by simp [hi, hj]⟩
  simp only [Finset.mem_product, Finset.mem_range] at hq hmax
  have hxX : x = X i j := by
    rw [(hX i j hi hj).1] at he
    cases he
    rfl
  have ht : 0 < X q.1 q.2 := lt_of_lt_of_le (hxX ▸ hx) (hmax (i, j) ⟨hi, hj⟩)
  exact ⟨fun i j => X i j / X q.1 q.2, X q.1 q.2, v, hv, ht, fun i j hi hj => ⟨by rw [(hX i j hi hj).1, div_mul_cancel₀ _ ht.ne'],
    (div_le_one ht).2 (hmax (i, j) ⟨hi, hj⟩)⟩, q.1, q.2, hq.1, hq.2, div_self ht.ne'⟩

end Dorado
