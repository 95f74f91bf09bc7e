import Verif.Model.SpatialPlot
import Verif.Spec.Spatial
import Verif.Lemmas.Spatial
import Verif.Props.Curve

/-! # Maps of exposure times: C79, C80 -/

set_option linter.unusedSectionVars false

namespace Dorado

variable {K : Type} [Field K] [LinearOrder K] [IsStrictOrderedRing K] [FloorRing K] {A : Arith K}

theorem plotSpatial_inv {maps : List (Grid (Fl K))} {size : Nat × Nat} {m : Fl K} {n : Int} {ncolors : Nat} {r : SpatialPlot K}
    (h : plotSpatial A maps size m n ncolors = .ok r) :
    0 < n ∧ n - 1 ≤ ncolors ∧ r.titles = ["E50", "E75", "E90"] ∧ r.levels = linspace0 A m n.toNat ∧
      mapE (fun p => spatialPanel size p.2 p.1) maps.zipIdx = .ok r.panels ∧ r.returnedAxes = [] ∧
      ∃ ls last, mapE levelLabel r.levels = .ok ls ∧ levelLabel (r.levels.getLastD .nan) = .ok last ∧ r.labels = ls.dropLast ++ [last ++ "+"] := by
  unfold plotSpatial at h
  by_cases h1 : n < 0
  · rw [if_pos h1] at h; cases h
  rw [if_neg h1] at h
  simp only [bind_ok, listGet_ok] at h
  obtain ⟨x, hx, h⟩ := h
  by_cases h2 : (ncolors : Int) < n - 1
  · rw [if_pos h2] at h; cases h
  rw [if_neg h2] at h
  simp only [bind_ok, pure_ok] at h
  obtain ⟨ps, hps, ls, hls, last, hlast, rfl⟩ := h
  have : 0 < n.toNat := by
    have := (List.getElem?_eq_some_iff.1 hx).1
    simpa [linspace0] using this
  exact ⟨by omega, by omega, rfl, rfl, hps, rfl, ls, last, hls, hlast, rfl⟩

theorem panel_get {maps : List (Grid (Fl K))} {size : Nat × Nat} {ps : List (Panel K)}
    (h : mapE (fun p => spatialPanel size p.2 p.1) maps.zipIdx = .ok ps) :
    ps.length = maps.length ∧ maps.length ≤ 3 ∧ ∀ (i : Nat) p, ps[i]? = some p →
      p.column = i + 1 ∧ maps[i]? = some p.map ∧ p.extent = (0, (size.2 : Int), (size.1 : Int), 0) := by
  have hlen : ps.length = maps.length := by
    have := mapE_length h
    simpa using this
  have hget : ∀ (i : Nat) g, maps[i]? = some g → ∃ p, ps[i]? = some p ∧ spatialPanel size i g = .ok p := by
    intro i g hi
    have hz : maps.zipIdx[i]? = some (g, i) := by simp [List.getElem?_zipIdx, hi]
    obtain ⟨p, hp, hp2⟩ := mapE_get h hz
    exact ⟨p, hp, hp2⟩
  refine ⟨hlen, ?_, ?_⟩
  · by_contra hc
    have h3 : 3 < maps.length := by omega
    obtain ⟨p, -, hp⟩ := hget 3 _ (List.getElem?_eq_getElem h3)
    simp [spatialPanel] at hp
  · intro i p hp
    have hi : i < maps.length := by
      rw [← hlen]
      exact (List.getElem?_eq_some_iff.1 hp).1
    obtain ⟨p', hp', hs⟩ := hget i _ (List.getElem?_eq_getElem hi)
    rw [hp] at hp'
    cases hp'
    unfold spatialPanel at hs
    split_ifs at hs
    cases hs
    exact ⟨rfl, List.getElem?_eq_getElem hi, rfl⟩

/-! ## C79 -/

/-- In one direction: at a point of raster row `i`, the image divided into `m` parts shows the chunk of that row, for all rows and points. -/
def LinedUp (size res m : Nat) : Prop :=
  ∀ (i : Nat) (y : K), i < size → (i : K) ≤ y → y < i + 1 → ∃ k : Nat, k < m ∧ ⌊y / size * m⌋ = k ∧ InChunk size res k i

theorem linedUp_iff {size res : Nat} (hres : 0 < res) (hle : res ≤ size) : LinedUp (K := K) size res (size / res) ↔ res ∣ size ∨ size < 2 * res := by
  have hm : 0 < size / res := Nat.div_pos hle hres
  have hsz : (0 : K) < size := by exact_mod_cast (by omega : 0 < size)
  have hmul : size / res * res ≤ size := Nat.div_mul_le_self size res
  constructor
  · intro h
    by_contra hc
    push Not at hc
    obtain ⟨hnd, h2⟩ := hc
    have hm2 : 2 ≤ size / res := (Nat.le_div_iff_mul_le hres).2 h2
    have hlt : size / res * res < size := by
      rcases hmul.eq_or_lt with he | h'
      · exact absurd ⟨size / res, by rw [mul_comm]; exact he.symm⟩ hnd
      · exact h'
    obtain ⟨k, -, hk, hin⟩ := h res (res : K) (by nlinarith) le_rfl (by linarith)
    have hk0 : k = 0 := by
      have : ⌊(res : K) / size * (size / res : Nat)⌋ = 0 := by
        rw [Int.floor_eq_zero_iff]
        refine ⟨by positivity, ?_⟩
        rw [div_mul_eq_mul_div, div_lt_one hsz]
        exact_mod_cast (by rw [mul_comm]; exact hlt)
      rw [this] at hk
      exact_mod_cast hk.symm
    subst hk0
    have := hin.2
    unfold chunkStop at this
    rw [if_neg (by omega)] at this
    omega
  · intro h i y hi h1 h2
    rcases h with hd | hd
    · obtain ⟨m, rfl⟩ := hd
      rw [Nat.mul_div_cancel_left m hres] at hm ⊢
      have hmK : (0 : K) < m := by exact_mod_cast hm
      have hresK : (0 : K) < res := by exact_mod_cast hres
      have hval : y / ((res * m : Nat) : K) * m = y / res := by
        push_cast
        field_simp
      have hfl : ⌊y / (res : K)⌋ = ((i / res : Nat) : Int) := by
        rw [Int.floor_eq_iff]
        have h3 : i / res * res ≤ i := Nat.div_mul_le_self i res
        have h4 : i + 1 ≤ (i / res + 1) * res := by
          have := Nat.lt_div_mul_add hres (a := i)
          rw [add_mul, one_mul]
          omega
        have h3' : ((i / res : Nat) : K) * res ≤ i := by exact_mod_cast h3
        have h4' : (i : K) + 1 ≤ (((i / res : Nat) : K) + 1) * res := by exact_mod_cast h4
        constructor
        · rw [le_div_iff₀ hresK, Int.cast_natCast]
          linarith
        · rw [div_lt_iff₀ hresK, Int.cast_natCast]
          linarith
      have hk : i / res < m := Nat.div_lt_of_lt_mul hi
      refine ⟨i / res, hk, by rw [hval, hfl], ?_, ?_⟩
      · exact_mod_cast Nat.div_mul_le_self i res
      · have := Nat.lt_div_mul_add hres (a := i)
        unfold chunkStop
        split_ifs
        · omega
        · push_cast
          nlinarith
    · have hone : size / res = 1 := by
        have : size / res < 2 := (Nat.div_lt_iff_lt_mul hres).2 hd
        omega
      rw [hone]
      refine ⟨0, one_pos, ?_, ?_, ?_⟩
      · rw [Nat.cast_one, mul_one]
        have hy : y < size := by
          have : (i : K) + 1 ≤ size := by exact_mod_cast hi
          linarith
        have : ⌊y / (size : K)⌋ = 0 := by
          rw [Int.floor_eq_zero_iff]
          exact ⟨div_nonneg (le_trans (Nat.cast_nonneg i) h1) hsz.le, (div_lt_one hsz).2 hy⟩
        simpa using this
      · simp
      · unfold chunkStop
        rw [hone]
        simpa using hi

/-- Everywhere in raster cell `(i, j)` the panel shows the map cell of the chunk to which `(i, j)` belongs, for all cells of an `R` x `C` raster. -/
def ShowsChunks (R C res : Nat) (p : Panel K) : Prop :=
  ∀ (i j : Nat) (x y : K), i < R → j < C → (i : K) ≤ y → y < i + 1 → (j : K) ≤ x → x < j + 1 →
    ∃ a b : Nat, a < p.map.rows ∧ b < p.map.cols ∧ p.cellAt x y = ((a : Int), (b : Int)) ∧ InChunk R res a i ∧ InChunk C res b j

theorem showsChunks_iff {R C res : Nat} (hres : 0 < res) (hR : res ≤ R) (hC : res ≤ C) {p : Panel K} (hr : p.map.rows = R / res)
    (hc : p.map.cols = C / res) (he : p.extent = (0, (C : Int), (R : Int), 0)) :
    ShowsChunks R C res p ↔ (res ∣ R ∨ R < 2 * res) ∧ (res ∣ C ∨ C < 2 * res) := by
  have hcell : ∀ x y : K, p.cellAt x y = (⌊y / R * (R / res : Nat)⌋, ⌊x / C * (C / res : Nat)⌋) := by
    intro x y
    simp [Panel.cellAt, he, hr, hc]
  rw [← linedUp_iff (K := K) hres hR, ← linedUp_iff (K := K) hres hC]
  constructor
  · intro h
    constructor
    · intro i y hi h1 h2
      obtain ⟨a, b, ha, -, hab, hin, -⟩ := h i 0 0 y hi (by omega) h1 h2 (by simp) (by simp)
      rw [hcell, Prod.mk.injEq] at hab
      exact ⟨a, by rwa [← hr], hab.1, hin⟩
    · intro j x hj h1 h2
      obtain ⟨a, b, -, hb, hab, -, hin⟩ := h 0 j x 0 (by omega) hj (by simp) (by simp) h1 h2
      rw [hcell, Prod.mk.injEq] at hab
      exact ⟨b, by rwa [← hc], hab.2, hin⟩
  · rintro ⟨h1, h2⟩ i j x y hi hj hy1 hy2 hx1 hx2
    obtain ⟨a, ha, ha2, ha3⟩ := h1 i y hi hy1 hy2
    obtain ⟨b, hb, hb2, hb3⟩ := h2 j x hj hx1 hx2
    exact ⟨a, b, by rwa [hr], by rwa [hc], by rw [hcell, ha2, hb2], ha3, hb3⟩

/-- Maps of `R / res` x `C / res` chunks, as `compute_thresholds` returns, lie over the raster cells they were computed from if `res` divides both sides of
the raster (or there is only one chunk in that direction). Missing: other sizes, where the claim is false, see `C79_stretched_counterexample`. -/
theorem C79_aligned_partial {R C res : Nat} (hres : 0 < res) (hR : res ≤ R) (hC : res ≤ C) (h1 : res ∣ R ∨ R < 2 * res) (h2 : res ∣ C ∨ C < 2 * res)
    {maps : List (Grid (Fl K))} (hm : ∀ g ∈ maps, g.rows = R / res ∧ g.cols = C / res) {m : Fl K} {n : Int} {ncolors : Nat} {r : SpatialPlot K}
    (hr : plotSpatial A maps (R, C) m n ncolors = .ok r) :
    r.panels.length = maps.length ∧ ∀ (i : Nat) p, r.panels[i]? = some p → p.column = i + 1 ∧ maps[i]? = some p.map ∧ ShowsChunks R C res p := by
  obtain ⟨-, -, -, -, hp, -⟩ := plotSpatial_inv hr
  obtain ⟨hl, -, hg⟩ := panel_get hp
  refine ⟨hl, fun i p hi => ?_⟩
  obtain ⟨h3, h4, h5⟩ := hg i p hi
  obtain ⟨h6, h7⟩ := hm _ (List.mem_of_getElem? h4)
  exact ⟨h3, h4, (showsChunks_iff hres hR hC h6 h7 h5).2 ⟨h1, h2⟩⟩

/-- For any other size every panel shows some raster cell with the value of a chunk it does not belong to. -/
theorem C79_stretched_counterexample {R C res : Nat} (hres : 0 < res) (hR : res ≤ R) (hC : res ≤ C)
    (hno : ¬ ((res ∣ R ∨ R < 2 * res) ∧ (res ∣ C ∨ C < 2 * res))) {maps : List (Grid (Fl K))} (hm : ∀ g ∈ maps, g.rows = R / res ∧ g.cols = C / res)
    {m : Fl K} {n : Int} {ncolors : Nat} {r : SpatialPlot K} (hr : plotSpatial A maps (R, C) m n ncolors = .ok r) :
    ∀ p ∈ r.panels, ¬ ShowsChunks R C res p := by
  intro p hp hs
  obtain ⟨-, -, -, -, hps, -⟩ := plotSpatial_inv hr
  obtain ⟨-, -, hg⟩ := panel_get hps
  obtain ⟨i, hi, rfl⟩ := List.mem_iff_getElem.1 hp
  obtain ⟨-, h4, h5⟩ := hg i _ (List.getElem?_eq_getElem hi)
  obtain ⟨h6, h7⟩ := hm _ (List.mem_of_getElem? h4)
  exact hno ((showsChunks_iff hres hR hC h6 h7 h5).1 hs)

/-! ## C80 -/

theorem linspace_length (m : Fl K) (n : Nat) : (linspace0 A m n).length = n := by simp [linspace0]

/-- Up to three maps are drawn; a fourth raises IndexError. -/
theorem C80_accepts {maps : List (Grid (Fl K))} {size : Nat × Nat} {m : K} {n : Int} {ncolors : Nat} (hn : 2 ≤ n) (hc : n - 1 ≤ ncolors) :
    (maps.length ≤ 3 → ∃ r, plotSpatial A maps size (.fin m) n ncolors = .ok r) ∧
      (3 < maps.length → plotSpatial A maps size (.fin m) n ncolors = .error .indexError) := by
  have hlev : ∀ x ∈ linspace0 A (.fin m) n.toNat, ∃ y, x = .fin y := by
    intro x hx
    obtain ⟨k, hk, rfl⟩ := List.mem_iff_getElem.1 hx
    rw [linspace_length] at hk
    have := linspace_get A m hk
    rw [List.getElem?_eq_getElem (by rwa [linspace_length])] at this
    exact ⟨_, Option.some.inj this⟩
  have h0 : ∃ x, listGet (linspace0 A (.fin m) n.toNat) 0 = .ok x := by
    simp only [listGet_ok]
    exact ⟨_, List.getElem?_eq_getElem (by rw [linspace_length]; omega)⟩
  obtain ⟨x0, hx0⟩ := h0
  constructor
  · intro hl
    obtain ⟨ps, hps⟩ : ∃ ps, mapE (fun p => spatialPanel size p.2 p.1) maps.zipIdx = .ok ps := by
      apply mapE_exists
      intro p hp
      obtain ⟨k, hk, rfl⟩ := List.mem_iff_getElem.1 hp
      simp only [List.length_zipIdx] at hk
      simp only [List.getElem_zipIdx, spatialPanel]
      rw [if_neg (by omega)]
      exact ⟨_, rfl⟩
    obtain ⟨ls, hls⟩ : ∃ ls, mapE levelLabel (linspace0 A (.fin m) n.toNat) = .ok ls := by
      apply mapE_exists
      intro x hx
      obtain ⟨y, rfl⟩ := hlev x hx
      exact ⟨_, rfl⟩
    obtain ⟨y, hy⟩ : ∃ y, (linspace0 A (.fin m) n.toNat).getLastD .nan = .fin y := by
      apply hlev
      have hne : linspace0 A (.fin m) n.toNat ≠ [] := by
        apply List.ne_nil_of_length_pos
        rw [linspace_length]
        omega
      rw [List.getLastD_eq_getLast?, List.getLast?_eq_some_getLast hne]
      exact List.getLast_mem hne
    unfold plotSpatial
    rw [if_neg (by omega)]
    simp only [hx0, ok_bind]
    rw [if_neg (by omega)]
    simp only [hps, ok_bind, hls, hy]
    exact ⟨_, rfl⟩
  · intro hl
    have hps : mapE (fun p => spatialPanel size p.2 p.1) maps.zipIdx = .error .indexError := by
      match maps, hl with
      | a :: b :: c :: d :: l, _ => rfl
    unfold plotSpatial
    rw [if_neg (by omega)]
    simp only [hx0, ok_bind]
    rw [if_neg (by omega), hps]
    rfl

theorem label_get {maps : List (Grid (Fl K))} {size : Nat × Nat} {m : Fl K} {n : Int} {ncolors : Nat} {r : SpatialPlot K}
    (hr : plotSpatial A maps size m n ncolors = .ok r) {k : Nat} {t : K} (hk : r.levels[k]? = some (.fin t)) (ht : 0 ≤ t) :
    (r.labels.length : Int) = n ∧ (r.levels.length : Int) = n ∧ r.labels[k]? = some (toString ⌊t⌋ ++ if (k : Int) + 1 = n then "+" else "") := by
  obtain ⟨hn, -, -, hlev, -, -, ls, last, hls, hlast, hlab⟩ := plotSpatial_inv hr
  have hlen : r.levels.length = n.toNat := by rw [hlev, linspace_length]
  have hll : ls.length = n.toNat := by rw [mapE_length hls, hlen]
  have hkn : k < n.toNat := by
    rw [← hlen]
    exact (List.getElem?_eq_some_iff.1 hk).1
  have hval : levelLabel (.fin t) = .ok (toString ⌊t⌋) := by
    have h1 : pyInt (.flt (.fin t)) = .ok ⌊t⌋ := by
      show Except.ok (if 0 ≤ t then ⌊t⌋ else ⌈t⌉) = _
      rw [if_pos ht]
    unfold levelLabel
    rw [h1]
    rfl
  refine ⟨?_, by omega, ?_⟩
  · rw [hlab]
    simp only [List.length_append, List.length_dropLast, List.length_singleton, hll]
    omega
  · rw [hlab]
    by_cases hlt : k + 1 = n.toNat
    · rw [List.getElem?_append_right (by simp only [List.length_dropLast, hll]; omega)]
      have : k - ls.dropLast.length = 0 := by
        simp only [List.length_dropLast, hll]
        omega
      rw [this, if_pos (by omega)]
      have hl : r.levels.getLastD .nan = .fin t := by
        rw [List.getLastD_eq_getLast?, List.getLast?_eq_getElem?, hlen, ← hlt, Nat.add_sub_cancel, hk]
        rfl
      rw [hl, hval] at hlast
      cases hlast
      rfl
    · rw [List.getElem?_append_left (by simp only [List.length_dropLast, hll]; omega), if_neg (by omega), List.getElem?_dropLast,
        if_pos (by omega)]
      obtain ⟨y, hy, hy2⟩ := mapE_get hls hk
      rw [hval] at hy2
      cases hy2
      rw [hy]
      simp

/-- Any rounding that keeps the integers involved: if the levels are whole numbers, level `k` is `k * s` and is labelled so, the last one with "+".
Missing: levels that are not whole numbers, where the claim is false, see `C80_counterexample`. -/
theorem C80_labels_partial {maps : List (Grid (Fl K))} {size : Nat × Nat} {s n : Nat} (hn : 2 ≤ n) (hs : ∀ k ≤ n - 1, A.rnd ((k * s : Nat) : K) = (k * s : Nat))
    (hi : ∀ k ≤ n - 1, A.rnd (k : K) = k) {ncolors : Nat} {r : SpatialPlot K}
    (hr : plotSpatial A maps size (.fin (((n - 1) * s : Nat) : K)) n ncolors = .ok r) :
    r.levels = (List.range n).map (fun k => Fl.fin ((k * s : Nat) : K)) ∧
      r.labels = (List.range n).map fun k => toString (k * s) ++ if k + 1 = n then "+" else "" := by
  have hlev : r.levels = (List.range n).map (fun k => Fl.fin ((k * s : Nat) : K)) := by
    obtain ⟨-, -, -, h, -⟩ := plotSpatial_inv hr
    rw [h, Int.toNat_natCast]
    apply List.ext_getElem?
    intro k
    rcases Nat.lt_or_ge k n with hk | hk
    · rw [linspace_get A _ hk, List.getElem?_map, List.getElem?_range hk]
      simp only [Option.map_some, Option.some.injEq, Fl.fin.injEq]
      split_ifs with h1 h2
      · rw [show k = n - 1 by omega]
      · omega
      · have hn1 : ((n - 1 : Nat) : K) ≠ 0 := by exact_mod_cast (by omega : n - 1 ≠ 0)
        have hdiv : (((n - 1) * s : Nat) : K) / ((n - 1 : Nat) : K) = s := by
          rw [Nat.cast_mul]
          field_simp
        have hs1 : A.rnd (s : K) = s := by simpa using hs 1 (by omega)
        rw [hi k (by omega), hi (n - 1) le_rfl, hdiv, hs1, ← Nat.cast_mul]
        exact hs k (by omega)
    · rw [List.getElem?_eq_none (by rwa [linspace_length]), List.getElem?_eq_none (by simpa using hk)]
  refine ⟨hlev, ?_⟩
  have hget : ∀ k, k < n → r.levels[k]? = some (.fin ((k * s : Nat) : K)) := by
    intro k hk
    rw [hlev, List.getElem?_map, List.getElem?_range hk]
    rfl
  apply List.ext_getElem?
  intro k
  rcases Nat.lt_or_ge k n with hk | hk
  · obtain ⟨-, -, h⟩ := label_get hr (hget k hk) (Nat.cast_nonneg _)
    rw [h, List.getElem?_map, List.getElem?_range hk]
    simp only [Option.map_some, Option.some.injEq, Int.floor_natCast]
    have : ((k : Int) + 1 = n) ↔ k + 1 = n := by omega
    rw [if_congr this rfl rfl]
    rfl
  · obtain ⟨h, -, -⟩ := label_get hr (hget 0 (by omega)) (Nat.cast_nonneg _)
    rw [List.getElem?_eq_none (by omega), List.getElem?_eq_none (by simpa using hk)]

/-- Any rounding: a level `t` is labelled with the whole number below it. -/
theorem C80_floor {maps : List (Grid (Fl K))} {size : Nat × Nat} {m : Fl K} {n : Int} {ncolors : Nat} {r : SpatialPlot K}
    (hr : plotSpatial A maps size m n ncolors = .ok r) {k : Nat} {t : K} (hk : r.levels[k]? = some (.fin t)) (ht : 0 ≤ t) :
    r.labels[k]? = some (toString ⌊t⌋ ++ if (k : Int) + 1 = n then "+" else "") := (label_get hr hk ht).2.2

/-- `max_exposure = 7, cbar_levels = 7`, as in the test suite: the level 3.5 is labelled 3, and 35/6 is labelled 5. Three panels are drawn, the returned list
of axes is empty. -/
theorem C80_counterexample : ((plotSpatial Arith.exact (List.replicate 3 (⟨1, 1, fun _ _ => .fin (1 : ℚ)⟩ : Grid (Fl ℚ))) (2, 2) (.fin 7) 7 256).toOption.map
    fun r => (r.levels, r.labels, r.panels.map (·.column), r.returnedAxes)) =
    some ([.fin 0, .fin (7 / 6), .fin (7 / 3), .fin (7 / 2), .fin (14 / 3), .fin (35 / 6), .fin 7], ["0", "1", "2", "3", "4", "5", "7+"], [1, 2, 3], []) := by
  decide +kernel

/-- Whole levels. -/
example : ((plotSpatial Arith.exact (List.replicate 3 (⟨1, 1, fun _ _ => .fin (1 : ℚ)⟩ : Grid (Fl ℚ))) (2, 2) (.fin ((4 - 1) * 5 : Nat)) (4 : Nat) 256).toOption.map
    fun r => (r.levels, r.labels)) = some ([.fin 0, .fin 5, .fin 10, .fin 15], ["0", "5", "10", "15+"]) := by decide +kernel

/-- A raster of 6 rows and chunks of 2: row 2 is in chunk 1 and shown there. With 5 rows it is shown in chunk 0. -/
example : ((plotSpatial Arith.exact [(⟨3, 1, fun _ _ => .fin (1 : ℚ)⟩ : Grid (Fl ℚ))] (6, 2) (.fin 7) 8 256).toOption.map
      fun r => r.panels.map fun p => p.cellAt (1 / 2) 2) = some [(1, 0)] ∧
    ((plotSpatial Arith.exact [(⟨2, 1, fun _ _ => .fin (1 : ℚ)⟩ : Grid (Fl ℚ))] (5, 2) (.fin 7) 8 256).toOption.map
      fun r => r.panels.map fun p => p.cellAt (1 / 2) 2) = some [(0, 0)] ∧ InChunk 6 2 1 2 ∧ InChunk 5 2 1 2 ∧ ¬ InChunk 5 2 0 2 := by decide +kernel

end Dorado
