import Verif.Props.Percentile
import Verif.Props.Mad

/-!
# The maps returned by `compute_thresholds` (C59)
-/

set_option linter.unusedSectionVars false

namespace Dorado

variable {K : Type} [Field K] [LinearOrder K] [IsStrictOrderedRing K] [FloorRing K] {A : Arith K}

/-- At least five different non-zero times. -/
def ManyTimes (item : Option (List (Fl K))) : Prop :=
  ∃ l, item = some l ∧ ∃ s : List K, s.Nodup ∧ 5 ≤ s.length ∧ ∀ x ∈ s, x ≠ 0 ∧ .fin x ∈ l

theorem many_iff {l : List (Fl K)} (hl : FloatTimes A l) : ManyTimes (some l) ↔ 5 ≤ (usedTimes l).dedup.length := by
  constructor
  · rintro ⟨l', hl', s, hn, h5, hs⟩
    cases hl'
    have : (s.map Fl.fin).Nodup := hn.map fun a b h => by cases h; rfl
    have := (List.subperm_of_subset this (l₂ := (usedTimes l).dedup) fun t ht => by
      obtain ⟨x, hx, rfl⟩ := List.mem_map.1 ht
      exact List.mem_dedup.2 (usedTimes_mem.2 ⟨(hs x hx).2, (hs x hx).1⟩)).length_le
    rw [List.length_map] at this
    omega
  · intro h
    obtain ⟨s, hs⟩ := fin_list (l := (usedTimes l).dedup) fun t ht => by
      obtain ⟨x, hx, -⟩ := hl t (List.mem_filter.1 (List.mem_dedup.1 ht)).1
      exact ⟨x, hx⟩
    refine ⟨l, rfl, s, ?_, by rw [hs, List.length_map] at h; exact h, fun x hx => ?_⟩
    · have := List.nodup_dedup (usedTimes l)
      rw [hs] at this
      exact List.Nodup.of_map _ this
    · have : Fl.fin x ∈ (usedTimes l).dedup := by rw [hs]; exact List.mem_map_of_mem hx
      exact (usedTimes_mem.1 (List.mem_dedup.1 this)).symm

/-- The three percentiles of one chunk: NaN without five different non-zero times, else ordered and between the smallest and largest non-zero time, divided by
`td`. -/
def ChunkValues (A : Arith K) (td : K) (item : Option (List (Fl K))) (p50 p75 p90 : Fl K) : Prop :=
  (¬ ManyTimes item ∧ p50 = .nan ∧ p75 = .nan ∧ p90 = .nan) ∨
  ∃ l lo hi a b c, item = some l ∧ ManyTimes item ∧ NonzeroRange l lo hi ∧ p50 = .fin a ∧ p75 = .fin b ∧ p90 = .fin c ∧
    A.rnd (lo / td) ≤ a ∧ a ≤ b ∧ b ≤ c ∧ c ≤ A.rnd (hi / td)

/-- Exposure data `compute_thresholds` can work with: floating point times, and a density estimate for every chunk with enough of them. -/
def GoodData (A : Arith K) (kde : List (Fl K) → Except PyErr (Fl K → Fl K)) (data : List (Option (List (Fl K)))) : Prop :=
  ∀ l, some l ∈ data → FloatTimes A l ∧ (ManyTimes (some l) → ∃ dens, kde (usedTimes l) = .ok dens ∧ DensityFor A (usedTimes l) dens)

theorem chunk_values {kde : List (Fl K) → Except PyErr (Fl K → Fl K)} {data : List (Option (List (Fl K)))} (hd : GoodData A kde data) {td : K} (htd : 0 < td)
    {ε : K} (hε : ε ≤ 1 / 8000) (hrel : ∀ x, |A.rnd x - x| ≤ ε * |x|) {item : Option (List (Fl K))} (hi : item ∈ data) :
    ∃ p50 p75 p90, chunkPercentiles A kde td item = .ok (p50, p75, p90) ∧ ChunkValues A td item p50 p75 p90 := by
  by_cases hm : ManyTimes item
  · obtain ⟨l, rfl, -⟩ := id hm
    obtain ⟨hl, hk⟩ := hd l hi
    obtain ⟨dens, hk, hdens⟩ := hk hm
    obtain ⟨lo, hi', a, b, c, h1, h2, h3⟩ := C59_float hl ((many_iff hl).1 hm) hk hdens htd hε hrel
    exact ⟨_, _, _, h2, Or.inr ⟨l, lo, hi', a, b, c, rfl, hm, h1, rfl, rfl, rfl, h3⟩⟩
  · refine ⟨_, _, _, C59_nan fun l hl => ?_, Or.inl ⟨hm, rfl, rfl, rfl⟩⟩
    subst hl
    have := mt (many_iff (hd l hi).1).2 hm
    omega

/-- C59, the maps: `compute_thresholds` applies the outlier filter to three maps that hold the percentiles of chunk `(r, c)` in row `r` and column `c`. -/
theorem C59_maps {kde : List (Fl K) → Except PyErr (Fl K → Fl K)} {data : List (Option (List (Fl K)))} (hd : GoodData A kde data) {R C res : Nat} (hres : 0 < res)
    (hl : data.length = R / res * (C / res)) {td : K} (htd : 0 < td) {w : Int} {th : Fl K} {ε : K} (hε : ε ≤ 1 / 8000) (hrel : ∀ x, |A.rnd x - x| ≤ ε * |x|) :
    ∃ e50 e75 e90 : Grid (Fl K), computeThresholds A kde data (R, C) td res w th = .ok (madFilter A e50 w th, madFilter A e75 w th, madFilter A e90 w th) ∧
      (∀ e ∈ [e50, e75, e90], e.rows = R / res ∧ e.cols = C / res) ∧
      ∀ r c, r < R / res → c < C / res → ∃ item, data[r * (C / res) + c]? = some item ∧ ChunkValues A td item (e50.at' r c) (e75.at' r c) (e90.at' r c) := by
  obtain ⟨p, hp⟩ := mapE_exists (f := chunkPercentiles A kde td) (l := data) fun item hi => by
    obtain ⟨a, b, c, h, -⟩ := chunk_values hd htd hε hrel hi
    exact ⟨_, h⟩
  have hpl := mapE_length hp
  have hs : ∀ l : List (Fl K), l.length = R / res * (C / res) →
      reshape l ((R / res : Nat) : Int) ((C / res : Nat) : Int) = .ok ⟨R / res, C / res, fun i j => l.getD (i * (C / res) + j) .nan⟩ := by
    intro l h
    unfold reshape
    simp only
    rw [if_pos ⟨Int.natCast_nonneg _, Int.natCast_nonneg _⟩, if_pos (by rw [h]; push_cast; rfl)]
    rfl
  refine ⟨⟨R / res, C / res, fun i j => (p.map (·.1)).getD (i * (C / res) + j) .nan⟩, ⟨R / res, C / res, fun i j => (p.map (·.2.1)).getD (i * (C / res) + j) .nan⟩,
    ⟨R / res, C / res, fun i j => (p.map (·.2.2)).getD (i * (C / res) + j) .nan⟩, ?_, ?_, fun r c hr hc => ?_⟩
  · unfold computeThresholds
    rw [hp, floorDiv_nat _ _ hres, floorDiv_nat _ _ hres]
    simp only [ok_bind]
    rw [hs _ (by simp [hpl, hl]), hs _ (by simp [hpl, hl]), hs _ (by simp [hpl, hl])]
    rfl
  · intro e he
    simp only [List.mem_cons, List.not_mem_nil, or_false] at he
    rcases he with rfl | rfl | rfl <;> exact ⟨rfl, rfl⟩
  · have hk : r * (C / res) + c < data.length := by
      rw [hl]
      calc r * (C / res) + c < r * (C / res) + C / res := by omega
        _ = (r + 1) * (C / res) := by ring
        _ ≤ _ := Nat.mul_le_mul_right _ hr
    refine ⟨data[r * (C / res) + c], List.getElem?_eq_getElem hk, ?_⟩
    obtain ⟨a, b, c', h, hv⟩ := chunk_values hd htd hε hrel (List.getElem_mem hk)
    have hg : p[r * (C / res) + c]? = some (a, b, c') := by
      have hk' : r * (C / res) + c < p.length := by omega
      obtain ⟨y, hy, e⟩ := mapE_get hp (List.getElem?_eq_getElem hk)
      rw [h] at e
      rw [hy]
      cases e
      rfl
    simp only [List.getD_eq_getElem?_getD, List.getElem?_map, hg, Option.map_some, Option.getD_some]
    exact hv

theorem madCell_single {g : Grid (Fl K)} {w : Int} (hw : w.fdiv 2 = 0) {th : Fl K} {i j : Nat} (hi : i < g.rows) (hj : j < g.cols)
    (hf : g.at' i j = .nan ∨ ∃ x, g.at' i j = .fin x) : madCell A g w th i j = g.at' i j := by
  unfold madCell
  rcases hf with h | ⟨x, h⟩
  · rw [h]; rfl
  · have hwin : windowOf g w i j = [.fin x] := by
      have e1 : ∀ (n a : Nat), a < n → sliceBound n (max ((a : Int) - 0) 0) = a ∧ sliceBound n (min ((a : Int) + 0 + 1) n) = a + 1 := by
        intro n a h
        unfold sliceBound
        constructor <;> split_ifs <;> omega
      unfold windowOf
      simp only [hw, (e1 _ _ hi).1, (e1 _ _ hi).2, (e1 _ _ hj).1, (e1 _ _ hj).2, Nat.add_sub_cancel_left]
      simp [List.range', h, Fl.isNan]
    have hm : ∀ y : Fl K, median A [y] = y := fun y => by
      unfold median sortFl
      simp
    rw [h, hwin]
    have hz : (A.sub (.fin x) (.fin x)).abs = .fin 0 := by simp [Arith.sub, Arith.add, Fl.neg, Fl.abs, A.zero]
    simp only [hm, List.map_cons, List.map_nil, hz]
    simp [Fl.eq, Fl.isNan]

/-- C59 with a window of a single cell, where the filter does nothing: the returned maps hold ordered percentiles. -/
theorem C59_unfiltered {kde : List (Fl K) → Except PyErr (Fl K → Fl K)} {data : List (Option (List (Fl K)))} (hd : GoodData A kde data) {R C res : Nat}
    (hres : 0 < res) (hl : data.length = R / res * (C / res)) {td : K} (htd : 0 < td) {w : Int} (hw : w = 0 ∨ w = 1) {th : Fl K} {ε : K} (hε : ε ≤ 1 / 8000)
    (hrel : ∀ x, |A.rnd x - x| ≤ ε * |x|) :
    ∃ m50 m75 m90 : Grid (Fl K), computeThresholds A kde data (R, C) td res w th = .ok (m50, m75, m90) ∧
      ∀ r c, r < R / res → c < C / res → ∃ item, data[r * (C / res) + c]? = some item ∧ ChunkValues A td item (m50.at' r c) (m75.at' r c) (m90.at' r c) := by
  obtain ⟨e50, e75, e90, h, hs, hv⟩ := C59_maps hd hres hl htd (w := w) (th := th) hε hrel
  refine ⟨_, _, _, h, fun r c hr hc => ?_⟩
  obtain ⟨item, hi, hc'⟩ := hv r c hr hc
  refine ⟨item, hi, ?_⟩
  have hw' : w.fdiv 2 = 0 := by rcases hw with rfl | rfl <;> rfl
  have key : ∀ e ∈ [e50, e75, e90], (e.at' r c = .nan ∨ ∃ x, e.at' r c = .fin x) → (madFilter A e w th).at' r c = e.at' r c := fun e he hf =>
    madCell_single hw' (by rw [(hs e he).1]; exact hr) (by rw [(hs e he).2]; exact hc) hf
  have hf : ∀ e ∈ [e50, e75, e90], e.at' r c = .nan ∨ ∃ x, e.at' r c = .fin x := by
    intro e he
    simp only [List.mem_cons, List.not_mem_nil, or_false] at he
    rcases hc' with ⟨-, h1, h2, h3⟩ | ⟨_, _, _, a, b, c', -, -, -, h1, h2, h3, -⟩
    · rcases he with rfl | rfl | rfl
      · exact Or.inl h1
      · exact Or.inl h2
      · exact Or.inl h3
    · rcases he with rfl | rfl | rfl
      · exact Or.inr ⟨_, h1⟩
      · exact Or.inr ⟨_, h2⟩
      · exact Or.inr ⟨_, h3⟩
  rw [key e50 (by simp) (hf _ (by simp)), key e75 (by simp) (hf _ (by simp)), key e90 (by simp) (hf _ (by simp))]
  exact hc'

/-- C59 after filtering (exact arithmetic): a value of a returned map is NaN iff its chunk has too few times. Else it is in any range that contains all non-zero
times, divided by `td`, of the chunks in the window. -/
theorem C59_filtered {kde : List (Fl K) → Except PyErr (Fl K → Fl K)} {data : List (Option (List (Fl K)))} (hd : GoodData Arith.exact kde data) {R C res : Nat}
    (hres : 0 < res) (hl : data.length = R / res * (C / res)) {td : K} (htd : 0 < td) {w : Int} (hw : 0 ≤ w) {th : K} (hth : 1 ≤ th) :
    ∃ m50 m75 m90 : Grid (Fl K), computeThresholds Arith.exact kde data (R, C) td res w (.fin th) = .ok (m50, m75, m90) ∧
      ∀ m ∈ [m50, m75, m90], ∀ r c, r < R / res → c < C / res → ∃ item, data[r * (C / res) + c]? = some item ∧
        (m.at' r c = .nan ↔ ¬ ManyTimes item) ∧
        (ManyTimes item → ∃ v, m.at' r c = .fin v ∧ ∀ lo hi, (∀ a b l x, InFilterWindow w r c a b → b < C / res → data[a * (C / res) + b]? = some (some l) →
          .fin x ∈ l → x ≠ 0 → lo ≤ x / td ∧ x / td ≤ hi) → lo ≤ v ∧ v ≤ hi) := by
  obtain ⟨e50, e75, e90, h, hs, hv⟩ := C59_maps (A := Arith.exact) hd hres hl htd (w := w) (th := .fin th) (ε := 0) (by norm_num)
    (fun x => by simp [Arith.exact])
  refine ⟨_, _, _, h, ?_⟩
  suffices H : ∀ e ∈ [e50, e75, e90], ∀ r c, r < R / res → c < C / res → ∃ item, data[r * (C / res) + c]? = some item ∧
        ((madFilter Arith.exact e w (.fin th)).at' r c = .nan ↔ ¬ ManyTimes item) ∧
        (ManyTimes item → ∃ v, (madFilter Arith.exact e w (.fin th)).at' r c = .fin v ∧ ∀ lo hi, (∀ a b l x, InFilterWindow w r c a b → b < C / res →
          data[a * (C / res) + b]? = some (some l) → .fin x ∈ l → x ≠ 0 → lo ≤ x / td ∧ x / td ≤ hi) → lo ≤ v ∧ v ≤ hi) by
    intro m hm
    simp only [List.mem_cons, List.not_mem_nil, or_false] at hm
    rcases hm with rfl | rfl | rfl
    · exact H e50 (by simp)
    · exact H e75 (by simp)
    · exact H e90 (by simp)
  intro e he
  have hval : ∀ r c, r < R / res → c < C / res → ∃ item, data[r * (C / res) + c]? = some item ∧
      ((¬ ManyTimes item ∧ e.at' r c = .nan) ∨ ∃ l lo hi v, item = some l ∧ ManyTimes item ∧ NonzeroRange l lo hi ∧ e.at' r c = .fin v ∧
        lo / td ≤ v ∧ v ≤ hi / td) := by
    intro r c hr hc
    obtain ⟨item, h1, h2⟩ := hv r c hr hc
    refine ⟨item, h1, ?_⟩
    simp only [List.mem_cons, List.not_mem_nil, or_false] at he
    rcases h2 with ⟨q, h1, h2, h3⟩ | ⟨l, lo, hi, a, b, c', q1, q2, q3, h1, h2, h3, o1, o2, o3, o4⟩
    · refine Or.inl ⟨q, ?_⟩
      rcases he with rfl | rfl | rfl
      · exact h1
      · exact h2
      · exact h3
    · right
      change lo / td ≤ a at o1
      change c' ≤ hi / td at o4
      rcases he with rfl | rfl | rfl
      · exact ⟨l, lo, hi, a, q1, q2, q3, h1, o1, (o2.trans o3).trans o4⟩
      · exact ⟨l, lo, hi, b, q1, q2, q3, h2, o1.trans o2, o3.trans o4⟩
      · exact ⟨l, lo, hi, c', q1, q2, q3, h3, (o1.trans o2).trans o3, o4⟩
  obtain ⟨hR, hC⟩ := hs e he
  have hfm : FloatMap Arith.exact e := by
    intro a b ha hb
    obtain ⟨_, -, ⟨-, h⟩ | ⟨_, _, _, v, -, -, -, h, -⟩⟩ := hval a b (by omega) (by omega)
    · exact Or.inl h
    · exact Or.inr ⟨v, h, rfl⟩
  intro r c hr hc
  obtain ⟨item, hi, hcase⟩ := hval r c hr hc
  have hnan := (C60_nan exact_binary hfm hw hth).2.2 r c (by omega) (by omega)
  refine ⟨item, hi, ?_, fun hm => ?_⟩
  · rw [hnan]
    rcases hcase with ⟨h1, h2⟩ | ⟨_, _, _, v, -, h1, -, h2, -⟩
    · exact iff_of_true h2 h1
    · exact iff_of_false (by rw [h2]; simp) (not_not.2 h1)
  · have hne : e.at' r c ≠ .nan := by
      rcases hcase with ⟨h1, h2⟩ | ⟨_, _, _, v, -, h1, -, h2, -⟩
      · exact absurd hm h1
      · rw [h2]; simp
    obtain ⟨v, hv1, hv2⟩ := C60_range hfm hw hth (i := r) (j := c) (by omega) (by omega) hne
    refine ⟨v, hv1, fun lo hi' hb => hv2 lo hi' fun a b y ha hb' hwin hy => ?_⟩
    obtain ⟨it, h1, ⟨-, h2⟩ | ⟨l, lo', hi2, v', rfl, -, hr', h2, o1, o2⟩⟩ := hval a b (by omega) (by omega)
    · rw [h2] at hy; cases hy
    · rw [h2] at hy
      cases hy
      exact ⟨(hb a b l lo' hwin (by omega) h1 hr'.1.1 hr'.1.2).1.trans o1, o2.trans (hb a b l hi2 hwin (by omega) h1 hr'.2.1.1 hr'.2.1.2).2⟩

/-! ## Cases -/

/-- Medians and 75 % values of five chunks in a row. -/
def rowE50 : Grid (Fl ℚ) := ⟨1, 5, fun _ j => .fin ([6, 6, 10, 10, 10].getD j 0)⟩

def rowE75 : Grid (Fl ℚ) := ⟨1, 5, fun _ j => .fin ([7, 7, 101 / 10, 11, 12].getD j 0)⟩

/-- The order does not survive the filter (default window and threshold): every median is below the 75 % value, but not in the filtered maps. -/
theorem C59_filter_counterexample : (∀ j < 5, Fl.lt (rowE50.at' 0 j) (rowE75.at' 0 j) = true) ∧
    (madFilter Arith.exact rowE50 5 (.fin 3)).at' 0 2 = .fin 10 ∧ (madFilter Arith.exact rowE75 5 (.fin 3)).at' 0 2 = .fin (471 / 50) := by decide +kernel

theorem fiveTimes_float : FloatTimes Arith.exact fiveTimes := fun t ht => by
  simp only [fiveTimes, List.mem_cons, List.not_mem_nil, or_false] at ht
  rcases ht with rfl | rfl | rfl | rfl | rfl | rfl <;> exact ⟨_, rfl, rfl⟩

theorem twoChunks_good : GoodData Arith.exact flatKde [some fiveTimes, none] := by
  intro l hl
  simp only [List.mem_cons, Option.some.injEq, reduceCtorEq, List.not_mem_nil, or_false] at hl
  subst hl
  exact ⟨fiveTimes_float, fun _ => ⟨_, rfl, fun _ => ⟨1, rfl, by norm_num, rfl⟩, fun _ _ d hd => by cases hd; norm_num⟩⟩

theorem fiveTimes_many : ManyTimes (some fiveTimes) := (many_iff fiveTimes_float).2 (by decide +kernel)

example : ∃ m50 m75 m90 : Grid (Fl ℚ), computeThresholds Arith.exact flatKde [some fiveTimes, none] (3, 5) 2 2 1 (.fin 3) = .ok (m50, m75, m90) ∧
    ∃ a b c : ℚ, m50.at' 0 0 = .fin a ∧ m75.at' 0 0 = .fin b ∧ m90.at' 0 0 = .fin c ∧ a ≤ b ∧ b ≤ c ∧ m50.at' 0 1 = .nan := by
  obtain ⟨m50, m75, m90, h, hv⟩ := C59_unfiltered (A := Arith.exact) twoChunks_good (R := 3) (C := 5) (res := 2) (by norm_num) rfl (td := 2) (by norm_num)
    (w := 1) (Or.inr rfl) (th := .fin 3) (ε := 0) (by norm_num) (fun x => by simp [Arith.exact])
  refine ⟨m50, m75, m90, h, ?_⟩
  obtain ⟨i0, g0, v0⟩ := hv 0 0 (by norm_num) (by norm_num)
  obtain ⟨i1, g1, v1⟩ := hv 0 1 (by norm_num) (by norm_num)
  cases g0
  cases g1
  have hn : ¬ ManyTimes (none : Option (List (Fl ℚ))) := fun ⟨_, h, _⟩ => by cases h
  rcases v0 with ⟨h0, -⟩ | ⟨_, _, _, a, b, c, -, -, -, h1, h2, h3, -, o1, o2, -⟩
  · exact absurd fiveTimes_many h0
  rcases v1 with ⟨-, h4, -⟩ | ⟨_, _, _, _, _, _, -, h4, -⟩
  · exact ⟨a, b, c, h1, h2, h3, o1, o2, h4⟩
  · exact absurd h4 hn

example : ∃ m50 m75 m90 : Grid (Fl ℚ), computeThresholds Arith.exact flatKde [some fiveTimes, none] (3, 5) 2 2 5 (.fin 3) = .ok (m50, m75, m90) ∧
    ∃ v, m75.at' 0 0 = .fin v ∧ 1 / 2 ≤ v ∧ v ≤ 5 / 2 := by
  obtain ⟨m50, m75, m90, h, hv⟩ := C59_filtered twoChunks_good (R := 3) (C := 5) (res := 2) (by norm_num) rfl (td := 2) (by norm_num)
    (w := 5) (by norm_num) (th := 3) (by norm_num)
  refine ⟨m50, m75, m90, h, ?_⟩
  obtain ⟨i0, g0, -, v0⟩ := hv m75 (by simp) 0 0 (by norm_num) (by norm_num)
  cases g0
  obtain ⟨v, h1, h2⟩ := v0 fiveTimes_many
  refine ⟨v, h1, h2 _ _ fun a b l x _ hb hl hx h0 => ?_⟩
  have : a * (5 / 2) + b = 0 ∨ a * (5 / 2) + b = 1 ∨ 2 ≤ a * (5 / 2) + b := by omega
  rcases this with e | e | e
  · rw [e] at hl
    cases hl
    simp only [fiveTimes, List.mem_cons, Fl.fin.injEq, List.not_mem_nil, or_false] at hx
    rcases hx with rfl | rfl | rfl | rfl | rfl | rfl <;> first | exact absurd rfl h0 | norm_num
  · rw [e] at hl
    cases hl
  · rw [List.getElem?_eq_none (by simpa using e)] at hl
    cases hl

end Dorado
