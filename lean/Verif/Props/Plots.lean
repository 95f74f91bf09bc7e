import Verif.Lemmas.Plots
import Verif.Lemmas.Init
import Verif.Lemmas.Records
import Verif.Lemmas.Routines
import Verif.Spec.Demo

/-! # C71, C72: drawing functions -/

set_option linter.unusedSectionVars false

namespace Dorado

variable {K : Type} [Field K] [LinearOrder K] [IsStrictOrderedRing K] [FloorRing K] {A : Arith K} {F : Fun K A}

theorem pointsOf_length {wd : WalkData K} (hw : SameRecords wd) {j : Nat} (hj : j < wd.xinds.length) :
    (pointsOf wd j).length = recordsOf wd j := by
  have hj' : j < wd.yinds.length := by rw [hw.1]; exact hj
  have := hw.2 j _ _ (List.getElem?_eq_getElem hj) (List.getElem?_eq_getElem hj')
  unfold pointsOf recordsOf
  rw [getD_get _ hj, getD_get _ hj', List.getElem?_eq_getElem hj, List.length_zip, this]
  simp

theorem pointsOf_at {wd : WalkData K} (hw : SameRecords wd) {j k : Nat} {p : Int × Int} (hj : j < wd.xinds.length)
    (h : (pointsOf wd j)[k]? = some p) : PointAt wd j k p := by
  have hj' : j < wd.yinds.length := by rw [hw.1]; exact hj
  refine ⟨_, _, List.getElem?_eq_getElem hj, List.getElem?_eq_getElem hj', ?_⟩
  unfold pointsOf at h
  rw [getD_get _ hj, getD_get _ hj', List.getElem?_zip_eq_some] at h
  exact ⟨h.2, h.1⟩

theorem tailSeg_spec {wd : WalkData K} (hw : SameRecords wd) {v q m j : Nat} (hv : 0 < v) (hj : j < wd.xinds.length)
    (hl : (q + 1) * v ≤ recordsOf wd j) : TailSegment wd v j q m (tailSeg (pointsOf wd j) v q m) := by
  have hlen := pointsOf_length hw hj
  unfold TailSegment tailSeg
  by_cases hq : q = 0
  · rw [if_pos hq, if_pos hq]
    refine ⟨by rw [List.length_take, hlen], fun k p hk => pointsOf_at hw hj ?_⟩
    rw [List.getElem?_take] at hk
    split at hk
    · exact hk
    · cases hk
  · rw [if_neg hq, if_neg hq]
    set d := min m (q - 1) with hd
    obtain ⟨e, he⟩ : ∃ e, q - d = e + 1 := ⟨q - d - 1, by omega⟩
    have he' : q + 1 - d = e + 1 + 1 := by omega
    have h1 : 1 ≤ (e + 1) * v := Nat.mul_pos (by omega) hv
    have h2 : (e + 1 + 1) * v = (e + 1) * v + v := by ring
    have h3 : (e + 1 + 1) * v ≤ (q + 1) * v := Nat.mul_le_mul_right _ (by omega)
    rw [he, he']
    have ha : (e + 1) * v - 1 < (pointsOf wd j).length := by omega
    have hb : (e + 1 + 1) * v - 1 < (pointsOf wd j).length := by omega
    refine ⟨(e + 1) * v - 1, (e + 1 + 1) * v - 1, _, _, rfl, by omega, by omega, pointsOf_at hw hj ?_, pointsOf_at hw hj ?_⟩
    · rw [getD_get _ ha, List.getElem?_eq_getElem ha]
    · rw [getD_get _ hb, List.getElem?_eq_getElem hb]

theorem range_get {n i j : Nat} (h : (List.range n)[i]? = some j) : i < n ∧ i = j := by
  rw [List.getElem?_eq_some_iff] at h
  obtain ⟨hi, h⟩ := h
  exact ⟨by simpa using hi, by simpa using h⟩

/-- Inversion of `snake_plots`. -/
theorem snakePlots_inv {wd : WalkData K} (hw : wd.yinds.length = wd.xinds.length) {v T : Nat} (hv : 0 < v) {N : Int} {c0 c1 : List (Fl K)}
    {figs : List SnakeFig} {colors : List (List (Fl K))} (h : snakePlots A wd N v T c0 c1 = .ok (figs, colors)) :
    snakeColors A c0 c1 T = .ok colors ∧ figs.length ≤ (N - 1).toNat ∧ (figs.length < (N - 1).toNat → snakePaths wd v T figs.length = []) ∧
      ∀ (q : Nat) fig, figs[q]? = some fig → fig = ⟨(((q + 1) * v : Nat) : Int), snakePaths wd v T q⟩ ∧ fig.paths ≠ [] := by
  unfold snakePlots at h
  rw [if_neg (by omega), Int.toNat_natCast] at h
  cases hc : snakeColors A c0 c1 T with
  | error e => rw [hc] at h; cases h
  | ok colors' =>
    rw [hc, pyRange_figs v hv] at h
    simp only [bind, Except.bind] at h
    obtain ⟨figs', h1, h2, h3, h4⟩ := snakeFigs_eq hw hv (T := T) (N - 1).toNat 0
    rw [← List.range_eq_range'] at h1
    rw [h1] at h
    simp only [pure, Except.pure, Except.ok.injEq, Prod.mk.injEq] at h
    obtain ⟨rfl, rfl⟩ := h
    refine ⟨rfl, h2, fun h => by simpa using h3 h, fun q fig hq => by simpa using h4 q fig hq⟩

/-! ## C71

Full claim: "... `num_steps` figures ..., and the figure titled `Iteration ii` shows the position after `ii` iterations". False:
`C71_count_counterexample`, `C71_head_counterexample`. -/

/-- `snake_plots` succeeds on all walk data with one column index per row index. -/
theorem C71_succeeds {wd : WalkData K} (hw : SameRecords wd) {v T : Nat} (hv : 0 < v) (N : Int) {c0 c1 : List (Fl K)} (h0 : 4 ≤ c0.length)
    (h1 : 4 ≤ c1.length) : ∃ figs colors, snakePlots A wd N v T c0 c1 = .ok (figs, colors) := by
  unfold snakePlots
  rw [if_neg (by omega), Int.toNat_natCast]
  have hc : ∃ cs, snakeColors A c0 c1 T = .ok cs := by
    unfold snakeColors
    rw [mapE_ok (g := fun c => (c0.getD c .nan, c1.getD c .nan)) (l := List.range 4) fun c hc => ?_]
    · exact ⟨_, rfl⟩
    · have := List.mem_range.1 hc
      have a0 : c < c0.length := by omega
      have a1 : c < c1.length := by omega
      unfold listGet
      rw [List.getElem?_eq_getElem a0, List.getElem?_eq_getElem a1, getD_get _ a0, getD_get _ a1]
      rfl
  obtain ⟨cs, hc⟩ := hc
  rw [hc, pyRange_figs v hv]
  simp only [bind, Except.bind]
  obtain ⟨figs, h1, -⟩ := snakeFigs_eq hw.1 hv (T := T) (N - 1).toNat 0
  rw [← List.range_eq_range'] at h1
  rw [h1]
  exact ⟨_, _, rfl⟩

/-- Which figures there are. Full claim: `num_steps` of them; there is one less. -/
theorem C71_count_partial {wd : WalkData K} (hw : SameRecords wd) {v T : Nat} (hv : 0 < v) (hT : 0 < T) {N : Int} {c0 c1 : List (Fl K)}
    {figs : List SnakeFig} {colors : List (List (Fl K))} (h : snakePlots A wd N v T c0 c1 = .ok (figs, colors)) (q : Nat) :
    q < figs.length ↔ (q : Int) + 1 < N ∧ ∃ j < wd.xinds.length, (q + 1) * v ≤ recordsOf wd j := by
  obtain ⟨-, h2, h3, h4⟩ := snakePlots_inv hw.1 hv h
  have hne : ∀ q, snakePaths wd v T q ≠ [] ↔ ∃ j < wd.xinds.length, (q + 1) * v ≤ recordsOf wd j := by
    intro q
    unfold snakePaths
    rw [ne_eq, List.flatMap_eq_nil_iff]
    push Not
    constructor
    · rintro ⟨j, hj, hb⟩
      rw [List.mem_range] at hj
      refine ⟨j, hj, ?_⟩
      rw [← pointsOf_length hw hj]
      by_contra hlt
      unfold snakeBlock at hb
      rw [if_pos (not_le.1 hlt)] at hb
      exact hb rfl
    · rintro ⟨j, hj, hb⟩
      refine ⟨j, List.mem_range.2 hj, ?_⟩
      unfold snakeBlock
      rw [if_neg (by rw [pointsOf_length hw hj]; omega)]
      intro hn
      have := congrArg List.length hn
      simp at this
      omega
  rw [← hne]
  constructor
  · intro hq
    have := h4 q _ (List.getElem?_eq_getElem hq)
    refine ⟨by omega, ?_⟩
    have h5 := this.2
    rwa [this.1] at h5
  · rintro ⟨hN, hp⟩
    by_contra hq
    rw [not_lt] at hq
    have hlt : figs.length < (N - 1).toNat := by omega
    have hp' := (hne q).1 hp
    have : snakePaths wd v T figs.length ≠ [] := by
      rw [hne]
      obtain ⟨j, hj, hl⟩ := hp'
      exact ⟨j, hj, (Nat.mul_le_mul_right _ (by omega)).trans hl⟩
    exact this (h3 hlt)

/-- What is drawn: figure `q` is numbered `(q+1)*interval`; it shows, particle after particle, a tail of `tail_length` segments of every particle
with that many records, and nothing else. -/
theorem C71_tails {wd : WalkData K} (hw : SameRecords wd) {v T : Nat} (hv : 0 < v) {N : Int} {c0 c1 : List (Fl K)}
    {figs : List SnakeFig} {colors : List (List (Fl K))} (h : snakePlots A wd N v T c0 c1 = .ok (figs, colors)) {q : Nat} {fig : SnakeFig}
    (hq : figs[q]? = some fig) :
    fig.iter = (((q + 1) * v : Nat) : Int) ∧ ∃ blocks : List (List (List (Int × Int))), fig.paths = blocks.flatten ∧
      blocks.length = wd.xinds.length ∧ ∀ (j : Nat) blk, blocks[j]? = some blk →
        (recordsOf wd j < (q + 1) * v → blk = []) ∧
        ((q + 1) * v ≤ recordsOf wd j → blk.length = T ∧ ∀ (m : Nat) seg, blk[m]? = some seg → TailSegment wd v j q m seg) := by
  obtain ⟨-, -, -, h4⟩ := snakePlots_inv hw.1 hv h
  obtain ⟨rfl, -⟩ := h4 q fig hq
  refine ⟨rfl, (List.range wd.xinds.length).map (snakeBlock wd v T q), rfl, by simp, fun j blk hb => ?_⟩
  rw [List.getElem?_map, Option.map_eq_some_iff] at hb
  obtain ⟨j', hj', rfl⟩ := hb
  obtain ⟨hj, rfl⟩ := range_get hj'
  unfold snakeBlock
  rw [pointsOf_length hw hj]
  constructor
  · intro hlt; rw [if_pos hlt]
  · intro hle
    rw [if_neg (by omega)]
    refine ⟨by simp, fun m seg hm => ?_⟩
    rw [List.getElem?_map, Option.map_eq_some_iff] at hm
    obtain ⟨m', hm', rfl⟩ := hm
    obtain ⟨-, rfl⟩ := range_get hm'
    exact tailSeg_spec hw hv hj hle

/-- Blocks of length zero or `T` put end to end: entry `i` is entry `i % T` of its block. -/
theorem flatten_blocks {α : Type} {T : Nat} {bs : List (List α)} (hb : ∀ b ∈ bs, b = [] ∨ b.length = T) {i : Nat} {x : α}
    (h : bs.flatten[i]? = some x) : ∃ (j : Nat) (b : List α), bs[j]? = some b ∧ b[i % T]? = some x := by
  induction bs generalizing i with
  | nil => simp at h
  | cons b bs ih =>
    rw [List.flatten_cons, List.getElem?_append] at h
    split at h
    · rename_i hi
      rcases hb b (by simp) with rfl | hl
      · simp at hi
      · exact ⟨0, b, rfl, by rw [Nat.mod_eq_of_lt (by omega)]; exact h⟩
    · rename_i hi
      obtain ⟨j, b', h1, h2⟩ := ih (fun b hb' => hb b (by simp [hb'])) h
      refine ⟨j + 1, b', h1, ?_⟩
      rcases hb b (by simp) with rfl | hl
      · simpa using h2
      · rw [hl] at h2 hi
        rw [Nat.mod_eq_sub_mod (by omega)]
        exact h2

/-- Which colour a segment gets: matplotlib uses colour `i % tail_length` for segment `i`, and that segment is segment `i % tail_length` of the tail of
some particle. So one colour marks one age in all figures. -/
theorem C71_colour_is_age {wd : WalkData K} (hw : SameRecords wd) {v T : Nat} (hv : 0 < v) {N : Int} {c0 c1 : List (Fl K)}
    {figs : List SnakeFig} {colors : List (List (Fl K))} (h : snakePlots A wd N v T c0 c1 = .ok (figs, colors)) {q : Nat} {fig : SnakeFig}
    (hq : figs[q]? = some fig) {i : Nat} {seg : List (Int × Int)} (hi : fig.paths[i]? = some seg) :
    (∃ c, colors[i % T]? = some c) ∧ ∃ j < wd.xinds.length, (q + 1) * v ≤ recordsOf wd j ∧ TailSegment wd v j q (i % T) seg := by
  obtain ⟨-, blocks, h1, h2, h3⟩ := C71_tails hw hv h hq
  rw [h1] at hi
  obtain ⟨j, b, hb, hs⟩ := flatten_blocks (T := T) (fun b hb => by
    obtain ⟨j, hj⟩ := List.getElem?_of_mem hb
    rcases lt_or_ge (recordsOf wd j) ((q + 1) * v) with hl | hl
    · exact .inl ((h3 j b hj).1 hl)
    · exact .inr ((h3 j b hj).2 hl).1) hi
  have hj : j < wd.xinds.length := by
    rw [← h2]; exact (List.getElem?_eq_some_iff.1 hb).1
  rcases lt_or_ge (recordsOf wd j) ((q + 1) * v) with hl | hl
  · rw [(h3 j b hb).1 hl] at hs; simp at hs
  · obtain ⟨hT, hseg⟩ := (h3 j b hb).2 hl
    refine ⟨?_, j, hj, hl, hseg _ _ hs⟩
    have hlt : i % T < T := (List.getElem?_eq_some_iff.1 hs).1.trans_le hT.le
    obtain ⟨hc, -⟩ := snakePlots_inv hw.1 hv h
    have hlen : colors.length = T := by
      unfold snakeColors at hc
      obtain ⟨cols, -, hc⟩ := bind_ok.1 hc
      simp only [pure, Except.pure, Except.ok.injEq] at hc
      rw [← hc]; simp
    exact ⟨_, List.getElem?_eq_getElem (by rw [hlen]; exact hlt)⟩

/-- The colours run evenly from `rgba_start` for the newest segment to `rgba_end` for the oldest (exact arithmetic). -/
theorem C71_colours {wd : WalkData K} (hw : SameRecords wd) {v T : Nat} (hv : 0 < v) {N : Int} {x0 x1 : Fin 4 → K}
    {figs : List SnakeFig} {colors : List (List (Fl K))}
    (h : snakePlots Arith.exact wd N v T ((List.ofFn x0).map .fin) ((List.ofFn x1).map .fin) = .ok (figs, colors)) :
    colors.length = T ∧ ∀ (m : Nat) c, colors[m]? = some c →
      c = List.ofFn fun k : Fin 4 => .fin (x0 k + (m : K) / ((T - 1 : Nat) : K) * (x1 k - x0 k)) := by
  obtain ⟨hc, -⟩ := snakePlots_inv hw.1 hv h
  have e : snakeColors Arith.exact ((List.ofFn x0).map .fin) ((List.ofFn x1).map .fin) T =
      .ok ((List.range T).map fun k => List.ofFn fun c : Fin 4 => linspaceElem Arith.exact (.fin (x0 c)) (.fin (x1 c)) T k) := by
    simp [snakeColors, List.ofFn_succ, List.range_succ, mapE, listGet, bind, Except.bind, pure, Except.pure]
  rw [e] at hc
  injection hc with hc
  subst hc
  refine ⟨by simp, fun m c hm => ?_⟩
  rw [List.getElem?_map, Option.map_eq_some_iff] at hm
  obtain ⟨m', hm', rfl⟩ := hm
  obtain ⟨hlt, rfl⟩ := range_get hm'
  congr 1
  funext k
  unfold linspaceElem
  by_cases hT : T = 1
  · subst hT
    have : m = 0 := by omega
    subst this
    simp
  · have hne : ((T - 1 : Nat) : K) ≠ 0 := by
      rw [Nat.cast_ne_zero]; omega
    by_cases hl : m + 1 = T ∧ 1 < T
    · rw [if_pos hl, show T - 1 = m by omega, div_self]
      · congr 1; ring
      · rw [show m = T - 1 by omega]; exact hne
    · rw [if_neg hl, if_neg hT]
      have e1 : (Arith.exact : Arith K).sub (.fin (x1 k)) (.fin (x0 k)) = .fin (x1 k - x0 k) := by
        rw [sub_eq_add_neg]; rfl
      have e2 : (Arith.exact : Arith K).div (.fin (x1 k - x0 k)) (.fin ((T - 1 : Nat) : K)) = .fin ((x1 k - x0 k) / ((T - 1 : Nat) : K)) := by
        show (if ((T - 1 : Nat) : K) = 0 then _ else _) = _
        rw [if_neg hne]; rfl
      show (Arith.exact : Arith K).add ((Arith.exact : Arith K).mul (.fin (m : K)) ((Arith.exact : Arith K).div
        ((Arith.exact : Arith K).sub (.fin (x1 k)) (.fin (x0 k))) (.fin ((T - 1 : Nat) : K)))) (.fin (x0 k)) = _
      rw [e1, e2]
      show Fl.fin ((m : K) * ((x1 k - x0 k) / ((T - 1 : Nat) : K)) + x0 k) = _
      congr 1
      ring

/-- Where the tails begin: from the second figure on, the newest point of the figure numbered `ii` is record `ii-1`, one step behind the title;
the full claim says record `ii`. -/
theorem C71_head_partial {wd : WalkData K} (hw : SameRecords wd) {v T : Nat} (hv : 0 < v) (hT : 0 < T) {N : Int} {c0 c1 : List (Fl K)}
    {figs : List SnakeFig} {colors : List (List (Fl K))} (h : snakePlots A wd N v T c0 c1 = .ok (figs, colors)) {q : Nat} (hq0 : 0 < q)
    {fig : SnakeFig} (hq : figs[q]? = some fig) {j : Nat} (hj : j < wd.xinds.length) (hl : fig.iter ≤ recordsOf wd j) :
    ∃ p seg pa, PointAt wd j (fig.iter.toNat - 1) p ∧ seg ∈ fig.paths ∧ seg = [pa, p] := by
  obtain ⟨hit, blocks, h1, h2, h3⟩ := C71_tails hw hv h hq
  rw [hit] at hl ⊢
  have hl' : (q + 1) * v ≤ recordsOf wd j := by exact_mod_cast hl
  have hjb : j < blocks.length := by omega
  have hb := List.getElem?_eq_getElem hjb
  obtain ⟨hT', hseg⟩ := (h3 j _ hb).2 hl'
  have h0 : 0 < blocks[j].length := by omega
  have := hseg 0 _ (List.getElem?_eq_getElem h0)
  unfold TailSegment at this
  rw [if_neg (by omega)] at this
  obtain ⟨a, b, pa, pb, hs, -, hbv, -, hpb⟩ := this
  refine ⟨pb, _, pa, ?_, ?_, hs⟩
  · rw [Int.toNat_natCast, ← Nat.sub_zero (q + 1)]
    rw [Nat.zero_min] at hbv
    rwa [← hbv, Nat.add_sub_cancel]
  · rw [h1, List.mem_flatten]
    exact ⟨_, List.getElem_mem hjb, List.getElem_mem h0⟩

/-- No figure shows a point recorded at or after the iteration in its title, except that the first figure with `interval = 1` shows record 1. -/
theorem C71_past {wd : WalkData K} (hw : SameRecords wd) {v T : Nat} (hv : 0 < v) {N : Int} {c0 c1 : List (Fl K)}
    {figs : List SnakeFig} {colors : List (List (Fl K))} (h : snakePlots A wd N v T c0 c1 = .ok (figs, colors)) {q : Nat}
    {fig : SnakeFig} (hq : figs[q]? = some fig) {seg : List (Int × Int)} (hs : seg ∈ fig.paths) {p : Int × Int} (hp : p ∈ seg) :
    ∃ j < wd.xinds.length, ∃ k : Nat, PointAt wd j k p ∧ (k : Int) ≤ fig.iter ∧ (1 < fig.iter → (k : Int) < fig.iter) := by
  obtain ⟨i, hi⟩ := List.getElem?_of_mem hs
  obtain ⟨-, j, hj, hl, hseg⟩ := C71_colour_is_age hw hv h hq hi
  obtain ⟨hit, -⟩ := C71_tails hw hv h hq
  refine ⟨j, hj, ?_⟩
  have hqv : 1 ≤ (q + 1) * v := Nat.mul_pos (by omega) hv
  rw [hit]
  unfold TailSegment at hseg
  split at hseg
  · rename_i hq0
    obtain ⟨k, hk⟩ := List.getElem?_of_mem hp
    have hk2 := (List.getElem?_eq_some_iff.1 hk).1
    have : k < 2 := by have := hseg.1; omega
    exact ⟨k, hseg.2 k p hk, by omega, by omega⟩
  · obtain ⟨a, b, pa, pb, rfl, hab, hb, ha', hb'⟩ := hseg
    have hle : (q + 1 - min (i % T) (q - 1)) * v ≤ (q + 1) * v := Nat.mul_le_mul_right _ (by omega)
    rcases List.mem_cons.1 hp with rfl | hp
    · exact ⟨a, ha', by omega, by omega⟩
    · rw [List.mem_singleton] at hp
      subst hp
      exact ⟨b, hb', by omega, by omega⟩

/-! ## C72 -/

theorem pyIdx_numbered {np : Nat} {i : Int} {j : Nat} : pyIdx np i = .ok j ↔ Numbered np i j := by
  unfold pyIdx Numbered
  split
  · rename_i h
    simp only [Except.ok.injEq]
    omega
  · split
    · simp only [Except.ok.injEq]
      omega
    · simp only [reduceCtorEq, false_iff]
      omega

theorem travelPath_ok {wd : WalkData K} (hw : wd.yinds.length = wd.xinds.length) (ω : Nat → K) {v : Nat} (hv : 0 < v) (pos : Nat) {i : Int} {j : Nat}
    (hi : Numbered wd.xinds.length i j) : ∃ path, travelPath wd ω v pos i = .ok ((path, (ω pos, ω (pos + 1), ω (pos + 2))), pos + 3) ∧
      ∀ (k : Nat) p, path[k]? = some p ↔ PointAt wd j (k * v) p := by
  have hj := hi.1
  have hx := List.getElem?_eq_getElem hj
  have hj' : j < wd.yinds.length := by omega
  have hy := List.getElem?_eq_getElem hj'
  obtain ⟨x, hx1, hx2⟩ := slice_every wd.xinds[j] hv
  obtain ⟨y, hy1, hy2⟩ := slice_every wd.yinds[j] hv
  refine ⟨y.zip x, ?_, fun k p => ?_⟩
  · unfold travelPath
    rw [pyGet_at rfl (pyIdx_numbered.2 hi) hx, pyGet_at hw (pyIdx_numbered.2 hi) hy]
    simp only [bind, Except.bind, hx1, hy1]
    rfl
  · rw [List.getElem?_zip_eq_some, hx2, hy2]
    unfold PointAt
    rw [hx, hy]
    constructor
    · rintro ⟨h1, h2⟩
      exact ⟨_, _, rfl, rfl, h2, h1⟩
    · rintro ⟨xs, ys, hxs, hys, h1, h2⟩
      injection hxs with hxs
      injection hys with hys
      subst hxs hys
      exact ⟨h2, h1⟩

/-- `draw_travel_path` succeeds iff every number asked for is the number of a particle. -/
theorem C72_succeeds {wd : WalkData K} (hw : wd.yinds.length = wd.xinds.length) (ω : Nat → K) {v : Nat} (hv : 0 < v) (pos : Nat) (f : Follow) :
    (∃ r, drawTravelPath wd ω pos f v = .ok r) ↔ ∀ i ∈ f.list wd.xinds.length, ∃ j, Numbered wd.xinds.length i j := by
  unfold drawTravelPath
  generalize f.list wd.xinds.length = l
  constructor
  · rintro ⟨⟨r, pos'⟩, h⟩
    have := (mapAcc_inv (fun _ => True) (fun i _ => ∃ j, Numbered wd.xinds.length i j) (fun s i b s' _ hb => ⟨trivial, ?_⟩) trivial h).2
    · clear h
      induction this with
      | nil => simp
      | cons hab _ ih =>
        intro i hi
        rcases List.mem_cons.1 hi with rfl | hi
        · exact hab
        · exact ih i hi
    · unfold travelPath at hb
      obtain ⟨xs, hxs, -⟩ := bind_ok.1 hb
      unfold pyGet at hxs
      cases hp : pyIdx wd.xinds.length i with
      | error e => rw [hp] at hxs; cases hxs
      | ok j => exact ⟨j, pyIdx_numbered.1 hp⟩
  · intro h
    obtain ⟨r, s', hr⟩ := mapAcc_exists (f := travelPath wd ω v) (fun _ => True) (s := pos) (fun s _ i hi => by
      obtain ⟨j, hj⟩ := h i hi
      obtain ⟨path, hp, -⟩ := travelPath_ok hw ω hv s hj
      exact ⟨_, _, hp, trivial⟩) trivial
    exact ⟨_, hr⟩

/-- `'all'` always works, and means every particle once, in order. -/
theorem C72_all {wd : WalkData K} (hw : wd.yinds.length = wd.xinds.length) (ω : Nat → K) {v : Nat} (hv : 0 < v) (pos : Nat) :
    (∃ r, drawTravelPath wd ω pos .all v = .ok r) ∧
      drawTravelPath wd ω pos .all v = drawTravelPath wd ω pos (.ids ((List.range wd.xinds.length).map fun (i : Nat) => (i : Int))) v := by
  refine ⟨(C72_succeeds hw ω hv pos .all).2 fun i hi => ?_, rfl⟩
  unfold Follow.list at hi
  obtain ⟨j, hj, rfl⟩ := List.mem_map.1 hi
  exact ⟨j, List.mem_range.1 hj, .inl rfl⟩

/-- What is drawn: one path per particle asked for, in that order; its vertices are records 0, `interval`, 2·`interval`, ... of that particle. -/
theorem C72_paths {wd : WalkData K} (hw : wd.yinds.length = wd.xinds.length) (ω : Nat → K) {v : Nat} (hv : 0 < v) {pos pos' : Nat} {f : Follow}
    {r : List (List (Int × Int) × (K × K × K))} (h : drawTravelPath wd ω pos f v = .ok (r, pos')) :
    List.Forall₂ (fun i d => ∃ j, Numbered wd.xinds.length i j ∧ ∀ (k : Nat) p, d.1[k]? = some p ↔ PointAt wd j (k * v) p)
      (f.list wd.xinds.length) r := by
  refine (mapAcc_inv (fun _ => True) _ (fun s i b s' _ hb => ⟨trivial, ?_⟩) trivial h).2
  have hb' := hb
  unfold travelPath at hb'
  obtain ⟨xs, hxs, -⟩ := bind_ok.1 hb'
  unfold pyGet at hxs
  cases hp : pyIdx wd.xinds.length i with
  | error e => rw [hp] at hxs; cases hxs
  | ok j =>
    have hj := pyIdx_numbered.1 hp
    obtain ⟨path, h1, h2⟩ := travelPath_ok hw ω hv s hj
    rw [h1] at hb
    simp only [Except.ok.injEq, Prod.mk.injEq] at hb
    obtain ⟨rfl, -⟩ := hb
    exact ⟨j, hj, h2⟩

/-- What drawing leaves behind: nothing but a random generator moved on by three numbers per path. Full claim: drawing changes nothing. -/
theorem C72_effect_partial {wd : WalkData K} (ω : Nat → K) {v : Int} {pos pos' : Nat} {f : Follow}
    {r : List (List (Int × Int) × (K × K × K))} (h : drawTravelPath wd ω pos f v = .ok (r, pos')) :
    pos' = pos + 3 * (f.list wd.xinds.length).length := by
  unfold drawTravelPath at h
  generalize f.list wd.xinds.length = l at h
  induction l generalizing pos r with
  | nil => simp [mapAcc] at h; simp [h.2]
  | cons i l ih =>
    simp only [mapAcc] at h
    obtain ⟨⟨b, s1⟩, hb, h⟩ := bind_ok.1 h
    obtain ⟨⟨bs, s2⟩, hbs, h⟩ := bind_ok.1 h
    simp only [pure, Except.pure, Except.ok.injEq, Prod.mk.injEq] at h
    obtain ⟨-, rfl⟩ := h
    rw [ih hbs]
    unfold travelPath at hb
    obtain ⟨_, -, hb⟩ := bind_ok.1 hb
    obtain ⟨_, -, hb⟩ := bind_ok.1 hb
    obtain ⟨_, -, hb⟩ := bind_ok.1 hb
    obtain ⟨_, -, hb⟩ := bind_ok.1 hb
    simp only [pure, Except.pure, Except.ok.injEq, Prod.mk.injEq] at hb
    rw [← hb.2, List.length_cons]
    omega

/-! ## Walk data of an object -/

theorem reach_sameRecords {Ob : PObj K → Prop} {Ω : (Nat → K) → Prop} {Sd : PObj K → List Int → List Int → Fl K → Prop}
    (hOb : ∀ P, Ob P → Built A F P) {P : PObj K} {s : PState K} (h : Reach A F Ob Ω Sd P s) {wd : WalkData K} (hwd : s.walk = some wd) :
    SameRecords wd := by
  obtain ⟨rows, rfl, -, hr⟩ := Reach.walk (I := fun _ _ => True) (R := fun _ _ _ _ => True) (fun P hP => (hOb P hP).good)
    (fun _ _ _ _ _ _ _ _ _ _ => trivial) (fun _ _ _ _ _ _ _ _ _ _ _ => ⟨trivial, trivial⟩) h hwd
  refine ⟨by simp [ofRows], fun j xs ys hx hy => ?_⟩
  simp only [ofRows, List.getElem?_map, Option.map_eq_some_iff] at hx hy
  obtain ⟨r, hr1, rfl⟩ := hx
  obtain ⟨r', hr2, rfl⟩ := hy
  rw [hr1] at hr2
  injection hr2 with hr2
  subst hr2
  exact (hr r (List.mem_of_getElem? hr1)).aligned.1

/-- Both functions accept the walk data of an object after any history of calls. -/
theorem C71_reachable {Ob : PObj K → Prop} {Ω : (Nat → K) → Prop} {Sd : PObj K → List Int → List Int → Fl K → Prop}
    (hOb : ∀ P, Ob P → Built A F P) {P : PObj K} {s : PState K} (h : Reach A F Ob Ω Sd P s) {wd : WalkData K} (hwd : s.walk = some wd)
    {v T : Nat} (hv : 0 < v) (N : Int) {c0 c1 : List (Fl K)} (h0 : 4 ≤ c0.length) (h1 : 4 ≤ c1.length) (ω : Nat → K) :
    SameRecords wd ∧ (∃ figs colors, snakePlots A wd N v T c0 c1 = .ok (figs, colors)) ∧ ∃ r, drawTravelPath wd ω s.world.pos .all v = .ok r :=
  have hw := reach_sameRecords hOb h hwd
  ⟨hw, C71_succeeds hw hv N h0 h1, (C72_all hw.1 ω hv _).1⟩

/-! ## Concrete cases -/

/-- A walk of nine records along a row and one of three. -/
def snakeDemo : WalkData ℚ where
  xinds := [[5, 5, 5, 5, 5, 5, 5, 5, 5], [1, 2, 3]]
  yinds := [[0, 1, 2, 3, 4, 5, 6, 7, 8], [9, 9, 9]]
  times := [[.fin 0, .fin 1, .fin 2, .fin 3, .fin 4, .fin 5, .fin 6, .fin 7, .fin 8], [.fin 0, .fin 1, .fin 2]]
  opt := []

theorem snakeDemo_same : SameRecords snakeDemo := by
  refine ⟨rfl, fun j xs ys hx hy => ?_⟩
  match j with
  | 0 => cases hx; cases hy; rfl
  | 1 => cases hx; cases hy; rfl
  | n + 2 => simp [snakeDemo] at hx

def red : List (Fl ℚ) := [.fin 1, .fin (2 / 5), .fin (1 / 5), .fin 1]
def black : List (Fl ℚ) := [.fin (3 / 10), .fin (3 / 10), .fin (3 / 10), .fin (4 / 5)]

/-- C71: four figures and three colours; the tail of a fourth-figure particle is made of three segments. -/
example : (snakePlots Arith.exact snakeDemo 10 2 3 red black).toOption.map (fun r => (r.1.map fun f => (f.iter, f.paths))) = some
    [(2, [[(0, 5), (1, 5)], [(0, 5), (1, 5)], [(0, 5), (1, 5)], [(9, 1), (9, 2)], [(9, 1), (9, 2)], [(9, 1), (9, 2)]]),
     (4, [[(1, 5), (3, 5)], [(1, 5), (3, 5)], [(1, 5), (3, 5)]]),
     (6, [[(3, 5), (5, 5)], [(1, 5), (3, 5)], [(1, 5), (3, 5)]]),
     (8, [[(5, 5), (7, 5)], [(3, 5), (5, 5)], [(1, 5), (3, 5)]])] := by decide +kernel

example : ∃ figs colors, snakePlots Arith.exact snakeDemo 10 2 3 red black = .ok (figs, colors) :=
  C71_succeeds snakeDemo_same (by norm_num) 10 (by decide) (by decide)

example : ((List.ofFn ![(1 : ℚ), 2 / 5, 1 / 5, 1]).map .fin) = red := rfl

/-- Counterexample to the number of figures promised: `num_steps=3`, enough records, two figures. -/
theorem C71_count_counterexample : SameRecords snakeDemo ∧ recordsOf snakeDemo 0 = 9 ∧
    (snakePlots Arith.exact snakeDemo 3 2 3 red black).toOption.map (fun r => r.1.map (·.iter)) = some [2, 4] :=
  ⟨snakeDemo_same, by decide, by decide +kernel⟩

/-- Counterexample to the position promised: `Iteration 4` is drawn with record 1 as its newest point (first figure) or record 3 (later figures), while
after four iterations the particle is at column 4. -/
theorem C71_head_counterexample : PointAt snakeDemo 0 4 (4, 5) ∧
    (snakePlots Arith.exact snakeDemo 10 4 1 red black).toOption.map (fun r => r.1.map fun f => (f.iter, f.paths)) =
      some [(4, [[(0, 5), (1, 5)]]), (8, [[(3, 5), (7, 5)]])] ∧
    (snakePlots Arith.exact snakeDemo 3 2 1 red black).toOption.map (fun r => r.1.map fun f => (f.iter, f.paths)) =
      some [(2, [[(0, 5), (1, 5)], [(9, 1), (9, 2)]]), (4, [[(1, 5), (3, 5)]])] :=
  ⟨⟨_, _, rfl, rfl, rfl, rfl⟩, by decide +kernel, by decide +kernel⟩

/-- C72: the last particle and the first, every second and third record. -/
example : (drawTravelPath snakeDemo (fun _ => 1 / 2) 7 (.ids [-1, 0]) 3).toOption.map (fun r => (r.1.map (·.1), r.2)) =
    some ([[(9, 1)], [(0, 5), (3, 5), (6, 5)]], 13) := by decide +kernel

example : Numbered snakeDemo.xinds.length (-1) 1 := ⟨by decide, .inr rfl⟩

/-- C72: unknown particles and interval zero. -/
example : (drawTravelPath snakeDemo (fun _ => 1 / 2) 0 (.ids [2]) 1).toOption = none ∧
    (drawTravelPath snakeDemo (fun _ => 1 / 2) 0 .all 0).toOption = none := by decide +kernel

def splitDraws : Nat → ℚ := fun k => if k < 3 then 1 / 10 else 9 / 10

/-- Counterexample to "drawing changes nothing": the particle moves to column 2 if its path is not drawn before the iteration, to column 3 if it is. -/
theorem C72_counterexample : ∃ s wd r pos' out out', Reach Arith.exact Fun.toy (· = objOf chan) Draws AnySeed (objOf chan) s ∧ s.walk = some wd ∧
    drawTravelPath wd splitDraws s.world.pos .all 1 = .ok (r, pos') ∧
    runIteration Arith.exact Fun.toy (objOf chan) splitDraws s none 10 = .ok out ∧
    runIteration Arith.exact Fun.toy (objOf chan) splitDraws { s with world := { s.world with pos := pos' } } none 10 = .ok out' ∧
    out.returned.yinds = [[2, 2]] ∧ out'.returned.yinds = [[2, 3]] := by
  have hω : Draws splitDraws := fun k => by
    unfold splitDraws
    split <;> norm_num
  have key : ((demo chan splitDraws 1 [2] [2] []).toOption.bind fun s => s.walk.bind fun wd =>
      (drawTravelPath wd splitDraws s.world.pos .all 1).toOption.bind fun d =>
      (runIteration Arith.exact Fun.toy (objOf chan) splitDraws s none 10).toOption.bind fun out =>
      (runIteration Arith.exact Fun.toy (objOf chan) splitDraws { s with world := { s.world with pos := d.2 } } none 10).toOption.bind fun out' =>
      if out.returned.yinds = [[2, 2]] ∧ out'.returned.yinds = [[2, 3]] then some true else none) = some true := by decide +kernel
  obtain ⟨s, hs, h⟩ := demo_obs key
  obtain ⟨wd, hwd, h⟩ := Option.bind_eq_some_iff.1 h
  obtain ⟨⟨r, pos'⟩, hr, h⟩ := demo_obs h
  obtain ⟨out, ho, h⟩ := demo_obs h
  obtain ⟨out', ho', h⟩ := demo_obs h
  split at h
  · rename_i hy
    exact ⟨s, wd, r, pos', out, out', demo_reach hω trivial hs, hwd, hr, ho, ho', hy⟩
  · cases h

end Dorado
