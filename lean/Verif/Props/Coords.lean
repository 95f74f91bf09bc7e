import Verif.Lemmas.Float
import Verif.Spec.Demo

/-! # C37-C39: coordinate transforms -/

set_option linter.unusedSectionVars false

namespace Dorado

variable {K : Type} [Field K] [LinearOrder K] [IsStrictOrderedRing K] [FloorRing K] {A : Arith K}

/-! ## C37 -/

/-- The rounding has relative error at most `ε` (IEEE doubles: 2^-53). -/
def RelErr (A : Arith K) (ε : K) : Prop := ∀ x, |A.rnd x - x| ≤ ε * |x|

/-- Integers up to size `B` are exact (IEEE doubles: 2^53). -/
def ExactInts (A : Arith K) (B : Int) : Prop := ∀ n : Int, |n| ≤ B → A.rnd (n : K) = n

/-- Scaling by a cell size, shifting by an offset and going back loses less than half a cell. -/
theorem trip {ε cs o : K} {n : Int} (hA : RelErr A ε) (h0 : 0 ≤ ε) (h8 : ε ≤ 1 / 8) (hc : 0 < cs)
    (hb : 10 * ε * (|(n : K)| * cs + |o|) < cs) :
    |A.rnd (A.rnd (A.rnd (A.rnd (n * cs) + o) - o) / cs) - n| < 1 / 2 := by
  obtain ⟨a, ha⟩ : ∃ a, a = A.rnd (n * cs) := ⟨_, rfl⟩
  obtain ⟨b, hb'⟩ : ∃ b, b = A.rnd (a + o) := ⟨_, rfl⟩
  obtain ⟨c, hc'⟩ : ∃ c, c = A.rnd (b - o) := ⟨_, rfl⟩
  obtain ⟨d, hd⟩ : ∃ d, d = A.rnd (c / cs) := ⟨_, rfl⟩
  rw [← ha, ← hb', ← hc', ← hd]
  have ea := hA (n * cs)
  have eb := hA (a + o)
  have ec := hA (b - o)
  have ed := hA (c / cs)
  rw [← ha] at ea
  rw [← hb'] at eb
  rw [← hc'] at ec
  rw [← hd] at ed
  obtain ⟨M, hM⟩ : ∃ M, M = |(n : K)| * cs := ⟨_, rfl⟩
  have hM' : |(n : K) * cs| = M := by rw [abs_mul, abs_of_pos hc, hM]
  have hM0 : 0 ≤ M := hM' ▸ abs_nonneg _
  rw [hM'] at ea
  rw [← hM] at hb
  have hO0 := abs_nonneg o
  -- first shift
  have e1 : |b - o - n * cs| ≤ 17 / 8 * (ε * M) + ε * |o| := by
    have h1 : |a + o| ≤ M + ε * M + |o| := by
      calc |a + o| = |(n * cs) + (a - n * cs) + o| := by ring_nf
        _ ≤ |(n * cs) + (a - n * cs)| + |o| := abs_add_le _ _
        _ ≤ |n * cs| + |a - n * cs| + |o| := by linarith [abs_add_le (n * cs) (a - n * cs)]
        _ ≤ M + ε * M + |o| := by rw [hM']; linarith
    have h2 : ε * |a + o| ≤ ε * (M + ε * M + |o|) := mul_le_mul_of_nonneg_left h1 h0
    have h3 : ε * (ε * M) ≤ 1 / 8 * (ε * M) := mul_le_mul_of_nonneg_right h8 (mul_nonneg h0 hM0)
    calc |b - o - n * cs| = |(b - (a + o)) + (a - n * cs)| := by ring_nf
      _ ≤ |b - (a + o)| + |a - n * cs| := abs_add_le _ _
      _ ≤ ε * (M + ε * M + |o|) + ε * M := by linarith
      _ ≤ _ := by linarith
  obtain ⟨E1, hE1⟩ : ∃ E, E = |b - o - n * cs| := ⟨_, rfl⟩
  have hE10 : 0 ≤ E1 := hE1 ▸ abs_nonneg _
  rw [← hE1] at e1
  have e2 : |c - n * cs| ≤ 9 / 8 * E1 + ε * M := by
    have h1 : |b - o| ≤ M + E1 := by
      calc |b - o| = |(n * cs) + (b - o - n * cs)| := by ring_nf
        _ ≤ |n * cs| + |b - o - n * cs| := abs_add_le _ _
        _ = M + E1 := by rw [hM', hE1]
    have h2 : ε * |b - o| ≤ ε * (M + E1) := mul_le_mul_of_nonneg_left h1 h0
    have h3 : ε * E1 ≤ 1 / 8 * E1 := mul_le_mul_of_nonneg_right h8 hE10
    calc |c - n * cs| = |(c - (b - o)) + (b - o - n * cs)| := by ring_nf
      _ ≤ |c - (b - o)| + |b - o - n * cs| := abs_add_le _ _
      _ ≤ ε * (M + E1) + E1 := by rw [← hE1]; linarith
      _ ≤ _ := by linarith
  obtain ⟨E2, hE2⟩ : ∃ E, E = |c - n * cs| := ⟨_, rfl⟩
  have hE20 : 0 ≤ E2 := hE2 ▸ abs_nonneg _
  rw [← hE2] at e2
  have e3 : |d - n| * cs ≤ 9 / 8 * E2 + ε * M := by
    have h1 : |c| ≤ M + E2 := by
      calc |c| = |(n * cs) + (c - n * cs)| := by ring_nf
        _ ≤ |n * cs| + |c - n * cs| := abs_add_le _ _
        _ = M + E2 := by rw [hM', hE2]
    have h2 : ε * |c| ≤ ε * (M + E2) := mul_le_mul_of_nonneg_left h1 h0
    have h3 : ε * E2 ≤ 1 / 8 * E2 := mul_le_mul_of_nonneg_right h8 hE20
    have h4 : |d - c / cs| * cs ≤ ε * |c| := by
      calc |d - c / cs| * cs ≤ ε * |c / cs| * cs := mul_le_mul_of_nonneg_right ed hc.le
        _ = ε * |c| := by rw [abs_div, abs_of_pos hc]; field_simp
    have h5 : |c / cs - n| * cs = E2 := by
      rw [hE2, ← abs_of_pos hc, ← abs_mul, abs_of_pos hc]
      congr 1
      field_simp
    have h6 : |d - n| ≤ |d - c / cs| + |c / cs - n| := by
      calc |d - n| = |(d - c / cs) + (c / cs - n)| := by ring_nf
        _ ≤ _ := abs_add_le _ _
    have h7 := mul_le_mul_of_nonneg_right h6 hc.le
    rw [add_mul, h5] at h7
    linarith
  have hfin : |d - n| * cs < 1 / 2 * cs := by
    have : 0 ≤ ε * M := mul_nonneg h0 hM0
    have h' : 0 ≤ ε * |o| := mul_nonneg h0 hO0
    linarith
  exact lt_of_mul_lt_mul_right hfin hc.le

/-- Sizes for which the error bound applies to the index `n` with origin coordinate `o`. -/
def SmallErr (ε cs o : K) (n : Int) : Prop := 10 * ε * (|(n : K)| * cs + |o|) < cs

theorem coordTrip {ε cs x0 y0 : K} {B L r c : Int} (hA : RelErr A ε) (h0 : 0 ≤ ε) (h8 : ε ≤ 1 / 8) (hcs : 0 < cs)
    (hB : ExactInts A B) (hL : |L| ≤ B) (hr : |r| ≤ B) (hLr : |L - r| ≤ B) (hc : |c| ≤ B)
    (s1 : SmallErr ε cs y0 (L - r)) (s2 : SmallErr ε cs x0 c) :
    coord2ind1 A (.fin x0) (.fin y0) L (.fin cs) (colCoord A (.fin x0) (.fin cs) c, rowCoord A (.fin y0) L (.fin cs) r) = .ok (r, c) := by
  unfold rowCoord colCoord
  rw [hB L hL, hB r hr, hB c hc]
  have e : A.rnd ((L : K) + -(r : K)) = ((L - r : Int) : K) := by
    rw [← hB (L - r) hLr]
    push_cast
    rw [← sub_eq_add_neg]
  simp only [Arith.sub, Fl.neg, Arith.add, Arith.mul, e]
  rw [coord2ind1_fin hcs.ne', roundHalfEven_near (trip hA h0 h8 hcs s1), roundHalfEven_near (trip hA h0 h8 hcs s2)]
  simp

/-- Every particle has as many column as row records. -/
def Paired (wd : WalkData K) : Prop :=
  wd.xinds.length = wd.yinds.length ∧ ∀ (i : Nat) xs ys, wd.xinds[i]? = some xs → wd.yinds[i]? = some ys → xs.length = ys.length

/-- `coord2ind` applied to the coordinates attached to each particle gives back its row and column indices. -/
def RoundTrip (A : Arith K) (wd : WalkData K) (origin : Fl K × Fl K) (size : Int × Int) (cs : Fl K) : Prop :=
  ∃ cd, ind2coord A wd origin size cs = .ok cd ∧ cd.walk = wd ∧ cd.xcoord.length = wd.xinds.length ∧
    cd.ycoord.length = wd.xinds.length ∧
    ∀ (i : Nat) xs ys xc yc, wd.xinds[i]? = some xs → wd.yinds[i]? = some ys → cd.xcoord[i]? = some xc → cd.ycoord[i]? = some yc →
      coord2ind A (xc.zip yc) origin size cs = .ok (xs.zip ys)

theorem roundTrip_of {wd : WalkData K} {x0 y0 cs : Fl K} {size : Int × Int} (hp : Paired wd)
    (h : ∀ (i n : Nat) r c, wd.posAt i n = some (r, c) →
      coord2ind1 A x0 y0 size.1 cs (colCoord A x0 cs c, rowCoord A y0 size.1 cs r) = .ok (r, c)) :
    RoundTrip A wd (x0, y0) size cs := by
  unfold RoundTrip ind2coord
  have hy : mapE (fun i => do
      let xs ← listGet wd.xinds i
      return xs.map (rowCoord A y0 size.1 cs)) (List.range wd.xinds.length) =
      .ok (wd.xinds.map fun xs => xs.map (rowCoord A y0 size.1 cs)) := by
    rw [mapE_ok_iff]
    refine List.forall₂_iff_get.2 ⟨by simp, fun i h1 h2 => ?_⟩
    simp only [List.get_eq_getElem, List.getElem_range, List.getElem_map]
    rw [bind_ok]
    exact ⟨wd.xinds[i]'(by simpa using h2), listGet_ok.2 (by simp), rfl⟩
  have hx : mapE (fun i => do
      let ys ← listGet wd.yinds i
      return ys.map (colCoord A x0 cs)) (List.range wd.xinds.length) =
      .ok (wd.yinds.map fun ys => ys.map (colCoord A x0 cs)) := by
    rw [mapE_ok_iff]
    refine List.forall₂_iff_get.2 ⟨by simp [hp.1], fun i h1 h2 => ?_⟩
    simp only [List.get_eq_getElem, List.getElem_range, List.getElem_map]
    rw [bind_ok]
    exact ⟨wd.yinds[i]'(by simpa using h2), listGet_ok.2 (by simp), rfl⟩
  refine ⟨_, by simp only [hy, hx, ok_bind]; rfl, rfl, by simp [hp.1], by simp, ?_⟩
  intro i xs ys xc yc h1 h2 h3 h4
  simp only [List.getElem?_map, h1, h2, Option.map_some, Option.some.injEq] at h3 h4
  subst h3 h4
  have hl := hp.2 i xs ys h1 h2
  unfold coord2ind
  rw [mapE_ok_iff]
  refine List.forall₂_iff_get.2 ⟨by simp [hl], fun n k1 k2 => ?_⟩
  simp only [List.get_eq_getElem, List.getElem_zip, List.getElem_map]
  apply h i n
  have g1 : n < xs.length := by simp at k2; omega
  have g2 : n < ys.length := by omega
  simp [WalkData.posAt, h1, h2, g1, g2]

/-- C37: with rounding of relative error `ε`, the round trip is exact as long as positions and origin are not larger than about
`1/(10 ε)` cells (for doubles about 10^15). -/
theorem C37_rounded {wd : WalkData K} {ε cs x0 y0 : K} {size : Int × Int} {B : Int} (hp : Paired wd) (hA : RelErr A ε) (h0 : 0 ≤ ε)
    (h8 : ε ≤ 1 / 8) (hcs : 0 < cs) (hB : ExactInts A B) (hL : |size.1| ≤ B)
    (h : ∀ (i n : Nat) r c, wd.posAt i n = some (r, c) → |r| ≤ B ∧ |size.1 - r| ≤ B ∧ |c| ≤ B ∧
      SmallErr ε cs y0 (size.1 - r) ∧ SmallErr ε cs x0 c) :
    RoundTrip A wd (.fin x0, .fin y0) size (.fin cs) :=
  roundTrip_of hp fun i n r c hrc => by
    obtain ⟨h1, h2, h3, h4, h5⟩ := h i n r c hrc
    exact coordTrip hA h0 h8 hcs hB hL h1 h2 h3 h4 h5

/-- C37: in exact arithmetic the round trip is the identity for every walk, origin, raster size and positive cell size. -/
theorem C37_exact {wd : WalkData K} {cs x0 y0 : K} {size : Int × Int} (hp : Paired wd) (hcs : 0 < cs) :
    RoundTrip Arith.exact wd (.fin x0, .fin y0) size (.fin cs) :=
  roundTrip_of hp fun i n r c _ => by
    have hs : ∀ (o : K) (m : Int), SmallErr 0 cs o m := fun o m => by simp [SmallErr, hcs]
    have hr : RelErr (Arith.exact (K := K)) 0 := fun x => by simp [Arith.exact]
    refine coordTrip (B := |size.1| + |r| + |size.1 - r| + |c|) hr le_rfl (by positivity) hcs (fun _ _ => rfl) ?_ ?_ ?_ ?_ (hs _ _) (hs _ _) <;>
      linarith [abs_nonneg size.1, abs_nonneg r, abs_nonneg (size.1 - r), abs_nonneg c]

/-! ## C38 -/

/-- Coordinates of the node of row `r`, column `c`: the lower left corner of the raster is the origin, rows count from the top. -/
def nodeX (x0 cs : K) (c : Int) : K := x0 + c * cs

/-- See `nodeX`. -/
def nodeY (y0 cs : K) (L r : Int) : K := y0 + (L - r) * cs

/-- C38: the returned index is that of a nearest node: no farther than half a cell in each direction. -/
theorem C38_nearest {cs x0 y0 x y : K} {size : Int × Int} {l1 l2 : List (Fl K × Fl K)} (hcs : 0 < cs) {out : List (Int × Int)}
    (h : coord2ind Arith.exact (l1 ++ (.fin x, .fin y) :: l2) (.fin x0, .fin y0) size (.fin cs) = .ok out) :
    ∃ r c, out[l1.length]? = some (r, c) ∧ |y - nodeY y0 cs size.1 r| ≤ cs / 2 ∧ |x - nodeX x0 cs c| ≤ cs / 2 := by
  unfold coord2ind at h
  obtain ⟨⟨r, c⟩, hb, ho⟩ := mapE_get h (i := l1.length) (a := (.fin x, .fin y)) (by simp)
  refine ⟨r, c, hb, ?_⟩
  rw [coord2ind1_fin hcs.ne'] at ho
  simp only [Except.ok.injEq, Prod.mk.injEq, Arith.exact, id_eq] at ho
  obtain ⟨rfl, rfl⟩ := ho
  have key : ∀ z z0 : K, |z - (z0 + roundHalfEven ((z - z0) / cs) * cs)| ≤ cs / 2 := by
    intro z z0
    have hd := roundHalfEven_dist ((z - z0) / cs)
    have e : z - (z0 + roundHalfEven ((z - z0) / cs) * cs) = ((z - z0) / cs - roundHalfEven ((z - z0) / cs)) * cs := by
      field_simp
      ring
    rw [e, abs_mul, abs_of_pos hcs]
    have := mul_le_mul_of_nonneg_right hd hcs.le
    linarith
  constructor
  · have := key y y0
    unfold nodeY
    push_cast
    rw [show (size.1 : K) - (size.1 - roundHalfEven ((y - y0) / cs)) = roundHalfEven ((y - y0) / cs) by ring]
    exact this
  · exact key x x0

/-- C38: finite coordinates are always converted, one index pair per coordinate pair. -/
theorem C38_total {cs x0 y0 : K} {size : Int × Int} (hcs : cs ≠ 0) (l : List (K × K)) :
    ∃ out, coord2ind A (l.map fun p => (.fin p.1, .fin p.2)) (.fin x0, .fin y0) size (.fin cs) = .ok out ∧ out.length = l.length := by
  unfold coord2ind
  obtain ⟨out, ho⟩ := mapE_exists (f := coord2ind1 A (.fin x0) (.fin y0) size.1 (.fin cs)) (l := l.map fun p => (.fin p.1, .fin p.2)) (by
    intro a ha
    obtain ⟨p, -, rfl⟩ := List.mem_map.1 ha
    exact ⟨_, coord2ind1_fin hcs⟩)
  exact ⟨out, ho, by simpa using mapE_length ho⟩

/-! ## C39 -/

/-- Inside the raster extent: width `W` and height `L` cells from the origin. -/
def InExtent (x0 y0 cs : K) (L W : Int) (x y : K) : Prop := x0 ≤ x ∧ x < x0 + W * cs ∧ y0 ≤ y ∧ y < y0 + L * cs

/-- A valid index of an `L×W` raster. -/
def ValidIndex (L W : Int) (p : Int × Int) : Prop := 0 ≤ p.1 ∧ p.1 < L ∧ 0 ≤ p.2 ∧ p.2 < W

/-- C39 (false as stated): exactly which coordinates of the extent are mapped to valid indices. The lowest half row of cells, its upper
limit included, is mapped to row `L`, and the rightmost half column to column `W`; missing: these strips. -/
theorem C39_valid_iff_partial {cs x0 y0 x y : K} {L W : Int} (hcs : 0 < cs) (hin : InExtent x0 y0 cs L W x y) :
    ∃ p, coord2ind Arith.exact [(.fin x, .fin y)] (.fin x0, .fin y0) (L, W) (.fin cs) = .ok [p] ∧
      (ValidIndex L W p ↔ y0 + cs / 2 < y ∧
        (x < x0 + (W - 1 / 2) * cs ∨ (x = x0 + (W - 1 / 2) * cs ∧ W % 2 = 1))) := by
  obtain ⟨h1, h2, h3, h4⟩ := hin
  refine ⟨_, by unfold coord2ind mapE; rw [coord2ind1_fin hcs.ne']; rfl, ?_⟩
  simp only [ValidIndex, Arith.exact, id_eq]
  obtain ⟨t, ht⟩ : ∃ t, t = (y - y0) / cs := ⟨_, rfl⟩
  obtain ⟨s, hs⟩ : ∃ s, s = (x - x0) / cs := ⟨_, rfl⟩
  have hy : y = y0 + t * cs := by rw [ht]; field_simp; ring
  have hx : x = x0 + s * cs := by rw [hs]; field_simp; ring
  rw [← ht, ← hs]
  have t0 : 0 ≤ t := by rw [ht]; exact div_nonneg (by linarith) hcs.le
  have s0 : 0 ≤ s := by rw [hs]; exact div_nonneg (by linarith) hcs.le
  have tL : t < L := by rw [ht, div_lt_iff₀ hcs]; linarith
  have sW : s < W := by rw [hs, div_lt_iff₀ hcs]; linarith
  have a1 : 0 ≤ L - roundHalfEven t := by
    by_contra hc
    have : L + 1 ≤ roundHalfEven t := by omega
    rcases le_roundHalfEven.1 this with h | ⟨h, -⟩
    · push_cast at h; linarith
    · push_cast at h; linarith
  have a3 : 0 ≤ roundHalfEven s := by
    rw [le_roundHalfEven]
    left
    push_cast
    linarith
  have a2 : L - roundHalfEven t < L ↔ y0 + cs / 2 < y := by
    rw [show L - roundHalfEven t < L ↔ 1 ≤ roundHalfEven t by omega, le_roundHalfEven, hy]
    have : y0 + cs / 2 < y0 + t * cs ↔ 1 / 2 < t := by
      constructor
      · intro h
        have : 1 / 2 * cs < t * cs := by linarith
        exact lt_of_mul_lt_mul_right this hcs.le
      · intro h
        have := mul_lt_mul_of_pos_right h hcs
        linarith
    rw [this]
    push_cast
    constructor
    · rintro (h | ⟨-, h⟩)
      · linarith
      · simp at h
    · intro h
      left
      linarith
  have a4 : roundHalfEven s < W ↔ (x < x0 + (W - 1 / 2) * cs ∨ (x = x0 + (W - 1 / 2) * cs ∧ W % 2 = 1)) := by
    rw [← not_le, le_roundHalfEven, hx]
    have e1 : x0 + s * cs < x0 + ((W : K) - 1 / 2) * cs ↔ s < (W : K) - 1 / 2 := by
      constructor
      · intro h
        exact lt_of_mul_lt_mul_right (by linarith : s * cs < ((W : K) - 1 / 2) * cs) hcs.le
      · intro h
        have := mul_lt_mul_of_pos_right h hcs
        linarith
    have e2 : x0 + s * cs = x0 + ((W : K) - 1 / 2) * cs ↔ s = (W : K) - 1 / 2 := by
      constructor
      · intro h
        exact mul_right_cancel₀ hcs.ne' (by linarith : s * cs = ((W : K) - 1 / 2) * cs)
      · intro h
        rw [h]
    rw [e1, e2]
    constructor
    · intro h
      have hle : s ≤ (W : K) - 1 / 2 := not_lt.1 fun hh => h (Or.inl hh)
      rcases lt_or_eq_of_le hle with hlt | heq
      · exact Or.inl hlt
      · right
        refine ⟨heq, ?_⟩
        by_contra hm
        exact h (Or.inr ⟨heq, by omega⟩)
    · rintro (h | ⟨h, hm⟩) (g | ⟨g, gm⟩)
      · linarith
      · linarith
      · linarith
      · omega
  constructor
  · rintro ⟨-, h, -, h'⟩
    exact ⟨a2.1 h, a4.1 h'⟩
  · rintro ⟨h, h'⟩
    exact ⟨a1, a2.2 h, a3, a4.2 h'⟩

/-- C39: the raster origin itself, inside the extent, is mapped to row `L`, outside the raster. -/
theorem C39_origin_counterexample {cs x0 y0 : K} {L W : Int} (hcs : 0 < cs) (hL : 0 < L) (hW : 0 < W) :
    InExtent x0 y0 cs L W x0 y0 ∧
    coord2ind Arith.exact [(.fin x0, .fin y0)] (.fin x0, .fin y0) (L, W) (.fin cs) = .ok [(L, 0)] ∧ ¬ ValidIndex L W (L, 0) := by
  refine ⟨⟨le_rfl, ?_, le_rfl, ?_⟩, ?_, fun h => absurd h.2.1 (lt_irrefl _)⟩
  · have : (0 : K) < W := by exact_mod_cast hW
    have := mul_pos this hcs
    linarith
  · have : (0 : K) < L := by exact_mod_cast hL
    have := mul_pos this hcs
    linarith
  · unfold coord2ind mapE
    rw [coord2ind1_fin hcs.ne']
    have := roundHalfEven_int (K := K) 0
    push_cast at this
    simp [Arith.exact, this, mapE]

/-! ## Concrete cases -/

/-- A walk of two particles. -/
def coordWalk : WalkData ℚ :=
  { xinds := [[2, 3, 4], [7]], yinds := [[1, 1, 2], [5]], times := [[.fin 0, .fin 1, .fin 3], [.fin 0]], opt := [] }

theorem coordWalk_paired : Paired coordWalk := by
  refine ⟨rfl, ?_⟩
  intro i xs ys h1 h2
  match i with
  | 0 => cases h1; cases h2; rfl
  | 1 => cases h1; cases h2; rfl
  | n + 2 => simp [coordWalk] at h1

example : RoundTrip Arith.exact coordWalk (.fin 1000, .fin (-20)) (10, 8) (.fin (1 / 3)) := C37_exact coordWalk_paired (by norm_num)

example : ((ind2coord Arith.exact coordWalk (.fin 1000, .fin (-20)) (10, 8) (.fin 5)).toOption.map fun d => (d.xcoord, d.ycoord)) =
    some ([[.fin 1005, .fin 1005, .fin 1010], [.fin 1025]], [[.fin 20, .fin 15, .fin 10], [.fin (-5)]]) := by decide +kernel

theorem relErr_double : RelErr (Arith.double (K := K)) ((2 : K) ^ (-53 : Int)) := fun x => rndFloat_err x

theorem exactInts_double : ExactInts (Arith.double (K := K)) (2 ^ 53) := fun _ h => rndFloat_int (by omega) h

/-- The round trip in double precision, for an origin of the size of UTM coordinates. -/
example : RoundTrip Arith.double coordWalk (.fin 712345, .fin 3272456) (10, 8) (.fin (1 / 3)) := by
  refine C37_rounded coordWalk_paired relErr_double (by positivity) (by norm_num) (by norm_num) exactInts_double (by norm_num) ?_
  intro i n r c h
  have hrc : r ∈ ([2, 3, 4, 7] : List Int) ∧ c ∈ ([1, 2, 5] : List Int) := by
    match i, n with
    | 0, 0 => cases h; decide
    | 0, 1 => cases h; decide
    | 0, 2 => cases h; decide
    | 0, n + 3 => simp [WalkData.posAt, coordWalk] at h
    | 1, 0 => cases h; decide
    | 1, n + 1 => simp [WalkData.posAt, coordWalk] at h
    | i + 2, n => simp [WalkData.posAt, coordWalk] at h
  obtain ⟨h1, h2⟩ := hrc
  fin_cases h1 <;> fin_cases h2 <;> (refine ⟨?_, ?_, ?_, ?_, ?_⟩ <;> norm_num [SmallErr])

/-- Ties are rounded to even: half-way coordinates between columns 0,1 and between 1,2. -/
example : coord2ind Arith.exact [(.fin (1 / 2), .fin 3), (.fin (3 / 2), .fin (5 / 2)), (.fin (-7), .fin 100)] (.fin 0, .fin 0) (10, 8) (.fin (1 : ℚ)) =
    .ok [(7, 0), (8, 2), (-90, -7)] := by decide +kernel

example : ∃ r c, ([(7, 0), (8, 2)] : List (Int × Int))[1]? = some (r, c) ∧ |(5 / 2 : ℚ) - nodeY 0 1 10 r| ≤ 1 / 2 ∧ |(3 / 2 : ℚ) - nodeX 0 1 c| ≤ 1 / 2 :=
  C38_nearest (l1 := [(.fin (1 / 2), .fin 3)]) (l2 := []) (size := (10, 8)) one_pos (by decide +kernel)

example : InExtent (0 : ℚ) 0 1 10 8 (3 / 2) (5 / 2) := by refine ⟨?_, ?_, ?_, ?_⟩ <;> norm_num

end Dorado
