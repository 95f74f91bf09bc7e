import Verif.Props.CoordUnits
import Verif.Props.Unstruct

/-! # C133: finding a location in a raster made by `unstruct2grid` -/

set_option linter.unusedSectionVars false

namespace Dorado

variable {K : Type} [Field K] [LinearOrder K] [IsStrictOrderedRing K] [FloorRing K]

/-- A distance that separates points. -/
def Separates (d : K × K → K × K → K) : Prop := ∀ p q, 0 ≤ d p q ∧ (d p q = 0 ↔ p = q)

/-- Between the outermost data points in both directions. -/
def InBox (pts : List (K × K)) (p : K × K) : Prop :=
  (∃ a ∈ pts, a.1 ≤ p.1) ∧ (∃ a ∈ pts, p.1 ≤ a.1) ∧ (∃ a ∈ pts, a.2 ≤ p.2) ∧ ∃ a ∈ pts, p.2 ≤ a.2

theorem LeastOf.unique {l : List K} {x y : K} (hx : LeastOf l x) (hy : LeastOf l y) : x = y :=
  le_antisymm (hx.2 _ hy.1) (hy.2 _ hx.1)

theorem coord2ind_single {x0 y0 cs x y : K} {size : Int × Int} (hc : cs ≠ 0) :
    coord2ind Arith.exact [(.fin x, .fin y)] (.fin x0, .fin y0) size (.fin cs) =
      .ok [(size.1 - roundHalfEven ((y - y0) / cs), roundHalfEven ((x - x0) / cs))] := by
  unfold coord2ind mapE
  rw [coord2ind1_fin hc]
  rfl

/-- C133 (false as documented): take the raster of nearest data values. The location of a data point that lies on a grid line in both
directions is converted, with the documented origin `(min(x), min(y))`, to the cell one row south of the cell with its value; with the
origin one cell size further south it is converted to the cell with its value. -/
theorem C133_value_partial {d : K × K → K × K → K} (hd : Separates d) {nb : Neighbours K} {pts : List (K × K)} {q : List (Fl K)} {cs : K}
    {crop : Bool} (hs : CorrectSearch d pts 1 nb) (hcs : 0 < cs) (hn : pts.Nodup) (hl : q.length = pts.length) {x0 y0 : K}
    (h0x : LeastOf (pts.map (·.1)) x0) (h0y : LeastOf (pts.map (·.2)) y0) {i a b : Nat}
    (hi : pts[i]? = some (x0 + (a : K) * cs, y0 + (b : K) * cs)) :
    ∃ res, unstruct2grid Arith.exact nb pts q cs 1 none crop = .ok res ∧ ∃ r c : Nat, r < res.gridded.rows ∧ c < res.gridded.cols ∧
      q[i]? = some (res.gridded.at' r c) ∧
      coord2ind Arith.exact [(.fin (x0 + (a : K) * cs), .fin (y0 + (b : K) * cs))] (.fin x0, .fin y0) (res.gridded.rows, res.gridded.cols)
        (.fin cs) = .ok [((r : Int) + 1, (c : Int))] ∧
      coord2ind Arith.exact [(.fin (x0 + (a : K) * cs), .fin (y0 + (b : K) * cs))] (.fin x0, .fin (y0 - cs))
        (res.gridded.rows, res.gridded.cols) (.fin cs) = .ok [((r : Int), (c : Int))] := by
  have hm := List.mem_of_getElem? hi
  obtain ⟨res, x1, y1, e, cx, cy, hv⟩ := C47_nearest (crop := crop) hs (List.ne_nil_of_mem hm) hcs hl
  obtain rfl := h0x.unique cx.1
  obtain rfl := h0y.unique cy.1
  have lt : ∀ {z : K} {n m : Nat}, z + (m : K) * cs ≤ z + ((n : K) - 1) * cs → m < n := by
    intro z n m h
    have h1 : (m : K) ≤ (n : K) - 1 := le_of_mul_le_mul_right (by linarith) hcs
    have h2 : ((m + 1 : Nat) : K) ≤ (n : K) := by push_cast; linarith
    exact Nat.cast_le.1 h2
  have ha := lt (cx.2.2.1 _ (List.mem_map_of_mem (f := (·.1)) hm)).2
  have hb := lt (cy.2.2.1 _ (List.mem_map_of_mem (f := (·.2)) hm)).2
  refine ⟨res, e, res.gridded.rows - 1 - b, a, by omega, ha, ?_, ?_, ?_⟩
  · obtain ⟨j, ⟨p, hp, hmin⟩, hq⟩ := hv (res.gridded.rows - 1 - b) a (by omega) ha
    have hnode : nodeAt x0 y0 cs res.gridded.rows (res.gridded.rows - 1 - b) a = (x0 + (a : K) * cs, y0 + (b : K) * cs) := by
      unfold nodeAt
      rw [Nat.cast_sub (by omega), Nat.cast_sub (by omega)]
      push_cast
      ring_nf
    rw [hnode] at hmin
    have h1 := hmin _ hm
    rw [(hd _ _).2.2 rfl] at h1
    have h2 := (hd _ _).2.1 (le_antisymm h1 (hd _ _).1)
    rw [← h2] at hp
    obtain ⟨hj, -⟩ := List.getElem?_eq_some_iff.1 hp
    have hij : j = i := (List.getElem?_inj hj hn).1 (hp.trans hi.symm)
    rw [← hij, hq]
  · rw [coord2ind_single hcs.ne', show (x0 + (a : K) * cs - x0) / cs = ((a : Int) : K) by field_simp; push_cast; ring,
      show (y0 + (b : K) * cs - y0) / cs = ((b : Int) : K) by field_simp; push_cast; ring, roundHalfEven_int, roundHalfEven_int]
    congr 3
    omega
  · rw [coord2ind_single hcs.ne', show (x0 + (a : K) * cs - x0) / cs = ((a : Int) : K) by field_simp; push_cast; ring,
      show (y0 + (b : K) * cs - (y0 - cs)) / cs = (((b : Int) + 1 : Int) : K) by field_simp; push_cast; ring, roundHalfEven_int,
      roundHalfEven_int]
    congr 3
    omega

/-- `y` is in the row of cells around grid line `r` (counted from the north, the lowest being `rows - 1` at `y0`). -/
def InRow (y0 cs : K) (rows : Nat) (y : K) (r : Int) : Prop := |y - (y0 + ((rows : K) - 1 - (r : K)) * cs)| ≤ cs / 2

/-- C133: for every location between the data points, the origin one cell size further south gives the cell of the raster that contains
it. The documented origin gives the cell south of it: never one of the northernmost row, and outside the raster exactly for the locations
in the lower half row. -/
theorem C133_valid_partial {nb : Neighbours K} {pts : List (K × K)} {q : List (Fl K)} {cs : K} {k : Nat} {crop : Bool}
    (hcs : 0 < cs) {res : Gridding K} (h : unstruct2grid Arith.exact nb pts q cs k none crop = .ok res) {x0 y0 x y : K}
    (h0x : LeastOf (pts.map (·.1)) x0) (h0y : LeastOf (pts.map (·.2)) y0) (hin : InBox pts (x, y)) :
    ∃ r r' c : Int, |x - (x0 + (c : K) * cs)| ≤ cs / 2 ∧
      coord2ind Arith.exact [(.fin x, .fin y)] (.fin x0, .fin (y0 - cs)) (res.gridded.rows, res.gridded.cols) (.fin cs) = .ok [(r, c)] ∧
      ValidIndex res.gridded.rows res.gridded.cols (r, c) ∧ InRow y0 cs res.gridded.rows y r ∧
      coord2ind Arith.exact [(.fin x, .fin y)] (.fin x0, .fin y0) (res.gridded.rows, res.gridded.cols) (.fin cs) = .ok [(r', c)] ∧
      1 ≤ r' ∧ InRow y0 cs res.gridded.rows y (r' - 1) ∧ (¬ ValidIndex res.gridded.rows res.gridded.cols (r', c) ↔ y ≤ y0 + cs / 2) := by
  have hl : q.length = pts.length := by
    by_contra hne
    unfold unstruct2grid at h
    rw [if_pos hne] at h
    cases h
  obtain ⟨⟨w, hw, xw⟩, ⟨e, he, xe⟩, ⟨s, hs, ys⟩, n, hn, yn⟩ := hin
  have hne : pts ≠ [] := List.ne_nil_of_mem hw
  have hk : k ≠ 0 := by
    rintro rfl
    obtain ⟨nx, x0, cx, xv, ex, hx⟩ := gridAxis_exact (l := pts.map (·.1)) (by simpa using hne) hcs
    obtain ⟨ny, y0, cy, yv, ey, hy⟩ := gridAxis_exact (l := pts.map (·.2)) (by simpa using hne) hcs
    unfold unstruct2grid at h
    rw [if_neg (by simpa using hl), ex, ey] at h
    simp at h
  obtain ⟨nx, x1, ny, y1, xv, yv, cx, cy, -, -, eq⟩ := unstruct2grid_eq (nb := nb) (inside := none) (crop := crop) hne hcs hl hk
  obtain rfl := h0x.unique cx.1
  obtain rfl := h0y.unique cy.1
  rw [eq, bind_ok] at h
  obtain ⟨g, hg, h⟩ := h
  injection h with h
  subst h
  have hsize : g.rows = ny ∧ g.cols = nx := by
    unfold interpFunc at hg
    obtain ⟨raw, h1, h2⟩ := bind_ok.1 hg
    obtain rfl := pure_ok.1 h2
    exact ⟨(gridE_inv h1).1, (gridE_inv h1).2.1⟩
  simp only [hsize.1, hsize.2]
  have bound : ∀ {z z0 : K} {m : Nat} {l : List K}, Covers l cs z0 m → (∃ a ∈ l, a ≤ z) → (∃ a ∈ l, z ≤ a) →
      0 ≤ (z - z0) / cs ∧ (z - z0) / cs ≤ (((m : Int) - 1 : Int) : K) := by
    rintro z z0 m l hc ⟨a, ha, haz⟩ ⟨b, hb, hzb⟩
    have h1 := (hc.2.2.1 a ha).1
    have h2 := (hc.2.2.1 b hb).2
    refine ⟨div_nonneg (by linarith) hcs.le, ?_⟩
    rw [div_le_iff₀ hcs]
    push_cast
    linarith
  obtain ⟨bx0, bx1⟩ := bound cx ⟨_, List.mem_map_of_mem (f := (·.1)) hw, xw⟩ ⟨_, List.mem_map_of_mem (f := (·.1)) he, xe⟩
  obtain ⟨by0, by1⟩ := bound cy ⟨_, List.mem_map_of_mem (f := (·.2)) hs, ys⟩ ⟨_, List.mem_map_of_mem (f := (·.2)) hn, yn⟩
  have ex : x = x0 + (x - x0) / cs * cs := by rw [div_mul_cancel₀ _ hcs.ne']; ring
  have ey : y = y0 + (y - y0) / cs * cs := by rw [div_mul_cancel₀ _ hcs.ne']; ring
  have es : (y - (y0 - cs)) / cs = (y - y0) / cs + 1 := by rw [show y - (y0 - cs) = y - y0 + cs by ring, add_div, div_self hcs.ne']
  generalize ht : (y - y0) / cs = t at *
  generalize hu : (x - x0) / cs = u at *
  have cast0 : ((0 : Int) : K) = 0 := Int.cast_zero
  have cast1 : ((1 : Int) : K) = 1 := Int.cast_one
  have lo : ∀ {z : K} (m : Int), (m : K) ≤ z → m ≤ roundHalfEven z := fun m hz => by
    simpa only [roundHalfEven_int] using roundHalfEven_mono hz
  have up : ∀ {z : K} (m : Int), z ≤ (m : K) → roundHalfEven z ≤ m := fun m hz => by
    simpa only [roundHalfEven_int] using roundHalfEven_mono hz
  have c0 := lo (z := u) 0 (by rw [cast0]; exact bx0)
  have c1 := up _ bx1
  have r0 := lo (z := t) 0 (by rw [cast0]; exact by0)
  have r1 := up _ by1
  have s0 : 1 ≤ roundHalfEven (t + 1) := lo 1 (by rw [cast1]; linarith)
  have s1 : roundHalfEven (t + 1) ≤ ny := up ny (by push_cast at by1 ⊢; linarith)
  have near : ∀ {z : K} (v : K), |(v - roundHalfEven v) * cs| = z → z ≤ cs / 2 := by
    rintro z v rfl
    rw [abs_mul, abs_of_pos hcs]
    have := mul_le_mul_of_nonneg_right (roundHalfEven_dist v) hcs.le
    linarith
  refine ⟨(ny : Int) - roundHalfEven (t + 1), (ny : Int) - roundHalfEven t, roundHalfEven u, ?_, ?_, ⟨?_, ?_, ?_, ?_⟩, ?_, ?_, ?_, ?_, ?_⟩
  · refine near u ?_
    congr 1
    linear_combination -ex
  · rw [coord2ind_single hcs.ne', hu, es]
  · show (0 : Int) ≤ ny - _
    omega
  · show (ny : Int) - _ < ny
    omega
  · exact c0
  · show roundHalfEven u < (nx : Int)
    omega
  · refine near (t + 1) ?_
    congr 1
    push_cast
    linear_combination -ey
  · rw [coord2ind_single hcs.ne', hu, ht]
  · omega
  · refine near t ?_
    congr 1
    push_cast
    linear_combination -ey
  · have key : (¬ ValidIndex (ny : Int) nx ((ny : Int) - roundHalfEven t, roundHalfEven u)) ↔ roundHalfEven t = 0 := by
      unfold ValidIndex
      simp only
      omega
    rw [key]
    have hz : roundHalfEven t = 0 ↔ ¬ 1 ≤ roundHalfEven t := by omega
    rw [hz, le_roundHalfEven, cast1]
    have hp : (1 : Int) % 2 ≠ 0 := by decide
    simp only [hp, and_false, or_false, not_lt]
    have e2 : y ≤ y0 + cs / 2 ↔ t * cs ≤ (1 - 1 / 2) * cs := by
      constructor <;> intro h' <;> linarith
    rw [e2]
    exact (mul_le_mul_iff_left₀ hcs).symm

/-- C133: `ind2coord`, given the origin one cell size further south, attaches to a record in row `r`, column `c` of the raster of nearest
data values the location whose nearest data point has the value of that cell. With the documented origin it attaches the location one cell
size further north. -/
theorem C133_attached_partial {d : K × K → K × K → K} {nb : Neighbours K} {pts : List (K × K)} {q : List (Fl K)} {cs : K} {crop : Bool}
    (hs : CorrectSearch d pts 1 nb) (hne : pts ≠ []) (hcs : 0 < cs) (hl : q.length = pts.length) {x0 y0 : K}
    (h0x : LeastOf (pts.map (·.1)) x0) (h0y : LeastOf (pts.map (·.2)) y0) :
    ∃ res, unstruct2grid Arith.exact nb pts q cs 1 none crop = .ok res ∧ ∀ {wd : WalkData K} {cd cd' : CoordData K},
      ind2coord Arith.exact wd (.fin x0, .fin y0) (res.gridded.rows, res.gridded.cols) (.fin cs) = .ok cd →
      ind2coord Arith.exact wd (.fin x0, .fin (y0 - cs)) (res.gridded.rows, res.gridded.cols) (.fin cs) = .ok cd' →
      ∀ (i n r c : Nat) (xs ys : List Int), wd.xinds[i]? = some xs → wd.yinds[i]? = some ys → xs[n]? = some (r : Int) →
        ys[n]? = some (c : Int) → r < res.gridded.rows → c < res.gridded.cols →
        ∀ xc yc xc' yc', cd.xcoord[i]? = some xc → cd.ycoord[i]? = some yc → cd'.xcoord[i]? = some xc' → cd'.ycoord[i]? = some yc' →
          ∃ x y j, xc'[n]? = some (.fin x) ∧ yc'[n]? = some (.fin y) ∧ IsNearest d pts (x, y) j ∧ q[j]? = some (res.gridded.at' r c) ∧
            xc[n]? = some (.fin x) ∧ yc[n]? = some (.fin (y + cs)) := by
  obtain ⟨res, x1, y1, e, cx, cy, hv⟩ := C47_nearest (crop := crop) hs hne hcs hl
  obtain rfl := h0x.unique cx.1
  obtain rfl := h0y.unique cy.1
  refine ⟨res, e, ?_⟩
  intro wd cd cd' h1 h2 i n r c xs ys hxs hys hr hc hrb hcb xc yc xc' yc' e1 e2 e3 e4
  obtain ⟨a, b, ha, hb, rfl, rfl⟩ := ind2coord_rows h1 e1 e2
  obtain ⟨a', b', ha', hb', rfl, rfl⟩ := ind2coord_rows h2 e3 e4
  obtain rfl : xs = a := Option.some.inj (hxs.symm.trans ha)
  obtain rfl : ys = b := Option.some.inj (hys.symm.trans hb)
  obtain rfl : xs = a' := Option.some.inj (hxs.symm.trans ha')
  obtain rfl : ys = b' := Option.some.inj (hys.symm.trans hb')
  obtain ⟨j, hj, hq⟩ := hv r c hrb hcb
  refine ⟨_, _, j, ?_, ?_, hj, hq, ?_, ?_⟩ <;>
  · simp only [List.getElem?_map, hr, hc, Option.map_some, rowCoord, colCoord, Arith.mul, Arith.add, Arith.sub, Fl.neg, Arith.exact, id_eq,
      Option.some.injEq, Fl.fin.injEq]
    push_cast
    ring

/-- Four measurements at the corners of a square. -/
def cornerPts : List (ℚ × ℚ) := [(0, 0), (2, 0), (0, 2), (2, 2)]

/-- The full claim of C133 is false: as in the documentation, the raster is made by `unstruct2grid` and the origin is `(min(x), min(y))`.
The measurement at (0, 2) was 3, but the raster holds 1 at the index of (0, 2); the index of (0, 0) is outside the raster. -/
theorem C133_documented_counterexample : ∃ res : Gridding ℚ, CorrectSearch taxi cornerPts 1 (bruteSearch cornerPts) ∧
    unstruct2grid Arith.exact (bruteSearch cornerPts) cornerPts (([1, 2, 3, 4] : List ℚ).map .fin) 2 1 none true = .ok res ∧
    (res.gridded.rows, res.gridded.cols) = (2, 2) ∧
    coord2ind (K := ℚ) Arith.exact [(.fin 0, .fin 2), (.fin 0, .fin 0)] (.fin 0, .fin 0) (res.gridded.rows, res.gridded.cols) (.fin 2) =
      .ok [(1, 0), (2, 0)] ∧
    res.gridded.at' 1 0 = .fin 1 := by
  have h : (match unstruct2grid Arith.exact (bruteSearch cornerPts) cornerPts (([1, 2, 3, 4] : List ℚ).map .fin) 2 1 none true with
    | .ok r => (r.gridded.rows, r.gridded.cols) == (2, 2) && Fl.eq (r.gridded.at' 1 0) (.fin 1)
    | _ => false) = true := by decide +kernel
  split at h
  · rename_i r e
    rw [Bool.and_eq_true, beq_iff_eq] at h
    obtain ⟨h1, h2⟩ := h
    refine ⟨r, brute_correct _ (by decide) (by decide), e, h1, ?_, ?_⟩
    · rw [Prod.mk.injEq] at h1
      rw [h1.1, h1.2]
      decide +kernel
    · rcases e2 : r.gridded.at' 1 0 with v | _ | _ | _ <;> rw [e2] at h2 <;> simp_all [Fl.eq]
  · cases h

/-- With a boundary and the default `crop=True` no fixed correction of the origin helps: here the western column is cropped away, and the
location of the measurement 4 is converted to a column outside the raster, with the documented and with the moved origin. -/
theorem C133_crop_counterexample : ∃ res : Gridding ℚ,
    unstruct2grid Arith.exact (bruteSearch cornerPts) cornerPts (([1, 2, 3, 4] : List ℚ).map .fin) 2 1 (some fun p => 1 ≤ p.1) true = .ok res ∧
    (res.gridded.rows, res.gridded.cols) = (2, 1) ∧ res.gridded.at' 0 0 = .fin 4 ∧
    coord2ind (K := ℚ) Arith.exact [(.fin 2, .fin 2)] (.fin 0, .fin 0) (res.gridded.rows, res.gridded.cols) (.fin 2) = .ok [(1, 1)] ∧
    coord2ind (K := ℚ) Arith.exact [(.fin 2, .fin 2)] (.fin 0, .fin (-2)) (res.gridded.rows, res.gridded.cols) (.fin 2) = .ok [(0, 1)] := by
  have h : (match unstruct2grid Arith.exact (bruteSearch cornerPts) cornerPts (([1, 2, 3, 4] : List ℚ).map .fin) 2 1 (some fun p => 1 ≤ p.1) true with
    | .ok r => (r.gridded.rows, r.gridded.cols) == (2, 1) && Fl.eq (r.gridded.at' 0 0) (.fin 4)
    | _ => false) = true := by decide +kernel
  split at h
  · rename_i r e
    rw [Bool.and_eq_true, beq_iff_eq] at h
    obtain ⟨h1, h2⟩ := h
    refine ⟨r, e, h1, ?_, ?_, ?_⟩
    · rcases e2 : r.gridded.at' 0 0 with v | _ | _ | _ <;> rw [e2] at h2 <;> simp_all [Fl.eq]
    all_goals
      rw [Prod.mk.injEq] at h1
      rw [h1.1, h1.2]
      decide +kernel
  · cases h

/-- C133: the hypotheses of C133_value_partial for the measurement at (0, 2), and of C133_valid_partial for a place between. -/
example : Separates taxi ∧ cornerPts.Nodup ∧ LeastOf (cornerPts.map (·.1)) 0 ∧ LeastOf (cornerPts.map (·.2)) 0 ∧
    cornerPts[2]? = some (0 + ((0 : Nat) : ℚ) * 2, 0 + ((1 : Nat) : ℚ) * 2) ∧ InBox cornerPts (3 / 2, 1 / 2) ∧
    coord2ind Arith.exact [(.fin (3 / 2), .fin (1 / 2))] (.fin 0, .fin (-2 : ℚ)) (2, 2) (.fin 2) = .ok [(1, 1)] := by
  refine ⟨fun p q => ⟨taxi_nonneg p q, ?_⟩, by decide +kernel, ⟨by decide +kernel, by decide +kernel⟩, ⟨by decide +kernel, by decide +kernel⟩,
    by decide +kernel, ⟨⟨(0, 0), ?_⟩, ⟨(2, 0), ?_⟩, ⟨(0, 0), ?_⟩, ⟨(2, 2), ?_⟩⟩, by decide +kernel⟩
  rotate_left
  iterate 4 exact ⟨by decide +kernel, by norm_num⟩
  unfold taxi
  rw [add_eq_zero_iff_of_nonneg (abs_nonneg _) (abs_nonneg _), abs_eq_zero, abs_eq_zero, sub_eq_zero, sub_eq_zero, Prod.ext_iff]

/-- C133: a particle seeded in the cell with the measurement of (0, 2), row 0 and column 0: its attached location with the documented and
with the moved origin. -/
example : (∃ cd : CoordData ℚ, ind2coord Arith.exact ⟨[[0]], [[0]], [[.fin 0]], []⟩ (.fin 0, .fin 0) (2, 2) (.fin 2) = .ok cd ∧
      cd.xcoord = [[.fin 0]] ∧ cd.ycoord = [[.fin 4]]) ∧
    ∃ cd : CoordData ℚ, ind2coord Arith.exact ⟨[[0]], [[0]], [[.fin 0]], []⟩ (.fin 0, .fin (-2)) (2, 2) (.fin 2) = .ok cd ∧
      cd.xcoord = [[.fin 0]] ∧ cd.ycoord = [[.fin 2]] :=
  ⟨⟨_, rfl, by decide +kernel, by decide +kernel⟩, ⟨_, rfl, by decide +kernel, by decide +kernel⟩⟩

end Dorado
