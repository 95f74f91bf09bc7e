import Verif.Props.Coords

/-! # C132: index and coordinate transforms respect directions and do not depend on units or on the origin -/

set_option linter.unusedSectionVars false

namespace Dorado

variable {K : Type} [Field K] [LinearOrder K] [IsStrictOrderedRing K] [FloorRing K] {A : Arith K}

/-- The coordinates of a list of points, as Python floats. -/
def asFloats (l : List (K × K)) : List (Fl K × Fl K) := l.map fun p => (.fin p.1, .fin p.2)

/-- C132: further east never means a smaller column, further north never a larger row - for every rounding of the arithmetic. -/
theorem C132_order {x0 y0 cs : K} {size : Int × Int} (hcs : 0 < cs) {l : List (K × K)} {out : List (Int × Int)}
    (h : coord2ind A (asFloats l) (.fin x0, .fin y0) size (.fin cs) = .ok out) {i j : Nat} {p q : K × K} {a b : Int × Int}
    (hp : l[i]? = some p) (hq : l[j]? = some q) (ha : out[i]? = some a) (hb : out[j]? = some b) :
    (p.1 ≤ q.1 → a.2 ≤ b.2) ∧ (p.2 ≤ q.2 → b.1 ≤ a.1) := by
  have key : ∀ {i : Nat} {p : K × K} {a : Int × Int}, l[i]? = some p → out[i]? = some a →
      a = (size.1 - roundHalfEven (A.rnd (A.rnd (p.2 - y0) / cs)), roundHalfEven (A.rnd (A.rnd (p.1 - x0) / cs))) := by
    intro i p a hp ha
    obtain ⟨c, hc, e⟩ := mapE_get h (i := i) (a := (.fin p.1, .fin p.2)) (by simp [asFloats, hp])
    rw [coord2ind1_fin hcs.ne', Except.ok.injEq] at e
    rw [ha, Option.some.injEq] at hc
    rw [hc, e]
  have mono : ∀ {z w o : K}, z ≤ w → roundHalfEven (A.rnd (A.rnd (z - o) / cs)) ≤ roundHalfEven (A.rnd (A.rnd (w - o) / cs)) := by
    intro z w o hzw
    exact roundHalfEven_mono (A.mono _ _ (div_le_div_of_nonneg_right (A.mono _ _ (sub_le_sub_right hzw o)) hcs.le))
  rw [key hp ha, key hq hb]
  refine ⟨fun e => mono e, fun e => ?_⟩
  have := mono (o := y0) e
  simp only
  omega

/-- The point `p` in other units (`k` per unit, `k < 0` would turn the axes) and relative to another origin. -/
def inUnits (k dx dy : K) (p : K × K) : K × K := (k * p.1 + dx, k * p.2 + dy)

/-- C132: coordinates, origin and cell size in other units or shifted together give the same indices, or the same exception (exact
arithmetic). -/
theorem C132_units (l : List (K × K)) (o : K × K) (size : Int × Int) (cs : K) {k : K} (hk : k ≠ 0) (dx dy : K) :
    coord2ind Arith.exact (asFloats (l.map (inUnits k dx dy))) (.fin (inUnits k dx dy o).1, .fin (inUnits k dx dy o).2) size (.fin (k * cs)) =
      coord2ind Arith.exact (asFloats l) (.fin o.1, .fin o.2) size (.fin cs) := by
  have one : ∀ p : K × K, coord2ind1 Arith.exact (.fin (inUnits k dx dy o).1) (.fin (inUnits k dx dy o).2) size.1 (.fin (k * cs))
      (.fin (inUnits k dx dy p).1, .fin (inUnits k dx dy p).2) =
      coord2ind1 Arith.exact (.fin o.1) (.fin o.2) size.1 (.fin cs) (.fin p.1, .fin p.2) := by
    intro p
    by_cases hc : cs = 0
    · subst hc
      simp [coord2ind1, pyDiv, Fl.eq]
    · have e : ∀ z w d : K, (k * z + d - (k * w + d)) / (k * cs) = (z - w) / cs := fun z w d => by
        rw [show k * z + d - (k * w + d) = k * (z - w) by ring, mul_div_mul_left _ _ hk]
      rw [coord2ind1_fin (mul_ne_zero hk hc), coord2ind1_fin hc]
      simp only [Arith.exact, id_eq, inUnits, e]
  unfold coord2ind
  simp only [asFloats, List.map_map, Function.comp_def]
  induction l with
  | nil => rfl
  | cons p l ih =>
    simp only [List.map_cons, mapE, one p]
    rw [ih]

/-- The attached coordinates are those of the recorded indices. -/
theorem ind2coord_rows {wd : WalkData K} {size : Int × Int} {o : Fl K × Fl K} {c : Fl K} {e : CoordData K}
    (he : ind2coord A wd o size c = .ok e) {i : Nat} {xc yc : List (Fl K)} (hx : e.xcoord[i]? = some xc) (hy : e.ycoord[i]? = some yc) :
    ∃ xs ys, wd.xinds[i]? = some xs ∧ wd.yinds[i]? = some ys ∧ yc = xs.map (rowCoord A o.2 size.1 c) ∧ xc = ys.map (colCoord A o.1 c) := by
  unfold ind2coord at he
  obtain ⟨yl, h1, he⟩ := bind_ok.1 he
  obtain ⟨xl, h2, he⟩ := bind_ok.1 he
  obtain rfl := pure_ok.1 he
  obtain ⟨a, ha, f1⟩ := mapE_get' h1 hy
  obtain ⟨b, hb, f2⟩ := mapE_get' h2 hx
  obtain ⟨hai, rfl⟩ := List.getElem?_eq_some_iff.1 ha
  obtain ⟨hbi, rfl⟩ := List.getElem?_eq_some_iff.1 hb
  obtain ⟨xs, g1, f1⟩ := bind_ok.1 f1
  obtain ⟨ys, g2, f2⟩ := bind_ok.1 f2
  simp only [List.getElem_range] at g1 g2
  exact ⟨xs, ys, listGet_ok.1 g1, listGet_ok.1 g2, (pure_ok.1 f1).symm, (pure_ok.1 f2).symm⟩

/-- C132: in other units or with a shifted origin, `ind2coord` attaches to every recorded index the same place in those units. -/
theorem C132_attached {wd : WalkData K} {o : K × K} {size : Int × Int} {cs k dx dy : K} {cd cd' : CoordData K}
    (h : ind2coord Arith.exact wd (.fin o.1, .fin o.2) size (.fin cs) = .ok cd)
    (h' : ind2coord Arith.exact wd (.fin (inUnits k dx dy o).1, .fin (inUnits k dx dy o).2) size (.fin (k * cs)) = .ok cd') :
    ∀ (i n : Nat) xc yc xc' yc', cd.xcoord[i]? = some xc → cd.ycoord[i]? = some yc → cd'.xcoord[i]? = some xc' → cd'.ycoord[i]? = some yc' →
      ∀ x y, xc[n]? = some x → yc[n]? = some y →
        ∃ p : K × K, x = .fin p.1 ∧ y = .fin p.2 ∧ xc'[n]? = some (.fin (inUnits k dx dy p).1) ∧ yc'[n]? = some (.fin (inUnits k dx dy p).2) := by
  intro i n xc yc xc' yc' hx hy hx' hy' x y hxn hyn
  obtain ⟨xs, ys, e1, e2, rfl, rfl⟩ := ind2coord_rows h hx hy
  obtain ⟨xs', ys', e1', e2', rfl, rfl⟩ := ind2coord_rows h' hx' hy'
  obtain rfl : xs = xs' := by rw [e1] at e1'; exact Option.some.inj e1'
  obtain rfl : ys = ys' := by rw [e2] at e2'; exact Option.some.inj e2'
  rw [List.getElem?_map, Option.map_eq_some_iff] at hxn hyn
  obtain ⟨c, hc, rfl⟩ := hxn
  obtain ⟨r, hr, rfl⟩ := hyn
  refine ⟨((c : K) * cs + o.1, ((size.1 : K) + -(r : K)) * cs + o.2), ?_, ?_, ?_, ?_⟩
  · simp [colCoord, Arith.mul, Arith.add, Arith.exact]
  · simp [rowCoord, Arith.mul, Arith.add, Arith.sub, Fl.neg, Arith.exact]
  · simp only [List.getElem?_map, hc, colCoord, Arith.mul, Arith.add, Arith.exact, inUnits, Option.map_some, id_eq, Option.some.injEq, Fl.fin.injEq]
    ring
  · simp only [List.getElem?_map, hr, rowCoord, Arith.mul, Arith.add, Arith.sub, Fl.neg, Arith.exact, inUnits, Option.map_some, id_eq,
      Option.some.injEq, Fl.fin.injEq]
    ring

/-- C132: whether `ind2coord` accepts a walk does not depend on the origin, the raster size or the cell size. -/
theorem C132_accepted (wd : WalkData K) (o : Fl K × Fl K) (size : Int × Int) (cs : Fl K) :
    (∃ cd, ind2coord A wd o size cs = .ok cd) ↔ wd.xinds.length ≤ wd.yinds.length := by
  unfold ind2coord
  constructor
  · rintro ⟨cd, h⟩
    obtain ⟨yl, -, h⟩ := bind_ok.1 h
    obtain ⟨xl, h2, -⟩ := bind_ok.1 h
    by_contra hc
    push Not at hc
    obtain ⟨b, -, f⟩ := mapE_get h2 (i := wd.yinds.length) (a := wd.yinds.length) (by simp [hc])
    obtain ⟨ys, g, -⟩ := bind_ok.1 f
    have := listGet_ok.1 g
    simp at this
  · intro hl
    obtain ⟨yl, h1⟩ := mapE_exists (f := fun i => do
      let xs ← listGet wd.xinds i
      return xs.map (rowCoord A o.2 size.1 cs)) (l := List.range wd.xinds.length) (by
        intro i hi
        have hi := List.mem_range.1 hi
        exact ⟨_, bind_ok.2 ⟨wd.xinds[i], listGet_ok.2 (by simp [hi]), rfl⟩⟩)
    obtain ⟨xl, h2⟩ := mapE_exists (f := fun i => do
      let ys ← listGet wd.yinds i
      return ys.map (colCoord A o.1 cs)) (l := List.range wd.xinds.length) (by
        intro i hi
        have hi := (List.mem_range.1 hi).trans_le hl
        exact ⟨_, bind_ok.2 ⟨wd.yinds[i], listGet_ok.2 (by simp [hi]), rfl⟩⟩)
    exact ⟨_, bind_ok.2 ⟨yl, h1, bind_ok.2 ⟨xl, h2, rfl⟩⟩⟩

/-- C132: two points north and east of each other, on a raster of 4 rows with origin (2, 3) and cells of 3: rows 3 and 1, columns 0 and 1;
the same in units of a third, with the origin moved. -/
example : coord2ind (K := ℚ) Arith.exact (asFloats [(3, 7), (6, 11)]) (.fin 2, .fin 3) (4, 5) (.fin 3) = .ok [(3, 0), (1, 1)] ∧
    coord2ind (K := ℚ) Arith.exact (asFloats ([(3, 7), (6, 11)].map (inUnits (1 / 3) 10 (-5)))) (.fin (32 / 3), .fin (-4)) (4, 5) (.fin 1) =
      .ok [(3, 0), (1, 1)] ∧
    (inUnits (1 / 3) 10 (-5) ((2, 3) : ℚ × ℚ)) = (32 / 3, -4) := by
  refine ⟨by decide +kernel, by decide +kernel, by decide +kernel⟩

/-- C132: the coordinates attached to a record of the demonstration walk, in both units. -/
example : ∃ cd cd' : CoordData ℚ,
    ind2coord Arith.exact ⟨[[1, 2]], [[1, 3]], [[.fin 0, .fin 4]], []⟩ (.fin 2, .fin 3) (4, 5) (.fin 3) = .ok cd ∧
    ind2coord Arith.exact ⟨[[1, 2]], [[1, 3]], [[.fin 0, .fin 4]], []⟩ (.fin (32 / 3), .fin (-4)) (4, 5) (.fin 1) = .ok cd' ∧
    cd.xcoord = [[.fin 5, .fin 11]] ∧ cd.ycoord = [[.fin 12, .fin 9]] ∧
    cd'.xcoord = [[.fin (35 / 3), .fin (41 / 3)]] ∧ cd'.ycoord = [[.fin (-1), .fin (-2)]] :=
  ⟨_, _, rfl, rfl, by decide +kernel, by decide +kernel, by decide +kernel, by decide +kernel⟩

end Dorado
