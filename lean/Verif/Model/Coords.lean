import Verif.Model.Particles

/-!
# Model of `coord2ind` and `ind2coord` (`/repo/dorado/particle_track.py`, lines 864-971)
-/

namespace Dorado

variable {K : Type} [Field K] [LinearOrder K]

/-- Python `round(x)` of a finite float: nearest integer, ties to the even one (particle_track.py:905-906). -/
def roundHalfEven [FloorRing K] (x : K) : Int :=
  if x - (⌊x⌋ : K) < 1 / 2 then ⌊x⌋
  else if 1 / 2 < x - (⌊x⌋ : K) then ⌊x⌋ + 1
  else if ⌊x⌋ % 2 = 0 then ⌊x⌋ else ⌊x⌋ + 1

/-- Python `round` on a float (particle_track.py:905-906): NaN raises ValueError, infinities OverflowError. -/
def pyRound [FloorRing K] : Fl K → Except PyErr Int
  | .fin x => .ok (roundHalfEven x)
  | .nan => .error .valueError
  | _ => .error .overflowError

section
variable (A : Arith K)

/-- Division of Python floats (particle_track.py:905-906): a zero divisor raises. -/
def pyDiv (a b : Fl K) : Except PyErr (Fl K) :=
  if Fl.eq b (.fin 0) then .error .zeroDivisionError else .ok (A.div a b)

/-- One coordinate pair (particle_track.py:905-906): row `L - round((y - y0)/cellsize)`, column `round((x - x0)/cellsize)`.
Simplification: coordinates are Python floats. -/
def coord2ind1 [FloorRing K] (x0 y0 : Fl K) (L : Int) (cellsize : Fl K) (c : Fl K × Fl K) : Except PyErr (Int × Int) := do
  let qy ← pyDiv A (A.sub c.2 y0) cellsize
  let ry ← pyRound qy
  let qx ← pyDiv A (A.sub c.1 x0) cellsize
  let rx ← pyRound qx
  return (L - ry, rx)

/-- `coord2ind` (particle_track.py:864-909). Simplification: origin, size and cell size are already numbers; only `raster_size[0]`
is used. -/
def coord2ind [FloorRing K] (coordinates : List (Fl K × Fl K)) (origin : Fl K × Fl K) (size : Int × Int) (cellsize : Fl K) :
    Except PyErr (List (Int × Int)) :=
  mapE (coord2ind1 A origin.1 origin.2 size.1 cellsize) coordinates

/-- `(L-float(j))*cellsize+y_orig` (particle_track.py:960-961). -/
def rowCoord (y0 : Fl K) (L : Int) (cellsize : Fl K) (j : Int) : Fl K :=
  A.add (A.mul (A.sub (.fin (A.rnd (L : K))) (.fin (A.rnd (j : K)))) cellsize) y0

/-- `float(j)*cellsize+x_orig` (particle_track.py:964). -/
def colCoord (x0 : Fl K) (cellsize : Fl K) (j : Int) : Fl K :=
  A.add (A.mul (.fin (A.rnd (j : K))) cellsize) x0

/-- Walk data with the two coordinate entries added by `ind2coord` (particle_track.py:968-969). -/
structure CoordData (K : Type) where
  walk : WalkData K
  xcoord : List (List (Fl K))
  ycoord : List (List (Fl K))

/-- `ind2coord` (particle_track.py:912-971): row indices give y-coordinates, column indices x-coordinates; IndexError if there are
fewer column than row lists. -/
def ind2coord (wd : WalkData K) (origin : Fl K × Fl K) (size : Int × Int) (cellsize : Fl K) : Except PyErr (CoordData K) := do
  let yc ← mapE (fun i => do
    let xs ← listGet wd.xinds i
    return xs.map (rowCoord A origin.2 size.1 cellsize)) (List.range wd.xinds.length)
  let xc ← mapE (fun i => do
    let ys ← listGet wd.yinds i
    return ys.map (colCoord A origin.1 cellsize)) (List.range wd.xinds.length)
  return { walk := wd, xcoord := xc, ycoord := yc }

end

end Dorado
