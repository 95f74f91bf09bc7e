import Verif.Model.Exposure
import Mathlib.Algebra.Order.Floor.Ring

/-!
# Model of `unstruct2grid` (`/repo/dorado/particle_track.py`, lines 1197-1336)

The neighbour search of scipy (`NearestNDInterpolator`, `cKDTree.query`) and the point-in-polygon test of matplotlib are parameters.
Simplification: coordinates and cell size are finite numbers.
-/

namespace Dorado

variable {K : Type} [Field K] [LinearOrder K]

/-- `min(l)`, Python builtin on floats; ValueError if empty (particle_track.py:1268-1271). -/
def pyMinList (l : List K) : Except PyErr K :=
  match l with
  | [] => .error .valueError
  | x :: xs => .ok (xs.foldl (fun m y => if y < m then y else m) x)

/-- `max(l)`, Python builtin on floats; ValueError if empty (particle_track.py:1268-1271). -/
def pyMaxList (l : List K) : Except PyErr K :=
  match l with
  | [] => .error .valueError
  | x :: xs => .ok (xs.foldl (fun m y => if m < y then y else m) x)

/-- Array filled by a computation that may raise, row by row (`data[...]` fancy indexing, particle_track.py:1296, 1321). -/
def gridE (R C : Nat) (f : Nat → Nat → Except PyErr (Fl K)) : Except PyErr (Grid (Fl K)) := do
  let rows ← mapE (fun i => mapE (f i) (List.range C)) (List.range R)
  return ⟨R, C, fun i j => (rows.getD i []).getD j .nan⟩

section
variable (A : Arith K)

/-- Number of grid lines `int(np.ceil((max-min)/cellsize)+1)` (particle_track.py:1268, 1270). Python float division: ZeroDivisionError.
Simplification: `ceil(..)+1` is computed in integers. -/
def gridCount [FloorRing K] (lo hi cs : K) : Except PyErr Int :=
  if cs = 0 then .error .zeroDivisionError else .ok (⌈A.rnd (A.rnd (hi - lo) / cs)⌉ + 1)

/-- Element `i` of `np.linspace(start, stop, n)` (particle_track.py:1269, 1271). -/
def linspaceAt (start stop : K) (n i : Nat) : K :=
  let delta := A.rnd (stop - start)
  if n ≤ 1 then A.rnd (A.rnd ((i : K) * delta) + start)
  else if i + 1 = n then stop
  else
    let step := A.rnd (delta / ((n - 1 : Nat) : K))
    if step = 0 then A.rnd (A.rnd (A.rnd ((i : K) / ((n - 1 : Nat) : K)) * delta) + start)
    else A.rnd (A.rnd ((i : K) * step) + start)

/-- Grid lines along one axis (particle_track.py:1268-1271): their number and positions. Simplification: a non-positive number of lines
(possible only for a negative cell size) is a ValueError. -/
def gridAxis [FloorRing K] (l : List K) (cs : K) : Except PyErr (Nat × (Nat → K)) := do
  let hi ← pyMaxList l
  let lo ← pyMinList l
  let n ← gridCount A lo hi cs
  if n < 1 then .error .valueError
  else .ok (n.toNat, linspaceAt A lo (A.rnd (lo + A.rnd (cs * ((n.toNat - 1 : Nat) : K)))) n.toNat)

/-- `1./(d+1.0e-100)` (particle_track.py:1311). -/
def idwWeight (d : Fl K) : Fl K := A.div (.fin 1) (A.add d (.fin (A.rnd (1 / 10 ^ 100))))

/-- Numerator and denominator after one more neighbour (particle_track.py:1320-1321). -/
def idwStep (data : List (Fl K)) (s : Fl K × Fl K) (e : Fl K × Nat) : Except PyErr (Fl K × Fl K) := do
  let q ← listGet data e.2
  return (A.add s.1 (A.mul q (idwWeight A e.1)), A.add s.2 (idwWeight A e.1))

/-- Inverse-distance interpolation at one grid node (particle_track.py:1317-1322). -/
def idwAt (data : List (Fl K)) (nn : List (Fl K × Nat)) : Except PyErr (Fl K) := do
  let nd ← foldE (idwStep A data) (.fin 0, .fin 0) nn
  return A.div nd.1 nd.2

end

/-- Neighbour search (particle_track.py:1287-1290, 1308-1312): for `k = 1` the index of the nearest point, otherwise the `k` nearest points
with their distances, nearest first; if there are fewer points, `cKDTree` fills up with (inf, number of points). -/
structure Neighbours (K : Type) where
  nearest : K × K → Nat
  query : Nat → K × K → List (Fl K × Nat)

/-- `gridded_data[np.ix_(mask.any(1), mask.any(0))]` with `mask = ~np.isnan(gridded_data)` (particle_track.py:1302-1304, 1328-1330). -/
def cropNan (g : Grid (Fl K)) : Grid (Fl K) :=
  let kr := (List.range g.rows).filter fun i => (List.range g.cols).any fun j => !(g.at' i j).isNan
  let kc := (List.range g.cols).filter fun j => (List.range g.rows).any fun i => !(g.at' i j).isNan
  ⟨kr.length, kc.length, fun i j => g.at' (kr.getD i 0) (kc.getD j 0)⟩

/-- `np.flipud` (particle_track.py:1300, 1326). -/
def flipud {α : Type} (g : Grid α) : Grid α := ⟨g.rows, g.cols, fun i j => g.at' (g.rows - 1 - i) j⟩

section
variable (A : Arith K)

/-- `interp_func(data)` (particle_track.py:1293-1305, 1314-1331). `inside` is the polygon test, `none` without boundary. -/
def interpFunc (nb : Neighbours K) (k : Nat) (inside : Option (K × K → Bool)) (crop : Bool) (nx ny : Nat) (xv yv : Nat → K)
    (data : List (Fl K)) : Except PyErr (Grid (Fl K)) := do
  let raw ← gridE ny nx fun r c =>
    if k = 1 then listGet data (nb.nearest (xv c, yv r)) else idwAt A data (nb.query k (xv c, yv r))
  match inside with
  | none => return flipud raw
  | some inP =>
    let masked : Grid (Fl K) := ⟨raw.rows, raw.cols, fun r c => if inP (xv c, yv r) then raw.at' r c else .nan⟩
    return if crop then cropNan (flipud masked) else flipud masked

/-- The two results of `unstruct2grid` (particle_track.py:1336): the interpolation function for further data, and the gridded quantity. -/
structure Gridding (K : Type) where
  interp : List (Fl K) → Except PyErr (Grid (Fl K))
  gridded : Grid (Fl K)

/-- `unstruct2grid` (particle_track.py:1197-1336). `cKDTree.query` rejects `k = 0` with ValueError. -/
def unstruct2grid [FloorRing K] (nb : Neighbours K) (coordinates : List (K × K)) (quantity : List (Fl K)) (cellsize : K) (k : Nat)
    (inside : Option (K × K → Bool)) (crop : Bool) : Except PyErr (Gridding K) :=
  if quantity.length ≠ coordinates.length then .error .valueError
  else do
    let (nx, xv) ← gridAxis A (coordinates.map (·.1)) cellsize
    let (ny, yv) ← gridAxis A (coordinates.map (·.2)) cellsize
    if k = 0 then .error .valueError
    else do
      let g ← interpFunc A nb k inside crop nx ny xv yv quantity
      return { interp := interpFunc A nb k inside crop nx ny xv yv, gridded := g }

end

end Dorado
