import Verif.Model.Routines
import Verif.Model.Spatial

/-!
# Model of `plot_spatial` (`/repo/dorado/spatial.py`, lines 293-355)

Modelled is the data handed to matplotlib: which map goes to which panel and where its cells lie, the levels of the colour bar and their labels.
-/

namespace Dorado

variable {K : Type} [Field K] [LinearOrder K]

/-- One map as drawn (spatial.py:334-341): the column of the figure, the map, and the extent `[left, right, bottom, top]`. -/
structure Panel (K : Type) where
  column : Nat
  map : Grid (Fl K)
  extent : Int × Int × Int × Int

/-- What `plot_spatial` draws and returns (spatial.py:325-355). -/
structure SpatialPlot (K : Type) where
  titles : List String
  panels : List (Panel K)
  levels : List (Fl K)
  labels : List String
  returnedAxes : List Nat

/-- `gs[0, i + 1]` of a figure with four columns, and the panel drawn there (spatial.py:334-341). -/
def spatialPanel (size : Nat × Nat) (i : Nat) (g : Grid (Fl K)) : Except PyErr (Panel K) :=
  if 4 ≤ i + 1 then .error .indexError
  else .ok { column := i + 1, map := g, extent := (0, size.2, size.1, 0) }

/-- `str(int(t))` of a level (spatial.py:350). -/
def levelLabel [FloorRing K] (t : Fl K) : Except PyErr String := do
  let n ← pyInt (.flt t)
  return toString n

section
variable (A : Arith K)

/-- `plot_spatial` (spatial.py:293-355) for a colour map with `ncolors` colours and an elevation raster of `size` (rows, columns). The list `axes` is
returned as created, empty. Simplifications: a single level (`cbar_levels = 1`) is not rejected; the axes are represented by their columns. -/
def plotSpatial [FloorRing K] (maps : List (Grid (Fl K))) (size : Nat × Nat) (maxExposure : Fl K) (cbarLevels : Int) (ncolors : Nat) :
    Except PyErr (SpatialPlot K) := do
  if cbarLevels < 0 then .error .valueError
  else
    let levels := linspace0 A maxExposure cbarLevels.toNat
    let _ ← listGet levels 0
    if (ncolors : Int) < cbarLevels - 1 then .error .valueError
    else
      let panels ← mapE (fun p => spatialPanel size p.2 p.1) maps.zipIdx
      let labels ← mapE levelLabel levels
      let last ← levelLabel (levels.getLastD .nan)
      return { titles := ["E50", "E75", "E90"], panels := panels, levels := levels, labels := labels.dropLast ++ [last ++ "+"], returnedAxes := [] }

end

/-- The cell of the map that an image with the given extent shows at the point `(x, y)` (matplotlib's `imshow` with `origin='upper'`, spatial.py:339-341):
the extent is divided equally. Simplification: without the interpolation between cells. -/
def Panel.cellAt [FloorRing K] (p : Panel K) (x y : K) : Int × Int :=
  (⌊(y - p.extent.2.2.2) / (p.extent.2.2.1 - p.extent.2.2.2) * p.map.rows⌋, ⌊(x - p.extent.1) / (p.extent.2.1 - p.extent.1) * p.map.cols⌋)

end Dorado
