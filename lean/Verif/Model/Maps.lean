import Verif.Model.Nourish

/-!
# Model of the nourishment maps of `/repo/dorado/routines.py` (lines 1239-1436)

Modelled is the data handed to matplotlib: the opacity and the position on the colour map of every cell, and the marker of the seed. The background
grid, the colour bar and the colours themselves are not modelled.
-/

namespace Dorado

variable {K : Type} [Field K] [LinearOrder K]

/-- One step of `np.nanmin`: NaN is ignored (routines.py:1306, 1395). -/
def Fl.nanMin (a b : Fl K) : Fl K := if a.isNan then b else if b.isNan then a else if Fl.lt b a then b else a

/-- `np.nanmin(arr)` (routines.py:1306, 1395): NaN if all are NaN, an empty array raises ValueError. -/
def gridNanmin (g : Grid (Fl K)) : Except PyErr (Fl K) :=
  match g.flat with
  | [] => .error .valueError
  | x :: xs => .ok (xs.foldl Fl.nanMin x)

/-- `np.clip(arr, lo, hi)` (routines.py:1305, 1394, and inside matplotlib's `Normalize`): NaN stays. -/
def clipTo (lo hi x : Fl K) : Fl K := Fl.npMin (Fl.npMax x lo) hi

section
variable (A : Arith K)

/-- matplotlib's `Normalize(vmin, vmax, clip)(arr)` (routines.py:1304, 1306, 1393, 1395-1396): equal limits give 0 everywhere, reversed ones raise
ValueError. -/
def normalizeMap (vmin vmax : Fl K) (clip : Bool) (g : Grid (Fl K)) : Except PyErr (Grid (Fl K)) :=
  if Fl.eq vmin vmax then .ok (g.map fun _ => .fin 0)
  else if Fl.lt vmax vmin then .error .valueError
  else .ok (g.map fun x => A.div (A.sub (if clip then clipTo vmin vmax x else x) vmin) (A.sub vmax vmin))

/-- Opacities (routines.py:1300-1305, 1392-1394): values from 0 to the percentile `q`, then clipped to `[min_alpha, 1]`. -/
def heatAlphas [FloorRing K] (g : Grid (Fl K)) (q : K) (minAlpha : Fl K) : Except PyErr (Grid (Fl K)) := do
  let amax ← nanpercentile A g q
  let a ← normalizeMap A (.fin 0) amax true g
  return a.map (clipTo minAlpha (.fin 1))

/-- The seed marker as (column, row) (routines.py:1328-1330, 1432-1434): the first record of particle 0. -/
def seedMarker (wd : Option (WalkData K)) (showSeed : Bool) : Except PyErr (Option (Int × Int)) :=
  match wd, showSeed with
  | some wd, true => do
    let ys ← listGet wd.yinds 0
    let y ← listGet ys 0
    let xs ← listGet wd.xinds 0
    let x ← listGet xs 0
    return some (y, x)
  | _, _ => .ok none

/-- What is drawn: opacity and position on the colour map of every cell, and the marker (routines.py:1305-1330, 1394-1434). -/
structure HeatPlot (K : Type) where
  alpha : Grid (Fl K)
  color : Grid (Fl K)
  seed : Option (Int × Int)

/-- `show_nourishment_area` (routines.py:1239-1332). -/
def showNourishmentArea [FloorRing K] (g : Grid (Fl K)) (wd : Option (WalkData K)) (sigma : K) (minAlpha : Fl K) (showSeed : Bool) :
    Except PyErr (HeatPlot K) := do
  let a ← heatAlphas A g (if 1 / 8 ≤ sigma then 60 else 30) minAlpha
  let lo ← gridNanmin g
  let c ← normalizeMap A lo (.fin 1) false g
  let s ← seedMarker wd showSeed
  return { alpha := a, color := c, seed := s }

/-- `show_nourishment_time` (routines.py:1335-1436). -/
def showNourishmentTime [FloorRing K] (g : Grid (Fl K)) (wd : Option (WalkData K)) (minAlpha : Fl K) (showSeed : Bool) :
    Except PyErr (HeatPlot K) := do
  let a ← heatAlphas A g 20 minAlpha
  let lo ← gridNanmin g
  let hi ← gridNanmax g
  let c ← normalizeMap A lo hi false g
  let s ← seedMarker wd showSeed
  return { alpha := a, color := c, seed := s }

end

end Dorado
