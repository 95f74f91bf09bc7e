import Verif.Model.Routines
import Verif.Model.PairSum

/-!
# Model of `dorado/spatial.py` (lines 18-291)

`scipy.stats.gaussian_kde` is a parameter. An entry of the list of chunks is `none` for NaN, else the exposure times of the particles of the chunk.
Simplifications: cell types and indices are integers; `elevation` enters only by its shape.
-/

namespace Dorado

variable {K : Type} [Field K] [LinearOrder K]

/-! ## Chunks -/

/-- Python `a // b` on integers (spatial.py:53-54, 141-142, 237-238). -/
def floorDiv (a b : Int) : Except PyErr Int := if b = 0 then .error .zeroDivisionError else .ok (a.fdiv b)

/-- Start and stop of chunk `k` of `n` in one direction (spatial.py:59-62, 151-154). -/
def chunkBounds (size : Nat) (n res : Int) (k : Nat) : Int × Int :=
  (k * res, if (k : Int) = n - 1 then size else (k + 1) * res)

/-- `np.any(in_regions[r0:r1, c0:c1])` with `in_regions = celltype == 1` (spatial.py:46, 64, 157). -/
def anyInRegion (ct : Grid Int) (r c : Int × Int) : Bool :=
  (List.range ct.rows).any fun i => (List.range ct.cols).any fun j =>
    decide (sliceBound ct.rows r.1 ≤ i ∧ i < sliceBound ct.rows r.2 ∧ sliceBound ct.cols c.1 ≤ j ∧ j < sliceBound ct.cols c.2) && ct.at' i j == 1

/-- `regions`: 1 where the cell type is 1, else 0 (spatial.py:50-51, 145-146). -/
def regionsOf (ct : Grid Int) : Grid Int := ct.map fun x => if x = 1 then 1 else 0

/-- `region_chunk`: `regions` inside the chunk, else 0 (spatial.py:158-159). -/
def regionChunk (ct : Grid Int) (r c : Int × Int) : Grid Int :=
  ⟨ct.rows, ct.cols, fun i j =>
    if sliceBound ct.rows r.1 ≤ i ∧ i < sliceBound ct.rows r.2 ∧ sliceBound ct.cols c.1 ≤ j ∧ j < sliceBound ct.cols c.2 then (regionsOf ct).at' i j else 0⟩

/-- Append element `idx` of every entry of the dictionary (spatial.py:106-107). -/
def appendParticle (wd : WalkData K) (idx : Nat) (acc : WalkData K) : Except PyErr (WalkData K) := do
  let x ← listGet wd.xinds idx
  let y ← listGet wd.yinds idx
  let t ← listGet wd.times idx
  let o ← mapE (fun e : (String × List (List (Val K))) × (String × List (List (Val K))) => do
    let v ← listGet e.2.2 idx
    return (e.1.1, e.1.2 ++ [v])) (acc.opt.zip wd.opt)
  return { xinds := acc.xinds ++ [x], yinds := acc.yinds ++ [y], times := acc.times ++ [t], opt := o }

/-- Body of the loop of `_find_common_indices_info` (spatial.py:102-107): both bounds are inclusive. -/
def commonStep (wd : WalkData K) (xr yr : Int × Int) (acc : WalkData K) (idx : Nat) : Except PyErr (WalkData K) := do
  let xs ← listGet wd.xinds idx
  if xs.length = 0 then return acc
  let ys ← listGet wd.yinds idx
  if ys.length = 0 then return acc
  let x0 ← listGet xs 0
  let y0 ← listGet ys 0
  if xr.1 ≤ x0 ∧ x0 ≤ xr.2 ∧ yr.1 ≤ y0 ∧ y0 ≤ yr.2 then appendParticle wd idx acc else return acc

/-- `_find_common_indices_info` (spatial.py:73-109). -/
def findCommon (wd : WalkData K) (xr yr : Int × Int) : Except PyErr (WalkData K) :=
  foldE (commonStep wd xr yr) { xinds := [], yinds := [], times := [], opt := wd.opt.map fun e => (e.1, []) } (List.range wd.xinds.length)

section
variable (A : Arith K)

/-- One chunk (spatial.py:64-69, 157-165): `region` is the region of interest for the chunk. -/
def chunkTimes (wd : WalkData K) (ct : Grid Int) (region : Int × Int → Int × Int → Grid Int) (r c : Int × Int) : Except PyErr (Option (List (Fl K))) :=
  if anyInRegion ct r c then do
    let w ← findCommon wd r c
    let e ← exposureTime A w (region r c)
    return some e.times
  else return none

/-- The loops over chunks, row by row (spatial.py:57-69, 149-165). -/
def allChunks (wd : WalkData K) (ct : Grid Int) (region : Int × Int → Int × Int → Grid Int) (ny nx res : Int) : Except PyErr (List (Option (List (Fl K)))) :=
  mapE (fun rc : Nat × Nat => chunkTimes A wd ct region (chunkBounds ct.rows ny res rc.1) (chunkBounds ct.cols nx res rc.2))
    ((List.range ny.toNat).flatMap fun r => (List.range nx.toNat).map fun c => (r, c))

/-- `systemwide` (spatial.py:18-71). A cell type array whose shape differs from that of the elevation (`size`) raises IndexError at line 51. -/
def systemwide (wd : WalkData K) (size : Nat × Nat) (ct : Grid Int) (res : Int) : Except PyErr (List (Option (List (Fl K)))) :=
  if ct.rows ≠ size.1 ∨ ct.cols ≠ size.2 then .error .indexError
  else do
    let ny ← floorDiv size.1 res
    let nx ← floorDiv size.2 res
    allChunks A wd ct (fun _ _ => regionsOf ct) ny nx res

/-- `localized` (spatial.py:111-167). -/
def localized (wd : WalkData K) (size : Nat × Nat) (ct : Grid Int) (res : Int) : Except PyErr (List (Option (List (Fl K)))) := do
  let ny ← floorDiv size.1 res
  let nx ← floorDiv size.2 res
  if ct.rows ≠ size.1 ∨ ct.cols ≠ size.2 then .error .indexError
  else allChunks A wd ct (regionChunk ct) ny nx res

/-! ## Percentiles -/

/-- `np.linspace(a, b, n)` (spatial.py:223): the last element is exactly `b`. Simplification: the step does not underflow to zero. -/
def linspace (a b : Fl K) (n : Nat) : List (Fl K) :=
  (List.range n).map fun (k : Nat) => if k + 1 = n ∧ 1 < n then b else
    A.add (A.mul (.fin (A.rnd (k : K))) (A.div (A.sub b a) (.fin (A.rnd ((n - 1 : Nat) : K))))) a

/-- `percentile_from_cdf` (spatial.py:169-175): `none` is the Python float `np.nan`. -/
def percentileFromCdf (cdf grid : List (Fl K)) (p : K) : Option (Fl K) :=
  grid[searchSorted (fun m => Fl.npLt (cdf.getD m .nan) (.fin p)) cdf.length]?

/-- `percentile / timedelta` (spatial.py:229-231): a Python float divided by zero raises, a numpy float does not. -/
def perTime (p : Option (Fl K)) (timedelta : K) : Except PyErr (Fl K) :=
  match p with
  | some x => .ok (A.div x (.fin timedelta))
  | none => if timedelta = 0 then .error .zeroDivisionError else .ok .nan

/-- The normalised cumulative sum of the density on the grid (spatial.py:224-225). -/
def cdfOf (dens : List (Fl K)) : List (Fl K) :=
  let c := (List.range dens.length).map fun k => cumsum A (fun i => dens.getD i .nan) k
  c.map fun x => A.div x (c.getLast?.getD .nan)

/-- Exposure times used for the density (spatial.py:216). -/
def usedTimes (l : List (Fl K)) : List (Fl K) := l.filter fun x => !(Fl.eq x (.fin 0)) && !x.isNan

/-- The three percentiles of one chunk (spatial.py:215-235); `kde` is `gaussian_kde`, which may raise. -/
def chunkPercentiles (kde : List (Fl K) → Except PyErr (Fl K → Fl K)) (timedelta : K) (item : Option (List (Fl K))) : Except PyErr (Fl K × Fl K × Fl K) :=
  match item with
  | none => .ok (.nan, .nan, .nan)
  | some l =>
    if l.length = 0 ∨ (usedTimes l).dedup.length < 5 then .ok (.nan, .nan, .nan)
    else do
      let dens ← kde (usedTimes l)
      let lo ← minTime (usedTimes l)
      let hi ← maxTime (usedTimes l)
      let grid := linspace A lo hi 1000
      let cdf := cdfOf A (grid.map dens)
      let p50 ← perTime A (percentileFromCdf cdf grid (A.rnd (1 / 2))) timedelta
      let p75 ← perTime A (percentileFromCdf cdf grid (A.rnd (3 / 4))) timedelta
      let p90 ← perTime A (percentileFromCdf cdf grid (A.rnd (9 / 10))) timedelta
      return (p50, p75, p90)

/-- `np.array(l).reshape((a, b))` (spatial.py:240-242); one of the numbers may be -1. -/
def reshape (l : List (Fl K)) (a b : Int) : Except PyErr (Grid (Fl K)) :=
  let grid (r c : Nat) : Grid (Fl K) := ⟨r, c, fun i j => l.getD (i * c + j) .nan⟩
  if 0 ≤ a ∧ 0 ≤ b then (if (l.length : Int) = a * b then .ok (grid a.toNat b.toNat) else .error .valueError)
  else if a = -1 ∧ 0 < b then (if (l.length : Int) % b = 0 then .ok (grid (l.length / b.toNat) b.toNat) else .error .valueError)
  else if b = -1 ∧ 0 < a then (if (l.length : Int) % a = 0 then .ok (grid a.toNat (l.length / a.toNat)) else .error .valueError)
  else .error .valueError

/-! ## Outlier filter -/

/-- `np.median` of NaN-free values (spatial.py:284-285): NaN if there are none. Simplification: for an odd number the middle value itself. -/
def median (l : List (Fl K)) : Fl K :=
  let s := sortFl l
  if s.length % 2 = 1 then s.getD (s.length / 2) .nan
  else A.div (A.add (s.getD (s.length / 2 - 1) .nan) (s.getD (s.length / 2) .nan)) (.fin 2)

/-- `np.mean` (spatial.py:290). -/
def mean (l : List (Fl K)) : Fl K := A.div (numpySum A.add (.fin 0) l) (.fin (A.rnd (l.length : K)))

/-- The non-NaN values in the window around a cell, row by row (spatial.py:275-280). -/
def windowOf (g : Grid (Fl K)) (w : Int) (i j : Nat) : List (Fl K) :=
  let h := w.fdiv 2
  let r0 := sliceBound g.rows (max ((i : Int) - h) 0)
  let r1 := sliceBound g.rows (min ((i : Int) + h + 1) g.rows)
  let c0 := sliceBound g.cols (max ((j : Int) - h) 0)
  let c1 := sliceBound g.cols (min ((j : Int) + h + 1) g.cols)
  ((List.range' r0 (r1 - r0)).flatMap fun a => (List.range' c0 (c1 - c0)).map fun b => g.at' a b).filter fun x => !x.isNan

/-- The value computed for one cell (spatial.py:272-290). -/
def madCell (g : Grid (Fl K)) (w : Int) (threshold : Fl K) (i j : Nat) : Fl K :=
  if (g.at' i j).isNan then .nan
  else
    let win := windowOf g w i j
    if win.length = 0 then .nan
    else
      let m := median A win
      let mad := median A (win.map fun x => (A.sub x m).abs)
      if Fl.eq mad (.fin 0) then m
      else
        let kept := win.filter fun x => Fl.le (A.sub x m).abs (A.mul threshold mad)
        if kept.length = 0 then .nan else mean A kept

/-- `median_absolute_deviation_filter` (spatial.py:249-291). -/
def madFilter (g : Grid (Fl K)) (w : Int) (threshold : Fl K) : Grid (Fl K) := ⟨g.rows, g.cols, madCell A g w threshold⟩

/-- `compute_thresholds` (spatial.py:177-247). -/
def computeThresholds (kde : List (Fl K) → Except PyErr (Fl K → Fl K)) (data : List (Option (List (Fl K)))) (size : Nat × Nat) (timedelta : K) (res w : Int)
    (threshold : Fl K) : Except PyErr (Grid (Fl K) × Grid (Fl K) × Grid (Fl K)) := do
  let p ← mapE (chunkPercentiles A kde timedelta) data
  let ny ← floorDiv size.1 res
  let nx ← floorDiv size.2 res
  let e50 ← reshape (p.map (·.1)) ny nx
  let e75 ← reshape (p.map (·.2.1)) ny nx
  let e90 ← reshape (p.map (·.2.2)) ny nx
  return (madFilter A e50 w threshold, madFilter A e75 w threshold, madFilter A e90 w threshold)

end

end Dorado
