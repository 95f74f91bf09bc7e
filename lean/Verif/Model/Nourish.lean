import Verif.Model.Exposure
import Mathlib.Data.List.Sort

/-!
# Model of `nourishment_area` and `nourishment_time` (`/repo/dorado/particle_track.py`, lines 1056-1194)

`scipy.ndimage.gaussian_filter` is a parameter: `smooth = none` stands for `sigma <= 0`, `smooth = some f` for `sigma > 0` with `f` the
filter.
-/

namespace Dorado

variable {K : Type} [Field K] [LinearOrder K]

/-- Elements of an array in row-major order (as seen by `np.nanpercentile`, `np.min`, `np.nanmax`; particle_track.py:1106-1117). -/
def Grid.flat {α : Type} (g : Grid α) : List α := (List.range g.rows).flatMap fun i => (List.range g.cols).map fun j => g.at' i j

/-- `np.zeros(raster_size)` (particle_track.py:1099, 1165). -/
def zerosGrid (size : Nat × Nat) : Grid (Fl K) := ⟨size.1, size.2, fun _ _ => .fin 0⟩

/-- One step of `np.min`/`np.minimum`: NaN propagates (particle_track.py:1107, 1112). -/
def Fl.npMin (a b : Fl K) : Fl K := if a.isNan then a else if b.isNan then b else if Fl.lt b a then b else a

/-- Sorted copy of NaN-free values, as used by `np.nanpercentile` (particle_track.py:1106). -/
def sortFl (l : List (Fl K)) : List (Fl K) := l.insertionSort fun a b => Fl.le a b = true

section
variable (A : Arith K)

/-- numpy's `_lerp(a, b, t)`, used by `np.nanpercentile` (particle_track.py:1106). -/
def npLerp (a b t : Fl K) : Fl K :=
  let d := A.sub b a
  if Fl.le (.fin (1 / 2)) t then A.sub b (A.mul d (A.sub (.fin 1) t)) else A.add a (A.mul d t)

/-- `np.nanpercentile(arr, q)` (particle_track.py:1106, 1184): linear interpolation at position `q/100*(n-1)` of the sorted non-NaN
values; NaN if there are none; ValueError for `q` outside [0,100]. -/
def nanpercentile [FloorRing K] (g : Grid (Fl K)) (q : K) : Except PyErr (Fl K) :=
  if q < 0 ∨ 100 < q then .error .valueError
  else
    let s := sortFl (g.flat.filter fun x => !x.isNan)
    if s.length = 0 then .ok .nan
    else do
      let h := A.rnd (((s.length - 1 : Nat) : K) * A.rnd (q / 100))
      let lo := min ⌊h⌋.toNat (s.length - 1)
      let a ← listGet s lo
      let b ← listGet s (min (lo + 1) (s.length - 1))
      return npLerp A a b (.fin (A.rnd (h - ((lo : Nat) : K))))

/-- `np.clip(arr, 0, vmax)` (particle_track.py:1107, 1185). -/
def npClip (vmax : Fl K) (g : Grid (Fl K)) : Grid (Fl K) := g.map fun x => Fl.npMin (Fl.npMax x (.fin 0)) vmax

/-- `np.min(arr)` (particle_track.py:1112, 1190); an empty array raises ValueError. -/
def gridMin (g : Grid (Fl K)) : Except PyErr (Fl K) :=
  match g.flat with
  | [] => .error .valueError
  | x :: xs => .ok (xs.foldl Fl.npMin x)

/-- `np.nanmax(arr)` (particle_track.py:1117): NaN if all are NaN, an empty array raises ValueError. -/
def gridNanmax (g : Grid (Fl K)) : Except PyErr (Fl K) :=
  match g.flat with
  | [] => .error .valueError
  | x :: xs => .ok (xs.foldl Fl.nanMax x)

/-- `arr[x, y] += v` (particle_track.py:1102-1103, 1170-1178), with Python index semantics. -/
def addAt (g : Grid (Fl K)) (x y : Int) (v : Fl K) : Except PyErr (Grid (Fl K)) := do
  let i ← pyIdx g.rows x
  let j ← pyIdx g.cols y
  return { g with at' := fun i' j' => if i' = i ∧ j' = j then A.add (g.at' i' j') v else g.at' i' j' }

/-- One record counted (particle_track.py:1102-1103). -/
def countStep (xs ys : List Int) (g : Grid (Fl K)) (jj : Nat) : Except PyErr (Grid (Fl K)) := do
  let x ← listGet xs jj
  let y ← listGet ys jj
  addAt A g x y (.fin 1)

/-- All records of particle `ii` (particle_track.py:1100-1103). -/
def countParticle (wd : WalkData K) (g : Grid (Fl K)) (ii : Nat) : Except PyErr (Grid (Fl K)) := do
  let xs ← listGet wd.xinds ii
  let ys ← listGet wd.yinds ii
  foldE (countStep A xs ys) g (List.range xs.length)

/-- Visit counts (particle_track.py:1099-1103). Simplification: a particle without records needs an entry in `yinds` too. -/
def visitFreq (wd : WalkData K) (size : Nat × Nat) : Except PyErr (Grid (Fl K)) :=
  foldE (countParticle A wd) (zerosGrid size) (List.range wd.xinds.length)

/-- `arr[arr == v] = nan` (particle_track.py:1112-1114, 1190-1192). -/
def nanWhere (v : Fl K) (g : Grid (Fl K)) : Grid (Fl K) := g.map fun x => if Fl.eq x v then .nan else x

/-- Smoothing and removal of the background (particle_track.py:1109-1114, 1187-1192). -/
def smoothOrNan (smooth : Option (Grid (Fl K) → Grid (Fl K))) (g : Grid (Fl K)) : Except PyErr (Grid (Fl K)) :=
  match smooth with
  | some f => do
    let m ← gridMin (f g)
    return nanWhere m (f g)
  | none => .ok (nanWhere (.fin 0) g)

/-- `nourishment_area` (particle_track.py:1056-1119). -/
def nourishmentArea [FloorRing K] (wd : WalkData K) (size : Nat × Nat) (smooth : Option (Grid (Fl K) → Grid (Fl K))) (clip : K) :
    Except PyErr (Grid (Fl K)) := do
  let freq ← visitFreq A wd size
  let vmax ← nanpercentile A freq clip
  let clipped := npClip vmax freq
  let masked ← smoothOrNan smooth clipped
  let top ← gridNanmax masked
  return masked.map fun x => A.div x top

/-- One interior record (particle_track.py:1168-1178): the visit count and the time `0.5*(last_dt + next_dt)`. -/
def timeStep (xs ys : List Int) (ts : List (Fl K)) (st : Grid (Fl K) × Grid (Fl K)) (jj : Nat) :
    Except PyErr (Grid (Fl K) × Grid (Fl K)) := do
  let x ← listGet xs jj
  let y ← listGet ys jj
  let freq ← addAt A st.1 x y (.fin 1)
  let t ← listGet ts jj
  let tp ← listGet ts (jj - 1)
  let tn ← listGet ts (jj + 1)
  let total ← addAt A st.2 x y (A.mul (.fin (1 / 2)) (A.add (A.sub t tp) (A.sub tn t)))
  return (freq, total)

/-- The interior records of particle `ii` (particle_track.py:1167-1178). -/
def timeParticle (wd : WalkData K) (st : Grid (Fl K) × Grid (Fl K)) (ii : Nat) : Except PyErr (Grid (Fl K) × Grid (Fl K)) := do
  let xs ← listGet wd.xinds ii
  let ys ← listGet wd.yinds ii
  let ts ← listGet wd.times ii
  foldE (timeStep A xs ys ts) st (List.range' 1 (xs.length - 2))

/-- Mean time per cell (particle_track.py:1165-1182): total time over visits, 0 where there are none. Simplification: particles without
interior records need entries in all lists. -/
def meanTime (wd : WalkData K) (size : Nat × Nat) : Except PyErr (Grid (Fl K)) := do
  let (freq, total) ← foldE (timeParticle A wd) (zerosGrid size, zerosGrid size) (List.range wd.xinds.length)
  return Grid.zip (fun t f => if Fl.eq f (.fin 0) then .fin 0 else A.div t f) total freq

/-- `nourishment_time` (particle_track.py:1122-1194). -/
def nourishmentTime [FloorRing K] (wd : WalkData K) (size : Nat × Nat) (smooth : Option (Grid (Fl K) → Grid (Fl K))) (clip : K) :
    Except PyErr (Grid (Fl K)) := do
  let mean ← meanTime A wd size
  let vmax ← nanpercentile A mean clip
  smoothOrNan smooth (npClip vmax mean)

end

end Dorado
