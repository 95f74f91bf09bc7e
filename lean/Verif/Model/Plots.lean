import Verif.Model.Routines

/-!
# Model of the drawing functions of `/repo/dorado/routines.py` (lines 904-1051, 1100-1236)

Modelled is the data handed to matplotlib (vertices, colours, file names) and the exceptions raised on the way.
-/

namespace Dorado

variable {K : Type} [Field K] [LinearOrder K]

/-- `list(range(a, b, s))` (routines.py:958, 1188, 1191): ValueError for a zero step. -/
def pyRange (a b s : Int) : Except PyErr (List Int) :=
  if s = 0 then .error .valueError
  else if 0 < s then .ok ((List.range ((b - a + s - 1) / s).toNat).map fun (k : Nat) => a + k * s)
  else .ok ((List.range ((a - b - s - 1) / (-s)).toNat).map fun (k : Nat) => a + k * s)

/-- A slice bound (CPython `PySlice_AdjustIndices`, used at routines.py:1032-1033, 1204, 1215): negative values count from the end, then clipped
to `[0,n]`, or to `[-1,n-1]` for a negative step. -/
def adjBound (n : Nat) (s v : Int) : Int :=
  if v < 0 then max (v + n) (if 0 < s then 0 else -1) else min v (if 0 < s then n else n - 1)

/-- `l[a:b:s]` (routines.py:1032-1033, 1204, 1215); `b = none` for an omitted bound. -/
def pySlice {α : Type} (l : List α) (a : Int) (b : Option Int) (s : Int) : Except PyErr (List α) := do
  let idx ← pyRange (adjBound l.length s a) ((b.map (adjBound l.length s)).getD (if 0 < s then l.length else -1)) s
  return idx.filterMap fun i => l[i.toNat]?

/-! ## Travel paths -/

/-- `particles_to_follow` (routines.py:973, 1016-1018): the string `all` or a list of particle numbers. -/
inductive Follow where
  | all
  | ids (l : List Int)
  deriving DecidableEq, Repr

/-- The list of particles followed (routines.py:1016-1018). -/
def Follow.list (f : Follow) (np : Nat) : List Int :=
  match f with
  | .all => (List.range np).map fun (i : Nat) => (i : Int)
  | .ids l => l

/-- One particle of `draw_travel_path` (routines.py:1027-1035): three random numbers for its colour, then its path as (column, row) pairs. -/
def travelPath (wd : WalkData K) (ω : Nat → K) (interval : Int) (pos : Nat) (i : Int) : Except PyErr ((List (Int × Int) × (K × K × K)) × Nat) := do
  let xs ← pyGet wd.xinds i
  let x ← pySlice xs 0 none interval
  let ys ← pyGet wd.yinds i
  let y ← pySlice ys 0 none interval
  return ((y.zip x, (ω pos, ω (pos + 1), ω (pos + 2))), pos + 3)

/-- `draw_travel_path` (routines.py:972-1051): the paths with their colours, and the position of the random generator afterwards
(`np.random.rand(3)` takes three numbers of the stream the walks use). Simplification: the legend is not modelled. -/
def drawTravelPath (wd : WalkData K) (ω : Nat → K) (pos : Nat) (follow : Follow) (interval : Int) :
    Except PyErr (List (List (Int × Int) × (K × K × K)) × Nat) :=
  mapAcc (travelPath wd ω interval) pos (follow.list wd.xinds.length)

/-! ## Snake plots -/

/-- One segment of the tail (routines.py:1212-1220): `newest` is the variable `newest_segment`. -/
def snakeSeg (seg : List (Int × Int)) (interval : Int) (newest : List (Int × Int)) (c : Int) : Except PyErr (List (Int × Int)) :=
  if 0 ≤ c - interval - 1 then pySlice seg (c - interval - 1) (some c) interval else .ok newest

/-- The loop over `chunks` (routines.py:1210-1220): the segments appended to `paths`. -/
def snakeTail (seg : List (Int × Int)) (interval : Int) : List (Int × Int) → List Int → Except PyErr (List (List (Int × Int)))
  | _, [] => .ok []
  | newest, c :: cs => do
    let n ← snakeSeg seg interval newest c
    let r ← snakeTail seg interval n cs
    return n :: r

/-- The segments of one particle (routines.py:1198-1220); none if it has fewer than `ii` records. -/
def snakeParticle (wd : WalkData K) (interval ii : Int) (chunks : List Int) (jj : Nat) : Except PyErr (List (List (Int × Int))) := do
  let x ← listGet wd.xinds jj
  let y ← listGet wd.yinds jj
  let seg := y.zip x
  let newest ← pySlice seg 0 (some 2) 1
  if (seg.length : Int) < ii then return [] else snakeTail seg interval newest chunks

/-- One figure (routines.py:1188-1236): the number in its title and file name, and the segments in drawing order. -/
structure SnakeFig where
  iter : Int
  paths : List (List (Int × Int))
  deriving DecidableEq, Repr

/-- The loop over figures (routines.py:1188-1236); it ends when there is nothing to draw. -/
def snakeFigs (wd : WalkData K) (interval tail : Int) : List Int → Except PyErr (List SnakeFig)
  | [] => .ok []
  | ii :: rest => do
    let chunks ← pyRange ii (ii - tail * interval) (-interval)
    let ps ← mapE (snakeParticle wd interval ii chunks) (List.range wd.xinds.length)
    if ps.flatten.length < 1 then return []
    else do
      let figs ← snakeFigs wd interval tail rest
      return { iter := ii, paths := ps.flatten } :: figs

section
variable (A : Arith K)

/-- Element `k` of `np.linspace(a, b, n)` (routines.py:1184-1185): the last one is exactly `b`. Simplification: the step does not underflow to zero. -/
def linspaceElem (a b : Fl K) (n k : Nat) : Fl K :=
  if k + 1 = n ∧ 1 < n then b else
    if n = 1 then a else A.add (A.mul (.fin (A.rnd (k : K))) (A.div (A.sub b a) (.fin (A.rnd ((n - 1 : Nat) : K))))) a

/-- The colours of the tail (routines.py:1180-1185): `tail_length` colours of four numbers. IndexError if a colour has fewer than four. -/
def snakeColors (rgbaStart rgbaEnd : List (Fl K)) (tail : Nat) : Except PyErr (List (List (Fl K))) := do
  let cols ← mapE (fun c => do
    let a ← listGet rgbaStart c
    let b ← listGet rgbaEnd c
    return (a, b)) (List.range 4)
  return (List.range tail).map fun k => cols.map fun ab => linspaceElem A ab.1 ab.2 tail k

/-- `snake_plots` (routines.py:1100-1236): the figures and the colours, which matplotlib repeats cyclically over the segments of a figure.
Simplification: messages are not modelled; `interval`, `num_steps`, `tail_length` are integers. -/
def snakePlots (wd : WalkData K) (numSteps interval tail : Int) (rgbaStart rgbaEnd : List (Fl K)) :
    Except PyErr (List SnakeFig × List (List (Fl K))) := do
  if tail < 0 then .error .valueError
  else do
    let colors ← snakeColors A rgbaStart rgbaEnd tail.toNat
    let iis ← pyRange interval (numSteps * interval) interval
    let figs ← snakeFigs wd interval tail iis
    return (figs, colors)

end

/-! ## Animation -/

/-- The picture files read by `animate_plots` (routines.py:939-960), one per frame. -/
def animationFiles (startVal endVal : Int) : List String :=
  (List.range (endVal - startVal).toNat).map fun (k : Nat) => "output" ++ toString (startVal + k) ++ ".png"

end Dorado
