import Verif.Model.Nourish
import Mathlib.Algebra.Order.Floor.Ring

/-!
# Model of `/repo/dorado/routines.py`

Figures and files written are not modelled, only the data they show and the exceptions raised on the way.
-/

namespace Dorado

variable {K : Type} [Field K] [LinearOrder K]

/-! ## Slices of walk data -/

/-- The lists filled by `get_state` and `get_time_state` (routines.py:436-447, 520-529). -/
structure GotState (K : Type) where
  xs : List Int
  ys : List Int
  ts : List (Fl K)
  opt : List (String × List (Val K))
  deriving DecidableEq, Repr

/-- `walk_data[var][ii][k]` (routines.py:452-456). -/
def cellAt {α : Type} (l : List (List α)) (ii : Nat) (k : Int) : Except PyErr α := do
  let row ← listGet l ii
  pyGet row k

/-- `optional_data[var].append(walk_data[var][ii][k])` for all optional variables (routines.py:455-456): the lists and the exception, if any. -/
def pushOpt (ii : Nat) (k : Int) : List (String × List (List (Val K))) → GotState K → GotState K × Option PyErr
  | [], acc => (acc, none)
  | e :: rest, acc =>
    match cellAt e.2 ii k with
    | .error err => (acc, some err)
    | .ok v => pushOpt ii k rest { acc with opt := dictSet acc.opt e.1 ((dictGet acc.opt e.1).getD [] ++ [v]) }

/-- The body of the `try` block (routines.py:452-456), also of the handler (459-463): what was appended before an exception stays appended. -/
def pushAll (wd : WalkData K) (ii : Nat) (k : Int) (acc : GotState K) : GotState K × Option PyErr :=
  match cellAt wd.xinds ii k with
  | .error err => (acc, some err)
  | .ok x =>
    match cellAt wd.yinds ii k with
    | .error err => ({ acc with xs := acc.xs ++ [x] }, some err)
    | .ok y =>
      match cellAt wd.times ii k with
      | .error err => ({ acc with xs := acc.xs ++ [x], ys := acc.ys ++ [y] }, some err)
      | .ok t => pushOpt ii k wd.opt { acc with xs := acc.xs ++ [x], ys := acc.ys ++ [y], ts := acc.ts ++ [t] }

/-- One particle in `get_state` (routines.py:450-464). The only exception of the `try` block is IndexError. -/
def stateStep (wd : WalkData K) (k : Int) (acc : GotState K) (ii : Nat) : Except PyErr (GotState K) :=
  match pushAll wd ii k acc with
  | (acc1, none) => .ok acc1
  | (acc1, some _) =>
    match pushAll wd ii (-1) acc1 with
    | (acc2, none) => .ok acc2
    | (_, some err) => .error err

/-- Empty lists (routines.py:436-447). -/
def emptyState (wd : WalkData K) : GotState K := ⟨[], [], [], wd.opt.map fun e => (e.1, [])⟩

/-- `get_state` (routines.py:393-474). The optional part of the result is returned only if it is not empty, see `unpack3`, `unpack4`.
The log message is in `getStateNote`. -/
def getState (wd : WalkData K) (k : Int) : Except PyErr (GotState K) :=
  foldE (stateStep wd k) (emptyState wd) (List.range wd.xinds.length)

/-- One particle in `get_state` with the counter `iter_exceeds_warning` (routines.py:441, 450-464), raised in the handler. -/
def stateStepNote (wd : WalkData K) (k : Int) (st : GotState K × Nat) (ii : Nat) : Except PyErr (GotState K × Nat) := do
  let acc ← stateStep wd k st.1 ii
  return (acc, if (pushAll wd ii k st.1).2.isSome then st.2 + 1 else st.2)

/-- `get_state` with the number of particles in its log message (routines.py:466-469), `none` if there is no message. -/
def getStateNote (wd : WalkData K) (k : Int) : Except PyErr (GotState K × Option Nat) := do
  let r ← foldE (stateStepNote wd k) (emptyState wd, 0) (List.range wd.xinds.length)
  return (r.1, if 0 < r.2 then some r.2 else none)

/-- `x, y, t = get_state(...)`: ValueError if there are optional variables (routines.py:471-474). -/
def unpack3 (g : GotState K) : Except PyErr (List Int × List Int × List (Fl K)) :=
  if g.opt = [] then .ok (g.xs, g.ys, g.ts) else .error .valueError

/-- `x, y, t, o = get_state(...)`: ValueError if there are no optional variables (routines.py:471-474). -/
def unpack4 (g : GotState K) : Except PyErr (List Int × List Int × List (Fl K) × List (String × List (Val K))) :=
  if g.opt = [] then .error .valueError else .ok (g.xs, g.ys, g.ts, g.opt)

/-- Loop of `np.argmin` (routines.py:535): the first NaN, else the first minimum. -/
def argminGo : Fl K → Nat → Nat → List (Fl K) → Nat
  | _, best, _, [] => best
  | mp, best, i, x :: l => if mp.isNan then best else if Fl.le mp x then argminGo mp best (i + 1) l else argminGo x i (i + 1) l

/-- `np.argmin` (routines.py:535): ValueError for an empty array. -/
def argmin : List (Fl K) → Except PyErr Nat
  | [] => .error .valueError
  | x :: l => .ok (argminGo x 0 1 l)

section
variable (A : Arith K)

/-- One particle in `get_time_state` (routines.py:532-544). -/
def timeStateStep (wd : WalkData K) (target : Fl K) (acc : GotState K) (ii : Nat) : Except PyErr (GotState K) := do
  let ts ← listGet wd.times ii
  let tt ← argmin (ts.map fun t => Fl.abs (A.sub t target))
  match pushAll wd ii tt acc with
  | (acc1, none) => .ok acc1
  | (_, some err) => .error err

/-- `get_time_state` (routines.py:476-549). The log messages are in `getTimeStateNote`. -/
def getTimeState (wd : WalkData K) (target : Fl K) : Except PyErr (GotState K) :=
  foldE (timeStateStep A wd target) (emptyState wd) (List.range wd.xinds.length)

/-- One particle in `get_time_state` with the particles named in log messages so far (routines.py:532-547). -/
def timeStateStepNote (wd : WalkData K) (target : Fl K) (st : GotState K × List Nat) (ii : Nat) : Except PyErr (GotState K × List Nat) := do
  let acc ← timeStateStep A wd target st.1 ii
  let ts ← listGet wd.times ii
  let last ← lastOf ts
  return (acc, if Fl.lt last target then st.2 ++ [ii] else st.2)

/-- `get_time_state` with the particles named in its log messages (routines.py:476-549). -/
def getTimeStateNote (wd : WalkData K) (target : Fl K) : Except PyErr (GotState K × List Nat) :=
  foldE (timeStateStepNote A wd target) (emptyState wd, []) (List.range wd.xinds.length)

/-- `plot_state` (routines.py:1054-1097): the plotted rows and columns. -/
def plotState (wd : WalkData K) (iteration : Int) (target : Option (Fl K)) : Except PyErr (List Int × List Int) :=
  match target with
  | none => do
    let g ← getState wd iteration
    let r ← unpack3 g
    return (r.1, r.2.1)
  | some t => do
    let g ← getTimeState A wd t
    let r ← unpack3 g
    return (r.1, r.2.1)

/-! ## Exposure time curves -/

/-- Python `max(list)` (routines.py:657). -/
def maxTime : List (Fl K) → Except PyErr (Fl K)
  | [] => .error .valueError
  | x :: l => .ok (l.foldl (fun m a => if Fl.lt m a then a else m) x)

/-- Python `min(list)` (routines.py:659). -/
def minTime : List (Fl K) → Except PyErr (Fl K)
  | [] => .error .valueError
  | x :: l => .ok (l.foldl (fun m a => if Fl.lt a m then a else m) x)

/-- The exact cumulative curve (routines.py:656-677, 842-857): times, fractions and end time. -/
structure Curve (K : Type) where
  times : List (Fl K)
  fracs : List (Fl K)
  endTime : Fl K
  deriving DecidableEq, Repr

/-- The exposure times shown (routines.py:663-665, 847-848). -/
def shownTimes (expo : List (Fl K)) (endTime : Fl K) : List (Fl K) :=
  (expo.filter fun x => Fl.lt (.fin (A.rnd (1 / 1000000))) x).filter fun x => Fl.lt x (A.mul (.fin (A.rnd (99 / 100))) endTime)

/-- The vectors `full_time_vect` and `frac_exited` (routines.py:656-677, 842-857); `np` is the number of particles, `ends` their final times. -/
def exposureCurve (np : Nat) (ends expo : List (Fl K)) (uniform : Bool) : Except PyErr (Curve K) := do
  let endTime ← if uniform then maxTime ends else minTime ends
  let shown := shownTimes A expo endTime
  return { times := .fin 0 :: sortFl shown ++ [endTime]
           fracs := (List.range (shown.length + 1)).map (fun (k : Nat) => A.div (.fin (A.rnd (k : K))) (.fin (A.rnd (np : K)))) ++
             [A.div (.fin (A.rnd (shown.length : K))) (.fin (A.rnd (np : K)))]
           endTime := endTime }

/-- `np.linspace(0, end, n)` (routines.py:697, 862): the last element is exactly `end`. -/
def linspace0 (endTime : Fl K) (n : Nat) : List (Fl K) :=
  (List.range n).map fun (k : Nat) => if k + 1 = n ∧ 1 < n then endTime else
    if n = 1 then .fin 0 else A.mul (.fin (A.rnd (k : K))) (A.div endTime (.fin (A.rnd ((n - 1 : Nat) : K))))

/-- `interp1d(times, fracs, kind='previous')` at `x` (routines.py:694-698, 859-863): ValueError outside the range of the times, else the fraction
at the last time not after `x`; the pairs are first sorted by time (stably). Simplification: no NaN among the times. -/
def prevInterp (pairs : List (Fl K × Fl K)) (x : Fl K) : Except PyErr (Fl K) :=
  let sorted := pairs.insertionSort fun a b => Fl.le a.1 b.1 = true
  match sorted, sorted.getLast? with
  | first :: _, some last =>
    if Fl.lt x first.1 || Fl.lt last.1 x then .error .valueError
    else match (sorted.filter fun p => Fl.le p.1 x).getLast? with
      | some p => .ok p.2
      | none => .ok first.2
  | _, _ => .error .valueError

/-- The smoothed curve (routines.py:694-698, 859-863): times and fractions. Negative `nbins` is a ValueError. -/
def smoothCurve (c : Curve K) (nbins : Int) : Except PyErr (List (Fl K) × List (Fl K)) :=
  if nbins < 0 then .error .valueError
  else do
    let ts := linspace0 A c.endTime nbins.toNat
    let ys ← mapE (prevInterp (c.times.zip c.fracs)) ts
    return (ts, ys)

/-- The levels reported (routines.py:712, 875-877). -/
def levels : List K := [A.rnd (1 / 2), A.rnd (3 / 4), A.rnd (9 / 10)]

/-- Time reported for one level by `plot_exposure_time` (routines.py:718-727): `none` is "not reached". The maximum of the fractions is the last one. -/
def levelTime (c : Curve K) (timedelta : K) (lv : K) : Except PyErr (Option (Fl K)) := do
  let last ← lastOf c.fracs
  if Fl.le (.fin lv) (A.add last (.fin (A.rnd (1 / 1000000000000)))) then
    let k := searchSorted (fun m => Fl.lt (c.fracs.getD m .nan) (.fin lv)) c.fracs.length
    let t ← listGet c.times (min k (c.times.length - 1))
    return some (A.div t (.fin timedelta))
  else return none

/-- `interp1d(times, fracs, kind='linear')` at `x` (routines.py:742-745), which is `np.interp` after a range check: ValueError outside the range of the
times, the fraction itself at or after the last time, else the straight line from the last time not after `x` to the next one. Simplification: finite
times and fractions. -/
def linInterp (pairs : List (Fl K × Fl K)) (x : Fl K) : Except PyErr (Fl K) :=
  let sorted := pairs.insertionSort fun a b => Fl.le a.1 b.1 = true
  match sorted, sorted.getLast? with
  | first :: _, some last =>
    if Fl.lt x first.1 || Fl.lt last.1 x then .error .valueError
    else match (sorted.filter fun p => Fl.le p.1 x).getLast?, (sorted.filter fun p => !Fl.le p.1 x).head? with
      | some lo, some hi =>
        if Fl.eq lo.1 x then .ok lo.2
        else .ok (A.add (A.mul (A.div (A.sub hi.2 lo.2) (A.sub hi.1 lo.1)) (A.sub x lo.1)) lo.2)
      | some lo, none => .ok lo.2
      | none, _ => .ok first.2
  | _, _ => .error .valueError

/-- `np.gradient(f, h)` of a list with at least two elements (routines.py:748): one-sided differences at the ends, central ones between. -/
def gradient (f : List (Fl K)) (h : Fl K) : List (Fl K) :=
  (List.range f.length).map fun k =>
    if k = 0 then A.div (A.sub (f.getD 1 .nan) (f.getD 0 .nan)) h
    else if k + 1 = f.length then A.div (A.sub (f.getD k .nan) (f.getD (k - 1) .nan)) h
    else A.div (A.sub (f.getD (k + 1) .nan) (f.getD (k - 1) .nan)) (A.mul (.fin 2) h)

/-- The differential curve as plotted (routines.py:742-751): `smooth_time_vect[1]` requires two bins; densities are multiplied by `timedelta`. -/
def densityCurve (c : Curve K) (ts : List (Fl K)) (timedelta : K) : Except PyErr (List (Fl K)) := do
  let ys ← mapE (linInterp A (c.times.zip c.fracs)) ts
  let t1 ← listGet ts 1
  let t0 ← listGet ts 0
  return (gradient A ys (A.sub t1 t0)).map fun d => A.mul d (.fin timedelta)

/-- What `plot_exposure_time` shows (routines.py:656-759): the exact curve, the smoothed one, the reported times and the differential curve. -/
structure ExposurePlot (K : Type) where
  curve : Curve K
  smooth : List (Fl K) × List (Fl K)
  reported : List (Option (Fl K))
  density : List (Fl K)
  deriving DecidableEq, Repr

/-- `plot_exposure_time` (routines.py:552-759). Simplifications: the files are not modelled; times are not divided by `timedelta` for the axes; `timedelta`
is not zero (matplotlib may reject the infinite limits of the axes). -/
def plotExposureTime (wd : WalkData K) (expo : List (Fl K)) (timedelta : K) (nbins : Int) (uniform thresholds : Bool) : Except PyErr (ExposurePlot K) := do
  let g ← getState wd (-1)
  let r ← unpack4 g
  let c ← exposureCurve A wd.xinds.length r.2.2.1 expo uniform
  let s ← smoothCurve A c nbins
  let rep ← if thresholds then mapE (levelTime A c timedelta) (levels A) else .ok []
  let d ← densityCurve A c s.1 timedelta
  return { curve := c, smooth := s, reported := rep, density := d }

/-- `int(smooth_time_vect[idx] / timedelta)` (routines.py:875-881): IndexError if the curve does not reach the level. -/
def smoothLevel [FloorRing K] (s : List (Fl K) × List (Fl K)) (timedelta : K) (lv : K) : Except PyErr Int := do
  let t ← listGet s.1 (searchSorted (fun m => Fl.lt (s.2.getD m .nan) (.fin lv)) s.2.length)
  match A.div t (.fin timedelta) with
  | .fin x => return if 0 ≤ x then ⌊x⌋ else ⌈x⌉
  | .nan => .error .valueError
  | _ => .error .overflowError

/-- What `plot_exposure_time_thresholds` computes (routines.py:842-898): the exact curve, the smoothed one, and the reported times. -/
structure ThresholdPlot (K : Type) where
  curve : Curve K
  smooth : List (Fl K) × List (Fl K)
  reported : List Int
  deriving DecidableEq, Repr

/-- `plot_exposure_time_thresholds` (routines.py:761-898). -/
def plotExposureTimeThresholds [FloorRing K] (wd : WalkData K) (expo : List (Fl K)) (timedelta : K) (nbins : Int) (uniform : Bool) :
    Except PyErr (ThresholdPlot K) := do
  let g ← getState wd (-1)
  let r ← unpack3 g
  let c ← exposureCurve A wd.xinds.length r.2.2 expo uniform
  let s ← smoothCurve A c nbins
  let rep ← mapE (smoothLevel A s timedelta) (levels A)
  return { curve := c, smooth := s, reported := rep }

/-! ## Automated runs -/

variable (F : Fun K A)

/-- A saved figure `output<number>.png` (routines.py:88-108, 349-378): start markers, particle markers, both as (column, row), and the values giving
the colours of the markers in `time_plots`. Simplification: colour limits and the raster behind are not modelled. -/
structure IterFig (K : Type) where
  number : Nat
  start : List (Int × Int)
  pts : List (Int × Int)
  values : List (Fl K)
  deriving DecidableEq, Repr

/-- Variables of the loop of `steady_plots` and `time_plots` (routines.py:82-108, 344-378): the object, `walk_data`, the start markers and the figures saved. -/
structure PlotLoop (K : Type) where
  obj : PState K
  walk : Option (WalkData K)
  start : List (Int × Int)
  figs : List (IterFig K)

/-- The start markers, drawn in the first iteration and kept (routines.py:88-90, 100, 351-352, 357). -/
def startMarks (wd : WalkData K) (i : Nat) (old : List (Int × Int)) : Except PyErr (List (Int × Int)) :=
  if i = 0 then do
    let g ← getState wd 0
    let p ← unpack3 g
    return p.2.1.zip p.1
  else .ok old

/-- One iteration of `steady_plots` (routines.py:82-108) or `time_plots` (routines.py:344-378); `plot` tells whether the state is plotted, `times`
whether `np.percentile` is taken of the travel times (IndexError if there are none). -/
def plotStep (P : PObj K) (ω : Nat → K) (plot times : Bool) (st : PlotLoop K) (i : Nat) : Except PyErr (PlotLoop K) := do
  let r ← runIteration A F P ω st.obj none 10000
  if plot then
    let g ← getState r.returned (-1)
    let p ← unpack3 g
    let start ← startMarks r.returned i st.start
    if times ∧ p.2.2 = [] then .error .indexError
    else return { obj := r.state, walk := some r.returned, start := start
                  figs := st.figs ++ [{ number := i, start := start, pts := p.2.1.zip p.1, values := if times then p.2.2 else [] }] }
  else return { obj := r.state, walk := some r.returned, start := st.start, figs := st.figs }

/-- The loop of both functions and the final access to `walk_data` (routines.py:82-118, 344-387): the walk data returned, the object afterwards and
the figures saved. -/
def plotRuns (P : PObj K) (ω : Nat → K) (plot times : Bool) (s : PState K) (numIter : Int) :
    Except PyErr (WalkData K × PState K × List (IterFig K)) := do
  let st ← foldE (plotStep A F P ω plot times) ⟨s, none, [], []⟩ (List.range numIter.toNat)
  match st.walk with
  | none => .error .unboundLocalError
  | some w => return (w, st.obj, st.figs)

/-- `steady_plots` (routines.py:25-118). -/
def steadyPlots (P : PObj K) (ω : Nat → K) (s : PState K) (numIter : Int) (save : Bool) :
    Except PyErr (WalkData K × PState K × List (IterFig K)) :=
  plotRuns A F P ω save false s numIter

/-- `time_plots` (routines.py:297-387). -/
def timePlots (P : PObj K) (ω : Nat → K) (s : PState K) (numIter : Int) : Except PyErr (WalkData K × PState K × List (IterFig K)) :=
  plotRuns A F P ω true true s numIter

/-! ## Unsteady flow -/

/-- Content of an entry of the output directory (routines.py:201-212, 227-249): an array (csv, npy), an npz file, a directory. -/
inductive FileData (K : Type) where
  | array (g : Grid (Fl K))
  | npz (fields : List (String × Grid (Fl K)))
  | dir

/-- `sorted([x for x in os.listdir(output_base) if x.startswith(prefix)])` (routines.py:201-212) with the contents of the files. -/
def listing (dir : List (String × FileData K)) (pre : String) : List (FileData K) :=
  ((dir.filter fun e => pre.toList.isPrefixOf e.1.toList).insertionSort fun a b => a.1.toList ≤ b.1.toList).map (·.2)

/-- `np.loadtxt`/`np.load` of an array file (routines.py:227-240). Simplification: any other content is reported by `osError`. -/
def loadArray (l : List (FileData K)) (i : Nat) : Except PyErr (Grid (Fl K)) := do
  let f ← listGet l i
  match f with
  | .array g => return g
  | _ => .error .osError

/-- `data[name]` of an npz file (routines.py:242-246). -/
def npzField (fields : List (String × Grid (Fl K))) (name : String) : Except PyErr (Grid (Fl K)) :=
  match dictGet fields name with
  | some g => .ok g
  | none => .error .keyError

/-- Water depth, stage and discharge of one time step (routines.py:227-246). -/
structure FlowFields (K : Type) where
  depth : Grid (Fl K)
  stage : Grid (Fl K)
  qx : Grid (Fl K)
  qy : Grid (Fl K)

/-- Loading of step `i` (routines.py:227-249). -/
def loadStep (dir : List (String × FileData K)) (outputType : String) (i : Nat) : Except PyErr (FlowFields K) :=
  if outputType = "csv" ∨ outputType = "npy" then do
    let depth ← loadArray (listing dir "depth") i
    let stage ← loadArray (listing dir "stage") i
    let qx ← loadArray (listing dir "qx") i
    let qy ← loadArray (listing dir "qy") i
    return ⟨depth, stage, qx, qy⟩
  else if outputType = "npz" then do
    let f ← listGet (listing dir "data") i
    match f with
    | .npz fields => do
      let depth ← npzField fields "depth"
      let stage ← npzField fields "stage"
      let qx ← npzField fields "qx"
      let qy ← npzField fields "qy"
      return ⟨depth, stage, qx, qy⟩
    | _ => .error .osError
  else .error .valueError

/-- Number of elements of `np.arange(t, t*(n+1), t)` (routines.py:221). -/
def arangeLen [FloorRing K] (t : K) (n : Int) : Except PyErr Nat :=
  if t = 0 then .error .zeroDivisionError
  else match A.div (A.sub (A.mul (.fin t) (.fin (A.rnd ((n + 1 : Int) : K)))) (.fin t)) (.fin t) with
    | .fin x => .ok ⌈x⌉.toNat
    | _ => .error .valueError

/-- `target_times[i]` (routines.py:221, 260): element `i` of the range is `t + i*t`. -/
def targetTime (t : K) (len i : Nat) : Except PyErr (Fl K) :=
  if i < len then .ok (A.add (.fin t) (A.mul (.fin (A.rnd (i : K))) (.fin t))) else .error .indexError

/-- The parameters of step `i` (routines.py:184-187, 227-246). -/
def stepParams (dx : K) (f : FlowFields K) : Params K :=
  { dx := some dx, verbose := some false, depth := some f.depth, stage := some f.stage, qx := some f.qx, qy := some f.qy }

/-- Seeding in step `i` (routines.py:254-258): new particles in the first step, the previous walk data afterwards. -/
def stepSeed [FloorRing K] (P : PObj K) (ω : Nat → K) (pos : Nat) (np xs ys : PyVal K) : Option (WalkData K) → Except PyErr (PState K)
  | none => generateParticles A P ω (initState A F P pos) np xs ys (.int 0) (.str "random") none
  | some w => generateParticles A P ω (initState A F P pos) (.int 0) (.list []) (.list []) (.int 0) (.str "random") (some w)

/-- A figure saved by `unsteady_plots` (routines.py:262-285): its number, the time in its title, the water depth behind, start and particle markers. -/
structure FlowFig (K : Type) where
  number : Nat
  time : Fl K
  depth : Grid (Fl K)
  start : List (Int × Int)
  pts : List (Int × Int)

/-- Variables of the loop of `unsteady_plots` (routines.py:223-285): `walk_data`, position of the random generator, start markers, figures saved. -/
structure FlowLoop (K : Type) where
  walk : Option (WalkData K)
  pos : Nat
  start : List (Int × Int)
  figs : List (FlowFig K)

/-- One iteration of `unsteady_plots` (routines.py:223-285). The array `params.depth` shown (routines.py:268, 279) is the one the constructor has taken over
as `self.depth` and changed in place (particle_track.py:161-162). -/
def unsteadyStep [FloorRing K] (ω : Nat → K) (dx t : K) (len : Nat) (dir : List (String × FileData K)) (outputType : String) (np xs ys : PyVal K)
    (st : FlowLoop K) (i : Nat) : Except PyErr (FlowLoop K) := do
  let f ← loadStep dir outputType i
  let P ← initParticles A F (stepParams dx f)
  let s1 ← stepSeed A F P ω st.pos np xs ys st.walk
  let tgt ← targetTime A t len i
  let r ← runIteration A F P ω s1 (some tgt) 10000
  let g ← getState r.returned (-1)
  let p ← unpack3 g
  let start ← startMarks r.returned i st.start
  return { walk := some r.returned, pos := r.state.world.pos, start := start
           figs := st.figs ++ [{ number := i, time := tgt, depth := P.depth, start := start, pts := p.2.1.zip p.1 }] }

/-- Number of time steps (routines.py:213-218). -/
def numOutputs (dir : List (String × FileData K)) : Nat := max (listing dir "depth").length (listing dir "data").length

/-- `unsteady_plots` (routines.py:121-294). `dir` is the content of `output_base` after the output folders have been created; if `output_base` is
the output folder itself, it contains the new directory `data`. -/
def unsteadyPlots [FloorRing K] (ω : Nat → K) (pos : Nat) (dx : K) (np xs ys : PyVal K) (numSteps : Int) (t : K) (dir : List (String × FileData K))
    (outputType : String) : Except PyErr (WalkData K × Nat × List (FlowFig K)) := do
  let n := if numSteps > (numOutputs dir : Int) then (numOutputs dir : Int) else numSteps
  let len ← arangeLen A t n
  let st ← foldE (unsteadyStep A F ω dx t len dir outputType np xs ys) ⟨none, pos, [], []⟩ (List.range n.toNat)
  match st.walk with
  | none => .error .unboundLocalError
  | some w => return (w, st.pos, st.figs)

end

end Dorado
