import Verif.Model.Walker
import Mathlib.Algebra.Order.Floor.Defs

/-!
# Model of class `Particles` of `/repo/dorado/particle_track.py` (lines 128-861)
-/

namespace Dorado

variable {K : Type} [Field K] [LinearOrder K]

/-! ## Dictionaries -/

/-- `d[key]`, `key in d` for an insertion-ordered Python dict (e.g. particle_track.py:686-689). -/
def dictGet {β : Type} (d : List (String × β)) (key : String) : Option β :=
  (d.find? fun e => e.1 == key).map (·.2)

/-- `d[key] = v`: overwrites in place or appends (e.g. particle_track.py:686-689). -/
def dictSet {β : Type} (d : List (String × β)) (key : String) (v : β) : List (String × β) :=
  if d.any fun e => e.1 == key then d.map fun e => if e.1 == key then (key, v) else e
  else d ++ [(key, v)]

/-- Walk data dictionary (particle_track.py:616-623): the three base entries and the optional ones.
Simplification: the three base keys are always present. -/
structure WalkData (K : Type) where
  xinds : List (List Int)
  yinds : List (List Int)
  times : List (List (Fl K))
  opt : List (String × List (List (Val K)))
  deriving DecidableEq, Repr

/-- Mutable part of a `Particles` object (particle_track.py:405-411) and the random stream position. -/
structure PState (K : Type) where
  world : World K
  np : Nat
  walk : Option (WalkData K)

/-! ## Constructor -/

/-- `params` (modelParams, particle_track.py:109-125, and the optional attributes read by the constructor);
`none` means missing or None.  Simplifications: numeric attributes are finite numbers of the right type, tables are 3×3; `dry_depth`, `cell_type` and
the tables are missing rather than None (None raises an exception there); `qx`, `qy`, `u`, `v` are None rather than missing, as `modelParams` sets them. -/
structure Params (K : Type) where
  verbose : Option Bool := none
  dx : Option K := none
  depth : Option (Grid (Fl K)) := none
  stage : Option (Grid (Fl K)) := none
  topography : Option (Grid (Fl K)) := none
  deltaRCM : Bool := false
  qx : Option (Grid (Fl K)) := none
  qy : Option (Grid (Fl K)) := none
  u : Option (Grid (Fl K)) := none
  v : Option (Grid (Fl K)) := none
  theta : Option K := none
  gamma : Option K := none
  diffCoeff : Option K := none
  dryDepth : Option K := none
  cellType : Option (Grid Int) := none
  steepest : Option Bool := none
  distances : Option (Nat → Fl K) := none
  ivec : Option (Nat → Fl K) := none
  jvec : Option (Nat → Fl K) := none
  iwalk : Option (Nat → Int) := none
  jwalk : Option (Nat → Int) := none
  angles : Option (Nat → Fl K) := none
  roi : Option (Grid (Fl K)) := none
  particleVars : Option (List String) := none

section ctor
variable (A : Arith K) (F : Fun K A)

/-- The constant `1e-8`, rounded (particle_track.py:210, 258-260). -/
def eps8 : K := A.rnd (1 / 100000000)

/-- `x[np.isnan(x)] = 0` (particle_track.py:162, 209). -/
def nanZeroGrid (g : Grid (Fl K)) : Grid (Fl K) := g.map Fl.nanTo0

/-- Shapes must agree, otherwise numpy raises (particle_track.py:170-175, 191-195; caught and re-raised as ValueError, or an uncaught operand error
which is a ValueError too). Simplification: numpy broadcasting of mismatched shapes is an error. -/
def needShape {α β : Type} (g : Grid α) (h : Grid β) : Except PyErr Unit :=
  if g.sameShape h then .ok () else .error .valueError

/-- Water depth (particle_track.py:158-177). -/
def initDepth (p : Params K) : Except PyErr (Grid (Fl K)) :=
  match p.depth, p.stage, p.topography with
  | some d, _, _ => .ok (nanZeroGrid d)
  | none, some s, some t => do
    needShape s t
    let d := Grid.zip A.sub s t
    let d := d.map fun x => if Fl.lt x (.fin 0) then .fin 0 else x
    return nanZeroGrid d
  | _, _, _ => .error .valueError

/-- `stage[depth == 0] = nan` (particle_track.py:183, 193). -/
def stageNan (stage depth : Grid (Fl K)) : Grid (Fl K) :=
  Grid.zip (fun s d => if Fl.eq d (.fin 0) then .nan else s) stage depth

/-- Water stage (particle_track.py:179-197). In the derived case `params.depth` is the array whose NaNs were
already overwritten at line 162, i.e. `depth`.  Assumes `params.stage` and `params.depth` are different arrays (Model/Build does not). -/
def initStage (p : Params K) (depth : Grid (Fl K)) : Except PyErr (Grid (Fl K)) :=
  match p.stage, p.topography, p.depth with
  | some s, _, _ => do
    needShape s depth
    return stageNan s depth
  | none, some t, some _ => do
    needShape t depth
    return stageNan (Grid.zip A.add t depth) depth
  | _, _, _ => .error .valueError

/-- `-1 * a` (particle_track.py:232, 243). -/
def negGrid (g : Grid (Fl K)) : Grid (Fl K) := g.map Fl.neg

/-- `q*depth/(depth**2 + 1e-8)` with NaN→0 (particle_track.py:210-211). -/
def velFromQ (q depth : Grid (Fl K)) : Grid (Fl K) :=
  nanZeroGrid (Grid.zip (fun q d => A.div (A.mul q d) (A.add (A.mul d d) (.fin (eps8 A)))) q depth)

/-- Discharge and velocity `(qx, qy, u, v)` from the given pair, already in the internal orientation
(particle_track.py:206-253): `fromQ` if discharges were given, else from velocities. -/
def flowFromQ (a b depth : Grid (Fl K)) : Except PyErr (Grid (Fl K) × Grid (Fl K) × Grid (Fl K) × Grid (Fl K)) := do
  needShape a depth
  needShape b depth
  let qx := nanZeroGrid a
  let qy := nanZeroGrid b
  return (qx, qy, velFromQ A qx depth, velFromQ A qy depth)

/-- Velocities given (particle_track.py:218-225, 242-249). -/
def flowFromU (a b depth : Grid (Fl K)) : Except PyErr (Grid (Fl K) × Grid (Fl K) × Grid (Fl K) × Grid (Fl K)) := do
  needShape a depth
  needShape b depth
  let u := nanZeroGrid a
  let v := nanZeroGrid b
  return (Grid.zip A.mul u depth, Grid.zip A.mul v depth, u, v)

/-- Discharge and velocity fields (particle_track.py:205-253). Non-DeltaRCM input is rotated:
`qx = -params.qy`, `qy = params.qx`, `u = -params.v`, `v = params.u`. -/
def initFlow (p : Params K) (depth : Grid (Fl K)) :
    Except PyErr (Grid (Fl K) × Grid (Fl K) × Grid (Fl K) × Grid (Fl K)) :=
  match p.deltaRCM, p.qx, p.qy, p.u, p.v with
  | true, some qx, some qy, _, _ => flowFromQ A qx qy depth
  | true, _, _, some u, some v => flowFromU A u v depth
  | false, some qx, some qy, _, _ => flowFromQ A (negGrid qy) qx depth
  | false, _, _, some u, some v => flowFromU A (negGrid v) u depth
  | _, _, _, _, _ => .error .valueError

/-- `np.sqrt` elementwise; negative arguments give NaN (particle_track.py:256). -/
def npSqrt (x : Fl K) : Fl K :=
  match x with
  | .fin y => if y < 0 then .nan else .fin (F.sqrt y)
  | .pinf => .pinf
  | _ => .nan

/-- `np.arctan2` elementwise (particle_track.py:262), infinite arguments as in C99; zero counts as positive. -/
def npArctan2 (y x : Fl K) : Fl K :=
  match y, x with
  | .nan, _ => .nan
  | _, .nan => .nan
  | .fin a, .fin b => .fin (F.arctan2 a b)
  | .fin _, .pinf => .fin 0
  | .fin a, .ninf => .fin (if a < 0 then -F.pi else F.pi)
  | .pinf, .fin _ => .fin (A.rnd (F.pi / 2))
  | .pinf, .pinf => .fin (A.rnd (F.pi / 4))
  | .pinf, .ninf => .fin (A.rnd (3 * F.pi / 4))
  | .ninf, .fin _ => .fin (-A.rnd (F.pi / 2))
  | .ninf, .pinf => .fin (-A.rnd (F.pi / 4))
  | .ninf, .ninf => .fin (-A.rnd (3 * F.pi / 4))

/-- Velocity magnitude, clamped from below (particle_track.py:256-258). -/
def initVelocity (u v : Grid (Fl K)) : Grid (Fl K) :=
  (Grid.zip (fun a b => npSqrt A F (A.add (A.mul a a) (A.mul b b))) u v).map fun x =>
    if Fl.lt x (.fin (eps8 A)) then .fin (eps8 A) else x

/-- `u[np.abs(u) < 1e-8] = 1e-8` (particle_track.py:259-260). -/
def clampSmall (g : Grid (Fl K)) : Grid (Fl K) :=
  g.map fun x => if Fl.lt (Fl.abs x) (.fin (eps8 A)) then .fin (eps8 A) else x

/-- Default cell types (particle_track.py:313-317): 2 where depth < dry_depth, the outer ring -1.
Simplification: the array has at least 2 rows and columns (see `initCellType`). -/
def defaultCellType (depth : Grid (Fl K)) (dry : K) : Grid Int :=
  ⟨depth.rows, depth.cols, fun i j =>
    if interiorB depth.rows depth.cols i j then
      (if Fl.lt (depth.at' i j) (.fin dry) then 2 else 0)
    else -1⟩

/-- `diff_coeff` (particle_track.py:283-300). -/
def initDiff (p : Params K) : K :=
  match p.diffCoeff with
  | some d => if d < 0 then 0 else d
  | none => if p.steepest = some true then 0 else A.rnd (1 / 5)

/-- Is flat index `k` a corner of the 3×3 table? (particle_track.py:343-363) -/
def isCorner (k : Nat) : Bool := k == 0 || k == 2 || k == 6 || k == 8

/-- Default D8 distances (particle_track.py:343-345). -/
def defaultDistances : Nat → Fl K := fun k => if isCorner k then .fin (F.sqrt 2) else .fin 1

/-- Default `ivec` (particle_track.py:352-354). -/
def defaultIvec : Nat → Fl K := fun k =>
  if k = 0 ∨ k = 6 then .fin (-(F.sqrt (1 / 2)))
  else if k = 2 ∨ k = 8 then .fin (F.sqrt (1 / 2))
  else if k = 3 then .fin (-1) else if k = 5 then .fin 1 else .fin 0

/-- Default `jvec` (particle_track.py:361-363). -/
def defaultJvec : Nat → Fl K := fun k =>
  if k = 0 ∨ k = 2 then .fin (-(F.sqrt (1 / 2)))
  else if k = 6 ∨ k = 8 then .fin (F.sqrt (1 / 2))
  else if k = 1 then .fin (-1) else if k = 7 then .fin 1 else .fin 0

/-- Default `iwalk` (particle_track.py:370-372). -/
def defaultIwalk : Nat → Int := fun k =>
  if k = 0 ∨ k = 3 ∨ k = 6 then -1 else if k = 2 ∨ k = 5 ∨ k = 8 then 1 else 0

/-- Default `jwalk` (particle_track.py:379-381). -/
def defaultJwalk : Nat → Int := fun k =>
  if k = 0 ∨ k = 1 ∨ k = 2 then -1 else if k = 6 ∨ k = 7 ∨ k = 8 then 1 else 0

/-- Default `angles` (particle_track.py:388-390), each product and quotient rounded. -/
def defaultAngles : Nat → Fl K := fun k =>
  if k = 0 then .fin (A.rnd (A.rnd (3 * F.pi) / 4)) else if k = 1 then .fin (A.rnd (F.pi / 2))
  else if k = 2 then .fin (A.rnd (F.pi / 4)) else if k = 3 then .fin F.pi
  else if k = 6 then .fin (A.rnd (A.rnd (5 * F.pi) / 4)) else if k = 7 then .fin (A.rnd (A.rnd (3 * F.pi) / 2))
  else if k = 8 then .fin (A.rnd (A.rnd (7 * F.pi) / 4)) else .fin 0

/-- Tracked optional variables (particle_track.py:431-443): `roi_flag` is added when a region grid is given. -/
def initVars (p : Params K) : List String :=
  let vars := p.particleVars.getD []
  if !(vars.contains "roi_flag") && p.roi.isSome then vars ++ ["roi_flag"] else vars

/-- `dx` is required (particle_track.py:152-156). -/
def initDx (p : Params K) : Except PyErr K :=
  match p.dx with
  | some d => .ok d
  | none => .error .valueError

/-- Cell types: given ones, else estimated from depth (particle_track.py:310-317). Arrays with an empty axis are rejected by `clear_borders`
(lagrangian_walker.py:142-145, reached from particle_track.py:411) with IndexError. So are arrays with a single row or column if the cell types are estimated: `np.pad`
makes two of it, and the mask made from the cell types does not fit (lagrangian_walker.py:188). Simplification: a user supplied array must have the shape of
depth. -/
def initCellType (p : Params K) (depth : Grid (Fl K)) (dry : K) : Except PyErr (Grid Int) :=
  match p.cellType with
  | some c => do
    needShape c depth
    if depth.rows = 0 ∨ depth.cols = 0 then .error .indexError else return c
  | none => if depth.rows < 2 ∨ depth.cols < 2 then .error .indexError else .ok (defaultCellType depth dry)

/-- Shape check of the region grid (particle_track.py:393-402). -/
def checkRoi (p : Params K) (depth : Grid (Fl K)) : Except PyErr Unit :=
  match p.roi with
  | some g => needShape g depth
  | none => .ok ()

/-- `Particles.__init__` (particle_track.py:131-443): the static attributes. The weight array, `Np_tracer = 0` and
`walk_data = None` are set by `initState`. Simplification: in-place changes to the caller's arrays are not modelled. -/
def initParticles (p : Params K) : Except PyErr (PObj K) := do
  let dx ← initDx p
  let depth ← initDepth A p
  let stage ← initStage A p depth
  let (qx, qy, u, v) ← initFlow A p depth
  let velocity := initVelocity A F u v
  let u := clampSmall A u
  let v := clampSmall A v
  let va := Grid.zip (npArctan2 A F) (u.map Fl.neg) v
  let dry := p.dryDepth.getD (A.rnd (1 / 10))
  let _ ← checkRoi p depth
  let cellType ← initCellType p depth dry
  return {
    verbose := p.verbose.getD true
    dx := dx
    depth := depth
    stage := stage
    qx := qx
    qy := qy
    u := u
    v := v
    velocity := velocity
    velocityAngle := va
    theta := p.theta.getD 1
    gamma := p.gamma.getD (A.rnd (1 / 20))
    diffCoeff := initDiff A p
    dryDepth := dry
    cellType := cellType
    steepest := p.steepest == some true
    distances := p.distances.getD (defaultDistances A F)
    ivec := p.ivec.getD (defaultIvec A F)
    jvec := p.jvec.getD (defaultJvec A F)
    iwalk := p.iwalk.getD defaultIwalk
    jwalk := p.jwalk.getD defaultJwalk
    angles := p.angles.getD (defaultAngles A F)
    roi := p.roi
    particleVars := initVars p }

/-- Mutable state right after construction (particle_track.py:405-411); `pos` is the current position of numpy's
global random stream. -/
def initState (P : PObj K) (pos : Nat) : PState K :=
  { world := { weight := makeWeight A F P, pos := pos }, np := 0, walk := none }

end ctor

/-! ## Input check -/

/-- The Python values considered for the arguments of `generate_particles` (particle_track.py:832-851). `nd` is a numpy array, already flattened. -/
inductive PyVal (K : Type) where
  | none
  | bool (b : Bool)
  | int (i : Int)
  | flt (x : Fl K)
  | str (s : String)
  | list (l : List (PyVal K))
  | nd (l : List (PyVal K))

/-- Value of a digit sequence in front of which `n` has been read (`int(str)`, particle_track.py:833, 841): an underscore may stand before a digit. -/
def digitsVal : List Char → Nat → Option Nat
  | [], n => some n
  | '_' :: c :: cs, n => if '0' ≤ c ∧ c ≤ '9' then digitsVal cs (10 * n + (c.toNat - 48)) else none
  | c :: cs, n => if '0' ≤ c ∧ c ≤ '9' then digitsVal cs (10 * n + (c.toNat - 48)) else none

/-- The characters `int` strips from both ends of a string (particle_track.py:833, 841): blank, tab, line feed, vertical tab, form feed, carriage return
and the four separators. -/
def isBlank (c : Char) : Bool := c.toNat = 32 || (9 ≤ c.toNat && c.toNat ≤ 13) || (28 ≤ c.toNat && c.toNat ≤ 31)

/-- `int(s)` for a string (particle_track.py:833, 841): digits, single underscores between them, an optional sign in front and blanks around.
Simplification: digits and blanks outside ASCII, which Python also accepts, are treated as errors. -/
def strInt (s : String) : Option Int :=
  match ((s.toList.dropWhile isBlank).reverse.dropWhile isBlank).reverse with
  | '-' :: '_' :: _ => none
  | '+' :: '_' :: _ => none
  | '_' :: _ => none
  | '-' :: c :: cs => (digitsVal (c :: cs) 0).map fun n : Nat => -(n : Int)
  | '+' :: c :: cs => (digitsVal (c :: cs) 0).map fun n : Nat => (n : Int)
  | c :: cs => (digitsVal (c :: cs) 0).map fun n : Nat => (n : Int)
  | [] => none

/-- `int(v)` (particle_track.py:833, 841). Arrays of one element are treated as errors. -/
def pyInt [FloorRing K] : PyVal K → Except PyErr Int
  | .bool b => .ok (if b then 1 else 0)
  | .int i => .ok i
  | .flt (.fin x) => .ok (if 0 ≤ x then ⌊x⌋ else ⌈x⌉)
  | .flt .nan => .error .valueError
  | .flt _ => .error .overflowError
  | .str s => match strInt s with
    | some i => .ok i
    | none => .error .valueError
  | _ => .error .typeError

/-- `list(v)` with the preceding multi-dimensionality test (particle_track.py:836-841): nested lists fail
(`list` has no `flatten`), numpy arrays are flattened, strings become lists of characters. -/
def pyList : PyVal K → Except PyErr (List (PyVal K))
  | .list l => if l.any (fun v => match v with | .list _ => true | .nd _ => true | _ => false)
      then .error .attributeError else .ok l
  | .nd l => .ok l
  | .str s => .ok (s.toList.map fun c => .str (String.singleton c))
  | _ => .error .typeError

/-- Any exception is re-raised as TypeError (particle_track.py:832-851). -/
def asTypeError {α : Type} : Except PyErr α → Except PyErr α
  | .ok a => .ok a
  | .error _ => .error .typeError

/-- Seeding method after the check (particle_track.py:857). -/
inductive Method where
  | random
  | exact
  deriving DecidableEq, Repr

/-- Type check of `seed_time` (particle_track.py:852-854): bool is an int. The int is converted to a number. -/
def checkTime : PyVal K → Except PyErr (Fl K)
  | .flt t => .ok t
  | .int i => .ok (.fin (i : K))
  | .bool b => .ok (.fin (if b then 1 else 0))
  | _ => .error .typeError

/-- Check of `method` (particle_track.py:855-859). -/
def checkMethod : PyVal K → Except PyErr Method
  | .str s => if s = "random" then .ok .random else if s = "exact" then .ok .exact else .error .valueError
  | _ => .error .typeError

/-- `gen_input_check` (particle_track.py:792-861). -/
def genInputCheck [FloorRing K] (np xs ys time method : PyVal K) :
    Except PyErr (Int × List Int × List Int × Fl K × Method) := do
  let n ← asTypeError (pyInt np)
  let x ← asTypeError (do let l ← pyList xs; mapE pyInt l)
  let y ← asTypeError (do let l ← pyList ys; mapE pyInt l)
  let t ← checkTime time
  let m ← checkMethod method
  return (n, x, y, t, m)

/-! ## Seeding -/

section gen
variable (A : Arith K)

/-- `[random_pick_seed(locs) for x in range(n)]` (particle_track.py:531-534). -/
def randomSeeds (ω : Nat → K) (pos : Nat) (locs : List Int) (n : Nat) : Except PyErr (List Int × Nat) :=
  mapAcc (fun pos (_ : Nat) => do
    let c ← randomPickSeed A locs (ω pos)
    return (c, pos + 1)) pos (List.range n)

/-- `l * q` for a list `l` and an integer `q` (particle_track.py:541): empty for `q ≤ 0`. -/
def pyRepeat {α : Type} (l : List α) (q : Int) : List α := (List.replicate q.toNat l).flatten

/-- Start indices for method 'exact' in one coordinate (particle_track.py:539-546); `n` is `len(seed_xloc)`. -/
def exactSeeds (locs : List Int) (np : Int) (n : Nat) : Except PyErr (List Int) := do
  let tail ← mapE (fun i => listGet locs i) (List.range (np % (n : Int)).toNat)
  return pyRepeat locs (np / (n : Int)) ++ tail

/-- Start indices of the new particles (particle_track.py:529-546): x draws first, then y draws. -/
def startIndices (ω : Nat → K) (pos : Nat) (np : Int) (xs ys : List Int) (m : Method) :
    Except PyErr (List Int × List Int × Nat) :=
  match m with
  | .random => do
    let (x, pos1) ← randomSeeds A ω pos xs np.toNat
    let (y, pos2) ← randomSeeds A ω pos1 ys np.toNat
    return (x, y, pos2)
  | .exact =>
    if xs.length = 0 then .error .zeroDivisionError
    else do
      let x ← exactSeeds xs np xs.length
      let y ← exactSeeds ys np xs.length
      return (x, y, pos)

/-- Initial values of one tracked variable at the start indices (particle_track.py:562-571). -/
def startVar (P : PObj K) (var : String) (starts : List (Int × Int)) : Except PyErr (List (List (Val K))) :=
  match P.roi, availVar P var with
  | some g, av =>
    if var = "roi_flag" then mapE (fun xy => do let v ← roiFlagAt g xy; return [v]) starts
    else match av with
      | some h => mapE (fun xy => do let v ← sampleAt h xy; return [v]) starts
      | none => .error .valueError
  | none, some h => mapE (fun xy => do let v ← sampleAt h xy; return [v]) starts
  | none, none => .error .valueError

/-- The base variables (particle_track.py:418). -/
def isBaseVar (var : String) : Bool := var == "xinds" || var == "yinds" || var == "travel_times"

/-- The dict `optional_start_vars` (particle_track.py:561-571). -/
def startVars (P : PObj K) (starts : List (Int × Int)) :
    List String → List (String × List (List (Val K))) → Except PyErr (List (String × List (List (Val K))))
  | [], d => .ok d
  | var :: vars, d =>
    if isBaseVar var then startVars P starts vars d
    else do
      let l ← startVar P var starts
      startVars P starts vars (dictSet d var l)

/-- Prepend existing walk data to the new one (particle_track.py:574-591 and 593-611); an optional variable
missing in the old data keeps only its new values. -/
def prependWalk (old new : WalkData K) : WalkData K :=
  { xinds := old.xinds ++ new.xinds
    yinds := old.yinds ++ new.yinds
    times := old.times ++ new.times
    opt := new.opt.map fun e => match dictGet old.opt e.1 with
      | some l => (e.1, l ++ e.2)
      | none => e }

/-- The data of the new particles (particle_track.py:527-571). Line 549-553 index the start lists with
`range(Np_tracer)`. -/
def newWalk (P : PObj K) (ω : Nat → K) (pos : Nat) (np : Int) (xs ys : List Int) (t : Fl K) (m : Method) :
    Except PyErr (WalkData K × Nat) := do
  let (sx, sy, pos') ← startIndices A ω pos np xs ys m
  let nx ← mapE (fun i => do let a ← listGet sx i; return [a]) (List.range np.toNat)
  let ny ← mapE (fun i => do let a ← listGet sy i; return [a]) (List.range np.toNat)
  let opt ← startVars P (sx.zip sy) P.particleVars []
  return ({ xinds := nx, yinds := ny, times := (List.range np.toNat).map fun _ => [t], opt := opt }, pos')

/-- Body of `generate_particles` after the input check (particle_track.py:519-623). -/
def generateCore (P : PObj K) (ω : Nat → K) (s : PState K) (np : Int) (xs ys : List Int) (t : Fl K) (m : Method)
    (prev : Option (WalkData K)) : Except PyErr (PState K) := do
  let (w0, pos') ← newWalk A P ω s.world.pos np xs ys t m
  let w1 := match s.walk with
    | some old => prependWalk old w0
    | none => w0
  let w2 := match prev with
    | some old => prependWalk old w1
    | none => w1
  return { world := { s.world with pos := pos' }, np := w2.xinds.length, walk := some w2 }

/-- `generate_particles` (particle_track.py:451-623). -/
def generateParticles [FloorRing K] (P : PObj K) (ω : Nat → K) (s : PState K) (np xs ys time method : PyVal K)
    (prev : Option (WalkData K)) : Except PyErr (PState K) := do
  let (n, x, y, t, m) ← genInputCheck np xs ys time method
  generateCore A P ω s n x y t m prev

end gen

/-- `clear_walk_data` (particle_track.py:446-448). -/
def clearWalkData (s : PState K) : PState K := { s with walk := none }

/-! ## Routing -/

section run
variable (A : Arith K) (F : Fun K A)

/-- The optional lists used by `run_iteration` (particle_track.py:683-689): the stored ones, `[None]` per particle
for tracked variables that are missing. -/
def optionalVars (P : PObj K) (np : Nat) (wd : WalkData K) : List (String × List (List (Val K))) :=
  (P.particleVars.filter fun v => !isBaseVar v).foldl (fun d var =>
    dictSet d var (match dictGet wd.opt var with
      | some l => l
      | none => List.replicate np [Val.none])) []

/-- `l[i][-1]` (particle_track.py:673-692). -/
def lastAt {α : Type} (l : List (List α)) (i : Nat) : Except PyErr α := do
  let row ← listGet l i
  lastOf row

/-- Append one record to particle `ii` (particle_track.py:709-713, 754-758). All positions were read before with the
same index, so the appends cannot fail; `vals` are the new optional values. -/
def appendRec (wd : WalkData K) (ii : Nat) (pos : Int × Int) (t : Fl K) (vals : List (String × Val K)) : WalkData K :=
  { xinds := wd.xinds.modify ii (· ++ [pos.1])
    yinds := wd.yinds.modify ii (· ++ [pos.2])
    times := wd.times.modify ii (· ++ [t])
    opt := wd.opt.map fun e => match dictGet vals e.1 with
      | some v => (e.1, e.2.modify ii (· ++ [v]))
      | none => e }

/-- `updated_optional[var][k]` for all optional variables (particle_track.py:713, 758); KeyError if the stepper did
not provide the variable. -/
def pickOpt (upd : List (String × List (Val K))) (keys : List String) (k : Nat) :
    Except PyErr (List (String × Val K)) :=
  mapE (fun var => match dictGet upd var with
    | some l => do
      let v ← listGet l k
      return (var, v)
    | none => .error .keyError) keys

/-- The loop storing the step results (particle_track.py:704-713). -/
def storeSteps (starts news : List (Int × Int)) (times : List (Fl K)) (upd : List (String × List (Val K)))
    (keys : List String) : List Nat → WalkData K → Except PyErr (WalkData K)
  | [], wd => .ok wd
  | ii :: rest, wd => do
    let n ← listGet news ii
    let s ← listGet starts ii
    if n ≠ s then
      let t ← listGet times ii
      let vals ← pickOpt upd keys ii
      storeSteps starts news times upd keys rest (appendRec wd ii n t vals)
    else storeSteps starts news times upd keys rest wd

/-- The while loop for particle `ii` (particle_track.py:744-769). Result: walk data, world and whether the iteration
limit was hit. `fuel` bounds the recursion; `outOfFuel` is proved unreachable from `runIteration`. -/
def targetLoop (P : PObj K) (ω : Nat → K) (target : Fl K) (maxIter : Int) (keys : List String) (ii : Nat) :
    Nat → WalkData K → World K → Fl K → Int → Except PyErr (WalkData K × World K × Bool)
  | fuel, wd, s, est, count => do
    let t ← lastAt wd.times ii
    if Fl.le (Fl.abs (A.sub (A.add t est) target)) (Fl.abs (A.sub t target)) then
      match fuel with
      | 0 => .error .outOfFuel
      | fuel + 1 => do
        let x ← lastAt wd.xinds ii
        let y ← lastAt wd.yinds ii
        let ((news, times, upd), s1) ← particleStepper A F P ω s [(x, y)] [t] keys
        let n ← listGet news 0
        if n ≠ (x, y) then
          let t1 ← listGet times 0
          let vals ← pickOpt upd keys 0
          let wd1 := appendRec wd ii n t1 vals
          let est1 := Fl.pyMax (.fin (A.rnd (1 / 10))) (A.sub t1 t)
          if count + 1 > maxIter then return (wd1, s1, true)
          else targetLoop P ω target maxIter keys ii fuel wd1 s1 est1 (count + 1)
        else return (wd, s1, false)
    else return (wd, s, false)

/-- Initial estimate of the next time step (particle_track.py:727-731). -/
def initEst (ts : List (Fl K)) : Fl K :=
  match ts.reverse with
  | t1 :: t0 :: _ => A.sub t1 t0
  | _ => .fin (A.rnd (1 / 10))

/-- Body of the loop over particles in target mode (particle_track.py:726-769): one particle. -/
def targetOne (P : PObj K) (ω : Nat → K) (target : Fl K) (maxIter : Int) (keys : List String)
    (wd : WalkData K) (s : World K) (ii : Nat) : Except PyErr (WalkData K × World K × Bool) := do
  let ts ← listGet wd.times ii
  let x ← lastAt wd.xinds ii
  let y ← lastAt wd.yinds ii
  if edgeInWindow P.cellType x y then return (wd, s, false)
  else targetLoop A F P ω target maxIter keys ii (maxIter.toNat + 1) wd s (initEst A ts) 1

/-- The loop over particles in target mode; `_iter_particles` is re-initialised for every particle
(particle_track.py:726, 735), so only the last one's entry survives: `warn` is `none` before the first particle
(the name is unbound). -/
def targetAll (P : PObj K) (ω : Nat → K) (target : Fl K) (maxIter : Int) (keys : List String) :
    List Nat → WalkData K → World K → Option (List Nat) → Except PyErr (WalkData K × World K × Option (List Nat))
  | [], wd, s, warn => .ok (wd, s, warn)
  | ii :: rest, wd, s, _ => do
    let (wd1, s1, hit) ← targetOne A F P ω target maxIter keys wd s ii
    targetAll P ω target maxIter keys rest wd1 s1 (some (if hit then [ii] else []))

/-- Result of `run_iteration` (particle_track.py:771-789): the returned dictionary, the new state, and the particles named in the
iteration-limit warning (empty: no warning). -/
structure RunResult (K : Type) where
  returned : WalkData K
  state : PState K
  warned : List Nat

/-- Overwrite stored optional lists by the updated ones where the key was stored already (the inner lists are shared, so
in-place appends show up in `self.walk_data`, particle_track.py:687, 713). -/
def mergeOpt (old new : List (String × List (List (Val K)))) : List (String × List (List (Val K))) :=
  old.map fun e => match dictGet new e.1 with
    | some l => (e.1, l)
    | none => e

/-- `run_iteration` (particle_track.py:628-789).
Without target `self.walk_data` is not re-assigned, but its inner lists are the ones appended to; with a target it is
replaced by the returned dictionary (787). Simplification: inner lists of different particles are different objects. -/
def runIteration (P : PObj K) (ω : Nat → K) (s : PState K) (target : Option (Fl K)) (maxIter : Int) :
    Except PyErr (RunResult K) :=
  match s.walk with
  | none => .error .valueError
  | some wd0 => do
    let np := if s.np = 0 then wd0.xinds.length else s.np
    let sx ← mapE (lastAt wd0.xinds) (List.range np)
    let sy ← mapE (lastAt wd0.yinds) (List.range np)
    let st ← mapE (lastAt wd0.times) (List.range np)
    let opt := optionalVars P np wd0
    let _ ← mapE (fun e => mapE (lastAt e.2) (List.range np)) opt
    let keys := opt.map (·.1)
    let starts := sx.zip sy
    let wd := { wd0 with opt := opt }
    match target with
    | none => do
      let ((news, times, upd), w1) ← particleStepper A F P ω s.world starts st keys
      let out ← storeSteps starts news times upd keys (List.range np) wd
      return { returned := out
               state := { world := w1, np := np, walk := some { out with opt := mergeOpt wd0.opt out.opt } }
               warned := [] }
    | some tgt => do
      let (out, w1, warn) ← targetAll A F P ω tgt maxIter keys (List.range np) wd s.world none
      match warn with
      | none => .error .unboundLocalError
      | some l => return { returned := out
                           state := { world := w1, np := np, walk := some out }
                           warned := if P.verbose then l else [] }

end run

end Dorado
