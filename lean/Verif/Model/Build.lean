import Verif.Model.Particles

/-!
# `Particles.__init__` with the objects it shares with the caller (`/repo/dorado/particle_track.py`, lines 131-443)

The constructor keeps the caller's arrays and lists and writes into them.  Here the attributes of `params` that it writes into are references.
`initParticles` (Model/Particles) is the same function on values.
-/

namespace Dorado

variable {K : Type} [Field K] [LinearOrder K]

/-- The array and list objects in memory (particle_track.py:161-262, 431-437): two references may be the same object.  `next` is the first address
not in use.  Simplification: arrays are whole objects, not overlapping views of one buffer. -/
structure ArrHeap (K : Type) where
  arr : Nat → Grid (Fl K)
  strs : Nat → List String
  next : Nat

/-- `x[mask] = c`: the contents of an array object change in place (particle_track.py:162, 183, 209, 259). -/
def ArrHeap.write (h : ArrHeap K) (r : Nat) (g : Grid (Fl K)) : ArrHeap K :=
  { h with arr := fun i => if i = r then g else h.arr i }

/-- An expression that makes a new array (particle_track.py:170, 191, 210, 222, 232). -/
def ArrHeap.alloc (h : ArrHeap K) (g : Grid (Fl K)) : ArrHeap K × Nat :=
  ({ h with arr := fun i => if i = h.next then g else h.arr i, next := h.next + 1 }, h.next)

/-- `params` with references to the arrays the constructor reads by reference (particle_track.py:159-249) and to the list `particle_variables`
(431-437).  `base` has the remaining attributes; its fields of the same names are not used.  Simplification: region grid, cell types and
direction tables, which are never written into, are different objects from these arrays. -/
structure RParams (K : Type) where
  base : Params K := {}
  depth : Option Nat := none
  stage : Option Nat := none
  topography : Option Nat := none
  qx : Option Nat := none
  qy : Option Nat := none
  u : Option Nat := none
  v : Option Nat := none
  vars : Option Nat := none

/-- The values the references stand for at the moment (particle_track.py:159-249, 431-437). -/
def RParams.val (h : ArrHeap K) (p : RParams K) : Params K :=
  { p.base with
    depth := p.depth.map h.arr
    stage := p.stage.map h.arr
    topography := p.topography.map h.arr
    qx := p.qx.map h.arr
    qy := p.qy.map h.arr
    u := p.u.map h.arr
    v := p.v.map h.arr
    particleVars := p.vars.map h.strs }

/-- The constructed object (particle_track.py:131-443): its six field arrays and `particle_variables` are references, the other attributes are
in `rest` (whose fields of the same names are not used; `tracked_variables` is a list of its own, line 443). -/
structure RObj (K : Type) where
  rest : PObj K
  depth : Nat
  stage : Nat
  qx : Nat
  qy : Nat
  u : Nat
  v : Nat

/-- The attributes of the object as they read at the moment (particle_track.py:131-443). -/
def RObj.val (h : ArrHeap K) (o : RObj K) : PObj K :=
  { o.rest with
    depth := h.arr o.depth
    stage := h.arr o.stage
    qx := h.arr o.qx
    qy := h.arr o.qy
    u := h.arr o.u
    v := h.arr o.v }

section build
variable (A : Arith K) (F : Fun K A)

/-- Water depth (particle_track.py:158-177): the caller's array, written into, or a new one. -/
def buildDepth (h : ArrHeap K) (p : RParams K) : Except PyErr (ArrHeap K × Nat) :=
  match p.depth, p.stage, p.topography with
  | some d, _, _ => .ok (h.write d (nanZeroGrid (h.arr d)), d)
  | none, some s, some t => do
    needShape (h.arr s) (h.arr t)
    let d := Grid.zip A.sub (h.arr s) (h.arr t)
    let d := d.map fun x => if Fl.lt x (.fin 0) then .fin 0 else x
    return h.alloc (nanZeroGrid d)
  | _, _, _ => .error .valueError

/-- Water stage (particle_track.py:179-197): the caller's array, written into, or a new one; `d` is `self.depth`. -/
def buildStage (h : ArrHeap K) (p : RParams K) (d : Nat) : Except PyErr (ArrHeap K × Nat) :=
  match p.stage, p.topography, p.depth with
  | some s, _, _ => do
    needShape (h.arr s) (h.arr d)
    return (h.write s (stageNan (h.arr s) (h.arr d)), s)
  | none, some t, some pd => do
    needShape (h.arr t) (h.arr pd)
    return h.alloc (stageNan (Grid.zip A.add (h.arr t) (h.arr pd)) (h.arr d))
  | _, _, _ => .error .valueError

/-- Discharges given, one component (particle_track.py:208-211, 213-216, 232-235, 237-240): `q` holds the discharge in the internal orientation;
its NaNs are overwritten and the velocity is a new array. -/
def buildVel (h : ArrHeap K) (q d : Nat) : Except PyErr (ArrHeap K × Nat) := do
  let h := h.write q (nanZeroGrid (h.arr q))
  needShape (h.arr q) (h.arr d)
  return h.alloc (velFromQ A (h.arr q) (h.arr d))

/-- Velocities given, one component (particle_track.py:219-221, 223-225, 243-245, 247-249): `w` holds the velocity in the internal orientation;
its NaNs are overwritten and the discharge is a new array. -/
def buildQ (h : ArrHeap K) (w d : Nat) : Except PyErr (ArrHeap K × Nat) := do
  let h := h.write w (nanZeroGrid (h.arr w))
  needShape (h.arr w) (h.arr d)
  return h.alloc (Grid.zip A.mul (h.arr w) (h.arr d))

/-- References to `qx, qy, u, v` (particle_track.py:205-253).  With the default orientation the first component is a new array
(`-1*params.qy`, `-1*params.v`) and the second one the caller's. -/
def buildFlow (h : ArrHeap K) (p : RParams K) (d : Nat) : Except PyErr (ArrHeap K × Nat × Nat × Nat × Nat) :=
  match p.base.deltaRCM, p.qx, p.qy, p.u, p.v with
  | true, some qx, some qy, _, _ => do
    let (h, u) ← buildVel A h qx d
    let (h, v) ← buildVel A h qy d
    return (h, qx, qy, u, v)
  | true, _, _, some u, some v => do
    let (h, qx) ← buildQ A h u d
    let (h, qy) ← buildQ A h v d
    return (h, qx, qy, u, v)
  | false, some pqx, some pqy, _, _ => do
    let (h, qx) := h.alloc (negGrid (h.arr pqy))
    let (h, u) ← buildVel A h qx d
    let (h, v) ← buildVel A h pqx d
    return (h, qx, pqx, u, v)
  | false, _, _, some pu, some pv => do
    let (h, u) := h.alloc (negGrid (h.arr pv))
    let (h, qx) ← buildQ A h u d
    let (h, qy) ← buildQ A h pu d
    return (h, qx, qy, u, pu)
  | _, _, _, _, _ => .error .valueError

/-- `particle_variables` after the constructor (particle_track.py:431-437): `roi_flag` is appended to the caller's list. -/
def buildVars (h : ArrHeap K) (p : RParams K) : ArrHeap K :=
  match p.vars with
  | some r => { h with strs := fun i => if i = r then initVars { p.base with particleVars := some (h.strs r) } else h.strs i }
  | none => h

/-- `params` after the constructor (particle_track.py:289): a negative diffusion coefficient is replaced.  The model name, None or missing, becomes
an empty list (199-203), which is not 'DeltaRCM' either. -/
def buildParams (p : RParams K) : RParams K :=
  { p with base := { p.base with diffCoeff := p.base.diffCoeff.map fun d => if d < 0 then 0 else d } }

/-- `Particles(params)` (particle_track.py:131-443): memory, `params` and the object afterwards.  Simplification: the effects of a rejected call are not
modelled. -/
def buildParticles (h : ArrHeap K) (p : RParams K) : Except PyErr (ArrHeap K × RParams K × RObj K) := do
  let dx ← initDx p.base
  let (h, d) ← buildDepth A h p
  let (h, s) ← buildStage A h p d
  let (h, qx, qy, u, v) ← buildFlow A h p d
  let velocity := initVelocity A F (h.arr u) (h.arr v)
  let h := h.write u (clampSmall A (h.arr u))
  let h := h.write v (clampSmall A (h.arr v))
  let va := Grid.zip (npArctan2 A F) ((h.arr u).map Fl.neg) (h.arr v)
  let dry := p.base.dryDepth.getD (A.rnd (1 / 10))
  let _ ← checkRoi p.base (h.arr d)
  let cellType ← initCellType p.base (h.arr d) dry
  let vars := initVars { p.base with particleVars := p.vars.map h.strs }
  let h := buildVars h p
  return (h, buildParams p,
    { rest := {
        verbose := p.base.verbose.getD true
        dx := dx
        depth := h.arr d
        stage := h.arr s
        qx := h.arr qx
        qy := h.arr qy
        u := h.arr u
        v := h.arr v
        velocity := velocity
        velocityAngle := va
        theta := p.base.theta.getD 1
        gamma := p.base.gamma.getD (A.rnd (1 / 20))
        diffCoeff := initDiff A p.base
        dryDepth := dry
        cellType := cellType
        steepest := p.base.steepest == some true
        distances := p.base.distances.getD (defaultDistances A F)
        ivec := p.base.ivec.getD (defaultIvec A F)
        jvec := p.base.jvec.getD (defaultJvec A F)
        iwalk := p.base.iwalk.getD defaultIwalk
        jwalk := p.base.jwalk.getD defaultJwalk
        angles := p.base.angles.getD (defaultAngles A F)
        roi := p.base.roi
        particleVars := vars }
      depth := d, stage := s, qx := qx, qy := qy, u := u, v := v })

end build

end Dorado
