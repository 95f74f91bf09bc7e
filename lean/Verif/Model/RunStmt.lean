import Verif.Model.Stmt

/-!
# Statement-level model of `run_iteration`

`run_iteration` mutates the object while it runs: routing overwrites entries of the weight array and advances the random generator, and
records are appended in place to the lists of `self.walk_data`. The functional model (`runIteration`) gives the result of a call that
returns; here the statements act one by one on the object, so that the state left behind by an exception is visible.
-/

namespace Dorado

variable {K : Type} [Field K] [LinearOrder K] (A : Arith K) (F : Fun K A)

/-- `get_weight` (lagrangian_walker.py:243-250): `random_pick` (427-432) or `steep_descent` (453-467) first overwrite the nine weights of the
cell in place (a view of `Particles.weight`), then draw. Simplification: the three masking statements of `steep_descent` are one assignment
(nothing in between raises). -/
def getWeightStmt (P : PObj K) (ω : Nat → K) (ind : Int × Int) : PyM (PState K) Nat := do
  let i ← PyM.lift (pyIdx P.stage.rows ind.1)
  let j ← PyM.lift (pyIdx P.stage.cols ind.2)
  let s ← PyM.read
  let p := if P.steepest then steepMask (s.world.weight i j) else zeroNan (s.world.weight i j)
  PyM.assign fun s => { s with world := { s.world with weight := setCell s.world.weight i j p } }
  let k ← PyM.lift (pickFrom A p (ω s.world.pos))
  PyM.assign fun s => s.atPos (s.world.pos + 1)
  return k

/-- The choice for one particle (lagrangian_walker.py:505-506). -/
def newCellStmt (P : PObj K) (ω : Nat → K) (ind : Int × Int) : PyM (PState K) Nat :=
  if ind ≠ (0, 0) then getWeightStmt A P ω ind else pure 4

/-- The comprehension of lagrangian_walker.py:505-506. -/
def newCellsStmt (P : PObj K) (ω : Nat → K) : List (Int × Int) → PyM (PState K) (List Nat)
  | [] => pure []
  | ind :: rest => do
    let k ← newCellStmt A P ω ind
    let ks ← newCellsStmt P ω rest
    return k :: ks

/-- `calc_travel_times` (lagrangian_walker.py:347-366): with a positive diffusion coefficient a random number is drawn before the angles are
read. -/
def travelTimeStmt (P : PObj K) (ω : Nat → K) (newCell : Nat) (ind newInd : Int × Int) (dist : Fl K) : PyM (PState K) (Fl K) :=
  if ind ≠ newInd then do
    let oldVel ← PyM.lift (P.velocity.get ind.1 ind.2)
    let newVel ← PyM.lift (P.velocity.get newInd.1 newInd.2)
    let s ← PyM.read
    PyM.assign fun s => if 0 < P.diffCoeff then s.atPos (s.world.pos + 1) else s
    let diff := if 0 < P.diffCoeff then A.mul (A.sub (.fin (1 / 2)) (.fin (ω s.world.pos))) (.fin P.diffCoeff) else .fin 0
    let ang ← PyM.lift (flat9 P.angles newCell)
    let va ← PyM.lift (P.velocityAngle.get ind.1 ind.2)
    let c ← PyM.lift (mathCos A F (A.sub ang va))
    return A.mul (A.mul (A.mul (.fin (1 / 2)) (A.mul dist (Fl.pyMax (.fin 0) c)))
      (A.add (A.div (.fin 1) oldVel) (A.div (.fin 1) newVel))) (A.add (.fin 1) diff)
  else return .fin 0

/-- The travel times of all particles (lagrangian_walker.py:525-527). -/
def travelTimesStmt (P : PObj K) (ω : Nat → K) : List ((Nat × (Int × Int)) × ((Int × Int) × Fl K)) → PyM (PState K) (List (Fl K))
  | [] => pure []
  | q :: rest => do
    let t ← travelTimeStmt A F P ω q.1.1 q.1.2 q.2.1 q.2.2
    let ts ← travelTimesStmt P ω rest
    return t :: ts

/-- `particle_stepper` (lagrangian_walker.py:498-547); `vars` are the keys of `start_optional`. -/
def stepperStmt (P : PObj K) (ω : Nat → K) (cur : List (Int × Int)) (times : List (Fl K)) (vars : List String) :
    PyM (PState K) (List (Int × Int) × List (Fl K) × List (String × List (Val K))) := do
  let cells ← newCellsStmt A P ω cur
  let inds ← PyM.lift (mapE (fun p => newInd1 P p.1 p.2) (cur.zip cells))
  let dist ← PyM.lift (mapE (fun c => stepUpdate A c P.distances P.dx) cells)
  let news := checkForBoundary (List.zipWith zeroDist inds dist) cur P.cellType
  let temp ← travelTimesStmt A F P ω ((cells.zip cur).zip (news.zip dist))
  let opt ← PyM.lift (updatedOptional P vars news)
  return (news, List.zipWith A.add times temp, opt)

/-- The object and the local dictionary `optional_vars` of `run_iteration` (particle_track.py:684-691). Its lists are those of
`self.walk_data` for variables that have an entry there (687-688) and new lists otherwise (689-690): an append to a shared list shows in
both. The local lists `all_xinds`, `all_yinds`, `all_times` (672, 675, 679) always are those of `self.walk_data`. -/
structure RunSt (K : Type) where
  obj : PState K
  view : List (String × List (List (Val K)))

/-- A statement that only touches the object (the call of `particle_stepper`, particle_track.py:703, 748). -/
def PyM.onObj {α : Type} (m : PyM (PState K) α) : PyM (RunSt K) α := fun s => ((m s.obj).1, { s with obj := (m s.obj).2 })

/-- The local dictionary exists only during the call (particle_track.py:684-789). -/
def PyM.withView {α : Type} (view : List (String × List (List (Val K)))) (m : PyM (RunSt K) α) : PyM (PState K) α :=
  fun s => ((m ⟨s, view⟩).1, (m ⟨s, view⟩).2.obj)

/-- An append to one of the lists of `self.walk_data` (particle_track.py:711-713, 753-755). The list exists: it was read in 673-681. -/
def appendStmt (f : WalkData K → WalkData K) : PyM (RunSt K) Unit :=
  PyM.assign fun s => { s with obj := { s.obj with walk := s.obj.walk.map f } }

/-- `d[var][ii].append(v)` (particle_track.py:715, 757). -/
def dictApp (d : List (String × List (List (Val K)))) (var : String) (ii : Nat) (v : Val K) : List (String × List (List (Val K))) :=
  d.map fun e => if e.1 = var then (e.1, e.2.modify ii (· ++ [v])) else e

/-- The loop over the optional variables (particle_track.py:714-715, 756-757), variable after variable. -/
def appendVarsStmt (ii k : Nat) (upd : List (String × List (Val K))) : List String → PyM (RunSt K) Unit
  | [] => pure ()
  | var :: rest =>
    match dictGet upd var with
    | none => PyM.lift (.error .keyError)
    | some l => do
      let v ← PyM.lift (listGet l k)
      PyM.assign fun s => { obj := { s.obj with walk := s.obj.walk.map fun wd => { wd with opt := dictApp wd.opt var ii v } }
                            view := dictApp s.view var ii v }
      appendVarsStmt ii k upd rest

/-- One new record: row, column, time, variables, in this order (particle_track.py:711-715, 753-757); entry `k` of the stepper's result goes
to particle `ii`. -/
def appendRecStmt (ii k : Nat) (q : Int × Int) (times : List (Fl K)) (upd : List (String × List (Val K))) (keys : List String) :
    PyM (RunSt K) Unit := do
  appendStmt fun wd => { wd with xinds := wd.xinds.modify ii (· ++ [q.1]) }
  appendStmt fun wd => { wd with yinds := wd.yinds.modify ii (· ++ [q.2]) }
  let t ← PyM.lift (listGet times k)
  appendStmt fun wd => { wd with times := wd.times.modify ii (· ++ [t]) }
  appendVarsStmt ii k upd keys

/-- The loop over the particles without target time (particle_track.py:706-715). -/
def storeStmt (starts news : List (Int × Int)) (times : List (Fl K)) (upd : List (String × List (Val K))) (keys : List String) :
    List Nat → PyM (RunSt K) Unit
  | [] => pure ()
  | ii :: rest => do
    let n ← PyM.lift (listGet news ii)
    let p ← PyM.lift (listGet starts ii)
    if n ≠ p then do
      appendRecStmt ii ii n times upd keys
      storeStmt starts news times upd keys rest
    else storeStmt starts news times upd keys rest

/-- `self.walk_data` once it is known not to be None (particle_track.py:659-661). -/
def RunSt.walk (s : RunSt K) : WalkData K := s.obj.walk.getD ⟨[], [], [], []⟩

/-- The while loop for particle `ii` (particle_track.py:744-771). `fuel` bounds the number of passes as in `targetLoop`. The two last times
read in 763-764 exist after the append. -/
def loopStmt (P : PObj K) (ω : Nat → K) (target : Fl K) (maxIter : Int) (keys : List String) (ii : Nat) :
    Nat → Fl K → Int → PyM (RunSt K) Bool
  | fuel, est, count => do
    let s ← PyM.read
    let t ← PyM.lift (lastAt s.walk.times ii)
    if Fl.le (Fl.abs (A.sub (A.add t est) target)) (Fl.abs (A.sub t target)) then
      match fuel with
      | 0 => PyM.lift (.error .outOfFuel)
      | fuel + 1 => do
        let x ← PyM.lift (lastAt s.walk.xinds ii)
        let y ← PyM.lift (lastAt s.walk.yinds ii)
        let _ ← PyM.lift (mapE (fun e => lastAt e.2 ii) s.view)
        let r ← PyM.onObj (stepperStmt A F P ω [(x, y)] [t] keys)
        let n ← PyM.lift (listGet r.1 0)
        if n ≠ (x, y) then do
          appendRecStmt ii 0 n r.2.1 r.2.2 keys
          let s1 ← PyM.read
          let ts ← PyM.lift (listGet s1.walk.times ii)
          if count + 1 > maxIter then return true
          else loopStmt P ω target maxIter keys ii fuel (Fl.pyMax (.fin (A.rnd (1 / 10))) (initEst A ts)) (count + 1)
        else return false
    else return false

/-- One particle of the target-time branch (particle_track.py:728-771). -/
def oneStmt (P : PObj K) (ω : Nat → K) (target : Fl K) (maxIter : Int) (keys : List String) (ii : Nat) : PyM (RunSt K) Bool := do
  let s ← PyM.read
  let ts ← PyM.lift (listGet s.walk.times ii)
  let x ← PyM.lift (lastAt s.walk.xinds ii)
  let y ← PyM.lift (lastAt s.walk.yinds ii)
  if edgeInWindow P.cellType x y then return false
  else loopStmt A F P ω target maxIter keys ii (maxIter.toNat + 1) (initEst A ts) 1

/-- The loop over the particles with a target time (particle_track.py:727-771); `_iter_particles` is reset for every particle. -/
def allStmt (P : PObj K) (ω : Nat → K) (target : Fl K) (maxIter : Int) (keys : List String) :
    List Nat → Option (List Nat) → PyM (RunSt K) (Option (List Nat))
  | [], warn => pure warn
  | ii :: rest, _ => do
    let hit ← oneStmt A F P ω target maxIter keys ii
    allStmt P ω target maxIter keys rest (some (if hit then [ii] else []))

/-- `run_iteration` (particle_track.py:659-789) as a sequence of statements; the value is the returned walk data and the particles listed in
the warning. -/
def runStmt (P : PObj K) (ω : Nat → K) (target : Option (Fl K)) (maxIter : Int) : PyM (PState K) (WalkData K × List Nat) := do
  let s0 ← PyM.read
  match s0.walk with
  | none => PyM.lift (.error .valueError)
  | some wd0 => do
    PyM.assign fun s => if s.np = 0 then { s with np := wd0.xinds.length } else s
    let s ← PyM.read
    let sx ← PyM.lift (mapE (lastAt wd0.xinds) (List.range s.np))
    let sy ← PyM.lift (mapE (lastAt wd0.yinds) (List.range s.np))
    let st ← PyM.lift (mapE (lastAt wd0.times) (List.range s.np))
    let opt := optionalVars P s.np wd0
    let _ ← PyM.lift (mapE (fun e => mapE (lastAt e.2) (List.range s.np)) opt)
    let keys := opt.map (·.1)
    let starts := sx.zip sy
    PyM.withView opt (match target with
      | none => do
        let r ← PyM.onObj (stepperStmt A F P ω starts st keys)
        storeStmt starts r.1 r.2.1 r.2.2 keys (List.range s.np)
        let s1 ← PyM.read
        return ({ s1.walk with opt := s1.view }, [])
      | some tgt => do
        let warn ← allStmt A F P ω tgt maxIter keys (List.range s.np) none
        let s1 ← PyM.read
        match warn with
        | none => PyM.lift (.error .unboundLocalError)
        | some l => do
          PyM.assign fun s => { s with obj := { s.obj with walk := some { s.walk with opt := s.view } } }
          return ({ s1.walk with opt := s1.view }, if P.verbose then l else []))

end Dorado
