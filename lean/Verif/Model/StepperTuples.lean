import Verif.Model.Walker

/-!
# The particle stepper called with tuples

`particle_stepper` documents `current_inds` as a list of tuples (lagrangian_walker.py:478-479), `run_iteration` passes a list of
lists (particle_track.py:695-702, 747). The two calls differ in one comparison: `ind != new_ind` (lagrangian_walker.py:344) compares an entry of
`current_inds` with an entry of `new_inds.tolist()`, a list. In Python a tuple is never equal to a list.
-/

set_option linter.unusedSectionVars false

namespace Dorado

variable {K : Type} [Field K] [LinearOrder K] [IsStrictOrderedRing K]

section tuples

variable (A : Arith K) (F : Fun K A)

/-- `calc_travel_times` for a tuple `ind` and a list `new_ind` (lagrangian_walker.py:314-366): the comparison of line 344 is always
true, so the travel time is computed also for a particle that did not move. -/
def travelTimeTuple (P : PObj K) (ω : Nat → K) (pos : Nat) (newCell : Nat) (ind newInd : Int × Int)
    (dist : Fl K) : Except PyErr (Fl K × Nat) := do
  let oldVel ← P.velocity.get ind.1 ind.2
  let newVel ← P.velocity.get newInd.1 newInd.2
  let (diff, pos') := if 0 < P.diffCoeff then
      (A.mul (A.sub (.fin (1 / 2)) (.fin (ω pos))) (.fin P.diffCoeff), pos + 1)
    else (.fin 0, pos)
  let ang ← flat9 P.angles newCell
  let va ← P.velocityAngle.get ind.1 ind.2
  let c ← mathCos A F (A.sub ang va)
  let projected := A.mul dist (Fl.pyMax (.fin 0) c)
  let t := A.mul (A.mul (A.mul (.fin (1 / 2)) projected)
    (A.add (A.div (.fin 1) oldVel) (A.div (.fin 1) newVel))) (A.add (.fin 1) diff)
  return (t, pos')

/-- `particle_stepper` with a list of tuples as `current_inds` (lagrangian_walker.py:470-547). Everything but the travel time uses
`inds_tuple` or single coordinates and is as for lists. Simplification: `times` has as many entries as `curInds`. -/
def particleStepperTuples (P : PObj K) (ω : Nat → K) (s : World K) (curInds : List (Int × Int))
    (times : List (Fl K)) (vars : List String) :
    Except PyErr ((List (Int × Int) × List (Fl K) × List (String × List (Val K))) × World K) := do
  let (cells, s1) ← mapAcc (newCell1 A P ω) s curInds
  let newInds0 ← mapE (fun p => newInd1 P p.1 p.2) (curInds.zip cells)
  let dist ← mapE (fun c => stepUpdate A c P.distances P.dx) cells
  let newInds1 := List.zipWith zeroDist newInds0 dist
  let newInds := checkForBoundary newInds1 curInds P.cellType
  let (temp, pos') ← mapAcc (fun pos q => travelTimeTuple A F P ω pos q.1.1 q.1.2 q.2.1 q.2.2)
    s1.pos ((cells.zip curInds).zip (newInds.zip dist))
  let times' := List.zipWith A.add times temp
  let opt ← updatedOptional P vars newInds
  return ((newInds, times', opt), { s1 with pos := pos' })

end tuples

end Dorado
