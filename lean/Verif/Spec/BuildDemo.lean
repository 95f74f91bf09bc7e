import Verif.Spec.Build
import Verif.Spec.Sample

/-! Concrete memories and parameters for the theorems on building `Particles`. -/

namespace Dorado

/-- Memory with a depth (0), a stage (1), an array of 2 (2), an array of 0 (3) and an array with a missing value (4); list 0 names two variables. -/
def buildHeap : ArrHeap ℚ where
  arr r := if r = 0 then chan.depth.getD (gridOf []) else if r = 1 then chan.stage.getD (gridOf []) else
    if r = 2 then ⟨5, 5, fun _ _ => .fin 2⟩ else if r = 3 then ⟨5, 5, fun _ _ => .fin 0⟩ else
    ⟨5, 5, fun i j => if i = 2 ∧ j = 2 then .nan else .fin 1⟩
  strs r := if r = 0 then ["depth", "u"] else []
  next := 5

/-- The channel with discharges (one component with a missing value). -/
def buildChan : RParams ℚ := { base := chan, depth := some 0, stage := some 1, qx := some 2, qy := some 4, vars := some 0 }
/-- The channel with velocities 2 in both directions (one array object for both). -/
def buildFlowing : RParams ℚ := { base := chan, depth := some 0, stage := some 1, u := some 2, v := some 2, vars := some 0 }
/-- The channel with a velocity component that is 0. -/
def buildStill : RParams ℚ := { base := chan, depth := some 0, stage := some 1, u := some 2, v := some 3, vars := some 0 }
/-- The stage is the same array object as the depth (a flat bed at elevation 0). -/
def buildAliased : RParams ℚ := { base := chan, depth := some 0, stage := some 0, qx := some 2, qy := some 3, vars := some 0 }
/-- The same values with a copy of the array for the stage. -/
def copyHeap : ArrHeap ℚ := { buildHeap with arr := fun r => if r = 5 then buildHeap.arr 0 else buildHeap.arr r, next := 6 }
def buildCopied : RParams ℚ := { buildAliased with stage := some 5 }

/-- Another parameter object with the same arrays. -/
def RParams.withBase (p : RParams ℚ) (b : Params ℚ) : RParams ℚ := { p with base := b }

end Dorado
