import Verif.Spec.Flow

/-! Transformations of inputs used by C08, C09, C13: scaling, datum shift, mirroring, transposition. -/

namespace Dorado

variable {K : Type} [Field K] [LinearOrder K]

/-- All discharges and velocities multiplied by `c` (exact arithmetic). -/
def Params.scaleFlow [IsStrictOrderedRing K] (c : K) (p : Params K) : Params K :=
  let m : Grid (Fl K) → Grid (Fl K) := Grid.map (Arith.exact.mul (.fin c))
  { p with qx := p.qx.map m, qy := p.qy.map m, u := p.u.map m, v := p.v.map m }

/-- The vertical datum moved: `c` added to stage and topography (exact arithmetic). -/
def Params.shiftDatum [IsStrictOrderedRing K] (c : K) (p : Params K) : Params K :=
  let m : Grid (Fl K) → Grid (Fl K) := Grid.map (Arith.exact.add (.fin c))
  { p with stage := p.stage.map m, topography := p.topography.map m }

/-- Columns reversed. -/
def Grid.flipLR {α : Type} (g : Grid α) : Grid α := ⟨g.rows, g.cols, fun i j => g.at' i (g.cols - 1 - j)⟩
/-- Rows reversed. -/
def Grid.flipUD {α : Type} (g : Grid α) : Grid α := ⟨g.rows, g.cols, fun i j => g.at' (g.rows - 1 - i) j⟩
/-- Transposed array. -/
def Grid.transp {α : Type} (g : Grid α) : Grid α := ⟨g.cols, g.rows, fun i j => g.at' j i⟩

/-- All cell-wise inputs except the flow transformed by `act`. -/
def Params.mapGrids (act : ∀ {α : Type}, Grid α → Grid α) (p : Params K) : Params K :=
  { p with depth := p.depth.map act, stage := p.stage.map act, topography := p.topography.map act,
           cellType := p.cellType.map act, roi := p.roi.map act }

/-- The domain mirrored left-right: the column direction of the flow is reversed (`qy`,`v` for DeltaRCM input, `qx`,`u`
otherwise). -/
def Params.mirrorLR (p : Params K) : Params K :=
  let keep : Option (Grid (Fl K)) → Option (Grid (Fl K)) := Option.map Grid.flipLR
  let rev : Option (Grid (Fl K)) → Option (Grid (Fl K)) := Option.map fun g => g.flipLR.map Fl.neg
  { p.mapGrids Grid.flipLR with
    qx := if p.deltaRCM then keep p.qx else rev p.qx, qy := if p.deltaRCM then rev p.qy else keep p.qy,
    u := if p.deltaRCM then keep p.u else rev p.u, v := if p.deltaRCM then rev p.v else keep p.v }

/-- The domain mirrored up-down: the row direction of the flow is reversed (`qx`,`u` for DeltaRCM input, `qy`,`v`
otherwise). -/
def Params.mirrorUD (p : Params K) : Params K :=
  let keep : Option (Grid (Fl K)) → Option (Grid (Fl K)) := Option.map Grid.flipUD
  let rev : Option (Grid (Fl K)) → Option (Grid (Fl K)) := Option.map fun g => g.flipUD.map Fl.neg
  { p.mapGrids Grid.flipUD with
    qx := if p.deltaRCM then rev p.qx else keep p.qx, qy := if p.deltaRCM then keep p.qy else rev p.qy,
    u := if p.deltaRCM then rev p.u else keep p.u, v := if p.deltaRCM then keep p.v else rev p.v }

/-- The domain transposed: row and column directions of the flow are exchanged (for non-DeltaRCM input, whose `qy` points to
decreasing rows, both change sign). -/
def Params.transpose (p : Params K) : Params K :=
  let keep : Option (Grid (Fl K)) → Option (Grid (Fl K)) := Option.map Grid.transp
  let rev : Option (Grid (Fl K)) → Option (Grid (Fl K)) := Option.map fun g => g.transp.map Fl.neg
  { p.mapGrids Grid.transp with
    qx := if p.deltaRCM then keep p.qy else rev p.qy, qy := if p.deltaRCM then keep p.qx else rev p.qx,
    u := if p.deltaRCM then keep p.v else rev p.v, v := if p.deltaRCM then keep p.u else rev p.u }

/-- Neighbour `k` seen in the left-right mirror. -/
def mirrorK (k : Nat) : Nat := k / 3 * 3 + (2 - k % 3)
/-- Neighbour `k` seen in the up-down mirror. -/
def flipK (k : Nat) : Nat := (2 - k / 3) * 3 + k % 3
/-- Neighbour `k` after transposition. -/
def transpK (k : Nat) : Nat := k % 3 * 3 + k / 3

/-- Distances and direction vectors were not overridden. -/
def DefaultTables (p : Params K) : Prop := p.distances = none ∧ p.ivec = none ∧ p.jvec = none

end Dorado
