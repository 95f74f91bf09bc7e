import Verif.Model.RegionKind
import Verif.Spec.Post

/-! # Regions of interest of other element types -/

namespace Dorado

variable {K : Type} [Field K] [LinearOrder K]

/-- The region as an array of 0 and 1. -/
def maskInt (m : Grid Bool) : Grid Int := m.map fun b => if b then 1 else 0

/-- The region as a floating point array of 0 and 1. -/
def maskFloat (m : Grid Bool) : Grid (Fl K) := m.map fun b => .fin (if b then 1 else 0)

/-- Record `n` of particle `i` lies in the region. -/
def WalkData.inMask (wd : WalkData K) (m : Grid Bool) (i n : Nat) : Bool :=
  match wd.posAt i n with
  | some p => m.at' p.1.toNat p.2.toNat
  | none => false

/-- Duration of step `n` of particle `i`. -/
def WalkData.stepTime (wd : WalkData K) (i n : Nat) : K := wd.tau i (n + 1) - wd.tau i n

/-- Total duration of the steps of particle `i` that start and end in the region. -/
def WalkData.timeInside (wd : WalkData K) (m : Grid Bool) (i : Nat) : K :=
  ∑ n ∈ Finset.range (wd.records i - 1), if wd.inMask m i n ∧ wd.inMask m i (n + 1) then wd.stepTime i n else 0

/-- Total duration of the steps of particle `i` that cross the boundary of the region. -/
def WalkData.timeCrossing (wd : WalkData K) (m : Grid Bool) (i : Nat) : K :=
  ∑ n ∈ Finset.range (wd.records i - 1), if wd.inMask m i n ≠ wd.inMask m i (n + 1) then wd.stepTime i n else 0

end Dorado
