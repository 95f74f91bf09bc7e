import Verif.Spec.Api
import Verif.Spec.Walk

/-! Consumption of random numbers. -/

namespace Dorado

variable {K : Type} [Field K] [LinearOrder K]

/-- Number of particles in walk data. -/
def particles : Option (WalkData K) → Nat
  | some wd => wd.xinds.length
  | none => 0

/-- Number of recorded positions in walk data. -/
def records : Option (WalkData K) → Nat
  | some wd => (wd.xinds.map List.length).sum
  | none => 0

/-- The last recorded position of particle `i`. -/
def WalkData.place (wd : WalkData K) (i : Nat) : Option (Int × Int) := do
  let xs ← wd.xinds[i]?
  let ys ← wd.yinds[i]?
  let x ← xs.getLast?
  let y ← ys.getLast?
  return (x, y)

/-- The random numbers drawn for one travel time: one if the parameters ask for diffusion. -/
def diffDraw (P : PObj K) : Nat := if 0 < P.diffCoeff then 1 else 0

/-- The position of the random generator after the calls seen in `l`, starting at `pos`. -/
def endPos (pos : Nat) (l : List (Seen K)) : Nat := (l.getLast?.map fun x => x.2.2).getD pos

end Dorado
