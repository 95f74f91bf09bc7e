import Verif.Spec.Transform
import Verif.Spec.TimeMap

/-! Vocabulary of C111: the inputs of the constructor with lengths and velocities multiplied by factors. -/

namespace Dorado

variable {K : Type} [Field K] [LinearOrder K]

/-- The cell size multiplied by `h`, everything vertical (depth, stage, topography, `dry_depth`) by `a`, velocities by `b` and discharges per unit
width by `a * b` (exact arithmetic; missing values stay missing). -/
def Params.rescale (h a b : K) (p : Params K) : Params K :=
  let m (c : K) : Option (Grid (Fl K)) → Option (Grid (Fl K)) := Option.map (Grid.map (Fl.times c))
  { p with
    dx := p.dx.map (h * ·)
    depth := m a p.depth, stage := m a p.stage, topography := m a p.topography
    dryDepth := p.dryDepth.map (a * ·)
    u := m b p.u, v := m b p.v, qx := m (a * b) p.qx, qy := m (a * b) p.qy }

/-- The same inputs in other units: the number of new length units in an old one is `l`, of new time units `t`. -/
def Params.inUnits (l t : K) (p : Params K) : Params K := p.rescale l l (l / t)

/-- Powers of a product are products of powers, for positive numbers (true of the real function). -/
def PowLaw {A : Arith K} (F : Fun K A) : Prop :=
  ∀ t c, 0 < c → ∃ s, 0 < s ∧ ∀ x y, 0 < x → F.pow (.fin x) t = .fin y → F.pow (.fin (c * x)) t = .fin (s * y)

/-- The flow is given by velocities (the constructor prefers discharges if both are given). -/
def Params.ByVelocity (p : Params K) : Prop := p.qx = none ∨ p.qy = none

/-- The variables a particle may track that are measured in units. -/
def unitVars : List String := ["depth", "stage", "qx", "qy", "u", "v"]

end Dorado
