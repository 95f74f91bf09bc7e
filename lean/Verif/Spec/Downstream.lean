import Verif.Spec.Walk

/-! Specification of "downstream": what going with the flow means for one step, in terms of the arrays of the object only. -/

namespace Dorado

variable {K : Type} [Field K] [LinearOrder K]

/-- The water surface at `(c,d)` is known and lower than the known one at `(a,b)`. -/
def Below (P : PObj K) (a b c d : Nat) : Prop :=
  ∃ e e', P.stage.at' a b = .fin e ∧ P.stage.at' c d = .fin e' ∧ e' < e

/-- The step from `(a,b)` to `(c,d)` has a positive component along the discharge at `(a,b)`
(`qx` towards increasing row index, `qy` towards increasing column index). -/
def WithFlow (P : PObj K) (a b c d : Nat) : Prop :=
  ∃ x y, P.qx.at' a b = .fin x ∧ P.qy.at' a b = .fin y ∧ 0 < x * ((c : K) - (a : K)) + y * ((d : K) - (b : K))

/-- The step from `(a,b)` to `(c,d)` has a positive component along the field with x-component `gx` (to the right, increasing column) and y-component
`gy` (upwards, decreasing row) at `(a,b)`, NaN read as 0. -/
def AlongXY (gx gy : Grid (Fl K)) (a b c d : Nat) : Prop :=
  ∃ x y, (gx.at' a b).nanTo0 = .fin x ∧ (gy.at' a b).nanTo0 = .fin y ∧ 0 < x * ((d : K) - (b : K)) + y * ((a : K) - (c : K))

/-- Cell `(c,d)` is deeper than `dry_depth` and not land. -/
def Wet (P : PObj K) (c d : Nat) : Prop := (∃ x, P.depth.at' c d = .fin x ∧ P.dryDepth < x) ∧ P.cellType.at' c d ≠ 2

/-- `(c,d)` is one of the eight neighbours of `(a,b)`. -/
def Adjacent (a b c d : Nat) : Prop := (c, d) ≠ (a, b) ∧ (c ≤ a + 1 ∧ a ≤ c + 1) ∧ (d ≤ b + 1 ∧ b ≤ d + 1)

/-- `(c,d)` is a neighbour downstream of `(a,b)`: wet, both water surfaces known, and the surface is lower there (if `gamma > 0`) or the
step goes with the discharge (if `gamma < 1`). -/
def Downstream (P : PObj K) (a b c d : Nat) : Prop :=
  Adjacent a b c d ∧ Wet P c d ∧ (∃ e, P.stage.at' a b = .fin e) ∧ (∃ e, P.stage.at' c d = .fin e) ∧
    ((0 < P.gamma ∧ Below P a b c d) ∨ (P.gamma < 1 ∧ WithFlow P a b c d))

/-- Rounding treats positive and negative numbers alike (true of every IEEE operation in the default mode). -/
def OddRounding (A : Arith K) : Prop := ∀ x, A.rnd (-x) = -A.rnd x

/-- The direction tables of the object are the default ones. -/
def DefaultVectors [FloorRing K] (A : Arith K) (F : Fun K A) (P : PObj K) : Prop := P.ivec = defaultIvec A F ∧ P.jvec = defaultJvec A F

/-- A number attached to every cell that falls with every step downstream. -/
def FallsDownstream (P : PObj K) (φ : Nat → Nat → K) : Prop :=
  ∀ a b c d, a < P.depth.rows → b < P.depth.cols → c < P.depth.rows → d < P.depth.cols → Downstream P a b c d → φ c d < φ a b

end Dorado
