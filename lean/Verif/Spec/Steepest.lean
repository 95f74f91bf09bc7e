import Verif.Spec.Walk

/-! Steepest descent without ties. -/

namespace Dorado

variable {K : Type} [Field K] [LinearOrder K]

/-- At every cell the largest weight, if positive, is the weight of at most one neighbour other than the cell itself. -/
def NoTies (A : Arith K) (F : Fun K A) (P : PObj K) : Prop :=
  ∀ i j k k' x, i < P.stage.rows → j < P.stage.cols → k < 9 → k' < 9 → k ≠ 4 → k' ≠ 4 → 0 < x → (∀ l y, l < 9 → makeWeight A F P i j l = .fin y → y ≤ x) →
    makeWeight A F P i j k = .fin x → makeWeight A F P i j k' = .fin x → k = k'

end Dorado
