import Verif.Spec.Elsewhere

/-! # Specification of C125: what the dry depth and the cell types say about the ground -/

namespace Dorado

variable {K : Type} [Field K] [LinearOrder K]

/-- The flow does not carry particles into the cell: it is not deeper than the dry depth, or land. -/
def Impassable (P : PObj K) (i j : Nat) : Prop := (∃ d, P.depth.at' i j = .fin d ∧ d ≤ P.dryDepth) ∨ P.cellType.at' i j = 2

/-- Two objects tell the same cells from the others: impassable ones and edges. -/
structure SameGround (P P' : PObj K) : Prop where
  impassable : ∀ i j, i < P.depth.rows → j < P.depth.cols → (Impassable P' i j ↔ Impassable P i j)
  edge : ∀ i j, i < P.depth.rows → j < P.depth.cols → (P'.cellType.at' i j = -1 ↔ P.cellType.at' i j = -1)

end Dorado
