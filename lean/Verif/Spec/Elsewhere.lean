import Verif.Spec.Ensemble
import Verif.Spec.Downstream

/-! # Specification of C122: inputs that differ where no particle comes -/

namespace Dorado

variable {K : Type} [Field K] [LinearOrder K]

/-- Two arrays of the same shape with the same values in the cells `T`. -/
structure Grid.SameAt {α : Type} (T : Nat → Nat → Prop) (g g' : Grid α) : Prop where
  rows : g'.rows = g.rows
  cols : g'.cols = g.cols
  val : ∀ i j, i < g.rows → j < g.cols → T i j → g'.at' i j = g.at' i j

/-- Both arrays are given and agree in the cells `T`, or none of them is given. -/
def SameAtOpt {α : Type} (T : Nat → Nat → Prop) : Option (Grid α) → Option (Grid α) → Prop
  | none, none => True
  | some g, some g' => g.SameAt T g'
  | _, _ => False

/-- The inputs of the constructor apart from the arrays. -/
def Params.bare (p : Params K) : Params K :=
  { p with depth := none, stage := none, topography := none, qx := none, qy := none, u := none, v := none, cellType := none, roi := none }

/-- Two sets of inputs that differ only in the values of the arrays outside the cells `T`; of a region of interest only the shape is compared. -/
structure Params.SameAt (T : Nat → Nat → Prop) (p p' : Params K) : Prop where
  bare : p'.bare = p.bare
  depth : SameAtOpt T p.depth p'.depth
  stage : SameAtOpt T p.stage p'.stage
  topography : SameAtOpt T p.topography p'.topography
  qx : SameAtOpt T p.qx p'.qx
  qy : SameAtOpt T p.qy p'.qy
  u : SameAtOpt T p.u p'.u
  v : SameAtOpt T p.v p'.v
  cellType : SameAtOpt T p.cellType p'.cellType
  roi : SameAtOpt (fun _ _ => False) p.roi p'.roi

/-- The cell and its eight neighbours are among the cells `T`. -/
def Surrounded (T : Nat → Nat → Prop) (q : Int × Int) : Prop :=
  ∀ a b : Nat, |(a : Int) - q.1| ≤ 1 → |(b : Int) - q.2| ≤ 1 → T a b

/-- All particles are put at cells `S`. -/
def SeedsIn (S : Int × Int → Prop) : PObj K → List Int → List Int → Fl K → Prop := fun _ xs ys _ => ∀ x ∈ xs, ∀ y ∈ ys, S (x, y)

end Dorado
