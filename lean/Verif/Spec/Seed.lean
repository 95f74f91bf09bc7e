import Verif.Spec.Walk

/-! Vocabulary for statements about `generate_particles`. -/

namespace Dorado

variable {K : Type} [Field K] [LinearOrder K]

/-- A Python list of integers. -/
def ints (l : List Int) : PyVal K := .list (l.map .int)

/-- A part of optional walk data, empty if there is none. -/
def held {α : Type} (wd : Option (WalkData K)) (f : WalkData K → List α) : List α := match wd with
  | some w => f w
  | none => []

/-- The lists of an optional variable, one per particle. -/
def WalkData.optOf (var : String) (wd : WalkData K) : List (List (Val K)) := (dictGet wd.opt var).getD []

/-- Number of particles. -/
def count (wd : Option (WalkData K)) : Nat := (held wd (·.xinds)).length

/-- Walk data with one list per particle in every variable tracked by `P`. -/
structure Sized (P : PObj K) (wd : WalkData K) : Prop where
  ys : wd.yinds.length = wd.xinds.length
  ts : wd.times.length = wd.xinds.length
  opt : ∀ var, OptVar P var → (wd.optOf var).length = wd.xinds.length

/-- The grid a tracked variable name stands for. -/
def fieldOf (P : PObj K) (var : String) : Option (Grid (Fl K)) :=
  match var with
  | "depth" => some P.depth
  | "stage" => some P.stage
  | "qx" => some P.qx
  | "qy" => some P.qy
  | "u" => some P.u
  | "v" => some P.v
  | _ => none

/-- A name that can be tracked: one of the grids, or `roi_flag` if a region grid was given. -/
def Trackable (P : PObj K) (var : String) : Prop := (∃ g, fieldOf P var = some g) ∨ (var = "roi_flag" ∧ ∃ g, P.roi = some g)

/-- Positions inside the arrays. -/
def OnGrid (P : PObj K) (x y : Int) : Prop := 0 ≤ x ∧ x < P.depth.rows ∧ 0 ≤ y ∧ y < P.depth.cols

/-- A Python number that is finite. -/
def PyVal.IsNumber : PyVal K → Prop
  | .bool _ => True
  | .int _ => True
  | .flt (.fin _) => True
  | _ => False

/-- A string. -/
def PyVal.IsStr : PyVal K → Prop
  | .str _ => True
  | _ => False

/-- A list or array of finite numbers. -/
def PyVal.IsNumberList : PyVal K → Prop
  | .list l => ∀ v ∈ l, v.IsNumber
  | .nd l => ∀ v ∈ l, v.IsNumber
  | _ => False

/-- An `int` or a `float` (including NaN and infinities; `bool` is a subclass of `int`). -/
def PyVal.IsTime : PyVal K → Prop
  | .bool _ => True
  | .int _ => True
  | .flt _ => True
  | _ => False

/-- One of the two seeding methods. -/
def PyVal.IsMethod : PyVal K → Prop
  | .str s => s = "random" ∨ s = "exact"
  | _ => False

end Dorado
