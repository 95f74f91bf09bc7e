import Verif.Base.Inst
import Verif.Spec.Flow

/-! Concrete objects over the rationals used by the `example`s beside the theorems. -/

namespace Dorado

/-- Grid from rows of numbers; `none` is NaN. -/
def gridOf (l : List (List (Option ℚ))) : Grid (Fl ℚ) :=
  ⟨l.length, (l.headD []).length, fun i j => match (l.getD i []).getD j none with
    | some x => .fin x
    | none => .nan⟩

/-- Integer grid from rows. -/
def gridZ (l : List (List Int)) : Grid Int := ⟨l.length, (l.headD []).length, fun i j => (l.getD i []).getD j 0⟩

instance : Inhabited (PObj ℚ) := ⟨{
  verbose := false, dx := 0, depth := gridOf [], stage := gridOf [], qx := gridOf [], qy := gridOf [], u := gridOf []
  v := gridOf [], velocity := gridOf [], velocityAngle := gridOf [], theta := 0, gamma := 0, diffCoeff := 0, dryDepth := 0
  cellType := gridZ [], steepest := false, distances := fun _ => .nan, ivec := fun _ => .nan, jvec := fun _ => .nan
  iwalk := fun _ => 0, jwalk := fun _ => 0, angles := fun _ => .nan, roi := none, particleVars := [] }⟩

/-- The object built from rational parameters with the stand-in functions. -/
def objOf (p : Params ℚ) : PObj ℚ := match initParticles Arith.exact Fun.toy p with
  | .ok P => P
  | .error _ => default

/-- A 5×5 channel flowing south (increasing row) with a bank, a dry cell and a NaN stage. -/
def chan : Params ℚ where
  dx := some 10
  depth := some (gridOf [
    [some 1, some 1, some 1, some 1, some 1],
    [some 1, some 2, some 3, some 2, some 1],
    [some 1, some 2, some 3, some 2, some 1],
    [some 1, some 0, some 3, some 2, some 1],
    [some 1, some 1, some 1, some 1, some 1]])
  stage := some (gridOf [
    [some 5, some 5, some 5, some 5, some 5],
    [some 5, some 5, some 5, some 5, some 5],
    [some 4, some 4, some 4, some 4, some 4],
    [some 3, some 3, some 3, some 3, some 3],
    [some 3, some 3, some 3, some 3, some 3]])
  deltaRCM := true
  qx := some ⟨5, 5, fun _ _ => .fin 2⟩
  qy := some ⟨5, 5, fun _ _ => .fin 0⟩
  theta := some 1
  gamma := some (1 / 2)

/-- The same channel with tracked variables and a region of interest. -/
def chanVars : Params ℚ := { chan with
  roi := some (gridOf [
    [some 0, some 0, some 0, some 0, some 0],
    [some 0, some 0, some 0, some 0, some 0],
    [some 0, some 1, some 1, some 1, some 0],
    [some 0, some 1, some 1, some 1, some 0],
    [some 0, some 0, some 0, some 0, some 0]])
  particleVars := some ["depth", "u"] }

/-- The channel with user supplied cell types: only the last row is an edge. -/
def chanOpen : Params ℚ := { chan with
  cellType := some (gridZ [
    [0, 0, 0, 0, 0],
    [0, 0, 0, 0, 0],
    [0, 0, 0, 0, 0],
    [0, 0, 0, 0, 0],
    [-1, -1, -1, -1, -1]]) }

theorem gridOf_finOrNan (l : List (List (Option ℚ))) : (gridOf l).FinOrNan := by
  intro i j _ _
  simp only [gridOf]
  cases (l.getD i []).getD j none with
  | none => exact Or.inl rfl
  | some x => exact Or.inr ⟨x, rfl⟩

theorem chan_valid : ValidParams chan where
  depth g hg := by cases hg; exact gridOf_finOrNan _
  stage g hg := by cases hg; exact gridOf_finOrNan _
  topography g hg := by cases hg
  qx g hg := by cases hg; exact fun _ _ _ _ => Or.inr ⟨_, rfl⟩
  qy g hg := by cases hg; exact fun _ _ _ _ => Or.inr ⟨_, rfl⟩
  u g hg := by cases hg
  v g hg := by cases hg
  gamma x hx := by cases hx; norm_num
  dryDepth x hx := by cases hx
  distances t ht := by cases ht
  ivec t ht := by cases ht
  jvec t ht := by cases ht

theorem chanVars_valid : ValidParams chanVars := { chan_valid with }
theorem chanOpen_valid : ValidParams chanOpen := { chan_valid with }

theorem chan_init : initParticles Arith.exact Fun.toy chan = .ok (objOf chan) := rfl
theorem chanVars_init : initParticles Arith.exact Fun.toy chanVars = .ok (objOf chanVars) := rfl
theorem chanOpen_init : initParticles Arith.exact Fun.toy chanOpen = .ok (objOf chanOpen) := rfl

theorem chan_built : Built Arith.exact Fun.toy (objOf chan) := ⟨chan, chan_valid, chan_init⟩
theorem chanVars_built : Built Arith.exact Fun.toy (objOf chanVars) := ⟨chanVars, chanVars_valid, chanVars_init⟩
theorem chanOpen_built : Built Arith.exact Fun.toy (objOf chanOpen) := ⟨chanOpen, chanOpen_valid, chanOpen_init⟩

/-- The open channel with tracked variables and a region of interest. -/
def chanFull : Params ℚ := { chanOpen with roi := chanVars.roi, particleVars := chanVars.particleVars }
theorem chanFull_valid : ValidParams chanFull := { chan_valid with }
theorem chanFull_built : Built Arith.exact Fun.toy (objOf chanFull) := ⟨chanFull, chanFull_valid, rfl⟩

/-- The exception raised, if any. -/
def errOf {α : Type} : Except PyErr α → Option PyErr
  | .error e => some e
  | .ok _ => none

end Dorado
