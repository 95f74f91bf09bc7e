import Verif.Spec.Ensemble
import Verif.Spec.Walk

/-! # Specification of C112: a model run on part of the domain -/

namespace Dorado

variable {K : Type} [Field K] [LinearOrder K]

/-- All arrays given have `R` rows and `C` columns. -/
structure Params.Shape (R C : Nat) (p : Params K) : Prop where
  depth : ∀ g, p.depth = some g → g.rows = R ∧ g.cols = C
  stage : ∀ g, p.stage = some g → g.rows = R ∧ g.cols = C
  topography : ∀ g, p.topography = some g → g.rows = R ∧ g.cols = C
  qx : ∀ g, p.qx = some g → g.rows = R ∧ g.cols = C
  qy : ∀ g, p.qy = some g → g.rows = R ∧ g.cols = C
  u : ∀ g, p.u = some g → g.rows = R ∧ g.cols = C
  v : ∀ g, p.v = some g → g.rows = R ∧ g.cols = C

/-- The part of an array with `R` rows and `C` columns that begins at row `r` and column `c`. -/
def Grid.cut {α : Type} (r c R C : Nat) (g : Grid α) : Grid α := ⟨R, C, fun i j => g.at' (i + r) (j + c)⟩

/-- The part of an array of cell types, its outer ring turned into edge (-1). -/
def Grid.cutRing (r c R C : Nat) (g : Grid Int) : Grid Int :=
  ⟨R, C, fun i j => if i = 0 ∨ j = 0 ∨ i + 1 = R ∨ j + 1 = C then -1 else g.at' (i + r) (j + c)⟩

/-- The inputs of the constructor for part of the domain: all arrays are cut, given cell types get an outer ring of edge cells (as estimated ones do). -/
def Params.crop (r c R C : Nat) (p : Params K) : Params K :=
  let m : Option (Grid (Fl K)) → Option (Grid (Fl K)) := Option.map (Grid.cut r c R C)
  { p with
    depth := m p.depth, stage := m p.stage, topography := m p.topography, qx := m p.qx, qy := m p.qy, u := m p.u, v := m p.v
    cellType := p.cellType.map (Grid.cutRing r c R C), roi := m p.roi }

/-- Interior cells of a grid of `R` rows and `C` columns that are not next to its outer ring. -/
def Deep (R C : Nat) (p : Int × Int) : Prop := 2 ≤ p.1 ∧ p.1 + 2 < R ∧ 2 ≤ p.2 ∧ p.2 + 2 < C

instance (R C : Nat) (p : Int × Int) : Decidable (Deep R C p) := by unfold Deep; infer_instance

/-- Cells from which it takes more than `n` moves to come next to the outer ring. -/
def Far (n R C : Nat) (p : Int × Int) : Prop := 2 + (n : Int) ≤ p.1 ∧ p.1 + 2 + n < R ∧ 2 + (n : Int) ≤ p.2 ∧ p.2 + 2 + n < C

/-- The number of moves a call of `run_iteration` makes at most: one without a target time, otherwise limited by `max_iter`. -/
def maxMoves : Option (Fl K) × Int → Nat
  | (none, _) => 1
  | (some _, maxIter) => maxIter.toNat + 1

/-- A cell of the domain in the coordinates of the part that begins at row `r` and column `c`. -/
def offset (r c : Nat) (p : Int × Int) : Int × Int := (p.1 - r, p.2 - c)

/-- A history in the coordinates of the part. -/
def History.offset (r c : Nat) (h : History K) : History K := fun n => ((h n).1.map (· - (r : Int)), (h n).2.1.map (· - (c : Int)), (h n).2.2)

/-- All records before the `n`-th are at cells `p` with `S p`. -/
def History.staysIn (S : Int × Int → Prop) (h : History K) (n : Nat) : Prop := ∀ m < n, ∀ x y, (h m).1 = some x → (h m).2.1 = some y → S (x, y)

open Classical in
/-- A history up to and including the first record at a cell outside `S`. -/
noncomputable def History.upTo (S : Int × Int → Prop) (h : History K) : History K := fun n => if h.staysIn S n then h n else (none, none, none)

/-- The same records of positions and times in the coordinates of the part. -/
structure WalkData.SameRecords (r c : Nat) (wd wd' : WalkData K) : Prop where
  xinds : wd'.xinds = wd.xinds.map fun l => l.map (· - (r : Int))
  yinds : wd'.yinds = wd.yinds.map fun l => l.map (· - (c : Int))
  times : wd'.times = wd.times

end Dorado
