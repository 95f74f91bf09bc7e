import Verif.Spec.Common
import Mathlib.Algebra.BigOperators.Ring.Finset

/-! Independent closed-form specification of the routing weights (exact arithmetic). -/

namespace Dorado

open Finset

/-- A flow field in mathematical form: depth, stage (missing where NaN), discharge towards increasing row index (`a`) and
towards increasing column index (`b`), land cells, parameters, and the nine direction tables. -/
structure Flow (K : Type) where
  rows : Nat
  cols : Nat
  depth : Nat → Nat → K
  stage : Nat → Nat → Option K
  a : Nat → Nat → K
  b : Nat → Nat → K
  land : Nat → Nat → Prop
  gamma : K
  dry : K
  /-- depth weighting `x ↦ x ^ theta` -/
  pw : K → K
  dist : Nat → K
  rowVec : Nat → K
  colVec : Nat → K

namespace Flow
variable {K : Type} [Field K] [LinearOrder K] (f : Flow K) (i j : Nat)

/-- Row of neighbour `k` (order NW,N,NE,W,self,E,SW,S,SE). -/
def nr (k : Nat) : Nat := i + k / 3 - 1
/-- Column of neighbour `k`. -/
def nc (k : Nat) : Nat := j + k % 3 - 1

/-- Neighbour `k` is wet and not land. -/
def Passable (k : Nat) : Prop := f.dry < f.depth (nr i k) (nc j k) ∧ ¬ f.land (nr i k) (nc j k)

/-- Slope between two stages over a distance, 0 if uphill or a stage is missing. -/
def drop (e e' : Option K) (d : K) : K :=
  match e, e' with
  | some e, some e' => max 0 ((e - e') / d)
  | _, _ => 0

open Classical in
/-- Water-surface slope towards neighbour `k`, 0 if uphill, impassable or without stage. -/
noncomputable def slope (k : Nat) : K :=
  if f.Passable i j k then drop (f.stage i j) (f.stage (nr i k) (nc j k)) (f.dist k) else 0

open Classical in
/-- Discharge towards neighbour `k`, 0 if against the flow or impassable. -/
noncomputable def inertia (k : Nat) : K :=
  if f.Passable i j k then max 0 ((f.a i j * f.rowVec k + f.b i j * f.colVec k) / f.dist k) else 0

/-- Share of `x k` in the total over the nine cells (0 if the total is 0). -/
def share (x : Nat → K) (k : Nat) : K := x k / ∑ m ∈ range 9, x m

open Classical in
/-- Flow-derived weight of neighbour `k`. -/
noncomputable def flow (k : Nat) : K :=
  if f.Passable i j k ∧ (f.stage i j).isSome ∧ (f.stage (nr i k) (nc j k)).isSome then
    f.pw (f.depth (nr i k) (nc j k)) *
      (f.gamma * share (f.slope i j) k + (1 - f.gamma) * share (f.inertia i j) k)
  else 0

/-- No neighbour has a flow-derived weight. -/
def DeadEnd : Prop := ∀ k, k < 9 → f.flow i j k = 0

/-- `k` is one of the deepest cells of the window. -/
def Deepest (k : Nat) : Prop := ∀ m, m < 9 → f.depth (nr i m) (nc j m) ≤ f.depth (nr i k) (nc j k)

open Classical in
/-- The routing weight: flow-derived, or 1 at the deepest cells of a dead end. -/
noncomputable def weight (k : Nat) : K :=
  if f.DeadEnd i j then (if f.Deepest i j k then 1 else 0) else f.flow i j k

end Flow

/-- The arrays of `P` are those of the flow field `f`. -/
structure Represents {K : Type} [Field K] [LinearOrder K] {A : Arith K} (F : Fun K A) (P : PObj K) (f : Flow K) : Prop where
  rows : P.depth.rows = f.rows
  cols : P.depth.cols = f.cols
  depth : ∀ i j, i < f.rows → j < f.cols → P.depth.at' i j = .fin (f.depth i j)
  stage : ∀ i j, i < f.rows → j < f.cols → P.stage.at' i j = (match f.stage i j with | some e => .fin e | none => .nan)
  a : ∀ i j, i < f.rows → j < f.cols → P.qx.at' i j = .fin (f.a i j)
  b : ∀ i j, i < f.rows → j < f.cols → P.qy.at' i j = .fin (f.b i j)
  land : ∀ i j, i < f.rows → j < f.cols → (P.cellType.at' i j = 2 ↔ f.land i j)
  gamma : P.gamma = f.gamma
  dry : P.dryDepth = f.dry
  pw : ∀ x, 0 < x → F.pow (.fin x) P.theta = .fin (f.pw x)
  dist : ∀ k, k < 9 → P.distances k = .fin (f.dist k)
  rowVec : ∀ k, k < 9 → P.jvec k = .fin (f.rowVec k)
  colVec : ∀ k, k < 9 → P.ivec k = .fin (f.colVec k)

/-- The number in a finite value, 0 otherwise. -/
def Fl.num {K : Type} [Zero K] : Fl K → K
  | .fin x => x
  | _ => 0

/-- The number in a finite value, if any. -/
def Fl.num? {K : Type} : Fl K → Option K
  | .fin x => some x
  | _ => none

/-- The flow field of an object. -/
def flowOf {K : Type} [Field K] [LinearOrder K] {A : Arith K} (F : Fun K A) (P : PObj K) : Flow K where
  rows := P.depth.rows
  cols := P.depth.cols
  depth i j := (P.depth.at' i j).num
  stage i j := (P.stage.at' i j).num?
  a i j := (P.qx.at' i j).num
  b i j := (P.qy.at' i j).num
  land i j := P.cellType.at' i j = 2
  gamma := P.gamma
  dry := P.dryDepth
  pw x := (F.pow (.fin x) P.theta).num
  dist k := (P.distances k).num
  rowVec k := (P.jvec k).num
  colVec k := (P.ivec k).num

end Dorado
