import Verif.Spec.Plots
import Verif.Spec.Flow
import Verif.Spec.Walk
import Mathlib.Probability.ProductMeasure
import Mathlib.MeasureTheory.Measure.Lebesgue.Basic

/-! # Specification of the law of the walks (C75) -/

namespace Dorado

open MeasureTheory Finset

/-- A stream of independent draws, each uniform on `[0,1)`. -/
noncomputable def uniformDraws : Measure (Nat → ℝ) := Measure.infinitePi fun _ => volume.restrict (Set.Ico 0 1)

open Classical in
/-- Weight with which neighbour `k` takes part in the choice: its routing weight; with steepest descent only the neighbours of largest weight take part,
and the cell itself does not. -/
noncomputable def Flow.candidate (f : Flow ℝ) (steepest : Bool) (a b k : Nat) : ℝ :=
  if steepest = true ∧ (k = 4 ∨ ∃ m, m < 9 ∧ f.weight a b k < f.weight a b m) then 0 else f.weight a b k

open Classical in
/-- Probability that neighbour `k` is chosen: its share of the weights that take part. With steepest descent none takes part if the cell itself is the only
one of largest weight; then neighbour 0 is chosen. -/
noncomputable def Flow.chooseProb (f : Flow ℝ) (steepest : Bool) (a b k : Nat) : ENNReal :=
  if steepest = true ∧ ∀ m, m < 9 → f.candidate steepest a b m = 0 then (if k = 0 then 1 else 0)
  else ENNReal.ofReal (f.candidate steepest a b k / ∑ m ∈ range 9, f.candidate steepest a b m)

open Classical in
/-- Probability that a particle at the cell `p` of the flow field `f` is at `q` after one iteration: next to an edge cell it stays; elsewhere it goes to
the neighbour that is chosen. -/
noncomputable def moveProb (f : Flow ℝ) (P : PObj ℝ) (p q : Int × Int) : ENNReal :=
  if NearEdge P p.1.toNat p.2.toNat then (if q = p then 1 else 0)
  else ∑ k ∈ range 9, if q = (((Flow.nr p.1.toNat k : Nat) : Int), ((Flow.nc p.2.toNat k : Nat) : Int)) then
    f.chooseProb P.steepest p.1.toNat p.2.toNat k else 0

variable {K : Type} [Field K] [LinearOrder K] [FloorRing K]

/-- After `j` calls of `run_iteration()`, for every `j ≤ n`, particle `i` is at `path j i`. -/
def Follows (A : Arith K) (F : Fun K A) (P : PObj K) (ω : Nat → K) (s : PState K) (n : Nat) (path : Nat → Nat → Int × Int) : Prop :=
  ∀ j, j ≤ n → ∃ s' w wd, AfterRuns A F P ω s j s' w ∧ s'.walk = some wd ∧ ∀ i, i < wd.xinds.length → wd.lastPos i = some (path j i)

end Dorado
