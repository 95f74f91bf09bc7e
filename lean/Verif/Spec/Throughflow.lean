import Verif.Spec.Outlet
import Verif.Spec.Law

/-! # Specification of the balance of particles (C123) -/

namespace Dorado

open Finset MeasureTheory

/-- After `n` calls of `run_iteration()` the last record of particle `i` is the cell `c`. -/
def FoundAt (F : Fun ℝ Arith.exact) (P : PObj ℝ) (ω : Nat → ℝ) (s : PState ℝ) (n i : Nat) (c : Int × Int) : Prop :=
  ∃ s' w wd, AfterRuns Arith.exact F P ω s n s' w ∧ s'.walk = some wd ∧ wd.lastPos i = some c

open Classical in
/-- How many of the first `N` particles are in the cell `c` after `n` calls of `run_iteration()`. -/
noncomputable def countAt (F : Fun ℝ Arith.exact) (P : PObj ℝ) (ω : Nat → ℝ) (s : PState ℝ) (N n : Nat) (c : Int × Int) : ℝ :=
  ((range N).filter fun i => FoundAt F P ω s n i c).card

/-- The expected number, over uniform draws. -/
noncomputable def meanAt (F : Fun ℝ Arith.exact) (P : PObj ℝ) (s : PState ℝ) (N n : Nat) (c : Int × Int) : ℝ :=
  ∫ ω, countAt F P ω s N n c ∂uniformDraws

/-- Sum over all cells of a grid. -/
def gridSum (R C : Nat) (f : Int × Int → ℝ) : ℝ := ∑ a ∈ range R, ∑ b ∈ range C, f ((a : Int), (b : Int))

open Classical in
/-- What comes into the cell `c` if every cell `q` that is not next to an edge hands out `u q` to its neighbours, with the probabilities of choosing them. -/
noncomputable def inflow (F : Fun ℝ Arith.exact) (P : PObj ℝ) (R C : Nat) (u : Int × Int → ℝ) (c : Int × Int) : ℝ :=
  gridSum R C fun q => if NearEdge P q.1.toNat q.2.toNat then 0 else
    ∑ k ∈ range 9, if neighbour q k = c then u q * ((flowOf F P).chooseProb P.steepest q.1.toNat q.2.toNat k).toReal else 0

end Dorado
