import Verif.Spec.Arrival
import Verif.Spec.Final

/-! # Specification of routing equations (C121) -/

namespace Dorado

open Finset

/-- Neighbour `k` of the cell `p`. -/
def neighbour (p : Int × Int) (k : Nat) : Int × Int := (((Flow.nr p.1.toNat k : Nat) : Int), ((Flow.nc p.2.toNat k : Nat) : Int))

/-- A linear equation for every interior cell from which particles get out: next to an edge the value of `V` is given by `rim`; elsewhere it is the mean, over
the neighbours with the probabilities of choosing them, of the value there and the gain of the step. -/
structure Balances (F : Fun ℝ Arith.exact) (P : PObj ℝ) (R C : Nat) (rim : Int × Int → ℝ) (gain : Int × Int → Int × Int → ℝ) (V : Int × Int → ℝ) : Prop where
  edge : ∀ p, Inside R C p → Escapes (flowOf F P) P p → NearEdge P p.1.toNat p.2.toNat → V p = rim p
  step : ∀ p, Inside R C p → Escapes (flowOf F P) P p → ¬ NearEdge P p.1.toNat p.2.toNat →
    V p = ∑ k ∈ range 9, ((flowOf F P).chooseProb P.steepest p.1.toNat p.2.toNat k).toReal * (gain p (neighbour p k) + V (neighbour p k))

/-- After some number of calls of `run_iteration()` particle `i` is in a cell of `O` next to an edge. -/
def LeavesBy (F : Fun ℝ Arith.exact) (P : PObj ℝ) (ω : Nat → ℝ) (s : PState ℝ) (i : Nat) (O : Set (Int × Int)) : Prop :=
  ∃ n s' w wd e, AfterRuns Arith.exact F P ω s n s' w ∧ s'.walk = some wd ∧ wd.lastPos i = some e ∧ NearEdge P e.1.toNat e.2.toNat ∧ e ∈ O

end Dorado
