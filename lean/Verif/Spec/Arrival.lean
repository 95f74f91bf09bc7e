import Verif.Spec.Leave

/-! # Specification of the time of leaving the domain (C116) -/

namespace Dorado

/-- `τ` is the travel time of particle `i` when repeated calls of `run_iteration()` have brought it next to an edge. -/
def ArrivalTime (F : Fun ℝ Arith.exact) (P : PObj ℝ) (ω : Nat → ℝ) (s : PState ℝ) (i : Nat) (τ : ℝ) : Prop :=
  ∃ n, ArrivedBy F P ω s n i ∧ TimeAfter Arith.exact F P ω s n i τ

end Dorado
