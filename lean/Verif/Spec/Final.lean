import Verif.Spec.Leave
import Verif.Spec.Course

/-! # Specification of final exposure times (C117) -/

namespace Dorado

/-- Random seeding and `n` calls of `run_iteration()`: particle `i` is in a cell next to an edge. -/
def SeededArrived (F : Fun ℝ Arith.exact) (P : PObj ℝ) (ω : Nat → ℝ) (s : PState ℝ) (N : Nat) (xs ys : List Int) (t : ℝ) (n i : Nat) : Prop :=
  ∃ s1, generateParticles Arith.exact P ω s (.int N) (ints xs) (ints ys) (.flt (.fin t)) (.str "random") none = .ok s1 ∧ ArrivedBy F P ω s1 n i

/-- Random seeding, then `n` or any larger number of calls of `run_iteration()`: `exposure_time` for the region `g` always returns `E`. -/
def SettledExposure (F : Fun ℝ Arith.exact) (P : PObj ℝ) (ω : Nat → ℝ) (s : PState ℝ) (N : Nat) (xs ys : List Int) (t : ℝ) (n : Nat) (g : Grid Int)
    (E : Fin N → ℝ) : Prop :=
  ∀ m, n ≤ m → SeededExposure F P ω s N xs ys t m g E

end Dorado
