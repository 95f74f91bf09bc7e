import Verif.Spec.Throughflow

/-! # Specification of the effect of theta and gamma (C124) -/

namespace Dorado

/-- After `n` calls of `run_iteration()` the last record of particle `i` is a cell of `D`. -/
def FoundIn (F : Fun ℝ Arith.exact) (P : PObj ℝ) (ω : Nat → ℝ) (s : PState ℝ) (n i : Nat) (D : Set (Int × Int)) : Prop := ∃ c ∈ D, FoundAt F P ω s n i c

/-- The cells where the array `g` is `x` or more. -/
def AtLeast (g : Grid (Fl ℝ)) (x : ℝ) : Set (Int × Int) := {c | ∃ d, g.at' c.1.toNat c.2.toNat = .fin d ∧ x ≤ d}

end Dorado
