import Verif.Spec.Course
import Mathlib.Logic.Relation

/-! # Specification of leaving the domain (C115) -/

namespace Dorado

/-- One iteration takes a particle from `p` to `q` with positive probability. -/
def CanMove (f : Flow ℝ) (P : PObj ℝ) (p q : Int × Int) : Prop := 0 < moveProb f P p q

/-- Wherever a particle that starts at `p` may come, there is a way from there to a cell next to an edge. -/
def Escapes (f : Flow ℝ) (P : PObj ℝ) (p : Int × Int) : Prop :=
  ∀ q, Relation.ReflTransGen (CanMove f P) p q → ∃ e : Int × Int, Relation.ReflTransGen (CanMove f P) q e ∧ NearEdge P e.1.toNat e.2.toNat

/-- After `n` calls of `run_iteration()` particle `i` is in a cell next to an edge. -/
def ArrivedBy (F : Fun ℝ Arith.exact) (P : PObj ℝ) (ω : Nat → ℝ) (s : PState ℝ) (n i : Nat) : Prop :=
  ∃ s' w wd p, AfterRuns Arith.exact F P ω s n s' w ∧ s'.walk = some wd ∧ wd.lastPos i = some p ∧ NearEdge P p.1.toNat p.2.toNat

end Dorado
